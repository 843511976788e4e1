import Verif.Model.Radial

/-!
# Maps with the missing values replaced
-/

namespace Magpie.Spec

/-- Replace missing values by 0. -/
noncomputable def filled (a : Radial.Arr2 (Option ℝ)) : Radial.Arr2 ℝ :=
  ⟨a.rows, a.cols, fun i j => (a.val i j).getD 0⟩

end Magpie.Spec
