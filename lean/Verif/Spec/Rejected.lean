import Verif.Model.Heal2Polar

/-!
# Rejection of arguments
-/

namespace Magpie.Spec
open Magpie

/-- A method with arguments for which `P` says that they are valid: if they are not, it raises
`AssertionError`, on every object, and leaves the object as it was; if they are, it does not raise
`AssertionError`. -/
structure Guarded {S α : Type} (m : Meth S α) (P : Prop) : Prop where
  rejects : ¬ P → ∀ s, m s = (.error .assertionError, s)
  accepts : P → ∀ s, (m s).1 ≠ .error .assertionError

/-- A method that raises leaves the object as it was. -/
def Atomic {S α : Type} (m : Meth S α) : Prop := ∀ s e, (m s).1 = .error e → (m s).2 = s

/-- The ranges of the arguments of `setup_box` of `Heal2Polar` that are documented. -/
structure SkyBoxOk (A : HealPolar.BoxArgs) : Prop where
  xLength : 0 ≤ A.xLength ∧ A.xLength ≤ 2*Real.pi
  xGrid : 0 < A.xGrid
  yLength : ∀ l, A.yLength = some l → 0 ≤ l ∧ l ≤ Real.pi
  yGrid : ∀ n, A.yGrid = some n → 0 < n
  center : A.center.length = 2

end Magpie.Spec
