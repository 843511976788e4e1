import Verif.Model.DgCube2Shell

/-!
# Words used by property C132: remapping is linear in the data

A float that is NaN or infinite is `none`.
-/

namespace Magpie.Spec
open Magpie Magpie.Radial

/-- `a*x + b*y` of floats. -/
def lin (a b : ℝ) : Option ℝ → Option ℝ → Option ℝ
  | some x, some y => some (a*x + b*y)
  | _, _ => none

/-- The array `a*f + b*g`. -/
def combine (a b : ℝ) (f g : Arr2 (Option ℝ)) : Arr2 (Option ℝ) :=
  ⟨f.rows, f.cols, fun i j => lin a b (f.val i j) (g.val i j)⟩

/-- The array `a*f + b*g` in three dimensions. -/
def combine3 (a b : ℝ) (f g : Arr3 (Option ℝ)) : Arr3 (Option ℝ) :=
  ⟨f.n0, f.n1, f.n2, fun i j k => lin a b (f.val i j k) (g.val i j k)⟩

/-- Every entry is a finite number of magnitude below `10^30`, so that healpy does not take it for a missing value. -/
def Usual (f : Arr3 (Option ℝ)) : Prop := ∀ i j k, ∃ v, f.val i j k = some v ∧ |v| < 10^30

/-- Every pixel of the shells of the object has subpixels in the fine map. -/
def Nested (hp : DgCube.Hp) (s : DgCube.State) : Prop :=
  ∀ sh, s.shell = some sh → ∀ p, p < 12*sh.nside.toNat^2 → hp.children (sh.nside*sh.rebinShell) sh.nside p ≠ [] ∧
    ∀ q ∈ hp.children (sh.nside*sh.rebinShell) sh.nside p, q < 12*(sh.nside*sh.rebinShell).toNat^2

/-- Three calls: all raise the same exception, or return arrays of the same shape that are related entry by entry. -/
def ThreeCalls (R : Option ℝ → Option ℝ → Option ℝ → Prop) (x y z : Py (Arr2 (Option ℝ))) : Prop :=
  match x, y, z with
  | .ok p, .ok q, .ok r => (q.rows = p.rows ∧ q.cols = p.cols ∧ r.rows = p.rows ∧ r.cols = p.cols) ∧
      ∀ i j, i < p.rows → j < p.cols → R (p.val i j) (q.val i j) (r.val i j)
  | .error e, .error e', .error e'' => e = e' ∧ e = e''
  | _, _, _ => False

end Magpie.Spec
