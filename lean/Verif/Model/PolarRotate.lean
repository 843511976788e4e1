import Verif.Np
import Mathlib.Analysis.Real.Pi.Bounds
import Mathlib.Algebra.Module.Defs

/-!
# Model of `/repo/magpie/coords/polar.py`
-/

namespace Magpie.Polar

/-- Start or stop of a Python slice for a list of length `n`: negative values count from the
end, values outside are clipped. -/
def sliceBound (n : ℕ) (i : ℤ) : ℕ := if i < 0 then ((n : ℤ) + i).toNat else min i.toNat n

variable {V : Type}

/-- `l[:i]`. -/
def sliceTo (l : List V) (i : ℤ) : List V := l.take (sliceBound l.length i)

/-- `l[i:]`. -/
def sliceFrom (l : List V) (i : ℤ) : List V := l.drop (sliceBound l.length i)

/-- `dst[:i] = vals` (NumPy would also broadcast a single row; every use here has equal
lengths, so this does not occur). -/
def assignTo (dst : List V) (i : ℤ) (vals : List V) : Py (List V) :=
  if vals.length = (sliceTo dst i).length then .ok (vals ++ sliceFrom dst i)
  else .error .valueError

/-- `dst[i:] = vals`. -/
def assignFrom (dst : List V) (i : ℤ) (vals : List V) : Py (List V) :=
  if vals.length = (sliceFrom dst i).length then .ok (sliceTo dst i ++ vals)
  else .error .valueError

/-- `l[-1]`. -/
def pyLast (l : List V) : Py V := match l.getLast? with
  | none => .error .indexError
  | some v => .ok v

/-- `l[i]` for a non-negative literal index. -/
def pyGet (l : List V) (i : ℕ) : Py V := match l[i]? with
  | none => .error .indexError
  | some v => .ok v

/-- `rotate_polar` (polar.py:19-26) for a float `rotate`, as documented.  `rot_phi` is bound to the
float `rotate` (line 21; `phi` is never used), and line 23 indexes it, which no float supports.
Recent NumPy versions already raise on line 22 (`np.where` of a scalar); either way the call
raises. -/
noncomputable def rotatePolar (_phi : List ℝ) (rotate : ℝ) : Py (List ℝ) := do
  pyAssert (rotate > 0 ∧ rotate < 2*Real.pi)
  .error .typeError

variable [AddCommGroup V] [Module ℝ V]

/-- Returned grid, and final content of the `f_polar` array of the caller. -/
structure RotGrid (V : Type) where
  result : List V
  caller : List V

/-- `rotate_polar_grid` (polar.py:47-64).  The rows of the grid are elements of a real vector
space `V` (only elementwise sums and multiples are formed).  When `ind_shift = 0`,
`f_polar_rot` *is* the caller's array (line 57) and the later assignments change it.
`phi_shift/dp` with `dp = 0` is infinite and `int` raises (OverflowError, represented by
`valueError`). -/
noncomputable def rotatePolarGrid (pedges : List ℝ) (f : List V) (phiShift : ℝ) :
    Py (RotGrid V) := do
  pyAssert (phiShift > 0)
  pyAssert (phiShift < 2*Real.pi)
  let p1 ← pyGet pedges 1
  let p0 ← pyGet pedges 0
  let dp := p1 - p0
  if dp = 0 then .error .valueError
  else
    let indShift : ℤ := ⌊phiShift/dp⌋
    let w := phiShift/dp - indShift
    let rot ← (if indShift ≠ 0 then do
        let rot := List.replicate f.length (0 : V)
        let rot ← assignFrom rot (-indShift) (sliceTo f indShift)
        let rot ← assignTo rot (-indShift) (sliceFrom f indShift)
        pure rot
      else pure f)
    let rot ← assignTo rot (-1)
      (List.zipWith (fun a b => w • a + (1 - w) • b) (sliceTo rot (-1)) (sliceFrom rot 1))
    let pl ← pyLast pedges
    let last ← pyLast rot
    let first ← pyGet rot 0
    let rot ← (if pl - p0 = 2*Real.pi then
        pure (rot.set (rot.length - 1) (w • last + (1 - w) • first))
      else pure (rot.set (rot.length - 1) (w • last)))
    return ⟨rot, if indShift ≠ 0 then f else rot⟩

end Magpie.Polar
