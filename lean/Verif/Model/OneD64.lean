import Verif.Model.OneD
import Verif.Model.Means64

/-!
# `rebin_1d` of `/repo/magpie/one_d/one_d.py` in binary64

The functions of `Verif/Model/OneD.lean` again, each arithmetic operation rounded. Comparisons of doubles are exact,
so the selection of edges (`condition`, `condition1`, `startIndex`) is that of the exact model. `np.sum` adds in an
order that depends on the number of entries; `ord m` is the order for `m` entries, any binary tree of additions.
Overflow is not modelled (see `Verif/Model/Float64.lean`).
-/

namespace Magpie.OneD64
open Magpie.OneD Magpie.Means64

/-- `(a - b)/(c - d)` (one_d.py:82, 83, 104, 107). -/
noncomputable def ratio64 (a b c d : ℝ) : Option ℝ :=
  if F64.sub c d = 0 then none else some (F64.div (F64.sub a b) (F64.sub c d))

/-- `np.sum(w*data[index])/np.sum(w)` for the selected data `ds` (one_d.py:108); an entry of `w` that is not finite
makes the result not finite. -/
noncomputable def mean64 (t : SumTree) (w : List (Option ℝ)) (ds : List ℝ) : Option ℝ :=
  match w.mapM id with
  | none => none
  | some w =>
    let d := t.sum fun i => w.getD i 0
    if d = 0 then none else some (F64.div (t.sum fun i => F64.mul (w.getD i 0) (ds.getD i 0)) d)

/-- The weights of the general case (one_d.py:94-107): `index` and `w`. -/
noncomputable def generalWeights64 (edges : List ℝ) (binMin binMax : ℝ) (cond : List ℕ) :
    Py (List ℤ × List (Option ℝ)) := do
  let (index, w) := startIndex edges cond
  let c0 := cond.headD 0
  let last := cond.getLastD 0
  let w ← (if c0 ≠ 0 then do
      let e ← getZ edges c0
      let e' ← getZ edges (c0 - 1)
      pure (w.set 0 (ratio64 e binMin e e'))
    else pure w)
  let w ← (if last ≠ edges.length - 1 then do
      let e ← getZ edges last
      let e' ← getZ edges (last - 1)
      pure (w.set (w.length - 1) (ratio64 binMax e e e'))
    else pure w)
  return (index, w)

/-- `_rebin_1d_single_bin` (one_d.py:72-108). -/
noncomputable def rebinSingleBin64 (ord : ℕ → SumTree) (edges data : List ℝ) (binMin binMax : ℝ) : Py (Option ℝ) :=
  match condition edges binMin binMax with
  | [] =>
    match condition1 edges binMin with
    | [] => .ok none
    | c :: cs =>
      if (c :: cs).length ≠ edges.length then do
        let d ← getZ data ((c : ℤ) - 1)
        return some d
      else .ok none
  | [c] =>
    if 0 < c ∧ c < edges.length - 1 then do
      let e ← getZ edges c
      let em ← getZ edges ((c : ℤ) - 1)
      let ep ← getZ edges ((c : ℤ) + 1)
      let dm ← getZ data ((c : ℤ) - 1)
      let d ← getZ data c
      let w1 := ratio64 e binMin e em
      let w2 := ratio64 binMax e ep e
      -- `(w1*dm + w2*d)/(w1 + w2)`
      return mean64 (.node (.leaf 0) (.leaf 1)) [w1, w2] [dm, d]
    else if c = 0 then do
      let d ← getZ data 0
      return some d
    else do
      let d ← getZ data (-1)
      return some d
  | c :: c' :: cs => do
    let (index, w) ← generalWeights64 edges binMin binMax (c :: c' :: cs)
    let ds ← gatherZ data index
    return mean64 (ord w.length) w ds

/-- `x / y` for floats. -/
noncomputable def odiv64 (x y : Option ℝ) : Option ℝ :=
  match x, y with
  | some a, some b => if b = 0 then none else some (F64.div a b)
  | _, _ => none

/-- `rebin_1d` without `sigma` (one_d.py:215-227, 235-236). -/
noncomputable def rebin1d64 (ord : ℕ → SumTree) (edges data newEdges : List ℝ) (w : Option (List ℝ)) :
    Py (List (Option ℝ)) := do
  pyAssert ((edges.length : ℤ) - 1 = data.length)
  pyAssert (isPosMonotonic edges = true)
  pyAssert (isPosMonotonic newEdges = true)
  match w with
  | none => pyMap (fun b => rebinSingleBin64 ord edges data b.1 b.2) (newBins newEdges)
  | some w => do
    pyAssert (data.length = w.length)
    let num ← pyMap (fun b => rebinSingleBin64 ord edges (List.zipWith F64.mul data w) b.1 b.2)
      (newBins newEdges)
    let den ← pyMap (fun b => rebinSingleBin64 ord edges w b.1 b.2) (newBins newEdges)
    return List.zipWith odiv64 num den

end Magpie.OneD64
