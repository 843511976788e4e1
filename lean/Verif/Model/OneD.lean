import Verif.Np

/-!
# Model of `/repo/magpie/one_d/one_d.py` and `/repo/magpie/utils/check.py`

A float that is NaN or infinite is `none`; sums, products and quotients with such an operand are
again `none` (a quotient of two infinities, the only case that occurs, is NaN).
-/

namespace Magpie.OneD

/-- `is_pos_monotonic` (utils/check.py:11). -/
def isPosMonotonic {K : Type} [LinearOrder K] (arr : List K) : Bool :=
  (List.range (arr.length - 1)).all fun i =>
    match arr[i]?, arr[i+1]? with
    | some a, some b => decide (a ≤ b)
    | _, _ => false

/-- `l[i]` with Python's negative indices; `IndexError` outside. -/
def getZ {α : Type} (l : List α) (i : ℤ) : Py α :=
  match (if 0 ≤ i then l[i.toNat]? else if 0 ≤ i + l.length then l[(i + l.length).toNat]? else none) with
  | some a => .ok a
  | none => .error .indexError

/-- `l[index]` for an array of (possibly negative) indices. -/
def gatherZ {α : Type} (l : List α) : List ℤ → Py (List α)
  | [] => .ok []
  | i :: is => do
    let a ← getZ l i
    let r ← gatherZ l is
    return a :: r

variable {K : Type} [Field K] [LinearOrder K]

/-- `np.where((bin_edges >= bin_min) & (bin_edges <= bin_max))[0]` (one_d.py:19, 72, 125). -/
def condition (edges : List K) (binMin binMax : K) : List ℕ :=
  whereIdx (fun e => decide (e ≥ binMin) && decide (e ≤ binMax)) edges

/-- `np.where((bin_edges >= bin_min))[0]` (one_d.py:21, 74, 128). -/
def condition1 (edges : List K) (binMin : K) : List ℕ :=
  whereIdx (fun e => decide (e ≥ binMin)) edges

/-- `np.sum` of an array of floats. -/
def npSum (l : List (Option K)) : Option K := (l.mapM id).map List.sum

/-- `x * y` for floats. -/
def omul (x : Option K) (y : K) : Option K := x.map (· * y)

/-- `x / y` for floats. -/
def odiv (x y : Option K) : Option K :=
  match x, y with
  | some a, some b => fdiv a b
  | _, _ => none

/-- The first lines of the general case (one_d.py:40-47, 94-101, 170-177): `index` and `w = 1` before
the first and last weight are altered. `cond` has at least two entries. -/
def startIndex (edges : List K) (cond : List ℕ) : List ℤ × List (Option K) :=
  let w : List (Option K) := List.replicate (cond.length + 1) (some 1)
  let last := cond.getLastD 0
  let index := (cond.map fun (c : ℕ) => (c : ℤ) - 1) ++ [(last : ℤ)]
  if last = edges.length - 1 then (index.dropLast, w.dropLast)
  else if cond.headD 0 = 0 then (index.tail, w.tail)
  else (index, w)

/-- The weights of the general case (one_d.py:40-53 and 94-107): `index` and `w`. The edges are
only read at valid positions. -/
def generalWeights (edges : List K) (binMin binMax : K) (cond : List ℕ) :
    Py (List ℤ × List (Option K)) := do
  let (index, w) := startIndex edges cond
  let c0 := cond.headD 0
  let last := cond.getLastD 0
  let w ← (if c0 ≠ 0 then do
      let e ← getZ edges c0
      let e' ← getZ edges (c0 - 1)
      pure (w.set 0 (fdiv (e - binMin) (e - e')))
    else pure w)
  let w ← (if last ≠ edges.length - 1 then do
      let e ← getZ edges last
      let e' ← getZ edges (last - 1)
      pure (w.set (w.length - 1) (fdiv (binMax - e) (e - e')))
    else pure w)
  return (index, w)

/-- `_rebin_1d_single_bin` (one_d.py:72-108). -/
def rebinSingleBin (edges data : List K) (binMin binMax : K) : Py (Option K) :=
  match condition edges binMin binMax with
  | [] =>
    match condition1 edges binMin with
    | [] => .ok none
    | c :: cs =>
      if (c :: cs).length ≠ edges.length then do
        let d ← getZ data ((c : ℤ) - 1)
        return some d
      else .ok none
  | [c] =>
    if 0 < c ∧ c < edges.length - 1 then do
      let e ← getZ edges c
      let em ← getZ edges ((c : ℤ) - 1)
      let ep ← getZ edges ((c : ℤ) + 1)
      let dm ← getZ data ((c : ℤ) - 1)
      let d ← getZ data c
      let w1 := fdiv (e - binMin) (e - em)
      let w2 := fdiv (binMax - e) (ep - e)
      return odiv (npSum [omul w1 dm, omul w2 d]) (npSum [w1, w2])
    else if c = 0 then do
      let d ← getZ data 0
      return some d
    else do
      let d ← getZ data (-1)
      return some d
  | c :: c' :: cs => do
    let (index, w) ← generalWeights edges binMin binMax (c :: c' :: cs)
    let ds ← gatherZ data index
    return odiv (npSum (List.zipWith omul w ds)) (npSum w)

/-- `weights[index] = w` with Python indices, values stored one after the other. -/
def scatterZ {α : Type} (dst : List α) : List ℤ → List α → Py (List α)
  | [], [] => .ok dst
  | i :: is, v :: vs =>
    if 0 ≤ i ∧ i < dst.length then scatterZ (dst.set i.toNat v) is vs
    else if i < 0 ∧ 0 ≤ i + dst.length then scatterZ (dst.set (i + dst.length).toNat v) is vs
    else .error .indexError
  | _, _ => .error .valueError

/-- `rebin_1d_single_bin_weights` (one_d.py:18-55); the outer `none` is the single NaN returned
when no bin is found. -/
def singleBinWeights (edges : List K) (binMin binMax : K) : Py (Option (List (Option K))) :=
  let weights : List (Option K) := List.replicate (edges.length - 1) (some 0)
  match condition edges binMin binMax with
  | [] =>
    match condition1 edges binMin with
    | [] => .ok none
    | c :: cs =>
      if (c :: cs).length ≠ edges.length then do
        let r ← scatterZ weights [(c : ℤ) - 1] [some 1]
        return some r
      else .ok none
  | [c] =>
    if 0 < c ∧ c < edges.length - 1 then do
      let e ← getZ edges c
      let em ← getZ edges ((c : ℤ) - 1)
      let ep ← getZ edges ((c : ℤ) + 1)
      let r ← scatterZ weights [(c : ℤ)] [fdiv (e - binMin) (e - em)]
      let r ← scatterZ r [(c : ℤ) + 1] [fdiv (binMax - e) (ep - e)]
      return some r
    else do
      -- both remaining branches (lines 34-37) store at `condition[0]`
      let r ← scatterZ weights [(c : ℤ)] [some 1]
      return some r
  | c :: c' :: cs => do
    let (index, w) ← generalWeights edges binMin binMax (c :: c' :: cs)
    let r ← scatterZ weights index w
    return some r

/-- Consecutive pairs `(new_bin_edges[i], new_bin_edges[i+1])`. -/
def newBins (newEdges : List K) : List (K × K) := newEdges.zip newEdges.tail

/-- A list comprehension whose body may raise. -/
def pyMap {α β : Type} (f : α → Py β) : List α → Py (List β)
  | [] => .ok []
  | a :: l => do
    let b ← f a
    let r ← pyMap f l
    return b :: r

/-- `rebin_1d` without `sigma` (one_d.py:215-227, 235-236). -/
def rebin1d (edges data newEdges : List K) (w : Option (List K)) : Py (List (Option K)) := do
  pyAssert ((edges.length : ℤ) - 1 = data.length)
  pyAssert (isPosMonotonic edges = true)
  pyAssert (isPosMonotonic newEdges = true)
  match w with
  | none => pyMap (fun b => rebinSingleBin edges data b.1 b.2) (newBins newEdges)
  | some w => do
    pyAssert (data.length = w.length)
    let num ← pyMap (fun b => rebinSingleBin edges (List.zipWith (· * ·) data w) b.1 b.2)
      (newBins newEdges)
    let den ← pyMap (fun b => rebinSingleBin edges w b.1 b.2) (newBins newEdges)
    return List.zipWith odiv num den

/-- `lengths = bin_edges[1:] - bin_edges[:-1]` (one_d.py:126). -/
def lengths (edges : List K) : List K := List.zipWith (fun a b => b - a) edges edges.tail

/-- Square root of a float; NaN for negative and for non-finite arguments. -/
noncomputable def osqrt (x : Option ℝ) : Option ℝ := x.bind npSqrt

/-- `_rebin_1d_single_bin_sigma` (one_d.py:125-195). -/
noncomputable def rebinSingleBinSigma (edges sigma : List ℝ) (binMin binMax : ℝ) :
    Py (Option ℝ) :=
  let lens := lengths edges
  match condition edges binMin binMax with
  | [] =>
    match condition1 edges binMin with
    | [] => .ok none
    | c :: cs =>
      if (c :: cs).length ≠ edges.length then do
        let s ← getZ sigma ((c : ℤ) - 1)
        let l ← getZ lens ((c : ℤ) - 1)
        return osqrt ((fdiv l (binMax - binMin)).map (s^2 * ·))
      else .ok none
  | [c] =>
    if 0 < c ∧ c < edges.length - 1 then do
      let e ← getZ edges c
      let em ← getZ edges ((c : ℤ) - 1)
      let ep ← getZ edges ((c : ℤ) + 1)
      let w1 := fdiv (e - binMin) (e - em)
      let w2 := fdiv (binMax - e) (ep - e)
      let l1 := e - binMin
      let l2 := binMax - e
      let sm ← getZ sigma ((c : ℤ) - 1)
      let s ← getZ sigma c
      let lm ← getZ lens ((c : ℤ) - 1)
      let l ← getZ lens c
      let t1 := if l1 ≠ 0 then w1.map fun w => (lm/l1)*(w*sm)^2 else some 0
      let t2 := if l2 ≠ 0 then w2.map fun w => (l/l2)*(w*s)^2 else some 0
      return osqrt (odiv (npSum [t1, t2]) ((npSum [w1, w2]).map (·^2)))
    else if c = 0 then do
      let e0 ← getZ edges 0
      let s ← getZ sigma 0
      let l ← getZ lens 0
      return osqrt ((fdiv l (binMax - e0)).map (s^2 * ·))
    else do
      let e1 ← getZ edges (-1)
      let s ← getZ sigma (-1)
      let l ← getZ lens (-1)
      return osqrt ((fdiv l (e1 - binMin)).map (s^2 * ·))
  | c :: c' :: cs => do
    let (index, w) := startIndex edges (c :: c' :: cs)
    let length ← gatherZ lens index
    let i0 := index.headD 0
    let (w, length) ← (if i0 ≠ 0 then do
        let e ← getZ edges i0
        let e' ← getZ edges (i0 - 1)
        pure (w.set 0 (fdiv (e - binMin) (e - e')), length.set 0 (e - binMin))
      else pure (w, length))
    let il := index.getLastD 0
    let (w, length) ← (if il ≠ (edges.length : ℤ) - 1 then do
        let e ← getZ edges il
        let e' ← getZ edges (il - 1)
        pure (w.set (w.length - 1) (fdiv (binMax - e) (e - e')),
          length.set (length.length - 1) (binMax - e))
      else pure (w, length))
    -- `condition2 = np.where(length > 0.)[0]` and the three selections after it
    let kept := (index.zip (w.zip length)).filter fun t => decide (t.2.2 > 0)
    let s ← gatherZ sigma (kept.map fun t => t.1)
    let l ← gatherZ lens (kept.map fun t => t.1)
    let terms := List.zipWith (fun (t : ℤ × Option ℝ × ℝ) (sl : ℝ × ℝ) =>
      t.2.1.map fun w => (w*sl.1)^2 * (sl.2/t.2.2)) kept (s.zip l)
    return osqrt (odiv (npSum terms) ((npSum (kept.map fun t => t.2.1)).map (·^2)))

/-- `rebin_1d` with `sigma` (one_d.py:215-238): values and errors. -/
noncomputable def rebin1dSigma (edges data newEdges : List ℝ) (w : Option (List ℝ))
    (sigma : List ℝ) : Py (List (Option ℝ) × List (Option ℝ)) := do
  pyAssert ((edges.length : ℤ) - 1 = data.length)
  pyAssert (isPosMonotonic edges = true)
  pyAssert (isPosMonotonic newEdges = true)
  match w with
  | none =>
    pyAssert (data.length = sigma.length)
    let v ← rebin1d edges data newEdges none
    let s ← pyMap (fun b => rebinSingleBinSigma edges sigma b.1 b.2) (newBins newEdges)
    return (v, s)
  | some w =>
    pyAssert (data.length = w.length)
    pyAssert (data.length = sigma.length)
    let v ← rebin1d edges data newEdges (some w)
    let num ← pyMap (fun b => rebinSingleBinSigma edges (List.zipWith (· * ·) sigma w) b.1 b.2)
      (newBins newEdges)
    let den ← pyMap (fun b => rebinSingleBinSigma edges w b.1 b.2) (newBins newEdges)
    return (v, List.zipWith odiv num den)

end Magpie.OneD
