import Verif.Model.OneD

/-!
# Model of `rebin_1d` in `/repo/magpie/one_d/one_d.py`, for data with missing values

The same code as in `Verif/Model/OneD.lean`; the data are floats that may be NaN (`none`), as in that file the weights.
-/

namespace Magpie.OneD
variable {K : Type} [Field K] [LinearOrder K]

/-- `x * y` for floats that may both be NaN; also `0 * NaN` is NaN. -/
def omulN (x y : Option K) : Option K := y.bind fun y => omul x y

/-- `_rebin_1d_single_bin` (one_d.py:72-108). -/
def rebinSingleBinN (edges : List K) (data : List (Option K)) (binMin binMax : K) : Py (Option K) :=
  match condition edges binMin binMax with
  | [] =>
    match condition1 edges binMin with
    | [] => .ok none
    | c :: cs =>
      if (c :: cs).length ≠ edges.length then getZ data ((c : ℤ) - 1)
      else .ok none
  | [c] =>
    if 0 < c ∧ c < edges.length - 1 then do
      let e ← getZ edges c
      let em ← getZ edges ((c : ℤ) - 1)
      let ep ← getZ edges ((c : ℤ) + 1)
      let dm ← getZ data ((c : ℤ) - 1)
      let d ← getZ data c
      let w1 := fdiv (e - binMin) (e - em)
      let w2 := fdiv (binMax - e) (ep - e)
      return odiv (npSum [omulN w1 dm, omulN w2 d]) (npSum [w1, w2])
    else if c = 0 then getZ data 0
    else getZ data (-1)
  | c :: c' :: cs => do
    let (index, w) ← generalWeights edges binMin binMax (c :: c' :: cs)
    let ds ← gatherZ data index
    return odiv (npSum (List.zipWith omulN w ds)) (npSum w)

/-- `rebin_1d` without `sigma` (one_d.py:215-227, 235-236). -/
def rebin1dN (edges : List K) (data : List (Option K)) (newEdges : List K) (w : Option (List K)) :
    Py (List (Option K)) := do
  pyAssert ((edges.length : ℤ) - 1 = data.length)
  pyAssert (isPosMonotonic edges = true)
  pyAssert (isPosMonotonic newEdges = true)
  match w with
  | none => pyMap (fun b => rebinSingleBinN edges data b.1 b.2) (newBins newEdges)
  | some w => do
    pyAssert (data.length = w.length)
    let num ← pyMap (fun b => rebinSingleBinN edges (List.zipWith omul data w) b.1 b.2) (newBins newEdges)
    let den ← pyMap (fun b => rebinSingleBin edges w b.1 b.2) (newBins newEdges)
    return List.zipWith odiv num den

end Magpie.OneD
