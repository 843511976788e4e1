import Verif.Model.HealpixIndex
import Verif.Model.Float64

/-!
# `healpix_pix2ij` of `/repo/magpie/pixel/healpix_index.py` in binary64

The same code as `Magpie.Healpix.pix2ij`, with every float operation rounded to
binary64.  Integers are converted to floats where Python and NumPy do so, that is
when an integer meets a float or is divided.  `np.floor` of a float is exact.
Simplification: NumPy's `int64` is `ℤ`; for pixels of a map with
`nside ≤ 2^29` no integer of this code reaches `2^63`.
-/

namespace Magpie.Healpix

/-- The expression `np.floor(np.sqrt(ph - np.sqrt(np.floor(ph))))+1`
(healpix_index.py:25, 37, 45, 55) in binary64.  `none` is NaN. -/
noncomputable def capRing64 (ph : ℝ) : Option ℝ := do
  let s ← F64.sqrt (⌊ph⌋ : ℝ)
  let r ← F64.sqrt (F64.sub ph s)
  some (F64.add (⌊r⌋ : ℝ) 1)

/-- Scalar branch of `healpix_pix2ij` (healpix_index.py:21-39, 60) in binary64. -/
noncomputable def pix2ij64 (p nside : ℤ) : Py (ℤ × ℤ) :=
  if p ≤ 2*nside*(nside+1) then do
    -- lines 24-27
    let ph : ℝ := F64.div (F64.ofInt (p+1)) 2
    let i := capRing64 ph
    let j := i.map fun i => F64.sub (F64.ofInt (p+1)) (F64.mul (F64.mul 2 i) (F64.sub i 1))
    let ringi ← pyInt i
    let ringj ← pyInt j
    return (ringi, ringj)
  else if p > 2*nside*(nside+1) ∧ p < 2*nside*(5*nside-1) then do
    -- lines 30-33
    let pd := p - 2*nside*(nside-1)
    let i : ℝ := F64.add (⌊F64.div (F64.ofInt pd) (F64.ofInt (4*nside))⌋ : ℝ) (F64.ofInt nside)
    let j : ℤ := (pd % (4*nside)) + 1
    let ringi ← pyInt (some i)
    return (ringi, j)
  else if p ≥ 2*nside*(5*nside-1) ∧ p ≤ 12*nside^2 then do
    -- lines 36-39
    let ph : ℝ := F64.div (F64.ofInt (12*nside^2 - p)) 2
    let i := capRing64 ph
    let j := i.map fun i => F64.sub (F64.add (F64.add (F64.ofInt p)
      (F64.mul (F64.mul 2 i) (F64.add i 1))) 1) (F64.ofInt (12*nside^2))
    let ringi ← pyInt (i.map fun i => F64.sub (F64.ofInt (4*nside)) i)
    let ringj ← pyInt j
    return (ringi, ringj)
  else .error .unboundLocalError

/-- Array branch of `healpix_pix2ij` (healpix_index.py:40-60) in binary64. -/
noncomputable def pix2ijArr64 (p : List ℤ) (nside : ℤ) :
    Py (List (Option ℤ) × List (Option ℤ)) := do
  let i : List (Option ℝ) := List.replicate p.length (some 0)
  let j : List (Option ℝ) := List.replicate p.length (some 0)
  -- top polar cap, lines 43-46
  let cond := whereIdx (fun x => decide (x ≤ 2*nside*(nside+1))) p
  let pc ← gather p cond
  let ph : List ℝ := pc.map fun (x : ℤ) => F64.div (F64.ofInt (x+1)) 2
  let i ← scatter i cond (ph.map capRing64)
  let ic ← gather i cond
  let j ← scatter j cond
    (List.zipWith (fun (x : ℤ) i => i.map fun (i : ℝ) =>
      F64.sub (F64.ofInt (x+1)) (F64.mul (F64.mul 2 i) (F64.sub i 1))) pc ic)
  -- equatorial sector, lines 48-51
  let cond := whereIdx
    (fun x => decide (x > 2*nside*(nside+1) ∧ x < 2*nside*(5*nside-1))) p
  let pc ← gather p cond
  let pd : List ℤ := pc.map fun x => x - 2*nside*(nside-1)
  let i ← scatter i cond (pd.map fun (x : ℤ) =>
    some (F64.add (⌊F64.div (F64.ofInt x) (F64.ofInt (4*nside))⌋ : ℝ) (F64.ofInt nside)))
  let j ← scatter j cond (pd.map fun (x : ℤ) => some (F64.ofInt ((x % (4*nside)) + 1)))
  -- bottom polar cap, lines 53-57
  let cond := whereIdx
    (fun x => decide (x ≥ 2*nside*(5*nside-1) ∧ x ≤ 12*nside^2)) p
  let pc ← gather p cond
  let ph : List ℝ := pc.map fun (x : ℤ) => F64.div (F64.ofInt (12*nside^2 - x)) 2
  let i ← scatter i cond (ph.map capRing64)
  let ic ← gather i cond
  let j ← scatter j cond
    (List.zipWith (fun (x : ℤ) i => i.map fun (i : ℝ) =>
      F64.sub (F64.add (F64.add (F64.ofInt x)
        (F64.mul (F64.mul 2 i) (F64.add i 1))) 1) (F64.ofInt (12*nside^2))) pc ic)
  let i ← scatter i cond (ic.map fun i => i.map fun i => F64.sub (F64.ofInt (4*nside)) i)
  return (astypeInt i, astypeInt j)

/-- Array branch of `healpix_ij2pix` (healpix_index.py:92-105): integer
arithmetic, results stored in the float array `p`, which is converted to
integers at the end. -/
noncomputable def ij2pixArr64 (ringi ringj : List ℤ) (nside : ℤ) : Py (List ℤ) := do
  let p : List ℝ := List.replicate ringi.length 0
  let cond := whereIdx (fun i => decide (i ≤ nside)) ringi
  let ic ← gather ringi cond
  let jc ← gather ringj cond
  let p ← scatter p cond
    (List.zipWith (fun (i j : ℤ) => F64.ofInt (2*i*(i - 1) + j - 1)) ic jc)
  let cond := whereIdx (fun i => decide (i > nside ∧ i < 3*nside)) ringi
  let ic ← gather ringi cond
  let jc ← gather ringj cond
  let p ← scatter p cond
    (List.zipWith (fun (i j : ℤ) =>
      F64.ofInt (4*nside*(i - nside) + j - 1 + 2*nside*(nside - 1))) ic jc)
  let cond := whereIdx (fun i => decide (i ≥ 3*nside)) ringi
  let ic ← gather ringi cond
  let jc ← gather ringj cond
  let i := ic.map fun r => 4*nside - r
  let p ← scatter p cond
    (List.zipWith (fun (i j : ℤ) => F64.ofInt (12*nside^2 + j - 2*i*(i + 1) - 1)) i jc)
  return p.map trunc

end Magpie.Healpix
