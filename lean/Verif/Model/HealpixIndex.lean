import Verif.Np
import Mathlib.Analysis.SpecialFunctions.Trigonometric.Basic

/-!
# Model of `/repo/magpie/pixel/healpix_index.py`

Pixel and ring indices are Python integers (`ℤ`).  Floats are exact reals, NaN is
`none`.  For every function with a scalar and an array branch the two
branches are modelled separately (`f` and `fArr`).
-/

namespace Magpie.Healpix

/-- The expression `np.floor(np.sqrt(ph - np.sqrt(np.floor(ph))))+1`
(healpix_index.py:25, 37, 45, 55).  `none` is NaN. -/
noncomputable def capRing (ph : ℝ) : Option ℝ := do
  let s ← npSqrt (⌊ph⌋ : ℝ)
  let r ← npSqrt (ph - s)
  some ((⌊r⌋ : ℝ) + 1)

/-- Scalar branch of `healpix_pix2ij` (healpix_index.py:21-39, 60).  A pixel
above `12*nside**2` leaves `ringi` unassigned (`UnboundLocalError`). -/
noncomputable def pix2ij (p nside : ℤ) : Py (ℤ × ℤ) :=
  if p ≤ 2*nside*(nside+1) then do
    -- lines 24-27
    let ph : ℝ := ((p : ℝ)+1)/2
    let i := capRing ph
    let j := i.map fun i => (p : ℝ) + 1 - 2*i*(i-1)
    let ringi ← pyInt i
    let ringj ← pyInt j
    return (ringi, ringj)
  else if p > 2*nside*(nside+1) ∧ p < 2*nside*(5*nside-1) then do
    -- lines 30-33
    let pd := p - 2*nside*(nside-1)
    let i : ℝ := (⌊(pd : ℝ)/(4*nside)⌋ : ℝ) + nside
    let j : ℤ := (pd % (4*nside)) + 1
    let ringi ← pyInt (some i)
    return (ringi, j)
  else if p ≥ 2*nside*(5*nside-1) ∧ p ≤ 12*nside^2 then do
    -- lines 36-39
    let ph : ℝ := (12*(nside : ℝ)^2 - p)/2
    let i := capRing ph
    let j := i.map fun i => (p : ℝ) + 2*i*(i + 1) + 1 - 12*(nside : ℝ)^2
    let ringi ← pyInt (i.map fun i => 4*nside - i)
    let ringj ← pyInt j
    return (ringi, ringj)
  else .error .unboundLocalError

/-- `a.astype('int')` on a float array; the value stored for NaN is platform
dependent and modelled as `none`. -/
noncomputable def astypeInt (l : List (Option ℝ)) : List (Option ℤ) :=
  l.map fun x => x.map trunc

/-- Array branch of `healpix_pix2ij` (healpix_index.py:40-60). -/
noncomputable def pix2ijArr (p : List ℤ) (nside : ℤ) :
    Py (List (Option ℤ) × List (Option ℤ)) := do
  let i : List (Option ℝ) := List.replicate p.length (some 0)
  let j : List (Option ℝ) := List.replicate p.length (some 0)
  -- top polar cap, lines 43-46
  let cond := whereIdx (fun x => decide (x ≤ 2*nside*(nside+1))) p
  let pc ← gather p cond
  let ph : List ℝ := pc.map fun (x : ℤ) => ((x : ℝ)+1)/2
  let i ← scatter i cond (ph.map capRing)
  let ic ← gather i cond
  let j ← scatter j cond
    (List.zipWith (fun (x : ℤ) i => i.map fun (i : ℝ) => (x : ℝ) + 1 - 2*i*(i-1)) pc ic)
  -- equatorial sector, lines 48-51
  let cond := whereIdx
    (fun x => decide (x > 2*nside*(nside+1) ∧ x < 2*nside*(5*nside-1))) p
  let pc ← gather p cond
  let pd : List ℤ := pc.map fun x => x - 2*nside*(nside-1)
  let i ← scatter i cond (pd.map fun (x : ℤ) => some ((⌊(x : ℝ)/(4*nside)⌋ : ℝ) + nside))
  let j ← scatter j cond (pd.map fun (x : ℤ) => some (((x % (4*nside)) + 1 : ℤ) : ℝ))
  -- bottom polar cap, lines 53-57
  let cond := whereIdx
    (fun x => decide (x ≥ 2*nside*(5*nside-1) ∧ x ≤ 12*nside^2)) p
  let pc ← gather p cond
  let ph : List ℝ := pc.map fun (x : ℤ) => (12*(nside : ℝ)^2 - (x : ℝ))/2
  let i ← scatter i cond (ph.map capRing)
  let ic ← gather i cond
  let j ← scatter j cond
    (List.zipWith (fun (x : ℤ) i => i.map fun (i : ℝ) => (x : ℝ) + 2*i*(i + 1) + 1 - 12*(nside : ℝ)^2)
      pc ic)
  let i ← scatter i cond (ic.map fun i => i.map fun i => 4*nside - i)
  return (astypeInt i, astypeInt j)

/-- Scalar branch of `healpix_ij2pix` (healpix_index.py:80-91). The last
`elif` is always true when the first two tests fail. -/
def ij2pix (ringi ringj nside : ℤ) : ℤ :=
  if ringi ≤ nside then 2*ringi*(ringi - 1) + ringj - 1
  else if ringi > nside ∧ ringi < 3*nside then
    4*nside*(ringi - nside) + ringj - 1 + 2*nside*(nside - 1)
  else
    let i := 4*nside - ringi
    12*nside^2 + ringj - 2*i*(i + 1) - 1

/-- Array branch of `healpix_ij2pix` (healpix_index.py:92-105); the float array
`p` holds integers only, so it is modelled as an integer array. -/
def ij2pixArr (ringi ringj : List ℤ) (nside : ℤ) : Py (List ℤ) := do
  let p : List ℤ := List.replicate ringi.length 0
  let cond := whereIdx (fun i => decide (i ≤ nside)) ringi
  let ic ← gather ringi cond
  let jc ← gather ringj cond
  let p ← scatter p cond (List.zipWith (fun i j => 2*i*(i - 1) + j - 1) ic jc)
  let cond := whereIdx (fun i => decide (i > nside ∧ i < 3*nside)) ringi
  let ic ← gather ringi cond
  let jc ← gather ringj cond
  let p ← scatter p cond
    (List.zipWith (fun i j => 4*nside*(i - nside) + j - 1 + 2*nside*(nside - 1)) ic jc)
  let cond := whereIdx (fun i => decide (i ≥ 3*nside)) ringi
  let ic ← gather ringi cond
  let jc ← gather ringj cond
  let i := ic.map fun r => 4*nside - r
  let p ← scatter p cond (List.zipWith (fun i j => 12*nside^2 + j - 2*i*(i + 1) - 1) i jc)
  return p

/-- `healpix_i2id` (healpix_index.py:108-125). -/
noncomputable def i2id (ringi nside : ℤ) : ℝ := nside - (ringi : ℝ)/2

/-- Python `x % m` for floats with positive `m` (`0 ≤ x % m < m`). -/
noncomputable def fmod (x m : ℝ) : ℝ := x - m * ⌊x / m⌋

/-- One polar cap of `healpix_j2jd`: lines 149-156 with `r = ringi` and
168-175 with `r = 4*nside - ringi`. -/
noncomputable def capJd (r ringj nside : ℤ) : Py ℝ :=
  let jlen : ℝ := 4*r
  if jlen = 0 then .error .zeroDivisionError
  else
    let k : ℝ := ⌊4*((ringj : ℝ)-1)/jlen⌋
    let x0 : ℝ := trunc ((nside : ℝ)/2) + nside*k
    let x0 := if nside % 2 = 0 then x0 - (1/2)*((r : ℝ)-1) else x0 - (1/2)*(r : ℝ) + 1
    .ok (x0 + fmod ((ringj : ℝ) - 1) (jlen/4))

/-- The equatorial part of `healpix_j2jd` (healpix_index.py:160-164). -/
noncomputable def eqJd (ringi ringj nside : ℤ) : ℝ :=
  let x0 : ℝ := if nside % 2 = 0 then (1/2)*(((ringi+1) % 2 : ℤ) : ℝ)
    else (1/2)*((ringi % 2 : ℤ) : ℝ)
  x0 + ringj - 1

/-- Scalar branch of `healpix_j2jd` (healpix_index.py:146-175, 214). -/
noncomputable def j2jd (ringi ringj nside : ℤ) : Py ℝ :=
  if ringi ≤ nside then capJd ringi ringj nside
  else if ringi > nside ∧ ringi < 3*nside then .ok (eqJd ringi ringj nside)
  else capJd (4*nside - ringi) ringj nside

/-- The expressions of one polar cap in the array branch of `healpix_j2jd`
(healpix_index.py:184-191 with `r = ringi`, 205-212 with `r = 4*nside - ringi`),
for one element; NumPy division by zero gives NaN/inf (`none`). -/
noncomputable def capJdElem (r ringj nside : ℤ) : Option ℝ := do
  let jlen : ℝ := 4*r
  let q ← fdiv (4*((ringj : ℝ)-1)) jlen
  let k : ℝ := ⌊q⌋
  let x0 : ℝ := trunc ((nside : ℝ)/2) + nside*k
  let x0 := if nside % 2 = 0 then x0 - (1/2)*((r : ℝ)-1) else x0 - (1/2)*(r : ℝ) + 1
  some (x0 + fmod ((ringj : ℝ)-1) (jlen/4))

/-- Array branch of `healpix_j2jd` (healpix_index.py:177-214). -/
noncomputable def j2jdArr (ringi ringj : List ℤ) (nside : ℤ) : Py (List (Option ℝ)) := do
  let jdash : List (Option ℝ) := List.replicate ringi.length (some 0)
  -- north polar cap, lines 182-191
  let cond := whereIdx (fun i => decide (i ≤ nside)) ringi
  let ic ← gather ringi cond
  let jc ← gather ringj cond
  let jdash ← scatter jdash cond (List.zipWith (fun i j => capJdElem i j nside) ic jc)
  -- equatorial segment, lines 194-200
  let cond := whereIdx (fun i => decide (i > nside ∧ i < 3*nside)) ringi
  let ic ← gather ringi cond
  let jc ← gather ringj cond
  let x0 : List ℝ := if nside % 2 = 0 then ic.map fun (i : ℤ) => (1/2)*(((i+1) % 2 : ℤ) : ℝ)
    else ic.map fun (i : ℤ) => (1/2)*((i % 2 : ℤ) : ℝ)
  let jdash ← scatter jdash cond
    (List.zipWith (fun (x : ℝ) (j : ℤ) => some (x + (j : ℝ) - 1)) x0 jc)
  -- south polar cap, lines 203-212
  let cond := whereIdx (fun i => decide (i ≥ 3*nside)) ringi
  let ic ← gather ringi cond
  let jc ← gather ringj cond
  let jdash ← scatter jdash cond
    (List.zipWith (fun i j => capJdElem (4*nside - i) j nside) ic jc)
  return jdash

/-- `healpix_ijd2ijs` (healpix_index.py:217-243), elementwise on NumPy values;
`astype('int')` truncates. -/
noncomputable def ijd2ijs (idash jdash : ℝ) (nside : ℤ) : ℤ × ℤ :=
  let istar := jdash - idash + (nside : ℝ)/2
  let jstar := jdash + idash + (nside : ℝ)/2
  let istar := istar - 1/2
  let jstar := jstar - 1/2
  (trunc istar, trunc jstar)

/-- `healpix_ijs2ijd` (healpix_index.py:246-270). -/
noncomputable def ijs2ijd (istar jstar nside : ℤ) : ℝ × ℝ :=
  let is : ℝ := istar + 1/2
  let js : ℝ := jstar + 1/2
  let jdash := (is + js - nside)/2
  let idash := (js - is)/2
  (idash, jdash)

/-- `healpix_ij2xy` (healpix_index.py:360-383), scalar case. -/
noncomputable def ij2xy (ringi ringj nside : ℤ) : Py (ℝ × ℝ) := do
  let jdash ← j2jd ringi ringj nside
  let idash := i2id ringi nside
  return (jdash * Real.pi/(2*nside), idash * Real.pi/(2*nside))

/-- `healpix_pix2xy` (healpix_index.py:386-405), scalar case. -/
noncomputable def pix2xy (p nside : ℤ) : Py (ℝ × ℝ) := do
  let (ringi, ringj) ← pix2ij p nside
  ij2xy ringi ringj nside

end Magpie.Healpix

namespace Magpie.Healpix

/-- Insert into a strictly increasing list, dropping duplicates. -/
def insertU (a : ℤ) : List ℤ → List ℤ
  | [] => [a]
  | b :: l => if a < b then a :: b :: l else if a = b then b :: l else b :: insertU a l

/-- `np.unique`: the sorted list of distinct values. -/
def npUnique (l : List ℤ) : List ℤ := l.foldr insertU []

/-- The nine-way case analysis of `healpix_ijs_neighbours`
(healpix_index.py:292-342), as a list of `(istar, jstar)` pairs: entry `n` pairs
`istar_neigh[n]` with `jstar_neigh[n]`. `np.floor(a/nside)` is integer floor division
(`nside > 0`). -/
def neighCases (i j N : ℤ) : List (ℤ × ℤ) :=
  if j - i + 1 = 2*N then
    [(i, j-1), (i+1, j-1), (i+1, j), (i+N, j-1+N), (i+N, j+N), (i-N, j-N), (i+1-N, j-N),
      (i+2*N, j+2*N)]
  else if i - j + 1 = 2*N then
    [(i, j+1), (i-1, j+1), (i-1, j), (i-N, j+1-N), (i-N, j-N), (i+N, j+N), (i-1+N, j+N),
      (i-2*N, j-2*N)]
  else if j - i + 1 = N ∧ i % N = 0 then
    [(i-1, j-1), (i, j-1), (i+1, j-1), (i-1, j), (i+1, j), (i, j+1), (i+1, j+1)]
  else if i - j + 1 = N ∧ j % N = 0 then
    [(i-1, j-1), (i, j-1), (i-1, j), (i+1, j), (i-1, j+1), (i, j+1), (i+1, j+1)]
  else if i % N = 0 ∧ j + 1 - N*(i/N + 1) > 0 then
    [(i, j-1), (i+1, j-1), (i+1, j), (i, j+1), (i+1, j+1),
      (i - ((j+1) - N*(j/N)), N*(j/N) - 1), (i - (j - N*(j/N)), N*(j/N) - 1),
      (i - ((j-1) - N*(j/N)), N*(j/N) - 1)]
  else if j % N = 0 ∧ i + 1 - N*(j/N + 1) > 0 then
    [(i-1, j), (i-1, j+1), (i, j+1), (i+1, j), (i+1, j+1),
      (N*(i/N) - 1, j - ((i+2) - N*(i/N))), (N*(i/N) - 1, j - ((i+1) - N*(i/N))),
      (N*(i/N) - 1, j - (i - N*(i/N)))]
  else if (j + 1 - N) % N = 0 ∧ j + 1 - N*(i/N + 1) > 0 then
    [(i-1, j), (i-1, j-1), (i, j-1), (i+1, j), (i+1, j-1),
      (N*(i/N+1), j + N*(i/N+1) - i), (N*(i/N+1), j + N*(i/N+1) - i - 1),
      (N*(i/N+1), j + N*(i/N+1) - i + 1)]
  else if (i + 1 - N) % N = 0 ∧ i + 1 - N*(j/N + 1) > 0 then
    [(i, j-1), (i-1, j-1), (i-1, j), (i, j+1), (i-1, j+1),
      (i + N*(j/N+1) - j, N*(j/N+1)), (i + N*(j/N+1) - j - 1, N*(j/N+1)),
      (i + N*(j/N+1) - j + 1, N*(j/N+1))]
  else
    [(i-1, j-1), (i, j-1), (i+1, j-1), (i-1, j), (i+1, j), (i-1, j+1), (i, j+1), (i+1, j+1)]

/-- The two wrap-around corrections of `healpix_ijs_neighbours`
(healpix_index.py:347-353) on one pair. -/
def neighWrap (N : ℤ) (q : ℤ × ℤ) : ℤ × ℤ :=
  let q := if q.1 + q.2 > 9*N - 1 then (q.1 - 4*N, q.2 - 4*N) else q
  if q.1 + q.2 < N - 1 then (q.1 + 4*N, q.2 + 4*N) else q

/-- `healpix_ijs_neighbours` (healpix_index.py:273-357): lines 355-356 make the two
arrays unique *separately*. -/
def neighbours (i j N : ℤ) : List ℤ × List ℤ :=
  let q := (neighCases i j N).map (neighWrap N)
  (npUnique (q.map Prod.fst), npUnique (q.map Prod.snd))

end Magpie.Healpix
