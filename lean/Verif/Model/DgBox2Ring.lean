import Verif.Model.Box2Ring

/-!
# Model of `/repo/magpie/densegrid/box2ring.py`

The parts shared with the Monte Carlo class are in `Verif/Model/Box2Ring.lean`.
-/

namespace Magpie.Dg
open Magpie.Radial Magpie.OneD Magpie.Remap Magpie.Coords Magpie.Box2Ring

/-- The attributes `rebin_…` assigned by `setup_polar` (box2ring.py:121-133). -/
structure Dense where
  rebinR : ℕ
  rebinP : ℕ
  redges : List ℝ
  rmid : List ℝ
  pedges : List ℝ
  pmid : List ℝ
  r2d : Arr2 ℝ
  p2d : Arr2 ℝ

/-- A dense grid `Box2Ring` object. -/
abbrev State := Box2Ring.State Dense

/-- The new value of an angle of the dense grid (box2ring.py:128-133). -/
noncomputable def shiftPhi (phiShift p : ℝ) : ℝ :=
  if phiShift ≠ 0 then
    let p := p + phiShift
    let p := if p > 2*Real.pi then p - 2*Real.pi else p
    if p < 0 then p + 2*Real.pi else p
  else p

/-- The dense grid (box2ring.py:121-133). -/
noncomputable def mkDense (e : Edges) (phiShift : ℝ) (rebinR rebinP : ℕ) : Dense :=
  let redges := linspace (e.redges.getD 0 0) (e.redges.getLastD 0) (rebinR*e.rmid.length + 1)
  let rmid := mids redges
  let pedges := linspace (e.pedges.getD 0 0) (e.pedges.getLastD 0) (rebinP*e.pmid.length + 1)
  let pmid := mids pedges
  let (r2d, p2d) := meshgridXY rmid pmid
  ⟨rebinR, rebinP, redges, rmid, pedges, pmid, r2d,
    ⟨p2d.rows, p2d.cols, fun i j => shiftPhi phiShift (p2d.val i j)⟩⟩

/-- `setup_polar` (box2ring.py:102-133). The rebin factors are taken to be natural numbers. -/
noncomputable def setupPolar (a : PolarArgs) (rebinR rebinP : ℕ) : Meth State Unit := do
  Meth.lift (pyAssert (a.rmin ≥ 0))
  Meth.lift (polarChecks a)
  let e := mkEdges (linspace a.rmin a.rmax (a.numr.toNat + 1)) (linspace a.pmin a.pmax (a.nump.toNat + 1))
  Meth.assign fun s => { s with edges := some e }
  let dr ← Meth.lift (firstDiff e.rmid)
  Meth.assign fun s => { s with dr := some (.scalar dr) }
  let dp ← Meth.lift (firstDiff e.pmid)
  Meth.assign fun s => { s with dp := some dp }
  Meth.assign fun s => { s with
    polar := some (mkPolar e a), extra := some (mkDense e a.phiShift rebinR rebinP) }

/-- `np.floor(x / d).astype(int)`, with `x` measured from the first edge, if it is between `0` and
`n - 1` (box2ring.py:152-158). For `d = 0` the division gives NaN or infinity, which is converted to an
index outside the array. -/
noncomputable def cellIdx (x edge0 d : ℝ) (n : ℕ) : Option ℕ :=
  if d = 0 then none
  else
    let i := ⌊(x - edge0)/d⌋
    if i ≥ 0 ∧ i < n then some i.toNat else none

/-- One entry of `f_polar_highres` (box2ring.py:150-159): `f[yind, xind]`, or `0` outside the box. -/
noncomputable def highres (b : Box) (center : ℝ × ℝ) (f : Arr2 (Option ℝ)) (r phi : ℝ) : Py (Option ℝ) :=
  let (x, y) := polar2cart r phi center
  match cellIdx x (b.xedges.getD 0 0) b.dx b.xmid.length, cellIdx y (b.yedges.getD 0 0) b.dy b.ymid.length with
  | some ix, some iy => f.get iy ix
  | _, _ => .ok (some 0)

/-- `np.mean(np.sum(a.reshape(nump, rebin_r, len(rebin_p2d[0])), axis=1).reshape(nump, numr, rebin_p),
axis=2)` (box2ring.py:163-166). -/
noncomputable def downgrade (a : Arr2 (Option ℝ)) (nump numr rebinR rebinP cols : ℕ) :
    Py (Arr2 (Option ℝ)) := do
  let a3 ← a.reshape3 nump rebinR cols
  let s : Arr2 (Option ℝ) := ⟨nump, cols, fun i c => npSum ((List.range rebinR).map fun k => a3 i k c)⟩
  let s3 ← s.reshape3 nump numr rebinP
  return ⟨nump, numr, fun i j => odiv (npSum ((List.range rebinP).map fun k => s3 i j k)) (some (rebinP:ℝ))⟩

/-- `_remap` (box2ring.py:150-168). -/
noncomputable def remap1 (f : Arr2 (Option ℝ)) : Meth State (Arr2 (Option ℝ)) := do
  let s ← Meth.self
  let d ← Meth.lift (need s.extra)
  let p ← Meth.lift (need s.polar)
  let b ← Meth.lift (need s.box)
  let hi ← Meth.lift (tabulate d.r2d.rows d.r2d.cols
    (fun i j => highres b p.center f (d.r2d.val i j) (d.p2d.val i j)) none)
  let rw := List.zipWith (fun b a => b^2 - a^2) d.redges.tail d.redges.dropLast
  let rw2 := (meshgridXY rw d.pmid).1
  let hi ← Meth.lift (hi.zip omul rw2)
  let fp ← Meth.lift (downgrade hi p.r2d.rows p.r2d.cols d.rebinR d.rebinP d.p2d.cols)
  let wp ← Meth.lift (downgrade ⟨rw2.rows, rw2.cols, fun i j => some (rw2.val i j)⟩ p.r2d.rows p.r2d.cols
    d.rebinR d.rebinP d.p2d.cols)
  Meth.lift (fp.zip odiv wp)

/-- `remap` (box2ring.py:189-193). -/
noncomputable def remap (f : Arr2 (Option ℝ)) (w : Option (Arr2 ℝ)) : Meth State (Arr2 (Option ℝ)) :=
  match w with
  | none => remap1 f
  | some w => do
    let fw ← Meth.lift (f.zip omul w)
    let a ← remap1 fw
    let b ← remap1 ⟨w.rows, w.cols, fun i j => some (w.val i j)⟩
    Meth.lift (a.zip odiv b)

/-- `get_mask_in_bound` (box2ring.py:205-213). -/
noncomputable def getMaskInBound : Meth State Unit := do
  let s ← Meth.self
  match s.box, s.polar with
  | some b, some _ =>
    let m ← remap ⟨b.x2d.rows, b.x2d.cols, fun _ _ => some 1⟩ none
    Meth.assign fun s => { s with maskInBound := some ⟨m.rows, m.cols, fun i j => (m.val i j).getD 0⟩ }
  | _, _ => Meth.lift (.error .assertionError)

/-- `polar2radial` (box2ring.py:258-282). -/
noncomputable def polar2radial (f : Arr2 (Option ℝ)) (sigma w : Option (Arr2 ℝ)) :
    Meth State Box2Ring.Radial := Box2Ring.polar2radial getMaskInBound f sigma w

end Magpie.Dg
