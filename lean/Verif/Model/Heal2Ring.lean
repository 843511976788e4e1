import Verif.Model.Heal2Ortho

/-!
# Model of the two `Heal2Ring` classes

`/repo/magpie/montecarlo/heal2ring.py` (MC) and `/repo/magpie/densegrid/heal2ring.py` (DG). The polar cap
grid has the edges `alpha` (in the place of `r` of `Box2Ring`) and `beta` (in the place of `phi`), so the
arguments, assertions and grids of `Verif/Model/Box2Ring.lean` are reused. Both classes call functions that
do not exist: `randoms.randoms_sky` and `coords.sky_area`. What follows such a call in the code is never
reached; here it is an arbitrary function `rest`, so that the theorems hold whatever it is. On objects that
have not been set up, using an attribute that is `None` is a `TypeError`. Printing is not modelled.
-/

namespace Magpie.HealRing
open Magpie.Radial Magpie.OneD Magpie.Remap Magpie.Coords Magpie.Box2Ring Magpie.Cube

/-- `randoms.randoms_sky` (MC:110): `/repo/magpie/randoms/__init__.py` exports no such name. -/
def randomsSky (_size : ℤ) (_phiMin _phiMax _thetaMin _thetaMax : ℝ) : Py (List ℝ × List ℝ) :=
  .error .attributeError

/-- `coords.sky_area` (MC:213, DG:138, DG:219): `/repo/magpie/coords/__init__.py` exports no such name. -/
def skyArea (_phiMin _phiMax _thetaMin _thetaMax : ℝ) : Py ℝ := .error .attributeError

/-- `hp.nside2npix(nside)`, a `TypeError` for `None`. -/
def npixOf (nside : Option ℤ) : Py ℕ := do
  let n ← need nside
  nside2npix n

/-- `np.shape(w) == n` for an array `w` and a number `n` (MC:148): a tuple never equals a number. -/
def shapeEqNumber (_shape : List ℕ) (_n : ℕ) : Prop := False

instance (s : List ℕ) (n : ℕ) : Decidable (shapeEqNumber s n) := inferInstanceAs (Decidable False)

/-- `[sky_area(0., d, edges[i], edges[i+1]) for i in range(0, len(edges)-1)]` (MC:213, DG:138, DG:219). -/
noncomputable def areas (d : ℝ) (edges : List ℝ) : Py (List ℝ) :=
  pyMap (fun i => skyArea 0 d (edges.getD i 0) (edges.getD (i + 1) 0)) (List.range (edges.length - 1))

/-- The attributes of a `Heal2Ring` object (MC:13-29, DG:14-39). `X` are those that only one of the classes
has: `ind_pixs, ind_ws` (MC), and those from `rebin_beta` to `rebin_pix` (DG). -/
structure State (X : Type) where
  nside : Option ℤ := none
  edges : Option Edges := none
  dalpha : Option ℝ := none
  dbeta : Option ℝ := none
  polar : Option Polar := none
  extra : X
  area2d : Option (Arr2 ℝ) := none
  pixarea : Option ℝ := none

variable {X : Type}

/-- `setup_map` (MC:40-41, DG:50-51). -/
def setupMap (nside : ℤ) : Meth (State X) Unit := do
  Meth.lift (pyAssert (isNsideOk nside))
  Meth.assign fun s => { s with nside := some nside }

/-- `alpha_edges, beta_edges, alpha_mid, beta_mid` (MC:78-81, DG:93-96). -/
noncomputable def capEdges (a : PolarArgs) : Edges :=
  mkEdges (linspace a.rmin a.rmax (a.numr.toNat + 1)) (linspace a.pmin a.pmax (a.nump.toNat + 1))

/-- The part of `setup_polar_cap` that both classes have (MC:68-86, DG:83-101). -/
noncomputable def setupCap (a : PolarArgs) : Meth (State X) Unit := do
  Meth.lift (pyAssert (a.rmin ≥ 0))
  Meth.lift (polarChecks a)
  let e := capEdges a
  Meth.assign fun s => { s with edges := some e }
  let da ← Meth.lift (firstDiff e.rmid)
  Meth.assign fun s => { s with dalpha := some da }
  let db ← Meth.lift (firstDiff e.pmid)
  Meth.assign fun s => { s with dbeta := some db }
  Meth.assign fun s => { s with polar := some (mkPolar e a) }

/-- `rotate_polar` (MC:184-185, DG:190-191): `coords.rotate_polar` takes two arguments, not three. -/
def rotatePolar (f : Arr2 (Option ℝ)) : Meth (State X) (Arr2 (Option ℝ)) := do
  let s ← Meth.self
  match s.polar with
  | none => Meth.lift (.error .assertionError)
  | some p =>
    Meth.lift (pyAssert (f.sameShape p.p2d))
    Meth.lift (.error .typeError)

/-- `area2d` is computed if it is `None` (MC:211-214, DG:217-220). -/
noncomputable def storeArea : Meth (State X) Unit := do
  let s ← Meth.self
  match s.area2d with
  | some _ => pure ()
  | none => do
    let e ← Meth.lift (need s.edges)
    let d ← Meth.lift (firstDiff e.pedges)
    let area ← Meth.lift (areas d e.redges)
    Meth.assign fun s => { s with area2d := some ⟨e.pedges.length - 1, area.length, fun _ j => area.getD j 0⟩ }

/-- `pixarea` is computed if it is `None` (MC:215-216, DG:221-222). -/
noncomputable def storePix : Meth (State X) Unit := do
  let s ← Meth.self
  match s.pixarea with
  | some _ => pure ()
  | none => do
    let n ← Meth.lift (npixOf s.nside)
    Meth.assign fun s => { s with pixarea := some (4*Real.pi/n) }

/-- What `polar2radial` returns. -/
abbrev Profile := List (Option ℝ) × Option (List (Option ℝ))

/-- `polar2radial` (MC:211-224, DG:217-230). -/
noncomputable def polar2radial (f : Arr2 (Option ℝ)) (sigma w : Option (Arr2 ℝ)) : Meth (State X) Profile := do
  storeArea
  storePix
  let s ← Meth.self
  match s.polar with
  | none => Meth.lift (.error .assertionError)
  | some p => do
    Meth.lift (pyAssert (f.sameShape p.r2d))
    let area2d ← Meth.lift (need s.area2d)
    let pixarea ← Meth.lift (need s.pixarea)
    match sigma with
    | none =>
      let r ← Meth.lift (Radial.polar2radial f w)
      return (r, none)
    | some sg =>
      Meth.lift (pyAssert (sg.sameShape p.r2d))
      let r ← Meth.lift (Radial.polar2radial f w)
      let e ← Meth.lift (polar2radialSigma f area2d pixarea sg w)
      return (r, some e)

namespace Mc

/-- `ind_pixs` and `ind_ws`, entry by entry. -/
abbrev Weights := Arr2 (List ℕ × List ℝ)

/-- `__init__` (MC:13-29). -/
def init : State (Option Weights) := { extra := none }

/-- `setup_polar_cap` (MC:68-86). -/
noncomputable def setupPolarCap (a : PolarArgs) : Meth (State (Option Weights)) Unit := setupCap a

/-- `get_weights` (MC:101-126); `rest` is what is done with the random points (MC:112-120). -/
noncomputable def getWeights (rest : List ℝ × List ℝ → Py (List ℕ × List ℝ)) (mcSize : ℤ) :
    Meth (State (Option Weights)) Unit := do
  Meth.lift (pyAssert (mcSize > 1))
  let s ← Meth.self
  let p ← Meth.lift (need s.polar)
  let e ← Meth.lift (need s.edges)
  let t ← Meth.lift (tabulate p.r2d.rows p.r2d.cols (fun i j => do
    let aMin ← getZ e.redges j
    let aMax ← getZ e.redges (j + 1)
    let bMin ← getZ e.pedges i
    let bMax ← getZ e.pedges (i + 1)
    let r ← randomsSky mcSize bMin bMax aMin aMax
    rest r) ([], []))
  Meth.assign fun s => { s with extra := some t }

/-- The value of one pixel (MC:152-158). -/
noncomputable def pixel (wt : Weights) (f : List (Option ℝ)) (i j : ℕ) : Py (Option ℝ) := do
  let (pix, ws) ← wt.get i j
  if ws.sum ≠ 0 then
    let fp ← gather f pix
    let prod ← vzip omul fp ws
    return odiv (npSum prod) (some ws.sum)
  else return none

/-- `remap` (MC:146-166). The branches with a weight map (MC:160-164) are behind the assertion that
fails. -/
noncomputable def remap (f : List (Option ℝ)) (w : Option (List ℝ)) :
    Meth (State (Option Weights)) (Arr2 (Option ℝ)) := do
  let s ← Meth.self
  let n ← Meth.lift (npixOf s.nside)
  Meth.lift (pyAssert (f.length = n))
  match w with
  | some w => Meth.lift (pyAssert (shapeEqNumber [w.length] n))
  | none => pure ()
  let p ← Meth.lift (need s.polar)
  let out ← Meth.lift (tabulate p.r2d.rows p.r2d.cols (fun i j => do
    let wt ← need s.extra
    pixel wt f i j) none)
  return out

/-- `clean` (MC:227-229). -/
def clean : Meth (State (Option Weights)) Unit := Meth.assign fun _ => init

/-- A call of a public method. -/
inductive Call
  | map (nside : ℤ)
  | setup (a : PolarArgs)
  | weights (rest : List ℝ × List ℝ → Py (List ℕ × List ℝ)) (mcSize : ℤ)
  | remap (f : List (Option ℝ)) (w : Option (List ℝ))
  | rotate (f : Arr2 (Option ℝ))
  | radial (f : Arr2 (Option ℝ)) (sigma w : Option (Arr2 ℝ))
  | clean

/-- The object after a call. -/
noncomputable def Call.run : Call → State (Option Weights) → State (Option Weights)
  | .map n, s => (setupMap n s).2
  | .setup a, s => (setupPolarCap a s).2
  | .weights rest n, s => (getWeights rest n s).2
  | .remap f w, s => (Mc.remap f w s).2
  | .rotate f, s => (rotatePolar f s).2
  | .radial f sg w, s => (polar2radial f sg w s).2
  | .clean, s => (Mc.clean s).2

/-- The object after a sequence of calls. -/
noncomputable def after (cs : List Call) : State (Option Weights) := cs.foldl (fun s c => c.run s) init

end Mc

namespace Dg

/-- The attributes from `rebin_beta` to `rebin_beta_ind` (DG:102-113). -/
structure Dense where
  rebinAlpha : ℕ
  rebinBeta : ℕ
  aedges : List ℝ
  amid : List ℝ
  bedges : List ℝ
  bmid : List ℝ
  a2d : Arr2 ℝ
  b2d : Arr2 ℝ
  aind : List ℕ
  bind : List ℕ

/-- The dense grid and `rebin_pix`. -/
abbrev Extra := Option Dense × Option (List ℕ)

/-- `__init__` (DG:14-39). -/
def init : State Extra := { extra := (none, none) }

/-- The arguments of `setup_polar_cap`; the rebin factors are taken to be natural numbers. -/
structure CapArgs extends PolarArgs where
  rebinAlpha : ℕ
  rebinBeta : ℕ

/-- The dense grid (DG:102-113). -/
noncomputable def mkDense (e : Edges) (a : CapArgs) : Dense :=
  let aedges := linspace (e.redges.getD 0 0) (e.redges.getLastD 0) (a.rebinAlpha*e.rmid.length + 1)
  let amid := mids aedges
  let bedges := linspace (e.pedges.getD 0 0) (e.pedges.getLastD 0) (a.rebinBeta*e.pmid.length + 1)
  let bmid := mids bedges
  let (a2d, b2d) := meshgridXY amid bmid
  -- `rebin_beta_ind, rebin_alpha_ind = np.meshgrid(np.arange(cols), np.arange(rows))`
  let bind : Arr2 ℕ := ⟨bmid.length, amid.length, fun _ j => j⟩
  let aind : Arr2 ℕ := ⟨bmid.length, amid.length, fun i _ => i⟩
  { rebinAlpha := a.rebinAlpha, rebinBeta := a.rebinBeta, aedges := aedges, amid := amid, bedges := bedges
    bmid := bmid, a2d := a2d, b2d := b2d, aind := Ortho.flatten aind, bind := Ortho.flatten bind }

variable (ang2pix : ℤ → ℝ → ℝ → ℕ)

/-- `usphere_spin` about `(c1, c2)` if the angle is not zero (DG:114-117). The arrays are fresh copies
(`flatten`), so that it does not matter that they are changed in place. A NaN would make `hp.ang2pix` raise
`ValueError` later; the model raises it here. -/
noncomputable def spun (phi theta : List ℝ) (c1 c2 angle : ℝ) : Py (List ℝ × List ℝ) :=
  if angle ≠ 0 then do
    let s ← spinArr phi theta c1 c2 angle
    let p ← Ortho.finiteArr s.phi
    let t ← Ortho.finiteArr s.theta
    return (p, t)
  else .ok (phi, theta)

/-- The spin, `usphere_shift` to the centre, and the pixels of these directions (DG:114-119). -/
noncomputable def skyPix (nside : Option ℤ) (phi theta : List ℝ) (c1 c2 angle : ℝ) (center : ℝ × ℝ) :
    Py (List ℕ) := do
  let (phi, theta) ← spun phi theta c1 c2 angle
  let s ← shiftArr phi theta c1 c2 center.1 center.2
  Ortho.ang2pixArr ang2pix nside s.theta s.phi

/-- `setup_polar_cap` (DG:83-119). `len(rebin_beta2d[0])` is an `IndexError` for an array without rows
(DG:110); the attributes assigned before it are then not kept in the model. -/
noncomputable def setupPolarCap (a : CapArgs) : Meth (State Extra) Unit := do
  setupCap a.toPolarArgs
  let d := mkDense (capEdges a.toPolarArgs) a
  Meth.lift (if d.b2d.rows = 0 then .error .indexError else .ok ())
  Meth.assign fun s => { s with extra := (some d, s.extra.2) }
  let s ← Meth.self
  let pix ← Meth.lift (skyPix ang2pix s.nside (Ortho.flatten d.b2d) (Ortho.flatten d.a2d) 0 0 a.phiShift
    (centerOf a.center))
  Meth.assign fun s => { s with extra := (s.extra.1, some pix) }

/-- `_remap` (DG:135-147); `rest` is what is done with the areas (DG:139-147). -/
noncomputable def remap1 (rest : Arr2 (Option ℝ) → List ℝ → Py (Arr2 (Option ℝ))) (f : List (Option ℝ)) :
    Meth (State Extra) (Arr2 (Option ℝ)) := do
  let s ← Meth.self
  let d ← Meth.lift (need s.extra.1)
  let pix ← Meth.lift (need s.extra.2)
  let zeros : Arr2 (Option ℝ) := ⟨d.a2d.rows, d.a2d.cols, fun _ _ => some 0⟩
  let vals ← Meth.lift (gather f pix)
  let hi ← Meth.lift (Ortho.put zeros d.aind d.bind vals)
  let db ← Meth.lift (firstDiff d.bedges)
  let area ← Meth.lift (areas db d.aedges)
  Meth.lift (rest hi area)

/-- `remap` (DG:168-172). -/
noncomputable def remap (rest : Arr2 (Option ℝ) → List ℝ → Py (Arr2 (Option ℝ))) (f : List (Option ℝ))
    (w : Option (List ℝ)) : Meth (State Extra) (Arr2 (Option ℝ)) :=
  match w with
  | none => remap1 rest f
  | some w => do
    let fw ← Meth.lift (vzip omul f w)
    let a ← remap1 rest fw
    let b ← remap1 rest (w.map some)
    Meth.lift (a.zip odiv b)

/-- `clean` (DG:233-235). -/
def clean : Meth (State Extra) Unit := Meth.assign fun _ => init

/-- A call of a public method. -/
inductive Call
  | map (nside : ℤ)
  | setup (a : CapArgs)
  | remap (rest : Arr2 (Option ℝ) → List ℝ → Py (Arr2 (Option ℝ))) (f : List (Option ℝ)) (w : Option (List ℝ))
  | rotate (f : Arr2 (Option ℝ))
  | radial (f : Arr2 (Option ℝ)) (sigma w : Option (Arr2 ℝ))
  | clean

/-- The object after a call. -/
noncomputable def Call.run : Call → State Extra → State Extra
  | .map n, s => (setupMap n s).2
  | .setup a, s => (setupPolarCap ang2pix a s).2
  | .remap rest f w, s => (Dg.remap rest f w s).2
  | .rotate f, s => (rotatePolar f s).2
  | .radial f sg w, s => (polar2radial f sg w s).2
  | .clean, s => (Dg.clean s).2

/-- The object after a sequence of calls. -/
noncomputable def after (cs : List Call) : State Extra := cs.foldl (fun s c => c.run ang2pix s) init

end Dg

end Magpie.HealRing
