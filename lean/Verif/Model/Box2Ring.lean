import Verif.Model.Meth
import Verif.Model.Remap
import Verif.Model.Conversions
import Mathlib.Analysis.SpecialFunctions.Trigonometric.Basic

/-!
# What the two `Box2Ring` classes have in common

`/repo/magpie/montecarlo/box2ring.py` (MC) and `/repo/magpie/densegrid/box2ring.py` (DG) have the same
`setup_box`, `polar2radial` and `clean`. Numbers of bins are integers. Attributes that are always
assigned together, with nothing in between that can raise, are kept together. Printing (`verbose`) is
not modelled here; it is in `Verif/Model/Progress.lean`.
-/

namespace Magpie.Box2Ring
open Magpie.Radial Magpie.OneD Magpie.Remap Magpie.Coords

/-- The attributes assigned by `setup_box`. -/
structure Box where
  xedges : List ℝ
  yedges : List ℝ
  xmid : List ℝ
  ymid : List ℝ
  dx : ℝ
  dy : ℝ
  x2d : Arr2 ℝ
  y2d : Arr2 ℝ

/-- `redges, pedges, rmid, pmid`. -/
structure Edges where
  redges : List ℝ
  pedges : List ℝ
  rmid : List ℝ
  pmid : List ℝ

/-- `r2d, p2d, center, phi_shift`. -/
structure Polar where
  r2d : Arr2 ℝ
  p2d : Arr2 ℝ
  center : ℝ × ℝ
  phiShift : ℝ

/-- The attributes of a `Box2Ring` object (MC:47-70, DG:15-43). `X` are those that only one of the
classes has. -/
structure State (X : Type) where
  box : Option Box := none
  edges : Option Edges := none
  dr : Option (Arg ℝ) := none
  dp : Option ℝ := none
  polar : Option Polar := none
  extra : Option X := none
  area2d : Option (Arr2 ℝ) := none
  pixarea : Option ℝ := none
  maskInBound : Option (Arr2 ℝ) := none

/-- `__init__` (MC:45-70, DG:13-43). -/
def init {X : Type} : State X := {}

variable {X : Type}

/-- Arguments of `setup_box`. -/
structure BoxArgs where
  xmin : ℝ
  xmax : ℝ
  numx : ℤ
  ymin : ℝ
  ymax : ℝ
  numy : ℤ

/-- The values computed by `setup_box` (MC:93-99, DG:66-72); `xedges` has at least two entries. -/
noncomputable def BoxArgs.box (a : BoxArgs) : Box :=
  let xedges := linspace a.xmin a.xmax (a.numx.toNat + 1)
  let yedges := linspace a.ymin a.ymax (a.numy.toNat + 1)
  let xmid := mids xedges
  let ymid := mids yedges
  { xedges := xedges, yedges := yedges, xmid := xmid, ymid := ymid
    dx := xedges.getD 1 0 - xedges.getD 0 0
    dy := yedges.getD 1 0 - yedges.getD 0 0
    x2d := (meshgridXY xmid ymid).1
    y2d := (meshgridXY xmid ymid).2 }

/-- `setup_box` (MC:91-99, DG:64-72). -/
noncomputable def setupBox (a : BoxArgs) : Meth (State X) Unit := do
  Meth.lift (pyAssert (a.numx > 0))
  Meth.lift (pyAssert (a.numy > 0))
  Meth.assign fun s => { s with box := some a.box }

/-- Arguments of `setup_polar_lin` and `setup_polar_log`. -/
structure PolarArgs where
  rmin : ℝ
  rmax : ℝ
  numr : ℤ
  nump : ℤ
  pmin : ℝ := 0
  pmax : ℝ := 2*Real.pi
  center : List ℝ := [0, 0]
  phiShift : ℝ := 0

/-- The assertions of `setup_polar_lin` after the first (MC:127-135), which are also those
of `setup_polar_log` (MC:174-182) and of the DG `setup_polar` (DG:103-111). -/
noncomputable def polarChecks (a : PolarArgs) : Py Unit := do
  pyAssert (a.rmin < a.rmax)
  pyAssert (a.numr > 0)
  pyAssert (a.pmin ≥ 0)
  pyAssert (a.pmin < 2*Real.pi)
  pyAssert (a.pmin < a.pmax)
  pyAssert (a.pmax > 0)
  pyAssert (a.pmax ≤ 2*Real.pi)
  pyAssert (a.nump > 0)
  pyAssert (a.center.length = 2)

/-- The centre, once its length has been checked. -/
def centerOf (c : List ℝ) : ℝ × ℝ := (c.getD 0 0, c.getD 1 0)

/-- `redges, pedges, rmid, pmid` from the edges. -/
noncomputable def mkEdges (redges pedges : List ℝ) : Edges :=
  ⟨redges, pedges, mids redges, mids pedges⟩

/-- `r2d, p2d, center, phi_shift`. -/
noncomputable def mkPolar (e : Edges) (a : PolarArgs) : Polar :=
  ⟨(meshgridXY e.rmid e.pmid).1, (meshgridXY e.rmid e.pmid).2, centerOf a.center, a.phiShift⟩

/-- `rotate_polar` (MC:323-324, DG:231-232): `coords.rotate_polar` takes two arguments, not three. -/
def rotatePolar (f : Arr2 (Option ℝ)) : Meth (State X) (Arr2 (Option ℝ)) := do
  let s ← Meth.self
  match s.polar with
  | none => Meth.lift (.error .assertionError)
  | some p =>
    Meth.lift (pyAssert (f.sameShape p.p2d))
    Meth.lift (.error .typeError)

/-- What `polar2radial` returns, and the contents of the caller's `w` array afterwards. -/
structure Radial where
  f : List (Option ℝ)
  sigma : Option (List (Option ℝ))
  callerW : Option (Arr2 ℝ)

/-- The arrays after masking (MC:357-367, DG:265-275): `mask.all()` is `True` iff no entry is zero, and
`True != 1.` is `False`. -/
noncomputable def applyMask (mask : Arr2 ℝ) (f : Arr2 (Option ℝ)) (sigma w : Option (Arr2 ℝ)) :
    Py (Arr2 (Option ℝ) × Option (Arr2 ℝ) × Option (Arr2 ℝ) × Option (Arr2 ℝ)) :=
  let all := (List.range mask.rows).all fun i => (List.range mask.cols).all fun j => decide (mask.val i j ≠ 0)
  if all = true then .ok (f, sigma, w, w)
  else do
    let f ← f.zip (fun x m => if m ≠ 1 then some 0 else x) mask
    let sigma ← match sigma with
      | none => pure none
      | some sg => do
        let sg ← sg.zip (fun x m => if m ≠ 1 then 0 else x) mask
        pure (some sg)
    match w with
    | none => return (f, sigma, some mask, none)
    | some w => do
      let w ← w.zip (· * ·) mask
      return (f, sigma, some w, some w)

/-- `area2d` is computed if it is `None` (MC:350-351, DG:258-259). -/
noncomputable def storeArea : Meth (State X) Unit := do
  let s ← Meth.self
  match s.area2d with
  | some _ => pure ()
  | none => do
    let e ← Meth.lift (need s.edges)
    let a ← Meth.lift (getPolarArea2d e.redges e.pedges)
    Meth.assign fun s => { s with area2d := some a }

/-- `pixarea` is computed if it is `None` (MC:352-353, DG:260-261). -/
noncomputable def storePix : Meth (State X) Unit := do
  let s ← Meth.self
  match s.pixarea with
  | some _ => pure ()
  | none => do
    let b ← Meth.lift (need s.box)
    let a ← Meth.lift (getPixarea b.xedges b.yedges)
    Meth.assign fun s => { s with pixarea := some a }

/-- The mask is computed if it is `None` (MC:355-356, DG:263-264). -/
def storeMask (getMask : Meth (State X) Unit) : Meth (State X) Unit := do
  let s ← Meth.self
  match s.maskInBound with
  | some _ => pure ()
  | none => getMask

/-- Masking and the radial mean (MC:357-374, DG:265-282). -/
noncomputable def radialOf (p : Polar) (area2d : Arr2 ℝ) (pixarea : ℝ) (mask : Arr2 ℝ) (f : Arr2 (Option ℝ))
    (sigma w : Option (Arr2 ℝ)) : Py Radial := do
  let (f, sigma, w, callerW) ← applyMask mask f sigma w
  match sigma with
  | none =>
    let r ← Radial.polar2radial f w
    return ⟨r, none, callerW⟩
  | some sg =>
    pyAssert (sg.sameShape p.p2d)
    let r ← Radial.polar2radial f w
    let e ← polar2radialSigma f area2d pixarea sg w
    return ⟨r, some e, callerW⟩

/-- `polar2radial` (MC:350-374, DG:258-282), with `getMask` the `get_mask_in_bound` of the class. The
kind of exception for arrays of unequal shapes is simplified (`ValueError`). -/
noncomputable def polar2radial (getMask : Meth (State X) Unit) (f : Arr2 (Option ℝ)) (sigma w : Option (Arr2 ℝ)) :
    Meth (State X) Radial := do
  storeArea
  storePix
  let s ← Meth.self
  match s.polar with
  | none => Meth.lift (.error .assertionError)
  | some p => do
    Meth.lift (pyAssert (f.sameShape p.p2d))
    storeMask getMask
    let s ← Meth.self
    let mask ← Meth.lift (need s.maskInBound)
    let area2d ← Meth.lift (need s.area2d)
    let pixarea ← Meth.lift (need s.pixarea)
    Meth.lift (radialOf p area2d pixarea mask f sigma w)

/-- `clean` (MC:377-379, DG:285-287). -/
def clean : Meth (State X) Unit := Meth.assign fun _ => init

/-- A table computed entry by entry; the first exception (row by row) is raised. -/
def tabulate {α : Type} (rows cols : ℕ) (g : ℕ → ℕ → Py α) (dflt : α) : Py (Arr2 α) := do
  let vals ← pyMap (fun i => pyMap (g i) (List.range cols)) (List.range rows)
  return ⟨rows, cols, fun i j => (vals.getD i []).getD j dflt⟩

end Magpie.Box2Ring
