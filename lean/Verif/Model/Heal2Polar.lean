import Verif.Model.Heal2Ring

/-!
# Model of the two `Heal2Polar` classes

`/repo/magpie/montecarlo/heal2polar.py` (MC) and `/repo/magpie/densegrid/heal2polar.py` (DG), in the way of
`Verif/Model/Heal2Ring.lean`.
-/

namespace Magpie.HealPolar
open Magpie.Radial Magpie.OneD Magpie.Remap Magpie.Coords Magpie.Cube Magpie.HealRing

/-- The attributes `x2d, y2d, center, alpha`. -/
structure Grid where
  x2d : Arr2 ℝ
  y2d : Arr2 ℝ
  center : ℝ × ℝ
  alpha : ℝ

/-- The attributes of a `Heal2Polar` object (MC:14-28, DG:13-36). `X` are those that only one of the
classes has. -/
structure State (X : Type) where
  nside : Option ℤ := none
  edges : Option Ortho.Edges := none
  dx : Option ℝ := none
  dy : Option ℝ := none
  grid : Option Grid := none
  extra : X

variable {X : Type}

/-- `setup_map` (MC:39-40, DG:47-48). -/
def setupMap (nside : ℤ) : Meth (State X) Unit := do
  Meth.lift (pyAssert (isNsideOk nside))
  Meth.assign fun s => { s with nside := some nside }

/-- The arguments of `setup_box` that both classes have. -/
structure BoxArgs where
  xLength : ℝ
  xGrid : ℤ
  center : List ℝ
  alpha : ℝ
  yLength : Option ℝ
  yGrid : Option ℤ

/-- `y_length` (MC:66-70, DG:79-83). -/
noncomputable def BoxArgs.yLen (a : BoxArgs) : ℝ :=
  a.yLength.getD (if a.xLength > Real.pi then Real.pi else a.xLength)

/-- `y_grid` (MC:74-75, DG:87-88). -/
def BoxArgs.yNum (a : BoxArgs) : ℤ := a.yGrid.getD a.xGrid

/-- The assertions (MC:63-78, DG:76-91). -/
noncomputable def checks (a : BoxArgs) : Py Unit := do
  pyAssert (a.xLength ≥ 0)
  pyAssert (a.xLength ≤ 2*Real.pi)
  pyAssert (a.xGrid > 0)
  match a.yLength with
  | none => pure ()
  | some l => do
    pyAssert (l ≥ 0)
    pyAssert (l ≤ Real.pi)
  match a.yGrid with
  | none => pure ()
  | some n => pyAssert (n > 0)
  pyAssert (a.center.length = 2)

/-- `xedges, yedges, xmid, ymid` (MC:80-83, DG:93-96). -/
noncomputable def boxEdges (a : BoxArgs) : Ortho.Edges :=
  let xedges := linspace (-a.xLength/2) (a.xLength/2) (a.xGrid.toNat + 1)
  let yedges := linspace (-a.yLen/2) (a.yLen/2) (a.yNum.toNat + 1)
  ⟨xedges, yedges, mids xedges, mids yedges⟩

/-- `x2d, y2d, center, alpha` (MC:86-88, DG:99-101). -/
noncomputable def mkGrid (e : Ortho.Edges) (a : BoxArgs) : Grid :=
  ⟨(meshgridXY e.xmid e.ymid).1, (meshgridXY e.xmid e.ymid).2, Box2Ring.centerOf a.center, a.alpha⟩

/-- The part of `setup_box` that both classes have (MC:63-88, DG:76-101). -/
noncomputable def setupGrid (a : BoxArgs) : Meth (State X) Unit := do
  Meth.lift (checks a)
  let e := boxEdges a
  Meth.assign fun s => { s with edges := some e }
  let dx ← Meth.lift (firstDiff e.xmid)
  Meth.assign fun s => { s with dx := some dx }
  let dy ← Meth.lift (firstDiff e.ymid)
  Meth.assign fun s => { s with dy := some dy }
  Meth.assign fun s => { s with grid := some (mkGrid e a) }

namespace Mc

/-- `ind_pixs` and `ind_ws`, entry by entry. -/
abbrev Weights := Arr2 (List ℕ × List ℝ)

/-- `__init__` (MC:14-28). -/
def init : State (Option Weights) := { extra := none }

/-- `setup_box` (MC:63-88). -/
noncomputable def setupBox (a : BoxArgs) : Meth (State (Option Weights)) Unit := setupGrid a

/-- `get_weights` (MC:103-129); `rest` is what is done with the random points (MC:115-123). -/
noncomputable def getWeights (rest : List ℝ × List ℝ → Py (List ℕ × List ℝ)) (mcSize : ℤ) :
    Meth (State (Option Weights)) Unit := do
  Meth.lift (pyAssert (mcSize > 1))
  let s ← Meth.self
  let g ← Meth.lift (need s.grid)
  let e ← Meth.lift (need s.edges)
  let t ← Meth.lift (Box2Ring.tabulate g.x2d.rows g.x2d.cols (fun i j => do
    let xMin ← getZ e.xedges j
    let xMax ← getZ e.xedges (j + 1)
    let yMax ← getZ e.yedges i
    let yMin ← getZ e.yedges (i + 1)
    let r ← randomsSky mcSize xMin xMax (Real.pi/2 - yMin) (Real.pi/2 - yMax)
    rest r) ([], []))
  Meth.assign fun s => { s with extra := some t }

/-- `remap` (MC:149-169). The value of a pixel (MC:155-161) is computed as in `Heal2Ring`; the branches
with a weight map (MC:163-167) are behind the assertion that fails. -/
noncomputable def remap (f : List (Option ℝ)) (w : Option (List ℝ)) :
    Meth (State (Option Weights)) (Arr2 (Option ℝ)) := do
  let s ← Meth.self
  let n ← Meth.lift (npixOf s.nside)
  Meth.lift (pyAssert (f.length = n))
  match w with
  | some w => Meth.lift (pyAssert (shapeEqNumber [w.length] n))
  | none => pure ()
  let g ← Meth.lift (need s.grid)
  let out ← Meth.lift (Box2Ring.tabulate g.x2d.rows g.x2d.cols (fun i j => do
    let wt ← need s.extra
    HealRing.Mc.pixel wt f i j) none)
  return out

/-- `clean` (MC:172-174). -/
def clean : Meth (State (Option Weights)) Unit := Meth.assign fun _ => init

/-- A call of a public method. -/
inductive Call
  | map (nside : ℤ)
  | setup (a : BoxArgs)
  | weights (rest : List ℝ × List ℝ → Py (List ℕ × List ℝ)) (mcSize : ℤ)
  | remap (f : List (Option ℝ)) (w : Option (List ℝ))
  | clean

/-- The object after a call. -/
noncomputable def Call.run : Call → State (Option Weights) → State (Option Weights)
  | .map n, s => (setupMap n s).2
  | .setup a, s => (setupBox a s).2
  | .weights rest n, s => (getWeights rest n s).2
  | .remap f w, s => (Mc.remap f w s).2
  | .clean, s => (Mc.clean s).2

/-- The object after a sequence of calls. -/
noncomputable def after (cs : List Call) : State (Option Weights) := cs.foldl (fun s c => c.run s) init

end Mc

namespace Dg

/-- The attributes from `rebin_x` to `rebin_yind` (DG:102-113). -/
structure Dense where
  rebinX : ℕ
  rebinY : ℕ
  xedges : List ℝ
  xmid : List ℝ
  yedges : List ℝ
  ymid : List ℝ
  x2d : Arr2 ℝ
  y2d : Arr2 ℝ
  xind : List ℕ
  yind : List ℕ

/-- The dense grid and `rebin_pix`. -/
abbrev Extra := Option Dense × Option (List ℕ)

/-- `__init__` (DG:13-36). -/
def init : State Extra := { extra := (none, none) }

/-- The arguments of `setup_box`; the rebin factors are taken to be natural numbers. -/
structure RebinArgs extends BoxArgs where
  rebinX : ℕ
  rebinY : ℕ

/-- The dense grid (DG:102-113). -/
noncomputable def mkDense (e : Ortho.Edges) (a : RebinArgs) : Dense :=
  let xedges := linspace (e.xedges.getD 0 0) (e.xedges.getLastD 0) (a.rebinX*e.xmid.length + 1)
  let xmid := mids xedges
  let yedges := linspace (e.yedges.getD 0 0) (e.yedges.getLastD 0) (a.rebinY*e.ymid.length + 1)
  let ymid := mids yedges
  let (x2d, y2d) := meshgridXY xmid ymid
  -- `rebin_yind, rebin_xind = np.meshgrid(np.arange(nx), np.arange(ny))`
  let yind : Arr2 ℕ := ⟨yedges.length - 1, xedges.length - 1, fun _ j => j⟩
  let xind : Arr2 ℕ := ⟨yedges.length - 1, xedges.length - 1, fun i _ => i⟩
  { rebinX := a.rebinX, rebinY := a.rebinY, xedges := xedges, xmid := xmid, yedges := yedges, ymid := ymid
    x2d := x2d, y2d := y2d, xind := Ortho.flatten xind, yind := Ortho.flatten yind }

variable (ang2pix : ℤ → ℝ → ℝ → ℕ)

/-- `setup_box` (DG:76-120). -/
noncomputable def setupBox (a : RebinArgs) : Meth (State Extra) Unit := do
  setupGrid a.toBoxArgs
  let d := mkDense (boxEdges a.toBoxArgs) a
  Meth.assign fun s => { s with extra := (some d, s.extra.2) }
  let s ← Meth.self
  let pix ← Meth.lift (HealRing.Dg.skyPix ang2pix s.nside (Ortho.flatten d.x2d)
    ((Ortho.flatten d.y2d).map fun y => Real.pi/2 - y) 0 (Real.pi/2) a.alpha (Box2Ring.centerOf a.center))
  Meth.assign fun s => { s with extra := (s.extra.1, some pix) }

/-- `_remap` (DG:136-148); `rest` is what is done with the areas (DG:140-148). -/
noncomputable def remap1 (rest : Arr2 (Option ℝ) → List ℝ → Py (Arr2 (Option ℝ))) (f : List (Option ℝ)) :
    Meth (State Extra) (Arr2 (Option ℝ)) := do
  let s ← Meth.self
  let d ← Meth.lift (need s.extra.1)
  let pix ← Meth.lift (need s.extra.2)
  let zeros : Arr2 (Option ℝ) := ⟨d.x2d.rows, d.x2d.cols, fun _ _ => some 0⟩
  let vals ← Meth.lift (gather f pix)
  let hi ← Meth.lift (Ortho.put zeros d.xind d.yind vals)
  let dx ← Meth.lift (firstDiff d.xedges)
  let area ← Meth.lift (areas dx (d.yedges.map fun y => y + Real.pi/2))
  Meth.lift (rest hi area)

/-- `remap` (DG:169-173). -/
noncomputable def remap (rest : Arr2 (Option ℝ) → List ℝ → Py (Arr2 (Option ℝ))) (f : List (Option ℝ))
    (w : Option (List ℝ)) : Meth (State Extra) (Arr2 (Option ℝ)) :=
  match w with
  | none => remap1 rest f
  | some w => do
    let fw ← Meth.lift (vzip omul f w)
    let a ← remap1 rest fw
    let b ← remap1 rest (w.map some)
    Meth.lift (a.zip odiv b)

/-- `clean` (DG:176-178). -/
def clean : Meth (State Extra) Unit := Meth.assign fun _ => init

/-- A call of a public method. -/
inductive Call
  | map (nside : ℤ)
  | setup (a : RebinArgs)
  | remap (rest : Arr2 (Option ℝ) → List ℝ → Py (Arr2 (Option ℝ))) (f : List (Option ℝ)) (w : Option (List ℝ))
  | clean

/-- The object after a call. -/
noncomputable def Call.run : Call → State Extra → State Extra
  | .map n, s => (setupMap n s).2
  | .setup a, s => (setupBox ang2pix a s).2
  | .remap rest f w, s => (Dg.remap rest f w s).2
  | .clean, s => (Dg.clean s).2

/-- The object after a sequence of calls. -/
noncomputable def after (cs : List Call) : State Extra := cs.foldl (fun s c => c.run ang2pix s) init

end Dg

end Magpie.HealPolar
