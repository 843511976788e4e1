import Verif.Model.DgCube2Shell
import Verif.Model.McCube2Shell
import Verif.Model.Heal2Ortho
import Verif.Model.PointOfView
import Verif.Model.Heal2Ring
import Verif.Model.Heal2Polar

/-!
# Sequences of calls on the objects other than `Box2Ring`

A client calls the methods of one object in any order. An exception ends the call, and the client may go
on with other calls.
-/

namespace Magpie
open Magpie.Radial

/-- A sequence of calls: what they return, and the object afterwards. -/
def runCalls {S C O : Type} (call : C → S → O × S) : List C → S → List O × S
  | [], s => ([], s)
  | c :: cs, s =>
    let r := call c s
    let q := runCalls call cs r.2
    (r.1 :: q.1, q.2)

/-- A call that returns a value made into a call with a result of a larger type. -/
def Meth.call {S α O : Type} (f : Py α → O) (m : Meth S α) (s : S) : O × S := (f (m s).1, (m s).2)

namespace DgCube
open Magpie.Cube

/-- A call of a method of the dense grid `Cube2Shell` (densegrid/cube2shell.py:39-172). -/
inductive Call
  | cube (a : CubeArgs)
  | polar (a : ShellArgs)
  | remap (f : Arr3 (Option ℝ))
  | clean

/-- What a call returns. -/
inductive Out
  | unit (r : Py Unit)
  | arr (r : Py (Arr2 (Option ℝ)))

/-- One call (densegrid/cube2shell.py:39-172). -/
noncomputable def call (hp : Hp) : Call → State → Out × State
  | .cube a => (setupCube a).call .unit
  | .polar a => (setupPolar a).call .unit
  | .remap f => (DgCube.remap hp f).call .arr
  | .clean => DgCube.clean.call .unit

end DgCube

namespace McCube
open Magpie.Cube

/-- A call of a method of the Monte Carlo `Cube2Shell` (montecarlo/cube2shell.py:39-221). -/
inductive Call
  | cube (a : CubeArgs)
  | lin (a : ShellArgs)
  | log (a : ShellArgs) (addzero : Bool)
  | weights (mcSize : ℕ) (draws : ℕ → ℕ → Draw)
  | remap (f : Arr3 (Option ℝ)) (w : Option (Arr3 ℝ))
  | clean

/-- What a call returns. -/
inductive Out
  | unit (r : Py Unit)
  | arr (r : Py (Arr2 (Option ℝ)))

/-- The call did not raise an exception. -/
def Out.Ok : Out → Prop
  | .unit r => r = .ok ()
  | .arr r => ∃ a, r = .ok a

/-- One call (montecarlo/cube2shell.py:39-221). -/
noncomputable def call : Call → State → Out × State
  | .cube a => (setupCube a).call .unit
  | .lin a => (setupPolarLin a).call .unit
  | .log a z => (setupPolarLog a z).call .unit
  | .weights n d => (getWeights n d).call .unit
  | .remap f w => (McCube.remap f w).call .arr
  | .clean => McCube.clean.call .unit

end McCube

namespace Ortho

/-- A call of a method of `Heal2Ortho` (densegrid/heal2ortho.py:45-203). -/
inductive Call
  | map (nside : ℤ)
  | box (a : BoxArgs)
  | remap (f : List (Option ℝ)) (w : Option (List ℝ))
  | transform (phi theta : ℝ)
  | transformArr (phi theta : List ℝ)
  | clean

/-- What a call returns. -/
inductive Out
  | unit (r : Py Unit)
  | arr (r : Py (Arr2 (Option ℝ)))
  | point (r : Py (Option (ℝ × ℝ)))
  | points (r : Py (List (Option (ℝ × ℝ)) × List ℝ))

/-- One call (densegrid/heal2ortho.py:45-203). -/
noncomputable def call (ang2pix : ℤ → ℝ → ℝ → ℕ) : Call → State → Out × State
  | .map n => (setupMap n).call .unit
  | .box a => (setupBox ang2pix a).call .unit
  | .remap f w => (Ortho.remap f w).call .arr
  | .transform p t => (Ortho.transform p t).call .point
  | .transformArr p t => (Ortho.transformArr p t).call .points
  | .clean => Ortho.clean.call .unit

end Ortho

namespace Pov

/-- A call of a method of `PointOfView` (densegrid/pointofview.py:20-116). -/
inductive Call
  | setup (camera point : ℝ × ℝ × ℝ) (display spin : ℝ)
  | transform (x y z : List ℝ)
  | reverse (bx by' dist : List ℝ)
  | clean

/-- What a call returns. -/
inductive Out
  | unit (r : Py Unit)
  | rows (r : Py (List Row))
  | points (r : Py (List (Option (ℝ × ℝ × ℝ))))

/-- One call (densegrid/pointofview.py:20-116). -/
noncomputable def call : Call → State → Out × State
  | .setup c p d s => (setup c p d s).call .unit
  | .transform x y z => (transform x y z).call .rows
  | .reverse x y d => (reverse x y d).call .points
  | .clean => clean.call .unit

end Pov
end Magpie
