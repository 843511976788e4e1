import Verif.Model.DgBox2Ring
import Verif.Model.McBox2Ring

/-!
# Sequences of calls on a `Box2Ring` object

A client calls the methods of one object in any order. An exception ends the call, and the client may go
on with other calls.
-/

namespace Magpie.Box2Ring
open Magpie.Radial

/-- The methods of a class; `C` are the calls that set up the object. -/
structure Cls (X C : Type) where
  setup : C → Meth (State X) Unit
  remap : Arr2 (Option ℝ) → Option (Arr2 ℝ) → Meth (State X) (Arr2 (Option ℝ))
  getMask : Meth (State X) Unit

/-- A call. -/
inductive Call (C : Type)
  | setup (c : C)
  | remap (f : Arr2 (Option ℝ)) (w : Option (Arr2 ℝ))
  | rotate (f : Arr2 (Option ℝ))
  | getMask
  | radial (f : Arr2 (Option ℝ)) (sigma w : Option (Arr2 ℝ))
  | clean

/-- What a call returns. -/
inductive Out
  | unit (r : Py Unit)
  | arr (r : Py (Arr2 (Option ℝ)))
  | radial (r : Py Radial)

variable {X C : Type}

/-- One call. -/
noncomputable def Cls.call (K : Cls X C) (c : Call C) (s : State X) : Out × State X :=
  match c with
  | .setup c => let r := K.setup c s; (.unit r.1, r.2)
  | .remap f w => let r := K.remap f w s; (.arr r.1, r.2)
  | .rotate f => let r := rotatePolar f s; (.arr r.1, r.2)
  | .getMask => let r := K.getMask s; (.unit r.1, r.2)
  | .radial f sigma w => let r := polar2radial K.getMask f sigma w s; (.radial r.1, r.2)
  | .clean => let r := clean s; (.unit r.1, r.2)

/-- A sequence of calls: what they return, and the object afterwards. -/
noncomputable def Cls.run (K : Cls X C) : List (Call C) → State X → List Out × State X
  | [], s => ([], s)
  | c :: cs, s =>
    let r := K.call c s
    let q := K.run cs r.2
    (r.1 :: q.1, q.2)

end Magpie.Box2Ring

namespace Magpie.Dg
open Magpie.Box2Ring

/-- Calls that set up a dense grid `Box2Ring` object. -/
inductive Setup
  | box (B : BoxArgs)
  | polar (A : PolarArgs) (rebinR rebinP : ℕ)

/-- The dense grid `Box2Ring` class. -/
noncomputable def cls : Cls Dense Setup where
  setup
    | .box B => setupBox B
    | .polar A mr mp => setupPolar A mr mp
  remap := remap
  getMask := getMaskInBound

end Magpie.Dg

namespace Magpie.Mc
open Magpie.Box2Ring

/-- Calls that set up a Monte Carlo `Box2Ring` object. -/
inductive Setup
  | box (B : BoxArgs)
  | lin (A : PolarArgs)
  | log (A : PolarArgs) (addzero : Bool)
  | weights (mcSize : ℕ) (draws : ℕ → ℕ → List ℝ × List ℝ)

/-- The Monte Carlo `Box2Ring` class. -/
noncomputable def cls : Cls Stored Setup where
  setup
    | .box B => setupBox B
    | .lin A => setupPolarLin A
    | .log A addzero => setupPolarLog A addzero
    | .weights n draws => getWeights n draws
  remap := remap
  getMask := getMaskInBound

end Magpie.Mc
