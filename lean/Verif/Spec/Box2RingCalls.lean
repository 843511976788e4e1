import Verif.Model.Box2RingCalls
import Verif.Spec.Box2Ring

/-!
# Sequences of calls on a `Box2Ring` object: what the properties speak of
-/

namespace Magpie.Spec
open Magpie.Box2Ring

variable {C : Type}

/-- The setup calls since the last `clean()`; `acc` are those made before. -/
def setups : List (Call C) → List C → List C
  | [], acc => acc
  | .setup c :: cs, acc => setups cs (acc ++ [c])
  | .clean :: cs, _ => setups cs []
  | .remap _ _ :: cs, acc => setups cs acc
  | .rotate _ :: cs, acc => setups cs acc
  | .getMask :: cs, acc => setups cs acc
  | .radial _ _ _ :: cs, acc => setups cs acc

/-- No setup call follows a call of `polar2radial` or `get_mask_in_bound` without a `clean()` in between;
`used` tells whether there was such a call before. -/
def SetupFirst : Bool → List (Call C) → Prop
  | _, [] => True
  | used, .setup _ :: cs => used = false ∧ SetupFirst false cs
  | _, .clean :: cs => SetupFirst false cs
  | used, .remap _ _ :: cs => SetupFirst used cs
  | used, .rotate _ :: cs => SetupFirst used cs
  | _, .getMask :: cs => SetupFirst true cs
  | _, .radial _ _ _ :: cs => SetupFirst true cs

end Magpie.Spec

namespace Magpie.Box2Ring
open Magpie.Radial

/-- The mask has only the values `0` and `1`. -/
def Mask01 (M : Arr2 ℝ) : Prop := ∀ i j, i < M.rows → j < M.cols → M.val i j = 0 ∨ M.val i j = 1

/-- The weights that count: those of pixels with mask `1`. -/
noncomputable def effW (M : Arr2 ℝ) (w : Option (Arr2 ℝ)) (i j : ℕ) : ℝ :=
  match w with
  | none => if M.val i j = 1 then 1 else 0
  | some w => if M.val i j = 1 then w.val i j else 0

end Magpie.Box2Ring

namespace Magpie.Dg
open Magpie.Box2Ring

/-- The last box set up; a call that fails its assertions has no effect. -/
def lastBox : List Setup → Option BoxArgs → Option BoxArgs
  | [], b => b
  | .box B :: cs, b => lastBox cs (if 0 < B.numx ∧ 0 < B.numy then some B else b)
  | .polar _ _ _ :: cs, b => lastBox cs b

open Classical in
/-- The last polar grid set up; a call that fails its assertions has no effect. -/
noncomputable def lastPolar : List Setup → Option (PolarArgs × ℕ × ℕ) → Option (PolarArgs × ℕ × ℕ)
  | [], p => p
  | .box _ :: cs, p => lastPolar cs p
  | .polar A mr mp :: cs, p => lastPolar cs (if PolarOk A then some (A, mr, mp) else p)

/-- The set up of a new object with these grids. -/
noncomputable def freshSetup (b : Option BoxArgs) (p : Option (PolarArgs × ℕ × ℕ)) : List Setup :=
  (b.map Setup.box).toList ++ (p.map fun p => Setup.polar p.1 p.2.1 p.2.2).toList

/-- No accepted call of `setup_polar` asks for a single bin. -/
def TwoBins (cs : List Setup) : Prop :=
  ∀ A mr mp, Setup.polar A mr mp ∈ cs → PolarOk A → 2 ≤ A.numr ∧ 2 ≤ A.nump

end Magpie.Dg
