import Verif.Model.Box2RingCalls
import Verif.Model.Heal2Ring

/-!
# Property C95: the `rotate_polar` methods of the remapping classes

The property (the polar map comes back turned by the given angle) is false of the code: the methods pass
three arguments to `coords.rotate_polar`, which takes two.
-/

namespace Magpie.Props
open Magpie Magpie.Radial

/-- C95 is violated: on a `Box2Ring` object in any state, `rotate_polar` raises for every map, and leaves
the object as it was. -/
theorem C95_violated_box {X : Type} (s : Box2Ring.State X) (f : Arr2 (Option ℝ)) :
    ∃ e, Box2Ring.rotatePolar f s = (.error e, s) := by
  unfold Box2Ring.rotatePolar
  simp only [Meth.bind_apply, Meth.self_apply]
  cases s.polar with
  | none => exact ⟨_, rfl⟩
  | some p =>
    simp only [Meth.bind_apply, Meth.lift_apply, pyAssert]
    by_cases h : f.sameShape p.p2d
    · rw [if_pos h]; exact ⟨_, rfl⟩
    · rw [if_neg h]; exact ⟨_, rfl⟩

/-- When the map has the shape of the polar grid, so that the assertion is met, the call is the
`TypeError` of a call with too many arguments. -/
theorem C95_violated_box_type {X : Type} (s : Box2Ring.State X) (p : Box2Ring.Polar) (hs : s.polar = some p)
    (f : Arr2 (Option ℝ)) (hf : f.sameShape p.p2d) :
    Box2Ring.rotatePolar f s = (.error .typeError, s) := by
  unfold Box2Ring.rotatePolar
  simp [Meth.bind_apply, Meth.self_apply, hs, Meth.lift_apply, pyAssert, hf]

/-- C95 is violated: on a `Heal2Ring` object in any state, `rotate_polar` raises for every map, and leaves
the object as it was. -/
theorem C95_violated_heal {X : Type} (s : HealRing.State X) (f : Arr2 (Option ℝ)) :
    ∃ e, HealRing.rotatePolar f s = (.error e, s) := by
  unfold HealRing.rotatePolar
  simp only [Meth.bind_apply, Meth.self_apply]
  cases s.polar with
  | none => exact ⟨_, rfl⟩
  | some p =>
    simp only [Meth.bind_apply, Meth.lift_apply, pyAssert]
    by_cases h : f.sameShape p.p2d
    · rw [if_pos h]; exact ⟨_, rfl⟩
    · rw [if_neg h]; exact ⟨_, rfl⟩

theorem C95_violated_heal_type {X : Type} (s : HealRing.State X) (p : Box2Ring.Polar) (hs : s.polar = some p)
    (f : Arr2 (Option ℝ)) (hf : f.sameShape p.p2d) :
    HealRing.rotatePolar f s = (.error .typeError, s) := by
  unfold HealRing.rotatePolar
  simp [Meth.bind_apply, Meth.self_apply, hs, Meth.lift_apply, pyAssert, hf]

/-- The hypotheses are met: a 1 × 2 map on a grid of one radius and two angles. -/
example : ∃ p : Box2Ring.Polar,
    (Arr2.mk 1 2 fun _ _ => some (1 : ℝ)).sameShape p.p2d :=
  ⟨⟨⟨1, 2, fun _ _ => 0⟩, ⟨1, 2, fun _ _ => 0⟩, (0, 0), 0⟩, by simp [Arr2.sameShape]⟩

end Magpie.Props
