import Verif.Proof.Box2Ring

/-!
# Lemmas on the state of `Box2Ring` objects
-/

set_option linter.unusedSimpArgs false
set_option linter.unusedVariables false
set_option linter.unusedSectionVars false

namespace Magpie.Meth

theorem lift_bind_lift {S α β : Type} (p : Py α) (q : α → Py β) :
    ((lift p >>= fun a => lift (q a)) : Meth S β) = lift (p >>= q) := by
  funext s
  cases p <;> rfl

end Magpie.Meth

namespace Magpie.Box2Ring
open Magpie Magpie.Radial Magpie.OneD Magpie.Spec Finset

variable {X : Type}

/-- The state without the stored areas and mask. -/
def core (s : State X) : State X := { s with area2d := none, pixarea := none, maskInBound := none }

/-- The areas used by `polar2radial`. -/
noncomputable def areaOf (s : State X) : Py (Arr2 ℝ) :=
  match s.area2d with
  | some a => .ok a
  | none => do
    let e ← need s.edges
    getPolarArea2d e.redges e.pedges

/-- The pixel area used by `polar2radial`. -/
noncomputable def pixOf (s : State X) : Py ℝ :=
  match s.pixarea with
  | some a => .ok a
  | none => do
    let b ← need s.box
    getPixarea b.xedges b.yedges

/-- The mask used by `polar2radial`, if `G` computes it. -/
def maskOf (G : State X → Py (Arr2 ℝ)) (s : State X) : Py (Arr2 ℝ) :=
  match s.maskInBound with
  | some m => .ok m
  | none => G s

/-- `getMask` stores what `G` computes from the grids. -/
structure MaskBy (getMask : Meth (State X) Unit) (G : State X → Py (Arr2 ℝ)) : Prop where
  run : ∀ s, getMask s = match G s with
    | .ok m => (.ok (), { s with maskInBound := some m })
    | .error e => (.error e, s)
  core : ∀ s, G (core s) = G s

theorem MaskBy.congr {getMask : Meth (State X) Unit} {G : State X → Py (Arr2 ℝ)} (h : MaskBy getMask G)
    (s t : State X) (e : Box2Ring.core s = Box2Ring.core t) : G s = G t := by
  rw [← h.core s, ← h.core t, e]

/-- The possible new states. -/
inductive After (G : State X → Py (Arr2 ℝ)) (s : State X) : State X → Prop
  | none : After G s s
  | area (a : Arr2 ℝ) (h : areaOf s = .ok a) : After G s { s with area2d := some a }
  | pix (a : Arr2 ℝ) (h : areaOf s = .ok a) (p : ℝ) (hp : pixOf s = .ok p) :
      After G s { s with area2d := some a, pixarea := some p }
  | mask (a : Arr2 ℝ) (h : areaOf s = .ok a) (p : ℝ) (hp : pixOf s = .ok p) (m : Arr2 ℝ)
      (hm : maskOf G s = .ok m) :
      After G s { s with area2d := some a, pixarea := some p, maskInBound := some m }

/-- `polar2radial` in the form of the steps above. -/
noncomputable def p2rSteps (G : State X → Py (Arr2 ℝ)) (f : Arr2 (Option ℝ)) (sigma w : Option (Arr2 ℝ))
    (s : State X) : Py Radial × State X :=
  match areaOf s with
  | .error e => (.error e, s)
  | .ok a =>
    match pixOf s with
    | .error e => (.error e, { s with area2d := some a })
    | .ok px =>
      match s.polar with
      | none => (.error .assertionError, { s with area2d := some a, pixarea := some px })
      | some p =>
        if f.sameShape p.p2d then
          match maskOf G s with
          | .error e => (.error e, { s with area2d := some a, pixarea := some px })
          | .ok m => (radialOf p a px m f sigma w,
              { s with area2d := some a, pixarea := some px, maskInBound := some m })
        else (.error .assertionError, { s with area2d := some a, pixarea := some px })

theorem polar2radial_steps {getMask : Meth (State X) Unit} {G : State X → Py (Arr2 ℝ)} (h : MaskBy getMask G)
    (f : Arr2 (Option ℝ)) (sigma w : Option (Arr2 ℝ)) (s : State X) :
    polar2radial getMask f sigma w s = p2rSteps G f sigma w s := by
  have hm := h.run
  have hc := h.congr
  have e1 : ∀ s : State X, storeArea s = match areaOf s with
      | .ok a => (.ok (), { s with area2d := some a })
      | .error e => (.error e, s) := by
    intro s
    rcases s with ⟨box, edges, dr, dp, polar, extra, area2d, pixarea, mask⟩
    unfold storeArea areaOf
    cases area2d with
    | some a => rfl
    | none =>
      cases edges with
      | none => rfl
      | some e =>
        simp only [Meth.bind_apply, Meth.self_apply, Meth.lift_apply, need_some, bind, Except.bind]
        cases getPolarArea2d e.redges e.pedges <;> rfl
  have e2 : ∀ s : State X, storePix s = match pixOf s with
      | .ok a => (.ok (), { s with pixarea := some a })
      | .error e => (.error e, s) := by
    intro s
    rcases s with ⟨box, edges, dr, dp, polar, extra, area2d, pixarea, mask⟩
    unfold storePix pixOf
    cases pixarea with
    | some a => rfl
    | none =>
      cases box with
      | none => rfl
      | some b =>
        simp only [Meth.bind_apply, Meth.self_apply, Meth.lift_apply, need_some, bind, Except.bind]
        cases getPixarea b.xedges b.yedges <;> rfl
  have e3 : ∀ s : State X, storeMask getMask s = match maskOf G s with
      | .ok a => (.ok (), { s with maskInBound := some a })
      | .error e => (.error e, s) := by
    intro s
    rcases s with ⟨box, edges, dr, dp, polar, extra, area2d, pixarea, mask⟩
    unfold storeMask maskOf
    cases mask with
    | some a => rfl
    | none => 
      simp only [Meth.bind_apply, Meth.self_apply]
      exact hm _
  unfold polar2radial p2rSteps
  simp only [Meth.bind_apply, Meth.self_apply, e1]
  cases ha : areaOf s with
  | error e => rfl
  | ok a =>
    simp only [e2]
    have hpx : pixOf { s with area2d := some a } = pixOf s := rfl
    rw [hpx]
    cases hp : pixOf s with
    | error e => rfl
    | ok px =>
      simp only
      cases hpol : s.polar with
      | none => rfl
      | some p =>
        simp only [Meth.bind_apply, Meth.lift_apply]
        by_cases hsh : f.sameShape p.p2d
        · rw [if_pos hsh]
          have : pyAssert (f.sameShape p.p2d) = .ok () := by unfold pyAssert; rw [if_pos hsh]
          simp only [this, e3]
          have hmk : maskOf G { s with area2d := some a, pixarea := some px } = maskOf G s := by
            unfold maskOf
            simp only
            cases s.maskInBound with
            | some m => rfl
            | none => exact hc _ _ rfl
          rw [hpol] at hmk
          rw [hmk]
          cases hmm : maskOf G s with
          | error e => rfl
          | ok m => rfl
        · have : pyAssert (f.sameShape p.p2d) = .error .assertionError := by unfold pyAssert; rw [if_neg hsh]
          rw [if_neg hsh]
          simp only [this]

theorem polar2radial_after {getMask : Meth (State X) Unit} {G : State X → Py (Arr2 ℝ)} (h : MaskBy getMask G)
    (f : Arr2 (Option ℝ)) (sigma w : Option (Arr2 ℝ)) (s : State X) :
    After G s (polar2radial getMask f sigma w s).2 := by
  rw [polar2radial_steps h]
  unfold p2rSteps
  split
  · exact .none
  · rename_i a ha
    split
    · exact .area a ha
    · rename_i px hp
      split
      · exact .pix a ha px hp
      · split
        · split
          · exact .pix a ha px hp
          · rename_i m hm
            exact .mask a ha px hp m hm
        · exact .pix a ha px hp

/-- The stored areas and mask are those of the grids. -/
structure Coherent (G : State X → Py (Arr2 ℝ)) (s : State X) : Prop where
  area : areaOf s = areaOf (core s)
  pix : pixOf s = pixOf (core s)
  mask : maskOf G s = maskOf G (core s)

theorem coherent_core (G : State X → Py (Arr2 ℝ)) (s : State X) : Coherent G (core s) := ⟨rfl, rfl, rfl⟩

theorem After.core_eq {G : State X → Py (Arr2 ℝ)} {s t : State X} (h : After G s t) : core t = core s := by
  cases h <;> rfl

theorem After.coherent {getMask : Meth (State X) Unit} {G : State X → Py (Arr2 ℝ)} (hG : MaskBy getMask G)
    {s t : State X} (h : After G s t) (hs : Coherent G s) : Coherent G t := by
  cases h with
  | none => exact hs
  | area a ha =>
    refine ⟨ha.symm.trans hs.area, hs.pix, ?_⟩
    refine Eq.trans ?_ hs.mask
    unfold maskOf
    simp only
    cases s.maskInBound with
    | some m => rfl
    | none => exact hG.congr _ _ rfl
  | pix a ha p hp =>
    refine ⟨ha.symm.trans hs.area, hp.symm.trans hs.pix, ?_⟩
    refine Eq.trans ?_ hs.mask
    unfold maskOf
    simp only
    cases s.maskInBound with
    | some m => rfl
    | none => exact hG.congr _ _ rfl
  | mask a ha p hp m hm =>
    exact ⟨ha.symm.trans hs.area, hp.symm.trans hs.pix, hm.symm.trans hs.mask⟩

/-- With coherent areas and mask the result is that without any stored. -/
theorem polar2radial_core {getMask : Meth (State X) Unit} {G : State X → Py (Arr2 ℝ)} (hG : MaskBy getMask G)
    (f : Arr2 (Option ℝ)) (sigma w : Option (Arr2 ℝ)) (s : State X) (hs : Coherent G s) :
    (polar2radial getMask f sigma w s).1 = (polar2radial getMask f sigma w (core s)).1 := by
  rw [polar2radial_steps hG, polar2radial_steps hG]
  unfold p2rSteps
  rw [← hs.area, ← hs.pix, ← hs.mask]
  cases areaOf s with
  | error e => rfl
  | ok a =>
    simp only
    cases pixOf s with
    | error e => rfl
    | ok px =>
      have : (core s).polar = s.polar := rfl
      simp only [this]
      cases s.polar with
      | none => rfl
      | some p =>
        simp only
        split_ifs
        · cases maskOf G s <;> rfl
        · rfl

end Magpie.Box2Ring
