import Verif.Proof.Box2RingState
import Verif.Spec.Box2RingCalls

/-!
# Lemmas on sequences of calls on `Box2Ring` objects
-/

set_option linter.unusedSimpArgs false
set_option linter.unusedVariables false
set_option linter.unusedSectionVars false

namespace Magpie.Box2Ring
open Magpie Magpie.Radial Magpie.OneD Magpie.Spec Finset

variable {X C : Type}

/-- A method that only reads the grids. -/
def ReadOnly {α : Type} (m : Meth (State X) α) : Prop := ∀ s, (m s).2 = s ∧ (m (core s)).1 = (m s).1

theorem ReadOnly.lift {α : Type} (p : Py α) : ReadOnly (Meth.lift p : Meth (State X) α) := fun s => ⟨rfl, rfl⟩

theorem ReadOnly.bind {α β : Type} {m : Meth (State X) α} {k : α → Meth (State X) β} (hm : ReadOnly m)
    (hk : ∀ a, ReadOnly (k a)) : ReadOnly (m >>= k) := by
  intro s
  obtain ⟨h1, h2⟩ := hm s
  obtain ⟨h3, h4⟩ := hm (core s)
  rcases e1 : m s with ⟨r, s'⟩
  rcases e2 : m (core s) with ⟨r', s''⟩
  rw [e1] at h1 h2
  rw [e2] at h2 h3
  simp only at h1 h2 h3
  subst h1 h2 h3
  simp only [Meth.bind_apply, e1, e2]
  cases r' with
  | error e => exact ⟨rfl, rfl⟩
  | ok a => exact hk a s'

theorem ReadOnly.reader {α : Type} (P : State X → Py α) (h : ∀ s, P (core s) = P s) :
    ReadOnly (Meth.self >>= fun s => Meth.lift (P s)) := fun s => ⟨rfl, h s⟩

/-- What is needed of a class. -/
structure Cls.Good (K : Cls X C) (G : State X → Py (Arr2 ℝ)) : Prop where
  mask : MaskBy K.getMask G
  remap : ∀ f w, ReadOnly (K.remap f w)
  setup : ∀ c s, (K.setup c s).2.area2d = s.area2d ∧ (K.setup c s).2.pixarea = s.pixarea ∧
    (K.setup c s).2.maskInBound = s.maskInBound

theorem rotate_state (f : Arr2 (Option ℝ)) (s : State X) : (rotatePolar f s).2 = s := by
  unfold rotatePolar
  simp only [Meth.bind_apply, Meth.self_apply]
  cases s.polar with
  | none => rfl
  | some p =>
    simp only [Meth.bind_apply, Meth.lift_apply]
    cases pyAssert (f.sameShape p.p2d) <;> rfl

theorem core_idem {s : State X} (h1 : s.area2d = none) (h2 : s.pixarea = none) (h3 : s.maskInBound = none) :
    core s = s := by
  cases s
  simp only at h1 h2 h3
  subst h1 h2 h3
  rfl

/-- The object after setup calls only. -/
noncomputable def Cls.setupAll (K : Cls X C) : List C → State X → State X
  | [], s => s
  | c :: cs, s => K.setupAll cs (K.setup c s).2

theorem setupAll_append (K : Cls X C) (l : List C) (c : C) (s : State X) :
    K.setupAll (l ++ [c]) s = (K.setup c (K.setupAll l s)).2 := by
  induction l generalizing s with
  | nil => rfl
  | cons d l ih => exact ih _

theorem setupAll_run (K : Cls X C) (l : List C) (s : State X) :
    (K.run (l.map Call.setup) s).2 = K.setupAll l s := by
  induction l generalizing s with
  | nil => rfl
  | cons d l ih => exact ih _

theorem setupAll_core {K : Cls X C} {G : State X → Py (Arr2 ℝ)} (hK : K.Good G) (l : List C) (s : State X)
    (hs : core s = s) : core (K.setupAll l s) = K.setupAll l s := by
  induction l generalizing s with
  | nil => exact hs
  | cons d l ih =>
    apply ih
    obtain ⟨h1, h2, h3⟩ := hK.setup d s
    have e1 : s.area2d = none := by rw [← hs]; rfl
    have e2 : s.pixarea = none := by rw [← hs]; rfl
    have e3 : s.maskInBound = none := by rw [← hs]; rfl
    exact core_idem (h1.trans e1) (h2.trans e2) (h3.trans e3)

/-- The state after a sequence of calls in which the setup calls come first. -/
theorem run_state {K : Cls X C} {G : State X → Py (Arr2 ℝ)} (hK : K.Good G) (cs : List (Call C)) :
    ∀ (acc : List C) (used : Bool) (s : State X), SetupFirst used cs →
      core s = K.setupAll acc init → Coherent G s → (used = false → s = K.setupAll acc init) →
      core (K.run cs s).2 = K.setupAll (setups cs acc) init ∧ Coherent G (K.run cs s).2 := by
  induction cs with
  | nil => intro acc used s _ h1 h2 _; exact ⟨h1, h2⟩
  | cons c cs ih =>
    intro acc used s hf h1 h2 h3
    cases c with
    | setup c =>
      have hs := h3 hf.1
      have e : (K.call (.setup c) s).2 = K.setupAll (acc ++ [c]) init := by
        rw [setupAll_append, ← hs]; rfl
      have hc := setupAll_core hK (acc ++ [c]) init rfl
      refine ih (acc ++ [c]) false _ hf.2 (by rw [e]; exact hc) ?_ (fun _ => e)
      rw [e, ← hc]
      exact coherent_core G _
    | remap f w =>
      have e : (K.call (.remap f w) s).2 = s := (hK.remap f w s).1
      exact ih acc used _ hf (by rw [e]; exact h1) (by rw [e]; exact h2) (by rw [e]; exact h3)
    | rotate f =>
      have e : (K.call (.rotate f) s).2 = s := rotate_state f s
      exact ih acc used _ hf (by rw [e]; exact h1) (by rw [e]; exact h2) (by rw [e]; exact h3)
    | getMask =>
      have e : core (K.call .getMask s).2 = core s ∧ Coherent G (K.call .getMask s).2 := by
        show core (K.getMask s).2 = core s ∧ Coherent G (K.getMask s).2
        rw [hK.mask.run]
        cases hg : G s with
        | error e => exact ⟨rfl, h2⟩
        | ok m =>
          refine ⟨rfl, h2.area, h2.pix, ?_⟩
          show Except.ok m = G (core { s with maskInBound := some m })
          rw [← hg]
          exact hK.mask.congr _ _ rfl
      exact ih acc true _ hf (by rw [e.1]; exact h1) e.2 (by simp)
    | radial f sg w =>
      have ha := polar2radial_after hK.mask f sg w s
      exact ih acc true _ hf (ha.core_eq.trans h1) (ha.coherent hK.mask h2) (by simp)
    | clean =>
      exact ih [] false _ hf rfl (coherent_core G init) (fun _ => rfl)

/-- `remap` after any sequence of calls. -/
theorem run_core {K : Cls X C} {G : State X → Py (Arr2 ℝ)} (hK : K.Good G)
    (hset : ∀ c s t, core s = core t → core (K.setup c s).2 = core (K.setup c t).2) (cs : List (Call C)) :
    ∀ (acc : List C) (s : State X), core s = K.setupAll acc init →
      core (K.run cs s).2 = K.setupAll (setups cs acc) init := by
  induction cs with
  | nil => intro acc s h1; exact h1
  | cons c cs ih =>
    intro acc s h1
    cases c with
    | setup c =>
      have hc := setupAll_core hK acc init rfl
      have hc' := setupAll_core hK (acc ++ [c]) init rfl
      refine ih (acc ++ [c]) _ ?_
      rw [← hc', setupAll_append]
      exact hset c _ _ (by rw [h1, hc])
    | remap f w =>
      have e : (K.call (.remap f w) s).2 = s := (hK.remap f w s).1
      exact ih acc _ (by rw [e]; exact h1)
    | rotate f =>
      have e : (K.call (.rotate f) s).2 = s := rotate_state f s
      exact ih acc _ (by rw [e]; exact h1)
    | getMask =>
      have e : core (K.call .getMask s).2 = core s := by
        show core (K.getMask s).2 = core s
        rw [hK.mask.run]
        cases hg : G s <;> rfl
      exact ih acc _ (by rw [e]; exact h1)
    | radial f sg w =>
      have ha := polar2radial_after hK.mask f sg w s
      exact ih acc _ (ha.core_eq.trans h1)
    | clean => exact ih [] _ rfl

end Magpie.Box2Ring

namespace Magpie.Dg
open Magpie Magpie.Radial Magpie.OneD Magpie.Spec Magpie.Box2Ring Finset

theorem remap1_readOnly (f : Arr2 (Option ℝ)) : ReadOnly (remap1 f) := by
  unfold remap1
  simp only [Meth.lift_bind_lift]
  exact ReadOnly.reader _ fun s => rfl

theorem remap_readOnly (f : Arr2 (Option ℝ)) (w : Option (Arr2 ℝ)) : ReadOnly (remap f w) := by
  unfold remap
  cases w with
  | none => exact remap1_readOnly f
  | some w =>
    exact (ReadOnly.lift _).bind fun _ => (remap1_readOnly _).bind fun _ => (remap1_readOnly _).bind fun _ =>
      ReadOnly.lift _

/-- The mask computed from the grids. -/
noncomputable def maskG (s : State) : Py (Arr2 ℝ) :=
  match s.box, s.polar with
  | some b, some _ => do
    let m ← (remap ⟨b.x2d.rows, b.x2d.cols, fun _ _ => some 1⟩ none s).1
    return ⟨m.rows, m.cols, fun i j => (m.val i j).getD 0⟩
  | _, _ => .error .assertionError

theorem maskBy : MaskBy getMaskInBound maskG := by
  constructor
  · intro s
    unfold getMaskInBound maskG
    simp only [Meth.bind_apply, Meth.self_apply]
    cases hb : s.box with
    | none => rfl
    | some b =>
      cases hp : s.polar with
      | none => rfl
      | some p =>
        simp only [Meth.bind_apply]
        have h := (remap_readOnly ⟨b.x2d.rows, b.x2d.cols, fun _ _ => some 1⟩ none s).1
        rcases e : remap ⟨b.x2d.rows, b.x2d.cols, fun _ _ => some 1⟩ none s with ⟨r, s'⟩
        rw [e] at h
        simp only at h
        subst h
        cases r with
        | error e => rfl
        | ok a =>
          simp only [Meth.assign_apply, bind, Except.bind, pure, Except.pure, hb, hp]
  · intro s
    unfold maskG
    have e1 : (Box2Ring.core s).box = s.box := rfl
    have e2 : (Box2Ring.core s).polar = s.polar := rfl
    rw [e1, e2]
    cases hb : s.box with
    | none => rfl
    | some b =>
      cases hp : s.polar with
      | none => rfl
      | some p =>
        simp only
        rw [(remap_readOnly _ none s).2]

/-- `setup_polar` as one step: it stops with an exception, or goes on to the end. -/
theorem setupPolar_run (A : PolarArgs) (mr mp : ℕ) (s : State) :
    setupPolar A mr mp s = match (do pyAssert (A.rmin ≥ 0); polarChecks A : Py Unit) with
      | .error e => (.error e, s)
      | .ok _ => match firstDiff (linEdges A).rmid with
        | .error e => (.error e, { s with edges := some (linEdges A) })
        | .ok dr => match firstDiff (linEdges A).pmid with
          | .error e => (.error e, { s with edges := some (linEdges A), dr := some (.scalar dr) })
          | .ok dp => (.ok (), { s with
              edges := some (linEdges A), dr := some (.scalar dr), dp := some dp
              polar := some (mkPolar (linEdges A) A)
              extra := some (mkDense (linEdges A) A.phiShift mr mp) }) := by
  unfold setupPolar
  simp only [Meth.bind_apply, Meth.lift_apply, Meth.assign_apply, bind, Except.bind]
  cases pyAssert (A.rmin ≥ 0) with
  | error e => rfl
  | ok _ =>
    simp only
    cases polarChecks A with
    | error e => rfl
    | ok _ =>
      simp only
      cases h1 : firstDiff (linEdges A).rmid with
      | error e =>
        have h1' := h1
        unfold linEdges at h1'
        rw [h1']; rfl
      | ok dr =>
        have h1' := h1
        unfold linEdges at h1'
        rw [h1']
        simp only
        cases h2 : firstDiff (linEdges A).pmid with
        | error e =>
          have h2' := h2
          unfold linEdges at h2'
          rw [h2']; rfl
        | ok dp =>
          have h2' := h2
          unfold linEdges at h2'
          rw [h2']; rfl

theorem setupBox_run {X : Type} (B : BoxArgs) (s : Box2Ring.State X) :
    setupBox B s = if 0 < B.numx ∧ 0 < B.numy then (.ok (), { s with box := some B.box })
      else (.error .assertionError, s) := by
  unfold setupBox pyAssert
  simp only [Meth.bind_apply, Meth.lift_apply, gt_iff_lt]
  by_cases h1 : 0 < B.numx <;> by_cases h2 : 0 < B.numy <;> simp [h1, h2]

theorem cls_good : cls.Good maskG := by
  refine ⟨maskBy, remap_readOnly, ?_⟩
  intro c s
  cases c with
  | box B =>
    show (setupBox B s).2.area2d = _ ∧ (setupBox B s).2.pixarea = _ ∧ (setupBox B s).2.maskInBound = _
    rw [setupBox_run]
    split_ifs <;> exact ⟨rfl, rfl, rfl⟩
  | polar A mr mp =>
    show (setupPolar A mr mp s).2.area2d = _ ∧ (setupPolar A mr mp s).2.pixarea = _ ∧
      (setupPolar A mr mp s).2.maskInBound = _
    rw [setupPolar_run]
    split
    · exact ⟨rfl, rfl, rfl⟩
    · split
      · exact ⟨rfl, rfl, rfl⟩
      · split <;> exact ⟨rfl, rfl, rfl⟩

theorem cls_setup_core (c : Setup) (s t : State) (h : Box2Ring.core s = Box2Ring.core t) :
    Box2Ring.core (cls.setup c s).2 = Box2Ring.core (cls.setup c t).2 := by
  rcases s with ⟨b, e, dr, dp, p, x, a1, a2, a3⟩
  rcases t with ⟨b', e', dr', dp', p', x', a1', a2', a3'⟩
  unfold Box2Ring.core at h
  simp only [Box2Ring.State.mk.injEq, and_true] at h
  obtain ⟨rfl, rfl, rfl, rfl, rfl, rfl⟩ := h
  cases c with
  | box B =>
    show Box2Ring.core (setupBox B _).2 = Box2Ring.core (setupBox B _).2
    rw [setupBox_run, setupBox_run]
    split_ifs <;> rfl
  | polar A mr mp =>
    show Box2Ring.core (setupPolar A mr mp _).2 = Box2Ring.core (setupPolar A mr mp _).2
    rw [setupPolar_run, setupPolar_run]
    split
    · rfl
    · split
      · rfl
      · split <;> rfl

theorem polarChecks_iff (A : PolarArgs) :
    ((do pyAssert (A.rmin ≥ 0); polarChecks A : Py Unit) = .ok () ↔ PolarOk A) ∧
    ((do pyAssert (A.rmin ≥ 0); polarChecks A : Py Unit) = .ok () ∨
      (do pyAssert (A.rmin ≥ 0); polarChecks A : Py Unit) = .error .assertionError) := by
  constructor
  · constructor
    · unfold polarChecks pyAssert
      simp only [bind, Except.bind]
      split_ifs with h1 h2 h3 h4 h5 h6 h7 h8 h9 h10 <;> simp
      exact ⟨h1, h2, h3, h4, h5, h6, h7, h8, h9, h10⟩
    · intro h
      unfold pyAssert
      rw [if_pos h.rmin]
      exact polarChecks_ok h
  · have key : ∀ (p : Prop) [Decidable p] (k : Py Unit), (k = .ok () ∨ k = .error .assertionError) →
        ((pyAssert p >>= fun _ => k) = .ok () ∨ (pyAssert p >>= fun _ => k) = .error .assertionError) := by
      intro p _ k hk
      unfold pyAssert
      split_ifs
      · exact hk
      · exact Or.inr rfl
    unfold polarChecks
    iterate 9 (refine key _ _ ?_)
    unfold pyAssert
    split_ifs
    · exact Or.inl rfl
    · exact Or.inr rfl

/-- The object with these grids and nothing else. -/
noncomputable def form (b : Option BoxArgs) (p : Option (PolarArgs × ℕ × ℕ)) : State :=
  { box := b.map BoxArgs.box
    edges := p.map fun p => linEdges p.1
    dr := p.map fun p => .scalar (midAt p.1.rmin p.1.rmax p.1.numr.toNat 1 - midAt p.1.rmin p.1.rmax p.1.numr.toNat 0)
    dp := p.map fun p => midAt p.1.pmin p.1.pmax p.1.nump.toNat 1 - midAt p.1.pmin p.1.pmax p.1.nump.toNat 0
    polar := p.map fun p => mkPolar (linEdges p.1) p.1
    extra := p.map fun p => mkDense (linEdges p.1) p.1.phiShift p.2.1 p.2.2 }

open Classical in
theorem setupAll_form (cs : List Setup) : ∀ (b : Option BoxArgs) (p : Option (PolarArgs × ℕ × ℕ)),
    TwoBins cs → cls.setupAll cs (form b p) = form (lastBox cs b) (lastPolar cs p) := by
  induction cs with
  | nil => intro b p _; rfl
  | cons c cs ih =>
    intro b p h2
    have h2' : TwoBins cs := fun A mr mp hm => h2 A mr mp (List.mem_cons_of_mem _ hm)
    cases c with
    | box B =>
      show cls.setupAll cs (setupBox B (form b p)).2 = form (lastBox cs _) (lastPolar cs p)
      rw [← ih _ _ h2', setupBox_run]
      split_ifs <;> rfl
    | polar A mr mp =>
      show cls.setupAll cs (setupPolar A mr mp (form b p)).2 = form (lastBox cs b) (lastPolar cs _)
      rw [← ih _ _ h2', setupPolar_run]
      by_cases hA : PolarOk A
      · obtain ⟨hr, hp⟩ := h2 A mr mp (List.mem_cons_self) hA
        rw [(polarChecks_iff A).1.mpr hA, if_pos hA]
        have e1 : firstDiff (linEdges A).rmid = _ := firstDiff_mids A.rmin A.rmax A.numr.toNat (by omega)
        have e2 : firstDiff (linEdges A).pmid = _ := firstDiff_mids A.pmin A.pmax A.nump.toNat (by omega)
        simp only [e1, e2]
        rfl
      · have : (do pyAssert (A.rmin ≥ 0); polarChecks A : Py Unit) = .error .assertionError :=
          ((polarChecks_iff A).2).resolve_left fun h => hA ((polarChecks_iff A).1.mp h)
        rw [this, if_neg hA]

open Classical in
theorem lastPolar_ok (cs : List Setup) : ∀ p, (∀ q, p = some q → PolarOk q.1 ∧ 2 ≤ q.1.numr ∧ 2 ≤ q.1.nump) →
    TwoBins cs → ∀ q, lastPolar cs p = some q → PolarOk q.1 ∧ 2 ≤ q.1.numr ∧ 2 ≤ q.1.nump := by
  induction cs with
  | nil => intro p h _ q hq; exact h q hq
  | cons c cs ih =>
    intro p h h2 q hq
    have h2' : TwoBins cs := fun A mr mp hm => h2 A mr mp (List.mem_cons_of_mem _ hm)
    cases c with
    | box B => exact ih p h h2' q hq
    | polar A mr mp =>
      refine ih _ ?_ h2' q hq
      intro q' hq'
      split_ifs at hq' with hA
      · rw [Option.some.injEq] at hq'
        subst hq'
        exact ⟨hA, h2 A mr mp (List.mem_cons_self) hA⟩
      · exact h q' hq'

theorem lastBox_ok (cs : List Setup) : ∀ b, (∀ B, b = some B → 0 < B.numx ∧ 0 < B.numy) →
    ∀ B, lastBox cs b = some B → 0 < B.numx ∧ 0 < B.numy := by
  induction cs with
  | nil => intro p h q hq; exact h q hq
  | cons c cs ih =>
    intro p h q hq
    cases c with
    | polar A mr mp => exact ih p h q hq
    | box B =>
      refine ih _ ?_ q hq
      intro q' hq'
      split_ifs at hq' with hA
      · rw [Option.some.injEq] at hq'
        subst hq'
        exact hA
      · exact h q' hq'

/-- Only the last grids matter. -/
theorem setupAll_latest (cs : List Setup) (h2 : TwoBins cs) :
    cls.setupAll cs init = cls.setupAll (freshSetup (lastBox cs none) (lastPolar cs none)) init := by
  have h0 : (init : State) = form none none := rfl
  have hb := lastBox_ok cs none (by simp)
  have hp := lastPolar_ok cs none (by simp) h2
  have h3 : TwoBins (freshSetup (lastBox cs none) (lastPolar cs none)) := by
    intro A mr mp hm hA
    unfold freshSetup at hm
    cases e : lastPolar cs none with
    | none => rw [e] at hm; cases e' : lastBox cs none <;> rw [e'] at hm <;> simp at hm
    | some q =>
      have := hp q e
      rw [e] at hm
      cases e' : lastBox cs none <;> rw [e'] at hm <;> simp at hm <;> rw [hm.1] <;> exact this.2
  rw [h0, setupAll_form cs none none h2, setupAll_form _ none none h3]
  congr 1
  · cases e' : lastBox cs none with
    | none => cases e : lastPolar cs none <;> rfl
    | some B =>
      have := hb B e'
      cases e : lastPolar cs none <;> simp [freshSetup, lastBox, this]
  · cases e' : lastPolar cs none with
    | none => cases e : lastBox cs none <;> rfl
    | some B =>
      have := (hp B e').1
      cases e : lastBox cs none <;> simp [freshSetup, lastPolar, this]

end Magpie.Dg

namespace Magpie.Mc
open Magpie Magpie.Radial Magpie.OneD Magpie.Spec Magpie.Box2Ring Finset

theorem remap_readOnly (f : Arr2 (Option ℝ)) (w : Option (Arr2 ℝ)) : ReadOnly (remap f w) := by
  have : remap f w = Meth.self >>= fun s => Meth.lift (match s.box with
      | none => .error .assertionError
      | some b => do
        pyAssert (f.sameShape b.x2d)
        match w with
        | none => pure ()
        | some w => pyAssert (w.sameShape b.x2d)
        let p ← need s.polar
        let wt ← need s.extra
        tabulate p.r2d.rows p.r2d.cols (storedPixel wt f w) none) := by
    funext s
    unfold remap
    simp only [Meth.bind_apply, Meth.self_apply, Meth.lift_apply]
    cases s.box with
    | none => rfl
    | some b =>
      simp only [Meth.bind_apply, Meth.lift_apply, bind, Except.bind]
      cases pyAssert (f.sameShape b.x2d) with
      | error e => rfl
      | ok _ =>
        simp only
        cases w with
        | none =>
          simp only
          cases need s.polar with
          | error e => rfl
          | ok p =>
            simp only
            cases need s.extra <;> rfl
        | some w =>
          simp only
          cases pyAssert (w.sameShape b.x2d) with
          | error e => rfl
          | ok _ =>
            simp only
            cases need s.polar with
            | error e => rfl
            | ok p =>
              simp only
              cases need s.extra <;> rfl
  rw [this]
  exact ReadOnly.reader _ fun s => rfl

/-- The mask computed from the grids. -/
noncomputable def maskG (s : State) : Py (Arr2 ℝ) :=
  match s.box, s.polar with
  | some b, some _ => do
    let m ← (remap ⟨b.x2d.rows, b.x2d.cols, fun _ _ => some 1⟩ none s).1
    return ⟨m.rows, m.cols, fun i j => (m.val i j).getD 0⟩
  | _, _ => .error .assertionError

theorem maskBy : MaskBy getMaskInBound maskG := by
  constructor
  · intro s
    unfold getMaskInBound maskG
    simp only [Meth.bind_apply, Meth.self_apply]
    cases hb : s.box with
    | none => rfl
    | some b =>
      cases hp : s.polar with
      | none => rfl
      | some p =>
        simp only [Meth.bind_apply]
        have h := (remap_readOnly ⟨b.x2d.rows, b.x2d.cols, fun _ _ => some 1⟩ none s).1
        rcases e : remap ⟨b.x2d.rows, b.x2d.cols, fun _ _ => some 1⟩ none s with ⟨r, s'⟩
        rw [e] at h
        simp only at h
        subst h
        cases r with
        | error e => rfl
        | ok a =>
          simp only [Meth.assign_apply, bind, Except.bind, pure, Except.pure, hb, hp]
  · intro s
    unfold maskG
    have e1 : (Box2Ring.core s).box = s.box := rfl
    have e2 : (Box2Ring.core s).polar = s.polar := rfl
    rw [e1, e2]
    cases hb : s.box with
    | none => rfl
    | some b =>
      cases hp : s.polar with
      | none => rfl
      | some p =>
        simp only
        rw [(remap_readOnly _ none s).2]

/-- Methods that change neither the areas nor the mask. -/
def KeepsCache {α : Type} (m : Meth State α) : Prop :=
  ∀ s, (m s).2.area2d = s.area2d ∧ (m s).2.pixarea = s.pixarea ∧ (m s).2.maskInBound = s.maskInBound

theorem KeepsCache.lift {α : Type} (p : Py α) : KeepsCache (Meth.lift p) := fun s => ⟨rfl, rfl, rfl⟩

theorem KeepsCache.self : KeepsCache Meth.self := fun s => ⟨rfl, rfl, rfl⟩

theorem KeepsCache.bind {α β : Type} {m : Meth State α} {k : α → Meth State β} (hm : KeepsCache m)
    (hk : ∀ a, KeepsCache (k a)) : KeepsCache (m >>= k) := by
  intro s
  obtain ⟨h1, h2, h3⟩ := hm s
  simp only [Meth.bind_apply]
  rcases e : m s with ⟨r, s'⟩
  rw [e] at h1 h2 h3
  cases r with
  | error e => exact ⟨h1, h2, h3⟩
  | ok a =>
    obtain ⟨g1, g2, g3⟩ := hk a s'
    exact ⟨g1.trans h1, g2.trans h2, g3.trans h3⟩

theorem cls_good : cls.Good maskG := by
  refine ⟨maskBy, remap_readOnly, ?_⟩
  intro c
  cases c with
  | box B =>
    intro s
    show (setupBox B s).2.area2d = _ ∧ (setupBox B s).2.pixarea = _ ∧ (setupBox B s).2.maskInBound = _
    rw [Dg.setupBox_run]
    split_ifs <;> exact ⟨rfl, rfl, rfl⟩
  | lin A =>
    show KeepsCache (setupPolarLin A)
    unfold setupPolarLin
    refine (KeepsCache.lift _).bind fun _ => (KeepsCache.lift _).bind fun _ => ?_
    refine KeepsCache.bind (fun s => ⟨rfl, rfl, rfl⟩) fun _ => (KeepsCache.lift _).bind fun _ => ?_
    refine KeepsCache.bind (fun s => ⟨rfl, rfl, rfl⟩) fun _ => (KeepsCache.lift _).bind fun _ => ?_
    exact KeepsCache.bind (fun s => ⟨rfl, rfl, rfl⟩) fun _ => (fun s => ⟨rfl, rfl, rfl⟩)
  | log A z =>
    show KeepsCache (setupPolarLog A z)
    unfold setupPolarLog
    refine (KeepsCache.lift _).bind fun _ => (KeepsCache.lift _).bind fun _ => ?_
    refine KeepsCache.bind (fun s => ⟨rfl, rfl, rfl⟩) fun _ => ?_
    refine KeepsCache.bind (fun s => ⟨rfl, rfl, rfl⟩) fun _ => (KeepsCache.lift _).bind fun _ => ?_
    exact KeepsCache.bind (fun s => ⟨rfl, rfl, rfl⟩) fun _ => (fun s => ⟨rfl, rfl, rfl⟩)
  | weights n draws =>
    show KeepsCache (getWeights n draws)
    unfold getWeights
    refine (KeepsCache.lift _).bind fun _ => KeepsCache.self.bind fun s => ?_
    refine (KeepsCache.lift _).bind fun _ => (KeepsCache.lift _).bind fun _ => ?_
    refine (KeepsCache.lift _).bind fun _ => (KeepsCache.lift _).bind fun _ => ?_
    refine (KeepsCache.lift _).bind fun _ => (KeepsCache.lift _).bind fun _ => ?_
    refine (KeepsCache.lift _).bind fun _ => (fun s => ⟨rfl, rfl, rfl⟩)

end Magpie.Mc
