import Verif.Proof.PointOfView
import Verif.Model.Heal2Ortho

/-!
# Array calls of sky functions are scalar calls, point by point
-/

set_option linter.unusedSimpArgs false
set_option linter.unusedVariables false

namespace Magpie.Coords
open Real Magpie.Pov

/-- A scalar and an array function that do the same to every point: both raise, both return NaN, or both
return the value of one function. -/
def Uni (sc : ℝ → ℝ → Py (Option (ℝ × ℝ)))
    (ar : List ℝ → List ℝ → Py (List (Option ℝ) × List (Option ℝ))) : Prop :=
  (∃ e, (∀ p t, sc p t = .error e) ∧
    ∀ {ι : Type} (l : List ι), l ≠ [] → ∀ p t : ι → ℝ, ar (l.map p) (l.map t) = .error e) ∨
  ((∀ p t, sc p t = .ok none) ∧
    ∀ {ι : Type} (l : List ι), l ≠ [] → ∀ p t : ι → ℝ,
      ar (l.map p) (l.map t) = .ok (l.map fun _ => none, l.map fun _ => none)) ∨
  (∃ F : ℝ → ℝ → ℝ × ℝ, (∀ p t, sc p t = .ok (some (F p t))) ∧
    ∀ {ι : Type} (l : List ι), l ≠ [] → ∀ p t : ι → ℝ,
      ar (l.map p) (l.map t) = .ok (l.map fun i => some (F (p i) (t i)).1, l.map fun i => some (F (p i) (t i)).2))

theorem mapM_error {α β : Type} {f : α → Py β} {e : PyErr} (l : List α) (hne : l ≠ []) (h : ∀ a ∈ l, f a = .error e) :
    l.mapM f = .error e := by
  cases l with
  | nil => exact absurd rfl hne
  | cons a l => simp [List.mapM_cons, h a (by simp), bind, Except.bind]

theorem mapM_ok {α β : Type} {f : α → Py β} {g : α → β} (l : List α) (h : ∀ a ∈ l, f a = .ok (g a)) :
    l.mapM f = .ok (l.map g) := by
  induction l with
  | nil => rfl
  | cons a l ih =>
    rw [List.mapM_cons, h a (by simp), ih fun b hb => h b (by simp [hb])]
    rfl

theorem rotate_uni (pE tE pS tS : ℝ) :
    Uni (fun p t => rotate p t pE tE pS tS) (fun p t => rotateArr p t pE tE pS tS) := by
  cases hc : rotateChecks pE tE pS tS with
  | error e =>
    left
    refine ⟨e, fun p t => ?_, fun l _ p t => ?_⟩
    · simp only [rotate, hc, bind, Except.bind]
    · simp only [rotateArr, hc, bind, Except.bind]
  | ok u =>
    right
    have key : ∀ {ι : Type} (l : List ι), l ≠ [] → ∀ (p t : ι → ℝ) (f : ℝ → ℝ → Option (ℝ × ℝ)),
        (∀ p t, rotate p t pE tE pS tS = .ok (f p t)) →
        rotateArr (l.map p) (l.map t) pE tE pS tS
          = .ok (l.map fun i => (f (p i) (t i)).map Prod.fst, l.map fun i => (f (p i) (t i)).map Prod.snd) := by
      intro ι l hne p t f h
      have := rotateArr_eq_map (l.map fun i => (p i, t i)) pE tE pS tS (fun q => f q.1 q.2) (by simpa using hne) hc
        (fun q _ => h q.1 q.2)
      simpa only [List.map_map, Function.comp_def] using this
    cases hm : rotateMats pE tE pS tS with
    | none =>
      left
      have h : ∀ p t, rotate p t pE tE pS tS = .ok ((fun _ _ => none : ℝ → ℝ → Option (ℝ × ℝ)) p t) := fun p t => by
        simp only [rotate, hc, hm, bind, Except.bind]; rfl
      exact ⟨h, fun l hne p t => by simpa using key l hne p t _ h⟩
    | some m =>
      right
      have h : ∀ p t, ∃ q : ℝ × ℝ, rotate p t pE tE pS tS = .ok (some q) := fun p t => by
        simp only [rotate, hc, hm, bind, Except.bind, cart2sphere_eq]
        exact ⟨_, rfl⟩
      choose F hF using h
      exact ⟨F, hF, fun l hne p t => by simpa using key l hne p t (fun p t => some (F p t)) hF⟩

theorem phiShift_uni (d : ℝ) :
    (∃ e, (∀ p, phiShift p d = .error e) ∧ ∀ l, phiShiftArr l d = .error e) ∨
    (∃ F : ℝ → ℝ, (∀ p, phiShift p d = .ok (F p)) ∧ ∀ {ι : Type} (l : List ι) (p : ι → ℝ),
      phiShiftArr (l.map p) d = .ok (l.map fun i => F (p i))) := by
  by_cases h : d > -2*π ∧ d < 2*π
  · right
    have hs : ∀ p, ∃ q, phiShift p d = .ok q := fun p => by
      simp only [phiShift, pyAssert, if_pos h, bind, Except.bind]; exact ⟨_, rfl⟩
    choose F hF using hs
    refine ⟨F, hF, fun l p => ?_⟩
    rw [phiShiftArr_eq_map (l.map p) d F (fun x _ => hF x) h.1 h.2, List.map_map]
    rfl
  · left
    refine ⟨.assertionError, fun p => ?_, fun l => ?_⟩
    · simp only [phiShift, pyAssert, if_neg h, bind, Except.bind]
    · simp only [phiShiftArr, pyAssert, if_neg h, bind, Except.bind]

/-- The arrays returned by an array call. -/
def SkyArr.out (s : SkyArr) : List (Option ℝ) × List (Option ℝ) := (s.phi, s.theta)

theorem shift_uni (pS tS pE tE : ℝ) :
    Uni (fun p t => shift p t pS tS pE tE) (fun p t => (shiftArr p t pS tS pE tE).map SkyArr.out) := by
  cases hc : shiftChecks pS tS pE tE with
  | error e =>
    left
    refine ⟨e, fun p t => ?_, fun l _ p t => ?_⟩
    · simp only [shift, hc, bind, Except.bind]
    · simp only [shiftArr, hc, bind, Except.bind, Except.map]
  | ok u =>
    rcases phiShift_uni (pE - pS) with ⟨e, h1, h2⟩ | ⟨F, h1, h2⟩
    · left
      refine ⟨e, fun p t => ?_, fun l _ p t => ?_⟩
      · simp only [shift, hc, h1, bind, Except.bind]
      · simp only [shiftArr, hc, h2, bind, Except.bind, Except.map]
    · by_cases ht : tS = tE
      · right; right
        subst ht
        refine ⟨fun p t => (F p, t), fun p t => ?_, fun l _ p t => ?_⟩
        · simp only [shift, hc, h1, bind, Except.bind, ne_eq, not_true_eq_false, if_false]; rfl
        · simp only [shiftArr, hc, h2, bind, Except.bind, Except.map, ne_eq, not_true_eq_false, if_false, pure,
            Except.pure, SkyArr.out, List.map_map, Function.comp_def]
      · have hsc : ∀ p t, shift p t pS tS pE tE = rotate (F p) t pE tE pE tS := fun p t => by
          simp only [shift, hc, h1, bind, Except.bind, ne_eq, ht, not_false_eq_true, if_true]
        have har : ∀ {ι : Type} (l : List ι) (p t : ι → ℝ), (shiftArr (l.map p) (l.map t) pS tS pE tE).map SkyArr.out
            = rotateArr (l.map fun i => F (p i)) (l.map t) pE tE pE tS := fun l p t => by
          simp only [shiftArr, hc, h2, bind, Except.bind, ne_eq, ht, not_false_eq_true, if_true]
          cases rotateArr (l.map fun i => F (p i)) (l.map t) pE tE pE tS with
          | error e => rfl
          | ok r => rfl
        rcases rotate_uni pE tE pE tS with ⟨e, k1, k2⟩ | ⟨k1, k2⟩ | ⟨G, k1, k2⟩
        · left
          exact ⟨e, fun p t => (hsc p t).trans (k1 _ _), fun l hne p t => (har l p t).trans (k2 l hne _ _)⟩
        · right; left
          exact ⟨fun p t => (hsc p t).trans (k1 _ _), fun l hne p t => (har l p t).trans (k2 l hne _ _)⟩
        · right; right
          exact ⟨fun p t => G (F p) t, fun p t => (hsc p t).trans (k1 _ _),
            fun l hne p t => (har l p t).trans (k2 l hne _ _)⟩

theorem mapM_id_some {ι : Type} (l : List ι) (f : ι → ℝ) : (l.map fun i => some (f i)).mapM id = some (l.map f) :=
  finite_map l f

theorem mapM_id_none {ι : Type} (l : List ι) (hne : l ≠ []) : (l.map fun _ => (none : Option ℝ)).mapM id = none := by
  cases l with
  | nil => exact absurd rfl hne
  | cons a l => simp [List.mapM_cons]

theorem spin_uni (pc tc a : ℝ) :
    Uni (fun p t => spin p t pc tc a) (fun p t => (spinArr p t pc tc a).map SkyArr.out) := by
  by_cases c1 : pc ≥ 0 ∧ pc ≤ 2*π
  swap
  · left
    exact ⟨.assertionError, fun p t => by simp only [spin, pyAssert, if_neg c1, bind, Except.bind],
      fun l _ p t => by simp only [spinArr, pyAssert, if_neg c1, bind, Except.bind, Except.map]⟩
  by_cases c2 : tc ≥ 0 ∧ tc ≤ π
  swap
  · left
    exact ⟨.assertionError, fun p t => by simp only [spin, pyAssert, if_pos c1, if_neg c2, bind, Except.bind],
      fun l _ p t => by simp only [spinArr, pyAssert, if_pos c1, if_neg c2, bind, Except.bind, Except.map]⟩
  by_cases c3 : a ≥ 0 ∧ a ≤ 2*π
  swap
  · left
    exact ⟨.assertionError, fun p t => by simp only [spin, pyAssert, if_pos c1, if_pos c2, if_neg c3, bind, Except.bind],
      fun l _ p t => by simp only [spinArr, pyAssert, if_pos c1, if_pos c2, if_neg c3, bind, Except.bind, Except.map]⟩
  have hsc : ∀ p t, spin p t pc tc a = (do
      match ← shift p t pc tc pc 0 with
      | none =>
        pyAssert (a > -2*π ∧ a < 2*π)
        return none
      | some (newPhi, newTheta) =>
        let newPhi ← phiShift newPhi a
        shift newPhi newTheta pc 0 pc tc) := fun p t => by
    simp only [spin, pyAssert, if_pos c1, if_pos c2, if_pos c3, bind, Except.bind]
    rfl
  have har : ∀ p t, spinArr p t pc tc a = (do
      let s1 ← shiftArr p t pc tc pc 0
      match s1.phi.mapM id, s1.theta.mapM id with
      | some p, some t =>
        let p2 ← phiShiftArr p a
        let s2 ← shiftArr p2 t pc 0 pc tc
        return ⟨s2.phi, s2.theta, if tc ≠ 0 then s1.callerPhi else s2.callerPhi⟩
      | _, _ =>
        pyAssert (a > -2*π ∧ a < 2*π)
        return ⟨List.replicate p.length none, List.replicate p.length none, s1.callerPhi⟩) := fun p t => by
    simp only [spinArr, pyAssert, if_pos c1, if_pos c2, if_pos c3, bind, Except.bind]
    rfl
  rcases shift_uni pc tc pc 0 with ⟨e, h1, h2⟩ | ⟨h1, h2⟩ | ⟨F, h1, h2⟩
  · left
    refine ⟨e, fun p t => ?_, fun l hne p t => ?_⟩
    · simp only [hsc, h1, bind, Except.bind]
    · have := h2 l hne p t
      beta_reduce at this
      simp only [har]
      cases hs : shiftArr (l.map p) (l.map t) pc tc pc 0 with
      | error e' =>
        rw [hs] at this
        simp only [Except.map, Except.error.injEq] at this
        simp only [bind, Except.bind, Except.map, this]
      | ok s => rw [hs] at this; simp [Except.map] at this
  · have hok : ∀ {ι : Type} (l : List ι), l ≠ [] → ∀ p t : ι → ℝ, ∃ s, shiftArr (l.map p) (l.map t) pc tc pc 0 = .ok s ∧
        s.phi = l.map fun _ => none := fun l hne p t => by
      have := h2 l hne p t
      beta_reduce at this
      cases hs : shiftArr (l.map p) (l.map t) pc tc pc 0 with
      | error e' => rw [hs] at this; simp [Except.map] at this
      | ok s =>
        rw [hs] at this
        simp only [Except.map, SkyArr.out, Except.ok.injEq, Prod.mk.injEq] at this
        exact ⟨s, rfl, this.1⟩
    by_cases c4 : a > -2*π ∧ a < 2*π
    · right; left
      refine ⟨fun p t => ?_, fun l hne p t => ?_⟩
      · simp only [hsc, h1, bind, Except.bind, pyAssert, if_pos c4]; rfl
      · obtain ⟨s, hs, hp⟩ := hok l hne p t
        simp only [har, hs, bind, Except.bind, hp, mapM_id_none l hne, pyAssert, if_pos c4, pure, Except.pure, Except.map,
          SkyArr.out, List.length_map, ← List.map_const']
    · left
      refine ⟨.assertionError, fun p t => ?_, fun l hne p t => ?_⟩
      · simp only [hsc, h1, bind, Except.bind, pyAssert, if_neg c4]
      · obtain ⟨s, hs, hp⟩ := hok l hne p t
        simp only [har, hs, bind, Except.bind, hp, mapM_id_none l hne, pyAssert, if_neg c4, Except.map]
  · have hok : ∀ {ι : Type} (l : List ι), l ≠ [] → ∀ p t : ι → ℝ, ∃ s, shiftArr (l.map p) (l.map t) pc tc pc 0 = .ok s ∧
        (s.phi = l.map fun i => some (F (p i) (t i)).1) ∧ s.theta = l.map fun i => some (F (p i) (t i)).2 :=
      fun l hne p t => by
        have := h2 l hne p t
        beta_reduce at this
        cases hs : shiftArr (l.map p) (l.map t) pc tc pc 0 with
        | error e' => rw [hs] at this; simp [Except.map] at this
        | ok s =>
          rw [hs] at this
          simp only [Except.map, SkyArr.out, Except.ok.injEq, Prod.mk.injEq] at this
          exact ⟨s, rfl, this.1, this.2⟩
    rcases phiShift_uni a with ⟨e, k1, k2⟩ | ⟨G, k1, k2⟩
    · left
      refine ⟨e, fun p t => ?_, fun l hne p t => ?_⟩
      · simp only [hsc, h1, bind, Except.bind, k1]
      · obtain ⟨s, hs, hp, ht⟩ := hok l hne p t
        simp only [har, hs, bind, Except.bind, hp, ht, mapM_id_some, k2, Except.map]
    · have hsc' : ∀ p t, spin p t pc tc a = shift (G (F p t).1) (F p t).2 pc 0 pc tc := fun p t => by
        simp only [hsc, h1, bind, Except.bind, k1]
      have har' : ∀ {ι : Type} (l : List ι), l ≠ [] → ∀ p t : ι → ℝ, (spinArr (l.map p) (l.map t) pc tc a).map SkyArr.out
          = (shiftArr (l.map fun i => G (F (p i) (t i)).1) (l.map fun i => (F (p i) (t i)).2) pc 0 pc tc).map SkyArr.out :=
        fun l hne p t => by
          obtain ⟨s, hs, hp, ht⟩ := hok l hne p t
          simp only [har, hs, bind, Except.bind, hp, ht, mapM_id_some, k2]
          cases shiftArr (l.map fun i => G (F (p i) (t i)).1) (l.map fun i => (F (p i) (t i)).2) pc 0 pc tc with
          | error e => rfl
          | ok r => rfl
      rcases shift_uni pc 0 pc tc with ⟨e, m1, m2⟩ | ⟨m1, m2⟩ | ⟨H, m1, m2⟩
      · left
        exact ⟨e, fun p t => (hsc' p t).trans (m1 _ _), fun l hne p t => (har' l hne p t).trans (m2 l hne _ _)⟩
      · right; left
        exact ⟨fun p t => (hsc' p t).trans (m1 _ _), fun l hne p t => (har' l hne p t).trans (m2 l hne _ _)⟩
      · right; right
        exact ⟨fun p t => H (G (F p t).1) (F p t).2, fun p t => (hsc' p t).trans (m1 _ _),
          fun l hne p t => (har' l hne p t).trans (m2 l hne _ _)⟩

/-- The array call is the scalar call at every point. -/
theorem Uni.mapM {sc : ℝ → ℝ → Py (Option (ℝ × ℝ))} {ar : List ℝ → List ℝ → Py (List (Option ℝ) × List (Option ℝ))}
    (h : Uni sc ar) (rows : List (ℝ × ℝ)) (hne : rows ≠ []) :
    ar (rows.map Prod.fst) (rows.map Prod.snd)
      = (rows.mapM fun q => sc q.1 q.2).map fun r => (r.map (Option.map Prod.fst), r.map (Option.map Prod.snd)) := by
  rcases h with ⟨e, h1, h2⟩ | ⟨h1, h2⟩ | ⟨F, h1, h2⟩
  · rw [h2 rows hne, mapM_error rows hne fun q _ => h1 q.1 q.2]; rfl
  · rw [h2 rows hne, mapM_ok rows fun q _ => h1 q.1 q.2]
    simp only [Except.map, List.map_map, Function.comp_def, Option.map_none]
  · rw [h2 rows hne, mapM_ok rows fun q _ => h1 q.1 q.2]
    simp only [Except.map, List.map_map, Function.comp_def, Option.map_some]

theorem tilt_uni (φ : ℝ) (θ : Option ℝ) (a b : Option ℝ) :
    Uni (fun p t => tilt1 p (some t) φ θ a b) (fun p t => tilt p (t.map some) φ θ a b) := by
  unfold tilt1 tilt
  by_cases h : θ = some (π/2)
  · right; right
    exact ⟨fun p t => (p, t), fun p t => by simp [h], fun l _ p t => by simp [h, Function.comp_def]⟩
  · simp only [ne_eq, h, not_false_eq_true, if_true]
    have fin : ∀ t : List ℝ, finite (t.map some) = some t := fun t => by
      have := finite_map t id
      simpa using this
    simp only [fin]
    cases a with
    | none => left; exact ⟨_, fun _ _ => rfl, fun _ _ _ _ => rfl⟩
    | some a => cases b with
      | none => left; exact ⟨_, fun _ _ => rfl, fun _ _ _ _ => rfl⟩
      | some b => exact rotate_uni φ b φ a

theorem turn_uni (s : ℝ) : Uni (fun p t => turn1 p t s) (fun p t => turn p t s) := by
  unfold turn1 turn
  by_cases h : s = 0
  · right; right
    exact ⟨fun p t => (p, t), fun p t => by simp [h], fun l _ p t => by simp [h, Function.comp_def]⟩
  · simp only [ne_eq, h, not_false_eq_true, if_true]
    have : (fun p t => (do let r ← spinArr p t 0 (π/2) s; return (r.phi, r.theta) : Py (List (Option ℝ) × List (Option ℝ))))
        = fun p t => (spinArr p t 0 (π/2) s).map SkyArr.out := by
      funext p t
      cases spinArr p t 0 (π/2) s <;> rfl
    rw [this]
    exact spin_uni 0 (π/2) s

end Magpie.Coords
