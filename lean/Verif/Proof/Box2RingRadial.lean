import Verif.Proof.Box2RingCalls
import Verif.Proof.OneDList

/-!
# Lemmas on the masked radial mean
-/

set_option linter.unusedSimpArgs false
set_option linter.unusedVariables false
set_option linter.unusedSectionVars false

namespace Magpie.Box2Ring
open Magpie Magpie.Radial Magpie.OneD Magpie.Spec Finset

variable {X C : Type}

theorem applyMask_all {M : Arr2 ℝ} (h : ∀ i j, i < M.rows → j < M.cols → M.val i j ≠ 0)
    (f : Arr2 (Option ℝ)) (sigma w : Option (Arr2 ℝ)) : applyMask M f sigma w = .ok (f, sigma, w, w) := by
  unfold applyMask
  simp only
  rw [if_pos]
  rw [List.all_eq_true]
  intro i hi
  rw [List.all_eq_true]
  intro j hj
  simpa using h i j (List.mem_range.mp hi) (List.mem_range.mp hj)

theorem all_false {M : Arr2 ℝ} {i0 j0 : ℕ} (hi : i0 < M.rows) (hj : j0 < M.cols) (h0 : M.val i0 j0 = 0) :
    ¬ ((List.range M.rows).all fun i => (List.range M.cols).all fun j => decide (M.val i j ≠ 0)) = true := by
  rw [List.all_eq_true]
  intro h
  have h1 := h i0 (List.mem_range.mpr hi)
  rw [List.all_eq_true] at h1
  have h2 := h1 j0 (List.mem_range.mpr hj)
  simp [h0] at h2

theorem applyMask_some {M : Arr2 ℝ} {i0 j0 : ℕ} (hi : i0 < M.rows) (hj : j0 < M.cols) (h0 : M.val i0 j0 = 0)
    (f : Arr2 (Option ℝ)) (hf : f.sameShape M) (sigma : Option (Arr2 ℝ))
    (hs : ∀ s, sigma = some s → s.sameShape M) (w : Option (Arr2 ℝ)) (hw : ∀ s, w = some s → s.sameShape M) :
    applyMask M f sigma w = .ok (⟨f.rows, f.cols, fun i j => if M.val i j ≠ 1 then some 0 else f.val i j⟩,
      sigma.map fun s => ⟨s.rows, s.cols, fun i j => if M.val i j ≠ 1 then 0 else s.val i j⟩,
      some (match w with
        | none => M
        | some w => ⟨w.rows, w.cols, fun i j => w.val i j*M.val i j⟩),
      match w with
        | none => none
        | some w => some ⟨w.rows, w.cols, fun i j => w.val i j*M.val i j⟩) := by
  unfold applyMask
  simp only
  rw [if_neg (all_false hi hj h0)]
  have hf' : f.rows = M.rows ∧ f.cols = M.cols := hf
  unfold Arr2.zip
  rw [if_pos hf']
  cases sigma with
  | none =>
    cases w with
    | none => rfl
    | some w =>
      have hw' : w.rows = M.rows ∧ w.cols = M.cols := hw w rfl
      simp only [bind, Except.bind, pure, Except.pure, if_pos hw']
      rfl
  | some s =>
    have hs' : s.rows = M.rows ∧ s.cols = M.cols := hs s rfl
    cases w with
    | none =>
      simp only [bind, Except.bind, pure, Except.pure, if_pos hs']
      rfl
    | some w =>
      have hw' : w.rows = M.rows ∧ w.cols = M.cols := hw w rfl
      simp only [bind, Except.bind, pure, Except.pure, if_pos hw', if_pos hs']
      rfl

theorem radial_none (f : Arr2 (Option ℝ)) (v : ℕ → ℕ → ℝ)
    (hv : ∀ i j, i < f.rows → j < f.cols → f.val i j = some (v i j)) :
    Radial.polar2radial f none = .ok ((List.range f.cols).map fun j =>
      fdiv (∑ i ∈ range f.rows, v i j) (f.rows : ℝ)) := by
  unfold Radial.polar2radial Arr2.sum0
  simp only
  rw [List.map_map]
  congr 1
  refine List.map_congr_left fun j hj => ?_
  simp only [Function.comp]
  rw [npSum_range_congr f.rows _ (fun i => v i j) (fun i hi => hv i j hi (List.mem_range.mp hj))]
  rfl

theorem radial_some (f : Arr2 (Option ℝ)) (w : Arr2 ℝ) (u z : ℕ → ℕ → ℝ) (hw : w.rows = f.rows ∧ w.cols = f.cols)
    (hu : ∀ i j, i < f.rows → j < f.cols → omul (f.val i j) (w.val i j) = some (u i j))
    (hz : ∀ i j, i < f.rows → j < f.cols → w.val i j = z i j) :
    Radial.polar2radial f (some w) = .ok ((List.range f.cols).map fun j =>
      fdiv (∑ i ∈ range f.rows, u i j) (∑ i ∈ range f.rows, z i j)) := by
  unfold Radial.polar2radial Arr2.sum0 Arr2.zip
  simp only
  rw [if_pos ⟨hw.1.symm, hw.2.symm⟩]
  simp only [bind, Except.bind, pure, Except.pure]
  congr 1
  rw [hw.2, List.zipWith_map, List.zipWith_self]
  refine List.map_congr_left fun j hj => ?_
  have hj' := List.mem_range.mp hj
  rw [npSum_range_congr f.rows _ (fun i => u i j) (fun i hi => hu i j hi hj'), hw.1,
    npSum_range_congr f.rows _ (fun i => z i j) (fun i hi => by rw [hz i j hi hj'])]
  rfl

/-- The radial mean after masking with a mask of zeros and ones. -/
theorem radialOf_formula (p : Polar) (a : Arr2 ℝ) (px : ℝ) (M : Arr2 ℝ) (h01 : Mask01 M)
    (f : Arr2 (Option ℝ)) (sigma w : Option (Arr2 ℝ)) (v : ℕ → ℕ → ℝ) (hrows : 0 < f.rows)
    (hf : f.sameShape M) (hs : ∀ s, sigma = some s → s.sameShape M) (hw : ∀ s, w = some s → s.sameShape M)
    (hv : ∀ i j, i < f.rows → j < f.cols → M.val i j = 1 → f.val i j = some (v i j))
    (out : Radial) (ho : radialOf p a px M f sigma w = .ok out) :
    out.f = (List.range f.cols).map fun j =>
      fdiv (∑ i ∈ range f.rows, effW M w i j*v i j) (∑ i ∈ range f.rows, effW M w i j) := by
  have key : ∀ (f' : Arr2 (Option ℝ)) (s' w' c' : Option (Arr2 ℝ)) (l : List (Option ℝ)),
      applyMask M f sigma w = .ok (f', s', w', c') → Radial.polar2radial f' w' = .ok l → out.f = l := by
    intro f' s' w' c' l h1 h2
    unfold radialOf at ho
    rw [h1] at ho
    simp only [bind, Except.bind, pure, Except.pure] at ho
    cases s' with
    | none =>
      simp only [h2, Except.ok.injEq] at ho
      rw [← ho]
    | some sg =>
      simp only at ho
      cases hp : pyAssert (sg.sameShape p.p2d) with
      | error e => rw [hp] at ho; cases ho
      | ok _ =>
        rw [hp] at ho
        simp only [h2] at ho
        cases hq : polar2radialSigma f' a px sg w' with
        | error e => rw [hq] at ho; cases ho
        | ok r =>
          rw [hq] at ho
          simp only [Except.ok.injEq] at ho
          rw [← ho]
  have hfr : f.rows = M.rows := hf.1
  have hfc : f.cols = M.cols := hf.2
  by_cases hall : ∃ i j, i < M.rows ∧ j < M.cols ∧ M.val i j = 0
  · obtain ⟨i0, j0, hi, hj, h0⟩ := hall
    have e := applyMask_some hi hj h0 f hf sigma hs w hw
    refine key _ _ _ _ _ e ?_
    refine radial_some _ _ (fun i j => effW M w i j*v i j) (effW M w) ?_ ?_ ?_
    · cases w with
      | none => exact ⟨hfr.symm, hfc.symm⟩
      | some w => exact ⟨(hw w rfl).1.trans hfr.symm, (hw w rfl).2.trans hfc.symm⟩
    · intro i j hi hj
      simp only at hi hj ⊢
      rcases h01 i j (hfr ▸ hi) (hfc ▸ hj) with h | h
      · cases w <;> simp [h, omul, effW]
      · have := hv i j hi hj h
        cases w <;> simp [h, omul, effW, this, mul_comm]
    · intro i j hi hj
      simp only at hi hj ⊢
      rcases h01 i j (hfr ▸ hi) (hfc ▸ hj) with h | h
      · cases w <;> simp [h, effW]
      · cases w <;> simp [h, effW]
  · push Not at hall
    have h1 : ∀ i j, i < f.rows → j < f.cols → M.val i j = 1 := by
      intro i j hi hj
      rcases h01 i j (hfr ▸ hi) (hfc ▸ hj) with h | h
      · exact absurd h (hall i j (hfr ▸ hi) (hfc ▸ hj))
      · exact h
    have e := applyMask_all hall f sigma w
    refine key _ _ _ _ _ e ?_
    cases w with
    | none =>
      rw [radial_none f v (fun i j hi hj => hv i j hi hj (h1 i j hi hj))]
      congr 1
      refine List.map_congr_left fun j hj => ?_
      have hj' := List.mem_range.mp hj
      congr 1
      · refine sum_congr rfl fun i hi => ?_
        simp [effW, h1 i j (mem_range.mp hi) hj']
      · rw [sum_congr rfl fun i hi => show effW M none i j = 1 by
          simp [effW, h1 i j (mem_range.mp hi) hj']]
        simp
    | some w =>
      have hw' := hw w rfl
      refine radial_some f w _ _ ⟨hw'.1.trans hfr.symm, hw'.2.trans hfc.symm⟩ ?_ ?_
      · intro i j hi hj
        rw [hv i j hi hj (h1 i j hi hj)]
        simp [omul, effW, h1 i j hi hj, mul_comm]
      · intro i j hi hj
        simp [effW, h1 i j hi hj]

/-- A successful call. -/
theorem polar2radial_ok {getMask : Meth (State X) Unit} {G : State X → Py (Arr2 ℝ)} (h : MaskBy getMask G)
    (f : Arr2 (Option ℝ)) (sigma w : Option (Arr2 ℝ)) (s : State X) (out : Radial)
    (ho : (polar2radial getMask f sigma w s).1 = .ok out) :
    ∃ a px p M, areaOf s = .ok a ∧ pixOf s = .ok px ∧ s.polar = some p ∧ f.sameShape p.p2d ∧
      maskOf G s = .ok M ∧ radialOf p a px M f sigma w = .ok out ∧
      (polar2radial getMask f sigma w s).2.maskInBound = some M := by
  rw [polar2radial_steps h] at ho ⊢
  unfold p2rSteps at ho ⊢
  cases ha : areaOf s with
  | error e => rw [ha] at ho; cases ho
  | ok a =>
    rw [ha] at ho
    simp only at ho ⊢
    cases hp : pixOf s with
    | error e => rw [hp] at ho; cases ho
    | ok px =>
      rw [hp] at ho
      simp only at ho ⊢
      cases hpol : s.polar with
      | none => rw [hpol] at ho; cases ho
      | some p =>
        rw [hpol] at ho
        simp only at ho ⊢
        by_cases hsh : f.sameShape p.p2d
        · rw [if_pos hsh] at ho ⊢
          cases hm : maskOf G s with
          | error e => rw [hm] at ho; cases ho
          | ok M =>
            rw [hm] at ho
            exact ⟨a, px, p, M, rfl, rfl, rfl, hsh, rfl, ho, rfl⟩
        · rw [if_neg hsh] at ho; cases ho

theorem tabulate_inv {α : Type} {rows cols : ℕ} {g : ℕ → ℕ → Py α} {d : α} {a : Arr2 α}
    (h : tabulate rows cols g d = .ok a) : a.rows = rows ∧ a.cols = cols ∧
      ∀ i j, i < rows → j < cols → g i j = .ok (a.val i j) := by
  unfold tabulate at h
  cases hv : pyMap (fun i => pyMap (g i) (List.range cols)) (List.range rows) with
  | error e => rw [hv] at h; cases h
  | ok vals =>
    rw [hv] at h
    simp only [bind, Except.bind, pure, Except.pure, Except.ok.injEq] at h
    subst h
    refine ⟨rfl, rfl, fun i j hi hj => ?_⟩
    rw [pyMap_ok_iff, List.forall₂_iff_get] at hv
    obtain ⟨hl, hv⟩ := hv
    rw [List.length_range] at hl
    have h1 := hv i (by simpa using hi) (by omega)
    simp only [List.get_eq_getElem, List.getElem_range] at h1
    rw [pyMap_ok_iff, List.forall₂_iff_get] at h1
    obtain ⟨hl1, h1⟩ := h1
    rw [List.length_range] at hl1
    have h2 := h1 j (by simpa using hj) (by omega)
    simp only [List.get_eq_getElem, List.getElem_range] at h2
    simp only
    have e1 : vals.getD i [] = vals[i]'(by omega) := by
      rw [List.getD_eq_getElem?_getD, List.getElem?_eq_getElem (by omega)]; rfl
    have e2 : (vals[i]'(by omega)).getD j d = (vals[i]'(by omega))[j]'(by omega) := by
      rw [List.getD_eq_getElem?_getD, List.getElem?_eq_getElem (by omega)]; rfl
    rw [e1, e2]
    exact h2

/-- The caller's weights after a successful call. -/
theorem radialOf_callerW (p : Polar) (a : Arr2 ℝ) (px : ℝ) (M : Arr2 ℝ) {i0 j0 : ℕ} (hi : i0 < M.rows)
    (hj : j0 < M.cols) (h0 : M.val i0 j0 = 0) (f : Arr2 (Option ℝ)) (sigma : Option (Arr2 ℝ)) (w : Arr2 ℝ)
    (hf : f.sameShape M) (hs : ∀ s, sigma = some s → s.sameShape M) (hw : w.sameShape M)
    (out : Radial) (ho : radialOf p a px M f sigma (some w) = .ok out) :
    out.callerW = some ⟨w.rows, w.cols, fun i j => w.val i j*M.val i j⟩ := by
  unfold radialOf at ho
  rw [applyMask_some hi hj h0 f hf sigma hs (some w) (by simpa using hw)] at ho
  simp only [bind, Except.bind, pure, Except.pure] at ho
  cases sigma with
  | none =>
    simp only [Option.map_none] at ho
    split at ho
    · cases ho
    · simp only [Except.ok.injEq] at ho
      rw [← ho]
  | some sg =>
    simp only [Option.map_some] at ho
    split at ho
    · cases ho
    · split at ho
      · cases ho
      · split at ho
        · cases ho
        · simp only [Except.ok.injEq] at ho
          rw [← ho]

end Magpie.Box2Ring

namespace Magpie.Mc
open Magpie Magpie.Radial Magpie.OneD Magpie.Spec Magpie.Box2Ring Finset

/-- A field of ones is remapped to one or NaN. -/
theorem remapPixel_one (wt : Weights) (rows cols i j : ℕ) (r : Option ℝ)
    (h : remapPixel wt ⟨rows, cols, fun _ _ => some 1⟩ none i j = .ok r) : r = none ∨ r = some 1 := by
  unfold remapPixel at h
  simp only at h
  by_cases hs : ((wt.hits i j).map Hit.w).sum ≠ 0
  · rw [if_pos hs] at h
    right
    cases hr : readHits wt.objIdx (⟨rows, cols, fun _ _ => some 1⟩ : Arr2 (Option ℝ)) (wt.hits i j) with
    | error e => rw [hr] at h; cases h
    | ok fs =>
      rw [hr] at h
      simp only [bind, Except.bind, pure, Except.pure, Except.ok.injEq] at h
      unfold readHits at hr
      split_ifs at hr
      rw [pyMap_ok_iff] at hr
      have : List.zipWith (fun w f => omul f w) ((wt.hits i j).map Hit.w) fs
          = ((wt.hits i j).map Hit.w).map some := by
        generalize wt.hits i j = hits at hr
        clear h hs
        induction hr with
        | nil => rfl
        | cons h1 h2 ih =>
          simp only [List.map_cons, List.zipWith_cons_cons, ih]
          unfold Arr2.get at h1
          split_ifs at h1
          simp only [Except.ok.injEq] at h1
          rw [← h1]
          simp [omul]
      rw [← h, this, npSum_some]
      unfold odiv fdiv
      simp only
      rw [if_neg hs, div_self hs]
  · rw [if_neg hs] at h
    simp only [Except.ok.injEq] at h
    exact Or.inl h.symm

theorem maskG_01 (s : State) (M : Arr2 ℝ) (h : maskG s = .ok M) : Mask01 M := by
  unfold maskG at h
  cases hb : s.box with
  | none => rw [hb] at h; simp at h
  | some b =>
    cases hp : s.polar with
    | none => rw [hb, hp] at h; simp at h
    | some p =>
      rw [hb, hp] at h
      simp only at h
      cases hr : (remap ⟨b.x2d.rows, b.x2d.cols, fun _ _ => some 1⟩ none s).1 with
      | error e => rw [hr] at h; cases h
      | ok m =>
        rw [hr] at h
        simp only [bind, Except.bind, pure, Except.pure, Except.ok.injEq] at h
        have hsh : pyAssert ((⟨b.x2d.rows, b.x2d.cols, fun _ _ => some 1⟩ : Arr2 (Option ℝ)).sameShape b.x2d)
            = .ok () := by unfold pyAssert; rw [if_pos ⟨rfl, rfl⟩]
        unfold remap at hr
        simp only [Meth.bind_apply, Meth.self_apply, hb, Meth.lift_apply, hsh, hp, need_some] at hr
        cases hx : s.extra with
        | none => rw [hx] at hr; simp [need] at hr
        | some wt =>
          rw [hx] at hr
          simp only [need_some] at hr
          obtain ⟨h1, h2, h3⟩ := tabulate_inv hr
          rw [← h]
          intro i j hi hj
          simp only at hi hj ⊢
          have h4 := h3 i j (h1 ▸ hi) (h2 ▸ hj)
          unfold storedPixel at h4
          split_ifs at h4
          rcases remapPixel_one _ _ _ _ _ _ h4 with e | e <;> rw [e] <;> simp

/-- The mask of an object has only the values `0` and `1` after any sequence of calls. -/
theorem run_mask01 (cs : List (Call Setup)) : ∀ s : State, (∀ M, s.maskInBound = some M → Mask01 M) →
    ∀ M, (cls.run cs s).2.maskInBound = some M → Mask01 M := by
  induction cs with
  | nil => intro s h; exact h
  | cons c cs ih =>
    intro s h
    refine ih _ ?_
    cases c with
    | setup c => 
      intro M hM
      refine h M ?_
      rw [← hM]
      exact (cls_good.setup c s).2.2.symm
    | remap f w =>
      have e : (cls.call (.remap f w) s).2 = s := (remap_readOnly f w s).1
      rw [e]; exact h
    | rotate f =>
      have e : (cls.call (.rotate f) s).2 = s := rotate_state f s
      rw [e]; exact h
    | getMask =>
      show ∀ M, (getMaskInBound s).2.maskInBound = some M → Mask01 M
      rw [maskBy.run]
      cases hg : maskG s with
      | error e => exact h
      | ok m =>
        intro M hM
        simp only [Option.some.injEq] at hM
        subst hM
        exact maskG_01 s _ hg
    | radial f sg w =>
      have ha : After maskG s (cls.call (.radial f sg w) s).2 := polar2radial_after maskBy f sg w s
      generalize (cls.call (.radial f sg w) s).2 = t at ha
      cases ha with
      | none => exact h
      | area a ha => exact h
      | pix a ha p hp => exact h
      | mask a ha p hp m hm =>
        intro M hM
        simp only [Option.some.injEq] at hM
        subst hM
        unfold maskOf at hm
        cases hmm : s.maskInBound with
        | none => rw [hmm] at hm; exact maskG_01 s _ hm
        | some m' =>
          rw [hmm] at hm
          simp only [Except.ok.injEq] at hm
          subst hm
          exact h _ hmm
    | clean => intro M hM; cases hM

end Magpie.Mc
