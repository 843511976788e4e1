import Verif.Proof.OneD

set_option linter.unusedSimpArgs false
set_option linter.unusedVariables false
set_option linter.unusedSectionVars false

/-! # From tabulated functions to the lists `rebin_1d` receives -/

namespace Magpie.OneD
open Finset

theorem pyMap_ok_iff {α β : Type} (f : α → Py β) (l : List α) (r : List β) :
    pyMap f l = .ok r ↔ List.Forall₂ (fun a b => f a = .ok b) l r := by
  induction l generalizing r with
  | nil =>
    constructor
    · intro h; simp only [pyMap, Except.ok.injEq] at h; subst h; exact .nil
    · intro h; cases h; rfl
  | cons a l ih =>
    simp only [pyMap, bind, Except.bind, pure, Except.pure]
    constructor
    · intro h
      cases ha : f a with
      | error e => simp [ha] at h
      | ok b =>
        cases hl : pyMap f l with
        | error e => simp [ha, hl] at h
        | ok r' =>
          simp only [ha, hl, Except.ok.injEq] at h
          subst h
          exact .cons ha ((ih r').mp hl)
    · intro h
      cases h with
      | cons hb hr => rw [hb, (ih _).mpr hr]

theorem forall₂_mem {α β : Type} {P : α → β → Prop} {l : List α} {r : List β}
    (h : List.Forall₂ P l r) : ∀ b ∈ r, ∃ a ∈ l, P a b := by
  induction h with
  | nil => simp
  | cons h1 h2 ih =>
    intro b hb
    rcases List.mem_cons.mp hb with rfl | hb
    · exact ⟨_, by simp, h1⟩
    · obtain ⟨a, ha, hp⟩ := ih b hb
      exact ⟨a, by simp [ha], hp⟩

theorem forall₂_get {α β : Type} {P : α → β → Prop} {l : List α} {r : List β}
    (h : List.Forall₂ P l r) : ∀ (i : ℕ) (a : α), l[i]? = some a → ∃ b, r[i]? = some b ∧ P a b := by
  induction h with
  | nil => simp
  | cons h1 h2 ih =>
    intro i a ha
    cases i with
    | zero => simp at ha; subst ha; exact ⟨_, by simp, h1⟩
    | succ i => simpa using ih i a (by simpa using ha)

section
variable {K : Type} [Field K] [LinearOrder K] [IsStrictOrderedRing K]

theorem newBins_mem {newEdges : List K} (h : isPosMonotonic newEdges = true) {b : K × K}
    (hb : b ∈ newBins newEdges) : b.1 ≤ b.2 := by
  unfold newBins at hb
  obtain ⟨i, hi⟩ := List.mem_iff_getElem?.mp hb
  rw [isPosMonotonic_iff] at h
  rw [List.getElem?_zip_eq_some] at hi
  obtain ⟨h1, h2⟩ := hi
  rw [List.getElem?_tail] at h2
  obtain ⟨l1, h1⟩ := List.getElem?_eq_some_iff.mp h1
  obtain ⟨l2, h2⟩ := List.getElem?_eq_some_iff.mp h2
  rw [← h1, ← h2]
  exact h i (i+1) l1 l2 (by omega)

theorem newBins_get {newEdges : List K} {i : ℕ} {a b : K} (h1 : newEdges[i]? = some a)
    (h2 : newEdges[i+1]? = some b) : (newBins newEdges)[i]? = some (a, b) := by
  unfold newBins
  rw [List.getElem?_zip_eq_some]
  exact ⟨h1, by rw [List.getElem?_tail]; exact h2⟩

theorem newBins_length (newEdges : List K) : (newBins newEdges).length = newEdges.length - 1 := by
  simp [newBins]

theorem list_tab (l : List K) : l = tab l.length fun k => l.getD k 0 := by
  apply List.ext_getElem
  · simp
  · intro i h1 h2
    simp [tab, h1]

theorem mono_getD {edges : List K} (h : isPosMonotonic edges = true) :
    ∀ i j, i ≤ j → j ≤ edges.length - 1 → edges.getD i 0 ≤ edges.getD j 0 := by
  intro i j hij hj
  rcases Nat.eq_zero_or_pos edges.length with h0 | h0
  · have : edges = [] := List.eq_nil_of_length_eq_zero h0
    subst this; simp
  · rw [isPosMonotonic_iff] at h
    have := h i j (by omega) (by omega) hij
    simpa [show i < edges.length by omega, show j < edges.length by omega] using this

/-- With one edge and no data the only results are NaN and an exception. -/
theorem single_empty (x bmin bmax : K) (o : Option K)
    (h : rebinSingleBin [x] [] bmin bmax = .ok o) : o = none := by
  unfold rebinSingleBin at h
  by_cases hc : bmin ≤ x ∧ x ≤ bmax
  · have : condition [x] bmin bmax = [0] := by
      simp [condition, whereIdx, whereFrom, hc.1, hc.2]
    simp [this, getZ, bind, Except.bind] at h
  · have : condition [x] bmin bmax = [] := by
      simp [condition, whereIdx, whereFrom]
      intro h1; exact lt_of_not_ge fun h2 => hc ⟨h1, h2⟩
    rw [this] at h
    by_cases h1 : bmin ≤ x
    · have : condition1 [x] bmin = [0] := by simp [condition1, whereIdx, whereFrom, h1]
      simp [this] at h; exact h.symm
    · have : condition1 [x] bmin = [] := by
        simp [condition1, whereIdx, whereFrom, not_le.mp h1]
      simp [this] at h; exact h.symm

/-- `single_repr` for lists. -/
theorem single_list (edges data : List K) (hlen : edges.length = data.length + 1)
    (hn : 0 < data.length) (he : isPosMonotonic edges = true) (bmin bmax : K) (hb : bmin ≤ bmax) :
    (∃ ω : ℕ → K, (∀ k, k < data.length → 0 ≤ ω k) ∧ 0 < ∑ k ∈ range data.length, ω k ∧
        (∀ v : List K, v.length = data.length → rebinSingleBin edges v bmin bmax
          = .ok (some ((∑ k ∈ range data.length, ω k * v.getD k 0)
              / ∑ k ∈ range data.length, ω k))) ∧
        (edges.getD 0 0 ≤ bmax ∧ bmin ≤ edges.getD data.length 0) ∧
        (∀ δ : K, 0 < δ →
          (∀ k, k < data.length → edges.getD (k+1) 0 = edges.getD k 0 + δ) →
          ¬ (bmin ≤ edges.getD 0 0 ∧ edges.getD data.length 0 ≤ bmax) →
          ∃ c, ∀ k, k < data.length →
            Spec.overlap (edges.getD k 0) (edges.getD (k+1) 0) bmin bmax = c * ω k)) ∨
      ((∀ v : List K, v.length = data.length → rebinSingleBin edges v bmin bmax = .ok none) ∧
        ((∀ i j, i < j → j ≤ data.length → edges.getD i 0 < edges.getD j 0) → bmin < bmax →
          bmax < edges.getD 0 0 ∨ edges.getD data.length 0 < bmin)) := by
  have hm := mono_getD he
  rw [show edges.length - 1 = data.length by omega] at hm
  obtain ⟨L, R, W⟩ := exists_window (fun k => edges.getD k 0) data.length hm hb
  have ht := list_tab edges
  rw [hlen] at ht
  have key : ∀ v : List K, v.length = data.length →
      rebinSingleBin edges v bmin bmax = rebinSingleBin (tab (data.length + 1) fun k =>
        edges.getD k 0) (tab data.length fun k => v.getD k 0) bmin bmax := by
    intro v hv
    conv_lhs => rw [ht, list_tab v, hv]
  rcases single_repr hn hm hb W with ⟨ω, h1, h2, h3, h4, h5⟩ | ⟨h1, h2⟩
  · left
    exact ⟨ω, h1, h2, fun v hv => by rw [key v hv, h3], h4, h5⟩
  · right
    exact ⟨fun v hv => by rw [key v hv, h1], h2⟩

/-- What a successful call of `rebin_1d` has checked and computed. -/
theorem rebin1d_ok {edges data newEdges : List K} {w : Option (List K)} {r : List (Option K)}
    (h : rebin1d edges data newEdges w = .ok r) :
    edges.length = data.length + 1 ∧ isPosMonotonic edges = true ∧ isPosMonotonic newEdges = true ∧
      match w with
      | none => List.Forall₂ (fun b o => rebinSingleBin edges data b.1 b.2 = .ok o)
          (newBins newEdges) r
      | some w => w.length = data.length ∧
          ∃ num den, List.Forall₂ (fun b o =>
              rebinSingleBin edges (List.zipWith (· * ·) data w) b.1 b.2 = .ok o)
              (newBins newEdges) num ∧
            List.Forall₂ (fun b o => rebinSingleBin edges w b.1 b.2 = .ok o)
              (newBins newEdges) den ∧ r = List.zipWith odiv num den := by
  unfold rebin1d pyAssert at h
  by_cases c1 : (edges.length : ℤ) - 1 = data.length
  · by_cases c2 : isPosMonotonic edges = true
    · by_cases c3 : isPosMonotonic newEdges = true
      · rw [if_pos c1, if_pos c2, if_pos c3] at h
        refine ⟨by omega, c2, c3, ?_⟩
        cases w with
        | none =>
          simp only [bind, Except.bind] at h
          exact (pyMap_ok_iff _ _ _).mp h
        | some w =>
          simp only [bind, Except.bind] at h
          by_cases c4 : data.length = w.length
          · rw [if_pos c4] at h
            simp only at h
            cases hnum : pyMap (fun b : K × K => rebinSingleBin edges
              (List.zipWith (· * ·) data w) b.1 b.2) (newBins newEdges) with
            | error e => simp [hnum] at h
            | ok num =>
              cases hden : pyMap (fun b : K × K => rebinSingleBin edges w b.1 b.2)
                (newBins newEdges) with
              | error e => simp [hnum, hden] at h
              | ok den =>
                simp only [hnum, hden, pure, Except.pure, Except.ok.injEq] at h
                exact ⟨c4.symm, num, den, (pyMap_ok_iff _ _ _).mp hnum,
                  (pyMap_ok_iff _ _ _).mp hden, h.symm⟩
          · rw [if_neg c4] at h; simp at h
      · rw [if_pos c1, if_pos c2, if_neg c3] at h; simp [bind, Except.bind] at h
    · rw [if_pos c1, if_neg c2] at h; simp [bind, Except.bind] at h
  · rw [if_neg c1] at h; simp [bind, Except.bind] at h

theorem forall₂_zip {α β γ : Type} {P : α → β → Prop} {Q : α → γ → Prop} {l : List α} {r : List β}
    {s : List γ} (h1 : List.Forall₂ P l r) (h2 : List.Forall₂ Q l s) {δ : Type} (f : β → γ → δ) :
    List.Forall₂ (fun a x => ∃ b c, P a b ∧ Q a c ∧ x = f b c) l (List.zipWith f r s) := by
  induction h1 generalizing s with
  | nil => cases h2; exact .nil
  | cons p1 p2 ih =>
    cases h2 with
    | cons q1 q2 => exact .cons ⟨_, _, p1, q1, rfl⟩ (ih q2)

theorem getD_zipWith_mul (a b : List K) (h : a.length = b.length) (k : ℕ) :
    (List.zipWith (· * ·) a b).getD k 0 = a.getD k 0 * b.getD k 0 := by
  simp only [List.getD_eq_getElem?_getD, List.getElem?_zipWith]
  rcases Nat.lt_or_ge k a.length with h1 | h1
  · rw [List.getElem?_eq_getElem h1, List.getElem?_eq_getElem (by omega)]; rfl
  · rw [List.getElem?_eq_none h1, List.getElem?_eq_none (by omega)]; simp

/-- The value of every new bin of a successful call is a weighted mean of the data. -/
theorem rebin1d_mean {edges data newEdges : List K} {w : Option (List K)} {r : List (Option K)}
    (h : rebin1d edges data newEdges w = .ok r) (v : K) (hv : some v ∈ r) :
    ∃ ω : ℕ → K, ((∀ ww, w = some ww → ∀ x ∈ ww, 0 ≤ x) → ∀ k, k < data.length → 0 ≤ ω k) ∧
      ∑ k ∈ range data.length, ω k ≠ 0 ∧
      v = (∑ k ∈ range data.length, ω k * data.getD k 0) / ∑ k ∈ range data.length, ω k := by
  obtain ⟨hlen, hm, hm', h⟩ := rebin1d_ok h
  rcases Nat.eq_zero_or_pos data.length with hz | hn
  · exfalso
    have hd : data = [] := List.eq_nil_of_length_eq_zero hz
    subst hd
    obtain ⟨x, hx⟩ : ∃ x, edges = [x] := List.length_eq_one_iff.mp (by simpa using hlen)
    subst hx
    cases w with
    | none =>
      obtain ⟨b, _, hb⟩ := forall₂_mem h _ hv
      exact absurd (single_empty x b.1 b.2 _ hb) (by simp)
    | some w =>
      obtain ⟨_, num, den, h1, h2, rfl⟩ := h
      obtain ⟨b, _, y, z, hy, hz', ho⟩ := forall₂_mem (forall₂_zip h1 h2 odiv) _ hv
      simp only [List.zipWith_nil_left] at hy
      rw [single_empty x b.1 b.2 _ hy] at ho
      simp [odiv] at ho
  · cases w with
    | none =>
      obtain ⟨b, hb, ho⟩ := forall₂_mem h _ hv
      rcases single_list edges data hlen hn hm b.1 b.2 (newBins_mem hm' hb) with
        ⟨ω, h1, h2, h3, _⟩ | ⟨h1, _⟩
      · rw [h3 data rfl] at ho
        simp only [Except.ok.injEq, Option.some.injEq] at ho
        exact ⟨ω, fun _ => h1, h2.ne', ho.symm⟩
      · rw [h1 data rfl] at ho; simp at ho
    | some w =>
      obtain ⟨hwl, num, den, h1, h2, rfl⟩ := h
      obtain ⟨b, hb, y, z, hy, hz', ho⟩ := forall₂_mem (forall₂_zip h1 h2 odiv) _ hv
      rcases single_list edges data hlen hn hm b.1 b.2 (newBins_mem hm' hb) with
        ⟨ω, g1, g2, g3, _⟩ | ⟨g1, _⟩
      · rw [g3 _ (by simp [hwl])] at hy
        rw [g3 _ hwl] at hz'
        simp only [Except.ok.injEq] at hy hz'
        subst hy hz'
        simp only [odiv, fdiv] at ho
        split_ifs at ho with hne
        · simp only [Option.some.injEq] at ho
          have hw0 : ∑ k ∈ range data.length, ω k * w.getD k 0 ≠ 0 := by
            intro h0; apply hne; rw [h0, zero_div]
          refine ⟨fun k => ω k * w.getD k 0, ?_, hw0, ?_⟩
          · intro hpos k hk
            refine mul_nonneg (g1 k hk) ?_
            have hk' : k < w.length := by omega
            have : w.getD k 0 = w[k] := by simp [hk']
            rw [this]
            exact hpos w rfl _ (List.getElem_mem hk')
          · rw [ho]
            simp only [getD_zipWith_mul data w hwl.symm]
            rw [div_div_div_cancel_right₀ g2.ne']
            congr 1
            apply Finset.sum_congr rfl
            intro k _; ring
      · rw [g1 _ (by simp [hwl])] at hy
        simp only [Except.ok.injEq] at hy
        subst hy
        simp [odiv] at ho

end

end Magpie.OneD
