import Verif.Proof.OneDWeights

/-!
# Properties C40-C47: rebinning one-dimensional data

`Increasing`, `UniformEdges`, `overlapMean`, `weightedMean` and `meanSigma` are in
`Verif/Spec/OneD.lean`.
-/

set_option linter.unusedSimpArgs false
set_option linter.unusedVariables false
set_option linter.unusedSectionVars false

namespace Magpie.Props
open Magpie Magpie.OneD Magpie.Spec Finset

section
variable {K : Type} [Field K] [LinearOrder K] [IsStrictOrderedRing K]

/-! ## C40 -/

/-- C40: rebinning constant data gives that constant in every bin that gets a number, whatever the
edges, the new edges and the weights. -/
theorem C40_constant (edges data newEdges : List K) (w : Option (List K)) (r : List (Option K))
    (h : rebin1d edges data newEdges w = .ok r) (c : K) (hc : ∀ x ∈ data, x = c) :
    ∀ v, some v ∈ r → v = c := by
  intro v hv
  obtain ⟨ω, _, h2, h3⟩ := rebin1d_mean h v hv
  rw [h3]
  have : ∑ k ∈ range data.length, ω k * data.getD k 0 = c * ∑ k ∈ range data.length, ω k := by
    rw [Finset.mul_sum]
    apply Finset.sum_congr rfl
    intro k hk
    simp only [Finset.mem_range] at hk
    have : data.getD k 0 = data[k] := by simp [hk]
    rw [this, hc _ (List.getElem_mem hk), mul_comm]
  rw [this, mul_div_assoc, div_self h2, mul_one]

/-- The hypotheses are met: uneven bins, partly outside, with weights. -/
example : rebin1d (K := ℚ) [0, 1, 3, 4] [5, 5, 5] [-2, -1, 1/2, 7/2] (some [1, 2, 3])
    = .ok [none, some 5, some 5] := by decide +kernel

/-! ## C41 -/

/-- C41: every rebinned number lies between the smallest and the largest data value, with no
weights and with non-negative weights. -/
theorem C41_range (edges data newEdges : List K) (w : Option (List K)) (r : List (Option K))
    (h : rebin1d edges data newEdges w = .ok r) (hw : ∀ ww, w = some ww → ∀ x ∈ ww, 0 ≤ x)
    (lo hi : K) (hd : ∀ x ∈ data, lo ≤ x ∧ x ≤ hi) :
    ∀ v, some v ∈ r → lo ≤ v ∧ v ≤ hi := by
  intro v hv
  obtain ⟨ω, h1, h2, h3⟩ := rebin1d_mean h v hv
  have h1 := h1 hw
  have hpos : 0 < ∑ k ∈ range data.length, ω k :=
    lt_of_le_of_ne (Finset.sum_nonneg fun k hk => h1 k (Finset.mem_range.mp hk)) (Ne.symm h2)
  have hk : ∀ k ∈ range data.length, lo ≤ data.getD k 0 ∧ data.getD k 0 ≤ hi := by
    intro k hk
    simp only [Finset.mem_range] at hk
    have : data.getD k 0 = data[k] := by simp [hk]
    rw [this]; exact hd _ (List.getElem_mem hk)
  rw [h3, le_div_iff₀ hpos, div_le_iff₀ hpos, Finset.mul_sum, Finset.mul_sum]
  constructor
  · apply Finset.sum_le_sum
    intro k hk'
    rw [mul_comm]
    exact mul_le_mul_of_nonneg_left (hk k hk').1 (h1 k (Finset.mem_range.mp hk'))
  · apply Finset.sum_le_sum
    intro k hk'
    rw [mul_comm hi]
    exact mul_le_mul_of_nonneg_left (hk k hk').2 (h1 k (Finset.mem_range.mp hk'))

example : rebin1d (K := ℚ) [0, 1, 3, 4] [5, -1, 2] [1/2, 7/2] none = .ok [some (8/7)] := by
  decide +kernel

/-! ## C42 -/

/-- C42: on equal bins a new bin that overlaps the data and does not cover all of it gets the
average weighted by overlap length. Missing: new bins that cover the whole range, where the
statement is false, see `C42_violated`. -/
theorem C42_overlapMean_partial (edges data newEdges : List K) (r : List (Option K))
    (h : rebin1d edges data newEdges none = .ok r) (hu : UniformEdges edges) (i : ℕ) (lo hi : K)
    (hlo : newEdges[i]? = some lo) (hhi : newEdges[i+1]? = some hi)
    (hov : 0 < ∑ k ∈ range data.length, binOverlap edges lo hi k)
    (hcover : ¬ ((∀ e ∈ edges, lo ≤ e) ∧ ∀ e ∈ edges, e ≤ hi)) :
    r[i]? = some (some (overlapMean edges data lo hi)) := by
  obtain ⟨hlen, hm, hm', h⟩ := rebin1d_ok h
  have hn : 0 < data.length := by
    by_contra hz
    rw [show data.length = 0 by omega] at hov
    simp at hov
  have hb := newBins_get hlo hhi
  have hle := newBins_mem hm' (List.mem_of_getElem? hb)
  obtain ⟨o, ho, hval⟩ := forall₂_get h i _ hb
  rw [ho]
  simp only at hval hle
  have hpos : ∀ c : K, ∀ ω : ℕ → K, (∀ k, k < data.length →
      binOverlap edges lo hi k = c * ω k) → overlapMean edges data lo hi
        = (∑ k ∈ range data.length, ω k * data.getD k 0) / ∑ k ∈ range data.length, ω k := by
    intro c ω hc
    have e1 : ∑ k ∈ range data.length, binOverlap edges lo hi k
        = c * ∑ k ∈ range data.length, ω k := by
      rw [Finset.mul_sum]
      exact Finset.sum_congr rfl fun k hk => hc k (Finset.mem_range.mp hk)
    have e2 : ∑ k ∈ range data.length, binOverlap edges lo hi k * data.getD k 0
        = c * ∑ k ∈ range data.length, ω k * data.getD k 0 := by
      rw [Finset.mul_sum]
      refine Finset.sum_congr rfl fun k hk => ?_
      rw [hc k (Finset.mem_range.mp hk)]; ring
    have hc0 : c ≠ 0 := by
      rintro rfl
      rw [e1, zero_mul] at hov
      exact lt_irrefl _ hov
    unfold overlapMean
    rw [e1, e2, mul_div_mul_left _ _ hc0]
  have hmono := mono_getD hm
  rcases single_list edges data hlen hn hm lo hi hle with ⟨ω, _, _, h3, _, h5⟩ | ⟨h1, h2⟩
  · obtain ⟨a, δ, hδ, hk⟩ := hu
    have hget : ∀ k, k < edges.length → edges.getD k 0 = a + k*δ := by
      intro k hk'
      rw [← hk k hk']; simp [hk']
    obtain ⟨c, hc⟩ := h5 δ hδ (by
      intro k hk'
      rw [hget k (by omega), hget (k+1) (by omega)]; push_cast; ring) (by
      rintro ⟨c1, c2⟩
      apply hcover
      constructor
      · intro e he
        obtain ⟨j, hj, rfl⟩ := List.mem_iff_getElem.mp he
        have := hmono 0 j (by omega) (by omega)
        have ej : edges.getD j 0 = edges[j] := by simp [hj]
        rw [ej] at this
        exact le_trans c1 this
      · intro e he
        obtain ⟨j, hj, rfl⟩ := List.mem_iff_getElem.mp he
        have := hmono j data.length (by omega) (by omega)
        have ej : edges.getD j 0 = edges[j] := by simp [hj]
        rw [ej] at this
        exact le_trans this c2)
    rw [h3 data rfl] at hval
    simp only [Except.ok.injEq] at hval
    rw [← hval, hpos c ω hc]
  · exfalso
    obtain ⟨a, δ, hδ, hk⟩ := hu
    have hget : ∀ k, k < edges.length → edges.getD k 0 = a + k*δ := by
      intro k hk'
      rw [← hk k hk']; simp [hk']
    have hinc : ∀ i j, i < j → j ≤ data.length → edges.getD i 0 < edges.getD j 0 := by
      intro i j hij hj
      rw [hget i (by omega), hget j (by omega)]
      have : (i:K) < j := by exact_mod_cast hij
      have := mul_lt_mul_of_pos_right this hδ
      linarith
    rcases eq_or_lt_of_le hle with heq | hlt
    · have : ∑ k ∈ range data.length, binOverlap edges lo hi k = 0 := by
        apply Finset.sum_eq_zero
        intro k _
        unfold binOverlap overlap
        rw [heq]
        apply max_eq_left
        have h1 := min_le_right (edges.getD (k+1) 0) hi
        have h2 := le_max_right (edges.getD k 0) hi
        linarith
      rw [this] at hov; exact lt_irrefl _ hov
    · have : ∑ k ∈ range data.length, binOverlap edges lo hi k = 0 := by
        apply Finset.sum_eq_zero
        intro k hk'
        simp only [Finset.mem_range] at hk'
        unfold binOverlap overlap
        apply max_eq_left
        rcases h2 hinc hlt with h6 | h6
        · have h1 := min_le_right (edges.getD (k+1) 0) hi
          have h2 := le_max_left (edges.getD k 0) lo
          have h7 := hmono 0 k (by omega) (by omega)
          linarith
        · have h1 := min_le_left (edges.getD (k+1) 0) hi
          have h2 := le_max_right (edges.getD k 0) lo
          have h7 := hmono (k+1) data.length (by omega) (by omega)
          linarith
      rw [this] at hov; exact lt_irrefl _ hov

/-- A bin across three old bins. -/
example : rebin1d (K := ℚ) [0, 1, 2, 3] [5, -1, 2] [1/2, 9/4] none
    = .ok [some (overlapMean [0, 1, 2, 3] [5, -1, 2] (1/2) (9/4))] := by decide +kernel

/-- A new bin that covers all old bins counts the last one twice: the result is the mean of the
data with its last value repeated. -/
theorem C42_violated (edges data : List K) (hlen : edges.length = data.length + 1)
    (hn : 0 < data.length) (hm : isPosMonotonic edges = true) (lo hi : K)
    (hlo : ∀ e ∈ edges, lo ≤ e) (hhi : ∀ e ∈ edges, e ≤ hi) :
    rebin1d edges data [lo, hi] none
      = .ok [some ((data.getD (data.length - 1) 0 + data.sum) / (data.length + 1))] := by
  have hle : lo ≤ hi := by
    have hx : edges[0]'(by omega) ∈ edges := List.getElem_mem _
    exact le_trans (hlo _ hx) (hhi _ hx)
  have W : Window (fun k => edges.getD k 0) data.length lo hi 0 (data.length + 1) := by
    refine ⟨by omega, le_refl _, by omega, ?_, ?_⟩
    · intro k hk
      have ek : edges.getD k 0 = edges[k]'(by omega) := by simp [show k < edges.length by omega]
      simp only [ek]
      constructor
      · intro h; exact absurd (hlo _ (List.getElem_mem _)) (not_le.mpr h)
      · intro h; omega
    · intro k hk
      have ek : edges.getD k 0 = edges[k]'(by omega) := by simp [show k < edges.length by omega]
      simp only [ek]
      constructor
      · intro _; omega
      · intro _; exact hhi _ (List.getElem_mem _)
  have hs := single_cover W hn fun k => data.getD k 0
  have ht := list_tab edges
  rw [hlen] at ht
  rw [← ht, ← list_tab data, ← sum_getD] at hs
  unfold rebin1d pyAssert
  have hm2 : isPosMonotonic [lo, hi] = true := by simp [isPosMonotonic, hle]
  rw [if_pos (by omega), if_pos hm, if_pos hm2]
  simp only [bind, Except.bind, newBins, List.tail_cons, List.zip_cons_cons, List.zip_nil_right,
    pyMap, hs, pure, Except.pure]

/-- So one new bin over the data `[1, 2, 6]` gets `15/4`, and the mean is `3`. -/
theorem C42_violated_example :
    rebin1d (K := ℚ) [0, 1, 2, 3] [1, 2, 6] [0, 3] none = .ok [some (15/4)] ∧
      overlapMean (K := ℚ) [0, 1, 2, 3] [1, 2, 6] 0 3 = 3 := by
  constructor <;> decide +kernel

/-! ## C43 -/

/-- C43: for bins of positive length a new bin gets NaN exactly if it lies outside the range of the old
bins. Missing: new bins and old bins of zero length, where the statement is false, see
`C43_violated`. -/
theorem C43_nan_iff_partial (edges data newEdges : List K) (r : List (Option K))
    (h : rebin1d edges data newEdges none = .ok r) (hd : data ≠ []) (hinc : Increasing edges)
    (i : ℕ) (lo hi : K) (hlo : newEdges[i]? = some lo) (hhi : newEdges[i+1]? = some hi)
    (hlt : lo < hi) :
    r[i]? = some none ↔ ((∀ e ∈ edges, hi < e) ∨ (∀ e ∈ edges, e < lo)) := by
  obtain ⟨hlen, hm, hm', h⟩ := rebin1d_ok h
  have hn : 0 < data.length := List.length_pos_iff.mpr hd
  obtain ⟨o, ho, hval⟩ := forall₂_get h i _ (newBins_get hlo hhi)
  rw [ho]
  simp only [Option.some.injEq] at hval ⊢
  have hmono := mono_getD hm
  have e0 : edges.getD 0 0 = edges[0]'(by omega) := by simp [show 0 < edges.length by omega]
  have en : edges.getD data.length 0 = edges[data.length]'(by omega) := by
    simp [show data.length < edges.length by omega]
  have hout : (hi < edges.getD 0 0 ∨ edges.getD data.length 0 < lo) ↔
      ((∀ e ∈ edges, hi < e) ∨ (∀ e ∈ edges, e < lo)) := by
    constructor
    · rintro (h1 | h1)
      · left
        intro e he
        obtain ⟨j, hj, rfl⟩ := List.mem_iff_getElem.mp he
        have h2 := hmono 0 j (by omega) (by omega)
        have ej : edges.getD j 0 = edges[j] := by simp [hj]
        rw [ej] at h2
        exact lt_of_lt_of_le h1 h2
      · right
        intro e he
        obtain ⟨j, hj, rfl⟩ := List.mem_iff_getElem.mp he
        have h2 := hmono j data.length (by omega) (by omega)
        have ej : edges.getD j 0 = edges[j] := by simp [hj]
        rw [ej] at h2
        exact lt_of_le_of_lt h2 h1
    · rintro (h1 | h1)
      · left; rw [e0]; exact h1 _ (List.getElem_mem _)
      · right; rw [en]; exact h1 _ (List.getElem_mem _)
  rw [← hout]
  rcases single_list edges data hlen hn hm lo hi hlt.le with ⟨ω, _, _, h3, h4, _⟩ | ⟨h1, h2⟩
  · rw [h3 data rfl] at hval
    simp only [Except.ok.injEq] at hval
    rw [← hval]
    constructor
    · intro h; simp at h
    · rintro (h1 | h1)
      · exact absurd h4.1 (not_le.mpr h1)
      · exact absurd h4.2 (not_le.mpr h1)
  · rw [h1 data rfl] at hval
    simp only [Except.ok.injEq] at hval
    constructor
    · intro _
      refine h2 ?_ hlt
      intro a b hab hb
      have ea : edges.getD a 0 = edges[a]'(by omega) := by simp [show a < edges.length by omega]
      have eb : edges.getD b 0 = edges[b]'(by omega) := by simp [show b < edges.length by omega]
      rw [ea, eb]
      exact hinc a b _ _ hab
    · intro _; exact hval.symm

/-- One new bin left of the data, one that touches it and one that enters it. -/
example : rebin1d (K := ℚ) [0, 1, 3] [5, 2] [-2, -1, 0, 1/2] none
    = .ok [none, some 5, some 5] := by decide +kernel

/-- NaN inside the data: a new bin of zero length at an old edge, and an old bin of zero length. -/
theorem C43_violated :
    rebin1d (K := ℚ) [0, 1, 2] [5, 6] [1, 1] none = .ok [none] ∧
      rebin1d (K := ℚ) [0, 1, 1, 2] [5, 6, 7] [1/2, 3/2] none = .ok [none] := by
  constructor <;> decide +kernel

/-! ## C44 -/

/-- C44, first half: mismatched lengths and decreasing edges raise AssertionError, whatever the rest of
the input. -/
theorem C44_rejects (edges data newEdges : List K) (w : Option (List K))
    (h : edges.length ≠ data.length + 1 ∨ (∃ i j, ∃ (hi : i < edges.length) (hj : j < edges.length),
        i < j ∧ edges[j] < edges[i]) ∨
      (∃ i j, ∃ (hi : i < newEdges.length) (hj : j < newEdges.length),
        i < j ∧ newEdges[j] < newEdges[i]) ∨ ∃ ww, w = some ww ∧ ww.length ≠ data.length) :
    rebin1d edges data newEdges w = .error .assertionError := by
  unfold rebin1d pyAssert
  by_cases c1 : (edges.length : ℤ) - 1 = data.length
  · rw [if_pos c1]
    by_cases c2 : isPosMonotonic edges = true
    · rw [if_pos c2]
      by_cases c3 : isPosMonotonic newEdges = true
      · rw [if_pos c3]
        rw [isPosMonotonic_iff] at c2 c3
        rcases h with h | ⟨i, j, hi, hj, hij, h⟩ | ⟨i, j, hi, hj, hij, h⟩ | ⟨ww, rfl, h⟩
        · omega
        · exact absurd (c2 i j hi hj hij.le) (not_le.mpr h)
        · exact absurd (c3 i j hi hj hij.le) (not_le.mpr h)
        · simp only [bind, Except.bind]
          rw [if_neg (fun h' => h h'.symm)]
      · rw [if_neg c3]; rfl
    · rw [if_neg c2]; rfl
  · rw [if_neg c1]; rfl

/-- C44 with `sigma`: also errors of the wrong length are rejected. -/
theorem C44_sigma_rejects (edges data newEdges : List ℝ) (w : Option (List ℝ)) (sigma : List ℝ)
    (h : edges.length ≠ data.length + 1 ∨ (∃ i j, ∃ (hi : i < edges.length) (hj : j < edges.length),
        i < j ∧ edges[j] < edges[i]) ∨
      (∃ i j, ∃ (hi : i < newEdges.length) (hj : j < newEdges.length),
        i < j ∧ newEdges[j] < newEdges[i]) ∨ (∃ ww, w = some ww ∧ ww.length ≠ data.length) ∨
      sigma.length ≠ data.length) :
    rebin1dSigma edges data newEdges w sigma = .error .assertionError := by
  unfold rebin1dSigma pyAssert
  by_cases c1 : (edges.length : ℤ) - 1 = data.length
  · rw [if_pos c1]
    by_cases c2 : isPosMonotonic edges = true
    · rw [if_pos c2]
      by_cases c3 : isPosMonotonic newEdges = true
      · rw [if_pos c3]
        rw [isPosMonotonic_iff] at c2 c3
        rcases h with h | ⟨i, j, hi, hj, hij, h⟩ | ⟨i, j, hi, hj, hij, h⟩ | ⟨ww, rfl, h⟩ | h
        · omega
        · exact absurd (c2 i j hi hj hij.le) (not_le.mpr h)
        · exact absurd (c3 i j hi hj hij.le) (not_le.mpr h)
        · simp only [bind, Except.bind]
          rw [if_neg (fun h' => h h'.symm)]
        · cases w with
          | none =>
            simp only [bind, Except.bind]
            rw [if_neg (fun h' => h h'.symm)]
          | some ww =>
            simp only [bind, Except.bind]
            by_cases c4 : data.length = ww.length
            · rw [if_pos c4]
              simp only
              rw [if_neg (fun h' => h h'.symm)]
            · rw [if_neg c4]
      · rw [if_neg c3]; rfl
    · rw [if_neg c2]; rfl
  · rw [if_neg c1]; rfl

example : rebin1dSigma [0, 1, 2] [3, 4] [0, 2] none [1, 1, 1] = .error .assertionError :=
  C44_sigma_rejects _ _ _ _ _ (.inr (.inr (.inr (.inr (by decide)))))

/-- C44, second half: every other call with at least one data value succeeds, with one value per new
bin. Missing: no data value and a single edge, see `C44_violated`. -/
theorem C44_accepts_partial (edges data newEdges : List K) (w : Option (List K))
    (hlen : edges.length = data.length + 1) (hd : data ≠ [])
    (h1 : ∀ i j (hi : i < edges.length) (hj : j < edges.length), i ≤ j → edges[i] ≤ edges[j])
    (h2 : ∀ i j (hi : i < newEdges.length) (hj : j < newEdges.length),
      i ≤ j → newEdges[i] ≤ newEdges[j])
    (hw : ∀ ww, w = some ww → ww.length = data.length) :
    ∃ r, rebin1d edges data newEdges w = .ok r ∧ r.length = newEdges.length - 1 := by
  have m1 := (isPosMonotonic_iff edges).mpr h1
  have m2 := (isPosMonotonic_iff newEdges).mpr h2
  have hn : 0 < data.length := List.length_pos_iff.mpr hd
  have key : ∀ v : List K, v.length = data.length → ∀ l : List (K × K), (∀ b ∈ l, b.1 ≤ b.2) →
      ∃ r, pyMap (fun b : K × K => rebinSingleBin edges v b.1 b.2) l = .ok r ∧
        r.length = l.length := by
    intro v hv l
    induction l with
    | nil => intro _; exact ⟨[], rfl, rfl⟩
    | cons b l ih =>
      intro hb
      obtain ⟨r, hr, hl⟩ := ih fun b' hb' => hb b' (by simp [hb'])
      rcases single_list edges data hlen hn m1 b.1 b.2 (hb b (by simp)) with
        ⟨ω, _, _, h3, _⟩ | ⟨h3, _⟩
      · refine ⟨some ((∑ k ∈ range data.length, ω k * v.getD k 0)
          / ∑ k ∈ range data.length, ω k) :: r, ?_, by simp [hl]⟩
        simp only [pyMap, h3 v hv, hr, bind, Except.bind, pure, Except.pure]
      · refine ⟨none :: r, ?_, by simp [hl]⟩
        simp only [pyMap, h3 v hv, hr, bind, Except.bind, pure, Except.pure]
  have hb : ∀ b ∈ newBins newEdges, b.1 ≤ b.2 := fun b hb => newBins_mem m2 hb
  unfold rebin1d pyAssert
  rw [if_pos (by omega), if_pos m1, if_pos m2]
  simp only [bind, Except.bind]
  cases w with
  | none =>
    obtain ⟨r, hr, hl⟩ := key data rfl _ hb
    exact ⟨r, hr, by rw [hl, newBins_length]⟩
  | some w =>
    have hwl := hw w rfl
    obtain ⟨num, hnum, hl1⟩ := key (List.zipWith (· * ·) data w) (by simp [hwl]) _ hb
    obtain ⟨den, hden, hl2⟩ := key w hwl _ hb
    refine ⟨List.zipWith odiv num den, ?_, by simp [hl1, hl2, newBins_length]⟩
    simp only []
    rw [if_pos hwl.symm]
    simp only [hnum, hden, pure, Except.pure]

example : rebin1d (K := ℚ) [0, 1, 3] [5, 2] [2, 1] none = .error .assertionError := by
  decide +kernel
example : rebin1d (K := ℚ) [0, 1, 3] [5, 2] [1, 2, 4] (some [1, 0]) = .ok [none, none] := by
  decide +kernel

/-- One edge and no data pass the checks; a new bin over that edge then raises IndexError. -/
theorem C44_violated : rebin1d (K := ℚ) [0] [] [-1, 1] none = .error .indexError := by
  decide +kernel

/-! ## C45 -/

/-- C45: the weights reproduce the value `rebin_1d` gives, or both are NaN. Missing: new bins
that contain exactly one old edge other than the first, and new bins that cover all old bins; the
statement is false there, see `C45_violated`, `C45_violated_last`. -/
theorem C45_weights_partial (edges data : List K) (hlen : edges.length = data.length + 1)
    (hd : data ≠ []) (hm : isPosMonotonic edges = true) (lo hi : K) (hle : lo ≤ hi)
    (hone : (edges.countP fun e => decide (lo ≤ e) && decide (e ≤ hi)) ≠ 1 ∨ ∀ e ∈ edges, lo ≤ e)
    (hcover : ¬ ((∀ e ∈ edges, lo ≤ e) ∧ ∀ e ∈ edges, e ≤ hi)) :
    (∃ ws, singleBinWeights edges lo hi = .ok (some ws) ∧ ws.length = data.length ∧
        rebin1d edges data [lo, hi] none = .ok [weightedMean ws data]) ∨
      (singleBinWeights edges lo hi = .ok none ∧ rebin1d edges data [lo, hi] none = .ok [none]) := by
  have hn : 0 < data.length := List.length_pos_iff.mpr hd
  have hmono := mono_getD hm
  rw [show edges.length - 1 = data.length by omega] at hmono
  obtain ⟨L, R, W⟩ := exists_window (fun k => edges.getD k 0) data.length hmono hle
  have ht := list_tab edges
  rw [hlen] at ht
  have hL0 : (∀ e ∈ edges, lo ≤ e) → L = 0 := by
    intro h
    by_contra hL
    have h1 := (W.lt_min 0 (by omega)).mpr (by omega)
    have e0 : edges.getD 0 0 = edges[0]'(by omega) := by simp [show 0 < edges.length by omega]
    rw [e0] at h1
    exact absurd (h _ (List.getElem_mem _)) (not_le.mpr h1)
  have hall : ∀ k (hk : k < edges.length), edges.getD k 0 = edges[k] := fun k hk => by simp [hk]
  have hcnt : (edges.countP fun e => decide (lo ≤ e) && decide (e ≤ hi)) = R - L := by
    have h1 := condition_eq W
    rw [← ht] at h1
    have h2 := whereFrom_length (fun e => decide (e ≥ lo) && decide (e ≤ hi)) 0 edges
    unfold condition whereIdx at h1
    rw [h1] at h2
    simpa using h2.symm
  have hrb : ∀ o, rebinSingleBin edges data lo hi = .ok o → rebin1d edges data [lo, hi] none
      = .ok [o] := by
    intro o ho
    unfold rebin1d pyAssert
    have hm2 : isPosMonotonic [lo, hi] = true := by simp [isPosMonotonic, hle]
    rw [if_pos (by omega), if_pos hm, if_pos hm2]
    simp only [bind, Except.bind, newBins, List.tail_cons, List.zip_cons_cons, List.zip_nil_right,
      pyMap, ho, pure, Except.pure]
  have htd := list_tab data
  rcases weights_ok hn W (by
    intro hR
    rcases hone with h | h
    · rw [hcnt] at h; omega
    · exact hL0 h) (by
    rintro ⟨h1, h2⟩
    apply hcover
    constructor
    · intro e he
      obtain ⟨j, hj, rfl⟩ := List.mem_iff_getElem.mp he
      have := W.lt_min j (by omega)
      simp only [hall j hj] at this
      exact not_lt.mp fun h => by have := this.mp h; omega
    · intro e he
      obtain ⟨j, hj, rfl⟩ := List.mem_iff_getElem.mp he
      have := W.le_max j (by omega)
      simp only [hall j hj] at this
      exact this.mpr (by omega)) with ⟨ws, h1, h2, h3⟩ | ⟨h1, h2⟩
  · left
    have h3 := h3 fun k => data.getD k 0
    rw [← ht, ← htd] at h3
    rw [← ht] at h1
    exact ⟨ws, h1, h2, hrb _ h3⟩
  · right
    have h2 := h2 fun k => data.getD k 0
    rw [← ht, ← htd] at h2
    rw [← ht] at h1
    exact ⟨h1, hrb _ h2⟩

/-- A bin with two old edges inside. -/
example : singleBinWeights (K := ℚ) [0, 1, 2, 3] (1/2) (9/4)
      = .ok (some [some (1/2), some 1, some (1/4)]) ∧
    rebin1d (K := ℚ) [0, 1, 2, 3] [5, -1, 2] [1/2, 9/4] none
      = .ok [weightedMean [some (1/2), some 1, some (1/4)] [5, -1, 2]] := by
  constructor <;> decide +kernel

/-- With one inner edge the weights sit one bin too far to the right; with a bin over all the data
the weights are right but the rebinned value is not. -/
theorem C45_violated :
    (singleBinWeights (K := ℚ) [0, 1, 2, 3] (1/2) (3/2)
        = .ok (some [some 0, some (1/2), some (1/2)]) ∧
      rebin1d (K := ℚ) [0, 1, 2, 3] [5, -1, 2] [1/2, 3/2] none = .ok [some 2] ∧
      weightedMean (K := ℚ) [some 0, some (1/2), some (1/2)] [5, -1, 2] = some (1/2)) ∧
    (singleBinWeights (K := ℚ) [0, 1, 2] 0 2 = .ok (some [some 1, some 1]) ∧
      rebin1d (K := ℚ) [0, 1, 2] [1, 4] [0, 2] none = .ok [some 3] ∧
      weightedMean (K := ℚ) [some 1, some 1] [1, 4] = some (5/2)) := by
  refine ⟨⟨?_, ?_, ?_⟩, ?_, ?_, ?_⟩ <;> decide +kernel

/-- A new bin that contains the last edge only makes the weights function raise IndexError, on
every grid. -/
theorem C45_violated_last (edges : List K) (hinc : Increasing edges) (hl : 2 ≤ edges.length)
    (lo hi : K) (h1 : edges[edges.length - 2] < lo) (h2 : lo ≤ edges[edges.length - 1])
    (h3 : edges[edges.length - 1] ≤ hi) :
    singleBinWeights edges lo hi = .error .indexError := by
  obtain ⟨n, hn⟩ : ∃ n, edges.length = n + 1 := ⟨edges.length - 1, by omega⟩
  have hall : ∀ k (hk : k < edges.length), edges.getD k 0 = edges[k] := fun k hk => by simp [hk]
  have hle : ∀ i j (hi : i < edges.length) (hj : j < edges.length), i ≤ j → edges[i] ≤ edges[j] := by
    intro i j hi hj hij
    rcases Nat.lt_or_ge i j with h | h
    · exact (hinc i j hi hj h).le
    · have : i = j := by omega
      subst this; exact le_refl _
  have W : Window (fun k => edges.getD k 0) n lo hi n (n+1) := by
    refine ⟨by omega, le_refl _, by omega, ?_, ?_⟩
    · intro k hk
      simp only [hall k (by omega)]
      constructor
      · intro h
        by_contra hk'
        have hkn : k = n := by omega
        subst hkn
        simp only [hn, Nat.add_sub_cancel] at h2
        exact absurd h2 (not_le.mpr h)
      · intro h
        exact lt_of_le_of_lt (hle k (edges.length - 2) _ _ (by omega)) h1
    · intro k hk
      simp only [hall k (by omega)]
      constructor
      · intro _; omega
      · intro _; exact le_trans (hle k (edges.length - 1) _ _ (by omega)) h3
  have ht := list_tab edges
  rw [hn] at ht
  rw [ht]
  exact weights_last_fails (by omega) W

example : singleBinWeights (K := ℚ) [0, 1, 2] (3/2) 5 = .error .indexError := by decide +kernel

end

/-! ## C46 -/

/-- C46: with at most one old edge inside the new bin, the error is that of the weighted mean
which gives the value, every bin weighted by its overlap, and every bin the new one overlaps has a
positive weight. Missing: new bins with two or more old edges inside, where the statement is false, see
`C46_violated`. -/
theorem C46_sigma_partial (edges data sigma : List ℝ) (hlen : edges.length = data.length + 1)
    (hs : sigma.length = data.length) (hinc : Increasing edges) (lo hi : ℝ) (hlt : lo < hi)
    (hone : (edges.countP fun e => decide (lo ≤ e) && decide (e ≤ hi)) ≤ 1)
    (hov : 0 < ∑ k ∈ range data.length, binOverlap edges lo hi k) :
    ∃ ω : ℕ → ℝ, (∀ k, k < data.length → (0 < ω k ↔ 0 < binOverlap edges lo hi k)) ∧
      rebin1dSigma edges data [lo, hi] none sigma =
        .ok ([some ((∑ k ∈ range data.length, ω k * data.getD k 0)
            / ∑ k ∈ range data.length, ω k)],
          [some (meanSigma data.length (fun k => edges.getD (k+1) 0 - edges.getD k 0)
            (binOverlap edges lo hi) ω fun k => sigma.getD k 0)]) := by
  have hn : 0 < data.length := by
    by_contra hz
    rw [show data.length = 0 by omega] at hov
    simp at hov
  have hall : ∀ k (hk : k < edges.length), edges.getD k 0 = edges[k] := fun k hk => by simp [hk]
  have hstr : ∀ i j, i < j → j ≤ data.length → edges.getD i 0 < edges.getD j 0 := by
    intro i j hij hj
    rw [hall i (by omega), hall j (by omega)]
    exact hinc i j _ _ hij
  have hm : isPosMonotonic edges = true := by
    rw [isPosMonotonic_iff]
    intro i j hi hj hij
    rcases Nat.lt_or_ge i j with h | h
    · exact (hinc i j hi hj h).le
    · have : i = j := by omega
      subst this; exact le_refl _
  have hmono := mono_getD hm
  rw [show edges.length - 1 = data.length by omega] at hmono
  obtain ⟨L, R, W⟩ := exists_window (fun k => edges.getD k 0) data.length hmono hlt.le
  have ht := list_tab edges
  rw [hlen] at ht
  have hcnt : (edges.countP fun e => decide (lo ≤ e) && decide (e ≤ hi)) = R - L := by
    have h1 := condition_eq W
    rw [← ht] at h1
    have h2 := whereFrom_length (fun e => decide (e ≥ lo) && decide (e ≤ hi)) 0 edges
    unfold condition whereIdx at h1
    rw [h1] at h2
    simpa using h2.symm
  obtain ⟨ω, h1, h2, h3, h4, h5⟩ := sigma_small hn hstr hlt W (by omega) hov
  refine ⟨ω, h3, ?_⟩
  have h4 := h4 fun k => data.getD k 0
  have h5 := h5 fun k => sigma.getD k 0
  rw [← ht, ← list_tab data] at h4
  have hts := list_tab sigma
  rw [hs] at hts
  rw [← ht, ← hts] at h5
  have hm2 : isPosMonotonic [lo, hi] = true := by simp [isPosMonotonic, hlt.le]
  unfold rebin1dSigma rebin1d pyAssert
  rw [if_pos (by omega), if_pos hm, if_pos hm2]
  simp only [bind, Except.bind]
  rw [if_pos hs.symm]
  simp only [newBins, List.tail_cons, List.zip_cons_cons, List.zip_nil_right, pyMap, h4, h5,
    bind, Except.bind, pure, Except.pure]
  rfl

/-- A bin across one edge meets the hypotheses. -/
example : Increasing (K := ℝ) [0, 1, 2] ∧
    (([0, 1, 2] : List ℝ).countP fun e => decide ((1:ℝ)/2 ≤ e) && decide (e ≤ 3/2)) ≤ 1 ∧
    0 < ∑ k ∈ range 2, binOverlap (K := ℝ) [0, 1, 2] (1/2) (3/2) k := by
  refine ⟨?_, ?_, ?_⟩
  · intro i j hi hj hij
    simp only [List.length_cons, List.length_nil] at hi hj
    have : (i = 0 ∧ j = 1) ∨ (i = 0 ∧ j = 2) ∨ (i = 1 ∧ j = 2) := by omega
    rcases this with ⟨rfl, rfl⟩ | ⟨rfl, rfl⟩ | ⟨rfl, rfl⟩ <;> simp
  · norm_num [List.countP_cons]
  · norm_num [Finset.sum_range_succ, binOverlap, overlap]

/-- With two or more old edges inside the new bin (away from the ends of the grid), the error does
not depend on the error of the first bin the new one enters, although that bin has a positive
weight in the value. -/
theorem C46_violated (edges s s' : List ℝ) (hinc : Increasing edges)
    (h1 : edges.length = s.length + 1) (h2 : s'.length = s.length) (lo hi : ℝ) (c d : ℕ) (hc : 2 ≤ c)
    (hcd : c < d) (hd : d < s.length) (hlo : edges.getD (c-1) 0 < lo) (hlo' : lo ≤ edges.getD c 0)
    (hhi : edges.getD d 0 ≤ hi) (hhi' : hi < edges.getD (d+1) 0)
    (hs : ∀ k, k ≠ c - 1 → s.getD k 0 = s'.getD k 0) :
    rebinSingleBinSigma edges s lo hi = rebinSingleBinSigma edges s' lo hi := by
  have hall : ∀ k (hk : k < edges.length), edges.getD k 0 = edges[k] := fun k hk => by simp [hk]
  have hle : ∀ i j, j < edges.length → i ≤ j → edges.getD i 0 ≤ edges.getD j 0 := by
    intro i j hj hij
    rw [hall i (by omega), hall j hj]
    rcases Nat.lt_or_ge i j with h | h
    · exact (hinc i j _ hj h).le
    · have : i = j := by omega
      subst this; exact le_refl _
  have W : Window (fun k => edges.getD k 0) s.length lo hi c (d+1) := by
    refine ⟨by omega, by omega, by omega, ?_, ?_⟩
    · intro k hk
      constructor
      · intro h
        by_contra hk'
        have := hle c k (by omega) (by omega)
        linarith
      · intro h
        have := hle k (c-1) (by omega) (by omega)
        beta_reduce
        linarith
    · intro k hk
      constructor
      · intro h
        by_contra hk'
        have := hle (d+1) k (by omega) (by omega)
        beta_reduce at h
        linarith
      · intro h
        have := hle k d (by omega) (by omega)
        beta_reduce
        linarith
  have ht := list_tab edges
  rw [h1] at ht
  have hts := list_tab s
  have hts' := list_tab s'
  rw [h2] at hts'
  rw [ht, hts, hts']
  simp only [tab_length]
  exact sigma_drops_first W (by omega) hc (by omega) _ _ hs

/-- On the grid `0, 1, …, 5` with the new bin `[3/2, 7/2]` (so `c = 2`, `d = 3`) the value does depend
on the data of bin 1. -/
example : rebin1d (K := ℚ) [0, 1, 2, 3, 4, 5] [0, 1, 0, 0, 0] [3/2, 7/2] none = .ok [some (1/4)] ∧
    rebin1d (K := ℚ) [0, 1, 2, 3, 4, 5] [0, 0, 0, 0, 0] [3/2, 7/2] none = .ok [some 0] := by
  decide +kernel

/-! ## C47 -/

/-- C47: `is_pos_monotonic` is true exactly if the array never decreases. -/
theorem C47_monotonic {K : Type} [LinearOrder K] (arr : List K) :
    isPosMonotonic arr = true ↔
      ∀ i j (hi : i < arr.length) (hj : j < arr.length), i ≤ j → arr[i] ≤ arr[j] :=
  isPosMonotonic_iff arr

example : isPosMonotonic (K := ℚ) [1, 1, 2] = true ∧ isPosMonotonic (K := ℚ) [1, 3, 2] = false ∧
    isPosMonotonic (K := ℚ) [] = true := by decide +kernel

end Magpie.Props
