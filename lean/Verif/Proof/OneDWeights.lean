import Verif.Proof.OneDList
import Verif.Spec.OneD

set_option linter.unusedSimpArgs false
set_option linter.unusedVariables false
set_option linter.unusedSectionVars false

/-! # The weights and the errors of one new bin -/

namespace Magpie.OneD
open Finset Spec

section
variable {K : Type} [Field K] [LinearOrder K] [IsStrictOrderedRing K]

theorem whereFrom_length {α : Type} (c : α → Bool) (n : ℕ) (l : List α) :
    (whereFrom c n l).length = l.countP c := by
  induction l generalizing n with
  | nil => rfl
  | cons a l ih =>
    by_cases h : c a = true
    · simp [whereFrom, h, ih]
    · simp [whereFrom, h, ih]

theorem scatterZ_range' {α : Type} (n : ℕ) (f : ℕ → α) (m a : ℕ) (g : ℕ → α) (h : a + m ≤ n) :
    scatterZ (tab n g) ((List.range' a m).map fun (k : ℕ) => (k:ℤ)) ((List.range' a m).map f)
      = .ok (tab n fun k => if a ≤ k ∧ k < a + m then f k else g k) := by
  induction m generalizing a g with
  | zero =>
    simp only [List.range'_zero, List.map_nil, scatterZ]
    congr 2
    funext k
    rw [if_neg (by omega)]
  | succ m ih =>
    rw [List.range'_succ, List.map_cons, List.map_cons, scatterZ]
    rw [if_pos (by simp; omega)]
    have hs : (tab n g).set (a:ℤ).toNat (f a) = tab n fun k => if k = a then f a else g k := by
      apply List.ext_getElem
      · simp
      · intro i h1 h2
        simp only [Int.toNat_natCast, List.getElem_set, tab, List.getElem_map, List.getElem_range]
        by_cases hi : a = i
        · simp [hi]
        · rw [if_neg hi, if_neg (fun h => hi h.symm)]
    rw [hs, ih (a+1) _ (by omega)]
    congr 2
    funext k
    by_cases hk : k = a
    · subst hk
      rw [if_neg (by omega), if_pos rfl, if_pos (by omega)]
    · by_cases h2 : a + 1 ≤ k ∧ k < a + 1 + m
      · rw [if_pos h2, if_pos (by omega)]
      · rw [if_neg h2, if_neg hk, if_neg (by omega)]

theorem npSum_window (f : ℕ → Option K) (a m n : ℕ) (h : a + m ≤ n) :
    npSum (tab n fun k => if a ≤ k ∧ k < a + m then f k else some 0)
      = npSum ((List.range' a m).map f) := by
  by_cases hn : ∃ k, (a ≤ k ∧ k < a + m) ∧ f k = none
  · obtain ⟨k, hk, hf⟩ := hn
    rw [npSum_none, npSum_none]
    · exact List.mem_map.mpr ⟨k, by simp only [List.mem_range'_1]; omega, hf⟩
    · unfold tab
      refine List.mem_map.mpr ⟨k, List.mem_range.mpr (by omega), ?_⟩
      rw [if_pos hk, hf]
  · have hf : ∀ k, (a ≤ k ∧ k < a + m) → f k = some ((f k).getD 0) := by
      intro k hk
      cases hfk : f k with
      | none => exact absurd ⟨k, hk, hfk⟩ hn
      | some x => rfl
    have e1 : (tab n fun k => if a ≤ k ∧ k < a + m then f k else some 0)
        = ((List.range n).map fun k => if a ≤ k ∧ k < a + m then (f k).getD 0 else 0).map some := by
      unfold tab
      rw [List.map_map]
      apply List.map_congr_left
      intro k _
      simp only [Function.comp]
      split_ifs with hk
      · exact hf k hk
      · rfl
    have e2 : (List.range' a m).map f = ((List.range' a m).map fun k => (f k).getD 0).map some := by
      rw [List.map_map]
      apply List.map_congr_left
      intro k hk
      simp only [List.mem_range'_1] at hk
      exact hf k hk
    rw [e1, e2, npSum_some, npSum_some, sum_range_map, sum_range'_map]
    congr 1
    have hsub : Finset.Ico a (a+m) ⊆ range n := by
      intro k hk; simp only [Finset.mem_Ico, Finset.mem_range] at hk ⊢; omega
    rw [← Finset.sum_subset hsub]
    · apply Finset.sum_congr rfl
      intro k hk
      simp only [Finset.mem_Ico] at hk
      rw [if_pos hk]
    · intro k _ hk
      simp only [Finset.mem_Ico] at hk
      rw [if_neg hk]

theorem zipWith_tab {α β γ : Type} (n : ℕ) (f : ℕ → α) (g : ℕ → β) (h : α → β → γ) :
    List.zipWith h (tab n f) (tab n g) = tab n fun k => h (f k) (g k) := by
  unfold tab; rw [zipWith_map_same]

theorem weightedMean_window (f : ℕ → Option K) (d : ℕ → K) (a m n : ℕ) (h : a + m ≤ n) :
    weightedMean (tab n fun k => if a ≤ k ∧ k < a + m then f k else some 0) (tab n d)
      = odiv (npSum ((List.range' a m).map fun k => omul (f k) (d k)))
          (npSum ((List.range' a m).map f)) := by
  unfold weightedMean
  rw [npSum_window f a m n h, zipWith_tab, ← npSum_window (fun k => omul (f k) (d k)) a m n h]
  congr 2
  unfold tab
  apply List.map_congr_left
  intro k _
  split_ifs
  · rfl
  · simp [omul]

theorem weightedMean_pick (n j : ℕ) (hj : j < n) (d : ℕ → K) :
    weightedMean (tab n fun k => if j ≤ k ∧ k < j + 1 then some 1 else some 0) (tab n d)
      = some (d j) := by
  have := weightedMean_window (fun _ => some (1:K)) d j 1 n (by omega)
  rw [this]
  simp [omul, npSum, odiv, fdiv]

theorem replicate_tab {α : Type} (n : ℕ) (x : α) : List.replicate n x = tab n fun _ => x := by
  unfold tab
  apply List.ext_getElem <;> simp

variable {e : ℕ → K} {n : ℕ} {bmin bmax : K} {L R : ℕ}

/-- Outside the two faulty cases the weights reproduce the rebinned value. -/
theorem weights_ok (hn : 0 < n) (W : Window e n bmin bmax L R) (hsingle : R = L + 1 → L = 0)
    (hcover : ¬ (L = 0 ∧ R = n + 1)) :
    (∃ ws, singleBinWeights (tab (n+1) e) bmin bmax = .ok (some ws) ∧ ws.length = n ∧
      ∀ d, rebinSingleBin (tab (n+1) e) (tab n d) bmin bmax
        = .ok (weightedMean ws (tab n d))) ∨
    (singleBinWeights (tab (n+1) e) bmin bmax = .ok none ∧
      ∀ d, rebinSingleBin (tab (n+1) e) (tab n d) bmin bmax = .ok none) := by
  have hL := W.hL
  have hR := W.hR
  have hLR := W.le
  rcases Nat.lt_or_ge (L+1) R with hbig | hsmall
  · left
    have hr : List.range' L (R-L) = L :: (L+1) :: List.range' (L+2) (R-L-2) := by
      rw [show R - L = (R-L-2) + 1 + 1 by omega, List.range'_succ, List.range'_succ]
      simp
    refine ⟨tab n fun k => if L - 1 ≤ k ∧ k < L - 1 + (min R n - (L-1)) then
      wgt e n bmin bmax L R k else some 0, ?_, by simp, ?_⟩
    · unfold singleBinWeights
      rw [condition_eq W, hr]
      simp only
      rw [← hr, generalWeights_eq W hbig hcover]
      simp only [bind, Except.bind, tab_length, Nat.add_sub_cancel, replicate_tab]
      rw [scatterZ_range' n _ _ _ _ (by omega)]
      rfl
    · intro d
      rw [single_general W hbig hcover d, weightedMean_window _ _ _ _ _ (by omega)]
  · rcases Nat.lt_or_ge L R with h1 | h1
    · have hRL : R = L + 1 := by omega
      have hL0 := hsingle hRL
      subst hL0 hRL
      have hcond : condition (tab (n+1) e) bmin bmax = [0] := by
        rw [condition_eq W]; simp
      left
      refine ⟨tab n fun k => if 0 ≤ k ∧ k < 0 + 1 then some 1 else some 0, ?_, by simp, ?_⟩
      · unfold singleBinWeights
        rw [hcond]
        simp only [tab_length, Nat.add_sub_cancel, replicate_tab]
        rw [if_neg (by omega)]
        have := scatterZ_range' n (fun _ => some (1:K)) 1 0 (fun _ => some 0) (by omega)
        simp only [List.range'_one, List.map_cons, List.map_nil] at this
        rw [this]
        rfl
      · intro d
        rw [weightedMean_pick n 0 hn d]
        unfold rebinSingleBin
        rw [hcond]
        simp only
        rw [if_neg (by omega), if_pos trivial, getZ_tab' n d 0 0 rfl hn]
        rfl
    · have hRL : R = L := by omega
      subst hRL
      have hcond : condition (tab (n+1) e) bmin bmax = [] := by
        rw [condition_eq W]; simp
      by_cases hin : 0 < R ∧ R ≤ n
      · left
        have hc1 : condition1 (tab (n+1) e) bmin = R :: List.range' (R+1) (n-R) := by
          rw [condition1_eq W, show n + 1 - R = (n-R) + 1 by omega, List.range'_succ]
        refine ⟨tab n fun k => if R - 1 ≤ k ∧ k < R - 1 + 1 then some 1 else some 0, ?_,
          by simp, ?_⟩
        · unfold singleBinWeights
          rw [hcond]
          simp only [hc1, tab_length, Nat.add_sub_cancel, replicate_tab]
          rw [if_pos (by simp; omega)]
          have := scatterZ_range' n (fun _ => some (1:K)) 1 (R-1) (fun _ => some 0) (by omega)
          simp only [List.range'_one, List.map_cons, List.map_nil] at this
          rw [show (R:ℤ) - 1 = ((R-1 : ℕ) : ℤ) by omega, this]
          rfl
        · intro d
          rw [weightedMean_pick n (R-1) (by omega) d]
          unfold rebinSingleBin
          rw [hcond]
          simp only [hc1]
          rw [if_pos (by simp; omega), getZ_tab' n d _ (R-1) (by omega) (by omega)]
          rfl
      · right
        by_cases hR0 : R = 0
        · have hc1 : condition1 (tab (n+1) e) bmin = 0 :: List.range' 1 n := by
            rw [condition1_eq W, hR0, show n + 1 - 0 = n + 1 by omega, List.range'_succ]
          constructor
          · unfold singleBinWeights
            rw [hcond]
            simp only [hc1]
            rw [if_neg (by simp)]
          · intro d
            unfold rebinSingleBin
            rw [hcond]
            simp only [hc1]
            rw [if_neg (by simp)]
        · have hc1 : condition1 (tab (n+1) e) bmin = [] := by
            rw [condition1_eq W, show n + 1 - R = 0 by omega]; rfl
          constructor
          · unfold singleBinWeights
            rw [hcond]
            simp only [hc1]
          · intro d
            unfold rebinSingleBin
            rw [hcond]
            simp only [hc1]

/-- A new bin that contains the last edge only makes the weights function fail. -/
theorem weights_last_fails (hn : 0 < n) (W : Window e n bmin bmax n (n+1)) :
    singleBinWeights (tab (n+1) e) bmin bmax = .error .indexError := by
  have hcond : condition (tab (n+1) e) bmin bmax = [n] := by
    rw [condition_eq W]; simp
  unfold singleBinWeights
  rw [hcond]
  simp only [tab_length, Nat.add_sub_cancel]
  rw [if_neg (by omega)]
  have h0 : ¬ ((n:ℤ) < 0) := by omega
  simp [scatterZ, bind, Except.bind, h0]

end

/-! ## Errors -/

section Sigma
variable {e : ℕ → ℝ} {n : ℕ} {bmin bmax : ℝ} {L R : ℕ}

theorem lengths_tab (n : ℕ) (e : ℕ → ℝ) : lengths (tab (n+1) e) = tab n fun k => e (k+1) - e k := by
  unfold lengths tab
  apply List.ext_getElem
  · simp
  · intro i h1 h2
    simp

theorem meanSigma_pick (n j : ℕ) (hj : j < n) (len ov s : ℕ → ℝ) (hov : ov j ≠ 0) :
    meanSigma n len ov (fun k => if k = j then 1 else 0) s
      = Real.sqrt (s j ^ 2 * (len j / ov j)) := by
  unfold meanSigma
  rw [sum_pick n j hj, div_one]
  congr 1
  rw [Finset.sum_eq_single j]
  · rw [if_neg hov]; simp; ring
  · intro k _ hk; simp [hk]
  · intro h; simp at h; omega

theorem osqrt_some {x : ℝ} (h : 0 ≤ x) : osqrt (some x) = some (Real.sqrt x) := by
  simp [osqrt, npSqrt, h]

/-- With at most one old edge inside the new bin the error uses the same weights as the value. -/
theorem sigma_small (hn : 0 < n) (he : ∀ i j, i < j → j ≤ n → e i < e j) (hb : bmin < bmax)
    (W : Window e n bmin bmax L R) (hR1 : R ≤ L + 1)
    (hov : 0 < ∑ k ∈ range n, Spec.overlap (e k) (e (k+1)) bmin bmax) :
    ∃ ω : ℕ → ℝ, (∀ k, k < n → 0 ≤ ω k) ∧ 0 < ∑ k ∈ range n, ω k ∧
      (∀ k, k < n → (0 < ω k ↔ 0 < Spec.overlap (e k) (e (k+1)) bmin bmax)) ∧
      (∀ d : ℕ → ℝ, rebinSingleBin (tab (n+1) e) (tab n d) bmin bmax
        = .ok (some ((∑ k ∈ range n, ω k * d k) / ∑ k ∈ range n, ω k))) ∧
      (∀ s : ℕ → ℝ, rebinSingleBinSigma (tab (n+1) e) (tab n s) bmin bmax
        = .ok (some (meanSigma n (fun k => e (k+1) - e k)
            (fun k => Spec.overlap (e k) (e (k+1)) bmin bmax) ω s))) := by
  have hL := W.hL
  have hR := W.hR
  have hLR := W.le
  rcases Nat.lt_or_ge L R with h1 | h1
  · -- exactly one edge
    have hRL : R = L + 1 := by omega
    subst hRL
    have hcond : condition (tab (n+1) e) bmin bmax = [L] := by
      rw [condition_eq W]; simp
    have eL1 : bmin ≤ e L := not_lt.mp fun h => by
      have := (W.lt_min L (by omega)).mp h; omega
    have eL2 : e L ≤ bmax := (W.le_max L (by omega)).mpr (by omega)
    by_cases hin : 0 < L ∧ L < n
    · have h3 : e (L-1) < bmin := (W.lt_min (L-1) (by omega)).mpr (by omega)
      have h4 : bmax < e (L+1) := not_le.mp fun h => by
        have := (W.le_max (L+1) (by omega)).mp h; omega
      have d1 : 0 < e L - e (L-1) := by linarith
      have d2 : 0 < e (L+1) - e L := by linarith
      have n1 : 0 ≤ (e L - bmin)/(e L - e (L-1)) := div_nonneg (by linarith) d1.le
      have n2 : 0 ≤ (bmax - e L)/(e (L+1) - e L) := div_nonneg (by linarith) d2.le
      have hpos : 0 < (e L - bmin)/(e L - e (L-1)) + (bmax - e L)/(e (L+1) - e L) := by
        rcases eq_or_lt_of_le eL1 with h | h
        · have : 0 < (bmax - e L)/(e (L+1) - e L) := div_pos (by linarith) d2
          linarith
        · have : 0 < (e L - bmin)/(e L - e (L-1)) := div_pos (by linarith) d1
          linarith
      have ov : ∀ k, k < n → Spec.overlap (e k) (e (k+1)) bmin bmax
          = if k = L - 1 then e L - bmin else if k = L then bmax - e L else 0 := by
        intro k hk
        rw [overlap_window W k hk]
        by_cases c1 : k + 1 < L
        · have : e (k+1) < bmin := (W.lt_min (k+1) (by omega)).mpr c1
          rw [if_pos (by omega), if_pos (by omega), if_neg (by omega), if_neg (by omega)]
          exact max_eq_left (by linarith)
        · by_cases c2 : k + 1 = L
          · rw [if_pos (by omega), if_pos (by omega), if_pos (by omega), c2]
            exact max_eq_right (by linarith)
          · by_cases c3 : k = L
            · rw [if_neg (by omega), if_neg (by omega), if_neg (by omega), if_pos c3, c3]
              exact max_eq_right (by linarith)
            · have h5 : bmax < e k := not_le.mp fun h => by
                have := (W.le_max k (by omega)).mp h; omega
              rw [if_neg (by omega), if_neg (by omega), if_neg (by omega), if_neg c3]
              exact max_eq_left (by linarith)
      have hs : ∀ a b : ℝ, ∀ g : ℕ → ℝ, ∑ k ∈ Finset.range n, (if k = L - 1 then
            a * g k else if k = L then b * g k else 0) = a * g (L-1) + b * g L := by
        intro a b g
        have : ∀ k, (if k = L - 1 then a * g k else if k = L then b * g k else 0)
            = (if k = L - 1 then a * g k else 0) + (if k = L then b * g k else 0) := by
          intro k
          split_ifs with c1 c2
          · omega
          · ring
          · ring
          · ring
        simp only [this, Finset.sum_add_distrib, Finset.sum_ite_eq', Finset.mem_range]
        rw [if_pos (by omega), if_pos (by omega)]
      set w1 := (e L - bmin)/(e L - e (L-1)) with hw1
      set w2 := (bmax - e L)/(e (L+1) - e L) with hw2
      let ω : ℕ → ℝ := fun k => if k = L - 1 then w1 else if k = L then w2 else 0
      have hsω : ∀ g : ℕ → ℝ, ∑ k ∈ range n, ω k * g k = w1 * g (L-1) + w2 * g L := by
        intro g
        rw [← hs w1 w2 g]
        apply Finset.sum_congr rfl
        intro k _
        simp only [ω]; split_ifs <;> simp
      have hs1 : ∑ k ∈ range n, ω k = w1 + w2 := by
        have := hsω fun _ => 1
        simpa using this
      refine ⟨ω, ?_, ?_, ?_, ?_, ?_⟩
      · intro k _; simp only [ω]; split_ifs
        · exact n1
        · exact n2
        · exact le_refl _
      · rw [hs1]; exact hpos
      · intro k hk
        rw [ov k hk]
        simp only [ω]
        split_ifs
        · rw [hw1]; constructor
          · intro h; by_contra hh
            have : e L - bmin = 0 := by linarith
            rw [this, zero_div] at h; exact lt_irrefl _ h
          · intro h; exact div_pos h d1
        · rw [hw2]; constructor
          · intro h; by_contra hh
            have : bmax - e L = 0 := by linarith
            rw [this, zero_div] at h; exact lt_irrefl _ h
          · intro h; exact div_pos h d2
        · simp
      · intro d
        unfold rebinSingleBin
        rw [hcond]
        simp only [tab_length, Nat.add_sub_cancel]
        rw [if_pos hin, getZ_tab (n+1) e L (by omega),
          getZ_tab' (n+1) e _ (L-1) (by omega) (by omega),
          getZ_tab' (n+1) e _ (L+1) (by push_cast; ring) (by omega),
          getZ_tab' n d _ (L-1) (by omega) (by omega), getZ_tab n d L (by omega)]
        rw [hsω d, hs1]
        simp [bind, Except.bind, pure, Except.pure, fdiv, d1.ne', d2.ne', omul, npSum, odiv,
          hpos.ne', ← hw1, ← hw2]
      · intro s
        unfold rebinSingleBinSigma
        rw [hcond, lengths_tab]
        simp only [tab_length, Nat.add_sub_cancel]
        rw [if_pos hin, getZ_tab (n+1) e L (by omega),
          getZ_tab' (n+1) e _ (L-1) (by omega) (by omega),
          getZ_tab' (n+1) e _ (L+1) (by push_cast; ring) (by omega),
          getZ_tab' n s _ (L-1) (by omega) (by omega), getZ_tab n s L (by omega),
          getZ_tab' n (fun k => e (k+1) - e k) _ (L-1) (by omega) (by omega),
          getZ_tab n (fun k => e (k+1) - e k) L (by omega)]
        simp only [bind, Except.bind, pure, Except.pure]
        have f1 : fdiv (e L - bmin) (e L - e (L-1)) = some w1 := by simp [fdiv, d1.ne', hw1]
        have f2 : fdiv (bmax - e L) (e (L+1) - e L) = some w2 := by simp [fdiv, d2.ne', hw2]
        rw [f1, f2, show L - 1 + 1 = L by omega]
        simp only [Option.map_some]
        set T1 : ℝ := if e L - bmin = 0 then 0 else (e L - e (L-1))/(e L - bmin)*(w1*s (L-1))^2
          with hT1
        set T2 : ℝ := if bmax - e L = 0 then 0 else (e (L+1) - e L)/(bmax - e L)*(w2*s L)^2
          with hT2
        have g1 : (if e L - bmin ≠ 0 then
            some ((e L - e (L-1))/(e L - bmin)*(w1*s (L-1))^2) else some 0) = some T1 := by
          rw [hT1]; split_ifs <;> simp_all
        have g2 : (if bmax - e L ≠ 0 then
            some ((e (L+1) - e L)/(bmax - e L)*(w2*s L)^2) else some 0) = some T2 := by
          rw [hT2]; split_ifs <;> simp_all
        rw [g1, g2]
        have hT1n : 0 ≤ T1 := by
          rw [hT1]; split_ifs
          · exact le_refl _
          · exact mul_nonneg (div_nonneg d1.le (by linarith)) (sq_nonneg _)
        have hT2n : 0 ≤ T2 := by
          rw [hT2]; split_ifs
          · exact le_refl _
          · exact mul_nonneg (div_nonneg d2.le (by linarith)) (sq_nonneg _)
        have hsum : ∑ k ∈ range n, (if Spec.overlap (e k) (e (k+1)) bmin bmax = 0 then 0 else
            (e (k+1) - e k) / Spec.overlap (e k) (e (k+1)) bmin bmax * (ω k * s k)^2) = T1 + T2 := by
          have h6 := hs T1 T2 fun _ => 1
          simp only [mul_one] at h6
          rw [← h6]
          apply Finset.sum_congr rfl
          intro k hk
          simp only [Finset.mem_range] at hk
          rw [ov k hk]
          simp only [ω]
          by_cases c1 : k = L - 1
          · simp only [if_pos c1]
            rw [hT1, c1, show L - 1 + 1 = L by omega]
          · by_cases c2 : k = L
            · simp only [if_neg c1, if_pos c2]
              rw [hT2, c2]
            · simp only [if_neg c1, if_neg c2, if_true]
        have hnp : npSum [some T1, some T2] = some (T1 + T2) := by simp [npSum]
        have hnp2 : npSum [some w1, some w2] = some (w1 + w2) := by simp [npSum]
        rw [hnp, hnp2]
        simp only [Option.map_some, odiv, fdiv]
        rw [if_neg (by positivity), osqrt_some (by positivity)]
        congr 2
        unfold meanSigma
        rw [hsum, hs1, Real.sqrt_div (by positivity), Real.sqrt_sq hpos.le]
    · by_cases hL0 : L = 0
      · subst hL0
        have ov : ∀ k, k < n → Spec.overlap (e k) (e (k+1)) bmin bmax
            = if k = 0 then bmax - e 0 else 0 := by
          intro k hk
          rw [overlap_window W k hk, if_neg (by omega), if_neg (by omega)]
          by_cases hk0 : k = 0
          · subst hk0; simp; exact eL2
          · have h5 : bmax < e k := not_le.mp fun h => by
              have := (W.le_max k (by omega)).mp h; omega
            rw [if_neg hk0]
            exact max_eq_left (by linarith)
        have hov0 : 0 < bmax - e 0 := by
          rw [Finset.sum_congr rfl (fun k hk => ov k (Finset.mem_range.mp hk))] at hov
          simpa [Finset.sum_ite_eq', hn] using hov
        refine ⟨fun k => if k = 0 then 1 else 0, ?_, ?_, ?_, ?_, ?_⟩
        · intro k _; simp only; split_ifs <;> norm_num
        · rw [sum_pick n 0 hn]; exact zero_lt_one
        · intro k hk
          rw [ov k hk]; simp only
          split_ifs
          · simpa using hov0
          · simp
        · intro d
          rw [ratio_pick n 0 hn d]
          unfold rebinSingleBin
          rw [hcond]
          simp only [tab_length, Nat.add_sub_cancel]
          rw [if_neg hin, if_pos trivial, getZ_tab' n d 0 0 rfl hn]
          rfl
        · intro s
          have hov' : Spec.overlap (e 0) (e (0+1)) bmin bmax = bmax - e 0 := by
            rw [ov 0 hn]; simp
          rw [meanSigma_pick n 0 hn _ _ s (by rw [hov']; exact hov0.ne')]
          unfold rebinSingleBinSigma
          rw [hcond, lengths_tab]
          simp only [tab_length, Nat.add_sub_cancel]
          rw [if_neg hin, if_pos trivial, getZ_tab' n s 0 0 rfl hn,
            getZ_tab' (n+1) e 0 0 rfl (by omega), getZ_tab' n (fun k => e (k+1) - e k) 0 0 rfl hn]
          simp only [bind, Except.bind, pure, Except.pure, fdiv, hov0.ne', if_false, Option.map_some]
          have := he 0 1 (by omega) (by omega)
          rw [osqrt_some (mul_nonneg (sq_nonneg _) (div_nonneg (by linarith) hov0.le)), hov']
      · have hLn : L = n := by omega
        subst hLn
        have ov : ∀ k, k < L → Spec.overlap (e k) (e (k+1)) bmin bmax
            = if k = L - 1 then e L - bmin else 0 := by
          intro k hk
          rw [overlap_window W k hk, if_pos (by omega), if_pos (by omega)]
          by_cases hk0 : k = L - 1
          · rw [if_pos hk0, show k + 1 = L by omega]
            exact max_eq_right (by linarith)
          · have h5 : e (k+1) < bmin := (W.lt_min (k+1) (by omega)).mpr (by omega)
            rw [if_neg hk0]
            exact max_eq_left (by linarith)
        have hov0 : 0 < e L - bmin := by
          rw [Finset.sum_congr rfl (fun k hk => ov k (Finset.mem_range.mp hk))] at hov
          simpa [Finset.sum_ite_eq', hn] using hov
        refine ⟨fun k => if k = L - 1 then 1 else 0, ?_, ?_, ?_, ?_, ?_⟩
        · intro k _; simp only; split_ifs <;> norm_num
        · rw [sum_pick L (L-1) (by omega)]; exact zero_lt_one
        · intro k hk
          rw [ov k hk]; simp only
          split_ifs
          · simpa using hov0
          · simp
        · intro d
          rw [ratio_pick L (L-1) (by omega) d]
          unfold rebinSingleBin
          rw [hcond]
          simp only [tab_length, Nat.add_sub_cancel]
          rw [if_neg hin, if_neg hL0, getZ_tab_last L d hn]
          rfl
        · intro s
          have hov' : Spec.overlap (e (L-1)) (e (L-1+1)) bmin bmax = e L - bmin := by
            rw [ov (L-1) (by omega)]; simp
          rw [meanSigma_pick L (L-1) (by omega) _ _ s (by rw [hov']; exact hov0.ne')]
          unfold rebinSingleBinSigma
          rw [hcond, lengths_tab]
          simp only [tab_length, Nat.add_sub_cancel]
          rw [if_neg hin, if_neg hL0, getZ_tab_last L s hn, getZ_tab_last (L+1) e (by omega),
            getZ_tab_last L (fun k => e (k+1) - e k) hn]
          simp only [bind, Except.bind, pure, Except.pure, fdiv, Nat.add_sub_cancel, hov0.ne',
            if_false, Option.map_some]
          have := he (L-1) (L-1+1) (by omega) (by omega)
          rw [osqrt_some (mul_nonneg (sq_nonneg _) (div_nonneg (by linarith) hov0.le)), hov']
  · -- no edge
    have hRL : R = L := by omega
    subst hRL
    have hcond : condition (tab (n+1) e) bmin bmax = [] := by
      rw [condition_eq W]; simp
    have ov : ∀ k, k < n → Spec.overlap (e k) (e (k+1)) bmin bmax
        = if k + 1 = R then bmax - bmin else 0 := by
      intro k hk
      rw [overlap_window W k hk]
      by_cases c1 : k + 1 < R
      · have : e (k+1) < bmin := (W.lt_min (k+1) (by omega)).mpr c1
        rw [if_pos c1, if_pos (by omega), if_neg (by omega)]
        exact max_eq_left (by linarith)
      · by_cases c2 : k + 1 = R
        · rw [if_neg c1, if_pos (by omega), if_pos c2]
          exact max_eq_right (by linarith)
        · have h5 : bmax < e k := not_le.mp fun h => by
            have := (W.le_max k (by omega)).mp h; omega
          rw [if_neg c1, if_neg (by omega), if_neg c2]
          exact max_eq_left (by linarith)
    have hin : 0 < R ∧ R ≤ n := by
      by_contra hno
      rw [Finset.sum_congr rfl (fun k hk => ov k (Finset.mem_range.mp hk))] at hov
      have : ∑ k ∈ range n, (if k + 1 = R then bmax - bmin else 0) = 0 := by
        apply Finset.sum_eq_zero
        intro k hk
        simp only [Finset.mem_range] at hk
        rw [if_neg (by omega)]
      rw [this] at hov
      exact lt_irrefl _ hov
    have hc1 : condition1 (tab (n+1) e) bmin = R :: List.range' (R+1) (n-R) := by
      rw [condition1_eq W, show n + 1 - R = (n-R) + 1 by omega, List.range'_succ]
    refine ⟨fun k => if k = R - 1 then 1 else 0, ?_, ?_, ?_, ?_, ?_⟩
    · intro k _; simp only; split_ifs <;> norm_num
    · rw [sum_pick n (R-1) (by omega)]; exact zero_lt_one
    · intro k hk
      rw [ov k hk]; simp only
      by_cases hk1 : k = R - 1
      · rw [if_pos hk1, if_pos (by omega)]; simp [hb]
      · rw [if_neg hk1, if_neg (by omega)]
    · intro d
      rw [ratio_pick n (R-1) (by omega) d]
      unfold rebinSingleBin
      rw [hcond]
      simp only [hc1]
      rw [if_pos (by simp; omega), getZ_tab' n d _ (R-1) (by omega) (by omega)]
      rfl
    · intro s
      have hov' : Spec.overlap (e (R-1)) (e (R-1+1)) bmin bmax = bmax - bmin := by
        rw [ov (R-1) (by omega), if_pos (by omega)]
      have hb' : 0 < bmax - bmin := by linarith
      rw [meanSigma_pick n (R-1) (by omega) _ _ s (by rw [hov']; exact hb'.ne')]
      unfold rebinSingleBinSigma
      rw [hcond, lengths_tab]
      simp only [hc1]
      rw [if_pos (by simp; omega), getZ_tab' n s _ (R-1) (by omega) (by omega),
        getZ_tab' n (fun k => e (k+1) - e k) _ (R-1) (by omega) (by omega)]
      simp only [bind, Except.bind, pure, Except.pure, fdiv, hb'.ne', if_false, Option.map_some]
      have := he (R-1) (R-1+1) (by omega) (by omega)
      rw [osqrt_some (mul_nonneg (sq_nonneg _) (div_nonneg (by linarith) hb'.le)), hov']

theorem gatherZ_congr {α : Type} (l l' : List α) (is : List ℤ)
    (h : ∀ i ∈ is, getZ l i = getZ l' i) : gatherZ l is = gatherZ l' is := by
  induction is with
  | nil => rfl
  | cons i is ih =>
    simp only [gatherZ]
    rw [h i (by simp), ih (fun j hj => h j (by simp [hj]))]

/-- With two or more old edges inside the new bin, the bin that the new one enters in its interior
does not contribute to the error. -/
theorem sigma_drops_first (W : Window e n bmin bmax L R) (h2 : L + 2 ≤ R) (hL2 : 2 ≤ L)
    (hRn : R ≤ n) (s s' : ℕ → ℝ) (hs : ∀ k, k ≠ L - 1 → s k = s' k) :
    rebinSingleBinSigma (tab (n+1) e) (tab n s) bmin bmax
      = rebinSingleBinSigma (tab (n+1) e) (tab n s') bmin bmax := by
  obtain ⟨p, rfl⟩ : ∃ p, R = L + p + 2 := ⟨R - L - 2, by omega⟩
  have hr : List.range' L (L+p+2-L) = L :: (L+1) :: List.range' (L+2) p := by
    rw [show L + p + 2 - L = p + 1 + 1 by omega, List.range'_succ, List.range'_succ]
  have hr' : List.range' L (p+2) = L :: (L+1) :: List.range' (L+2) p := by
    rw [show p + 2 = p + 1 + 1 by omega, List.range'_succ, List.range'_succ]
  have hm : min (L+p+2) n - (L-1) = p + 3 := by omega
  have hidx : (List.range' (L-1) (p+3)).map (fun (k : ℕ) => (k:ℤ))
      = ((L-1 : ℕ):ℤ) :: ((List.range' L (p+2)).map (fun (k : ℕ) => (k:ℤ))) := by
    rw [show p + 3 = (p+2) + 1 by omega, List.range'_succ (s := L-1), List.map_cons,
      show L - 1 + 1 = L by omega]
  have hlast : ((List.range' (L-1) (p+3)).map (fun (k : ℕ) => (k:ℤ))).getLastD 0
      = ((L+p+1 : ℕ):ℤ) := by
    have hr : List.range' (L-1) (p+3) = List.range' (L-1) (p+2) ++ [L+p+1] := by
      rw [show p + 3 = (p+2)+1 by omega, List.range'_concat]; simp; omega
    rw [hr, List.map_append]; simp [List.getLastD_eq_getLast?]
  have hneg : e (L-1) - bmin < 0 := by
    have := (W.lt_min (L-1) (by omega)).mpr (by omega); linarith
  unfold rebinSingleBinSigma
  rw [condition_eq W, hr]
  simp only
  rw [← hr', startIndex_eq L p n e (by omega) (by omega), hm, lengths_tab]
  simp only [hlast, tab_length]
  rw [gatherZ_tab n _ _ (by intro k hk; simp only [List.mem_range'_1] at hk; omega)]
  have hhead : ((List.range' (L-1) (p+3)).map (fun (k : ℕ) => (k:ℤ))).headD 0 = ((L-1:ℕ):ℤ) := by
    rw [hidx]; rfl
  simp only [hhead, bind, Except.bind]
  rw [if_pos (by omega), getZ_tab (n+1) e (L-1) (by omega),
    getZ_tab' (n+1) e _ (L-2) (by omega) (by omega)]
  simp only [pure, Except.pure]
  rw [if_pos (by push_cast; omega), getZ_tab (n+1) e (L+p+1) (by omega),
    getZ_tab' (n+1) e _ (L+p) (by push_cast; ring) (by omega)]
  simp only []
  set X := List.filter _ (List.zip _ _) with hX
  have hmem : ∀ i ∈ X.map (fun t => t.1), getZ (tab n s) i = getZ (tab n s') i := by
    intro i hi
    rw [List.mem_map] at hi
    obtain ⟨t, ht, rfl⟩ := hi
    rw [hX, List.mem_filter] at ht
    obtain ⟨ht, hpos⟩ := ht
    obtain ⟨j, hj⟩ := List.mem_iff_getElem?.mp ht
    rw [List.getElem?_zip_eq_some] at hj
    obtain ⟨hj1, hj2⟩ := hj
    rw [List.getElem?_zip_eq_some] at hj2
    obtain ⟨_, hj2⟩ := hj2
    simp only [List.getElem?_map] at hj1
    have hjl : j < p + 3 := by
      by_contra hc
      rw [List.getElem?_eq_none (by simp; omega)] at hj1
      simp at hj1
    rw [List.getElem?_eq_getElem (by simpa using hjl)] at hj1
    simp only [List.getElem_range', Option.map_some, Option.some.injEq] at hj1
    have hj0 : j ≠ 0 := by
      rintro rfl
      rw [List.getElem?_set_ne (by simp), List.getElem?_set_self (by simp)] at hj2
      simp only [Option.some.injEq] at hj2
      rw [← hj2] at hpos
      simp only [gt_iff_lt, decide_eq_true_eq] at hpos
      linarith
    rw [← hj1]
    rw [getZ_tab n s _ (by omega), getZ_tab n s' _ (by omega), hs _ (by omega)]
  rw [gatherZ_congr _ _ _ hmem]

end Sigma

end Magpie.OneD
