import Verif.Proof.OneDWeights

/-!
# Rebinning onto the old bins, and linearity
-/

set_option linter.unusedSimpArgs false
set_option linter.unusedVariables false
set_option linter.unusedSectionVars false

namespace Magpie.OneD
open Finset

section
variable {K : Type} [Field K] [LinearOrder K] [IsStrictOrderedRing K]
variable {e : ℕ → K} {n j : ℕ}

/-- The old edges inside old bin `j` are its own two. -/
theorem self_window (he : ∀ i j, i < j → j ≤ n → e i < e j) (hj : j < n) :
    Window e n (e j) (e (j+1)) j (j+2) := by
  have hle : ∀ i j, i ≤ j → j ≤ n → e i ≤ e j := by
    intro i j h h'
    rcases Nat.lt_or_ge i j with h1 | h1
    · exact (he i j h1 h').le
    · rw [show i = j by omega]
  refine ⟨by omega, by omega, by omega, ?_, ?_⟩
  · intro k hk
    constructor
    · intro h
      by_contra hk'
      exact absurd (hle j k (by omega) hk) (not_le.mpr h)
    · intro h; exact he k j h (by omega)
  · intro k hk
    constructor
    · intro h
      by_contra hk'
      exact absurd (he (j+1) k (by omega) hk) (not_lt.mpr h)
    · intro h; exact hle k (j+1) (by omega) (by omega)

/-- The value of old bin `j` rebinned onto itself. -/
theorem single_self (he : ∀ i j, i < j → j ≤ n → e i < e j) (hj : j < n) (d : ℕ → K) :
    rebinSingleBin (tab (n+1) e) (tab n d) (e j) (e (j+1)) = .ok (some (d j)) := by
  have W := self_window he hj
  by_cases h1 : n = 1
  · subst h1
    obtain rfl : j = 0 := by omega
    rw [single_cover W (by omega)]
    norm_num
  · rw [single_general W (by omega) (by omega)]
    have hw : ∀ k ∈ List.range' (j-1) (min (j+2) n - (j-1)),
        wgt e n (e j) (e (j+1)) j (j+2) k = some (if k = j then 1 else 0) := by
      intro k hk
      rw [List.mem_range'_1] at hk
      unfold wgt
      by_cases c1 : k + 1 = j
      · have hp := he (j-1) j (by omega) (by omega)
        rw [if_pos c1, if_neg (show ¬ k = j by omega)]
        simp [fdiv, sub_eq_zero, hp.ne']
      · rw [if_neg c1]
        by_cases c2 : k = j
        · subst c2; rw [if_neg (by omega)]; simp
        · obtain rfl : k = j + 1 := by omega
          have hp := he j (j+1) (by omega) (by omega)
          rw [if_pos (by omega), if_neg c2]
          simp [fdiv, sub_eq_zero, hp.ne']
    have e1 : (List.range' (j-1) (min (j+2) n - (j-1))).map (fun k =>
        omul (wgt e n (e j) (e (j+1)) j (j+2) k) (d k))
        = ((List.range' (j-1) (min (j+2) n - (j-1))).map
            fun k => if k = j then d j else 0).map some := by
      rw [List.map_map]
      apply List.map_congr_left
      intro k hk
      rw [hw k hk]
      by_cases c : k = j
      · subst c; simp [omul]
      · simp [omul, c]
    have e2 : (List.range' (j-1) (min (j+2) n - (j-1))).map (wgt e n (e j) (e (j+1)) j (j+2))
        = ((List.range' (j-1) (min (j+2) n - (j-1))).map
            fun k => if k = j then (1:K) else 0).map some := by
      rw [List.map_map]
      apply List.map_congr_left
      intro k hk
      rw [hw k hk]; rfl
    rw [e1, e2, npSum_some, npSum_some, sum_range'_map, sum_range'_map]
    have hm : j ∈ Finset.Ico (j-1) (j-1 + (min (j+2) n - (j-1))) := by
      rw [Finset.mem_Ico]; omega
    rw [Finset.sum_ite_eq' , Finset.sum_ite_eq', if_pos hm, if_pos hm]
    simp [odiv, fdiv]

end

section Sigma
variable {e : ℕ → ℝ} {n j : ℕ}

theorem sqrt_one_term (s l : ℝ) (hl : 0 < l) :
    osqrt (odiv (npSum [some ((1*s)^2 * (l/l))]) ((npSum [some 1]).map (·^2))) = some |s| := by
  have a : npSum [some ((1*s)^2 * (l/l))] = some (s^2) := by
    have := npSum_some [(1*s)^2 * (l/l)]
    simp only [List.map_cons, List.map_nil] at this
    rw [this]; simp [hl.ne']
  have b : npSum [some (1:ℝ)] = some 1 := by
    have := npSum_some [(1:ℝ)]
    simpa using this
  rw [a, b]
  simp only [odiv, fdiv, Option.map_some, one_pow, one_ne_zero, if_false, div_one]
  rw [osqrt_some (sq_nonneg _), Real.sqrt_sq_eq_abs]

/-- The error of the first bin, when there is another one. -/
theorem sigma_self_first (he : ∀ i j, i < j → j ≤ n → e i < e j) (hn : 2 ≤ n) (s : ℕ → ℝ) :
    rebinSingleBinSigma (tab (n+1) e) (tab n s) (e 0) (e 1) = .ok (some |s 0|) := by
  have W := self_window he (j := 0) (by omega)
  have hl : 0 < e 1 - e 0 := by have := he 0 1 (by omega) (by omega); linarith
  have hr : List.range' 0 (0+2-0) = [0, 1] := rfl
  have hs : startIndex (tab (n+1) e) [0, 1] = ([(0:ℤ), 1], [some (1:ℝ), some 1]) := by
    have := startIndex_eq 0 0 n e (by omega) (by omega)
    rw [show min (0+0+2) n - (0-1) = 2 by omega] at this
    exact this
  unfold rebinSingleBinSigma
  rw [condition_eq W, hr]
  simp only
  rw [hs, lengths_tab]
  simp only [gatherZ, getZ_tab' n (fun k => e (k+1) - e k) 0 0 rfl (by omega),
    getZ_tab' n (fun k => e (k+1) - e k) 1 1 rfl (by omega), bind, Except.bind, pure, Except.pure,
    List.headD_cons, ne_eq, not_true_eq_false, if_false, tab_length,
    show [(0:ℤ), 1].getLastD 0 = 1 from rfl]
  rw [if_pos (by push_cast; omega), getZ_tab' (n+1) e 1 1 rfl (by omega),
    getZ_tab' (n+1) e (1-1) 0 rfl (by omega)]
  simp only [List.length_cons, List.length_nil, List.set_cons_succ, List.set_cons_zero, Nat.add_one_sub_one,
    List.zip_cons_cons, List.zip_nil_right, sub_self, zero_add]
  simp only [List.filter_cons, gt_iff_lt, hl, decide_true, if_true, lt_irrefl, decide_false,
    List.filter_nil, Bool.false_eq_true, if_false, List.map_cons, List.map_nil, gatherZ,
    getZ_tab' n s 0 0 rfl (by omega),
    getZ_tab' n (fun k => e (k+1) - e k) 0 0 rfl (by omega), bind, Except.bind, pure, Except.pure,
    List.zip_cons_cons, List.zip_nil_right, List.zipWith_cons_cons, List.zipWith_nil_right, Option.map_some, zero_add]
  exact congrArg _ (sqrt_one_term (s 0) (e 1 - e 0) hl)

theorem sqrt_two_terms (s t l m : ℝ) (hl : 0 < l) (hm : 0 < m) :
    osqrt (odiv (npSum [some ((1*s)^2 * (l/l)), some ((1*t)^2 * (m/m))])
      ((npSum [some 1, some 1]).map (·^2))) = some (Real.sqrt (s^2 + t^2) / 2) := by
  have a : npSum [some ((1*s)^2 * (l/l)), some ((1*t)^2 * (m/m))] = some (s^2 + t^2) := by
    have := npSum_some [(1*s)^2 * (l/l), (1*t)^2 * (m/m)]
    simp only [List.map_cons, List.map_nil] at this
    rw [this]; simp [hl.ne', hm.ne']
  have b : npSum [some (1:ℝ), some 1] = some 2 := by
    have := npSum_some [(1:ℝ), 1]
    simp only [List.map_cons, List.map_nil] at this
    rw [this]; norm_num
  rw [a, b]
  simp only [odiv, fdiv, Option.map_some]
  rw [if_neg (by norm_num), osqrt_some (by positivity), Real.sqrt_div (by positivity),
    Real.sqrt_sq (by norm_num)]

theorem sqrt_scaled_term (w s l : ℝ) (hl : 0 < l) (hw : 0 < w) :
    osqrt (odiv (npSum [some ((w*s)^2 * (l/l))]) ((npSum [some w]).map (·^2))) = some |s| := by
  have a : npSum [some ((w*s)^2 * (l/l))] = some ((w*s)^2) := by
    have := npSum_some [(w*s)^2 * (l/l)]
    simp only [List.map_cons, List.map_nil] at this
    rw [this]; simp [hl.ne']
  have b : npSum [some w] = some w := by
    have := npSum_some [w]
    simpa using this
  rw [a, b]
  simp only [odiv, fdiv, Option.map_some]
  rw [if_neg (by positivity), mul_pow, mul_div_assoc, mul_div_cancel₀ _ (by positivity)]
  rw [osqrt_some (sq_nonneg _), Real.sqrt_sq_eq_abs]

/-- The error of a bin with bins on both sides: the bin before is dropped unless it is the first one. -/
theorem sigma_self_mid (he : ∀ i j, i < j → j ≤ n → e i < e j) (a : ℕ) (hn : a + 2 < n) (s : ℕ → ℝ) :
    rebinSingleBinSigma (tab (n+1) e) (tab n s) (e (a+1)) (e (a+2))
      = .ok (some (if a = 0 then Real.sqrt (s 0^2 + s 1^2) / 2 else |s (a+1)|)) := by
  have W := self_window he (j := a+1) (by omega)
  have hl : 0 < e (a+2) - e (a+1) := by have := he (a+1) (a+2) (by omega) (by omega); linarith
  have hl0 : 0 < e (a+1) - e a := by have := he a (a+1) (by omega) (by omega); linarith
  have hr : List.range' (a+1) (a+1+2-(a+1)) = [a+1, a+2] := by
    rw [show a+1+2-(a+1) = 2 by omega]; rfl
  have hs : startIndex (tab (n+1) e) [a+1, a+2]
      = ([(a:ℤ), ((a+1:ℕ):ℤ), ((a+2:ℕ):ℤ)], [some (1:ℝ), some 1, some 1]) := by
    have := startIndex_eq (a+1) 0 n e (by omega) (by omega)
    rw [show min (a+1+0+2) n - (a+1-1) = 3 by omega] at this
    exact this
  unfold rebinSingleBinSigma
  rw [condition_eq W, hr]
  simp only
  rw [hs, lengths_tab]
  simp only [gatherZ, getZ_tab n (fun k => e (k+1) - e k) a (by omega),
    getZ_tab n (fun k => e (k+1) - e k) (a+1) (by omega),
    getZ_tab n (fun k => e (k+1) - e k) (a+2) (by omega), bind, Except.bind, pure, Except.pure,
    List.headD_cons, tab_length,
    show [(a:ℤ), ((a+1:ℕ):ℤ), ((a+2:ℕ):ℤ)].getLastD 0 = ((a+2:ℕ):ℤ) from rfl]
  by_cases ha : a = 0
  · subst ha
    simp only [Nat.cast_zero, ne_eq, not_true_eq_false, if_false]
    rw [if_pos (by push_cast; omega), getZ_tab (n+1) e (0+2) (by omega),
      getZ_tab' (n+1) e _ 1 (by push_cast) (by omega)]
    simp only [List.length_cons, List.length_nil, List.set_cons_succ, List.set_cons_zero,
      Nat.add_one_sub_one, List.zip_cons_cons, List.zip_nil_right, sub_self, zero_add]
    simp only [zero_add] at hl hl0
    simp only [List.filter_cons, gt_iff_lt, hl, hl0, Nat.reduceAdd, decide_true, if_true, lt_irrefl, decide_false,
      List.filter_nil, Bool.false_eq_true, if_false, List.map_cons, List.map_nil, gatherZ,
      getZ_tab' n s 0 0 rfl (by omega), getZ_tab n s 1 (by omega),
      getZ_tab' n (fun k => e (k+1) - e k) 0 0 rfl (by omega),
      getZ_tab n (fun k => e (k+1) - e k) 1 (by omega), bind, Except.bind, pure, Except.pure,
      List.zip_cons_cons, List.zip_nil_right, List.zipWith_cons_cons, List.zipWith_nil_right,
      Option.map_some, zero_add]
    exact congrArg _ (sqrt_two_terms (s 0) (s 1) (e 1 - e 0) (e 2 - e 1) hl0 hl)
  · have hi : ¬ ((a:ℤ) = 0) := by omega
    simp only [ne_eq, hi, not_false_eq_true, if_true, getZ_tab (n+1) e a (by omega),
      getZ_tab' (n+1) e ((a:ℤ) - 1) (a-1) (by omega) (by omega)]
    rw [if_pos (by push_cast; omega), getZ_tab (n+1) e (a+2) (by omega),
      getZ_tab' (n+1) e _ (a+1) (by push_cast; ring) (by omega), if_neg ha]
    have hneg : ¬ 0 < e a - e (a+1) := by linarith
    simp only [List.length_cons, List.length_nil, List.set_cons_succ, List.set_cons_zero,
      Nat.add_one_sub_one, List.zip_cons_cons, List.zip_nil_right, sub_self, zero_add]
    simp only [List.filter_cons, gt_iff_lt, hl, hneg, Nat.reduceAdd, decide_true, if_true, lt_irrefl, decide_false,
      List.filter_nil, Bool.false_eq_true, if_false, List.map_cons, List.map_nil, gatherZ,
      getZ_tab n s (a+1) (by omega),
      getZ_tab n (fun k => e (k+1) - e k) (a+1) (by omega), bind, Except.bind, pure, Except.pure,
      List.zip_cons_cons, List.zip_nil_right, List.zipWith_cons_cons, List.zipWith_nil_right,
      Option.map_some, zero_add]
    exact congrArg _ (sqrt_one_term (s (a+1)) (e (a+2) - e (a+1)) hl)

/-- The error of the last bin of three or more. -/
theorem sigma_self_last (he : ∀ i j, i < j → j ≤ n → e i < e j) (a : ℕ) (ha : a ≠ 0)
    (hn : a + 2 = n) (s : ℕ → ℝ) :
    rebinSingleBinSigma (tab (n+1) e) (tab n s) (e (a+1)) (e (a+2)) = .ok (some |s (a+1)|) := by
  have W := self_window he (j := a+1) (by omega)
  have hl : 0 < e (a+2) - e (a+1) := by have := he (a+1) (a+2) (by omega) (by omega); linarith
  have hl0 : 0 < e (a+1) - e a := by have := he a (a+1) (by omega) (by omega); linarith
  have hr : List.range' (a+1) (a+1+2-(a+1)) = [a+1, a+2] := by
    rw [show a+1+2-(a+1) = 2 by omega]; rfl
  have hs : startIndex (tab (n+1) e) [a+1, a+2]
      = ([(a:ℤ), ((a+1:ℕ):ℤ)], [some (1:ℝ), some 1]) := by
    have := startIndex_eq (a+1) 0 n e (by omega) (by omega)
    rw [show min (a+1+0+2) n - (a+1-1) = 2 by omega] at this
    exact this
  unfold rebinSingleBinSigma
  rw [condition_eq W, hr]
  simp only
  rw [hs, lengths_tab]
  simp only [gatherZ, getZ_tab n (fun k => e (k+1) - e k) a (by omega),
    getZ_tab n (fun k => e (k+1) - e k) (a+1) (by omega), bind, Except.bind, pure, Except.pure,
    List.headD_cons, tab_length,
    show [(a:ℤ), ((a+1:ℕ):ℤ)].getLastD 0 = ((a+1:ℕ):ℤ) from rfl]
  have hi : ¬ ((a:ℤ) = 0) := by omega
  simp only [ne_eq, hi, not_false_eq_true, if_true, getZ_tab (n+1) e a (by omega),
    getZ_tab' (n+1) e ((a:ℤ) - 1) (a-1) (by omega) (by omega)]
  rw [if_pos (by push_cast; omega), getZ_tab (n+1) e (a+1) (by omega),
    getZ_tab' (n+1) e _ a (by push_cast; ring) (by omega)]
  have hneg : ¬ 0 < e a - e (a+1) := by linarith
  simp only [List.length_cons, List.length_nil, List.set_cons_succ, List.set_cons_zero,
    Nat.add_one_sub_one, List.zip_cons_cons, List.zip_nil_right, sub_self, zero_add]
  simp only [List.filter_cons, gt_iff_lt, hl, hneg, Nat.reduceAdd, decide_true, if_true, lt_irrefl, decide_false,
    List.filter_nil, Bool.false_eq_true, if_false, List.map_cons, List.map_nil, gatherZ,
    getZ_tab n s (a+1) (by omega),
    getZ_tab n (fun k => e (k+1) - e k) (a+1) (by omega), bind, Except.bind, pure, Except.pure,
    List.zip_cons_cons, List.zip_nil_right, List.zipWith_cons_cons, List.zipWith_nil_right,
    Option.map_some, zero_add]
  rw [fdiv, if_neg hl0.ne']
  exact congrArg _ (sqrt_scaled_term ((e (a+2) - e (a+1))/(e (a+1) - e a)) (s (a+1))
    (e (a+2) - e (a+1)) hl (by positivity))

/-- The error of the second of two bins. -/
theorem sigma_self_two (e : ℕ → ℝ) (he : ∀ i j, i < j → j ≤ 2 → e i < e j) (s : ℕ → ℝ) :
    rebinSingleBinSigma (tab 3 e) (tab 2 s) (e 1) (e 2)
      = .ok (some (Real.sqrt (s 0^2 + ((e 2 - e 1)/(e 1 - e 0) * s 1)^2)
          / (1 + (e 2 - e 1)/(e 1 - e 0)))) := by
  have W := self_window he (j := 1) (by omega)
  have hl : 0 < e 2 - e 1 := by have := he 1 2 (by omega) (by omega); linarith
  have hl0 : 0 < e 1 - e 0 := by have := he 0 1 (by omega) (by omega); linarith
  have hr : List.range' 1 (1+2-1) = [1, 2] := rfl
  have hs : startIndex (tab 3 e) [1, 2] = ([(0:ℤ), 1], [some (1:ℝ), some 1]) := by
    have := startIndex_eq 1 0 2 e (by omega) (by omega)
    exact this
  unfold rebinSingleBinSigma
  rw [condition_eq W, hr]
  simp only
  rw [hs, lengths_tab]
  simp only [gatherZ, getZ_tab' 2 (fun k => e (k+1) - e k) 0 0 rfl (by omega),
    getZ_tab' 2 (fun k => e (k+1) - e k) 1 1 rfl (by omega), bind, Except.bind, pure, Except.pure,
    List.headD_cons, ne_eq, not_true_eq_false, if_false, tab_length,
    show [(0:ℤ), 1].getLastD 0 = 1 from rfl]
  rw [if_pos (by norm_num), getZ_tab' 3 e 1 1 rfl (by omega),
    getZ_tab' 3 e (1-1) 0 rfl (by omega)]
  simp only [List.length_cons, List.length_nil, List.set_cons_succ, List.set_cons_zero,
    Nat.add_one_sub_one, List.zip_cons_cons, List.zip_nil_right, sub_self, zero_add]
  simp only [List.filter_cons, gt_iff_lt, hl, hl0, Nat.reduceAdd, decide_true, if_true,
    List.filter_nil, Bool.false_eq_true, if_false, List.map_cons, List.map_nil, gatherZ,
    getZ_tab' 2 s 0 0 rfl (by omega), getZ_tab' 2 s 1 1 rfl (by omega),
    getZ_tab' 2 (fun k => e (k+1) - e k) 0 0 rfl (by omega),
    getZ_tab' 2 (fun k => e (k+1) - e k) 1 1 rfl (by omega), bind, Except.bind, pure, Except.pure,
    List.zip_cons_cons, List.zip_nil_right, List.zipWith_cons_cons, List.zipWith_nil_right,
    Option.map_some, zero_add]
  rw [fdiv, if_neg hl0.ne']
  set w := (e 2 - e 1)/(e 1 - e 0) with hw
  have hwp : 0 < w := by positivity
  refine congrArg _ ?_
  have a := npSum_some [(1*s 0)^2 * ((e 1 - e 0)/(e 1 - e 0)), (w*s 1)^2 * ((e 2 - e 1)/(e 2 - e 1))]
  have b := npSum_some [1, w]
  simp only [List.map_cons, List.map_nil] at a b
  simp only [Option.map_some]
  rw [a, b, div_self hl.ne', div_self hl0.ne']
  simp only [odiv, fdiv, Option.map_some, List.sum_cons, List.sum_nil, one_mul, mul_one, add_zero]
  rw [if_neg (by positivity), osqrt_some (by positivity), Real.sqrt_div (by positivity),
    Real.sqrt_sq (by positivity)]

/-- The error of a single bin is NaN. -/
theorem sigma_self_one (a b s : ℝ) (h : a < b) :
    rebinSingleBinSigma [a, b] [s] a b = .ok none := by
  have hc : condition [a, b] a b = [0, 1] := by
    simp [condition, whereIdx, whereFrom, h.le]
  have hl : 0 < b - a := by linarith
  have hl' : a - b ≠ 0 := by linarith
  unfold rebinSingleBinSigma
  rw [hc]
  simp [startIndex, lengths, gatherZ, getZ, bind, Except.bind, pure, Except.pure, fdiv, hl, hl', hl.ne',
    List.filter_cons]
  have d := npSum_some [1, (b - a)/(a - b)]
  simp only [List.map_cons, List.map_nil, List.sum_cons, List.sum_nil, add_zero] at d
  rw [d, show (1:ℝ) + (b - a)/(a - b) = 0 by field_simp; ring]
  have c := npSum_some [s^2, ((b - a)/(a - b)*s)^2]
  simp only [List.map_cons, List.map_nil] at c
  rw [c]
  simp [odiv, fdiv, osqrt]

/-- Every field of the error calculation scales with the errors. -/
theorem osqrt_scale (c : ℝ) (hc : c ≠ 0) (x : Option ℝ) :
    osqrt (x.map (c^2 * ·)) = (osqrt x).map (|c| * ·) := by
  cases x with
  | none => rfl
  | some x =>
    have hp : 0 < c^2 := by positivity
    by_cases h : 0 ≤ x
    · rw [Option.map_some, osqrt_some (by positivity), osqrt_some h, Real.sqrt_mul hp.le,
        Real.sqrt_sq_eq_abs, Option.map_some]
    · have : ¬ 0 ≤ c^2 * x := by
        rw [not_le] at h ⊢
        exact mul_neg_of_pos_of_neg hp h
      simp [osqrt, npSqrt, h, this]

theorem getZ_map {α β : Type} (f : α → β) (l : List α) (i : ℤ) :
    getZ (l.map f) i = (getZ l i).map f := by
  unfold getZ
  simp only [List.length_map, List.getElem?_map]
  split_ifs
  · cases l[i.toNat]? <;> rfl
  · cases l[(i + l.length).toNat]? <;> rfl
  · rfl

theorem gatherZ_map {α β : Type} (f : α → β) (l : List α) (is : List ℤ) :
    gatherZ (l.map f) is = (gatherZ l is).map (List.map f) := by
  induction is with
  | nil => rfl
  | cons i is ih =>
    simp only [gatherZ, getZ_map, ih, bind, Except.bind]
    cases getZ l i with
    | error e => rfl
    | ok a => cases gatherZ l is <;> rfl

theorem npSum_scale {K : Type} [Field K] (c : K) (l : List (Option K)) :
    npSum (l.map (Option.map (c * ·))) = (npSum l).map (c * ·) := by
  unfold npSum
  induction l with
  | nil => simp
  | cons a l ih =>
    simp only [List.map_cons, List.mapM_cons, id]
    cases a with
    | none => rfl
    | some a =>
      simp only [Option.map_some, Option.bind_eq_bind, Option.bind_some, Option.pure_def] at ih ⊢
      cases h : List.mapM id l with
      | none =>
        rw [h] at ih
        simp only [Option.map_none, Option.map_eq_none_iff] at ih
        rw [ih]; rfl
      | some r =>
        rw [h] at ih
        simp only [Option.map_some, Option.map_eq_some_iff] at ih
        obtain ⟨q, hq, hs⟩ := ih
        rw [hq]
        simp [hs, mul_add]

theorem odiv_scale {K : Type} [Field K] [LinearOrder K] (c : K) (x y : Option K) :
    odiv (x.map (c * ·)) y = (odiv x y).map (c * ·) := by
  cases x with
  | none => rfl
  | some x =>
    cases y with
    | none => rfl
    | some y =>
      simp only [odiv, fdiv, Option.map_some]
      split_ifs with h
      · rfl
      · simp [mul_div_assoc]

theorem sigma_scale (edges sigma : List ℝ) (lo hi c : ℝ) (hc : c ≠ 0) :
    rebinSingleBinSigma edges (sigma.map (c * ·)) lo hi
      = (rebinSingleBinSigma edges sigma lo hi).map (Option.map (|c| * ·)) := by
  unfold rebinSingleBinSigma
  simp only
  cases condition edges lo hi with
  | nil =>
    cases condition1 edges lo with
    | nil => rfl
    | cons a as =>
      simp only [getZ_map]
      split_ifs
      · cases getZ sigma ((a:ℤ) - 1) with
        | error e => rfl
        | ok s =>
          cases getZ (lengths edges) ((a:ℤ) - 1) with
          | error e => rfl
          | ok l =>
            simp only [bind, Except.bind, Except.map, pure, Except.pure]
            rw [← osqrt_scale c hc, Option.map_map]
            congr 3
            funext x
            simp only [Function.comp]
            ring
      · rfl
  | cons a as =>
    cases as with
    | nil =>
      simp only [getZ_map]
      split_ifs
      · cases getZ edges (a:ℤ) with
        | error e => rfl
        | ok e0 =>
        cases getZ edges ((a:ℤ) - 1) with
        | error e => rfl
        | ok em =>
        cases getZ edges ((a:ℤ) + 1) with
        | error e => rfl
        | ok ep =>
        cases getZ sigma ((a:ℤ) - 1) with
        | error e => rfl
        | ok sm =>
        cases getZ sigma (a:ℤ) with
        | error e => rfl
        | ok s =>
        cases getZ (lengths edges) ((a:ℤ) - 1) with
        | error e => rfl
        | ok lm =>
        cases getZ (lengths edges) (a:ℤ) with
        | error e => rfl
        | ok l =>
        simp only [bind, Except.bind, Except.map, pure, Except.pure]
        rw [← osqrt_scale c hc, ← odiv_scale, ← npSum_scale]
        simp only [List.map_cons, List.map_nil]
        have key : ∀ (l1 m : ℝ) (w : Option ℝ) (s : ℝ),
            (if l1 ≠ 0 then w.map (fun w => (m/l1)*(w*(c*s))^2) else some 0)
              = Option.map (c^2 * ·) (if l1 ≠ 0 then w.map (fun w => (m/l1)*(w*s)^2) else some 0) := by
          intro l1 m w s
          split_ifs
          · rw [Option.map_map]
            congr 1
            funext x
            simp only [Function.comp]
            ring
          · simp
        rw [key, key]
      · cases getZ edges 0 with
        | error e => rfl
        | ok e0 =>
        cases getZ sigma 0 with
        | error e => rfl
        | ok s =>
        cases getZ (lengths edges) 0 with
        | error e => rfl
        | ok l =>
        simp only [bind, Except.bind, Except.map, pure, Except.pure]
        rw [← osqrt_scale c hc, Option.map_map]
        congr 3
        funext x
        simp only [Function.comp]
        ring
      · cases getZ edges (-1) with
        | error e => rfl
        | ok e0 =>
        cases getZ sigma (-1) with
        | error e => rfl
        | ok s =>
        cases getZ (lengths edges) (-1) with
        | error e => rfl
        | ok l =>
        simp only [bind, Except.bind, Except.map, pure, Except.pure]
        rw [← osqrt_scale c hc, Option.map_map]
        congr 3
        funext x
        simp only [Function.comp]
        ring
    | cons b bs =>
      simp only [gatherZ_map, bind, Except.bind]
      cases gatherZ (lengths edges) (startIndex edges (a :: b :: bs)).1 with
      | error e => rfl
      | ok length =>
      simp only
      split
      · rfl
      · rename_i wl _
        split
        · rfl
        · rename_i wl' _
          generalize (((startIndex edges (a :: b :: bs)).1.zip (wl'.1.zip wl'.2)).filter
            fun t => decide (t.2.2 > 0)) = kept
          cases gatherZ sigma (kept.map fun t => t.1) with
          | error e => rfl
          | ok s =>
          cases gatherZ (lengths edges) (kept.map fun t => t.1) with
          | error e => rfl
          | ok l =>
          simp only [Except.map, pure, Except.pure]
          rw [← osqrt_scale c hc, ← odiv_scale, ← npSum_scale]
          congr 4
          rw [List.zip_map_left, List.zipWith_map_right, List.map_zipWith]
          congr 1
          funext t sl
          rw [Option.map_map]
          congr 1
          funext x
          simp only [Function.comp, Prod.map]
          simp only [id]
          ring

end Sigma
end Magpie.OneD
