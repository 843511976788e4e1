import Verif.Model.Float64
import Verif.Spec.Float64

set_option linter.unusedSimpArgs false
set_option linter.unusedVariables false

/-! # Rounding to binary64: nearest, monotone, exact on binary64 numbers -/

namespace Magpie.F64

open Magpie.Spec

theorem rne_nearest (x : ℝ) (n : ℤ) : |x - rne x| ≤ |x - n| := by
  have h1 := Int.floor_le x
  have h2 := Int.lt_floor_add_one x
  have key : ∀ k : ℤ, |x - k| ≤ x - ⌊x⌋ → |x - k| ≤ ⌊x⌋ + 1 - x → |x - k| ≤ |x - n| := by
    intro k ha hb
    rcases le_or_gt n ⌊x⌋ with hn | hn
    · have : (n:ℝ) ≤ ⌊x⌋ := by exact_mod_cast hn
      refine ha.trans ?_
      rw [abs_of_nonneg (by linarith)]; linarith
    · have : ((⌊x⌋ + 1 : ℤ):ℝ) ≤ n := by exact_mod_cast hn
      push_cast at this
      refine hb.trans ?_
      rw [abs_of_nonpos (by linarith)]; linarith
  unfold rne
  split_ifs with a b c
  · apply key <;> rw [abs_of_nonneg (by linarith)] <;> linarith
  · apply key <;> push_cast <;> rw [abs_of_nonpos (by linarith)] <;> linarith
  · apply key <;> rw [abs_of_nonneg (by linarith)] <;> linarith
  · apply key <;> push_cast <;> rw [abs_of_nonpos (by linarith)] <;> linarith

theorem rne_int (n : ℤ) : rne n = n := by
  unfold rne; simp

theorem rne_half (x : ℝ) : |x - rne x| ≤ 1/2 := by
  have h1 := rne_nearest x ⌊x⌋
  have h2 := rne_nearest x (⌊x⌋ + 1)
  have h3 := Int.floor_le x
  have h4 := Int.lt_floor_add_one x
  push_cast at h2
  rw [abs_of_nonneg (by linarith : 0 ≤ x - ⌊x⌋)] at h1
  rw [abs_of_nonpos (by linarith : x - (⌊x⌋ + 1) ≤ 0)] at h2
  linarith

/-- On a tie the even integer is taken. -/
theorem rne_tie (x : ℝ) (n : ℤ) (hn : n ≠ rne x) (h : |x - n| = |x - rne x|) : Even (rne x) := by
  have h1 := rne_half x
  have hne : (1:ℝ) ≤ |(n:ℝ) - rne x| := by
    have : (1:ℤ) ≤ |n - rne x| := Int.one_le_abs (sub_ne_zero.mpr hn)
    exact_mod_cast this
  have htri : |(n:ℝ) - rne x| ≤ |x - n| + |x - rne x| := by
    have := abs_sub_le (n:ℝ) x (rne x)
    rwa [abs_sub_comm (n:ℝ) x] at this
  have e : |x - rne x| = 1/2 := by rw [h] at htri; linarith
  have f1 := Int.floor_le x
  have f2 := Int.lt_floor_add_one x
  unfold rne at e ⊢
  split_ifs at e ⊢ with a b c
  · rw [abs_of_nonneg (by linarith)] at e; linarith
  · push_cast at e; rw [abs_of_nonpos (by linarith)] at e; linarith
  · exact c
  · exact Int.even_add_one.mpr c

theorem two_zpow_pos (e : ℤ) : (0:ℝ) < (2:ℝ)^e := zpow_pos (by norm_num) e

theorem abs_lt_ulp (x : ℝ) : |x| < (2:ℝ)^(ulpExp x + 53) := by
  have h := Int.lt_zpow_succ_log_self (b := 2) (by norm_num) |x|
  refine h.trans_le ?_
  push_cast
  apply zpow_le_zpow_right₀ (by norm_num)
  unfold ulpExp
  have := le_max_left (Int.log 2 |x| - 52) (-1074)
  omega

theorem ulp_le_abs {x : ℝ} (hx : x ≠ 0) (h : -1074 < ulpExp x) :
    (2:ℝ)^(ulpExp x + 52) ≤ |x| := by
  have he : ulpExp x = Int.log 2 |x| - 52 := by
    unfold ulpExp at h ⊢
    rcases max_choice (Int.log 2 |x| - 52) (-1074) with h' | h' <;> omega
  have := Int.zpow_log_le_self (b := 2) (by norm_num) (abs_pos.mpr hx)
  rw [he]; simpa using this

theorem ulp_ge (x : ℝ) : -1074 ≤ ulpExp x := le_max_right _ _

theorem fl_zero : fl 0 = 0 := by
  unfold fl; simp [rne]

/-- `fl x` is at least as near to `x` as any `m * 2^e` with `|m| ≤ 2^53`. -/
theorem fl_nearest (x : ℝ) {m e : ℤ} (hm : |m| ≤ 2^53) (he : -1074 ≤ e) :
    |x - fl x| ≤ |x - (m:ℝ) * (2:ℝ)^e| := by
  by_cases hx : x = 0
  · subst hx; rw [fl_zero, sub_zero, abs_zero]; exact abs_nonneg _
  set u := ulpExp x with hu
  have hu0 := two_zpow_pos u
  -- at least as near as any multiple of the last place
  have mul : ∀ k : ℤ, |x - fl x| ≤ |x - (k:ℝ) * (2:ℝ)^u| := by
    intro k
    have h := rne_nearest (x / (2:ℝ)^u) k
    have e1 : x - fl x = (x / (2:ℝ)^u - rne (x / (2:ℝ)^u)) * (2:ℝ)^u := by
      unfold fl; rw [← hu, sub_mul, div_mul_cancel₀ _ hu0.ne']
    have e2 : x - (k:ℝ) * (2:ℝ)^u = (x / (2:ℝ)^u - k) * (2:ℝ)^u := by
      rw [sub_mul, div_mul_cancel₀ _ hu0.ne']
    rw [e1, e2, abs_mul, abs_mul]
    exact mul_le_mul_of_nonneg_right h (abs_nonneg _)
  rcases le_or_gt u e with h | h
  · -- a multiple of the last place
    have := mul (m * 2^(e - u).toNat)
    have e1 : (((m * 2^(e - u).toNat : ℤ)):ℝ) * (2:ℝ)^u = (m:ℝ) * (2:ℝ)^e := by
      push_cast
      rw [mul_assoc, ← zpow_natCast, Int.toNat_of_nonneg (by omega),
        ← zpow_add₀ (by norm_num)]
      congr 2; omega
    rwa [e1] at this
  · -- a finer number, below the binade of `x`
    have hb := ulp_le_abs hx (by omega : -1074 < ulpExp x)
    rw [← hu] at hb
    have hd : |(m:ℝ) * (2:ℝ)^e| ≤ (2:ℝ)^(u + 52) := by
      rw [abs_mul, abs_of_pos (two_zpow_pos e)]
      have h1 : |(m:ℝ)| ≤ 2^53 := by exact_mod_cast hm
      calc |(m:ℝ)| * (2:ℝ)^e ≤ 2^53 * (2:ℝ)^(u-1) := by
            apply mul_le_mul h1 _ (two_zpow_pos e).le (by norm_num)
            exact zpow_le_zpow_right₀ (by norm_num) (by omega)
        _ = (2:ℝ)^(u + 52) := by
            rw [← zpow_natCast, ← zpow_add₀ (by norm_num)]; congr 1; push_cast; omega
    set d := (m:ℝ) * (2:ℝ)^e
    have h52 : ((2^52 : ℤ):ℝ) * (2:ℝ)^u = (2:ℝ)^(u + 52) := by
      push_cast
      rw [add_comm u, zpow_add₀ (by norm_num)]; norm_num
    rcases le_or_gt 0 x with h0 | h0
    · have := mul (2^52)
      rw [h52] at this
      rw [abs_of_nonneg h0] at hb
      refine this.trans ?_
      have := le_abs_self d
      rw [abs_of_nonneg (by linarith), abs_of_nonneg (by linarith)]; linarith
    · have := mul (-2^52)
      have e3 : ((-2^52 : ℤ):ℝ) * (2:ℝ)^u = -(2:ℝ)^(u + 52) := by
        rw [← h52]; push_cast; ring
      rw [e3] at this
      rw [abs_of_neg h0] at hb
      refine this.trans ?_
      have := neg_abs_le d
      rw [abs_of_nonpos (by linarith), abs_of_nonpos (by linarith)]; linarith

/-- The rounded number has at most 53 digits. -/
theorem fl_form (x : ℝ) : ∃ m : ℤ, |m| ≤ 2^53 ∧ fl x = (m:ℝ) * (2:ℝ)^ulpExp x := by
  refine ⟨rne (x / (2:ℝ)^ulpExp x), ?_, rfl⟩
  set u := ulpExp x with hu
  have hu0 := two_zpow_pos u
  have h := abs_lt_ulp x
  rw [← hu] at h
  have h1 : |x / (2:ℝ)^u| < 2^53 := by
    rw [abs_div, abs_of_pos hu0, div_lt_iff₀ hu0, ← zpow_natCast, ← zpow_add₀ (by norm_num)]
    refine lt_of_lt_of_eq h ?_
    congr 1; push_cast; ring
  have h2 := rne_nearest (x / (2:ℝ)^u)
  set y := x / (2:ℝ)^u
  have := abs_lt.mp h1
  by_contra hc
  have hc' := not_le.mp hc
  rcases lt_abs.mp hc' with h3 | h3
  · have h4 : ((2^53 + 1 : ℤ):ℝ) ≤ rne y := by exact_mod_cast h3
    have := h2 (2^53)
    push_cast at this h4
    rw [abs_of_nonpos (by linarith), abs_of_nonpos (by linarith)] at this
    linarith
  · have h4 : ((2^53 + 1 : ℤ):ℝ) ≤ (-rne y : ℤ) := by exact_mod_cast h3
    have := h2 (-2^53)
    push_cast at this h4
    rw [abs_of_nonneg (by linarith), abs_of_nonneg (by linarith)] at this
    linarith

theorem fl_exact {m e : ℤ} (hm : |m| ≤ 2^53) (he : -1074 ≤ e) :
    fl ((m:ℝ) * (2:ℝ)^e) = (m:ℝ) * (2:ℝ)^e := by
  have := fl_nearest ((m:ℝ) * (2:ℝ)^e) hm he
  rw [sub_self, abs_zero, abs_nonpos_iff, sub_eq_zero] at this
  exact this.symm

theorem fl_fl (x : ℝ) : fl (fl x) = fl x := by
  obtain ⟨m, hm, h⟩ := fl_form x
  rw [h]; exact fl_exact hm (ulp_ge x)

theorem fl_mono {x y : ℝ} (h : x ≤ y) : fl x ≤ fl y := by
  obtain ⟨m, hm, h1⟩ := fl_form x
  obtain ⟨n, hn, h2⟩ := fl_form y
  by_contra hc
  have hc := not_le.mp hc
  have a := fl_nearest x hn (ulp_ge y)
  have b := fl_nearest y hm (ulp_ge x)
  rw [← h2] at a
  rw [← h1] at b
  have a2 := sq_le_sq.mpr a
  have b2 := sq_le_sq.mpr b
  rcases h.lt_or_eq with h | h
  · nlinarith
  · rw [h] at hc; exact lt_irrefl _ hc

theorem fl_int {n : ℤ} (h : |n| ≤ 2^53) : fl n = n := by
  simpa using fl_exact (m := n) (e := 0) h (by norm_num)

/-- A number with at most 53 digits after scaling by `2^k` is kept. -/
theorem fl_dyadic {n : ℤ} (k : ℕ) (h : |n| ≤ 2^53) (hk : k ≤ 1074) :
    fl ((n:ℝ) / 2^k) = (n:ℝ) / 2^k := by
  have := fl_exact (m := n) (e := -(k:ℤ)) h (by omega)
  simpa [zpow_neg, div_eq_mul_inv] using this

/-- The error of rounding is at most half a last place. -/
theorem fl_err_ulp (x : ℝ) : |x - fl x| ≤ (2:ℝ)^(ulpExp x - 1) := by
  set u := ulpExp x with hu
  have hu0 := two_zpow_pos u
  have h := rne_half (x / (2:ℝ)^u)
  have e1 : x - fl x = (x / (2:ℝ)^u - rne (x / (2:ℝ)^u)) * (2:ℝ)^u := by
    unfold fl; rw [← hu, sub_mul, div_mul_cancel₀ _ hu0.ne']
  rw [e1, abs_mul, abs_of_pos hu0, zpow_sub₀ (by norm_num), zpow_one]
  have := mul_le_mul_of_nonneg_right h hu0.le
  linarith

/-- Relative error `2^-53` in the normal range. -/
theorem fl_err {x : ℝ} (hx : (2:ℝ)^(-1022 : ℤ) ≤ |x|) : |x - fl x| ≤ |x| / 2^53 := by
  have hx0 : x ≠ 0 := by
    intro h; rw [h, abs_zero] at hx; exact absurd hx (not_le.mpr (two_zpow_pos _))
  have hl : -1022 ≤ Int.log 2 |x| := by
    have := (Int.zpow_le_iff_le_log (b := 2) (x := -1022) (by norm_num) (abs_pos.mpr hx0)).mp
      (by simpa using hx)
    exact this
  have he : ulpExp x = Int.log 2 |x| - 52 := by
    unfold ulpExp; exact max_eq_left (by omega)
  refine (fl_err_ulp x).trans ?_
  rw [he, le_div_iff₀ (by norm_num)]
  have := Int.zpow_log_le_self (b := 2) (by norm_num) (abs_pos.mpr hx0)
  refine le_trans (le_of_eq ?_) this
  rw [← zpow_natCast, ← zpow_add₀ (by norm_num)]
  push_cast; congr 1; omega

/-- `fl x` is a finite binary64 number when `|x|` does not exceed the largest one. -/
theorem fl_isDouble {x : ℝ} (hx : |x| ≤ maxDouble) : IsDouble (fl x) := by
  obtain ⟨m, hm, h⟩ := fl_form x
  have hlt : |x| < (2:ℝ)^(1024 : ℤ) := by
    refine hx.trans_lt ?_
    unfold maxDouble
    have : (2:ℝ)^(1024 : ℤ) = 2^53 * (2:ℝ)^(971 : ℤ) := by
      rw [← zpow_natCast, ← zpow_add₀ (by norm_num)]; norm_num
    rw [this]
    exact mul_lt_mul_of_pos_right (by norm_num) (two_zpow_pos _)
  have hu : ulpExp x ≤ 971 := by
    by_cases h0 : x = 0
    · subst h0; unfold ulpExp; simp
    · have h1 := Int.zpow_log_le_self (b := 2) (by norm_num) (abs_pos.mpr h0)
      have h2 := (zpow_lt_zpow_iff_right₀ (by norm_num : (1:ℝ) < 2)).mp
        ((by simpa using h1 : (2:ℝ)^(Int.log 2 |x|) ≤ |x|).trans_lt hlt)
      unfold ulpExp
      exact max_le (by omega) (by norm_num)
  rcases hm.lt_or_eq with h1 | h1
  · exact ⟨m, _, h1, ulp_ge x, hu, h⟩
  · -- the significand was rounded up to a power of two
    have hval : |fl x| = (2:ℝ)^(ulpExp x + 53) := by
      rw [h, abs_mul, abs_of_pos (two_zpow_pos _)]
      have : |(m:ℝ)| = 2^53 := by exact_mod_cast h1
      rw [this, ← zpow_natCast, ← zpow_add₀ (by norm_num)]; congr 1; push_cast; ring
    rcases hu.lt_or_eq with h2 | h2
    · obtain ⟨s, hs, hms⟩ : ∃ s : ℤ, |s| = 1 ∧ m = s * 2^53 := by
        rcases abs_choice m with h' | h'
        · exact ⟨1, by norm_num, by omega⟩
        · exact ⟨-1, by norm_num, by omega⟩
      refine ⟨s * 2^52, ulpExp x + 1, ?_, by have := ulp_ge x; omega, by omega, ?_⟩
      · rw [abs_mul, hs]; norm_num
      · rw [h, hms, zpow_add₀ (by norm_num), zpow_one]; push_cast; ring
    · exfalso
      rw [h2] at hval
      norm_num at hval
      have hm1 : |((2:ℤ)^53 - 1)| ≤ 2^53 := by norm_num
      have hm2 : |(-((2:ℤ)^53 - 1))| ≤ 2^53 := by norm_num
      have a := fl_nearest x hm1 (e := 971) (by norm_num)
      have b := fl_nearest x hm2 (e := 971) (by norm_num)
      have e1 : (((2:ℤ)^53 - 1 : ℤ):ℝ) * (2:ℝ)^(971 : ℤ) = maxDouble := by
        unfold maxDouble; push_cast; ring
      have e2 : ((-((2:ℤ)^53 - 1) : ℤ):ℝ) * (2:ℝ)^(971 : ℤ) = -maxDouble := by
        unfold maxDouble; push_cast; ring
      rw [e1] at a
      rw [e2] at b
      have hmax : maxDouble < 2^1024 := by
        unfold maxDouble
        have : (2:ℝ)^1024 = 2^53 * (2:ℝ)^(971 : ℤ) := by
          rw [← zpow_natCast, ← zpow_natCast, ← zpow_add₀ (by norm_num)]; norm_num
        rw [this]
        exact mul_lt_mul_of_pos_right (by norm_num) (two_zpow_pos _)
      obtain ⟨x1, x2⟩ := abs_le.mp hx
      generalize (2:ℝ)^1024 = T at *
      generalize maxDouble = M at *
      rcases abs_choice (fl x) with h' | h'
      · rw [h'] at hval
        rw [hval, abs_of_nonpos (by linarith), abs_of_nonpos (by linarith)] at a
        linarith
      · have h3 : fl x = -T := by linarith
        rw [h3, abs_of_nonneg (by linarith), abs_of_nonneg (by linarith)] at b
        linarith

theorem fl_isNearest {x : ℝ} (hx : |x| ≤ maxDouble) : IsNearest x (fl x) := by
  refine ⟨fl_isDouble hx, ?_⟩
  rintro d ⟨m, e, hm, he, -, rfl⟩
  exact fl_nearest x hm.le he

/-- On a tie `fl x` has an even last digit. -/
theorem fl_even {x d : ℝ} (hd : IsDouble d) (hne : d ≠ fl x) (h : |x - d| = |x - fl x|) :
    LastDigitEven (fl x) := by
  obtain ⟨m, e, hm, he, -, rfl⟩ := hd
  obtain ⟨k, hk, hfl⟩ := fl_form x
  have hkr : fl x = (rne (x / (2:ℝ)^ulpExp x) : ℝ) * (2:ℝ)^ulpExp x := rfl
  have hx : x ≠ 0 := by
    rintro rfl
    rw [fl_zero] at h hne
    simp only [zero_sub, abs_neg, sub_zero, abs_zero] at h
    exact hne (abs_eq_zero.mp h)
  set u := ulpExp x with hu
  have hu0 := two_zpow_pos u
  have hue : u ≤ e := by
    by_contra hc
    have hc := not_le.mp hc
    have hb := ulp_le_abs hx (by omega : -1074 < ulpExp x)
    rw [← hu] at hb
    have hd : |(m:ℝ) * (2:ℝ)^e| < (2:ℝ)^(u + 52) := by
      rw [abs_mul, abs_of_pos (two_zpow_pos e)]
      have h1 : |(m:ℝ)| < 2^53 := by exact_mod_cast hm
      calc |(m:ℝ)| * (2:ℝ)^e < 2^53 * (2:ℝ)^e := mul_lt_mul_of_pos_right h1 (two_zpow_pos e)
        _ ≤ 2^53 * (2:ℝ)^(u-1) := by
            apply mul_le_mul_of_nonneg_left _ (by norm_num)
            exact zpow_le_zpow_right₀ (by norm_num) (by omega)
        _ = (2:ℝ)^(u + 52) := by
            rw [← zpow_natCast, ← zpow_add₀ (by norm_num)]; congr 1; push_cast; omega
    set d := (m:ℝ) * (2:ℝ)^e
    have h52 : ((2^52 : ℤ):ℝ) * (2:ℝ)^u = (2:ℝ)^(u + 52) := by
      push_cast
      rw [add_comm u, zpow_add₀ (by norm_num)]; norm_num
    obtain ⟨d1, d2⟩ := abs_lt.mp hd
    rcases le_or_gt 0 x with h0 | h0
    · have := fl_nearest x (m := 2^52) (e := u) (by norm_num) (ulp_ge x)
      rw [h52, ← h] at this
      rw [abs_of_nonneg h0] at hb
      rw [abs_of_nonneg (by linarith), abs_of_nonneg (by linarith)] at this; linarith
    · have := fl_nearest x (m := -2^52) (e := u) (by norm_num) (ulp_ge x)
      have e3 : ((-2^52 : ℤ):ℝ) * (2:ℝ)^u = -(2:ℝ)^(u + 52) := by
        rw [← h52]; push_cast; ring
      rw [e3, ← h] at this
      rw [abs_of_neg h0] at hb
      rw [abs_of_nonpos (by linarith), abs_of_nonpos (by linarith)] at this; linarith
  set y := x / (2:ℝ)^u with hy
  have hxy : x = y * (2:ℝ)^u := by rw [hy, div_mul_cancel₀ _ hu0.ne']
  have e1 : (m:ℝ) * (2:ℝ)^e = ((m * 2^(e - u).toNat : ℤ):ℝ) * (2:ℝ)^u := by
    push_cast
    rw [mul_assoc, ← zpow_natCast, Int.toNat_of_nonneg (by omega),
      ← zpow_add₀ (by norm_num)]
    congr 2; omega
  rw [e1, hkr] at h hne
  have heven : Even (rne y) := by
    apply rne_tie y (m * 2^(e - u).toNat)
    · intro hc; rw [hc] at hne; exact hne rfl
    · have : ∀ n : ℤ, |x - (n:ℝ) * (2:ℝ)^u| = |y - n| * (2:ℝ)^u := by
        intro n
        rw [hxy, ← sub_mul, abs_mul, abs_of_pos hu0]
      rw [this, this] at h
      exact mul_right_cancel₀ hu0.ne' h
  have hk' : k = rne y := by
    have := hfl.symm.trans hkr
    exact_mod_cast mul_right_cancel₀ hu0.ne' this
  refine ⟨rne y, u, heven, hk' ▸ hk, ?_, hkr⟩
  rcases (ulp_ge x).lt_or_eq with h1 | h1
  · left
    have hb := ulp_le_abs hx h1
    rw [← hu] at hb
    have hy52 : (2:ℝ)^52 ≤ |y| := by
      rw [hy, abs_div, abs_of_pos hu0, le_div_iff₀ hu0]
      refine le_trans (le_of_eq ?_) hb
      rw [add_comm u, zpow_add₀ (by norm_num)]; norm_num
    by_contra hc
    have hc := not_le.mp hc
    obtain ⟨c1, c2⟩ := abs_lt.mp hc
    have c1' : -(2:ℝ)^52 + 1 ≤ rne y := by exact_mod_cast c1
    have c2' : (rne y : ℝ) + 1 ≤ (2:ℝ)^52 := by exact_mod_cast c2
    rcases le_or_gt 0 y with h0 | h0
    · have := rne_nearest y (2^52)
      rw [abs_of_nonneg h0] at hy52
      push_cast at this
      rw [abs_of_nonneg (by linarith), abs_of_nonneg (by linarith)] at this; linarith
    · have := rne_nearest y (-2^52)
      rw [abs_of_neg h0] at hy52
      push_cast at this
      rw [abs_of_nonpos (by linarith), abs_of_nonpos (by linarith)] at this; linarith
  · right; omega

/-! ## Evaluation of the rounding of a given number -/

theorem ulpExp_eq {x : ℝ} {u : ℤ} (hu : -1074 ≤ u) (h1 : (2:ℝ)^(u + 52) ≤ |x|)
    (h2 : |x| < (2:ℝ)^(u + 53)) : ulpExp x = u := by
  have hx : 0 < |x| := (two_zpow_pos _).trans_le h1
  have a := (Int.zpow_le_iff_le_log (b := 2) (x := u + 52) (by norm_num) hx).mp (by simpa using h1)
  have b := (Int.lt_zpow_iff_log_lt (b := 2) (x := u + 53) (by norm_num) hx).mp (by simpa using h2)
  unfold ulpExp
  rw [max_eq_left (by omega)]; omega

theorem rne_near {y : ℝ} {n : ℤ} (h : |y - n| < 1/2) : rne y = n := by
  by_contra hc
  have h1 := rne_nearest y n
  have hne : (1:ℝ) ≤ |(n:ℝ) - rne y| := by
    have : (1:ℤ) ≤ |n - rne y| := Int.one_le_abs (sub_ne_zero.mpr (Ne.symm hc))
    exact_mod_cast this
  have := abs_sub_le (n:ℝ) y (rne y)
  rw [abs_sub_comm (n:ℝ) y] at this
  linarith

theorem rne_half_even {n : ℤ} (h : Even n) : rne ((n:ℝ) + 1/2) = n := by
  have hf : ⌊(n:ℝ) + 1/2⌋ = n := by
    rw [Int.floor_eq_iff]; constructor <;> linarith
  unfold rne
  rw [hf, if_neg (by norm_num), if_neg (by norm_num), if_pos h]

theorem rne_half_odd {n : ℤ} (h : ¬ Even n) : rne ((n:ℝ) + 1/2) = n + 1 := by
  have hf : ⌊(n:ℝ) + 1/2⌋ = n := by
    rw [Int.floor_eq_iff]; constructor <;> linarith
  unfold rne
  rw [hf, if_neg (by norm_num), if_neg (by norm_num), if_neg h]

/-- Rounding of a number with a known last place. -/
theorem fl_of_ulp {x : ℝ} {u n : ℤ} (hu : ulpExp x = u) (h : rne (x / (2:ℝ)^u) = n) :
    fl x = (n:ℝ) * (2:ℝ)^u := by
  unfold fl; rw [hu, h]

end Magpie.F64
