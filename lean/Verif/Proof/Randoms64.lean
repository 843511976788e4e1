import Verif.Model.Randoms64
import Verif.Spec.Randoms64
import Verif.Proof.Conversions64
import Verif.Proof.Remap64

set_option linter.unusedSimpArgs false
set_option linter.unusedVariables false

namespace Magpie.Randoms64
open Magpie.F64 Magpie.Coords64 Magpie.Spec

/-- A double below 1 is at most `1 - 2^-53`. -/
theorem variate_le {u : ℝ} (h : fl u = u) (h0 : 0 ≤ u) (h1 : u < 1) : u ≤ 1 - 1/2^53 := by
  by_contra hc
  push Not at hc
  have e : fl (1 - 1/2^53 : ℝ) = 1 - 1/2^53 := by
    have := fl_dyadic (n := 2^53 - 1) 53 (by norm_num) (by norm_num)
    convert this using 2 <;> norm_num
  have hu := ulpExp_eq (x := u) (u := -53) (by norm_num)
    (by rw [abs_of_nonneg h0]; norm_num; norm_num at hc; linarith)
    (by rw [abs_of_nonneg h0]; norm_num; exact h1)
  obtain ⟨m, hm, em⟩ := fl_form u
  rw [h, hu] at em
  have e2 : u*2^53 = m := by
    rw [em, mul_assoc, zpow_neg]
    norm_num
  have l1 : (2^53 - 1 : ℝ) < m := by
    rw [← e2]
    have : (1 - 1/2^53 : ℝ)*2^53 < u*2^53 := mul_lt_mul_of_pos_right hc (by positivity)
    norm_num at this ⊢
    linarith
  have l2 : (m:ℝ) < 2^53 := by
    rw [← e2]
    have : u*2^53 < 1*2^53 := mul_lt_mul_of_pos_right h1 (by positivity)
    linarith
  have l1' : (2^53 - 1 : ℤ) < m := by exact_mod_cast l1
  have l2' : m < (2^53 : ℤ) := by exact_mod_cast l2
  omega

/-- Doubles, and their sums and differences, are multiples of the smallest double. -/
def OnGrid (d : ℝ) : Prop := ∃ k : ℤ, d = k*(2:ℝ)^(-1074 : ℤ)

theorem onGrid_fl (x : ℝ) : OnGrid (fl x) := by
  obtain ⟨m, -, e⟩ := fl_form x
  have h := ulp_ge x
  obtain ⟨n, hn⟩ := Int.eq_ofNat_of_zero_le (show 0 ≤ ulpExp x + 1074 by omega)
  refine ⟨m*2^n, ?_⟩
  have : ulpExp x = n + (-1074) := by omega
  rw [e, this, zpow_add₀ (by norm_num), zpow_natCast]
  push_cast
  ring

theorem OnGrid.sub {a b : ℝ} (ha : OnGrid a) (hb : OnGrid b) : OnGrid (a - b) := by
  obtain ⟨k, rfl⟩ := ha
  obtain ⟨l, rfl⟩ := hb
  exact ⟨k - l, by push_cast; ring⟩

/-- A rounded number times a variate, rounded, does not exceed the number itself. -/
theorem scaled_le {d u : ℝ} (hg : OnGrid d) (hd : 0 ≤ d) (hu : fl u = u) (h0 : 0 ≤ u) (h1 : u < 1) :
    fl (fl d*u) ≤ d := by
  set A := fl d with hA
  have hA0 : 0 ≤ A := fl_nonneg hd
  have hle : fl (A*u) ≤ A := by
    have := fl_mono (mul_le_of_le_one_right hA0 h1.le)
    rwa [hA, fl_fl, ← hA] at this
  rcases le_or_gt A d with h | h
  · exact hle.trans h
  -- `d` was rounded up
  have hu' := variate_le hu h0 h1
  have hdpos : 0 < d := by
    rcases hd.eq_or_lt with e | e
    · rw [hA, ← e, fl_zero] at h
      exact absurd h (lt_irrefl _)
    · exact e
  obtain ⟨m, hm, em⟩ := fl_form d
  rw [← hA] at em
  have hhalf := fl_err_ulp d
  rw [← hA] at hhalf
  have hlow : -1074 < ulpExp d := by
    by_contra hc
    have he : ulpExp d = -1074 := le_antisymm (not_lt.mp hc) (ulp_ge d)
    obtain ⟨k, hk⟩ := hg
    have : A = d := by
      rw [hA, fl_of_ulp (n := k) he, hk]
      rw [hk, mul_div_assoc, div_self (two_zpow_pos _).ne', mul_one, rne_int]
    linarith
  have hdl := ulp_le_abs hdpos.ne' hlow
  rw [abs_of_pos hdpos] at hdl
  set e := ulpExp d with he
  have hp := two_zpow_pos e
  have e52 : (2:ℝ)^(e + 52) = 2^52*(2:ℝ)^e := by
    rw [zpow_add₀ (by norm_num)]; norm_num; ring
  have e53 : (2:ℝ)^(e + 53) = 2^53*(2:ℝ)^e := by
    rw [zpow_add₀ (by norm_num)]; norm_num; ring
  have em1 : (2:ℝ)^(e - 1) = (2:ℝ)^e/2 := by
    rw [zpow_sub_one₀ (by norm_num)]; ring
  rw [em1, abs_of_neg (by linarith)] at hhalf
  have hm1 : (2^52 : ℤ) < m := by
    have : (2^52 : ℝ)*(2:ℝ)^e < m*(2:ℝ)^e := by rw [← em, ← e52]; linarith
    have := lt_of_mul_lt_mul_right this hp.le
    exact_mod_cast this
  have hm1' : (2^52 + 1 : ℝ) ≤ m := by exact_mod_cast hm1
  have hm53 : m ≤ 2^53 := le_trans (le_abs_self m) hm
  have hm53' : (m:ℝ) ≤ 2^53 := by exact_mod_cast hm53
  have hpd : ((m - 1 : ℤ):ℝ)*(2:ℝ)^e ≤ d := by
    push_cast
    linarith
  have hAu : A*u < (m - 1/2)*(2:ℝ)^e := by
    have : A*u ≤ A*(1 - 1/2^53) := mul_le_mul_of_nonneg_left hu' hA0
    refine this.trans_lt ?_
    rw [em]
    have : m*(2:ℝ)^e*(1 - 1/2^53) = (m - m/2^53)*(2:ℝ)^e := by ring
    rw [this]
    refine mul_lt_mul_of_pos_right ?_ hp
    have : (1/2:ℝ) < m/2^53 := by
      rw [lt_div_iff₀ (by positivity)]
      norm_num at hm1' ⊢
      linarith
    linarith
  refine le_trans ?_ hpd
  rcases le_or_gt (A*u) (((m - 1 : ℤ):ℝ)*(2:ℝ)^e) with hc | hc
  · have := fl_mono hc
    rwa [fl_exact (by rw [abs_of_pos (by omega)]; omega) (by omega)] at this
  · have hn := fl_nearest (A*u) (m := m - 1) (e := e) (by rw [abs_of_pos (by omega)]; omega) (by omega)
    rw [abs_of_pos (show 0 < A*u - ((m - 1 : ℤ):ℝ)*(2:ℝ)^e by linarith)] at hn
    have hlt : fl (A*u) < A := by
      have := (abs_le.mp hn).1
      rw [em] at hAu hn ⊢
      push_cast at this hc hn
      rw [em] at this
      linarith
    have hulp : ulpExp (A*u) = e := by
      refine ulpExp_eq (ulp_ge d) ?_ ?_
      · rw [abs_of_nonneg (mul_nonneg hA0 h0), e52]
        refine le_trans ?_ hc.le
        refine mul_le_mul_of_nonneg_right ?_ hp.le
        push_cast
        linarith
      · rw [abs_of_nonneg (mul_nonneg hA0 h0), e53]
        refine hAu.trans_le ?_
        refine mul_le_mul_of_nonneg_right ?_ hp.le
        linarith
    obtain ⟨k, -, ek⟩ := fl_form (A*u)
    rw [hulp] at ek
    rw [ek]
    refine mul_le_mul_of_nonneg_right ?_ hp.le
    have : (k:ℝ)*(2:ℝ)^e < m*(2:ℝ)^e := by rw [← ek, ← em]; exact hlt
    have := lt_of_mul_lt_mul_right this hp.le
    have : k < m := by exact_mod_cast this
    have : k ≤ m - 1 := by omega
    exact_mod_cast this

/-- The numbers `spread` returns lie between the two ends. -/
theorem spread_range {lo hi u : ℝ} (hl : fl lo = lo) (hh : fl hi = hi) (hu : fl u = u) (h0 : 0 ≤ u)
    (h1 : u < 1) : min lo hi ≤ spread lo hi u ∧ spread lo hi u ≤ max lo hi := by
  have hg : OnGrid (hi - lo) := by
    rw [← hl, ← hh]
    exact (onGrid_fl _).sub (onGrid_fl _)
  unfold spread F64.add F64.mul F64.sub
  rcases le_total lo hi with h | h
  · rw [min_eq_left h, max_eq_right h]
    have a := fl_nonneg (mul_nonneg (fl_nonneg (sub_nonneg.mpr h)) h0)
    have b := scaled_le hg (sub_nonneg.mpr h) hu h0 h1
    constructor
    · have := fl_mono (show lo ≤ fl (fl (hi - lo)*u) + lo by linarith)
      rwa [hl] at this
    · have := fl_mono (show fl (fl (hi - lo)*u) + lo ≤ hi by linarith)
      rwa [hh] at this
  · rw [min_eq_right h, max_eq_left h]
    have hg' : OnGrid (lo - hi) := by
      rw [← hl, ← hh]
      exact (onGrid_fl _).sub (onGrid_fl _)
    have a := fl_nonneg (mul_nonneg (fl_nonneg (sub_nonneg.mpr h)) h0)
    have b := scaled_le hg' (sub_nonneg.mpr h) hu h0 h1
    have e : fl (fl (hi - lo)*u) = -fl (fl (lo - hi)*u) := by
      rw [← neg_sub lo hi, fl_neg, neg_mul, fl_neg]
    rw [e]
    constructor
    · have := fl_mono (show hi ≤ -fl (fl (lo - hi)*u) + lo by linarith)
      rwa [hh] at this
    · have := fl_mono (show -fl (fl (lo - hi)*u) + lo ≤ lo by linarith)
      rwa [hl] at this

/-- The same for the form used for the cosine. -/
theorem cos_range {c0 c1 u : ℝ} (hl : fl c0 = c0) (hh : fl c1 = c1) (hu : fl u = u) (h0 : 0 ≤ u)
    (h1 : u < 1) : min c0 c1 ≤ F64.sub c0 (F64.mul (F64.sub c0 c1) u) ∧
      F64.sub c0 (F64.mul (F64.sub c0 c1) u) ≤ max c0 c1 := by
  have := spread_range hl hh hu h0 h1
  have e : F64.sub c0 (F64.mul (F64.sub c0 c1) u) = spread c0 c1 u := by
    unfold spread F64.add F64.mul F64.sub
    rw [← neg_sub c1 c0, fl_neg, neg_mul, fl_neg, sub_neg_eq_add, add_comm]
  rwa [e]

/-- The error of `spread`. -/
theorem spread_err {lo hi u M : ℝ} (hl : fl lo = lo) (hh : fl hi = hi) (hu : fl u = u) (h0 : 0 ≤ u)
    (h1 : u < 1) (hlM : |lo| ≤ M) (hhM : |hi| ≤ M) :
    |spread lo hi u - ((hi - lo)*u + lo)| ≤ 6*(M/2^53) + 4*(2:ℝ)^(-1075 : ℤ) := by
  have hM : 0 ≤ M := (abs_nonneg _).trans hlM
  have hη := two_zpow_pos (-1075)
  set η := (2:ℝ)^(-1075 : ℤ) with hηdef
  have hr := spread_range hl hh hu h0 h1
  have d1 : |hi - lo| ≤ 2*M := by
    refine (abs_sub _ _).trans ?_
    linarith
  have a1 := Remap64.fl_abs_le d1
  rw [← hηdef] at a1
  set A := fl (hi - lo) with hA
  have hAM : |A| ≤ 2*M + (2*M/2^53 + η) := by
    have : |A| ≤ |hi - lo| + |hi - lo - A| := by
      have := abs_sub (hi - lo) (hi - lo - A)
      simpa using this
    linarith
  have t1 : |A*u| ≤ |A| := by
    rw [abs_mul, abs_of_nonneg h0]
    exact mul_le_of_le_one_right (abs_nonneg _) h1.le
  have a2 := Remap64.fl_abs_le (t1.trans hAM)
  rw [← hηdef] at a2
  set T := fl (A*u) with hT
  have hTlo : |T + lo| ≤ M := by
    have hg : OnGrid (hi - lo) := by
      rw [← hl, ← hh]
      exact (onGrid_fl _).sub (onGrid_fl _)
    have key : min lo hi ≤ T + lo ∧ T + lo ≤ max lo hi := by
      rcases le_total lo hi with h | h
      · rw [min_eq_left h, max_eq_right h]
        have a := fl_nonneg (mul_nonneg (fl_nonneg (sub_nonneg.mpr h)) h0)
        have b := scaled_le hg (sub_nonneg.mpr h) hu h0 h1
        rw [← hA, ← hT] at a b
        constructor <;> linarith
      · rw [min_eq_right h, max_eq_left h]
        have hg' : OnGrid (lo - hi) := by
          rw [← hl, ← hh]
          exact (onGrid_fl _).sub (onGrid_fl _)
        have a := fl_nonneg (mul_nonneg (fl_nonneg (sub_nonneg.mpr h)) h0)
        have b := scaled_le hg' (sub_nonneg.mpr h) hu h0 h1
        have e : T = -fl (fl (lo - hi)*u) := by
          rw [hT, hA, ← neg_sub lo hi, fl_neg, neg_mul, fl_neg]
        constructor <;> linarith
    rw [abs_le] at hlM hhM ⊢
    constructor
    · exact (le_min hlM.1 hhM.1).trans key.1
    · exact key.2.trans (max_le hlM.2 hhM.2)
  have a3 := Remap64.fl_abs_le hTlo
  rw [← hηdef] at a3
  have e : spread lo hi u - ((hi - lo)*u + lo)
      = -(T + lo - fl (T + lo)) - (A*u - T) - (hi - lo - A)*u := by
    unfold spread F64.add F64.mul F64.sub
    rw [← hA, ← hT]
    ring
  rw [e]
  have b1 : |(hi - lo - A)*u| ≤ 2*M/2^53 + η := by
    rw [abs_mul, abs_of_nonneg h0]
    exact (mul_le_of_le_one_right (abs_nonneg _) h1.le).trans a1
  have : |-(T + lo - fl (T + lo)) - (A*u - T) - (hi - lo - A)*u|
      ≤ |T + lo - fl (T + lo)| + |A*u - T| + |(hi - lo - A)*u| := by
    refine (abs_sub _ _).trans (add_le_add ?_ le_rfl)
    refine (abs_sub _ _).trans (add_le_add ?_ le_rfl)
    rw [abs_neg]
  refine this.trans ?_
  have hη' : η/2^53 ≤ η/4 := by gcongr; norm_num
  have hM2 : M/2^53/2^53 ≤ M/2^53/8 := by gcongr; norm_num
  have : (2*M + (2*M/2^53 + η))/2^53 = 2*(M/2^53) + 2*(M/2^53/2^53) + η/2^53 := by ring
  rw [this] at a2
  have e2 : 2*M/2^53 = 2*(M/2^53) := by ring
  rw [e2] at b1
  have : 0 ≤ M/2^53 := by positivity
  linarith

end Magpie.Randoms64
