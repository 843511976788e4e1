import Verif.Proof.Float64

/-!
# The computable rounding of rationals is `fl`
-/

namespace Magpie.F64

theorem log_cast (q : ℚ) : Int.log 2 ((q:ℚ):ℝ) = Int.log 2 q := by
  rcases le_or_gt q 0 with h | h
  · rw [Int.log_of_right_le_zero _ h, Int.log_of_right_le_zero _ (by exact_mod_cast h)]
  · have hr : (0:ℝ) < q := by exact_mod_cast h
    apply le_antisymm
    · rw [← Int.zpow_le_iff_le_log (by norm_num) h]
      have := Int.zpow_log_le_self (b := 2) (by norm_num) hr
      rw [← Rat.cast_le (K := ℝ)]
      push_cast at this ⊢
      exact this
    · rw [← Int.zpow_le_iff_le_log (by norm_num) hr]
      have := Int.zpow_log_le_self (b := 2) (by norm_num) h
      rw [← Rat.cast_le (K := ℝ)] at this
      push_cast at this ⊢
      exact this

theorem rneQ_cast (q : ℚ) : rne (q:ℝ) = rneQ q := by
  unfold rne rneQ
  rw [Rat.floor_cast]
  have h1 : (2*((q:ℝ) - (⌊q⌋:ℝ)) < 1) ↔ (2*(q - (⌊q⌋:ℚ)) < 1) := by
    rw [← Rat.cast_lt (K := ℝ)]; push_cast; rfl
  have h2 : (1 < 2*((q:ℝ) - (⌊q⌋:ℝ))) ↔ (1 < 2*(q - (⌊q⌋:ℚ))) := by
    rw [← Rat.cast_lt (K := ℝ)]; push_cast; rfl
  simp only [h1, h2]

/-- Rounding a rational with `flQ` is rounding it with `fl`. -/
theorem flQ_cast (q : ℚ) : ((flQ q : ℚ) : ℝ) = fl (q:ℝ) := by
  have e : ulpExp (q:ℝ) = ulpExpQ q := by
    unfold ulpExp ulpExpQ
    rw [← log_cast]; push_cast; rfl
  unfold fl flQ
  rw [e]
  have : ((q:ℝ) / (2:ℝ)^ulpExpQ q) = ((q / (2:ℚ)^ulpExpQ q : ℚ) : ℝ) := by push_cast; rfl
  rw [this, rneQ_cast]
  push_cast
  rfl

theorem flQ_mono {a b : ℚ} (h : a ≤ b) : flQ a ≤ flQ b := by
  have : (flQ a : ℝ) ≤ flQ b := by
    rw [flQ_cast, flQ_cast]; exact fl_mono (by exact_mod_cast h)
  exact_mod_cast this

theorem flQ_int {n : ℤ} (h : |n| ≤ 2^53) : flQ n = n := by
  have : (flQ n : ℝ) = ((n:ℚ):ℝ) := by
    rw [flQ_cast]; push_cast; exact fl_int h
  exact_mod_cast this

/-- Relative error of one rounding of a number not below `2^-1022`. -/
theorem flQ_err {x : ℚ} (hx : 1/2^100 ≤ x) : x*(1 - 1/2^53) ≤ flQ x ∧ flQ x ≤ x*(1 + 1/2^53) := by
  have hxr : (1:ℝ)/2^100 ≤ (x:ℝ) := by
    have := (Rat.cast_le (K := ℝ)).mpr hx
    push_cast at this
    exact this
  have hpos : (0:ℝ) < x := lt_of_lt_of_le (by positivity) hxr
  have h1 : (2:ℝ)^(-1022 : ℤ) ≤ |(x:ℝ)| := by
    rw [abs_of_pos hpos]
    refine le_trans ?_ hxr
    rw [one_div, ← zpow_natCast, ← zpow_neg]
    exact zpow_le_zpow_right₀ (by norm_num) (by norm_num)
  have h2 := fl_err h1
  rw [← flQ_cast, abs_of_pos hpos, abs_le] at h2
  constructor
  · have : (x:ℝ)*(1 - 1/2^53) ≤ flQ x := by linarith [h2.2]
    rw [← Rat.cast_le (K := ℝ)]
    push_cast
    exact this
  · have : (flQ x : ℝ) ≤ x*(1 + 1/2^53) := by linarith [h2.1]
    rw [← Rat.cast_le (K := ℝ)]
    push_cast
    exact this

example : flQ (1/10) = 3602879701896397/2^55 := by decide +kernel
example : flQ (2^53 + 1) = 2^53 := by decide +kernel

end Magpie.F64
