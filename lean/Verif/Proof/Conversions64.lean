import Verif.Model.Conversions64
import Verif.Proof.Float64
import Verif.Proof.Conversions
import Verif.Spec.Conversions64
import Mathlib.Tactic.Linarith
import Mathlib.Analysis.Real.Pi.Bounds
import Mathlib.Tactic.NormNum

set_option linter.unusedSimpArgs false
set_option linter.unusedVariables false

namespace Magpie.F64

theorem fl_nonneg {x : ℝ} (h : 0 ≤ x) : 0 ≤ fl x := by
  have := fl_mono h; rwa [fl_zero] at this

theorem rne_neg (x : ℝ) : rne (-x) = -rne x := by
  have h1 := Int.floor_le x
  have h2 := Int.lt_floor_add_one x
  by_cases h : 2*(x - ⌊x⌋) = 1
  · have hx : x = (⌊x⌋:ℝ) + 1/2 := by linarith
    have hnx : -x = ((-(⌊x⌋ + 1) : ℤ):ℝ) + 1/2 := by push_cast; linarith
    by_cases he : Even ⌊x⌋
    · have ho : ¬ Even (-(⌊x⌋ + 1)) := by
        rw [even_neg]; exact fun hc => (Int.even_add_one.mp hc) he
      rw [hnx, rne_half_odd ho]
      conv_rhs => rw [hx, rne_half_even he]
      ring
    · have ho : Even (-(⌊x⌋ + 1)) := by rw [even_neg]; exact Int.even_add_one.mpr he
      rw [hnx, rne_half_even ho]
      conv_rhs => rw [hx, rne_half_odd he]
  · apply rne_near
    have hlt : |x - rne x| < 1/2 := by
      apply lt_of_le_of_ne (rne_half x)
      intro hc
      have a := rne_nearest x ⌊x⌋
      have b := rne_nearest x (⌊x⌋ + 1)
      rw [hc, abs_of_nonneg (by linarith)] at a
      push_cast at b
      rw [hc, abs_of_nonpos (by linarith)] at b
      exact h (by linarith)
    push_cast
    rw [show -x - -(rne x : ℝ) = -(x - rne x) by ring, abs_neg]
    exact hlt

theorem fl_neg (x : ℝ) : fl (-x) = -fl x := by
  have hu : ulpExp (-x) = ulpExp x := by unfold ulpExp; rw [abs_neg]
  unfold fl
  rw [hu, neg_div, rne_neg]; push_cast; ring

theorem fl_neg_exact {x : ℝ} (h : fl x = x) : fl (-x) = -x := by rw [fl_neg, h]

/-- Rounding error without a lower bound on the number. -/
theorem fl_err_abs (x : ℝ) : |x - fl x| ≤ |x| / 2^53 + (2:ℝ)^(-1075 : ℤ) := by
  have hp := two_zpow_pos (-1075)
  rcases le_or_gt ((2:ℝ)^(-1022 : ℤ)) |x| with h | h
  · exact (fl_err h).trans (by linarith)
  · by_cases hx : x = 0
    · subst hx; rw [fl_zero]; simp only [sub_zero, abs_zero, zero_div, zero_add]; exact hp.le
    have hu : ulpExp x = -1074 := by
      unfold ulpExp
      have := (Int.lt_zpow_iff_log_lt (b := 2) (x := -1022) (by norm_num) (abs_pos.mpr hx)).mp
        (by simpa using h)
      rw [max_eq_right (by omega)]
    have := fl_err_ulp x
    rw [hu] at this
    have h0 : 0 ≤ |x| / 2^53 := by positivity
    norm_num at this ⊢
    linarith

/-- The rounded square root of the rounded square of a float is the float. -/
theorem sqrt_sq_eq {a : ℝ} (ha : fl a = a) (h0 : (2:ℝ)^(-511 : ℤ) ≤ a) :
    fl (Real.sqrt (fl (a * a))) = a := by
  have hpos : 0 < a := (two_zpow_pos _).trans_le h0
  have habs : |a| = a := abs_of_pos hpos
  set e := ulpExp a with he
  have hle : -563 ≤ e := by
    have := (Int.zpow_le_iff_le_log (b := 2) (x := -511) (by norm_num) hpos).mp (by simpa using h0)
    rw [he]; unfold ulpExp; rw [habs]; exact (by omega : (-563:ℤ) ≤ Int.log 2 a - 52).trans (le_max_left _ _)
  have hlo := ulp_le_abs hpos.ne' (by rw [← he]; omega)
  have hhi := abs_lt_ulp a
  rw [habs, ← he] at hlo hhi
  obtain ⟨m, hm, hform⟩ := fl_form a
  rw [ha, ← he] at hform
  have hE := two_zpow_pos e
  have p52 : (2:ℝ)^(e+52) = 2^52 * (2:ℝ)^e := by
    rw [zpow_add₀ (by norm_num)]; norm_num [mul_comm]
  have p53 : (2:ℝ)^(e+53) = 2^53 * (2:ℝ)^e := by
    rw [zpow_add₀ (by norm_num)]; norm_num [mul_comm]
  have m1 : (2:ℤ)^52 ≤ m := by
    rw [hform, p52] at hlo
    have := le_of_mul_le_mul_right hlo hE
    exact_mod_cast this
  have m2 : m < (2:ℤ)^53 := by
    rw [hform, p53] at hhi
    have := lt_of_mul_lt_mul_right hhi hE.le
    exact_mod_cast this
  set s := fl (a * a) with hs
  by_cases h : s = a * a
  · rw [h, Real.sqrt_mul_self hpos.le, ha]
  set w := (2:ℝ)^e with hw
  have haa : a * a = ((m*m : ℤ) : ℝ) * (2:ℝ)^(2*e) := by
    rw [hform, two_mul e, zpow_add₀ (by norm_num)]; push_cast; ring
  have hne : m ≠ 2^52 := by
    intro hc
    have : s = a * a := by
      rw [hs, haa, hc]
      have e1 : (((2:ℤ)^52 * 2^52 : ℤ) : ℝ) * (2:ℝ)^(2*e) = ((1:ℤ):ℝ) * (2:ℝ)^(2*e + 104) := by
        rw [zpow_add₀ (by norm_num)]; push_cast; norm_num [mul_comm]
      rw [e1]
      exact fl_exact (by norm_num) (by omega)
    exact h this
  have m3 : (2:ℤ)^52 + 1 ≤ m := by omega
  have herr := fl_err_ulp (a * a)
  rw [← hs] at herr
  have hww : (2:ℝ)^(2*e) = w * w := by rw [two_mul, zpow_add₀ (by norm_num)]
  have m3' : (2:ℝ)^52 + 1 ≤ m := by exact_mod_cast m3
  have m2' : (m:ℝ) < 2^53 := by exact_mod_cast m2
  have haaabs : |a*a| = a*a := abs_of_pos (by positivity)
  -- distance to the square
  have key : |a * a - s| ≤ (m - 1/2) * (w*w) := by
    rcases lt_or_ge ((m:ℝ)*m) (2^105) with hc | hc
    · have hu : ulpExp (a * a) = 2*e + 52 := by
        apply ulpExp_eq (by omega)
        · rw [haaabs, haa, show 2*e + 52 + 52 = 2*e + 104 by ring, zpow_add₀ (by norm_num), hww]
          push_cast
          have : (2:ℝ)^(104:ℤ) ≤ m*m := by
            have : (2:ℝ)^52 * 2^52 ≤ m*m := by nlinarith
            norm_num at this ⊢; linarith
          nlinarith [mul_pos hE hE]
        · rw [haaabs, haa, show 2*e + 52 + 53 = 2*e + 105 by ring, zpow_add₀ (by norm_num), hww]
          push_cast
          have : (m:ℝ)*m < (2:ℝ)^(105:ℤ) := by norm_num at hc ⊢; linarith
          nlinarith [mul_pos hE hE]
      rw [hu, show 2*e + 52 - 1 = 2*e + 51 by ring, zpow_add₀ (by norm_num), hww] at herr
      have : (2:ℝ)^(51:ℤ) ≤ m - 1/2 := by norm_num at m3' ⊢; linarith
      nlinarith [mul_pos hE hE]
    · have hu : ulpExp (a * a) = 2*e + 53 := by
        apply ulpExp_eq (by omega)
        · rw [haaabs, haa, show 2*e + 53 + 52 = 2*e + 105 by ring, zpow_add₀ (by norm_num), hww]
          push_cast
          have : (2:ℝ)^(105:ℤ) ≤ m*m := by norm_num at hc ⊢; linarith
          nlinarith [mul_pos hE hE]
        · rw [haaabs, haa, show 2*e + 53 + 53 = 2*e + 106 by ring, zpow_add₀ (by norm_num), hww]
          push_cast
          have : (m:ℝ)*m < (2:ℝ)^(106:ℤ) := by
            have : (m:ℝ)*m < 2^53 * 2^53 := by nlinarith
            norm_num at this ⊢; linarith
          nlinarith [mul_pos hE hE]
      rw [hu, show 2*e + 53 - 1 = 2*e + 52 by ring, zpow_add₀ (by norm_num), hww] at herr
      have : (2:ℝ)^(52:ℤ) ≤ m - 1/2 := by norm_num at m3' ⊢; linarith
      nlinarith [mul_pos hE hE]
  have hs0 : 0 ≤ s := fl_nonneg (by positivity)
  rw [abs_le] at key
  have hs1 : ((m - 1/2) * w)^2 < s := by
    have : a * a = (m*w)*(m*w) := by rw [hform]
    have hp := mul_pos hE hE
    nlinarith [key.2]
  have hs2 : s < ((m + 1/2) * w)^2 := by
    have : a * a = (m*w)*(m*w) := by rw [hform]
    have hp := mul_pos hE hE
    nlinarith [key.1]
  have hm12 : 0 < ((m:ℝ) - 1/2) * w := by
    apply mul_pos _ hE
    have : (0:ℝ) < 2^52 := by norm_num
    linarith
  have y1 : (m - 1/2) * w < Real.sqrt s := (Real.lt_sqrt hm12.le).mpr hs1
  have y2 : Real.sqrt s < (m + 1/2) * w := by
    rw [Real.sqrt_lt' (by linarith)]; exact hs2
  have hy0 : 0 < Real.sqrt s := hm12.trans y1
  have hu : ulpExp (Real.sqrt s) = e := by
    apply ulpExp_eq (by omega)
    · rw [abs_of_pos hy0, p52]
      have : (2:ℝ)^52 * w ≤ (m - 1/2)*w := by
        apply mul_le_mul_of_nonneg_right _ hE.le; linarith
      linarith
    · rw [abs_of_pos hy0, p53]
      have m2'' : (m:ℝ) + 1 ≤ 2^53 := by exact_mod_cast m2
      have : (m + 1/2) * w < 2^53 * w := mul_lt_mul_of_pos_right (by linarith) hE
      linarith
  have hr : rne (Real.sqrt s / (2:ℝ)^e) = m := by
    apply rne_near
    rw [← hw, abs_lt]
    constructor
    · have : (m - 1/2) < Real.sqrt s / w := by rwa [lt_div_iff₀ hE]
      linarith
    · have : Real.sqrt s / w < m + 1/2 := by rwa [div_lt_iff₀ hE]
      linarith
  rw [fl_of_ulp hu hr, ← hw, ← hform]

theorem fl_abs_exact {x : ℝ} (h : fl x = x) : fl |x| = |x| := by
  rcases abs_choice x with e | e <;> rw [e]
  · exact h
  · exact fl_neg_exact h

end Magpie.F64

namespace Magpie.Coords64
open Magpie.F64 Magpie.Coords Magpie.Healpix Magpie.Spec

theorem sqr_nonneg (x : ℝ) : 0 ≤ sqr x := fl_nonneg (mul_self_nonneg x)

/-- The rounded sum of squares. -/
noncomputable def sum2 (X Y Z : ℝ) : ℝ := add (add (sqr X) (sqr Y)) (sqr Z)

theorem sum2_nonneg (X Y Z : ℝ) : 0 ≤ sum2 X Y Z :=
  fl_nonneg (add_nonneg (fl_nonneg (add_nonneg (sqr_nonneg _) (sqr_nonneg _))) (sqr_nonneg _))

theorem sum2_err {X Y Z : ℝ} (h : (2:ℝ)^(-1000 : ℤ) ≤ X^2 + Y^2 + Z^2) :
    |sum2 X Y Z - (X^2 + Y^2 + Z^2)| ≤ (3.01 / 2^53) * (X^2 + Y^2 + Z^2) := by
  set T := X^2 + Y^2 + Z^2 with hT
  have hη : (2:ℝ)^(-1075 : ℤ) ≤ T / 2^75 := by
    rw [le_div_iff₀ (by positivity)]
    calc (2:ℝ)^(-1075 : ℤ) * 2^75 = (2:ℝ)^(-1000 : ℤ) := by
          rw [← zpow_natCast, ← zpow_add₀ (by norm_num)]; norm_num
      _ ≤ T := h
  have a1 := fl_err_abs (X*X)
  have a2 := fl_err_abs (Y*Y)
  have a3 := fl_err_abs (Z*Z)
  have a4 := fl_err_abs (sqr X + sqr Y)
  have a5 := fl_err_abs (add (sqr X) (sqr Y) + sqr Z)
  have n1 := sqr_nonneg X
  have n2 := sqr_nonneg Y
  have n3 := sqr_nonneg Z
  have n4 : 0 ≤ add (sqr X) (sqr Y) := fl_nonneg (add_nonneg n1 n2)
  rw [abs_of_nonneg (mul_self_nonneg X)] at a1
  rw [abs_of_nonneg (mul_self_nonneg Y)] at a2
  rw [abs_of_nonneg (mul_self_nonneg Z)] at a3
  rw [abs_of_nonneg (add_nonneg n1 n2)] at a4
  rw [abs_of_nonneg (add_nonneg n4 n3)] at a5
  change |X*X - sqr X| ≤ _ at a1
  change |Y*Y - sqr Y| ≤ _ at a2
  change |Z*Z - sqr Z| ≤ _ at a3
  change |_ - add (sqr X) (sqr Y)| ≤ _ at a4
  change |_ - sum2 X Y Z| ≤ _ at a5
  set η := (2:ℝ)^(-1075 : ℤ)
  rw [pow_two, pow_two, pow_two] at hT
  have x0 := mul_self_nonneg X
  have y0 := mul_self_nonneg Y
  have z0 := mul_self_nonneg Z
  rw [abs_le] at *
  obtain ⟨b1, c1⟩ := a1
  obtain ⟨b2, c2⟩ := a2
  obtain ⟨b3, c3⟩ := a3
  obtain ⟨b4, c4⟩ := a4
  obtain ⟨b5, c5⟩ := a5
  norm_num at *
  constructor <;> linarith

/-- The distance is accurate to three rounding units. -/
theorem dist_err {X Y Z : ℝ} (h : (2:ℝ)^(-500 : ℤ) ≤ len3 X Y Z) :
    |fl (Real.sqrt (sum2 X Y Z)) - len3 X Y Z| ≤ (3 / 2^53) * len3 X Y Z := by
  set R := len3 X Y Z with hR
  have hR0 : 0 < R := (two_zpow_pos _).trans_le h
  have hT0 : 0 ≤ X^2 + Y^2 + Z^2 := by positivity
  have hRT : R * R = X^2 + Y^2 + Z^2 := by rw [hR]; exact Real.mul_self_sqrt hT0
  have hT : (2:ℝ)^(-1000 : ℤ) ≤ X^2 + Y^2 + Z^2 := by
    rw [← hRT]
    calc (2:ℝ)^(-1000 : ℤ) = (2:ℝ)^(-500 : ℤ) * (2:ℝ)^(-500 : ℤ) := by
          rw [← zpow_add₀ (by norm_num)]; norm_num
      _ ≤ _ := mul_le_mul h h (two_zpow_pos _).le hR0.le
  have hs := sum2_err hT
  rw [← hRT, abs_le] at hs
  obtain ⟨s1, s2⟩ := hs
  set s := sum2 X Y Z
  have up : Real.sqrt s ≤ (1 + 1.51/2^53) * R := by
    rw [Real.sqrt_le_left (by positivity)]
    have : 0 ≤ R * R := by positivity
    norm_num at *
    nlinarith
  have lo : (1 - 1.51/2^53) * R ≤ Real.sqrt s := by
    apply Real.le_sqrt_of_sq_le
    have : 0 ≤ R * R := by positivity
    norm_num at *
    nlinarith
  have hη : (2:ℝ)^(-1075 : ℤ) ≤ R / 2^75 := by
    rw [le_div_iff₀ (by positivity)]
    calc (2:ℝ)^(-1075 : ℤ) * 2^75 = (2:ℝ)^(-1000 : ℤ) := by
          rw [← zpow_natCast, ← zpow_add₀ (by norm_num)]; norm_num
      _ ≤ (2:ℝ)^(-500 : ℤ) := zpow_le_zpow_right₀ (by norm_num) (by norm_num)
      _ ≤ R := h
  have hf := fl_err_abs (Real.sqrt s)
  rw [abs_of_nonneg (Real.sqrt_nonneg s), abs_le] at hf
  obtain ⟨f1, f2⟩ := hf
  set η := (2:ℝ)^(-1075 : ℤ)
  rw [abs_le]
  norm_num at *
  constructor <;> linarith

/-- The computed distance is not below the height. -/
theorem dist_ge {X Y Z : ℝ} (hZ : fl Z = Z) (h : (2:ℝ)^(-500 : ℤ) ≤ len3 X Y Z) :
    |Z| ≤ fl (Real.sqrt (sum2 X Y Z)) := by
  rcases le_or_gt ((2:ℝ)^(-511 : ℤ)) |Z| with hz | hz
  · have ha : fl |Z| = |Z| := by
      rcases abs_choice Z with e | e <;> rw [e]
      · exact hZ
      · exact fl_neg_exact hZ
    refine (sqrt_sq_eq ha hz).ge.trans (fl_mono (Real.sqrt_le_sqrt ?_))
    rw [abs_mul_abs_self]
    change sqr Z ≤ fl _
    have : fl (sqr Z) = sqr Z := fl_fl _
    rw [← this]
    apply fl_mono
    have : 0 ≤ add (sqr X) (sqr Y) := fl_nonneg (add_nonneg (sqr_nonneg _) (sqr_nonneg _))
    linarith
  · have he := dist_err h
    rw [abs_le] at he
    have hR : (2:ℝ)^(-511 : ℤ) * 2 ≤ len3 X Y Z := by
      calc (2:ℝ)^(-511 : ℤ) * 2 = (2:ℝ)^(-510 : ℤ) := by
            rw [← zpow_add_one₀ (by norm_num)]; norm_num
        _ ≤ (2:ℝ)^(-500 : ℤ) := zpow_le_zpow_right₀ (by norm_num) (by norm_num)
        _ ≤ _ := h
    have := two_zpow_pos (-511)
    obtain ⟨h1, -⟩ := he
    set η := (2:ℝ)^(-511 : ℤ)
    norm_num at h1
    linarith

/-- The computed cosine of the colatitude. -/
theorem cos_err {X Y Z : ℝ} (hZ : fl Z = Z) (h : (2:ℝ)^(-500 : ℤ) ≤ len3 X Y Z) :
    |div Z (fl (Real.sqrt (sum2 X Y Z))) - Z / len3 X Y Z| ≤ 5 / 2^53 := by
  have h1 := dist_err h
  have h2 := dist_ge hZ h
  set R := len3 X Y Z with hR
  set r := fl (Real.sqrt (sum2 X Y Z)) with hr
  have hR0 : 0 < R := (two_zpow_pos _).trans_le h
  have hr0 : 0 < r := by
    rw [abs_le] at h1; obtain ⟨h1, -⟩ := h1; norm_num at h1; linarith
  have hq : |Z / r| ≤ 1 := by
    rw [abs_div, abs_of_pos hr0, div_le_one hr0]; exact h2
  have e1 : |Z / r - Z / R| ≤ 3 / 2^53 := by
    have : Z / r - Z / R = (Z / r) * ((R - r) / R) := by field_simp
    rw [this, abs_mul, abs_div (R - r), abs_of_pos hR0, abs_sub_comm]
    have : |r - R| / R ≤ 3 / 2^53 := by rw [div_le_iff₀ hR0]; exact h1
    calc |Z / r| * (|r - R| / R) ≤ 1 * (3 / 2^53) :=
          mul_le_mul hq this (by positivity) (by norm_num)
      _ = _ := one_mul _
  have e2 := fl_err_abs (Z / r)
  have e3 : |div Z r - Z / r| ≤ 2 / 2^53 := by
    rw [abs_sub_comm]
    refine e2.trans ?_
    have : (2:ℝ)^(-1075 : ℤ) ≤ 1 / 2^53 := by
      calc (2:ℝ)^(-1075 : ℤ) ≤ (2:ℝ)^(-53 : ℤ) := zpow_le_zpow_right₀ (by norm_num) (by norm_num)
        _ = 1 / 2^53 := by rw [zpow_neg, one_div]; norm_num
    have : |Z / r| / 2^53 ≤ 1 / 2^53 := by gcongr
    calc |Z / r| / 2^53 + (2:ℝ)^(-1075 : ℤ) ≤ 1/2^53 + 1/2^53 := by linarith
      _ = _ := by ring
  have := abs_sub_le (div Z r) (Z / r) (Z / R)
  calc _ ≤ _ := this
    _ ≤ 2/2^53 + 3/2^53 := by linarith
    _ = _ := by ring

theorem len3_zero {X Y Z : ℝ} (h : len3 X Y Z = 0) : X = 0 ∧ Y = 0 ∧ Z = 0 := by
  unfold len3 at h
  rw [Real.sqrt_eq_zero (by positivity)] at h
  have := sq_nonneg X
  have := sq_nonneg Y
  have := sq_nonneg Z
  exact ⟨by nlinarith, by nlinarith, by nlinarith⟩

theorem sum2_zero : sum2 0 0 0 = 0 := by
  simp [sum2, sqr, F64.add, F64.mul, fl_zero]

theorem cart2sphere_r (M : Libm) (x y z : ℝ) (c : ℝ × ℝ × ℝ) :
    (cart2sphere M x y z c).1
      = some (fl (Real.sqrt (sum2 (sub x c.1) (sub y c.2.1) (sub z c.2.2)))) := by
  change F64.sqrt (sum2 _ _ _) = _
  unfold F64.sqrt
  rw [if_pos (sum2_nonneg _ _ _)]

theorem cart2sphere_theta (M : Libm) {x y z : ℝ} {c : ℝ × ℝ × ℝ}
    (h : (2:ℝ)^(-500 : ℤ) ≤ len3 (sub x c.1) (sub y c.2.1) (sub z c.2.2)) :
    (cart2sphere M x y z c).2.2 = some (M.acos (div (sub z c.2.2)
        (fl (Real.sqrt (sum2 (sub x c.1) (sub y c.2.1) (sub z c.2.2))))))
      ∧ -1 ≤ div (sub z c.2.2)
        (fl (Real.sqrt (sum2 (sub x c.1) (sub y c.2.1) (sub z c.2.2))))
      ∧ div (sub z c.2.2)
        (fl (Real.sqrt (sum2 (sub x c.1) (sub y c.2.1) (sub z c.2.2)))) ≤ 1 := by
  have hZ : fl (sub z c.2.2) = sub z c.2.2 := fl_fl _
  have h1 := dist_err h
  have h2 := dist_ge hZ h
  have hd : (cart2sphere M x y z c).2.2 = colat M (sub z c.2.2) (cart2sphere M x y z c).1 := rfl
  rw [hd, cart2sphere_r]
  set Z := sub z c.2.2
  set R := len3 (sub x c.1) (sub y c.2.1) Z with hR
  set r := fl (Real.sqrt (sum2 (sub x c.1) (sub y c.2.1) Z)) with hr
  have hR0 : 0 < R := (two_zpow_pos _).trans_le h
  have hr0 : 0 < r := by
    rw [abs_le] at h1; obtain ⟨h1, -⟩ := h1; norm_num at h1; linarith
  have f1 : fl (1:ℝ) = 1 := by simpa using fl_int (n := 1) (by norm_num)
  have fm1 : fl (-1:ℝ) = -1 := fl_neg_exact f1
  rw [abs_le] at h2
  have q1 : div Z r ≤ 1 := by
    rw [← f1]; exact fl_mono ((div_le_one hr0).mpr h2.2)
  have q2 : -1 ≤ div Z r := by
    rw [← fm1]; apply fl_mono; rw [le_div_iff₀ hr0]; linarith [h2.1]
  refine ⟨?_, q2, q1⟩
  simp only [colat, arccos]
  rw [if_pos hr0.ne', if_pos ⟨q2, q1⟩]

theorem pi_pos64 : 0 < pi ∧ fl pi = pi := by
  refine ⟨?_, fl_fl _⟩
  have : fl (3:ℝ) = 3 := by simpa using fl_int (n := 3) (by norm_num)
  have h := fl_mono (le_of_lt Real.pi_gt_three)
  rw [this] at h
  unfold pi; linarith

theorem fl_two_mul {x : ℝ} (h : fl x = x) : fl (2*x) = 2*x := by
  obtain ⟨m, hm, e⟩ := fl_form x
  rw [h] at e
  have := fl_exact (m := m) (e := ulpExp x + 1) hm (by have := ulp_ge x; omega)
  have e2 : 2*x = (m:ℝ) * (2:ℝ)^(ulpExp x + 1) := by
    rw [zpow_add_one₀ (by norm_num)]; linarith [e]
  rw [e2]; exact this

theorem twoPi_eq : twoPi = 2*pi := fl_two_mul pi_pos64.2

theorem fl_twoPi : fl twoPi = twoPi := fl_fl _

theorem fl_neg_twoPi : fl (-twoPi) = -twoPi := fl_neg_exact fl_twoPi

theorem wrap_range {p : ℝ} (h1 : -pi ≤ p) (h2 : p ≤ pi) :
    0 ≤ (if p < 0 then add p twoPi else p) ∧ (if p < 0 then add p twoPi else p) ≤ twoPi := by
  have := pi_pos64.1
  have e := twoPi_eq
  split_ifs with h
  · refine ⟨fl_nonneg (by linarith), ?_⟩
    calc add p twoPi ≤ fl twoPi := fl_mono (by linarith)
      _ = twoPi := fl_twoPi
  · exact ⟨not_lt.mp h, by linarith⟩

theorem phiShift_ok {phi dphi : ℝ} (h1 : 0 ≤ phi) (h2 : phi ≤ twoPi) (h3 : -twoPi < dphi)
    (h4 : dphi < twoPi) : ∃ p, phiShift phi dphi = .ok p ∧ 0 ≤ p ∧ p ≤ twoPi
      ∧ ∃ k : ℤ, |p - (phi + dphi + k*(2*Real.pi))| ≤ 1/2^48 := by
  have hpi := pi_pos64.1
  have e := twoPi_eq
  have ea : mul (-2) pi = -twoPi := by
    unfold mul; rw [show -2*pi = -twoPi by rw [e]; ring]; exact fl_neg_twoPi
  have hpi4 : |pi - Real.pi| ≤ 4/2^53 := by
    rw [abs_sub_comm]
    refine (fl_err ?_).trans ?_
    · rw [abs_of_pos Real.pi_pos]
      have := Real.pi_gt_three
      have : (2:ℝ)^(-1022 : ℤ) ≤ (2:ℝ)^(0:ℤ) := zpow_le_zpow_right₀ (by norm_num) (by norm_num)
      norm_num at this ⊢
      linarith
    · rw [abs_of_pos Real.pi_pos]
      have := Real.pi_lt_four
      gcongr
  have hη : (2:ℝ)^(-1075 : ℤ) ≤ 1 / 2^60 := by
    calc (2:ℝ)^(-1075 : ℤ) ≤ (2:ℝ)^(-60 : ℤ) := zpow_le_zpow_right₀ (by norm_num) (by norm_num)
      _ = 1 / 2^60 := by rw [zpow_neg, one_div]; norm_num
  have hlt := Real.pi_lt_d2
  have hb1 : add phi dphi ≤ 2*twoPi := by
    have := fl_two_mul fl_twoPi
    rw [← this]; exact fl_mono (by linarith)
  have hb2 : -twoPi ≤ add phi dphi := by
    rw [← fl_neg_twoPi]; exact fl_mono (by linarith)
  have er1 := fl_err_abs (phi + dphi)
  change |_ - add phi dphi| ≤ _ at er1
  have ab1 : |phi + dphi| ≤ 13 := by
    rw [abs_le] at hpi4 ⊢
    obtain ⟨h5, h6⟩ := hpi4
    norm_num at h5 h6
    constructor <;> linarith
  have er2 : ∀ q, |q| ≤ twoPi → |q - fl q| ≤ 8/2^53 := by
    intro q hq
    have := fl_err_abs q
    rw [abs_le] at hpi4
    obtain ⟨h5, h6⟩ := hpi4
    norm_num at h5 h6 this hη ⊢
    linarith
  unfold phiShift pyAssert
  rw [ea, if_pos ⟨h3, h4⟩]
  refine ⟨_, rfl, ?_⟩
  set p := add phi dphi with hp
  set η := (2:ℝ)^(-1075 : ℤ)
  rw [abs_le] at hpi4 er1
  obtain ⟨h5, h6⟩ := hpi4
  obtain ⟨h7, h8⟩ := er1
  split_ifs with c1 c2
  · have er := er2 (p - twoPi) (by rw [abs_le]; constructor <;> linarith)
    change |_ - sub p twoPi| ≤ _ at er
    refine ⟨fl_nonneg (by linarith), ?_, -1, ?_⟩
    · calc sub p twoPi ≤ fl twoPi := fl_mono (by linarith)
        _ = twoPi := fl_twoPi
    · rw [abs_le] at er ⊢
      obtain ⟨h9, h10⟩ := er
      push_cast
      norm_num at *
      constructor <;> linarith
  · have er := er2 (p + twoPi) (by rw [abs_le]; constructor <;> linarith)
    change |_ - add p twoPi| ≤ _ at er
    refine ⟨fl_nonneg (by linarith), ?_, 1, ?_⟩
    · calc add p twoPi ≤ fl twoPi := fl_mono (by linarith)
        _ = twoPi := fl_twoPi
    · rw [abs_le] at er ⊢
      obtain ⟨h9, h10⟩ := er
      push_cast
      norm_num at *
      constructor <;> linarith
  · refine ⟨not_lt.mp c2, not_lt.mp c1, 0, ?_⟩
    rw [abs_le]
    push_cast
    norm_num at *
    constructor <;> linarith

theorem phiShiftArr_eq_map (phi : List ℝ) {dphi : ℝ} (h3 : mul (-2) pi < dphi)
    (h4 : dphi < twoPi) :
    phiShiftArr phi dphi = .ok (phi.map fun p =>
      if add p dphi > twoPi then sub (add p dphi) twoPi
      else if add p dphi < 0 then add (add p dphi) twoPi else add p dphi) := by
  unfold phiShiftArr pyAssert
  rw [if_pos ⟨h3, h4⟩]
  simp only [whereIdx_map, bind, Except.bind,
    gather_whereIdx, gather_self, zipWith_map_same, zipWith_same_map, zip_map_same,
    scatter_whereIdx, List.map_map, Function.comp_def, pure, Except.pure, decide_eq_true_eq]
  congr 1
  apply List.map_congr_left
  intro p _
  have hpi := pi_pos64.1
  have e := twoPi_eq
  by_cases c : add p dphi > twoPi
  · rw [if_pos c, if_pos c, if_neg]
    exact not_lt.mpr (fl_nonneg (by linarith))
  · rw [if_neg c, if_neg c]

/-- The height on the sphere of a point of the disc. -/
theorem ortho_height {x y r : ℝ} (hr : fl r = r) (hr0 : (2:ℝ)^(-511 : ℤ) ≤ |r|)
    (h : add (sqr x) (sqr y) < sqr r) (fill : Option ℝ) :
    ∃ z, ortho2cart x y r fill = some z ∧ 0 ≤ z ∧ z ≤ |r| := by
  have h0 : 0 ≤ sub (sqr r) (add (sqr x) (sqr y)) := fl_nonneg (by linarith)
  refine ⟨fl (Real.sqrt (sub (sqr r) (add (sqr x) (sqr y)))), ?_, fl_nonneg (Real.sqrt_nonneg _), ?_⟩
  · simp only [ortho2cart, F64.sqrt]
    rw [if_pos h, if_pos h0]
  · rw [← sqrt_sq_eq (fl_abs_exact hr) hr0, abs_mul_abs_self]
    apply fl_mono
    apply Real.sqrt_le_sqrt
    have : fl (sqr r) = sqr r := fl_fl _
    change _ ≤ sqr r
    rw [← this]
    apply fl_mono
    have : 0 ≤ add (sqr x) (sqr y) := fl_nonneg (add_nonneg (sqr_nonneg _) (sqr_nonneg _))
    linarith

theorem cart2sphereArr_eq_map (M : Libm) (rows : List (ℝ × ℝ × ℝ)) (c : ℝ × ℝ × ℝ) :
    cart2sphereArr M (rows.map fun r => r.1) (rows.map fun r => r.2.1) (rows.map fun r => r.2.2) c
      = .ok (rows.map fun r => (cart2sphere M r.1 r.2.1 r.2.2 c).1,
             rows.map fun r => (cart2sphere M r.1 r.2.1 r.2.2 c).2.1,
             rows.map fun r => (cart2sphere M r.1 r.2.1 r.2.2 c).2.2) := by
  unfold cart2sphereArr
  simp only [vzip_map_same, List.length_map, replicate_length_map, whereIdx_map, bind, Except.bind,
    gather_whereIdx, gather_self, zipWith_map_same, zipWith_same_map, zip_map_same,
    scatter_whereIdx, List.map_map, Function.comp_def, pure, Except.pure, decide_eq_true_eq]
  congr 3
  apply List.map_congr_left
  intro q _
  simp only [cart2sphere, colat]
  generalize F64.sqrt _ = o
  cases o with
  | none => simp
  | some r => by_cases h : r = 0 <;> simp [h]

theorem ortho2cartArr_eq_map (rows : List (ℝ × ℝ)) (r : ℝ) (fill : Option ℝ) :
    ortho2cartArr (rows.map Prod.fst) (rows.map Prod.snd) r fill
      = .ok (rows.map fun q => ortho2cart q.1 q.2 r fill) := by
  unfold ortho2cartArr
  simp only [vzip_map_same, List.length_map, replicate_length_map, whereIdx_map, bind, Except.bind,
    gather_whereIdx, gather_self, zipWith_map_same, zipWith_same_map, zip_map_same,
    scatter_whereIdx, List.map_map, Function.comp_def, pure, Except.pure, decide_eq_true_eq]
  rfl

end Magpie.Coords64
