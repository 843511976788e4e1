import Verif.Proof.Conversions64
import Mathlib.Analysis.SpecialFunctions.Trigonometric.Inverse

/-!
# C100 - C102: coordinate conversions in binary64

`Model/Conversions64.lean` is the code with every operation rounded; the C library's `arctan2` and
`arccos` are arbitrary functions with values in the ranges of `Spec.AnglesInRange`.
-/

set_option linter.unusedSimpArgs false
set_option linter.unusedVariables false

namespace Magpie.Props
open Magpie.F64 Magpie.Coords64 Magpie.Spec

/-- Functions that meet `AnglesInRange`: the exact ones, rounded to nearest. -/
noncomputable def nearestLibm : Libm where
  atan2 y x := fl (Coords.arctan2 y x)
  acos q := fl (Real.arccos q)

theorem nearestLibm_inRange : AnglesInRange pi nearestLibm.atan2 nearestLibm.acos where
  atan2_ge y x := by
    have h : -Real.pi ≤ Coords.arctan2 y x := (Complex.neg_pi_lt_arg _).le
    have hs : fl (-Real.pi) = -pi := fl_neg _
    rw [← hs]
    exact fl_mono h
  atan2_le y x := fl_mono (Complex.arg_le_pi _)
  acos_ge q _ _ := fl_nonneg (Real.arccos_nonneg q)
  acos_le q _ _ := fl_mono (Real.arccos_le_pi q)

/-! ## C100 -/

/-- **C100**, for a point at the centre or at a moderate distance (the differences `X`, `Y`, `Z`
to the centre are the rounded ones): the distance and the colatitude are numbers, the longitude is
in `[0, 2 pi]`, the colatitude in `[0, pi]`.  The distance is accurate to 3 units of `2^-53` and
the colatitude is the C library's `arccos` of a number within 5 such units of the cosine.
Missing: points so near to or far from the centre that squares under- or overflow, see
`C100_violated`. -/
theorem C100_sphere_partial (M : Libm) (hM : AnglesInRange pi M.atan2 M.acos)
    (x y z : ℝ) (c : ℝ × ℝ × ℝ)
    (h : Moderate (sub x c.1) (sub y c.2.1) (sub z c.2.2)) :
    ∃ r phi theta, Coords64.cart2sphere M x y z c = (some r, phi, some theta)
      ∧ 0 ≤ phi ∧ phi ≤ twoPi ∧ 0 ≤ theta ∧ theta ≤ pi
      ∧ |r - len3 (sub x c.1) (sub y c.2.1) (sub z c.2.2)|
          ≤ (3/2^53) * len3 (sub x c.1) (sub y c.2.1) (sub z c.2.2)
      ∧ (len3 (sub x c.1) (sub y c.2.1) (sub z c.2.2) ≠ 0 →
          ∃ q, theta = M.acos q ∧ -1 ≤ q ∧ q ≤ 1
            ∧ |q - sub z c.2.2 / len3 (sub x c.1) (sub y c.2.1) (sub z c.2.2)| ≤ 5/2^53) := by
  have hphi := wrap_range (hM.atan2_ge (sub y c.2.1) (sub x c.1)) (hM.atan2_le _ _)
  have hr := cart2sphere_r M x y z c
  rcases h with h | ⟨h, -⟩
  · have hth : (Coords64.cart2sphere M x y z c).2.2 = some 0 := by
      have hd : (Coords64.cart2sphere M x y z c).2.2
        = colat M (sub z c.2.2) (Coords64.cart2sphere M x y z c).1 := rfl
      obtain ⟨e1, e2, e3⟩ := len3_zero h
      rw [hd, hr, e1, e2, e3, sum2_zero, Real.sqrt_zero, fl_zero]
      simp [colat]
    refine ⟨_, _, 0, Prod.ext hr (Prod.ext rfl hth), hphi.1, hphi.2, le_refl _, pi_pos64.1.le,
      ?_, fun hne => absurd h hne⟩
    obtain ⟨e1, e2, e3⟩ := len3_zero h
    rw [h, e1, e2, e3, sum2_zero, Real.sqrt_zero, fl_zero]
    simp
  · obtain ⟨hth, q1, q2⟩ := cart2sphere_theta M h
    exact ⟨_, _, _, Prod.ext hr (Prod.ext rfl hth), hphi.1, hphi.2, hM.acos_ge _ q1 q2,
      hM.acos_le _ q1 q2, dist_err h, fun _ => ⟨_, rfl, q1, q2, cos_err (fl_fl _) h⟩⟩

/-- Arrays: every row is what the scalar call returns. -/
theorem C100_arrays (M : Libm) (rows : List (ℝ × ℝ × ℝ)) (c : ℝ × ℝ × ℝ) :
    Coords64.cart2sphereArr M (rows.map fun r => r.1) (rows.map fun r => r.2.1)
        (rows.map fun r => r.2.2) c
      = .ok (rows.map fun r => (Coords64.cart2sphere M r.1 r.2.1 r.2.2 c).1,
             rows.map fun r => (Coords64.cart2sphere M r.1 r.2.1 r.2.2 c).2.1,
             rows.map fun r => (Coords64.cart2sphere M r.1 r.2.1 r.2.2 c).2.2) :=
  Coords64.cart2sphereArr_eq_map M rows c

/-- In the plane: `cart2polar`. -/
theorem C100_polar_partial (M : Libm) (hM : AnglesInRange pi M.atan2 M.acos)
    (x y : ℝ) (c : ℝ × ℝ) (h : Moderate (sub x c.1) (sub y c.2) 0) :
    ∃ r phi, Coords64.cart2polar M x y c = (some r, phi)
      ∧ 0 ≤ phi ∧ phi ≤ twoPi
      ∧ |r - len3 (sub x c.1) (sub y c.2) 0| ≤ (3/2^53) * len3 (sub x c.1) (sub y c.2) 0 := by
  have hphi := wrap_range (hM.atan2_ge (sub y c.2) (sub x c.1)) (hM.atan2_le _ _)
  have hs : add (sqr (sub x c.1)) (sqr (sub y c.2)) = sum2 (sub x c.1) (sub y c.2) 0 := by
    have : sqr 0 = 0 := by simp [sqr, F64.mul, fl_zero]
    unfold sum2 F64.add; rw [this, add_zero, fl_fl]
  have hr : (Coords64.cart2polar M x y c).1
      = some (fl (Real.sqrt (sum2 (sub x c.1) (sub y c.2) 0))) := by
    change F64.sqrt _ = _
    rw [hs]; unfold F64.sqrt; rw [if_pos (sum2_nonneg _ _ _)]
  refine ⟨_, _, Prod.ext hr rfl, hphi.1, hphi.2, ?_⟩
  rcases h with h | ⟨h, -⟩
  · obtain ⟨e1, e2, -⟩ := len3_zero h
    rw [h, e1, e2, sum2_zero, Real.sqrt_zero, fl_zero]; simp
  · exact dist_err h

/-- On an axis through the centre the distance is exact. -/
theorem C100_axis (M : Libm) (a : ℝ) (ha : IsDouble a) (h1 : (2:ℝ)^(-511 : ℤ) ≤ |a|)
    (h2 : |a| ≤ (2:ℝ)^(511 : ℤ)) :
    (Coords64.cart2sphere M a 0 0 (0, 0, 0)).1 = some |a|
      ∧ (Coords64.cart2sphere M 0 a 0 (0, 0, 0)).1 = some |a|
      ∧ (Coords64.cart2sphere M 0 0 a (0, 0, 0)).1 = some |a|
      ∧ (Coords64.cart2polar M a 0 (0, 0)).1 = some |a|
      ∧ (Coords64.cart2polar M 0 a (0, 0)).1 = some |a| := by
  have hf : fl a = a := by
    obtain ⟨m, e, hm, he, -, rfl⟩ := ha
    exact fl_exact hm.le he
  have key : fl (Real.sqrt (fl (a * a))) = |a| := by
    have := sqrt_sq_eq (fl_abs_exact hf) h1
    rwa [abs_mul_abs_self] at this
  have hn : 0 ≤ fl (a * a) := fl_nonneg (mul_self_nonneg a)
  simp [Coords64.cart2sphere, Coords64.cart2polar, sqr, F64.sub, F64.mul, F64.add, F64.sqrt,
    fl_zero, fl_fl, hf, hn, key]

/-- A number below the normal range is rounded to a multiple of `2^-1074`. -/
theorem fl_subnormal {x : ℝ} {n : ℤ} (hx : 0 < x) (h : x < (2:ℝ)^(-1022 : ℤ))
    (hn : |x / (2:ℝ)^(-1074 : ℤ) - n| < 1/2) : fl x = n * (2:ℝ)^(-1074 : ℤ) := by
  have hu : ulpExp x = -1074 := by
    unfold ulpExp
    rw [abs_of_pos hx]
    have := (Int.lt_zpow_iff_log_lt (b := 2) (x := -1022) (by norm_num) hx).mp (by simpa using h)
    rw [max_eq_right (by omega)]
  exact fl_of_ulp hu (rne_near hn)

/-- C100 as stated fails: for the point `(0, 0, 9 * 2^-540)` the quotient `z/r` is `9/8` and the
colatitude NaN, whatever the C library does. -/
theorem C100_violated (M : Libm) :
    IsDouble (9 * (2:ℝ)^(-540 : ℤ))
      ∧ (Coords64.cart2sphere M 0 0 (9 * (2:ℝ)^(-540 : ℤ)) (0, 0, 0)).2.2 = none := by
  refine ⟨⟨9, -540, by norm_num, by norm_num, by norm_num, by norm_num⟩, ?_⟩
  have hz : fl (9 * (2:ℝ)^(-540 : ℤ)) = 9 * (2:ℝ)^(-540 : ℤ) := by
    simpa using fl_exact (m := 9) (e := -540) (by norm_num) (by norm_num)
  have hzz : 9 * (2:ℝ)^(-540 : ℤ) * (9 * (2:ℝ)^(-540 : ℤ)) = 81 * (2:ℝ)^(-1080 : ℤ) := by
    rw [show (-1080 : ℤ) = -540 + -540 by norm_num, zpow_add₀ (by norm_num)]; ring
  have hsq : fl (9 * (2:ℝ)^(-540 : ℤ) * (9 * (2:ℝ)^(-540 : ℤ))) = (2:ℝ)^(-1074 : ℤ) := by
    rw [hzz]
    have := fl_subnormal (x := 81 * (2:ℝ)^(-1080 : ℤ)) (n := 1)
      (mul_pos (by norm_num) (two_zpow_pos _)) ?_ ?_
    · rw [this]; norm_num
    · calc 81 * (2:ℝ)^(-1080 : ℤ) < (2:ℝ)^(58:ℤ) * (2:ℝ)^(-1080 : ℤ) :=
          mul_lt_mul_of_pos_right (by norm_num) (two_zpow_pos _)
        _ = _ := by rw [← zpow_add₀ (by norm_num)]; norm_num
    · rw [mul_div_assoc, ← zpow_sub₀ (by norm_num)]
      norm_num [abs_lt]
  have hrt : Real.sqrt ((2:ℝ)^(-1074 : ℤ)) = (2:ℝ)^(-537 : ℤ) := by
    rw [show (-1074 : ℤ) = -537 + -537 by norm_num, zpow_add₀ (by norm_num),
      Real.sqrt_mul_self (two_zpow_pos _).le]
  have hfr : fl ((2:ℝ)^(-537 : ℤ)) = (2:ℝ)^(-537 : ℤ) := by
    simpa using fl_exact (m := 1) (e := -537) (by norm_num) (by norm_num)
  have hf74 : fl ((2:ℝ)^(-1074 : ℤ)) = (2:ℝ)^(-1074 : ℤ) := by
    simpa using fl_exact (m := 1) (e := -1074) (by norm_num) (by norm_num)
  have hd : Coords64.colat M (9 * (2:ℝ)^(-540 : ℤ)) (some ((2:ℝ)^(-537 : ℤ))) = none := by
    have hq : F64.div (9 * (2:ℝ)^(-540 : ℤ)) ((2:ℝ)^(-537 : ℤ)) = 9/8 := by
      unfold F64.div
      rw [mul_div_assoc, ← zpow_sub₀ (by norm_num)]
      have := fl_dyadic (n := 9) 3 (by norm_num) (by norm_num)
      norm_num at this ⊢
      exact this
    simp only [colat]
    rw [if_pos (two_zpow_pos _).ne', hq]
    unfold Coords64.arccos
    rw [if_neg (by norm_num)]
  have hr := cart2sphere_r M 0 0 (9 * (2:ℝ)^(-540 : ℤ)) (0, 0, 0)
  have e : (Coords64.cart2sphere M 0 0 (9 * (2:ℝ)^(-540 : ℤ)) (0, 0, 0)).2.2
    = colat M (sub (9 * (2:ℝ)^(-540 : ℤ)) 0)
      (Coords64.cart2sphere M 0 0 (9 * (2:ℝ)^(-540 : ℤ)) (0, 0, 0)).1 := rfl
  rw [e, hr]
  have s0 : sub (9 * (2:ℝ)^(-540 : ℤ)) 0 = 9 * (2:ℝ)^(-540 : ℤ) := by
    unfold F64.sub; rw [sub_zero]; exact hz
  have s1 : sub 0 0 = 0 := by unfold F64.sub; rw [sub_zero]; exact fl_zero
  have q0 : sqr 0 = 0 := by simp [sqr, F64.mul, fl_zero]
  simp only [s0, s1]
  have : sum2 0 0 (9 * (2:ℝ)^(-540 : ℤ)) = (2:ℝ)^(-1074 : ℤ) := by
    unfold sum2
    rw [q0]
    unfold F64.add sqr F64.mul
    rw [hsq, add_zero, fl_zero, zero_add]
    exact hf74
  rw [this, hrt, hfr]
  exact hd

/-- Nearer still every direction becomes the north pole: for `(0, 0, -2^-538)`, whose colatitude
is `pi`, the distance is `0` and the colatitude `0`. -/
theorem C100_underflow (M : Libm) :
    (Coords64.cart2sphere M 0 0 (-(2:ℝ)^(-538 : ℤ)) (0, 0, 0)).1 = some 0
      ∧ (Coords64.cart2sphere M 0 0 (-(2:ℝ)^(-538 : ℤ)) (0, 0, 0)).2.2 = some 0 := by
  have hr := cart2sphere_r M 0 0 (-(2:ℝ)^(-538 : ℤ)) (0, 0, 0)
  have hz : fl (-(2:ℝ)^(-538 : ℤ)) = -(2:ℝ)^(-538 : ℤ) := by
    apply fl_neg_exact
    simpa using fl_exact (m := 1) (e := -538) (by norm_num) (by norm_num)
  have hsq : fl (-(2:ℝ)^(-538 : ℤ) * -(2:ℝ)^(-538 : ℤ)) = 0 := by
    rw [neg_mul_neg, ← zpow_add₀ (by norm_num)]
    have := fl_subnormal (x := (2:ℝ)^(-538 + -538 : ℤ)) (n := 0) (two_zpow_pos _) ?_ ?_
    · rw [this]; norm_num
    · exact zpow_lt_zpow_right₀ (by norm_num) (by norm_num)
    · rw [← zpow_sub₀ (by norm_num)]
      norm_num [abs_lt]
  have s0 : sub (-(2:ℝ)^(-538 : ℤ)) 0 = -(2:ℝ)^(-538 : ℤ) := by
    unfold F64.sub; rw [sub_zero]; exact hz
  have s1 : sub 0 0 = 0 := by unfold F64.sub; rw [sub_zero]; exact fl_zero
  have q0 : sqr 0 = 0 := by simp [sqr, F64.mul, fl_zero]
  have hs : sum2 0 0 (-(2:ℝ)^(-538 : ℤ)) = 0 := by
    unfold sum2
    rw [q0]
    unfold F64.add sqr F64.mul
    simp only [hsq, add_zero, fl_zero]
  simp only [s0, s1, hs, Real.sqrt_zero, fl_zero] at hr
  refine ⟨hr, ?_⟩
  have e : (Coords64.cart2sphere M 0 0 (-(2:ℝ)^(-538 : ℤ)) (0, 0, 0)).2.2
    = colat M (sub (-(2:ℝ)^(-538 : ℤ)) 0)
      (Coords64.cart2sphere M 0 0 (-(2:ℝ)^(-538 : ℤ)) (0, 0, 0)).1 := rfl
  rw [e, hr]
  simp [colat]

/-- The hypotheses of C100 are met by the point `(1, 2, 2)` about the origin. -/
example : AnglesInRange pi nearestLibm.atan2 nearestLibm.acos
    ∧ Moderate (sub 1 0) (sub 2 0) (sub 2 0) := by
  refine ⟨nearestLibm_inRange, Or.inr ?_⟩
  have f1 : sub 1 0 = 1 := by
    unfold F64.sub; simpa using fl_int (n := 1) (by norm_num)
  have f2 : sub 2 0 = 2 := by
    unfold F64.sub; simpa using fl_int (n := 2) (by norm_num)
  have : len3 1 2 2 = 3 := by
    unfold len3; rw [show (1:ℝ)^2 + 2^2 + 2^2 = 3*3 by norm_num, Real.sqrt_mul_self (by norm_num)]
  rw [f1, f2, this]
  constructor
  · calc (2:ℝ)^(-500 : ℤ) ≤ (2:ℝ)^(0:ℤ) := zpow_le_zpow_right₀ (by norm_num) (by norm_num)
      _ ≤ 3 := by norm_num
  · calc (3:ℝ) ≤ (2:ℝ)^(2:ℤ) := by norm_num
      _ ≤ _ := zpow_le_zpow_right₀ (by norm_num) (by norm_num)

/-! ## C101 -/

/-- **C101**: shifting a longitude of `[0, 2 pi]` in floats gives a longitude of `[0, 2 pi]`, which
is the exact sum up to whole turns and an error of `2^-48`. -/
theorem C101_phi_shift64 (phi dphi : ℝ) (h1 : 0 ≤ phi) (h2 : phi ≤ twoPi) (h3 : -twoPi < dphi)
    (h4 : dphi < twoPi) :
    ∃ p, Coords64.phiShift phi dphi = .ok p ∧ 0 ≤ p ∧ p ≤ twoPi
      ∧ ∃ k : ℤ, |p - (phi + dphi + k*(2*Real.pi))| ≤ 1/2^48 :=
  phiShift_ok h1 h2 h3 h4

/-- Arrays are shifted element by element, and shifts the scalar branch refuses are refused. -/
theorem C101_arrays (phi : List ℝ) (dphi : ℝ) :
    Coords64.phiShiftArr phi dphi = phi.foldr (fun p acc => do
        let q ← Coords64.phiShift p dphi
        let qs ← acc
        return q :: qs) ((Coords64.phiShift 0 dphi).map fun _ => []) := by
  by_cases h : dphi > mul (-2) pi ∧ dphi < twoPi
  · rw [phiShiftArr_eq_map phi h.1 h.2]
    induction phi with
    | nil => simp [Coords64.phiShift, pyAssert, h, bind, Except.bind, pure, Except.pure, Except.map]
    | cons p l ih =>
      rw [List.foldr_cons, ← ih]
      simp [Coords64.phiShift, pyAssert, h, bind, Except.bind, pure, Except.pure]
  · have e : ∀ p, Coords64.phiShift p dphi = .error .assertionError := by
      intro p; simp only [Coords64.phiShift, pyAssert]; rw [if_neg h]; rfl
    have e2 : Coords64.phiShiftArr phi dphi = .error .assertionError := by
      simp only [Coords64.phiShiftArr, pyAssert]; rw [if_neg h]; rfl
    rw [e2]
    cases phi with
    | nil => simp [e, Except.map]
    | cons p l => simp [e, bind, Except.bind]

/-- A negative shift across zero. -/
example : (0:ℝ) ≤ 1 ∧ (1:ℝ) ≤ twoPi ∧ -twoPi < -2 ∧ (-2:ℝ) < twoPi := by
  have h3 : fl (3:ℝ) = 3 := by simpa using fl_int (n := 3) (by norm_num)
  have : 3 ≤ pi := by rw [← h3]; exact fl_mono (le_of_lt Real.pi_gt_three)
  have e := twoPi_eq
  refine ⟨by norm_num, ?_, ?_, ?_⟩ <;> linarith

/-! ## C102 -/

/-- **C102**: inside the disc, as decided in floats, the height is a number between `0` and the
radius. -/
theorem C102_ortho64 (x y r : ℝ) (fill : Option ℝ) (hr : IsDouble r)
    (hr1 : (2:ℝ)^(-511 : ℤ) ≤ r) (hr2 : r ≤ (2:ℝ)^(511 : ℤ))
    (h : add (sqr x) (sqr y) < sqr r) :
    ∃ z, Coords64.ortho2cart x y r fill = some z ∧ 0 ≤ z ∧ z ≤ r := by
  have hf : fl r = r := by
    obtain ⟨m, e, hm, he, -, rfl⟩ := hr
    exact fl_exact hm.le he
  have hp : 0 < r := (two_zpow_pos _).trans_le hr1
  have := ortho_height (x := x) (y := y) hf (by rwa [abs_of_pos hp]) h fill
  rwa [abs_of_pos hp] at this

/-- Outside it is the fill value. -/
theorem C102_outside (x y r : ℝ) (fill : Option ℝ) (h : ¬ add (sqr x) (sqr y) < sqr r) :
    Coords64.ortho2cart x y r fill = fill := by
  simp only [Coords64.ortho2cart]; rw [if_neg h]

/-- A point whose exact distance is at least five units of `2^-53` (relative, squared) inside the
circle is inside, one that far outside is outside. -/
theorem C102_edge (x y r : ℝ) (hr : (2:ℝ)^(-500 : ℤ) ≤ r) (hr2 : r ≤ (2:ℝ)^(511 : ℤ)) :
    (x^2 + y^2 ≤ (1 - 5/2^53) * r^2 → add (sqr x) (sqr y) < sqr r)
      ∧ ((1 + 5/2^53) * r^2 ≤ x^2 + y^2 → ¬ add (sqr x) (sqr y) < sqr r) := by
  have hp : 0 < r := (two_zpow_pos _).trans_le hr
  have hrr : (2:ℝ)^(-1000 : ℤ) ≤ r * r := by
    calc (2:ℝ)^(-1000 : ℤ) = (2:ℝ)^(-500 : ℤ) * (2:ℝ)^(-500 : ℤ) := by
          rw [← zpow_add₀ (by norm_num)]; norm_num
      _ ≤ _ := mul_le_mul hr hr (two_zpow_pos _).le hp.le
  have hη : (2:ℝ)^(-1075 : ℤ) ≤ (r*r) / 2^75 := by
    rw [le_div_iff₀ (by positivity)]
    calc (2:ℝ)^(-1075 : ℤ) * 2^75 = (2:ℝ)^(-1000 : ℤ) := by
          rw [← zpow_natCast, ← zpow_add₀ (by norm_num)]; norm_num
      _ ≤ _ := hrr
  have a1 := fl_err_abs (x*x)
  have a2 := fl_err_abs (y*y)
  have a3 := fl_err_abs (r*r)
  have a4 := fl_err_abs (sqr x + sqr y)
  have n1 := sqr_nonneg x
  have n2 := sqr_nonneg y
  rw [abs_of_nonneg (mul_self_nonneg x)] at a1
  rw [abs_of_nonneg (mul_self_nonneg y)] at a2
  rw [abs_of_nonneg (mul_self_nonneg r)] at a3
  rw [abs_of_nonneg (add_nonneg n1 n2)] at a4
  change |x*x - sqr x| ≤ _ at a1
  change |y*y - sqr y| ≤ _ at a2
  change |r*r - sqr r| ≤ _ at a3
  change |_ - add (sqr x) (sqr y)| ≤ _ at a4
  set η := (2:ℝ)^(-1075 : ℤ)
  rw [abs_le] at *
  obtain ⟨b1, c1⟩ := a1
  obtain ⟨b2, c2⟩ := a2
  obtain ⟨b3, c3⟩ := a3
  obtain ⟨b4, c4⟩ := a4
  rw [pow_two, pow_two, pow_two]
  have x0 := mul_self_nonneg x
  have y0 := mul_self_nonneg y
  constructor
  · intro h
    norm_num at *
    have r0 : 0 < r * r := mul_pos hp hp
    linarith
  · intro h
    rw [not_lt]
    norm_num at *
    have r0 : 0 < r * r := mul_pos hp hp
    linarith

/-- Arrays: every pixel as in the scalar call. -/
theorem C102_arrays (rows : List (ℝ × ℝ)) (r : ℝ) (fill : Option ℝ) :
    Coords64.ortho2cartArr (rows.map Prod.fst) (rows.map Prod.snd) r fill
      = .ok (rows.map fun q => Coords64.ortho2cart q.1 q.2 r fill) :=
  Coords64.ortho2cartArr_eq_map rows r fill

/-- A point inside the unit disc. -/
example : IsDouble 1 ∧ (2:ℝ)^(-500 : ℤ) ≤ 1 ∧ (1:ℝ) ≤ (2:ℝ)^(511 : ℤ)
    ∧ ((1/2:ℝ)^2 + (1/2)^2 ≤ (1 - 5/2^53) * 1^2) := by
  refine ⟨⟨1, 0, by norm_num, by norm_num, by norm_num, by norm_num⟩, ?_, ?_, by norm_num⟩
  · simpa using (zpow_le_zpow_right₀ (by norm_num : (1:ℝ) ≤ 2) (by norm_num : (-500:ℤ) ≤ 0))
  · simpa using (zpow_le_zpow_right₀ (by norm_num : (1:ℝ) ≤ 2) (by norm_num : (0:ℤ) ≤ 511))

end Magpie.Props
