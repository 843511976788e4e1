import Verif.Proof.Randoms64
import Verif.Spec.Conversions64
import Mathlib.Analysis.Complex.ExponentialBounds

/-!
# Property C114: ranges of random positions in double precision

`Variate`, `ModRadius` and `PowClose` are in `Verif/Spec/Randoms64.lean`.
-/

set_option linter.unusedSimpArgs false
set_option linter.unusedVariables false

namespace Magpie.Props
open Magpie.F64 Magpie.Coords64 Magpie.Spec Magpie.Randoms64

/-! ## C114 -/

theorem forall₂_map_self {α β : Type} {R : α → β → Prop} (f : α → β) (l : List α) (h : ∀ a ∈ l, R a (f a)) :
    List.Forall₂ R l (l.map f) := by
  induction l with
  | nil => exact .nil
  | cons a l ih =>
    exact .cons (h a (by simp)) (ih fun b hb => h b (by simp [hb]))

theorem spread_ok {lo hi u : ℝ} (hl : IsDouble lo) (hh : IsDouble hi) (hu : Variate u) (h : lo ≤ hi) :
    lo ≤ spread lo hi u ∧ spread lo hi u ≤ hi ∧
      |spread lo hi u - ((hi - lo)*u + lo)| ≤ max |lo| |hi|/2^50 + (2:ℝ)^(-1073 : ℤ) := by
  have hl' := Remap64.isDouble_fl hl
  have hh' := Remap64.isDouble_fl hh
  have hu' := Remap64.isDouble_fl hu.1
  have r := spread_range hl' hh' hu' hu.2.1 hu.2.2
  rw [min_eq_left h, max_eq_right h] at r
  refine ⟨r.1, r.2, (spread_err hl' hh' hu' hu.2.1 hu.2.2 (le_max_left _ _) (le_max_right _ _)).trans ?_⟩
  have e : (2:ℝ)^(-1073 : ℤ) = 4*(2:ℝ)^(-1075 : ℤ) := by
    rw [show (-1073 : ℤ) = 2 + (-1075) by norm_num, zpow_add₀ (by norm_num)]
    norm_num
  rw [e]
  have : 0 ≤ max |lo| |hi| := (abs_nonneg _).trans (le_max_left _ _)
  have : 6*(max |lo| |hi|/2^53) ≤ max |lo| |hi|/2^50 := by
    rw [← mul_div_assoc, div_le_div_iff₀ (by positivity) (by positivity)]
    nlinarith
  linarith

theorem sqr_root {r : ℝ} (h0 : 0 ≤ r) (h : ModRadius r) : fl (Real.sqrt (sqr r)) = r := by
  rcases h.2 with rfl | h'
  · simp [sqr, F64.mul, fl_zero]
  · refine sqrt_sq_eq (Remap64.isDouble_fl h.1) (le_trans ?_ h'.1)
    exact zpow_le_zpow_right₀ (by norm_num) (by norm_num)

/-- C114 for `randoms_polar`: every operation rounded to double precision, no radius is NaN, all radii and angles lie
between the two ends asked for (which may be reached), the angles are those of exact arithmetic to within `2^-50` of the
larger end, and the squares of the radii to within `2^-49` of the square of the outer radius. -/
theorem C114_polar (uR uPhi : List ℝ) (rMin rMax phiMin phiMax : ℝ) (hR : ∀ u ∈ uR, Variate u)
    (hP : ∀ u ∈ uPhi, Variate u) (h0 : 0 ≤ rMin) (hr : rMin ≤ rMax) (h1 : ModRadius rMin) (h2 : ModRadius rMax)
    (hp1 : IsDouble phiMin) (hp2 : IsDouble phiMax) (hp : phiMin ≤ phiMax) :
    List.Forall₂ (fun u r => ∃ x, r = some x ∧ rMin ≤ x ∧ x ≤ rMax ∧
        |x^2 - ((rMax^2 - rMin^2)*u + rMin^2)| ≤ rMax^2/2^49)
      uR (randomsPolar uR uPhi rMin rMax phiMin phiMax).1 ∧
    List.Forall₂ (fun u p => phiMin ≤ p ∧ p ≤ phiMax ∧
        |p - ((phiMax - phiMin)*u + phiMin)| ≤ max |phiMin| |phiMax|/2^50 + (2:ℝ)^(-1073 : ℤ))
      uPhi (randomsPolar uR uPhi rMin rMax phiMin phiMax).2 := by
  constructor
  · refine forall₂_map_self _ _ fun u hu => ?_
    have hu := hR u hu
    have hu' := Remap64.isDouble_fl hu.1
    have hm : sqr rMin ≤ sqr rMax := fl_mono (mul_self_le_mul_self h0 hr)
    have hr1 : fl (sqr rMin) = sqr rMin := fl_fl _
    have hr2 : fl (sqr rMax) = sqr rMax := fl_fl _
    have r := spread_range hr1 hr2 hu' hu.2.1 hu.2.2
    rw [min_eq_left hm, max_eq_right hm] at r
    have hs0 : 0 ≤ spread (sqr rMin) (sqr rMax) u := (sqr_nonneg _).trans r.1
    set S := spread (sqr rMin) (sqr rMax) u with hS
    refine ⟨fl (Real.sqrt S), ?_, ?_, ?_, ?_⟩
    · unfold F64.sqrt
      rw [if_pos hs0]
    · have := fl_mono (Real.sqrt_le_sqrt r.1)
      rwa [sqr_root h0 h1] at this
    · have := fl_mono (Real.sqrt_le_sqrt r.2)
      rwa [sqr_root (h0.trans hr) h2] at this
    · -- the error
      rcases h2.2 with rfl | ⟨hb, hb'⟩
      · have e : rMin = 0 := le_antisymm hr h0
        subst e
        have hs : S = 0 := by
          have : sqr 0 = 0 := by simp [sqr, F64.mul, fl_zero]
          rw [this] at r
          linarith [r.1, r.2]
        rw [hs]
        simp [fl_zero]
      set Q := rMax^2 with hQ
      have hη0 := two_zpow_pos (-1075)
      have hQη : (2:ℝ)^(-1075 : ℤ) ≤ Q/2^75 := by
        have : (2:ℝ)^(-1000 : ℤ) ≤ Q := by
          have h := pow_le_pow_left₀ (two_zpow_pos (-500)).le hb 2
          rw [← zpow_natCast, ← zpow_mul] at h
          exact h
        have e : (2:ℝ)^(-1075 : ℤ) = (2:ℝ)^(-1000 : ℤ)/2^75 := by
          rw [show (-1075 : ℤ) = -1000 - 75 by norm_num, zpow_sub₀ (by norm_num)]
          norm_cast
        rw [e]
        gcongr
      have hQ0 : 0 < Q := by
        have := two_zpow_pos (-500)
        rw [hQ]
        have : 0 < rMax := by linarith
        positivity
      set η := (2:ℝ)^(-1075 : ℤ) with hη
      have qmin : rMin^2 ≤ Q := by rw [hQ]; exact pow_le_pow_left₀ h0 hr 2
      have e1 : |sqr rMin - rMin^2| ≤ Q/2^53 + η := by
        have := fl_err_abs (rMin*rMin)
        rw [abs_sub_comm] at this
        unfold sqr F64.mul
        rw [sq]
        refine this.trans ?_
        rw [abs_of_nonneg (mul_self_nonneg _), ← sq]
        gcongr
      have e2 : |sqr rMax - Q| ≤ Q/2^53 + η := by
        have := fl_err_abs (rMax*rMax)
        rw [abs_sub_comm] at this
        unfold sqr F64.mul
        rw [hQ, sq]
        refine this.trans ?_
        rw [abs_of_nonneg (mul_self_nonneg _), ← sq]
      have hM : sqr rMax ≤ Q + (Q/2^53 + η) := by linarith [(abs_le.mp e2).2]
      have e3 := spread_err hr1 hr2 hu' hu.2.1 hu.2.2 (M := sqr rMax)
        (by rw [abs_of_nonneg (sqr_nonneg _)]; exact hm) (by rw [abs_of_nonneg (sqr_nonneg _)])
      rw [← hS] at e3
      -- exact value of the radicand
      have e4 : |((sqr rMax - sqr rMin)*u + sqr rMin) - ((Q - rMin^2)*u + rMin^2)| ≤ 2*(Q/2^53 + η) := by
        have : ((sqr rMax - sqr rMin)*u + sqr rMin) - ((Q - rMin^2)*u + rMin^2)
            = (sqr rMax - Q)*u + (sqr rMin - rMin^2)*(1 - u) := by ring
        rw [this]
        refine (abs_add_le _ _).trans ?_
        rw [abs_mul, abs_mul, abs_of_nonneg hu.2.1, abs_of_nonneg (show 0 ≤ 1 - u by linarith [hu.2.2])]
        have a := mul_le_of_le_one_right (abs_nonneg (sqr rMax - Q)) hu.2.2.le
        have b := mul_le_of_le_one_right (abs_nonneg (sqr rMin - rMin^2)) (show 1 - u ≤ 1 by linarith [hu.2.1])
        linarith
      -- the square root
      have hsq := fl_err_abs (Real.sqrt S)
      rw [abs_of_nonneg (Real.sqrt_nonneg _)] at hsq
      set x := fl (Real.sqrt S) with hx
      set y := Real.sqrt S with hy
      have hy2 : y^2 = S := Real.sq_sqrt hs0
      have hy0 : 0 ≤ y := Real.sqrt_nonneg _
      have hx0 : 0 ≤ x := fl_nonneg hy0
      have hq1 : Q/2^53 ≤ Q/10000 := by gcongr; norm_num
      have hq2 : Q/2^75 ≤ Q/2^53/10000 := by
        rw [div_div]
        gcongr
        norm_num
      have hSQ : S ≤ 1.002*Q := by linarith [r.2]
      have hR2 : 0 < rMax := (two_zpow_pos _).trans_le hb
      have hyR : y ≤ 1.001*rMax := by
        rw [hy, Real.sqrt_le_left (by linarith)]
        rw [mul_pow, ← hQ]
        nlinarith
      have hηR : η ≤ rMax/2^75 := by
        have e : (2:ℝ)^(-1075 : ℤ) ≤ (2:ℝ)^(-575 : ℤ) := zpow_le_zpow_right₀ (by norm_num) (by norm_num)
        have e' : (2:ℝ)^(-575 : ℤ) = (2:ℝ)^(-500 : ℤ)/2^75 := by
          rw [show (-575 : ℤ) = -500 - 75 by norm_num, zpow_sub₀ (by norm_num)]
          norm_cast
        rw [hη]
        refine e.trans ?_
        rw [e']
        gcongr
      have e5 : |x^2 - S| ≤ 3*(Q/2^53) := by
        have d1 : |y - x| ≤ 1.002*(rMax/2^53) := by
          refine hsq.trans ?_
          have : rMax/2^75 ≤ rMax/2^53/10000 := by
            rw [div_div]
            gcongr
            norm_num
          have : y/2^53 ≤ 1.001*(rMax/2^53) := by
            rw [← mul_div_assoc]
            gcongr
          linarith
        have d2 : x + y ≤ 2.01*rMax := by
          have : rMax/2^53 ≤ rMax/10000 := by gcongr; norm_num
          linarith [(abs_le.mp d1).1]
        have : x^2 - S = -((y - x)*(x + y)) := by rw [← hy2]; ring
        rw [this, abs_neg, abs_mul, abs_of_nonneg (show 0 ≤ x + y by linarith)]
        refine (mul_le_mul d1 d2 (by linarith) (by positivity)).trans ?_
        rw [hQ]
        have : 0 < rMax^2/2^53 := by positivity
        have e : 1.002*(rMax/2^53)*(2.01*rMax) = (1.002*2.01)*(rMax^2/2^53) := by ring
        rw [e]
        gcongr
        norm_num
      have : x^2 - ((Q - rMin^2)*u + rMin^2) = (x^2 - S) + (S - ((sqr rMax - sqr rMin)*u + sqr rMin))
          + (((sqr rMax - sqr rMin)*u + sqr rMin) - ((Q - rMin^2)*u + rMin^2)) := by ring
      rw [this]
      refine (abs_add_le _ _).trans ?_
      refine (add_le_add ((abs_add_le _ _).trans (add_le_add e5 e3)) e4).trans ?_
      have e6 : sqr rMax/2^53 ≤ 1.01*(Q/2^53) := by
        rw [← mul_div_assoc]
        gcongr
        linarith
      have e7 : Q/2^49 = 16*(Q/2^53) := by ring
      rw [e7]
      have : 0 < Q/2^53 := by positivity
      linarith
  · exact forall₂_map_self _ _ fun u hu => spread_ok hp1 hp2 (hP u hu) hp

/-- C114 for `randoms_usphere`: the longitudes as in `C114_polar`; the argument of the arccosine lies between the two
cosines computed, so that no colatitude is NaN, and all are in `[0, π]` and, if the library's arccosine is decreasing,
between the arccosines of those cosines. -/
theorem C114_usphere (M : Libm) (hM : AnglesInRange pi M.atan2 M.acos) (cos : ℝ → ℝ)
    (hc : ∀ t, IsDouble (cos t) ∧ -1 ≤ cos t ∧ cos t ≤ 1) (uPhi uTheta : List ℝ)
    (phiMin phiMax thetaMin thetaMax : ℝ) (hP : ∀ u ∈ uPhi, Variate u) (hT : ∀ u ∈ uTheta, Variate u)
    (hp1 : IsDouble phiMin) (hp2 : IsDouble phiMax) (hp : phiMin ≤ phiMax)
    (ht : cos thetaMax ≤ cos thetaMin) :
    List.Forall₂ (fun u p => phiMin ≤ p ∧ p ≤ phiMax ∧
        |p - ((phiMax - phiMin)*u + phiMin)| ≤ max |phiMin| |phiMax|/2^50 + (2:ℝ)^(-1073 : ℤ))
      uPhi (randomsUsphere M cos uPhi uTheta phiMin phiMax thetaMin thetaMax).1 ∧
    List.Forall₂ (fun _ t => ∃ x, t = some x ∧ 0 ≤ x ∧ x ≤ pi ∧
        ((∀ p q, -1 ≤ p → p ≤ q → q ≤ 1 → M.acos q ≤ M.acos p) →
          M.acos (cos thetaMin) ≤ x ∧ x ≤ M.acos (cos thetaMax)))
      uTheta (randomsUsphere M cos uPhi uTheta phiMin phiMax thetaMin thetaMax).2 := by
  constructor
  · exact forall₂_map_self _ _ fun u hu => spread_ok hp1 hp2 (hP u hu) hp
  · refine forall₂_map_self _ _ fun u hu => ?_
    have hu := hT u hu
    have r := cos_range (Remap64.isDouble_fl (hc thetaMin).1) (Remap64.isDouble_fl (hc thetaMax).1)
      (Remap64.isDouble_fl hu.1) hu.2.1 hu.2.2
    rw [min_eq_right ht, max_eq_left ht] at r
    have a := (hc thetaMax).2.1.trans r.1
    have b := r.2.trans (hc thetaMin).2.2
    refine ⟨_, if_pos ⟨a, b⟩, hM.acos_ge _ a b, hM.acos_le _ a b, fun hmono => ⟨?_, ?_⟩⟩
    · exact hmono _ _ a r.2 (hc thetaMin).2.2
    · exact hmono _ _ (hc thetaMax).2.1 r.1 b

/-- `1./3.` -/
theorem third_eq : F64.div 1 3 = 6004799503160661/2^54 := by
  unfold F64.div
  have h := fl_of_ulp (x := (1:ℝ)/3) (u := -54) (n := 6004799503160661)
    (ulpExp_eq (by norm_num) (by norm_num) (by norm_num)) (rne_near (by
      rw [zpow_neg, div_inv_eq_mul, abs_lt]
      norm_num))
  rw [h, zpow_neg]
  norm_num

/-- The power `1./3.` of about a cube. -/
theorem rpow_third {r : ℝ} (hr : 0 < r) : (r^(3:ℝ))^(F64.div 1 3) = r*r^(-(1/2^54) : ℝ) := by
  rw [third_eq, ← Real.rpow_mul hr.le, ← Real.rpow_one_add' hr.le (by norm_num)]
  congr 1
  norm_num

/-- A small power is near 1. -/
theorem rpow_small {r : ℝ} (h1 : (2:ℝ)^(-300 : ℤ) ≤ r) (h2 : r ≤ (2:ℝ)^(300 : ℤ)) :
    1 - 1/2^46 ≤ r^(-(1/2^54) : ℝ) ∧ r^(-(1/2^54) : ℝ) ≤ 1 + 1/2^45 := by
  have hr : 0 < r := (two_zpow_pos _).trans_le h1
  have l2 := Real.log_two_lt_d9
  have l1 := Real.log_two_gt_d9
  have hlog : |Real.log r| ≤ 2^8 := by
    rw [abs_le]
    constructor
    · have := Real.log_le_log (two_zpow_pos _) h1
      rw [Real.log_zpow] at this
      norm_num at this ⊢
      linarith
    · have := Real.log_le_log hr h2
      rw [Real.log_zpow] at this
      norm_num at this ⊢
      linarith
  rw [Real.rpow_def_of_pos hr]
  set t := Real.log r*(-(1/2^54)) with ht
  have htb : |t| ≤ 1/2^46 := by
    rw [ht, abs_mul, abs_neg, abs_of_pos (by positivity : (0:ℝ) < 1/2^54)]
    calc |Real.log r| * (1/2^54) ≤ 2^8*(1/2^54) := by gcongr
      _ = 1/2^46 := by norm_num
  constructor
  · have := Real.add_one_le_exp t
    linarith [(abs_le.mp htb).1]
  · have := Real.abs_exp_sub_one_sub_id_le (x := t) (htb.trans (by norm_num))
    have h3 : t^2 ≤ (1/2^46)^2 := by
      rw [← sq_abs]
      exact pow_le_pow_left₀ (abs_nonneg _) htb 2
    have := (abs_le.mp this).2
    have h4 := (abs_le.mp htb).2
    norm_num at h3 h4 ⊢
    linarith

theorem third_pos : 0 < F64.div 1 3 ∧ F64.div 1 3 ≤ 1 := by
  rw [third_eq]; norm_num

/-- The cube computed by the library. -/
theorem cube_close {pow : ℝ → ℝ → ℝ} (hp : PowClose pow) {r : ℝ} (h1 : (2:ℝ)^(-300 : ℤ) ≤ r)
    (h2 : r ≤ (2:ℝ)^(300 : ℤ)) :
    r^(3:ℝ)*(1 - 1/2^51) ≤ pow r 3 ∧ pow r 3 ≤ r^(3:ℝ)*(1 + 1/2^51) ∧ fl (pow r 3) = pow r 3 := by
  have hr : 0 < r := (two_zpow_pos _).trans_le h1
  have hc := abs_le.mp (hp.close r 3 hr.le (by norm_num))
  have e3 : r^(3:ℝ) = r^3 := by exact_mod_cast Real.rpow_natCast r 3
  have hlow : (2:ℝ)^(-900 : ℤ) ≤ r^(3:ℝ) := by
    rw [e3]
    have h := pow_le_pow_left₀ (two_zpow_pos (-300)).le h1 3
    rw [← zpow_natCast, ← zpow_mul] at h
    exact h
  have hhigh : r^(3:ℝ) ≤ (2:ℝ)^(900 : ℤ) := by
    rw [e3]
    have h := pow_le_pow_left₀ hr.le h2 3
    rw [← zpow_natCast ((2:ℝ)^(300:ℤ)), ← zpow_mul] at h
    exact h
  have hη : (2:ℝ)^(-1074 : ℤ) ≤ r^(3:ℝ)/2^52 := by
    have e : (2:ℝ)^(-1074 : ℤ) ≤ (2:ℝ)^(-952 : ℤ) := zpow_le_zpow_right₀ (by norm_num) (by norm_num)
    have e' : (2:ℝ)^(-952 : ℤ) = (2:ℝ)^(-900 : ℤ)/2^52 := by
      rw [show (-952 : ℤ) = -900 - 52 by norm_num, zpow_sub₀ (by norm_num)]
      norm_cast
    refine e.trans ?_
    rw [e']
    gcongr
  have e51 : r^(3:ℝ)*(1/2^51) = 2*(r^(3:ℝ)/2^52) := by ring
  refine ⟨by rw [mul_sub, e51]; linarith [hc.1], by rw [mul_add, e51]; linarith [hc.2], ?_⟩
  exact Remap64.isDouble_fl (hp.double r 3 hr.le (hhigh.trans (zpow_le_zpow_right₀ (by norm_num) (by norm_num))))

/-- C114 for `randoms_sphere_r` (and the radii of `randoms_sphere`), with any power function of the C library
that is exact to one unit in the last place: no radius is NaN and all lie between the two ends to within a relative error
of `2^-44`. Missing: that they lie between the ends themselves, which is false, see `C114_sphere_r_violated`. -/
theorem C114_sphere_r_partial (pow : ℝ → ℝ → ℝ) (hp : PowClose pow) (uR : List ℝ) (hR : ∀ u ∈ uR, Variate u)
    (rMin rMax : ℝ) (h0 : rMin = 0 ∨ (2:ℝ)^(-300 : ℤ) ≤ rMin) (hr : rMin ≤ rMax)
    (h1 : (2:ℝ)^(-300 : ℤ) ≤ rMax) (h2 : rMax ≤ (2:ℝ)^(300 : ℤ)) :
    List.Forall₂ (fun _ r => ∃ x, r = some x ∧ rMin*(1 - 1/2^44) ≤ x ∧ x ≤ rMax*(1 + 1/2^44))
      uR (randomsSphereR pow uR rMin rMax) := by
  refine forall₂_map_self _ _ fun u hu => ?_
  have hu := hR u hu
  have hmax : 0 < rMax := (two_zpow_pos _).trans_le h1
  have hmin : 0 ≤ rMin := by
    rcases h0 with h | h
    · exact h.ge
    · exact (two_zpow_pos _).le.trans h
  obtain ⟨a1, a2, a3⟩ := cube_close hp h1 h2
  have hz3 : (0:ℝ)^(3:ℝ) = 0 := Real.zero_rpow (by norm_num)
  have b3 : fl (pow rMin 3) = pow rMin 3 := by
    rcases h0 with rfl | h
    · exact Remap64.isDouble_fl (hp.double 0 3 le_rfl (by rw [hz3]; positivity))
    · exact (cube_close hp h (hr.trans h2)).2.2
  have hcub : rMin^(3:ℝ) ≤ rMax^(3:ℝ) := Real.rpow_le_rpow hmin hr (by norm_num)
  have hη1074 : (2:ℝ)^(-1074 : ℤ) ≤ rMax/2^60 := by
    have e : (2:ℝ)^(-1074 : ℤ) ≤ (2:ℝ)^(-360 : ℤ) := zpow_le_zpow_right₀ (by norm_num) (by norm_num)
    have e' : (2:ℝ)^(-360 : ℤ) = (2:ℝ)^(-300 : ℤ)/2^60 := by
      rw [show (-360 : ℤ) = -300 - 60 by norm_num, zpow_sub₀ (by norm_num)]
      norm_cast
    refine e.trans ?_
    rw [e']
    gcongr
  have e3 : rMax^(3:ℝ) = rMax^3 := by exact_mod_cast Real.rpow_natCast rMax 3
  have hcpos : 0 < rMax^(3:ℝ) := Real.rpow_pos_of_pos hmax _
  have b2 : pow rMin 3 ≤ rMax^(3:ℝ)*(1 + 1/2^51) := by
    rcases h0 with h | h
    · have hc := (abs_le.mp (hp.close rMin 3 hmin (by norm_num))).2
      rw [h, hz3] at hc
      rw [h]
      have hlow : (2:ℝ)^(-900 : ℤ) ≤ rMax^(3:ℝ) := by
        rw [e3]
        have h := pow_le_pow_left₀ (two_zpow_pos (-300)).le h1 3
        rw [← zpow_natCast, ← zpow_mul] at h
        exact h
      have : (2:ℝ)^(-1074 : ℤ) ≤ (2:ℝ)^(-900 : ℤ) := zpow_le_zpow_right₀ (by norm_num) (by norm_num)
      have : rMax^(3:ℝ) ≤ rMax^(3:ℝ)*(1 + 1/2^51) := le_mul_of_one_le_right hcpos.le (by norm_num)
      linarith
    · refine (cube_close hp h (hr.trans h2)).2.1.trans ?_
      gcongr
  have r := spread_range b3 a3 (Remap64.isDouble_fl hu.1) hu.2.1 hu.2.2
  set S := spread (pow rMin 3) (pow rMax 3) u with hS
  have hS0 : 0 ≤ S := (le_min (hp.nonneg _ _ hmin) (hp.nonneg _ _ hmax.le)).trans r.1
  have hS1 : S ≤ rMax^(3:ℝ)*(1 + 1/2^51) := r.2.trans (max_le b2 a2)
  obtain ⟨q0, q1⟩ := third_pos
  have hc := abs_le.mp (hp.close S (F64.div 1 3) hS0 q0)
  refine ⟨pow S (F64.div 1 3), if_pos hS0, ?_, ?_⟩
  · rcases h0 with h | h
    · rw [h, zero_mul]
      exact hp.nonneg _ _ hS0
    · have hpos : 0 < rMin := (two_zpow_pos _).trans_le h
      have hmp : 0 < rMin^(3:ℝ) := Real.rpow_pos_of_pos hpos _
      have s1 : rMin^(3:ℝ)*(1 - 1/2^51) ≤ S := by
        refine le_trans (le_min (cube_close hp h (hr.trans h2)).1 ?_) r.1
        refine le_trans ?_ a1
        gcongr
      have s2 : rMin*(1 - 1/2^46)*(1 - 1/2^51) ≤ S^(F64.div 1 3) := by
        have m := Real.rpow_le_rpow (by apply mul_nonneg hmp.le; norm_num) s1 q0.le
        rw [Real.mul_rpow hmp.le (by norm_num), rpow_third hpos] at m
        refine le_trans ?_ m
        have k1 := (rpow_small h (hr.trans h2)).1
        have k2 : (1 - 1/2^51 : ℝ) ≤ (1 - 1/2^51 : ℝ)^(F64.div 1 3) := by
          have := Real.rpow_le_rpow_of_exponent_ge (x := (1 - 1/2^51 : ℝ)) (by norm_num) (by norm_num) q1
          rwa [Real.rpow_one] at this
        refine mul_le_mul (mul_le_mul_of_nonneg_left k1 hpos.le) k2 (by norm_num) ?_
        exact mul_nonneg hpos.le (Real.rpow_nonneg hpos.le _)
      have hη' : (2:ℝ)^(-1074 : ℤ) ≤ rMin/2^60 := by
        have e : (2:ℝ)^(-1074 : ℤ) ≤ (2:ℝ)^(-360 : ℤ) := zpow_le_zpow_right₀ (by norm_num) (by norm_num)
        have e' : (2:ℝ)^(-360 : ℤ) = (2:ℝ)^(-300 : ℤ)/2^60 := by
          rw [show (-360 : ℤ) = -300 - 60 by norm_num, zpow_sub₀ (by norm_num)]
          norm_cast
        refine e.trans ?_
        rw [e']
        gcongr
      have : S^(F64.div 1 3)*(1 - 1/2^52) - (2:ℝ)^(-1074 : ℤ) ≤ pow S (F64.div 1 3) := by
        have := hc.1
        have e : S^(F64.div 1 3)*(1 - 1/2^52) = S^(F64.div 1 3) - S^(F64.div 1 3)/2^52 := by ring
        rw [e]
        linarith
      have s3 : rMin*(1 - 1/2^46)*(1 - 1/2^51)*(1 - 1/2^52) ≤ S^(F64.div 1 3)*(1 - 1/2^52) :=
        mul_le_mul_of_nonneg_right s2 (by norm_num)
      generalize (2:ℝ)^(-1074 : ℤ) = η at *
      norm_num at s3 this hη' ⊢
      linarith
  · have s2 : S^(F64.div 1 3) ≤ rMax*(1 + 1/2^45)*(1 + 1/2^51) := by
      have m := Real.rpow_le_rpow hS0 hS1 q0.le
      rw [Real.mul_rpow hcpos.le (by norm_num), rpow_third hmax] at m
      refine m.trans ?_
      have k1 := (rpow_small h1 h2).2
      have k2 : (1 + 1/2^51 : ℝ)^(F64.div 1 3) ≤ (1 + 1/2^51 : ℝ) := by
        have := Real.rpow_le_rpow_of_exponent_le (x := (1 + 1/2^51 : ℝ)) (by norm_num) q1
        rwa [Real.rpow_one] at this
      exact mul_le_mul (mul_le_mul_of_nonneg_left k1 hmax.le) k2 (by positivity) (by positivity)
    have : pow S (F64.div 1 3) ≤ S^(F64.div 1 3)*(1 + 1/2^52) + (2:ℝ)^(-1074 : ℤ) := by
      have e : S^(F64.div 1 3)*(1 + 1/2^52) = S^(F64.div 1 3) + S^(F64.div 1 3)/2^52 := by ring
      rw [e]
      linarith [hc.2]
    have s3 : S^(F64.div 1 3)*(1 + 1/2^52) ≤ rMax*(1 + 1/2^45)*(1 + 1/2^51)*(1 + 1/2^52) :=
      mul_le_mul_of_nonneg_right s2 (by norm_num)
    generalize (2:ℝ)^(-1074 : ℤ) = η at *
    norm_num at s3 this hη1074 ⊢
    linarith

/-- C114 is violated by `randoms_sphere_r`, whatever power function the C library has (exact to one unit in the last
place): with radii from 1024 the variate 0 gives a radius below 1024, because `1./3.` is less than a third. -/
theorem C114_sphere_r_violated (pow : ℝ → ℝ → ℝ) (hp : PowClose pow) (rMax : ℝ) :
    ∃ x, randomsSphereR pow [0] 1024 rMax = [some x] ∧ x < 1024 := by
  have hl := cube_close hp (r := 1024) (le_trans (zpow_le_one_of_nonpos₀ (by norm_num) (by norm_num)) (by norm_num))
    (by
      have : (2:ℝ)^(10 : ℤ) ≤ (2:ℝ)^(300 : ℤ) := zpow_le_zpow_right₀ (by norm_num) (by norm_num)
      rwa [show (2:ℝ)^(10 : ℤ) = 1024 by norm_num] at this)
  have hs : spread (pow 1024 3) (pow rMax 3) 0 = pow 1024 3 := by
    unfold spread F64.add F64.mul
    rw [mul_zero, fl_zero, zero_add, hl.2.2]
  have h0 := hp.nonneg 1024 3 (by norm_num)
  refine ⟨pow (pow 1024 3) (F64.div 1 3), ?_, ?_⟩
  · simp only [randomsSphereR, List.map_cons, List.map_nil, hs, if_pos h0]
  · have hη : (2:ℝ)^(-1074 : ℤ) ≤ 1/2^100 := by
      have e : (2:ℝ)^(-1074 : ℤ) ≤ (2:ℝ)^(-100 : ℤ) := zpow_le_zpow_right₀ (by norm_num) (by norm_num)
      rw [zpow_neg] at e
      norm_num at e ⊢
      exact e
    have c1 := (abs_le.mp (hp.close 1024 3 (by norm_num) (by norm_num))).2
    obtain ⟨q0, q1⟩ := third_pos
    have c2 := (abs_le.mp (hp.close (pow 1024 3) (F64.div 1 3) h0 q0)).2
    have e3 : (1024:ℝ)^(3:ℝ) = 2^30 := by
      have : (1024:ℝ)^(3:ℝ) = 1024^3 := by exact_mod_cast Real.rpow_natCast 1024 3
      rw [this]; norm_num
    rw [e3] at c1
    set S := pow 1024 3 with hS
    have hS1 : S ≤ 2^30*(1 + 1.001/2^52) := by
      generalize (2:ℝ)^(-1074 : ℤ) = η at *
      norm_num at c1 hη ⊢
      linarith
    have hSpos : 0 < S := by
      refine lt_of_lt_of_le ?_ hl.1
      rw [e3]; norm_num
    have hlog : Real.log S ≤ 30*Real.log 2 + 1.001/2^52 := by
      refine (Real.log_le_log hSpos hS1).trans ?_
      rw [Real.log_mul (by norm_num) (by norm_num), Real.log_pow]
      have := Real.log_le_sub_one_of_pos (x := (1 + 1.001/2^52 : ℝ)) (by norm_num)
      push_cast
      linarith
    have l1 := Real.log_two_gt_d9
    have hpw : S^(F64.div 1 3) ≤ 1024*(1 - 1.3/2^52) := by
      rw [Real.rpow_def_of_pos hSpos]
      have t : Real.log S*F64.div 1 3 ≤ 10*Real.log 2 + (-(1.31/2^52)) := by
        rw [third_eq]
        norm_num at hlog l1 ⊢
        linarith
      refine (Real.exp_le_exp.mpr t).trans ?_
      have e10 : Real.exp (10*Real.log 2) = 1024 := by
        rw [mul_comm, ← Real.rpow_def_of_pos (by norm_num)]
        have : (2:ℝ)^(10:ℝ) = 2^10 := by exact_mod_cast Real.rpow_natCast 2 10
        rw [this]; norm_num
      rw [Real.exp_add, e10]
      refine mul_le_mul_of_nonneg_left ?_ (by norm_num)
      have := Real.abs_exp_sub_one_sub_id_le (x := (-(1.31/2^52) : ℝ)) (by rw [abs_le]; norm_num)
      have := (abs_le.mp this).2
      norm_num at this ⊢
      linarith
    generalize (2:ℝ)^(-1074 : ℤ) = η at *
    norm_num at c2 hpw hη ⊢
    linarith

/-- C114 is violated by `randoms_polar` for radii whose squares are below the smallest double: all radii are 0. -/
theorem C114_tiny_violated (uR uPhi : List ℝ) (phiMin phiMax : ℝ) (hR : ∀ u ∈ uR, Variate u) :
    (randomsPolar uR uPhi ((2:ℝ)^(-540 : ℤ)) ((2:ℝ)^(-539 : ℤ)) phiMin phiMax).1 = uR.map fun _ => some 0 := by
  have z : ∀ k : ℤ, k ≤ -539 → sqr ((2:ℝ)^k) = 0 := by
    intro k hk
    have e : (2:ℝ)^k*(2:ℝ)^k = (2:ℝ)^(k + k) := (zpow_add₀ (by norm_num) k k).symm
    unfold sqr F64.mul
    rw [e]
    have hle : (2:ℝ)^(k + k) ≤ (2:ℝ)^(-1078 : ℤ) := zpow_le_zpow_right₀ (by norm_num) (by omega)
    have hpos := two_zpow_pos (k + k)
    have hu : ulpExp ((2:ℝ)^(k + k)) = -1074 := by
      unfold ulpExp
      rw [abs_of_pos hpos]
      have : Int.log 2 ((2:ℝ)^(k + k)) = k + k := by
        have := Int.log_zpow (R := ℝ) (b := 2) (by norm_num) (k + k)
        exact_mod_cast this
      rw [this]
      omega
    have := fl_of_ulp (n := 0) hu (rne_near (by
      rw [Int.cast_zero, sub_zero, abs_of_pos (by positivity), ← zpow_sub₀ (by norm_num)]
      refine lt_of_le_of_lt (zpow_le_zpow_right₀ (by norm_num) (show k + k - -1074 ≤ -4 by omega)) ?_
      norm_num))
    rw [this]
    simp
  unfold randomsPolar
  simp only [z (-540) (by norm_num), z (-539) (by norm_num)]
  refine List.map_congr_left fun u hu => ?_
  simp [spread, F64.add, F64.mul, F64.sub, F64.sqrt, fl_zero]

/-! ## Cases that meet the hypotheses -/

theorem variate_dyadic {k : ℤ} (h0 : 0 ≤ k) (h1 : k < 2^53) : Variate ((k:ℝ)/2^53) := by
  refine ⟨⟨k, -53, by rw [abs_of_nonneg h0]; exact h1, by norm_num, by norm_num, ?_⟩, ?_, ?_⟩
  · rw [zpow_neg, div_eq_mul_inv]; congr 2
  · have : (0:ℝ) ≤ k := by exact_mod_cast h0
    positivity
  · rw [div_lt_one (by positivity)]
    exact_mod_cast h1

/-- All multiples of `2^-53` below 1, which is what `random_sample` returns, and radii 1 and 2. -/
example (k : ℤ) (h0 : 0 ≤ k) (h1 : k < 2^53) : Variate ((k:ℝ)/2^53) ∧ ModRadius 1 ∧ ModRadius 2 := by
  have a : (2:ℝ)^(-500 : ℤ) ≤ 1 := zpow_le_one_of_nonpos₀ (by norm_num) (by norm_num)
  have b : (2:ℝ) ≤ (2:ℝ)^(510 : ℤ) := by
    have : (2:ℝ)^(1 : ℤ) ≤ (2:ℝ)^(510 : ℤ) := zpow_le_zpow_right₀ (by norm_num) (by norm_num)
    simpa using this
  refine ⟨variate_dyadic h0 h1, ⟨⟨1, 0, by norm_num, by norm_num, by norm_num, by norm_num⟩, .inr ⟨a, ?_⟩⟩,
    ⟨⟨2, 0, by norm_num, by norm_num, by norm_num, by norm_num⟩, .inr ⟨by linarith, b⟩⟩⟩
  exact le_trans (by norm_num) b

/-- A correctly rounded power function meets `PowClose`. -/
theorem powClose_fl : PowClose fun x y => fl (x^y) := by
  refine ⟨fun x y hx hy => ?_, fun x y hx => fl_nonneg (Real.rpow_nonneg hx y), fun x y hx h => fl_isDouble ?_⟩
  · have := fl_err_abs (x^y)
    rw [abs_of_nonneg (Real.rpow_nonneg hx y), abs_sub_comm] at this
    refine this.trans (add_le_add ?_ (zpow_le_zpow_right₀ (by norm_num) (by norm_num)))
    have := Real.rpow_nonneg hx y
    gcongr <;> norm_num
  · rw [abs_of_nonneg (Real.rpow_nonneg hx y)]
    refine h.trans ?_
    unfold maxDouble
    have : (2:ℝ)^(1000 : ℤ) = 2^29*(2:ℝ)^(971 : ℤ) := by
      rw [show (1000 : ℤ) = 29 + 971 by norm_num, zpow_add₀ (by norm_num)]
      rfl
    rw [this]
    gcongr
    norm_num

/-- A correctly rounded cosine meets the hypothesis of `C114_usphere`. -/
example (t : ℝ) : IsDouble (fl (Real.cos t)) ∧ -1 ≤ fl (Real.cos t) ∧ fl (Real.cos t) ≤ 1 := by
  have h1 : fl (1:ℝ) = 1 := by simpa using fl_int (n := 1) (by norm_num)
  refine ⟨fl_isDouble ?_, ?_, ?_⟩
  · refine (Real.abs_cos_le_one t).trans ?_
    unfold maxDouble
    have : (1:ℝ) ≤ (2:ℝ)^(971 : ℤ) := one_le_zpow₀ (by norm_num) (by norm_num)
    generalize (2:ℝ)^(971 : ℤ) = z at *
    norm_num
    linarith
  · have := fl_mono (Real.neg_one_le_cos t)
    rwa [fl_neg, h1] at this
  · have := fl_mono (Real.cos_le_one t)
    rwa [h1] at this

end Magpie.Props
