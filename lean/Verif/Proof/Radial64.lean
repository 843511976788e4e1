import Verif.Proof.Cumulative64
import Mathlib.Analysis.InnerProductSpace.PiL2
import Mathlib.Analysis.Real.Pi.Bounds

/-!
# Running integrals over rings in binary64
-/

set_option linter.unusedSimpArgs false
set_option linter.unusedVariables false
set_option linter.unusedSectionVars false

namespace Magpie.Cumul64
open Magpie Magpie.F64 Magpie.Spec Magpie.Means64 Magpie.OneD Magpie.Polar Finset

theorem sq_er (r : ℝ) : |F64.mul r r - r^2| ≤ gam 1*r^2 + (2:ℝ)^(-1075 : ℤ) := by
  have h := fl_err_abs (r*r)
  have e : |r*r| = r^2 := by rw [abs_mul_self]; ring
  rw [e, abs_sub_comm] at h
  unfold F64.mul
  rw [gam_one, ← sq] at *
  linarith

theorem fl_er {x y A δ : ℝ} {k : ℕ} (hx : |x| ≤ A) (h : |y - x| ≤ gam k*A + δ) :
    |fl y - x| ≤ gam (k+1)*A + ((1 + 1/2^53)*δ + (2:ℝ)^(-1075 : ℤ)) := by
  have h1 := fl_err_abs y
  have h2 : |y| ≤ A + (gam k*A + δ) := by
    have := abs_sub_abs_le_abs_sub y x
    linarith
  have h3 : |fl y - x| ≤ |y - fl y| + |y - x| := by
    have := abs_sub_le (fl y) y x
    rwa [abs_sub_comm (fl y) y] at this
  rw [gam_add, gam_one]
  nlinarith

theorem mul_er {x y A δ c c' C : ℝ} {k l : ℕ} (hx : |x| ≤ A) (h : |y - x| ≤ gam k*A + δ) (hc : |c| ≤ C)
    (hc' : |c' - c| ≤ gam l*C) : |c*x| ≤ C*A ∧ |c'*y - c*x| ≤ gam (k+l)*(C*A) + (1 + gam l)*C*δ := by
  have hA : 0 ≤ A := (abs_nonneg _).trans hx
  have hC : 0 ≤ C := (abs_nonneg _).trans hc
  refine ⟨by rw [abs_mul]; exact mul_le_mul hc hx (abs_nonneg _) hC, ?_⟩
  have h2 : |c'| ≤ (1 + gam l)*C := by
    have := abs_sub_abs_le_abs_sub c' c
    linarith
  have e : c'*y - c*x = c'*(y - x) + (c' - c)*x := by ring
  have h3 : |c'*(y - x)| ≤ (1 + gam l)*C*(gam k*A + δ) := by
    rw [abs_mul]
    exact mul_le_mul h2 h (abs_nonneg _) (mul_nonneg (by linarith [gam_nonneg l]) hC)
  have h4 : |(c' - c)*x| ≤ gam l*C*A := by
    rw [abs_mul]
    exact mul_le_mul hc' hx (abs_nonneg _) (mul_nonneg (gam_nonneg l) hC)
  have h5 := abs_add_le (c'*(y - x)) ((c' - c)*x)
  rw [e, gam_add]
  nlinarith

/-- The area of one ring. -/
theorem ring_err (a b : ℝ) :
    |F64.mul Coords64.pi (F64.sub (F64.mul b b) (F64.mul a a)) - Real.pi*(b^2 - a^2)|
      ≤ gam 4*(Real.pi*(b^2 + a^2)) + 11*(2:ℝ)^(-1075 : ℤ) := by
  have hη := two_zpow_pos (-1075)
  set η := (2:ℝ)^(-1075 : ℤ) with hηd
  have hx : |b^2 - a^2| ≤ b^2 + a^2 := by
    rw [abs_le]; constructor <;> nlinarith [sq_nonneg a, sq_nonneg b]
  have hd : |F64.mul b b - F64.mul a a - (b^2 - a^2)| ≤ gam 1*(b^2 + a^2) + 2*η := by
    have h1 := sq_er a
    have h2 := sq_er b
    rw [show F64.mul b b - F64.mul a a - (b^2 - a^2) = (F64.mul b b - b^2) - (F64.mul a a - a^2) by ring]
    refine (abs_sub _ _).trans ?_
    linarith
  have h2 := fl_er hx hd
  have hpi : |Coords64.pi - Real.pi| ≤ gam 1*Real.pi := by
    have h := rel_fl (x := Real.pi) (Or.inr (by
      rw [abs_of_pos Real.pi_pos]
      have : (2:ℝ)^(-1022 : ℤ) ≤ 1 := by
        rw [show (1:ℝ) = (2:ℝ)^(0:ℤ) by norm_num]
        exact zpow_le_zpow_right₀ (by norm_num) (by norm_num)
      linarith [Real.pi_gt_three]))
    unfold Means64.Rel at h
    rwa [abs_of_pos Real.pi_pos] at h
  obtain ⟨m1, m2⟩ := mul_er (c := Real.pi) (c' := Coords64.pi) (C := Real.pi) (l := 1) hx h2
    (by rw [abs_of_pos Real.pi_pos]) hpi
  have h3 := fl_er m1 m2
  unfold F64.mul F64.sub at *
  refine h3.trans ?_
  have hp : Real.pi < 3.15 := Real.pi_lt_d2
  rw [gam_one]
  have hk : (1 + 1/2^53 : ℝ)*((1 + 1/2^53)*Real.pi*((1 + 1/2^53)*(2*η) + η)) + η ≤ 11*η := by
    have : (1 + 1/2^53 : ℝ)*((1 + 1/2^53)*((1 + 1/2^53)*2 + 1)) ≤ 3.1 := by norm_num
    have h0 := Real.pi_pos
    have : (1 + 1/2^53 : ℝ)*((1 + 1/2^53)*((1 + 1/2^53)*2 + 1))*(Real.pi*η) ≤ 3.1*(3.15*η) := by
      refine mul_le_mul this (mul_le_mul_of_nonneg_right hp.le hη.le) (by positivity) (by norm_num)
    nlinarith
  linarith

/-- The integral over one ring. -/
theorem ringf_err (a b f : ℝ) :
    |Real.pi*(b^2 - a^2)*f| ≤ Real.pi*(b^2 + a^2)*|f| ∧
    |F64.mul (F64.mul Coords64.pi (F64.sub (F64.mul b b) (F64.mul a a))) f - Real.pi*(b^2 - a^2)*f|
      ≤ gam 5*(Real.pi*(b^2 + a^2)*|f|) + 12*(2:ℝ)^(-1075 : ℤ)*(1 + |f|) := by
  have hη := two_zpow_pos (-1075)
  have hx : |Real.pi*(b^2 - a^2)| ≤ Real.pi*(b^2 + a^2) := by
    rw [abs_mul, abs_of_pos Real.pi_pos]
    refine mul_le_mul_of_nonneg_left ?_ Real.pi_pos.le
    rw [abs_le]; constructor <;> nlinarith [sq_nonneg a, sq_nonneg b]
  obtain ⟨m1, m2⟩ := mul_er (c := f) (c' := f) (C := |f|) (l := 0) hx (ring_err a b) le_rfl (by simp [gam_zero])
  have h3 := fl_er m1 m2
  rw [mul_comm f, mul_comm |f|] at m1
  refine ⟨m1, ?_⟩
  unfold F64.mul at *
  rw [mul_comm f, mul_comm f, mul_comm |f|] at h3
  refine h3.trans ?_
  rw [gam_zero]
  have h0 := abs_nonneg f
  have : (1 + 1/2^53 : ℝ)*((1 + 0)*|f| * (11*(2:ℝ)^(-1075 : ℤ))) + (2:ℝ)^(-1075 : ℤ) ≤ 12*(2:ℝ)^(-1075 : ℤ)*(1 + |f|) := by
    have hm := mul_nonneg h0 hη.le
    have : (1 + 1/2^53 : ℝ)*11 ≤ 12 := by norm_num
    nlinarith
  linarith

/-- A running sum of entries with errors. -/
theorem acc_er {x y A δ : ℕ → ℝ} {a k : ℕ} (hk : k ≤ 2^40) (hg : ∀ i ≤ k, Means64.Grid (y i)) (hx : ∀ i ≤ k, |x i| ≤ A i)
    (hδ : ∀ i ≤ k, 0 ≤ δ i) (h : ∀ i ≤ k, |y i - x i| ≤ gam a*A i + δ i) :
    |acc y k - ∑ i ∈ range (k+1), x i| ≤ gam (a + k)*∑ i ∈ range (k+1), A i + 5/4*∑ i ∈ range (k+1), δ i := by
  have h1 := acc_err (x := y) (y := y) (a := 0) hg (fun i _ => Means64.Rel.refl _)
  rw [zero_add] at h1
  have hgk : gam k ≤ 1/4 := by
    refine (gam_le (by omega)).trans ?_
    have : (k:ℝ) ≤ 2^40 := by exact_mod_cast hk
    rw [div_mul_eq_mul_div, div_le_iff₀ (by norm_num)]
    nlinarith
  have hmem : ∀ i ∈ range (k+1), i ≤ k := fun i hi => by rw [mem_range] at hi; omega
  have h2 : |∑ i ∈ range (k+1), y i - ∑ i ∈ range (k+1), x i| ≤ gam a*∑ i ∈ range (k+1), A i + ∑ i ∈ range (k+1), δ i := by
    rw [← Finset.sum_sub_distrib, Finset.mul_sum, ← Finset.sum_add_distrib]
    exact (Finset.abs_sum_le_sum_abs _ _).trans (Finset.sum_le_sum fun i hi => h i (hmem i hi))
  have h3 : ∑ i ∈ range (k+1), |y i| ≤ (1 + gam a)*∑ i ∈ range (k+1), A i + ∑ i ∈ range (k+1), δ i := by
    rw [Finset.mul_sum, ← Finset.sum_add_distrib]
    refine Finset.sum_le_sum fun i hi => ?_
    have e1 := h i (hmem i hi)
    have e2 := hx i (hmem i hi)
    have := abs_sub_abs_le_abs_sub (y i) (x i)
    linarith
  have h4 := abs_sub_le (acc y k) (∑ i ∈ range (k+1), y i) (∑ i ∈ range (k+1), x i)
  have hD : 0 ≤ ∑ i ∈ range (k+1), δ i := Finset.sum_nonneg fun i hi => hδ i (hmem i hi)
  have h5 := mul_le_mul_of_nonneg_left h3 (gam_nonneg k)
  rw [gam_add]
  nlinarith

/-- Roots of numbers with errors. -/
theorem sqrt_er {a b g d : ℝ} (ha : 0 ≤ a) (hb : 0 ≤ b) (hg : 0 ≤ g) (hd : 0 ≤ d) (h : |a^2 - b^2| ≤ g*b^2 + d^2) :
    |a - b| ≤ g*b + d := by
  obtain ⟨h1, h2⟩ := abs_le.mp h
  have hgb := mul_nonneg hg hb
  rw [abs_le]
  constructor
  · by_contra hc
    push Not at hc
    have h3 : (g*b + d)*b ≤ (b - a)*(b + a) := mul_le_mul (by linarith) (by linarith) hb (by linarith)
    have h4 : d*b ≤ d^2 := by nlinarith
    rcases hd.eq_or_lt with h0 | h0
    · subst h0
      nlinarith [mul_pos (show 0 < b - a - g*b by linarith) (show 0 < b by nlinarith)]
    · have : b ≤ d := by
        by_contra hh
        push Not at hh
        nlinarith
      linarith
  · by_contra hc
    push Not at hc
    nlinarith

theorem minkowski {n : ℕ} (x y : ℕ → ℝ) :
    Real.sqrt (∑ i ∈ range n, (x i + y i)^2) ≤ Real.sqrt (∑ i ∈ range n, x i^2) + Real.sqrt (∑ i ∈ range n, y i^2) := by
  have hX : 0 ≤ ∑ i ∈ range n, x i^2 := Finset.sum_nonneg fun i _ => sq_nonneg _
  have hY : 0 ≤ ∑ i ∈ range n, y i^2 := Finset.sum_nonneg fun i _ => sq_nonneg _
  rw [Real.sqrt_le_left (by positivity)]
  have h := Real.sum_mul_le_sqrt_mul_sqrt (range n) x y
  have e : ∑ i ∈ range n, (x i + y i)^2 = ∑ i ∈ range n, x i^2 + 2*∑ i ∈ range n, x i*y i + ∑ i ∈ range n, y i^2 := by
    rw [Finset.mul_sum, ← Finset.sum_add_distrib, ← Finset.sum_add_distrib]
    exact Finset.sum_congr rfl fun i _ => by ring
  rw [e, add_sq, Real.sq_sqrt hX, Real.sq_sqrt hY]
  linarith

theorem norm_scale {n : ℕ} {c : ℝ} (hc : 0 ≤ c) (x : ℕ → ℝ) :
    Real.sqrt (∑ i ∈ range n, (c*x i)^2) = c*Real.sqrt (∑ i ∈ range n, x i^2) := by
  have : ∑ i ∈ range n, (c*x i)^2 = c^2*∑ i ∈ range n, x i^2 := by
    rw [Finset.mul_sum]; exact Finset.sum_congr rfl fun i _ => by ring
  rw [this, Real.sqrt_mul (sq_nonneg c), Real.sqrt_sq hc]

theorem norm_mono {n : ℕ} {x y : ℕ → ℝ} (h : ∀ i < n, |x i| ≤ y i) :
    Real.sqrt (∑ i ∈ range n, x i^2) ≤ Real.sqrt (∑ i ∈ range n, y i^2) := by
  refine Real.sqrt_le_sqrt (Finset.sum_le_sum fun i hi => ?_)
  have := h i (mem_range.mp hi)
  rw [← sq_abs (x i)]
  exact pow_le_pow_left₀ (abs_nonneg _) this 2

set_option maxHeartbeats 1000000 in
/-- The errors combined in quadrature. -/
theorem quad_err {x t A δ : ℕ → ℝ} {k : ℕ} (hk : k ≤ 2^40) (hx : ∀ i ≤ k, |x i| ≤ A i)
    (hδ : ∀ i ≤ k, 0 ≤ δ i) (h : ∀ i ≤ k, |t i - x i| ≤ gam 5*A i + δ i) :
    |fl (Real.sqrt (acc (fun i => F64.mul (t i) (t i)) k)) - Real.sqrt (∑ i ∈ range (k+1), x i^2)|
      ≤ gam (k + 7)*Real.sqrt (∑ i ∈ range (k+1), A i^2)
        + 5/4*(Real.sqrt (∑ i ∈ range (k+1), δ i^2) + (2:ℝ)^(-537 : ℤ)*Real.sqrt (k+1)) := by
  have hη := two_zpow_pos (-1075)
  have hlt : ∀ i, i < k + 1 → i ≤ k := fun i hi => by omega
  set T := Real.sqrt (∑ i ∈ range (k+1), t i^2) with hT
  set X := Real.sqrt (∑ i ∈ range (k+1), x i^2) with hX
  set B := Real.sqrt (∑ i ∈ range (k+1), A i^2) with hB
  set E := Real.sqrt (∑ i ∈ range (k+1), δ i^2) with hE
  have T0 : 0 ≤ T := Real.sqrt_nonneg _
  have B0 : 0 ≤ B := Real.sqrt_nonneg _
  have E0 : 0 ≤ E := Real.sqrt_nonneg _
  have hXB : X ≤ B := norm_mono fun i hi => hx i (hlt i hi)
  -- the exact norm of the rounded entries
  have hdiff : Real.sqrt (∑ i ∈ range (k+1), (t i - x i)^2) ≤ gam 5*B + E := by
    refine (norm_mono (y := fun i => gam 5*A i + δ i) fun i hi => h i (hlt i hi)).trans ?_
    refine (minkowski _ _).trans ?_
    rw [norm_scale (gam_nonneg 5)]
  have hTX : |T - X| ≤ gam 5*B + E := by
    rw [abs_le]
    have m1 := minkowski (n := k+1) x (fun i => t i - x i)
    have m2 := minkowski (n := k+1) t (fun i => x i - t i)
    have e1 : ∑ i ∈ range (k+1), (x i + (t i - x i))^2 = ∑ i ∈ range (k+1), t i^2 :=
      Finset.sum_congr rfl fun i _ => by ring
    have e2 : ∑ i ∈ range (k+1), (t i + (x i - t i))^2 = ∑ i ∈ range (k+1), x i^2 :=
      Finset.sum_congr rfl fun i _ => by ring
    have e3 : ∑ i ∈ range (k+1), (x i - t i)^2 = ∑ i ∈ range (k+1), (t i - x i)^2 :=
      Finset.sum_congr rfl fun i _ => by ring
    rw [e1] at m1
    rw [e2, e3] at m2
    constructor <;> linarith
  -- the rounded sum of squares
  have hs := acc_er (x := fun i => t i^2) (y := fun i => F64.mul (t i) (t i)) (A := fun i => t i^2)
    (δ := fun _ => (2:ℝ)^(-1075 : ℤ)) (a := 1) (k := k) hk (fun i _ => grid_fl _)
    (fun i _ => by rw [abs_of_nonneg (sq_nonneg _)]) (fun _ _ => hη.le) (fun i _ => sq_er (t i))
  set s := acc (fun i => F64.mul (t i) (t i)) k with hsd
  have s0 : 0 ≤ s := acc_nonneg fun i _ => fl_nonneg (mul_self_nonneg _)
  set d := (2:ℝ)^(-537 : ℤ)*Real.sqrt (k+1) with hd
  have d0 : 0 ≤ d := mul_nonneg (two_zpow_pos _).le (Real.sqrt_nonneg _)
  have hk0 : (0:ℝ) ≤ (k:ℝ) + 1 := by positivity
  have hd2 : d^2 = 2*(2:ℝ)^(-1075 : ℤ)*(k+1) := by
    rw [hd, mul_pow, Real.sq_sqrt hk0]
    congr 1
    rw [← zpow_natCast, ← zpow_mul]
    rw [show (2:ℝ)*(2:ℝ)^(-1075 : ℤ) = (2:ℝ)^(1:ℤ)*(2:ℝ)^(-1075 : ℤ) by norm_num, ← zpow_add₀ (by norm_num)]
    norm_num
  have hsum : ∑ i ∈ range (k+1), t i^2 = T^2 := by
    rw [hT, Real.sq_sqrt (Finset.sum_nonneg fun i _ => sq_nonneg _)]
  have hroot : |Real.sqrt s - T| ≤ gam (1 + k)*T + d := by
    refine sqrt_er (Real.sqrt_nonneg _) T0 (gam_nonneg _) d0 ?_
    rw [Real.sq_sqrt s0, hd2]
    rw [hsum] at hs
    refine hs.trans ?_
    rw [Finset.sum_const, card_range, nsmul_eq_mul]
    push_cast
    have := mul_nonneg hk0 hη.le
    nlinarith
  -- the root
  have hnorm : Normal (Real.sqrt s) := by
    have hgs : Means64.Grid s := by
      have : fl s = s := by
        rw [hsd]
        exact acc_fl (x := fun i => F64.mul (t i) (t i)) (by unfold F64.mul; rw [fl_fl]) k
      rw [← this]
      exact grid_fl s
    obtain ⟨m, hm⟩ := hgs
    rcases s0.eq_or_lt with h0 | h0
    · left
      rw [← h0, Real.sqrt_zero]
    · right
      have hm1 : (1:ℝ) ≤ m := by
        have : 0 < (m:ℝ) := by
          rw [hm] at h0
          exact (mul_pos_iff_of_pos_right (two_zpow_pos _)).mp h0
        exact_mod_cast this
      have h1 : (2:ℝ)^(-1074 : ℤ) ≤ s := by
        rw [hm]
        have := two_zpow_pos (-1074)
        nlinarith
      rw [abs_of_nonneg (Real.sqrt_nonneg _)]
      refine Real.le_sqrt_of_sq_le (le_trans ?_ h1)
      rw [← zpow_natCast, ← zpow_mul]
      exact zpow_le_zpow_right₀ (by norm_num) (by norm_num)
  have hr := rel_fl hnorm
  unfold Means64.Rel at hr
  rw [abs_of_nonneg (Real.sqrt_nonneg s), gam_one] at hr
  have a1 := abs_sub_le (fl (Real.sqrt s)) (Real.sqrt s) X
  have a2 := abs_sub_le (Real.sqrt s) T X
  have hTB : T ≤ (1 + gam 5)*B + E := by
    have := (abs_le.mp hTX).2
    linarith
  have hsT : Real.sqrt s ≤ (1 + gam (1+k))*T + d := by
    have := (abs_le.mp hroot).2
    linarith
  have hgk : gam (1 + k) ≤ 1/8 := by
    refine (gam_le (by omega)).trans ?_
    have : ((1 + k : ℕ):ℝ) ≤ 2^41 := by exact_mod_cast (by omega : 1 + k ≤ 2^41)
    rw [div_mul_eq_mul_div, div_le_iff₀ (by norm_num)]
    nlinarith
  have e7 : gam (k + 7) = gam 5 + (gam (1+k) + 1/2^53*(1 + gam (1+k)))*(1 + gam 5) := by
    rw [show k + 7 = 5 + ((1 + k) + 1) by ring, gam_add 5, gam_add (1+k) 1, gam_one]
    ring
  have g0 := gam_nonneg (1+k)
  have b1 : (gam (1+k) + 1/2^53*(1 + gam (1+k)))*T
      ≤ (gam (1+k) + 1/2^53*(1 + gam (1+k)))*((1 + gam 5)*B + E) :=
    mul_le_mul_of_nonneg_left hTB (by positivity)
  have b2 : |fl (Real.sqrt s) - X| ≤ (gam (1+k) + 1/2^53*(1 + gam (1+k)))*T + (1 + 1/2^53)*d + gam 5*B + E := by
    nlinarith
  have c1 : (gam (1+k) + 1/2^53*(1 + gam (1+k)))*E ≤ 1/4*E := by
    refine mul_le_mul_of_nonneg_right ?_ E0
    have : (1:ℝ)/2^53*(1 + gam (1+k)) ≤ 1/2^53*2 := by
      refine mul_le_mul_of_nonneg_left (by linarith) (by norm_num)
    norm_num at this ⊢
    linarith
  have c2 : (1 + 1/2^53)*d ≤ 5/4*d := mul_le_mul_of_nonneg_right (by norm_num) d0
  rw [e7]
  linarith

end Magpie.Cumul64
