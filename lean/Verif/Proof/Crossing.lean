import Verif.Proof.DgRiemann
import Mathlib.Analysis.SpecialFunctions.Trigonometric.Basic

/-!
# How many cells of a dense polar grid a straight line crosses

In coordinates `(r, v)`, with the angle `a + v*d`, a straight line of the plane is `r*cos(a + v*d) = c` for some `a` and
`c`. In a quadrant of the angle it is monotone, so of `m × m` cells it crosses at most `2*m - 1`.
-/

set_option linter.unusedSimpArgs false
set_option linter.unusedVariables false

namespace Magpie.Riemann
open Magpie.Spec MeasureTheory Filter Topology Set

/-- The quadrant of an angle. -/
noncomputable def quad (φ : ℝ) : ℤ := ⌊φ/(Real.pi/2)⌋

theorem quad_spec (φ : ℝ) : ∃ t, 0 ≤ t ∧ t < Real.pi/2 ∧ φ = quad φ*(Real.pi/2) + t := by
  have hp : 0 < Real.pi/2 := by positivity
  refine ⟨φ - quad φ*(Real.pi/2), ?_, ?_, by ring⟩
  · have := Int.floor_le (φ/(Real.pi/2))
    rw [le_div_iff₀ hp] at this
    unfold quad; linarith
  · have := Int.lt_floor_add_one (φ/(Real.pi/2))
    rw [div_lt_iff₀ hp] at this
    unfold quad; linarith

theorem abs_cos_even (n : ℤ) (t : ℝ) : |Real.cos ((2*n : ℤ)*(Real.pi/2) + t)| = |Real.cos t| := by
  rw [show ((2*n : ℤ):ℝ)*(Real.pi/2) + t = t + n*Real.pi by push_cast; ring, Real.cos_add_int_mul_pi, abs_mul,
    abs_neg_one_zpow, one_mul]

theorem abs_cos_odd (n : ℤ) (t : ℝ) : |Real.cos ((2*n + 1 : ℤ)*(Real.pi/2) + t)| = |Real.sin t| := by
  rw [show ((2*n + 1 : ℤ):ℝ)*(Real.pi/2) + t = (t + Real.pi/2) + n*Real.pi by push_cast; ring,
    Real.cos_add_int_mul_pi, abs_mul, abs_neg_one_zpow, one_mul, Real.cos_add_pi_div_two, abs_neg]

theorem abs_cos_anti {φ ψ : ℝ} (hq : quad φ = quad ψ) (he : Even (quad φ)) (h : φ < ψ) :
    |Real.cos ψ| < |Real.cos φ| := by
  obtain ⟨s, s0, s1, e1⟩ := quad_spec φ
  obtain ⟨t, t0, t1, e2⟩ := quad_spec ψ
  obtain ⟨n, hn⟩ := he
  rw [← hq] at e2
  have hst : s < t := by linarith
  rw [show quad φ = 2*n by omega] at e1 e2
  rw [e1, e2, abs_cos_even, abs_cos_even, abs_of_nonneg (Real.cos_nonneg_of_neg_pi_div_two_le_of_le (by linarith) t1.le),
    abs_of_nonneg (Real.cos_nonneg_of_neg_pi_div_two_le_of_le (by linarith) s1.le)]
  exact Real.cos_lt_cos_of_nonneg_of_le_pi_div_two s0 t1.le hst

theorem abs_cos_mono {φ ψ : ℝ} (hq : quad φ = quad ψ) (he : ¬ Even (quad φ)) (h : φ < ψ) :
    |Real.cos φ| < |Real.cos ψ| := by
  obtain ⟨s, s0, s1, e1⟩ := quad_spec φ
  obtain ⟨t, t0, t1, e2⟩ := quad_spec ψ
  rw [Int.not_even_iff_odd] at he
  obtain ⟨n, hn⟩ := he
  rw [← hq] at e2
  have hst : s < t := by linarith
  rw [hn] at e1 e2
  have hp := Real.pi_pos
  rw [e1, e2, abs_cos_odd, abs_cos_odd, abs_of_nonneg (Real.sin_nonneg_of_nonneg_of_le_pi (by linarith) (by linarith)),
    abs_of_nonneg (Real.sin_nonneg_of_nonneg_of_le_pi (by linarith) (by linarith))]
  exact Real.sin_lt_sin_of_lt_of_le_pi_div_two (by linarith) t1.le hst

/-- In an even quadrant the radius of the line increases with the angle. -/
theorem line_even {r r' φ ψ c : ℝ} (hr : 0 ≤ r) (hr' : 0 ≤ r') (h1 : r*Real.cos φ = c) (h2 : r'*Real.cos ψ = c)
    (hq : quad φ = quad ψ) (he : Even (quad φ)) (h : φ < ψ) : r ≤ r' := by
  have hc := abs_cos_anti hq he h
  have e : r*|Real.cos φ| = r'*|Real.cos ψ| := by
    rw [← abs_of_nonneg hr, ← abs_of_nonneg hr', ← abs_mul, ← abs_mul, h1, h2]
  by_contra hn
  push Not at hn
  have := abs_nonneg (Real.cos ψ)
  nlinarith

/-- In an odd quadrant it decreases. -/
theorem line_odd {r r' φ ψ c : ℝ} (hr : 0 ≤ r) (hr' : 0 ≤ r') (h1 : r*Real.cos φ = c) (h2 : r'*Real.cos ψ = c)
    (hq : quad φ = quad ψ) (he : ¬ Even (quad φ)) (h : φ < ψ) : r' ≤ r := by
  have hc := abs_cos_mono hq he h
  have e : r*|Real.cos φ| = r'*|Real.cos ψ| := by
    rw [← abs_of_nonneg hr, ← abs_of_nonneg hr', ← abs_mul, ← abs_mul, h1, h2]
  by_contra hn
  push Not at hn
  have := abs_nonneg (Real.cos φ)
  nlinarith

/-- Cell `(k, l)` in coordinates `(r, v)`. -/
def polCell (r0 r1 : ℝ) (m k l : ℕ) : Set (ℝ × ℝ) :=
  Ico (rho r0 r1 m l) (rho r0 r1 m (l+1)) ×ˢ Ico ((k:ℝ)/m) ((k+1:ℝ)/m)

variable {r0 r1 : ℝ}

open Classical in
/-- The cells that the line crosses. -/
noncomputable def crossed (r0 r1 : ℝ) (m : ℕ) (a d c : ℝ) : Finset (ℕ × ℕ) :=
  (Finset.range m ×ˢ Finset.range m).filter fun z =>
    ∃ y ∈ polCell r0 r1 m z.1 z.2, y.1*Real.cos (a + y.2*d) = c

theorem crossed_card (h0 : 0 ≤ r0) (hr : r0 < r1) {m : ℕ} (hm : 0 < m) {a d : ℝ} (hd : 0 < d) (hd' : d ≤ Real.pi)
    (c : ℝ) : (crossed r0 r1 m a d c).card ≤ 6*m := by
  classical
  have hm' : (0:ℝ) < m := by exact_mod_cast hm
  have hex : ∀ z : ℕ × ℕ, ∃ y : ℝ × ℝ, z ∈ crossed r0 r1 m a d c →
      y ∈ polCell r0 r1 m z.1 z.2 ∧ y.1*Real.cos (a + y.2*d) = c := by
    intro z
    by_cases hz : z ∈ crossed r0 r1 m a d c
    · have := hz
      unfold crossed at this
      obtain ⟨-, y, h1, h2⟩ := Finset.mem_filter.mp this
      exact ⟨y, fun _ => ⟨h1, h2⟩⟩
    · exact ⟨0, fun h => absurd h hz⟩
  choose y hy using hex
  have hlt : ∀ z ∈ crossed r0 r1 m a d c, z.1 < m ∧ z.2 < m := by
    intro z hz
    unfold crossed at hz
    have := (Finset.mem_filter.mp hz).1
    rw [Finset.mem_product, Finset.mem_range, Finset.mem_range] at this
    exact this
  set q : ℕ × ℕ → ℤ := fun z => quad (a + (y z).2*d) with hq
  set F : ℕ × ℕ → ℕ × ℕ := fun z =>
    ((q z - quad a).toNat, if Even (q z) then z.1 + z.2 else z.1 + (m - 1 - z.2)) with hF
  have hq0 : ∀ z ∈ crossed r0 r1 m a d c, 0 ≤ q z - quad a ∧ q z - quad a ≤ 2 := by
    intro z hz
    obtain ⟨⟨-, h1, h2⟩, -⟩ := hy z hz
    obtain ⟨k1, -⟩ := hlt z hz
    have b0 : 0 ≤ (y z).2 := le_trans (by positivity) h1
    have b1 : (y z).2 < 1 := by
      refine lt_of_lt_of_le h2 ?_
      rw [div_le_one hm']
      exact_mod_cast k1
    obtain ⟨s, s0, s1, e1⟩ := quad_spec a
    obtain ⟨t, t0, t1, e2⟩ := quad_spec (a + (y z).2*d)
    have hp : 0 < Real.pi/2 := by positivity
    have c0 : 0 ≤ (y z).2*d := by positivity
    have c1 : (y z).2*d < Real.pi := by nlinarith
    have hlo : (-1:ℝ) < ((q z - quad a : ℤ):ℝ) := by
      push_cast
      show (-1:ℝ) < (quad (a + (y z).2*d):ℝ) - quad a
      nlinarith
    have hhi : ((q z - quad a : ℤ):ℝ) < 3 := by
      push_cast
      show (quad (a + (y z).2*d):ℝ) - quad a < 3
      nlinarith
    have l1 : (-1:ℤ) < q z - quad a := by exact_mod_cast hlo
    have l2 : q z - quad a < 3 := by exact_mod_cast hhi
    omega
  have key : ∀ z ∈ crossed r0 r1 m a d c, ∀ w ∈ crossed r0 r1 m a d c, F z = F w → ¬ z.1 < w.1 := by
    intro z hz w hw hFe hlt1
    obtain ⟨⟨⟨a1, a2⟩, a3, a4⟩, a5⟩ := hy z hz
    obtain ⟨⟨⟨b1, b2⟩, b3, b4⟩, b5⟩ := hy w hw
    obtain ⟨z1, z2⟩ := hlt z hz
    obtain ⟨w1, w2⟩ := hlt w hw
    simp only [hF, Prod.mk.injEq] at hFe
    obtain ⟨e1, e2⟩ := hFe
    have := hq0 z hz
    have := hq0 w hw
    have hqe : q z = q w := by omega
    have hv : (y z).2 < (y w).2 := by
      refine lt_of_lt_of_le a4 (le_trans ?_ b3)
      have : (z.1:ℝ) + 1 ≤ w.1 := by exact_mod_cast hlt1
      gcongr
    have hφ : a + (y z).2*d < a + (y w).2*d := by nlinarith
    have p1 : 0 ≤ (y z).1 := (rho_nonneg h0 hr m _).trans a1
    have p2 : 0 ≤ (y w).1 := (rho_nonneg h0 hr m _).trans b1
    by_cases hev : Even (q z)
    · rw [if_pos hev, if_pos (hqe ▸ hev)] at e2
      have hle := line_even p1 p2 a5 b5 hqe hev hφ
      have hl : w.2 < z.2 := by omega
      have := rho_mono (r0 := r0) (r1 := r1) hr m (Nat.succ_le_of_lt hl)
      simp only [Nat.succ_eq_add_one] at this
      linarith
    · rw [if_neg hev, if_neg (hqe ▸ hev)] at e2
      have hle := line_odd p1 p2 a5 b5 hqe hev hφ
      have hl : z.2 < w.2 := by omega
      have := rho_mono (r0 := r0) (r1 := r1) hr m (Nat.succ_le_of_lt hl)
      simp only [Nat.succ_eq_add_one] at this
      linarith
  have hcard := Finset.card_le_card_of_injOn (s := crossed r0 r1 m a d c)
    (t := Finset.range 3 ×ˢ Finset.range (2*m)) F ?_ ?_
  · rw [Finset.card_product, Finset.card_range, Finset.card_range] at hcard
    omega
  · intro z hz
    obtain ⟨z1, z2⟩ := hlt z hz
    have := hq0 z hz
    simp only [hF, Finset.coe_product, Set.mem_prod, Finset.coe_range, Set.mem_Iio]
    refine ⟨by omega, ?_⟩
    split_ifs <;> omega
  · intro z hz w hw he
    have h1 := key z hz w hw he
    have h2 := key w hw z hz he.symm
    have e1 : z.1 = w.1 := by omega
    obtain ⟨z1, z2⟩ := hlt z hz
    obtain ⟨w1, w2⟩ := hlt w hw
    have := hq0 z hz
    have := hq0 w hw
    simp only [hF, Prod.mk.injEq] at he
    obtain ⟨q1, q2⟩ := he
    have hqe : q z = q w := by omega
    rw [hqe] at q2
    refine Prod.ext e1 ?_
    split_ifs at q2 <;> omega

theorem share_le (h0 : 0 ≤ r0) (hr : r0 < r1) {m l : ℕ} (hl : l < m) :
    0 ≤ (rho r0 r1 m (l+1)^2 - rho r0 r1 m l^2)/(r1^2 - r0^2)/m ∧
    (rho r0 r1 m (l+1)^2 - rho r0 r1 m l^2)/(r1^2 - r0^2)/m ≤ 2/m^2 := by
  have hm : 0 < m := by omega
  have hm' : (0:ℝ) < m := by exact_mod_cast hm
  have hd : 0 < r1^2 - r0^2 := by nlinarith
  have a := rho_mono (r0 := r0) (r1 := r1) hr m (Nat.le_succ l)
  have b := rho_nonneg h0 hr m l
  have c := rho_le (r0 := r0) (r1 := r1) hr hm (show l + 1 ≤ m by omega)
  simp only [Nat.succ_eq_add_one] at a
  have e : rho r0 r1 m (l+1) - rho r0 r1 m l = (r1 - r0)/m := by unfold rho; push_cast; ring
  constructor
  · refine div_nonneg (div_nonneg ?_ hd.le) hm'.le
    nlinarith
  · rw [div_div, div_le_div_iff₀ (by positivity) (by positivity)]
    have e2 : rho r0 r1 m (l+1)^2 - rho r0 r1 m l^2 = (r1 - r0)/m*(rho r0 r1 m (l+1) + rho r0 r1 m l) := by
      rw [← e]; ring
    rw [e2]
    have e3 : (r1 - r0)/m*(rho r0 r1 m (l+1) + rho r0 r1 m l)*m^2
        = (r1 - r0)*(rho r0 r1 m (l+1) + rho r0 r1 m l)*m := by field_simp
    rw [e3]
    have : rho r0 r1 m (l+1) + rho r0 r1 m l ≤ 2*(r1 + r0) := by linarith
    have h5 : (r1 - r0)*(rho r0 r1 m (l+1) + rho r0 r1 m l) ≤ (r1 - r0)*(2*(r1 + r0)) :=
      mul_le_mul_of_nonneg_left this (by linarith)
    nlinarith

/-- The error of the sum over the cells, if the values differ from the function by at most `D`, and only in the cells
of `bad`. -/
theorem sum_error (h0 : 0 ≤ r0) (hr : r0 < r1) {m : ℕ} (hm : 0 < m) (val : ℕ → ℕ → ℝ) (f : ℝ × ℝ → ℝ)
    (hf : Measurable f) {C D : ℝ} (hC : ∀ x, |f x| ≤ C) (hD : 0 ≤ D) (bad : Finset (ℕ × ℕ))
    (h : ∀ᵐ x ∂unif2, ∀ k l : ℕ, k < m → l < m → (rad r0 r1 x.1, x.2) ∈ polCell r0 r1 m k l →
      |val k l - f x| ≤ D ∧ ((k, l) ∉ bad → val k l = f x)) :
    |∑ k ∈ Finset.range m, ∑ l ∈ Finset.range m,
      (rho r0 r1 m (l+1)^2 - rho r0 r1 m l^2)/(r1^2 - r0^2)/m*val k l - ∫ x, f x ∂unif2| ≤ 2*D*bad.card/m^2 := by
  classical
  have hm' : (0:ℝ) < m := by exact_mod_cast hm
  have hst : ∀ w : ℕ → ℕ → ℝ, Integrable (step r0 r1 m w) unif2 := by
    intro w
    unfold step
    refine integrable_finset_sum _ fun k _ => integrable_finset_sum _ fun l _ => ?_
    exact (integrable_const _).indicator (measurableSet_Ico.prod measurableSet_Ico)
  have hfi : Integrable f unif2 :=
    Integrable.of_bound hf.aestronglyMeasurable C (Eventually.of_forall fun x => hC x)
  rw [← integral_step h0 hr, ← integral_sub (hst _) hfi]
  have hb : ∀ᵐ x ∂unif2, ‖step r0 r1 m val x - f x‖ ≤ step r0 r1 m (fun k l => if (k, l) ∈ bad then D else 0) x := by
    filter_upwards [unif2_ae, h] with x hx hx'
    obtain ⟨k, l, hk, hl, c1, c2, c3, c4⟩ := exists_cell h0 hr hm hx.1 hx.2
    rw [step_at h0 hr _ hk hl c1 c2, step_at h0 hr _ hk hl c1 c2, Real.norm_eq_abs]
    have hdp : 0 < r1^2 - r0^2 := by nlinarith
    have hsq : 0 ≤ r0^2 + x.1*(r1^2 - r0^2) := by have := mul_nonneg hx.1.1 hdp.le; positivity
    have hmem : (rad r0 r1 x.1, x.2) ∈ polCell r0 r1 m k l := by
      refine ⟨⟨?_, ?_⟩, c2⟩
      · apply Real.le_sqrt_of_sq_le
        have := c1.1
        unfold cut at this
        rw [div_le_iff₀ hdp] at this
        linarith
      · show √_ < _
        have h2 := c1.2
        unfold cut at h2
        rw [lt_div_iff₀ hdp] at h2
        have h3 := rho_nonneg h0 hr m (l+1)
        rw [Real.sqrt_lt' (lt_of_le_of_ne h3 fun h4 => by rw [← h4] at h2; nlinarith)]
        linarith
    obtain ⟨p1, p2⟩ := hx' k l hk hl hmem
    split_ifs with hc
    · exact p1
    · rw [p2 hc, sub_self, abs_zero]
  refine (norm_integral_le_of_norm_le (hst _) hb).trans ?_
  rw [integral_step h0 hr, ← Finset.sum_product']
  have : ∀ z ∈ Finset.range m ×ˢ Finset.range m,
      (rho r0 r1 m (z.2+1)^2 - rho r0 r1 m z.2^2)/(r1^2 - r0^2)/m*(if (z.1, z.2) ∈ bad then D else 0)
        ≤ if z ∈ bad then 2/m^2*D else 0 := by
    intro z hz
    rw [Finset.mem_product, Finset.mem_range, Finset.mem_range] at hz
    split_ifs with hc
    · exact mul_le_mul_of_nonneg_right (share_le h0 hr hz.2).2 hD
    · rw [mul_zero]
  refine (Finset.sum_le_sum this).trans ?_
  rw [← Finset.sum_filter, Finset.sum_const, nsmul_eq_mul]
  have hle : ((Finset.range m ×ˢ Finset.range m).filter (· ∈ bad)).card ≤ bad.card :=
    Finset.card_le_card fun z hz => (Finset.mem_filter.mp hz).2
  have hle' : (((Finset.range m ×ˢ Finset.range m).filter (· ∈ bad)).card:ℝ) ≤ bad.card := by exact_mod_cast hle
  have : (0:ℝ) ≤ 2/m^2*D := by positivity
  calc _ ≤ (bad.card:ℝ)*(2/m^2*D) := mul_le_mul_of_nonneg_right hle' this
    _ = _ := by ring

end Magpie.Riemann
