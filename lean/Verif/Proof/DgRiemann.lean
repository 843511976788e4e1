import Verif.Proof.SectorLaw
import Mathlib.MeasureTheory.Integral.DominatedConvergence

/-!
# Sums over the cells of a dense polar grid as integrals

A polar pixel, `r0 ≤ r < r1`, is divided into `m × m` cells of equal steps in radius and angle. The sum over the
cells of a value times the share of the cell in the area is the integral of a step function of the variates `(u, v)`
of `Sector.pt`, for which the area is uniform.
-/

set_option linter.unusedSimpArgs false
set_option linter.unusedVariables false

namespace Magpie.Riemann
open Magpie.Spec MeasureTheory Filter Topology Set

instance : IsProbabilityMeasure unif2 := by unfold unif2; infer_instance

theorem unif2_ae : ∀ᵐ x ∂unif2, (0 ≤ x.1 ∧ x.1 < 1) ∧ (0 ≤ x.2 ∧ x.2 < 1) := by
  rw [show unif2 = (volume.prod volume).restrict (Ico (0:ℝ) 1 ×ˢ Ico (0:ℝ) 1) by
    unfold unif2 unif; rw [Measure.prod_restrict]]
  rw [ae_restrict_iff' (measurableSet_Ico.prod measurableSet_Ico)]
  exact Eventually.of_forall fun x hx => hx

theorem unif_Ico {a b : ℝ} (ha : 0 ≤ a) (hab : a ≤ b) (hb : b ≤ 1) : unif.real (Ico a b) = b - a := by
  unfold unif Measure.real
  rw [Measure.restrict_apply measurableSet_Ico, inter_eq_self_of_subset_left (Ico_subset_Ico ha hb), Real.volume_Ico,
    ENNReal.toReal_ofReal (by linarith)]

theorem unif2_rect {a b c d : ℝ} (ha : 0 ≤ a) (hab : a ≤ b) (hb : b ≤ 1) (hc : 0 ≤ c) (hcd : c ≤ d) (hd : d ≤ 1) :
    unif2.real (Ico a b ×ˢ Ico c d) = (b - a)*(d - c) := by
  unfold unif2
  rw [measureReal_prod_prod, unif_Ico ha hab hb, unif_Ico hc hcd hd]

variable {r0 r1 : ℝ}

/-- Edge `l` of the radial division. -/
noncomputable def rho (r0 r1 : ℝ) (m l : ℕ) : ℝ := r0 + l*((r1 - r0)/m)

/-- The same edge in terms of the first variate. -/
noncomputable def cut (r0 r1 : ℝ) (m l : ℕ) : ℝ := (rho r0 r1 m l^2 - r0^2)/(r1^2 - r0^2)

theorem rho_mono (hr : r0 < r1) (m : ℕ) {k l : ℕ} (h : k ≤ l) : rho r0 r1 m k ≤ rho r0 r1 m l := by
  unfold rho
  have : (k:ℝ) ≤ l := by exact_mod_cast h
  have : 0 ≤ (r1 - r0)/m := div_nonneg (by linarith) (by positivity)
  nlinarith

theorem rho_nonneg (h0 : 0 ≤ r0) (hr : r0 < r1) (m l : ℕ) : 0 ≤ rho r0 r1 m l := by
  unfold rho
  have : 0 ≤ (r1 - r0)/m := div_nonneg (by linarith) (by positivity)
  positivity

theorem rho_le (hr : r0 < r1) {m l : ℕ} (hm : 0 < m) (h : l ≤ m) : rho r0 r1 m l ≤ r1 := by
  have := rho_mono hr m h
  have e : rho r0 r1 m m = r1 := by
    unfold rho
    have : (m:ℝ) ≠ 0 := by positivity
    field_simp
    ring
  rwa [e] at this

theorem cut_mono (h0 : 0 ≤ r0) (hr : r0 < r1) (m : ℕ) {k l : ℕ} (h : k ≤ l) : cut r0 r1 m k ≤ cut r0 r1 m l := by
  unfold cut
  have hd : 0 < r1^2 - r0^2 := by nlinarith
  have := rho_mono hr m h
  have := rho_nonneg h0 hr m k
  apply div_le_div_of_nonneg_right _ hd.le
  nlinarith

theorem cut_nonneg (h0 : 0 ≤ r0) (hr : r0 < r1) (m l : ℕ) : 0 ≤ cut r0 r1 m l := by
  have := cut_mono h0 hr m (Nat.zero_le l)
  have e : cut r0 r1 m 0 = 0 := by simp [cut, rho]
  rwa [e] at this

theorem cut_le_one (h0 : 0 ≤ r0) (hr : r0 < r1) {m l : ℕ} (hm : 0 < m) (h : l ≤ m) : cut r0 r1 m l ≤ 1 := by
  unfold cut
  have hd : 0 < r1^2 - r0^2 := by nlinarith
  rw [div_le_one hd]
  have := rho_le hr hm h
  have := rho_nonneg h0 hr m l
  nlinarith

/-- The radius of the first variate. -/
noncomputable def rad (r0 r1 u : ℝ) : ℝ := √(r0^2 + u*(r1^2 - r0^2))

/-- The step function with value `val k l` in cell `(k, l)`. -/
noncomputable def step (r0 r1 : ℝ) (m : ℕ) (val : ℕ → ℕ → ℝ) (x : ℝ × ℝ) : ℝ :=
  ∑ k ∈ Finset.range m, ∑ l ∈ Finset.range m,
    indicator (Ico (cut r0 r1 m l) (cut r0 r1 m (l+1)) ×ˢ Ico ((k:ℝ)/m) ((k+1:ℝ)/m)) (fun _ => val k l) x

theorem measurable_step (m : ℕ) (val : ℕ → ℕ → ℝ) : Measurable (step r0 r1 m val) := by
  unfold step
  refine Finset.measurable_sum _ fun k _ => Finset.measurable_sum _ fun l _ => ?_
  exact measurable_const.indicator (measurableSet_Ico.prod measurableSet_Ico)

theorem integral_step (h0 : 0 ≤ r0) (hr : r0 < r1) (m : ℕ) (val : ℕ → ℕ → ℝ) :
    ∫ x, step r0 r1 m val x ∂unif2 = ∑ k ∈ Finset.range m, ∑ l ∈ Finset.range m,
      (rho r0 r1 m (l+1)^2 - rho r0 r1 m l^2)/(r1^2 - r0^2)/m*val k l := by
  have hs : ∀ k l : ℕ, MeasurableSet (Ico (cut r0 r1 m l) (cut r0 r1 m (l+1)) ×ˢ Ico ((k:ℝ)/m) ((k+1:ℝ)/m)) :=
    fun k l => measurableSet_Ico.prod measurableSet_Ico
  unfold step
  rw [integral_finset_sum]
  · refine Finset.sum_congr rfl fun k hk => ?_
    rw [integral_finset_sum]
    · refine Finset.sum_congr rfl fun l hl => ?_
      rw [Finset.mem_range] at hk hl
      have hm : 0 < m := by omega
      have hm' : (0:ℝ) < m := by exact_mod_cast hm
      have hk' : (k:ℝ) + 1 ≤ m := by exact_mod_cast hk
      rw [integral_indicator (hs k l), setIntegral_const, smul_eq_mul,
        unif2_rect (cut_nonneg h0 hr m l) (cut_mono h0 hr m (Nat.le_succ l)) (cut_le_one h0 hr hm hl) (by positivity)
          (by gcongr; linarith) ((div_le_one hm').mpr hk')]
      unfold cut
      have hd : r1^2 - r0^2 ≠ 0 := by nlinarith
      field_simp
      ring
    · intro l _
      exact (integrable_const _).indicator (hs k l)
  · intro k _
    refine integrable_finset_sum _ fun l _ => ?_
    exact (integrable_const _).indicator (hs k l)

theorem step_at (h0 : 0 ≤ r0) (hr : r0 < r1) {m : ℕ} (val : ℕ → ℕ → ℝ) {x : ℝ × ℝ} {k l : ℕ} (hk : k < m) (hl : l < m)
    (h1 : cut r0 r1 m l ≤ x.1 ∧ x.1 < cut r0 r1 m (l+1)) (h2 : (k:ℝ)/m ≤ x.2 ∧ x.2 < (k+1:ℝ)/m) :
    step r0 r1 m val x = val k l := by
  have hm' : (0:ℝ) < m := by exact_mod_cast (by omega : 0 < m)
  unfold step
  rw [Finset.sum_eq_single k, Finset.sum_eq_single l]
  · rw [indicator_of_mem]
    exact ⟨h1, h2⟩
  · intro l' _ hne
    refine indicator_of_notMem (fun hx => hne ?_) _
    obtain ⟨⟨a, b⟩, -⟩ := hx
    rcases lt_trichotomy l' l with c | c | c
    · have := cut_mono h0 hr m (Nat.succ_le_of_lt c)
      have := h1.1
      simp only [Nat.succ_eq_add_one] at *
      linarith
    · exact c
    · have := cut_mono h0 hr m (Nat.succ_le_of_lt c)
      have := h1.2
      simp only [Nat.succ_eq_add_one] at *
      linarith
  · intro hn; exact absurd (Finset.mem_range.mpr hl) hn
  · intro k' _ hne
    refine Finset.sum_eq_zero fun l' _ => indicator_of_notMem (fun hx => hne ?_) _
    obtain ⟨-, a, b⟩ := hx
    obtain ⟨c, d⟩ := h2
    rw [div_le_iff₀ hm'] at a c
    rw [lt_div_iff₀ hm'] at b d
    have e1 : (k':ℝ) < k + 1 := by linarith
    have e2 : (k:ℝ) < k' + 1 := by linarith
    have e1' : k' < k + 1 := by exact_mod_cast e1
    have e2' : k < k' + 1 := by exact_mod_cast e2
    omega
  · intro hn; exact absurd (Finset.mem_range.mpr hk) hn

/-- The cell of a pair of variates. -/
theorem exists_cell (h0 : 0 ≤ r0) (hr : r0 < r1) {m : ℕ} (hm : 0 < m) {x : ℝ × ℝ} (hx : 0 ≤ x.1 ∧ x.1 < 1)
    (hy : 0 ≤ x.2 ∧ x.2 < 1) : ∃ k l, k < m ∧ l < m ∧
      (cut r0 r1 m l ≤ x.1 ∧ x.1 < cut r0 r1 m (l+1)) ∧ ((k:ℝ)/m ≤ x.2 ∧ x.2 < (k+1:ℝ)/m) ∧
      |r0 + (l + 1/2)*((r1 - r0)/m) - rad r0 r1 x.1| ≤ (r1 - r0)/m ∧ |(k + 1/2)/m - x.2| ≤ 1/m := by
  have hm' : (0:ℝ) < m := by exact_mod_cast hm
  have hd : 0 < r1^2 - r0^2 := by nlinarith
  have hδ : 0 < (r1 - r0)/m := div_pos (by linarith) hm'
  have hsq : 0 ≤ r0^2 + x.1*(r1^2 - r0^2) := by have := mul_nonneg hx.1 hd.le; positivity
  have hR2 : rad r0 r1 x.1^2 = r0^2 + x.1*(r1^2 - r0^2) := Real.sq_sqrt hsq
  have hR0 : 0 ≤ rad r0 r1 x.1 := Real.sqrt_nonneg _
  have hRlo : r0 ≤ rad r0 r1 x.1 := by
    apply Real.le_sqrt_of_sq_le
    have := mul_nonneg hx.1 hd.le
    linarith
  have hRhi : rad r0 r1 x.1 < r1 := by
    by_contra hc
    push Not at hc
    have := mul_lt_mul_of_pos_right hx.2 hd
    nlinarith
  obtain ⟨k, hk1, hk2⟩ : ∃ k : ℕ, (k:ℝ) ≤ m*x.2 ∧ m*x.2 < k + 1 :=
    ⟨⌊m*x.2⌋₊, Nat.floor_le (by have := hy.1; positivity), Nat.lt_floor_add_one _⟩
  obtain ⟨l, hl1, hl2⟩ : ∃ l : ℕ, (l:ℝ) ≤ (rad r0 r1 x.1 - r0)/((r1 - r0)/m) ∧
      (rad r0 r1 x.1 - r0)/((r1 - r0)/m) < l + 1 :=
    ⟨⌊(rad r0 r1 x.1 - r0)/((r1 - r0)/m)⌋₊, Nat.floor_le (div_nonneg (by linarith) hδ.le), Nat.lt_floor_add_one _⟩
  rw [le_div_iff₀ hδ] at hl1
  rw [div_lt_iff₀ hδ] at hl2
  refine ⟨k, l, ?_, ?_, ⟨?_, ?_⟩, ⟨?_, ?_⟩, ?_, ?_⟩
  · have : (k:ℝ) < m := by nlinarith [hy.2]
    exact_mod_cast this
  · have e : (r1 - r0) = m*((r1 - r0)/m) := by field_simp
    have : (l:ℝ)*((r1 - r0)/m) < m*((r1 - r0)/m) := by linarith
    have := lt_of_mul_lt_mul_right this hδ.le
    exact_mod_cast this
  · unfold cut
    rw [div_le_iff₀ hd]
    have h1 : rho r0 r1 m l ≤ rad r0 r1 x.1 := by unfold rho; linarith
    have h2 := rho_nonneg h0 hr m l
    nlinarith
  · unfold cut
    rw [lt_div_iff₀ hd]
    have h1 : rad r0 r1 x.1 < rho r0 r1 m (l+1) := by unfold rho; push_cast; linarith
    nlinarith
  · rw [div_le_iff₀ hm']; linarith
  · rw [lt_div_iff₀ hm']; linarith
  · rw [abs_le]
    constructor <;> nlinarith
  · have e : (k + 1/2)/m - x.2 = (k + 1/2 - m*x.2)/m := by field_simp
    rw [e, abs_div, abs_of_pos hm']
    apply div_le_div_of_nonneg_right _ hm'.le
    rw [abs_le]
    constructor <;> linarith

/-- The sums over the cells converge to the integral, if almost everywhere the values in the cells close to a point
are equal to the value at the point. -/
theorem tendsto_sum (h0 : 0 ≤ r0) (hr : r0 < r1) (val : ℕ → ℕ → ℕ → ℝ) (C : ℝ)
    (hC : ∀ m k l, k < m → l < m → |val m k l| ≤ C) (f : ℝ × ℝ → ℝ)
    (h : ∀ᵐ x ∂unif2, ∀ᶠ y in 𝓝 (rad r0 r1 x.1, x.2), ∀ m k l : ℕ, k < m → l < m →
      y = (r0 + (l + 1/2)*((r1 - r0)/m), ((k + 1/2)/m : ℝ)) → val m k l = f x) :
    Tendsto (fun m : ℕ => ∑ k ∈ Finset.range m, ∑ l ∈ Finset.range m,
      (rho r0 r1 m (l+1)^2 - rho r0 r1 m l^2)/(r1^2 - r0^2)/m*val m k l) atTop (𝓝 (∫ x, f x ∂unif2)) := by
  have := tendsto_integral_of_dominated_convergence (μ := unif2) (F := fun (m : ℕ) => step r0 r1 m (val m)) (f := f)
    (fun _ => |C|) (fun m => (measurable_step m _).aestronglyMeasurable) (integrable_const _) ?_ ?_
  · refine this.congr fun m => ?_
    rw [integral_step h0 hr]
  · intro m
    filter_upwards [unif2_ae] with x hx
    rcases Nat.eq_zero_or_pos m with rfl | hm
    · simp [step]
    · obtain ⟨k, l, hk, hl, c1, c2, -⟩ := exists_cell h0 hr hm hx.1 hx.2
      rw [step_at h0 hr _ hk hl c1 c2, Real.norm_eq_abs]
      exact (hC m k l hk hl).trans (le_abs_self C)
  · filter_upwards [unif2_ae, h] with x hx hx'
    have key : ∀ m : ℕ, ∃ k l : ℕ, 0 < m → k < m ∧ l < m ∧ step r0 r1 m (val m) x = val m k l ∧
      |r0 + (l + 1/2)*((r1 - r0)/m) - rad r0 r1 x.1| ≤ (r1 - r0)/m ∧ |(k + 1/2)/m - x.2| ≤ 1/m := by
      intro m
      rcases Nat.eq_zero_or_pos m with rfl | hm
      · exact ⟨0, 0, fun h => absurd h (lt_irrefl _)⟩
      · obtain ⟨k, l, hk, hl, c1, c2, c3, c4⟩ := exists_cell h0 hr hm hx.1 hx.2
        exact ⟨k, l, fun _ => ⟨hk, hl, step_at h0 hr _ hk hl c1 c2, c3, c4⟩⟩
    choose k l hkl using key
    have t1 : Tendsto (fun m : ℕ => r0 + (l m + 1/2)*((r1 - r0)/m)) atTop (𝓝 (rad r0 r1 x.1)) := by
      rw [tendsto_iff_dist_tendsto_zero]
      refine squeeze_zero' (Eventually.of_forall fun _ => dist_nonneg) ?_ (tendsto_const_div_atTop_nhds_zero_nat (r1 - r0))
      filter_upwards [eventually_gt_atTop 0] with m hm
      exact (hkl m hm).2.2.2.1
    have t2 : Tendsto (fun m : ℕ => ((k m + 1/2)/m : ℝ)) atTop (𝓝 x.2) := by
      rw [tendsto_iff_dist_tendsto_zero]
      refine squeeze_zero' (Eventually.of_forall fun _ => dist_nonneg) ?_ (tendsto_const_div_atTop_nhds_zero_nat 1)
      filter_upwards [eventually_gt_atTop 0] with m hm
      exact (hkl m hm).2.2.2.2
    refine tendsto_const_nhds.congr' ?_
    filter_upwards [eventually_gt_atTop 0, (t1.prodMk_nhds t2).eventually hx'] with m hm hv
    obtain ⟨a, b, c, -⟩ := hkl m hm
    rw [c, hv m (k m) (l m) a b rfl]

end Magpie.Riemann
