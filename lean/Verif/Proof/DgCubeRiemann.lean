import Verif.Proof.DgRiemann
import Verif.Proof.ShellLaw

/-!
# Sums over the cells of a dense grid of a shell as integrals

A pixel of a shell, `r0 ≤ r < r1`, is divided into `n` shells of equal steps in radius, and its diamond in the plane
into `m × m` diamonds. The sum over the cells of a value times the share of the cell in the volume is the integral of a
step function of the variates of `Shell3.pt` and the two coordinates along the sides of the diamond.
-/

set_option linter.unusedSimpArgs false
set_option linter.unusedVariables false

namespace Magpie.Riemann3
open Magpie.Spec MeasureTheory Filter Topology Set
open Magpie.Riemann (rho rho_mono rho_nonneg rho_le unif_Ico unif2_rect)
open Magpie.Shell3 (rad rad_cube cube_lt rad_le)

instance : IsProbabilityMeasure unif3 := by unfold unif3; infer_instance

theorem unif3_ae : ∀ᵐ x ∂unif3, (0 ≤ x.1 ∧ x.1 < 1) ∧ (0 ≤ x.2.1 ∧ x.2.1 < 1) ∧ (0 ≤ x.2.2 ∧ x.2.2 < 1) := by
  rw [show unif3 = (volume.prod (volume.prod volume)).restrict (Ico (0:ℝ) 1 ×ˢ (Ico (0:ℝ) 1 ×ˢ Ico (0:ℝ) 1)) by
    unfold unif3 unif2 unif; rw [Measure.prod_restrict, Measure.prod_restrict]]
  rw [ae_restrict_iff' (measurableSet_Ico.prod (measurableSet_Ico.prod measurableSet_Ico))]
  exact Eventually.of_forall fun x hx => hx

variable {r0 r1 : ℝ}

/-- Edge `l` of the radial division in terms of the first variate. -/
noncomputable def cut (r0 r1 : ℝ) (n l : ℕ) : ℝ := (rho r0 r1 n l^3 - r0^3)/(r1^3 - r0^3)

theorem cut_mono (h0 : 0 ≤ r0) (hr : r0 < r1) (n : ℕ) {k l : ℕ} (h : k ≤ l) : cut r0 r1 n k ≤ cut r0 r1 n l := by
  unfold cut
  apply div_le_div_of_nonneg_right _ (cube_lt h0 hr).le
  have := pow_le_pow_left₀ (rho_nonneg h0 hr n k) (rho_mono hr n h) 3
  linarith

theorem cut_nonneg (h0 : 0 ≤ r0) (hr : r0 < r1) (n l : ℕ) : 0 ≤ cut r0 r1 n l := by
  have := cut_mono h0 hr n (Nat.zero_le l)
  have e : cut r0 r1 n 0 = 0 := by simp [cut, rho]
  rwa [e] at this

theorem cut_le_one (h0 : 0 ≤ r0) (hr : r0 < r1) {n l : ℕ} (hn : 0 < n) (h : l ≤ n) : cut r0 r1 n l ≤ 1 := by
  unfold cut
  rw [div_le_one (cube_lt h0 hr)]
  have := pow_le_pow_left₀ (rho_nonneg h0 hr n l) (rho_le hr hn h) 3
  linarith

/-- The cell `(l, a, b)`. -/
def cell (r0 r1 : ℝ) (n m l a b : ℕ) : Set (ℝ × ℝ × ℝ) :=
  Ico (cut r0 r1 n l) (cut r0 r1 n (l+1)) ×ˢ (Ico ((a:ℝ)/m) ((a+1:ℝ)/m) ×ˢ Ico ((b:ℝ)/m) ((b+1:ℝ)/m))

theorem measurableSet_cell (n m l a b : ℕ) : MeasurableSet (cell r0 r1 n m l a b) :=
  measurableSet_Ico.prod (measurableSet_Ico.prod measurableSet_Ico)

/-- The step function with value `val l a b` in cell `(l, a, b)`. -/
noncomputable def step (r0 r1 : ℝ) (n m : ℕ) (val : ℕ → ℕ → ℕ → ℝ) (x : ℝ × ℝ × ℝ) : ℝ :=
  ∑ l ∈ Finset.range n, ∑ a ∈ Finset.range m, ∑ b ∈ Finset.range m,
    indicator (cell r0 r1 n m l a b) (fun _ => val l a b) x

theorem measurable_step (n m : ℕ) (val : ℕ → ℕ → ℕ → ℝ) : Measurable (step r0 r1 n m val) := by
  unfold step
  refine Finset.measurable_sum _ fun l _ => Finset.measurable_sum _ fun a _ => Finset.measurable_sum _ fun b _ => ?_
  exact measurable_const.indicator (measurableSet_cell _ _ _ _ _)

theorem integral_step (h0 : 0 ≤ r0) (hr : r0 < r1) (n m : ℕ) (val : ℕ → ℕ → ℕ → ℝ) :
    ∫ x, step r0 r1 n m val x ∂unif3 = ∑ l ∈ Finset.range n, ∑ a ∈ Finset.range m, ∑ b ∈ Finset.range m,
      (rho r0 r1 n (l+1)^3 - rho r0 r1 n l^3)/(r1^3 - r0^3)/(m:ℝ)^2*val l a b := by
  have hi : ∀ l a b, Integrable (indicator (cell r0 r1 n m l a b) fun _ => val l a b) unif3 := fun l a b =>
    (integrable_const _).indicator (measurableSet_cell _ _ _ _ _)
  unfold step
  rw [integral_finset_sum _ fun l _ => integrable_finset_sum _ fun a _ => integrable_finset_sum _ fun b _ => hi l a b]
  refine Finset.sum_congr rfl fun l hl => ?_
  rw [integral_finset_sum _ fun a _ => integrable_finset_sum _ fun b _ => hi l a b]
  refine Finset.sum_congr rfl fun a ha => ?_
  rw [integral_finset_sum _ fun b _ => hi l a b]
  refine Finset.sum_congr rfl fun b hb => ?_
  rw [Finset.mem_range] at hl ha hb
  have hm : 0 < m := by omega
  have hn : 0 < n := by omega
  have hm' : (0:ℝ) < m := by exact_mod_cast hm
  have ha' : (a:ℝ) + 1 ≤ m := by exact_mod_cast ha
  have hb' : (b:ℝ) + 1 ≤ m := by exact_mod_cast hb
  rw [integral_indicator (measurableSet_cell _ _ _ _ _), setIntegral_const, smul_eq_mul]
  congr 1
  unfold cell unif3
  rw [measureReal_prod_prod, unif_Ico (cut_nonneg h0 hr n l) (cut_mono h0 hr n (Nat.le_succ l)) (cut_le_one h0 hr hn hl),
    unif2_rect (by positivity) (by gcongr; linarith) ((div_le_one hm').mpr ha') (by positivity)
      (by gcongr; linarith) ((div_le_one hm').mpr hb')]
  unfold cut
  have hd := (cube_lt h0 hr).ne'
  field_simp
  ring

private theorem div_unique {m a a' : ℕ} (hm : 0 < m) {x : ℝ} (h : (a:ℝ)/m ≤ x ∧ x < (a+1:ℝ)/m)
    (h' : (a':ℝ)/m ≤ x ∧ x < (a'+1:ℝ)/m) : a' = a := by
  have hm' : (0:ℝ) < m := by exact_mod_cast hm
  obtain ⟨c, d⟩ := h
  obtain ⟨p, q⟩ := h'
  rw [div_le_iff₀ hm'] at c p
  rw [lt_div_iff₀ hm'] at d q
  have e1 : (a':ℝ) < a + 1 := by linarith
  have e2 : (a:ℝ) < a' + 1 := by linarith
  have e1' : a' < a + 1 := by exact_mod_cast e1
  have e2' : a < a' + 1 := by exact_mod_cast e2
  omega

theorem step_at (h0 : 0 ≤ r0) (hr : r0 < r1) {n m : ℕ} (val : ℕ → ℕ → ℕ → ℝ) {x : ℝ × ℝ × ℝ} {l a b : ℕ} (hl : l < n)
    (ha : a < m) (hb : b < m) (h : x ∈ cell r0 r1 n m l a b) : step r0 r1 n m val x = val l a b := by
  have hm : 0 < m := by omega
  obtain ⟨h1, h2, h3⟩ := h
  unfold step
  rw [Finset.sum_eq_single l, Finset.sum_eq_single a, Finset.sum_eq_single b]
  · rw [indicator_of_mem]
    exact ⟨h1, h2, h3⟩
  · intro b' _ hne
    exact indicator_of_notMem (fun hx => hne (div_unique hm h3 hx.2.2)) _
  · intro hn; exact absurd (Finset.mem_range.mpr hb) hn
  · intro a' _ hne
    refine Finset.sum_eq_zero fun b' _ => ?_
    exact indicator_of_notMem (fun hx => hne (div_unique hm h2 hx.2.1)) _
  · intro hn; exact absurd (Finset.mem_range.mpr ha) hn
  · intro l' _ hne
    refine Finset.sum_eq_zero fun a' _ => Finset.sum_eq_zero fun b' _ => indicator_of_notMem (fun hx => hne ?_) _
    obtain ⟨⟨c, d⟩, -⟩ := hx
    obtain ⟨h1a, h1b⟩ := h1
    rcases lt_trichotomy l' l with q | q | q
    · have := cut_mono h0 hr n (Nat.succ_le_of_lt q)
      simp only [Nat.succ_eq_add_one] at *
      linarith
    · exact q
    · have := cut_mono h0 hr n (Nat.succ_le_of_lt q)
      simp only [Nat.succ_eq_add_one] at *
      linarith
  · intro hn; exact absurd (Finset.mem_range.mpr hl) hn

private theorem exists_div {m : ℕ} (hm : 0 < m) {x : ℝ} (hx : 0 ≤ x ∧ x < 1) :
    ∃ a, a < m ∧ ((a:ℝ)/m ≤ x ∧ x < (a+1:ℝ)/m) ∧ |(a + 1/2)/m - x| ≤ 1/m := by
  have hm' : (0:ℝ) < m := by exact_mod_cast hm
  obtain ⟨k, hk1, hk2⟩ : ∃ k : ℕ, (k:ℝ) ≤ m*x ∧ m*x < k + 1 :=
    ⟨⌊m*x⌋₊, Nat.floor_le (by have := hx.1; positivity), Nat.lt_floor_add_one _⟩
  refine ⟨k, ?_, ⟨?_, ?_⟩, ?_⟩
  · have : (k:ℝ) < m := by nlinarith [hx.2]
    exact_mod_cast this
  · rw [div_le_iff₀ hm']; linarith
  · rw [lt_div_iff₀ hm']; linarith
  · have e : (k + 1/2)/m - x = (k + 1/2 - m*x)/m := by field_simp
    rw [e, abs_div, abs_of_pos hm']
    apply div_le_div_of_nonneg_right _ hm'.le
    rw [abs_le]
    constructor <;> linarith

private theorem exists_shell (h0 : 0 ≤ r0) (hr : r0 < r1) {n : ℕ} (hn : 0 < n) {u : ℝ} (hu : 0 ≤ u ∧ u < 1) :
    ∃ l, l < n ∧ (cut r0 r1 n l ≤ u ∧ u < cut r0 r1 n (l+1)) ∧
      |r0 + (l + 1/2)*((r1 - r0)/n) - rad r0 r1 u| ≤ (r1 - r0)/n := by
  have hn' : (0:ℝ) < n := by exact_mod_cast hn
  have hd := cube_lt h0 hr
  have hδ : 0 < (r1 - r0)/n := div_pos (by linarith) hn'
  have hR3 := rad_cube h0 hr hu.1
  obtain ⟨hRlo, hRle⟩ := rad_le h0 hr hu.1 hu.2.le
  have hRhi : rad r0 r1 u < r1 := by
    refine lt_of_le_of_ne hRle fun e => ?_
    rw [e] at hR3
    have := mul_lt_mul_of_pos_right hu.2 hd
    linarith
  obtain ⟨l, hl1, hl2⟩ : ∃ l : ℕ, (l:ℝ) ≤ (rad r0 r1 u - r0)/((r1 - r0)/n) ∧ (rad r0 r1 u - r0)/((r1 - r0)/n) < l + 1 :=
    ⟨⌊(rad r0 r1 u - r0)/((r1 - r0)/n)⌋₊, Nat.floor_le (div_nonneg (by linarith) hδ.le), Nat.lt_floor_add_one _⟩
  rw [le_div_iff₀ hδ] at hl1
  rw [div_lt_iff₀ hδ] at hl2
  refine ⟨l, ?_, ⟨?_, ?_⟩, ?_⟩
  · have e : (r1 - r0) = n*((r1 - r0)/n) := by field_simp
    have : (l:ℝ)*((r1 - r0)/n) < n*((r1 - r0)/n) := by linarith
    have := lt_of_mul_lt_mul_right this hδ.le
    exact_mod_cast this
  · unfold cut
    rw [div_le_iff₀ hd]
    have h1 : rho r0 r1 n l ≤ rad r0 r1 u := by unfold rho; linarith
    have := pow_le_pow_left₀ (rho_nonneg h0 hr n l) h1 3
    linarith
  · unfold cut
    rw [lt_div_iff₀ hd]
    have h1 : rad r0 r1 u < rho r0 r1 n (l+1) := by unfold rho; push_cast; linarith
    have := pow_lt_pow_left₀ h1 (h0.trans hRlo) (by norm_num : 3 ≠ 0)
    linarith
  · rw [abs_le]
    constructor <;> nlinarith

/-- The sums over the cells converge to the integral, if almost everywhere the values in the cells close to a point
are equal to the value at the point. -/
theorem tendsto_sum (h0 : 0 ≤ r0) (hr : r0 < r1) (val : ℕ × ℕ → ℕ → ℕ → ℕ → ℝ) (C : ℝ)
    (hC : ∀ nm l a b, l < nm.1 → a < nm.2 → b < nm.2 → |val nm l a b| ≤ C) (f : ℝ × ℝ × ℝ → ℝ)
    (h : ∀ᵐ x ∂unif3, ∀ᶠ y in 𝓝 (rad r0 r1 x.1, x.2.1, x.2.2), ∀ (nm : ℕ × ℕ) (l a b : ℕ),
      l < nm.1 → a < nm.2 → b < nm.2 →
      y = (r0 + (l + 1/2)*((r1 - r0)/nm.1), ((a + 1/2)/nm.2 : ℝ), ((b + 1/2)/nm.2 : ℝ)) → val nm l a b = f x) :
    Tendsto (fun nm : ℕ × ℕ => ∑ l ∈ Finset.range nm.1, ∑ a ∈ Finset.range nm.2, ∑ b ∈ Finset.range nm.2,
      (rho r0 r1 nm.1 (l+1)^3 - rho r0 r1 nm.1 l^3)/(r1^3 - r0^3)/(nm.2:ℝ)^2*val nm l a b) atTop
      (𝓝 (∫ x, f x ∂unif3)) := by
  have hpos : ∀ᶠ nm : ℕ × ℕ in atTop, 0 < nm.1 ∧ 0 < nm.2 := by
    filter_upwards [eventually_ge_atTop ((1, 1) : ℕ × ℕ)] with nm h
    exact ⟨h.1, h.2⟩
  have t1' : Tendsto (fun nm : ℕ × ℕ => nm.1) atTop atTop := by
    rw [← prod_atTop_atTop_eq]; exact tendsto_fst
  have t2' : Tendsto (fun nm : ℕ × ℕ => nm.2) atTop atTop := by
    rw [← prod_atTop_atTop_eq]; exact tendsto_snd
  have := tendsto_integral_filter_of_dominated_convergence (μ := unif3) (l := (atTop : Filter (ℕ × ℕ)))
    (F := fun (nm : ℕ × ℕ) => step r0 r1 nm.1 nm.2 (val nm)) (f := f)
    (fun _ => |C|) (Eventually.of_forall fun nm => (measurable_step _ _ _).aestronglyMeasurable) ?_
    (integrable_const _) ?_
  · refine this.congr fun nm => ?_
    rw [integral_step h0 hr]
  · filter_upwards [hpos] with nm hnm
    filter_upwards [unif3_ae] with x hx
    obtain ⟨l, hl, c1, -⟩ := exists_shell h0 hr hnm.1 hx.1
    obtain ⟨a, ha, c2, -⟩ := exists_div hnm.2 hx.2.1
    obtain ⟨b, hb, c3, -⟩ := exists_div hnm.2 hx.2.2
    rw [step_at h0 hr _ hl ha hb ⟨c1, c2, c3⟩, Real.norm_eq_abs]
    exact (hC nm l a b hl ha hb).trans (le_abs_self C)
  · filter_upwards [unif3_ae, h] with x hx hx'
    have key : ∀ nm : ℕ × ℕ, ∃ l a b : ℕ, 0 < nm.1 ∧ 0 < nm.2 → l < nm.1 ∧ a < nm.2 ∧ b < nm.2 ∧
      step r0 r1 nm.1 nm.2 (val nm) x = val nm l a b ∧
      |r0 + (l + 1/2)*((r1 - r0)/nm.1) - rad r0 r1 x.1| ≤ (r1 - r0)/nm.1 ∧ |(a + 1/2)/nm.2 - x.2.1| ≤ 1/nm.2 ∧
      |(b + 1/2)/nm.2 - x.2.2| ≤ 1/nm.2 := by
      intro nm
      by_cases hnm : 0 < nm.1 ∧ 0 < nm.2
      · obtain ⟨l, hl, c1, d1⟩ := exists_shell h0 hr hnm.1 hx.1
        obtain ⟨a, ha, c2, d2⟩ := exists_div hnm.2 hx.2.1
        obtain ⟨b, hb, c3, d3⟩ := exists_div hnm.2 hx.2.2
        exact ⟨l, a, b, fun _ => ⟨hl, ha, hb, step_at h0 hr _ hl ha hb ⟨c1, c2, c3⟩, d1, d2, d3⟩⟩
      · exact ⟨0, 0, 0, fun h => absurd h hnm⟩
    choose l a b hk using key
    have t1 : Tendsto (fun nm : ℕ × ℕ => r0 + (l nm + 1/2)*((r1 - r0)/nm.1)) atTop (𝓝 (rad r0 r1 x.1)) := by
      rw [tendsto_iff_dist_tendsto_zero]
      refine squeeze_zero' (Eventually.of_forall fun _ => dist_nonneg) ?_
        ((tendsto_const_div_atTop_nhds_zero_nat (r1 - r0)).comp t1')
      filter_upwards [hpos] with nm h
      exact (hk nm h).2.2.2.2.1
    have t2 : Tendsto (fun nm : ℕ × ℕ => ((a nm + 1/2)/nm.2 : ℝ)) atTop (𝓝 x.2.1) := by
      rw [tendsto_iff_dist_tendsto_zero]
      refine squeeze_zero' (Eventually.of_forall fun _ => dist_nonneg) ?_
        ((tendsto_const_div_atTop_nhds_zero_nat 1).comp t2')
      filter_upwards [hpos] with nm h
      exact (hk nm h).2.2.2.2.2.1
    have t3 : Tendsto (fun nm : ℕ × ℕ => ((b nm + 1/2)/nm.2 : ℝ)) atTop (𝓝 x.2.2) := by
      rw [tendsto_iff_dist_tendsto_zero]
      refine squeeze_zero' (Eventually.of_forall fun _ => dist_nonneg) ?_
        ((tendsto_const_div_atTop_nhds_zero_nat 1).comp t2')
      filter_upwards [hpos] with nm h
      exact (hk nm h).2.2.2.2.2.2
    refine tendsto_const_nhds.congr' ?_
    filter_upwards [hpos, (t1.prodMk_nhds (t2.prodMk_nhds t3)).eventually hx'] with nm h hv
    obtain ⟨q1, q2, q3, q4, -⟩ := hk nm h
    rw [q4, hv nm (l nm) (a nm) (b nm) q1 q2 q3 rfl]

end Magpie.Riemann3
