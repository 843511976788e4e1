import Mathlib.MeasureTheory.Integral.DominatedConvergence
import Mathlib.MeasureTheory.Measure.Lebesgue.Basic
import Mathlib.MeasureTheory.Integral.Bochner.Set
import Mathlib.Analysis.SpecificLimits.Basic

/-!
# Sums over the cells of a rectangle as integrals

A rectangle is divided into `m × m` equal cells. The sum over the cells of a value times the area of the cell is the
integral of a step function.
-/

set_option linter.unusedSimpArgs false
set_option linter.unusedVariables false

namespace Magpie.Plane
open MeasureTheory Filter Topology Set

variable {x0 a y0 b : ℝ}

/-- Cell `l` of the division of `[x0, x0 + a)`. -/
def cell (x0 a : ℝ) (m l : ℕ) : Set ℝ := Ico (x0 + l*(a/m)) (x0 + (l+1)*(a/m))

/-- The rectangle. -/
def box (x0 a y0 b : ℝ) : Set (ℝ × ℝ) := Ico x0 (x0 + a) ×ˢ Ico y0 (y0 + b)

/-- The step function with value `val k l` in cell `(k, l)` (row, column). -/
noncomputable def step (x0 a y0 b : ℝ) (m : ℕ) (val : ℕ → ℕ → ℝ) (x : ℝ × ℝ) : ℝ :=
  ∑ k ∈ Finset.range m, ∑ l ∈ Finset.range m, indicator (cell x0 a m l ×ˢ cell y0 b m k) (fun _ => val k l) x

theorem measurableSet_cell (m l : ℕ) : MeasurableSet (cell x0 a m l) := measurableSet_Ico

theorem measurable_step (m : ℕ) (val : ℕ → ℕ → ℝ) : Measurable (step x0 a y0 b m val) := by
  unfold step
  refine Finset.measurable_sum _ fun k _ => Finset.measurable_sum _ fun l _ => ?_
  exact measurable_const.indicator ((measurableSet_cell _ _).prod (measurableSet_cell _ _))

theorem cell_subset (ha : 0 < a) {m l : ℕ} (hl : l < m) : cell x0 a m l ⊆ Ico x0 (x0 + a) := by
  have hm' : (0:ℝ) < m := by exact_mod_cast (by omega : 0 < m)
  have hl' : (l:ℝ) + 1 ≤ m := by exact_mod_cast hl
  have hd : 0 < a/m := div_pos ha hm'
  refine Ico_subset_Ico ?_ ?_
  · have : 0 ≤ (l:ℝ)*(a/m) := by positivity
    linarith
  · have : ((l:ℝ)+1)*(a/m) ≤ m*(a/m) := mul_le_mul_of_nonneg_right hl' hd.le
    have e : (m:ℝ)*(a/m) = a := by field_simp
    linarith

theorem volume_cell (ha : 0 < a) (m l : ℕ) : volume.real (cell x0 a m l) = a/m := by
  unfold cell Measure.real
  have hd : 0 ≤ a/m := div_nonneg ha.le (by positivity)
  rw [Real.volume_Ico, ENNReal.toReal_ofReal (by nlinarith)]
  ring

instance : IsFiniteMeasure (volume.restrict (box x0 a y0 b)) := by
  refine ⟨?_⟩
  rw [Measure.restrict_apply_univ]
  unfold box
  rw [Measure.volume_eq_prod, Measure.prod_prod, Real.volume_Ico, Real.volume_Ico]
  exact ENNReal.mul_lt_top ENNReal.ofReal_lt_top ENNReal.ofReal_lt_top

theorem integral_step (ha : 0 < a) (hb : 0 < b) (m : ℕ) (val : ℕ → ℕ → ℝ) :
    ∫ x in box x0 a y0 b, step x0 a y0 b m val x = ∑ k ∈ Finset.range m, ∑ l ∈ Finset.range m, a/m*(b/m)*val k l := by
  have hs : ∀ k l : ℕ, MeasurableSet (cell x0 a m l ×ˢ cell y0 b m k) :=
    fun k l => (measurableSet_cell _ _).prod (measurableSet_cell _ _)
  unfold step
  rw [integral_finset_sum]
  · refine Finset.sum_congr rfl fun k hk => ?_
    rw [integral_finset_sum]
    · refine Finset.sum_congr rfl fun l hl => ?_
      rw [Finset.mem_range] at hk hl
      rw [integral_indicator (hs k l), setIntegral_const, smul_eq_mul]
      congr 1
      rw [measureReal_restrict_apply (hs k l), inter_eq_self_of_subset_left
        (show cell x0 a m l ×ˢ cell y0 b m k ⊆ box x0 a y0 b from prod_mono (cell_subset ha hl) (cell_subset hb hk)), Measure.volume_eq_prod, measureReal_prod_prod,
        volume_cell ha, volume_cell hb]
    · intro l _
      exact (integrable_const _).indicator (hs k l)
  · intro k _
    refine integrable_finset_sum _ fun l _ => ?_
    exact (integrable_const _).indicator (hs k l)

theorem cell_unique (ha : 0 < a) {m k l : ℕ} (hm : 0 < m) {x : ℝ} (h : x ∈ cell x0 a m k) (h' : x ∈ cell x0 a m l) :
    k = l := by
  have hm' : (0:ℝ) < m := by exact_mod_cast hm
  have hd : 0 < a/m := div_pos ha hm'
  have e1 : (k:ℝ)*(a/m) < (l+1)*(a/m) := by have := h.1; have := h'.2; linarith
  have e2 : (l:ℝ)*(a/m) < (k+1)*(a/m) := by have := h.2; have := h'.1; linarith
  have e1' : k < l + 1 := by exact_mod_cast lt_of_mul_lt_mul_right e1 hd.le
  have e2' : l < k + 1 := by exact_mod_cast lt_of_mul_lt_mul_right e2 hd.le
  omega

theorem step_at (ha : 0 < a) (hb : 0 < b) {m : ℕ} (val : ℕ → ℕ → ℝ) {x : ℝ × ℝ} {k l : ℕ} (hk : k < m) (hl : l < m)
    (h1 : x.1 ∈ cell x0 a m l) (h2 : x.2 ∈ cell y0 b m k) : step x0 a y0 b m val x = val k l := by
  unfold step
  rw [Finset.sum_eq_single k, Finset.sum_eq_single l]
  · exact indicator_of_mem (show x ∈ cell x0 a m l ×ˢ cell y0 b m k from ⟨h1, h2⟩) _
  · intro l' _ hne
    exact indicator_of_notMem (fun hx => hne (cell_unique ha (by omega) hx.1 h1)) _
  · intro hn; exact absurd (Finset.mem_range.mpr hl) hn
  · intro k' _ hne
    exact Finset.sum_eq_zero fun l' _ => indicator_of_notMem (fun hx => hne (cell_unique hb (by omega) hx.2 h2)) _
  · intro hn; exact absurd (Finset.mem_range.mpr hk) hn

theorem exists_cell (ha : 0 < a) {m : ℕ} (hm : 0 < m) {x : ℝ} (hx : x ∈ Ico x0 (x0 + a)) :
    ∃ l < m, x ∈ cell x0 a m l ∧ |x0 + (l + 1/2)*(a/m) - x| ≤ a/m := by
  have hm' : (0:ℝ) < m := by exact_mod_cast hm
  have hd : 0 < a/m := div_pos ha hm'
  have e : (m:ℝ)*(a/m) = a := by field_simp
  obtain ⟨l, hl1, hl2⟩ : ∃ l : ℕ, (l:ℝ) ≤ (x - x0)/(a/m) ∧ (x - x0)/(a/m) < l + 1 :=
    ⟨⌊(x - x0)/(a/m)⌋₊, Nat.floor_le (div_nonneg (by linarith [hx.1]) hd.le), Nat.lt_floor_add_one _⟩
  rw [le_div_iff₀ hd] at hl1
  rw [div_lt_iff₀ hd] at hl2
  refine ⟨l, ?_, ⟨by linarith, by linarith⟩, ?_⟩
  · have : (l:ℝ)*(a/m) < m*(a/m) := by have := hx.2; linarith
    exact_mod_cast lt_of_mul_lt_mul_right this hd.le
  · rw [abs_le]
    constructor <;> nlinarith

/-- The sums over the cells converge to the integral, if almost everywhere the values in the cells close to a point
are equal to the value at the point. -/
theorem tendsto_sum (ha : 0 < a) (hb : 0 < b) (val : ℕ → ℕ → ℕ → ℝ) (C : ℝ)
    (hC : ∀ m k l, k < m → l < m → |val m k l| ≤ C) (f : ℝ × ℝ → ℝ)
    (h : ∀ᵐ x, ∀ᶠ y in 𝓝 x, ∀ m k l : ℕ, k < m → l < m →
      y = (x0 + (l + 1/2)*(a/m), y0 + (k + 1/2)*(b/m)) → val m k l = f x) :
    AEStronglyMeasurable f (volume.restrict (box x0 a y0 b)) ∧
    Tendsto (fun m : ℕ => ∑ k ∈ Finset.range m, ∑ l ∈ Finset.range m, a/m*(b/m)*val m k l) atTop
      (𝓝 (∫ x in box x0 a y0 b, f x)) := by
  have hmem : ∀ᵐ x ∂volume.restrict (box x0 a y0 b), x ∈ box x0 a y0 b :=
    ae_restrict_mem (measurableSet_Ico.prod measurableSet_Ico)
  have hlim : ∀ᵐ x ∂volume.restrict (box x0 a y0 b),
      Tendsto (fun m : ℕ => step x0 a y0 b m (val m) x) atTop (𝓝 (f x)) := by
    filter_upwards [hmem, ae_restrict_of_ae h] with x hx hx'
    have key : ∀ m : ℕ, ∃ k l : ℕ, 0 < m → k < m ∧ l < m ∧ step x0 a y0 b m (val m) x = val m k l ∧
      |x0 + (l + 1/2)*(a/m) - x.1| ≤ a/m ∧ |y0 + (k + 1/2)*(b/m) - x.2| ≤ b/m := by
      intro m
      rcases Nat.eq_zero_or_pos m with rfl | hm
      · exact ⟨0, 0, fun h => absurd h (lt_irrefl _)⟩
      · obtain ⟨l, hl, c1, c3⟩ := exists_cell ha hm hx.1
        obtain ⟨k, hk, c2, c4⟩ := exists_cell hb hm hx.2
        exact ⟨k, l, fun _ => ⟨hk, hl, step_at ha hb _ hk hl c1 c2, c3, c4⟩⟩
    choose k l hkl using key
    have t1 : Tendsto (fun m : ℕ => x0 + (l m + 1/2)*(a/m)) atTop (𝓝 x.1) := by
      rw [tendsto_iff_dist_tendsto_zero]
      refine squeeze_zero' (Eventually.of_forall fun _ => dist_nonneg) ?_ (tendsto_const_div_atTop_nhds_zero_nat a)
      filter_upwards [eventually_gt_atTop 0] with m hm
      exact (hkl m hm).2.2.2.1
    have t2 : Tendsto (fun m : ℕ => y0 + (k m + 1/2)*(b/m)) atTop (𝓝 x.2) := by
      rw [tendsto_iff_dist_tendsto_zero]
      refine squeeze_zero' (Eventually.of_forall fun _ => dist_nonneg) ?_ (tendsto_const_div_atTop_nhds_zero_nat b)
      filter_upwards [eventually_gt_atTop 0] with m hm
      exact (hkl m hm).2.2.2.2
    refine tendsto_const_nhds.congr' ?_
    filter_upwards [eventually_gt_atTop 0, (t1.prodMk_nhds t2).eventually hx'] with m hm hv
    obtain ⟨a, b, c, -⟩ := hkl m hm
    rw [c, hv m (k m) (l m) a b rfl]
  refine ⟨aestronglyMeasurable_of_tendsto_ae atTop (fun m => (measurable_step m _).aestronglyMeasurable) hlim, ?_⟩
  have := tendsto_integral_of_dominated_convergence (μ := volume.restrict (box x0 a y0 b))
    (F := fun (m : ℕ) => step x0 a y0 b m (val m)) (f := f)
    (fun _ => |C|) (fun m => (measurable_step m _).aestronglyMeasurable) (integrable_const _) ?_ hlim
  · refine this.congr fun m => ?_
    rw [integral_step ha hb]
  · intro m
    filter_upwards [hmem] with x hx
    rcases Nat.eq_zero_or_pos m with rfl | hm
    · simp [step]
    · obtain ⟨l, hl, c1, -⟩ := exists_cell ha hm hx.1
      obtain ⟨k, hk, c2, -⟩ := exists_cell hb hm hx.2
      rw [step_at ha hb _ hk hl c1 c2, Real.norm_eq_abs]
      exact (hC m k l hk hl).trans (le_abs_self C)

/-- The share of the cells in a set converges to the area of the set. -/
theorem tendsto_area (ha : 0 < a) (hb : 0 < b) (val : ℕ → ℕ → ℕ → ℝ) (hC : ∀ m k l, val m k l = 0 ∨ val m k l = 1)
    (S : Set (ℝ × ℝ)) (h : ∀ᵐ x, ∀ᶠ y in 𝓝 x, ∀ m k l : ℕ, k < m → l < m →
      y = (x0 + (l + 1/2)*(a/m), y0 + (k + 1/2)*(b/m)) → val m k l = S.indicator (fun _ => 1) x) :
    Tendsto (fun m : ℕ => ∑ k ∈ Finset.range m, ∑ l ∈ Finset.range m, a/m*(b/m)*val m k l) atTop
      (𝓝 (volume (box x0 a y0 b ∩ S)).toReal) := by
  obtain ⟨hm, ht⟩ := tendsto_sum ha hb val 1 (fun m k l _ _ => by rcases hC m k l with e | e <;> rw [e] <;> norm_num)
    (S.indicator fun _ => 1) h
  have hS : NullMeasurableSet S (volume.restrict (box x0 a y0 b)) := by
    have e : S = (S.indicator fun _ => (1:ℝ)) ⁻¹' {1} := by
      ext x
      simp only [mem_preimage, mem_singleton_iff, indicator_apply]
      by_cases hx : x ∈ S <;> simp [hx]
    rw [e]
    exact hm.aemeasurable.nullMeasurable (measurableSet_singleton 1)
  rw [integral_indicator₀ hS, setIntegral_const, smul_eq_mul, mul_one] at ht
  convert ht using 2
  unfold Measure.real
  rw [Measure.restrict_apply₀ hS, inter_comm]

end Magpie.Plane
