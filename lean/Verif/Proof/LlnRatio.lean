import Verif.Proof.Lln
import Mathlib.Probability.Independence.Integration

/-!
# The mean over those of `n` independent draws that fall in a set
-/

set_option linter.unusedSimpArgs false
set_option linter.unusedVariables false

namespace Magpie.Lln
open MeasureTheory ProbabilityTheory Filter Topology

variable {Ω E : Type} [MeasurableSpace Ω] [MeasurableSpace E] {P : Measure Ω} [IsProbabilityMeasure P]
  {μ : Measure E} {Y : ℕ → Ω → E}

/-- One over the number of draws in the set if draw `k` is one of them. -/
noncomputable def rest (g : E → ℝ) (Y : ℕ → Ω → E) (n k : ℕ) (ω : Ω) : ℝ :=
  (1 + ∑ l ∈ (Finset.range n).erase k, g (Y l ω))⁻¹

theorem rest_bound {g : E → ℝ} (hg : ∀ y, g y = 0 ∨ g y = 1) (n k : ℕ) (ω : Ω) :
    0 < rest g Y n k ω ∧ rest g Y n k ω ≤ 1 := by
  have h : 0 ≤ ∑ l ∈ (Finset.range n).erase k, g (Y l ω) :=
    Finset.sum_nonneg fun l _ => by rcases hg (Y l ω) with e | e <;> rw [e] <;> norm_num
  unfold rest
  refine ⟨by positivity, inv_le_one_of_one_le₀ (by linarith)⟩

theorem measurable_rest (hY : ∀ k, Measurable (Y k)) {g : E → ℝ} (hg : Measurable g) (n k : ℕ) :
    Measurable (rest g Y n k) := by
  unfold rest
  exact (measurable_const.add (Finset.measurable_fun_sum _ fun l _ => hg.comp (hY l))).inv

/-- Draw `k` is independent of the number of other draws in the set. -/
theorem indep_rest (hY : ∀ k, Measurable (Y k)) (hind : iIndepFun Y P) {g : E → ℝ} (hg : Measurable g)
    (n k : ℕ) {f : E → ℝ} (hf : Measurable f) : IndepFun (fun ω => f (Y k ω)) (rest g Y n k) P := by
  have h := hind.indepFun_finset {k} ((Finset.range n).erase k) (by simp) hY
  have h' := h.comp (φ := fun y : ({k} : Finset ℕ) → E => f (y ⟨k, by simp⟩))
    (ψ := fun y : ((Finset.range n).erase k : Finset ℕ) → E => (1 + ∑ l, g (y l))⁻¹)
    (hf.comp (measurable_pi_apply _))
    (measurable_const.add (Finset.measurable_fun_sum _ fun l _ => hg.comp (measurable_pi_apply l))).inv
  refine h'.congr ?_ ?_
  · exact Eventually.of_forall fun ω => rfl
  · refine Eventually.of_forall fun ω => ?_
    simp only [Function.comp, rest]
    rw [Finset.sum_coe_sort ((Finset.range n).erase k) (fun l => g (Y l ω))]

/-- A draw divided by the number of draws in the set. -/
theorem div_count {g : E → ℝ} (hg : ∀ y, g y = 0 ∨ g y = 1) {h : E → ℝ} (hgh : ∀ y, g y = 0 → h y = 0)
    {n k : ℕ} (hk : k < n) (ω : Ω) :
    h (Y k ω)/(∑ l ∈ Finset.range n, g (Y l ω)) = h (Y k ω)*rest g Y n k ω := by
  rcases hg (Y k ω) with e | e
  · rw [hgh _ e]; simp
  · rw [← Finset.add_sum_erase _ _ (Finset.mem_range.mpr hk), e]
    rfl

theorem integral_ratio (hY : ∀ k, Measurable (Y k)) (hlaw : ∀ k, Measure.map (Y k) P = μ)
    (hind : iIndepFun Y P) {g : E → ℝ} (hgm : Measurable g) (hg : ∀ y, g y = 0 ∨ g y = 1)
    {h : E → ℝ} (hh : Measurable h) {C : ℝ} (hC : ∀ y, |h y| ≤ C) (hgh : ∀ y, g y = 0 → h y = 0) (n : ℕ) :
    Integrable (fun ω => (∑ k ∈ Finset.range n, h (Y k ω))/∑ k ∈ Finset.range n, g (Y k ω)) P ∧
    ∫ ω, (∑ k ∈ Finset.range n, h (Y k ω))/(∑ k ∈ Finset.range n, g (Y k ω)) ∂P
      = (∫ y, h y ∂μ)*∑ k ∈ Finset.range n, ∫ ω, rest g Y n k ω ∂P := by
  have hI : ∀ k, Integrable (fun ω => h (Y k ω)*rest g Y n k ω) P := by
    intro k
    refine memLp_one_iff_integrable.mp (MemLp.of_bound
      ((hh.comp (hY k)).mul (measurable_rest hY hgm n k)).aestronglyMeasurable C
      (Eventually.of_forall fun ω => ?_))
    obtain ⟨a, b⟩ := rest_bound (Y := Y) hg n k ω
    rw [Real.norm_eq_abs]
    change |h (Y k ω)*rest g Y n k ω| ≤ C
    rw [abs_mul, abs_of_pos a]
    calc |h (Y k ω)| * rest g Y n k ω ≤ |h (Y k ω)| * 1 := mul_le_mul_of_nonneg_left b (abs_nonneg _)
      _ ≤ C := by rw [mul_one]; exact hC _
  have e : (fun ω => (∑ k ∈ Finset.range n, h (Y k ω))/∑ k ∈ Finset.range n, g (Y k ω))
      = fun ω => ∑ k ∈ Finset.range n, h (Y k ω)*rest g Y n k ω := by
    funext ω
    rw [Finset.sum_div]
    exact Finset.sum_congr rfl fun k hk => div_count hg hgh (Finset.mem_range.mp hk) ω
  rw [e]
  refine ⟨integrable_finset_sum _ fun k _ => hI k, ?_⟩
  rw [integral_finset_sum _ fun k _ => hI k, Finset.mul_sum]
  refine Finset.sum_congr rfl fun k _ => ?_
  rw [(indep_rest hY hind hgm n k hh).integral_fun_mul_eq_mul_integral
    (hh.comp (hY k)).aestronglyMeasurable (measurable_rest hY hgm n k).aestronglyMeasurable,
    integral_law hY hlaw hh]

/-- The probability that some draw is in the set. -/
theorem count_prob (hY : ∀ k, Measurable (Y k)) (hlaw : ∀ k, Measure.map (Y k) P = μ)
    (hind : iIndepFun Y P) {g : E → ℝ} (hgm : Measurable g) (hg : ∀ y, g y = 0 ∨ g y = 1) (n : ℕ) :
    P.real {ω | (∑ k ∈ Finset.range n, g (Y k ω)) ≠ 0} = 1 - (1 - ∫ y, g y ∂μ)^n := by
  have hμ : IsProbabilityMeasure μ := by
    rw [← hlaw 0]; exact Measure.isProbabilityMeasure_map (hY 0).aemeasurable
  have hZ : MeasurableSet {y | g y = 0} := hgm (measurableSet_singleton 0)
  have hset : {ω | (∑ k ∈ Finset.range n, g (Y k ω)) = 0} = ⋂ k ∈ Finset.range n, Y k ⁻¹' {y | g y = 0} := by
    ext ω
    simp only [Set.mem_setOf_eq, Set.mem_iInter, Set.mem_preimage]
    rw [Finset.sum_eq_zero_iff_of_nonneg]
    intro k _
    rcases hg (Y k ω) with e | e <;> rw [e] <;> norm_num
  have h1 := hind.measure_inter_preimage_eq_mul (Finset.range n) (sets := fun _ => {y | g y = 0})
    (fun _ _ => hZ)
  have hm : ∀ k, P (Y k ⁻¹' {y | g y = 0}) = μ {y | g y = 0} := by
    intro k
    rw [← hlaw k, Measure.map_apply (hY k) hZ]
  have hI : μ.real {y | g y = 0} = 1 - ∫ y, g y ∂μ := by
    have e : g = Set.indicator {y | g y = 0}ᶜ fun _ => (1:ℝ) := by
      funext y
      rcases hg y with e | e
      · rw [Set.indicator_of_notMem (by simpa using e), e]
      · rw [Set.indicator_of_mem (by simp [e]), e]
    have : ∫ y, g y ∂μ = μ.real {y | g y = 0}ᶜ := by
      conv_lhs => rw [e]
      rw [integral_indicator hZ.compl]
      simp
    rw [this, probReal_compl_eq_one_sub hZ]
    ring
  have hK : Measurable fun ω => ∑ k ∈ Finset.range n, g (Y k ω) :=
    Finset.measurable_fun_sum _ fun k _ => hgm.comp (hY k)
  have hS : MeasurableSet {ω | (∑ k ∈ Finset.range n, g (Y k ω)) = 0} := hK (measurableSet_singleton 0)
  have hc : {ω | (∑ k ∈ Finset.range n, g (Y k ω)) ≠ 0} = {ω | (∑ k ∈ Finset.range n, g (Y k ω)) = 0}ᶜ := rfl
  rw [hc, probReal_compl_eq_one_sub hS, ← hI]
  congr 1
  rw [hset]
  simp only [measureReal_def, h1, hm, Finset.prod_const, Finset.card_range, ENNReal.toReal_pow]

/-- The mean over the draws in the set is unbiased, given that there is one. -/
theorem ratio_mean (hY : ∀ k, Measurable (Y k)) (hlaw : ∀ k, Measure.map (Y k) P = μ)
    (hind : iIndepFun Y P) {g : E → ℝ} (hgm : Measurable g) (hg : ∀ y, g y = 0 ∨ g y = 1)
    {h : E → ℝ} (hh : Measurable h) {C : ℝ} (hC : ∀ y, |h y| ≤ C) (hgh : ∀ y, g y = 0 → h y = 0)
    (n : ℕ) (hne : ∫ y, g y ∂μ ≠ 0) :
    ∫ ω in {ω | (∑ k ∈ Finset.range n, g (Y k ω)) ≠ 0},
        (∑ k ∈ Finset.range n, h (Y k ω))/(∑ k ∈ Finset.range n, g (Y k ω)) ∂P
      = (∫ y, h y ∂μ)/(∫ y, g y ∂μ)*P.real {ω | (∑ k ∈ Finset.range n, g (Y k ω)) ≠ 0} := by
  have hK : Measurable fun ω => ∑ k ∈ Finset.range n, g (Y k ω) :=
    Finset.measurable_fun_sum _ fun k _ => hgm.comp (hY k)
  have hS : MeasurableSet {ω | (∑ k ∈ Finset.range n, g (Y k ω)) ≠ 0} :=
    (hK (measurableSet_singleton 0)).compl
  obtain ⟨-, i1⟩ := integral_ratio hY hlaw hind hgm hg hh hC hgh n
  obtain ⟨-, i2⟩ := integral_ratio hY hlaw hind hgm hg hgm (C := 1)
    (fun y => by rcases hg y with e | e <;> rw [e] <;> norm_num) (fun y e => e) n
  have e1 : ∫ ω in {ω | (∑ k ∈ Finset.range n, g (Y k ω)) ≠ 0},
        (∑ k ∈ Finset.range n, h (Y k ω))/(∑ k ∈ Finset.range n, g (Y k ω)) ∂P
      = ∫ ω, (∑ k ∈ Finset.range n, h (Y k ω))/(∑ k ∈ Finset.range n, g (Y k ω)) ∂P := by
    refine setIntegral_eq_integral_of_forall_compl_eq_zero fun ω hω => ?_
    simp only [Set.mem_setOf_eq, not_not] at hω
    rw [hω, div_zero]
  have e2 : ∫ ω, (∑ k ∈ Finset.range n, g (Y k ω))/(∑ k ∈ Finset.range n, g (Y k ω)) ∂P
      = P.real {ω | (∑ k ∈ Finset.range n, g (Y k ω)) ≠ 0} := by
    have : (fun ω => (∑ k ∈ Finset.range n, g (Y k ω))/(∑ k ∈ Finset.range n, g (Y k ω)))
        = Set.indicator {ω | (∑ k ∈ Finset.range n, g (Y k ω)) ≠ 0} fun _ => (1:ℝ) := by
      funext ω
      by_cases e : (∑ k ∈ Finset.range n, g (Y k ω)) = 0
      · rw [Set.indicator_of_notMem (by simpa using e), e, div_zero]
      · rw [Set.indicator_of_mem (by simpa using e), div_self e]
    rw [this, integral_indicator hS]
    simp
  rw [e1, i1, ← e2, i2]
  field_simp

end Magpie.Lln
