import Verif.Spec.Prob
import Mathlib.Probability.StrongLaw

/-!
# Means of independent draws with a given law
-/

set_option linter.unusedSimpArgs false
set_option linter.unusedVariables false

namespace Magpie.Lln
open MeasureTheory ProbabilityTheory Filter Topology

variable {Ω E : Type} [MeasurableSpace Ω] [MeasurableSpace E] {P : Measure Ω} [IsProbabilityMeasure P]
  {μ : Measure E} {Y : ℕ → Ω → E}

theorem integral_law (hY : ∀ k, Measurable (Y k)) (hlaw : ∀ k, Measure.map (Y k) P = μ) {h : E → ℝ}
    (hh : Measurable h) (k : ℕ) : ∫ ω, h (Y k ω) ∂P = ∫ y, h y ∂μ := by
  rw [← hlaw k, integral_map (hY k).aemeasurable hh.aestronglyMeasurable]

theorem memLp_bdd (hY : ∀ k, Measurable (Y k)) {h : E → ℝ} (hh : Measurable h) {C : ℝ} (hC : ∀ y, |h y| ≤ C)
    (p : ENNReal) (k : ℕ) : MemLp (fun ω => h (Y k ω)) p P :=
  MemLp.of_bound (hh.comp (hY k)).aestronglyMeasurable C (Filter.Eventually.of_forall fun ω => hC _)

/-- The law of large numbers. -/
theorem mean_tendsto (hY : ∀ k, Measurable (Y k)) (hlaw : ∀ k, Measure.map (Y k) P = μ)
    (hind : Pairwise fun k l => IndepFun (Y k) (Y l) P) {h : E → ℝ} (hh : Measurable h) {C : ℝ}
    (hC : ∀ y, |h y| ≤ C) :
    ∀ᵐ ω ∂P, Tendsto (fun n : ℕ => (∑ k ∈ Finset.range n, h (Y k ω))/n) atTop (𝓝 (∫ y, h y ∂μ)) := by
  have := strong_law_ae_real (μ := P) (fun k ω => h (Y k ω))
    (memLp_one_iff_integrable.mp (memLp_bdd hY hh hC 1 0))
    (fun k l hkl => (hind hkl).comp hh hh) (fun k => ?_)
  · rw [integral_law hY hlaw hh] at this
    exact this
  · refine IdentDistrib.comp (u := h) ⟨(hY k).aemeasurable, (hY 0).aemeasurable, ?_⟩ hh
    rw [hlaw, hlaw]

/-- Chebyshev's inequality for the mean of `n` draws. -/
theorem mean_far (hY : ∀ k, Measurable (Y k)) (hlaw : ∀ k, Measure.map (Y k) P = μ)
    (hind : Pairwise fun k l => IndepFun (Y k) (Y l) P) {h : E → ℝ} (hh : Measurable h) {C : ℝ}
    (hC : ∀ y, |h y| ≤ C) {a b : ℝ} (hab : ∀ᵐ y ∂μ, h y ∈ Set.Icc a b) {n : ℕ} (hn : 0 < n) {ε : ℝ} (hε : 0 < ε) :
    P {ω | ε ≤ |(∑ k ∈ Finset.range n, h (Y k ω))/n - ∫ y, h y ∂μ|}
      ≤ ENNReal.ofReal (((b - a)/2)^2/(n*ε^2)) := by
  have hn' : (0:ℝ) < n := by exact_mod_cast hn
  set S : Ω → ℝ := ∑ k ∈ Finset.range n, fun ω => h (Y k ω) with hS
  have hSa : ∀ ω, S ω = ∑ k ∈ Finset.range n, h (Y k ω) := fun ω => by rw [hS, Finset.sum_apply]
  have hSL : MemLp S 2 P := memLp_finset_sum' _ fun k _ => memLp_bdd hY hh hC 2 k
  have hES : ∫ ω, S ω ∂P = n*∫ y, h y ∂μ := by
    simp only [hSa]
    rw [integral_finset_sum _ fun k _ => memLp_one_iff_integrable.mp (memLp_bdd hY hh hC 1 k)]
    simp only [integral_law hY hlaw hh, Finset.sum_const, Finset.card_range, nsmul_eq_mul]
  have hV : variance S P ≤ n*((b - a)/2)^2 := by
    rw [hS, IndepFun.variance_sum (fun k _ => memLp_bdd hY hh hC 2 k)
      (fun k _ l _ hkl => (hind hkl).comp hh hh)]
    refine le_trans (Finset.sum_le_sum fun k _ => variance_le_sq_of_bounded (a := a) (b := b) ?_
      (hh.comp (hY k)).aemeasurable) (by simp)
    rw [← hlaw k] at hab
    exact ae_of_ae_map (hY k).aemeasurable hab
  have hset : {ω | ε ≤ |(∑ k ∈ Finset.range n, h (Y k ω))/n - ∫ y, h y ∂μ|}
      ⊆ {ω | n*ε ≤ |S ω - ∫ ω, S ω ∂P|} := by
    intro ω hω
    simp only [Set.mem_setOf_eq] at hω ⊢
    rw [hES, hSa]
    have e : (∑ k ∈ Finset.range n, h (Y k ω)) - n*∫ y, h y ∂μ
        = n*((∑ k ∈ Finset.range n, h (Y k ω))/n - ∫ y, h y ∂μ) := by field_simp
    rw [e, abs_mul, abs_of_pos hn']
    exact mul_le_mul_of_nonneg_left hω hn'.le
  refine (measure_mono hset).trans ((meas_ge_le_variance_div_sq hSL (mul_pos hn' hε)).trans ?_)
  refine ENNReal.ofReal_le_ofReal ?_
  rw [div_le_div_iff₀ (by positivity) (by positivity)]
  have := mul_le_mul_of_nonneg_right hV (by positivity : 0 ≤ (n:ℝ)*ε^2)
  nlinarith [this]

/-- Mean and variance of the mean of `n` draws. -/
theorem mean_moments (hY : ∀ k, Measurable (Y k)) (hlaw : ∀ k, Measure.map (Y k) P = μ)
    (hind : Pairwise fun k l => IndepFun (Y k) (Y l) P) {h : E → ℝ} (hh : Measurable h) {C : ℝ}
    (hC : ∀ y, |h y| ≤ C) {n : ℕ} (hn : 0 < n) :
    MemLp (fun ω => (∑ k ∈ Finset.range n, h (Y k ω))/n) 2 P ∧
    ∫ ω, (∑ k ∈ Finset.range n, h (Y k ω))/n ∂P = ∫ y, h y ∂μ ∧
    variance (fun ω => (∑ k ∈ Finset.range n, h (Y k ω))/n) P
      = ((∫ y, h y^2 ∂μ) - (∫ y, h y ∂μ)^2)/n := by
  have hn' : (n:ℝ) ≠ 0 := by exact_mod_cast hn.ne'
  set S : Ω → ℝ := ∑ k ∈ Finset.range n, fun ω => h (Y k ω) with hS
  have hSa : ∀ ω, S ω = ∑ k ∈ Finset.range n, h (Y k ω) := fun ω => by rw [hS, Finset.sum_apply]
  have hSL : MemLp S 2 P := memLp_finset_sum' _ fun k _ => memLp_bdd hY hh hC 2 k
  have hES : ∫ ω, S ω ∂P = n*∫ y, h y ∂μ := by
    simp only [hSa]
    rw [integral_finset_sum _ fun k _ => memLp_one_iff_integrable.mp (memLp_bdd hY hh hC 1 k)]
    simp only [integral_law hY hlaw hh, Finset.sum_const, Finset.card_range, nsmul_eq_mul]
  have hV : variance S P = n*((∫ y, h y^2 ∂μ) - (∫ y, h y ∂μ)^2) := by
    rw [hS, IndepFun.variance_sum (fun k _ => memLp_bdd hY hh hC 2 k)
      (fun k _ l _ hkl => (hind hkl).comp hh hh)]
    rw [Finset.sum_congr rfl (g := fun _ => (∫ y, h y^2 ∂μ) - (∫ y, h y ∂μ)^2)]
    · rw [Finset.sum_const, Finset.card_range, nsmul_eq_mul]
    · intro k _
      rw [variance_eq_sub (memLp_bdd hY hh hC 2 k), integral_law hY hlaw hh]
      congr 1
      exact integral_law hY hlaw (h := fun y => h y^2) (hh.pow_const 2) k
  have e : (fun ω => (∑ k ∈ Finset.range n, h (Y k ω))/n) = fun ω => (1/(n:ℝ))*S ω := by
    funext ω; rw [hSa]; ring
  refine ⟨?_, ?_, ?_⟩
  · rw [e]; exact hSL.const_mul _
  · simp only [← hSa]
    rw [integral_div, hES, mul_div_cancel_left₀ _ hn']
  · rw [e, variance_const_mul, hV]
    field_simp

end Magpie.Lln
