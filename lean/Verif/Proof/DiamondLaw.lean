import Verif.Proof.Unif
import Verif.Proof.HealpixRandoms
import Mathlib.MeasureTheory.Measure.WithDensity
import Mathlib.MeasureTheory.Integral.IntegralEqImproper
import Mathlib.Analysis.SpecialFunctions.Integrals.Basic

/-!
# The pixel sampler is uniform on the diamond
-/

set_option linter.unusedSimpArgs false

namespace Magpie.Healpix
open Spec Real MeasureTheory Set

/-- CDF of `x`. -/
noncomputable def cdfX (xp d t : ℝ) : ℝ :=
  if t ≤ xp then (t - xp + d)^2/(2*d^2) else 1 - (xp + d - t)^2/(2*d^2)

theorem sampleX_le_iff {xp d t u : ℝ} (hd : 0 < d) (h1 : xp - d ≤ t) (h2 : t ≤ xp + d)
    (hu0 : 0 ≤ u) (hu1 : u < 1) : sampleX xp d u ≤ t ↔ u ≤ cdfX xp d t := by
  unfold sampleX cdfX
  have d2 : 0 < 2*d^2 := by positivity
  by_cases c : u ≤ 1/2
  · rw [if_pos c]
    by_cases e : t ≤ xp
    · rw [if_pos e, le_div_iff₀ d2]
      have hk : xp + d*(√(2*u) - 1) ≤ t ↔ √(2*u) ≤ (t - xp + d)/d := by
        rw [le_div_iff₀ hd]; constructor <;> intro h <;> nlinarith
      rw [hk, sqrt_le_left (div_nonneg (by linarith) hd.le), div_pow, le_div_iff₀ (by positivity)]
      constructor <;> intro h <;> nlinarith
    · rw [if_neg e]
      push Not at e
      have s1 : √(2*u) ≤ 1 := by rw [sqrt_le_one]; linarith
      have g1 : (xp + d - t)^2/(2*d^2) ≤ 1/2 := by
        rw [div_le_iff₀ d2]; nlinarith
      constructor
      · intro _; linarith
      · intro _; nlinarith
  · rw [if_neg c]
    push Not at c
    by_cases e : t ≤ xp
    · rw [if_pos e]
      have s1 : √(2*(1-u)) < 1 := by rw [sqrt_lt' one_pos]; linarith
      have g1 : (t - xp + d)^2/(2*d^2) ≤ 1/2 := by
        rw [div_le_iff₀ d2]; nlinarith
      constructor
      · intro h; nlinarith
      · intro h; linarith
    · rw [if_neg e]
      have hk : xp + d*(1 - √(2*(1-u))) ≤ t ↔ (xp + d - t)/d ≤ √(2*(1-u)) := by
        rw [div_le_iff₀ hd]; constructor <;> intro h <;> nlinarith
      have hk2 : u ≤ 1 - (xp + d - t)^2/(2*d^2) ↔ (xp + d - t)^2/(2*d^2) ≤ 1 - u := by
        constructor <;> intro h <;> linarith
      rw [hk, hk2, le_sqrt (div_nonneg (by linarith) hd.le), div_pow, div_le_iff₀ (by positivity),
        div_le_iff₀ d2]
      · constructor <;> intro h <;> nlinarith
      · linarith

theorem sampleX_bounds {xp d u : ℝ} (hd : 0 < d) (hu0 : 0 ≤ u) (hu1 : u < 1) :
    xp - d ≤ sampleX xp d u ∧ sampleX xp d u < xp + d := by
  unfold sampleX
  by_cases c : u ≤ 1/2
  · rw [if_pos c]
    have s0 := sqrt_nonneg (2*u)
    have s1 : √(2*u) ≤ 1 := by rw [sqrt_le_one]; linarith
    constructor <;> nlinarith
  · rw [if_neg c]
    have s0 : 0 < √(2*(1-u)) := by rw [sqrt_pos]; linarith
    have s1 : √(2*(1-u)) ≤ 1 := by rw [sqrt_le_one]; linarith
    constructor <;> nlinarith

theorem measurable_sampleX (xp d : ℝ) : Measurable (sampleX xp d) := by
  unfold sampleX
  apply Measurable.ite (measurableSet_le measurable_id measurable_const)
  · fun_prop
  · fun_prop

/-- Half height of the diamond above `x`. -/
noncomputable def hgt (xp d x : ℝ) : ℝ := d - |x - xp|

theorem continuous_hgt (xp d : ℝ) : Continuous (hgt xp d) := by unfold hgt; fun_prop

theorem sampleY_eq {xp yp d u v : ℝ} (hd : 0 < d) (hu0 : 0 ≤ u) (hu1 : u < 1) :
    sampleY xp yp d u v
      = (yp - hgt xp d (sampleX xp d u)) + (2*hgt xp d (sampleX xp d u))*v := by
  unfold sampleY hgt
  by_cases c : u ≤ 1/2
  · rw [if_pos c]
    have : sampleX xp d u ≤ xp := by
      unfold sampleX; rw [if_pos c]
      have s1 : √(2*u) ≤ 1 := by rw [sqrt_le_one]; linarith
      nlinarith
    rw [abs_of_nonpos (by linarith)]; ring
  · rw [if_neg c]
    have : xp ≤ sampleX xp d u := by
      unfold sampleX; rw [if_neg c]
      have s1 : √(2*(1-u)) ≤ 1 := by rw [sqrt_le_one]; linarith
      nlinarith
    rw [abs_of_nonneg (by linarith)]; ring

theorem integral_hgt {xp d t : ℝ} (hd : 0 < d) (h1 : xp - d ≤ t) (h2 : t ≤ xp + d) :
    ∫ x in (xp-d)..t, hgt xp d x/d^2 = cdfX xp d t := by
  have hd' : d ≠ 0 := hd.ne'
  have left : ∀ s, xp - d ≤ s → s ≤ xp →
      ∫ x in (xp-d)..s, hgt xp d x/d^2 = (s - xp + d)^2/(2*d^2) := by
    intro s hs1 hs2
    have e : ∫ x in (xp-d)..s, hgt xp d x/d^2 = ∫ x in (xp-d)..s, (x - xp + d)/d^2 := by
      apply intervalIntegral.integral_congr
      intro x hx
      rw [uIcc_of_le hs1] at hx
      simp only [hgt]
      rw [abs_of_nonpos (by linarith [hx.2])]; ring
    rw [e, intervalIntegral.integral_eq_sub_of_hasDerivAt (f := fun x => (x - xp + d)^2/(2*d^2))]
    · field_simp; ring
    · intro x _
      have := (((hasDerivAt_id x).sub_const xp).add_const d).pow 2 |>.div_const (2*d^2)
      simp only [id] at this
      refine this.congr_deriv ?_
      field_simp; ring_nf
    · apply Continuous.intervalIntegrable; fun_prop
  unfold cdfX
  by_cases c : t ≤ xp
  · rw [if_pos c, left t h1 c]
  · rw [if_neg c]
    push Not at c
    have hi : ∀ a b, IntervalIntegrable (fun x => hgt xp d x/d^2) volume a b := by
      intro a b
      apply Continuous.intervalIntegrable
      exact (continuous_hgt xp d).div_const _
    rw [← intervalIntegral.integral_add_adjacent_intervals (hi (xp-d) xp) (hi xp t),
      left xp (by linarith) le_rfl]
    have e : ∫ x in xp..t, hgt xp d x/d^2 = ∫ x in xp..t, (xp + d - x)/d^2 := by
      apply intervalIntegral.integral_congr
      intro x hx
      rw [uIcc_of_le c.le] at hx
      simp only [hgt]
      rw [abs_of_nonneg (by linarith [hx.1])]; ring
    rw [e, intervalIntegral.integral_eq_sub_of_hasDerivAt (f := fun x => -(xp + d - x)^2/(2*d^2))]
    · field_simp; ring
    · intro x _
      have := (((hasDerivAt_id x).const_sub (xp+d)).pow 2).neg.div_const (2*d^2)
      simp only [id] at this
      refine this.congr_deriv ?_
      field_simp; ring_nf
    · apply Continuous.intervalIntegrable; fun_prop

/-- Law of `x`: density `hgt/d^2` on the diagonal. -/
theorem lawX {xp d : ℝ} (hd : 0 < d) :
    Measure.map (sampleX xp d) unif
      = (volume.restrict (Ioc (xp-d) (xp+d))).withDensity fun x => ENNReal.ofReal (hgt xp d x/d^2) := by
  have : IsProbabilityMeasure (Measure.map (sampleX xp d) unif) :=
    Measure.isProbabilityMeasure_map (measurable_sampleX xp d).aemeasurable
  have mid : ∀ t, xp - d ≤ t → t ≤ xp + d →
      ∫⁻ x in Ioc (xp-d) t, ENNReal.ofReal (hgt xp d x/d^2) = ENNReal.ofReal (cdfX xp d t) := by
    intro t h1 h2
    rw [← integral_hgt hd h1 h2, intervalIntegral.integral_of_le h1,
      ofReal_integral_eq_lintegral_ofReal]
    · have : IntegrableOn (fun x => hgt xp d x/d^2) (Icc (xp-d) t) :=
        ((continuous_hgt xp d).div_const _).continuousOn.integrableOn_Icc
      exact this.mono_set Ioc_subset_Icc_self
    · rw [Filter.EventuallyLE, ae_restrict_iff' measurableSet_Ioc]
      refine Filter.Eventually.of_forall fun x hx => ?_
      have : |x - xp| ≤ d := by rw [abs_le]; constructor <;> linarith [hx.1, hx.2]
      apply div_nonneg _ (by positivity)
      unfold hgt; linarith
  apply Measure.ext_of_Iic
  intro t
  rw [Measure.map_apply (measurable_sampleX xp d) measurableSet_Iic,
    withDensity_apply _ measurableSet_Iic, Measure.restrict_restrict measurableSet_Iic]
  have hpre : sampleX xp d ⁻¹' Iic t = {u | sampleX xp d u ≤ t} := rfl
  rw [hpre]
  rcases lt_or_ge t (xp - d) with h | h
  · have : Iic t ∩ Ioc (xp-d) (xp+d) = ∅ := by
      ext x; simp only [mem_inter_iff, mem_Iic, mem_Ioc, mem_empty_iff_false, iff_false]
      rintro ⟨a, b, _⟩; linarith
    rw [this, unif_eq_zero]
    · simp
    · intro u h0 h1 hc
      have := (sampleX_bounds (xp := xp) hd h0 h1).1; linarith
  rcases le_or_gt t (xp + d) with h' | h'
  · have : Iic t ∩ Ioc (xp-d) (xp+d) = Ioc (xp-d) t := by
      ext x; simp only [mem_inter_iff, mem_Iic, mem_Ioc]
      constructor
      · rintro ⟨a, b, _⟩; exact ⟨b, a⟩
      · rintro ⟨a, b⟩; exact ⟨b, a, by linarith⟩
    rw [this, mid t h h']
    apply unif_cdf
    · unfold cdfX
      split
      · positivity
      · have : (xp + d - t)^2/(2*d^2) ≤ 1 := by rw [div_le_one (by positivity)]; nlinarith
        linarith
    · unfold cdfX
      split
      · rw [div_le_one (by positivity)]; nlinarith
      · have : 0 ≤ (xp + d - t)^2/(2*d^2) := by positivity
        linarith
    · intro u h0 h1; exact sampleX_le_iff hd h h' h0 h1
  · have : Iic t ∩ Ioc (xp-d) (xp+d) = Ioc (xp-d) (xp+d) := by
      ext x; simp only [mem_inter_iff, mem_Iic, mem_Ioc]
      constructor
      · rintro ⟨_, b⟩; exact b
      · rintro ⟨a, b⟩; exact ⟨by linarith, a, b⟩
    rw [this, mid _ (by linarith) le_rfl, unif_eq_one]
    · unfold cdfX; rw [if_neg (by linarith)]; simp
    · intro u h0 h1
      have := (sampleX_bounds (xp := xp) hd h0 h1).2; linarith

/-- The open diamond. -/
def diamond (xp yp d : ℝ) : Set (ℝ × ℝ) := {q | |q.1 - xp| + |q.2 - yp| < d}

theorem measurableSet_diamond (xp yp d : ℝ) : MeasurableSet (diamond xp yp d) :=
  measurableSet_lt (by fun_prop) measurable_const

theorem slice_diamond (xp yp d x : ℝ) (A : Set ℝ) :
    volume ({y | (x, y) ∈ diamond xp yp d} ∩ A)
      = volume (A ∩ Ico (yp - hgt xp d x) (yp - hgt xp d x + 2*hgt xp d x)) := by
  have e1 : {y | (x, y) ∈ diamond xp yp d} = Ioo (yp - hgt xp d x) (yp - hgt xp d x + 2*hgt xp d x) := by
    ext y
    simp only [diamond, mem_ofPred_eq, mem_Ioo, hgt]
    rw [add_comm, ← lt_sub_iff_add_lt, abs_lt]
    constructor
    · rintro ⟨a, b⟩; constructor <;> linarith
    · rintro ⟨a, b⟩; constructor <;> linarith
  rw [e1, inter_comm]
  apply measure_congr
  exact (ae_eq_refl A).inter Ioo_ae_eq_Ico

/-- Joint law of the sampled plane point. -/
theorem lawXY {xp yp d : ℝ} (hd : 0 < d) :
    Measure.map (fun r : ℝ × ℝ => (sampleX xp d r.1, sampleY xp yp d r.1 r.2)) unif2
      = ENNReal.ofReal (1/(2*d^2)) • volume.restrict (diamond xp yp d) := by
  have hmX := measurable_sampleX xp d
  -- almost surely the variates are in `[0,1)`, replace `sampleY`
  have hae : (fun r : ℝ × ℝ => (sampleX xp d r.1, sampleY xp yp d r.1 r.2)) =ᵐ[unif2]
      fun r => (sampleX xp d r.1,
        (yp - hgt xp d (sampleX xp d r.1)) + (2*hgt xp d (sampleX xp d r.1))*r.2) := by
    have : unif2 = volume.restrict (Ico (0:ℝ) 1 ×ˢ Ico (0:ℝ) 1) := by
      unfold unif2 unif
      rw [Measure.prod_restrict]; rfl
    rw [this, Filter.EventuallyEq, ae_restrict_iff' (measurableSet_Ico.prod measurableSet_Ico)]
    refine Filter.Eventually.of_forall fun r hr => ?_
    rw [sampleY_eq hd hr.1.1 hr.1.2]
  rw [Measure.map_congr hae]
  have hhgt : Measurable (hgt xp d) := (continuous_hgt xp d).measurable
  have hm : Measurable fun r : ℝ × ℝ => (sampleX xp d r.1,
        (yp - hgt xp d (sampleX xp d r.1)) + (2*hgt xp d (sampleX xp d r.1))*r.2) := by
    fun_prop
  have hm' : Measurable fun r : ℝ × ℝ => (r.1, (yp - hgt xp d r.1) + (2*hgt xp d r.1)*r.2) := by
    fun_prop
  ext A hA
  rw [Measure.map_apply hm hA]
  unfold unif2
  rw [Measure.prod_apply (hm hA)]
  set g : ℝ → ENNReal := fun x =>
    unif ((fun v => (x, (yp - hgt xp d x) + (2*hgt xp d x)*v)) ⁻¹' A) with hg
  have hgm : Measurable g := measurable_measure_prodMk_left (hm' hA)
  have e1 : ∫⁻ u, unif (Prod.mk u ⁻¹' ((fun r : ℝ × ℝ => (sampleX xp d r.1,
        (yp - hgt xp d (sampleX xp d r.1)) + (2*hgt xp d (sampleX xp d r.1))*r.2)) ⁻¹' A)) ∂unif
      = ∫⁻ u, g (sampleX xp d u) ∂unif := rfl
  rw [e1, ← lintegral_map hgm hmX, lawX hd,
    lintegral_withDensity_eq_lintegral_mul _ (by fun_prop) hgm]
  rw [Measure.smul_apply, smul_eq_mul, Measure.restrict_apply hA]
  have hD : volume (A ∩ diamond xp yp d) = ∫⁻ x, volume (Prod.mk x ⁻¹' (A ∩ diamond xp yp d)) := by
    rw [Measure.volume_eq_prod, Measure.prod_apply (hA.inter (measurableSet_diamond xp yp d))]
  rw [hD, ← lintegral_const_mul' _ _ ENNReal.ofReal_ne_top,
    ← lintegral_indicator measurableSet_Ioc]
  congr 1
  ext x
  have hs : Prod.mk x ⁻¹' (A ∩ diamond xp yp d)
      = {y | (x, y) ∈ diamond xp yp d} ∩ (Prod.mk x ⁻¹' A) := by
    ext y; simp [and_comm]
  rw [hs, slice_diamond]
  rcases le_or_gt (hgt xp d x) 0 with h | h
  · rw [Ico_eq_empty (by linarith)]
    simp only [inter_empty, measure_empty, mul_zero]
    by_cases hx : x ∈ Ioc (xp-d) (xp+d)
    · rw [indicator_of_mem hx]
      have : hgt xp d x/d^2 ≤ 0 := div_nonpos_of_nonpos_of_nonneg h (by positivity)
      simp [ENNReal.ofReal_of_nonpos this]
    · rw [indicator_of_notMem hx]
  · have hx : x ∈ Ioc (xp-d) (xp+d) := by
      unfold hgt at h
      have := abs_lt.mp (show |x - xp| < d by linarith)
      constructor <;> linarith [this.1, this.2]
    rw [indicator_of_mem hx, ← unif_affine _ (by linarith : 0 < 2*hgt xp d x)]
    rw [Pi.mul_apply, hg, ← mul_assoc, ← ENNReal.ofReal_mul (by positivity)]
    have : 1/(2*d^2)*(2*hgt xp d x) = hgt xp d x/d^2 := by field_simp
    rw [this]
    rfl

theorem volume_diamond {xp yp d : ℝ} (hd : 0 < d) :
    volume (diamond xp yp d) = ENNReal.ofReal (2*d^2) := by
  have h := lawXY (xp := xp) (yp := yp) hd
  have hp : (Measure.map (fun r : ℝ × ℝ => (sampleX xp d r.1, sampleY xp yp d r.1 r.2)) unif2)
      univ = 1 := by
    have : IsProbabilityMeasure unif2 := by unfold unif2; infer_instance
    have hm : Measurable (fun r : ℝ × ℝ => (sampleX xp d r.1, sampleY xp yp d r.1 r.2)) := by
      have := measurable_sampleX xp d
      have h2 : Measurable fun r : ℝ × ℝ => sampleY xp yp d r.1 r.2 := by
        unfold sampleY
        apply Measurable.ite (measurableSet_le measurable_fst measurable_const) <;> fun_prop
      fun_prop
    rw [Measure.map_apply hm MeasurableSet.univ]; simp
  rw [h, Measure.smul_apply, Measure.restrict_apply MeasurableSet.univ, univ_inter, smul_eq_mul] at hp
  have hpos : 0 < 2*d^2 := by positivity
  have : ENNReal.ofReal (2*d^2) * (ENNReal.ofReal (1/(2*d^2)) * volume (diamond xp yp d))
      = ENNReal.ofReal (2*d^2) := by rw [hp, mul_one]
  rw [← mul_assoc, ← ENNReal.ofReal_mul hpos.le, mul_one_div_cancel hpos.ne',
    ENNReal.ofReal_one, one_mul] at this
  exact this

end Magpie.Healpix
