import Verif.Spec.Sector
import Verif.Proof.HealpixSky
import Mathlib.MeasureTheory.Function.Jacobian
import Mathlib.Analysis.SpecialFunctions.Sqrt
import Mathlib.Analysis.SpecialFunctions.Trigonometric.Angle
import Mathlib.Analysis.SpecialFunctions.Trigonometric.Deriv

/-!
# The random points of a polar pixel are uniform in the plane
-/

set_option linter.unusedSimpArgs false
set_option linter.unusedVariables false

namespace Magpie.Sector
open Magpie.Spec Magpie.Healpix Real MeasureTheory Set

/-- The point of the variates `(u, v)`. -/
noncomputable def pt (c : ℝ × ℝ) (r0 r1 p0 p1 : ℝ) (x : ℝ × ℝ) : ℝ × ℝ :=
  (c.1 + √(r0^2 + x.1*(r1^2 - r0^2))*cos (p0 + x.2*(p1 - p0)),
   c.2 + √(r0^2 + x.1*(r1^2 - r0^2))*sin (p0 + x.2*(p1 - p0)))

/-- Polar coordinates around `c`. -/
noncomputable def pol (c : ℝ × ℝ) (y : ℝ × ℝ) : ℝ × ℝ := (c.1 + y.1*cos y.2, c.2 + y.1*sin y.2)

theorem pol_inj {c : ℝ × ℝ} {r s a b : ℝ} (hr : 0 < r) (hs : 0 < s) (hab : |a - b| < 2*π)
    (h : pol c (r, a) = pol c (s, b)) : r = s ∧ a = b := by
  simp only [pol, Prod.mk.injEq, add_right_inj] at h
  have e : r = s := by
    have e1 := sin_sq_add_cos_sq a
    have e2 := sin_sq_add_cos_sq b
    have : r^2 = s^2 := by
      linear_combination (r*cos a + s*cos b)*h.1 + (r*sin a + s*sin b)*h.2 - r^2*e1 + s^2*e2
    exact (pow_left_inj₀ hr.le hs.le (by norm_num)).mp this
  refine ⟨e, ?_⟩
  rw [e] at h
  have hc := mul_left_cancel₀ hs.ne' h.1
  have hsn := mul_left_cancel₀ hs.ne' h.2
  have hang := Real.Angle.cos_sin_inj hc hsn
  rw [Real.Angle.angle_eq_iff_two_pi_dvd_sub] at hang
  obtain ⟨k, hk⟩ := hang
  have hpi := pi_pos
  rw [hk, abs_mul, abs_of_pos (by positivity : (0:ℝ) < 2*π)] at hab
  have : |(k:ℝ)| < 1 := by
    by_contra hcon
    push Not at hcon
    nlinarith
  have k0 : k = 0 := by
    have : |k| < 1 := by exact_mod_cast this
    exact Int.abs_lt_one_iff.mp this
  rw [k0] at hk
  simp at hk
  linarith

variable {c : ℝ × ℝ} {r0 r1 p0 p1 : ℝ}

theorem rad_pos (h0 : 0 ≤ r0) (hr : r0 < r1) {u : ℝ} (hu : 0 < u) : 0 < r0^2 + u*(r1^2 - r0^2) := by
  have : 0 < r1^2 - r0^2 := by nlinarith
  positivity

theorem pt_injOn (h0 : 0 ≤ r0) (hr : r0 < r1) (hp : p0 < p1) (hw : p1 ≤ p0 + 2*π) :
    InjOn (pt c r0 r1 p0 p1) (Ioo 0 1 ×ˢ Ioo 0 1) := by
  rintro ⟨u, v⟩ ⟨hu, hv⟩ ⟨u', v'⟩ ⟨hu', hv'⟩ h
  simp only at hu hv hu' hv'
  have hd : 0 < r1^2 - r0^2 := by nlinarith
  obtain ⟨e1, e2⟩ := pol_inj (c := c) (r := √(r0^2 + u*(r1^2 - r0^2))) (s := √(r0^2 + u'*(r1^2 - r0^2)))
    (a := p0 + v*(p1 - p0)) (b := p0 + v'*(p1 - p0)) (sqrt_pos.mpr (rad_pos h0 hr hu.1))
    (sqrt_pos.mpr (rad_pos h0 hr hu'.1)) (by
      rw [show p0 + v*(p1 - p0) - (p0 + v'*(p1 - p0)) = (v - v')*(p1 - p0) by ring, abs_mul,
        abs_of_pos (sub_pos.mpr hp)]
      have : |v - v'| < 1 := by rw [abs_lt]; constructor <;> linarith [hv.1, hv.2, hv'.1, hv'.2]
      nlinarith [sub_pos.mpr hp]) h
  rw [sqrt_inj (rad_pos h0 hr hu.1).le (rad_pos h0 hr hu'.1).le] at e1
  have f1 : u = u' := by
    have : (u - u')*(r1^2 - r0^2) = 0 := by linear_combination e1
    rcases mul_eq_zero.mp this with h | h
    · linarith
    · exact absurd h hd.ne'
  have f2 : v = v' := by
    have : (v - v')*(p1 - p0) = 0 := by linear_combination e2
    rcases mul_eq_zero.mp this with h | h
    · linarith
    · linarith
  rw [f1, f2]

/-- Derivative of `pt`. -/
theorem pt_deriv (h0 : 0 ≤ r0) (hr : r0 < r1) {x : ℝ × ℝ} (hx : 0 < x.1) :
    ∃ L : ℝ × ℝ →L[ℝ] ℝ × ℝ, HasFDerivAt (pt c r0 r1 p0 p1) L x ∧ L.det = (r1^2 - r0^2)/2*(p1 - p0) := by
  have hpos := rad_pos h0 hr hx
  set R := √(r0^2 + x.1*(r1^2 - r0^2)) with hR
  have hRp : 0 < R := sqrt_pos.mpr hpos
  set a := p0 + x.2*(p1 - p0) with ha
  have d1 : HasFDerivAt (fun y : ℝ × ℝ => r0^2 + y.1*(r1^2 - r0^2))
      ((r1^2 - r0^2) • ContinuousLinearMap.fst ℝ ℝ ℝ) x :=
    ((hasFDerivAt_fst (𝕜 := ℝ) (p := x)).mul_const (r1^2 - r0^2)).const_add _
  have d2 : HasFDerivAt (fun y : ℝ × ℝ => p0 + y.2*(p1 - p0))
      ((p1 - p0) • ContinuousLinearMap.snd ℝ ℝ ℝ) x :=
    ((hasFDerivAt_snd (𝕜 := ℝ) (p := x)).mul_const (p1 - p0)).const_add _
  have d3 := d1.sqrt hpos.ne'
  have d4 := (hasDerivAt_cos a).comp_hasFDerivAt x d2
  have d5 := (hasDerivAt_sin a).comp_hasFDerivAt x d2
  have d6 := ((d3.mul d4).const_add c.1).prodMk ((d3.mul d5).const_add c.2)
  refine ⟨lin2 ((r1^2 - r0^2)/(2*R)*cos a) (-(R*sin a*(p1 - p0))) ((r1^2 - r0^2)/(2*R)*sin a)
    (R*cos a*(p1 - p0)), ?_, ?_⟩
  · refine HasFDerivAt.congr_fderiv (f := pt c r0 r1 p0 p1) d6 ?_
    ext
    · simp [lin2, ← hR, ← ha]; ring
    · simp [lin2, ← hR, ← ha]; ring
    · simp [lin2, ← hR, ← ha]; ring
    · simp [lin2, ← hR, ← ha]; ring
  · rw [det_lin2]
    have e := sin_sq_add_cos_sq a
    field_simp
    linear_combination (r1^2 - r0^2)*(p1 - p0)*e

theorem measurable_pt : Measurable (pt c r0 r1 p0 p1) := by
  unfold pt
  fun_prop

theorem map_Ioo (h0 : 0 ≤ r0) (hr : r0 < r1) (hp : p0 < p1) (hw : p1 ≤ p0 + 2*π) :
    ENNReal.ofReal ((r1^2 - r0^2)/2*(p1 - p0)) •
        Measure.map (pt c r0 r1 p0 p1) ((volume : Measure (ℝ × ℝ)).restrict (Ioo 0 1 ×ˢ Ioo 0 1))
      = volume.restrict (pt c r0 r1 p0 p1 '' (Ioo 0 1 ×ˢ Ioo 0 1)) := by
  have hd : 0 < r1^2 - r0^2 := by nlinarith
  choose! L hL hdet using fun (x : ℝ × ℝ) (hx : 0 < x.1) => pt_deriv (c := c) (p0 := p0) (p1 := p1) h0 hr hx
  have hm : MeasurableSet (Ioo (0:ℝ) 1 ×ˢ Ioo (0:ℝ) 1) := measurableSet_Ioo.prod measurableSet_Ioo
  rw [← map_withDensity_abs_det_fderiv_eq_addHaar volume hm.nullMeasurableSet
    (fun x hx => (hL x hx.1.1).hasFDerivWithinAt) (pt_injOn h0 hr hp hw), ← Measure.map_smul]
  congr 1
  rw [← withDensity_const]
  refine withDensity_congr_ae ?_
  rw [Filter.EventuallyEq, ae_restrict_iff' hm]
  refine Filter.Eventually.of_forall fun x hx => ?_
  rw [hdet x hx.1.1, abs_of_pos (mul_pos (by linarith) (by linarith))]

theorem unif2_Ioo : unif2 = (volume : Measure (ℝ × ℝ)).restrict (Ioo 0 1 ×ˢ Ioo 0 1) := by
  unfold unif2 unif
  rw [Measure.prod_restrict, Measure.volume_eq_prod]
  exact Measure.restrict_congr_set (Measure.set_prod_ae_eq Ioo_ae_eq_Ico.symm Ioo_ae_eq_Ico.symm)

theorem polar_null (c : ℝ × ℝ) (s : Set (ℝ × ℝ)) (hs : volume s = 0) : volume (pol c '' s) = 0 := by
  refine addHaar_image_eq_zero_of_differentiableOn_of_addHaar_eq_zero volume ?_ hs
  unfold pol
  fun_prop

theorem image_ae (h0 : 0 ≤ r0) (hr : r0 < r1) (hp : p0 < p1) :
    pt c r0 r1 p0 p1 '' (Ioo 0 1 ×ˢ Ioo 0 1) =ᵐ[volume] Sector c r0 r1 p0 p1 := by
  have hd : 0 < r1^2 - r0^2 := by nlinarith
  have hpp : 0 < p1 - p0 := by linarith
  rw [ae_eq_set]
  constructor
  · convert measure_empty (μ := volume)
    rw [diff_eq_empty]
    rintro _ ⟨⟨u, v⟩, ⟨hu, hv⟩, rfl⟩
    simp only at hu hv
    refine ⟨√(r0^2 + u*(r1^2 - r0^2)), p0 + v*(p1 - p0), ⟨?_, ?_⟩, ⟨?_, ?_⟩, rfl⟩
    · rw [le_sqrt h0 (rad_pos h0 hr hu.1).le]; nlinarith [hu.1]
    · rw [sqrt_le_left (by linarith)]; nlinarith [hu.2]
    · nlinarith [hv.1]
    · nlinarith [hv.2]
  · set s : Set (ℝ × ℝ) := ({r0} ×ˢ univ) ∪ ({r1} ×ˢ univ) ∪ ((univ ×ˢ {p0}) ∪ (univ ×ˢ {p1})) with hs
    have hs0 : volume s = 0 := by
      have z : ∀ a : ℝ, volume (({a} : Set ℝ) ×ˢ (univ : Set ℝ)) = 0 := fun a => by
        rw [Measure.volume_eq_prod, Measure.prod_prod]; simp
      have z' : ∀ a : ℝ, volume ((univ : Set ℝ) ×ˢ ({a} : Set ℝ)) = 0 := fun a => by
        rw [Measure.volume_eq_prod, Measure.prod_prod]; simp
      rw [hs, measure_union_null_iff, measure_union_null_iff, measure_union_null_iff]
      exact ⟨⟨z _, z _⟩, z' _, z' _⟩
    refine measure_mono_null ?_ (polar_null c s hs0)
    rintro x ⟨⟨r, phi, hr', hphi, rfl⟩, hx⟩
    refine ⟨(r, phi), ?_, rfl⟩
    by_contra hcon
    simp only [hs, mem_union, mem_prod, mem_singleton_iff, mem_univ, and_true, true_and, not_or] at hcon
    obtain ⟨⟨n1, n2⟩, n3, n4⟩ := hcon
    have a1 : r0 < r := lt_of_le_of_ne hr'.1 (Ne.symm n1)
    have a2 : r < r1 := lt_of_le_of_ne hr'.2 n2
    have b1 : p0 < phi := lt_of_le_of_ne hphi.1 (Ne.symm n3)
    have b2 : phi < p1 := lt_of_le_of_ne hphi.2 n4
    refine hx ⟨((r^2 - r0^2)/(r1^2 - r0^2), (phi - p0)/(p1 - p0)), ⟨⟨?_, ?_⟩, ⟨?_, ?_⟩⟩, ?_⟩
    · exact div_pos (by nlinarith) hd
    · rw [div_lt_one hd]; nlinarith
    · exact div_pos (by linarith) hpp
    · rw [div_lt_one hpp]; linarith
    · unfold pt
      simp only
      rw [div_mul_cancel₀ _ hd.ne', div_mul_cancel₀ _ hpp.ne', add_sub_cancel, add_sub_cancel,
        sqrt_sq (by linarith)]

/-- The law of the random points of a polar pixel, and its area. -/
theorem law (h0 : 0 ≤ r0) (hr : r0 < r1) (hp : p0 < p1) (hw : p1 ≤ p0 + 2*π) :
    Measure.map (pt c r0 r1 p0 p1) unif2 = uniformOn (Sector c r0 r1 p0 p1) ∧
    volume (Sector c r0 r1 p0 p1) = ENNReal.ofReal (sectorArea r0 r1 p0 p1) := by
  have hd : 0 < (r1^2 - r0^2)/2*(p1 - p0) := mul_pos (by nlinarith) (by linarith)
  have e := map_Ioo (c := c) h0 hr hp hw
  rw [← unif2_Ioo, Measure.restrict_congr_set (image_ae h0 hr hp)] at e
  have hprob : Measure.map (pt c r0 r1 p0 p1) unif2 univ = 1 := by
    rw [Measure.map_apply measurable_pt MeasurableSet.univ, preimage_univ]
    unfold unif2; exact measure_univ
  have hv : volume (Sector c r0 r1 p0 p1) = ENNReal.ofReal ((r1^2 - r0^2)/2*(p1 - p0)) := by
    have := congrArg (fun m : Measure (ℝ × ℝ) => m univ) e
    simp only [Measure.smul_apply, hprob, Measure.restrict_apply_univ, smul_eq_mul, mul_one] at this
    exact this.symm
  refine ⟨?_, by rw [hv, sectorArea_eq, mul_comm]⟩
  unfold uniformOn
  rw [hv, ← e, smul_smul, ENNReal.inv_mul_cancel, one_smul]
  · simpa using hd
  · exact ENNReal.ofReal_ne_top

end Magpie.Sector
