import Verif.Spec.McCubeLimit
import Verif.Proof.SectorLaw
import Mathlib.MeasureTheory.Function.Jacobian
import Mathlib.Analysis.SpecialFunctions.Pow.Deriv
import Mathlib.MeasureTheory.Measure.WithDensity
import Mathlib.MeasureTheory.Function.Floor

/-!
# The random points of a pixel of a shell are uniform in space
-/

set_option linter.unusedSimpArgs false
set_option linter.unusedVariables false

namespace Magpie.Shell3
open Magpie.Spec Magpie.Healpix Real MeasureTheory Set

/-- Coordinates of a triple. -/
noncomputable def tripleEquiv : (ℝ × ℝ × ℝ) ≃ₗ[ℝ] (Fin 3 → ℝ) where
  toFun v := ![v.1, v.2.1, v.2.2]
  invFun f := (f 0, f 1, f 2)
  map_add' v w := by ext i; fin_cases i <;> simp
  map_smul' a v := by ext i; fin_cases i <;> simp
  left_inv v := by simp
  right_inv f := by ext i; fin_cases i <;> simp

/-- The linear map with the given rows. -/
noncomputable def lin3 (a b : ℝ × ℝ × ℝ) (c : ℝ × ℝ × ℝ) : (ℝ × ℝ × ℝ) →L[ℝ] (ℝ × ℝ × ℝ) :=
  let f (a : ℝ × ℝ × ℝ) : (ℝ × ℝ × ℝ) →L[ℝ] ℝ :=
    a.1 • ContinuousLinearMap.fst ℝ ℝ (ℝ × ℝ)
      + (a.2.1 • (ContinuousLinearMap.fst ℝ ℝ ℝ).comp (ContinuousLinearMap.snd ℝ ℝ (ℝ × ℝ))
      + a.2.2 • (ContinuousLinearMap.snd ℝ ℝ ℝ).comp (ContinuousLinearMap.snd ℝ ℝ (ℝ × ℝ)))
  (f a).prod ((f b).prod (f c))

theorem lin3_apply (a b c v : ℝ × ℝ × ℝ) : lin3 a b c v
    = (a.1*v.1 + (a.2.1*v.2.1 + a.2.2*v.2.2), b.1*v.1 + (b.2.1*v.2.1 + b.2.2*v.2.2),
       c.1*v.1 + (c.2.1*v.2.1 + c.2.2*v.2.2)) := by
  simp [lin3]

theorem det_lin3 (a b c : ℝ × ℝ × ℝ) : (lin3 a b c).det
    = a.1*b.2.1*c.2.2 - a.1*b.2.2*c.2.1 - a.2.1*b.1*c.2.2 + a.2.1*b.2.2*c.1 + a.2.2*b.1*c.2.1 - a.2.2*b.2.1*c.1 := by
  unfold ContinuousLinearMap.det
  rw [← LinearMap.det_toMatrix (Module.Basis.ofEquivFun tripleEquiv), Matrix.det_fin_three]
  simp [LinearMap.toMatrix_apply, lin3_apply, tripleEquiv]

/-- Radius of the variate `u`. -/
noncomputable def rad (r0 r1 u : ℝ) : ℝ := (r0^3 + u*(r1^3 - r0^3))^((1:ℝ)/3)

/-- Spherical coordinates around `c`, with the cosine of the colatitude. -/
noncomputable def sph (c : ℝ × ℝ × ℝ) (y : ℝ × ℝ × ℝ) : ℝ × ℝ × ℝ :=
  (c.1 + y.1*(√(1 - y.2.2^2)*cos y.2.1), c.2.1 + y.1*(√(1 - y.2.2^2)*sin y.2.1), c.2.2 + y.1*y.2.2)

/-- The point of the variate `x.1` in direction `x.2`. -/
noncomputable def pt (c : ℝ × ℝ × ℝ) (r0 r1 : ℝ) (x : ℝ × ℝ × ℝ) : ℝ × ℝ × ℝ := sph c (rad r0 r1 x.1, x.2)

variable {c : ℝ × ℝ × ℝ} {r0 r1 : ℝ}

theorem cube_lt (h0 : 0 ≤ r0) (hr : r0 < r1) : 0 < r1^3 - r0^3 := sub_pos.mpr (pow_lt_pow_left₀ hr h0 (by norm_num))

theorem arg_pos (h0 : 0 ≤ r0) (hr : r0 < r1) {u : ℝ} (hu : 0 < u) : 0 < r0^3 + u*(r1^3 - r0^3) := by
  have := cube_lt h0 hr
  positivity

theorem rad_pos (h0 : 0 ≤ r0) (hr : r0 < r1) {u : ℝ} (hu : 0 < u) : 0 < rad r0 r1 u :=
  rpow_pos_of_pos (arg_pos h0 hr hu) _

theorem rad_cube (h0 : 0 ≤ r0) (hr : r0 < r1) {u : ℝ} (hu : 0 ≤ u) : (rad r0 r1 u)^3 = r0^3 + u*(r1^3 - r0^3) := by
  have := cube_lt h0 hr
  unfold rad
  rw [← rpow_natCast, ← rpow_mul (by positivity)]
  norm_num

theorem rad_le (h0 : 0 ≤ r0) (hr : r0 < r1) {u : ℝ} (hu : 0 ≤ u) (hu1 : u ≤ 1) :
    r0 ≤ rad r0 r1 u ∧ rad r0 r1 u ≤ r1 := by
  have hd := cube_lt h0 hr
  have hn : 0 ≤ rad r0 r1 u := rpow_nonneg (by positivity) _
  have e := rad_cube h0 hr hu
  constructor
  · refine (pow_le_pow_iff_left₀ h0 hn (by norm_num : 3 ≠ 0)).mp ?_
    rw [e]; nlinarith
  · refine (pow_le_pow_iff_left₀ hn (by linarith) (by norm_num : 3 ≠ 0)).mp ?_
    rw [e]; nlinarith

theorem sph_inj {r s : ℝ} {v w : ℝ × ℝ} (hr : 0 < r) (hs : 0 < s) (hv : -1 < v.2 ∧ v.2 < 1)
    (hw : -1 < w.2 ∧ w.2 < 1) (hab : |v.1 - w.1| < 2*π) (h : sph c (r, v) = sph c (s, w)) : r = s ∧ v = w := by
  simp only [sph, Prod.mk.injEq, add_right_inj] at h
  obtain ⟨h1, h2, h3⟩ := h
  have pv : 0 < 1 - v.2^2 := by nlinarith
  have pw : 0 < 1 - w.2^2 := by nlinarith
  have sv := sq_sqrt pv.le
  have sw := sq_sqrt pw.le
  have tv := sin_sq_add_cos_sq v.1
  have tw := sin_sq_add_cos_sq w.1
  have e : r = s := by
    have : r^2 = s^2 := by
      have a : ∀ (ρ q a b z : ℝ), q^2 = 1 - z^2 → b^2 + a^2 = 1 → (ρ*(q*a))^2 + (ρ*(q*b))^2 + (ρ*z)^2 = ρ^2 := by
        intro ρ q a b z hq hab
        linear_combination (ρ^2*q^2)*hab + ρ^2*hq
      rw [← a r _ _ _ v.2 sv tv, ← a s _ _ _ w.2 sw tw, h1, h2, h3]
    exact (pow_left_inj₀ hr.le hs.le (by norm_num)).mp this
  subst e
  have z := mul_left_cancel₀ hr.ne' h3
  rw [z] at h1 h2
  have q : 0 < √(1 - w.2^2) := sqrt_pos.mpr pw
  have := Sector.pol_inj (c := (0, 0)) (r := r*√(1 - w.2^2)) (s := r*√(1 - w.2^2)) (a := v.1) (b := w.1)
    (mul_pos hr q) (mul_pos hr q) hab (by
      simp only [Sector.pol, Prod.mk.injEq, add_right_inj]
      exact ⟨by linarith, by linarith⟩)
  exact ⟨rfl, Prod.ext this.2 z⟩

/-- Derivative of `pt`. -/
theorem pt_deriv (h0 : 0 ≤ r0) (hr : r0 < r1) {x : ℝ × ℝ × ℝ} (hx : 0 < x.1) (hz : -1 < x.2.2 ∧ x.2.2 < 1) :
    ∃ L : (ℝ × ℝ × ℝ) →L[ℝ] ℝ × ℝ × ℝ, HasFDerivAt (pt c r0 r1) L x ∧ L.det = (r1^3 - r0^3)/3 := by
  have hpos := arg_pos h0 hr hx
  have hp := rad_pos h0 hr hx
  have hc := rad_cube h0 hr hx.le
  have pz : 0 < 1 - x.2.2^2 := by nlinarith
  have sz := sq_sqrt pz.le
  have hq : 0 < √(1 - x.2.2^2) := sqrt_pos.mpr pz
  set D := r1^3 - r0^3 with hD
  set R := rad r0 r1 x.1 with hR
  set q := √(1 - x.2.2^2) with hqd
  have f1 : HasFDerivAt (fun y : ℝ × ℝ × ℝ => y.1) (ContinuousLinearMap.fst ℝ ℝ (ℝ × ℝ)) x := hasFDerivAt_fst
  have f2 : HasFDerivAt (fun y : ℝ × ℝ × ℝ => y.2.1)
      ((ContinuousLinearMap.fst ℝ ℝ ℝ).comp (ContinuousLinearMap.snd ℝ ℝ (ℝ × ℝ))) x :=
    ((ContinuousLinearMap.fst ℝ ℝ ℝ).comp (ContinuousLinearMap.snd ℝ ℝ (ℝ × ℝ))).hasFDerivAt
  have f3 : HasFDerivAt (fun y : ℝ × ℝ × ℝ => y.2.2)
      ((ContinuousLinearMap.snd ℝ ℝ ℝ).comp (ContinuousLinearMap.snd ℝ ℝ (ℝ × ℝ))) x :=
    ((ContinuousLinearMap.snd ℝ ℝ ℝ).comp (ContinuousLinearMap.snd ℝ ℝ (ℝ × ℝ))).hasFDerivAt
  have d1 := ((f1.mul_const D).const_add (r0^3)).rpow_const (p := (1:ℝ)/3) (Or.inl hpos.ne')
  have d2 := ((f3.pow 2).const_sub 1).sqrt pz.ne'
  have d3 := (hasDerivAt_cos x.2.1).comp_hasFDerivAt x f2
  have d4 := (hasDerivAt_sin x.2.1).comp_hasFDerivAt x f2
  have d6 := ((d1.mul (d2.mul d3)).const_add c.1).prodMk
    (((d1.mul (d2.mul d4)).const_add c.2.1).prodMk ((d1.mul f3).const_add c.2.2))
  have hR' : (r0^3 + x.1*D)^((1:ℝ)/3 - 1) = 1/R^2 := by
    rw [rpow_sub hpos, rpow_one, ← hc]
    rw [show (R^3)^((1:ℝ)/3) = R by rw [hc]; rfl]
    field_simp
  refine ⟨lin3 (D/(3*R^2)*(q*cos x.2.1), -(R*q*sin x.2.1), -(R*(x.2.2/q)*cos x.2.1))
    (D/(3*R^2)*(q*sin x.2.1), R*q*cos x.2.1, -(R*(x.2.2/q)*sin x.2.1)) (D/(3*R^2)*x.2.2, 0, R), ?_, ?_⟩
  · refine HasFDerivAt.congr_fderiv (f := pt c r0 r1) d6 ?_
    have hR0 : (r0^3 + x.1*D)^((1:ℝ)/3) = R := rfl
    refine ContinuousLinearMap.ext fun v => ?_
    rw [lin3_apply]
    simp only [ContinuousLinearMap.prod_apply, ContinuousLinearMap.add_apply, ContinuousLinearMap.smul_apply,
      ContinuousLinearMap.comp_apply, ContinuousLinearMap.neg_apply, ContinuousLinearMap.coe_fst',
      ContinuousLinearMap.coe_snd', smul_eq_mul, ← hqd, hR', hR0, Function.comp_apply]
    refine Prod.ext ?_ (Prod.ext ?_ ?_)
    · simp only
      field_simp
      simp
      try ring
    · simp only
      field_simp
      simp
      try ring
    · simp only
      field_simp
      try ring
  · rw [det_lin3]
    simp only
    have e := sin_sq_add_cos_sq x.2.1
    have e2 : cos x.2.1^2 = 1 - sin x.2.1^2 := by linarith
    field_simp
    ring_nf
    rw [show q^2 = 1 - x.2.2^2 from sz]
    rw [show cos x.2.1^2 = 1 - sin x.2.1^2 from e2]
    ring

instance : (volume : Measure (ℝ × ℝ × ℝ)).IsAddHaarMeasure := by
  haveI : (volume : Measure (ℝ × ℝ)).IsAddHaarMeasure := inferInstance
  rw [Measure.volume_eq_prod]
  exact Measure.prod.instIsAddHaarMeasure _ _

theorem measurable_sph : Measurable (sph c) := by
  unfold sph
  fun_prop

theorem measurable_rad : Measurable (rad r0 r1) := by
  unfold rad
  fun_prop

theorem measurable_pt : Measurable (pt c r0 r1) := by
  unfold pt
  exact measurable_sph.comp ((measurable_rad.comp measurable_fst).prodMk measurable_snd)

theorem map_Ioo (h0 : 0 ≤ r0) (hr : r0 < r1) {S : Set (ℝ × ℝ)} (hm : MeasurableSet S)
    (hS : ∀ v ∈ S, (0 ≤ v.1 ∧ v.1 < 2*π) ∧ (-1 < v.2 ∧ v.2 < 1)) :
    ENNReal.ofReal ((r1^3 - r0^3)/3) •
        Measure.map (pt c r0 r1) ((volume : Measure (ℝ × ℝ × ℝ)).restrict (Ioo 0 1 ×ˢ S))
      = volume.restrict (pt c r0 r1 '' (Ioo 0 1 ×ˢ S)) := by
  have hd := cube_lt h0 hr
  have hpi := pi_pos
  choose! L hL hdet using fun (x : ℝ × ℝ × ℝ) (hx : 0 < x.1 ∧ (-1 < x.2.2 ∧ x.2.2 < 1)) =>
    pt_deriv (c := c) h0 hr hx.1 hx.2
  have hm' : MeasurableSet (Ioo (0:ℝ) 1 ×ˢ S) := measurableSet_Ioo.prod hm
  have hinj : InjOn (pt c r0 r1) (Ioo 0 1 ×ˢ S) := by
    rintro ⟨u, v⟩ ⟨hu, hv⟩ ⟨u', v'⟩ ⟨hu', hv'⟩ h
    simp only at hu hv hu' hv'
    obtain ⟨e1, e2⟩ := sph_inj (rad_pos h0 hr hu.1) (rad_pos h0 hr hu'.1) (hS v hv).2 (hS v' hv').2 (by
      rw [abs_lt]
      constructor <;> linarith [(hS v hv).1.1, (hS v hv).1.2, (hS v' hv').1.1, (hS v' hv').1.2]) h
    have e3 := rad_cube h0 hr hu.1.le
    rw [e1, rad_cube h0 hr hu'.1.le] at e3
    have : (u - u')*(r1^3 - r0^3) = 0 := by linear_combination -e3
    rcases mul_eq_zero.mp this with h | h
    · rw [e2, sub_eq_zero.mp h]
    · exact absurd h hd.ne'
  rw [← map_withDensity_abs_det_fderiv_eq_addHaar volume hm'.nullMeasurableSet
    (fun x hx => (hL x ⟨hx.1.1, (hS _ hx.2).2⟩).hasFDerivWithinAt) hinj, ← Measure.map_smul]
  congr 1
  rw [← withDensity_const]
  refine withDensity_congr_ae ?_
  rw [Filter.EventuallyEq, ae_restrict_iff' hm']
  refine Filter.Eventually.of_forall fun x hx => ?_
  rw [hdet x ⟨hx.1.1, (hS _ hx.2).2⟩, abs_of_pos (by linarith)]

theorem image_ae (h0 : 0 ≤ r0) (hr : r0 < r1) {S : Set (ℝ × ℝ)} (hS : ∀ v ∈ S, -1 < v.2 ∧ v.2 < 1) :
    pt c r0 r1 '' (Ioo 0 1 ×ˢ S) =ᵐ[volume] ShellPart c r0 r1 S := by
  have hd := cube_lt h0 hr
  rw [ae_eq_set]
  constructor
  · convert measure_empty (μ := volume)
    rw [diff_eq_empty]
    rintro _ ⟨⟨u, v⟩, ⟨hu, hv⟩, rfl⟩
    exact ⟨rad r0 r1 u, v, hv, rad_le h0 hr hu.1.le hu.2.le, rfl⟩
  · set s : Set (ℝ × ℝ × ℝ) := ({r0} ∪ {r1}) ×ˢ S with hs
    have hs0 : volume s = 0 := by
      rw [hs, Measure.volume_eq_prod, Measure.prod_prod]
      rw [measure_union_null (by simp) (by simp), zero_mul]
    have hnull : volume (sph c '' s) = 0 := by
      refine addHaar_image_eq_zero_of_differentiableOn_of_addHaar_eq_zero volume ?_ hs0
      rintro x ⟨-, hx⟩
      have hz := hS _ hx
      have pz : 1 - x.2.2^2 ≠ 0 := by nlinarith
      have hq : DifferentiableAt ℝ (fun y : ℝ × ℝ × ℝ => √(1 - y.2.2^2)) x :=
        DifferentiableAt.sqrt (by fun_prop) pz
      refine DifferentiableAt.differentiableWithinAt ?_
      unfold sph
      fun_prop
    refine measure_mono_null ?_ hnull
    rintro x ⟨⟨r, v, hv, hr', rfl⟩, hx⟩
    refine ⟨(r, v), ?_, rfl⟩
    by_contra hcon
    simp only [hs, mem_prod, mem_union, mem_singleton_iff, hv, and_true, not_or] at hcon
    obtain ⟨n1, n2⟩ := hcon
    have a1 : r0 < r := lt_of_le_of_ne hr'.1 (Ne.symm n1)
    have a2 : r < r1 := lt_of_le_of_ne hr'.2 n2
    have b1 := cube_lt h0 a1
    have b2 := cube_lt (h0.trans a1.le) a2
    refine hx ⟨((r^3 - r0^3)/(r1^3 - r0^3), v), ⟨⟨div_pos b1 hd, ?_⟩, hv⟩, ?_⟩
    · simp only; rw [div_lt_one hd]; linarith
    · unfold pt rad
      simp only
      rw [div_mul_cancel₀ _ hd.ne', add_sub_cancel, ← rpow_natCast, ← rpow_mul (by linarith)]
      norm_num [sph]

theorem unif_Ioo : unif = (volume : Measure ℝ).restrict (Ioo 0 1) := by
  unfold unif
  exact Measure.restrict_congr_set Ioo_ae_eq_Ico.symm

/-- The law of the random points of a part of a shell, and its volume. -/
theorem law (h0 : 0 ≤ r0) (hr : r0 < r1) {S : Set (ℝ × ℝ)} (hm : MeasurableSet S)
    (hS : ∀ v ∈ S, (0 ≤ v.1 ∧ v.1 < 2*π) ∧ (-1 < v.2 ∧ v.2 < 1)) (hv : volume S ≠ 0) (hv' : volume S ≠ ⊤) :
    Measure.map (pt c r0 r1) (unif.prod (uniformOn S)) = uniformOn3 (ShellPart c r0 r1 S) ∧
    volume (ShellPart c r0 r1 S) = ENNReal.ofReal ((r1^3 - r0^3)/3)*volume S := by
  have hd := cube_lt h0 hr
  have e := map_Ioo (c := c) h0 hr hm hS
  rw [Measure.restrict_congr_set (image_ae h0 hr fun v hv => (hS v hv).2)] at e
  have hp : unif.prod (uniformOn S) = (volume S)⁻¹ • (volume : Measure (ℝ × ℝ × ℝ)).restrict (Ioo 0 1 ×ˢ S) := by
    unfold uniformOn
    rw [Measure.prod_smul_right, unif_Ioo, Measure.prod_restrict]
    rfl
  have hvol : volume (ShellPart c r0 r1 S) = ENNReal.ofReal ((r1^3 - r0^3)/3)*volume S := by
    have := congrArg (fun m : Measure (ℝ × ℝ × ℝ) => m univ) e
    simp only [Measure.smul_apply, Measure.restrict_apply_univ, smul_eq_mul,
      Measure.map_apply measurable_pt MeasurableSet.univ, preimage_univ] at this
    rw [← this, Measure.volume_eq_prod, Measure.prod_prod]
    simp
  refine ⟨?_, hvol⟩
  unfold uniformOn3
  rw [hp, Measure.map_smul, hvol, ← e, smul_smul, ENNReal.mul_inv (Or.inr hv') (Or.inr hv), mul_right_comm,
    ENNReal.inv_mul_cancel, one_mul]
  · simpa using hd
  · exact ENNReal.ofReal_ne_top

theorem measurable_project : Measurable fun v : ℝ × ℝ => project v.1 v.2 := by
  unfold project
  have hfl : Measurable fun v : ℝ × ℝ => ((⌊v.1/(π/2)⌋ : ℤ) : ℝ) := by
    have h1 : Measurable fun v : ℝ × ℝ => ⌊v.1/(π/2)⌋ := (measurable_fst.div_const _).floor
    exact measurable_from_top.comp h1
  have hs : Measurable fun v : ℝ × ℝ => (if v.2 < 0 then (-1:ℝ) else 1) :=
    Measurable.ite (measurableSet_lt measurable_snd measurable_const) measurable_const measurable_const
  refine Measurable.ite (measurableSet_le (by fun_prop) measurable_const) (by fun_prop) ?_
  simp only
  refine Measurable.prodMk ?_ (hs.mul (by fun_prop))
  refine measurable_fst.sub (Measurable.mul (by fun_prop) ?_)
  exact (measurable_fst.sub (measurable_const.mul hfl)).sub measurable_const

theorem measurableSet_skyPixel (N : ℤ) (c : ℝ × ℝ) : MeasurableSet (SkyPixel N c) := by
  have e : SkyPixel N c = {v | (0 ≤ v.1 ∧ v.1 < 2*π) ∧ (-1 < v.2 ∧ v.2 < 1)} ∩
      ⋃ t : ℤ, {v | |(project v.1 v.2).1 + 2*π*t - c.1| + |(project v.1 v.2).2 - c.2| < halfDiag N} := by
    ext v
    simp only [SkyPixel, InDiamond, mem_setOf_eq, mem_inter_iff, mem_iUnion]
    tauto
  rw [e]
  have hp1 : Measurable fun v : ℝ × ℝ => (project v.1 v.2).1 := measurable_fst.comp measurable_project
  have hp2 : Measurable fun v : ℝ × ℝ => (project v.1 v.2).2 := measurable_snd.comp measurable_project
  refine MeasurableSet.inter ?_ (MeasurableSet.iUnion fun t => measurableSet_lt ?_ measurable_const)
  · exact ((measurableSet_le measurable_const measurable_fst).inter
      (measurableSet_lt measurable_fst measurable_const)).inter
      ((measurableSet_lt measurable_const measurable_snd).inter (measurableSet_lt measurable_snd measurable_const))
  · exact (continuous_abs.measurable.comp ((hp1.add_const _).sub_const _)).add
      (continuous_abs.measurable.comp (hp2.sub_const _))

end Magpie.Shell3
