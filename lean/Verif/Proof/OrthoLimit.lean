import Verif.Spec.OrthoLimit
import Verif.Proof.Heal2Ortho
import Verif.Proof.PlaneRiemann
import Verif.Proof.ShellLaw
import Verif.Props.HealpixSky
import Mathlib.Analysis.SpecialFunctions.Complex.Arg

/-!
# HEALPix pixels in the orthographic view

Almost every point of the disc shows a direction inside a HEALPix pixel, and the points close to it show the same pixel.
-/

set_option linter.unusedSimpArgs false
set_option linter.unusedVariables false

namespace Magpie.Ortho
open Real Magpie.Spec Magpie.Healpix MeasureTheory Filter Topology Set

/-! ## The sky in longitude and cosine of the colatitude -/

theorem project_continuousAt {v : ℝ × ℝ} (h1 : ∀ k : ℤ, v.1 ≠ π/2*k) (h2 : |v.2| ≠ 2/3) :
    ContinuousAt (fun v : ℝ × ℝ => project v.1 v.2) v := by
  have hpi := pi_pos
  rcases lt_or_gt_of_ne h2 with h | h
  · have e : (fun v : ℝ × ℝ => project v.1 v.2) =ᶠ[𝓝 v] fun v => (v.1, 3*π/8*v.2) := by
      have : ∀ᶠ w : ℝ × ℝ in 𝓝 v, |w.2| < 2/3 :=
        (continuous_abs.comp continuous_snd).continuousAt.eventually (gt_mem_nhds h)
      filter_upwards [this] with w hw
      unfold project
      rw [if_pos hw.le]
    refine ContinuousAt.congr ?_ e.symm
    fun_prop
  · set k : ℤ := ⌊v.1/(π/2)⌋ with hk
    have hlo : (k:ℝ) < v.1/(π/2) := lt_of_le_of_ne (Int.floor_le _) fun hh => by
      apply h1 k
      rw [hh]
      field_simp
    have hhi : v.1/(π/2) < k + 1 := Int.lt_floor_add_one _
    set s : ℝ := if v.2 < 0 then -1 else 1 with hs
    have hv0 : v.2 ≠ 0 := by
      intro h0
      rw [h0] at h
      norm_num at h
    have e : (fun v : ℝ × ℝ => project v.1 v.2) =ᶠ[𝓝 v] fun v =>
        (v.1 - (2 - √(3*(1 - |v.2|)) - 1)*(v.1 - π/2*k - π/4), s*(π/4*(2 - √(3*(1 - |v.2|))))) := by
      have a1 : ∀ᶠ w : ℝ × ℝ in 𝓝 v, 2/3 < |w.2| :=
        (continuous_abs.comp continuous_snd).continuousAt.eventually (lt_mem_nhds h)
      have c : ContinuousAt (fun w : ℝ × ℝ => w.1/(π/2)) v := by fun_prop
      have a2 : ∀ᶠ w : ℝ × ℝ in 𝓝 v, (k:ℝ) < w.1/(π/2) := c.eventually (lt_mem_nhds hlo)
      have a3 : ∀ᶠ w : ℝ × ℝ in 𝓝 v, w.1/(π/2) < k + 1 := c.eventually (gt_mem_nhds hhi)
      have a4 : ∀ᶠ w : ℝ × ℝ in 𝓝 v, (w.2 < 0 ↔ v.2 < 0) := by
        rcases lt_or_gt_of_ne hv0 with g | g
        · filter_upwards [continuous_snd.continuousAt.eventually (gt_mem_nhds g)] with w hw
          exact ⟨fun _ => g, fun _ => hw⟩
        · filter_upwards [continuous_snd.continuousAt.eventually (lt_mem_nhds g)] with w hw
          exact ⟨fun hh => absurd hh (not_lt.mpr (le_of_lt hw)), fun hh => absurd hh (not_lt.mpr g.le)⟩
      filter_upwards [a1, a2, a3, a4] with w b1 b2 b3 b4
      have hf : ⌊w.1/(π/2)⌋ = k := Int.floor_eq_iff.mpr ⟨b2.le, b3⟩
      unfold project
      rw [if_neg (not_le.mpr b1)]
      simp only [hf, b4, hs]
    refine ContinuousAt.congr ?_ e.symm
    fun_prop

/-- The interior of the sky region of a pixel, but for some lines. -/
theorem skyPixel_nhds {N : ℤ} {c v : ℝ × ℝ} (hv : v ∈ SkyPixel N c) (h1 : ∀ k : ℤ, v.1 ≠ π/2*k) (h2 : |v.2| ≠ 2/3) :
    ∀ᶠ w in 𝓝 v, w ∈ SkyPixel N c := by
  obtain ⟨⟨a1, a2⟩, ⟨b1, b2⟩, t, ht⟩ := hv
  have a1' : 0 < v.1 := lt_of_le_of_ne a1 fun hh => h1 0 (by rw [← hh]; simp)
  have hc := project_continuousAt h1 h2
  have hcont : ContinuousAt (fun v : ℝ × ℝ =>
      |(project v.1 v.2).1 + 2*π*t - c.1| + |(project v.1 v.2).2 - c.2|) v := by
    have c1 : ContinuousAt (fun v : ℝ × ℝ => (project v.1 v.2).1) v := continuous_fst.continuousAt.comp hc
    have c2 : ContinuousAt (fun v : ℝ × ℝ => (project v.1 v.2).2) v := continuous_snd.continuousAt.comp hc
    exact ((c1.add continuousAt_const).sub continuousAt_const).abs.add (c2.sub continuousAt_const).abs
  filter_upwards [continuous_fst.continuousAt.eventually (lt_mem_nhds a1'),
    continuous_fst.continuousAt.eventually (gt_mem_nhds a2), continuous_snd.continuousAt.eventually (lt_mem_nhds b1),
    continuous_snd.continuousAt.eventually (gt_mem_nhds b2), hcont.eventually (gt_mem_nhds ht)] with w c1 c2 c3 c4 c5
  exact ⟨⟨c1.le, c2⟩, ⟨c3, c4⟩, t, c5⟩

theorem valid_of_lt {N : ℤ} (hN : 1 ≤ N) {p : ℕ} (hp : p < 12*N.toNat^2) : ValidPix N p := by
  refine ⟨by positivity, ?_⟩
  have : (p:ℤ) < 12*(N.toNat:ℤ)^2 := by exact_mod_cast hp
  rwa [Int.toNat_of_nonneg (by omega)] at this

/-- All directions but those at the poles. -/
def sky0 : Set (ℝ × ℝ) := Ico 0 (2*π) ×ˢ Ioo (-1) 1

/-- The directions that are in no pixel have no solid angle. -/
theorem volume_uncovered {N : ℤ} (hN : 1 ≤ N) :
    volume {v ∈ sky0 | ∀ p < 12*N.toNat^2, ∀ c, pix2xy p N = .ok c → v ∉ SkyPixel N c} = 0 := by
  have hpi := pi_pos
  have key : ∀ p : ℕ, ∃ c, p < 12*N.toNat^2 → pix2xy p N = .ok c ∧ volume (SkyPixel N c) = ENNReal.ofReal (pixArea N) := by
    intro p
    by_cases hp : p < 12*N.toNat^2
    · obtain ⟨c, hc⟩ := Props.C88_pix N p hN (valid_of_lt hN hp)
      exact ⟨c, fun _ => hc⟩
    · exact ⟨0, fun h => absurd h hp⟩
  choose c hc using key
  set U : Set (ℝ × ℝ) := ⋃ p ∈ Finset.range (12*N.toNat^2), SkyPixel N (c p) with hU
  have hsub : U ⊆ sky0 := by
    rw [hU]
    refine iUnion₂_subset fun p _ v hv => ?_
    exact ⟨hv.1, hv.2.1⟩
  have hN' : (0:ℝ) < N := by exact_mod_cast (by omega : 0 < N)
  have hvolU : volume U = ENNReal.ofReal (4*π) := by
    rw [hU, measure_biUnion_finset]
    · rw [Finset.sum_congr rfl fun p hp => (hc p (Finset.mem_range.mp hp)).2, Finset.sum_const, Finset.card_range,
        nsmul_eq_mul, ← ENNReal.ofReal_natCast, ← ENNReal.ofReal_mul (by positivity)]
      congr 1
      have : ((N.toNat:ℕ):ℝ) = N := by
        have : ((N.toNat:ℕ):ℤ) = N := Int.toNat_of_nonneg (by omega)
        exact_mod_cast this
      unfold pixArea
      push_cast
      rw [this]
      field_simp
    · intro p hp q hq hpq
      have hp := Finset.mem_range.mp hp
      have hq := Finset.mem_range.mp hq
      exact Props.C88_disjoint N p q hN (valid_of_lt hN hp) (valid_of_lt hN hq) (by exact_mod_cast hpq) _ _
        (hc p hp).1 (hc q hq).1
    · intro p _
      exact Shell3.measurableSet_skyPixel N (c p)
  have hUm : MeasurableSet U := Finset.measurableSet_biUnion _ fun p _ => Shell3.measurableSet_skyPixel N (c p)
  have hsky : volume sky0 = ENNReal.ofReal (4*π) := by
    unfold sky0
    rw [Measure.volume_eq_prod, Measure.prod_prod, Real.volume_Ico, Real.volume_Ioo,
      ← ENNReal.ofReal_mul (by linarith)]
    congr 1
    ring
  have hdiff : volume (sky0 \ U) = 0 := by
    rw [measure_diff hsub hUm.nullMeasurableSet (by rw [hvolU]; exact ENNReal.ofReal_ne_top), hsky, hvolU, tsub_self]
  refine measure_mono_null ?_ hdiff
  rintro v ⟨h1, h2⟩
  refine ⟨h1, ?_⟩
  rw [hU]
  simp only [mem_iUnion, Finset.mem_range, not_exists]
  intro p hp
  exact h2 p hp (c p) (hc p hp).1

/-- The directions that are not inside a pixel, and some lines. -/
def skyBad (N : ℤ) : Set (ℝ × ℝ) :=
  {v | (∃ k : ℤ, v.1 = π/2*k) ∨ |v.2| = 2/3 ∨ (v ∈ sky0 ∧ ∀ p < 12*N.toNat^2, ∀ c, pix2xy p N = .ok c → v ∉ SkyPixel N c)}

theorem volume_skyBad {N : ℤ} (hN : 1 ≤ N) : volume (skyBad N) = 0 := by
  have h1 : volume {v : ℝ × ℝ | ∃ k : ℤ, v.1 = π/2*k} = 0 := by
    have e : {v : ℝ × ℝ | ∃ k : ℤ, v.1 = π/2*k} = ⋃ k : ℤ, ({π/2*(k:ℝ)} : Set ℝ) ×ˢ univ := by
      ext v; simp
    rw [e, measure_iUnion_null_iff]
    intro k
    rw [Measure.volume_eq_prod, Measure.prod_prod, Real.volume_singleton, zero_mul]
  have h2 : volume {v : ℝ × ℝ | |v.2| = 2/3} = 0 := by
    have e : {v : ℝ × ℝ | |v.2| = 2/3} ⊆ (univ : Set ℝ) ×ˢ ({2/3, -(2/3)} : Set ℝ) := by
      intro v hv
      refine ⟨mem_univ _, ?_⟩
      rcases (abs_eq (by norm_num)).mp hv with h | h <;> rw [h] <;> simp
    refine measure_mono_null e ?_
    rw [Measure.volume_eq_prod, Measure.prod_prod, (Set.toFinite ({2/3, -(2/3)} : Set ℝ)).measure_zero, mul_zero]
  have e : skyBad N = {v : ℝ × ℝ | ∃ k : ℤ, v.1 = π/2*k} ∪ ({v : ℝ × ℝ | |v.2| = 2/3} ∪
      {v ∈ sky0 | ∀ p < 12*N.toNat^2, ∀ c, pix2xy p N = .ok c → v ∉ SkyPixel N c}) := by
    ext v; rfl
  rw [e]
  exact measure_union_null h1 (measure_union_null h2 (volume_uncovered hN))

/-! ## The view -/

/-- Depth of the point of the sphere seen at `x`. -/
noncomputable def depth (R : ℝ) (x : ℝ × ℝ) : ℝ := √(R^2 - x.1^2 - x.2^2)

/-- The first two components of the direction seen at `x`, as a complex number. -/
noncomputable def dxy (R : ℝ) (c x : ℝ × ℝ) : ℂ :=
  ⟨(-x.1*sin c.1 - x.2*cos c.1*cos c.2 + depth R x*(cos c.1*sin c.2))/R,
    (x.1*cos c.1 - x.2*sin c.1*cos c.2 + depth R x*(sin c.1*sin c.2))/R⟩

/-- The third component of the direction seen at `x`. -/
noncomputable def dz (R : ℝ) (c x : ℝ × ℝ) : ℝ := (x.2*sin c.2 + depth R x*cos c.2)/R

/-- Longitude and cosine of the colatitude seen at `x`. -/
noncomputable def skyOf (R : ℝ) (c x : ℝ × ℝ) : ℝ × ℝ := (Complex.arg (-dxy R c x) + π, dz R c x)

/-- The point of the plane at which a direction is seen. -/
noncomputable def viewOf (R : ℝ) (c v : ℝ × ℝ) : ℝ × ℝ :=
  (R*(√(1 - v.2^2)*(cos c.1*sin v.1 - sin c.1*cos v.1)),
    R*(v.2*sin c.2 - cos c.2*(√(1 - v.2^2)*(cos c.1*cos v.1 + sin c.1*sin v.1))))

variable {R : ℝ} {c x d : ℝ × ℝ}

theorem seenAt_iff (hR : 0 < R) : SeenAt R c x d ↔
    cos d.1*sin d.2 = (dxy R c x).re ∧ sin d.1*sin d.2 = (dxy R c x).im ∧ cos d.2 = dz R c x := by
  have hR' : R ≠ 0 := hR.ne'
  have key : SeenAt R c x d ↔ R*(cos d.1*sin d.2) = -x.1*sin c.1 - x.2*cos c.1*cos c.2 + depth R x*(cos c.1*sin c.2) ∧
      R*(sin d.1*sin d.2) = x.1*cos c.1 - x.2*sin c.1*cos c.2 + depth R x*(sin c.1*sin c.2) ∧
      R*cos d.2 = x.2*sin c.2 + depth R x*cos c.2 := by
    unfold SeenAt dir east north depth
    constructor
    · intro h
      have h0 := congrFun h 0
      have h1 := congrFun h 1
      have h2 := congrFun h 2
      simp at h0 h1 h2
      exact ⟨by linarith, by linarith, by linarith⟩
    · rintro ⟨h0, h1, h2⟩
      ext i
      fin_cases i
      · simp; linarith
      · simp; linarith
      · simp; linarith
  rw [key]
  unfold dxy dz
  simp only [eq_div_iff hR', mul_comm R]

theorem unit_sum (hR : 0 < R) (hx : OnSphere R x) : Complex.normSq (dxy R c x) = 1 - (dz R c x)^2 := by
  have hd : depth R x^2 = R^2 - x.1^2 - x.2^2 := sq_sqrt (by unfold OnSphere at hx; linarith)
  have hR' : R ≠ 0 := hR.ne'
  have s1 := sin_sq_add_cos_sq c.1
  have s2 := sin_sq_add_cos_sq c.2
  rw [Complex.normSq_apply]
  unfold dxy dz
  simp only
  field_simp
  have g1 : sin c.1^2 = 1 - cos c.1^2 := by linarith
  have g2 : sin c.2^2 = 1 - cos c.2^2 := by linarith
  ring_nf
  simp only [g1, g2, hd]
  ring_nf

theorem viewOf_seen (hR : 0 < R) (h : SeenAt R c x d) (h0 : 0 ≤ d.2) (h1 : d.2 ≤ π) : x = viewOf R c (d.1, cos d.2) := by
  obtain ⟨e0, e1, e2⟩ := (seenAt_iff hR).mp h
  have hs : √(1 - cos d.2^2) = sin d.2 := by
    rw [← sin_sq, sqrt_sq (sin_nonneg_of_nonneg_of_le_pi h0 h1)]
  have hR' : R ≠ 0 := hR.ne'
  have s1 := sin_sq_add_cos_sq c.1
  have s2 := sin_sq_add_cos_sq c.2
  unfold dxy at e0 e1
  unfold dz at e2
  simp only at e0 e1
  rw [eq_div_iff hR'] at e0 e1 e2
  unfold viewOf
  simp only [hs]
  ext
  · simp only
    linear_combination (-sin c.1)*(-e0) + (-cos c.1)*e1 - x.1*s1
  · simp only
    linear_combination (cos c.1*cos c.2)*e0 + (sin c.1*cos c.2)*e1 - sin c.2*e2 - x.2*s2
      + (-x.2*cos c.2^2 + cos c.2*depth R x*sin c.2)*s1

/-- A direction seen at `x`. -/
theorem seen_skyOf (hR : 0 < R) (hx : OnSphere R x) :
    SeenAt R c x ((skyOf R c x).1, arccos (dz R c x)) ∧ (dz R c x)^2 ≤ 1 := by
  have hu := unit_sum (c := c) hR hx
  have hz : (dz R c x)^2 ≤ 1 := by have := Complex.normSq_nonneg (dxy R c x); linarith
  have hz' := abs_le.mp ((sq_le_one_iff_abs_le_one _).mp hz)
  refine ⟨?_, hz⟩
  rw [seenAt_iff hR]
  simp only
  have hn : ‖-dxy R c x‖ = √(1 - dz R c x^2) := by
    rw [norm_neg, Complex.norm_def, hu]
  have hp := Complex.norm_mul_cos_arg (-dxy R c x)
  have hq := Complex.norm_mul_sin_arg (-dxy R c x)
  rw [hn, Complex.neg_re] at hp
  rw [hn, Complex.neg_im] at hq
  unfold skyOf
  simp only [cos_add_pi, sin_add_pi, sin_arccos]
  exact ⟨by linarith, by linarith, cos_arccos hz'.1 hz'.2⟩

/-- The longitude of every direction seen at `x`. -/
theorem skyOf_seen (hR : 0 < R) (h : SeenAt R c x d) (h0 : 0 < d.2) (h1 : d.2 < π) :
    ∃ t : ℤ, skyOf R c x = (d.1 + 2*π*t, cos d.2) := by
  obtain ⟨e0, e1, e2⟩ := (seenAt_iff hR).mp h
  have hs : 0 < sin d.2 := sin_pos_of_pos_of_lt_pi h0 h1
  have hz : -dxy R c x = (sin d.2 : ℝ)*Complex.exp (((d.1 + π : ℝ))*Complex.I) := by
    rw [Complex.exp_mul_I, ← Complex.ofReal_cos, ← Complex.ofReal_sin, cos_add_pi, sin_add_pi]
    apply Complex.ext
    · simp only [Complex.neg_re, Complex.re_ofReal_mul, Complex.add_re, Complex.ofReal_re, Complex.mul_re, Complex.I_re,
        Complex.I_im, Complex.ofReal_im, ← e0]
      ring
    · simp only [Complex.neg_im, Complex.im_ofReal_mul, Complex.add_im, Complex.ofReal_re, Complex.mul_im, Complex.I_re,
        Complex.I_im, Complex.ofReal_im, ← e1]
      ring
  have ha : Complex.arg (-dxy R c x) = toIocMod two_pi_pos (-π) (d.1 + π) := by
    rw [hz, Complex.arg_real_mul _ hs, Complex.arg_exp_mul_I]
  refine ⟨1 - toIocDiv two_pi_pos (-π) (d.1 + π), ?_⟩
  unfold skyOf
  rw [ha, ← e2]
  ext
  · simp only [toIocMod]
    rw [zsmul_eq_mul]
    push_cast
    ring
  · rfl

/-! ## Almost all points -/

theorem view_null (S : Set (ℝ × ℝ)) (hS : volume S = 0) (h : ∀ v ∈ S, v.2^2 < 1) : volume (viewOf R c '' S) = 0 := by
  refine addHaar_image_eq_zero_of_differentiableOn_of_addHaar_eq_zero volume ?_ hS
  intro v hv
  apply DifferentiableAt.differentiableWithinAt
  have : (1:ℝ) - v.2^2 ≠ 0 := by have := h v hv; linarith
  unfold viewOf
  fun_prop (disch := assumption)

theorem circle_null (R : ℝ) : volume {x : ℝ × ℝ | x.1^2 + x.2^2 = R^2} = 0 := by
  have hline : volume {v : ℝ × ℝ | v.2 = 0} = 0 := by
    have e : {v : ℝ × ℝ | v.2 = 0} = univ ×ˢ ({0} : Set ℝ) := by ext v; simp
    rw [e, Measure.volume_eq_prod, Measure.prod_prod, Real.volume_singleton, mul_zero]
  refine measure_mono_null ?_ (addHaar_image_eq_zero_of_differentiableOn_of_addHaar_eq_zero volume
    (f := fun v : ℝ × ℝ => (|R| * cos v.1, |R| * sin v.1)) (s := {v : ℝ × ℝ | v.2 = 0}) (by fun_prop) hline)
  intro x hx
  simp only [mem_setOf_eq] at hx
  have hn : ‖(⟨x.1, x.2⟩ : ℂ)‖ = |R| := by
    rw [Complex.norm_def, Complex.normSq_apply, show x.1*x.1 + x.2*x.2 = R^2 by linarith, sqrt_sq_eq_abs]
  refine ⟨(Complex.arg ⟨x.1, x.2⟩, 0), rfl, ?_⟩
  have hp := Complex.norm_mul_cos_arg ⟨x.1, x.2⟩
  have hq := Complex.norm_mul_sin_arg ⟨x.1, x.2⟩
  rw [hn] at hp hq
  ext
  · exact hp
  · exact hq

/-- The poles are seen at two points at most. -/
theorem poles_null (hR : 0 < R) : volume {x : ℝ × ℝ | OnSphere R x ∧ (dz R c x)^2 = 1} = 0 := by
  have : {x : ℝ × ℝ | OnSphere R x ∧ (dz R c x)^2 = 1} ⊆ ({viewOf R c (0, 1), viewOf R c (0, -1)} : Set (ℝ × ℝ)) := by
    rintro x ⟨hx, hz⟩
    obtain ⟨hs, -⟩ := seen_skyOf (c := c) hR hx
    have e := viewOf_seen hR hs (arccos_nonneg _) (arccos_le_pi _)
    simp only at e
    have hz' : dz R c x = 1 ∨ dz R c x = -1 := mul_self_eq_one_iff.mp (by rw [← sq]; exact hz)
    rcases hz' with h | h
    · left
      rw [e, h]
      unfold viewOf
      simp
    · right
      rw [mem_singleton_iff, e, h]
      unfold viewOf
      simp
  exact measure_mono_null this ((Set.toFinite _).measure_zero _)

/-- What is seen at almost every point and around it. -/
theorem near (ang2pix : ℤ → ℝ → ℝ → ℕ) {N : ℤ} (hN : 1 ≤ N) (hL : Locates ang2pix N) (hR : 0 < R) (c : ℝ × ℝ) :
    ∀ᵐ x, (¬ OnSphere R x ∧ ∀ᶠ y in 𝓝 x, ¬ OnSphere R y) ∨ ∃ p < 12*N.toNat^2, OnSphere R x ∧
      (∀ q < 12*N.toNat^2, Shows N R c q x ↔ q = p) ∧
      ∀ᶠ y in 𝓝 x, OnSphere R y ∧ ∀ d, SeenAt R c y d → 0 ≤ d.2 → d.2 ≤ π → ang2pix N d.2 d.1 = p := by
  have hpi := pi_pos
  have n1 := measure_eq_zero_iff_ae_notMem.mp (circle_null R)
  have n2 := measure_eq_zero_iff_ae_notMem.mp (poles_null (c := c) hR)
  have n3 := measure_eq_zero_iff_ae_notMem.mp (view_null (R := R) (c := c) (skyBad N ∩ {v | v.2^2 < 1})
    (measure_mono_null inter_subset_left (volume_skyBad hN)) fun v hv => hv.2)
  filter_upwards [n1, n2, n3] with x h1 h2 h3
  have h1 : x.1^2 + x.2^2 ≠ R^2 := h1
  have h2 : ¬ (OnSphere R x ∧ (dz R c x)^2 = 1) := h2
  have hcq : Continuous fun y : ℝ × ℝ => y.1^2 + y.2^2 := by fun_prop
  rcases lt_or_gt_of_ne h1 with hlt | hgt
  swap
  · left
    refine ⟨not_lt.mpr hgt.le, ?_⟩
    filter_upwards [hcq.continuousAt.eventually (lt_mem_nhds hgt)] with y hy
    exact not_lt.mpr (le_of_lt hy)
  right
  have hon : OnSphere R x := hlt
  obtain ⟨hseen, hz⟩ := seen_skyOf (c := c) hR hon
  have hz1 : dz R c x^2 < 1 := lt_of_le_of_ne hz fun h => h2 ⟨hon, h⟩
  have hz2 := abs_lt.mp ((sq_lt_one_iff_abs_lt_one _).mp hz1)
  set v := skyOf R c x with hv
  have hv2 : v.2 = dz R c x := rfl
  have hxv : x = viewOf R c v := by
    have := viewOf_seen hR hseen (arccos_nonneg _) (arccos_le_pi _)
    simp only [cos_arccos hz2.1.le hz2.2.le] at this
    exact this
  have hgood : v ∉ skyBad N := by
    intro hb
    exact h3 ⟨v, ⟨hb, hz1⟩, hxv.symm⟩
  unfold skyBad at hgood
  simp only [mem_setOf_eq, not_or, not_exists, not_and] at hgood
  obtain ⟨g1, g2, g3⟩ := hgood
  have harg := Complex.arg_mem_Ioc (-dxy R c x)
  have hv1 : v.1 = Complex.arg (-dxy R c x) + π := rfl
  have hne : Complex.arg (-dxy R c x) ≠ π := by
    intro h
    apply g1 4
    rw [hv1, h]
    push_cast
    ring
  have hlt2 : v.1 < 2*π := by
    have := lt_of_le_of_ne harg.2 hne
    rw [hv1]; linarith
  have hsky : v ∈ sky0 := ⟨⟨by rw [hv1]; linarith [harg.1], hlt2⟩, hz2.1, hz2.2⟩
  have hex : ∃ p < 12*N.toNat^2, ∃ b, pix2xy p N = .ok b ∧ v ∈ SkyPixel N b := by
    have := g3 hsky
    push Not at this
    exact this
  obtain ⟨p, hp, b, hb, hvb⟩ := hex
  -- the directions seen close to `x`
  have hnear : ∀ᶠ y in 𝓝 x, OnSphere R y ∧ ∀ d, SeenAt R c y d → 0 ≤ d.2 → d.2 ≤ π → ang2pix N d.2 d.1 = p := by
    have cdepth : Continuous (depth R) := by unfold depth; fun_prop
    have cz : Continuous (dz R c) := by unfold dz; fun_prop
    have cxy : Continuous (dxy R c) := by
      have e : dxy R c = fun y => (((-y.1*sin c.1 - y.2*cos c.1*cos c.2 + depth R y*(cos c.1*sin c.2))/R : ℝ) : ℂ)
          + (((y.1*cos c.1 - y.2*sin c.1*cos c.2 + depth R y*(sin c.1*sin c.2))/R : ℝ) : ℂ)*Complex.I := by
        funext y
        exact Complex.mk_eq_add_mul_I _ _
      rw [e]
      fun_prop
    have hnz : -dxy R c x ≠ 0 := by
      intro h
      have hu := unit_sum (c := c) hR hon
      rw [← Complex.normSq_neg, h, Complex.normSq_zero] at hu
      linarith
    have hsl : -dxy R c x ∈ Complex.slitPlane := Complex.mem_slitPlane_iff_arg.mpr ⟨hne, hnz⟩
    have csky : ContinuousAt (skyOf R c) x := by
      unfold skyOf
      refine ContinuousAt.prodMk (ContinuousAt.add ?_ continuousAt_const) cz.continuousAt
      exact ContinuousAt.comp (f := fun y => -dxy R c y) (Complex.continuousAt_arg hsl) cxy.neg.continuousAt
    have hmem := csky.eventually (skyPixel_nhds hvb (fun k => g1 k) g2)
    filter_upwards [hmem, hcq.continuousAt.eventually (gt_mem_nhds hlt)] with y hy1 hy2
    refine ⟨hy2, fun d hd h0 h1 => ?_⟩
    have e2 := ((seenAt_iff hR).mp hd).2.2
    have hr := hy1.2.1
    have hr' : -1 < cos d.2 ∧ cos d.2 < 1 := by rw [e2]; exact hr
    have h0' : 0 < d.2 := lt_of_le_of_ne h0 fun h => by rw [← h, cos_zero] at hr'; linarith
    have h1' : d.2 < π := lt_of_le_of_ne h1 fun h => by rw [h, cos_pi] at hr'; linarith
    obtain ⟨t, ht⟩ := skyOf_seen hR hd h0' h1'
    rw [ht] at hy1
    exact hL d.2 d.1 p b h0 h1 hp hb ⟨t, hy1⟩
  refine ⟨p, hp, hon, fun q hq => ⟨?_, ?_⟩, hnear⟩
  · rintro ⟨d, b', hd, ⟨h0, h1⟩, hb', hm⟩
    have := hL d.2 d.1 q b' h0 h1 hq hb' ⟨0, by simpa using hm⟩
    rw [← this]
    exact hnear.self_of_nhds.2 d hd h0 h1
  · rintro rfl
    refine ⟨(v.1, arccos (dz R c x)), b, hseen, ⟨arccos_nonneg _, arccos_le_pi _⟩, hb, ?_⟩
    simp only [cos_arccos hz2.1.le hz2.2.le]
    exact hvb

/-! ## The limit of the sums -/

variable {A : BoxArgs} {i j : ℕ}

/-- Height of the grid. -/
noncomputable def yLen (A : BoxArgs) : ℝ := A.yLength.getD A.xLength

theorem rect_eq (hi : i < ny A) (hj : j < nx A) : rect A i j
    = Plane.box (edgeAt (-A.xLength/2) (A.xLength/2) (nx A) j) (A.xLength/nx A)
      (edgeAt (-yLen A/2) (yLen A/2) (ny A) i) (yLen A/ny A) := by
  ext x
  unfold rect Plane.box InCell edgeAt yLen
  simp only [mem_setOf_eq, mem_prod, mem_Ico, hi, hj, true_and]
  push_cast
  rw [show -A.xLength/2 + ((j:ℝ)+1)*((A.xLength/2 - -A.xLength/2)/nx A)
      = -A.xLength/2 + j*((A.xLength/2 - -A.xLength/2)/nx A) + A.xLength/nx A by ring,
    show -A.yLength.getD A.xLength/2 + ((i:ℝ)+1)*((A.yLength.getD A.xLength/2 - -A.yLength.getD A.xLength/2)/ny A)
      = -A.yLength.getD A.xLength/2 + i*((A.yLength.getD A.xLength/2 - -A.yLength.getD A.xLength/2)/ny A)
        + A.yLength.getD A.xLength/ny A by ring]

theorem point_eq {m : ℕ} (hm : 0 < m) (k l : ℕ) : point A m m (i*m + k) (j*m + l)
    = (edgeAt (-A.xLength/2) (A.xLength/2) (nx A) j + (l + 1/2)*(A.xLength/nx A/m),
      edgeAt (-yLen A/2) (yLen A/2) (ny A) i + (k + 1/2)*(yLen A/ny A/m)) := by
  have hm' : (m:ℝ) ≠ 0 := by positivity
  unfold point midAt edgeAt yLen
  ext
  · simp only
    push_cast
    by_cases hn : (nx A : ℝ) = 0
    · simp [hn]
    · field_simp
      ring
  · simp only
    push_cast
    by_cases hn : (ny A : ℝ) = 0
    · simp [hn]
    · field_simp
      ring

/-- The factor between sums over dense points and integrals. -/
noncomputable def cellArea (A : BoxArgs) (m : ℕ) : ℝ := A.xLength/nx A/m*(yLen A/ny A/m)

theorem discSum_mul (A : BoxArgs) (m : ℕ) (g : ℕ → ℕ → ℝ) (i j : ℕ) (a : ℝ) :
    a*discSum A m g i j = ∑ k ∈ Finset.range m, ∑ l ∈ Finset.range m,
      a*(if OnSphere A.radius (point A m m (i*m + k) (j*m + l)) then g (i*m + k) (j*m + l) else 0) := by
  unfold discSum
  simp only [Finset.mul_sum]

/-- The dense points that read pixel `p`. -/
theorem tendsto_pix (ang2pix : ℤ → ℝ → ℝ → ℕ) {N : ℤ} (hN : 1 ≤ N) (hL : Locates ang2pix N) (hR : 0 < A.radius)
    (c : ℝ × ℝ) (hX : 0 < A.xLength) (hY : 0 < yLen A) (hi : i < ny A) (hj : j < nx A) (sky : ℕ → ℕ → ℕ → ℝ × ℝ)
    (hsky : ∀ m ≥ 1, ∀ k l, k < m*ny A → l < m*nx A → OnSphere A.radius (point A m m k l) →
      SeenAt A.radius c (point A m m k l) (sky m k l) ∧ 0 ≤ (sky m k l).2 ∧ (sky m k l).2 ≤ π) (p : ℕ)
    (hp : p < 12*N.toNat^2) :
    Tendsto (fun m : ℕ => cellArea A m*discSum A m
      (fun k l => if ang2pix N (sky m k l).2 (sky m k l).1 = p then 1 else 0) i j) atTop (𝓝 (shownArea A N c i j p)) := by
  have hnx : (0:ℝ) < nx A := by exact_mod_cast (by omega : 0 < nx A)
  have hny : (0:ℝ) < ny A := by exact_mod_cast (by omega : 0 < ny A)
  have hmain := Plane.tendsto_area (x0 := edgeAt (-A.xLength/2) (A.xLength/2) (nx A) j) (a := A.xLength/nx A)
    (y0 := edgeAt (-yLen A/2) (yLen A/2) (ny A) i) (b := yLen A/ny A) (by positivity) (by positivity)
    (fun m k l => if OnSphere A.radius (point A m m (i*m + k) (j*m + l)) then
      (if ang2pix N (sky m (i*m + k) (j*m + l)).2 (sky m (i*m + k) (j*m + l)).1 = p then (1:ℝ) else 0) else 0)
    (by intro m k l; split_ifs <;> simp) {x | OnSphere A.radius x ∧ Shows N A.radius c p x} ?_
  · rw [← rect_eq hi hj] at hmain
    have e : {x ∈ part A i j | Shows N A.radius c p x}
        = rect A i j ∩ {x | OnSphere A.radius x ∧ Shows N A.radius c p x} := by
      ext x
      unfold part
      simp only [mem_setOf_eq, mem_inter_iff]
      tauto
    unfold shownArea
    rw [e]
    refine hmain.congr fun m => ?_
    rw [discSum_mul]
    rfl
  · filter_upwards [near ang2pix hN hL hR c] with x hx
    rcases hx with ⟨h1, h2⟩ | ⟨q, hq, hon, hsh, hev⟩
    · filter_upwards [h2] with y hy m k l hk hl e
      have hm : 0 < m := by omega
      rw [← point_eq hm] at e
      rw [e] at hy
      rw [if_neg hy, indicator_of_notMem]
      exact fun h => h1 h.1
    · filter_upwards [hev] with y hy m k l hk hl e
      have hm : 0 < m := by omega
      rw [← point_eq hm] at e
      rw [e] at hy
      have b1 : i*m + k < m*ny A := by
        calc i*m + k < i*m + m := by omega
          _ = m*(i+1) := by ring
          _ ≤ m*ny A := Nat.mul_le_mul_left m hi
      have b2 : j*m + l < m*nx A := by
        calc j*m + l < j*m + m := by omega
          _ = m*(j+1) := by ring
          _ ≤ m*nx A := Nat.mul_le_mul_left m hj
      obtain ⟨s1, s2, s3⟩ := hsky m hm _ _ b1 b2 hy.1
      rw [if_pos hy.1, hy.2 _ s1 s2 s3]
      by_cases hqp : q = p
      · rw [if_pos hqp, indicator_of_mem]
        exact ⟨hon, (hsh p hp).mpr hqp.symm⟩
      · rw [if_neg hqp, indicator_of_notMem]
        rintro ⟨-, hs⟩
        exact hqp ((hsh p hp).mp hs).symm

/-- The sums over the dense points converge to the integral over the output pixel. -/
theorem tendsto_discSum (ang2pix : ℤ → ℝ → ℝ → ℕ) {N : ℤ} (hN : 1 ≤ N) (hL : Locates ang2pix N)
    (hpix : ∀ t p, ang2pix N t p < 12*N.toNat^2) (hR : 0 < A.radius)
    (c : ℝ × ℝ) (hX : 0 < A.xLength) (hY : 0 < yLen A) (hi : i < ny A) (hj : j < nx A) (sky : ℕ → ℕ → ℕ → ℝ × ℝ)
    (hsky : ∀ m ≥ 1, ∀ k l, k < m*ny A → l < m*nx A → OnSphere A.radius (point A m m k l) →
      SeenAt A.radius c (point A m m k l) (sky m k l) ∧ 0 ≤ (sky m k l).2 ∧ (sky m k l).2 ≤ π) (g : ℕ → ℝ) :
    Tendsto (fun m : ℕ => cellArea A m*discSum A m
      (fun k l => g (ang2pix N (sky m k l).2 (sky m k l).1)) i j) atTop (𝓝 (viewSum A N c g i j)) := by
  have h := tendsto_finset_sum (Finset.range (12*N.toNat^2)) fun p hp =>
    (tendsto_pix ang2pix hN hL hR c hX hY hi hj sky hsky p (Finset.mem_range.mp hp)).const_mul (g p)
  refine h.congr fun m => ?_
  simp only [discSum_mul, Finset.mul_sum]
  rw [Finset.sum_comm]
  refine Finset.sum_congr rfl fun k _ => ?_
  rw [Finset.sum_comm]
  refine Finset.sum_congr rfl fun l _ => ?_
  by_cases hon : OnSphere A.radius (point A m m (i*m + k) (j*m + l))
  · simp only [if_pos hon]
    rw [Finset.sum_eq_single (ang2pix N (sky m (i*m + k) (j*m + l)).2 (sky m (i*m + k) (j*m + l)).1)]
    · rw [if_pos rfl]; ring
    · intro p _ hne
      rw [if_neg hne.symm]; ring
    · intro hn
      exact absurd (Finset.mem_range.mpr (hpix _ _)) hn
  · simp only [if_neg hon]
    simp

end Magpie.Ortho
