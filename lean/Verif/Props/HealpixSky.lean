import Verif.Proof.HealpixSky
import Verif.Proof.HealpixCover
import Verif.Props.HealpixRandoms

/-!
# C88, C89: the HEALPix pixels on the sky
-/

set_option linter.unusedSimpArgs false
set_option linter.unusedVariables false

namespace Magpie.Props
open Magpie Magpie.Healpix Magpie.Spec Real MeasureTheory

/-! ## C89 -/

/-- C89: entry `k` of the result of `randoms_healpix_pixel` is a function `F` of the `k`-th pair of variates, and
`F` of a uniform pair is uniform in solid angle on the sky region of the pixel, which is the `12 nside^2`-th part of
the sphere. -/
theorem C89_uniform (N p : ℤ) (hN : 1 ≤ N) (hp : ValidPix N p) :
    ∃ (c : ℝ × ℝ) (F : ℝ × ℝ → ℝ × ℝ), pix2xy p N = .ok c ∧
      (∀ draws : List (ℝ × ℝ), (∀ r ∈ draws, (0 ≤ r.1 ∧ r.1 < 1) ∧ (0 ≤ r.2 ∧ r.2 < 1)) →
        Randoms.randomsHealpixPixel (draws.map Prod.fst) (draws.map Prod.snd) p N
          = .ok (draws.map fun r => some (F r).1, draws.map fun r => some (F r).2)) ∧
      Measure.map (fun r => ((F r).1, cos (F r).2)) unif2 = uniformOn (SkyPixel N c) ∧
      volume (SkyPixel N c) = ENNReal.ofReal (pixArea N) := by
  obtain ⟨c, X, Y, hc, hXY, hlaw⟩ := C14_uniform N p hN hp
  have hpi := pi_pos
  have hNR : (0:ℝ) < N := by exact_mod_cast (by omega : 0 < N)
  obtain ⟨hae, hmap⟩ := map_wrapSky hN hp hc
  have hvol : volume (SkyPixel N c) = ENNReal.ofReal (pixArea N) := by
    have h := congrArg (fun m : Measure (ℝ × ℝ) => m Set.univ) hmap
    simp only [Measure.smul_apply, Measure.restrict_apply_univ, smul_eq_mul] at h
    rw [← h, Measure.map_apply_of_aemeasurable hae MeasurableSet.univ, Set.preimage_univ,
      Measure.restrict_apply_univ, C14_area N hN c, ← ENNReal.ofReal_mul (by positivity), (C11_pixel_area N hN).1]
  refine ⟨c, fun r => ((xy2ang (fmod (X r) (2*π)) (Y r)).1, (xy2ang (fmod (X r) (2*π)) (Y r)).2.getD (π/2)), hc, ?_,
    ?_, hvol⟩
  · intro draws hu
    obtain ⟨xp, yp, sky, hxy, hs, hl, hmem⟩ := C13_sky N p hN hp draws hu
    unfold Randoms.randomsHealpixPixel at hs ⊢
    rw [hXY draws] at hs ⊢
    simp only [bind, Except.bind] at hs ⊢
    have e := xy2angArr_eq_map (draws.map fun r => (fmod (X r) (2*π), Y r))
    simp only [List.map_map, Function.comp_def] at e
    rw [e] at hs ⊢
    have hs := Except.ok.inj hs
    obtain ⟨-, h2⟩ := Prod.mk.inj hs
    congr 2
    apply List.map_congr_left
    intro r hr
    have hmem' : (xy2ang (fmod (X r) (2*π)) (Y r)).2 ∈ sky.map fun s => some s.2 := by
      rw [← h2]; exact List.mem_map.mpr ⟨r, hr, rfl⟩
    obtain ⟨s, -, hs'⟩ := List.mem_map.mp hmem'
    rw [← hs']; rfl
  · have hfun : (fun r => ((xy2ang (fmod (X r) (2*π)) (Y r)).1,
        cos ((xy2ang (fmod (X r) (2*π)) (Y r)).2.getD (π/2)))) = wrapSky ∘ fun r => (X r, Y r) := by
      funext r
      simp only [Function.comp, wrapSky, skyOf]
      congr 1
      cases (xy2ang (fmod (X r) (2*π)) (Y r)).2 <;> simp
    have hXYm : AEMeasurable (fun r => (X r, Y r)) unif2 := by
      by_contra hcon
      rw [Measure.map_of_not_aemeasurable hcon] at hlaw
      have h := congrArg (fun m : Measure (ℝ × ℝ) => m {v : ℝ × ℝ | InDiamond N c v.1 v.2}) hlaw
      simp only [Measure.coe_zero, Pi.zero_apply, uniformOn, Measure.smul_apply, smul_eq_mul] at h
      rw [Measure.restrict_apply_self, C14_area N hN c, ENNReal.inv_mul_cancel
        (by rw [ne_eq, ENNReal.ofReal_eq_zero, not_le]; have := halfDiag_pos hN; positivity) ENNReal.ofReal_ne_top] at h
      exact zero_ne_one h
    show Measure.map (fun r => ((xy2ang (fmod (X r) (2*π)) (Y r)).1,
        cos ((xy2ang (fmod (X r) (2*π)) (Y r)).2.getD (π/2)))) unif2 = _
    have hae' : AEMeasurable wrapSky (Measure.map (fun r => (X r, Y r)) unif2) := by
      rw [hlaw]; exact hae.smul_measure _
    rw [hfun, ← AEMeasurable.map_map_of_aemeasurable hae' hXYm, hlaw]
    unfold uniformOn
    rw [Measure.map_smul, ← hmap, hvol, C14_area N hN c, smul_smul]
    congr 1
    have hd := halfDiag_pos hN
    rw [← (C11_pixel_area N hN).1, ← ENNReal.ofReal_inv_of_pos (by positivity),
      ← ENNReal.ofReal_inv_of_pos (by positivity), ← ENNReal.ofReal_mul (by positivity)]
    congr 1
    field_simp

/-- The hypotheses of `C89_uniform` are met by a pixel of the south cap. -/
example : ValidPix 3 100 := by constructor <;> norm_num

/-! ## C88 -/

/-- C88: every direction is in the closed diamond of a pixel of the map. -/
theorem C88_cover (N : ℤ) (hN : 1 ≤ N) (phi theta : ℝ) (h0 : 0 ≤ theta) (h1 : theta ≤ π) :
    ∃ (p t : ℤ) (c : ℝ × ℝ), ValidPix N p ∧ pix2xy p N = .ok c ∧
      |(project phi (cos theta)).1 + 2*π*t - c.1| + |(project phi (cos theta)).2 - c.2| ≤ halfDiag N := by
  rw [← ang2xy_project]
  exact cover hN phi h0 h1

/-- C88: `healpix_ang2xy` computes the HEALPix projection. -/
theorem C88_project (phi theta : ℝ) : ang2xy phi theta = project phi (cos theta) := ang2xy_project phi theta

/-- Every pixel has a centre and an area on the sky. -/
theorem C88_pix (N p : ℤ) (hN : 1 ≤ N) (hp : ValidPix N p) :
    ∃ c, pix2xy p N = .ok c ∧ volume (SkyPixel N c) = ENNReal.ofReal (pixArea N) := by
  obtain ⟨c, F, hc, -, -, hv⟩ := C89_uniform N p hN hp
  exact ⟨c, hc, hv⟩

/-- C88: the interiors of two pixels have no direction in common. -/
theorem C88_disjoint (N p q : ℤ) (hN : 1 ≤ N) (hp : ValidPix N p) (hq : ValidPix N q) (hpq : p ≠ q)
    (c d : ℝ × ℝ) (hc : pix2xy p N = .ok c) (hd : pix2xy q N = .ok d) : Disjoint (SkyPixel N c) (SkyPixel N d) := by
  rw [Set.disjoint_left]
  rintro v ⟨-, -, t, ht⟩ ⟨-, -, s, hs⟩
  refine hpq (C05_disjoint N p q (s - t) hN hp hq c d hc hd _ _ ht ?_).1
  convert hs using 1
  push_cast
  ring

/-- The hypotheses of `C88_disjoint` are met, by a pixel of the north cap and one of the equator. -/
example : ValidPix 3 5 ∧ ValidPix 3 60 ∧ (5:ℤ) ≠ 60 ∧ (∃ c, pix2xy 5 3 = .ok c) ∧ ∃ d, pix2xy 60 3 = .ok d := by
  have h5 : ValidPix 3 5 := by constructor <;> norm_num
  have h60 : ValidPix 3 60 := by constructor <;> norm_num
  refine ⟨h5, h60, by norm_num, ?_, ?_⟩
  · obtain ⟨c, hc, -⟩ := C88_pix 3 5 (by norm_num) h5
    exact ⟨c, hc⟩
  · obtain ⟨c, hc, -⟩ := C88_pix 3 60 (by norm_num) h60
    exact ⟨c, hc⟩

/-- A direction at an angle of one radian from the pole satisfies the hypotheses of `C88_cover`, and the south pole
does as well. -/
example : (0 ≤ (1:ℝ) ∧ (1:ℝ) ≤ π) ∧ (0 ≤ π ∧ π ≤ π) := by
  have := two_le_pi
  exact ⟨⟨by norm_num, by linarith⟩, pi_pos.le, le_refl _⟩

end Magpie.Props
