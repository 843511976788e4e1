import Verif.Proof.HealpixCoords
import Mathlib.Analysis.Calculus.Deriv.Inv
import Mathlib.Analysis.Calculus.FDeriv.Prod
import Mathlib.Analysis.Calculus.FDeriv.Mul
import Mathlib.Analysis.Calculus.Deriv.Comp
import Mathlib.Analysis.Calculus.Deriv.Pow
import Mathlib.Topology.Algebra.Order.Floor

set_option linter.unusedSimpArgs false

namespace Magpie.Healpix
open Spec Real Filter Topology

/-- Sky position computed by `xy2ang`, as `(phi, cos theta)`. -/
noncomputable def skyOf (v : ℝ × ℝ) : ℝ × ℝ :=
  ((xy2ang v.1 v.2).1, match (xy2ang v.1 v.2).2 with | some t => cos t | none => 0)

/-- The linear map with matrix `((a, b), (c, d))`. -/
noncomputable def lin2 (a b c d : ℝ) : ℝ × ℝ →L[ℝ] ℝ × ℝ :=
  (a • ContinuousLinearMap.fst ℝ ℝ ℝ + b • ContinuousLinearMap.snd ℝ ℝ ℝ).prod
    (c • ContinuousLinearMap.fst ℝ ℝ ℝ + d • ContinuousLinearMap.snd ℝ ℝ ℝ)

theorem lin2_apply (a b c d : ℝ) (v : ℝ × ℝ) :
    lin2 a b c d v = (a*v.1 + b*v.2, c*v.1 + d*v.2) := by
  simp [lin2]

theorem skyOf_belt {v : ℝ × ℝ} (h : |v.2| ≤ π/4) : skyOf v = (v.1, 8*v.2/(3*π)) := by
  have hpi := pi_pos
  have hy := abs_le.mp h
  unfold skyOf
  rw [xy2ang_belt h]
  simp only []
  rw [cos_arccos]
  · rw [le_div_iff₀ (by positivity)]; nlinarith
  · rw [div_le_iff₀ (by positivity)]; nlinarith

theorem skyOf_cap {v : ℝ × ℝ} {e : ℝ} (he : e = 1 ∨ e = -1) (h1 : π/4 < e*v.2) (h2 : e*v.2 < π/2) :
    skyOf v = ((v.1 - (π/4)*(2*(⌊2*v.1/π⌋:ℝ)+1))*(2 - 4*(e*v.2)/π)⁻¹
        + (π/4)*(2*(⌊2*v.1/π⌋:ℝ)+1), e*(1-(2 - 4*(e*v.2)/π)^2/3)) := by
  have hpi := pi_pos
  set s := 2 - 4*(e*v.2)/π with hs
  have hs0 : 0 < s := by
    have : 4*(e*v.2)/π < 2 := by rw [div_lt_iff₀ hpi]; linarith
    linarith
  have hs1 : s < 1 := by
    have : 1 < 4*(e*v.2)/π := by rw [lt_div_iff₀ hpi]; linarith
    linarith
  have hy : v.2 = e*(2-s)*π/4 := by
    rw [hs]
    have ee : e*e = 1 := by rcases he with rfl | rfl <;> norm_num
    field_simp
    ring_nf
    rw [show e^2 = 1 by rw [sq]; exact ee]; ring
  unfold skyOf
  have hx := xy2ang_cap (x := v.1) he hs0 hs1
  rw [← hy] at hx
  rw [hx]
  simp only []
  rw [cos_arccos]
  · congr 1
    field_simp
    ring
  · rcases he with rfl | rfl <;> nlinarith
  · rcases he with rfl | rfl <;> nlinarith

theorem jac_belt {v : ℝ × ℝ} (h : |v.2| < π/4) :
    HasFDerivAt skyOf (lin2 1 0 0 (8/(3*π))) v := by
  have hev : skyOf =ᶠ[𝓝 v] fun w => lin2 1 0 0 (8/(3*π)) w := by
    have hopen : ∀ᶠ w : ℝ × ℝ in 𝓝 v, |w.2| < π/4 :=
      (continuous_abs.comp continuous_snd).continuousAt.eventually_lt continuousAt_const h
    filter_upwards [hopen] with w hw
    rw [skyOf_belt hw.le, lin2_apply]
    simp; ring
  exact ((lin2 1 0 0 (8/(3*π))).hasFDerivAt).congr_of_eventuallyEq hev

theorem jac_cap {v : ℝ × ℝ} {e : ℝ} (he : e = 1 ∨ e = -1) (h1 : π/4 < e*v.2) (h2 : e*v.2 < π/2)
    (hx : ∀ n : ℤ, 2*v.1/π ≠ n) :
    ∃ b, HasFDerivAt skyOf
      (lin2 (2 - 4*(e*v.2)/π)⁻¹ b 0 (8/(3*π)*(2 - 4*(e*v.2)/π))) v := by
  have hpi := pi_pos
  set k := ⌊2*v.1/π⌋ with hk
  set c := (π/4)*(2*(k:ℝ)+1) with hc
  have hs0 : 0 < 2 - 4*(e*v.2)/π := by
    have : 4*(e*v.2)/π < 2 := by rw [div_lt_iff₀ hpi]; linarith
    linarith
  have ee : e*e = 1 := by rcases he with rfl | rfl <;> norm_num
  have hev : skyOf =ᶠ[𝓝 v] fun w => ((w.1 - c)*(2 - 4*(e*w.2)/π)⁻¹ + c,
      e*(1-(2 - 4*(e*w.2)/π)^2/3)) := by
    have o1 : ∀ᶠ w : ℝ × ℝ in 𝓝 v, π/4 < e*w.2 :=
      continuousAt_const.eventually_lt (continuous_const.mul continuous_snd).continuousAt h1
    have o2 : ∀ᶠ w : ℝ × ℝ in 𝓝 v, e*w.2 < π/2 :=
      (continuous_const.mul continuous_snd).continuousAt.eventually_lt continuousAt_const h2
    have hcont : ContinuousAt (fun w : ℝ × ℝ => 2*w.1/π) v := by fun_prop
    have o3 : ∀ᶠ w : ℝ × ℝ in 𝓝 v, (k:ℝ) < 2*w.1/π :=
      continuousAt_const.eventually_lt hcont
        (lt_of_le_of_ne (Int.floor_le _) (fun h => hx k h.symm))
    have o4 : ∀ᶠ w : ℝ × ℝ in 𝓝 v, 2*w.1/π < (k:ℝ) + 1 :=
      hcont.eventually_lt continuousAt_const (Int.lt_floor_add_one _)
    filter_upwards [o1, o2, o3, o4] with w w1 w2 w3 w4
    rw [skyOf_cap he w1 w2]
    have : ⌊2*w.1/π⌋ = k := Int.floor_eq_iff.mpr ⟨w3.le, w4⟩
    rw [this]
  refine ⟨(v.1 - c)*(4*e/π)*((2 - 4*(e*v.2)/π)^2)⁻¹, ?_⟩
  refine HasFDerivAt.congr_of_eventuallyEq ?_ hev
  -- s as a function of w
  have hS : HasFDerivAt (fun w : ℝ × ℝ => 2 - 4*(e*w.2)/π)
      ((-(4*e/π)) • ContinuousLinearMap.snd ℝ ℝ ℝ) v := by
    have : HasFDerivAt (fun w : ℝ × ℝ => (-(4*e/π)) • w.2 + 2)
        ((-(4*e/π)) • ContinuousLinearMap.snd ℝ ℝ ℝ) v :=
      ((hasFDerivAt_snd (𝕜 := ℝ) (p := v)).const_smul (-(4*e/π))).add_const 2
    refine this.congr_of_eventuallyEq (Eventually.of_forall fun w => ?_)
    simp only [smul_eq_mul]; ring
  have hI := (hasDerivAt_inv hs0.ne').comp_hasFDerivAt v hS
  have hA : HasFDerivAt (fun w : ℝ × ℝ => w.1 - c) (ContinuousLinearMap.fst ℝ ℝ ℝ) v :=
    (hasFDerivAt_fst (𝕜 := ℝ) (p := v)).sub_const c
  have hP := (hA.mul hI).add_const c
  have hZ := ((hS.pow 2).const_mul (-(e/3))).add_const e
  have hPZ := hP.prodMk hZ
  have hfun : (fun w : ℝ × ℝ => ((w.1 - c)*(2 - 4*(e*w.2)/π)⁻¹ + c,
      e*(1-(2 - 4*(e*w.2)/π)^2/3)))
      = fun w : ℝ × ℝ => ((w.1 - c)*((fun x => x⁻¹) ∘ fun w : ℝ × ℝ => 2 - 4*(e*w.2)/π) w + c,
        -(e/3)*(2 - 4*(e*w.2)/π)^2 + e) := by
    funext w; simp only [Function.comp]; congr 1; ring
  rw [hfun]
  refine hPZ.congr_fderiv ?_
  have hs' := hs0.ne'
  ext
  · simp [lin2]
  · simp [lin2]
  · simp [lin2]; ring
  · simp [lin2]
    rw [show e/3*(2*(2 - 4*(e*v.2)/π)*(4*e/π)) = (e*e)*(8/(3*π)*(2 - 4*(e*v.2)/π)) by
      field_simp; ring, ee, one_mul]

end Magpie.Healpix
