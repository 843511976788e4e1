import Verif.Props.Coords
import Verif.Proof.Heal2Ortho

/-!
# Composition of the sky transformations
-/

set_option linter.unusedSimpArgs false
set_option linter.unusedVariables false

namespace Magpie.Coords
open Magpie Magpie.Spec Magpie.Pov Magpie.Ortho Magpie.Props
open Matrix Real

theorem dot_self_zero {v : Fin 3 → ℝ} (h : v ⬝ᵥ v = 0) : v = 0 := by
  have e : v 0*v 0 + v 1*v 1 + v 2*v 2 = 0 := by simpa [dotProduct, Fin.sum_univ_three] using h
  ext i
  have h0 := mul_self_nonneg (v 0)
  have h1 := mul_self_nonneg (v 1)
  have h2 := mul_self_nonneg (v 2)
  fin_cases i <;> exact mul_self_eq_zero.mp (by simp only [Fin.mk_one, Fin.zero_eta, Fin.reduceFinMk]; linarith)

theorem dot_self_nonneg (v : Fin 3 → ℝ) : 0 ≤ v ⬝ᵥ v := by
  simp only [dotProduct]
  exact Finset.sum_nonneg fun i _ => mul_self_nonneg _

/-- A map that keeps inner products is linear. -/
theorem rigid_linear {F : (Fin 3 → ℝ) → (Fin 3 → ℝ)} (h : Rigid F) (a b : ℝ) (x y : Fin 3 → ℝ) :
    F (a • x + b • y) = a • F x + b • F y := by
  have hz : ∀ v : Fin 3 → ℝ, v ⬝ᵥ v = 0 → v = 0 := fun v => dot_self_zero
  have : F (a • x + b • y) - (a • F x + b • F y) = 0 := by
    apply hz
    simp only [sub_dotProduct, dotProduct_sub, add_dotProduct, dotProduct_add, smul_dotProduct, dotProduct_smul,
      h.1, smul_eq_mul]
    ring
  exact sub_eq_zero.mp this

/-- A rotation about `c` by `α` (Rodrigues' formula). -/
theorem rodrigues {F : (Fin 3 → ℝ) → (Fin 3 → ℝ)} (h : Rigid F) {c : Fin 3 → ℝ} (hc : c ⬝ᵥ c = 1) (hF : F c = c)
    {α : ℝ} (ht : ∀ a, a ⬝ᵥ c = 0 → a ⬝ᵥ a = 1 → a ⬝ᵥ F a = cos α ∧ a ⨯₃ F a = sin α • c) (v : Fin 3 → ℝ) :
    F v = (v ⬝ᵥ c) • c + cos α • (v - (v ⬝ᵥ c) • c) + sin α • (c ⨯₃ v) := by
  have unit : ∀ a, a ⬝ᵥ c = 0 → a ⬝ᵥ a = 1 → F a = cos α • a + sin α • (c ⨯₃ a) := by
    intro a ha h1
    obtain ⟨e1, e2⟩ := ht a ha h1
    have e3 : (a ⨯₃ F a) ⨯₃ a = (a ⬝ᵥ a) • F a - (a ⬝ᵥ F a) • a := by
      ext i
      fin_cases i <;> simp [cross_apply, dotProduct, Fin.sum_univ_three] <;> ring
    rw [e1, e2, h1, one_smul] at e3
    have : (sin α • c) ⨯₃ a = sin α • (c ⨯₃ a) := by simp
    rw [this] at e3
    rw [e3]
    abel
  set y := v - (v ⬝ᵥ c) • c with hy
  have hyc : y ⬝ᵥ c = 0 := by
    rw [hy, sub_dotProduct, smul_dotProduct, hc, smul_eq_mul, mul_one, sub_self]
  have hcy : c ⨯₃ y = c ⨯₃ v := by
    rw [hy]; simp
  have hFy : F y = cos α • y + sin α • (c ⨯₃ y) := by
    by_cases h0 : y ⬝ᵥ y = 0
    · have hy0 : y = 0 := dot_self_zero h0
      have := rigid_linear h 0 0 y y
      simp only [zero_smul, add_zero] at this
      rw [hy0, this]
      simp
    · have hpos : 0 < y ⬝ᵥ y := lt_of_le_of_ne (dot_self_nonneg y) (Ne.symm h0)
      set r := √(y ⬝ᵥ y) with hr
      have hr0 : r ≠ 0 := (sqrt_pos.mpr hpos).ne'
      have hr2 : r*r = y ⬝ᵥ y := mul_self_sqrt hpos.le
      have hu := unit (r⁻¹ • y) (by rw [smul_dotProduct, hyc, smul_zero])
        (by rw [smul_dotProduct, dotProduct_smul, smul_eq_mul, smul_eq_mul, ← hr2]; field_simp)
      have hl := rigid_linear h r 0 (r⁻¹ • y) y
      rw [zero_smul, add_zero, smul_smul, mul_inv_cancel₀ hr0, one_smul, zero_smul, add_zero, hu] at hl
      rw [hl, smul_add, smul_comm r (cos α), smul_comm r (sin α), smul_smul r, mul_inv_cancel₀ hr0, one_smul]
      congr 2
      have : c ⨯₃ (r⁻¹ • y) = r⁻¹ • (c ⨯₃ y) := by simp
      rw [this, smul_smul, mul_inv_cancel₀ hr0, one_smul]
  have hv : v = (v ⬝ᵥ c) • c + (1:ℝ) • y := by rw [hy, one_smul]; abel
  conv_lhs => rw [hv]
  rw [rigid_linear h, hF, one_smul, hFy, hcy, add_assoc]

/-- Two rotations about the same axis. -/
theorem rodrigues_add {F G H : (Fin 3 → ℝ) → (Fin 3 → ℝ)} {c : Fin 3 → ℝ} (hc : c ⬝ᵥ c = 1) {α β γ : ℝ}
    (hγ : cos γ = cos (α + β) ∧ sin γ = sin (α + β))
    (hF : ∀ v, F v = (v ⬝ᵥ c) • c + cos α • (v - (v ⬝ᵥ c) • c) + sin α • (c ⨯₃ v))
    (hG : ∀ v, G v = (v ⬝ᵥ c) • c + cos β • (v - (v ⬝ᵥ c) • c) + sin β • (c ⨯₃ v))
    (hH : ∀ v, H v = (v ⬝ᵥ c) • c + cos γ • (v - (v ⬝ᵥ c) • c) + sin γ • (c ⨯₃ v)) (v : Fin 3 → ℝ) :
    G (F v) = H v := by
  rw [hG, hF, hH, hγ.1, hγ.2, cos_add, sin_add]
  have h : c 0*c 0 + c 1*c 1 + c 2*c 2 = 1 := by simpa [dotProduct, Fin.sum_univ_three] using hc
  ext i
  have c0 : ∀ a b : Fin 3 → ℝ, (a ⨯₃ b) 0 = a 1*b 2 - a 2*b 1 := fun a b => by simp [cross_apply]
  have c1 : ∀ a b : Fin 3 → ℝ, (a ⨯₃ b) 1 = a 2*b 0 - a 0*b 2 := fun a b => by simp [cross_apply]
  have c2 : ∀ a b : Fin 3 → ℝ, (a ⨯₃ b) 2 = a 0*b 1 - a 1*b 0 := fun a b => by simp [cross_apply]
  fin_cases i <;> simp only [dotProduct, Fin.sum_univ_three, Pi.add_apply, Pi.sub_apply, Pi.smul_apply, smul_eq_mul,
    Fin.mk_one, Fin.zero_eta, Fin.reduceFinMk, c0, c1, c2]
  · linear_combination ((1 - cos β)*c 0*(1 - cos α)*(v 0*c 0 + v 1*c 1 + v 2*c 2) - sin β*sin α*v 0)*h
  · linear_combination ((1 - cos β)*c 1*(1 - cos α)*(v 0*c 0 + v 1*c 1 + v 2*c 2) - sin β*sin α*v 1)*h
  · linear_combination ((1 - cos β)*c 2*(1 - cos α)*(v 0*c 0 + v 1*c 1 + v 2*c 2) - sin β*sin α*v 2)*h

/-- A rotation is determined by the images of `dir p t` and `hor p`. -/
theorem rot_ext {M N : Matrix (Fin 3) (Fin 3) ℝ} (hM : IsRot M) (hN : IsRot N) {p t : ℝ}
    (h1 : M *ᵥ dir p t = N *ᵥ dir p t) (h2 : M *ᵥ hor p = N *ᵥ hor p) (v : Fin 3 → ℝ) : M *ᵥ v = N *ᵥ v := by
  have h3 : M *ᵥ north p t = N *ᵥ north p t := by
    rw [← dir_cross_east, east_eq, hM.cross, hN.cross, h1, h2]
  have e : v = (v ⬝ᵥ hor p) • hor p + (v ⬝ᵥ north p t) • north p t + (v ⬝ᵥ dir p t) • dir p t := by
    have a := sin_sq_add_cos_sq p
    have b := sin_sq_add_cos_sq t
    ext i
    fin_cases i <;> simp [hor, north, dir, dotProduct, Fin.sum_univ_three]
    · linear_combination -(cos p*(cos p*v 0 + sin p*v 1))*b - v 0*a
    · linear_combination -(sin p*(cos p*v 0 + sin p*v 1))*b - v 1*a
    · linear_combination -(v 2)*b
  rw [e]
  simp only [mulVec_add, mulVec_smul, h1, h2, h3]

theorem Rz_hor (a p : ℝ) : Rz a *ᵥ hor p = hor (p + a) := by
  ext i
  fin_cases i <;> simp [Rz, hor, mulVec, dotProduct, Fin.sum_univ_three, cos_add, sin_add] <;> ring

/-- What the two steps of `usphere_shift` do to the meridian frame of the start point. -/
theorem shift_frame {pS tS pE tE : ℝ} {M : Matrix (Fin 3) (Fin 3) ℝ} (h1 : M *ᵥ dir pE tS = dir pE tE)
    (h2 : M *ᵥ hor pE = hor pE) :
    (M * Rz (pE - pS)) *ᵥ dir pS tS = dir pE tE ∧ (M * Rz (pE - pS)) *ᵥ hor pS = hor pE := by
  rw [← mulVec_mulVec, ← mulVec_mulVec, Rz_dir, Rz_hor, add_sub_cancel]
  exact ⟨h1, h2⟩

end Magpie.Coords
