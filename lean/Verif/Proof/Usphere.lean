import Mathlib.Analysis.Real.Pi.Irrational
import Verif.Model.Usphere
import Verif.Proof.Conversions

/-!
# Lemmas about rotations of the sky
-/

set_option linter.unusedSimpArgs false
set_option linter.unusedVariables false

namespace Magpie.Coords
open Magpie.Healpix Magpie.Spec Real Matrix

theorem vec3_sphere2cart (phi theta : ℝ) :
    vec3 (sphere2cart 1 phi theta (0, 0, 0)) = dir phi theta := by
  simp [vec3, sphere2cart, dir]

theorem dot3 (a b : Fin 3 → ℝ) : a ⬝ᵥ b = a 0*b 0 + a 1*b 1 + a 2*b 2 := by
  simp [dotProduct, Fin.sum_univ_three]

theorem dir_dot_self (phi theta : ℝ) : dir phi theta ⬝ᵥ dir phi theta = 1 := by
  rw [dot3]
  simp [dir]
  have h1 := sin_sq_add_cos_sq phi
  have h2 := sin_sq_add_cos_sq theta
  calc _ = (sin phi^2+cos phi^2)*sin theta^2 + cos theta^2 := by ring
    _ = 1 := by rw [h1, one_mul, h2]

/-- A proper orthogonal matrix. -/
def IsRot (M : Matrix (Fin 3) (Fin 3) ℝ) : Prop := Mᵀ * M = 1 ∧ M.det = 1

theorem IsRot.inv {M : Matrix (Fin 3) (Fin 3) ℝ} (h : IsRot M) : M⁻¹ = Mᵀ :=
  inv_eq_left_inv h.1

theorem IsRot.mul {M N : Matrix (Fin 3) (Fin 3) ℝ} (h : IsRot M) (k : IsRot N) : IsRot (M*N) := by
  constructor
  · rw [transpose_mul, Matrix.mul_assoc, ← Matrix.mul_assoc Mᵀ, h.1, Matrix.one_mul, k.1]
  · rw [det_mul, h.2, k.2, one_mul]

theorem IsRot.transpose {M : Matrix (Fin 3) (Fin 3) ℝ} (h : IsRot M) : IsRot Mᵀ := by
  constructor
  · rw [transpose_transpose]
    exact mul_eq_one_comm.mp h.1
  · rw [det_transpose, h.2]

theorem IsRot.rigid {M : Matrix (Fin 3) (Fin 3) ℝ} (h : IsRot M) : Rigid M.mulVec := by
  constructor
  · intro a b
    rw [dotProduct_mulVec, vecMul_mulVec, ← mulVec_transpose]
    rw [transpose_mul, transpose_transpose, h.1, one_mulVec]
  · intro a b c
    unfold triple
    rw [triple_product_eq_det, triple_product_eq_det]
    have e : Matrix.of ![M.mulVec a, M.mulVec b, M.mulVec c]
        = Matrix.of ![a, b, c] * Mᵀ := by
      ext i j
      fin_cases i <;>
        simp [Matrix.mul_apply, mulVec, dotProduct, Fin.sum_univ_three, mul_comm]
    have e2 := congrArg Matrix.det e
    rw [det_mul, det_transpose, h.2, mul_one] at e2
    exact e2

/-- Rotation about the z axis. -/
noncomputable def Rz (a : ℝ) : Matrix (Fin 3) (Fin 3) ℝ :=
  !![cos a, -sin a, 0; sin a, cos a, 0; 0, 0, 1]

theorem isRot_Rz (a : ℝ) : IsRot (Rz a) := by
  have h := sin_sq_add_cos_sq a
  constructor
  · ext i j
    fin_cases i <;> fin_cases j <;>
      simp [Rz, Matrix.mul_apply, Fin.sum_univ_three] <;> nlinarith
  · simp [Rz, det_fin_three]; nlinarith

theorem Rz_dir (a phi theta : ℝ) : (Rz a).mulVec (dir phi theta) = dir (phi + a) theta := by
  ext i
  fin_cases i <;>
    simp [Rz, dir, mulVec, dotProduct, Fin.sum_univ_three, cos_add, sin_add] <;> ring

/-- The matrices of `usphere_rotate` for unit vectors `u`, `v`. -/
structure Frame (u v t n : Fin 3 → ℝ) (w : ℝ) : Prop where
  w_pos : 0 < w
  w_sq : w^2 = 1 - (u ⬝ᵥ v)^2
  uu : u ⬝ᵥ u = 1
  vv : v ⬝ᵥ v = 1
  nn : n ⬝ᵥ n = 1
  nu : n ⬝ᵥ u = 0
  nv : n ⬝ᵥ v = 0
  tt : t ⬝ᵥ t = 1
  tu : t ⬝ᵥ u = 0
  tn : t ⬝ᵥ n = 0
  vt : v ⬝ᵥ t = w
  v_eq : ∀ i, v i = (u ⬝ᵥ v)*u i + w*t i
  vol : u ⬝ᵥ (t ⨯₃ n) = 1
  wn : ∀ i, w*n i = (u ⨯₃ v) i

theorem frame {u v : Fin 3 → ℝ} (uu : u ⬝ᵥ u = 1) (vv : v ⬝ᵥ v = 1) {w : ℝ}
    (hw : w = √(((u ⨯₃ v) 0)^2 + ((u ⨯₃ v) 1)^2 + ((u ⨯₃ v) 2)^2)) (hne : w ≠ 0) :
    Frame u v ((fun i => (u ⨯₃ v) i/w) ⨯₃ u) (fun i => (u ⨯₃ v) i/w) w := by
  have hwp : 0 < w := lt_of_le_of_ne (by rw [hw]; exact sqrt_nonneg _) (Ne.symm hne)
  have hw2 : w^2 = ((u ⨯₃ v) 0)^2 + ((u ⨯₃ v) 1)^2 + ((u ⨯₃ v) 2)^2 := by
    rw [hw, sq_sqrt (by positivity)]
  clear hw
  set n : Fin 3 → ℝ := fun i => (u ⨯₃ v) i/w with hn
  have hwn : ∀ i, w*n i = (u ⨯₃ v) i := by intro i; rw [hn]; field_simp
  clear_value n
  have n0 := hwn 0
  have n1 := hwn 1
  have n2 := hwn 2
  rw [dot3] at uu vv
  have c0 : ∀ a b : Fin 3 → ℝ, (a ⨯₃ b) 0 = a 1*b 2 - a 2*b 1 := by
    intro a b; simp [cross_apply]
  have c1 : ∀ a b : Fin 3 → ℝ, (a ⨯₃ b) 1 = a 2*b 0 - a 0*b 2 := by
    intro a b; simp [cross_apply]
  have c2 : ∀ a b : Fin 3 → ℝ, (a ⨯₃ b) 2 = a 0*b 1 - a 1*b 0 := by
    intro a b; simp [cross_apply]
  rw [c0] at n0
  rw [c1] at n1
  rw [c2] at n2
  rw [c0, c1, c2] at hw2
  have wne := hwp.ne'
  have nn : n ⬝ᵥ n = 1 := by
    rw [dot3]
    have : w^2*(n 0*n 0 + n 1*n 1 + n 2*n 2) = w^2*1 := by
      calc _ = (w*n 0)^2 + (w*n 1)^2 + (w*n 2)^2 := by ring
        _ = _ := by rw [n0, n1, n2, hw2]; ring
    exact mul_left_cancel₀ (by positivity) this
  have nu : n ⬝ᵥ u = 0 := by
    rw [dot3]
    have : w*(n 0*u 0 + n 1*u 1 + n 2*u 2) = w*0 := by
      calc _ = (w*n 0)*u 0 + (w*n 1)*u 1 + (w*n 2)*u 2 := by ring
        _ = _ := by rw [n0, n1, n2]; ring
    exact mul_left_cancel₀ wne this
  have nv : n ⬝ᵥ v = 0 := by
    rw [dot3]
    have : w*(n 0*v 0 + n 1*v 1 + n 2*v 2) = w*0 := by
      calc _ = (w*n 0)*v 0 + (w*n 1)*v 1 + (w*n 2)*v 2 := by ring
        _ = _ := by rw [n0, n1, n2]; ring
    exact mul_left_cancel₀ wne this
  have lag : w^2 = 1 - (u ⬝ᵥ v)^2 := by
    rw [hw2, dot3]
    have : (u 0*u 0 + u 1*u 1 + u 2*u 2)*(v 0*v 0 + v 1*v 1 + v 2*v 2) = 1 := by rw [uu, vv]; ring
    linarith [this]
  have nn' := nn
  have nu' := nu
  have nv' := nv
  rw [dot3] at nn' nu' nv'
  refine ⟨hwp, lag, by rw [dot3]; exact uu, by rw [dot3]; exact vv, nn, nu, nv, ?_, ?_, ?_, ?_, ?_,
    ?_, hwn⟩
  · rw [dot3, c0, c1, c2]
    have : (n 0*n 0 + n 1*n 1 + n 2*n 2)*(u 0*u 0 + u 1*u 1 + u 2*u 2)
      - (n 0*u 0 + n 1*u 1 + n 2*u 2)^2 = 1 := by rw [nn', uu, nu']; ring
    linarith [this]
  · rw [dot3, c0, c1, c2]; ring
  · rw [dot3, c0, c1, c2]; ring
  · rw [dot3, c0, c1, c2]
    have : w*(v 0*(n 1*u 2 - n 2*u 1) + v 1*(n 2*u 0 - n 0*u 2) + v 2*(n 0*u 1 - n 1*u 0)) = w*w := by
      calc _ = (w*n 0)*(u 1*v 2 - u 2*v 1) + (w*n 1)*(u 2*v 0 - u 0*v 2)
            + (w*n 2)*(u 0*v 1 - u 1*v 0) := by ring
        _ = w*w := by rw [n0, n1, n2]; linarith [hw2]
    exact mul_left_cancel₀ wne this
  · intro i
    rw [dot3]
    fin_cases i
    · show v 0 = (u 0*v 0 + u 1*v 1 + u 2*v 2)*u 0 + w*(n ⨯₃ u) 0
      rw [c0]
      have : w*(n 1*u 2 - n 2*u 1) = (w*n 1)*u 2 - (w*n 2)*u 1 := by ring
      rw [this, n1, n2]
      linear_combination (-v 0)*uu
    · show v 1 = (u 0*v 0 + u 1*v 1 + u 2*v 2)*u 1 + w*(n ⨯₃ u) 1
      rw [c1]
      have : w*(n 2*u 0 - n 0*u 2) = (w*n 2)*u 0 - (w*n 0)*u 2 := by ring
      rw [this, n2, n0]
      linear_combination (-v 1)*uu
    · show v 2 = (u 0*v 0 + u 1*v 1 + u 2*v 2)*u 2 + w*(n ⨯₃ u) 2
      rw [c2]
      have : w*(n 0*u 1 - n 1*u 0) = (w*n 0)*u 1 - (w*n 1)*u 0 := by ring
      rw [this, n0, n1]
      linear_combination (-v 2)*uu
  · simp only [dot3, c0, c1, c2]
    linear_combination (u 0*u 0 + u 1*u 1 + u 2*u 2)*nn' + uu
      - (n 0*u 0 + n 1*u 1 + n 2*u 2)*nu'

/-- The matrix with columns `u`, `t`, `n`. -/
def cols (u t n : Fin 3 → ℝ) : Matrix (Fin 3) (Fin 3) ℝ :=
  !![u 0, t 0, n 0; u 1, t 1, n 1; u 2, t 2, n 2]

theorem Frame.isRot {u v t n : Fin 3 → ℝ} {w : ℝ} (h : Frame u v t n w) : IsRot (cols u t n) := by
  have a1 := h.uu; have a2 := h.tt; have a3 := h.nn
  have b1 := h.nu; have b2 := h.tu; have b3 := h.tn
  rw [dot3] at a1 a2 a3 b1 b2 b3
  constructor
  · ext i j
    fin_cases i <;> fin_cases j <;>
      simp [cols, Matrix.mul_apply, Fin.sum_univ_three] <;> linarith
  · have := h.vol
    rw [triple_product_eq_det] at this
    rw [← this, ← det_transpose]
    congr 1
    ext i j
    fin_cases i <;> fin_cases j <;> simp [cols]

/-- Angle of `usphere_rotate`. -/
theorem arctan2_unit {s c : ℝ} (h : s^2 + c^2 = 1) :
    cos (arctan2 s c) = c ∧ sin (arctan2 s c) = s := by
  have hn : ‖(⟨c, s⟩ : ℂ)‖ = 1 := by
    rw [Complex.norm_eq_sqrt_sq_add_sq]
    simp only []
    rw [show c^2 + s^2 = 1 by linarith, sqrt_one]
  have h1 := Complex.norm_mul_cos_arg ⟨c, s⟩
  have h2 := Complex.norm_mul_sin_arg ⟨c, s⟩
  rw [hn, one_mul] at h1 h2
  exact ⟨h1, h2⟩

/-- Everything about the matrix applied by `usphere_rotate`. -/
theorem rotate_matrix {phiEnd thetaEnd phiStart thetaStart : ℝ}
    (hne : (dir phiStart thetaStart ⬝ᵥ dir phiEnd thetaEnd)^2 ≠ 1) :
    ∃ (m : Matrix (Fin 3) (Fin 3) ℝ × Matrix (Fin 3) (Fin 3) ℝ) (M : Matrix (Fin 3) (Fin 3) ℝ)
      (t n : Fin 3 → ℝ) (w a : ℝ),
      rotateMats phiEnd thetaEnd phiStart thetaStart = some m ∧
      (∀ q, applyRot m q = M.mulVec q) ∧
      Frame (dir phiStart thetaStart) (dir phiEnd thetaEnd) t n w ∧
      cos a = dir phiStart thetaStart ⬝ᵥ dir phiEnd thetaEnd ∧ sin a = w ∧
      M = cols (dir phiStart thetaStart) t n * Rz a * (cols (dir phiStart thetaStart) t n)ᵀ := by
  set u := dir phiStart thetaStart with hu
  set v := dir phiEnd thetaEnd with hv
  have uu : u ⬝ᵥ u = 1 := dir_dot_self _ _
  have vv : v ⬝ᵥ v = 1 := dir_dot_self _ _
  set w := √(((u ⨯₃ v) 0)^2 + ((u ⨯₃ v) 1)^2 + ((u ⨯₃ v) 2)^2) with hw
  have wne : w ≠ 0 := by
    intro h0
    rw [hw, sqrt_eq_zero (by positivity)] at h0
    apply hne
    have lag : ((u ⨯₃ v) 0)^2 + ((u ⨯₃ v) 1)^2 + ((u ⨯₃ v) 2)^2 = 1 - (u ⬝ᵥ v)^2 := by
      have e : (u ⬝ᵥ u)*(v ⬝ᵥ v) = 1 := by rw [uu, vv]; ring
      rw [dot3, dot3] at e
      rw [dot3]
      simp [cross_apply]
      linarith [e]
    linarith
  have hf := frame uu vv hw wne
  set n : Fin 3 → ℝ := fun i => (u ⨯₃ v) i/w with hn
  set t := n ⨯₃ u with ht
  refine ⟨(cols u t n, Rz (arctan2 (v ⬝ᵥ t) (v ⬝ᵥ u))), _, t, n, w, arctan2 (v ⬝ᵥ t) (v ⬝ᵥ u), ?_,
    ?_, hf, ?_, ?_, rfl⟩
  · unfold rotateMats
    simp only [vec3_sphere2cart]
    rw [← hu, ← hv, if_neg wne]
    rfl
  · intro q
    unfold applyRot
    simp only []
    rw [hf.isRot.inv, mulVec_mulVec, mulVec_mulVec, Matrix.mul_assoc]
  all_goals
    rw [hf.vt, dotProduct_comm v u]
  · exact (arctan2_unit (by have := hf.w_sq; linarith)).1
  · exact (arctan2_unit (by have := hf.w_sq; linarith)).2

theorem ext_dot {a b : Fin 3 → ℝ} (h : ∀ c, c ⬝ᵥ a = c ⬝ᵥ b) : a = b := by
  ext i
  have := h (Pi.single i 1)
  simpa using this

theorem IsRot.cancel {M : Matrix (Fin 3) (Fin 3) ℝ} (h : IsRot M) (c : Fin 3 → ℝ) :
    M.mulVec (Mᵀ.mulVec c) = c := by
  rw [mulVec_mulVec, mul_eq_one_comm.mp h.1, one_mulVec]

theorem IsRot.cancel' {M : Matrix (Fin 3) (Fin 3) ℝ} (h : IsRot M) (c : Fin 3 → ℝ) :
    Mᵀ.mulVec (M.mulVec c) = c := by
  rw [mulVec_mulVec, h.1, one_mulVec]

theorem IsRot.cross {M : Matrix (Fin 3) (Fin 3) ℝ} (h : IsRot M) (x y : Fin 3 → ℝ) :
    M.mulVec (x ⨯₃ y) = M.mulVec x ⨯₃ M.mulVec y := by
  apply ext_dot
  intro c
  rw [← h.cancel c]
  have := h.rigid.2 (Mᵀ.mulVec c) x y
  unfold triple at this
  rw [this, h.rigid.1]

theorem cols_e (u t n : Fin 3 → ℝ) (x : Fin 3 → ℝ) (i : Fin 3) :
    (cols u t n).mulVec x i = u i*x 0 + t i*x 1 + n i*x 2 := by
  fin_cases i <;> simp [cols, mulVec, dotProduct, Fin.sum_univ_three]

theorem colsT_e (u t n : Fin 3 → ℝ) (x : Fin 3 → ℝ) :
    (cols u t n)ᵀ.mulVec x = ![u ⬝ᵥ x, t ⬝ᵥ x, n ⬝ᵥ x] := by
  ext i
  fin_cases i <;> simp [cols, mulVec, dotProduct, Fin.sum_univ_three]

theorem Rz_e (a : ℝ) (x : Fin 3 → ℝ) :
    (Rz a).mulVec x = ![cos a*x 0 - sin a*x 1, sin a*x 0 + cos a*x 1, x 2] := by
  ext i
  fin_cases i <;> simp [Rz, mulVec, dotProduct, Fin.sum_univ_three] <;> ring

/-- What the matrix of `usphere_rotate` does. -/
theorem frame_rot {u v t n : Fin 3 → ℝ} {w a : ℝ} (h : Frame u v t n w)
    (ca : cos a = u ⬝ᵥ v) (sa : sin a = w) {M : Matrix (Fin 3) (Fin 3) ℝ}
    (hM : M = cols u t n * Rz a * (cols u t n)ᵀ) :
    IsRot M ∧ M.mulVec u = v ∧ M.mulVec n = n ∧
    ∀ x, x ⬝ᵥ n = 0 → x ⬝ᵥ x = 1 → x ⬝ᵥ M.mulVec x = u ⬝ᵥ v ∧ x ⨯₃ M.mulVec x = u ⨯₃ v := by
  have hC := h.isRot
  have hR : IsRot M := by rw [hM]; exact (hC.mul (isRot_Rz a)).mul hC.transpose
  have app : ∀ x, M.mulVec x = (cols u t n).mulVec ((Rz a).mulVec ((cols u t n)ᵀ.mulVec x)) := by
    intro x; rw [hM, mulVec_mulVec, mulVec_mulVec, Matrix.mul_assoc]
  refine ⟨hR, ?_, ?_, ?_⟩
  · rw [app, colsT_e, h.uu, h.tu, h.nu, Rz_e]
    ext i
    rw [cols_e]
    simp only [cons_val_zero, cons_val_one, cons_val]
    rw [h.v_eq i, ca, sa]; ring
  · rw [app, colsT_e, h.nn, h.tn, dotProduct_comm u n, h.nu, Rz_e]
    ext i
    rw [cols_e]
    simp
  · intro x hx xx
    set y := (cols u t n)ᵀ.mulVec x with hy
    have hxy : x = (cols u t n).mulVec y := by rw [hy, hC.cancel]
    have y2 : y 2 = 0 := by rw [hy, colsT_e]; simp only [cons_val]; rw [dotProduct_comm, hx]
    have yy : y ⬝ᵥ y = 1 := by rw [hy, hC.transpose.rigid.1, xx]
    rw [dot3, y2] at yy
    rw [app, ← hy]
    constructor
    · rw [hxy, hC.rigid.1, Rz_e, dot3]
      simp only [cons_val_zero, cons_val_one, cons_val, y2]
      rw [← ca]
      linear_combination cos a*yy
    · rw [hxy, ← hC.cross, Rz_e]
      have e : y ⨯₃ ![cos a*y 0 - sin a*y 1, sin a*y 0 + cos a*y 1, y 2] = ![0, 0, sin a] := by
        ext i
        fin_cases i <;> simp [cross_apply, y2]
        linear_combination sin a*yy
      rw [e]
      ext i
      rw [cols_e, ← h.wn i, sa]
      simp; ring

/-- The sky position computed from a unit vector is that vector's direction. -/
theorem dir_of_unit {q : Fin 3 → ℝ} (h : q ⬝ᵥ q = 1) :
    dir (azim (q 0) (q 1)) (colat (q 0) (q 1) (q 2)) = q := by
  rw [dot3] at h
  have hr : √((q 0)^2 + (q 1)^2 + (q 2)^2) = 1 := by
    rw [show (q 0)^2 + (q 1)^2 + (q 2)^2 = 1 by linarith, sqrt_one]
  obtain ⟨h1, h2⟩ := sphere2cart_cart2sphere (q 0) (q 1) (q 2)
  have h3 := cos_colat (q 0) (q 1) (q 2)
  rw [hr, one_mul] at h1 h2 h3
  ext i
  fin_cases i
  · simpa [dir] using h1
  · simpa [dir] using h2
  · simpa [dir] using h3

theorem rotateChecks_ok {phiEnd thetaEnd phiStart thetaStart : ℝ}
    (hd : phiStart ≠ phiEnd ∨ thetaStart ≠ thetaEnd)
    (h1 : 0 ≤ phiStart ∧ phiStart ≤ 2*π) (h2 : 0 ≤ phiEnd ∧ phiEnd ≤ 2*π)
    (h3 : 0 ≤ thetaStart ∧ thetaStart ≤ π) (h4 : 0 ≤ thetaEnd ∧ thetaEnd ≤ π) :
    rotateChecks phiEnd thetaEnd phiStart thetaStart = .ok () := by
  unfold rotateChecks pyAssert
  simp [hd, h1, h2, h3, h4, bind, Except.bind]

theorem rotate_eq {phi theta phiEnd thetaEnd phiStart thetaStart : ℝ}
    (hc : rotateChecks phiEnd thetaEnd phiStart thetaStart = .ok ())
    {m : Matrix (Fin 3) (Fin 3) ℝ × Matrix (Fin 3) (Fin 3) ℝ} {M : Matrix (Fin 3) (Fin 3) ℝ}
    (hm : rotateMats phiEnd thetaEnd phiStart thetaStart = some m)
    (hM : ∀ q, applyRot m q = M.mulVec q) (hR : IsRot M) :
    ∃ phi' theta', rotate phi theta phiEnd thetaEnd phiStart thetaStart
        = .ok (some (phi', theta')) ∧
      0 ≤ phi' ∧ phi' < 2*π ∧ 0 ≤ theta' ∧ theta' ≤ π ∧
      dir phi' theta' = M.mulVec (dir phi theta) := by
  set q := M.mulVec (dir phi theta) with hq
  have qq : q ⬝ᵥ q = 1 := by rw [hq, hR.rigid.1, dir_dot_self]
  refine ⟨azim (q 0) (q 1), colat (q 0) (q 1) (q 2), ?_, (azim_range _ _).1, (azim_range _ _).2,
    (colat_range _ _ _).1, (colat_range _ _ _).2, dir_of_unit qq⟩
  unfold rotate
  rw [hc]
  simp only [bind, Except.bind, hm, vec3_sphere2cart, hM, ← hq]
  rw [cart2sphere_eq]
  simp [pure, Except.pure]

theorem dir_inj {phi theta phi' theta' : ℝ} (h : dir phi theta = dir phi' theta')
    (p : 0 ≤ phi ∧ phi < 2*π) (t : 0 ≤ theta ∧ theta ≤ π)
    (p' : 0 ≤ phi' ∧ phi' < 2*π) (t' : 0 < theta' ∧ theta' < π) :
    phi = phi' ∧ theta = theta' := by
  have e : ∀ i, dir phi theta i = dir phi' theta' i := fun i => by rw [h]
  have e0 := e 0
  have e1 := e 1
  have e2 := e 2
  simp [dir] at e0 e1 e2
  have ht : theta = theta' := injOn_cos ⟨t.1, t.2⟩ ⟨t'.1.le, t'.2.le⟩ e2
  subst ht
  refine ⟨?_, rfl⟩
  have a1 := azim_sphere (r := 1) one_pos t'.1 t'.2 p.1 p.2
  have a2 := azim_sphere (r := 1) one_pos t'.1 t'.2 p'.1 p'.2
  rw [one_mul, one_mul] at a1 a2
  rw [← a1, ← a2, e0, e1]

theorem dot_sq_ne_one {u v : Fin 3 → ℝ} (uu : u ⬝ᵥ u = 1) (vv : v ⬝ᵥ v = 1)
    (h1 : u ≠ v) (h2 : u ≠ -v) : (u ⬝ᵥ v)^2 ≠ 1 := by
  intro h
  have key : ∀ e : ℝ, e^2 = 1 → u ⬝ᵥ v = e → ∀ i, u i = e*v i := by
    intro e he hd
    rw [dot3] at uu vv hd
    have s : (u 0 - e*v 0)^2 + (u 1 - e*v 1)^2 + (u 2 - e*v 2)^2 = 0 := by
      linear_combination uu + e^2*vv - 2*e*hd - he
    have n0 := sq_nonneg (u 0 - e*v 0)
    have n1 := sq_nonneg (u 1 - e*v 1)
    have n2 := sq_nonneg (u 2 - e*v 2)
    have z : ∀ x : ℝ, x^2 = 0 → x = 0 := fun x hx => by simpa using hx
    have z0 := z _ (by linarith : (u 0 - e*v 0)^2 = 0)
    have z1 := z _ (by linarith : (u 1 - e*v 1)^2 = 0)
    have z2 := z _ (by linarith : (u 2 - e*v 2)^2 = 0)
    intro i
    fin_cases i
    · show u 0 = e*v 0; linarith
    · show u 1 = e*v 1; linarith
    · show u 2 = e*v 2; linarith
  have : (u ⬝ᵥ v - 1)*(u ⬝ᵥ v + 1) = 0 := by linear_combination h
  rcases mul_eq_zero.mp this with h | h
  · apply h1
    ext i
    rw [key 1 (by norm_num) (by linarith) i, one_mul]
  · apply h2
    ext i
    rw [key (-1) (by norm_num) (by linarith) i]
    simp

theorem phiShift_ok {phi dphi : ℝ} (h1 : -2*π < dphi) (h2 : dphi < 2*π) :
    ∃ (p : ℝ) (k : ℤ), phiShift phi dphi = .ok p ∧ p = phi + dphi + 2*π*k ∧ |k| ≤ 1 ∧
      (0 ≤ phi → phi ≤ 2*π → 0 ≤ p ∧ p ≤ 2*π) := by
  have hpi := pi_pos
  unfold phiShift pyAssert
  rw [if_pos ⟨h1, h2⟩]
  simp only [bind, Except.bind, pure, Except.pure]
  by_cases a : phi + dphi > 2*π
  · rw [if_pos a]
    refine ⟨_, -1, rfl, by push_cast; ring, by decide, ?_⟩
    intro p q; constructor <;> linarith
  · rw [if_neg a]
    push Not at a
    by_cases b : phi + dphi < 0
    · rw [if_pos b]
      refine ⟨_, 1, rfl, by push_cast; ring, by decide, ?_⟩
      intro p q; constructor <;> linarith
    · rw [if_neg b]
      push Not at b
      exact ⟨_, 0, rfl, by push_cast; ring, by decide, fun _ _ => ⟨b, a⟩⟩

theorem dir_turn (phi theta : ℝ) (k : ℤ) : dir (phi + 2*π*k) theta = dir phi theta := by
  unfold dir
  rw [show phi + 2*π*k = phi + k*(2*π) by ring, cos_add_int_mul_two_pi, sin_add_int_mul_two_pi]

theorem dir_dot_merid (phi a b : ℝ) : dir phi a ⬝ᵥ dir phi b = cos (a - b) := by
  rw [dot3, cos_sub]
  simp [dir]
  have h := sin_sq_add_cos_sq phi
  linear_combination (sin a*sin b)*h

theorem merid_ne {phi a b : ℝ} (h : a ≠ b) (h1 : |a - b| < π) :
    (dir phi a ⬝ᵥ dir phi b)^2 ≠ 1 := by
  rw [dir_dot_merid]
  intro hc
  have hs : sin (a - b) = 0 := by
    have := sin_sq_add_cos_sq (a - b)
    have : sin (a-b)^2 = 0 := by linarith
    simpa using this
  rw [abs_lt] at h1
  rw [sin_eq_zero_iff_of_lt_of_lt h1.1 h1.2] at hs
  exact h (by linarith)

/-- `usphere_rotate` along a meridian. -/
theorem rotate_merid {phi a b : ℝ} (hp : 0 ≤ phi ∧ phi ≤ 2*π) (ha : 0 ≤ a ∧ a ≤ π)
    (hb : 0 ≤ b ∧ b ≤ π) (hne : a ≠ b) (hlt : |a - b| < π) :
    ∃ (M : Matrix (Fin 3) (Fin 3) ℝ) (t n : Fin 3 → ℝ) (w : ℝ), IsRot M ∧
      Frame (dir phi a) (dir phi b) t n w ∧ M.mulVec (dir phi a) = dir phi b ∧ M.mulVec n = n ∧
      ∀ p th, ∃ p' th', rotate p th phi b phi a = .ok (some (p', th')) ∧
        0 ≤ p' ∧ p' < 2*π ∧ 0 ≤ th' ∧ th' ≤ π ∧ dir p' th' = M.mulVec (dir p th) := by
  obtain ⟨m, M, t, n, w, al, hm, hM, hf, ca, sa, hMe⟩ := rotate_matrix (merid_ne (phi := phi) hne hlt)
  obtain ⟨hR, hu, hn, _⟩ := frame_rot hf ca sa hMe
  refine ⟨M, t, n, w, hR, hf, hu, hn, ?_⟩
  intro p th
  exact rotate_eq (rotateChecks_ok (Or.inr hne) hp hp ha hb) hm hM hR

theorem rot_back {u v t n t' n' : Fin 3 → ℝ} {w w' : ℝ} (h : Frame u v t n w)
    (h' : Frame v u t' n' w') {M M' : Matrix (Fin 3) (Fin 3) ℝ} (hM : IsRot M) (hM' : IsRot M')
    (a : M.mulVec u = v) (b : M.mulVec n = n) (a' : M'.mulVec v = u) (b' : M'.mulVec n' = n') :
    M' = Mᵀ := by
  have hw : w' = w := by
    have e1 := h.w_sq
    have e2 := h'.w_sq
    rw [dotProduct_comm] at e2
    have : (w' - w)*(w' + w) = 0 := by linear_combination e2 - e1
    rcases mul_eq_zero.mp this with h0 | h0
    · linarith
    · have := h.w_pos; have := h'.w_pos; linarith
  have hn : n' = -n := by
    ext i
    have e1 := h.wn i
    have e2 := h'.wn i
    rw [hw, ← cross_anticomm u v] at e2
    have : w*n' i = w*(-n i) := by rw [e2, mul_neg, e1]; simp
    simpa using mul_left_cancel₀ h.w_pos.ne' this
  have b2 : M'.mulVec n = n := by
    have := b'
    rw [hn, mulVec_neg] at this
    exact neg_injective this
  have hc : M' * M = 1 := by
    have key : (M' * M) * cols u (n ⨯₃ u) n = cols u (n ⨯₃ u) n := by
      have e1 : (M'*M).mulVec u = u := by rw [← mulVec_mulVec, a, a']
      have e2 : (M'*M).mulVec n = n := by rw [← mulVec_mulVec, b, b2]
      have e3 : (M'*M).mulVec (n ⨯₃ u) = n ⨯₃ u := by
        rw [(hM'.mul hM).cross, e1, e2]
      ext i j
      have f1 := congrFun e1 i
      have f2 := congrFun e2 i
      have f3 := congrFun e3 i
      rw [Matrix.mul_apply, Fin.sum_univ_three]
      simp only [mulVec, dotProduct, Fin.sum_univ_three] at f1 f2 f3
      fin_cases j
      · simp only [cols]
        fin_cases i <;> simpa using f1
      · simp only [cols]
        fin_cases i <;> simpa using f3
      · simp only [cols]
        fin_cases i <;> simpa using f2
    have hC : IsRot (cols u (n ⨯₃ u) n) := by
      have : t = n ⨯₃ u := by
        ext i
        have hv := h.v_eq
        have e : w • (n ⨯₃ u) = w • t := by
          have wn : w • n = u ⨯₃ v := by ext i; simpa using h.wn i
          rw [← LinearMap.smul_apply, ← map_smul, wn]
          have uu := h.uu
          rw [dot3] at uu
          have v0 := hv 0
          have v1 := hv 1
          have v2 := hv 2
          ext i
          have tu := h.tu
          rw [dot3] at tu v0 v1 v2
          fin_cases i
          · simp [cross_apply]
            linear_combination v0 + (v 0)*uu
          · simp [cross_apply]
            linear_combination v1 + (v 1)*uu
          · simp [cross_apply]
            linear_combination v2 + (v 2)*uu
        have := congrFun e i
        simp only [Pi.smul_apply, smul_eq_mul] at this
        exact (mul_left_cancel₀ h.w_pos.ne' this).symm
      rw [← this]; exact h.isRot
    have h3 := mul_eq_one_comm.mp hC.1
    calc M' * M = (M' * M) * (cols u (n ⨯₃ u) n * (cols u (n ⨯₃ u) n)ᵀ) := by rw [h3, Matrix.mul_one]
      _ = ((M' * M) * cols u (n ⨯₃ u) n) * (cols u (n ⨯₃ u) n)ᵀ := by simp only [Matrix.mul_assoc]
      _ = 1 := by rw [key, h3]
  calc M' = M' * (M * Mᵀ) := by rw [mul_eq_one_comm.mp hM.1, Matrix.mul_one]
    _ = (M' * M) * Mᵀ := by rw [Matrix.mul_assoc]
    _ = Mᵀ := by rw [hc, Matrix.one_mul]

theorem shiftChecks_ok {pS tS pE tE : ℝ} (h1 : 0 ≤ pS ∧ pS ≤ 2*π) (h2 : 0 ≤ pE ∧ pE ≤ 2*π)
    (h3 : 0 ≤ tS ∧ tS ≤ π) (h4 : 0 ≤ tE ∧ tE ≤ π) : shiftChecks pS tS pE tE = .ok () := by
  unfold shiftChecks pyAssert
  simp [h1, h2, h3, h4, bind, Except.bind]

/-- `usphere_shift` is `M * Rz` with `M` the meridian rotation. -/
theorem shift_rot {pS tS pE tE : ℝ} (h1 : 0 ≤ pS ∧ pS ≤ 2*π) (h2 : 0 ≤ pE ∧ pE ≤ 2*π)
    (h3 : 0 ≤ tS ∧ tS ≤ π) (h4 : 0 ≤ tE ∧ tE ≤ π) (hd : |pE - pS| < 2*π) (hlt : |tS - tE| < π)
    {M : Matrix (Fin 3) (Fin 3) ℝ}
    (hM : tS ≠ tE → ∀ p th, ∃ p' th', rotate p th pE tE pE tS = .ok (some (p', th')) ∧
        0 ≤ p' ∧ p' < 2*π ∧ 0 ≤ th' ∧ th' ≤ π ∧ dir p' th' = M.mulVec (dir p th))
    (hM1 : tS = tE → M = 1) (phi theta : ℝ) :
    ∃ phi' theta', shift phi theta pS tS pE tE = .ok (some (phi', theta')) ∧
      (0 ≤ phi → phi ≤ 2*π → 0 ≤ phi' ∧ phi' ≤ 2*π) ∧
      (0 ≤ theta → theta ≤ π → 0 ≤ theta' ∧ theta' ≤ π) ∧
      dir phi' theta' = (M * Rz (pE - pS)).mulVec (dir phi theta) := by
  rw [abs_lt] at hd
  obtain ⟨p, k, hp, hpk, _, hpr⟩ := phiShift_ok (phi := phi) (dphi := pE - pS) (by linarith) hd.2
  have hdir : dir p theta = (Rz (pE-pS)).mulVec (dir phi theta) := by
    rw [Rz_dir, hpk, dir_turn]
  unfold shift
  rw [shiftChecks_ok h1 h2 h3 h4, hp]
  simp only [bind, Except.bind]
  by_cases c : tS = tE
  · rw [if_neg (by simpa using c)]
    refine ⟨p, theta, rfl, hpr, fun a b => ⟨a, b⟩, ?_⟩
    rw [hM1 c, Matrix.one_mul, hdir]
  · rw [if_pos c]
    obtain ⟨p', th', hr, r1, r2, r3, r4, r5⟩ := hM c p theta
    refine ⟨p', th', hr, fun _ _ => ⟨r1, r2.le⟩, fun _ _ => ⟨r3, r4⟩, ?_⟩
    rw [r5, hdir, mulVec_mulVec]

theorem rotateMats_none {pE tE pS tS : ℝ} (h : dir pS tS ⨯₃ dir pE tE = 0) :
    rotateMats pE tE pS tS = none := by
  unfold rotateMats
  simp only [vec3_sphere2cart, h]
  rw [if_pos (by simp)]

theorem pole_cross (phi : ℝ) : dir phi 0 ⨯₃ dir phi π = 0 ∧ dir phi π ⨯₃ dir phi 0 = 0 := by
  constructor <;>
    (ext i; fin_cases i <;> simp [dir, cross_apply])

/-! ## arrays -/

theorem phiShiftArr_eq_map (phi : List ℝ) (dphi : ℝ) (f : ℝ → ℝ)
    (h : ∀ p ∈ phi, phiShift p dphi = .ok (f p)) (h1 : -2*π < dphi) (h2 : dphi < 2*π) :
    phiShiftArr phi dphi = .ok (phi.map f) := by
  have hpi := pi_pos
  unfold phiShiftArr pyAssert
  rw [if_pos ⟨h1, h2⟩]
  simp only [vzip_map_same, List.length_map, replicate_length_map, whereIdx_map, bind, Except.bind,
    gather_whereIdx, gather_self, zipWith_map_same, zipWith_same_map, zip_map_same,
    scatter_whereIdx, List.map_map, Function.comp_def, pure, Except.pure, decide_eq_true_eq]
  congr 1
  apply List.map_congr_left
  intro p hp
  have := h p hp
  unfold phiShift pyAssert at this
  rw [if_pos ⟨h1, h2⟩] at this
  simp only [bind, Except.bind, pure, Except.pure, Except.ok.injEq] at this
  rw [← this]
  by_cases a : p + dphi > 2*π
  · rw [if_pos a, if_pos a, if_neg (by linarith)]
  · rw [if_neg a, if_neg a]

theorem rotateArr_eq_map (rows : List (ℝ × ℝ)) (pE tE pS tS : ℝ)
    (f : ℝ × ℝ → Option (ℝ × ℝ)) (hne : rows ≠ [])
    (hc : rotateChecks pE tE pS tS = .ok ())
    (h : ∀ r ∈ rows, rotate r.1 r.2 pE tE pS tS = .ok (f r)) :
    rotateArr (rows.map Prod.fst) (rows.map Prod.snd) pE tE pS tS
      = .ok (rows.map fun r => (f r).map Prod.fst, rows.map fun r => (f r).map Prod.snd) := by
  unfold rotateArr
  rw [hc]
  simp only [bind, Except.bind, vzip_map_same]
  rw [if_neg (by simpa using hne)]
  simp only [pure, Except.pure]
  unfold rotate at h
  rw [hc] at h
  simp only [bind, Except.bind] at h
  cases hm : rotateMats pE tE pS tS with
  | none =>
    simp only [hm, pure, Except.pure, Except.ok.injEq] at h
    simp only [pure, Except.pure, List.length_map, replicate_length_map]
    congr 2
    · apply List.map_congr_left; intro r hr; rw [← h r hr]; rfl
    · apply List.map_congr_left; intro r hr; rw [← h r hr]; rfl
  | some m =>
    simp only [hm] at h
    simp only [List.map_map, Function.comp_def]
    have := cart2sphereArr_eq_map (rows.map fun r =>
      (applyRot m (vec3 (sphere2cart 1 r.1 r.2 (0,0,0))) 0,
       applyRot m (vec3 (sphere2cart 1 r.1 r.2 (0,0,0))) 1,
       applyRot m (vec3 (sphere2cart 1 r.1 r.2 (0,0,0))) 2)) (0, 0, 0)
    simp only [List.map_map, Function.comp_def] at this
    rw [this]
    simp only [pure, Except.pure, List.map_map, Function.comp_def]
    simp only [cart2sphere_eq, pure, Except.pure, Except.ok.injEq] at h
    congr 2
    · apply List.map_congr_left; intro r hr; rw [← h r hr]; simp [cart2sphere_eq]
    · apply List.map_congr_left; intro r hr; rw [← h r hr]; simp [cart2sphere_eq]

/-- A colatitude given as a floating-point number and accepted by the code is below the real number π. -/
theorem below_pi {t : ℝ} (h : 0 ≤ t ∧ t ≤ π) (hr : IsRat t) : 0 ≤ t ∧ t < π := by
  refine ⟨h.1, lt_of_le_of_ne h.2 fun e => ?_⟩
  obtain ⟨q, hq⟩ := hr
  exact irrational_pi ⟨q, hq.trans e⟩

end Magpie.Coords
