import Verif.Proof.PointOfView
import Verif.Spec.PointOfView

/-!
# Properties C78, C85: the perspective view
-/

set_option linter.unusedSimpArgs false
set_option linter.unusedVariables false

namespace Magpie.Props
open Magpie Magpie.Pov Magpie.Coords Magpie.Spec Matrix Real

theorem from'_eq (c q : ℝ × ℝ × ℝ) : from' c q = rel c q := rfl

theorem rel_ne {c q : ℝ × ℝ × ℝ} (h : q ≠ c) : 0 < (q.1-c.1)^2+(q.2.1-c.2.1)^2+(q.2.2-c.2.2)^2 := by
  by_contra h0
  push Not at h0
  apply h
  have e1 := sq_nonneg (q.1-c.1)
  have e2 := sq_nonneg (q.2.1-c.2.1)
  have e3 := sq_nonneg (q.2.2-c.2.2)
  have z : ∀ x : ℝ, x^2 = 0 → x = 0 := fun x hx => by simpa using hx
  have z1 := z _ (by linarith : (q.1-c.1)^2 = 0)
  have z2 := z _ (by linarith : (q.2.1-c.2.1)^2 = 0)
  have z3 := z _ (by linarith : (q.2.2-c.2.2)^2 = 0)
  exact Prod.ext (by linarith) (Prod.ext (by linarith) (by linarith))

/-- C85: `transform` is the perspective projection. `dist` is the distance from the camera; with the
frame `n, h, v` of an upright camera and `depth` the distance along the line of sight, `bx` and `by`
are the horizontal and vertical offsets, scaled by `display/depth` and turned by `spin`. A point with
depth zero gives no finite position. -/
theorem C85_projection (camera point : ℝ × ℝ × ℝ) (hcp : point ≠ camera) (display spin : ℝ)
    (h0 : 0 ≤ spin) (h1 : spin < 2*π) :
    ∃ n h v, CameraFrame camera point n h v ∧
      ∀ (rows : List (ℝ × ℝ × ℝ)) (s : State), rows ≠ [] → ∃ s' out,
        (setup camera point display spin >>= fun _ =>
          transform (rows.map fun q => q.1) (rows.map fun q => q.2.1) (rows.map fun q => q.2.2)) s
          = (.ok (rows.map out), s') ∧
        ∀ q, (out q).2 = √(rel camera q ⬝ᵥ rel camera q) ∧
          (rel camera q ⬝ᵥ n = 0 → (out q).1 = none) ∧
          (rel camera q ⬝ᵥ n ≠ 0 → (out q).1 = some
            (display/(rel camera q ⬝ᵥ n)*(cos spin*(rel camera q ⬝ᵥ h) - sin spin*(rel camera q ⬝ᵥ v)),
             display/(rel camera q ⬝ᵥ n)*(sin spin*(rel camera q ⬝ᵥ h) + cos spin*(rel camera q ⬝ᵥ v)))) := by
  obtain ⟨M, hR, hn, hh, ht, -⟩ := exists_camera camera point
  set φ := phiOf camera point with hφ
  set θ := thetaOf camera point with hθ
  have c1 := sin_sq_add_cos_sq φ
  have hv : M *ᵥ (dir φ θ ⨯₃ hor φ) = ![0, 0, 1] := by
    rw [hR.cross, hn, hh]
    ext i; fin_cases i <;> simp [cross_apply]
  refine ⟨dir φ θ, hor φ, dir φ θ ⨯₃ hor φ, ⟨?_, dir_dot_self _ _, ?_, ?_, rfl, rfl, ?_⟩, ?_⟩
  · refine ⟨_, sqrt_pos.mpr (rel_ne hcp), ?_⟩
    rw [← from'_eq, ← radius_dir]; rfl
  · rw [dot3]; simp [hor]; linear_combination c1
  · rw [dot3]; simp [hor, dir]; ring
  · have : 0 ≤ sin θ := sin_nonneg_of_nonneg_of_le_pi (colat_range _ _ _).1 (colat_range _ _ _).2
    simp [hor, dir, cross_apply]
    nlinarith
  · intro rows s hne
    refine ⟨ready camera point display spin, fun q => perspective display (tri (Rx spin *ᵥ (M *ᵥ from' camera q))), ?_, ?_⟩
    · rw [Meth.bind_apply, setup_run]
      exact ht display spin rows hne h0 h1
    · intro q
      have x0 : rel camera q ⬝ᵥ dir φ θ = (M *ᵥ rel camera q) 0 := by
        rw [← hR.rigid.1, hn, dot3]; simp
      have x1 : rel camera q ⬝ᵥ hor φ = (M *ᵥ rel camera q) 1 := by
        rw [← hR.rigid.1, hh, dot3]; simp
      have x2 : rel camera q ⬝ᵥ (dir φ θ ⨯₃ hor φ) = (M *ᵥ rel camera q) 2 := by
        rw [← hR.rigid.1, hv, dot3]; simp
      have hx : ∀ y : Fin 3 → ℝ, Rx spin *ᵥ y = ![y 0, cos spin*y 1 - sin spin*y 2, sin spin*y 1 + cos spin*y 2] := by
        intro y
        ext i
        fin_cases i <;> simp [Rx, mulVec, dotProduct, Fin.sum_univ_three]
        ring
      refine ⟨?_, ?_, ?_⟩
      · rw [← ((isRot_Rx spin).mul hR).rigid.1, ← mulVec_mulVec, dot3]
        simp only [perspective, tri, from'_eq]
        congr 1; ring
      · intro h
        rw [x0] at h
        simp [perspective, tri, hx, from'_eq, h, fdiv]
      · intro h
        rw [x0] at h
        rw [x0, x1, x2]
        simp only [perspective, tri, hx, from'_eq, fdiv]
        simp [h]
        constructor <;> ring

/-- The projected position of the point looked at is the centre of the view. -/
example (camera point : ℝ × ℝ × ℝ) (n h v : Fin 3 → ℝ) (hf : CameraFrame camera point n h v) :
    rel camera point ⬝ᵥ h = 0 ∧ rel camera point ⬝ᵥ v = 0 ∧ rel camera point ⬝ᵥ n ≠ 0 := by
  obtain ⟨t, ht, e⟩ := hf.view
  rw [e, hf.hand, smul_dotProduct, smul_dotProduct, smul_dotProduct, hf.nh, hf.nn, dot_self_cross]
  simp [ht.ne']

/-- A camera at the origin looking along the diagonal. -/
example : ((1, 1, 1) : ℝ × ℝ × ℝ) ≠ (0, 0, 0) ∧ (0:ℝ) ≤ 1 ∧ (1:ℝ) < 2*π ∧
    InFront (0, 0, 0) (1, 1, 1) (1, 0, 0) ∧ ¬ InFront (0, 0, 0) (1, 1, 1) (-1, 0, 0) := by
  refine ⟨by simp, by norm_num, by have := two_le_pi; linarith, ?_, ?_⟩ <;>
    simp [InFront, rel, dot3] <;> norm_num

theorem unproject_perspective {display : ℝ} (hd : display ≠ 0) {d : ℝ × ℝ × ℝ} (h : 0 < d.1) :
    unproject display (d.2.1*(display/d.1)) (d.2.2*(display/d.1)) (√(d.1^2 + d.2.1^2 + d.2.2^2)) = d := by
  obtain ⟨x, y, z⟩ := d
  simp only at h ⊢
  have hp : 0 < x^2 + y^2 + z^2 := by positivity
  have e : √(1 + 1/display^2*((y*(display/x))^2 + (z*(display/x))^2)) = √(x^2+y^2+z^2)/x := by
    have : 1 + 1/display^2*((y*(display/x))^2 + (z*(display/x))^2) = (x^2+y^2+z^2)/x^2 := by
      field_simp; ring
    rw [this, sqrt_div hp.le, sqrt_sq h.le]
  have hs := (sqrt_pos.mpr hp).ne'
  have e2 : √(x^2+y^2+z^2)/√(1 + 1/display^2*((y*(display/x))^2 + (z*(display/x))^2)) = x := by
    rw [e]; field_simp
  unfold unproject
  simp only [e2, if_neg h.ne']
  congr 2
  · field_simp
  · field_simp

/-- C78 without spin: whatever the camera and the display (other than zero), every array of points in
front of the camera is recovered by `reverse` from the arrays `bx, by, dist` that `transform` returns
for it. Missing: `spin ≠ 0`, see `C78_violated`. -/
theorem C78_reverse_partial (camera point : ℝ × ℝ × ℝ) (hcp : point ≠ camera) (display : ℝ) (hd : display ≠ 0)
    (rows : List (ℝ × ℝ × ℝ)) (hne : rows ≠ []) (hf : ∀ q ∈ rows, InFront camera point q) (s : State) :
    ∃ (s' : State) (out : List (ℝ × ℝ × ℝ)),
      (setup camera point display 0 >>= fun _ =>
        transform (rows.map fun q => q.1) (rows.map fun q => q.2.1) (rows.map fun q => q.2.2)) s
        = (.ok (out.map fun o => (some (o.1, o.2.1), o.2.2)), s') ∧
      reverse (out.map fun o => o.1) (out.map fun o => o.2.1) (out.map fun o => o.2.2) s'
        = (.ok (rows.map some), s') := by
  have hpi := pi_pos
  obtain ⟨M, hR, hn, hh, ht, hr⟩ := exists_camera camera point
  have hRx : Rx 0 = 1 := by unfold Rx; rw [cos_zero, sin_zero, neg_zero, one_fin_three]
  have hfront : ∀ q ∈ rows, 0 < (M *ᵥ from' camera q) 0 := by
    intro q hq
    have h1 := hf q hq
    unfold InFront at h1
    rw [← from'_eq camera point, ← radius_dir, dotProduct_smul, smul_eq_mul] at h1
    have h2 : 0 < rel camera q ⬝ᵥ dir (phiOf camera point) (thetaOf camera point) :=
      (pos_iff_pos_of_mul_pos h1).mp (sqrt_pos.mpr (rel_ne hcp))
    rw [← hR.rigid.1, hn, dot3] at h2
    simpa [from'_eq] using h2
  refine ⟨ready camera point display 0, rows.map fun q => ((M *ᵥ from' camera q) 1*(display/(M *ᵥ from' camera q) 0),
    (M *ᵥ from' camera q) 2*(display/(M *ᵥ from' camera q) 0),
    √((M *ᵥ from' camera q) 0^2 + (M *ᵥ from' camera q) 1^2 + (M *ᵥ from' camera q) 2^2)), ?_, ?_⟩
  · rw [Meth.bind_apply, setup_run]
    simp only
    rw [ht display 0 rows hne le_rfl (by linarith), List.map_map]
    congr 2
    apply List.map_congr_left
    intro q hq
    simp only [hRx, one_mulVec, perspective, tri, fdiv, if_neg (hfront q hq).ne', Option.map_some, Function.comp_def]
  · rw [hr display _ (by simpa using hne) hd, List.map_map]
    congr 2
    apply List.map_congr_left
    intro q hq
    have := unproject_perspective hd (d := tri (M *ᵥ from' camera q)) (hfront q hq)
    simp only [tri] at this
    simp only [Function.comp_def, this]
    have e : vec3 ((M *ᵥ from' camera q) 0, (M *ᵥ from' camera q) 1, (M *ᵥ from' camera q) 2) = M *ᵥ from' camera q := by
      ext i; fin_cases i <;> rfl
    rw [e, hR.cancel']
    simp [tri, from', vec3]

/-- C78 is violated for every spin other than zero: a positive one makes `reverse` raise
`AssertionError` for all arrays, a negative one makes `transform` do so. -/
theorem C78_violated (camera point : ℝ × ℝ × ℝ) (display : ℝ) (hd : display ≠ 0)
    (spin : ℝ) (rows : List (ℝ × ℝ × ℝ)) (hne : rows ≠ []) (s : State) :
    (0 < spin → ∃ s', (setup camera point display spin >>= fun _ =>
      reverse (rows.map fun q => q.1) (rows.map fun q => q.2.1) (rows.map fun q => q.2.2)) s
        = (.error .assertionError, s')) ∧
    (spin < 0 → ∃ s', (setup camera point display spin >>= fun _ =>
      transform (rows.map fun q => q.1) (rows.map fun q => q.2.1) (rows.map fun q => q.2.2)) s
        = (.error .assertionError, s')) := by
  have hpi := pi_pos
  have bad : ∀ (phi theta : List ℝ) (a : ℝ), a < 0 → turn phi theta a = .error .assertionError := by
    intro phi theta a ha
    unfold turn spinArr pyAssert
    rw [if_pos ha.ne]
    simp only [bind, Except.bind]
    rw [if_pos ⟨le_rfl, by linarith⟩]
    simp only
    rw [if_pos ⟨by linarith, by linarith⟩]
    simp only
    rw [if_neg (by intro h; exact absurd h.1 (not_le.mpr ha))]
  constructor
  · intro hs
    rw [Meth.bind_apply, setup_run]
    unfold reverse
    simp only [Meth.bind_apply, Meth.self_apply, Meth.lift_apply, ready, need_some, if_neg hd, vzip3_map]
    have e := cart2sphereArr_eq_map (rows.map fun q => unproject display q.1 q.2.1 q.2.2) (0, 0, 0)
    simp only [cart2sphere_eq] at e
    rw [e]
    simp only [List.map_map, Function.comp_def, finite_map, Meth.bind_apply, Meth.lift_apply]
    rw [bad _ _ _ (by linarith)]
    exact ⟨_, rfl⟩
  · intro hs
    rw [Meth.bind_apply, setup_run]
    have e := cart2sphereArr_eq_map rows camera
    simp only [cart2sphere_eq] at e
    have pr : 0 ≤ phiOf camera point ∧ phiOf camera point < 2*π := azim_range _ _
    have tr : 0 ≤ thetaOf camera point ∧ thetaOf camera point ≤ π := colat_range _ _ _
    have pr' : 0 ≤ phiOf camera point ∧ phiOf camera point ≤ 2*π := ⟨pr.1, pr.2.le⟩
    have h90 : (0:ℝ) ≤ π/2 ∧ π/2 ≤ π := ⟨by linarith, by linarith⟩
    obtain ⟨M, hR, hu, hh, h1, hf, hb⟩ := merid (φ := phiOf camera point) (a := thetaOf camera point) (b := π/2) pr' tr h90
      (by rw [abs_lt]; constructor <;> linarith [tr.1, tr.2])
    obtain ⟨p1, t1, r1, d1⟩ := tilt_map (θ := thetaOf camera point) rows hne (fun q => azim (q.1-camera.1) (q.2.1-camera.2.1))
      (fun q => colat (q.1-camera.1) (q.2.1-camera.2.1) (q.2.2-camera.2.2)) pr' tr h90 Iff.rfl h1 hf
    obtain ⟨p2, r2, d2⟩ := phiShiftArr_map rows p1 (dphi := -phiOf camera point)
      (by rw [abs_neg, abs_of_nonneg pr.1]; exact pr.2)
    unfold transform
    simp only [Meth.bind_apply, Meth.self_apply, Meth.lift_apply, ready, need_some, e, r1, finite_map, r2,
      bad _ _ _ hs]
    exact ⟨_, rfl⟩

end Magpie.Props
