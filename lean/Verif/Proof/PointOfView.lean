import Verif.Model.PointOfView
import Verif.Proof.Usphere

/-!
# Lemmas about the camera of `PointOfView`
-/

set_option linter.unusedSimpArgs false
set_option linter.unusedVariables false

namespace Magpie.Pov
open Magpie.Coords Magpie.Healpix Magpie.Spec Matrix Real

/-- The horizontal direction to the left of longitude `phi`. -/
noncomputable def hor (phi : ℝ) : Fin 3 → ℝ := ![-sin phi, cos phi, 0]

theorem cross_merid (phi a b : ℝ) : dir phi a ⨯₃ dir phi b = sin (b - a) • ((-1:ℝ) • (-hor phi)) := by
  have h := sin_sq_add_cos_sq phi
  ext i
  fin_cases i <;> simp [dir, hor, cross_apply, sin_sub] <;> ring

/-- The rotation between two points of a meridian, as computed by `usphere_rotate`. -/
theorem merid {φ a b : ℝ} (hφ : 0 ≤ φ ∧ φ ≤ 2*π) (ha : 0 ≤ a ∧ a ≤ π) (hb : 0 ≤ b ∧ b ≤ π)
    (hlt : |a - b| < π) :
    ∃ M : Matrix (Fin 3) (Fin 3) ℝ, IsRot M ∧ M *ᵥ dir φ a = dir φ b ∧ M *ᵥ hor φ = hor φ ∧
      (a = b → M = 1) ∧
      (a ≠ b → ∀ p th, ∃ p' th', rotate p th φ b φ a = .ok (some (p', th')) ∧
        dir p' th' = M *ᵥ dir p th) ∧
      (a ≠ b → ∀ p th, ∃ p' th', rotate p th φ a φ b = .ok (some (p', th')) ∧
        dir p' th' = Mᵀ *ᵥ dir p th) := by
  by_cases c : a = b
  · exact ⟨1, ⟨by simp, by simp⟩, by rw [one_mulVec, c], one_mulVec _, fun _ => rfl, fun h => absurd c h,
      fun h => absurd c h⟩
  · have hlt' : |b - a| < π := by rw [abs_sub_comm]; exact hlt
    obtain ⟨M, t, n, w, hR, hf, hu, hn, hrot⟩ := rotate_merid hφ ha hb c hlt
    obtain ⟨M', t', n', w', hR', hf', hu', hn', hrot'⟩ := rotate_merid hφ hb ha (Ne.symm c) hlt'
    have hMM := rot_back hf hf' hR hR' hu hn hu' hn'
    refine ⟨M, hR, hu, ?_, fun h => absurd h c, ?_, ?_⟩
    · -- the axis is horizontal
      have e : w • n = sin (b - a) • hor φ := by
        have : w • n = dir φ a ⨯₃ dir φ b := by ext i; simpa using hf.wn i
        rw [this, cross_merid]; simp
      have hs : sin (b - a) ≠ 0 := by
        intro h0
        rw [h0, zero_smul] at e
        have hn0 : n = 0 := by
          rcases smul_eq_zero.mp e with h | h
          · exact absurd h hf.w_pos.ne'
          · exact h
        have := hf.nn
        rw [hn0] at this
        simp at this
      have e2 : M *ᵥ (sin (b - a) • hor φ) = sin (b - a) • hor φ := by
        rw [← e, mulVec_smul, hn]
      rw [mulVec_smul] at e2
      exact smul_right_injective _ hs e2
    · intro _ p th
      obtain ⟨p', th', r, _, _, _, _, d⟩ := hrot p th
      exact ⟨p', th', r, d⟩
    · intro _ p th
      obtain ⟨p', th', r, _, _, _, _, d⟩ := hrot' p th
      exact ⟨p', th', r, by rw [d, hMM]⟩

theorem finite_map {ι : Type} (l : List ι) (f : ι → ℝ) : finite (l.map fun i => some (f i)) = some (l.map f) := by
  unfold finite
  induction l with
  | nil => rfl
  | cons a l ih => simp only [List.map_cons, List.mapM_cons, ih]; rfl

theorem vzip3_map {ι α β γ δ : Type} (f : α → β → γ → δ) (l : List ι) (a : ι → α) (b : ι → β) (c : ι → γ) :
    vzip3 f (l.map a) (l.map b) (l.map c) = .ok (l.map fun i => f (a i) (b i) (c i)) := by
  unfold vzip3
  rw [vzip_map_same]
  simp only [bind, Except.bind, vzip_map_same]

theorem rotateArr_map {ι : Type} (l : List ι) (hne : l ≠ []) (p t : ι → ℝ) {φ a b : ℝ}
    {M : Matrix (Fin 3) (Fin 3) ℝ} (hφ : 0 ≤ φ ∧ φ ≤ 2*π) (ha : 0 ≤ a ∧ a ≤ π) (hb : 0 ≤ b ∧ b ≤ π)
    (hab : a ≠ b)
    (h : ∀ p th, ∃ p' th', rotate p th φ b φ a = .ok (some (p', th')) ∧ dir p' th' = M *ᵥ dir p th) :
    ∃ p' t' : ι → ℝ, rotateArr (l.map p) (l.map t) φ b φ a
        = .ok (l.map fun i => some (p' i), l.map fun i => some (t' i)) ∧
      ∀ i, dir (p' i) (t' i) = M *ᵥ dir (p i) (t i) := by
  choose p' t' hr hd using h
  have := rotateArr_eq_map (l.map fun i => (p i, t i)) φ b φ a (fun r => some (p' r.1 r.2, t' r.1 r.2))
    (by simpa using hne) (rotateChecks_ok (Or.inr hab) hφ hφ ha hb) (fun r _ => hr r.1 r.2)
  simp only [List.map_map, Function.comp_def, Option.map_some] at this
  exact ⟨_, _, this, fun i => hd _ _⟩

theorem phiShiftArr_map {ι : Type} (l : List ι) (p : ι → ℝ) {dphi : ℝ} (h : |dphi| < 2*π) :
    ∃ p' : ι → ℝ, phiShiftArr (l.map p) dphi = .ok (l.map p') ∧
      ∀ i t, dir (p' i) t = Rz dphi *ᵥ dir (p i) t := by
  rw [abs_lt] at h
  have : ∀ x : ℝ, ∃ y, phiShift x dphi = .ok y ∧ ∃ k : ℤ, y = x + dphi + 2*π*k := by
    intro x
    obtain ⟨y, k, e, hy, _⟩ := phiShift_ok (phi := x) (dphi := dphi) (by linarith) h.2
    exact ⟨y, e, k, hy⟩
  choose g hg k hk using this
  refine ⟨fun i => g (p i), ?_, fun i t => ?_⟩
  · rw [phiShiftArr_eq_map (l.map p) dphi g (fun x _ => hg x) (by linarith) h.2, List.map_map]; rfl
  · show dir (g (p i)) t = _
    rw [Rz_dir, hk, dir_turn]

theorem tilt_map {ι : Type} (l : List ι) (hne : l ≠ []) (p t : ι → ℝ) {φ a b θ : ℝ}
    {M : Matrix (Fin 3) (Fin 3) ℝ} (hφ : 0 ≤ φ ∧ φ ≤ 2*π) (ha : 0 ≤ a ∧ a ≤ π) (hb : 0 ≤ b ∧ b ≤ π)
    (hab : θ ≠ π/2 ↔ a ≠ b) (hM : a = b → M = 1)
    (h : a ≠ b → ∀ p th, ∃ p' th', rotate p th φ b φ a = .ok (some (p', th')) ∧ dir p' th' = M *ᵥ dir p th) :
    ∃ p' t' : ι → ℝ, tilt (l.map p) (l.map fun i => some (t i)) φ (some θ) (some a) (some b)
        = .ok (l.map fun i => some (p' i), l.map fun i => some (t' i)) ∧
      ∀ i, dir (p' i) (t' i) = M *ᵥ dir (p i) (t i) := by
  unfold tilt
  by_cases c : a = b
  · rw [if_neg (by simp; by_contra h0; exact (hab.mp h0) c)]
    refine ⟨p, t, by rw [List.map_map]; rfl, fun i => by rw [hM c, one_mulVec]⟩
  · rw [if_pos (by simpa using hab.mpr c)]
    simp only [finite_map]
    exact rotateArr_map l hne p t hφ ha hb c (h c)

/-- Rotation about the line of sight. -/
noncomputable def Rx (s : ℝ) : Matrix (Fin 3) (Fin 3) ℝ := !![1, 0, 0; 0, cos s, -sin s; 0, sin s, cos s]

theorem shiftArr_merid {ι : Type} (l : List ι) (hne : l ≠ []) (p t : ι → ℝ) {φ a b : ℝ}
    {M : Matrix (Fin 3) (Fin 3) ℝ} (hφ : 0 ≤ φ ∧ φ ≤ 2*π) (ha : 0 ≤ a ∧ a ≤ π) (hb : 0 ≤ b ∧ b ≤ π)
    (hM : a ≠ b)
    (h : ∀ p th, ∃ p' th', rotate p th φ b φ a = .ok (some (p', th')) ∧ dir p' th' = M *ᵥ dir p th) :
    ∃ (p' t' : ι → ℝ) (c : List ℝ), shiftArr (l.map p) (l.map t) φ a φ b
        = .ok ⟨l.map fun i => some (p' i), l.map fun i => some (t' i), c⟩ ∧
      ∀ i, dir (p' i) (t' i) = M *ᵥ dir (p i) (t i) := by
  have hpi := pi_pos
  unfold shiftArr
  rw [shiftChecks_ok hφ hφ ha hb, sub_self]
  obtain ⟨q, hq, hqd⟩ := phiShiftArr_map l p (dphi := 0) (by rw [abs_zero]; linarith)
  rw [hq]
  simp only [bind, Except.bind]
  rw [if_pos hM]
  obtain ⟨p', t', hr, hd⟩ := rotateArr_map l hne q t hφ ha hb hM h
  rw [hr]
  refine ⟨p', t', _, rfl, fun i => ?_⟩
  have : Rz 0 = 1 := by unfold Rz; rw [cos_zero, sin_zero, neg_zero, one_fin_three]
  rw [hd, hqd, this, one_mulVec]

theorem turn_map {ι : Type} (l : List ι) (hne : l ≠ []) (p t : ι → ℝ) {s : ℝ} (hs : 0 ≤ s ∧ s < 2*π) :
    ∃ p' t' : ι → ℝ, turn (l.map p) (l.map t) s
        = .ok (l.map fun i => some (p' i), l.map fun i => some (t' i)) ∧
      ∀ i, dir (p' i) (t' i) = Rx s *ᵥ dir (p i) (t i) := by
  have hpi := pi_pos
  unfold turn
  by_cases c : s = 0
  · rw [if_neg (by simpa using c)]
    refine ⟨p, t, by simp only [List.map_map]; rfl, fun i => ?_⟩
    have : Rx s = 1 := by rw [c]; unfold Rx; rw [cos_zero, sin_zero, neg_zero, one_fin_three]
    rw [this, one_mulVec]
  · rw [if_pos c]
    have z : (0:ℝ) ≤ 0 ∧ 0 ≤ 2*π := ⟨le_rfl, by linarith⟩
    have h90 : (0:ℝ) ≤ π/2 ∧ π/2 ≤ π := ⟨by linarith, by linarith⟩
    have h0 : (0:ℝ) ≤ 0 ∧ 0 ≤ π := ⟨le_rfl, hpi.le⟩
    obtain ⟨M, hR, hu, hh, -, hf, hb⟩ := merid (φ := 0) (a := π/2) (b := 0) z h90 h0
      (by rw [sub_zero, abs_of_pos (by linarith)]; linarith)
    have hne' : π/2 ≠ 0 := by linarith
    obtain ⟨p1, t1, c1, r1, d1⟩ := shiftArr_merid l hne p t z h90 h0 hne' (hf hne')
    obtain ⟨p2, r2, d2⟩ := phiShiftArr_map l p1 (dphi := s) (by rw [abs_of_nonneg hs.1]; exact hs.2)
    obtain ⟨p3, t3, c3, r3, d3⟩ := shiftArr_merid l hne p2 t1 z h0 h90 hne'.symm (hb hne')
    have f1 := finite_map l p1
    have f2 := finite_map l t1
    unfold finite at f1 f2
    refine ⟨p3, t3, ?_, fun i => ?_⟩
    · unfold spinArr pyAssert
      rw [if_pos ⟨z.1, z.2⟩, if_pos ⟨h90.1, h90.2⟩, if_pos ⟨hs.1, hs.2.le⟩]
      simp only [bind, Except.bind, r1, f1, f2, r2, r3, pure, Except.pure]
    · rw [d3, d2, d1]
      have hx : dir 0 (π/2) = ![1, 0, 0] := by simp [dir]
      have hz : dir 0 0 = ![0, 0, 1] := by simp [dir]
      have hy : hor 0 = ![0, 1, 0] := by simp [hor]
      rw [hx, hz] at hu
      rw [hy] at hh
      have hzz : M *ᵥ ![0, 0, 1] = ![-1, 0, 0] := by
        have : (![0, 0, 1] : Fin 3 → ℝ) = ![1, 0, 0] ⨯₃ ![0, 1, 0] := by
          ext i; fin_cases i <;> simp [cross_apply]
        rw [this, hR.cross, hu, hh]
        ext i; fin_cases i <;> simp [cross_apply]
      have hM : M = !![0, 0, -1; 0, 1, 0; 1, 0, 0] := by
        ext i j
        have e1 := congrFun hu i
        have e2 := congrFun hh i
        have e3 := congrFun hzz i
        simp only [mulVec, dotProduct, Fin.sum_univ_three] at e1 e2 e3
        fin_cases i <;> fin_cases j <;> simp at e1 e2 e3 ⊢ <;> assumption
      rw [mulVec_mulVec, mulVec_mulVec, hM]
      congr 1
      ext i j
      fin_cases i <;> fin_cases j <;> simp [Rz, Rx, Matrix.mul_apply, Fin.sum_univ_three]

theorem isRot_Rx (s : ℝ) : IsRot (Rx s) := by
  have h := sin_sq_add_cos_sq s
  constructor
  · ext i j
    fin_cases i <;> fin_cases j <;> simp [Rx, Matrix.mul_apply, Fin.sum_univ_three, Matrix.one_apply] <;>
      first | ring1 | linear_combination h
  · simp [Rx, Matrix.det_fin_three]
    linear_combination h

/-- Coordinates of a vector. -/
def tri (v : Fin 3 → ℝ) : ℝ × ℝ × ℝ := (v 0, v 1, v 2)

theorem sphere2cart_tri (r p t : ℝ) (c : ℝ × ℝ × ℝ) :
    sphere2cart r p t c = tri (r • dir p t + vec3 c) := by
  simp [sphere2cart, tri, dir, vec3, mul_assoc]

/-- The vector from the camera to a point. -/
def from' (c q : ℝ × ℝ × ℝ) : Fin 3 → ℝ := ![q.1 - c.1, q.2.1 - c.2.1, q.2.2 - c.2.2]

theorem radius_dir (c q : ℝ × ℝ × ℝ) :
    √((q.1-c.1)^2+(q.2.1-c.2.1)^2+(q.2.2-c.2.2)^2) •
      dir (azim (q.1-c.1) (q.2.1-c.2.1)) (colat (q.1-c.1) (q.2.1-c.2.1) (q.2.2-c.2.2)) = from' c q := by
  obtain ⟨h1, h2⟩ := sphere2cart_cart2sphere (q.1-c.1) (q.2.1-c.2.1) (q.2.2-c.2.2)
  have h3 := cos_colat (q.1-c.1) (q.2.1-c.2.1) (q.2.2-c.2.2)
  ext i
  fin_cases i
  · simpa [dir, from', mul_assoc] using h1
  · simpa [dir, from', mul_assoc] using h2
  · simpa [dir, from'] using h3

/-- Longitude and colatitude of the view direction. -/
noncomputable def phiOf (c q : ℝ × ℝ × ℝ) : ℝ := azim (q.1-c.1) (q.2.1-c.2.1)
noncomputable def thetaOf (c q : ℝ × ℝ × ℝ) : ℝ := colat (q.1-c.1) (q.2.1-c.2.1) (q.2.2-c.2.2)

/-- Attributes after `setup`. -/
noncomputable def ready (camera point : ℝ × ℝ × ℝ) (display spin : ℝ) : State :=
  ⟨some camera, some point, some display, some (phiOf camera point), some (some (thetaOf camera point)), some spin⟩

theorem setup_run (camera point : ℝ × ℝ × ℝ) (display spin : ℝ) (s : State) :
    setup camera point display spin s = (.ok (), ready camera point display spin) := by
  unfold setup
  simp only [Meth.assign_apply, cart2sphere_eq]
  rfl

/-- The camera matrix. -/
theorem exists_camera (camera point : ℝ × ℝ × ℝ) :
    ∃ M : Matrix (Fin 3) (Fin 3) ℝ, IsRot M ∧
      M *ᵥ dir (phiOf camera point) (thetaOf camera point) = ![1, 0, 0] ∧
      M *ᵥ hor (phiOf camera point) = ![0, 1, 0] ∧
      (∀ (display spin : ℝ) (rows : List (ℝ × ℝ × ℝ)), rows ≠ [] → 0 ≤ spin → spin < 2*π →
        transform (rows.map fun q => q.1) (rows.map fun q => q.2.1) (rows.map fun q => q.2.2)
            (ready camera point display spin)
          = (.ok (rows.map fun q => perspective display (tri (Rx spin *ᵥ (M *ᵥ from' camera q)))),
              ready camera point display spin)) ∧
      (∀ (display : ℝ) (rows : List (ℝ × ℝ × ℝ)), rows ≠ [] → display ≠ 0 →
        reverse (rows.map fun q => q.1) (rows.map fun q => q.2.1) (rows.map fun q => q.2.2)
            (ready camera point display 0)
          = (.ok (rows.map fun q => some (tri (Mᵀ *ᵥ vec3 (unproject display q.1 q.2.1 q.2.2) + vec3 camera))),
              ready camera point display 0)) := by
  have hpi := pi_pos
  set φ := phiOf camera point with hφ
  set θ := thetaOf camera point with hθ
  have pr : 0 ≤ φ ∧ φ < 2*π := azim_range _ _
  have tr : 0 ≤ θ ∧ θ ≤ π := colat_range _ _ _
  have pr' : 0 ≤ φ ∧ φ ≤ 2*π := ⟨pr.1, pr.2.le⟩
  have h90 : (0:ℝ) ≤ π/2 ∧ π/2 ≤ π := ⟨by linarith, by linarith⟩
  obtain ⟨M, hR, hu, hh, h1, hf, hb⟩ := merid (φ := φ) (a := θ) (b := π/2) pr' tr h90
    (by rw [abs_lt]; constructor <;> linarith [tr.1, tr.2])
  have cR : IsRot (Rz (-φ) * M) := (isRot_Rz _).mul hR
  have c1 := sin_sq_add_cos_sq φ
  refine ⟨Rz (-φ) * M, cR, ?_, ?_, ?_, ?_⟩
  · rw [← mulVec_mulVec, hu, Rz_dir]
    simp [dir]
  · rw [← mulVec_mulVec, hh, Rz_e]
    ext i
    fin_cases i <;> simp [hor]
    · ring
    · linear_combination c1
  · intro display spin rows hne s0 s1
    have e := cart2sphereArr_eq_map rows camera
    simp only [cart2sphere_eq] at e
    unfold transform
    simp only [Meth.bind_apply, Meth.self_apply, Meth.lift_apply, ready, need_some, e]
    obtain ⟨p1, t1, r1, d1⟩ := tilt_map (θ := θ) rows hne (fun q => azim (q.1-camera.1) (q.2.1-camera.2.1))
      (fun q => colat (q.1-camera.1) (q.2.1-camera.2.1) (q.2.2-camera.2.2)) pr' tr h90 Iff.rfl h1 hf
    rw [← hφ, ← hθ, r1]
    simp only [finite_map]
    obtain ⟨p2, r2, d2⟩ := phiShiftArr_map rows p1 (dphi := -φ) (by rw [abs_neg, abs_of_nonneg pr.1]; exact pr.2)
    simp only [Meth.bind_apply, Meth.lift_apply, r2]
    obtain ⟨p3, t3, r3, d3⟩ := turn_map rows hne p2 t1 ⟨s0, s1⟩
    simp only [r3, finite_map]
    unfold sphere2cartArr
    simp only [Meth.bind_apply, Meth.lift_apply, vzip3_map, Meth.pure_apply, List.map_map, Function.comp_def]
    congr 2
    apply List.map_congr_left
    intro q _
    rw [sphere2cart_tri, d3, d2, d1]
    have z : vec3 ((0, 0, 0) : ℝ × ℝ × ℝ) = 0 := by ext i; fin_cases i <;> simp [vec3]
    rw [z, add_zero, ← mulVec_smul, ← mulVec_smul, ← mulVec_smul, radius_dir]
    simp only [mulVec_mulVec, Matrix.mul_assoc]
  · intro display rows hne hd
    unfold reverse
    simp only [Meth.bind_apply, Meth.self_apply, Meth.lift_apply, ready, need_some, if_neg hd, vzip3_map]
    have e := cart2sphereArr_eq_map (rows.map fun q => unproject display q.1 q.2.1 q.2.2) (0, 0, 0)
    simp only [cart2sphere_eq] at e
    rw [e]
    simp only [List.map_map, Function.comp_def, finite_map, neg_zero]
    obtain ⟨p1, t1, r1, d1⟩ := turn_map rows hne
      (fun q => azim ((unproject display q.1 q.2.1 q.2.2).1 - 0) ((unproject display q.1 q.2.1 q.2.2).2.1 - 0))
      (fun q => colat ((unproject display q.1 q.2.1 q.2.2).1 - 0) ((unproject display q.1 q.2.1 q.2.2).2.1 - 0)
        ((unproject display q.1 q.2.1 q.2.2).2.2 - 0)) (s := 0) ⟨le_rfl, by linarith⟩
    simp only [Meth.bind_apply, Meth.lift_apply, r1, finite_map]
    obtain ⟨p2, r2, d2⟩ := phiShiftArr_map rows p1 (dphi := φ) (by rw [abs_of_nonneg pr.1]; exact pr.2)
    rw [← hφ, ← hθ]
    simp only [Meth.bind_apply, Meth.lift_apply, r2]
    obtain ⟨p3, t3, r3, d3⟩ := tilt_map (θ := θ) (M := Mᵀ) rows hne p2 t1 pr' h90 tr ne_comm
      (fun h => by rw [h1 h.symm, transpose_one]) (fun h => hb (Ne.symm h))
    simp only [Meth.bind_apply, Meth.lift_apply, r3, finite_map]
    unfold sphere2cartArr
    simp only [Meth.bind_apply, Meth.lift_apply, vzip3_map, Meth.pure_apply, List.map_map, Function.comp_def]
    congr 2
    apply List.map_congr_left
    intro q _
    have hRz : Rz φ = (Rz (-φ))ᵀ := by
      ext i j
      fin_cases i <;> fin_cases j <;> simp [Rz]
    have hRx : Rx 0 = 1 := by unfold Rx; rw [cos_zero, sin_zero, neg_zero, one_fin_three]
    rw [sphere2cart_tri, d3, d2, d1, hRx, one_mulVec, hRz, transpose_mul, ← mulVec_mulVec]
    congr 2
    rw [← mulVec_smul, ← mulVec_smul, radius_dir (0, 0, 0) (unproject display q.1 q.2.1 q.2.2)]
    congr 2
    ext i
    fin_cases i <;> simp [from', vec3]

end Magpie.Pov
