import Mathlib.Analysis.Real.Pi.Bounds
import Verif.Proof.Usphere

/-!
# Properties C15-C28: coordinates and sky rotations
-/

set_option linter.unusedSimpArgs false

namespace Magpie.Props
open Magpie Magpie.Coords Magpie.Spec Real Matrix

/-! ## C15, C16: polar coordinates -/

/-- C15: cartesian to polar and back is the identity, with `r ≥ 0` and `phi ∈ [0, 2π)`. -/
theorem C15_cart_polar_cart (x y : ℝ) (c : ℝ × ℝ) :
    ∃ r phi, cart2polar x y c = (r, phi) ∧ 0 ≤ r ∧ 0 ≤ phi ∧ phi < 2*π ∧
      polar2cart r phi c = (x, y) := by
  refine ⟨_, _, cart2polar_eq x y c, sqrt_nonneg _, (azim_range _ _).1, (azim_range _ _).2, ?_⟩
  unfold polar2cart
  rw [cos_azim, sin_azim]; simp

/-- C16: polar to cartesian and back is the identity. -/
theorem C16_polar_cart_polar (r phi : ℝ) (c : ℝ × ℝ) (hr : 0 < r) (h0 : 0 ≤ phi)
    (h1 : phi < 2*π) :
    cart2polar (polar2cart r phi c).1 (polar2cart r phi c).2 c = (r, phi) := by
  rw [cart2polar_eq]
  unfold polar2cart
  simp only [add_sub_cancel_right]
  rw [azim_polar hr h0 h1]
  have : (r*cos phi)^2 + (r*sin phi)^2 = r^2 := by
    have := sin_sq_add_cos_sq phi
    linear_combination r^2*this
  rw [this, sqrt_sq hr.le]

example : (0:ℝ) < 2 ∧ 0 ≤ 3*π/2 ∧ 3*π/2 < 2*π := by
  have := pi_pos; refine ⟨by norm_num, by positivity, by linarith⟩

/-! ## C17, C18: spherical coordinates -/

/-- C17: cartesian to spherical and back is the identity everywhere (also at the centre); the
colatitude is never NaN and all three coordinates are in their ranges. -/
theorem C17_cart_sphere_cart (x y z : ℝ) (c : ℝ × ℝ × ℝ) :
    ∃ r phi theta, cart2sphere x y z c = (r, phi, some theta) ∧ 0 ≤ r ∧ 0 ≤ phi ∧ phi < 2*π ∧
      0 ≤ theta ∧ theta ≤ π ∧ sphere2cart r phi theta c = (x, y, z) := by
  refine ⟨_, _, _, cart2sphere_eq x y z c, sqrt_nonneg _, (azim_range _ _).1, (azim_range _ _).2,
    (colat_range _ _ _).1, (colat_range _ _ _).2, ?_⟩
  obtain ⟨h1, h2⟩ := sphere2cart_cart2sphere (x-c.1) (y-c.2.1) (z-c.2.2)
  have h3 := cos_colat (x-c.1) (y-c.2.1) (z-c.2.2)
  unfold sphere2cart
  simp only []
  rw [h1, h2, h3]; simp

/-- C18: spherical to cartesian and back recovers `r` and `theta`, and `phi` off the axis. -/
theorem C18_sphere_cart_sphere (r phi theta : ℝ) (c : ℝ × ℝ × ℝ) (hr : 0 < r)
    (p0 : 0 ≤ phi) (p1 : phi < 2*π) (t0 : 0 ≤ theta) (t1 : theta ≤ π) :
    ∃ x y z phi', sphere2cart r phi theta c = (x, y, z) ∧
      cart2sphere x y z c = (r, phi', some theta) ∧ (0 < theta → theta < π → phi' = phi) := by
  refine ⟨_, _, _, azim (r*cos phi*sin theta) (r*sin phi*sin theta), rfl, ?_, ?_⟩
  · rw [cart2sphere_eq]
    simp only [add_sub_cancel_right]
    rw [norm_sphere hr.le, colat_sphere hr t0 t1]
  · intro a b; exact azim_sphere hr a b p0 p1

/-! ## C19 -/

/-- C19: the array branches of `cart2polar`, `cart2sphere` and `ortho2cart` agree entry by entry
with the scalar branches. -/
theorem C19_cart2polar (rows : List (ℝ × ℝ)) (c : ℝ × ℝ) :
    cart2polarArr (rows.map Prod.fst) (rows.map Prod.snd) c
      = .ok (rows.map fun r => (cart2polar r.1 r.2 c).1,
             rows.map fun r => (cart2polar r.1 r.2 c).2) :=
  cart2polarArr_eq_map rows c

theorem C19_cart2sphere (rows : List (ℝ × ℝ × ℝ)) (c : ℝ × ℝ × ℝ) :
    cart2sphereArr (rows.map fun r => r.1) (rows.map fun r => r.2.1) (rows.map fun r => r.2.2) c
      = .ok (rows.map fun r => (cart2sphere r.1 r.2.1 r.2.2 c).1,
             rows.map fun r => (cart2sphere r.1 r.2.1 r.2.2 c).2.1,
             rows.map fun r => (cart2sphere r.1 r.2.1 r.2.2 c).2.2) :=
  cart2sphereArr_eq_map rows c

theorem C19_ortho2cart (rows : List (ℝ × ℝ)) (r : ℝ) (fill : Option ℝ) :
    ortho2cartArr (rows.map Prod.fst) (rows.map Prod.snd) r fill
      = .ok (rows.map fun q => ortho2cart q.1 q.2 r fill) :=
  ortho2cartArr_eq_map rows r fill

/-- C19 extended to the sky rotations: `usphere_phi_shift` on arrays. -/
theorem C19_phi_shift (phi : List ℝ) (dphi : ℝ) (f : ℝ → ℝ) (h1 : -2*π < dphi) (h2 : dphi < 2*π)
    (h : ∀ p ∈ phi, phiShift p dphi = .ok (f p)) :
    phiShiftArr phi dphi = .ok (phi.map f) :=
  phiShiftArr_eq_map phi dphi f h h1 h2

/-- C19 extended to the sky rotations: `usphere_rotate` on non-empty arrays (an empty array is an
`IndexError`). -/
theorem C19_rotate (rows : List (ℝ × ℝ)) (pE tE pS tS : ℝ) (f : ℝ × ℝ → Option (ℝ × ℝ))
    (hne : rows ≠ []) (hd : pS ≠ pE ∨ tS ≠ tE) (h1 : 0 ≤ pS ∧ pS ≤ 2*π) (h2 : 0 ≤ pE ∧ pE ≤ 2*π)
    (h3 : 0 ≤ tS ∧ tS ≤ π) (h4 : 0 ≤ tE ∧ tE ≤ π)
    (h : ∀ r ∈ rows, rotate r.1 r.2 pE tE pS tS = .ok (f r)) :
    rotateArr (rows.map Prod.fst) (rows.map Prod.snd) pE tE pS tS
      = .ok (rows.map fun r => (f r).map Prod.fst, rows.map fun r => (f r).map Prod.snd) :=
  rotateArr_eq_map rows pE tE pS tS f hne (rotateChecks_ok hd h1 h2 h3 h4) h

/-! ## C20 -/

/-- C20: inside the disc the lift lies on the upper half sphere, outside it is the fill value. -/
theorem C20_ortho (x y r : ℝ) (fill : Option ℝ) :
    (x^2 + y^2 < r^2 → ∃ z, ortho2cart x y r fill = some z ∧ 0 ≤ z ∧ x^2 + y^2 + z^2 = r^2) ∧
    (r^2 ≤ x^2 + y^2 → ortho2cart x y r fill = fill) := by
  unfold ortho2cart npSqrt
  constructor
  · intro h
    simp only [if_pos h]
    rw [if_pos (by linarith)]
    refine ⟨_, rfl, sqrt_nonneg _, ?_⟩
    rw [sq_sqrt (by linarith)]; ring
  · intro h
    simp only [if_neg (not_lt.mpr h)]

/-! ## C21 (positivity violated) -/

/-- C21: the area is additive in both directions, the full sphere has area `4π`, and the area is
positive when both ranges are increasing. Missing for the full claim: the code also accepts
decreasing ranges, see `C21_violated`. -/
theorem C21_area_partial :
    usphereArea 0 (2*π) 0 π = .ok (4*π) ∧
    (∀ a b c s t x y, usphereArea a b s t = .ok x → usphereArea b c s t = .ok y → a ≠ c →
      usphereArea a c s t = .ok (x + y)) ∧
    (∀ a b s t u x y, usphereArea a b s t = .ok x → usphereArea a b t u = .ok y → s ≠ u →
      usphereArea a b s u = .ok (x + y)) ∧
    (∀ a b s t, 0 ≤ a → a < b → b ≤ 2*π → 0 ≤ s → s < t → t ≤ π →
      ∃ x, usphereArea a b s t = .ok x ∧ 0 < x) := by
  have hpi := pi_pos
  have iff : ∀ a b s t x, usphereArea a b s t = .ok x ↔
      ((0 ≤ a ∧ a < 2*π) ∧ (0 < b ∧ b ≤ 2*π) ∧ a ≠ b ∧ (0 ≤ s ∧ s < π) ∧ (0 < t ∧ t ≤ π) ∧ s ≠ t ∧
        x = (b - a)*(cos s - cos t)) := by
    intro a b s t x
    unfold usphereArea pyAssert
    simp only [bind, Except.bind, pure, Except.pure, ge_iff_le, gt_iff_lt]
    by_cases h1 : 0 ≤ a ∧ a < 2*π
    · by_cases h2 : 0 < b ∧ b ≤ 2*π
      · by_cases h3 : a ≠ b
        · by_cases h4 : 0 ≤ s ∧ s < π
          · by_cases h5 : 0 < t ∧ t ≤ π
            · by_cases h6 : s ≠ t
              · simp only [if_pos h1, if_pos h2, if_pos h3, if_pos h4, if_pos h5, if_pos h6]
                simp only [Except.ok.injEq]
                constructor
                · intro e; exact ⟨h1, h2, h3, h4, h5, h6, e.symm⟩
                · intro e; exact e.2.2.2.2.2.2.symm
              · simp only [if_pos h1, if_pos h2, if_pos h3, if_pos h4, if_pos h5, if_neg h6]
                simp; tauto
            · simp only [if_pos h1, if_pos h2, if_pos h3, if_pos h4, if_neg h5]; simp; tauto
          · simp only [if_pos h1, if_pos h2, if_pos h3, if_neg h4]; simp; tauto
        · simp only [if_pos h1, if_pos h2, if_neg h3]; simp; tauto
      · simp only [if_pos h1, if_neg h2]; simp; tauto
    · simp only [if_neg h1]; simp; tauto
  refine ⟨?_, ?_, ?_, ?_⟩
  · rw [iff]
    refine ⟨⟨le_rfl, by linarith⟩, ⟨by linarith, le_rfl⟩, by linarith, ⟨le_rfl, hpi⟩, ⟨hpi, le_rfl⟩,
      by linarith, ?_⟩
    rw [cos_zero, cos_pi]; ring
  · intro a b c s t x y h h' hne
    rw [iff] at *
    refine ⟨h.1, h'.2.1, hne, h.2.2.2.1, h.2.2.2.2.1, h.2.2.2.2.2.1, ?_⟩
    rw [h.2.2.2.2.2.2, h'.2.2.2.2.2.2]; ring
  · intro a b s t u x y h h' hne
    rw [iff] at *
    refine ⟨h.1, h.2.1, h.2.2.1, h.2.2.2.1, h'.2.2.2.2.1, hne, ?_⟩
    rw [h.2.2.2.2.2.2, h'.2.2.2.2.2.2]; ring
  · intro a b s t h1 h2 h3 h4 h5 h6
    refine ⟨_, (iff _ _ _ _ _).2 ⟨⟨h1, by linarith⟩, ⟨by linarith, h3⟩, by linarith,
      ⟨h4, by linarith⟩, ⟨by linarith, h6⟩, by linarith, rfl⟩, ?_⟩
    have := cos_lt_cos_of_nonneg_of_le_pi h4 h6 h5
    exact mul_pos (by linarith) (by linarith)

/-- C21 is violated: an accepted patch with `phi_min > phi_max` has a negative area. -/
theorem C21_violated : usphereArea π (π/2) 0 (π/2) = .ok (-(π/2)) := by
  have hpi := pi_pos
  unfold usphereArea pyAssert
  have h1 : (π ≥ 0 ∧ π < 2*π) := ⟨hpi.le, by linarith⟩
  have h2 : (π/2 > 0 ∧ π/2 ≤ 2*π) := ⟨by positivity, by linarith⟩
  have h3 : π ≠ π/2 := by linarith
  have h4 : ((0:ℝ) ≥ 0 ∧ 0 < π) := ⟨le_rfl, hpi⟩
  have h5 : (π/2 > 0 ∧ π/2 ≤ π) := ⟨by positivity, by linarith⟩
  have h6 : (0:ℝ) ≠ π/2 := by linarith
  simp only [if_pos h1, if_pos h2, if_pos h3, if_pos h4, if_pos h5, if_pos h6, bind, Except.bind,
    pure, Except.pure]
  rw [cos_zero, cos_pi_div_two]
  congr 1; ring

/-! ## C22 -/

/-- C22: the two latitude conversions are inverse to each other and exchange the two ranges. -/
theorem C22_lonlat (t : ℝ) :
    lonlat2sphere (sphere2lonlat t) = t ∧ sphere2lonlat (lonlat2sphere t) = t ∧
    ((0 ≤ t ∧ t ≤ π) ↔ (-(π/2) ≤ sphere2lonlat t ∧ sphere2lonlat t ≤ π/2)) ∧
    sphere2lonlat 0 = π/2 := by
  unfold lonlat2sphere sphere2lonlat
  refine ⟨by ring, by ring, ?_, by ring⟩
  constructor <;> rintro ⟨a, b⟩ <;> constructor <;> linarith

/-! ## C23 -/

/-- C23: the shifted longitude differs from `phi + dphi` by at most one turn, and is in `[0, 2π]`
when `phi` is; shifts of a full turn or more are rejected. -/
theorem C23_phi_shift (phi dphi : ℝ) :
    (|dphi| < 2*π → ∃ (p : ℝ) (k : ℤ), phiShift phi dphi = .ok p ∧ p = phi + dphi + 2*π*k ∧
      |k| ≤ 1 ∧ (0 ≤ phi → phi ≤ 2*π → 0 ≤ p ∧ p ≤ 2*π)) ∧
    (2*π ≤ |dphi| → phiShift phi dphi = .error .assertionError) := by
  constructor
  · intro h
    rw [abs_lt] at h
    exact phiShift_ok (by linarith) h.2
  · intro h
    unfold phiShift pyAssert
    rw [if_neg]
    · rfl
    · rintro ⟨a, b⟩
      have : |dphi| < 2*π := by rw [abs_lt]; constructor <;> linarith
      linarith

/-- C23 on arrays of any length. -/
theorem C23_phi_shift_array (phi : List ℝ) (dphi : ℝ) :
    (|dphi| < 2*π → ∃ (f : ℝ → ℝ), phiShiftArr phi dphi = .ok (phi.map f) ∧
      ∀ p, ∃ k : ℤ, f p = p + dphi + 2*π*k ∧ |k| ≤ 1 ∧
        (0 ≤ p → p ≤ 2*π → 0 ≤ f p ∧ f p ≤ 2*π)) ∧
    (2*π ≤ |dphi| → phiShiftArr phi dphi = .error .assertionError) := by
  constructor
  · intro h
    rw [abs_lt] at h
    have := fun p : ℝ => phiShift_ok (phi := p) (by linarith : -2*π < dphi) h.2
    choose f k h1 h2 h3 h4 using this
    exact ⟨f, phiShiftArr_eq_map phi dphi f (fun p _ => h1 p) (by linarith) h.2,
      fun p => ⟨k p, h2 p, h3 p, h4 p⟩⟩
  · intro h
    unfold phiShiftArr pyAssert
    rw [if_neg]
    · rfl
    · rintro ⟨a, b⟩
      have : |dphi| < 2*π := by rw [abs_lt]; constructor <;> linarith
      linarith

/-! ## C25, C26 -/

/-- The directions of start and end point are neither equal nor opposite. -/
def NonParallel (pS tS pE tE : ℝ) : Prop := dir pS tS ≠ dir pE tE ∧ dir pS tS ≠ -dir pE tE

theorem NonParallel.dot {pS tS pE tE : ℝ} (h : NonParallel pS tS pE tE) :
    (dir pS tS ⬝ᵥ dir pE tE)^2 ≠ 1 :=
  dot_sq_ne_one (dir_dot_self _ _) (dir_dot_self _ _) h.1 h.2

theorem NonParallel.ne {pS tS pE tE : ℝ} (h : NonParallel pS tS pE tE) : pS ≠ pE ∨ tS ≠ tE := by
  by_contra hc
  push Not at hc
  exact h.1 (by rw [hc.1, hc.2])

/-- C25: `usphere_rotate` sends the start point to the end point. -/
theorem C25_rotate_start (pS tS pE tE : ℝ) (h1 : 0 ≤ pS ∧ pS ≤ 2*π) (h2 : 0 ≤ pE ∧ pE ≤ 2*π)
    (h3 : 0 ≤ tS ∧ tS ≤ π) (h4 : 0 ≤ tE ∧ tE ≤ π) (hn : NonParallel pS tS pE tE) :
    ∃ phi theta, rotate pS tS pE tE pS tS = .ok (some (phi, theta)) ∧
      0 ≤ phi ∧ phi < 2*π ∧ 0 ≤ theta ∧ theta ≤ π ∧ dir phi theta = dir pE tE ∧
      (0 < tE → tE < π → pE < 2*π → phi = pE ∧ theta = tE) := by
  obtain ⟨m, M, t, n, w, a, hm, hM, hf, ca, sa, hMe⟩ := rotate_matrix hn.dot
  obtain ⟨hR, hu, _, _⟩ := frame_rot hf ca sa hMe
  obtain ⟨phi, theta, hr, r1, r2, r3, r4, r5⟩ :=
    rotate_eq (phi := pS) (theta := tS) (rotateChecks_ok hn.ne h1 h2 h3 h4) hm hM hR
  rw [hu] at r5
  refine ⟨phi, theta, hr, r1, r2, r3, r4, r5, ?_⟩
  intro a b c
  exact dir_inj r5 ⟨r1, r2⟩ ⟨r3, r4⟩ ⟨h2.1, c⟩ ⟨a, b⟩

/-- C26: `usphere_rotate` acts on directions by a rigid rotation `F` that fixes everything
perpendicular to both points; every unit vector of the plane of the two points is turned by
the angle between them, in the sense from start to end. -/
theorem C26_rotate_rigid (pS tS pE tE : ℝ) (h1 : 0 ≤ pS ∧ pS ≤ 2*π) (h2 : 0 ≤ pE ∧ pE ≤ 2*π)
    (h3 : 0 ≤ tS ∧ tS ≤ π) (h4 : 0 ≤ tE ∧ tE ≤ π) (hn : NonParallel pS tS pE tE) :
    ∃ F : (Fin 3 → ℝ) → (Fin 3 → ℝ), Rigid F ∧
      (∀ phi theta, ∃ phi' theta', rotate phi theta pE tE pS tS = .ok (some (phi', theta')) ∧
        dir phi' theta' = F (dir phi theta)) ∧
      (∀ a, a ⬝ᵥ dir pS tS = 0 → a ⬝ᵥ dir pE tE = 0 → F a = a) ∧
      (∀ a, a ⬝ᵥ (dir pS tS ⨯₃ dir pE tE) = 0 → a ⬝ᵥ a = 1 →
        a ⬝ᵥ F a = dir pS tS ⬝ᵥ dir pE tE ∧ a ⨯₃ F a = dir pS tS ⨯₃ dir pE tE) := by
  obtain ⟨m, M, t, n, w, a, hm, hM, hf, ca, sa, hMe⟩ := rotate_matrix hn.dot
  obtain ⟨hR, hu, hnn, hpl⟩ := frame_rot hf ca sa hMe
  refine ⟨M.mulVec, hR.rigid, ?_, ?_, ?_⟩
  · intro phi theta
    obtain ⟨phi', theta', hr, _, _, _, _, r5⟩ :=
      rotate_eq (phi := phi) (theta := theta) (rotateChecks_ok hn.ne h1 h2 h3 h4) hm hM hR
    exact ⟨phi', theta', hr, r5⟩
  · intro x xu xv
    -- x is a multiple of n
    have xt : x ⬝ᵥ t = 0 := by
      have e : dir pE tE = (dir pS tS ⬝ᵥ dir pE tE) • dir pS tS + w • t := by
        ext i; simpa using hf.v_eq i
      rw [e, dotProduct_add, dotProduct_smul, dotProduct_smul, xu] at xv
      simp only [smul_eq_mul, mul_zero, zero_add, mul_eq_zero] at xv
      exact xv.resolve_left hf.w_pos.ne'
    have hx : x = (x ⬝ᵥ n) • n := by
      have := hf.isRot.cancel x
      rw [colsT_e, dotProduct_comm _ x, dotProduct_comm _ x, dotProduct_comm _ x, xu, xt] at this
      rw [← this]
      ext i
      rw [cols_e]
      simp only [cons_val_zero, cons_val_one, cons_val, Pi.smul_apply, smul_eq_mul]
      have : (cols (dir pS tS) t n *ᵥ ![0, 0, x ⬝ᵥ n]) ⬝ᵥ n = x ⬝ᵥ n := by rw [this]
      rw [this]; ring
    rw [hx, mulVec_smul, hnn]
  · intro x xc xx
    apply hpl x _ xx
    have e : dir pS tS ⨯₃ dir pE tE = w • n := by ext i; simpa using (hf.wn i).symm
    rw [e, dotProduct_smul, smul_eq_mul, mul_eq_zero] at xc
    exact xc.resolve_left hf.w_pos.ne'

example : NonParallel 0 (π/2) (π/2) (π/2) := by
  constructor
  · intro h
    have := congrFun h 0
    simp [dir] at this
  · intro h
    have := congrFun h 0
    simp [dir] at this

/-! ## C27 -/

/-- C27: `usphere_shift` acts by a rigid rotation sending the start point to the end point (for
start and end not a full turn apart in longitude, and not the two poles). -/
theorem C27_shift (pS tS pE tE : ℝ) (h1 : 0 ≤ pS ∧ pS ≤ 2*π) (h2 : 0 ≤ pE ∧ pE ≤ 2*π)
    (h3 : 0 ≤ tS ∧ tS ≤ π) (h4 : 0 ≤ tE ∧ tE ≤ π) (hd : |pE - pS| < 2*π) (hlt : |tS - tE| < π) :
    ∃ F : (Fin 3 → ℝ) → (Fin 3 → ℝ), Rigid F ∧ F (dir pS tS) = dir pE tE ∧
      ∀ phi theta, ∃ phi' theta', shift phi theta pS tS pE tE = .ok (some (phi', theta')) ∧
        (0 ≤ phi → phi ≤ 2*π → 0 ≤ phi' ∧ phi' ≤ 2*π) ∧
        (0 ≤ theta → theta ≤ π → 0 ≤ theta' ∧ theta' ≤ π) ∧
        dir phi' theta' = F (dir phi theta) := by
  by_cases c : tS = tE
  · refine ⟨(1 * Rz (pE - pS)).mulVec, ?_, ?_, ?_⟩
    · rw [Matrix.one_mul]; exact (isRot_Rz _).rigid
    · rw [Matrix.one_mul, Rz_dir, c]; congr 1; ring
    · exact shift_rot h1 h2 h3 h4 hd hlt (fun hc => absurd c hc) (fun _ => rfl)
  · obtain ⟨M, t, n, w, hR, hf, hu, _, hrot⟩ := rotate_merid h2 h3 h4 c hlt
    refine ⟨(M * Rz (pE - pS)).mulVec, (hR.mul (isRot_Rz _)).rigid, ?_, ?_⟩
    · rw [← mulVec_mulVec, Rz_dir, ← hu]; congr 2; ring
    · exact shift_rot h1 h2 h3 h4 hd hlt (fun _ => hrot) (fun hc => absurd hc c)

/-- A case excluded by C27: a full turn in longitude is rejected, for every direction and all accepted
colatitudes. -/
theorem C27_degenerate (phi theta tS tE : ℝ) (hS : 0 ≤ tS ∧ tS ≤ π) (hE : 0 ≤ tE ∧ tE ≤ π) :
    shift phi theta 0 tS (2*π) tE = .error .assertionError ∧
    shift phi theta (2*π) tS 0 tE = .error .assertionError := by
  have hpi := pi_pos
  have z : (0:ℝ) ≤ 0 ∧ (0:ℝ) ≤ 2*π := ⟨le_rfl, by linarith⟩
  have z' : (0:ℝ) ≤ 2*π ∧ 2*π ≤ 2*π := ⟨by linarith, le_rfl⟩
  constructor
  · unfold shift
    rw [shiftChecks_ok z z' hS hE]
    simp only [bind, Except.bind]
    unfold phiShift pyAssert
    rw [if_neg (by simp)]; rfl
  · unfold shift
    rw [shiftChecks_ok z' z hS hE]
    simp only [bind, Except.bind]
    unfold phiShift pyAssert
    rw [if_neg (by simp)]; rfl

/-! ## C28 -/

/-- C28 in exact arithmetic: for every centre but the south pole, `usphere_spin` acts by a rigid rotation that
fixes the centre and turns every perpendicular direction by `alpha`, counter-clockwise about
the centre. -/
theorem C28_spin_real (pc tc alpha : ℝ) (h1 : 0 ≤ pc ∧ pc ≤ 2*π) (h2 : 0 ≤ tc ∧ tc < π)
    (ha : 0 ≤ alpha ∧ alpha < 2*π) :
    ∃ F : (Fin 3 → ℝ) → (Fin 3 → ℝ), Rigid F ∧ F (dir pc tc) = dir pc tc ∧
      (∀ a, a ⬝ᵥ dir pc tc = 0 → a ⬝ᵥ a = 1 →
        a ⬝ᵥ F a = cos alpha ∧ a ⨯₃ F a = sin alpha • dir pc tc) ∧
      ∀ phi theta, ∃ phi' theta', spin phi theta pc tc alpha = .ok (some (phi', theta')) ∧
        dir phi' theta' = F (dir phi theta) := by
  have hpi := pi_pos
  have z : (0:ℝ) ≤ 0 ∧ 0 ≤ π := ⟨le_rfl, hpi.le⟩
  have hpp : |pc - pc| < 2*π := by rw [sub_self, abs_zero]; linarith
  have hl1 : |tc - 0| < π := by rw [sub_zero, abs_of_nonneg h2.1]; exact h2.2
  have hl2 : |0 - tc| < π := by rw [zero_sub, abs_neg, abs_of_nonneg h2.1]; exact h2.2
  -- the rotation to the pole
  obtain ⟨M, hR, hMc, hto, hback⟩ : ∃ M : Matrix (Fin 3) (Fin 3) ℝ, IsRot M ∧
      M.mulVec (dir pc tc) = dir pc 0 ∧
      (∀ phi theta, ∃ phi' theta', shift phi theta pc tc pc 0 = .ok (some (phi', theta')) ∧
        dir phi' theta' = M.mulVec (dir phi theta)) ∧
      (∀ phi theta, ∃ phi' theta', shift phi theta pc 0 pc tc = .ok (some (phi', theta')) ∧
        dir phi' theta' = Mᵀ.mulVec (dir phi theta)) := by
    have rz0 : Rz (pc - pc) = 1 := by
      unfold Rz
      rw [sub_self, cos_zero, sin_zero, neg_zero, one_fin_three]
    by_cases c : tc = 0
    · refine ⟨1, ⟨by simp, by simp⟩, by rw [one_mulVec, c], ?_, ?_⟩
      · intro phi theta
        obtain ⟨p, t, r, _, _, d⟩ := shift_rot (M := 1) h1 h1 ⟨h2.1, h2.2.le⟩ z hpp hl1
          (fun hc => absurd c hc) (fun _ => rfl) phi theta
        exact ⟨p, t, r, by rw [d, rz0, Matrix.one_mul]⟩
      · intro phi theta
        obtain ⟨p, t, r, _, _, d⟩ := shift_rot (M := 1) h1 h1 z ⟨h2.1, h2.2.le⟩ hpp hl2
          (fun hc => absurd c.symm hc) (fun _ => rfl) phi theta
        exact ⟨p, t, r, by rw [d, rz0, Matrix.one_mul, transpose_one]⟩
    · obtain ⟨M, t, n, w, hR, hf, hu, hn, hrot⟩ := rotate_merid h1 ⟨h2.1, h2.2.le⟩ z c hl1
      obtain ⟨M', t', n', w', hR', hf', hu', hn', hrot'⟩ :=
        rotate_merid h1 z ⟨h2.1, h2.2.le⟩ (Ne.symm c) hl2
      have hMM := rot_back hf hf' hR hR' hu hn hu' hn'
      refine ⟨M, hR, hu, ?_, ?_⟩
      · intro phi theta
        obtain ⟨p, t, r, _, _, d⟩ := shift_rot (M := M) h1 h1 ⟨h2.1, h2.2.le⟩ z hpp hl1
          (fun _ => hrot) (fun hc => absurd hc c) phi theta
        exact ⟨p, t, r, by rw [d, rz0, Matrix.mul_one]⟩
      · intro phi theta
        obtain ⟨p, t, r, _, _, d⟩ := shift_rot (M := M') h1 h1 z ⟨h2.1, h2.2.le⟩ hpp hl2
          (fun _ => hrot') (fun hc => absurd hc.symm c) phi theta
        exact ⟨p, t, r, by rw [d, rz0, Matrix.mul_one, hMM]⟩
  have e3 : dir pc 0 = ![0, 0, 1] := by simp [dir]
  have hF : IsRot (Mᵀ * Rz alpha * M) := (hR.transpose.mul (isRot_Rz _)).mul hR
  have app : ∀ x, (Mᵀ * Rz alpha * M).mulVec x = Mᵀ.mulVec ((Rz alpha).mulVec (M.mulVec x)) := by
    intro x; rw [mulVec_mulVec, mulVec_mulVec, Matrix.mul_assoc]
  have hMt : Mᵀ.mulVec ![0, 0, 1] = dir pc tc := by rw [← e3, ← hMc, hR.cancel']
  refine ⟨(Mᵀ * Rz alpha * M).mulVec, hF.rigid, ?_, ?_, ?_⟩
  · rw [app, hMc, e3, Rz_e, ← hMt]
    congr 1
    simp
  · intro a ac aa
    set y := M.mulVec a with hy
    have hay : a = Mᵀ.mulVec y := by rw [hy, hR.cancel']
    have y2 : y 2 = 0 := by
      have : y ⬝ᵥ dir pc 0 = 0 := by rw [hy, ← hMc, hR.rigid.1, ac]
      rw [e3, dot3] at this
      simpa using this
    have yy : y ⬝ᵥ y = 1 := by rw [hy, hR.rigid.1, aa]
    rw [dot3, y2] at yy
    rw [app, ← hy, Rz_e]
    constructor
    · rw [hay, hR.transpose.rigid.1, dot3]
      simp only [cons_val_zero, cons_val_one, cons_val, y2]
      linear_combination cos alpha*yy
    · rw [hay, ← hR.transpose.cross]
      have e : y ⨯₃ ![cos alpha*y 0 - sin alpha*y 1, sin alpha*y 0 + cos alpha*y 1, y 2]
          = sin alpha • ![0, 0, 1] := by
        ext i
        fin_cases i <;> simp [cross_apply, y2]
        linear_combination sin alpha*yy
      rw [e, mulVec_smul, hMt]
  · intro phi theta
    obtain ⟨p1, t1, r1, d1⟩ := hto phi theta
    obtain ⟨p2, k, r2, hk, _⟩ := phiShift_ok (phi := p1) (dphi := alpha) (by linarith) ha.2
    obtain ⟨p3, t3, r3, d3⟩ := hback p2 t1
    refine ⟨p3, t3, ?_, ?_⟩
    · unfold spin pyAssert
      rw [if_pos ⟨h1.1, h1.2⟩, if_pos ⟨h2.1, h2.2.le⟩, if_pos ⟨ha.1, ha.2.le⟩]
      simp only [bind, Except.bind, r1, r2, r3]
    · rw [d3, app, ← d1, Rz_dir, hk, dir_turn]

/-- C28: for every centre the code accepts, the south pole `theta_center = np.pi` included, `usphere_spin` acts
by a rigid rotation that fixes the centre and turns every perpendicular direction by `alpha`, counter-clockwise
about the centre. -/
theorem C28_spin (pc tc alpha : ℝ) (h1 : 0 ≤ pc ∧ pc ≤ 2*π) (h2 : 0 ≤ tc ∧ tc ≤ π) (hr : IsRat tc)
    (ha : 0 ≤ alpha ∧ alpha < 2*π) :
    ∃ F : (Fin 3 → ℝ) → (Fin 3 → ℝ), Rigid F ∧ F (dir pc tc) = dir pc tc ∧
      (∀ a, a ⬝ᵥ dir pc tc = 0 → a ⬝ᵥ a = 1 →
        a ⬝ᵥ F a = cos alpha ∧ a ⨯₃ F a = sin alpha • dir pc tc) ∧
      ∀ phi theta, ∃ phi' theta', spin phi theta pc tc alpha = .ok (some (phi', theta')) ∧
        dir phi' theta' = F (dir phi theta) :=
  C28_spin_real pc tc alpha h1 (below_pi h2 hr) ha

/-- The hypotheses of `C28_spin` can be met, by `np.pi` for instance. -/
example : 0 ≤ (884279719003555/281474976710656 : ℝ) ∧ (884279719003555/281474976710656 : ℝ) ≤ π ∧
    IsRat (884279719003555/281474976710656) := by
  refine ⟨by norm_num, ?_, 884279719003555/281474976710656, by norm_num⟩
  have := pi_gt_d20
  refine le_trans ?_ this.le
  norm_num

end Magpie.Props
