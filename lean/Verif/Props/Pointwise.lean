import Verif.Proof.Pointwise
import Verif.Props.Coords

/-!
# Property C120: array calls of sky rotations and views are scalar calls, point by point

`rows.mapM f` calls `f` on the entries one after the other, and raises what the first call that raises
raises. The scalar functions return a pair, or NaN (`none`); the array functions return two arrays.
-/

set_option linter.unusedSimpArgs false
set_option linter.unusedVariables false

namespace Magpie.Props
open Magpie Magpie.Coords Magpie.Healpix Real

/-- C120: `usphere_shift` of arrays. -/
theorem C120_shift (rows : List (ℝ × ℝ)) (hne : rows ≠ []) (phiStart thetaStart phiEnd thetaEnd : ℝ) :
    (shiftArr (rows.map Prod.fst) (rows.map Prod.snd) phiStart thetaStart phiEnd thetaEnd).map
        (fun s => (s.phi, s.theta))
      = (rows.mapM fun q => shift q.1 q.2 phiStart thetaStart phiEnd thetaEnd).map
          fun r => (r.map (Option.map Prod.fst), r.map (Option.map Prod.snd)) :=
  (shift_uni phiStart thetaStart phiEnd thetaEnd).mapM rows hne

/-- C120: `usphere_spin` of arrays. -/
theorem C120_spin (rows : List (ℝ × ℝ)) (hne : rows ≠ []) (phiCenter thetaCenter alpha : ℝ) :
    (spinArr (rows.map Prod.fst) (rows.map Prod.snd) phiCenter thetaCenter alpha).map
        (fun s => (s.phi, s.theta))
      = (rows.mapM fun q => Coords.spin q.1 q.2 phiCenter thetaCenter alpha).map
          fun r => (r.map (Option.map Prod.fst), r.map (Option.map Prod.snd)) :=
  (spin_uni phiCenter thetaCenter alpha).mapM rows hne

/-- C120: `usphere_rotate` of arrays, including the calls that raise. -/
theorem C120_rotate (rows : List (ℝ × ℝ)) (hne : rows ≠ []) (phiEnd thetaEnd phiStart thetaStart : ℝ) :
    rotateArr (rows.map Prod.fst) (rows.map Prod.snd) phiEnd thetaEnd phiStart thetaStart
      = (rows.mapM fun q => rotate q.1 q.2 phiEnd thetaEnd phiStart thetaStart).map
          fun r => (r.map (Option.map Prod.fst), r.map (Option.map Prod.snd)) :=
  (rotate_uni phiEnd thetaEnd phiStart thetaStart).mapM rows hne

/-- C120: `Heal2Ortho.transform` of arrays. -/
theorem C120_ortho (s : Ortho.State) (rows : List (ℝ × ℝ)) (hne : rows ≠ []) :
    (Ortho.transformArr (rows.map Prod.fst) (rows.map Prod.snd) s).1.map Prod.fst
      = rows.mapM fun q => (Ortho.transform q.1 q.2 s).1 := by
  unfold Ortho.transformArr Ortho.transform
  simp only [Meth.bind_apply, Meth.self_apply, Meth.lift_apply]
  cases hg : s.grid with
  | none =>
    simp only [need, Except.map]
    rw [mapM_error rows hne fun q _ => rfl]
  | some g =>
    simp only [need_some]
    have h := C120_shift rows hne g.center.1 g.center.2 Ortho.endCenter.1 Ortho.endCenter.2
    rcases shift_uni g.center.1 g.center.2 Ortho.endCenter.1 Ortho.endCenter.2 with ⟨e, h1, h2⟩ | ⟨h1, h2⟩ | ⟨F, h1, h2⟩
    · have k := h2 rows hne Prod.fst Prod.snd
      beta_reduce at k h1
      rw [mapM_error rows hne (e := e) fun q _ => by rw [h1]]
      cases hs : shiftArr (rows.map Prod.fst) (rows.map Prod.snd) g.center.1 g.center.2 Ortho.endCenter.1
          Ortho.endCenter.2 with
      | error e' =>
        rw [hs] at k
        simp only [Except.map, Except.error.injEq] at k
        simp only [Except.map, k]
      | ok r => rw [hs] at k; simp [Except.map] at k
    · have k := h2 rows hne Prod.fst Prod.snd
      beta_reduce at k h1
      rw [mapM_ok rows (g := fun _ => none) fun q _ => by rw [h1]; rfl]
      cases hs : shiftArr (rows.map Prod.fst) (rows.map Prod.snd) g.center.1 g.center.2 Ortho.endCenter.1
          Ortho.endCenter.2 with
      | error e' => rw [hs] at k; simp [Except.map] at k
      | ok r =>
        rw [hs] at k
        simp only [Except.map, SkyArr.out, Except.ok.injEq, Prod.mk.injEq] at k
        simp only [Except.map, k.1, k.2, vzip_map_same, Meth.pure_apply, Option.bind_none]
    · have k := h2 rows hne Prod.fst Prod.snd
      beta_reduce at k h1
      rw [mapM_ok rows (g := fun q => Ortho.front (sphere2cart 1 (F q.1 q.2).1 (F q.1 q.2).2 (0, 0, 0)))
        fun q _ => by rw [h1]; rfl]
      cases hs : shiftArr (rows.map Prod.fst) (rows.map Prod.snd) g.center.1 g.center.2 Ortho.endCenter.1
          Ortho.endCenter.2 with
      | error e' => rw [hs] at k; simp [Except.map] at k
      | ok r =>
        rw [hs] at k
        simp only [Except.map, SkyArr.out, Except.ok.injEq, Prod.mk.injEq] at k
        simp only [Except.map, k.1, k.2, vzip_map_same, Meth.pure_apply, Option.bind_some]

/-- C120: `PointOfView.transform` of arrays, for every object. -/
theorem C120_pov_transform (s : Pov.State) (rows : List (ℝ × ℝ × ℝ)) (hne : rows ≠ []) :
    Pov.transform (rows.map fun q => q.1) (rows.map fun q => q.2.1) (rows.map fun q => q.2.2) s
      = (rows.mapM fun q => (Pov.transform1 q.1 q.2.1 q.2.2 s).1, s) := by
  unfold Pov.transform Pov.transform1
  simp only [Meth.bind_apply, Meth.self_apply, Meth.lift_apply]
  cases s.camera with
  | none => simp only [need]; rw [mapM_error rows hne fun q _ => rfl]
  | some c =>
  cases s.display with
  | none => simp only [need]; rw [mapM_error rows hne fun q _ => rfl]
  | some D =>
  cases s.phiPt with
  | none => simp only [need]; rw [mapM_error rows hne fun q _ => rfl]
  | some φ =>
  cases s.thetaPt with
  | none => simp only [need]; rw [mapM_error rows hne fun q _ => rfl]
  | some θ =>
  cases s.spin with
  | none => simp only [need]; rw [mapM_error rows hne fun q _ => rfl]
  | some sp =>
  simp only [need_some, cart2sphereArr_eq_map, cart2sphere_eq]
  obtain ⟨P, hP⟩ : ∃ P : ℝ × ℝ × ℝ → ℝ, P = fun q => azim (q.1 - c.1) (q.2.1 - c.2.1) := ⟨_, rfl⟩
  obtain ⟨T, hT⟩ : ∃ T : ℝ × ℝ × ℝ → ℝ, T = fun q => colat (q.1 - c.1) (q.2.1 - c.2.1) (q.2.2 - c.2.2) := ⟨_, rfl⟩
  obtain ⟨R, hR⟩ : ∃ R : ℝ × ℝ × ℝ → ℝ, R = fun q => √((q.1 - c.1)^2 + (q.2.1 - c.2.1)^2 + (q.2.2 - c.2.2)^2) := ⟨_, rfl⟩
  have eP : ∀ q : ℝ × ℝ × ℝ, azim (q.1 - c.1) (q.2.1 - c.2.1) = P q := fun q => by rw [hP]
  have eT : ∀ q : ℝ × ℝ × ℝ, colat (q.1 - c.1) (q.2.1 - c.2.1) (q.2.2 - c.2.2) = T q := fun q => by rw [hT]
  have eR : ∀ q : ℝ × ℝ × ℝ, √((q.1 - c.1)^2 + (q.2.1 - c.2.1)^2 + (q.2.2 - c.2.2)^2) = R q := fun q => by rw [hR]
  simp only [eP, eT, eR]
  have eth : (rows.map fun q => some (T q)) = (rows.map T).map some := by rw [List.map_map]; rfl
  rw [eth]
  rcases tilt_uni φ θ θ (some (π/2)) with ⟨e, h1, h2⟩ | ⟨h1, h2⟩ | ⟨F, h1, h2⟩
  · have k := h2 rows hne P T
    beta_reduce at k h1
    rw [k, mapM_error rows hne (e := e) fun q _ => by rw [h1]]
  · have k := h2 rows hne P T
    beta_reduce at k h1
    rw [k, mapM_ok rows (g := fun q => (none, R q)) fun q _ => by rw [h1]; rfl]
    simp only [Pov.finite, mapM_id_none rows hne, Meth.pure_apply, List.map_map, Function.comp_def]
  · have k := h2 rows hne P T
    beta_reduce at k h1
    rw [k]
    simp only [Pov.finite_map, h1]
    simp only [Meth.bind_apply, Meth.lift_apply]
    rcases phiShift_uni (-φ) with ⟨e, m1, m2⟩ | ⟨G, m1, m2⟩
    · rw [m2, mapM_error rows hne (e := e) fun q _ => by rw [m1]]
    · simp only [m1, m2]
      rcases turn_uni sp with ⟨e, n1, n2⟩ | ⟨n1, n2⟩ | ⟨H, n1, n2⟩
      · have k := n2 rows hne (fun i => G (F (P i) (T i)).1) (fun i => (F (P i) (T i)).2)
        beta_reduce at k n1
        rw [k, mapM_error rows hne (e := e) fun q _ => by rw [n1]]
      · have k := n2 rows hne (fun i => G (F (P i) (T i)).1) (fun i => (F (P i) (T i)).2)
        beta_reduce at k n1
        rw [k, mapM_ok rows (g := fun q => (none, R q)) fun q _ => by rw [n1]; rfl]
        simp only [Pov.finite, mapM_id_none rows hne, Meth.pure_apply, List.map_map, Function.comp_def]
      · have k := n2 rows hne (fun i => G (F (P i) (T i)).1) (fun i => (F (P i) (T i)).2)
        beta_reduce at k n1
        rw [k, mapM_ok rows (g := fun q => Pov.perspective D (sphere2cart (R q) (H (G (F (P q) (T q)).1) (F (P q) (T q)).2).1
          (H (G (F (P q) (T q)).1) (F (P q) (T q)).2).2 (0, 0, 0))) fun q _ => by rw [n1]; rfl]
        simp only [Pov.finite_map, Meth.bind_apply, Meth.lift_apply, Pov.sphere2cartArr, Pov.vzip3_map, Meth.pure_apply,
          List.map_map, Function.comp_def]

/-- C120: `PointOfView.reverse` of arrays, for every object. -/
theorem C120_pov_reverse (s : Pov.State) (rows : List (ℝ × ℝ × ℝ)) (hne : rows ≠ []) :
    Pov.reverse (rows.map fun q => q.1) (rows.map fun q => q.2.1) (rows.map fun q => q.2.2) s
      = (rows.mapM fun q => (Pov.reverse1 q.1 q.2.1 q.2.2 s).1, s) := by
  unfold Pov.reverse Pov.reverse1
  simp only [Meth.bind_apply, Meth.self_apply, Meth.lift_apply]
  cases s.display with
  | none => simp only [need]; rw [mapM_error rows hne fun q _ => rfl]
  | some D =>
  cases s.camera with
  | none => simp only [need]; rw [mapM_error rows hne fun q _ => rfl]
  | some c =>
  cases s.phiPt with
  | none => simp only [need]; rw [mapM_error rows hne fun q _ => rfl]
  | some φ =>
  cases s.thetaPt with
  | none => simp only [need]; rw [mapM_error rows hne fun q _ => rfl]
  | some θ =>
  cases s.spin with
  | none => simp only [need]; rw [mapM_error rows hne fun q _ => rfl]
  | some sp =>
  simp only [need_some]
  by_cases hD : D = 0
  · simp only [if_pos hD]
    rw [mapM_error rows hne fun q _ => rfl]
  simp only [if_neg hD, Pov.vzip3_map, List.map_map, Function.comp_def]
  have hcs := cart2sphereArr_eq_map (rows.map fun q => Pov.unproject D q.1 q.2.1 q.2.2) (0, 0, 0)
  simp only [List.map_map, Function.comp_def] at hcs
  rw [hcs]
  simp only [cart2sphere_eq]
  obtain ⟨U, hU⟩ : ∃ U : ℝ × ℝ × ℝ → ℝ × ℝ × ℝ, U = fun q => Pov.unproject D q.1 q.2.1 q.2.2 := ⟨_, rfl⟩
  have eU : ∀ q : ℝ × ℝ × ℝ, Pov.unproject D q.1 q.2.1 q.2.2 = U q := fun q => by rw [hU]
  simp only [eU, Pov.finite_map]
  simp only [Meth.bind_apply, Meth.lift_apply]
  obtain ⟨P, hP⟩ : ∃ P : ℝ × ℝ × ℝ → ℝ, P = fun q => azim ((U q).1 - 0) ((U q).2.1 - 0) := ⟨_, rfl⟩
  obtain ⟨T, hT⟩ : ∃ T : ℝ × ℝ × ℝ → ℝ, T = fun q => colat ((U q).1 - 0) ((U q).2.1 - 0) ((U q).2.2 - 0) := ⟨_, rfl⟩
  obtain ⟨R, hR⟩ : ∃ R : ℝ × ℝ × ℝ → ℝ, R = fun q => √(((U q).1 - 0)^2 + ((U q).2.1 - 0)^2 + ((U q).2.2 - 0)^2) :=
    ⟨_, rfl⟩
  have eP : ∀ q : ℝ × ℝ × ℝ, azim ((U q).1 - 0) ((U q).2.1 - 0) = P q := fun q => by rw [hP]
  have eT : ∀ q : ℝ × ℝ × ℝ, colat ((U q).1 - 0) ((U q).2.1 - 0) ((U q).2.2 - 0) = T q := fun q => by rw [hT]
  have eR : ∀ q : ℝ × ℝ × ℝ, √(((U q).1 - 0)^2 + ((U q).2.1 - 0)^2 + ((U q).2.2 - 0)^2) = R q := fun q => by rw [hR]
  simp only [eP, eT, eR]
  rcases turn_uni (-sp) with ⟨e, n1, n2⟩ | ⟨n1, n2⟩ | ⟨H, n1, n2⟩
  · have k := n2 rows hne P T
    beta_reduce at k n1
    rw [k, mapM_error rows hne (e := e) fun q _ => by rw [n1]]
  · have k := n2 rows hne P T
    beta_reduce at k n1
    rw [k, mapM_ok rows (g := fun q => none) fun q _ => by rw [n1]; rfl]
    simp only [Pov.finite, mapM_id_none rows hne, Meth.pure_apply, List.map_map, Function.comp_def]
  · have k := n2 rows hne P T
    beta_reduce at k n1
    rw [k]
    simp only [Pov.finite_map, n1]
    simp only [Meth.bind_apply, Meth.lift_apply]
    rcases phiShift_uni φ with ⟨e, m1, m2⟩ | ⟨G, m1, m2⟩
    · rw [m2, mapM_error rows hne (e := e) fun q _ => by rw [m1]]
    · simp only [m1, m2]
      have eth : (rows.map fun q => some (H (P q) (T q)).2) = (rows.map fun q => (H (P q) (T q)).2).map some := by
        rw [List.map_map]; rfl
      rw [eth]
      rcases tilt_uni φ θ (some (π/2)) θ with ⟨e, h1, h2⟩ | ⟨h1, h2⟩ | ⟨F, h1, h2⟩
      · have k := h2 rows hne (fun i => G (H (P i) (T i)).1) (fun i => (H (P i) (T i)).2)
        beta_reduce at k h1
        rw [k, mapM_error rows hne (e := e) fun q _ => by rw [h1]]
      · have k := h2 rows hne (fun i => G (H (P i) (T i)).1) (fun i => (H (P i) (T i)).2)
        beta_reduce at k h1
        rw [k, mapM_ok rows (g := fun q => none) fun q _ => by rw [h1]; rfl]
        simp only [Pov.finite, mapM_id_none rows hne, Meth.pure_apply, List.map_map, Function.comp_def]
      · have k := h2 rows hne (fun i => G (H (P i) (T i)).1) (fun i => (H (P i) (T i)).2)
        beta_reduce at k h1
        rw [k, mapM_ok rows (g := fun q => some (sphere2cart (R q) (F (G (H (P q) (T q)).1) (H (P q) (T q)).2).1
          (F (G (H (P q) (T q)).1) (H (P q) (T q)).2).2 c)) fun q _ => by rw [h1]; rfl]
        simp only [Pov.finite_map, Meth.bind_apply, Meth.lift_apply, Pov.sphere2cartArr, Pov.vzip3_map, Meth.pure_apply,
          List.map_map, Function.comp_def]

/-- The view from the origin along the first axis, with the plane at distance 1. -/
noncomputable def viewX : Pov.State := (Pov.setup (0, 0, 0) (1, 0, 0) 1 0 Pov.init).2

/-- A point seen: `(2, 1, 0)` is at `(1/2, 0)` in the plane, at distance `√5`. -/
theorem view_of_point : (Pov.transform1 2 1 0 viewX).1 = .ok (some (1/2, 0), √5) := by
  have hpi := pi_pos
  have az : azim (1:ℝ) 0 = 0 := by
    have : (⟨1, 0⟩ : ℂ) = 1 := rfl
    simp [azim, arctan2, this]
  have co : colat (1:ℝ) 0 0 = π/2 := by simp [colat]
  have hv : viewX = ⟨some (0, 0, 0), some (1, 0, 0), some 1, some 0, some (some (π/2)), some 0⟩ := by
    unfold viewX Pov.setup
    simp only [Meth.assign_apply, cart2sphere_eq, sub_zero, az, co]
  obtain ⟨r, p, t, h, h0, h1, h2, h3, h4, h5⟩ := C17_cart_sphere_cart 2 1 0 (0, 0, 0)
  have hs : phiShift p (-0) = .ok p := by
    unfold phiShift pyAssert
    rw [if_pos (by constructor <;> linarith)]
    simp only [bind, Except.bind, neg_zero, add_zero]
    rw [if_neg (by linarith), if_neg (by linarith)]
    rfl
  rw [hv]
  unfold Pov.transform1 Pov.tilt1 Pov.turn1
  simp only [Meth.bind_apply, Meth.self_apply, Meth.lift_apply, need_some, h, ne_eq, not_true_eq_false, if_false,
    Option.map_some, hs, h5, Meth.pure_apply, Pov.perspective, fdiv]
  norm_num

/-- The calls of C120 can raise: turning by a negative angle. -/
example : Coords.spin 1 1 0 1 (-1) = .error .assertionError := by
  have hpi := pi_gt_three
  unfold Coords.spin pyAssert
  rw [if_pos (by constructor <;> linarith), if_pos (by constructor <;> linarith), if_neg (by norm_num)]
  rfl

end Magpie.Props
