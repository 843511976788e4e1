import Verif.Proof.View

/-!
# Property C134: the perspective view does not depend on units or origin
-/

set_option linter.unusedSimpArgs false
set_option linter.unusedVariables false

namespace Magpie.Props
open Magpie Magpie.Pov Magpie.Coords Magpie.Spec Magpie.View Real

/-- C134: positions, camera and the point looked at given in other units and from another origin: the
same positions in the view, and distances in the new units. This includes positions without finite
image, spins that are rejected, a camera looking at itself and every earlier state of the objects. -/
theorem C134_transform (k : ℝ) (hk : 0 < k) (o camera point : ℝ × ℝ × ℝ) (display spin : ℝ)
    (rows : List (ℝ × ℝ × ℝ)) (hne : rows ≠ []) (s s' : State) :
    ((setup (moved k o camera) (moved k o point) display spin >>= fun _ =>
        transform (rows.map fun q => (moved k o q).1) (rows.map fun q => (moved k o q).2.1)
          (rows.map fun q => (moved k o q).2.2)) s').1
      = ((setup camera point display spin >>= fun _ =>
          transform (rows.map fun q => q.1) (rows.map fun q => q.2.1) (rows.map fun q => q.2.2)) s).1.map
        (List.map fun row => (row.1, k*row.2)) := by
  simp only [Meth.bind_apply, setup_run]
  have h := C120_pov_transform (ready (moved k o camera) (moved k o point) display spin) (rows.map (moved k o))
    (by simpa using hne)
  simp only [List.map_map, Function.comp_def] at h
  rw [h, C120_pov_transform _ rows hne, ← mapM_map]
  rw [List.mapM_map]
  simp only [Function.comp_def, transform1_moved hk]

/-- C134: `reverse` in other units and from another origin. -/
theorem C134_reverse (k : ℝ) (hk : 0 < k) (o camera point : ℝ × ℝ × ℝ) (display spin : ℝ)
    (rows : List (ℝ × ℝ × ℝ)) (hne : rows ≠ []) (s s' : State) :
    ((setup (moved k o camera) (moved k o point) display spin >>= fun _ =>
        reverse (rows.map fun q => q.1) (rows.map fun q => q.2.1) (rows.map fun q => k*q.2.2)) s').1
      = ((setup camera point display spin >>= fun _ =>
          reverse (rows.map fun q => q.1) (rows.map fun q => q.2.1) (rows.map fun q => q.2.2)) s).1.map
        (List.map (Option.map (moved k o))) := by
  simp only [Meth.bind_apply, setup_run]
  have h := C120_pov_reverse (ready (moved k o camera) (moved k o point) display spin)
    (rows.map fun q => (q.1, q.2.1, k*q.2.2)) (by simpa using hne)
  simp only [List.map_map, Function.comp_def] at h
  rw [h, C120_pov_reverse _ rows hne, ← mapM_map]
  rw [List.mapM_map]
  simp only [Function.comp_def, reverse1_moved hk]

/-- C134: `transform` of numbers. -/
theorem C134_transform_number (k : ℝ) (hk : 0 < k) (o camera point q : ℝ × ℝ × ℝ) (display spin : ℝ) (s s' : State) :
    ((setup (moved k o camera) (moved k o point) display spin >>= fun _ =>
        transform1 (moved k o q).1 (moved k o q).2.1 (moved k o q).2.2) s').1
      = ((setup camera point display spin >>= fun _ => transform1 q.1 q.2.1 q.2.2) s).1.map
        fun row => (row.1, k*row.2) := by
  simp only [Meth.bind_apply, setup_run]
  exact transform1_moved hk o camera point q display spin

/-- C134: `reverse` of numbers. -/
theorem C134_reverse_number (k : ℝ) (hk : 0 < k) (o camera point q : ℝ × ℝ × ℝ) (display spin : ℝ) (s s' : State) :
    ((setup (moved k o camera) (moved k o point) display spin >>= fun _ => reverse1 q.1 q.2.1 (k*q.2.2)) s').1
      = ((setup camera point display spin >>= fun _ => reverse1 q.1 q.2.1 q.2.2) s).1.map (Option.map (moved k o)) := by
  simp only [Meth.bind_apply, setup_run]
  exact reverse1_moved hk o camera point q display spin

/-- C134: the distance of the display is a zoom. -/
theorem C134_zoom (δ : ℝ) (camera point : ℝ × ℝ × ℝ) (display spin : ℝ)
    (rows : List (ℝ × ℝ × ℝ)) (hne : rows ≠ []) (s s' : State) :
    ((setup camera point (δ*display) spin >>= fun _ =>
        transform (rows.map fun q => q.1) (rows.map fun q => q.2.1) (rows.map fun q => q.2.2)) s').1
      = ((setup camera point display spin >>= fun _ =>
          transform (rows.map fun q => q.1) (rows.map fun q => q.2.1) (rows.map fun q => q.2.2)) s).1.map
        (List.map fun row => (row.1.map fun b => (δ*b.1, δ*b.2), row.2)) := by
  simp only [Meth.bind_apply, setup_run]
  rw [C120_pov_transform _ rows hne, C120_pov_transform _ rows hne, ← mapM_map]
  simp only [transform1_zoom]

/-- C134: only the direction of the point looked at matters, not its distance. -/
theorem C134_direction (t : ℝ) (ht : 0 < t) (camera point point' : ℝ × ℝ × ℝ) (display spin : ℝ)
    (hx : point'.1 - camera.1 = t*(point.1 - camera.1)) (hy : point'.2.1 - camera.2.1 = t*(point.2.1 - camera.2.1))
    (hz : point'.2.2 - camera.2.2 = t*(point.2.2 - camera.2.2)) (x y z : List ℝ) (s s' : State) :
    ((setup camera point' display spin >>= fun _ => transform x y z) s').1
        = ((setup camera point display spin >>= fun _ => transform x y z) s).1 ∧
      ((setup camera point' display spin >>= fun _ => reverse x y z) s').1
        = ((setup camera point display spin >>= fun _ => reverse x y z) s).1 := by
  have hp : phiOf camera point' = phiOf camera point := by
    unfold phiOf; rw [hx, hy, azim_mul ht]
  have hq : thetaOf camera point' = thetaOf camera point := by
    unfold thetaOf; rw [hx, hy, hz, colat_mul ht]
  simp only [Meth.bind_apply, setup_run]
  have e : ready camera point' display spin = { ready camera point display spin with point := some point' } := by
    simp only [ready, hp, hq]
  rw [e]
  exact ⟨transform_point _ _ _ _ _, reverse_point _ _ _ _ _⟩

/-- A point twice as far away in the same direction. -/
example : ((3:ℝ) - 1 = 2*(2 - 1)) ∧ ((5:ℝ) - 1 = 2*(3 - 1)) ∧ ((1:ℝ) - 1 = 2*(1 - 1)) := by norm_num

/-- Miles for kilometres and another origin: a camera and a point looked at, at different places. -/
example : (0:ℝ) < 1609/1000 ∧ moved (1609/1000) (5, 0, 0) (1, 1, 1) ≠ moved (1609/1000) (5, 0, 0) (0, 0, 0) := by
  refine ⟨by norm_num, ?_⟩
  simp [moved]

/-- The view of C134 for a point that is seen: `(2, 1, 0)` in the view from the origin along the first axis is at
`(1/2, 0)`; in units three times smaller and from another origin it is there too, three times as far. -/
example (s : State) : ((setup (moved 3 (7, 8, 9) (0, 0, 0)) (moved 3 (7, 8, 9) (1, 0, 0)) 1 0 >>= fun _ =>
    transform1 (moved 3 (7, 8, 9) (2, 1, 0)).1 (moved 3 (7, 8, 9) (2, 1, 0)).2.1 (moved 3 (7, 8, 9) (2, 1, 0)).2.2) s).1
      = .ok (some (1/2, 0), 3*√5) := by
  have h := C134_transform_number 3 (by norm_num) (7, 8, 9) (0, 0, 0) (1, 0, 0) (2, 1, 0) 1 0 init s
  rw [h]
  have e : ((setup (0, 0, 0) (1, 0, 0) 1 0 >>= fun _ => transform1 (2:ℝ) 1 0) init).1
      = (transform1 2 1 0 viewX).1 := by
    simp only [Meth.bind_apply, setup_run]
    unfold viewX
    rw [setup_run]
  rw [e, view_of_point]
  rfl

end Magpie.Props
