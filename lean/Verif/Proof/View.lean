import Verif.Props.Pointwise
import Verif.Spec.View

/-!
# The perspective view in other units and from another origin
-/

set_option linter.unusedSimpArgs false
set_option linter.unusedVariables false

namespace Magpie.View
open Magpie Magpie.Pov Magpie.Coords Magpie.Spec Real

theorem azim_mul {k : ℝ} (hk : 0 < k) (x y : ℝ) : azim (k*x) (k*y) = azim x y := by
  have h : arctan2 (k*y) (k*x) = arctan2 y x := by
    unfold arctan2
    have e : (⟨k*x, k*y⟩ : ℂ) = (k:ℂ) * ⟨x, y⟩ := by
      apply Complex.ext <;> simp
    rw [e, Complex.arg_real_mul _ hk]
  unfold azim
  rw [h]

theorem norm_mul {k : ℝ} (hk : 0 < k) (x y z : ℝ) :
    √((k*x)^2 + (k*y)^2 + (k*z)^2) = k*√(x^2 + y^2 + z^2) := by
  rw [show (k*x)^2 + (k*y)^2 + (k*z)^2 = k^2*(x^2 + y^2 + z^2) by ring, sqrt_mul (sq_nonneg k), sqrt_sq hk.le]

theorem colat_mul {k : ℝ} (hk : 0 < k) (x y z : ℝ) : colat (k*x) (k*y) (k*z) = colat x y z := by
  unfold colat
  rw [norm_mul hk]
  by_cases h : √(x^2 + y^2 + z^2) = 0
  · simp [h]
  · rw [if_pos (mul_ne_zero hk.ne' h), if_pos h, mul_div_mul_left _ _ hk.ne']

theorem cart2sphere_moved {k : ℝ} (hk : 0 < k) (o p c : ℝ × ℝ × ℝ) :
    cart2sphere (moved k o p).1 (moved k o p).2.1 (moved k o p).2.2 (moved k o c)
      = (k*(cart2sphere p.1 p.2.1 p.2.2 c).1, (cart2sphere p.1 p.2.1 p.2.2 c).2) := by
  rw [cart2sphere_eq, cart2sphere_eq]
  have e : ∀ a b t : ℝ, k*a + t - (k*b + t) = k*(a - b) := fun a b t => by ring
  simp only [moved, e, azim_mul hk, colat_mul hk, norm_mul hk]

theorem perspective_mul {k : ℝ} (hk : 0 < k) (D : ℝ) (d : ℝ × ℝ × ℝ) :
    perspective D (k*d.1, k*d.2.1, k*d.2.2) = ((perspective D d).1, k*(perspective D d).2) := by
  unfold perspective
  simp only [norm_mul hk]
  congr 1
  unfold fdiv
  by_cases h : d.1 = 0
  · simp [h]
  · rw [if_neg (mul_ne_zero hk.ne' h), if_neg h]
    simp only [Option.map_some]
    congr 2 <;> field_simp

theorem sphere2cart_mul (k r p t : ℝ) :
    sphere2cart (k*r) p t (0, 0, 0)
      = (k*(sphere2cart r p t (0, 0, 0)).1, k*(sphere2cart r p t (0, 0, 0)).2.1, k*(sphere2cart r p t (0, 0, 0)).2.2) := by
  simp only [sphere2cart, add_zero]
  congr 1
  · ring
  · congr 1 <;> ring

theorem sphere2cart_moved (k : ℝ) (o : ℝ × ℝ × ℝ) (r p t : ℝ) (c : ℝ × ℝ × ℝ) :
    sphere2cart (k*r) p t (moved k o c) = moved k o (sphere2cart r p t c) := by
  simp only [sphere2cart, moved]
  congr 1
  · ring
  · congr 1 <;> ring

theorem ready_moved {k : ℝ} (hk : 0 < k) (o camera point : ℝ × ℝ × ℝ) (D spin : ℝ) :
    ready (moved k o camera) (moved k o point) D spin
      = { ready camera point D spin with camera := some (moved k o camera), point := some (moved k o point) } := by
  have e : ∀ a b t : ℝ, k*a + t - (k*b + t) = k*(a - b) := fun a b t => by ring
  simp only [ready, phiOf, thetaOf, moved, e, azim_mul hk, colat_mul hk]

theorem transform1_moved {k : ℝ} (hk : 0 < k) (o camera point q : ℝ × ℝ × ℝ) (D spin : ℝ) :
    (transform1 (moved k o q).1 (moved k o q).2.1 (moved k o q).2.2 (ready (moved k o camera) (moved k o point) D spin)).1
      = (transform1 q.1 q.2.1 q.2.2 (ready camera point D spin)).1.map fun r => (r.1, k*r.2) := by
  rw [ready_moved hk]
  unfold transform1
  simp only [ready, Meth.bind_apply, Meth.self_apply, Meth.lift_apply, need_some, cart2sphere_moved hk]
  cases tilt1 (cart2sphere q.1 q.2.1 q.2.2 camera).2.1 (cart2sphere q.1 q.2.1 q.2.2 camera).2.2 (phiOf camera point)
    (some (thetaOf camera point)) (some (thetaOf camera point)) (some (π/2)) with
  | error e => rfl
  | ok a =>
  cases a with
  | none => rfl
  | some a =>
  simp only [Meth.bind_apply, Meth.lift_apply]
  cases phiShift a.1 (-phiOf camera point) with
  | error e => rfl
  | ok b =>
  simp only [Meth.bind_apply, Meth.lift_apply]
  cases turn1 b a.2 spin with
  | error e => rfl
  | ok c =>
  cases c with
  | none => rfl
  | some c =>
  simp only [Meth.pure_apply, sphere2cart_mul, perspective_mul hk]
  rfl

theorem unproject_mul {k : ℝ} (hk : 0 < k) (D bx by' dist : ℝ) :
    unproject D bx by' (k*dist) = (k*(unproject D bx by' dist).1, k*(unproject D bx by' dist).2.1,
      k*(unproject D bx by' dist).2.2) := by
  unfold unproject
  have e : k*dist/√(1 + 1/D^2*(bx^2 + by'^2)) = k*(dist/√(1 + 1/D^2*(bx^2 + by'^2))) := by ring
  simp only [e]
  by_cases h : dist/√(1 + 1/D^2*(bx^2 + by'^2)) = 0
  · rw [if_pos (by rw [h, mul_zero]), if_pos h]; simp
  · rw [if_neg (mul_ne_zero hk.ne' h), if_neg h]
    have f : ∀ b d : ℝ, b/(D/(k*d)) = k*(b/(D/d)) := by
      intro b d
      rw [div_div_eq_mul_div, div_div_eq_mul_div]
      ring
    simp only [f]

theorem reverse1_moved {k : ℝ} (hk : 0 < k) (o camera point q : ℝ × ℝ × ℝ) (D spin : ℝ) :
    (reverse1 q.1 q.2.1 (k*q.2.2) (ready (moved k o camera) (moved k o point) D spin)).1
      = (reverse1 q.1 q.2.1 q.2.2 (ready camera point D spin)).1.map (Option.map (moved k o)) := by
  rw [ready_moved hk]
  have h0 : ∀ u : ℝ × ℝ × ℝ, cart2sphere (k*u.1) (k*u.2.1) (k*u.2.2) (0, 0, 0)
      = (k*(cart2sphere u.1 u.2.1 u.2.2 (0, 0, 0)).1, (cart2sphere u.1 u.2.1 u.2.2 (0, 0, 0)).2) := by
    intro u
    have := cart2sphere_moved hk (0, 0, 0) u (0, 0, 0)
    simpa [moved] using this
  unfold reverse1
  simp only [ready, Meth.bind_apply, Meth.self_apply, Meth.lift_apply, need_some, unproject_mul hk, h0]
  by_cases hD : D = 0
  · simp only [if_pos hD]; rfl
  simp only [if_neg hD]
  obtain ⟨u, hu⟩ : ∃ u, u = unproject D q.1 q.2.1 q.2.2 := ⟨_, rfl⟩
  rw [← hu]
  cases (cart2sphere u.1 u.2.1 u.2.2 (0, 0, 0)).2.2 with
  | none => rfl
  | some t =>
  simp only [Meth.bind_apply, Meth.lift_apply]
  cases turn1 (cart2sphere u.1 u.2.1 u.2.2 (0, 0, 0)).2.1 t (-spin) with
  | error e => rfl
  | ok a =>
  cases a with
  | none => rfl
  | some a =>
  simp only [Meth.bind_apply, Meth.lift_apply]
  cases phiShift a.1 (phiOf camera point) with
  | error e => rfl
  | ok b =>
  simp only [Meth.bind_apply, Meth.lift_apply]
  cases tilt1 b (some a.2) (phiOf camera point) (some (thetaOf camera point)) (some (π/2)) (some (thetaOf camera point)) with
  | error e => rfl
  | ok c =>
  cases c with
  | none => rfl
  | some c =>
  simp only [Meth.pure_apply, sphere2cart_moved]
  rfl

theorem transform1_zoom (δ : ℝ) (camera point q : ℝ × ℝ × ℝ) (D spin : ℝ) :
    (transform1 q.1 q.2.1 q.2.2 (ready camera point (δ*D) spin)).1
      = (transform1 q.1 q.2.1 q.2.2 (ready camera point D spin)).1.map
          fun r => (r.1.map fun b => (δ*b.1, δ*b.2), r.2) := by
  have hp : ∀ d : ℝ × ℝ × ℝ, perspective (δ*D) d
      = ((perspective D d).1.map fun b => (δ*b.1, δ*b.2), (perspective D d).2) := by
    intro d
    unfold perspective fdiv
    by_cases h : d.1 = 0
    · simp [h]
    · simp only [if_neg h, Option.map_some]
      congr 3
      · ring
      · ring
  unfold transform1
  simp only [ready, Meth.bind_apply, Meth.self_apply, Meth.lift_apply, need_some]
  cases tilt1 (cart2sphere q.1 q.2.1 q.2.2 camera).2.1 (cart2sphere q.1 q.2.1 q.2.2 camera).2.2 (phiOf camera point)
    (some (thetaOf camera point)) (some (thetaOf camera point)) (some (π/2)) with
  | error e => rfl
  | ok a =>
  cases a with
  | none => rfl
  | some a =>
  simp only [Meth.bind_apply, Meth.lift_apply]
  cases phiShift a.1 (-phiOf camera point) with
  | error e => rfl
  | ok b =>
  simp only [Meth.bind_apply, Meth.lift_apply]
  cases turn1 b a.2 spin with
  | error e => rfl
  | ok c =>
  cases c with
  | none => rfl
  | some c =>
  simp only [Meth.pure_apply, hp]
  rfl

theorem transform_point (x y z : List ℝ) (s : State) (p : Option (ℝ × ℝ × ℝ)) :
    (transform x y z { s with point := p }).1 = (transform x y z s).1 := by
  unfold transform
  simp only [Meth.bind_apply, Meth.self_apply, Meth.lift_apply]
  cases need s.camera with
  | error e => rfl
  | ok camera =>
  cases need s.display with
  | error e => rfl
  | ok D =>
  cases need s.phiPt with
  | error e => rfl
  | ok φ =>
  cases need s.thetaPt with
  | error e => rfl
  | ok θ =>
  cases need s.spin with
  | error e => rfl
  | ok sp =>
  dsimp only
  cases cart2sphereArr x y z camera with
  | error e => rfl
  | ok a =>
  dsimp only
  cases tilt a.2.1 a.2.2 φ θ θ (some (π/2)) with
  | error e => rfl
  | ok b =>
  dsimp only
  cases finite b.1 with
  | none => rfl
  | some b1 =>
  cases finite b.2 with
  | none => rfl
  | some b2 =>
  simp only [Meth.bind_apply, Meth.lift_apply]
  cases phiShiftArr b1 (-φ) with
  | error e => rfl
  | ok c =>
  dsimp only
  cases turn c b2 sp with
  | error e => rfl
  | ok d =>
  dsimp only
  cases finite d.1 with
  | none => rfl
  | some d1 =>
  cases finite d.2 with
  | none => rfl
  | some d2 =>
  simp only [Meth.bind_apply, Meth.lift_apply]
  cases sphere2cartArr a.1 d1 d2 (0, 0, 0) with
  | error e => rfl
  | ok f => rfl

theorem reverse_point (x y z : List ℝ) (s : State) (p : Option (ℝ × ℝ × ℝ)) :
    (reverse x y z { s with point := p }).1 = (reverse x y z s).1 := by
  unfold reverse
  simp only [Meth.bind_apply, Meth.self_apply, Meth.lift_apply]
  cases need s.display with
  | error e => rfl
  | ok D =>
  cases need s.camera with
  | error e => rfl
  | ok camera =>
  cases need s.phiPt with
  | error e => rfl
  | ok φ =>
  cases need s.thetaPt with
  | error e => rfl
  | ok θ =>
  cases need s.spin with
  | error e => rfl
  | ok sp =>
  dsimp only
  by_cases hD : D = 0
  · simp only [if_pos hD]
  simp only [if_neg hD]
  cases vzip3 (unproject D) x y z with
  | error e => rfl
  | ok q =>
  dsimp only
  cases cart2sphereArr (q.map fun q => q.1) (q.map fun q => q.2.1) (q.map fun q => q.2.2) (0, 0, 0) with
  | error e => rfl
  | ok a =>
  dsimp only
  cases finite a.2.2 with
  | none => rfl
  | some t =>
  simp only [Meth.bind_apply, Meth.lift_apply]
  cases turn a.2.1 t (-sp) with
  | error e => rfl
  | ok b =>
  dsimp only
  cases finite b.1 with
  | none => rfl
  | some b1 =>
  simp only [Meth.bind_apply, Meth.lift_apply]
  cases phiShiftArr b1 φ with
  | error e => rfl
  | ok c =>
  dsimp only
  cases tilt c b.2 φ θ (some (π/2)) θ with
  | error e => rfl
  | ok d =>
  dsimp only
  cases finite d.1 with
  | none => rfl
  | some d1 =>
  cases finite d.2 with
  | none => rfl
  | some d2 =>
  simp only [Meth.bind_apply, Meth.lift_apply]
  cases sphere2cartArr a.1 d1 d2 camera with
  | error e => rfl
  | ok f => rfl

theorem mapM_map {α β γ : Type} (f : α → Py β) (g : β → γ) (l : List α) :
    (l.mapM fun a => (f a).map g) = (l.mapM f).map (List.map g) := by
  induction l with
  | nil => rfl
  | cons a l ih =>
    rw [List.mapM_cons, List.mapM_cons, ih]
    cases f a with
    | error e => rfl
    | ok b =>
      cases l.mapM f with
      | error e => rfl
      | ok c => rfl

end Magpie.View
