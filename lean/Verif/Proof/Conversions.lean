import Verif.Model.Conversions
import Verif.Proof.HealpixCoords
import Verif.Spec.Sphere

/-!
# Lemmas about the coordinate conversions
-/

set_option linter.unusedSimpArgs false
set_option linter.unusedVariables false

namespace Magpie.Coords
open Magpie.Healpix Magpie.Spec Real

/-- `phi` wrapped to `[0, 2π)` as in `cart2polar` and `cart2sphere`. -/
noncomputable def azim (x y : ℝ) : ℝ :=
  if arctan2 y x < 0 then arctan2 y x + 2*π else arctan2 y x

theorem azim_range (x y : ℝ) : 0 ≤ azim x y ∧ azim x y < 2*π := by
  have hpi := pi_pos
  unfold azim
  have h1 := Complex.neg_pi_lt_arg ⟨x, y⟩
  have h2 := Complex.arg_le_pi ⟨x, y⟩
  unfold arctan2
  split
  · constructor <;> linarith
  · constructor <;> linarith

theorem cos_azim (x y : ℝ) : √(x^2+y^2) * cos (azim x y) = x := by
  have h : cos (azim x y) = cos (arctan2 y x) := by
    unfold azim; split
    · rw [cos_add_two_pi]
    · rfl
  have := Complex.norm_mul_cos_arg ⟨x, y⟩
  rw [Complex.norm_eq_sqrt_sq_add_sq] at this
  rw [h]; exact this

theorem sin_azim (x y : ℝ) : √(x^2+y^2) * sin (azim x y) = y := by
  have h : sin (azim x y) = sin (arctan2 y x) := by
    unfold azim; split
    · rw [sin_add_two_pi]
    · rfl
  have := Complex.norm_mul_sin_arg ⟨x, y⟩
  rw [Complex.norm_eq_sqrt_sq_add_sq] at this
  rw [h]; exact this

theorem azim_polar {r phi : ℝ} (hr : 0 < r) (h0 : 0 ≤ phi) (h1 : phi < 2*π) :
    azim (r*cos phi) (r*sin phi) = phi := by
  have hpi := pi_pos
  have key : ∀ q, -π < q → q ≤ π → arctan2 (r*sin q) (r*cos q) = q := by
    intro q a b
    unfold arctan2
    have e : (⟨r*cos q, r*sin q⟩ : ℂ) = (r:ℂ)*(Complex.cos q + Complex.sin q*Complex.I) := by
      apply Complex.ext
      · simp [Complex.cos_ofReal_re, Complex.sin_ofReal_re]
      · simp [Complex.cos_ofReal_re, Complex.sin_ofReal_re]
    rw [e, Complex.arg_mul_cos_add_sin_mul_I hr ⟨a, b⟩]
  unfold azim
  rcases le_or_gt phi π with h | h
  · rw [key phi (by linarith) h, if_neg (by linarith)]
  · have hc : cos phi = cos (phi - 2*π) := (cos_sub_two_pi phi).symm
    have hs : sin phi = sin (phi - 2*π) := (sin_sub_two_pi phi).symm
    rw [hc, hs, key (phi - 2*π) (by linarith) (by linarith), if_pos (by linarith)]; ring

theorem cart2polar_eq (x y : ℝ) (c : ℝ × ℝ) :
    cart2polar x y c = (√((x-c.1)^2+(y-c.2)^2), azim (x-c.1) (y-c.2)) := rfl

theorem abs_le_sqrt_sum (x y z : ℝ) : |z| ≤ √(x^2+y^2+z^2) := by
  apply abs_le_sqrt; nlinarith [sq_nonneg x, sq_nonneg y]

/-- Colatitude computed by `cart2sphere`. -/
noncomputable def colat (x y z : ℝ) : ℝ :=
  if √(x^2+y^2+z^2) ≠ 0 then arccos (z/√(x^2+y^2+z^2)) else 0

theorem cart2sphere_eq (x y z : ℝ) (c : ℝ × ℝ × ℝ) :
    cart2sphere x y z c = (√((x-c.1)^2+(y-c.2.1)^2+(z-c.2.2)^2), azim (x-c.1) (y-c.2.1),
      some (colat (x-c.1) (y-c.2.1) (z-c.2.2))) := by
  unfold cart2sphere colat
  simp only [azim]
  congr 2
  by_cases h : √((x-c.1)^2+(y-c.2.1)^2+(z-c.2.2)^2) ≠ 0
  · rw [if_pos h, if_pos h]
    have hp : 0 < √((x-c.1)^2+(y-c.2.1)^2+(z-c.2.2)^2) :=
      lt_of_le_of_ne (sqrt_nonneg _) (Ne.symm h)
    have := abs_le.mp (abs_le_sqrt_sum (x-c.1) (y-c.2.1) (z-c.2.2))
    rw [npArccos_ok]
    · rw [le_div_iff₀ hp]; linarith
    · rw [div_le_iff₀ hp]; linarith
  · rw [if_neg h, if_neg h]

theorem colat_range (x y z : ℝ) : 0 ≤ colat x y z ∧ colat x y z ≤ π := by
  unfold colat
  split
  · exact ⟨arccos_nonneg _, arccos_le_pi _⟩
  · exact ⟨le_rfl, pi_pos.le⟩

theorem cos_colat (x y z : ℝ) : √(x^2+y^2+z^2) * cos (colat x y z) = z := by
  have hz := abs_le_sqrt_sum x y z
  unfold colat
  by_cases h : √(x^2+y^2+z^2) ≠ 0
  · rw [if_pos h]
    have hp : 0 < √(x^2+y^2+z^2) := lt_of_le_of_ne (sqrt_nonneg _) (Ne.symm h)
    have := abs_le.mp hz
    rw [cos_arccos]
    · field_simp
    · rw [le_div_iff₀ hp]; linarith
    · rw [div_le_iff₀ hp]; linarith
  · rw [if_neg h]
    push Not at h
    rw [h] at hz ⊢
    have := abs_nonpos_iff.mp hz
    rw [this]; simp

theorem sin_colat (x y z : ℝ) : √(x^2+y^2+z^2) * sin (colat x y z) = √(x^2+y^2) := by
  have h1 : 0 ≤ √(x^2+y^2+z^2) * sin (colat x y z) :=
    mul_nonneg (sqrt_nonneg _) (sin_nonneg_of_nonneg_of_le_pi (colat_range x y z).1
      (colat_range x y z).2)
  rw [eq_comm, sqrt_eq_iff_mul_self_eq (by positivity) h1]
  have hc := cos_colat x y z
  have hs : √(x^2+y^2+z^2)^2 = x^2+y^2+z^2 := sq_sqrt (by positivity)
  have := sin_sq_add_cos_sq (colat x y z)
  have e : √(x^2+y^2+z^2) * sin (colat x y z) * (√(x^2+y^2+z^2) * sin (colat x y z))
    = √(x^2+y^2+z^2)^2 * (1 - cos (colat x y z)^2) := by
    rw [← this]; ring
  rw [e, mul_sub, mul_one, ← mul_pow, hc, hs]; ring

theorem sphere2cart_cart2sphere (x y z : ℝ) :
    √(x^2+y^2+z^2)*cos (azim x y)*sin (colat x y z) = x ∧
    √(x^2+y^2+z^2)*sin (azim x y)*sin (colat x y z) = y := by
  have hs := sin_colat x y z
  have h1 := cos_azim x y
  have h2 := sin_azim x y
  constructor
  · calc _ = √(x^2+y^2+z^2)*sin (colat x y z)*cos (azim x y) := by ring
      _ = x := by rw [hs, h1]
  · calc _ = √(x^2+y^2+z^2)*sin (colat x y z)*sin (azim x y) := by ring
      _ = y := by rw [hs, h2]

theorem norm_sphere {r phi theta : ℝ} (hr : 0 ≤ r) :
    √((r*cos phi*sin theta)^2 + (r*sin phi*sin theta)^2 + (r*cos theta)^2) = r := by
  have h1 := sin_sq_add_cos_sq phi
  have h2 := sin_sq_add_cos_sq theta
  have : (r*cos phi*sin theta)^2 + (r*sin phi*sin theta)^2 + (r*cos theta)^2 = r^2 := by
    calc _ = r^2*((sin phi^2+cos phi^2)*sin theta^2 + cos theta^2) := by ring
      _ = r^2 := by rw [h1, one_mul, h2, mul_one]
  rw [this, sqrt_sq hr]

theorem colat_sphere {r phi theta : ℝ} (hr : 0 < r) (h0 : 0 ≤ theta) (h1 : theta ≤ π) :
    colat (r*cos phi*sin theta) (r*sin phi*sin theta) (r*cos theta) = theta := by
  unfold colat
  rw [norm_sphere hr.le, if_pos hr.ne', mul_div_cancel_left₀ _ hr.ne', arccos_cos h0 h1]

theorem azim_sphere {r phi theta : ℝ} (hr : 0 < r) (h0 : 0 < theta) (h1 : theta < π)
    (p0 : 0 ≤ phi) (p1 : phi < 2*π) :
    azim (r*cos phi*sin theta) (r*sin phi*sin theta) = phi := by
  have hs := sin_pos_of_pos_of_lt_pi h0 h1
  have := azim_polar (r := r*sin theta) (phi := phi) (by positivity) p0 p1
  rw [show r*cos phi*sin theta = r*sin theta*cos phi by ring,
    show r*sin phi*sin theta = r*sin theta*sin phi by ring]
  exact this

/-! ## arrays -/

theorem vzip_map_same {α β γ ρ : Type*} (f : α → β → γ) (g : ρ → α) (h : ρ → β) (l : List ρ) :
    vzip f (l.map g) (l.map h) = .ok (l.map fun r => f (g r) (h r)) := by
  unfold vzip
  rw [if_pos (by simp), zipWith_map_same]

theorem cart2polarArr_eq_map (rows : List (ℝ × ℝ)) (c : ℝ × ℝ) :
    cart2polarArr (rows.map Prod.fst) (rows.map Prod.snd) c
      = .ok (rows.map fun r => (cart2polar r.1 r.2 c).1,
             rows.map fun r => (cart2polar r.1 r.2 c).2) := by
  unfold cart2polarArr
  simp only [vzip_map_same, List.length_map, replicate_length_map, whereIdx_map, bind, Except.bind,
    gather_whereIdx, gather_self, zipWith_map_same, zipWith_same_map, zip_map_same,
    scatter_whereIdx, List.map_map, Function.comp_def, pure, Except.pure, decide_eq_true_eq]
  rfl

theorem cart2sphereArr_eq_map (rows : List (ℝ × ℝ × ℝ)) (c : ℝ × ℝ × ℝ) :
    cart2sphereArr (rows.map fun r => r.1) (rows.map fun r => r.2.1) (rows.map fun r => r.2.2) c
      = .ok (rows.map fun r => (cart2sphere r.1 r.2.1 r.2.2 c).1,
             rows.map fun r => (cart2sphere r.1 r.2.1 r.2.2 c).2.1,
             rows.map fun r => (cart2sphere r.1 r.2.1 r.2.2 c).2.2) := by
  unfold cart2sphereArr
  simp only [vzip_map_same, List.length_map, replicate_length_map, whereIdx_map, bind, Except.bind,
    gather_whereIdx, gather_self, zipWith_map_same, zipWith_same_map, zip_map_same,
    scatter_whereIdx, List.map_map, Function.comp_def, pure, Except.pure, decide_eq_true_eq]
  rfl

theorem ortho2cartArr_eq_map (rows : List (ℝ × ℝ)) (r : ℝ) (fill : Option ℝ) :
    ortho2cartArr (rows.map Prod.fst) (rows.map Prod.snd) r fill
      = .ok (rows.map fun q => ortho2cart q.1 q.2 r fill) := by
  unfold ortho2cartArr
  simp only [vzip_map_same, List.length_map, replicate_length_map, whereIdx_map, bind, Except.bind,
    gather_whereIdx, gather_self, zipWith_map_same, zipWith_same_map, zip_map_same,
    scatter_whereIdx, List.map_map, Function.comp_def, pure, Except.pure, decide_eq_true_eq]
  rfl

end Magpie.Coords
