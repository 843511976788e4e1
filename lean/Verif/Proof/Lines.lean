import Verif.Props.PointOfView
import Verif.Spec.Lines
import Mathlib.Topology.Algebra.Order.Field
import Mathlib.Topology.Instances.Real.Lemmas

/-!
# The perspective view of lines
-/

set_option linter.unusedSimpArgs false
set_option linter.unusedVariables false

namespace Magpie.Lines
open Magpie Magpie.Pov Magpie.Coords Magpie.Spec Magpie.Props Matrix Real Filter Topology

/-- What `transform` shows, with the depth `n` and the offsets `h`, `v` in the view. -/
structure Shows (camera point : ℝ × ℝ × ℝ) (display : ℝ) (n h v : Fin 3 → ℝ)
    (out : ℝ × ℝ × ℝ → Option (ℝ × ℝ) × ℝ) : Prop where
  front : ∃ t : ℝ, 0 < t ∧ rel camera point = t • n
  /-- `n`, `h`, `v` are orthonormal: lengths are the sums of squares of the components. -/
  norm : ∀ q, rel camera q ⬝ᵥ rel camera q
    = (rel camera q ⬝ᵥ n)^2 + (rel camera q ⬝ᵥ h)^2 + (rel camera q ⬝ᵥ v)^2
  dist : ∀ q, (out q).2 = √(rel camera q ⬝ᵥ rel camera q)
  plane : ∀ q, rel camera q ⬝ᵥ n = 0 → (out q).1 = none
  view : ∀ q, rel camera q ⬝ᵥ n ≠ 0 → (out q).1
    = some (display/(rel camera q ⬝ᵥ n)*(rel camera q ⬝ᵥ h), display/(rel camera q ⬝ᵥ n)*(rel camera q ⬝ᵥ v))

theorem parseval {n h v : Fin 3 → ℝ} (h1 : n ⬝ᵥ n = 1) (h2 : h ⬝ᵥ h = 1) (h3 : n ⬝ᵥ h = 0) (hv : v = n ⨯₃ h)
    (x : Fin 3 → ℝ) : x ⬝ᵥ x = (x ⬝ᵥ n)^2 + (x ⬝ᵥ h)^2 + (x ⬝ᵥ v)^2 := by
  subst hv
  -- the Gram determinant of `x, n, h`
  have hg : (x ⬝ᵥ (n ⨯₃ h))^2 = (x ⬝ᵥ x)*((n ⬝ᵥ n)*(h ⬝ᵥ h) - (n ⬝ᵥ h)^2) - (x ⬝ᵥ n)*((x ⬝ᵥ n)*(h ⬝ᵥ h)
      - (x ⬝ᵥ h)*(n ⬝ᵥ h)) + (x ⬝ᵥ h)*((x ⬝ᵥ n)*(n ⬝ᵥ h) - (x ⬝ᵥ h)*(n ⬝ᵥ n)) := by
    simp only [dotProduct, Fin.sum_univ_three, cross_apply, cons_val_zero, cons_val_one, cons_val]
    ring
  rw [hg, h1, h2, h3]
  ring

theorem exists_shows (camera point : ℝ × ℝ × ℝ) (hcp : point ≠ camera) (display spin : ℝ)
    (h0 : 0 ≤ spin) (h1 : spin < 2*π) :
    ∃ n h v out, Shows camera point display n h v out ∧
      ∀ (rows : List (ℝ × ℝ × ℝ)) (s : State), rows ≠ [] → ∃ s',
        (setup camera point display spin >>= fun _ =>
          transform (rows.map fun q => q.1) (rows.map fun q => q.2.1) (rows.map fun q => q.2.2)) s
          = (.ok (rows.map out), s') := by
  obtain ⟨n, h, v, hf, ht⟩ := C85_projection camera point hcp display spin h0 h1
  obtain ⟨-, out, -, ho⟩ := ht [(0, 0, 0)] init (by simp)
  have hcs := sin_sq_add_cos_sq spin
  refine ⟨n, cos spin • h - sin spin • v, sin spin • h + cos spin • v, out, ⟨hf.view, ?_, ?_, ?_, ?_⟩, ?_⟩
  · intro q
    rw [parseval hf.nn hf.hh hf.nh hf.hand]
    simp only [dotProduct_sub, dotProduct_add, dotProduct_smul, smul_eq_mul]
    linear_combination (-((rel camera q ⬝ᵥ h)^2) - (rel camera q ⬝ᵥ v)^2)*hcs
  · exact fun q => (ho q).1
  · exact fun q => (ho q).2.1
  · intro q hq
    rw [(ho q).2.2 hq]
    simp only [dotProduct_sub, dotProduct_add, dotProduct_smul, smul_eq_mul]
  · intro rows s hne
    obtain ⟨s', out', e, ho'⟩ := ht rows s hne
    refine ⟨s', ?_⟩
    rw [e]
    congr 2
    apply List.map_congr_left
    intro q _
    refine Prod.ext ?_ ((ho' q).1.trans (ho q).1.symm)
    by_cases hz : rel camera q ⬝ᵥ n = 0
    · rw [(ho' q).2.1 hz, (ho q).2.1 hz]
    · rw [(ho' q).2.2 hz, (ho q).2.2 hz]

theorem rel_onLine (c p q : ℝ × ℝ × ℝ) (t : ℝ) (x : Fin 3 → ℝ) :
    rel c (onLine p q t) ⬝ᵥ x = (1-t)*(rel c p ⬝ᵥ x) + t*(rel c q ⬝ᵥ x) := by
  simp [rel, onLine, dotProduct, Fin.sum_univ_three]
  ring

theorem rel_steps (c p w : ℝ × ℝ × ℝ) (t : ℝ) (x : Fin 3 → ℝ) :
    rel c (steps p w t) ⬝ᵥ x = rel c p ⬝ᵥ x + t*(rel (0, 0, 0) w ⬝ᵥ x) := by
  simp [rel, steps, dotProduct, Fin.sum_univ_three]
  ring

theorem rel_from (c w : ℝ × ℝ × ℝ) (t : ℝ) (x : Fin 3 → ℝ) :
    rel c (steps c w t) ⬝ᵥ x = t*(rel (0, 0, 0) w ⬝ᵥ x) := by
  simp [rel, steps, dotProduct, Fin.sum_univ_three]
  ring

section
variable {camera point : ℝ × ℝ × ℝ} {display : ℝ} {n h v : Fin 3 → ℝ} {out : ℝ × ℝ × ℝ → Option (ℝ × ℝ) × ℝ}
  (hS : Shows camera point display n h v out)
include hS

theorem depth_pos {q : ℝ × ℝ × ℝ} : InFront camera point q ↔ 0 < rel camera q ⬝ᵥ n := by
  obtain ⟨t, ht, e⟩ := hS.front
  unfold InFront
  rw [e, dotProduct_smul, smul_eq_mul]
  exact ⟨fun h => (pos_iff_pos_of_mul_pos h).mp ht, fun h => mul_pos ht h⟩

/-- A vector is given by its components. -/
theorem ext_of {q q' : ℝ × ℝ × ℝ} {t : ℝ} (h1 : rel camera q' ⬝ᵥ n = t*(rel camera q ⬝ᵥ n))
    (h2 : rel camera q' ⬝ᵥ h = t*(rel camera q ⬝ᵥ h)) (h3 : rel camera q' ⬝ᵥ v = t*(rel camera q ⬝ᵥ v)) :
    rel camera q' = t • rel camera q := by
  -- the point `camera + (q' - camera) - t (q - camera)`
  have hx : ∀ x, rel camera (camera.1 + (q'.1 - camera.1) - t*(q.1 - camera.1),
      camera.2.1 + (q'.2.1 - camera.2.1) - t*(q.2.1 - camera.2.1),
      camera.2.2 + (q'.2.2 - camera.2.2) - t*(q.2.2 - camera.2.2)) ⬝ᵥ x
      = rel camera q' ⬝ᵥ x - t*(rel camera q ⬝ᵥ x) := by
    intro x
    simp [rel, dotProduct, Fin.sum_univ_three]
    ring
  have hn := hS.norm (camera.1 + (q'.1 - camera.1) - t*(q.1 - camera.1),
      camera.2.1 + (q'.2.1 - camera.2.1) - t*(q.2.1 - camera.2.1),
      camera.2.2 + (q'.2.2 - camera.2.2) - t*(q.2.2 - camera.2.2))
  rw [hx n, hx h, hx v, h1, h2, h3] at hn
  simp only [sub_self, ne_eq, OfNat.ofNat_ne_zero, not_false_eq_true, zero_pow, add_zero] at hn
  have hz : ∀ i, rel camera (camera.1 + (q'.1 - camera.1) - t*(q.1 - camera.1),
      camera.2.1 + (q'.2.1 - camera.2.1) - t*(q.2.1 - camera.2.1),
      camera.2.2 + (q'.2.2 - camera.2.2) - t*(q.2.2 - camera.2.2)) i = 0 := by
    intro i
    have := (Finset.sum_eq_zero_iff_of_nonneg (fun i _ => mul_self_nonneg _)).mp hn i (Finset.mem_univ i)
    exact mul_self_eq_zero.mp this
  ext i
  have hi := hz i
  fin_cases i <;> simp [rel] at hi ⊢ <;> linarith

theorem seg {p q : ℝ × ℝ × ℝ} (hp : InFront camera point p) (hq : InFront camera point q) {t : ℝ} (ht : 0 ≤ t ∧ t ≤ 1) :
    ∃ b b' u, (out p).1 = some b ∧ (out q).1 = some b' ∧ (out (onLine p q t)).1 = some (onLine2 b b' u) ∧
      (0 ≤ u ∧ u ≤ 1) ∧ (u = 0 ↔ t = 0) ∧ (u = 1 ↔ t = 1) := by
  rw [depth_pos hS] at hp hq
  have hz : 0 < rel camera (onLine p q t) ⬝ᵥ n := by
    rw [rel_onLine]
    rcases eq_or_lt_of_le ht.1 with h0 | h0
    · rw [← h0]; linarith
    · have : 0 ≤ (1-t)*(rel camera p ⬝ᵥ n) := mul_nonneg (by linarith [ht.2]) hp.le
      have := mul_pos h0 hq
      linarith
  refine ⟨_, _, t*(rel camera q ⬝ᵥ n)/(rel camera (onLine p q t) ⬝ᵥ n), hS.view p hp.ne', hS.view q hq.ne', ?_, ?_, ?_, ?_⟩
  · rw [hS.view _ hz.ne']
    have e := rel_onLine camera p q t n
    have e1 := rel_onLine camera p q t h
    have e2 := rel_onLine camera p q t v
    have h1 : 1 - t*(rel camera q ⬝ᵥ n)/(rel camera (onLine p q t) ⬝ᵥ n)
        = (1-t)*(rel camera p ⬝ᵥ n)/(rel camera (onLine p q t) ⬝ᵥ n) := by
      rw [eq_div_iff hz.ne', sub_mul, div_mul_cancel₀ _ hz.ne', e]
      ring
    unfold onLine2
    simp only
    rw [h1, e1, e2]
    congr 2
    · field_simp
    · field_simp
  · constructor
    · exact div_nonneg (mul_nonneg ht.1 hq.le) hz.le
    · rw [div_le_one hz, rel_onLine]
      have : 0 ≤ (1-t)*(rel camera p ⬝ᵥ n) := mul_nonneg (by linarith [ht.2]) hp.le
      linarith
  · rw [div_eq_zero_iff, mul_eq_zero]
    constructor
    · rintro ((h | h) | h)
      · exact h
      · exact absurd h hq.ne'
      · exact absurd h hz.ne'
    · exact fun h => Or.inl (Or.inl h)
  · rw [div_eq_one_iff_eq hz.ne', rel_onLine]
    constructor
    · intro h
      have h1 : (1-t)*(rel camera p ⬝ᵥ n) = 0 := by linarith
      rcases mul_eq_zero.mp h1 with h2 | h2
      · linarith
      · exact absurd h2 hp.ne'
    · rintro rfl
      ring

theorem line {p q : ℝ × ℝ × ℝ} {t : ℝ} {b b' b'' : ℝ × ℝ} (hp : (out p).1 = some b) (hq : (out q).1 = some b')
    (hr : (out (onLine p q t)).1 = some b'') : (b'.1 - b.1)*(b''.2 - b.2) = (b'.2 - b.2)*(b''.1 - b.1) := by
  have nz : ∀ {q b}, (out q).1 = some b → rel camera q ⬝ᵥ n ≠ 0 := by
    intro q b e h0
    rw [hS.plane q h0] at e
    exact absurd e (by simp)
  have z1 := nz hp
  have z2 := nz hq
  have z3 := nz hr
  rw [hS.view p z1, Option.some.injEq] at hp
  rw [hS.view q z2, Option.some.injEq] at hq
  rw [hS.view _ z3, Option.some.injEq] at hr
  subst hp hq hr
  simp only
  have e := rel_onLine camera p q t n
  rw [rel_onLine camera p q t h, rel_onLine camera p q t v]
  field_simp
  rw [e]
  ring

theorem sight (hd : display ≠ 0) {q q' : ℝ × ℝ × ℝ} (hq : InFront camera point q) (hq' : InFront camera point q') :
    (out q).1 = (out q').1 ↔ ∃ t : ℝ, 0 < t ∧ rel camera q' = t • rel camera q := by
  rw [depth_pos hS] at hq hq'
  rw [hS.view q hq.ne', hS.view q' hq'.ne', Option.some.injEq, Prod.mk.injEq]
  constructor
  · rintro ⟨e1, e2⟩
    refine ⟨(rel camera q' ⬝ᵥ n)/(rel camera q ⬝ᵥ n), div_pos hq' hq, ext_of hS ?_ ?_ ?_⟩
    · field_simp
    · field_simp at e1 ⊢
      linarith
    · field_simp at e2 ⊢
      linarith
  · rintro ⟨t, ht, e⟩
    rw [e]
    simp only [smul_dotProduct, smul_eq_mul]
    constructor <;> field_simp

theorem unique (hd : display ≠ 0) {q q' : ℝ × ℝ × ℝ} (hq : InFront camera point q) (hq' : InFront camera point q')
    (e : out q = out q') : q = q' := by
  obtain ⟨t, ht, h⟩ := (sight hS hd hq hq').mp (congrArg Prod.fst e)
  have e2 := congrArg Prod.snd e
  rw [hS.dist, hS.dist, h] at e2
  have hp : 0 < rel camera q ⬝ᵥ rel camera q := by
    rw [hS.norm]
    rw [depth_pos hS] at hq
    positivity
  have e3 : rel camera q ⬝ᵥ rel camera q = (t • rel camera q) ⬝ᵥ (t • rel camera q) :=
    (sqrt_inj hp.le (by rw [smul_dotProduct, dotProduct_smul, smul_eq_mul, smul_eq_mul]; positivity)).mp e2
  rw [smul_dotProduct, dotProduct_smul, smul_eq_mul, smul_eq_mul, ← mul_assoc] at e3
  have e4 : t*t = 1 := by
    have := mul_right_cancel₀ hp.ne' ((one_mul _).trans e3)
    linarith
  have e5 : t = 1 := by nlinarith
  rw [e5, one_smul] at h
  have h1 := congrFun h 0
  have h2 := congrFun h 1
  have h3 := congrFun h 2
  simp [rel] at h1 h2 h3
  exact Prod.ext h1.symm (Prod.ext h2.symm h3.symm)

theorem mirror (q : ℝ × ℝ × ℝ) : out (onLine camera q (-1)) = out q := by
  have e : ∀ x, rel camera (onLine camera q (-1)) ⬝ᵥ x = -(rel camera q ⬝ᵥ x) := by
    intro x
    simp [rel, onLine, dotProduct, Fin.sum_univ_three]
    ring
  refine Prod.ext ?_ ?_
  · by_cases hz : rel camera q ⬝ᵥ n = 0
    · rw [hS.plane q hz, hS.plane _ (by rw [e, hz, neg_zero])]
    · rw [hS.view q hz, hS.view _ (by rw [e]; exact neg_ne_zero.mpr hz), e, e, e]
      congr 2
      · field_simp
      · field_simp
  · rw [hS.dist, hS.dist, hS.norm, hS.norm, e, e, e]
    congr 1
    ring


omit hS in
theorem ratio_tendsto (a b z w : ℝ) (hw : 0 < w) :
    Tendsto (fun t : ℝ => (a + t*b)/(z + t*w)) atTop (𝓝 (b/w)) := by
  have h1 : Tendsto (fun t : ℝ => (a*t⁻¹ + b)/(z*t⁻¹ + w)) atTop (𝓝 ((a*0 + b)/(z*0 + w))) :=
    ((tendsto_const_nhds.mul tendsto_inv_atTop_zero).add tendsto_const_nhds).div
      ((tendsto_const_nhds.mul tendsto_inv_atTop_zero).add tendsto_const_nhds) (by simpa using hw.ne')
  rw [mul_zero, mul_zero, zero_add, zero_add] at h1
  refine h1.congr' ?_
  filter_upwards [eventually_gt_atTop 0] with t ht
  have e1 : a + t*b = t*(a*t⁻¹ + b) := by field_simp
  have e2 : z + t*w = t*(z*t⁻¹ + w) := by field_simp
  rw [e1, e2, mul_div_mul_left _ _ ht.ne']

theorem vanish (p : ℝ × ℝ × ℝ) {w : ℝ × ℝ × ℝ} (hw : InFront camera point (steps camera w 1)) :
    ∃ (b₁ : ℝ × ℝ) (b : ℝ → ℝ × ℝ), (out (steps camera w 1)).1 = some b₁ ∧
      (∀ᶠ t in atTop, InFront camera point (steps p w t) ∧ (out (steps p w t)).1 = some (b t)) ∧
      Tendsto b atTop (𝓝 b₁) := by
  rw [depth_pos hS] at hw
  have hw' := hw
  rw [rel_from, one_mul] at hw'
  refine ⟨_, fun t => (display/(rel camera (steps p w t) ⬝ᵥ n)*(rel camera (steps p w t) ⬝ᵥ h),
    display/(rel camera (steps p w t) ⬝ᵥ n)*(rel camera (steps p w t) ⬝ᵥ v)), hS.view _ hw.ne', ?_, ?_⟩
  · filter_upwards [eventually_gt_atTop (-(rel camera p ⬝ᵥ n)/(rel (0, 0, 0) w ⬝ᵥ n))] with t ht
    have : 0 < rel camera (steps p w t) ⬝ᵥ n := by
      rw [rel_steps]
      rw [div_lt_iff₀ hw'] at ht
      linarith
    exact ⟨(depth_pos hS).mpr this, hS.view _ this.ne'⟩
  · simp only [rel_from, rel_steps, one_mul]
    have key : ∀ x : Fin 3 → ℝ, Tendsto (fun t : ℝ => display/(rel camera p ⬝ᵥ n + t*(rel (0, 0, 0) w ⬝ᵥ n))
        *(rel camera p ⬝ᵥ x + t*(rel (0, 0, 0) w ⬝ᵥ x))) atTop
        (𝓝 (display/(rel (0, 0, 0) w ⬝ᵥ n)*(rel (0, 0, 0) w ⬝ᵥ x))) := by
      intro x
      have := (ratio_tendsto (rel camera p ⬝ᵥ x) (rel (0, 0, 0) w ⬝ᵥ x) (rel camera p ⬝ᵥ n) _ hw').const_mul display
      rw [← mul_div_assoc, mul_div_right_comm] at this
      refine this.congr fun t => ?_
      rw [← mul_div_assoc, mul_div_right_comm]
    exact (key h).prodMk_nhds (key v)

end
end Magpie.Lines
