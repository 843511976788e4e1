import Verif.Spec.Spline
import Mathlib.LinearAlgebra.FiniteDimensional.Basic
import Mathlib.LinearAlgebra.FiniteDimensional.Lemmas
import Mathlib.Algebra.Polynomial.Degree.Lemmas
import Mathlib.Tactic.LinearCombination
import Mathlib.Tactic.FieldSimp
import Mathlib.Tactic.Linarith
import Mathlib.Tactic.ComputeDegree
import Mathlib.Algebra.Polynomial.Roots
import Mathlib.Analysis.Normed.Field.Lemmas
import Mathlib.Data.Real.Archimedean
import Mathlib.Topology.Instances.Real.Lemmas

/-!
# Existence and uniqueness of the cubic spline
-/

set_option linter.unusedSimpArgs false
set_option linter.unusedVariables false

namespace Magpie.Spline
open Magpie.Spec Polynomial

/-- The equations for the second derivatives `m` at the `n` points. -/
noncomputable def eqs (n : ℕ) (h : ℕ → ℝ) (m : ℕ → ℝ) (i : ℕ) : ℝ :=
  if i = 0 then (m 1 - m 0)*h 1 - (m 2 - m 1)*h 0
  else if i + 1 = n then (m (n-1) - m (n-2))*h (n-3) - (m (n-2) - m (n-3))*h (n-2)
  else h (i-1)*m (i-1) + 2*(h (i-1) + h i)*m i + h i*m (i+1)

/-- The homogeneous equations have only the solution zero. -/
theorem eqs_zero {n : ℕ} (hn : 4 ≤ n) {h m : ℕ → ℝ} (hh : ∀ i, i + 1 < n → 0 < h i) (he : ∀ i < n, eqs n h m i = 0) :
    ∀ i < n, m i = 0 := by
  obtain ⟨k, hk, hmax⟩ := Finset.exists_max_image (Finset.Ico 1 (n-1)) (fun i => |m i|) ⟨1, by simp; omega⟩
  rw [Finset.mem_Ico] at hk
  have hmax' : ∀ i, 1 ≤ i → i + 1 < n → |m i| ≤ |m k| := fun i h1 h2 => hmax i (by rw [Finset.mem_Ico]; omega)
  have e0 : (m 1 - m 0)*h 1 = (m 2 - m 1)*h 0 := by
    have := he 0 (by omega)
    unfold eqs at this
    rw [if_pos rfl] at this
    linarith
  have eN : (m (n-1) - m (n-2))*h (n-3) = (m (n-2) - m (n-3))*h (n-2) := by
    have := he (n-1) (by omega)
    unfold eqs at this
    rw [if_neg (by omega), if_pos (by omega)] at this
    linarith
  have ei : ∀ i, 1 ≤ i → i + 1 < n → h (i-1)*m (i-1) + 2*(h (i-1) + h i)*m i + h i*m (i+1) = 0 := by
    intro i h1 h2
    have := he i (by omega)
    unfold eqs at this
    rwa [if_neg (by omega), if_neg (by omega)] at this
  have key : m k = 0 := by
    by_contra hne
    have hpos : 0 < |m k| := abs_pos.mpr hne
    have ek := ei k hk.1 (by omega)
    by_cases k1 : k = 1
    · subst k1
      have p0 := hh 0 (by omega)
      have p1 := hh 1 (by omega)
      have h2 := hmax' 2 (by omega) (by omega)
      simp only [Nat.sub_self] at ek
      have : (h 0 + h 1)*((h 0 + 2*h 1)*m 1 + (h 1 - h 0)*m 2) = 0 := by
        linear_combination h 1*ek + h 0*e0
      have hs : (h 0 + 2*h 1)*m 1 = (h 0 - h 1)*m 2 := by
        have := (mul_eq_zero.mp this).resolve_left (by positivity)
        linarith
      have ha := congrArg abs hs
      rw [abs_mul, abs_mul, abs_of_pos (by positivity : 0 < h 0 + 2*h 1)] at ha
      have hb : |h 0 - h 1| ≤ h 0 + h 1 := by rw [abs_le]; constructor <;> linarith
      have hc : |h 0 - h 1| * |m 2| ≤ (h 0 + h 1)*|m 1| := mul_le_mul hb h2 (abs_nonneg _) (by positivity)
      nlinarith
    by_cases k2 : k = n - 2
    · subst k2
      have p0 := hh (n-3) (by omega)
      have p1 := hh (n-2) (by omega)
      have h2 := hmax' (n-3) (by omega) (by omega)
      rw [show n - 2 - 1 = n - 3 by omega, show n - 2 + 1 = n - 1 by omega] at ek
      have : (h (n-3) + h (n-2))*((h (n-2) + 2*h (n-3))*m (n-2) + (h (n-3) - h (n-2))*m (n-3)) = 0 := by
        linear_combination h (n-3)*ek - h (n-2)*eN
      have hs : (h (n-2) + 2*h (n-3))*m (n-2) = (h (n-2) - h (n-3))*m (n-3) := by
        have := (mul_eq_zero.mp this).resolve_left (by positivity)
        linarith
      have ha := congrArg abs hs
      rw [abs_mul, abs_mul, abs_of_pos (by positivity : 0 < h (n-2) + 2*h (n-3))] at ha
      have hb : |h (n-2) - h (n-3)| ≤ h (n-2) + h (n-3) := by rw [abs_le]; constructor <;> linarith
      have hc : |h (n-2) - h (n-3)| * |m (n-3)| ≤ (h (n-2) + h (n-3))*|m (n-2)| :=
        mul_le_mul hb h2 (abs_nonneg _) (by positivity)
      nlinarith
    · have p0 := hh (k-1) (by omega)
      have p1 := hh k (by omega)
      have a1 := hmax' (k-1) (by omega) (by omega)
      have a2 := hmax' (k+1) (by omega) (by omega)
      have hs : 2*(h (k-1) + h k)*m k = -(h (k-1)*m (k-1) + h k*m (k+1)) := by linarith
      have ha := congrArg abs hs
      rw [abs_mul, abs_neg, abs_of_pos (by positivity : 0 < 2*(h (k-1) + h k))] at ha
      have hb : |h (k-1)*m (k-1) + h k*m (k+1)| ≤ h (k-1)*|m (k-1)| + h k*|m (k+1)| := by
        refine (abs_add_le _ _).trans ?_
        rw [abs_mul, abs_mul, abs_of_pos p0, abs_of_pos p1]
      nlinarith
  have hin : ∀ i, 1 ≤ i → i + 1 < n → m i = 0 := by
    intro i h1 h2
    have := hmax' i h1 h2
    rw [key, abs_zero] at this
    exact abs_nonpos_iff.mp this
  intro i hi
  by_cases i0 : i = 0
  · subst i0
    rw [hin 1 (by omega) (by omega), hin 2 (by omega) (by omega)] at e0
    have := hh 1 (by omega)
    nlinarith
  by_cases iN : i = n - 1
  · subst iN
    rw [hin (n-2) (by omega) (by omega), hin (n-3) (by omega) (by omega)] at eN
    have := hh (n-3) (by omega)
    nlinarith
  exact hin i (by omega) (by omega)

/-- The equations have a solution for every right-hand side. -/
theorem eqs_solve {n : ℕ} (hn : 4 ≤ n) {h : ℕ → ℝ} (hh : ∀ i, i + 1 < n → 0 < h i) (b : ℕ → ℝ) :
    ∃ m : ℕ → ℝ, ∀ i < n, eqs n h m i = b i := by
  classical
  let ext : (Fin n → ℝ) → ℕ → ℝ := fun v i => if hi : i < n then v ⟨i, hi⟩ else 0
  have ext_add : ∀ v w i, ext (v + w) i = ext v i + ext w i := by
    intro v w i; simp only [ext]; split_ifs <;> simp
  have ext_smul : ∀ (c : ℝ) v i, ext (c • v) i = c*ext v i := by
    intro c v i; simp only [ext]; split_ifs <;> simp
  let L : (Fin n → ℝ) →ₗ[ℝ] (Fin n → ℝ) :=
    { toFun := fun v i => eqs n h (ext v) i
      map_add' := by
        intro v w
        funext i
        simp only [eqs, ext_add, Pi.add_apply]
        split_ifs <;> ring
      map_smul' := by
        intro c v
        funext i
        simp only [eqs, ext_smul, Pi.smul_apply, RingHom.id_apply, smul_eq_mul]
        split_ifs <;> ring }
  have hinj : Function.Injective L := by
    rw [← LinearMap.ker_eq_bot, LinearMap.ker_eq_bot']
    intro v hv
    have := eqs_zero hn hh (m := ext v) (fun i hi => congrFun hv ⟨i, hi⟩)
    funext i
    have := this i i.2
    simpa [ext] using this
  obtain ⟨v, hv⟩ := (LinearMap.injective_iff_surjective.mp hinj) (fun i => b i)
  exact ⟨ext v, fun i hi => congrFun hv ⟨i, hi⟩⟩

/-- A polynomial of degree at most three and its derivatives. -/
theorem cubic_eval {p : ℝ[X]} (hp : p.natDegree ≤ 3) : ∃ a b c d : ℝ,
    (∀ u, p.eval u = a + b*u + c*u^2 + d*u^3) ∧ (∀ u, (derivative p).eval u = b + 2*c*u + 3*d*u^2) ∧
    ∀ u, (derivative (derivative p)).eval u = 2*c + 6*d*u := by
  have e : p = C (p.coeff 0) + C (p.coeff 1)*X + C (p.coeff 2)*X^2 + C (p.coeff 3)*X^3 := by
    conv_lhs => rw [p.as_sum_range_C_mul_X_pow' (n := 4) (by omega)]
    simp [Finset.sum_range_succ]
  refine ⟨p.coeff 0, p.coeff 1, p.coeff 2, p.coeff 3, fun u => ?_, fun u => ?_, fun u => ?_⟩
  · conv_lhs => rw [e]
    simp
  · conv_lhs => rw [e]
    simp
    ring
  · conv_lhs => rw [e]
    simp
    ring

/-- A cubic that vanishes at both ends: the first derivatives in terms of the second. -/
theorem cubic_ends {p : ℝ[X]} (hp : p.natDegree ≤ 3) {s t : ℝ} (hst : s < t) (h0 : p.eval s = 0) (h1 : p.eval t = 0) :
    (derivative p).eval s = -(t - s)*(2*(derivative (derivative p)).eval s + (derivative (derivative p)).eval t)/6 ∧
    (derivative p).eval t = (t - s)*((derivative (derivative p)).eval s + 2*(derivative (derivative p)).eval t)/6 := by
  obtain ⟨a, b, c, d, e0, e1, e2⟩ := cubic_eval hp
  rw [e0] at h0 h1
  rw [e1, e1, e2, e2]
  have hb : b = -c*(s + t) - d*(s^2 + s*t + t^2) := by
    have hne : t - s ≠ 0 := by linarith
    apply mul_left_cancel₀ hne
    linear_combination h1 - h0
  subst hb
  constructor <;> ring

/-- A cubic that vanishes at both ends with its second derivatives vanishes between them. -/
theorem cubic_zero {p : ℝ[X]} (hp : p.natDegree ≤ 3) {s t : ℝ} (hst : s < t) (h0 : p.eval s = 0) (h1 : p.eval t = 0)
    (h2 : (derivative (derivative p)).eval s = 0) (h3 : (derivative (derivative p)).eval t = 0) (u : ℝ) :
    p.eval u = 0 := by
  obtain ⟨a, b, c, d, e0, e1, e2⟩ := cubic_eval hp
  rw [e0] at h0 h1
  rw [e2] at h2 h3
  have hne : t - s ≠ 0 := by linarith
  have hd : d = 0 := by
    apply mul_left_cancel₀ (mul_ne_zero (by norm_num : (6:ℝ) ≠ 0) hne)
    linear_combination h3 - h2
  subst hd
  have hc : c = 0 := by linarith
  subst hc
  have hb : b = 0 := by
    apply mul_left_cancel₀ hne
    linear_combination h1 - h0
  subst hb
  rw [e0]
  linarith

/-- The second derivatives of the pieces satisfy the equations. -/
theorem unique_aux {n : ℕ} (hn : 4 ≤ n) {t : ℕ → ℝ} (ht : ∀ i, i + 1 < n → t i < t (i+1)) {P : ℕ → ℝ[X]}
    (hd : ∀ i, (P i).natDegree ≤ 3) (h0 : ∀ i, i + 1 < n → (P i).eval (t i) = 0 ∧ (P i).eval (t (i+1)) = 0)
    (hc : ∀ i, i + 2 < n → (derivative (P i)).eval (t (i+1)) = (derivative (P (i+1))).eval (t (i+1)) ∧
      (derivative (derivative (P i))).eval (t (i+1)) = (derivative (derivative (P (i+1)))).eval (t (i+1)))
    (hf : P 0 = P 1) (hl : P (n-3) = P (n-2)) : ∀ i, i + 1 < n → ∀ u, (P i).eval u = 0 := by
  let m : ℕ → ℝ := fun i => if i + 1 < n then (derivative (derivative (P i))).eval (t i)
    else (derivative (derivative (P (n-2)))).eval (t (n-1))
  have hm0 : ∀ i, i + 1 < n → (derivative (derivative (P i))).eval (t i) = m i := by
    intro i hi; simp only [m]; rw [if_pos hi]
  have hm1 : ∀ i, i + 1 < n → (derivative (derivative (P i))).eval (t (i+1)) = m (i+1) := by
    intro i hi
    simp only [m]
    by_cases h2 : i + 1 + 1 < n
    · rw [if_pos h2]
      exact (hc i h2).2
    · rw [if_neg h2, show n - 2 = i by omega, show n - 1 = i + 1 by omega]
  have hz := eqs_zero hn (h := fun i => t (i+1) - t i) (m := m) (fun i hi => sub_pos.mpr (ht i hi)) (by
    intro i hi
    unfold eqs
    by_cases i0 : i = 0
    · rw [if_pos i0]
      obtain ⟨a, b, c, d, e0, e1, e2⟩ := cubic_eval (hd 0)
      have a0 := hm0 0 (by omega)
      have a1 := hm1 0 (by omega)
      have a2 := hm1 1 (by omega)
      rw [← hf] at a2
      rw [e2] at a0 a1 a2
      simp only [zero_add, show 1 + 1 = 2 from rfl] at a1 a2 ⊢
      rw [← a0, ← a1, ← a2]
      ring
    · rw [if_neg i0]
      by_cases iN : i + 1 = n
      · rw [if_pos iN]
        obtain ⟨a, b, c, d, e0, e1, e2⟩ := cubic_eval (hd (n-2))
        have a0 := hm0 (n-3) (by omega)
        have a1 := hm0 (n-2) (by omega)
        have a2 := hm1 (n-2) (by omega)
        rw [hl] at a0
        rw [e2] at a0 a1 a2
        rw [show n - 2 + 1 = n - 1 by omega] at a2
        beta_reduce
        rw [show n - 3 + 1 = n - 2 by omega, show n - 2 + 1 = n - 1 by omega]
        rw [← a0, ← a1, ← a2]
        ring
      · rw [if_neg iN]
        obtain ⟨j, rfl⟩ : ∃ j, i = j + 1 := ⟨i - 1, by omega⟩
        rw [Nat.add_sub_cancel]
        obtain ⟨-, b1⟩ := cubic_ends (hd j) (ht j (by omega)) (h0 j (by omega)).1 (h0 j (by omega)).2
        obtain ⟨b2, -⟩ := cubic_ends (hd (j+1)) (ht (j+1) (by omega)) (h0 (j+1) (by omega)).1 (h0 (j+1) (by omega)).2
        rw [hm0 j (by omega), hm1 j (by omega)] at b1
        rw [hm0 (j+1) (by omega), hm1 (j+1) (by omega)] at b2
        have := (hc j (by omega)).1
        rw [b1, b2] at this
        linarith)
  intro i hi u
  refine cubic_zero (hd i) (ht i hi) (h0 i hi).1 (h0 i hi).2 ?_ ?_ u
  · rw [hm0 i hi]; exact hz i (by omega)
  · rw [hm1 i hi]; exact hz (i+1) (by omega)

theorem exists_piece {n : ℕ} {t : ℕ → ℝ} (hn : 2 ≤ n) {u : ℝ} (h0 : t 0 ≤ u) (h1 : u ≤ t (n-1)) :
    ∃ i, i + 1 < n ∧ t i ≤ u ∧ u ≤ t (i+1) := by
  by_contra hno
  push Not at hno
  have : ∀ i, i < n → t i ≤ u := by
    intro i
    induction i with
    | zero => exact fun _ => h0
    | succ i ih => exact fun hi => (hno i hi (ih (by omega))).le
  have := hno (n-2) (by omega) (this _ (by omega))
  rw [show n - 2 + 1 = n - 1 by omega] at this
  linarith

/-- There is at most one spline. -/
theorem unique {n : ℕ} (hn : 4 ≤ n) {t y : ℕ → ℝ} (ht : ∀ i, i + 1 < n → t i < t (i+1)) {s s' : ℝ → ℝ}
    (h : NotAKnot n t y s) (h' : NotAKnot n t y s') : ∀ u, t 0 ≤ u → u ≤ t (n-1) → s u = s' u := by
  obtain ⟨P, p1, p2, p3, p4, p5, p6⟩ := h
  obtain ⟨Q, q1, q2, q3, q4, q5, q6⟩ := h'
  intro u hu hu'
  obtain ⟨i, hi, hi1, hi2⟩ := exists_piece (by omega) hu hu'
  have := unique_aux hn ht (P := fun i => P i - Q i)
    (fun i => (natDegree_sub_le _ _).trans (max_le (p1 i) (q1 i))) (by
      intro j hj
      have a := ht j hj
      rw [eval_sub, eval_sub, ← p2 j hj _ le_rfl a.le, ← p2 j hj _ a.le le_rfl, ← q2 j hj _ le_rfl a.le,
        ← q2 j hj _ a.le le_rfl, p3 j (by omega), p3 (j+1) hj, q3 j (by omega), q3 (j+1) hj, sub_self, sub_self]
      exact ⟨rfl, rfl⟩) (by
      intro j hj
      simp only [derivative_sub, eval_sub]
      rw [(p4 j hj).1, (p4 j hj).2, (q4 j hj).1, (q4 j hj).2]
      exact ⟨rfl, rfl⟩) (by simp only [p5, q5]) (by simp only [p6, q6]) i hi u
  rw [eval_sub, sub_eq_zero] at this
  rw [p2 i hi u hi1 hi2, q2 i hi u hi1 hi2, this]

/-- The piece between two neighbours. -/
noncomputable def piece (t y m : ℕ → ℝ) (i : ℕ) : ℝ[X] :=
  C (y i) + C ((y (i+1) - y i)/(t (i+1) - t i) - (t (i+1) - t i)*(2*m i + m (i+1))/6)*(X - C (t i))
    + C (m i/2)*(X - C (t i))^2 + C ((m (i+1) - m i)/(6*(t (i+1) - t i)))*(X - C (t i))^3

theorem piece_degree (t y m : ℕ → ℝ) (i : ℕ) : (piece t y m i).natDegree ≤ 3 := by
  unfold piece
  compute_degree

theorem piece_eval (t y m : ℕ → ℝ) (i : ℕ) (u : ℝ) : (piece t y m i).eval u
    = y i + ((y (i+1) - y i)/(t (i+1) - t i) - (t (i+1) - t i)*(2*m i + m (i+1))/6)*(u - t i)
      + m i/2*(u - t i)^2 + (m (i+1) - m i)/(6*(t (i+1) - t i))*(u - t i)^3 := by
  unfold piece
  simp

theorem piece_d1 (t y m : ℕ → ℝ) (i : ℕ) (u : ℝ) : (derivative (piece t y m i)).eval u
    = ((y (i+1) - y i)/(t (i+1) - t i) - (t (i+1) - t i)*(2*m i + m (i+1))/6)
      + m i*(u - t i) + (m (i+1) - m i)/(6*(t (i+1) - t i))*(3*(u - t i)^2) := by
  unfold piece
  generalize (m (i+1) - m i)/(6*(t (i+1) - t i)) = e
  simp [derivative_pow]
  ring

theorem piece_d2 (t y m : ℕ → ℝ) (i : ℕ) (u : ℝ) : (derivative (derivative (piece t y m i))).eval u
    = m i + (m (i+1) - m i)/(6*(t (i+1) - t i))*(6*(u - t i)) := by
  unfold piece
  generalize (m (i+1) - m i)/(6*(t (i+1) - t i)) = e
  simp only [derivative_pow, derivative_add, derivative_mul, derivative_C, derivative_sub, derivative_X, eval_add,
    eval_mul, eval_C, eval_sub, eval_X, eval_pow, zero_mul, zero_add, sub_zero, mul_one, Nat.cast_ofNat, eval_zero,
    Nat.add_one_sub_one, eval_ofNat, eval_one, Nat.reduceSub, pow_one, derivative_one, map_ofNat, derivative_ofNat,
    derivative_natCast]
  ring

/-- Two cubics that agree in value and the first three derivatives at a point. -/
theorem cubic_ext {p q : ℝ[X]} (hp : p.natDegree ≤ 3) (hq : q.natDegree ≤ 3) {s t : ℝ} (hst : s ≠ t)
    (h0 : p.eval s = q.eval s) (h1 : (derivative p).eval s = (derivative q).eval s)
    (h2 : (derivative (derivative p)).eval s = (derivative (derivative q)).eval s)
    (h3 : (derivative (derivative p)).eval t = (derivative (derivative q)).eval t) : p = q := by
  obtain ⟨a, b, c, d, e0, e1, e2⟩ := cubic_eval hp
  obtain ⟨a', b', c', d', f0, f1, f2⟩ := cubic_eval hq
  rw [e0, f0] at h0
  rw [e1, f1] at h1
  rw [e2, f2] at h2 h3
  have hd : d = d' := by
    apply mul_left_cancel₀ (mul_ne_zero (by norm_num : (6:ℝ) ≠ 0) (sub_ne_zero.mpr hst))
    linear_combination h2 - h3
  subst hd
  have hc : c = c' := by linarith
  subst hc
  have hb : b = b' := by linarith
  subst hb
  have ha : a = a' := by linarith
  subst ha
  exact Polynomial.funext fun u => by rw [e0, f0]

/-- There is a spline. -/
theorem exists_spline {n : ℕ} (hn : 4 ≤ n) {t : ℕ → ℝ} (ht : ∀ i, i + 1 < n → t i < t (i+1)) (y : ℕ → ℝ) :
    ∃ s, NotAKnot n t y s := by
  classical
  have hh : ∀ i, i + 1 < n → 0 < t (i+1) - t i := fun i hi => sub_pos.mpr (ht i hi)
  obtain ⟨m, hm⟩ := eqs_solve hn (h := fun i => t (i+1) - t i) hh (fun i => if i = 0 then 0 else if i + 1 = n then 0 else
    6*((y (i+1) - y i)/(t (i+1) - t i) - (y i - y (i-1))/(t i - t (i-1))))
  have hmono : ∀ i j, i < j → j < n → t i < t j := by
    intro i j hij
    induction j, hij using Nat.le_induction with
    | base => exact fun hj => ht i hj
    | succ j hij ih => exact fun hj => (ih (by omega)).trans (ht j hj)
  have hmono' : ∀ i j, i ≤ j → j < n → t i ≤ t j := by
    intro i j hij hj
    rcases hij.eq_or_lt with rfl | h
    · exact le_rfl
    · exact (hmono i j h hj).le
  have ev0 : ∀ i, (piece t y m i).eval (t i) = y i := by intro i; rw [piece_eval]; ring
  have ev1 : ∀ i, i + 1 < n → (piece t y m i).eval (t (i+1)) = y (i+1) := by
    intro i hi
    have := (hh i hi).ne'
    rw [piece_eval]
    field_simp
    ring
  have dd0 : ∀ i, (derivative (derivative (piece t y m i))).eval (t i) = m i := by
    intro i; rw [piece_d2]; ring
  have dd1 : ∀ i, i + 1 < n → (derivative (derivative (piece t y m i))).eval (t (i+1)) = m (i+1) := by
    intro i hi
    have := (hh i hi).ne'
    rw [piece_d2]
    field_simp
    ring
  have d01 : ∀ i, i + 2 < n →
      (derivative (piece t y m i)).eval (t (i+1)) = (derivative (piece t y m (i+1))).eval (t (i+1)) := by
    intro i hi
    have e := hm (i+1) (by omega)
    unfold eqs at e
    rw [if_neg (by omega), if_neg (by omega), if_neg (by omega), if_neg (by omega)] at e
    rw [Nat.add_sub_cancel] at e
    have n1 := (hh i (by omega)).ne'
    rw [piece_d1, piece_d1]
    have e3 : (m (i+1) - m i)/(6*(t (i+1) - t i))*(3*(t (i+1) - t i)^2) = (m (i+1) - m i)*(t (i+1) - t i)/2 := by
      field_simp
      ring
    rw [e3]
    linear_combination e/6
  have first : piece t y m 0 = piece t y m 1 := by
    have e := hm 0 (by omega)
    unfold eqs at e
    rw [if_pos rfl, if_pos rfl] at e
    refine cubic_ext (piece_degree _ _ _ _) (piece_degree _ _ _ _) (s := t 1) (t := t 2) (ht 1 (by omega)).ne ?_ ?_ ?_ ?_
    · rw [ev0]; exact ev1 0 (by omega)
    · exact d01 0 (by omega)
    · rw [dd0]; exact dd1 0 (by omega)
    · have e2 := dd1 1 (by omega)
      rw [show 1 + 1 = 2 from rfl] at e2
      rw [e2, piece_d2]
      have n1 := (hh 0 (by omega)).ne'
      simp only [zero_add, show 1 + 1 = 2 from rfl] at e n1 ⊢
      field_simp
      linear_combination e
  have last : piece t y m (n-3) = piece t y m (n-2) := by
    have e := hm (n-1) (by omega)
    unfold eqs at e
    rw [if_neg (by omega), if_pos (by omega), if_neg (by omega), if_pos (by omega)] at e
    have s1 : n - 3 + 1 = n - 2 := by omega
    have s2 : n - 2 + 1 = n - 1 := by omega
    have e1 := ev1 (n-3) (by omega)
    have e2 := d01 (n-3) (by omega)
    have e3 := dd1 (n-3) (by omega)
    have e4 := dd1 (n-2) (by omega)
    have h1 := hh (n-3) (by omega)
    have h2 := hh (n-2) (by omega)
    beta_reduce at e
    rw [s1] at e1 e2 e3 h1 e
    rw [s2] at e4 h2 e
    refine cubic_ext (piece_degree _ _ _ _) (piece_degree _ _ _ _) (s := t (n-2)) (t := t (n-1)) (by linarith : t (n-2) < t (n-1)).ne ?_ ?_ ?_ ?_
    · rw [ev0, e1]
    · exact e2
    · rw [dd0, e3]
    · rw [e4, piece_d2, s1]
      have := h1.ne'
      field_simp
      linear_combination -e
  refine ⟨fun u => if h : ∃ i, i + 1 < n ∧ t i ≤ u ∧ u ≤ t (i+1) then (piece t y m (Nat.find h)).eval u else 0,
    piece t y m, piece_degree t y m, ?_, ?_, ?_, first, last⟩
  · intro i hi u hu hu'
    have hex : ∃ i, i + 1 < n ∧ t i ≤ u ∧ u ≤ t (i+1) := ⟨i, hi, hu, hu'⟩
    simp only
    rw [dif_pos hex]
    obtain ⟨a1, a2, a3⟩ := Nat.find_spec hex
    have hle : Nat.find hex ≤ i := Nat.find_min' hex ⟨hi, hu, hu'⟩
    rcases hle.eq_or_lt with heq | hlt
    · rw [heq]
    · have b1 := hmono' (Nat.find hex + 1) i hlt (by omega)
      have b2 : u = t i := le_antisymm (a3.trans b1) hu
      have b3 : t (Nat.find hex + 1) = t i := le_antisymm b1 (b2 ▸ a3)
      have b4 : Nat.find hex + 1 = i := by
        by_contra hne
        exact absurd b3 (hmono _ _ (by omega) (by omega)).ne
      have b5 : (piece t y m i).eval u = y i := by rw [b2, ev0]
      have b6 : (piece t y m (Nat.find hex)).eval u = y i := by
        generalize Nat.find hex = k at *
        rw [b2, ← b4]
        exact ev1 _ a1
      rw [b5, b6]
  · intro i hi
    have hex : ∃ j, j + 1 < n ∧ t j ≤ t i ∧ t i ≤ t (j+1) := by
      by_cases h : i + 1 < n
      · exact ⟨i, h, le_rfl, (ht i h).le⟩
      · exact ⟨i - 1, by omega, hmono' _ _ (by omega) hi, by rw [show i - 1 + 1 = i by omega]⟩
    simp only
    rw [dif_pos hex]
    obtain ⟨a1, a2, a3⟩ := Nat.find_spec hex
    have c1 : Nat.find hex ≤ i := by
      by_contra hn
      exact absurd a2 (not_le.mpr (hmono _ _ (by omega) (by omega)))
    have c2 : i ≤ Nat.find hex + 1 := by
      by_contra hn
      exact absurd a3 (not_le.mpr (hmono _ _ (by omega) hi))
    generalize Nat.find hex = k at *
    rcases (show i = k ∨ i = k + 1 by omega) with h | h
    · rw [← h, ev0]
    · have := ev1 _ a1
      rw [← h] at this
      exact this
  · intro i hi
    exact ⟨d01 i hi, by rw [dd1 i (by omega), dd0]⟩

end Magpie.Spline
