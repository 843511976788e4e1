import Mathlib.Algebra.Polynomial.Derivative
import Mathlib.Algebra.Polynomial.Eval.Defs
import Mathlib.Data.Real.Basic

/-!
# Cubic splines

The cubic spline through points, with "not-a-knot" end conditions (de Boor, A Practical Guide to Splines, chapter IV).
-/

namespace Magpie.Spec
open Polynomial

/-- `s` is the cubic spline through the `n` points `(t i, y i)`: it takes the values at the points, is a polynomial of
degree at most three between two neighbours, with first and second derivatives that agree where two pieces meet, and
the first two and the last two pieces are one polynomial ("not a knot"). -/
def NotAKnot (n : ℕ) (t y : ℕ → ℝ) (s : ℝ → ℝ) : Prop :=
  ∃ P : ℕ → ℝ[X], (∀ i, (P i).natDegree ≤ 3) ∧
    (∀ i, i + 1 < n → ∀ u, t i ≤ u → u ≤ t (i+1) → s u = (P i).eval u) ∧
    (∀ i < n, s (t i) = y i) ∧
    (∀ i, i + 2 < n → (derivative (P i)).eval (t (i+1)) = (derivative (P (i+1))).eval (t (i+1)) ∧
      (derivative (derivative (P i))).eval (t (i+1)) = (derivative (derivative (P (i+1)))).eval (t (i+1))) ∧
    P 0 = P 1 ∧ P (n-3) = P (n-2)

end Magpie.Spec
