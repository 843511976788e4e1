import Mathlib.Algebra.BigOperators.Group.List.Basic
import Mathlib.Algebra.BigOperators.Group.Finset.Basic
import Mathlib.Algebra.BigOperators.Intervals
import Mathlib.Tactic.Ring
import Mathlib.Tactic.Linarith

/-!
# Flattened (row-major) arrays
-/

namespace Magpie
open Finset

theorem length_flat {α : Type*} (n m : ℕ) (v : ℕ → List α) (h : ∀ i, (v i).length = m) :
    ((List.range n).flatMap v).length = n*m := by
  induction n with
  | zero => simp
  | succ n ih => rw [List.range_succ, List.flatMap_append, List.length_append, ih]; simp [h]; ring

theorem getElem?_flat {α : Type*} (n m : ℕ) (v : ℕ → List α) (h : ∀ i, (v i).length = m) (i j : ℕ)
    (hi : i < n) (hj : j < m) : ((List.range n).flatMap v)[i*m+j]? = (v i)[j]? := by
  induction n with
  | zero => omega
  | succ n ih =>
    rw [List.range_succ, List.flatMap_append]
    by_cases c : i < n
    · rw [List.getElem?_append_left, ih c]
      rw [length_flat n m v h]
      have : (i+1)*m ≤ n*m := Nat.mul_le_mul_right _ c
      linarith [Nat.succ_mul i m]
    · have : i = n := by omega
      subst this
      rw [List.getElem?_append_right (by rw [length_flat i m v h]; omega), length_flat i m v h]
      simp

theorem sum_flat {α : Type*} [AddCommMonoid α] (n : ℕ) (v : ℕ → List α) :
    ((List.range n).flatMap v).sum = ∑ i ∈ range n, (v i).sum := by
  induction n with
  | zero => simp
  | succ n ih => rw [List.range_succ, List.flatMap_append, List.sum_append, ih, sum_range_succ]; simp

theorem sum_range_map {α : Type*} [AddCommMonoid α] (n : ℕ) (v : ℕ → α) :
    ((List.range n).map v).sum = ∑ i ∈ range n, v i := by
  induction n with
  | zero => simp
  | succ n ih => rw [List.range_succ, List.map_append, List.sum_append, ih, sum_range_succ]; simp

theorem sum_getD {α : Type*} [AddCommMonoid α] (l : List α) :
    l.sum = ∑ i ∈ range l.length, l.getD i 0 := by
  induction l with
  | nil => simp
  | cons a l ih => rw [List.sum_cons, List.length_cons, sum_range_succ', ih, add_comm]; simp

theorem sum_mul_block {α : Type*} [AddCommMonoid α] (n m : ℕ) (v : ℕ → α) :
    ∑ i ∈ range (n*m), v i = ∑ k ∈ range n, ∑ l ∈ range m, v (k*m+l) := by
  induction n with
  | zero => simp
  | succ n ih => rw [Nat.succ_mul, sum_range_add, ih, sum_range_succ]

end Magpie
