import Verif.Model.Grids
import Verif.Model.Radial
import Verif.Proof.OneD
import Verif.Spec.Grids

set_option linter.unusedSimpArgs false
set_option linter.unusedVariables false
set_option linter.unusedSectionVars false

namespace Magpie.Grids
open Finset

section
variable {K : Type} [Field K] [LinearOrder K] [IsStrictOrderedRing K]

theorem getXedges_length (l : K) (n : ℕ) (m : Option K) : (getXedges l n m).length = n + 1 := by
  simp [getXedges]

theorem getXedges_get (l : K) (n : ℕ) (m : Option K) (k : ℕ) (hk : k ≤ n) :
    (getXedges l n m)[k]? = some (m.getD 0 + k*(l/n)) := by
  unfold getXedges linspace
  rw [List.getElem?_map, List.getElem?_range (by omega)]
  simp

theorem mid_eq (l : K) (n : ℕ) (m : Option K) :
    xedges2mid (getXedges l n m) = (List.range n).map fun (k : ℕ) =>
      m.getD 0 + ((k:K) + 1/2)*(l/n) := by
  unfold xedges2mid
  apply List.ext_getElem?
  intro k
  rcases Nat.lt_or_ge k n with h | h
  · rw [List.getElem?_zipWith, List.getElem?_dropLast, List.getElem?_tail,
      getXedges_length, if_pos (by omega), getXedges_get l n m k (by omega),
      getXedges_get l n m (k+1) (by omega), List.getElem?_map, List.getElem?_range h]
    simp only [Option.map_some, Option.some.injEq]
    push_cast; ring
  · rw [List.getElem?_eq_none, List.getElem?_eq_none]
    · simp; exact h
    · simp [getXedges_length]; exact h

theorem mid_length (l : K) (n : ℕ) (m : Option K) :
    (xedges2mid (getXedges l n m)).length = n := by rw [mid_eq]; simp

theorem mid_get (l : K) (n : ℕ) (m : Option K) (k : ℕ) (hk : k < n) :
    (xedges2mid (getXedges l n m))[k]? = some (m.getD 0 + ((k:K) + 1/2)*(l/n)) := by
  rw [mid_eq, List.getElem?_map, List.getElem?_range hk]; rfl

end

/-! ## Ragged concatenation -/

theorem length_ragged {α : Type} (v : ℕ → List α) (n : ℕ) :
    ((List.range n).map v).flatten.length = ∑ i ∈ range n, (v i).length := by
  induction n with
  | zero => simp
  | succ n ih => rw [List.range_succ, List.map_append, List.flatten_append, List.length_append, ih,
      sum_range_succ]; simp

theorem getElem?_ragged {α : Type} (v : ℕ → List α) (n i j : ℕ) (hi : i < n) (hj : j < (v i).length) :
    ((List.range n).map v).flatten[(∑ k ∈ range i, (v k).length) + j]? = (v i)[j]? := by
  induction n with
  | zero => omega
  | succ n ih =>
    rw [List.range_succ, List.map_append, List.flatten_append]
    by_cases c : i < n
    · rw [List.getElem?_append_left, ih c]
      rw [length_ragged]
      have h1 : ∑ k ∈ range (i+1), (v k).length ≤ ∑ k ∈ range n, (v k).length :=
        Finset.sum_le_sum_of_subset (by
          intro k hk; simp only [Finset.mem_range] at hk ⊢; omega)
      rw [sum_range_succ] at h1
      omega
    · have : i = n := by omega
      subst this
      rw [List.getElem?_append_right (by rw [length_ragged]; omega), length_ragged]
      simp

theorem sum_odd (b n : ℕ) : ∑ i ∈ range n, b*(2*i+1) = b*n^2 := by
  induction n with
  | zero => simp
  | succ n ih => rw [sum_range_succ, ih]; ring

end Magpie.Grids

namespace Magpie.Radial
open Finset Magpie.OneD

section
variable {K : Type} [Field K] [LinearOrder K] [IsStrictOrderedRing K]

theorem npSum_range (n : ℕ) (g : ℕ → K) :
    npSum ((List.range n).map fun i => some (g i)) = some (∑ i ∈ range n, g i) := by
  have : (List.range n).map (fun i => some (g i)) = ((List.range n).map g).map some := by
    rw [List.map_map]; rfl
  rw [this, npSum_some, sum_range_map]

theorem npSum_range_congr (n : ℕ) (o : ℕ → Option K) (g : ℕ → K)
    (h : ∀ i, i < n → o i = some (g i)) :
    npSum ((List.range n).map o) = some (∑ i ∈ range n, g i) := by
  rw [← npSum_range]
  congr 1
  apply List.map_congr_left
  intro i hi
  exact h i (List.mem_range.mp hi)

theorem cumsum_length (acc : K) (l : List K) : (cumsum acc l).length = l.length := by
  induction l generalizing acc with
  | nil => rfl
  | cons x l ih => simp [cumsum, ih]

theorem cumsum_get (acc : K) (l : List K) (k : ℕ) (hk : k < l.length) :
    (cumsum acc l)[k]? = some (acc + ∑ i ∈ range (k+1), l.getD i 0) := by
  induction l generalizing acc k with
  | nil => simp at hk
  | cons x l ih =>
    cases k with
    | zero => simp [cumsum]
    | succ k =>
      simp only [cumsum, List.getElem?_cons_succ]
      rw [ih (acc + x) k (by simpa using hk), sum_range_succ' _ (k+1)]
      simp only [List.getD_cons_succ, List.getD_cons_zero]
      congr 1; ring

end
end Magpie.Radial
