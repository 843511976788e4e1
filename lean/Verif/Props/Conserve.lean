import Verif.Props.OneD
import Verif.Spec.Conserve
import Mathlib.Algebra.Order.Field.Rat
import Mathlib.Tactic.LinearCombination

/-!
# Property C145: rebinning preserves the integral

`integral` is defined in `Verif/Spec/Conserve.lean`: the sum over the bins of value times length.
-/

set_option linter.unusedSimpArgs false
set_option linter.unusedVariables false
set_option linter.unusedSectionVars false

namespace Magpie.Props
open Magpie Magpie.OneD Magpie.Spec Finset

section
variable {K : Type} [Field K] [LinearOrder K] [IsStrictOrderedRing K]

theorem overlap_clip {a b c d : K} (hab : a ≤ b) (hcd : c ≤ d) :
    overlap a b c d = max a (min b d) - max a (min b c) := by
  unfold overlap
  rcases le_total b d with h1 | h1 <;> rcases le_total a c with h2 | h2 <;> rcases le_total b c with h3 | h3 <;>
    rcases le_total a d with h4 | h4 <;>
    simp only [min_eq_left, min_eq_right, max_eq_left, max_eq_right, h1, h2, h3, h4, hab] <;>
    first
      | (rw [max_eq_right (by linarith)] <;> linarith)
      | (rw [max_eq_left (by linarith)]; linarith)

theorem overlap_comm' (a b c d : K) : overlap a b c d = overlap c d a b := by
  unfold overlap
  rw [min_comm, max_comm a c]

/-- The parts of `[a, b]` in consecutive bins add up to its length. -/
theorem sum_overlap {a b : K} (hab : a ≤ b) (q : ℕ → K) (m : ℕ) (hq : ∀ i, i < m → q i ≤ q (i+1)) (h0 : q 0 ≤ a)
    (hm : b ≤ q m) : ∑ i ∈ range m, overlap a b (q i) (q (i+1)) = b - a := by
  have : ∀ i ∈ range m, overlap a b (q i) (q (i+1)) = max a (min b (q (i+1))) - max a (min b (q i)) :=
    fun i hi => overlap_clip hab (hq i (Finset.mem_range.mp hi))
  rw [Finset.sum_congr rfl this, Finset.sum_range_sub (fun i => max a (min b (q i))), min_eq_left hm, max_eq_right hab,
    max_eq_left ((min_le_right _ _).trans h0)]

/-- C145 for bins of equal length: if the new bins divide the range of the data, in at least two bins, no new bin is NaN and
the integral of the result is the integral of the data.

Partial: for bins of different lengths, and for a single new bin, this is false, see `C145_unequal_violated` and
`C145_single_violated`. -/
theorem C145_integral_partial (edges data newEdges : List K) (r : List (Option K)) (hd : data ≠ [])
    (h : rebin1d edges data newEdges none = .ok r) (hu : UniformEdges edges) (hinc : Increasing newEdges)
    (hfirst : newEdges.head? = edges.head?) (hlast : newEdges.getLast? = edges.getLast?) (h3 : 3 ≤ newEdges.length) :
    ∃ v : List K, r = v.map some ∧ integral newEdges v = integral edges data := by
  obtain ⟨hlen, hm, hm', _⟩ := rebin1d_ok h
  obtain ⟨m, hml⟩ : ∃ m, newEdges.length = m + 2 + 1 := ⟨newEdges.length - 3, by omega⟩
  have hn : 0 < data.length := List.length_pos_iff.mpr hd
  have hrl : r.length = m + 2 := by
    obtain ⟨r', h', hl⟩ := C44_accepts_partial edges data newEdges none hlen hd ((isPosMonotonic_iff edges).mp hm)
      ((isPosMonotonic_iff newEdges).mp hm') (by simp)
    rw [h] at h'
    cases h'
    omega
  have he := mono_getD hm
  rw [hlen, Nat.add_sub_cancel] at he
  have hq : ∀ i j, i < j → j ≤ m + 2 → newEdges.getD i 0 < newEdges.getD j 0 := by
    intro i j hij hj
    have := hinc i j (by omega) (by omega) hij
    simpa [show i < newEdges.length by omega, show j < newEdges.length by omega] using this
  have f0 : newEdges.getD 0 0 = edges.getD 0 0 := by
    rw [List.head?_eq_getElem?, List.head?_eq_getElem?] at hfirst
    rw [List.getD_eq_getElem?_getD, List.getD_eq_getElem?_getD, hfirst]
  have f1 : newEdges.getD (m+2) 0 = edges.getD data.length 0 := by
    rw [List.getLast?_eq_getElem?, List.getLast?_eq_getElem?, hml, hlen, Nat.add_sub_cancel, Nat.add_sub_cancel] at hlast
    rw [List.getD_eq_getElem?_getD, List.getD_eq_getElem?_getD, hlast]
  have hq' : ∀ i j, i ≤ j → j ≤ m + 2 → newEdges.getD i 0 ≤ newEdges.getD j 0 := by
    intro i j hij hj
    rcases hij.eq_or_lt with rfl | hij
    · exact le_rfl
    · exact (hq i j hij hj).le
  have hrow : ∀ i, i < m + 2 → ∑ k ∈ range data.length, binOverlap edges (newEdges.getD i 0) (newEdges.getD (i+1) 0) k
      = newEdges.getD (i+1) 0 - newEdges.getD i 0 := by
    intro i hi
    rw [← sum_overlap (hq' i (i+1) (by omega) (by omega)) (fun k => edges.getD k 0) data.length
      (fun k hk => he k (k+1) (by omega) (by omega)) (by rw [← f0]; exact hq' 0 i (by omega) (by omega))
      (by rw [← f1]; exact hq' (i+1) (m+2) (by omega) (by omega))]
    exact Finset.sum_congr rfl fun k _ => overlap_comm' _ _ _ _
  have hcol : ∀ k, k < data.length → ∑ i ∈ range (m+2), binOverlap edges (newEdges.getD i 0) (newEdges.getD (i+1) 0) k
      = edges.getD (k+1) 0 - edges.getD k 0 := by
    intro k hk
    exact sum_overlap (he k (k+1) (by omega) (by omega)) (fun i => newEdges.getD i 0) (m+2)
      (fun i hi => hq' i (i+1) (by omega) (by omega)) (by rw [f0]; exact he 0 k (by omega) (by omega))
      (by rw [f1]; exact he (k+1) data.length (by omega) (by omega))
  have hmemD : ∀ k, k ≤ data.length → edges.getD k 0 ∈ edges := by
    intro k hk
    rw [show edges.getD k 0 = edges[k]'(by omega) by simp [show k < edges.length by omega]]
    exact List.getElem_mem _
  have hget : ∀ i, i < m + 2 → r[i]? = some (some (overlapMean edges data (newEdges.getD i 0) (newEdges.getD (i+1) 0))) := by
    intro i hi
    refine C42_overlapMean_partial edges data newEdges r h hu i _ _
      (by simp [show i < newEdges.length by omega]) (by simp [show i + 1 < newEdges.length by omega]) ?_ ?_
    · rw [hrow i hi]
      exact sub_pos.mpr (hq i (i+1) (by omega) (by omega))
    · rintro ⟨c1, c2⟩
      rcases Nat.eq_zero_or_pos i with rfl | hi0
      · have a := c2 _ (hmemD data.length le_rfl)
        have b := hq (0+1) (m+2) (by omega) le_rfl
        rw [f1] at b
        exact absurd a (not_le.mpr b)
      · have a := c1 _ (hmemD 0 (by omega))
        have b := hq 0 i hi0 (by omega)
        rw [f0] at b
        exact absurd a (not_le.mpr b)
  refine ⟨(List.range (m+2)).map fun i => overlapMean edges data (newEdges.getD i 0) (newEdges.getD (i+1) 0), ?_, ?_⟩
  · apply List.ext_getElem?
    intro i
    rcases Nat.lt_or_ge i (m+2) with hi | hi
    · rw [hget i hi]
      simp [hi]
    · rw [List.getElem?_eq_none (by omega), List.getElem?_eq_none (by simp; omega)]
  · unfold integral
    rw [List.length_map, List.length_range]
    have e1 : ∀ i ∈ range (m+2), ((List.range (m+2)).map fun i =>
        overlapMean edges data (newEdges.getD i 0) (newEdges.getD (i+1) 0)).getD i 0
          *(newEdges.getD (i+1) 0 - newEdges.getD i 0)
        = ∑ k ∈ range data.length, binOverlap edges (newEdges.getD i 0) (newEdges.getD (i+1) 0) k*data.getD k 0 := by
      intro i hi
      rw [Finset.mem_range] at hi
      rw [List.getD_eq_getElem?_getD, List.getElem?_map, List.getElem?_range hi]
      simp only [Option.map_some, Option.getD_some]
      unfold overlapMean
      rw [hrow i hi]
      exact div_mul_cancel₀ _ (sub_pos.mpr (hq i (i+1) (by omega) (by omega))).ne'
    rw [Finset.sum_congr rfl e1, Finset.sum_comm]
    refine Finset.sum_congr rfl fun k hk => ?_
    rw [← Finset.sum_mul, hcol k (Finset.mem_range.mp hk), mul_comm]

/-- Four equal bins merged into three new bins of different lengths. -/
example : rebin1d (K := ℚ) [0, 1, 2, 3, 4] [1, 2, 3, 5] [0, 3/2, 5/2, 4] none = .ok [some (4/3), some (5/2), some (13/3)] ∧
    integral (K := ℚ) [0, 3/2, 5/2, 4] [4/3, 5/2, 13/3] = 11 ∧ integral (K := ℚ) [0, 1, 2, 3, 4] [1, 2, 3, 5] = 11 := by
  refine ⟨by decide +kernel, ?_, ?_⟩ <;> norm_num [integral, Finset.sum_range_succ]

/-- The claim fails for a single new bin that covers the data: the integral is too large or too small unless the last value
is the mean. -/
theorem C145_single_violated (edges data : List K) (hu : UniformEdges edges) (hlen : edges.length = data.length + 1)
    (hn : data ≠ []) (hm : isPosMonotonic edges = true) :
    ∃ x, rebin1d edges data [edges.getD 0 0, edges.getD data.length 0] none = .ok [some x] ∧
      (integral [edges.getD 0 0, edges.getD data.length 0] [x] = integral edges data ↔
        data.getD (data.length - 1) 0 = data.sum/data.length) := by
  have hpos : 0 < data.length := List.length_pos_iff.mpr hn
  have he := mono_getD hm
  rw [hlen, Nat.add_sub_cancel] at he
  have hmem : ∀ x ∈ edges, edges.getD 0 0 ≤ x ∧ x ≤ edges.getD data.length 0 := by
    intro x hx
    obtain ⟨j, hj, rfl⟩ := List.mem_iff_getElem.mp hx
    have ej : edges.getD j 0 = edges[j] := by simp [hj]
    rw [← ej]
    exact ⟨he 0 j (by omega) (by omega), he j data.length (by omega) le_rfl⟩
  refine ⟨_, C42_violated edges data hlen hpos hm _ _ (fun x hx => (hmem x hx).1) (fun x hx => (hmem x hx).2), ?_⟩
  obtain ⟨a, δ, hδ, hk⟩ := hu
  have hg : ∀ k, k ≤ data.length → edges.getD k 0 = a + k*δ := by
    intro k hk'
    rw [← hk k (by omega)]
    simp [show k < edges.length by omega]
  have hsum : data.sum = ∑ k ∈ range data.length, data.getD k 0 := by
    conv_lhs => rw [list_tab data]
    exact sum_range_map _ _
  have hi : integral edges data = δ*data.sum := by
    unfold integral
    rw [hsum, Finset.mul_sum]
    refine Finset.sum_congr rfl fun k hk' => ?_
    rw [Finset.mem_range] at hk'
    rw [hg (k+1) (by omega), hg k (by omega)]
    push_cast
    ring
  rw [hi]
  simp only [integral, List.length_singleton, Finset.sum_range_one, List.getD_cons_zero, List.getD_cons_succ, Nat.zero_add]
  rw [hg data.length le_rfl, hg 0 (by omega)]
  generalize data.getD (data.length - 1) 0 = z
  generalize data.sum = S
  have hN : (0 : K) < data.length := by exact_mod_cast hpos
  have hN1 : (data.length : K) + 1 ≠ 0 := by positivity
  rw [eq_div_iff hN.ne', div_mul_eq_mul_div, div_eq_iff hN1]
  push_cast
  constructor
  · intro heq
    have : δ*(z*data.length) = δ*S := by linear_combination heq
    exact mul_left_cancel₀ hδ.ne' this
  · intro heq
    linear_combination δ*heq

/-- A bin of three with the values 1, 2, 6. -/
example : rebin1d (K := ℚ) [0, 1, 2, 3] [1, 2, 6] [0, 3] none = .ok [some (15/4)] ∧
    integral (K := ℚ) [0, 3] [15/4] = 45/4 ∧ integral (K := ℚ) [0, 1, 2, 3] [1, 2, 6] = 9 := by
  refine ⟨by decide +kernel, ?_, ?_⟩ <;> norm_num [integral, Finset.sum_range_succ]

/-- The claim fails for bins of different lengths: merging the first two of three bins of lengths 1, 3 and 1 counts them
equally. -/
theorem C145_unequal_violated :
    rebin1d (K := ℚ) [0, 1, 4, 5] [8, 0, 0] [0, 4, 5] none = .ok [some 4, some 0] ∧
      integral (K := ℚ) [0, 4, 5] [4, 0] = 16 ∧ integral (K := ℚ) [0, 1, 4, 5] [8, 0, 0] = 8 := by
  refine ⟨by decide +kernel, ?_, ?_⟩ <;> norm_num [integral, Finset.sum_range_succ]

end

end Magpie.Props
