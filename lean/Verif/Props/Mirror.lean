import Verif.Props.OneD
import Verif.Spec.Mirror
import Mathlib.Algebra.Order.Field.Rat

/-!
# Property C144: turning the axis around turns the rebinned data around

`mirror` is defined in `Verif/Spec/Mirror.lean`.
-/

set_option linter.unusedSimpArgs false
set_option linter.unusedVariables false
set_option linter.unusedSectionVars false

namespace Magpie.Props
open Magpie Magpie.OneD Magpie.Spec Finset

section
variable {K : Type} [Field K] [LinearOrder K] [IsStrictOrderedRing K]

theorem getD_of_lt (l : List K) (i : ℕ) (h : i < l.length) : l.getD i 0 = l[i] := by simp [h]

theorem mirror_length (l : List K) : (mirror l).length = l.length := by simp [mirror]

theorem mirror_get (l : List K) (i : ℕ) (hi : i < (mirror l).length) :
    (mirror l)[i] = -(l[l.length - 1 - i]'(by rw [mirror_length] at hi; omega)) := by
  simp [mirror, List.getElem_reverse]

theorem mirror_getD (l : List K) (i : ℕ) (hi : i < l.length) :
    (mirror l).getD i 0 = -(l.getD (l.length - 1 - i) 0) := by
  have h1 : i < (mirror l).length := by rw [mirror_length]; exact hi
  rw [getD_of_lt _ _ h1, getD_of_lt _ _ (by omega), mirror_get l i h1]

theorem mirror_mem (l : List K) (x : K) : x ∈ mirror l ↔ -x ∈ l := by
  simp only [mirror, List.mem_reverse, List.mem_map]
  exact ⟨fun ⟨e, he, h⟩ => by rw [← h, neg_neg]; exact he, fun h => ⟨-x, h, neg_neg x⟩⟩

theorem mirror_get? (l : List K) (i : ℕ) (x : K) (h : l[i]? = some x) : (mirror l)[l.length - 1 - i]? = some (-x) := by
  obtain ⟨hi, rfl⟩ := List.getElem?_eq_some_iff.mp h
  rw [List.getElem?_eq_getElem (by rw [mirror_length]; omega), mirror_get]
  simp only [show l.length - 1 - (l.length - 1 - i) = i by omega]

theorem mirror_mono {l : List K} (h : ∀ i j (hi : i < l.length) (hj : j < l.length), i ≤ j → l[i] ≤ l[j]) :
    ∀ i j (hi : i < (mirror l).length) (hj : j < (mirror l).length), i ≤ j → (mirror l)[i] ≤ (mirror l)[j] := by
  intro i j hi hj hij
  rw [mirror_get, mirror_get]
  exact neg_le_neg (h _ _ _ _ (by omega))

theorem mirror_increasing {l : List K} (h : Increasing l) : Increasing (mirror l) := by
  intro i j hi hj hij
  rw [mirror_get, mirror_get]
  rw [mirror_length] at hi hj
  exact neg_lt_neg (h _ _ _ _ (by omega))

theorem mirror_uniform {l : List K} (h : UniformEdges l) : UniformEdges (mirror l) := by
  obtain ⟨a, δ, hδ, hk⟩ := h
  refine ⟨-(a + ((l.length - 1 : ℕ) : K)*δ), δ, hδ, fun k hk' => ?_⟩
  rw [mirror_get, hk]
  rw [mirror_length] at hk'
  have : ((l.length - 1 - k : ℕ) : K) = ((l.length - 1 : ℕ) : K) - k := by
    rw [Nat.cast_sub (by omega)]
  rw [this]
  ring

theorem mirror_overlap (edges : List K) (n : ℕ) (hlen : edges.length = n + 1) (lo hi : K) (k : ℕ) (hk : k < n) :
    binOverlap (mirror edges) (-hi) (-lo) k = binOverlap edges lo hi (n - 1 - k) := by
  unfold binOverlap
  rw [mirror_getD _ _ (by omega), mirror_getD _ _ (by omega), hlen, show n + 1 - 1 - k = n - 1 - k + 1 by omega,
    show n + 1 - 1 - (k + 1) = n - 1 - k by omega]
  unfold overlap
  rw [min_neg_neg, max_neg_neg]
  congr 1
  ring

theorem mirror_mean (edges data : List K) (hlen : edges.length = data.length + 1) (lo hi : K) :
    overlapMean (mirror edges) data.reverse (-hi) (-lo) = overlapMean edges data lo hi := by
  unfold overlapMean
  rw [List.length_reverse]
  congr 1
  · rw [← Finset.sum_range_reflect]
    refine Finset.sum_congr rfl fun k hk => ?_
    rw [Finset.mem_range] at hk
    rw [mirror_overlap edges _ hlen lo hi _ (by omega), show data.length - 1 - (data.length - 1 - k) = k by omega]
    congr 1
    rw [getD_of_lt _ _ (by rw [List.length_reverse]; omega), getD_of_lt _ _ hk, List.getElem_reverse]
    simp only [show data.length - 1 - (data.length - 1 - k) = k by omega]
  · rw [← Finset.sum_range_reflect]
    refine Finset.sum_congr rfl fun k hk => ?_
    rw [Finset.mem_range] at hk
    rw [mirror_overlap edges _ hlen lo hi _ (by omega), show data.length - 1 - (data.length - 1 - k) = k by omega]

/-- The mirror image of accepted input is accepted. -/
theorem mirror_accepts {edges data newEdges : List K} {r : List (Option K)} (hd : data ≠ [])
    (h : rebin1d edges data newEdges none = .ok r) :
    ∃ r', rebin1d (mirror edges) data.reverse (mirror newEdges) none = .ok r' ∧ r'.length = newEdges.length - 1 := by
  obtain ⟨hlen, hm, hm', _⟩ := rebin1d_ok h
  obtain ⟨r', h1, h2⟩ := C44_accepts_partial (mirror edges) data.reverse (mirror newEdges) none
    (by rw [mirror_length, List.length_reverse, hlen]) (by simpa using hd)
    (mirror_mono ((isPosMonotonic_iff edges).mp hm)) (mirror_mono ((isPosMonotonic_iff newEdges).mp hm')) (by simp)
  exact ⟨r', h1, by rw [h2, mirror_length]⟩

/-- C144 for bins of equal length: rebinning the mirror image of the data onto the mirror image of the new bins succeeds and
gives the mirror image of the result, at every new bin that overlaps the data and does not cover all of them.

Partial: for bins of different lengths the statement is false, `C144_unequal_violated`, and for a new bin that covers all data,
`C144_cover_violated`. -/
theorem C144_mirror_partial (edges data newEdges : List K) (r : List (Option K)) (hd : data ≠ [])
    (h : rebin1d edges data newEdges none = .ok r) (hu : UniformEdges edges) :
    ∃ r', rebin1d (mirror edges) data.reverse (mirror newEdges) none = .ok r' ∧ r'.length = newEdges.length - 1 ∧
      ∀ i lo hi, newEdges[i]? = some lo → newEdges[i+1]? = some hi →
        0 < ∑ k ∈ range data.length, binOverlap edges lo hi k →
        ¬ ((∀ e ∈ edges, lo ≤ e) ∧ ∀ e ∈ edges, e ≤ hi) →
        r'[newEdges.length - 2 - i]? = r[i]? ∧ r[i]? ≠ none := by
  obtain ⟨r', h', hl⟩ := mirror_accepts hd h
  obtain ⟨hlen, _⟩ := rebin1d_ok h
  refine ⟨r', h', hl, fun i lo hi hlo hhi hov hcov => ?_⟩
  have hi1 := (List.getElem?_eq_some_iff.mp hhi).1
  have g1 := mirror_get? newEdges (i+1) hi hhi
  have g2 := mirror_get? newEdges i lo hlo
  rw [show newEdges.length - 1 - (i + 1) = newEdges.length - 2 - i by omega] at g1
  rw [show newEdges.length - 1 - i = newEdges.length - 2 - i + 1 by omega] at g2
  rw [C42_overlapMean_partial edges data newEdges r h hu i lo hi hlo hhi hov hcov,
    C42_overlapMean_partial _ _ _ r' h' (mirror_uniform hu) (newEdges.length - 2 - i) (-hi) (-lo) g1 g2 ?_ ?_,
    mirror_mean edges data hlen lo hi]
  · exact ⟨rfl, by simp⟩
  · rw [List.length_reverse, ← Finset.sum_range_reflect]
    refine lt_of_lt_of_eq hov (Finset.sum_congr rfl fun k hk => ?_)
    rw [Finset.mem_range] at hk
    rw [mirror_overlap edges _ hlen lo hi _ (by omega), show data.length - 1 - (data.length - 1 - k) = k by omega]
  · rintro ⟨c1, c2⟩
    apply hcov
    constructor
    · intro e he
      have := c2 (-e) ((mirror_mem _ _).mpr (by rwa [neg_neg]))
      exact neg_le_neg_iff.mp this
    · intro e he
      have := c1 (-e) ((mirror_mem _ _).mpr (by rwa [neg_neg]))
      exact neg_le_neg_iff.mp this

/-- Three equal bins, two new bins. -/
example : rebin1d (K := ℚ) [0, 1, 2, 3] [5, -1, 2] [1/2, 5/4, 9/4] none = .ok [some 3, some (-1/4)] ∧
    rebin1d (K := ℚ) (mirror [0, 1, 2, 3]) [5, -1, 2].reverse (mirror [1/2, 5/4, 9/4]) none
      = .ok [some (-1/4), some 3] := by
  constructor <;> decide +kernel

/-- C144, NaN: for bins of positive length, whatever their lengths, a new bin of positive length is NaN exactly if its mirror
image is. -/
theorem C144_nan (edges data newEdges : List K) (r : List (Option K)) (hd : data ≠ [])
    (h : rebin1d edges data newEdges none = .ok r) (hinc : Increasing edges) :
    ∃ r', rebin1d (mirror edges) data.reverse (mirror newEdges) none = .ok r' ∧
      ∀ i lo hi, newEdges[i]? = some lo → newEdges[i+1]? = some hi → lo < hi →
        (r'[newEdges.length - 2 - i]? = some none ↔ r[i]? = some none) := by
  obtain ⟨r', h', hl⟩ := mirror_accepts hd h
  refine ⟨r', h', fun i lo hi hlo hhi hlt => ?_⟩
  have hi1 := (List.getElem?_eq_some_iff.mp hhi).1
  have g1 := mirror_get? newEdges (i+1) hi hhi
  have g2 := mirror_get? newEdges i lo hlo
  rw [show newEdges.length - 1 - (i + 1) = newEdges.length - 2 - i by omega] at g1
  rw [show newEdges.length - 1 - i = newEdges.length - 2 - i + 1 by omega] at g2
  rw [C43_nan_iff_partial edges data newEdges r h hd hinc i lo hi hlo hhi hlt,
    C43_nan_iff_partial _ _ _ r' h' (by simpa using hd) (mirror_increasing hinc) (newEdges.length - 2 - i) (-hi) (-lo) g1 g2
      (neg_lt_neg hlt)]
  have a : (∀ e ∈ mirror edges, -lo < e) ↔ ∀ e ∈ edges, e < lo :=
    ⟨fun k e he => neg_lt_neg_iff.mp (k (-e) ((mirror_mem _ _).mpr (by rwa [neg_neg]))),
      fun k e he => neg_lt.mp (k (-e) ((mirror_mem _ _).mp he))⟩
  have b : (∀ e ∈ mirror edges, e < -hi) ↔ ∀ e ∈ edges, hi < e :=
    ⟨fun k e he => neg_lt_neg_iff.mp (k (-e) ((mirror_mem _ _).mpr (by rwa [neg_neg]))),
      fun k e he => lt_neg.mp (k (-e) ((mirror_mem _ _).mp he))⟩
  rw [a, b]
  exact or_comm

/-- New bins left of, inside and right of two bins of different length. -/
example : rebin1d (K := ℚ) [0, 1, 3] [5, 2] [-2, -1, 2, 4, 5] none = .ok [none, some (7/2), some 2, none] ∧
    rebin1d (K := ℚ) (mirror [0, 1, 3]) [5, 2].reverse (mirror [-2, -1, 2, 4, 5]) none
      = .ok [none, some 2, some 4, none] := by
  constructor <;> decide +kernel

/-- The claim fails for new bins that cover all data if the first and last values differ: the last value counts twice, in the
mirror image the first. -/
theorem C144_cover_violated (edges data : List K) (hlen : edges.length = data.length + 1) (hn : data ≠ [])
    (hm : isPosMonotonic edges = true) (lo hi : K) (hlo : ∀ e ∈ edges, lo ≤ e) (hhi : ∀ e ∈ edges, e ≤ hi)
    (hne : data.getD 0 0 ≠ data.getD (data.length - 1) 0) :
    ∃ x y, rebin1d edges data [lo, hi] none = .ok [some x] ∧
      rebin1d (mirror edges) data.reverse (mirror [lo, hi]) none = .ok [some y] ∧ x ≠ y := by
  have hpos : 0 < data.length := List.length_pos_iff.mpr hn
  refine ⟨_, _, C42_violated edges data hlen hpos hm lo hi hlo hhi,
    C42_violated (mirror edges) data.reverse (by rw [mirror_length, List.length_reverse, hlen])
      (by rwa [List.length_reverse])
      ((isPosMonotonic_iff _).mpr (mirror_mono ((isPosMonotonic_iff edges).mp hm))) (-hi) (-lo)
      (fun e he => neg_le.mp (hhi _ ((mirror_mem _ _).mp he)))
      (fun e he => le_neg.mp (hlo _ ((mirror_mem _ _).mp he))), ?_⟩
  have e1 : data.reverse.getD (data.reverse.length - 1) 0 = data.getD 0 0 := by
    rw [getD_of_lt _ _ (by rw [List.length_reverse]; omega), getD_of_lt _ _ hpos, List.getElem_reverse]
    simp
  rw [e1, List.sum_reverse, List.length_reverse]
  intro heq
  have hc : ((data.length : K) + 1) ≠ 0 := by positivity
  rw [div_left_inj' hc] at heq
  exact hne (add_right_cancel heq).symm

/-- The claim fails for bins of different lengths: the weight of the last bin that a new bin enters is taken relative to the
length of the bin before it. -/
theorem C144_unequal_violated :
    rebin1d (K := ℚ) [0, 1, 2, 6] [1, 2, 8] [1/2, 4] none = .ok [some (37/7)] ∧
      rebin1d (K := ℚ) (mirror [0, 1, 2, 6]) [1, 2, 8].reverse (mirror [1/2, 4]) none = .ok [some (13/4)] := by
  constructor <;> decide +kernel

end

end Magpie.Props
