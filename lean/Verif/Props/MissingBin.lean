import Verif.Proof.MissingBin
import Mathlib.Algebra.Order.Field.Rat

/-!
# Property C141: which new bins missing data spoil

`Touches` and `Gap` are in `Verif/Spec/MissingBin.lean`, `binOverlap` and `Increasing` in
`Verif/Spec/OneD.lean`.
-/

set_option linter.unusedSimpArgs false
set_option linter.unusedVariables false
set_option linter.unusedSectionVars false

namespace Magpie.Props
open Magpie Magpie.OneD Magpie.Spec

section
variable {K : Type} [Field K] [LinearOrder K] [IsStrictOrderedRing K]

/-- C141: rebinning data with missing values, with or without weights, succeeds whenever it succeeds
for complete data. A new bin becomes NaN if it touches a bin whose value is missing; every other new
bin is what it is if the missing values are replaced by 0 (so the missing values do not matter to
it). Missing from the claim: a bin that is only touched at an edge should not spoil the new bin, see
`C141_left_violated` and `C141_right_violated`. -/
theorem C141_rebin_partial (edges : List K) (data : List (Option K)) (newEdges : List K)
    (w : Option (List K)) (r₀ : List (Option K)) (hd : data ≠ [])
    (h : rebin1d edges (data.map (·.getD 0)) newEdges w = .ok r₀) :
    ∃ r, rebin1dN edges data newEdges w = .ok r ∧ r.length = r₀.length ∧
      ∀ i lo hi, newEdges[i]? = some lo → newEdges[i+1]? = some hi →
        (Gap edges data lo hi → r[i]? = some none) ∧ (¬ Gap edges data lo hi → r[i]? = r₀[i]?) := by
  obtain ⟨r, h1, h2, _, h3⟩ := rebin_opt hd h
  exact ⟨r, h1, h2, h3⟩

/-- Five bins with the third missing: of four new bins the second and third overlap it. -/
example : rebin1dN (K := ℚ) [0, 1, 2, 3, 4, 5] [some 1, some 2, none, some 4, some 5] [0, 3/2, 5/2, 7/2, 5] none
      = .ok [some (4/3), none, none, some (14/3)] ∧
    rebin1d (K := ℚ) [0, 1, 2, 3, 4, 5] ([some 1, some 2, none, some 4, some 5].map (·.getD 0)) [0, 3/2, 5/2, 7/2, 5]
      none = .ok [some (4/3), some 1, some 2, some (14/3)] := by
  constructor <;> decide +kernel

/-- The same with weights. -/
example : rebin1dN (K := ℚ) [0, 1, 2, 3] [some 1, some 2, none] [0, 3/2, 3] (some [1, 2, 3])
    = .ok [some (3/2), none] := by decide +kernel

/-- C141 as claimed, when no edge of the data is an edge of the new bin: the new bin becomes NaN
exactly because of the missing bins that it overlaps over a positive length. -/
theorem C141_overlap_partial (edges : List K) (data : List (Option K)) (newEdges : List K)
    (w : Option (List K)) (r₀ : List (Option K)) (hd : data ≠ [])
    (h : rebin1d edges (data.map (·.getD 0)) newEdges w = .ok r₀) (hinc : Increasing edges) :
    ∃ r, rebin1dN edges data newEdges w = .ok r ∧
      ∀ i lo hi, newEdges[i]? = some lo → newEdges[i+1]? = some hi → lo < hi →
        (∀ e ∈ edges, e ≠ lo ∧ e ≠ hi) →
        ((∃ k, data[k]? = some none ∧ 0 < binOverlap edges lo hi k) → r[i]? = some none) ∧
        ((∀ k, data[k]? = some none → binOverlap edges lo hi k = 0) → r[i]? = r₀[i]?) := by
  obtain ⟨hlen, _⟩ := rebin1d_ok h
  rw [List.length_map] at hlen
  obtain ⟨r, h1, h2, _, h3⟩ := rebin_opt hd h
  refine ⟨r, h1, fun i lo hi hlo hhi hlt hne => ?_⟩
  have key : ∀ k, data[k]? = some none → (Touches edges lo hi k ↔ 0 < binOverlap edges lo hi k) := by
    intro k hk
    have hk' := (List.getElem?_eq_some_iff.mp hk).1
    have a1 : k < edges.length := by omega
    have a2 : k + 1 < edges.length := by omega
    have e1 : edges.getD k 0 = edges[k] := by simp [a1]
    have e2 : edges.getD (k+1) 0 = edges[k+1] := by simp [a2]
    have n1 := hne _ (List.getElem_mem a1)
    have n2 := hne _ (List.getElem_mem a2)
    have n3 := hinc k (k+1) a1 a2 (Nat.lt_succ_self k)
    unfold Touches binOverlap overlap
    rw [e1, e2]
    constructor
    · rintro ⟨t1, t2⟩
      refine lt_max_of_lt_right (sub_pos.mpr ?_)
      exact max_lt (lt_min n3 (lt_of_le_of_ne t1 n1.2)) (lt_min (lt_of_le_of_ne t2 n2.1.symm) hlt)
    · intro t
      have t' := (lt_max_iff.mp t).resolve_left (lt_irrefl _)
      rw [sub_pos, max_lt_iff, lt_min_iff, lt_min_iff] at t'
      exact ⟨t'.1.2.le, t'.2.1.le⟩
  obtain ⟨g1, g2⟩ := h3 i lo hi hlo hhi
  constructor
  · rintro ⟨k, hk, t⟩
    exact g1 ⟨k, hk, (key k hk).mpr t⟩
  · intro t
    refine g2 ?_
    rintro ⟨k, hk, t'⟩
    exact ((key k hk).mp t').ne' (t k hk)

/-- A new bin whose edges are not edges of the data. -/
example : rebin1dN (K := ℚ) [0, 1, 2, 3] [none, some 2, some 3] [3/2, 5/2] none = .ok [some (5/2)] := by
  decide +kernel

/-- The claim fails on the left: if the bin that ends exactly where a new bin begins is missing, the
new bin is NaN, although the two do not overlap. -/
theorem C141_left_violated (edges : List K) (data : List (Option K)) (newEdges : List K)
    (w : Option (List K)) (r₀ : List (Option K))
    (h : rebin1d edges (data.map (·.getD 0)) newEdges w = .ok r₀) (k i : ℕ) (lo hi : K)
    (hk : data[k]? = some none) (hlo : newEdges[i]? = some lo) (hhi : newEdges[i+1]? = some hi)
    (he : edges[k+1]? = some lo) :
    binOverlap edges lo hi k = 0 ∧ ∃ r, rebin1dN edges data newEdges w = .ok r ∧ r[i]? = some none := by
  have hd : data ≠ [] := by rintro rfl; simp at hk
  obtain ⟨hlen, hm, hm', _⟩ := rebin1d_ok h
  rw [List.length_map] at hlen
  have hk' := (List.getElem?_eq_some_iff.mp hk).1
  obtain ⟨r, h1, h2, _, h3⟩ := rebin_opt hd h
  have e2 : edges.getD (k+1) 0 = lo := by simp [he]
  have hle : lo ≤ hi := newBins_mem hm' (List.mem_of_getElem? (newBins_get hlo hhi))
  have hmo : edges.getD k 0 ≤ edges.getD (k+1) 0 := mono_getD hm k (k+1) (Nat.le_succ k) (by omega)
  rw [e2] at hmo
  refine ⟨?_, r, h1, (h3 i lo hi hlo hhi).1 ⟨k, hk, hmo.trans hle, e2.ge⟩⟩
  unfold binOverlap overlap
  rw [e2]
  exact max_eq_left (sub_nonpos.mpr ((min_le_left _ _).trans (le_max_right _ _)))

/-- The claim fails on the right: if the bin that begins exactly where a new bin ends is missing, the
new bin is NaN, although the two do not overlap. -/
theorem C141_right_violated (edges : List K) (data : List (Option K)) (newEdges : List K)
    (w : Option (List K)) (r₀ : List (Option K))
    (h : rebin1d edges (data.map (·.getD 0)) newEdges w = .ok r₀) (k i : ℕ) (lo hi : K)
    (hk : data[k]? = some none) (hlo : newEdges[i]? = some lo) (hhi : newEdges[i+1]? = some hi)
    (he : edges[k]? = some hi) :
    binOverlap edges lo hi k = 0 ∧ ∃ r, rebin1dN edges data newEdges w = .ok r ∧ r[i]? = some none := by
  have hd : data ≠ [] := by rintro rfl; simp at hk
  obtain ⟨hlen, hm, hm', _⟩ := rebin1d_ok h
  rw [List.length_map] at hlen
  have hk' := (List.getElem?_eq_some_iff.mp hk).1
  obtain ⟨r, h1, h2, _, h3⟩ := rebin_opt hd h
  have e2 : edges.getD k 0 = hi := by simp [he]
  have hle : lo ≤ hi := newBins_mem hm' (List.mem_of_getElem? (newBins_get hlo hhi))
  have hmo : edges.getD k 0 ≤ edges.getD (k+1) 0 := mono_getD hm k (k+1) (Nat.le_succ k) (by omega)
  rw [e2] at hmo
  refine ⟨?_, r, h1, (h3 i lo hi hlo hhi).1 ⟨k, hk, e2.le, hle.trans hmo⟩⟩
  unfold binOverlap overlap
  rw [e2]
  exact max_eq_left (sub_nonpos.mpr ((min_le_right _ _).trans (le_max_left _ _)))

/-- Merging bins in pairs: the first new bin `[0, 2]` is spoiled by the missing bin `[2, 3]`. -/
example : rebin1dN (K := ℚ) [0, 1, 2, 3, 4] [some 1, some 2, none, some 4] [0, 2, 4] none = .ok [none, none] ∧
    rebin1d (K := ℚ) [0, 1, 2, 3, 4] ([some 1, some 2, none, some 4].map (·.getD 0)) [0, 2, 4] none
      = .ok [some (3/2), some 2] := by
  constructor <;> decide +kernel

/-- For complete data the two models of `rebin_1d` agree. -/
theorem C141_complete (edges data newEdges : List K) (w : Option (List K)) (r₀ : List (Option K))
    (hd : data ≠ []) (h : rebin1d edges data newEdges w = .ok r₀) :
    rebin1dN edges (data.map some) newEdges w = .ok r₀ := by
  have hmap : (data.map some).map (·.getD 0) = data := by simp [List.map_map, Function.comp_def]
  rw [← hmap] at h
  obtain ⟨r, h1, h2, h4, h3⟩ := rebin_opt (by simpa using hd) h
  rw [h1]
  congr 1
  apply List.ext_getElem?
  intro i
  rcases Nat.lt_or_ge i r₀.length with hi | hi
  · refine (h3 i (newEdges[i]'(by omega)) (newEdges[i+1]'(by omega)) (by simp) (by simp)).2 ?_
    rintro ⟨k, hk, _⟩
    simp at hk
  · rw [List.getElem?_eq_none hi, List.getElem?_eq_none (by omega)]

end

end Magpie.Props
