import Verif.Proof.McBox2RingRun

/-!
# Packing of the index arrays of a table of pixels
-/

namespace Magpie.Mc

/-- The table of numbers. -/
def table (R C : ℕ) (t : ℕ → ℕ → ℕ) : List (List ℕ) := (List.range R).map fun i => (List.range C).map (t i)

theorem table_row {C : ℕ} (hC : 0 < C) (t : ℕ → ℕ) :
    allEq ((List.range C).map t) = false ↔ ∃ j k, j < C ∧ k < C ∧ t j ≠ t k := by
  rw [← Bool.not_eq_true, allEq_range _ _ hC]
  push Not
  constructor
  · rintro ⟨j, hj, h⟩
    exact ⟨j, 0, hj, hC, h⟩
  · rintro ⟨j, k, hj, hk, h⟩
    by_contra hc
    push Not at hc
    exact h ((hc j hj).trans (hc k hk).symm)

theorem table_heads {R C : ℕ} (hC : 0 < C) (t : ℕ → ℕ → ℕ) :
    (table R C t).map (fun row => row.headD 0) = (List.range R).map fun i => t i 0 := by
  unfold table
  rw [List.map_map]
  apply List.map_congr_left
  intro i _
  obtain ⟨m, rfl⟩ : ∃ m, C = m + 1 := ⟨C - 1, by omega⟩
  simp [List.range_succ_eq_map]

theorem pack_table_differ {R C : ℕ} (hC : 0 < C) {t : ℕ → ℕ → ℕ}
    (h : ∀ i, i < R → ∃ j k, j < C ∧ k < C ∧ t i j ≠ t i k) : pack (table R C t) = .ok false := by
  unfold pack
  rw [if_pos]
  unfold table
  simp only [List.all_map, List.all_eq_true, List.mem_range, Function.comp_apply, Bool.not_eq_true']
  exact fun i hi => (table_row hC (t i)).mpr (h i hi)

theorem pack_table_same {R C : ℕ} (hR : 0 < R) (hC : 0 < C) {t : ℕ → ℕ → ℕ} {k : ℕ}
    (h : ∀ i j, i < R → j < C → t i j = k) : pack (table R C t) = .ok true := by
  have hrow : ∀ i, i < R → allEq ((List.range C).map (t i)) = true :=
    fun i hi => (allEq_range _ _ hC).mpr fun j hj => (h i j hi hj).trans (h i 0 hi hC).symm
  unfold pack
  rw [if_neg, if_pos]
  · rw [table_heads hC, Bool.and_eq_true]
    refine ⟨?_, ?_⟩
    · unfold table
      simp only [List.all_map, List.all_eq_true, List.mem_range, Function.comp_apply]
      exact hrow
    · rw [allEq_range _ _ hR]
      exact fun i hi => (h i 0 hi hC).trans (h 0 0 hR hC).symm
  · unfold table
    simp only [List.all_map, List.all_eq_true, List.mem_range, Function.comp_apply, Bool.not_eq_true']
    push Not
    exact ⟨0, hR, by rw [hrow 0 hR]; simp⟩

theorem pack_table_mixed {R C : ℕ} (hR : 0 < R) (hC : 0 < C) {t : ℕ → ℕ → ℕ}
    (h1 : ¬ ∀ i, i < R → ∃ j k, j < C ∧ k < C ∧ t i j ≠ t i k) (h2 : ¬ ∃ k, ∀ i j, i < R → j < C → t i j = k) :
    pack (table R C t) = .error .valueError := by
  unfold pack
  rw [if_neg, if_neg]
  · intro h
    rw [Bool.and_eq_true] at h
    obtain ⟨ha, hb⟩ := h
    rw [table_heads hC, allEq_range _ _ hR] at hb
    unfold table at ha
    simp only [List.all_map, List.all_eq_true, List.mem_range, Function.comp_apply] at ha
    exact h2 ⟨_, fun i j hi hj => ((allEq_range _ _ hC).mp (ha i hi) j hj).trans (hb i hi)⟩
  · intro h
    unfold table at h
    simp only [List.all_map, List.all_eq_true, List.mem_range, Function.comp_apply, Bool.not_eq_true'] at h
    exact h1 fun i hi => (table_row hC (t i)).mp (h i hi)

end Magpie.Mc
