import Verif.Spec.McBox2Ring
import Verif.Proof.Box2Ring
import Mathlib.Data.List.Nodup
import Mathlib.Data.List.ProdSigma
import Mathlib.Algebra.BigOperators.Ring.Finset
import Mathlib.Algebra.BigOperators.Group.List.Lemmas

/-!
# Lemmas on Monte Carlo histograms
-/

set_option linter.unusedSimpArgs false
set_option linter.unusedVariables false
set_option linter.unusedSectionVars false

namespace Magpie.Mc
open Magpie Magpie.OneD Magpie.Spec Magpie.Box2Ring

/-! ## Bins -/

theorem countLe (g : ℕ → ℝ) (x : ℝ) (m N : ℕ) (hN : N ≤ m) (h1 : ∀ k, k < N → g k ≤ x)
    (h2 : ∀ k, N ≤ k → k < m → x < g k) :
    (((List.range m).map g).filter fun e => decide (e ≤ x)).length = N := by
  rw [List.filter_map, List.length_map]
  have : (List.range m).filter ((fun e => decide (e ≤ x)) ∘ g) = (List.range m).filter fun k => decide (k < N) := by
    apply List.filter_congr
    intro k hk
    simp only [Function.comp_apply, decide_eq_decide]
    constructor
    · intro h
      by_contra hc
      exact absurd h (not_le.mpr (h2 k (by omega) (List.mem_range.mp hk)))
    · exact h1 k
  rw [this]
  obtain ⟨d, rfl⟩ : ∃ d, m = N + d := ⟨m - N, by omega⟩
  rw [List.range_add, List.filter_append, List.filter_eq_self.mpr, List.filter_eq_nil_iff.mpr]
  · simp
  · intro k hk
    simp only [List.mem_map] at hk
    obtain ⟨a, -, rfl⟩ := hk
    simp
  · intro k hk
    simpa using hk

theorem histBin_of_inBin {lo hi : ℝ} (h : lo < hi) {n k : ℕ} {x : ℝ} (hb : InBin lo hi n k x) :
    histBin (linspace lo hi (n+1)) x = some k := by
  obtain ⟨hk, h1, h2⟩ := hb
  have hn : 0 < n := by omega
  unfold histBin
  rw [linspace_getLastD lo hi n hn, linspace_eq]
  simp only [List.length_map, List.length_range, Nat.add_sub_cancel]
  have mono := fun {a b : ℕ} (hab : a ≤ b) => edgeAt_mono h.le n hab
  by_cases hx : x = hi
  · rw [countLe _ x (n+1) (n+1) le_rfl ?_ (by intros; omega), if_pos hx]
    · have : k + 1 = n := by
        rcases h2 with h2 | h2
        · exfalso
          have := mono (show k + 1 ≤ n by omega)
          rw [edgeAt_last lo hi n hn] at this
          linarith
        · exact h2.1
      rw [if_pos (by omega)]
      congr 1
      omega
    · intro j hj
      have := mono (show j ≤ n by omega)
      rw [edgeAt_last lo hi n hn] at this
      linarith
  · have h2 : x < edgeAt lo hi n (k+1) := by
      rcases h2 with h2 | h2
      · exact h2
      · exact absurd h2.2 hx
    rw [countLe _ x (n+1) (k+1) (by omega), if_neg hx, if_pos (by omega)]
    · simp
    · intro j hj
      exact (mono (show j ≤ k by omega)).trans h1
    · intro j hj _
      exact lt_of_lt_of_le h2 (mono hj)

theorem histBin_none {lo hi : ℝ} (h : lo < hi) {n : ℕ} (hn : 0 < n) {x : ℝ} (hx : x < lo ∨ hi < x) :
    histBin (linspace lo hi (n+1)) x = none := by
  unfold histBin
  rw [linspace_getLastD lo hi n hn, linspace_eq]
  simp only [List.length_map, List.length_range, Nat.add_sub_cancel]
  have mono := fun {a b : ℕ} (hab : a ≤ b) => edgeAt_mono h.le n hab
  rcases hx with hx | hx
  · rw [countLe _ x (n+1) 0 (by omega) (by intros; omega), if_neg (show ¬ x = hi by linarith), if_neg (by omega)]
    intro k _ _
    have := mono (Nat.zero_le k)
    rw [edgeAt_zero] at this
    linarith
  · rw [countLe _ x (n+1) (n+1) le_rfl ?_ (by intros; omega), if_neg (show ¬ x = hi by linarith), if_neg (by omega)]
    intro k hk
    have := mono (show k ≤ n by omega)
    rw [edgeAt_last lo hi n hn] at this
    linarith

theorem exists_inBin {lo hi : ℝ} (h : lo < hi) {n : ℕ} (hn : 0 < n) {x : ℝ} (h1 : lo ≤ x) (h2 : x ≤ hi) :
    ∃ k, InBin lo hi n k x := by
  rcases eq_or_lt_of_le h2 with e | e
  · refine ⟨n - 1, by omega, ?_, Or.inr ⟨by omega, e⟩⟩
    have := edgeAt_mono h.le n (show n - 1 ≤ n by omega)
    rw [edgeAt_last lo hi n hn] at this
    linarith
  · obtain ⟨k, hk⟩ := (Dg.exists_inCell h hn x).mpr ⟨h1, e⟩
    exact ⟨k, hk.1, hk.2.1, Or.inl hk.2.2⟩

theorem histBin_iff {lo hi : ℝ} (h : lo < hi) {n : ℕ} (hn : 0 < n) (x : ℝ) (k : ℕ) :
    histBin (linspace lo hi (n+1)) x = some k ↔ InBin lo hi n k x := by
  constructor
  · intro e
    by_cases hx : x < lo ∨ hi < x
    · rw [histBin_none h hn hx] at e
      cases e
    · push Not at hx
      obtain ⟨k', hk'⟩ := exists_inBin h hn hx.1 hx.2
      rw [histBin_of_inBin h hk', Option.some.injEq] at e
      rwa [← e]
  · exact histBin_of_inBin h

theorem inBin_unique {lo hi : ℝ} (h : lo < hi) {n : ℕ} {x : ℝ} {k l : ℕ} (hk : InBin lo hi n k x)
    (hl : InBin lo hi n l x) : k = l := by
  have := (histBin_of_inBin h hk).symm.trans (histBin_of_inBin h hl)
  simpa using this

theorem histEdges_ok {lo hi : ℝ} (h : lo < hi) {n : ℕ} (hn : 0 < n) :
    histEdges (linspace lo hi (n+1)) = .ok (linspace lo hi (n+1)) := by
  unfold histEdges
  have e0 : (linspace lo hi (n+1)).getD 0 0 = lo := by
    rw [linspace_getD _ _ _ _ (Nat.zero_le n)]
    exact edgeAt_zero _ _ _
  simp only [e0, linspace_getLastD lo hi n hn]
  rw [if_neg (by linarith), if_neg (by linarith), show (linspace lo hi (n+1)).length - 1 + 1 = n + 1 by
    rw [length_linspace]; omega]

/-! ## Sums over cells and over points -/

section Cells
variable {ι : Type} [DecidableEq ι]

/-- Number of points in a cell. -/
def cnt (bs : List (Option ι)) (c : ι) : ℕ := (bs.filter fun b => decide (b = some c)).length

theorem cnt_pos {bs : List (Option ι)} {c : ι} : cnt bs c ≠ 0 ↔ some c ∈ bs := by
  unfold cnt
  rw [Ne, List.length_eq_zero_iff, List.filter_eq_nil_iff]
  simp

theorem sum_cells (cells : List ι) (hn : cells.Nodup) (F : ι → ℝ) (bs : List (Option ι))
    (h : ∀ c, some c ∈ bs → c ∈ cells) :
    (cells.map fun c => (cnt bs c : ℝ)*F c).sum = ((bs.filterMap id).map F).sum := by
  induction bs with
  | nil => simp [cnt]
  | cons b bs ih =>
    have ih := ih fun c hc => h c (List.mem_cons_of_mem _ hc)
    cases b with
    | none =>
      rw [List.filterMap_cons_none rfl, ← ih]
      congr 1
    | some b =>
      have hb : b ∈ cells := h b (List.mem_cons_self ..)
      rw [List.filterMap_cons_some (rfl : id (some b) = some b), List.map_cons, List.sum_cons, ← ih]
      have e : ∀ c, (cnt (some b :: bs) c : ℝ)*F c = (if c = b then F c else 0) + (cnt bs c : ℝ)*F c := by
        intro c
        unfold cnt
        by_cases hc : c = b
        · subst hc
          rw [List.filter_cons_of_pos (by simp), if_pos rfl, List.length_cons]
          push_cast
          ring
        · rw [List.filter_cons_of_neg (by simpa using fun e : b = c => hc e.symm), if_neg hc]
          ring
      rw [← List.sum_toFinset _ hn, ← List.sum_toFinset _ hn, Finset.sum_congr rfl fun c _ => e c,
        Finset.sum_add_distrib, Finset.sum_ite_eq' cells.toFinset b, if_pos (List.mem_toFinset.mpr hb)]

theorem sum_hit_cells (cells : List ι) (hn : cells.Nodup) (F : ι → ℝ) (bs : List (Option ι))
    (h : ∀ c, some c ∈ bs → c ∈ cells) :
    ((cells.filter fun c => decide (cnt bs c ≠ 0)).map fun c => (cnt bs c : ℝ)*F c).sum
      = ((bs.filterMap id).map F).sum := by
  rw [← sum_cells cells hn F bs h]
  clear h hn
  induction cells with
  | nil => rfl
  | cons c cells ih =>
    by_cases hc : cnt bs c = 0
    · rw [List.filter_cons_of_neg (by simp [hc]), ih, List.map_cons, List.sum_cons, hc]
      simp
    · rw [List.filter_cons_of_pos (by simp [hc]), List.map_cons, List.map_cons, List.sum_cons, List.sum_cons, ih]

/-- The number of cells hit. -/
theorem length_hit_cells (cells : List ι) (hn : cells.Nodup) (bs : List (Option ι))
    (h : ∀ c, some c ∈ bs → c ∈ cells) :
    (cells.filter fun c => decide (cnt bs c ≠ 0)).length = {c | some c ∈ bs}.ncard := by
  have : {c | some c ∈ bs} = ↑(cells.filter fun c => decide (cnt bs c ≠ 0)).toFinset := by
    ext c
    simp only [Set.mem_setOf_eq, List.coe_toFinset, List.mem_filter, decide_eq_true_eq, cnt_pos]
    exact ⟨fun hc => ⟨h c hc, hc⟩, fun hc => hc.2⟩
  rw [this, Set.ncard_coe_finset, List.toFinset_card_of_nodup (hn.filter _)]

end Cells

theorem cells_nodup (n m : ℕ) :
    ((List.range n).flatMap fun a => (List.range m).map fun b => (a, b)).Nodup :=
  List.Nodup.product List.nodup_range List.nodup_range

theorem mem_cells (n m a b : ℕ) :
    (a, b) ∈ ((List.range n).flatMap fun a => (List.range m).map fun b => (a, b)) ↔ a < n ∧ b < m := by
  simp

end Magpie.Mc
