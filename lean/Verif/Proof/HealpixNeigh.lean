import Verif.Proof.HealpixTouch

set_option linter.unusedSimpArgs false
set_option linter.unusedVariables false

namespace Magpie.Healpix
open Magpie.Spec

theorem _root_.Magpie.Spec.SamePix.refl (N : ℤ) (a : ℤ × ℤ) : SamePix N a a := ⟨0, by simp⟩

theorem _root_.Magpie.Spec.SamePix.symm {N : ℤ} {a b : ℤ × ℤ} (h : SamePix N a b) : SamePix N b a := by
  obtain ⟨n, rfl⟩ := h
  exact ⟨-n, Prod.ext (by simp only; ring) (by simp only; ring)⟩

theorem _root_.Magpie.Spec.SamePix.trans {N : ℤ} {a b c : ℤ × ℤ} (h : SamePix N a b) (h' : SamePix N b c) : SamePix N a c := by
  obtain ⟨n, rfl⟩ := h
  obtain ⟨m, rfl⟩ := h'
  exact ⟨n + m, Prod.ext (by simp only; ring) (by simp only; ring)⟩

theorem samePix_small {N : ℤ} (hN : 0 < N) {a q : ℤ × ℤ} (h : SamePix N a q) (h1 : -(4*N) < q.1 - a.1)
    (h2 : q.1 - a.1 < 4*N) : q = a := by
  obtain ⟨n, rfl⟩ := h
  simp only [add_sub_cancel_left] at h1 h2
  have : n = 0 := by
    by_contra hc
    rcases lt_or_gt_of_ne hc with h | h
    · nlinarith [mul_pos hN (show 0 < -n by omega), mul_nonneg hN.le (show 0 ≤ -n - 1 by omega)]
    · nlinarith [mul_nonneg hN.le (show 0 ≤ n - 1 by omega)]
  subst this; simp

/-- The wrap around leads to the same pixel. -/
theorem neighWrap_same (N : ℤ) (q : ℤ × ℤ) : SamePix N q (neighWrap N q) := by
  unfold neighWrap
  simp only
  split_ifs
  · exact ⟨0, by simp⟩
  · exact ⟨-1, Prod.ext (by simp only; ring) (by simp only; ring)⟩
  · exact ⟨1, Prod.ext (by simp only; ring) (by simp only; ring)⟩
  · exact ⟨0, by simp⟩

theorem onMap_same {N : ℤ} (hN : 0 < N) {a b : ℤ × ℤ} (h : SamePix N a b) (ha : OnMap N a) : OnMap N b := by
  obtain ⟨n, rfl⟩ := h
  exact onMap_turn hN ha n

theorem skyTouch_same {N : ℤ} (hN : 0 < N) {a b c : ℤ × ℤ} (ha : OnMap N a) (hb : OnMap N b) (h : SamePix N b c)
    (ht : SkyTouch N a b) : SkyTouch N a c := by
  rw [skyTouch_iff hN ha hb] at ht
  rw [skyTouch_iff hN ha (onMap_same hN h hb)]
  refine ⟨fun hc => ht.1 (hc.trans h.symm), ?_⟩
  obtain ⟨-, n, hn⟩ := ht
  obtain ⟨m, rfl⟩ := h
  refine ⟨n - m, ?_⟩
  simp only
  rw [show b.1 + 4*N*m + 4*N*(n - m) = b.1 + 4*N*n by ring, show b.2 + 4*N*m + 4*N*(n - m) = b.2 + 4*N*n by ring]
  exact hn

/-- The pairs name exactly the pixels that touch `a`. -/
def NeighGood (N : ℤ) (a : ℤ × ℤ) (P : List (ℤ × ℤ)) : Prop :=
  (∀ q ∈ P, OnMap N q ∧ SkyTouch N a q) ∧ ∀ b, OnMap N b → SkyTouch N a b → ∃ q ∈ P, SamePix N q b

theorem good_of {N : ℤ} (hN : 0 < N) {a : ℤ × ℤ} (ha : OnMap N a) (L : List (ℤ × ℤ))
    (h1 : ∀ q ∈ L, OnMap N q ∧ q ≠ a ∧ -(4*N) < q.1 - a.1 ∧ q.1 - a.1 < 4*N ∧ Adj N a q)
    (h2 : ∀ b, OnMap N b → b ≠ a → Adj N a b → (¬ SamePix N a b) → ∃ q ∈ L, SamePix N q b) :
    NeighGood N a (L.map (neighWrap N)) := by
  constructor
  · intro q' hq'
    obtain ⟨q, hq, rfl⟩ := List.mem_map.mp hq'
    obtain ⟨m, ne, l, r, ad⟩ := h1 q hq
    refine ⟨onMap_same hN (neighWrap_same N q) m, skyTouch_same hN ha m (neighWrap_same N q) ?_⟩
    rw [skyTouch_iff hN ha m]
    exact ⟨fun h => ne (samePix_small hN h l r), 0, by simpa using ad⟩
  · intro b hb ht
    rw [skyTouch_iff hN ha hb] at ht
    obtain ⟨hs, n, hn⟩ := ht
    have hbb : SamePix N b (b.1 + 4*N*n, b.2 + 4*N*n) := ⟨n, rfl⟩
    have hns : ¬ SamePix N a (b.1 + 4*N*n, b.2 + 4*N*n) := fun h => hs (h.trans hbb.symm)
    obtain ⟨q, hq, hs'⟩ := h2 _ (onMap_turn hN hb n) (fun h => hns (h ▸ SamePix.refl N a)) hn hns
    exact ⟨_, List.mem_map_of_mem hq, ((neighWrap_same N q).symm.trans hs').trans hbb.symm⟩

theorem window {N : ℤ} (hN : 0 < N) (k x e : ℤ) (h0 : N*k + N*e ≤ x) (h1 : x < N*k + N*e + N) :
    x/N = k + e ∧ N*(x/N) = N*k + N*e := by
  have : x/N = k + e := by
    rw [Int.ediv_eq_iff_of_pos hN]
    constructor <;> linarith
  rw [this]
  exact ⟨rfl, by ring⟩

/-- Facet of a nearby index. -/
theorem near {N : ℤ} (hN : 0 < N) (k x : ℤ) (h0 : N*k - N ≤ x) (h1 : x < N*k + 2*N) :
    (x < N*k ∧ x/N = k - 1 ∧ N*(x/N) = N*k - N) ∨
    (N*k ≤ x ∧ x < N*k + N ∧ x/N = k ∧ N*(x/N) = N*k) ∨ (N*k + N ≤ x ∧ x/N = k + 1 ∧ N*(x/N) = N*k + N) := by
  by_cases a : x < N*k
  · have := window hN k x (-1) (by linarith) (by linarith)
    left; refine ⟨a, by rw [this.1]; ring, by rw [this.2]; ring⟩
  · by_cases b : x < N*k + N
    · have := window hN k x 0 (by linarith) (by linarith)
      right; left; refine ⟨by omega, b, by rw [this.1]; ring, by rw [this.2]; ring⟩
    · have := window hN k x 1 (by linarith) (by linarith)
      right; right; refine ⟨by omega, by rw [this.1], by rw [this.2]; ring⟩

section
variable {N i j : ℤ} (hN : 0 < N) (ha : OnMap N (i, j))
include hN ha

set_option maxHeartbeats 1000000 in
/-- The default case of the code, away from the seams and the corners of three facets. -/
theorem good_default (hx : ¬ (j/N = i/N + 1 ∧ (i = N*(i/N) ∨ j = N*(j/N) + N - 1)))
    (hy : ¬ (i/N = j/N + 1 ∧ (j = N*(j/N) ∨ i = N*(i/N) + N - 1)))
    (hu : ¬ (j/N = i/N ∧ i = N*(i/N) ∧ j = N*(j/N) + N - 1))
    (hv : ¬ (j/N = i/N ∧ j = N*(j/N) ∧ i = N*(i/N) + N - 1)) :
    NeighGood N (i, j) ([(i-1, j-1), (i, j-1), (i+1, j-1), (i-1, j), (i+1, j), (i-1, j+1), (i, j+1), (i+1, j+1)].map
      (neighWrap N)) := by
  obtain ⟨a1, a2, a3, a4, a5⟩ := onMap_cases hN ha
  simp only at a1 a2 a3 a4 a5
  refine good_of hN ha _ ?_ ?_
  · intro q hq
    have hn : |i - q.1| ≤ 1 ∧ |j - q.2| ≤ 1 ∧ q ≠ (i, j) := by
      simp only [List.mem_cons, List.not_mem_nil, or_false] at hq
      rcases hq with rfl | rfl | rfl | rfl | rfl | rfl | rfl | rfl <;> simp
    obtain ⟨n1, n2, n3⟩ := hn
    refine ⟨?_, n3, ?_, ?_, Or.inl ⟨n1, n2⟩⟩
    · rw [abs_le] at n1 n2
      obtain ⟨x, y⟩ := q
      simp only [Ne, Prod.mk.injEq] at n1 n2 n3
      have w1 := near hN (i/N) x (by omega) (by omega)
      have w2 := near hN (j/N) y (by omega) (by omega)
      unfold OnMap facet
      simp only [abs_le]
      omega
    · rw [abs_le] at n1; simp only; omega
    · rw [abs_le] at n1; simp only; omega
  · rintro ⟨x, y⟩ hb hne hadj -
    refine ⟨(x, y), ?_, SamePix.refl _ _⟩
    simp only [Ne, Prod.mk.injEq] at hne
    obtain ⟨b1, b2, b3, b4, b5⟩ := onMap_cases hN hb
    unfold Adj at hadj
    simp only [abs_le] at hadj b1 b2 b3 b4 b5
    simp only [List.mem_cons, List.not_mem_nil, or_false, Prod.mk.injEq]
    rcases hadj with h | ⟨e1, e2, h⟩ | ⟨e1, e2, h⟩
    · omega
    · exfalso
      have e : N*(j/N) = N*(i/N) + N := by rw [e1]; ring
      clear b5 a5 hu hv hy hne
      rcases h with h | h | h
      · exact hx ⟨e1, Or.inr (by omega)⟩
      · exact hx ⟨e1, Or.inl h.2.2.1⟩
      · exact hx ⟨e1, Or.inl (by omega)⟩
    · exfalso
      have e : N*(i/N) = N*(j/N) + N := by rw [e1]; ring
      clear b5 a5 hu hv hx hne
      rcases h with h | h | h
      · exact hy ⟨e1, Or.inr (by omega)⟩
      · exact hy ⟨e1, Or.inl h.2.2.1⟩
      · exact hy ⟨e1, Or.inl (by omega)⟩

/-- A plane neighbour. -/
theorem plane_ok {x y : ℤ} (h1 : |i - x| ≤ 1) (h2 : |j - y| ≤ 1) (h3 : (x, y) ≠ (i, j)) (h4 : |y/N - x/N| ≤ 1) :
    OnMap N (x, y) ∧ (x, y) ≠ (i, j) ∧ -(4*N) < (x, y).1 - (i, j).1 ∧ (x, y).1 - (i, j).1 < 4*N ∧
      Adj N (i, j) (x, y) := by
  refine ⟨h4, h3, ?_, ?_, Or.inl ⟨h1, h2⟩⟩ <;> rw [abs_le] at h1 <;> simp only <;> omega

/-- The north eastern edge of a northern facet. -/
theorem good_NE (e1 : j/N = i/N + 1) (hj : j = N*(i/N) + 2*N - 1) (hi : i ≠ N*(i/N)) :
    NeighGood N (i, j) ([(i-1, j), (i-1, j-1), (i, j-1), (i+1, j), (i+1, j-1),
      (N*(i/N+1), j + N*(i/N+1) - i), (N*(i/N+1), j + N*(i/N+1) - i - 1),
      (N*(i/N+1), j + N*(i/N+1) - i + 1)].map (neighWrap N)) := by
  obtain ⟨a1, a2, a3, a4, -⟩ := onMap_cases hN ha
  simp only at a1 a2 a3 a4
  have e : N*(j/N) = N*(i/N) + N := by rw [e1]; ring
  have e' : N*(i/N+1) = N*(i/N) + N := by ring
  rw [e']
  refine good_of hN ha _ ?_ ?_
  · intro q hq
    have hsplit : (∃ x y, q = (x, y) ∧ |i - x| ≤ 1 ∧ (y = j ∨ y = j - 1) ∧ (x, y) ≠ (i, j)) ∨
        ∃ y, q = (N*(i/N) + N, y) ∧ |y - (j + (N*(i/N) + N) - i)| ≤ 1 := by
      simp only [List.mem_cons, List.not_mem_nil, or_false] at hq
      rcases hq with rfl | rfl | rfl | rfl | rfl | rfl | rfl | rfl
      · left; exact ⟨_, _, rfl, by simp, by simp, by simp⟩
      · left; exact ⟨_, _, rfl, by simp, by simp, by simp⟩
      · left; exact ⟨_, _, rfl, by simp, by simp, by simp⟩
      · left; exact ⟨_, _, rfl, by simp, by simp, by simp⟩
      · left; exact ⟨_, _, rfl, by simp, by simp, by simp⟩
      · right; exact ⟨_, rfl, by simp⟩
      · right; exact ⟨_, rfl, by simp⟩
      · right; exact ⟨_, rfl, by simp⟩
    rcases hsplit with ⟨x, y, rfl, h1, h2, h3⟩ | ⟨y, rfl, h⟩
    · refine plane_ok hN ha h1 (by rw [abs_le]; omega) h3 ?_
      rw [abs_le] at h1 ⊢
      have w1 := near hN (i/N) x (by omega) (by omega)
      have w2 := near hN (j/N) y (by omega) (by omega)
      omega
    · rw [abs_le] at h
      have w1 := window hN (i/N) (N*(i/N) + N) 1 (by omega) (by omega)
      have w2 := near hN (j/N) y (by omega) (by omega)
      refine ⟨?_, ?_, ?_, ?_, ?_⟩
      · unfold OnMap facet; simp only [abs_le]; omega
      · simp only [Ne, Prod.mk.injEq]; omega
      · simp only; omega
      · simp only; omega
      · unfold Adj
        simp only [abs_le]
        by_cases hy : y = N*(i/N) + 2*N - 1
        · left; omega
        · right; left
          refine ⟨e1, by omega, Or.inl ⟨w1.1, hj, by omega, by omega⟩⟩
  · rintro ⟨x, y⟩ hb hne hadj hs
    refine ⟨(x, y), ?_, SamePix.refl _ _⟩
    simp only [Ne, Prod.mk.injEq] at hne
    obtain ⟨b1, b2, b3, b4, b5⟩ := onMap_cases hN hb
    unfold Adj at hadj
    simp only [abs_le] at hadj b1 b2 b3 b4 b5
    simp only [List.mem_cons, List.not_mem_nil, or_false, Prod.mk.injEq]
    rcases hadj with h | ⟨-, e2, h | h | h⟩ | ⟨e3, e2, h⟩
    · have w1 := near hN (i/N) x (by omega) (by omega)
      have w2 := near hN (j/N) y (by omega) (by omega)
      have hx : x = i - 1 ∨ x = i ∨ x = i + 1 := by omega
      have hy : y = j - 1 ∨ y = j ∨ y = j + 1 := by omega
      rcases hy with rfl | rfl | rfl
      · rcases hx with rfl | rfl | rfl <;> simp
      · rcases hx with rfl | rfl | rfl
        · simp
        · exact absurd ⟨rfl, rfl⟩ hne
        · simp
      · right; right; right; right; right; left
        clear hne hs
        omega
    · obtain ⟨k, -, h2, h3⟩ := h
      have e4 : N*(x/N) = N*(i/N) + N := by rw [k]; ring
      clear b5 hne
      omega
    · exact absurd h.2.2.1 hi
    · exfalso; omega
    · exfalso; omega

/-- The north western edge of a northern facet: the pixels that touch. -/
theorem good_NW (e1 : j/N = i/N + 1) (hi : i = N*(i/N)) (hj : j ≠ N*(i/N) + 2*N - 1) :
    NeighGood N (i, j) ([(i, j-1), (i+1, j-1), (i+1, j), (i, j+1), (i+1, j+1),
      (i - ((j+2) - N*(j/N)), N*(j/N) - 1), (i - ((j+1) - N*(j/N)), N*(j/N) - 1),
      (i - (j - N*(j/N)), N*(j/N) - 1)].map (neighWrap N)) := by
  obtain ⟨a1, a2, a3, a4, -⟩ := onMap_cases hN ha
  simp only at a1 a2 a3 a4
  have e : N*(j/N) = N*(i/N) + N := by rw [e1]; ring
  rw [e]
  refine good_of hN ha _ ?_ ?_
  · intro q hq
    have hsplit : (∃ x y, q = (x, y) ∧ (x = i ∨ x = i + 1) ∧ |j - y| ≤ 1 ∧ (x, y) ≠ (i, j)) ∨
        ∃ x, q = (x, N*(i/N) + N - 1) ∧ |x - (i - ((j+1) - (N*(i/N) + N)))| ≤ 1 := by
      simp only [List.mem_cons, List.not_mem_nil, or_false] at hq
      rcases hq with rfl | rfl | rfl | rfl | rfl | rfl | rfl | rfl
      · left; exact ⟨_, _, rfl, by simp, by simp, by simp⟩
      · left; exact ⟨_, _, rfl, by simp, by simp, by simp⟩
      · left; exact ⟨_, _, rfl, by simp, by simp, by simp⟩
      · left; exact ⟨_, _, rfl, by simp, by simp, by simp⟩
      · left; exact ⟨_, _, rfl, by simp, by simp, by simp⟩
      · right; exact ⟨_, rfl, by rw [abs_le]; omega⟩
      · right; exact ⟨_, rfl, by rw [abs_le]; omega⟩
      · right; exact ⟨_, rfl, by rw [abs_le]; omega⟩
    rcases hsplit with ⟨x, y, rfl, h1, h2, h3⟩ | ⟨x, rfl, h⟩
    · refine plane_ok hN ha (by rw [abs_le]; omega) h2 h3 ?_
      rw [abs_le] at h2 ⊢
      have w1 := near hN (i/N) x (by omega) (by omega)
      have w2 := near hN (j/N) y (by omega) (by omega)
      omega
    · rw [abs_le] at h
      have w1 := near hN (i/N) x (by omega) (by omega)
      have w2 := window hN (i/N) (N*(i/N) + N - 1) 0 (by omega) (by omega)
      refine ⟨?_, ?_, ?_, ?_, ?_⟩
      · unfold OnMap facet; simp only [abs_le]; omega
      · simp only [Ne, Prod.mk.injEq]; omega
      · simp only; omega
      · simp only; omega
      · unfold Adj
        simp only [abs_le]
        by_cases hx : x = N*(i/N)
        · left; omega
        · right; left
          refine ⟨e1, by omega, Or.inr (Or.inl ⟨by omega, by omega, hi, by omega⟩)⟩
  · rintro ⟨x, y⟩ hb hne hadj hs
    refine ⟨(x, y), ?_, SamePix.refl _ _⟩
    simp only [Ne, Prod.mk.injEq] at hne
    obtain ⟨b1, b2, b3, b4, b5⟩ := onMap_cases hN hb
    unfold Adj at hadj
    simp only [abs_le] at hadj b1 b2 b3 b4 b5
    simp only [List.mem_cons, List.not_mem_nil, or_false, Prod.mk.injEq]
    rcases hadj with h | ⟨-, e2, h | h | h⟩ | ⟨e3, e2, h⟩
    · have w1 := near hN (i/N) x (by omega) (by omega)
      have w2 := near hN (j/N) y (by omega) (by omega)
      have hx : x = i - 1 ∨ x = i ∨ x = i + 1 := by omega
      have hy : y = j - 1 ∨ y = j ∨ y = j + 1 := by omega
      rcases hx with rfl | rfl | rfl
      · right; right; right; right; right; right; left
        clear hne hs
        omega
      · rcases hy with rfl | rfl | rfl
        · simp
        · exact absurd ⟨rfl, rfl⟩ hne
        · simp
      · rcases hy with rfl | rfl | rfl <;> simp
    · exact absurd h.2.1 hj
    · obtain ⟨k, h2, -, h3⟩ := h
      have e4 : N*(i/N) = N*(x/N) + N := by rw [k]; ring
      clear b5 hne
      omega
    · exfalso; omega
    · exfalso; omega

/-- The northern corner of a facet of the belt, where three facets meet. -/
theorem good_three (h2 : 2 ≤ N) (e1 : j/N = i/N) (hi : i = N*(i/N)) (hj : j = N*(j/N) + N - 1) :
    NeighGood N (i, j) ([(i-1, j-1), (i, j-1), (i+1, j-1), (i-1, j), (i+1, j), (i, j+1), (i+1, j+1)].map (neighWrap N)) := by
  obtain ⟨a1, a2, a3, a4, -⟩ := onMap_cases hN ha
  simp only at a1 a2 a3 a4
  have e : N*(j/N) = N*(i/N) := by rw [e1]
  refine good_of hN ha _ ?_ ?_
  · intro q hq
    have hsplit : ∃ x y, q = (x, y) ∧ |i - x| ≤ 1 ∧ |j - y| ≤ 1 ∧ (x, y) ≠ (i, j) ∧ ¬ (x = i - 1 ∧ y = j + 1) := by
      simp only [List.mem_cons, List.not_mem_nil, or_false] at hq
      rcases hq with rfl | rfl | rfl | rfl | rfl | rfl | rfl
      all_goals exact ⟨_, _, rfl, by simp, by simp, by simp, by omega⟩
    obtain ⟨x, y, rfl, h1, h2, h3, h4⟩ := hsplit
    refine plane_ok hN ha h1 h2 h3 ?_
    rw [abs_le] at h1 h2 ⊢
    have w1 := near hN (i/N) x (by omega) (by omega)
    have w2 := near hN (j/N) y (by omega) (by omega)
    omega
  · rintro ⟨x, y⟩ hb hne hadj hs
    refine ⟨(x, y), ?_, SamePix.refl _ _⟩
    simp only [Ne, Prod.mk.injEq] at hne
    obtain ⟨b1, b2, b3, b4, b5⟩ := onMap_cases hN hb
    unfold Adj at hadj
    simp only [abs_le] at hadj b1 b2 b3 b4 b5
    simp only [List.mem_cons, List.not_mem_nil, or_false, Prod.mk.injEq]
    rcases hadj with h | ⟨e3, e2, h⟩ | ⟨e3, e2, h⟩
    · have w1 := near hN (i/N) x (by omega) (by omega)
      have w2 := near hN (j/N) y (by omega) (by omega)
      have hx : x = i - 1 ∨ x = i ∨ x = i + 1 := by omega
      have hy : y = j - 1 ∨ y = j ∨ y = j + 1 := by omega
      rcases hx with rfl | rfl | rfl
      · rcases hy with rfl | rfl | rfl
        · simp
        · simp
        · exfalso
          clear hne hs
          omega
      · rcases hy with rfl | rfl | rfl
        · simp
        · exact absurd ⟨rfl, rfl⟩ hne
        · simp
      · rcases hy with rfl | rfl | rfl <;> simp
    · exfalso; omega
    · exfalso; omega

/-- The north pole. -/
theorem good_pole (hp : j - i + 1 = 2*N) :
    NeighGood N (i, j) ([(i, j-1), (i+1, j-1), (i+1, j), (i+N, j-1+N), (i+N, j+N), (i-N, j-N), (i+1-N, j-N),
      (i+2*N, j+2*N)].map (neighWrap N)) := by
  obtain ⟨a1, a2, a3, a4, a5⟩ := onMap_cases hN ha
  simp only at a1 a2 a3 a4 a5
  have e1 : j/N = i/N + 1 := by omega
  have e : N*(j/N) = N*(i/N) + N := by rw [e1]; ring
  have hi : i = N*(i/N) := by omega
  have hj : j = N*(i/N) + 2*N - 1 := by omega
  clear a5
  refine good_of hN ha _ ?_ ?_
  · intro q hq
    have pl : ∀ x y, (x = i ∨ x = i + 1) → (y = j ∨ y = j - 1) → (x, y) ≠ (i, j) →
        OnMap N (x, y) ∧ (x, y) ≠ (i, j) ∧ -(4*N) < (x, y).1 - (i, j).1 ∧ (x, y).1 - (i, j).1 < 4*N ∧
          Adj N (i, j) (x, y) := by
      intro x y h1 h2 h3
      refine plane_ok hN ha (by rw [abs_le]; omega) (by rw [abs_le]; omega) h3 ?_
      rw [abs_le]
      have w1 := near hN (i/N) x (by omega) (by omega)
      have w2 := near hN (j/N) y (by omega) (by omega)
      omega
    simp only [List.mem_cons, List.not_mem_nil, or_false] at hq
    rcases hq with rfl | rfl | rfl | rfl | rfl | rfl | rfl | rfl
    · exact pl _ _ (by omega) (by omega) (by simp)
    · exact pl _ _ (by omega) (by omega) (by simp)
    · exact pl _ _ (by omega) (by omega) (by simp)
    · have w1 := window hN (i/N) (i+N) 1 (by omega) (by omega)
      have w2 := near hN (j/N) (j-1+N) (by omega) (by omega)
      refine ⟨?_, ?_, ?_, ?_, ?_⟩
      · unfold OnMap facet; simp only [abs_le]; omega
      · simp only [Ne, Prod.mk.injEq]; omega
      · simp only; omega
      · simp only; omega
      · unfold Adj
        simp only [abs_le]
        by_cases hN1 : N = 1
        · left; omega
        · right; left
          exact ⟨e1, by omega, Or.inl ⟨w1.1, hj, by omega, by omega⟩⟩
    · have w1 := window hN (i/N) (i+N) 1 (by omega) (by omega)
      have w2 := window hN (j/N) (j+N) 1 (by omega) (by omega)
      refine ⟨?_, ?_, ?_, ?_, ?_⟩
      · unfold OnMap facet; simp only [abs_le]; omega
      · simp only [Ne, Prod.mk.injEq]; omega
      · simp only; omega
      · simp only; omega
      · unfold Adj
        simp only [abs_le]
        right; left
        exact ⟨e1, by omega, Or.inr (Or.inr ⟨by omega, by omega⟩)⟩
    · have w1 := window hN (i/N) (i-N) (-1) (by omega) (by omega)
      have w2 := window hN (j/N) (j-N) (-1) (by omega) (by omega)
      refine ⟨?_, ?_, ?_, ?_, ?_⟩
      · unfold OnMap facet; simp only [abs_le]; omega
      · simp only [Ne, Prod.mk.injEq]; omega
      · simp only; omega
      · simp only; omega
      · unfold Adj
        simp only [abs_le]
        right; left
        exact ⟨e1, by omega, Or.inr (Or.inr ⟨by omega, by omega⟩)⟩
    · have w1 := near hN (i/N) (i+1-N) (by omega) (by omega)
      have w2 := window hN (j/N) (j-N) (-1) (by omega) (by omega)
      refine ⟨?_, ?_, ?_, ?_, ?_⟩
      · unfold OnMap facet; simp only [abs_le]; omega
      · simp only [Ne, Prod.mk.injEq]; omega
      · simp only; omega
      · simp only; omega
      · unfold Adj
        simp only [abs_le]
        by_cases hN1 : N = 1
        · left; omega
        · right; left
          exact ⟨e1, by omega, Or.inr (Or.inl ⟨by omega, by omega, hi, by omega⟩)⟩
    · have w1 := window hN (i/N) (i+2*N) 2 (by omega) (by omega)
      have w2 := window hN (j/N) (j+2*N) 2 (by omega) (by omega)
      refine ⟨?_, ?_, ?_, ?_, ?_⟩
      · unfold OnMap facet; simp only [abs_le]; omega
      · simp only [Ne, Prod.mk.injEq]; omega
      · simp only; omega
      · simp only; omega
      · unfold Adj
        simp only [abs_le]
        right; left
        exact ⟨e1, by omega, Or.inr (Or.inr ⟨by omega, by omega⟩)⟩
  · rintro ⟨x, y⟩ hb hne hadj hs
    simp only [Ne, Prod.mk.injEq] at hne
    obtain ⟨b1, b2, b3, b4, b5⟩ := onMap_cases hN hb
    unfold Adj at hadj
    simp only [abs_le] at hadj b1 b2 b3 b4 b5
    rcases hadj with h | ⟨-, e2, h | h | h⟩ | ⟨e3, e2, h⟩
    · refine ⟨(x, y), ?_, SamePix.refl _ _⟩
      simp only [List.mem_cons, List.not_mem_nil, or_false, Prod.mk.injEq]
      have w1 := near hN (i/N) x (by omega) (by omega)
      have w2 := near hN (j/N) y (by omega) (by omega)
      have hx : x = i - 1 ∨ x = i ∨ x = i + 1 := by omega
      have hy : y = j - 1 ∨ y = j ∨ y = j + 1 := by omega
      clear hs
      rcases hx with rfl | rfl | rfl
      · right; right; right; right; right; left
        omega
      · rcases hy with rfl | rfl | rfl
        · simp
        · exact absurd ⟨rfl, rfl⟩ hne
        · exfalso; omega
      · rcases hy with rfl | rfl | rfl
        · simp
        · simp
        · right; right; right; right; left
          omega
    · obtain ⟨k, -, h2, h3⟩ := h
      have e4 : N*(x/N) = N*(i/N) + N := by rw [k]; ring
      refine ⟨(x, y), ?_, SamePix.refl _ _⟩
      simp only [List.mem_cons, List.not_mem_nil, or_false, Prod.mk.injEq]
      clear hne hs
      have : y = j + N ∨ y = j - 1 + N := by omega
      rcases this with rfl | rfl
      · right; right; right; right; left; omega
      · right; right; right; left; omega
    · obtain ⟨k, h2, -, h3⟩ := h
      have e4 : N*(i/N) = N*(x/N) + N := by rw [k]; ring
      refine ⟨(x, y), ?_, SamePix.refl _ _⟩
      simp only [List.mem_cons, List.not_mem_nil, or_false, Prod.mk.injEq]
      clear hne hs
      have : x = i - N ∨ x = i + 1 - N := by omega
      rcases this with rfl | rfl
      · right; right; right; right; right; left; omega
      · right; right; right; right; right; right; left; omega
    · have c1 : x = N*(x/N) := by omega
      have c2 : y = N*(x/N) + 2*N - 1 := by omega
      have hm := Int.mul_ediv_add_emod (x/N - i/N) 4
      set n := (x/N - i/N)/4 with hn
      have hx : x = i + 4*N*n + N*((x/N - i/N) % 4) := by
        rw [c1, hi]
        have : N*(x/N) = N*(i/N) + N*(4*n + (x/N - i/N) % 4) := by rw [hm]; ring
        have k1 : N*(N*(x/N)/N) = N*(x/N) := by rw [Int.mul_ediv_cancel_left _ hN.ne']
        have k2 : N*(i/N)/N = i/N := Int.mul_ediv_cancel_left _ hN.ne'
        have k3 : N*(x/N)/N = x/N := Int.mul_ediv_cancel_left _ hN.ne'
        rw [k2, k3, this]; ring
      have hy : y = j + 4*N*n + N*((x/N - i/N) % 4) := by omega
      have h0 := Int.emod_nonneg (x/N - i/N) (show (4:ℤ) ≠ 0 by norm_num)
      have h4 := Int.emod_lt_of_pos (x/N - i/N) (show (0:ℤ) < 4 by norm_num)
      have : (x/N - i/N) % 4 = 0 ∨ (x/N - i/N) % 4 = 1 ∨ (x/N - i/N) % 4 = 2 ∨ (x/N - i/N) % 4 = 3 := by omega
      rcases this with m | m | m | m <;> rw [m] at hx hy
      · exact absurd ⟨n, Prod.ext (by simp only; linarith) (by simp only; linarith)⟩ hs
      · exact ⟨(i+N, j+N), by simp, n, Prod.ext (by simp only; linarith) (by simp only; linarith)⟩
      · exact ⟨(i+2*N, j+2*N), by simp, n, Prod.ext (by simp only; linarith) (by simp only; linarith)⟩
      · exact ⟨(i-N, j-N), by simp, n + 1, Prod.ext (by simp only; linarith) (by simp only; linarith)⟩
    · exfalso; omega

end

/-! ## The southern half, by exchange of the indices -/

theorem onMap_swap {N : ℤ} {a : ℤ × ℤ} (h : OnMap N a) : OnMap N a.swap := by
  unfold OnMap facet at *
  rw [abs_sub_comm] at h
  exact h

theorem samePix_swap {N : ℤ} {a b : ℤ × ℤ} (h : SamePix N a b) : SamePix N a.swap b.swap := by
  obtain ⟨n, rfl⟩ := h
  exact ⟨n, rfl⟩

theorem adj_swap {N : ℤ} {a b : ℤ × ℤ} (h : Adj N a b) : Adj N a.swap b.swap := by
  unfold Adj at *
  simp only [Prod.fst_swap, Prod.snd_swap]
  rcases h with h | h | h
  · exact Or.inl ⟨h.2, h.1⟩
  · exact Or.inr (Or.inr h)
  · exact Or.inr (Or.inl h)

theorem skyTouch_swap {N : ℤ} (hN : 0 < N) {a b : ℤ × ℤ} (ha : OnMap N a) (hb : OnMap N b) (h : SkyTouch N a b) :
    SkyTouch N a.swap b.swap := by
  rw [skyTouch_iff hN ha hb] at h
  rw [skyTouch_iff hN (onMap_swap ha) (onMap_swap hb)]
  obtain ⟨h1, n, h2⟩ := h
  exact ⟨fun h => h1 (samePix_swap h), n, adj_swap h2⟩

theorem neighWrap_swap (N : ℤ) (q : ℤ × ℤ) : neighWrap N q.swap = (neighWrap N q).swap := by
  unfold neighWrap
  simp only [Prod.fst_swap, Prod.snd_swap]
  rw [add_comm q.2 q.1]
  by_cases h : q.1 + q.2 > 9*N - 1
  · simp only [if_pos h]
    rw [add_comm (q.2 - 4*N)]
    split_ifs <;> rfl
  · simp only [if_neg h, Prod.fst_swap, Prod.snd_swap]
    rw [add_comm q.2 q.1]
    split_ifs <;> rfl

theorem good_swap {N : ℤ} (hN : 0 < N) {a : ℤ × ℤ} (ha : OnMap N a) {P : List (ℤ × ℤ)} (h : NeighGood N a P) :
    NeighGood N a.swap (P.map Prod.swap) := by
  constructor
  · intro q hq
    obtain ⟨p, hp, rfl⟩ := List.mem_map.mp hq
    exact ⟨onMap_swap (h.1 p hp).1, skyTouch_swap hN ha (h.1 p hp).1 (h.1 p hp).2⟩
  · intro b hb ht
    obtain ⟨q, hq, hs⟩ := h.2 b.swap (onMap_swap hb) (by
      have := skyTouch_swap hN (onMap_swap ha) hb ht
      simpa using this)
    exact ⟨q.swap, List.mem_map_of_mem hq, by simpa using samePix_swap hs⟩

/-- From the northern to the southern list. -/
theorem good_south {N i j : ℤ} (hN : 0 < N) (ha : OnMap N (j, i)) {L L' : List (ℤ × ℤ)}
    (h : NeighGood N (j, i) (L.map (neighWrap N))) (h1 : ∀ q ∈ L', ∃ p ∈ L, SamePix N p.swap q)
    (h2 : ∀ p ∈ L, ∃ q ∈ L', SamePix N p.swap q) : NeighGood N (i, j) (L'.map (neighWrap N)) := by
  have ha' : OnMap N (i, j) := onMap_swap (a := (j, i)) ha
  have h : NeighGood N (i, j) ((L.map (neighWrap N)).map Prod.swap) := good_swap (a := (j, i)) hN ha h
  generalize (i, j) = a at h ha' ⊢
  constructor
  · intro q' hq'
    obtain ⟨q, hq, rfl⟩ := List.mem_map.mp hq'
    obtain ⟨p, hp, hs⟩ := h1 q hq
    obtain ⟨g1, g2⟩ := h.1 _ (List.mem_map_of_mem (f := Prod.swap) (List.mem_map_of_mem (f := neighWrap N) hp))
    have hs' : SamePix N (neighWrap N p).swap (neighWrap N q) :=
      SamePix.trans (SamePix.trans (SamePix.symm (samePix_swap (neighWrap_same N p))) hs) (neighWrap_same N q)
    exact ⟨onMap_same hN hs' g1, skyTouch_same hN ha' g1 hs' g2⟩
  · intro b hb ht
    obtain ⟨r, hr, hs⟩ := h.2 b hb ht
    obtain ⟨r', hr', rfl⟩ := List.mem_map.mp hr
    obtain ⟨p, hp, rfl⟩ := List.mem_map.mp hr'
    obtain ⟨q, hq, hs'⟩ := h2 p hp
    exact ⟨_, List.mem_map_of_mem hq,
      SamePix.trans (SamePix.trans (SamePix.trans (SamePix.symm (neighWrap_same N q)) (SamePix.symm hs'))
        (samePix_swap (neighWrap_same N p))) hs⟩

/-- Lists that are the same up to exchange of the indices and order. -/
theorem good_south_perm {N i j : ℤ} (hN : 0 < N) (ha : OnMap N (j, i)) {L L' : List (ℤ × ℤ)}
    (h : NeighGood N (j, i) (L.map (neighWrap N))) (h1 : ∀ q ∈ L', q.swap ∈ L) (h2 : ∀ p ∈ L, p.swap ∈ L') :
    NeighGood N (i, j) (L'.map (neighWrap N)) :=
  good_south hN ha h (fun q hq => ⟨_, h1 q hq, by simpa using SamePix.refl N q⟩)
    (fun p hp => ⟨_, h2 p hp, SamePix.refl N _⟩)

set_option maxHeartbeats 2000000 in
/-- The pairs of the code, away from the north western edges of the northern facets. -/
theorem pairs_good {N i j : ℤ} (hN : 0 < N) (ha : OnMap N (i, j))
    (hnw : ¬ (j/N = i/N + 1 ∧ i % N = 0 ∧ j - i + 1 ≠ 2*N)) (h1 : ¬ (N = 1 ∧ j/N = i/N)) :
    NeighGood N (i, j) ((neighCases i j N).map (neighWrap N)) := by
  have hs : OnMap N (j, i) := onMap_swap ha
  obtain ⟨a1, a2, a3, a4, a5⟩ := onMap_cases hN ha
  simp only at a1 a2 a3 a4 a5
  have mi : i % N = 0 ↔ i = N*(i/N) := by
    have := Int.mul_ediv_add_emod i N
    constructor <;> intro h <;> omega
  have mj : j % N = 0 ↔ j = N*(j/N) := by
    have := Int.mul_ediv_add_emod j N
    constructor <;> intro h <;> omega
  have hlast : ∀ x : ℤ, N*(x/N) ≤ x → x < N*(x/N) + N → ((x + 1 - N) % N = 0 ↔ x = N*(x/N) + N - 1) := by
    intro x h0 h1
    have e : x + 1 - N = (x + 1 - N - N*(x/N - 1)) + N*(x/N - 1) := by ring
    have e2 : x + 1 - N - N*(x/N - 1) = x + 1 - N*(x/N) := by ring
    rw [e, e2, Int.add_mul_emod_self_left]
    by_cases c : x + 1 - N*(x/N) = N
    · rw [c, Int.emod_self]; constructor <;> intro _ <;> omega
    · rw [Int.emod_eq_of_lt (by omega) (by omega)]; constructor <;> intro _ <;> omega
  have li := hlast i a1 a2
  have lj := hlast j a3 a4
  have ei : N*(i/N + 1) = N*(i/N) + N := by ring
  have ej : N*(j/N + 1) = N*(j/N) + N := by ring
  rw [mi] at hnw
  unfold neighCases
  simp only [mi, mj, li, lj, ei, ej]
  by_cases c1 : j - i + 1 = 2*N
  · rw [if_pos c1]
    exact good_pole hN ha c1
  rw [if_neg c1]
  by_cases c2 : i - j + 1 = 2*N
  · rw [if_pos c2]
    refine good_south hN hs (good_pole hN hs c2) ?_ ?_
    · simp only [List.forall_mem_cons, List.not_mem_nil, IsEmpty.forall_iff, implies_true, and_true]
      refine ⟨⟨(j+1, i), ?_, ?_⟩, ⟨(j+1, i-1), ?_, ?_⟩, ⟨(j, i-1), ?_, ?_⟩, ⟨(j+1-N, i-N), ?_, ?_⟩, ⟨(j-N, i-N), ?_, ?_⟩,
        ⟨(j+N, i+N), ?_, ?_⟩, ⟨(j+N, i-1+N), ?_, ?_⟩, ⟨(j+2*N, i+2*N), ?_, ?_⟩⟩
      all_goals first
        | exact SamePix.refl N _
        | exact ⟨-1, Prod.ext (by simp only [Prod.swap_prod_mk]; ring) (by simp only [Prod.swap_prod_mk]; ring)⟩
        | simp
    · simp only [List.forall_mem_cons, List.not_mem_nil, IsEmpty.forall_iff, implies_true, and_true]
      refine ⟨⟨(i-1, j), ?_, ?_⟩, ⟨(i-1, j+1), ?_, ?_⟩, ⟨(i, j+1), ?_, ?_⟩, ⟨(i-1+N, j+N), ?_, ?_⟩, ⟨(i+N, j+N), ?_, ?_⟩,
        ⟨(i-N, j-N), ?_, ?_⟩, ⟨(i-N, j+1-N), ?_, ?_⟩, ⟨(i-2*N, j-2*N), ?_, ?_⟩⟩
      all_goals first
        | exact SamePix.refl N _
        | exact ⟨-1, Prod.ext (by simp only [Prod.swap_prod_mk]; ring) (by simp only [Prod.swap_prod_mk]; ring)⟩
        | simp
  rw [if_neg c2]
  by_cases c3 : j - i + 1 = N ∧ i = N*(i/N)
  · rw [if_pos c3]
    have e1 : j/N = i/N := by omega
    exact good_three hN ha (by by_contra h; exact h1 ⟨by omega, e1⟩) e1 c3.2 (by omega)
  rw [if_neg c3]
  by_cases c4 : i - j + 1 = N ∧ j = N*(j/N)
  · rw [if_pos c4]
    have e1 : i/N = j/N := by omega
    refine good_south_perm hN hs (good_three hN hs (by by_contra h; exact h1 ⟨by omega, e1.symm⟩) e1 c4.2 (by omega))
      ?_ ?_ <;> simp [List.forall_mem_cons]
  rw [if_neg c4]
  by_cases c5 : i = N*(i/N) ∧ j + 1 - (N*(i/N) + N) > 0
  · exact absurd ⟨by omega, c5.1, c1⟩ hnw
  rw [if_neg c5]
  by_cases c6 : j = N*(j/N) ∧ i + 1 - (N*(j/N) + N) > 0
  · rw [if_pos c6]
    refine good_south_perm hN hs (good_NW hN hs (by omega) c6.1 (by omega)) ?_ ?_ <;> simp [List.forall_mem_cons]
  rw [if_neg c6]
  by_cases c7 : j = N*(j/N) + N - 1 ∧ j + 1 - (N*(i/N) + N) > 0
  · rw [if_pos c7]
    have := good_NE hN ha (by omega) (by omega) (fun h => c5 ⟨h, c7.2⟩)
    rw [ei] at this
    exact this
  rw [if_neg c7]
  by_cases c8 : i = N*(i/N) + N - 1 ∧ i + 1 - (N*(j/N) + N) > 0
  · rw [if_pos c8]
    have := good_NE hN hs (by omega) (by omega) (fun h => c6 ⟨h, c8.2⟩)
    rw [ej] at this
    refine good_south_perm hN hs this ?_ ?_ <;> simp [List.forall_mem_cons]
  rw [if_neg c8]
  refine good_default hN ha ?_ ?_ ?_ ?_
  · rintro ⟨k, h | h⟩
    · exact c5 ⟨h, by omega⟩
    · exact c7 ⟨h, by omega⟩
  · rintro ⟨k, h | h⟩
    · exact c6 ⟨h, by omega⟩
    · exact c8 ⟨h, by omega⟩
  · rintro ⟨k, h, h'⟩
    exact c3 ⟨by omega, h⟩
  · rintro ⟨k, h, h'⟩
    exact c4 ⟨by omega, h⟩

end Magpie.Healpix
