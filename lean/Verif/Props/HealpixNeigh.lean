import Verif.Proof.HealpixNeigh
import Verif.Proof.HealpixCover

/-!
# Property C07: the neighbours of a HEALPix pixel

The specification is on the sphere: two pixels are neighbours if they are different and a corner of the one has the
same direction as a corner of the other (`SkyTouch`). `pairs` below is the list of the code before the final
`np.unique` of the two index arrays; `neighbours` is what the call returns.
-/

set_option linter.unusedSimpArgs false
set_option linter.unusedVariables false

namespace Magpie.Props
open Magpie Magpie.Healpix Magpie.Spec

private theorem mem_insertU (x a : ℤ) : ∀ l, x ∈ insertU a l ↔ x = a ∨ x ∈ l
  | [] => by simp [insertU]
  | b :: l => by
    unfold insertU
    split_ifs with h1 h2
    · simp
    · subst h2; simp
    · simp only [List.mem_cons, mem_insertU x a l]; tauto

private theorem mem_unique (x : ℤ) : ∀ l, x ∈ npUnique l ↔ x ∈ l
  | [] => by simp [npUnique]
  | a :: l => by
    show x ∈ insertU a (npUnique l) ↔ _
    rw [mem_insertU, mem_unique x l, List.mem_cons]

private theorem insertU_sorted (a : ℤ) : ∀ l : List ℤ, l.Pairwise (· < ·) → (insertU a l).Pairwise (· < ·)
  | [], _ => by simp [insertU]
  | b :: l, h => by
    unfold insertU
    rw [List.pairwise_cons] at h
    split_ifs with h1 h2
    · rw [List.pairwise_cons]
      refine ⟨fun c hc => ?_, List.pairwise_cons.mpr h⟩
      rcases List.mem_cons.mp hc with rfl | hc
      · exact h1
      · exact h1.trans (h.1 c hc)
    · exact List.pairwise_cons.mpr h
    · rw [List.pairwise_cons]
      refine ⟨fun c hc => ?_, insertU_sorted a l h.2⟩
      rcases (mem_insertU c a l).mp hc with rfl | hc
      · omega
      · exact h.1 c hc

private theorem unique_sorted : ∀ l : List ℤ, (npUnique l).Pairwise (· < ·)
  | [] => by simp [npUnique]
  | a :: l => insertU_sorted a _ (unique_sorted l)

/-- The star indices of every pixel of a map: they are in a facet of the map, and `i + j` runs over one turn. -/
theorem C07_star_range (N r k : ℤ) (h : ValidRing N r k) :
    OnMap N (starOf N r k) ∧ N - 1 ≤ (starOf N r k).1 + (starOf N r k).2 ∧
      (starOf N r k).1 + (starOf N r k).2 ≤ 9*N - 2 := by
  obtain ⟨h1, h2, h3, h4⟩ := h
  have hN : 1 ≤ N := by omega
  have cap : ∀ q : ℤ, 1 ≤ q → q ≤ N → k ≤ 4*q →
      (N*((k-1)/q) + (k-1)%q)/N = (k-1)/q ∧ (N*((k-1)/q+2) - q + (k-1)%q)/N = (k-1)/q + 1 ∧
      N - 1 ≤ (N*((k-1)/q) + (k-1)%q) + (N*((k-1)/q+2) - q + (k-1)%q) ∧
      (N*((k-1)/q) + (k-1)%q) + (N*((k-1)/q+2) - q + (k-1)%q) ≤ 9*N - 2 := by
    intro q q1 qN hk
    have m0 := Int.emod_nonneg (k-1) (show q ≠ 0 by omega)
    have m1 := Int.emod_lt_of_pos (k-1) (show 0 < q by omega)
    have f0 := Int.ediv_nonneg (show 0 ≤ k-1 by omega) (show 0 ≤ q by omega)
    have f1 : (k-1)/q ≤ 3 := by
      have : (k-1)/q < 4 := Int.ediv_lt_of_lt_mul (by omega) (by omega)
      omega
    generalize (k-1)/q = f at *
    generalize (k-1)%q = m at *
    refine ⟨?_, ?_, by nlinarith, by nlinarith⟩
    · rw [add_comm, Int.add_mul_ediv_left _ _ (by omega), Int.ediv_eq_zero_of_lt m0 (by omega)]; ring
    · have e : N*(f+2) - q + m = (N - q + m) + N*(f+1) := by ring
      rw [e, Int.add_mul_ediv_left _ _ (by omega), Int.ediv_eq_zero_of_lt (by omega) (by omega)]; ring
  unfold ringLen at h4
  unfold OnMap facet starOf
  by_cases a : r ≤ N
  · rw [if_pos a]
    obtain ⟨c1, c2, c3, c4⟩ := cap r h1 a (by split_ifs at h4 <;> omega)
    simp only
    rw [c1, c2]
    exact ⟨by simp, c3, c4⟩
  rw [if_neg a]
  by_cases b : r < 3*N
  · rw [if_pos b]
    rw [if_neg (by omega), if_pos (by omega)] at h4
    simp only
    refine ⟨?_, by omega, by omega⟩
    have p := Int.emod_add_mul_ediv (k - 1 + (r-N)/2) N
    have q := Int.emod_add_mul_ediv (k - 1 + (3*N-r)/2) N
    have p0 := Int.emod_nonneg (k - 1 + (r-N)/2) (show N ≠ 0 by omega)
    have p1 := Int.emod_lt_of_pos (k - 1 + (r-N)/2) (show 0 < N by omega)
    have q0 := Int.emod_nonneg (k - 1 + (3*N-r)/2) (show N ≠ 0 by omega)
    have q1 := Int.emod_lt_of_pos (k - 1 + (3*N-r)/2) (show 0 < N by omega)
    generalize (k - 1 + (r-N)/2)/N = A at *
    generalize (k - 1 + (3*N-r)/2)/N = B at *
    have d1 : N*(B - A) < N*2 := by
      have : N*B - N*A < N*2 := by omega
      linarith
    have d2 : N*(-2) < N*(B - A) := by
      have : N*(-2) < N*B - N*A := by omega
      linarith
    have e1 := lt_of_mul_lt_mul_left d1 (by omega)
    have e2 := lt_of_mul_lt_mul_left d2 (by omega)
    rw [abs_le]; omega
  · rw [if_neg b]
    obtain ⟨c1, c2, c3, c4⟩ := cap (4*N-r) (by omega) (by omega) (by split_ifs at h4 <;> omega)
    simp only
    rw [c1, c2]
    refine ⟨by simp, by linarith, by linarith⟩

/-- C07, the pairs of the code: for every pixel of the map, whatever the resolution and wherever the pixel is (pole,
edge or corner of a facet, either side of the zero meridian), outside the two exceptions `hnw` (the north-western
edge of a northern facet) and `h1` (the belt of the map of 12 pixels), every pair names a pixel that touches the
pixel on the sphere, and every pixel that touches it is named. Missing: the two exceptions, at which it is false
(`C07_violated_edge`, `C07_violated_one`). -/
theorem C07_pairs_partial (N i j : ℤ) (hN : 1 ≤ N) (ha : OnMap N (i, j))
    (hnw : ¬ (j/N = i/N + 1 ∧ i % N = 0 ∧ j - i + 1 ≠ 2*N)) (h1 : ¬ (N = 1 ∧ j/N = i/N)) :
    (∀ q ∈ (neighCases i j N).map (neighWrap N), OnMap N q ∧ SkyTouch N (i, j) q) ∧
    ∀ b, OnMap N b → SkyTouch N (i, j) b → ∃ q ∈ (neighCases i j N).map (neighWrap N), SamePix N q b :=
  pairs_good (by omega) ha hnw h1

/-- C07, the arrays that are returned: they are sorted and without repetition; every entry of the first (second) is
the first (second) star index of a pixel that touches the given one on the sphere; and both star indices of every
pixel that touches it are in the arrays. Missing: which entry of the one belongs to which entry of the other
(`C07_violated`), and the two exceptions of `C07_pairs_partial`. -/
theorem C07_arrays_partial (N i j : ℤ) (hN : 1 ≤ N) (ha : OnMap N (i, j))
    (hnw : ¬ (j/N = i/N + 1 ∧ i % N = 0 ∧ j - i + 1 ≠ 2*N)) (h1 : ¬ (N = 1 ∧ j/N = i/N)) :
    let out := neighbours i j N
    out.1.Pairwise (· < ·) ∧ out.2.Pairwise (· < ·) ∧
    (∀ x ∈ out.1, ∃ y ∈ out.2, OnMap N (x, y) ∧ SkyTouch N (i, j) (x, y)) ∧
    (∀ y ∈ out.2, ∃ x ∈ out.1, OnMap N (x, y) ∧ SkyTouch N (i, j) (x, y)) ∧
    ∀ b, OnMap N b → SkyTouch N (i, j) b → ∃ n : ℤ, b.1 + 4*N*n ∈ out.1 ∧ b.2 + 4*N*n ∈ out.2 := by
  obtain ⟨g1, g2⟩ := C07_pairs_partial N i j hN ha hnw h1
  unfold neighbours
  simp only
  refine ⟨unique_sorted _, unique_sorted _, ?_, ?_, ?_⟩
  · intro x hx
    rw [mem_unique, List.mem_map] at hx
    obtain ⟨q, hq, rfl⟩ := hx
    exact ⟨q.2, (mem_unique _ _).mpr (List.mem_map_of_mem hq), g1 q hq⟩
  · intro x hx
    rw [mem_unique, List.mem_map] at hx
    obtain ⟨q, hq, rfl⟩ := hx
    exact ⟨q.1, (mem_unique _ _).mpr (List.mem_map_of_mem hq), g1 q hq⟩
  · intro b hb ht
    obtain ⟨q, hq, hs⟩ := g2 b hb ht
    obtain ⟨n, rfl⟩ := hs.symm
    exact ⟨n, (mem_unique _ _).mpr (List.mem_map_of_mem hq), (mem_unique _ _).mpr (List.mem_map_of_mem hq)⟩

/-- Every case of the code is met by a pixel of the map `N = 4` that is not one of the exceptions: the pole, its
southern counterpart, the two corners of the belt, the four edges of the caps (the north-western one at the pole
only), and the inside. -/
example : ∀ q ∈ ([(0, 7), (7, 0), (4, 7), (7, 4), (5, 0), (1, 7), (7, 1), (5, 5), (0, 3), (3, 0)] : List (ℤ × ℤ)),
    OnMap 4 q ∧ ¬ (q.2/4 = q.1/4 + 1 ∧ q.1 % 4 = 0 ∧ q.2 - q.1 + 1 ≠ 2*4) ∧ ¬ ((4:ℤ) = 1 ∧ q.2/4 = q.1/4) := by
  unfold OnMap facet
  decide

private theorem raw_bound {N i j : ℤ} (hN : 1 ≤ N) : ∀ q ∈ neighCases i j N, |q.1 + q.2 - (i + j)| ≤ 4*N + 2 := by
  have di := Int.emod_add_mul_ediv i N
  have dj := Int.emod_add_mul_ediv j N
  have i0 := Int.emod_nonneg i (show N ≠ 0 by omega)
  have i1 := Int.emod_lt_of_pos i (show 0 < N by omega)
  have j0 := Int.emod_nonneg j (show N ≠ 0 by omega)
  have j1 := Int.emod_lt_of_pos j (show 0 < N by omega)
  have hi : N*(i/N + 1) = N*(i/N) + N := by ring
  have hj : N*(j/N + 1) = N*(j/N) + N := by ring
  intro q hq
  unfold neighCases at hq
  rw [abs_le]
  split_ifs at hq <;> simp only [List.mem_cons, List.not_mem_nil, or_false] at hq <;>
    rcases hq with rfl | rfl | rfl | rfl | rfl | rfl | rfl | rfl <;> simp only [hi, hj] <;> constructor <;> omega

/-- C07, the names: for a pixel given by its own star indices, every pair is the pair of star indices of a pixel of
the map, unless its sum is `9N - 1`. Missing: the sum `9N - 1` (`C07_violated_wrap`) and the two exceptions of
`C07_pairs_partial`. -/
theorem C07_names_partial (N r k i j : ℤ) (hv : ValidRing N r k) (hs : starOf N r k = (i, j))
    (hnw : ¬ (j/N = i/N + 1 ∧ i % N = 0 ∧ j - i + 1 ≠ 2*N)) (h1 : ¬ (N = 1 ∧ j/N = i/N)) :
    ∀ q ∈ (neighCases i j N).map (neighWrap N), q.1 + q.2 = 9*N - 1 ∨ ∃ r' k', ValidRing N r' k' ∧ starOf N r' k' = q := by
  have hN : 1 ≤ N := by have := hv.1; have := hv.2.1; omega
  obtain ⟨ha, s1, s2⟩ := C07_star_range N r k hv
  rw [hs] at ha s1 s2
  simp only at s1 s2
  intro q' hq'
  obtain ⟨g1, -⟩ := (C07_pairs_partial N i j hN ha hnw h1).1 q' hq'
  obtain ⟨q, hq, rfl⟩ := List.mem_map.mp hq'
  have hb := raw_bound hN q hq
  rw [abs_le] at hb
  have hr : N - 1 ≤ (neighWrap N q).1 + (neighWrap N q).2 ∧ (neighWrap N q).1 + (neighWrap N q).2 ≤ 9*N - 1 := by
    unfold neighWrap
    simp only
    by_cases c : q.1 + q.2 > 9*N - 1
    · simp only [if_pos c]
      split_ifs with d <;> (try simp only at d) <;> constructor <;> simp only <;> omega
    · simp only [if_neg c]
      split_ifs with d <;> constructor <;> (try simp only) <;> omega
  generalize neighWrap N q = w at *
  obtain ⟨x, y⟩ := w
  simp only at hr ⊢
  by_cases e : x + y = 9*N - 1
  · exact Or.inl e
  have hr' : x + y ≤ 9*N - 2 := by omega
  right
  obtain ⟨r', k', t, hv', e'⟩ := cell_exists hN (a := x) (b := y) (by
    obtain ⟨a1, a2, a3, a4, a5⟩ := onMap_cases (by omega) g1
    simp only at a1 a2 a3 a4 a5
    by_cases c : |y - x| < N
    · exact Or.inl c
    right
    have c' : N ≤ y - x ∨ N ≤ x - y := by
      rw [abs_lt] at c; omega
    rcases c' with c' | c'
    · left
      refine ⟨x/N, by omega, ?_, c'⟩
      rcases a5 with a5 | a5 | a5
      all_goals omega
    · right
      refine ⟨y/N, by omega, ?_, c'⟩
      rcases a5 with a5 | a5 | a5
      all_goals omega)
  obtain ⟨-, b1, b2⟩ := C07_star_range N r' k' hv'
  rw [e'] at b1 b2
  simp only at b1 b2
  have ht : t = 0 := by
    have h1 : t < 1 := by by_contra hc; push Not at hc; nlinarith
    have h2 : -1 < t := by by_contra hc; push Not at hc; nlinarith
    omega
  subst ht
  exact ⟨r', k', hv', by rw [e']; simp⟩

/-- The hypotheses are met on the map of `nside = 4` by the first pixel of the ring on the equator. -/
example : ValidRing 4 8 1 ∧ starOf 4 8 1 = (2, 2) := by
  unfold ValidRing ringLen
  decide

private theorem wrap_fst (N : ℤ) (q : ℤ × ℤ) : ∃ t : ℤ, (neighWrap N q).1 = q.1 + 4*N*t := by
  obtain ⟨n, h⟩ := neighWrap_same N q
  exact ⟨n, by rw [h]⟩

/-- C07 is violated on the north-western edge of every northern facet (the pole pixel excepted): a pixel of the map
touches the given one, but its first star index is not in the array that is returned, under any of its names. -/
theorem C07_violated_edge (N i j : ℤ) (hN : 1 ≤ N) (hf : j/N = i/N + 1) (hi : i % N = 0) (hp : j - i + 1 ≠ 2*N) :
    ∃ b, OnMap N b ∧ SkyTouch N (i, j) b ∧ ∀ n : ℤ, b.1 + 4*N*n ∉ (neighbours i j N).1 := by
  have ha : OnMap N (i, j) := by unfold OnMap facet; simp [hf]
  have hN0 : 0 < N := by omega
  have di := Int.emod_add_mul_ediv i N
  have dj := Int.emod_add_mul_ediv j N
  have j0 := Int.emod_nonneg j (show N ≠ 0 by omega)
  have j1 := Int.emod_lt_of_pos j hN0
  have hB : N*(j/N) = i + N := by rw [hf, mul_add]; omega
  have hgood := good_NW hN0 ha hf (by omega) (by omega)
  obtain ⟨g1, g2⟩ := hgood.1 (neighWrap N (i - ((j+2) - N*(j/N)), N*(j/N) - 1)) (List.mem_map_of_mem (by simp))
  refine ⟨_, g1, g2, fun n hn => ?_⟩
  obtain ⟨t, ht⟩ := wrap_fst N (i - ((j+2) - N*(j/N)), N*(j/N) - 1)
  rw [ht] at hn
  have hcase : neighCases i j N = [(i, j-1), (i+1, j-1), (i+1, j), (i, j+1), (i+1, j+1),
      (i - ((j+1) - N*(j/N)), N*(j/N) - 1), (i - (j - N*(j/N)), N*(j/N) - 1),
      (i - ((j-1) - N*(j/N)), N*(j/N) - 1)] := by
    have hE : N*(i/N + 1) = i + N := by rw [mul_add]; omega
    unfold neighCases
    rw [if_neg hp, if_neg (by omega), if_neg (by omega), if_neg (by omega), if_pos ⟨hi, by omega⟩]
  unfold neighbours at hn
  simp only [hcase] at hn
  rw [mem_unique, List.mem_map] at hn
  obtain ⟨q', hq', e⟩ := hn
  obtain ⟨q, hq, rfl⟩ := List.mem_map.mp hq'
  obtain ⟨u, hu⟩ := wrap_fst N q
  rw [hu] at e
  have hx : q.1 = i ∨ q.1 = i + 1 ∨ q.1 = i - (j + 1 - (i + N)) ∨ q.1 = i - (j - (i + N)) ∨
      q.1 = i - (j - 1 - (i + N)) := by
    rw [hB] at hq
    simp only [List.mem_cons, List.not_mem_nil, or_false] at hq
    rcases hq with rfl | rfl | rfl | rfl | rfl | rfl | rfl | rfl <;> simp
  simp only [hB] at e
  -- the difference is a multiple of 4N and too small
  have key : 4*N*(t + n - u) = q.1 - (i - (j + 2 - (i + N))) := by linarith
  have hlo : 0 < q.1 - (i - (j + 2 - (i + N))) := by rcases hx with h | h | h | h | h <;> omega
  have hhi : q.1 - (i - (j + 2 - (i + N))) < 4*N := by rcases hx with h | h | h | h | h <;> omega
  rw [← key] at hlo hhi
  have l1 : 0 < t + n - u := by
    by_contra hc
    push Not at hc
    nlinarith
  have l2 : t + n - u < 1 := by
    by_contra hc
    push Not at hc
    nlinarith
  omega

/-- What is left of C07 on the north-western edge of a northern facet, `m = j % N` pixels from its western corner:
every pair but one names a pixel that touches, and every pixel that touches but one is named. The code is one step
off along the edge of the facet to the west. -/
theorem C07_edge_partial (N i j : ℤ) (hN : 1 ≤ N) (hf : j/N = i/N + 1) (hi : i % N = 0) (hp : j - i + 1 ≠ 2*N) :
    (∀ q ∈ (neighCases i j N).map (neighWrap N), ¬ SamePix N (i - j % N + 1, N*(j/N) - 1) q →
      OnMap N q ∧ SkyTouch N (i, j) q) ∧
    ∀ b, OnMap N b → SkyTouch N (i, j) b → ¬ SamePix N (i - j % N - 2, N*(j/N) - 1) b →
      ∃ q ∈ (neighCases i j N).map (neighWrap N), SamePix N q b := by
  have ha : OnMap N (i, j) := by unfold OnMap facet; simp [hf]
  have hN0 : 0 < N := by omega
  have di := Int.emod_add_mul_ediv i N
  have dj := Int.emod_add_mul_ediv j N
  have j0 := Int.emod_nonneg j (show N ≠ 0 by omega)
  have j1 := Int.emod_lt_of_pos j hN0
  have hB : N*(j/N) = i + N := by rw [hf, mul_add]; omega
  have hgood := good_NW hN0 ha hf (by omega) (by omega)
  have hcase : neighCases i j N = [(i, j-1), (i+1, j-1), (i+1, j), (i, j+1), (i+1, j+1),
      (i - ((j+1) - N*(j/N)), N*(j/N) - 1), (i - (j - N*(j/N)), N*(j/N) - 1),
      (i - ((j-1) - N*(j/N)), N*(j/N) - 1)] := by
    have hE : N*(i/N + 1) = i + N := by rw [mul_add]; omega
    unfold neighCases
    rw [if_neg hp, if_neg (by omega), if_neg (by omega), if_neg (by omega), if_pos ⟨hi, by omega⟩]
  have em : j % N = j - N*(j/N) := by omega
  rw [hcase, em]
  constructor
  · intro q' hq' hx
    obtain ⟨q, hq, rfl⟩ := List.mem_map.mp hq'
    apply hgood.1
    apply List.mem_map_of_mem
    simp only [List.mem_cons, List.not_mem_nil, or_false] at hq ⊢
    rcases hq with h | h | h | h | h | h | h | h
    · exact Or.inl h
    · exact Or.inr (Or.inl h)
    · exact Or.inr (Or.inr (Or.inl h))
    · exact Or.inr (Or.inr (Or.inr (Or.inl h)))
    · exact Or.inr (Or.inr (Or.inr (Or.inr (Or.inl h))))
    · exact Or.inr (Or.inr (Or.inr (Or.inr (Or.inr (Or.inr (Or.inl h))))))
    · exact Or.inr (Or.inr (Or.inr (Or.inr (Or.inr (Or.inr (Or.inr h))))))
    · exfalso
      apply hx
      have e : q = (i - (j - N*(j/N)) + 1, N*(j/N) - 1) := by rw [h]; ext <;> simp only; ring
      rw [← e]
      exact neighWrap_same N q
  · intro b hb ht hx
    obtain ⟨q', hq', hs⟩ := hgood.2 b hb ht
    refine ⟨q', ?_, hs⟩
    obtain ⟨q, hq, rfl⟩ := List.mem_map.mp hq'
    apply List.mem_map_of_mem
    simp only [List.mem_cons, List.not_mem_nil, or_false] at hq ⊢
    rcases hq with h | h | h | h | h | h | h | h
    · exact Or.inl h
    · exact Or.inr (Or.inl h)
    · exact Or.inr (Or.inr (Or.inl h))
    · exact Or.inr (Or.inr (Or.inr (Or.inl h)))
    · exact Or.inr (Or.inr (Or.inr (Or.inr (Or.inl h))))
    · exfalso
      apply hx
      have e : q = (i - (j - N*(j/N)) - 2, N*(j/N) - 1) := by rw [h]; ext <;> simp only; ring
      rw [← e]
      exact (neighWrap_same N q).trans hs
    · exact Or.inr (Or.inr (Or.inr (Or.inr (Or.inr (Or.inl h)))))
    · exact Or.inr (Or.inr (Or.inr (Or.inr (Or.inr (Or.inr (Or.inl h))))))

/-- The hypotheses are met by a pixel of the map of `nside = 2`: the pixel `(0, 2)`, ring 2, number 1. -/
example : ValidRing 2 2 1 ∧ starOf 2 2 1 = (0, 2) ∧ (2:ℤ)/2 = 0/2 + 1 ∧ (0:ℤ) % 2 = 0 ∧ (2:ℤ) - 0 + 1 ≠ 2*2 := by
  unfold ValidRing ringLen
  decide

/-- C07 is violated in the belt of the map of 12 pixels: one of the pairs is not a pixel of the map. -/
theorem C07_violated_one (i : ℤ) : OnMap 1 (i, i) ∧
    ∃ q ∈ (neighCases i i 1).map (neighWrap 1), ¬ OnMap 1 q := by
  refine ⟨by unfold OnMap facet; simp, neighWrap 1 (i+1, i-1), List.mem_map_of_mem ?_, ?_⟩
  · unfold neighCases
    rw [if_neg (by omega), if_neg (by omega), if_pos (by omega)]
    simp
  · intro h
    have := onMap_same (by norm_num) (neighWrap_same 1 (i+1, i-1)).symm h
    unfold OnMap facet at this
    simp only [Int.ediv_one] at this
    rw [abs_le] at this
    omega

/-- C07 is violated at the zero meridian: at the eastern end of the star indices, `i + j = 9N - 2`, the pixel with
star indices `(i+1-4N, j-4N)` touches the given one, but its second star index is not in the array that is returned:
the wrap-around misses `i + j = 9N - 1`. -/
theorem C07_violated_wrap (N i j : ℤ) (hN : 1 ≤ N) (hI : FacetInterior N (i, j)) (hf : j/N = i/N)
    (hs : i + j = 9*N - 2) :
    (∃ r k, ValidRing N r k ∧ starOf N r k = (i + 1 - 4*N, j - 4*N)) ∧ SkyTouch N (i, j) (i + 1 - 4*N, j - 4*N) ∧
    j - 4*N ∉ (neighbours i j N).2 := by
  have hN0 : 0 < N := by omega
  have ha : OnMap N (i, j) := by unfold OnMap facet; simp [hf]
  obtain ⟨i1, i2, j1, j2⟩ := hI
  simp only [] at i1 i2 j1 j2
  have di := Int.emod_add_mul_ediv i N
  have dj := Int.emod_add_mul_ediv j N
  have hij : N*(j/N) = N*(i/N) := by rw [hf]
  have hgood := good_default hN0 ha (by omega) (by omega) (by omega) (by omega)
  have hw : neighWrap N (i+1, j) = (i+1, j) := by
    unfold neighWrap
    simp only
    rw [if_neg (show ¬ i + 1 + j > 9*N - 1 by omega), if_neg (by simp only; omega)]
  obtain ⟨g1, g2⟩ := hgood.1 (neighWrap N (i+1, j)) (List.mem_map_of_mem (by simp))
  rw [hw] at g1 g2
  refine ⟨?_, ?_, ?_⟩
  · obtain ⟨r, k, t, hv, e⟩ := cell_exists hN (a := i+1) (b := j) (Or.inl (by rw [abs_lt]; omega))
    obtain ⟨-, b1, b2⟩ := C07_star_range N r k hv
    rw [e] at b1 b2
    simp only at b1 b2
    have ht : t = -1 := by
      have h1 : t < 0 := by by_contra hc; push Not at hc; nlinarith
      have h2 : -2 < t := by by_contra hc; push Not at hc; nlinarith
      omega
    subst ht
    exact ⟨r, k, hv, by rw [e]; ext <;> simp only <;> ring⟩
  · exact skyTouch_same hN0 ha g1 ⟨-1, by ext <;> simp only <;> ring⟩ g2
  · have hn3 : (j + 1 - N) % N ≠ 0 := by
      have e : j + 1 - N = (j % N + 1) + N*(j/N - 1) := by linarith
      rw [e, Int.add_mul_emod_self_left, Int.emod_eq_of_lt (by omega) (by omega)]; omega
    have hn4 : (i + 1 - N) % N ≠ 0 := by
      have e : i + 1 - N = (i % N + 1) + N*(i/N - 1) := by linarith
      rw [e, Int.add_mul_emod_self_left, Int.emod_eq_of_lt (by omega) (by omega)]; omega
    have hcase : neighCases i j N = [(i-1, j-1), (i, j-1), (i+1, j-1), (i-1, j), (i+1, j),
        (i-1, j+1), (i, j+1), (i+1, j+1)] := by
      unfold neighCases
      rw [if_neg (by omega), if_neg (by omega), if_neg (by omega), if_neg (by omega), if_neg (by omega),
        if_neg (by omega), if_neg (by tauto), if_neg (by tauto)]
    unfold neighbours
    simp only [hcase]
    rw [mem_unique, List.mem_map]
    rintro ⟨q', hq', e⟩
    obtain ⟨q, hq, rfl⟩ := List.mem_map.mp hq'
    unfold neighWrap at e
    simp only [List.mem_cons, List.not_mem_nil, or_false] at hq
    rcases hq with rfl | rfl | rfl | rfl | rfl | rfl | rfl | rfl <;> simp only at e <;> split_ifs at e <;>
      simp only at * <;> omega

/-- The hypotheses are met on the map of `nside = 4`: the pixel `(17, 17)`, ring 8, number 16. -/
example : ValidRing 4 8 16 ∧ starOf 4 8 16 = (17, 17) ∧ FacetInterior 4 (17, 17) ∧ (17:ℤ)/4 = 17/4 ∧
    (17:ℤ) + 17 = 9*4 - 2 := by
  unfold ValidRing ringLen FacetInterior
  decide

end Magpie.Props
