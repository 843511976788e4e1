import Verif.Proof.RebinLocal
import Verif.Props.Conserve
import Verif.Props.RebinSelf

/-!
# Properties C146 and C147: a new bin depends only on the bins it overlaps; splitting bins and merging them again returns the
data
-/

set_option linter.unusedSimpArgs false
set_option linter.unusedVariables false
set_option linter.unusedSectionVars false

namespace Magpie.Props
open Magpie Magpie.OneD Magpie.Spec Finset

section
variable {K : Type} [Field K] [LinearOrder K] [IsStrictOrderedRing K]

theorem increasing_getD' {edges : List K} (hinc : Increasing edges) (i j : ℕ) (hij : i < j) (hj : j < edges.length) :
    edges.getD i 0 < edges.getD j 0 := by
  have := hinc i j (by omega) hj hij
  simpa [show i < edges.length by omega, hj] using this

theorem local_list {edges data data' : List K} (hlen : edges.length = data.length + 1) (hlen' : data'.length = data.length)
    (hinc : Increasing edges) {lo hi : K} (hlt : lo < hi) (hex : ∃ k, k < data.length ∧ 0 < binOverlap edges lo hi k)
    (hc : ∀ k, k < data.length → 0 < binOverlap edges lo hi k → data.getD k 0 = data'.getD k 0) :
    rebinSingleBin edges data lo hi = rebinSingleBin edges data' lo hi := by
  have hn : 0 < data.length := by obtain ⟨k, hk, _⟩ := hex; omega
  have hs : ∀ i j, i < j → j ≤ data.length → edges.getD i 0 < edges.getD j 0 :=
    fun i j hij hj => increasing_getD' hinc i j hij (by omega)
  have hm : ∀ i j, i ≤ j → j ≤ data.length → edges.getD i 0 ≤ edges.getD j 0 := by
    intro i j hij hj
    rcases hij.eq_or_lt with rfl | h
    · exact le_rfl
    · exact (hs i j h hj).le
  obtain ⟨L, R, W⟩ := exists_window (fun k => edges.getD k 0) data.length hm hlt.le
  have := single_local hn hs hlt W (fun k => data.getD k 0) (fun k => data'.getD k 0) hex hc
  have he := list_tab edges
  have h1 := list_tab data
  have h2 := list_tab data'
  rw [hlen] at he
  rw [hlen'] at h2
  rw [← he, ← h1, ← h2] at this
  exact this

/-- C146: if two data sets agree on all bins that a new bin overlaps over a positive length, they give the same value there,
for bins of any positive lengths. The new bin must overlap the data.

Partial: without overlap this is false, see `C146_touch_violated`. -/
theorem C146_local_partial (edges data data' newEdges : List K) (r r' : List (Option K))
    (h : rebin1d edges data newEdges none = .ok r) (h' : rebin1d edges data' newEdges none = .ok r')
    (hinc : Increasing edges) (i : ℕ) (lo hi : K) (hlo : newEdges[i]? = some lo) (hhi : newEdges[i+1]? = some hi)
    (hlt : lo < hi) (hex : ∃ k, k < data.length ∧ 0 < binOverlap edges lo hi k)
    (hc : ∀ k, k < data.length → 0 < binOverlap edges lo hi k → data.getD k 0 = data'.getD k 0) :
    r[i]? = r'[i]? := by
  obtain ⟨hlen, _, _, hf⟩ := rebin1d_ok h
  obtain ⟨hlen', _, _, hf'⟩ := rebin1d_ok h'
  obtain ⟨o, ho, hv⟩ := forall₂_get hf i _ (newBins_get hlo hhi)
  obtain ⟨o', ho', hv'⟩ := forall₂_get hf' i _ (newBins_get hlo hhi)
  simp only at hv hv'
  rw [local_list hlen (by omega) hinc hlt hex hc, hv'] at hv
  rw [ho, ho', Except.ok.inj hv]

/-- The third bin is not overlapped. -/
example : rebin1d (K := ℚ) [0, 1, 3, 4] [5, 2, 100] [1/2, 2] none
    = rebin1d (K := ℚ) [0, 1, 3, 4] [5, 2, -7] [1/2, 2] none := by decide +kernel

/-- C146 with weights: data and weights must agree on the overlapped bins. -/
theorem C146_weighted_partial (edges data data' w w' newEdges : List K) (r r' : List (Option K))
    (h : rebin1d edges data newEdges (some w) = .ok r) (h' : rebin1d edges data' newEdges (some w') = .ok r')
    (hinc : Increasing edges) (i : ℕ) (lo hi : K) (hlo : newEdges[i]? = some lo) (hhi : newEdges[i+1]? = some hi)
    (hlt : lo < hi) (hex : ∃ k, k < data.length ∧ 0 < binOverlap edges lo hi k)
    (hc : ∀ k, k < data.length → 0 < binOverlap edges lo hi k →
      data.getD k 0 = data'.getD k 0 ∧ w.getD k 0 = w'.getD k 0) :
    r[i]? = r'[i]? := by
  obtain ⟨hlen, _, _, hw, num, den, hn, hd, hr⟩ := rebin1d_ok h
  obtain ⟨hlen', _, _, hw', num', den', hn', hd', hr'⟩ := rebin1d_ok h'
  have hz : ∀ (a b : List K) (k : ℕ), k < a.length → k < b.length →
      (List.zipWith (· * ·) a b).getD k 0 = a.getD k 0*b.getD k 0 := by
    intro a b k ha hb
    simp [ha, hb]
  obtain ⟨o, ho, hv⟩ := forall₂_get hn i _ (newBins_get hlo hhi)
  obtain ⟨o', ho', hv'⟩ := forall₂_get hn' i _ (newBins_get hlo hhi)
  obtain ⟨q, hq, hu⟩ := forall₂_get hd i _ (newBins_get hlo hhi)
  obtain ⟨q', hq', hu'⟩ := forall₂_get hd' i _ (newBins_get hlo hhi)
  simp only at hv hv' hu hu'
  have hl : (List.zipWith (· * ·) data w).length = data.length := by simp [hw]
  rw [local_list (data' := List.zipWith (· * ·) data' w') (by rw [hl]; exact hlen) (by simp; omega) hinc hlt
    (by rw [hl]; exact hex) (by
      intro k hk hko
      rw [hl] at hk
      obtain ⟨e1, e2⟩ := hc k hk hko
      rw [hz _ _ k hk (by omega), hz _ _ k (by omega) (by omega), e1, e2]), hv'] at hv
  rw [local_list (data' := w') (by omega) (by omega) hinc hlt (by rw [hw]; exact hex)
    (fun k hk hko => (hc k (by omega) hko).2), hu'] at hu
  rw [hr, hr', List.getElem?_zipWith, List.getElem?_zipWith, ho, ho', hq, hq', Except.ok.inj hv, Except.ok.inj hu]

/-- The value and the weight of the third bin do not matter. -/
example : rebin1d (K := ℚ) [0, 1, 3, 4] [5, 2, 100] [1/2, 2] (some [1, 2, 3])
    = rebin1d (K := ℚ) [0, 1, 3, 4] [5, 2, -7] [1/2, 2] (some [1, 2, 0]) := by decide +kernel

/-- The claim fails for a new bin that only touches the data: it gets the value of the bin that it touches. -/
theorem C146_touch_violated (a b x : K) (hab : a < b) (lo : K) (hlo : lo < a) :
    rebin1d [a, b] [x] [lo, a] none = .ok [some x] ∧ binOverlap [a, b] lo a 0 = 0 := by
  constructor
  · simp [rebin1d, pyAssert, isPosMonotonic, hab.le, hlo.le, newBins, pyMap, rebinSingleBin, condition, whereIdx, whereFrom,
      getZ, bind, Except.bind, pure, Except.pure, not_le.mpr hab, not_le.mpr hlo]
  · unfold binOverlap overlap
    simp [hab.le, hlo.le]

theorem const_list {edges data : List K} (hlen : edges.length = data.length + 1) (hinc : Increasing edges) {lo hi : K}
    (hlt : lo < hi) (c : K) (hex : ∃ k, k < data.length ∧ 0 < binOverlap edges lo hi k)
    (hc : ∀ k, k < data.length → 0 < binOverlap edges lo hi k → data.getD k 0 = c) :
    rebinSingleBin edges data lo hi = .ok (some c) := by
  have hn : 0 < data.length := by obtain ⟨k, hk, _⟩ := hex; omega
  have hrep : ∀ k, k < data.length → (List.replicate data.length c).getD k 0 = c := by
    intro k hk
    simp [hk]
  rw [local_list hlen (data' := List.replicate data.length c) (by simp) hinc hlt hex
    (fun k hk h => by rw [hc k hk h, hrep k hk])]
  have hs : ∀ i j, i < j → j ≤ data.length → edges.getD i 0 < edges.getD j 0 :=
    fun i j hij hj => increasing_getD' hinc i j hij (by omega)
  have hm : isPosMonotonic edges = true := (isPosMonotonic_iff edges).mpr fun i j hi hj hij => by
    rcases hij.eq_or_lt with rfl | h
    · exact le_rfl
    · exact (hinc i j hi hj h).le
  rcases single_list edges data hlen hn hm lo hi hlt.le with ⟨ω, _, h2, h3, _⟩ | ⟨_, h2⟩
  · rw [h3 _ (by simp)]
    have : ∑ k ∈ range data.length, ω k*(List.replicate data.length c).getD k 0 = c*∑ k ∈ range data.length, ω k := by
      rw [Finset.mul_sum]
      refine Finset.sum_congr rfl fun k hk => ?_
      rw [hrep k (Finset.mem_range.mp hk), mul_comm]
    rw [this, mul_div_assoc, div_self h2.ne', mul_one]
  · exfalso
    obtain ⟨k, hk, hko⟩ := hex
    unfold binOverlap overlap at hko
    have h' := (lt_max_iff.mp hko).resolve_left (lt_irrefl _)
    rw [sub_pos, max_lt_iff, lt_min_iff, lt_min_iff] at h'
    have hle : ∀ i j, i ≤ j → j ≤ data.length → edges.getD i 0 ≤ edges.getD j 0 := by
      intro i j hij hj
      rcases hij.eq_or_lt with rfl | h
      · exact le_rfl
      · exact (hs i j h hj).le
    rcases h2 hs hlt with h | h
    · exact absurd (h'.1.2.trans h) (not_lt.mpr (hle 0 k (by omega) (by omega)))
    · exact absurd (h.trans h'.2.1) (not_lt.mpr (hle (k+1) data.length (by omega) le_rfl))

/-- If every new bin overlaps the data, and its overlapped bins have one value, these values are the result. -/
theorem rebin_const {edges data newEdges : List K} (hlen : edges.length = data.length + 1) (hd : data ≠ [])
    (hinc : Increasing edges) (hinc' : Increasing newEdges) (m : ℕ) (hm : newEdges.length = m + 1) (c : ℕ → K)
    (hex : ∀ i, i < m → ∃ k, k < data.length ∧ 0 < binOverlap edges (newEdges.getD i 0) (newEdges.getD (i+1) 0) k)
    (hc : ∀ i, i < m → ∀ k, k < data.length →
      0 < binOverlap edges (newEdges.getD i 0) (newEdges.getD (i+1) 0) k → data.getD k 0 = c i) :
    rebin1d edges data newEdges none = .ok ((List.range m).map fun i => some (c i)) := by
  have mono : ∀ {l : List K}, Increasing l → ∀ i j (hi : i < l.length) (hj : j < l.length), i ≤ j → l[i] ≤ l[j] := by
    intro l hl i j hi hj hij
    rcases hij.eq_or_lt with rfl | h
    · exact le_rfl
    · exact (hl i j hi hj h).le
  obtain ⟨r, h1, h2⟩ := C44_accepts_partial edges data newEdges none hlen hd (mono hinc) (mono hinc') (by simp)
  obtain ⟨_, _, _, hf⟩ := rebin1d_ok h1
  rw [h1]
  congr 1
  apply List.ext_getElem?
  intro i
  rcases Nat.lt_or_ge i m with hi | hi
  · obtain ⟨o, ho, hv⟩ := forall₂_get hf i _ (newBins_get (a := newEdges.getD i 0) (b := newEdges.getD (i+1) 0)
      (by simp [show i < newEdges.length by omega]) (by simp [show i + 1 < newEdges.length by omega]))
    simp only at hv
    rw [const_list hlen hinc (increasing_getD' hinc' i (i+1) (by omega) (by omega)) (c i) (hex i hi) (hc i hi)] at hv
    rw [ho, ← Except.ok.inj hv]
    simp [hi]
  · rw [List.getElem?_eq_none (by omega), List.getElem?_eq_none (by simpa using hi)]

/-- C147: bins of any positive lengths are split by adding edges between the first and the last. Each short bin gets the
value of the bin it lies in, and rebinning the short bins onto the old bins returns the data. -/
theorem C147_split_merge (edges data fine : List K) (hlen : edges.length = data.length + 1) (hd : data ≠ [])
    (hinc : Increasing edges) (hincf : Increasing fine) (hsub : ∀ e ∈ edges, e ∈ fine)
    (hfirst : fine.head? = edges.head?) (hlast : fine.getLast? = edges.getLast?) :
    ∃ v : List K, rebin1d edges data fine none = .ok (v.map some) ∧ fine.length = v.length + 1 ∧
      (∀ i, i < v.length → ∃ k, k < data.length ∧ edges.getD k 0 ≤ fine.getD i 0 ∧
        fine.getD (i+1) 0 ≤ edges.getD (k+1) 0) ∧
      (∀ i k, i < v.length → k < data.length → edges.getD k 0 ≤ fine.getD i 0 →
        fine.getD (i+1) 0 ≤ edges.getD (k+1) 0 → v.getD i 0 = data.getD k 0) ∧
      rebin1d fine v edges none = .ok (data.map some) := by
  have hn : 0 < data.length := List.length_pos_iff.mpr hd
  have he := increasing_getD' hinc
  have hq := increasing_getD' hincf
  have hfl : fine.length ≠ 0 := by
    intro h0
    rw [List.eq_nil_of_length_eq_zero h0, List.head?_nil, List.head?_eq_getElem?,
      List.getElem?_eq_getElem (by omega)] at hfirst
    cases hfirst
  obtain ⟨m, hm⟩ : ∃ m, fine.length = m + 1 := ⟨fine.length - 1, by omega⟩
  have he' : ∀ i j, i ≤ j → j ≤ data.length → edges.getD i 0 ≤ edges.getD j 0 := by
    intro i j hij hj
    rcases hij.eq_or_lt with rfl | h
    · exact le_rfl
    · exact (he i j h (by omega)).le
  have hq' : ∀ i j, i ≤ j → j ≤ m → fine.getD i 0 ≤ fine.getD j 0 := by
    intro i j hij hj
    rcases hij.eq_or_lt with rfl | h
    · exact le_rfl
    · exact (hq i j h (by omega)).le
  have f0 : fine.getD 0 0 = edges.getD 0 0 := by
    rw [List.head?_eq_getElem?, List.head?_eq_getElem?] at hfirst
    rw [List.getD_eq_getElem?_getD, List.getD_eq_getElem?_getD, hfirst]
  have f1 : fine.getD m 0 = edges.getD data.length 0 := by
    rw [List.getLast?_eq_getElem?, List.getLast?_eq_getElem?, hm, hlen, Nat.add_sub_cancel, Nat.add_sub_cancel] at hlast
    rw [List.getD_eq_getElem?_getD, List.getD_eq_getElem?_getD, hlast]
  -- an old edge is a new edge
  have hidx : ∀ k, k ≤ data.length → ∃ j, j ≤ m ∧ edges.getD k 0 = fine.getD j 0 := by
    intro k hk
    have hk' : k < edges.length := by omega
    obtain ⟨j, hj, hj'⟩ := List.mem_iff_getElem.mp (hsub _ (List.getElem_mem hk'))
    refine ⟨j, by omega, ?_⟩
    simp [hk', hj, hj']
  -- a short bin that overlaps an old bin lies in it
  have hins : ∀ i k, i < m → k < data.length →
      0 < overlap (edges.getD k 0) (edges.getD (k+1) 0) (fine.getD i 0) (fine.getD (i+1) 0) →
      edges.getD k 0 ≤ fine.getD i 0 ∧ fine.getD (i+1) 0 ≤ edges.getD (k+1) 0 := by
    intro i k hi hk h
    unfold overlap at h
    have h' := (lt_max_iff.mp h).resolve_left (lt_irrefl _)
    rw [sub_pos, max_lt_iff, lt_min_iff, lt_min_iff] at h'
    obtain ⟨j, hj, ej⟩ := hidx k (by omega)
    obtain ⟨j', hj', ej'⟩ := hidx (k+1) (by omega)
    have a := h'.1.2
    have b := h'.2.1
    rw [ej] at a
    rw [ej'] at b
    rw [ej, ej']
    constructor
    · apply hq' _ _ _ (by omega)
      by_contra hlt
      exact absurd a (not_lt.mpr (hq' (i+1) j (by omega) hj))
    · apply hq' _ _ _ hj'
      by_contra hlt
      exact absurd b (not_lt.mpr (hq' j' i (by omega) (by omega)))
  -- a short bin lies in one old bin only
  have huniq : ∀ i k k', i < m → k < data.length → k' < data.length →
      edges.getD k 0 ≤ fine.getD i 0 → fine.getD (i+1) 0 ≤ edges.getD (k+1) 0 →
      edges.getD k' 0 ≤ fine.getD i 0 → fine.getD (i+1) 0 ≤ edges.getD (k'+1) 0 → k = k' := by
    have key : ∀ i k k', i < m → k < data.length → k' < data.length → fine.getD (i+1) 0 ≤ edges.getD (k+1) 0 →
        edges.getD k' 0 ≤ fine.getD i 0 → ¬ k < k' := by
      intro i k k' hi hk hk' h1 h2 hlt
      have h3 := he' (k+1) k' hlt (by omega)
      have h4 := hq i (i+1) (by omega) (by omega)
      exact absurd (h1.trans (h3.trans h2)) (not_le.mpr h4)
    intro i k k' hi hk hk' a b a' b'
    have := key i k k' hi hk hk' b a'
    have := key i k' k hi hk' hk b' a
    omega
  have hex1 : ∀ i, i < m → ∃ k, k < data.length ∧ 0 < binOverlap edges (fine.getD i 0) (fine.getD (i+1) 0) k := by
    intro i hi
    by_contra hno
    have hs := sum_overlap (hq' i (i+1) (by omega) (by omega)) (fun k => edges.getD k 0) data.length
      (fun k hk => he' k (k+1) (by omega) (by omega)) (by rw [← f0]; exact hq' 0 i (by omega) (by omega))
      (by rw [← f1]; exact hq' (i+1) m (by omega) (by omega))
    have hlt := hq i (i+1) (by omega) (by omega)
    rw [← sub_pos, ← hs] at hlt
    refine absurd hlt (not_lt.mpr (Finset.sum_nonpos fun k hk => not_lt.mp fun h => hno ⟨k, Finset.mem_range.mp hk, ?_⟩))
    rw [overlap_comm'] at h
    exact h
  have hex2 : ∀ k, k < data.length → ∃ i, i < m ∧ 0 < binOverlap fine (edges.getD k 0) (edges.getD (k+1) 0) i := by
    intro k hk
    by_contra hno
    have hs := sum_overlap (he' k (k+1) (by omega) (by omega)) (fun i => fine.getD i 0) m
      (fun i hi => hq' i (i+1) (by omega) (by omega)) (by rw [f0]; exact he' 0 k (by omega) (by omega))
      (by rw [f1]; exact he' (k+1) data.length (by omega) le_rfl)
    have hlt := he k (k+1) (by omega) (by omega)
    rw [← sub_pos, ← hs] at hlt
    refine absurd hlt (not_lt.mpr (Finset.sum_nonpos fun i hi => not_lt.mp fun h => hno ⟨i, Finset.mem_range.mp hi, ?_⟩))
    rw [overlap_comm'] at h
    exact h
  choose! p hp1 hp2 using hex1
  set v := (List.range m).map fun i => data.getD (p i) 0 with hv
  have hvl : v.length = m := by simp [hv]
  have hvD : ∀ i, i < m → v.getD i 0 = data.getD (p i) 0 := by
    intro i hi
    rw [List.getD_eq_getElem?_getD, hv, List.getElem?_map, List.getElem?_range hi]
    rfl
  have hpin : ∀ i, i < m → edges.getD (p i) 0 ≤ fine.getD i 0 ∧ fine.getD (i+1) 0 ≤ edges.getD (p i + 1) 0 :=
    fun i hi => hins i (p i) hi (hp1 i hi) (hp2 i hi)
  refine ⟨v, ?_, by omega, fun i hi => ⟨p i, hp1 i (by omega), hpin i (by omega)⟩, ?_, ?_⟩
  · rw [rebin_const hlen hd hinc hincf m hm (fun i => data.getD (p i) 0) (fun i hi => ⟨p i, hp1 i hi, hp2 i hi⟩) ?_, hv,
      List.map_map]
    · rfl
    · intro i hi k hk h
      have := hins i k hi hk h
      rw [huniq i k (p i) hi hk (hp1 i hi) this.1 this.2 (hpin i hi).1 (hpin i hi).2]
  · intro i k hi hk a b
    rw [hvl] at hi
    rw [hvD i hi, huniq i k (p i) hi hk (hp1 i hi) a b (hpin i hi).1 (hpin i hi).2]
  · have hv0 : v ≠ [] := by
      intro h0
      have := congrArg List.length h0
      rw [hvl, List.length_nil] at this
      obtain ⟨i, hi, _⟩ := hex2 0 hn
      omega
    rw [rebin_const (by omega) hv0 hincf hinc data.length hlen (fun k => data.getD k 0)
      (fun k hk => by rw [hvl]; exact hex2 k hk) ?_]
    · congr 1
      apply List.ext_getElem
      · simp
      · intro i h1 h2
        simp at h1
        simp [h1]
    · intro k hk i hi h
      rw [hvl] at hi
      unfold binOverlap at h
      rw [overlap_comm'] at h
      have := hins i k hi hk h
      rw [hvD i hi, huniq i k (p i) hi hk (hp1 i hi) this.1 this.2 (hpin i hi).1 (hpin i hi).2]

/-- Bins of lengths 1 and 3, split into two and three bins of different lengths. -/
example : rebin1d (K := ℚ) [0, 1, 4] [5, 7] [0, 1/2, 1, 2, 5/2, 4] none = .ok ([5, 5, 7, 7, 7].map some) ∧
    rebin1d (K := ℚ) [0, 1/2, 1, 2, 5/2, 4] [5, 5, 7, 7, 7] [0, 1, 4] none = .ok ([5, 7].map some) := by
  constructor <;> decide +kernel

/-- C147 with weights that are not zero: the weights and the weighted data are split, and merged with the split weights. -/
theorem C147_weighted (edges data w fine : List K) (hlen : edges.length = data.length + 1) (hd : data ≠ [])
    (hw : w.length = data.length) (hw0 : ∀ k, k < w.length → w.getD k 0 ≠ 0)
    (hinc : Increasing edges) (hincf : Increasing fine) (hsub : ∀ e ∈ edges, e ∈ fine)
    (hfirst : fine.head? = edges.head?) (hlast : fine.getLast? = edges.getLast?) :
    ∃ v u : List K, rebin1d edges w fine none = .ok (u.map some) ∧
      rebin1d edges data fine (some w) = .ok (v.map some) ∧
      rebin1d edges data fine none = .ok (v.map some) ∧
      rebin1d fine v edges (some u) = .ok (data.map some) := by
  have hl : (List.zipWith (· * ·) data w).length = data.length := by simp [hw]
  have hz0 : ∀ (a b : List K) (k : ℕ), k < a.length → k < b.length →
      (List.zipWith (· * ·) a b).getD k 0 = a.getD k 0*b.getD k 0 := by
    intro a b k ha hb
    simp [ha, hb]
  have hne : ∀ {l : List K}, l.length = data.length → l ≠ [] := by
    rintro l h rfl
    exact hd (List.eq_nil_of_length_eq_zero h.symm)
  obtain ⟨v, v1, v2, v3, v4, v5⟩ := C147_split_merge edges data fine hlen hd hinc hincf hsub hfirst hlast
  obtain ⟨u, u1, u2, u3, u4, u5⟩ := C147_split_merge edges w fine (by omega) (hne hw) hinc hincf hsub hfirst hlast
  obtain ⟨z, z1, z2, z3, z4, z5⟩ := C147_split_merge edges (List.zipWith (· * ·) data w) fine (by rw [hl]; exact hlen)
    (hne hl) hinc hincf hsub hfirst hlast
  have hu0 : ∀ i, i < u.length → u.getD i 0 ≠ 0 := by
    intro i hi
    obtain ⟨k, hk, a, b⟩ := u3 i hi
    rw [u4 i k hi hk a b]
    exact hw0 k hk
  have hzv : z = List.zipWith (· * ·) v u := by
    apply List.ext_getElem
    · simp; omega
    · intro i h1 h2
      obtain ⟨k, hk, a, b⟩ := v3 i (by omega)
      have e1 := v4 i k (by omega) hk a b
      have e2 := u4 i k (by omega) (by omega) a b
      have e3 := z4 i k h1 (by omega) a b
      rw [hz0 _ _ k hk (by omega), ← e1, ← e2] at e3
      have hv : i < v.length := by omega
      have hu : i < u.length := by omega
      simpa [h1, hv, hu] using e3
  have hquot : ∀ (a b : List K), a.length = b.length → (∀ i, i < b.length → b.getD i 0 ≠ 0) →
      List.zipWith odiv ((List.zipWith (· * ·) a b).map some) (b.map some) = a.map some := by
    intro a b hab hb
    apply List.ext_getElem
    · simp; omega
    · intro i h1 h2
      have ha : i < a.length := by simpa using h2
      have hb1 : i < b.length := by omega
      have := hb i hb1
      simp [hb1] at this
      simp [odiv, fdiv, this]
  obtain ⟨_, m1, m2, fz⟩ := rebin1d_ok z1
  obtain ⟨_, _, _, fu⟩ := rebin1d_ok u1
  rw [hzv] at z5
  obtain ⟨_, n1, n2, gz⟩ := rebin1d_ok z5
  obtain ⟨_, _, _, gu⟩ := rebin1d_ok u5
  refine ⟨v, u, u1, ?_, v1, ?_⟩
  · rw [rebin1d_some hlen m1 m2 hw fz fu, hzv, hquot v u (by omega) hu0]
  · rw [rebin1d_some v2 n1 n2 (by omega) gz gu, hquot data w hw.symm hw0]

/-- Bins of lengths 1 and 3 with weights 2 and 3. -/
example : rebin1d (K := ℚ) [0, 1, 4] [5, 7] [0, 1/2, 1, 2, 4] (some [2, 3]) = .ok ([5, 5, 7, 7].map some) ∧
    rebin1d (K := ℚ) [0, 1/2, 1, 2, 4] [5, 5, 7, 7] [0, 1, 4] (some [2, 2, 3, 3]) = .ok ([5, 7].map some) := by
  constructor <;> decide +kernel

end

end Magpie.Props
