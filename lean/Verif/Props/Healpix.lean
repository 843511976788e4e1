import Verif.Proof.HealpixJac

/-!
# Properties C01-C11: HEALPix indexing and projection
-/

set_option linter.unusedSimpArgs false

namespace Magpie.Props
open Magpie Magpie.Healpix Magpie.Spec Real

/-! ## C01, C02, C03 -/

/-- C01: converting any pixel to its ring pair and back succeeds and gives the pixel back. -/
theorem C01_pix_ring_pix (N p : ℤ) (hN : 1 ≤ N) (hp : ValidPix N p) :
    ∃ i j, pix2ij p N = .ok (i, j) ∧ ij2pix i j N = p := by
  obtain ⟨i, j, hv, he⟩ := exists_ij hN hp
  exact ⟨i, j, by rw [← he]; exact pix2ij_ij2pix hv, he⟩

example : ValidPix 7 301 := by constructor <;> norm_num

/-- C02 (range): the ring pair of a pixel is a valid ring pair. -/
theorem C02_range (N p i j : ℤ) (hN : 1 ≤ N) (hp : ValidPix N p) (h : pix2ij p N = .ok (i, j)) :
    ValidRing N i j := by
  obtain ⟨i', j', hv, he⟩ := exists_ij hN hp
  have := pix2ij_ij2pix hv
  rw [he, h] at this
  simp only [Except.ok.injEq, Prod.mk.injEq] at this
  rw [this.1, this.2]; exact hv

/-- C02 (other direction): a valid ring pair names a pixel of the map, which is
converted back to the same ring pair. -/
theorem C02_ring_pix_ring (N i j : ℤ) (h : ValidRing N i j) :
    ValidPix N (ij2pix i j N) ∧ pix2ij (ij2pix i j N) N = .ok (i, j) :=
  ⟨ij2pix_valid h, pix2ij_ij2pix h⟩

/-- C02: for every valid ring pair there is exactly one pixel. -/
theorem C02_bijection (N i j : ℤ) (h : ValidRing N i j) :
    ∃! p, ValidPix N p ∧ pix2ij p N = .ok (i, j) := by
  refine ⟨ij2pix i j N, C02_ring_pix_ring N i j h, ?_⟩
  rintro q ⟨hq, hqij⟩
  have hN : 1 ≤ N := by have := h.1; have := h.2.1; omega
  obtain ⟨i', j', h1, h2⟩ := C01_pix_ring_pix N q hN hq
  rw [hqij] at h1
  simp only [Except.ok.injEq, Prod.mk.injEq] at h1
  rw [h1.1, h1.2]; exact h2.symm

example : ValidRing 5 17 9 := by unfold ValidRing ringLen; norm_num

/-- C03: pixel numbers are ordered by ring, then along the ring. -/
theorem C03_ordering (N p q i j i' j' : ℤ) (hN : 1 ≤ N) (hp : ValidPix N p) (hq : ValidPix N q)
    (h : pix2ij p N = .ok (i, j)) (h' : pix2ij q N = .ok (i', j')) :
    p < q ↔ lexLt (i, j) (i', j') := by
  have v := C02_range N p i j hN hp h
  have v' := C02_range N q i' j' hN hq h'
  obtain ⟨a, b, e1, e2⟩ := C01_pix_ring_pix N p hN hp
  obtain ⟨a', b', e1', e2'⟩ := C01_pix_ring_pix N q hN hq
  rw [h] at e1; rw [h'] at e1'
  simp only [Except.ok.injEq, Prod.mk.injEq] at e1 e1'
  obtain ⟨rfl, rfl⟩ := e1
  obtain ⟨rfl, rfl⟩ := e1'
  rw [← ij2pix_lt_iff v v', e2, e2']

example : ∃ i j i' j', pix2ij 3 2 = .ok (i, j) ∧ pix2ij 40 2 = .ok (i', j') := by
  obtain ⟨i, j, h, _⟩ := C01_pix_ring_pix 2 3 (by norm_num) (by constructor <;> norm_num)
  obtain ⟨i', j', h', _⟩ := C01_pix_ring_pix 2 40 (by norm_num) (by constructor <;> norm_num)
  exact ⟨i, j, i', j', h, h'⟩

/-! ## C04 -/

/-- C04: the sky position of a pixel is the published pixel centre. -/
theorem C04_centre (N p : ℤ) (hN : 1 ≤ N) (hp : ValidPix N p) :
    ∃ i j x y theta, pix2ij p N = .ok (i, j) ∧ pix2xy p N = .ok (x, y) ∧
      xy2ang x y = (centrePhi N i j, some theta) ∧
      0 ≤ theta ∧ theta ≤ π ∧ cos theta = centreZ N i := by
  obtain ⟨i, j, h, _⟩ := C01_pix_ring_pix N p hN hp
  have hv := C02_range N p i j hN hp h
  obtain ⟨x, y, hxy, ha⟩ := pix_centre hN hp h
  refine ⟨i, j, x, y, _, h, hxy, ha, arccos_nonneg _, arccos_le_pi _, ?_⟩
  obtain ⟨h1, h2, _, _⟩ := hv
  have hNR : (0:ℝ) < N := by exact_mod_cast (by omega : 0 < N)
  have h1R : (1:ℝ) ≤ i := by exact_mod_cast h1
  have sq : ∀ r : ℝ, 0 ≤ r → r ≤ N → 0 ≤ r^2/(3*(N:ℝ)^2) ∧ r^2/(3*(N:ℝ)^2) ≤ 1/3 := by
    intro r hr hrN
    constructor
    · positivity
    · rw [div_le_iff₀ (by positivity)]; nlinarith
  apply cos_arccos
  all_goals
    unfold centreZ
    by_cases a : i < N
    · rw [if_pos a]
      have := sq i (by linarith) (by exact_mod_cast a.le)
      linarith
    · rw [if_neg a]
      by_cases b : i ≤ 3*N
      · rw [if_pos b]
        have bR : (i:ℝ) ≤ 3*N := by exact_mod_cast b
        have aR : (N:ℝ) ≤ i := by exact_mod_cast (by omega : N ≤ i)
        have l1 : 2*(i:ℝ)/(3*N) ≤ 2 := by rw [div_le_iff₀ (by positivity)]; linarith
        have l2 : 2/3 ≤ 2*(i:ℝ)/(3*N) := by rw [le_div_iff₀ (by positivity)]; linarith
        linarith
      · rw [if_neg b]
        have := sq ((4*N-i : ℤ) : ℝ) (by exact_mod_cast (by omega : 0 ≤ 4*N-i))
          (by exact_mod_cast (by omega : 4*N-i ≤ N))
        linarith

/-! ## C05 -/

/-- C05: the diamonds of two different pixels of one map are disjoint, even when
one of them is moved by any number `t` of whole turns in longitude. -/
theorem C05_disjoint (N p q t : ℤ) (hN : 1 ≤ N) (hp : ValidPix N p) (hq : ValidPix N q)
    (c d : ℝ × ℝ) (hc : pix2xy p N = .ok c) (hd : pix2xy q N = .ok d)
    (x y : ℝ) (hx : InDiamond N c x y) (hy : InDiamond N d (x + 2*π*t) y) : p = q ∧ t = 0 := by
  obtain ⟨i, j, e, hv, he, _, hd1, hxy⟩ := pix2xy_ok hN hp
  obtain ⟨i', j', e', hv', he', _, hd1', hxy'⟩ := pix2xy_ok hN hq
  rw [hxy] at hc; rw [hxy'] at hd
  have hc := (Except.ok.inj hc).symm
  have hd := (Except.ok.inj hd).symm
  subst hc; subst hd
  obtain ⟨f, hf, s1, s2⟩ := j2jd_star hv
  obtain ⟨f', hf', s1', s2'⟩ := j2jd_star hv'
  rw [hd1] at hf; rw [hd1'] at hf'
  have hf := Except.ok.inj hf
  have hf' := Except.ok.inj hf'
  subst hf; subst hf'
  have hpi := pi_pos
  have hNR : (0:ℝ) < N := by exact_mod_cast (by omega : 0 < N)
  unfold InDiamond halfDiag at hx hy
  simp only [] at hx hy
  have a1 := neg_abs_le (x - e*π/(2*N)); have a2 := le_abs_self (x - e*π/(2*N))
  have a3 := neg_abs_le (y - i2id i N*π/(2*N)); have a4 := le_abs_self (y - i2id i N*π/(2*N))
  have b1 := neg_abs_le (x + 2*π*t - e'*π/(2*N)); have b2 := le_abs_self (x + 2*π*t - e'*π/(2*N))
  have b3 := neg_abs_le (y - i2id i' N*π/(2*N)); have b4 := le_abs_self (y - i2id i' N*π/(2*N))
  -- in units of π/(2N)
  have u : ∀ w : ℝ, w*π/(2*N) = w*(π/(2*N)) := fun w => by ring
  have v4 : π/(4*N) = (π/(2*N))/2 := by field_simp; norm_num
  have v2 : 2*π*t = (4*N*t)*(π/(2*N)) := by field_simp; ring
  have hupos : 0 < π/(2*(N:ℝ)) := by positivity
  rw [v2] at hy b1 b2
  simp only [u, v4] at hx hy a1 a2 a3 a4 b1 b2 b3 b4
  generalize π/(2*(N:ℝ)) = U at hx hy a1 a2 a3 a4 b1 b2 b3 b4 hupos
  have key1 : |(((starOf N i j).1 - ((starOf N i' j').1 - 4*N*t) : ℤ) : ℝ)| < 1 := by
    push_cast
    rw [← s1, ← s1', abs_lt]
    constructor
    · by_contra hcon; push Not at hcon
      have := mul_le_mul_of_nonneg_right hcon hupos.le
      nlinarith
    · by_contra hcon; push Not at hcon
      have := mul_le_mul_of_nonneg_right hcon hupos.le
      nlinarith
  have key2 : |(((starOf N i j).2 - ((starOf N i' j').2 - 4*N*t) : ℤ) : ℝ)| < 1 := by
    push_cast
    rw [← s2, ← s2', abs_lt]
    constructor
    · by_contra hcon; push Not at hcon
      have := mul_le_mul_of_nonneg_right hcon hupos.le
      nlinarith
    · by_contra hcon; push Not at hcon
      have := mul_le_mul_of_nonneg_right hcon hupos.le
      nlinarith
  have k1 : |(starOf N i j).1 - ((starOf N i' j').1 - 4*N*t)| < 1 := by exact_mod_cast key1
  have k2 : |(starOf N i j).2 - ((starOf N i' j').2 - 4*N*t)| < 1 := by exact_mod_cast key2
  rw [Int.abs_lt_one_iff] at k1 k2
  obtain ⟨ri, rj, rt⟩ := starOf_inj (t := -t) hv hv' (by linarith) (by linarith)
  subst ri; subst rj
  exact ⟨by rw [← he, ← he'], by omega⟩

example : InDiamond 4 (1, 0) 1 0 := by
  unfold InDiamond halfDiag
  have := pi_pos
  norm_num
  positivity

/-! ## C06 -/

/-- C06: for the dash indices of any pixel the star indices are non-negative, the integer
cast drops nothing, and the inverse conversion returns the dash indices. -/
theorem C06_star_roundtrip (N p i j : ℤ) (hN : 1 ≤ N) (hp : ValidPix N p)
    (h : pix2ij p N = .ok (i, j)) :
    ∃ jd a b, j2jd i j N = .ok jd ∧ ijd2ijs (i2id i N) jd N = (a, b) ∧ 0 ≤ a ∧ 0 ≤ b ∧
      (a:ℝ) = jd - i2id i N + ((N:ℝ) - 1)/2 ∧ (b:ℝ) = jd + i2id i N + ((N:ℝ) - 1)/2 ∧
      ijs2ijd a b N = (i2id i N, jd) := by
  have hv := C02_range N p i j hN hp h
  obtain ⟨d, hd, s1, s2⟩ := j2jd_star hv
  obtain ⟨n1, n2⟩ := starOf_nonneg hv
  refine ⟨d, _, _, hd, ?_, n1, n2, by linarith, by linarith, ?_⟩
  · unfold ijd2ijs
    simp only []
    rw [s1, s2, trunc_intCast, trunc_intCast]
  · unfold ijs2ijd
    simp only []
    rw [← s1, ← s2]
    congr 1 <;> ring

/-! ## C07 (violated) -/

/-- Before the final `np.unique`, the pairs listed for a pixel in the interior of a
facet, away from the zero meridian, are exactly the eight touching pixels. -/
theorem C07_neighbour_pairs_partial (N i j : ℤ) (hN : 1 ≤ N) (hI : FacetInterior N (i, j))
    (hf : |j / N - i / N| ≤ 1) (hlo : N + 1 ≤ i + j) (hhi : i + j + 3 ≤ 9*N) (q : ℤ × ℤ) :
    q ∈ (neighCases i j N).map (neighWrap N) ↔ Touch (i, j) q := by
  obtain ⟨i1, i2, j1, j2⟩ := hI
  simp only [] at i1 i2 j1 j2
  have di := Int.emod_add_mul_ediv i N
  have dj := Int.emod_add_mul_ediv j N
  rw [abs_le] at hf
  have hn1 : j - i + 1 ≠ 2*N := by
    have : N*(j/N - i/N) ≤ N := by nlinarith
    intro hc
    have : N*(j/N) - N*(i/N) ≤ N := by linarith
    omega
  have hn2 : i - j + 1 ≠ 2*N := by
    have : -N ≤ N*(j/N - i/N) := by nlinarith
    intro hc
    have : -N ≤ N*(j/N) - N*(i/N) := by linarith
    omega
  have hn3 : (j + 1 - N) % N ≠ 0 := by
    have e : j + 1 - N = (j % N + 1) + N*(j/N - 1) := by linarith
    rw [e, Int.add_mul_emod_self_left, Int.emod_eq_of_lt (by omega) (by omega)]; omega
  have hn4 : (i + 1 - N) % N ≠ 0 := by
    have e : i + 1 - N = (i % N + 1) + N*(i/N - 1) := by linarith
    rw [e, Int.add_mul_emod_self_left, Int.emod_eq_of_lt (by omega) (by omega)]; omega
  have hcase : neighCases i j N = [(i-1, j-1), (i, j-1), (i+1, j-1), (i-1, j), (i+1, j),
      (i-1, j+1), (i, j+1), (i+1, j+1)] := by
    unfold neighCases
    rw [if_neg hn1, if_neg hn2, if_neg (by omega), if_neg (by omega), if_neg (by omega),
      if_neg (by omega), if_neg (by tauto), if_neg (by tauto)]
  have hw : ∀ q : ℤ × ℤ, |q.1 - i| ≤ 1 → |q.2 - j| ≤ 1 → neighWrap N q = q := by
    intro q h1 h2
    rw [abs_le] at h1 h2
    unfold neighWrap
    simp only []
    rw [if_neg (show ¬ q.1 + q.2 > 9*N - 1 by omega), if_neg (by omega)]
  rw [hcase, List.map_congr_left (g := id)]
  · obtain ⟨a, b⟩ := q
    unfold Touch
    simp only [List.map_id, List.mem_cons, Prod.mk.injEq, List.not_mem_nil, or_false, ne_eq, abs_le]
    omega
  · intro q hq
    apply hw
    all_goals
      simp only [List.mem_cons, List.not_mem_nil, or_false] at hq
      rcases hq with rfl | rfl | rfl | rfl | rfl | rfl | rfl | rfl <;> simp

/-- C07 is violated at *every* pixel in the interior of a facet: the arrays returned
have three entries, and the touching pixel `(i-1, j+1)` is not listed. -/
theorem C07_violated (N i j : ℤ) (hN : 1 ≤ N) (hI : FacetInterior N (i, j))
    (hf : |j / N - i / N| ≤ 1) (hlo : N + 1 ≤ i + j) (hhi : i + j + 3 ≤ 9*N) :
    neighbours i j N = ([i-1, i, i+1], [j-1, j, j+1]) ∧
    Touch (i, j) (i-1, j+1) ∧
    (i-1, j+1) ∉ List.zip (neighbours i j N).1 (neighbours i j N).2 := by
  have hres : neighbours i j N = ([i-1, i, i+1], [j-1, j, j+1]) := by
    obtain ⟨i1, i2, j1, j2⟩ := hI
    simp only [] at i1 i2 j1 j2
    have di := Int.emod_add_mul_ediv i N
    have dj := Int.emod_add_mul_ediv j N
    rw [abs_le] at hf
    have hn1 : j - i + 1 ≠ 2*N := by
      have : N*(j/N - i/N) ≤ N := by nlinarith
      intro hc
      have : N*(j/N) - N*(i/N) ≤ N := by linarith
      omega
    have hn2 : i - j + 1 ≠ 2*N := by
      have : -N ≤ N*(j/N - i/N) := by nlinarith
      intro hc
      have : -N ≤ N*(j/N) - N*(i/N) := by linarith
      omega
    have hn3 : (j + 1 - N) % N ≠ 0 := by
      have e : j + 1 - N = (j % N + 1) + N*(j/N - 1) := by linarith
      rw [e, Int.add_mul_emod_self_left, Int.emod_eq_of_lt (by omega) (by omega)]; omega
    have hn4 : (i + 1 - N) % N ≠ 0 := by
      have e : i + 1 - N = (i % N + 1) + N*(i/N - 1) := by linarith
      rw [e, Int.add_mul_emod_self_left, Int.emod_eq_of_lt (by omega) (by omega)]; omega
    have hcase : neighCases i j N = [(i-1, j-1), (i, j-1), (i+1, j-1), (i-1, j), (i+1, j),
        (i-1, j+1), (i, j+1), (i+1, j+1)] := by
      unfold neighCases
      rw [if_neg hn1, if_neg hn2, if_neg (by omega), if_neg (by omega), if_neg (by omega),
        if_neg (by omega), if_neg (by tauto), if_neg (by tauto)]
    have hw : ∀ q : ℤ × ℤ, |q.1 - i| ≤ 1 → |q.2 - j| ≤ 1 → neighWrap N q = q := by
      intro q h1 h2
      rw [abs_le] at h1 h2
      unfold neighWrap
      simp only []
      rw [if_neg (show ¬ q.1 + q.2 > 9*N - 1 by omega), if_neg (by omega)]
    unfold neighbours
    rw [hcase]
    simp only [List.map_cons, List.map_nil]
    repeat rw [hw _ (by simp) (by simp)]
    simp only []
    have u : ∀ k : ℤ, npUnique [k-1, k, k+1, k-1, k+1, k-1, k, k+1] = [k-1, k, k+1] ∧
        npUnique [k-1, k-1, k-1, k, k, k+1, k+1, k+1] = [k-1, k, k+1] := by
      intro k
      have c1 : k - 1 < k := by omega
      have c2 : k < k + 1 := by omega
      have c3 : k - 1 < k + 1 := by omega
      have d1 : ¬ k < k - 1 := by omega
      have d2 : ¬ k + 1 < k := by omega
      have d3 : ¬ k + 1 < k - 1 := by omega
      have e1 : k ≠ k - 1 := by omega
      have e3 : k + 1 ≠ k - 1 := by omega
      have e2 : k + 1 ≠ k := by omega
      constructor <;> simp [npUnique, insertU, c1, c2, c3, d1, d2, d3, e1, e2, e3]
    rw [(u i).1, (u j).2]
  refine ⟨hres, ?_, ?_⟩
  · unfold Touch; simp
  · rw [hres]; simp; omega

/-- The hypotheses of C07 are met by a pixel of a real map (`nside = 3`, ring 6). -/
example : ∃ p, ValidPix 3 p ∧ pix2ij p 3 = .ok (6, 4) ∧ starOf 3 6 4 = (4, 4) ∧
    FacetInterior 3 (4, 4) ∧ |(4:ℤ) / 3 - 4 / 3| ≤ 1 ∧ (3:ℤ) + 1 ≤ 4 + 4 ∧ (4:ℤ) + 4 + 3 ≤ 9*3 := by
  have hv : ValidRing 3 6 4 := by unfold ValidRing ringLen; norm_num
  refine ⟨_, ij2pix_valid hv, pix2ij_ij2pix hv, by decide, ?_, by decide, by norm_num, by norm_num⟩
  unfold FacetInterior; decide

/-! ## C08 -/

/-- C08 (`healpix_pix2ij`): on an array of pixels on which the scalar calls return
`f p`, the array call returns the arrays of `f p`. -/
theorem C08_pix2ij (N : ℤ) (hN : 1 ≤ N) (ps : List ℤ) (f : ℤ → ℤ × ℤ)
    (h : ∀ p ∈ ps, pix2ij p N = .ok (f p)) :
    pix2ijArr ps N = .ok (ps.map fun p => some (f p).1, ps.map fun p => some (f p).2) :=
  pix2ijArr_eq_map hN ps f h

/-- The scalar calls do return for every array of valid pixels. -/
theorem C08_pix2ij_defined (N : ℤ) (hN : 1 ≤ N) (ps : List ℤ) (h : ∀ p ∈ ps, ValidPix N p) :
    ∃ f : ℤ → ℤ × ℤ, ∀ p ∈ ps, pix2ij p N = .ok (f p) := by
  have : ∀ p, ∃ r : ℤ × ℤ, p ∈ ps → pix2ij p N = .ok r := by
    intro p
    by_cases hp : p ∈ ps
    · obtain ⟨i, j, e, _⟩ := C01_pix_ring_pix N p hN (h p hp)
      exact ⟨(i, j), fun _ => e⟩
    · exact ⟨(0, 0), fun hc => absurd hc hp⟩
  choose f hf using this
  exact ⟨f, hf⟩

/-- C08 (`healpix_ij2pix`). -/
theorem C08_ij2pix (N : ℤ) (hN : 1 ≤ N) (rows : List (ℤ × ℤ)) :
    ij2pixArr (rows.map Prod.fst) (rows.map Prod.snd) N
      = .ok (rows.map fun r => ij2pix r.1 r.2 N) :=
  ij2pixArr_eq_map hN rows

/-- C08 (`healpix_j2jd`). -/
theorem C08_j2jd (N : ℤ) (hN : 1 ≤ N) (rows : List (ℤ × ℤ)) (f : ℤ × ℤ → ℝ)
    (h : ∀ r ∈ rows, j2jd r.1 r.2 N = .ok (f r)) :
    j2jdArr (rows.map Prod.fst) (rows.map Prod.snd) N = .ok (rows.map fun r => some (f r)) :=
  j2jdArr_eq_map hN rows f h

example : ∀ r ∈ [((3:ℤ), (5:ℤ)), (6, 1)], ∃ d, j2jd r.1 r.2 4 = .ok d := by
  intro r hr
  have hv : ValidRing 4 r.1 r.2 := by
    simp only [List.mem_cons, List.not_mem_nil, or_false] at hr
    rcases hr with rfl | rfl <;> (unfold ValidRing ringLen; norm_num)
  obtain ⟨d, hd, _⟩ := j2jd_star hv
  exact ⟨d, hd⟩

/-- C08 (`healpix_xy2ang`), for every array of points. -/
theorem C08_xy2ang (rows : List (ℝ × ℝ)) :
    xy2angArr (rows.map Prod.fst) (rows.map Prod.snd)
      = .ok (rows.map fun r => some (xy2ang r.1 r.2).1, rows.map fun r => (xy2ang r.1 r.2).2) :=
  xy2angArr_eq_map rows

/-- C08 (`healpix_ang2xy`), for every array of points. -/
theorem C08_ang2xy (rows : List (ℝ × ℝ)) :
    ang2xyArr (rows.map Prod.fst) (rows.map Prod.snd)
      = .ok (rows.map fun r => (ang2xy r.1 r.2).1, rows.map fun r => (ang2xy r.1 r.2).2) :=
  ang2xyArr_eq_map rows

/-! ## C09 (violated) -/

theorem capRing_zero : capRing 0 = some 1 := by
  unfold capRing npSqrt; norm_num

/-- C09 is violated for every nside: pixel `12 N^2` does not exist but is given the
pair `(4N-1, 5)`, on a ring that has four pixels. -/
theorem C09_violated_above (N : ℤ) (hN : 1 ≤ N) :
    ¬ ValidPix N (12*N^2) ∧ pix2ij (12*N^2) N = .ok (4*N - 1, 5) ∧ ¬ ValidRing N (4*N-1) 5 := by
  refine ⟨by unfold ValidPix; omega, ?_, ?_⟩
  · unfold pix2ij
    have h1 : ¬ 12*N^2 ≤ 2*N*(N+1) := by nlinarith
    rw [if_neg h1, if_neg (by push Not; intro _; nlinarith), if_pos ⟨by nlinarith, le_rfl⟩]
    have e0 : (12*(N:ℝ)^2 - ((12*N^2 : ℤ) : ℝ))/2 = 0 := by push_cast; ring
    simp only [e0, capRing_zero, Option.map_some, pyInt]
    have e1 : 4*(N:ℝ) - 1 = ((4*N-1 : ℤ):ℝ) := by push_cast; ring
    have e2 : ((12*N^2 : ℤ) : ℝ) + 2*1*(1+1) + 1 - 12*(N:ℝ)^2 = ((5:ℤ):ℝ) := by push_cast; ring
    rw [e1, e2, trunc_intCast, trunc_intCast]; rfl
  · unfold ValidRing ringLen
    rintro ⟨_, _, _, h⟩
    split at h
    · omega
    · split at h <;> omega

/-- C09 is violated for every nside: pixel `-1` is given the pair `(1, 0)`. -/
theorem C09_violated_below (N : ℤ) (hN : 1 ≤ N) :
    ¬ ValidPix N (-1) ∧ pix2ij (-1) N = .ok (1, 0) ∧ ¬ ValidRing N 1 0 := by
  refine ⟨by unfold ValidPix; omega, ?_, by unfold ValidRing; omega⟩
  unfold pix2ij
  rw [if_pos (by nlinarith)]
  have e0 : (((-1 : ℤ):ℝ)+1)/2 = 0 := by norm_num
  simp only [e0, capRing_zero, Option.map_some, pyInt]
  have e1 : (1:ℝ) = ((1:ℤ):ℝ) := by norm_num
  have e2 : ((-1 : ℤ):ℝ) + 1 - 2*1*(1-1) = ((0:ℤ):ℝ) := by norm_num
  rw [e2, e1, trunc_intCast, trunc_intCast]; rfl

/-- C09, array call: a pixel above `12 N^2` is silently given the pair `(0, 0)`. -/
theorem C09_violated_array (N p : ℤ) (hN : 1 ≤ N) (hp : 12*N^2 < p) :
    pix2ijArr [p] N = .ok ([some 0], [some 0]) := by
  have a : ¬ p ≤ 2*N*(N+1) := by nlinarith
  have b : ¬ (p < 2*N*(5*N-1)) := by nlinarith
  unfold pix2ijArr
  simp [whereIdx, whereFrom, a, b, not_le.mpr hp, gather, scatter, bind, Except.bind, pure,
    Except.pure, astypeInt, trunc]

/-- C09_partial: the scalar call does raise for every other number outside the map. Missing:
`p = -1` and `p = 12 N^2`, which are accepted. -/
theorem C09_rejected_partial (N p : ℤ) (hN : 1 ≤ N) (hp : p < -1 ∨ 12*N^2 < p) :
    ∃ e, pix2ij p N = .error e := by
  rcases hp with hp | hp
  · refine ⟨.valueError, ?_⟩
    unfold pix2ij
    rw [if_pos (by nlinarith)]
    have hc : capRing (((p:ℝ)+1)/2) = none := by
      have : ⌊((p:ℝ)+1)/2⌋ < 0 := by
        rw [Int.floor_lt]
        have : (p:ℝ) < -1 := by exact_mod_cast hp
        push_cast; linarith
      have hR : ((⌊((p:ℝ)+1)/2⌋ : ℤ) : ℝ) < 0 := by exact_mod_cast this
      unfold capRing npSqrt
      rw [if_neg (by linarith)]; rfl
    simp [hc, pyInt, bind, Except.bind]
  · refine ⟨.unboundLocalError, ?_⟩
    unfold pix2ij
    rw [if_neg (by nlinarith), if_neg (by push Not; intro _; nlinarith), if_neg (by omega)]

/-! ## C10 -/

/-- C10: sky to plane to sky is the identity between the poles (for every longitude). -/
theorem C10_sky_plane_sky (phi theta : ℝ) (h0 : 0 < theta) (h1 : theta < π) :
    xy2ang (ang2xy phi theta).1 (ang2xy phi theta).2 = (phi, some theta) :=
  xy2ang_ang2xy h0 h1

/-- C10: at the poles the colatitude is recovered; the longitude, which has no meaning there, comes back as 0. -/
theorem C10_poles (phi theta : ℝ) (h : theta = 0 ∨ theta = π) :
    xy2ang (ang2xy phi theta).1 (ang2xy phi theta).2 = (0, some theta) :=
  xy2ang_ang2xy_pole phi h

/-- C10, other direction: plane to sky to plane is the identity on the image of the sky:
the belt `|y| ≤ π/4` and, in each cap, the facet triangles. -/
theorem C10_plane_sky_plane (x y : ℝ)
    (h : |y| ≤ π/4 ∨ (π/4 < |y| ∧ |y| < π/2 ∧
      ∃ k : ℤ, -(π/2 - |y|) ≤ x - (2*k+1)*π/4 ∧ x - (2*k+1)*π/4 < π/2 - |y|)) :
    ∃ phi theta, xy2ang x y = (phi, some theta) ∧ ang2xy phi theta = (x, y) := by
  have hpi := pi_pos
  rcases h with h | ⟨h1, h2, k, hk1, hk2⟩
  · obtain ⟨t, a, _, _, b⟩ := ang2xy_xy2ang_belt (x := x) h
    exact ⟨x, t, a, b⟩
  · obtain ⟨e, he, hy⟩ : ∃ e : ℝ, (e = 1 ∨ e = -1) ∧ y = e*|y| := by
      rcases lt_or_ge y 0 with hn | hn
      · exact ⟨-1, Or.inr rfl, by rw [abs_of_neg hn]; ring⟩
      · exact ⟨1, Or.inl rfl, by rw [abs_of_nonneg hn]; ring⟩
    have hs0 : 0 < 2 - 4*|y|/π := by
      have : 4*|y|/π < 2 := by rw [div_lt_iff₀ hpi]; linarith
      linarith
    have hs1 : 2 - 4*|y|/π < 1 := by
      have : 1 < 4*|y|/π := by rw [lt_div_iff₀ hpi]; linarith
      linarith
    have hse : (2 - 4*|y|/π)*π/4 = π/2 - |y| := by field_simp; ring
    have hye : e*(2-(2 - 4*|y|/π))*π/4 = y := by
      have : e*(2-(2 - 4*|y|/π))*π/4 = e*|y| := by field_simp; ring
      rw [this, ← hy]
    obtain ⟨phi, theta, a, b⟩ := ang2xy_xy2ang_cap he hs0 hs1 (x := x) (k := k)
      (by rw [hse]; exact hk1) (by rw [hse]; exact hk2)
    rw [hye] at a b
    exact ⟨phi, theta, a, b⟩

example : ∃ k : ℤ, (π/4 < |3*π/8| ∧ |3*π/8| < π/2 ∧
      -(π/2 - |3*π/8|) ≤ π/4 - (2*k+1)*π/4 ∧ π/4 - (2*k+1)*π/4 < π/2 - |3*π/8|) := by
  have hpi := pi_pos
  rw [abs_of_pos (by positivity)]
  exact ⟨0, by linarith, by linarith, by push_cast; linarith, by push_cast; linarith⟩

/-! ## C11 -/

/-- C11: away from the facet boundaries the projection is differentiable as a map from the plane
to `(phi, cos theta)` and its Jacobian determinant is `8/(3π)`. -/
theorem C11_equal_area (x y : ℝ)
    (h : |y| < π/4 ∨ (π/4 < |y| ∧ |y| < π/2 ∧ ∀ n : ℤ, 2*x/π ≠ n)) :
    ∃ a b c d, HasFDerivAt skyOf (lin2 a b c d) (x, y) ∧ a*d - b*c = 8/(3*π) := by
  have hpi := pi_pos
  rcases h with h | ⟨h1, h2, hx⟩
  · exact ⟨1, 0, 0, 8/(3*π), jac_belt (v := (x, y)) h, by ring⟩
  · obtain ⟨e, he, hy⟩ : ∃ e : ℝ, (e = 1 ∨ e = -1) ∧ e*y = |y| := by
      rcases lt_or_ge y 0 with hn | hn
      · exact ⟨-1, Or.inr rfl, by rw [abs_of_neg hn]; ring⟩
      · exact ⟨1, Or.inl rfl, by rw [abs_of_nonneg hn]; ring⟩
    obtain ⟨b, hb⟩ := jac_cap (v := (x, y)) he (by simpa [hy] using h1) (by simpa [hy] using h2) hx
    refine ⟨_, b, 0, _, hb, ?_⟩
    have hs0 : 2 - 4*(e*y)/π ≠ 0 := by
      rw [hy]
      have : 4*|y|/π < 2 := by rw [div_lt_iff₀ hpi]; linarith
      linarith
    simp only []
    rw [mul_zero, sub_zero, mul_comm, mul_assoc, mul_inv_cancel₀ hs0, mul_one]

/-- C11, consequence for one pixel: Jacobian times the plane area of the pixel diamond
(`2 δ^2`) is the `12 N^2`-th part of the sphere, and the pixels add up to `4π`. -/
theorem C11_pixel_area (N : ℤ) (hN : 1 ≤ N) :
    8/(3*π) * (2*(halfDiag N)^2) = pixArea N ∧ (12*(N:ℝ)^2) * pixArea N = 4*π := by
  have hpi := pi_pos
  have hNR : (0:ℝ) < N := by exact_mod_cast (by omega : 0 < N)
  unfold halfDiag pixArea
  constructor
  · field_simp; norm_num
  · field_simp

example : ∀ n : ℤ, 2*(π/4)/π ≠ n := by
  intro n h
  have hpi := pi_pos
  have : 2*(π/4)/π = 1/2 := by field_simp; norm_num
  rw [this] at h
  have h2 : (1:ℝ) = ((2*n : ℤ) : ℝ) := by push_cast; linarith
  have : (1:ℤ) = 2*n := by exact_mod_cast h2
  omega

end Magpie.Props
