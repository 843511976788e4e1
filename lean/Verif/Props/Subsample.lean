import Verif.Proof.RandomsBasic
import Mathlib.Data.List.Sort

/-!
# Properties C60-C65 and C82: tabulated distributions and subsampling
-/

set_option linter.unusedSimpArgs false
set_option linter.unusedVariables false
set_option linter.unusedSectionVars false

namespace Magpie.Props
open Magpie Magpie.OneD Magpie.Polar Magpie.Radial Magpie.Randoms Finset

/-! ## C60 -/

section
variable {K : Type} [Field K] [LinearOrder K] [IsStrictOrderedRing K]

/-- C60: for a non-negative PDF with positive sum on uniform mid points `pdf2cdf` returns the bin
edges, a CDF from 0 to 1 that never decreases and whose increments are the normalised PDF times
`dx`, and `randoms_cdf` accepts it. -/
theorem C60_cdf (xmid pdf : List K) (n : ℕ) (hn : 2 ≤ n) (hx : xmid.length = n) (hp : pdf.length = n)
    (x0 dx : K) (hdx : 0 < dx) (huni : ∀ k, k < n → xmid.getD k 0 = x0 + k*dx)
    (hpos : ∀ p ∈ pdf, 0 ≤ p) (hsum : 0 < ∑ i ∈ range n, pdf.getD i 0) :
    ∃ x cdf norm : List K, pdf2cdf xmid pdf = .ok (x, cdf.map some, norm.map some) ∧
      x.length = n + 1 ∧ cdf.length = n + 1 ∧ norm.length = n ∧
      (∀ k, k ≤ n → x.getD k 0 = x0 - dx/2 + k*dx) ∧
      (∀ k, k < n → norm.getD k 0 = pdf.getD k 0 / ((∑ i ∈ range n, pdf.getD i 0)*dx)) ∧
      cdf.getD 0 0 = 0 ∧ cdf.getD n 0 = 1 ∧
      (∀ k, k < n → cdf.getD (k+1) 0 = cdf.getD k 0 + norm.getD k 0 * dx) ∧
      (∀ j k, j ≤ k → k ≤ n → cdf.getD j 0 ≤ cdf.getD k 0) ∧
      cdfAssert (cdf.map some) = .ok () := by
  obtain ⟨N, rfl⟩ : ∃ N, n = N + 1 := ⟨n - 1, by omega⟩
  have gx : ∀ k, k < N + 1 → xmid[k]? = some (x0 + k*dx) := by
    intro k hk
    rw [← huni k hk, List.getD_eq_getElem?_getD, List.getElem?_eq_getElem (by omega)]; rfl
  have glast : xmid.getLast? = some (x0 + N*dx) := by
    rw [List.getLast?_eq_getElem?, hx, Nat.add_sub_cancel]; exact gx N (by omega)
  have hpn : ∀ i, 0 ≤ pdf.getD i 0 := by
    intro i
    rw [List.getD_eq_getElem?_getD]
    by_cases hi : i < pdf.length
    · rw [List.getElem?_eq_getElem hi]; exact hpos _ (List.getElem_mem hi)
    · rw [List.getElem?_eq_none (by omega)]; exact le_rfl
  set S : ℕ → K := fun k => (∑ i ∈ range k, pdf.getD i 0)*dx with hS
  have hSmono : ∀ j k, j ≤ k → S j ≤ S k := by
    intro j k hjk
    apply mul_le_mul_of_nonneg_right _ hdx.le
    exact Finset.sum_le_sum_of_subset_of_nonneg (Finset.range_mono hjk) fun i _ _ => hpn i
  have hSpos : 0 < S (N+1) := mul_pos hsum hdx
  have hraw : (0 : K) :: (cumsum 0 pdf).map (· * dx) = (List.range (N+1+1)).map S := by
    apply List.ext_getElem?
    intro k
    cases k with
    | zero => simp [hS]
    | succ k =>
      rw [List.getElem?_cons_succ, List.getElem?_map, List.getElem?_map]
      by_cases hk : k < N + 1
      · rw [cumsum_get 0 pdf k (by omega), List.getElem?_range (by omega)]
        simp [hS]
      · rw [List.getElem?_eq_none (by rw [cumsum_length]; omega),
          List.getElem?_eq_none (by simp; omega)]; rfl
  have hmax : npMax ((List.range (N+1+1)).map S) = .ok (S (N+1)) := by
    rw [← hraw]
    simp only [npMax]
    rw [foldl_max_eq _ _ (S (N+1))]
    · intro y hy
      rw [hraw] at hy
      simp only [List.mem_map, List.mem_range] at hy
      obtain ⟨k, hk, rfl⟩ := hy
      exact hSmono _ _ (by omega)
    · rw [hraw]
      simp only [List.mem_map, List.mem_range]
      exact ⟨N+1, by omega, rfl⟩
  have gX : ∀ k, k ≤ N + 1 → (linspace (x0 - dx/2) (x0 + N*dx + dx/2) (N+1+1)).getD k 0
      = x0 - dx/2 + k*dx := by
    intro k hk
    rw [List.getD_eq_getElem?_getD, List.getElem?_eq_getElem (by simp; omega), getElem_linspace]
    simp only [Option.getD_some]
    have : ((N:K) + 1) ≠ 0 := by positivity
    push_cast
    field_simp
    ring
  refine ⟨linspace (x0 - dx/2) (x0 + N*dx + dx/2) (N+1+1),
    (List.range (N+1+1)).map fun k => S k / S (N+1), pdf.map fun p => p / S (N+1), ?_, by simp, by simp,
    by simp [hp], gX, ?_, ?_, ?_, ?_, ?_, ?_⟩
  · unfold pdf2cdf
    have hdx' : x0 + ((1:ℕ):K)*dx - x0 = dx := by push_cast; ring
    have h00 : x0 + ((0:ℕ):K)*dx = x0 := by push_cast; ring
    simp only [pyGet, gx 1 (by omega), gx 0 (by omega), pyLast, glast, bind, Except.bind, h00, hdx', hx,
      length_linspace]
    have hassign : assignFrom (List.replicate (N+1+1) (0:K)) 1 ((cumsum 0 pdf).map (· * dx))
        = .ok ((List.range (N+1+1)).map S) := by
      rw [← hraw]
      unfold assignFrom sliceFrom sliceTo sliceBound
      rw [if_pos (by simp [cumsum_length, hp])]
      simp [List.replicate_succ]
    rw [hassign]
    simp only [hmax, pure, Except.pure, List.map_map]
    congr 3
    · apply List.map_congr_left
      intro k _
      simp [fdiv, hSpos.ne']
    · apply List.map_congr_left
      intro k _
      simp [fdiv, hSpos.ne']
  · intro k hk
    rw [List.getD_eq_getElem?_getD, List.getElem?_map, List.getD_eq_getElem?_getD,
      List.getElem?_eq_getElem (by omega)]
    rfl
  · simp [hS]
  · rw [List.getD_eq_getElem?_getD, List.getElem?_map, List.getElem?_range (by omega)]
    simp [hSpos.ne']
  · intro k hk
    simp only [List.getD_eq_getElem?_getD, List.getElem?_map, List.getElem?_range (by omega : k+1 < N+1+1),
      List.getElem?_range (by omega : k < N+1+1), List.getElem?_eq_getElem (by omega : k < pdf.length),
      Option.map_some, Option.getD_some]
    have : S (k+1) = S k + pdf[k]'(by omega)*dx := by
      simp only [hS, Finset.sum_range_succ, List.getD_eq_getElem?_getD,
        List.getElem?_eq_getElem (by omega : k < pdf.length), Option.getD_some]
      ring
    rw [this]; ring
  · intro j k hjk hk
    simp only [List.getD_eq_getElem?_getD, List.getElem?_map, List.getElem?_range (by omega : j < N+1+1),
      List.getElem?_range (by omega : k < N+1+1), Option.map_some, Option.getD_some]
    exact div_le_div_of_nonneg_right (hSmono j k hjk) hSpos.le
  · unfold cdfAssert
    have e0 : (((List.range (N+1+1)).map fun k => S k / S (N+1)).map some)[0]? = some (some 0) := by
      simp [List.getElem?_range, hS]
    have e1 : (((List.range (N+1+1)).map fun k => S k / S (N+1)).map some).getLast?
        = some (some 1) := by
      rw [List.getLast?_eq_getElem?]
      simp only [List.length_map, List.length_range, Nat.add_sub_cancel, List.getElem?_map,
        List.getElem?_range (by omega : N+1 < N+1+1), Option.map_some, div_self hSpos.ne']
    simp only [pyGet, pyLast, e0, e1, bind, Except.bind, pyAssert]
    simp

example : pdf2cdf (K := ℚ) [1, 3, 5] [1, 0, 3] =
    .ok ([0, 2, 4, 6], [some 0, some (1/4), some (1/4), some 1], [some (1/8), some 0, some (3/8)]) := by
  decide +kernel

/-! ## C82 -/

/-- C82: a CDF that does not start at 0, or does not end at 1, is rejected with AssertionError. -/
theorem C82_rejects (x cdf u : List K) (hne : cdf ≠ [])
    (h : cdf.head? ≠ some 0 ∨ cdf.getLast? ≠ some 1) : randomsCdfLinear x cdf u = .error .assertionError := by
  obtain ⟨c, l, rfl⟩ := List.exists_cons_of_ne_nil hne
  unfold randomsCdfLinear cdfAssert
  have e1 : pyGet ((c :: l).map some) 0 = .ok (some c) := rfl
  have e2 : pyLast ((c :: l).map some) = .ok (some ((c :: l).getLast hne)) := by
    unfold pyLast
    rw [List.getLast?_map, List.getLast?_eq_some_getLast hne]
    rfl
  rw [e1, e2]
  simp only [bind, Except.bind]
  unfold pyAssert
  rw [if_neg]
  rintro ⟨h1, h2⟩
  rw [Option.some.injEq] at h1 h2
  rcases h with h | h
  · exact h (by simp [h1])
  · exact h (by rw [List.getLast?_eq_some_getLast hne, h2])

example : randomsCdfLinear [(0:ℚ), 1] [0, 1/2] [1/4] = .error .assertionError :=
  C82_rejects _ _ _ (by simp) (.inr (by decide +kernel))

/-- C82: draws of `randoms_cdf` by linear interpolation lie between the first and the last
abscissa; one draw per variate. -/
theorem C82_range (x cdf u : List K) (n : ℕ) (hc : cdf.length = n + 1) (hx : x.length = n + 1)
    (h0 : cdf.getD 0 0 = 0) (h1 : cdf.getD n 0 = 1)
    (hinc : ∀ i j, i ≤ j → j ≤ n → x.getD i 0 ≤ x.getD j 0) (hu : ∀ v ∈ u, 0 ≤ v ∧ v < 1) :
    ∃ out, randomsCdfLinear x cdf u = .ok out ∧ out.length = u.length ∧
      ∀ d ∈ out, x.getD 0 0 ≤ d ∧ d ≤ x.getD n 0 := by
  have gc : ∀ k, k ≤ n → cdf[k]? = some (cdf.getD k 0) := by
    intro k hk
    rw [List.getD_eq_getElem?_getD, List.getElem?_eq_getElem (by omega)]; rfl
  have hassert : cdfAssert (cdf.map some) = .ok () := by
    unfold cdfAssert
    have e1 : (cdf.map some).getLast? = some (some (cdf.getD n 0)) := by
      rw [List.getLast?_eq_getElem?, List.length_map, hc, Nat.add_sub_cancel, List.getElem?_map, gc n le_rfl]
      rfl
    simp only [pyGet, pyLast, e1, List.getElem?_map, gc 0 (by omega), Option.map_some, bind,
      Except.bind, pyAssert, h0, h1]
    simp
  unfold randomsCdfLinear
  rw [hassert]
  simp only [bind, Except.bind]
  induction u with
  | nil => exact ⟨[], rfl, rfl, by simp⟩
  | cons v u ih =>
    obtain ⟨out, e, l, b⟩ := ih fun w hw => hu w (by simp [hw])
    obtain ⟨v0, v1⟩ := hu v (by simp)
    obtain ⟨j, hj, hle, hlt, hi⟩ := interp_eq cdf x n hc hx h0 h1 v v0 v1
    refine ⟨_ :: out, by simp only [pyMap, hi, e, bind, Except.bind, pure, Except.pure]; rfl,
      by simp [l], ?_⟩
    intro d hd
    rcases List.mem_cons.mp hd with rfl | hd
    · have d1 := hinc 0 j (by omega) (by omega)
      have d2 := hinc j (j+1) (by omega) (by omega)
      have d3 := hinc (j+1) n (by omega) (by omega)
      have hpos : 0 < cdf.getD (j+1) 0 - cdf.getD j 0 := by linarith
      have t0 : 0 ≤ (v - cdf.getD j 0)/(cdf.getD (j+1) 0 - cdf.getD j 0) :=
        div_nonneg (by linarith) hpos.le
      have t1 : (v - cdf.getD j 0)/(cdf.getD (j+1) 0 - cdf.getD j 0) ≤ 1 := by
        rw [div_le_one hpos]; linarith
      have e : (x.getD (j+1) 0 - x.getD j 0)/(cdf.getD (j+1) 0 - cdf.getD j 0)*(v - cdf.getD j 0)
          = (x.getD (j+1) 0 - x.getD j 0)*((v - cdf.getD j 0)/(cdf.getD (j+1) 0 - cdf.getD j 0)) := by
        ring
      rw [e]
      constructor <;> nlinarith
    · exact b d hd

end

/-- A CDF that starts at 0 and ends at 1 passes the check of `randoms_cdf`. -/
theorem cdfAssert_ok (cdf : List ℝ) (n : ℕ) (hc : cdf.length = n + 1) (h0 : cdf.getD 0 0 = 0)
    (h1 : cdf.getD n 0 = 1) : cdfAssert (cdf.map some) = .ok () := by
  have gc : ∀ k, k ≤ n → cdf[k]? = some (cdf.getD k 0) := by
    intro k hk
    rw [List.getD_eq_getElem?_getD, List.getElem?_eq_getElem (by omega)]; rfl
  unfold cdfAssert
  have e1 : (cdf.map some).getLast? = some (some (cdf.getD n 0)) := by
    rw [List.getLast?_eq_getElem?, List.length_map, hc, Nat.add_sub_cancel, List.getElem?_map, gc n le_rfl]
    rfl
  simp only [pyGet, pyLast, e1, List.getElem?_map, gc 0 (by omega), Option.map_some, bind,
    Except.bind, pyAssert, h0, h1]
  simp

/-- Which variates give a draw of at most `y`. -/
theorem cdf_draw (x cdf : List ℝ) (n : ℕ) (hc : cdf.length = n + 1) (hx : x.length = n + 1)
    (h0 : cdf.getD 0 0 = 0) (h1 : cdf.getD n 0 = 1)
    (hmono : ∀ i j, i ≤ j → j ≤ n → cdf.getD i 0 ≤ cdf.getD j 0)
    (hinc : ∀ i j, i < j → j ≤ n → x.getD i 0 < x.getD j 0)
    (k : ℕ) (hk : k < n) (y : ℝ) (hy0 : x.getD k 0 ≤ y) (hy1 : y ≤ x.getD (k+1) 0) :
    (0 ≤ (cdf.getD k 0 + (cdf.getD (k+1) 0 - cdf.getD k 0)
          * ((y - x.getD k 0)/(x.getD (k+1) 0 - x.getD k 0))) ∧ (cdf.getD k 0 + (cdf.getD (k+1) 0 - cdf.getD k 0)
          * ((y - x.getD k 0)/(x.getD (k+1) 0 - x.getD k 0))) ≤ 1) ∧
    (∀ u, 0 ≤ u → u < 1 → u < (cdf.getD k 0 + (cdf.getD (k+1) 0 - cdf.getD k 0)
          * ((y - x.getD k 0)/(x.getD (k+1) 0 - x.getD k 0))) → ∃ d, randomsCdfLinear x cdf [u] = .ok [d] ∧ d ≤ y) ∧
    (∀ u, 0 ≤ u → u < 1 → (∃ d, randomsCdfLinear x cdf [u] = .ok [d] ∧ d ≤ y) → u ≤ (cdf.getD k 0 + (cdf.getD (k+1) 0 - cdf.getD k 0)
          * ((y - x.getD k 0)/(x.getD (k+1) 0 - x.getD k 0)))) := by
  have hassert := cdfAssert_ok cdf n hc h0 h1
  have hrun : ∀ u d, randomsCdfLinear x cdf [u] = .ok [d] ↔ interpLinear cdf x u = .ok d := by
    intro u d
    unfold randomsCdfLinear
    rw [hassert]
    simp only [bind, Except.bind, pyMap, pure, Except.pure]
    cases interpLinear cdf x u <;> simp
  set a := x.getD k 0 with ha
  set b := x.getD (k+1) 0 with hb
  set p := cdf.getD k 0 with hp
  set q := cdf.getD (k+1) 0 with hq
  have hab : a < b := hinc k (k+1) (by omega) (by omega)
  have hpq : p ≤ q := hmono k (k+1) (by omega) (by omega)
  have hp0 : 0 ≤ p := by rw [← h0]; exact hmono 0 k (by omega) (by omega)
  have hq1 : q ≤ 1 := by rw [← h1]; exact hmono (k+1) n (by omega) (by omega)
  set s := (y - a)/(b - a) with hs
  have hs0 : 0 ≤ s := div_nonneg (by linarith) (by linarith)
  have hs1 : s ≤ 1 := by rw [hs, div_le_one (by linarith)]; linarith
  have hys : y = a + s*(b - a) := by rw [hs]; field_simp [(by linarith : b - a ≠ 0)]; ring
  refine ⟨⟨?_, ?_⟩, ?_, ?_⟩
  · nlinarith
  · nlinarith
  · intro u u0 u1 huF
    obtain ⟨j, hj, hle, hlt, hi⟩ := interp_eq cdf x n hc hx h0 h1 u u0 u1
    refine ⟨_, (hrun u _).mpr hi, ?_⟩
    have hpos : 0 < cdf.getD (j+1) 0 - cdf.getD j 0 := by linarith
    have hxj : x.getD j 0 < x.getD (j+1) 0 := hinc j (j+1) (by omega) (by omega)
    have hjk : j ≤ k := by
      by_contra hcon
      have := hmono (k+1) j (by omega) (by omega)
      nlinarith
    rcases Nat.lt_or_ge j k with hlt' | hge
    · have h2 : x.getD (j+1) 0 ≤ a := by
        rcases Nat.lt_or_ge (j+1) k with h | h
        · exact (hinc (j+1) k h (by omega)).le
        · have : j + 1 = k := by omega
          rw [this]
      have : (x.getD (j+1) 0 - x.getD j 0)/(cdf.getD (j+1) 0 - cdf.getD j 0)*(u - cdf.getD j 0)
          ≤ x.getD (j+1) 0 - x.getD j 0 := by
        rw [div_mul_eq_mul_div, div_le_iff₀ hpos]
        apply mul_le_mul_of_nonneg_left _ (by linarith)
        linarith
      linarith
    · have : j = k := by omega
      subst this
      rw [← ha, ← hb, ← hp, ← hq] at *
      have : (b - a)/(q - p)*(u - p) ≤ s*(b - a) := by
        rw [div_mul_eq_mul_div, div_le_iff₀ hpos]
        nlinarith
      linarith
  · rintro u u0 u1 ⟨d, hd, hdy⟩
    rw [hrun] at hd
    obtain ⟨j, hj, hle, hlt, hi⟩ := interp_eq cdf x n hc hx h0 h1 u u0 u1
    rw [hi] at hd
    simp only [Except.ok.injEq] at hd
    have hpos : 0 < cdf.getD (j+1) 0 - cdf.getD j 0 := by linarith
    have hxj : x.getD j 0 < x.getD (j+1) 0 := hinc j (j+1) (by omega) (by omega)
    have hsl : 0 < (x.getD (j+1) 0 - x.getD j 0)/(cdf.getD (j+1) 0 - cdf.getD j 0) :=
      div_pos (by linarith) hpos
    have hdj : x.getD j 0 ≤ d := by
      rw [← hd]
      have := mul_nonneg hsl.le (sub_nonneg.mpr hle)
      linarith
    rcases Nat.lt_trichotomy j k with h | h | h
    · have := hmono (j+1) k (by omega) (by omega)
      nlinarith
    · subst h
      rw [← ha, ← hb, ← hp, ← hq] at *
      have h2 : (b - a)/(q - p)*(u - p) ≤ s*(b - a) := by linarith
      rw [div_mul_eq_mul_div, div_le_iff₀ hpos] at h2
      nlinarith
    · have hle2 : b ≤ x.getD j 0 := by
        rcases Nat.lt_or_ge (k+1) j with h' | h'
        · exact (hinc (k+1) j h' (by omega)).le
        · have : j = k + 1 := by omega
          rw [this]
      have hyb : y = b := by linarith
      have hxjb : x.getD j 0 = b := by linarith
      have hjk : j = k + 1 := by
        by_contra hne
        have := hinc (k+1) j (by omega) (by omega)
        linarith
      have hz : (x.getD (j+1) 0 - x.getD j 0)/(cdf.getD (j+1) 0 - cdf.getD j 0)*(u - cdf.getD j 0) ≤ 0 := by
        linarith
      have hu : u - cdf.getD j 0 ≤ 0 := by
        by_contra hcon
        push Not at hcon
        have := mul_pos hsl hcon
        linarith
      have hs1' : s = 1 := by rw [hs, hyb]; exact div_self (by linarith)
      rw [hs1', mul_one]
      rw [hjk, ← hq] at hu
      linarith

/-- C82: the probability that a draw of `randoms_cdf` (linear interpolation) is at most `y` is the
tabulated CDF interpolated linearly at `y`. -/
theorem C82_law (x cdf : List ℝ) (n : ℕ) (hc : cdf.length = n + 1) (hx : x.length = n + 1)
    (h0 : cdf.getD 0 0 = 0) (h1 : cdf.getD n 0 = 1)
    (hmono : ∀ i j, i ≤ j → j ≤ n → cdf.getD i 0 ≤ cdf.getD j 0)
    (hinc : ∀ i j, i < j → j ≤ n → x.getD i 0 < x.getD j 0)
    (k : ℕ) (hk : k < n) (y : ℝ) (hy0 : x.getD k 0 ≤ y) (hy1 : y ≤ x.getD (k+1) 0) :
    Spec.unif {u | ∃ d, randomsCdfLinear x cdf [u] = .ok [d] ∧ d ≤ y}
      = ENNReal.ofReal (cdf.getD k 0 + (cdf.getD (k+1) 0 - cdf.getD k 0)
          * ((y - x.getD k 0)/(x.getD (k+1) 0 - x.getD k 0))) := by
  obtain ⟨⟨f0, f1⟩, hi, hj⟩ := cdf_draw x cdf n hc hx h0 h1 hmono hinc k hk y hy0 hy1
  exact unif_sandwich f0 f1 hi hj

/-- C82: the probability that a draw of `randoms_pdf` (linear interpolation) is at most `y` is the
integral up to `y` of the tabulated PDF, divided by its total. -/
theorem C82_pdf_law (xmid pdf : List ℝ) (n : ℕ) (hn : 2 ≤ n) (hx : xmid.length = n)
    (hp : pdf.length = n) (x0 dx : ℝ) (hdx : 0 < dx) (huni : ∀ k, k < n → xmid.getD k 0 = x0 + k*dx)
    (hpos : ∀ p ∈ pdf, 0 ≤ p) (hsum : 0 < ∑ i ∈ range n, pdf.getD i 0)
    (k : ℕ) (hk : k < n) (y : ℝ) (hy0 : x0 - dx/2 + k*dx ≤ y) (hy1 : y ≤ x0 - dx/2 + (k+1)*dx) :
    Spec.unif {u | ∃ d, randomsPdfLinear xmid pdf [u] = .ok [d] ∧ d ≤ y}
      = ENNReal.ofReal (((∑ i ∈ range k, pdf.getD i 0 * dx)
          + pdf.getD k 0 * (y - (x0 - dx/2 + k*dx))) / ∑ i ∈ range n, pdf.getD i 0 * dx) := by
  obtain ⟨x, cdf, norm, e, lx, lc, ln, gx, gn, c0, c1, cinc, cmono, cass⟩ :=
    C60_cdf xmid pdf n hn hx hp x0 dx hdx huni hpos hsum
  have hmap : (cdf.map some).mapM id = some cdf := by
    have : ∀ l : List ℝ, (l.map some).mapM id = some l := by
      intro l
      induction l with
      | nil => rfl
      | cons a l ih => simp [List.mapM_cons, ih]
    exact this cdf
  have hrun : ∀ u, randomsPdfLinear xmid pdf [u] = randomsCdfLinear x cdf [u] := by
    intro u
    unfold randomsPdfLinear
    rw [e]
    simp only [bind, Except.bind, cass, hmap]
  simp only [hrun]
  have gk1 : x.getD (k+1) 0 = x0 - dx/2 + (k+1)*dx := by
    rw [gx (k+1) (by omega)]; push_cast; ring
  rw [C82_law x cdf n lc lx c0 c1 cmono (fun i j hij hj => by
      rw [gx i (by omega), gx j hj]
      have : (i:ℝ) < j := by exact_mod_cast hij
      nlinarith) k hk y (by rw [gx k (by omega)]; exact hy0) (by rw [gk1]; exact hy1)]
  have hck : ∀ k, k ≤ n → cdf.getD k 0 = (∑ i ∈ range k, pdf.getD i 0 * dx)/ ∑ i ∈ range n, pdf.getD i 0 * dx := by
    intro k
    induction k with
    | zero => intro _; rw [c0]; simp
    | succ k ih =>
      intro hk
      rw [cinc k (by omega), ih (by omega), gn k (by omega), Finset.sum_range_succ, add_div,
        ← Finset.sum_mul, ← Finset.sum_mul, div_mul_eq_mul_div]
  congr 1
  rw [cinc k hk, hck k (by omega), gn k hk, gk1, gx k (by omega), ← Finset.sum_mul, ← Finset.sum_mul]
  have : (∑ i ∈ range n, pdf.getD i 0) ≠ 0 := hsum.ne'
  have : dx ≠ 0 := hdx.ne'
  have e2 : x0 - dx/2 + (k+1)*dx - (x0 - dx/2 + k*dx) = dx := by ring
  rw [e2]
  field_simp
  ring

/-- Concrete draws: `randoms_pdf` on two bins with weights 1 and 3. -/
example : randomsPdfLinear (K := ℚ) [0, 2] [1, 3] [0, 1/8, 1/4, 5/8] = .ok [-1, 0, 1, 2] := by
  decide +kernel

/-! ## C61 -/

section
variable {α K : Type} [Field K] [LinearOrder K]

/-- C61: whatever sorting permutation `np.argsort` returns, `shuffle` returns a permutation. -/
theorem C61_permutation (argsort : List K → List ℕ) (hs : IsArgsort argsort) (u : List K)
    (sample : List α) (hu : u.length = sample.length) :
    ∃ out, shuffle argsort u sample = .ok out ∧ out.Perm sample :=
  gather_perm_range sample _ (by rw [← hu]; exact (hs u).1)

end

/-- Sorting positions by value with the library's insertion sort, as an instance of `np.argsort`. -/
def exampleArgsort (u : List ℚ) : List ℕ :=
  (List.range u.length).insertionSort fun i j => u.getD i 0 ≤ u.getD j 0

theorem exampleArgsort_ok : IsArgsort exampleArgsort := by
  intro u
  refine ⟨List.perm_insertionSort _ _, ?_⟩
  have t1 : Std.Total fun i j : ℕ => u.getD i 0 ≤ u.getD j 0 := ⟨fun a b => le_total _ _⟩
  have t2 : IsTrans ℕ fun i j : ℕ => u.getD i 0 ≤ u.getD j 0 := ⟨fun a b c h1 h2 => le_trans h1 h2⟩
  have h := List.pairwise_insertionSort (fun i j : ℕ => u.getD i 0 ≤ u.getD j 0) (List.range u.length)
  refine h.imp ?_
  intro i j hij a b ha hb
  simpa [List.getD_eq_getElem?_getD, ha, hb] using hij

example : shuffle exampleArgsort [3/4, 1/4, 1/2] ['a', 'b', 'c'] = .ok ['b', 'c', 'a'] := by
  decide +kernel

/-! ## C62 -/

section
variable {α K : Type} [Field K] [LinearOrder K]

/-- C62 for sizes that are not negative: `size` elements at distinct positions; sizes that are too
large are rejected. Missing: negative sizes, see `C62_violated`. -/
theorem C62_draw_partial (argsort : List K → List ℕ) (hs : IsArgsort argsort) (u : List K)
    (sample : List α) (hu : u.length = sample.length) (size : ℤ) :
    ((sample.length : ℤ) ≤ size → randomDraw argsort u sample size = .error .assertionError) ∧
    (0 ≤ size → size < sample.length → ∃ (out : List α) (idx : List ℕ), randomDraw argsort u sample size = .ok out ∧
      idx.Nodup ∧ (idx.length : ℤ) = size ∧ (∀ i ∈ idx, i < sample.length) ∧
      out.map some = idx.map fun (i : ℕ) => sample[i]?) := by
  constructor
  · intro h
    unfold randomDraw pyAssert
    rw [if_neg (by omega)]; rfl
  · intro h0 h1
    have hp := (hs u).1
    rw [hu] at hp
    have hb : ∀ i ∈ sliceTo (argsort u) size, i < sample.length := by
      intro i hi
      exact List.mem_range.mp (hp.mem_iff.mp (List.mem_of_mem_take hi))
    obtain ⟨out, e1, e2⟩ := gather_ok sample _ hb
    refine ⟨out, sliceTo (argsort u) size, ?_, ?_, ?_, hb, e2⟩
    · unfold randomDraw pyAssert
      rw [if_pos h1]
      exact e1
    · exact (List.take_sublist _ _).nodup (hp.nodup_iff.mpr List.nodup_range)
    · have := hp.length_eq
      rw [List.length_range] at this
      unfold sliceTo sliceBound
      rw [if_neg (by omega), List.length_take, this]
      omega

/-- A negative size is accepted: the call returns `len(sample) + size` elements. -/
theorem C62_violated (argsort : List K → List ℕ) (hs : IsArgsort argsort) (u : List K)
    (sample : List α) (hu : u.length = sample.length) (size : ℤ) (h0 : size < 0)
    (h1 : -(sample.length : ℤ) ≤ size) :
    ∃ out, randomDraw argsort u sample size = .ok out ∧ (out.length : ℤ) = sample.length + size := by
  have hp := (hs u).1
  rw [hu] at hp
  have hb : ∀ i ∈ sliceTo (argsort u) size, i < sample.length := by
    intro i hi
    exact List.mem_range.mp (hp.mem_iff.mp (List.mem_of_mem_take hi))
  obtain ⟨out, e1, e2⟩ := gather_ok sample _ hb
  have := hp.length_eq
  rw [List.length_range] at this
  have hl := congrArg List.length e2
  simp only [List.length_map] at hl
  refine ⟨out, ?_, ?_⟩
  · unfold randomDraw pyAssert
    rw [if_pos (by omega)]
    exact e1
  · rw [hl]
    unfold sliceTo sliceBound
    rw [if_pos h0, List.length_take, this]
    omega

end

example : randomDraw exampleArgsort [3/4, 1/4, 1/2] ['a', 'b', 'c'] 2 = .ok ['b', 'c'] ∧
    randomDraw exampleArgsort [3/4, 1/4, 1/2] ['a', 'b', 'c'] (-2) = .ok ['b'] := by decide +kernel

/-! ## C63 -/

section
variable {α K : Type} [Field K] [LinearOrder K] [IsStrictOrderedRing K]

/-- C63 without `size`: the result is a permutation of the elements whose variate is at most their
probability, so probabilities of at least one are always kept and negative ones never. -/
theorem C63_kept (argsort : List K → List ℕ) (hs : IsArgsort argsort) (u : List K) (u2 : ℕ → List K)
    (hu2 : ∀ n, (u2 n).length = n) (sample : List α) (prob : List K)
    (hu : u.length = sample.length) (hp : prob.length = sample.length) :
    ∃ (out : List α) (idx : List ℕ), randomProbDraw argsort u u2 sample prob none = .ok out ∧ idx.Nodup ∧
      (∀ i, i ∈ idx ↔ i < sample.length ∧ u.getD i 0 ≤ prob.getD i 0) ∧
      (out.map some).Perm (idx.map fun (i : ℕ) => sample[i]?) := by
  have hw : whereIdx (fun x : K × K => decide (x.1 ≤ x.2)) (u.zip prob)
      = (((u.zip prob).zipIdx 0).filter fun x => decide (x.1.1 ≤ x.1.2)).map Prod.snd :=
    whereFrom_eq_zipIdx _ 0 _
  have hmem : ∀ i, i ∈ whereIdx (fun x : K × K => decide (x.1 ≤ x.2)) (u.zip prob) ↔
      i < sample.length ∧ u.getD i 0 ≤ prob.getD i 0 := by
    intro i
    rw [hw]
    simp only [List.mem_map, List.mem_filter, Prod.exists, exists_eq_right, List.mem_zipIdx_iff_getElem?,
      List.getElem?_zip_eq_some, decide_eq_true_eq]
    constructor
    · rintro ⟨a, b, ⟨h1, h2⟩, h3⟩
      refine ⟨?_, ?_⟩
      · have := (List.getElem?_eq_some_iff.mp h1).1; omega
      · simpa [List.getD_eq_getElem?_getD, h1, h2] using h3
    · rintro ⟨h1, h2⟩
      refine ⟨u.getD i 0, prob.getD i 0, ⟨?_, ?_⟩, h2⟩
      · rw [List.getD_eq_getElem?_getD, List.getElem?_eq_getElem (by omega)]; rfl
      · rw [List.getD_eq_getElem?_getD, List.getElem?_eq_getElem (by omega)]; rfl
  have hnd : (whereIdx (fun x : K × K => decide (x.1 ≤ x.2)) (u.zip prob)).Nodup := by
    rw [hw]
    have : (((u.zip prob).zipIdx 0).map Prod.snd).Nodup := by
      rw [List.zipIdx_map_snd]; exact List.nodup_range'
    exact (List.filter_sublist.map Prod.snd).nodup this
  obtain ⟨sel, e1, e2⟩ := gather_ok sample _ fun i hi => ((hmem i).mp hi).1
  obtain ⟨out, e3, e4⟩ := C61_permutation argsort hs (u2 sel.length) sel (hu2 _)
  refine ⟨out, _, ?_, hnd, hmem, ?_⟩
  · unfold randomProbDraw
    simp only []
    rw [if_neg (by omega), e1]
    exact e3
  · rw [← e2]; exact e4.map some

/-- C63 with `size`: `size` distinct positions, those with the smallest ratio of variate to
probability; zero (and negative) probabilities and sizes that are too large are rejected. -/
theorem C63_sized (argsort : List K → List ℕ) (hs : IsArgsort argsort) (u : List K) (u2 : ℕ → List K)
    (hu2 : ∀ n, (u2 n).length = n) (sample : List α) (prob : List K)
    (hu : u.length = sample.length) (hp : prob.length = sample.length) (size : ℤ) :
    ((sample.length : ℤ) ≤ size ∨ (∃ p ∈ prob, p ≤ 0) →
      randomProbDraw argsort u u2 sample prob (some size) = .error .assertionError) ∧
    (0 ≤ size → size < sample.length → (∀ p ∈ prob, 0 < p) →
      ∃ (out : List α) (idx : List ℕ), randomProbDraw argsort u u2 sample prob (some size) = .ok out ∧ idx.Nodup ∧
        (idx.length : ℤ) = size ∧ (∀ i ∈ idx, i < sample.length) ∧
        (out.map some).Perm (idx.map fun (i : ℕ) => sample[i]?) ∧
        ∀ i j, i ∈ idx → j < sample.length → j ∉ idx →
          u.getD i 0 / prob.getD i 0 ≤ u.getD j 0 / prob.getD j 0) := by
  constructor
  · rintro h
    unfold randomProbDraw pyAssert
    simp only []
    by_cases h1 : size < sample.length
    · rw [if_pos h1]
      rcases h with h | ⟨p, hp, hle⟩
      · omega
      · have : ¬ ((prob.any fun p => decide (p ≤ 0)) = false) := by
          simp only [Bool.not_eq_false, List.any_eq_true, decide_eq_true_eq]
          exact ⟨p, hp, hle⟩
        simp only [bind, Except.bind]
        rw [if_neg this]
    · rw [if_neg h1]; rfl
  · intro h0 h1 hpos
    have hperm := (hs (List.zipWith (· / ·) u prob)).1
    have hlen : (List.zipWith (· / ·) u prob).length = sample.length := by simp [hu, hp]
    rw [hlen] at hperm
    set S := argsort (List.zipWith (· / ·) u prob) with hS
    have hb : ∀ i ∈ sliceTo S size, i < sample.length := by
      intro i hi
      exact List.mem_range.mp (hperm.mem_iff.mp (List.mem_of_mem_take hi))
    obtain ⟨sel, e1, e2⟩ := gather_ok sample _ hb
    obtain ⟨out, e3, e4⟩ := C61_permutation argsort hs (u2 sel.length) sel (hu2 _)
    have hSl := hperm.length_eq
    rw [List.length_range] at hSl
    refine ⟨out, sliceTo S size, ?_, ?_, ?_, hb, ?_, ?_⟩
    · unfold randomProbDraw pyAssert
      simp only []
      have : (prob.any fun p => decide (p ≤ 0)) = false := by
        rw [List.any_eq_false]
        intro p hp'
        simpa using hpos p hp'
      rw [if_pos h1, if_pos this]
      simp only [bind, Except.bind]
      rw [if_neg (by omega)]
      simp only [← hS]
      rw [e1]
      exact e3
    · exact (List.take_sublist _ _).nodup (hperm.nodup_iff.mpr List.nodup_range)
    · unfold sliceTo sliceBound
      rw [if_neg (by omega), List.length_take, hSl]
      omega
    · rw [← e2]; exact e4.map some
    · intro i j hi hj hj'
      have hsplit : S = sliceTo S size ++ S.drop (sliceBound S.length size) :=
        (List.take_append_drop _ _).symm
      have hjS : j ∈ S := hperm.mem_iff.mpr (List.mem_range.mpr hj)
      rw [hsplit, List.mem_append] at hjS
      have hjd := hjS.resolve_left hj'
      have hpw := (hs (List.zipWith (· / ·) u prob)).2
      rw [← hS, hsplit, List.pairwise_append] at hpw
      have hi' := hb i hi
      have := hpw.2.2 i hi j hjd
      apply this
      · rw [List.getElem?_zipWith, List.getD_eq_getElem?_getD, List.getD_eq_getElem?_getD,
          List.getElem?_eq_getElem (by omega : i < u.length),
          List.getElem?_eq_getElem (by omega : i < prob.length)]; rfl
      · rw [List.getElem?_zipWith, List.getD_eq_getElem?_getD, List.getD_eq_getElem?_getD,
          List.getElem?_eq_getElem (by omega : j < u.length),
          List.getElem?_eq_getElem (by omega : j < prob.length)]; rfl

end

/-- C63: an element with probability `p` in `[0, 1]` is kept with probability `p`. -/
theorem C63_probability {α : Type} (argsort : List ℝ → List ℕ) (hs : IsArgsort argsort)
    (u2 : ℕ → List ℝ) (hu2 : ∀ n, (u2 n).length = n) (a : α) (p : ℝ) (h0 : 0 ≤ p) (h1 : p ≤ 1) :
    Spec.unif {u | randomProbDraw argsort [u] u2 [a] [p] none = .ok [a]} = ENNReal.ofReal p := by
  apply Spec.unif_cdf h0 h1
  intro u _ _
  obtain ⟨out, idx, e, hnd, hmem, hperm⟩ := C63_kept argsort hs [u] u2 hu2 [a] [p] rfl rfl
  rw [e]
  simp only [List.length_singleton, Nat.lt_one_iff] at hmem
  constructor
  · intro h
    simp only [Except.ok.injEq] at h
    subst h
    have hl := hperm.length_eq
    simp only [List.length_map, List.length_singleton] at hl
    obtain ⟨i, rfl⟩ := List.length_eq_one_iff.mp hl.symm
    have := (hmem i).mp (by simp)
    obtain ⟨rfl, h⟩ := this
    simpa using h
  · intro h
    have : idx = [0] := by
      have h0 : 0 ∈ idx := (hmem 0).mpr ⟨rfl, by simpa using h⟩
      have : idx.Perm [0] := by
        rw [List.perm_ext_iff_of_nodup hnd (by simp)]
        intro i
        rw [hmem]
        simp only [List.mem_singleton]
        constructor
        · exact fun h => h.1
        · rintro rfl; exact ⟨rfl, by simpa using h⟩
      exact List.perm_singleton.mp this
    rw [this] at hperm
    have h3 := map_some_perm (a := out) (b := [a]) (by simpa using hperm)
    rw [List.perm_singleton.mp h3]

example : randomProbDraw exampleArgsort [3/4, 1/4, 1/2] (fun n => List.replicate n (1/2))
    ['a', 'b', 'c'] [1/2, 1/2, 1] none = .ok ['b', 'c'] ∧
    randomProbDraw exampleArgsort [3/4, 1/4, 1/2] (fun n => List.replicate n (1/2))
    ['a', 'b', 'c'] [1, 1/8, 1] (some 2) = .ok ['c', 'a'] := by decide +kernel

/-! ## C64 -/

section
variable {K : Type} [Field K] [LinearOrder K] [IsStrictOrderedRing K] [FloorRing K]

/-- C64: the result is one of the two neighbouring integers, and the weight itself when the weight
is an integer. -/
theorem C64_values (u w : K) (hu : 0 ≤ u) :
    (stochInt u w = ⌊w⌋ ∨ stochInt u w = ⌈w⌉) ∧ ∀ m : ℤ, w = m → stochInt u w = w := by
  unfold stochInt
  constructor
  · by_cases h : u < (⌈w⌉ : K) - w
    · rw [if_pos h]; exact .inl rfl
    · rw [if_neg h]; exact .inr rfl
  · rintro m rfl
    simp

/-- C64: a call with an array is the scalar call for every entry. -/
theorem C64_array (rows : List (K × K)) :
    stochIntArr (rows.map Prod.fst) (rows.map Prod.snd)
      = .ok (rows.map fun x => stochInt x.1 x.2) := by
  unfold stochIntArr
  simp only [List.length_map, replicate_length_map, whereIdx_map, bind, Except.bind,
    gather_whereIdx, gather_self, zipWith_map_same, zipWith_same_map, zip_map_same, scatter_whereIdx,
    List.map_map, Function.comp_def, pure, Except.pure, decide_eq_true_eq]
  rfl

/-- C65: for a non-negative weight the result is 0 or 1. -/
theorem C65_values (u w : K) (hu : 0 ≤ u) (hu1 : u < 1) (hw : 0 ≤ w) :
    stochBin u w = 0 ∨ stochBin u w = 1 := by
  have hf : 0 ≤ ⌊w⌋ := Int.floor_nonneg.mpr hw
  have hc : 0 ≤ ⌈w⌉ := Int.ceil_nonneg hw
  have key : ∀ m : ℤ, 0 ≤ m → ((if (m:K) > 1 then (1:K) else m) = 0 ∨ (if (m:K) > 1 then (1:K) else m) = 1) := by
    intro m hm
    by_cases h : (m:K) > 1
    · rw [if_pos h]; exact .inr rfl
    · rw [if_neg h]
      push Not at h
      have h' : m ≤ 1 := by exact_mod_cast h
      have : m = 0 ∨ m = 1 := by omega
      rcases this with rfl | rfl <;> simp
  unfold stochBin
  simp only
  rcases (C64_values u w hu).1 with h | h
  · rw [h]; exact key _ hf
  · rw [h]; exact key _ hc

/-- C65: a call with an array is the scalar call for every entry. -/
theorem C65_array (rows : List (K × K)) :
    stochBinArr (rows.map Prod.fst) (rows.map Prod.snd)
      = .ok (rows.map fun x => stochBin x.1 x.2) := by
  unfold stochBinArr
  rw [C64_array]
  simp only [bind, Except.bind, whereIdx_map]
  have h : (whereIdx (fun r : K × K => decide (stochInt r.1 r.2 > 1)) rows).map (fun _ => (1:K))
      = (rows.filter fun r : K × K => decide (stochInt r.1 r.2 > 1)).map fun _ => (1:K) := by
    rw [List.map_const', List.map_const', length_whereIdx]
  rw [h, scatter_whereIdx]
  simp only [decide_eq_true_eq]
  rfl

end

/-- C64: the expectation over the variate is the weight. -/
theorem C64_mean (w : ℝ) : ∫ u, stochInt u w ∂Spec.unif = w := by
  unfold stochInt
  have h1 := Int.le_ceil w
  have h2 := Int.ceil_lt_add_one w
  rw [integral_two _ _ _ (by linarith) (by linarith)]
  by_cases h : w = ⌈w⌉
  · have : (⌊w⌋ : ℝ) = ⌈w⌉ := by
      rw [h]; simp
    rw [this]; linarith
  · have hlt : w < ⌈w⌉ := lt_of_le_of_ne h1 h
    have : ⌈w⌉ = ⌊w⌋ + 1 := by
      rw [Int.ceil_eq_iff]
      have f1 := Int.floor_le w
      have f2 := Int.lt_floor_add_one w
      push_cast
      refine ⟨?_, by linarith⟩
      rcases lt_or_eq_of_le f1 with h' | h'
      · linarith
      · exfalso; apply h
        rw [← h']; simp
    rw [this]; push_cast; ring

/-- C65: the expectation over the variate is `min(w, 1)`. -/
theorem C65_mean (w : ℝ) (hw : 0 ≤ w) : ∫ u, stochBin u w ∂Spec.unif = min w 1 := by
  rcases le_or_gt w 1 with h | h
  · have : ∀ u, stochBin u w = stochInt u w := by
      intro u
      have c1 : (⌈w⌉ : ℝ) ≤ 1 := by
        have : ⌈w⌉ ≤ 1 := Int.ceil_le.mpr (by exact_mod_cast h)
        exact_mod_cast this
      have c2 : (⌊w⌋ : ℝ) ≤ 1 := le_trans (Int.floor_le w) h
      unfold stochBin
      simp only
      rw [if_neg]
      unfold stochInt
      push Not
      split_ifs <;> assumption
    simp only [this]
    rw [C64_mean, min_eq_left h]
  · have : ∀ u, stochBin u w = 1 := by
      intro u
      have c1 : (1:ℝ) ≤ ⌊w⌋ := by
        have : (1:ℤ) ≤ ⌊w⌋ := Int.le_floor.mpr (by exact_mod_cast h.le)
        exact_mod_cast this
      have c2 : (1:ℝ) ≤ ⌈w⌉ := le_trans h.le (Int.le_ceil w)
      have hge : 1 ≤ stochInt u w := by
        unfold stochInt
        split_ifs <;> assumption
      unfold stochBin
      simp only
      split_ifs with h'
      · rfl
      · push Not at h'; linarith
    simp only [this]
    rw [min_eq_right h.le]
    simp

example : stochInt (K := ℚ) (1/4) (5/2) = 2 ∧ stochInt (K := ℚ) (3/4) (5/2) = 3 ∧
    stochBin (K := ℚ) (1/4) (5/2) = 1 ∧ stochBin (K := ℚ) (1/4) (1/2) = 0 := by decide +kernel

end Magpie.Props
