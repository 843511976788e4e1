import Verif.Proof.HealpixIndex64

/-!
# C98: HEALPix pixel numbers in double precision
-/

namespace Magpie.Props
open Magpie.Healpix Magpie.Spec Magpie.F64

/-- C98 (arithmetic): the model's rounding is the IEEE 754 one. For every real not
larger than the largest finite double, the result is a nearest double. -/
theorem C98_rounding (x : ℝ) (hx : |x| ≤ maxDouble) : IsNearest x (fl x) := fl_isNearest hx

/-- C98 (arithmetic, ties): when another double is equally near, the result is the
one with an even last digit. -/
theorem C98_ties (x d : ℝ) (hd : IsDouble d) (hne : d ≠ fl x) (h : |x - d| = |x - fl x|) :
    LastDigitEven (fl x) := fl_even hd hne h

/-- A tie: `2^53 + 1` lies half way between `2^53` and `2^53 + 2`. -/
example : fl ((2^53 + 1 : ℤ):ℝ) = 2^53 ∧ IsDouble (2^53 + 2) ∧
    |((2^53 + 1 : ℤ):ℝ) - (2^53 + 2)| = |((2^53 + 1 : ℤ):ℝ) - 2^53| := by
  refine ⟨?_, ⟨2^52 + 1, 1, by norm_num, by norm_num, by norm_num, by norm_num⟩, by norm_num⟩
  have := ofInt_odd (k := 2^52) (by norm_num) (by norm_num)
  rw [if_pos (by decide)] at this
  have e : (2^53 + 1 : ℤ) = 2*2^52 + 1 := by norm_num
  rw [e, this]; norm_num

/-- C98: with every float operation rounded to binary64, each pixel of a map with
`nside ≤ 2^24` is given a ring and a place that exist and that name this pixel.
What is missing: maps with larger `nside` (HEALPix defines them up to `2^29`), for
which the claim is false, see `C98_violated` and `C98_violated_ring`. -/
theorem C98_pix2ij_partial (N p : ℤ) (hN : 1 ≤ N) (hb : N ≤ 2^24) (hp : ValidPix N p) :
    ∃ i j, pix2ij64 p N = .ok (i, j) ∧ ValidRing N i j ∧ ij2pix i j N = p := by
  obtain ⟨i, j, hv, he⟩ := exists_ij hN hp
  refine ⟨i, j, ?_, hv, he⟩
  rw [pix2ij64_eq hN hb hp, ← he]; exact pix2ij_ij2pix hv

/-- C98 (arrays): the array branch gives the same rings and places. -/
theorem C98_pix2ij_arr_partial (N : ℤ) (hN : 1 ≤ N) (hb : N ≤ 2^24) (ps : List ℤ)
    (hp : ∀ p ∈ ps, ValidPix N p) :
    ∃ f : ℤ → ℤ × ℤ, pix2ijArr64 ps N
        = .ok (ps.map fun p => some (f p).1, ps.map fun p => some (f p).2) ∧
      ∀ p ∈ ps, ValidRing N (f p).1 (f p).2 ∧ ij2pix (f p).1 (f p).2 N = p := by
  have : ∀ p, ∃ r : ℤ × ℤ, p ∈ ps →
      pix2ij p N = .ok r ∧ ValidRing N r.1 r.2 ∧ ij2pix r.1 r.2 N = p := by
    intro p
    by_cases h : p ∈ ps
    · obtain ⟨i, j, hv, he⟩ := exists_ij hN (hp p h)
      exact ⟨(i, j), fun _ => ⟨by rw [← he]; exact pix2ij_ij2pix hv, hv, he⟩⟩
    · exact ⟨(0, 0), fun hc => absurd hc h⟩
  choose f hf using this
  refine ⟨f, ?_, fun p h => (hf p h).2⟩
  rw [pix2ijArr64_eq hN hb ps hp]
  exact pix2ijArr_eq_map hN ps f fun p h => (hf p h).1

/-- C98 (arrays, other direction): the array branch of `healpix_ij2pix`, which
collects pixel numbers in a float array, returns the numbers of the pixels. -/
theorem C98_ij2pix_arr_partial (N : ℤ) (hN : 1 ≤ N) (hb : N ≤ 2^24) (rows : List (ℤ × ℤ))
    (hv : ∀ r ∈ rows, ValidRing N r.1 r.2) :
    ij2pixArr64 (rows.map Prod.fst) (rows.map Prod.snd) N
      = .ok (rows.map fun r => ij2pix r.1 r.2 N) := ij2pixArr64_eq hN hb rows hv

/-- The hypotheses are met by the last pixel of the largest map covered. -/
example : (1:ℤ) ≤ 2^24 ∧ ValidPix (2^24) (12*(2^24)^2 - 1) ∧ ValidRing (2^24) (4*2^24 - 1) 4 := by
  refine ⟨by norm_num, ⟨by norm_num, by norm_num⟩, ?_⟩
  unfold ValidRing ringLen; norm_num

/-- C98 is false for `nside = 2^25`: the pixel `12 nside^2 - 3`, which is place 2 of
the last ring, is returned as place 0, which does not exist. -/
theorem C98_violated : ValidPix (2^25) (12*(2^25)^2 - 3) ∧
    pix2ij (12*(2^25)^2 - 3) (2^25) = .ok (4*2^25 - 1, 2) ∧
    pix2ij64 (12*(2^25)^2 - 3) (2^25) = .ok (4*2^25 - 1, 0) ∧
    ¬ ValidRing (2^25) (4*2^25 - 1) 0 := by
  refine ⟨⟨by norm_num, by norm_num⟩, ?_, pix2ij64_bad, ?_⟩
  · have hv : ValidRing (2^25) (4*2^25 - 1) 2 := by unfold ValidRing ringLen; norm_num
    have := pix2ij_ij2pix hv
    have e : ij2pix (4*2^25 - 1) 2 (2^25) = 12*(2^25)^2 - 3 := by unfold ij2pix; norm_num
    rwa [e] at this
  · rintro ⟨-, -, h, -⟩; norm_num at h

/-- C98 is false for `nside = 2^27` also in the north cap, and for the ring number:
the last pixel of ring `2^26 + 2` is returned as a pixel of the next ring. -/
theorem C98_violated_ring : ValidPix (2^27) (2*(2^26 + 2)*(2^26 + 3) - 1) ∧
    pix2ij (2*(2^26 + 2)*(2^26 + 3) - 1) (2^27) = .ok (2^26 + 2, 4*(2^26 + 2)) ∧
    pix2ij64 (2*(2^26 + 2)*(2^26 + 3) - 1) (2^27) = .ok (2^26 + 3, 0) := by
  refine ⟨⟨by norm_num, by norm_num⟩, ?_, pix2ij64_bad_ring⟩
  have hv : ValidRing (2^27) (2^26 + 2) (4*(2^26 + 2)) := by unfold ValidRing ringLen; norm_num
  have := pix2ij_ij2pix hv
  have e : ij2pix (2^26 + 2) (4*(2^26 + 2)) (2^27) = 2*(2^26 + 2)*(2^26 + 3) - 1 := by
    unfold ij2pix; norm_num
  rwa [e] at this

/-- C98 is false for arrays of ring pairs with `nside = 2^25`: the last pixel is
returned as `12 nside^2`, which is not on the map. -/
theorem C98_violated_arr : ValidRing (2^25) (4*2^25 - 1) 4 ∧
    ij2pix (4*2^25 - 1) 4 (2^25) = 12*(2^25)^2 - 1 ∧
    ij2pixArr64 [4*2^25 - 1] [4] (2^25) = .ok [12*(2^25)^2] ∧
    ¬ ValidPix (2^25) (12*(2^25)^2) := by
  refine ⟨?_, ?_, ij2pixArr64_bad, ?_⟩
  · unfold ValidRing ringLen; norm_num
  · unfold ij2pix; norm_num
  · rintro ⟨-, h⟩; norm_num at h

end Magpie.Props
