import Verif.Proof.DiamondLaw

/-!
# Properties C12-C14: pixel boundary and pixel sampler
-/

set_option linter.unusedSimpArgs false

namespace Magpie.Props
open Magpie Magpie.Healpix Magpie.Spec Real MeasureTheory

theorem getDelta_eq (N : ℤ) : getDelta N = halfDiag N := rfl

theorem halfDiag_pos {N : ℤ} (hN : 1 ≤ N) : 0 < halfDiag N := by
  have hpi := pi_pos
  have hNR : (0:ℝ) < N := by exact_mod_cast (by omega : 0 < N)
  unfold halfDiag; positivity

/-! ## C12 -/

/-- C12: `steps` points come back, all on the edge of the pixel; from four points on the curve
starts and ends at the left corner; from eight points on it passes through all four corners;
`reverse` gives the same points in reverse order. -/
theorem C12_boundary (N p : ℤ) (steps : ℕ) (hN : 1 ≤ N) (hp : ValidPix N p) :
    ∃ (xp yp : ℝ) (pts : List (ℝ × ℝ)), pix2xy p N = .ok (xp, yp) ∧
      boundary p N steps false = .ok (pts.map Prod.fst, pts.map Prod.snd) ∧
      boundary p N steps true = .ok (pts.reverse.map Prod.fst, pts.reverse.map Prod.snd) ∧
      pts.length = steps ∧
      (∀ q ∈ pts, |q.1 - xp| + |q.2 - yp| = halfDiag N) ∧
      (4 ≤ steps → pts.head? = some (xp - halfDiag N, yp) ∧
        pts.getLast? = some (xp - halfDiag N, yp)) ∧
      (8 ≤ steps → (xp - halfDiag N, yp) ∈ pts ∧ (xp, yp + halfDiag N) ∈ pts ∧
        (xp + halfDiag N, yp) ∈ pts ∧ (xp, yp - halfDiag N) ∈ pts) := by
  obtain ⟨i, j, d, hv, _, _, _, hxy⟩ := pix2xy_ok hN hp
  refine ⟨_, _, edgePts (d*π/(2*N)) (i2id i N*π/(2*N)) (halfDiag N) steps, hxy, ?_, ?_, ?_, ?_,
    ?_, ?_⟩
  · rw [boundary_eq hxy, revIf_false, getDelta_eq]
  · rw [boundary_eq hxy, revIf_true, getDelta_eq]; simp
  · exact length_edgePts _ _ _ _
  · intro q hq; exact mem_edgePts (halfDiag_pos hN) hq
  · intro h; exact ⟨edgePts_head h, edgePts_last h⟩
  · intro h; exact edgePts_corners h

/-! ## C13 -/

/-- C13: for all draws in `[0,1)` the sampler returns, entry by entry, a point of the closed
pixel diamond up to whole turns in `x`, with `x` in `[0, 2π)`. -/
theorem C13_plane (N p : ℤ) (hN : 1 ≤ N) (hp : ValidPix N p) (draws : List (ℝ × ℝ))
    (hu : ∀ r ∈ draws, (0 ≤ r.1 ∧ r.1 < 1) ∧ (0 ≤ r.2 ∧ r.2 < 1)) :
    ∃ (xp yp : ℝ) (pts : List (ℝ × ℝ)), pix2xy p N = .ok (xp, yp) ∧
      Randoms.randomsHealpixXY (draws.map Prod.fst) (draws.map Prod.snd) p N
        = .ok (pts.map Prod.fst, pts.map Prod.snd) ∧
      pts.length = draws.length ∧
      ∀ q ∈ pts, 0 ≤ q.1 ∧ q.1 < 2*π ∧ ∃ t : ℤ, |q.1 + 2*π*t - xp| + |q.2 - yp| ≤ halfDiag N := by
  obtain ⟨i, j, d, hv, _, _, _, hxy⟩ := pix2xy_ok hN hp
  refine ⟨_, _, draws.map fun r => (fmod (sampleX (d*π/(2*N)) (getDelta N) r.1) (2*π),
    sampleY (d*π/(2*N)) (i2id i N*π/(2*N)) (getDelta N) r.1 r.2), hxy, ?_, by simp, ?_⟩
  · rw [randomsXY_eq hxy]; simp [Function.comp_def]
  · intro q hq
    rw [List.mem_map] at hq
    obtain ⟨r, hr, rfl⟩ := hq
    obtain ⟨⟨a, b⟩, c, e⟩ := hu r hr
    have hm := fmod_bounds (x := sampleX (d*π/(2*N)) (getDelta N) r.1) (by positivity : 0 < 2*π)
    refine ⟨hm.1, hm.2, ?_⟩
    obtain ⟨t, ht⟩ := fmod_turn (sampleX (d*π/(2*N)) (getDelta N) r.1)
    refine ⟨-t, ?_⟩
    simp only []
    rw [ht]
    have := sample_mem (xp := d*π/(2*N)) (yp := i2id i N*π/(2*N)) (halfDiag_pos hN) a b c e
    rw [← getDelta_eq] at this ⊢
    push_cast
    ring_nf at this ⊢
    exact this

/-- C13, on the sky: every entry returned by `randoms_healpix_pixel` is the sky position of a
point of the closed pixel diamond, up to whole turns in longitude, with a colatitude in
`[0, π]` (at a pole, where the longitude carries no information, only the colatitude is
claimed). -/
theorem C13_sky (N p : ℤ) (hN : 1 ≤ N) (hp : ValidPix N p) (draws : List (ℝ × ℝ))
    (hu : ∀ r ∈ draws, (0 ≤ r.1 ∧ r.1 < 1) ∧ (0 ≤ r.2 ∧ r.2 < 1)) :
    ∃ (xp yp : ℝ) (sky : List (ℝ × ℝ)), pix2xy p N = .ok (xp, yp) ∧
      Randoms.randomsHealpixPixel (draws.map Prod.fst) (draws.map Prod.snd) p N
        = .ok (sky.map fun s => some s.1, sky.map fun s => some s.2) ∧
      sky.length = draws.length ∧
      ∀ s ∈ sky, 0 ≤ s.2 ∧ s.2 ≤ π ∧ ∃ (x y : ℝ) (t : ℤ), |x - xp| + |y - yp| ≤ halfDiag N ∧
        (xy2ang x y).2 = some s.2 ∧ (0 < s.2 → s.2 < π → (xy2ang x y).1 = s.1 + 2*π*t) := by
  obtain ⟨i, j, d, hv, _, _, hd, hxy⟩ := pix2xy_ok hN hp
  obtain ⟨xp, yp, pts, hxy', hr, hl, hpts⟩ := C13_plane N p hN hp draws hu
  have hpi := pi_pos
  -- every point of a pixel is in the strip |y| ≤ π/2
  have hNR : (0:ℝ) < N := by exact_mod_cast (by omega : 0 < N)
  have hyp : |yp| + halfDiag N ≤ π/2 := by
    rw [hxy] at hxy'
    have e := (Prod.mk.inj (Except.ok.inj hxy')).2
    rw [← e]
    unfold i2id halfDiag
    have h1 : (1:ℝ) ≤ i := by exact_mod_cast hv.1
    have h2 : (i:ℝ) ≤ 4*N - 1 := by exact_mod_cast hv.2.1
    have e4 : π/(4*(N:ℝ)) = (1/2)*(π/(2*N)) := by field_simp; norm_num
    have e5 : π/2 = (N:ℝ)*(π/(2*N)) := by field_simp
    have hU : 0 < π/(2*(N:ℝ)) := by positivity
    rw [e4, e5, show ((N:ℝ) - i/2)*π/(2*N) = ((N:ℝ) - i/2)*(π/(2*N)) by ring, abs_mul,
      abs_of_pos hU, ← add_mul]
    apply mul_le_mul_of_nonneg_right _ hU.le
    have : |(N:ℝ) - i/2| ≤ N - 1/2 := by rw [abs_le]; constructor <;> linarith
    linarith
  have hstrip : ∀ q ∈ pts, ∃ theta, (xy2ang q.1 q.2).2 = some theta ∧ 0 ≤ theta ∧ theta ≤ π ∧
      (0 < theta → theta < π → |q.2| < π/2) := by
    intro q hq
    apply xy2ang_strip
    obtain ⟨_, _, t, ht⟩ := hpts q hq
    have h1 := abs_nonneg (q.1 + 2*π*t - xp)
    have h2 : |q.2| ≤ |q.2 - yp| + |yp| := by
      have := abs_add_le (q.2 - yp) yp
      rwa [sub_add_cancel] at this
    linarith
  refine ⟨xp, yp, pts.map fun q => ((xy2ang q.1 q.2).1, (xy2ang q.1 q.2).2.getD 0), hxy', ?_,
    by simp [hl], ?_⟩
  · unfold Randoms.randomsHealpixPixel
    rw [hr]
    simp only [bind, Except.bind]
    rw [xy2angArr_eq_map]
    simp only [List.map_map, Function.comp_def]
    congr 2
    apply List.map_congr_left
    intro q hq
    obtain ⟨theta, h, _⟩ := hstrip q hq
    rw [h]; rfl
  · intro s hs
    rw [List.mem_map] at hs
    obtain ⟨q, hq, rfl⟩ := hs
    obtain ⟨theta, h, h0, h1, h2⟩ := hstrip q hq
    obtain ⟨_, _, t, ht⟩ := hpts q hq
    simp only [h, Option.getD_some]
    refine ⟨h0, h1, q.1 + 2*π*t, q.2, t, ht, ?_, ?_⟩
    · have : ∀ x x' y, (xy2ang x y).2 = (xy2ang x' y).2 := by
        intro x x' y
        unfold xy2ang
        by_cases c : |y| ≤ π/4
        · simp only [if_pos c]
        · simp only [if_neg c]
      rw [this _ q.1, h]
    · intro a b
      rw [xy2ang_turn _ _ _ (h2 a b)]

example : ∀ r ∈ [((1:ℝ)/3, (0:ℝ)), (2/3, 1/2)], (0 ≤ r.1 ∧ r.1 < 1) ∧ (0 ≤ r.2 ∧ r.2 < 1) := by
  intro r hr
  simp only [List.mem_cons, List.not_mem_nil, or_false] at hr
  rcases hr with rfl | rfl <;> norm_num

/-! ## C14 -/

/-- C14: the array returned is computed entry by entry from one pair of draws, `(X, Y)` of the
pair with `x` wrapped to `[0, 2π)`, and `(X, Y)` of a uniform pair is uniform on the pixel
diamond. -/
theorem C14_uniform (N p : ℤ) (hN : 1 ≤ N) (hp : ValidPix N p) :
    ∃ (c : ℝ × ℝ) (X Y : ℝ × ℝ → ℝ), pix2xy p N = .ok c ∧
      (∀ draws : List (ℝ × ℝ),
        Randoms.randomsHealpixXY (draws.map Prod.fst) (draws.map Prod.snd) p N
          = .ok (draws.map fun r => fmod (X r) (2*π), draws.map Y)) ∧
      Measure.map (fun r => (X r, Y r)) unif2 = uniformOn {q | InDiamond N c q.1 q.2} := by
  obtain ⟨i, j, d, hv, _, _, hd, hxy⟩ := pix2xy_ok hN hp
  refine ⟨_, fun r => sampleX (d*π/(2*N)) (getDelta N) r.1,
    fun r => sampleY (d*π/(2*N)) (i2id i N*π/(2*N)) (getDelta N) r.1 r.2, hxy, ?_, ?_⟩
  · intro draws
    rw [randomsXY_eq hxy]
  · have hpos := halfDiag_pos hN
    rw [← getDelta_eq] at hpos
    rw [lawXY hpos]
    have hset : {q : ℝ × ℝ | InDiamond N (d*π/(2*N), i2id i N*π/(2*N)) q.1 q.2}
        = diamond (d*π/(2*N)) (i2id i N*π/(2*N)) (getDelta N) := rfl
    unfold uniformOn
    rw [hset, volume_diamond hpos, ENNReal.ofReal_inv_of_pos (by positivity) |>.symm, one_div]

/-- C14: the area of the diamond is `2 δ^2`, so the uniform law above is a probability. -/
theorem C14_area (N : ℤ) (hN : 1 ≤ N) (c : ℝ × ℝ) :
    volume {q : ℝ × ℝ | InDiamond N c q.1 q.2} = ENNReal.ofReal (2*(halfDiag N)^2) :=
  volume_diamond (halfDiag_pos hN)

end Magpie.Props
