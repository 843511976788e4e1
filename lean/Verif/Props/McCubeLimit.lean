import Verif.Proof.McCubeLimit
import Verif.Props.McCube2Shell
import Mathlib.Probability.HasLawExists

/-!
# What the Monte Carlo `Cube2Shell` converges to
-/

set_option linter.unusedSimpArgs false
set_option linter.unusedVariables false
set_option linter.unusedSectionVars false

namespace Magpie.Props
open ProbabilityTheory hiding uniformOn
open Magpie Magpie.Radial Magpie.OneD Magpie.Spec Magpie.Box2Ring Magpie.Cube Magpie.McCube MeasureTheory Filter Topology

/-! ## C103 -/

/-- C103, the points: the direction of a random point of pixel `j` is what `randoms_healpix_pixel` makes of the
variates, entry by entry, and the point is uniformly distributed over the part of space that the pixel of the shell
covers, the volume of which is the solid angle times a third of the difference of the cubed radii. -/
theorem C103_law (G : Shells) (hG : G.Ok) (i j : ℕ) (hi : i < G.numr) (hj : j < G.npix) :
    (∃ D : ℝ × ℝ → ℝ × ℝ,
      (∀ draws : List (ℝ × ℝ), (∀ r ∈ draws, (0 ≤ r.1 ∧ r.1 < 1) ∧ (0 ≤ r.2 ∧ r.2 < 1)) →
        Randoms.randomsHealpixPixel (draws.map Prod.fst) (draws.map Prod.snd) j G.args.nside
          = .ok (draws.map fun r => some (D r).1, draws.map fun r => some (D r).2)) ∧
      Measure.map (fun u : ℝ × ℝ × ℝ => G.point i u.1 (D u.2)) unif3 = uniformOn3 (G.pixel i j)) ∧
    volume (G.pixel i j) = ENNReal.ofReal
      (4*Real.pi/(12*(G.args.nside:ℝ)^2)*((G.rEdge (i+1))^3 - (G.rEdge i)^3)/3) := by
  obtain ⟨⟨D, Q, hQ⟩, hv⟩ := exists_sampler hG hi hj
  refine ⟨⟨D, hQ.dirs, ?_⟩, ?_⟩
  · rw [← hQ.law]
    exact Measure.map_congr hQ.eq
  · rw [hv]
    congr 1
    unfold pixArea
    ring

section
variable {Ω : Type} [MeasurableSpace Ω] (P : Measure Ω) [IsProbabilityMeasure P]
  (U : Ω → ℕ → ℕ → ℕ → ℝ × ℝ × ℝ) (hU : McCube.Random P U)
  (C : CubeArgs) (G : Shells) (hC : CubeOk C) (hG : G.Ok)
include hU hC hG

/-- What holds for almost all sequences of variates. -/
theorem mcCube_good : ∃ (D : ℕ → ℕ → ℝ × ℝ → ℝ × ℝ) (Q : ℕ → ℕ → ℝ × ℝ × ℝ → ℝ × ℝ × ℝ),
    (∀ i j, i < G.numr → j < G.npix → Sampler G i j (D i j) (Q i j)) ∧
    ∀ᵐ ω ∂P, (∀ n i j, i < G.numr → j < G.npix → McCube.Draws n (McCube.drawsOf (U ω) n i j)) ∧
      (∀ n, Samples G (McCube.drawsOf (U ω) n) (dirsOf D (U ω) n)) ∧
      ∀ n i j, i < G.numr → j < G.npix → G.points i (McCube.drawsOf (U ω) n i j).ur (dirsOf D (U ω) n i j)
        = (List.range n).map fun (k : ℕ) => Q i j (U ω i j k) := by
  have hex : ∀ i j, ∃ D Q, i < G.numr → j < G.npix → Sampler G i j D Q := by
    intro i j
    by_cases h : i < G.numr ∧ j < G.npix
    · obtain ⟨⟨D, Q, hQ⟩, -⟩ := exists_sampler hG h.1 h.2
      exact ⟨D, Q, fun _ _ => hQ⟩
    · exact ⟨fun _ => (0, 0), fun _ => (0, 0, 0), fun a b => absurd ⟨a, b⟩ h⟩
  choose D Q hQ using hex
  refine ⟨D, Q, hQ, ?_⟩
  have key : ∀ i j, ∀ᵐ ω ∂P, i < G.numr → j < G.npix →
      ∀ k, G.point i (U ω i j k).1 (D i j (U ω i j k).2) = Q i j (U ω i j k) := by
    intro i j
    by_cases h : i < G.numr ∧ j < G.npix
    · filter_upwards [McCube.random_ae hU (hQ i j h.1 h.2).eq i j] with ω hω _ _ using hω
    · exact Eventually.of_forall fun ω a b => absurd ⟨a, b⟩ h
  filter_upwards [McCube.random_unit hU, ae_all_iff.mpr fun i => ae_all_iff.mpr (key i)] with ω hu hk
  refine ⟨fun n i j _ _ => McCube.draws_drawsOf hu n i j, samples_dirsOf hQ hu, fun n i j hi hj => ?_⟩
  rw [McCube.points_drawsOf]
  exact List.map_congr_left fun k _ => hk i j hi hj k

/-- For almost all sequences, with enough points all pixels touch exactly the voxels that they overlap. -/
theorem mcCube_touched (D : ℕ → ℕ → ℝ × ℝ → ℝ × ℝ) (Q : ℕ → ℕ → ℝ × ℝ × ℝ → ℝ × ℝ × ℝ)
    (hQ : ∀ i j, i < G.numr → j < G.npix → Sampler G i j (D i j) (Q i j)) :
    ∀ᵐ ω ∂P, ∃ N, ∀ n ≥ N, ∀ i j, i < G.numr → j < G.npix →
      McCube.touched C ((List.range n).map fun (k : ℕ) => Q i j (U ω i j k)) = McCube.overlaps C G i j := by
  have key : ∀ i j, ∀ᵐ ω ∂P, i < G.numr → j < G.npix → ∀ᶠ n : ℕ in atTop,
      McCube.touched C ((List.range n).map fun (k : ℕ) => Q i j (U ω i j k)) = McCube.overlaps C G i j := by
    intro i j
    by_cases h : i < G.numr ∧ j < G.npix
    · filter_upwards [McCube.touched_eventually hU hC hG h.1 h.2 (hQ i j h.1 h.2)] with ω hω _ _ using hω.1
    · exact Eventually.of_forall fun ω a b => absurd ⟨a, b⟩ h
  filter_upwards [ae_all_iff.mpr fun i => ae_all_iff.mpr (key i)] with ω hk
  have : ∀ᶠ n : ℕ in atTop, ∀ i ∈ Set.Iio G.numr, ∀ j ∈ Set.Iio G.npix,
      McCube.touched C ((List.range n).map fun (k : ℕ) => Q i j (U ω i j k)) = McCube.overlaps C G i j :=
    (eventually_all_finite (Set.finite_Iio _)).mpr fun i hi =>
      (eventually_all_finite (Set.finite_Iio _)).mpr fun j hj => hk i j hi hj
  obtain ⟨N, hN⟩ := eventually_atTop.mp this
  exact ⟨N, fun n hn i j hi hj => hN n hn i hi j hj⟩

variable (f : Arr3 (Option ℝ)) (v : ℕ → ℕ → ℕ → ℝ) (hf : Fits C f)
  (hv : ∀ i j k, i < f.n0 → j < f.n1 → k < f.n2 → f.val i j k = some (v i j k))
  (w : Option (Arr3 ℝ)) (hw : ∀ t, w = some t → Fits C t)
include hf hv hw

/-- C103, the limit: almost surely, as the number of random points grows, whatever `remap` returns converges
in every pixel to the mean of the cube weighted by common volume (times the weights, if given); the pixel has to
overlap the cube, and the weights must not cancel. -/
theorem C103_limit_partial : ∀ᵐ ω ∂P, ∀ i j, i < G.numr → j < G.npix → volSum C G (McCube.wOf w) i j ≠ 0 →
    ∀ ε > 0, ∃ N, ∀ n ≥ N, ∀ s out s', McCube.mcRemap C G n (McCube.drawsOf (U ω) n) f w s = (.ok out, s') →
      ∃ x, out.val i j = some x ∧ |x - volMean C G w v i j| < ε := by
  obtain ⟨D, Q, hQ, hgood⟩ := mcCube_good P U hU C G hC hG
  have key : ∀ i j, ∀ᵐ ω ∂P, i < G.numr → j < G.npix → volSum C G (McCube.wOf w) i j ≠ 0 →
      ∀ ε > 0, ∃ N, ∀ n ≥ N, ∃ x,
        valueAt C w v ((List.range n).map fun (k : ℕ) => Q i j (U ω i j k)) = some x ∧
        |x - volMean C G w v i j| < ε := by
    intro i j
    by_cases h : i < G.numr ∧ j < G.npix
    swap
    · exact Eventually.of_forall fun ω a b => absurd ⟨a, b⟩ h
    obtain ⟨hi, hj⟩ := h
    have hpos := (McCube.volume_pixel hG hi hj).2.2
    obtain ⟨-, h1⟩ := McCube.mean_points hU (C := C) hG (fun b a c => McCube.wOf w b a c*v b a c) hi hj (hQ i j hi hj)
    obtain ⟨-, h2⟩ := McCube.mean_points hU (C := C) hG (McCube.wOf w) hi hj (hQ i j hi hj)
    filter_upwards [h1, h2] with ω e1 e2 _ _ hne ε hε
    have hne' := div_ne_zero hne hpos.ne'
    have h3 := e1.div e2 hne'
    rw [div_div_div_cancel_right₀ hpos.ne'] at h3
    have h4 := h3.eventually (Metric.ball_mem_nhds _ hε)
    obtain ⟨N, hN⟩ := eventually_atTop.mp (h4.and ((e2.eventually_ne hne').and (eventually_gt_atTop 0)))
    refine ⟨N, fun n hn => ?_⟩
    obtain ⟨a, b, c⟩ := hN n hn
    have hn0 : (n:ℝ) ≠ 0 := by exact_mod_cast c.ne'
    set pts := (List.range n).map fun (k : ℕ) => Q i j (U ω i j k) with hpts
    have hb : (pts.map (voxVal C (McCube.wOf w))).sum ≠ 0 := fun h => b (by rw [h, zero_div])
    have hone : (pts.map (voxVal C fun _ _ _ => 1)).sum ≠ 0 := by
      intro h0
      apply hb
      have hz : ∀ pt ∈ pts, ¬ ∃ a b c, InVoxel C pt a b c := by
        intro pt hpt ⟨a, b, c, hin⟩
        have hle := List.single_le_sum (l := pts.map (voxVal C fun _ _ _ => 1)) (by
          intro x hx
          obtain ⟨q, -, rfl⟩ := List.mem_map.mp hx
          by_cases hq : ∃ a b c, InVoxel C q a b c
          · obtain ⟨a, b, c, hq⟩ := hq
            rw [voxVal_in hC _ hq]; norm_num
          · rw [voxVal_out _ hq]) _ (List.mem_map.mpr ⟨pt, hpt, rfl⟩)
        rw [h0, voxVal_in hC _ hin] at hle
        norm_num at hle
      refine List.sum_eq_zero fun x hx => ?_
      obtain ⟨q, hq, rfl⟩ := List.mem_map.mp hx
      exact voxVal_out _ (hz q hq)
    refine ⟨_, by unfold valueAt fdiv; rw [if_neg hone, if_neg hb], ?_⟩
    simp only [Pi.div_apply] at a
    rw [Real.dist_eq, div_div_div_cancel_right₀ hn0] at a
    exact a
  filter_upwards [hgood, ae_all_iff.mpr fun i => ae_all_iff.mpr (key i)] with ω hg hk i j hi hj hne ε hε
  obtain ⟨g1, g2, g3⟩ := hg
  obtain ⟨N, hN⟩ := hk i j hi hj hne ε hε
  refine ⟨max N 1, fun n hn s out s' ho => ?_⟩
  rw [McCube.ok_value hC hG (by omega) _ (g1 n) _ (g2 n) f v hf hv w hw ho hi hj, g3 n i j hi hj]
  exact hN n (le_trans (le_max_left _ _) hn)

/-- C103, pixels outside the cube: almost surely, whatever `remap` returns is `hp.UNSEEN` in every pixel that has no
volume in common with the cube. -/
theorem C103_outside : ∀ᵐ ω ∂P, ∀ i j, i < G.numr → j < G.npix → McCube.overlaps C G i j = 0 →
    ∀ n > 0, ∀ s out s', McCube.mcRemap C G n (McCube.drawsOf (U ω) n) f w s = (.ok out, s') →
      out.val i j = some unseen := by
  obtain ⟨D, Q, hQ, hgood⟩ := mcCube_good P U hU C G hC hG
  have key : ∀ i j, ∀ᵐ ω ∂P, i < G.numr → j < G.npix → ∀ a b c k, InVoxel C (Q i j (U ω i j k)) a b c →
      0 < commonVol C G i j a b c := by
    intro i j
    by_cases h : i < G.numr ∧ j < G.npix
    · filter_upwards [McCube.touched_eventually hU hC hG h.1 h.2 (hQ i j h.1 h.2)] with ω hω _ _ using hω.2
    · exact Eventually.of_forall fun ω a b => absurd ⟨a, b⟩ h
  filter_upwards [hgood, ae_all_iff.mpr fun i => ae_all_iff.mpr (key i)] with ω hg hk i j hi hj h0 n hn s out s' ho
  obtain ⟨g1, g2, g3⟩ := hg
  rw [McCube.ok_value hC hG hn _ (g1 n) _ (g2 n) f v hf hv w hw ho hi hj, g3 n i j hi hj]
  have hfin : {c : ℕ × ℕ × ℕ | 0 < commonVol C G i j c.1 c.2.1 c.2.2}.Finite :=
    ((Set.finite_Iio C.numx.toNat).prod ((Set.finite_Iio C.numy.toNat).prod (Set.finite_Iio C.numz.toNat))).subset
      fun c hc => commonVol_range hc
  have hemp := (Set.ncard_eq_zero hfin).mp h0
  unfold valueAt
  rw [if_pos]
  refine List.sum_eq_zero fun x hx => ?_
  rw [List.map_map, List.mem_map] at hx
  obtain ⟨k, -, rfl⟩ := hx
  refine voxVal_out _ ?_
  rintro ⟨a, b, c, hin⟩
  have : (a, b, c) ∈ {c : ℕ × ℕ × ℕ | 0 < commonVol C G i j c.1 c.2.1 c.2.2} := hk i j hi hj a b c k hin
  rw [hemp] at this
  exact this

/-- C103, whether `remap` returns: if in every shell two pixels overlap different numbers of voxels,
then almost surely `remap` returns for all large enough numbers of points and on an object with any
history. Together with `C103_limit_partial` the returned values converge. Missing: other geometries, see
`C103_violated`. -/
theorem C103_returns_partial (hdiff : ∀ i < G.numr, ∃ j k, j < G.npix ∧ k < G.npix ∧
      McCube.overlaps C G i j ≠ McCube.overlaps C G i k) :
    ∀ᵐ ω ∂P, ∃ N, ∀ n ≥ N, ∀ s, ∃ out s', McCube.mcRemap C G n (McCube.drawsOf (U ω) n) f w s = (.ok out, s') ∧
      out.rows = G.numr ∧ out.cols = G.npix := by
  obtain ⟨D, Q, hQ, hgood⟩ := mcCube_good P U hU C G hC hG
  filter_upwards [hgood, mcCube_touched P U hU C G hC hG D Q hQ] with ω hg hk
  obtain ⟨g1, g2, g3⟩ := hg
  obtain ⟨N, hN⟩ := hk
  refine ⟨max N 1, fun n hn s => ?_⟩
  have hN' := hN n (le_trans (le_max_left _ _) hn)
  have hrd : McCube.RowsDiffer C G (McCube.drawsOf (U ω) n) (dirsOf D (U ω) n) := by
    intro i hi
    obtain ⟨j, k, hj, hk, hne⟩ := hdiff i hi
    refine ⟨j, k, hj, hk, ?_⟩
    rw [g3 n i j hi hj, g3 n i k hi hk, hN' i j hi hj, hN' i k hi hk]
    exact hne
  cases w with
  | none =>
    obtain ⟨out, s', e, h1, h2, -⟩ := C84_remap_partial C G hC hG n (by omega) _ (g1 n) _ (g2 n) f v hf hv hrd s
    exact ⟨out, s', e, h1, h2⟩
  | some w =>
    obtain ⟨out, s', e, h1, h2, -⟩ := C84_weighted_partial C G hC hG n (by omega) _ (g1 n) _ (g2 n) f v hf hv hrd w
      (hw w rfl) s
    exact ⟨out, s', e, h1, h2⟩

end

section
variable {Ω : Type} [MeasurableSpace Ω] (P : Measure Ω) [IsProbabilityMeasure P]
  (U : Ω → ℕ → ℕ → ℕ → ℝ × ℝ × ℝ) (hU : McCube.Random P U)
  (C : CubeArgs) (G : Shells) (hC : CubeOk C) (hG : G.Ok)
  (f : Arr3 (Option ℝ)) (v : ℕ → ℕ → ℕ → ℝ) (hf : Fits C f)
  (hv : ∀ i j k, i < f.n0 → j < f.n1 → k < f.n2 → f.val i j k = some (v i j k))
include hU hC hG hf hv

/-- C103, the error for a given number of points: if the pixel is inside the cube and the values of the
cube are in `[a, b]`, then the probability that `remap` returns a value `ε` or more away from the mean
weighted by common volume is at most `(b - a)²/(4 n ε²)`. -/
theorem C103_bound (i j : ℕ) (hi : i < G.numr) (hj : j < G.npix)
    (hin : ∀ pt ∈ G.pixel i j, ∃ c d e, InVoxel C pt c d e) (a b : ℝ)
    (hab : ∀ c d e, c < f.n0 → d < f.n1 → e < f.n2 → a ≤ v c d e ∧ v c d e ≤ b) (n : ℕ) (hn : 0 < n)
    (ε : ℝ) (hε : 0 < ε) :
    P {ω | ∃ s out s', McCube.mcRemap C G n (McCube.drawsOf (U ω) n) f none s = (.ok out, s') ∧
        ¬ ∃ x, out.val i j = some x ∧ |x - volMean C G none v i j| < ε}
      ≤ ENNReal.ofReal ((b - a)^2/(4*n*ε^2)) := by
  obtain ⟨D, Q, hQ, hgood⟩ := mcCube_good P U hU C G hC hG
  have hQ' := hQ i j hi hj
  obtain ⟨B, hB⟩ := voxVal_bdd C v
  have hpos := (McCube.volume_pixel hG hi hj).2.2
  obtain ⟨hI, -⟩ := McCube.mean_points hU (C := C) hG v hi hj hQ'
  obtain ⟨hI1, -⟩ := McCube.mean_points hU (C := C) hG (fun _ _ _ => (1:ℝ)) hi hj hQ'
  -- almost all points are in the cube
  have hcube : MeasurableSet {pt : ℝ × ℝ × ℝ | ∃ c d e, InVoxel C pt c d e} := by
    simp only [Set.setOf_exists]
    exact MeasurableSet.iUnion fun c => MeasurableSet.iUnion fun d => MeasurableSet.iUnion fun e =>
      measurableSet_inVoxel C c d e
  have hae : ∀ᵐ u ∂unif3, ∃ c d e, InVoxel C (Q i j u) c d e := by
    have : ∀ᵐ pt ∂uniformOn3 (G.pixel i j), ∃ c d e, InVoxel C pt c d e := by
      rw [ae_iff]
      unfold uniformOn3
      rw [Measure.smul_apply, smul_eq_mul]
      have : (volume.restrict (G.pixel i j)) {pt : ℝ × ℝ × ℝ | ¬ ∃ c d e, InVoxel C pt c d e} = 0 := by
        change (volume.restrict (G.pixel i j)) {pt : ℝ × ℝ × ℝ | ∃ c d e, InVoxel C pt c d e}ᶜ = 0
        rw [Measure.restrict_apply hcube.compl]
        convert measure_empty (μ := volume)
        ext pt
        simp only [Set.mem_inter_iff, Set.mem_compl_iff, Set.mem_setOf_eq, Set.mem_empty_iff_false, iff_false, not_and]
        exact fun h h' => h (hin pt h')
      rw [this, mul_zero]
    rw [← hQ'.law] at this
    exact ae_of_ae_map hQ'.meas.aemeasurable this
  have hA : volSum C G (fun _ _ _ => (1:ℝ)) i j = (volume (G.pixel i j)).toReal := by
    have e : (∫ u, voxVal C (fun _ _ _ => (1:ℝ)) (Q i j u) ∂unif3) = ∫ u, (1:ℝ) ∂unif3 :=
      integral_congr_ae (hae.mono fun u ⟨c, d, e, hu⟩ => voxVal_in hC _ hu)
    rw [e, integral_const, probReal_univ, one_smul, eq_div_iff hpos.ne', one_mul] at hI1
    exact hI1.symm
  have hmean : volMean C G none v i j = ∫ u, voxVal C v (Q i j u) ∂unif3 := by
    rw [hI]
    unfold volMean
    simp only [McCube.wOf, one_mul]
    exact congrArg _ hA
  have hfar := Lln.mean_far (Y := fun k ω => U ω i j k) (hU.meas i j) (hU.law i j) (hU.indep i j)
    ((measurable_voxVal C v).comp hQ'.meas) (fun y => hB _) (a := a) (b := b) (n := n)
    (hae.mono fun u ⟨c, d, e, h⟩ => by
      simp only [Function.comp_apply]
      rw [voxVal_in hC _ h]
      obtain ⟨h1, h2, h3⟩ := inVoxel_range h
      exact hab d c e (by rw [hf.1]; exact h2) (by rw [hf.2.1]; exact h1) (by rw [hf.2.2]; exact h3))
    (by omega) hε
  have e4 : ((b - a)/2)^2/(n*ε^2) = (b - a)^2/(4*n*ε^2) := by
    have : (n:ℝ) ≠ 0 := by exact_mod_cast (show n ≠ 0 by omega)
    field_simp
    try ring
  rw [e4] at hfar
  refine le_trans (measure_mono_ae ?_) hfar
  filter_upwards [hgood, McCube.random_ae hU hae i j] with ω hg hvox
  obtain ⟨g1, g2, g3⟩ := hg
  rintro ⟨s, out, s', ho, hno⟩
  by_contra hc
  apply hno
  simp only [Set.mem_setOf_eq, not_le, Function.comp_apply, ← hmean] at hc
  have hc : |(∑ k ∈ Finset.range n, voxVal C v (Q i j (U ω i j k)))/n - volMean C G none v i j| < ε := by
    by_contra h
    exact hc (le_of_not_gt h)
  rw [McCube.ok_value hC hG hn _ (g1 n) _ (g2 n) f v hf hv none (by simp) ho hi hj, g3 n i j hi hj]
  unfold valueAt
  simp only [List.map_map, Mc.sum_range_map]
  have e1 : (∑ k ∈ Finset.range n, (voxVal C (fun _ _ _ => 1) ∘ fun k => Q i j (U ω i j k)) k) = n := by
    refine (Finset.sum_congr rfl (g := fun _ => (1:ℝ)) fun k _ => ?_).trans (by simp)
    obtain ⟨c, d, e, h⟩ := hvox k
    exact voxVal_in hC _ h
  have e2 : (∑ k ∈ Finset.range n, (voxVal C (McCube.wOf none) ∘ fun k => Q i j (U ω i j k)) k) = n := e1
  have hn0 : (n:ℝ) ≠ 0 := by exact_mod_cast (show n ≠ 0 by omega)
  rw [e1, e2, if_neg hn0]
  simp only [McCube.wOf, one_mul, Function.comp_apply]
  exact ⟨_, by unfold fdiv; rw [if_neg hn0], hc⟩

/-- C103 does not hold in general: if all pixels of some shell overlap the same number of voxels, and
some pixel overlaps the cube, then almost surely `remap` raises for all large enough numbers of points. -/
theorem C103_violated (i₀ : ℕ) (hi₀ : i₀ < G.numr) (k₀ : ℕ) (hsame : ∀ j < G.npix, McCube.overlaps C G i₀ j = k₀)
    (hsome : ∃ i j, i < G.numr ∧ j < G.npix ∧ McCube.overlaps C G i j ≠ 0) :
    ∀ᵐ ω ∂P, ∃ N, ∀ n ≥ N, ∀ s, ∃ e s', McCube.mcRemap C G n (McCube.drawsOf (U ω) n) f none s = (.error e, s') := by
  obtain ⟨D, Q, hQ, hgood⟩ := mcCube_good P U hU C G hC hG
  filter_upwards [hgood, mcCube_touched P U hU C G hC hG D Q hQ] with ω hg hk
  obtain ⟨g1, g2, g3⟩ := hg
  obtain ⟨N, hN⟩ := hk
  refine ⟨max N 1, fun n hn s => ?_⟩
  have hN' := hN n (le_trans (le_max_left _ _) hn)
  have hrd : ¬ McCube.RowsDiffer C G (McCube.drawsOf (U ω) n) (dirsOf D (U ω) n) := by
    intro h
    obtain ⟨j, k, hj, hk, hne⟩ := h i₀ hi₀
    rw [g3 n i₀ j hi₀ hj, g3 n i₀ k hi₀ hk, hN' i₀ j hi₀ hj, hN' i₀ k hi₀ hk, hsame j hj, hsame k hk] at hne
    exact hne rfl
  by_cases hall : ∃ k, McCube.AllTouch C G (McCube.drawsOf (U ω) n) (dirsOf D (U ω) n) k
  · obtain ⟨k, hk⟩ := hall
    obtain ⟨i, j, hi, hj, hne⟩ := hsome
    have hkp : 0 < k := by
      have := hk i j hi hj
      rw [g3 n i j hi hj, hN' i j hi hj] at this
      omega
    obtain ⟨s', e⟩ := C84_violated_same C G hC hG n (by omega) _ (g1 n) _ (g2 n) f v hf hv k hkp hk s
    exact ⟨_, s', e⟩
  · obtain ⟨s', e⟩ := C84_violated_mixed C G hC hG n (by omega) _ (g1 n) _ (g2 n) f v hf hv hrd hall s
    exact ⟨_, s', e⟩

end

/-! ## Cases that meet the hypotheses -/

/-- Variates as in `Random` exist. -/
theorem exRandom3 : ∃ (Ω : Type) (_ : MeasurableSpace Ω) (P : Measure Ω) (U : Ω → ℕ → ℕ → ℕ → ℝ × ℝ × ℝ),
    IsProbabilityMeasure P ∧ McCube.Random P U := by
  obtain ⟨Ω, m, P, X, hX, hl, hi, hp⟩ := exists_iid (ℕ × ℕ × ℕ) unif3
  refine ⟨Ω, m, P, fun ω i j k => X (i, j, k) ω, hp, fun i j k => hX _, fun i j k => (hl _).map_eq, ?_⟩
  intro i j k l hkl
  exact hi.indepFun (i := (i, j, k)) (j := (i, j, l)) (by simpa using hkl)

/-- Two shells of radii 1 to 2 and 2 to 3, `nside = 1`. -/
def exShells : ShellArgs := { rmin := 1, rmax := 3, numr := 2, nside := 1 }

theorem exShells_ok : (Shells.lin exShells).Ok := by
  refine ⟨?_, ?_, ?_, ?_, ?_⟩ <;> simp [exShells] <;> norm_num

theorem exShells_edge (i : ℕ) : (Shells.lin exShells).rEdge i = 1 + i := by
  simp [Shells.rEdge, exShells, edgeAt]
  ring

theorem exShells_num : (Shells.lin exShells).numr = 2 ∧ (Shells.lin exShells).npix = 12 := by
  simp [Shells.numr, Shells.npix, Shells.args, exShells]

/-- The points of a pixel of these shells. -/
theorem exShells_pixel {i j : ℕ} (hi : i < (Shells.lin exShells).numr) {x : ℝ × ℝ × ℝ}
    (hx : x ∈ (Shells.lin exShells).pixel i j) :
    ∃ c v r q, Healpix.pix2xy j 1 = .ok c ∧ v ∈ SkyPixel 1 c ∧ (1 ≤ r ∧ r ≤ 3) ∧ (0 < q ∧ q ≤ 1) ∧
      x = (r*(q*Real.cos v.1), r*(q*Real.sin v.1), r*v.2) := by
  obtain ⟨c, hc, r, v, hv, hr, rfl⟩ := hx
  rw [exShells_num.1] at hi
  rw [exShells_edge, exShells_edge] at hr
  have h1 : (i:ℝ) ≤ 1 := by exact_mod_cast (by omega : i ≤ 1)
  have h0 : (0:ℝ) ≤ i := by positivity
  have hz := hv.2.1
  refine ⟨c, v, r, √(1 - v.2^2), hc, hv, ⟨by linarith, by push_cast at hr; linarith⟩, ⟨Real.sqrt_pos.mpr (by nlinarith), ?_⟩, ?_⟩
  · rw [Real.sqrt_le_left (by norm_num)]; nlinarith
  · simp [Shells.args, exShells]

/-- A single voxel that contains the pixel. -/
theorem overlaps_single {C : CubeArgs} (hC : C.numx = 1 ∧ C.numy = 1 ∧ C.numz = 1) {G : Shells} (hG : G.Ok) {i j : ℕ}
    (hi : i < G.numr) (hj : j < G.npix) (h : ∀ x ∈ G.pixel i j, InVoxel C x 0 0 0) :
    McCube.overlaps C G i j = 1 ∧ volSum C G (McCube.wOf none) i j ≠ 0 := by
  have hpos : 0 < commonVol C G i j 0 0 0 := by
    unfold commonVol
    rw [Set.inter_eq_left.mpr (show G.pixel i j ⊆ {pt | InVoxel C pt 0 0 0} from h)]
    exact (McCube.volume_pixel hG hi hj).2.2
  constructor
  · unfold McCube.overlaps
    rw [Set.ncard_eq_one]
    refine ⟨(0, 0, 0), ?_⟩
    ext c
    simp only [Set.mem_setOf_eq, Set.mem_singleton_iff]
    constructor
    · intro hc
      have := commonVol_range hc
      rw [hC.1, hC.2.1, hC.2.2] at this
      obtain ⟨a, b, d⟩ := this
      simp only [Int.toNat_one, Nat.lt_one_iff] at a b d
      exact Prod.ext a (Prod.ext b d)
    · rintro rfl; exact hpos
  · unfold volSum
    rw [hC.1, hC.2.1, hC.2.2]
    simp only [Int.toNat_one, Finset.range_one, Finset.sum_singleton, McCube.wOf, one_mul]
    exact hpos.ne'

/-- A cube of one voxel that contains the shells. -/
def exCubeBig : CubeArgs := ⟨-4, 4, 1, -4, 4, 1, -4, 4, 1⟩

theorem exCubeBig_ok : CubeOk exCubeBig := by
  constructor <;> simp [exCubeBig] <;> norm_num

theorem exCubeBig_in {i j : ℕ} (hi : i < (Shells.lin exShells).numr) {x : ℝ × ℝ × ℝ}
    (hx : x ∈ (Shells.lin exShells).pixel i j) : InVoxel exCubeBig x 0 0 0 := by
  obtain ⟨c, v, r, q, -, hv, hr, hq, rfl⟩ := exShells_pixel hi hx
  have hz := hv.2.1
  have hb : ∀ a : ℝ, |a| ≤ 1 → -4 ≤ r*(q*a) ∧ r*(q*a) < 4 := by
    intro a ha
    have : |r*(q*a)| ≤ 3*(1*1) := by
      rw [abs_mul, abs_mul, abs_of_pos hq.1, abs_of_pos (by linarith : (0:ℝ) < r)]
      gcongr
      · exact mul_nonneg hq.1.le (abs_nonneg _)
      · exact hr.2
      · exact hq.2
    rw [abs_le] at this
    constructor <;> linarith [this.1, this.2]
  have hx := hb _ (Real.abs_cos_le_one v.1)
  have hy := hb _ (Real.abs_sin_le_one v.1)
  have hz' : -4 ≤ r*v.2 ∧ r*v.2 < 4 := by constructor <;> nlinarith
  refine ⟨⟨by simp [exCubeBig], ?_, Or.inl ?_⟩, ⟨by simp [exCubeBig], ?_, Or.inl ?_⟩,
    ⟨by simp [exCubeBig], ?_, Or.inl ?_⟩⟩ <;> simp [exCubeBig, edgeAt] <;> linarith [hx.1, hx.2, hy.1, hy.2, hz'.1, hz'.2]

/-- The hypotheses of `C103_bound` (the pixels are inside the cube) and of `C103_violated` (all pixels overlap one
voxel). -/
example (i j : ℕ) (hi : i < (Shells.lin exShells).numr) (hj : j < (Shells.lin exShells).npix) :
    CubeOk exCubeBig ∧ (∀ pt ∈ (Shells.lin exShells).pixel i j, ∃ c d e, InVoxel exCubeBig pt c d e) ∧
    McCube.overlaps exCubeBig (.lin exShells) i j = 1 :=
  ⟨exCubeBig_ok, fun pt hpt => ⟨0, 0, 0, exCubeBig_in hi hpt⟩,
    (overlaps_single ⟨rfl, rfl, rfl⟩ exShells_ok hi hj fun x hx => exCubeBig_in hi hx).1⟩

/-- The pixels of the northern ring for `nside = 1`. -/
theorem exNorth (k : ℕ) (hk : k < 4) : Healpix.pix2xy k 1 = .ok (((k:ℝ) + 1/2)*(Real.pi/2), Real.pi/4) := by
  have hv : ValidRing 1 1 (k + 1) := by
    refine ⟨by norm_num, by norm_num, by omega, ?_⟩
    unfold ringLen
    norm_num
    omega
  have hp : Healpix.ij2pix 1 (k + 1) 1 = k := by
    unfold Healpix.ij2pix
    norm_num
  unfold Healpix.pix2xy
  rw [← hp, Healpix.pix2ij_ij2pix hv]
  simp only [Bind.bind, Except.bind]
  unfold Healpix.ij2xy Healpix.j2jd
  rw [if_pos le_rfl, Healpix.capJd_eq (by norm_num) (by norm_num)]
  simp only [Bind.bind, Except.bind, pure, Except.pure, Except.ok.injEq, Prod.mk.injEq]
  unfold Healpix.i2id
  constructor
  · norm_num
    ring
  · norm_num
    ring

/-- They are northern octants. -/
theorem exOctant (k : ℕ) (hk : k < 4) {v : ℝ × ℝ} (hv : v ∈ SkyPixel 1 (((k:ℝ) + 1/2)*(Real.pi/2), Real.pi/4)) :
    0 < v.2 ∧ (k:ℝ)*(Real.pi/2) ≤ v.1 ∧ v.1 < ((k:ℝ) + 1)*(Real.pi/2) := by
  have hpi := Real.pi_pos
  obtain ⟨⟨a0, a1⟩, ⟨b0, b1⟩, t, ht⟩ := hv
  have hd : halfDiag 1 = Real.pi/4 := by unfold halfDiag; norm_num
  unfold InDiamond at ht
  rw [hd] at ht
  set m := ⌊v.1/(Real.pi/2)⌋ with hm
  have hm1 : (m:ℝ)*(Real.pi/2) ≤ v.1 := by
    have := Int.floor_le (v.1/(Real.pi/2))
    rw [le_div_iff₀ (by positivity)] at this
    exact this
  have hm2 : v.1 < ((m:ℝ) + 1)*(Real.pi/2) := by
    have := Int.lt_floor_add_one (v.1/(Real.pi/2))
    rw [div_lt_iff₀ (by positivity)] at this
    exact this
  -- the projection stays in the same quarter
  have hproj : (m:ℝ)*(Real.pi/2) ≤ (project v.1 v.2).1 ∧ (project v.1 v.2).1 < ((m:ℝ) + 1)*(Real.pi/2) ∧
      (0 < (project v.1 v.2).2 → 0 < v.2) := by
    unfold project
    by_cases hz : |v.2| ≤ 2/3
    · rw [if_pos hz]
      refine ⟨hm1, hm2, fun h => ?_⟩
      by_contra hc
      have : 3*Real.pi/8*v.2 ≤ 0 := mul_nonpos_of_nonneg_of_nonpos (by positivity) (not_lt.mp hc)
      linarith
    · rw [if_neg hz]
      simp only
      have habs : |v.2| < 1 := abs_lt.mpr ⟨b0, b1⟩
      have s1 : 0 < √(3*(1 - |v.2|)) := Real.sqrt_pos.mpr (by linarith)
      have s2 : √(3*(1 - |v.2|)) < 1 := by
        rw [Real.sqrt_lt' one_pos]
        push Not at hz
        linarith
      set s := √(3*(1 - |v.2|)) with hs
      rw [← hm]
      have e : v.1 - (2 - s - 1)*(v.1 - Real.pi/2*m - Real.pi/4)
          = m*(Real.pi/2) + s*(v.1 - m*(Real.pi/2)) + (1 - s)*(Real.pi/4) := by ring
      rw [e]
      have p1 : 0 ≤ s*(v.1 - m*(Real.pi/2)) := mul_nonneg s1.le (by linarith)
      have p2 : 0 ≤ (1 - s)*(Real.pi/4) := mul_nonneg (by linarith) (by positivity)
      have p3 : s*(v.1 - m*(Real.pi/2)) < s*(Real.pi/2) := by
        apply mul_lt_mul_of_pos_left _ s1
        linarith
      have p4 : (1 - s)*(Real.pi/4) < (1 - s)*(Real.pi/2) := by
        apply mul_lt_mul_of_pos_left _ (by linarith)
        linarith
      refine ⟨by linarith, by linarith, fun h => ?_⟩
      by_contra hc
      rcases lt_or_eq_of_le (not_lt.mp hc) with h' | h'
      · rw [if_pos h'] at h
        have : 0 < Real.pi/4*(2 - s) := mul_pos (by positivity) (by linarith)
        linarith
      · rw [h'] at hz
        norm_num at hz
  obtain ⟨q1, q2, q3⟩ := hproj
  have hx := lt_of_le_of_lt (le_add_of_nonneg_right (abs_nonneg _)) ht
  have hy := lt_of_le_of_lt (le_add_of_nonneg_left (abs_nonneg _)) ht
  rw [abs_lt] at hx hy
  simp only at hx hy
  have hk1 : (m:ℝ) + 4*t < k + 1 := by
    by_contra hc
    have : ((k:ℝ) + 1)*(Real.pi/2) ≤ (m + 4*t)*(Real.pi/2) := mul_le_mul_of_nonneg_right (not_lt.mp hc) (by positivity)
    linarith [hx.2]
  have hk2 : (k:ℝ) < (m:ℝ) + 4*t + 1 := by
    by_contra hc
    have : ((m:ℝ) + 4*t + 1)*(Real.pi/2) ≤ k*(Real.pi/2) := mul_le_mul_of_nonneg_right (not_lt.mp hc) (by positivity)
    linarith [hx.1]
  have hm3 : 0 ≤ m := Int.floor_nonneg.mpr (by positivity)
  have hm4 : m < 4 := by
    rw [hm, Int.floor_lt, div_lt_iff₀ (by positivity)]
    push_cast
    linarith
  have hk1' : m + 4*t < k + 1 := by exact_mod_cast hk1
  have hk2' : (k:ℤ) < m + 4*t + 1 := by exact_mod_cast hk2
  have hmk : m = k := by omega
  have hmk' : (m:ℝ) = k := by exact_mod_cast hmk
  rw [hmk'] at hm1 hm2
  exact ⟨q3 (by linarith [hy.1]), hm1, hm2⟩

/-- A cube of one voxel that covers an octant. -/
def exCubeOct : CubeArgs := ⟨0, 4, 1, 0, 4, 1, 0, 4, 1⟩

theorem exCubeOct_ok : CubeOk exCubeOct := by
  constructor <;> simp [exCubeOct]

theorem exCubeOct_in {i : ℕ} (hi : i < (Shells.lin exShells).numr) :
    ∀ x ∈ (Shells.lin exShells).pixel i 0, InVoxel exCubeOct x 0 0 0 := by
  intro x hx
  obtain ⟨c, v, r, q, hc, hv, hr, hq, rfl⟩ := exShells_pixel hi hx
  rw [exNorth 0 (by norm_num), Except.ok.injEq] at hc
  rw [← hc] at hv
  obtain ⟨h1, h2, h3⟩ := exOctant 0 (by norm_num) hv
  have hz := hv.2.1
  simp only [Nat.cast_zero, zero_mul, zero_add, one_mul] at h2 h3
  have c0 := Real.cos_nonneg_of_mem_Icc (x := v.1) ⟨by linarith [Real.pi_pos], h3.le⟩
  have s0 := Real.sin_nonneg_of_nonneg_of_le_pi h2 (by linarith [Real.pi_pos])
  have c1 := Real.cos_le_one v.1
  have s1 := Real.sin_le_one v.1
  have hb : ∀ a : ℝ, 0 ≤ a → a ≤ 1 → 0 ≤ r*(q*a) ∧ r*(q*a) < 4 := by
    intro a ha ha1
    have hr0 : 0 ≤ r := by linarith
    refine ⟨mul_nonneg hr0 (mul_nonneg hq.1.le ha), ?_⟩
    have : r*(q*a) ≤ 3*(1*1) := by
      gcongr
      · exact mul_nonneg hq.1.le ha
      · exact hr.2
      · exact hq.2
    linarith
  have hx := hb _ c0 c1
  have hy := hb _ s0 s1
  have hz' : 0 ≤ r*v.2 ∧ r*v.2 < 4 := by constructor <;> nlinarith
  refine ⟨⟨by simp [exCubeOct], ?_, Or.inl ?_⟩, ⟨by simp [exCubeOct], ?_, Or.inl ?_⟩,
    ⟨by simp [exCubeOct], ?_, Or.inl ?_⟩⟩ <;> simp [exCubeOct, edgeAt] <;> linarith [hx.1, hx.2, hy.1, hy.2, hz'.1, hz'.2]

theorem exCubeOct_one {i : ℕ} (hi : i < (Shells.lin exShells).numr) :
    McCube.overlaps exCubeOct (.lin exShells) i 0 = 1 ∧ volSum exCubeOct (.lin exShells) (McCube.wOf none) i 0 ≠ 0 := by
  exact overlaps_single ⟨rfl, rfl, rfl⟩ exShells_ok hi (by rw [exShells_num.2]; norm_num) fun x hx => exCubeOct_in hi x hx

theorem exCubeOct_none {i : ℕ} (hi : i < (Shells.lin exShells).numr) :
    McCube.overlaps exCubeOct (.lin exShells) i 2 = 0 := by
  have he : (Shells.lin exShells).pixel i 2 ∩ {pt | InVoxel exCubeOct pt 0 0 0} = ∅ := by
    ext x
    simp only [Set.mem_inter_iff, Set.mem_setOf_eq, Set.mem_empty_iff_false, iff_false, not_and]
    intro hx hin
    obtain ⟨c, v, r, q, hc, hv, hr, hq, rfl⟩ := exShells_pixel hi hx
    have e := exNorth 2 (by norm_num)
    rw [e, Except.ok.injEq] at hc
    rw [← hc] at hv
    obtain ⟨h1, h2, h3⟩ := exOctant 2 (by norm_num) hv
    have hneg : Real.cos v.1 < 0 := by
      refine Real.cos_neg_of_pi_div_two_lt_of_lt ?_ ?_
      · have := Real.pi_pos; push_cast at h2; linarith
      · push_cast at h3; linarith
    have h0 := hin.1.2.1
    simp [exCubeOct, edgeAt] at h0
    have : r*(q*Real.cos v.1) < 0 := mul_neg_of_pos_of_neg (by linarith) (mul_neg_of_pos_of_neg hq.1 hneg)
    linarith
  unfold McCube.overlaps
  rw [show {c : ℕ × ℕ × ℕ | 0 < commonVol exCubeOct (.lin exShells) i 2 c.1 c.2.1 c.2.2} = ∅ from ?_, Set.ncard_empty]
  ext c
  simp only [Set.mem_setOf_eq, Set.mem_empty_iff_false, iff_false]
  intro hc
  obtain ⟨h1, h2, h3⟩ := commonVol_range hc
  simp only [exCubeOct, Int.toNat_one, Nat.lt_one_iff] at h1 h2 h3
  rw [h1, h2, h3] at hc
  unfold commonVol at hc
  rw [he] at hc
  simp at hc

/-- The hypotheses of `C103_returns_partial`, of `C103_limit_partial` (pixel 0) and of `C103_outside` (pixel 2). -/
example : CubeOk exCubeOct ∧ (Shells.lin exShells).Ok ∧
    (∀ i < (Shells.lin exShells).numr, ∃ j k, j < (Shells.lin exShells).npix ∧ k < (Shells.lin exShells).npix ∧
      McCube.overlaps exCubeOct (.lin exShells) i j ≠ McCube.overlaps exCubeOct (.lin exShells) i k) ∧
    (∀ i < (Shells.lin exShells).numr, volSum exCubeOct (.lin exShells) (McCube.wOf none) i 0 ≠ 0) ∧
    ∀ i < (Shells.lin exShells).numr, McCube.overlaps exCubeOct (.lin exShells) i 2 = 0 := by
  refine ⟨exCubeOct_ok, exShells_ok, fun i hi => ⟨0, 2, ?_, ?_, ?_⟩, fun i hi => (exCubeOct_one hi).2,
    fun i hi => exCubeOct_none hi⟩
  · rw [exShells_num.2]; norm_num
  · rw [exShells_num.2]; norm_num
  · rw [exCubeOct_none hi, (exCubeOct_one hi).1]
    norm_num

end Magpie.Props
