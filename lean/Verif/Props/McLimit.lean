import Verif.Proof.McLimit
import Verif.Props.McBox2Ring
import Mathlib.Probability.HasLawExists

/-!
# What the Monte Carlo `Box2Ring` converges to
-/

set_option linter.unusedSimpArgs false
set_option linter.unusedVariables false
set_option linter.unusedSectionVars false

namespace Magpie.Props
open ProbabilityTheory hiding uniformOn
open Magpie Magpie.Radial Magpie.OneD Magpie.Spec Magpie.Box2Ring Magpie.Mc MeasureTheory Filter Topology

/-! ## C96 -/

/-- C96, the points: a random point of a polar pixel is uniformly distributed over the part of the plane that
the polar pixel covers, the area of which is half the angle times the difference of the squared radii. -/
theorem C96_law (G : Grid) (hG : G.Ok) (i j : ℕ) (hi : i < G.nump) (hj : j < G.numr) :
    Measure.map (fun u : ℝ × ℝ => G.point i j u.1 u.2) unif2 = uniformOn (G.pixel i j) ∧
    volume (G.pixel i j) = ENNReal.ofReal
      ((G.pEdge (i+1) - G.pEdge i)/2*((G.rEdge (j+1))^2 - (G.rEdge j)^2)) := by
  obtain ⟨h1, h2⟩ := Grid.point_law hG hi hj
  refine ⟨h1, ?_⟩
  rw [h2, sectorArea_eq]
  congr 1
  ring

section
variable {Ω : Type} [MeasurableSpace Ω] (P : Measure Ω) [IsProbabilityMeasure P]
  (U : Ω → ℕ → ℕ → ℕ → ℝ × ℝ) (hU : Random P U)
  (B : BoxArgs) (G : Grid) (hB : BoxOk B) (hG : G.Ok)
  (f : Arr2 (Option ℝ)) (v : ℕ → ℕ → ℝ) (hf : f.rows = B.numy.toNat ∧ f.cols = B.numx.toNat)
  (hv : ∀ i j, i < f.rows → j < f.cols → f.val i j = some (v i j))
  (w : Option (Arr2 ℝ)) (hw : ∀ t, w = some t → t.rows = B.numy.toNat ∧ t.cols = B.numx.toNat)
include hU hB hG hf hv hw

/-- C96, the limit: almost surely, as the number of random points grows, whatever `remap` returns converges
in every polar pixel to the mean of the box weighted by common area (times the weights, if given); the polar
pixel has to overlap the box, and the weights must not cancel. -/
theorem C96_limit_partial : ∀ᵐ ω ∂P, ∀ i j, i < G.nump → j < G.numr → areaSum B G (wOf w) i j ≠ 0 →
    ∀ ε > 0, ∃ N, ∀ n ≥ N, ∀ s out s', mcRemap B G n (drawsOf (U ω) n) f w s = (.ok out, s') →
      ∃ x, out.val i j = some x ∧ |x - areaMean B G w v i j| < ε := by
  have key : ∀ i j, ∀ᵐ ω ∂P, i < G.nump → j < G.numr → areaSum B G (wOf w) i j ≠ 0 →
      ∀ ε > 0, ∃ N, ∀ n ≥ N, ∃ x,
        fdiv ((G.points i j (drawsOf (U ω) n i j)).map (boxVal B fun b a => wOf w b a*v b a)).sum
          ((G.points i j (drawsOf (U ω) n i j)).map (boxVal B (wOf w))).sum = some x ∧
        |x - areaMean B G w v i j| < ε := by
    intro i j
    by_cases hi : i < G.nump
    swap
    · exact Eventually.of_forall fun ω h => absurd h hi
    by_cases hj : j < G.numr
    swap
    · exact Eventually.of_forall fun ω _ h => absurd h hj
    obtain ⟨-, hpos, h1⟩ := mean_points hU (B := B) hG (fun b a => wOf w b a*v b a) hi hj
    obtain ⟨-, -, h2⟩ := mean_points hU (B := B) hG (wOf w) hi hj
    filter_upwards [h1, h2] with ω e1 e2 _ _ hne ε hε
    have hne' := div_ne_zero hne hpos.ne'
    have h3 := e1.div e2 hne'
    rw [div_div_div_cancel_right₀ hpos.ne'] at h3
    have h4 := h3.eventually (Metric.ball_mem_nhds _ hε)
    obtain ⟨N, hN⟩ := eventually_atTop.mp (h4.and ((e2.eventually_ne hne').and (eventually_gt_atTop 0)))
    refine ⟨N, fun n hn => ?_⟩
    obtain ⟨a, b, c⟩ := hN n hn
    have hn0 : (n:ℝ) ≠ 0 := by exact_mod_cast c.ne'
    have hb : ((G.points i j (drawsOf (U ω) n i j)).map (boxVal B (wOf w))).sum ≠ 0 := fun h => b (by rw [h, zero_div])
    refine ⟨_, by unfold fdiv; rw [if_neg hb], ?_⟩
    simp only [Pi.div_apply] at a
    rw [Real.dist_eq, div_div_div_cancel_right₀ hn0] at a
    exact a
  filter_upwards [random_unit hU, ae_all_iff.mpr fun i => ae_all_iff.mpr (key i)] with ω hu hk i j hi hj hne ε hε
  obtain ⟨N, hN⟩ := hk i j hi hj hne ε hε
  refine ⟨max N 2, fun n hn s out s' ho => ?_⟩
  rw [ok_value hB hG (by omega) _ (fun i j _ _ => draws_drawsOf hu n i j) f v hf hv w hw ho hi hj]
  exact hN n (le_trans (le_max_left _ _) hn)

/-- C96, whether `remap` returns: if in every row two polar pixels overlap different numbers of box pixels,
then almost surely `remap` returns for all large enough numbers of points and on an object with any
history. Together with `C96_limit_partial` the returned values converge. Missing: other geometries, see `C96_violated`. -/
theorem C96_returns_partial (hdiff : ∀ i < G.nump, ∃ j k, j < G.numr ∧ k < G.numr ∧ overlaps B G i j ≠ overlaps B G i k) :
    ∀ᵐ ω ∂P, ∃ N, ∀ n ≥ N, ∀ s, ∃ out s', mcRemap B G n (drawsOf (U ω) n) f w s = (.ok out, s') ∧
      out.rows = G.nump ∧ out.cols = G.numr := by
  have key : ∀ i j, ∀ᵐ ω ∂P, i < G.nump → j < G.numr → ∀ᶠ n : ℕ in atTop,
      touched B (G.points i j (drawsOf (U ω) n i j)) = overlaps B G i j := by
    intro i j
    by_cases hi : i < G.nump
    swap
    · exact Eventually.of_forall fun ω h => absurd h hi
    by_cases hj : j < G.numr
    swap
    · exact Eventually.of_forall fun ω _ h => absurd h hj
    filter_upwards [touched_eventually hU hB hG hi hj] with ω hω _ _ using hω
  filter_upwards [random_unit hU, ae_all_iff.mpr fun i => ae_all_iff.mpr (key i)] with ω hu hk
  have : ∀ᶠ n : ℕ in atTop, ∀ i ∈ Set.Iio G.nump, ∀ j ∈ Set.Iio G.numr,
      touched B (G.points i j (drawsOf (U ω) n i j)) = overlaps B G i j :=
    (eventually_all_finite (Set.finite_Iio _)).mpr fun i hi =>
      (eventually_all_finite (Set.finite_Iio _)).mpr fun j hj => hk i j hi hj
  obtain ⟨N, hN⟩ := eventually_atTop.mp this
  refine ⟨max N 2, fun n hn s => ?_⟩
  have hd : ∀ i j, i < G.nump → j < G.numr → Draws n (drawsOf (U ω) n i j) := fun i j _ _ => draws_drawsOf hu n i j
  have hrd : RowsDiffer B G (drawsOf (U ω) n) := by
    intro i hi
    obtain ⟨j, k, hj, hk, hne⟩ := hdiff i hi
    refine ⟨j, k, hj, hk, ?_⟩
    rw [hN n (le_trans (le_max_left _ _) hn) i hi j hj, hN n (le_trans (le_max_left _ _) hn) i hi k hk]
    exact hne
  cases w with
  | none =>
    obtain ⟨out, s', e, h1, h2, -⟩ := C71_remap_partial B G hB hG n (by omega) _ hd f v hf hv hrd s
    exact ⟨out, s', e, h1, h2⟩
  | some w =>
    obtain ⟨out, s', e, h1, h2, -⟩ := C71_weighted_partial B G hB hG n (by omega) _ hd f v hf hv hrd w (hw w rfl) s
    exact ⟨out, s', e, h1, h2⟩

end

section
variable {Ω : Type} [MeasurableSpace Ω] (P : Measure Ω) [IsProbabilityMeasure P]
  (U : Ω → ℕ → ℕ → ℕ → ℝ × ℝ) (hU : Random P U)
  (B : BoxArgs) (G : Grid) (hB : BoxOk B) (hG : G.Ok)
  (f : Arr2 (Option ℝ)) (v : ℕ → ℕ → ℝ) (hf : f.rows = B.numy.toNat ∧ f.cols = B.numx.toNat)
  (hv : ∀ i j, i < f.rows → j < f.cols → f.val i j = some (v i j))
include hU hB hG hf hv

/-- C96, the error for a given number of points: if the polar pixel is inside the box and the values of the
box are in `[a, b]`, then the probability that `remap` returns a value `ε` or more away from the mean
weighted by common area is at most `(b - a)²/(4 n ε²)`. -/
theorem C96_bound (i j : ℕ) (hi : i < G.nump) (hj : j < G.numr)
    (hin : ∀ pt ∈ G.pixel i j, ∃ c d, InPixel B pt c d) (a b : ℝ)
    (hab : ∀ c d, c < f.rows → d < f.cols → a ≤ v c d ∧ v c d ≤ b) (n : ℕ) (hn : 1 < n) (ε : ℝ) (hε : 0 < ε) :
    P {ω | ∃ s out s', mcRemap B G n (drawsOf (U ω) n) f none s = (.ok out, s') ∧
        ¬ ∃ x, out.val i j = some x ∧ |x - areaMean B G none v i j| < ε}
      ≤ ENNReal.ofReal ((b - a)^2/(4*n*ε^2)) := by
  obtain ⟨C, hC⟩ := boxVal_bdd B v
  obtain ⟨hI, hpos, -⟩ := mean_points hU (B := B) hG v hi hj
  obtain ⟨hI1, -, -⟩ := mean_points hU (B := B) hG (fun _ _ => (1:ℝ)) hi hj
  have hone : ∀ pt ∈ G.pixel i j, boxVal B (fun _ _ => (1:ℝ)) pt = 1 := by
    intro pt hpt
    obtain ⟨c, d, h⟩ := hin pt hpt
    rw [boxVal_in hB _ h]
  have hunit : ∀ᵐ u ∂unif2, G.point i j u.1 u.2 ∈ G.pixel i j := by
    rw [show unif2 = (volume.prod volume).restrict (Set.Ico (0:ℝ) 1 ×ˢ Set.Ico (0:ℝ) 1) by
      unfold unif2 unif; rw [Measure.prod_restrict]]
    rw [ae_restrict_iff' (measurableSet_Ico.prod measurableSet_Ico)]
    exact Eventually.of_forall fun x hx => point_mem hG hi hj hx.1 hx.2
  have hA : areaSum B G (fun _ _ => (1:ℝ)) i j = (volume (G.pixel i j)).toReal := by
    have e : (∫ u, boxVal B (fun _ _ => (1:ℝ)) (G.point i j u.1 u.2) ∂unif2) = ∫ u, (1:ℝ) ∂unif2 :=
      integral_congr_ae (hunit.mono fun u hu => hone _ hu)
    rw [e] at hI1
    haveI : IsProbabilityMeasure unif2 := by
      rw [← hU.law 0 0 0]; exact Measure.isProbabilityMeasure_map (hU.meas 0 0 0).aemeasurable
    rw [integral_const, probReal_univ, one_smul, eq_div_iff hpos.ne', one_mul] at hI1
    exact hI1.symm
  have hmean : areaMean B G none v i j = ∫ u, boxVal B v (G.point i j u.1 u.2) ∂unif2 := by
    rw [hI]
    unfold areaMean
    simp only [wOf, one_mul]
    exact congrArg _ hA
  have hfar := Lln.mean_far (Y := fun k ω => U ω i j k) (hU.meas i j) (hU.law i j) (hU.indep i j)
    ((measurable_boxVal B v).comp (G.measurable_point i j)) (fun y => hC _) (a := a) (b := b) (n := n)
    (hunit.mono fun u hu => by
      obtain ⟨c, d, h⟩ := hin _ hu
      simp only [Function.comp_apply]
      rw [boxVal_in hB _ h]
      exact hab d c (by rw [hf.1]; exact (inPixel_range h).2) (by rw [hf.2]; exact (inPixel_range h).1))
    (by omega) hε
  have e4 : ((b - a)/2)^2/(n*ε^2) = (b - a)^2/(4*n*ε^2) := by
    have : (n:ℝ) ≠ 0 := by exact_mod_cast (show n ≠ 0 by omega)
    field_simp
    try ring
  rw [e4] at hfar
  refine le_trans (measure_mono_ae ?_) hfar
  filter_upwards [random_unit hU] with ω hu
  rintro ⟨s, out, s', ho, hno⟩
  by_contra hc
  apply hno
  simp only [Set.mem_setOf_eq, not_le, Function.comp_apply, ← hmean] at hc
  have hc : |(∑ k ∈ Finset.range n, boxVal B v (G.point i j (U ω i j k).1 (U ω i j k).2))/n
      - areaMean B G none v i j| < ε := by
    by_contra h
    exact hc (le_of_not_gt h)
  rw [ok_value hB hG hn _ (fun i j _ _ => draws_drawsOf hu n i j) f v hf hv none (by simp) ho hi hj,
    points_drawsOf, List.map_map, List.map_map, sum_range_map, sum_range_map]
  have e1 : (∑ k ∈ Finset.range n, (boxVal B (wOf none) ∘ fun k => G.point i j (U ω i j k).1 (U ω i j k).2) k) = n := by
    refine (Finset.sum_congr rfl (g := fun _ => (1:ℝ)) fun k _ =>
      hone _ (point_mem hG hi hj (hu i j k).1 (hu i j k).2)).trans ?_
    simp
  rw [e1]
  simp only [wOf, one_mul, Function.comp_apply]
  refine ⟨_, by unfold fdiv; rw [if_neg (by exact_mod_cast (show n ≠ 0 by omega))], hc⟩

/-- C96 does not hold in general: if all polar pixels of some row overlap the same number of box pixels, and
some polar pixel overlaps the box, then almost surely `remap` raises for all large enough numbers of points. -/
theorem C96_violated (i₀ : ℕ) (hi₀ : i₀ < G.nump) (k₀ : ℕ) (hsame : ∀ j < G.numr, overlaps B G i₀ j = k₀)
    (hsome : ∃ i j, i < G.nump ∧ j < G.numr ∧ overlaps B G i j ≠ 0) :
    ∀ᵐ ω ∂P, ∃ N, ∀ n ≥ N, ∀ s, ∃ e s', mcRemap B G n (drawsOf (U ω) n) f none s = (.error e, s') := by
  have key : ∀ i j, ∀ᵐ ω ∂P, i < G.nump → j < G.numr → ∀ᶠ n : ℕ in atTop,
      touched B (G.points i j (drawsOf (U ω) n i j)) = overlaps B G i j := by
    intro i j
    by_cases hi : i < G.nump
    swap
    · exact Eventually.of_forall fun ω h => absurd h hi
    by_cases hj : j < G.numr
    swap
    · exact Eventually.of_forall fun ω _ h => absurd h hj
    filter_upwards [touched_eventually hU hB hG hi hj] with ω hω _ _ using hω
  filter_upwards [random_unit hU, ae_all_iff.mpr fun i => ae_all_iff.mpr (key i)] with ω hu hk
  have : ∀ᶠ n : ℕ in atTop, ∀ i ∈ Set.Iio G.nump, ∀ j ∈ Set.Iio G.numr,
      touched B (G.points i j (drawsOf (U ω) n i j)) = overlaps B G i j :=
    (eventually_all_finite (Set.finite_Iio _)).mpr fun i hi =>
      (eventually_all_finite (Set.finite_Iio _)).mpr fun j hj => hk i j hi hj
  obtain ⟨N, hN⟩ := eventually_atTop.mp this
  refine ⟨max N 2, fun n hn s => ?_⟩
  have hd : ∀ i j, i < G.nump → j < G.numr → Draws n (drawsOf (U ω) n i j) := fun i j _ _ => draws_drawsOf hu n i j
  have hN' := hN n (le_trans (le_max_left _ _) hn)
  have hrd : ¬ RowsDiffer B G (drawsOf (U ω) n) := by
    intro h
    obtain ⟨j, k, hj, hk, hne⟩ := h i₀ hi₀
    rw [hN' i₀ hi₀ j hj, hN' i₀ hi₀ k hk, hsame j hj, hsame k hk] at hne
    exact hne rfl
  by_cases hall : ∃ k, AllTouch B G (drawsOf (U ω) n) k
  · obtain ⟨k, hk⟩ := hall
    obtain ⟨i, j, hi, hj, hne⟩ := hsome
    have hkp : 0 < k := by
      rw [← hN' i hi j hj, hk i j hi hj] at hne
      omega
    obtain ⟨s', e⟩ := C71_violated_same B G hB hG n (by omega) _ hd f v hf hv k hkp hk s
    exact ⟨_, s', e⟩
  · obtain ⟨s', e⟩ := C71_violated_mixed B G hB hG n (by omega) _ hd f v hf hv hrd hall s
    exact ⟨_, s', e⟩

end

/-! ## Cases that meet the hypotheses -/

/-- Variates as in `Random` exist. -/
theorem exRandom : ∃ (Ω : Type) (_ : MeasurableSpace Ω) (P : Measure Ω) (U : Ω → ℕ → ℕ → ℕ → ℝ × ℝ),
    IsProbabilityMeasure P ∧ Random P U := by
  haveI : IsProbabilityMeasure unif2 := by
    unfold unif2
    haveI : IsProbabilityMeasure unif := ⟨by unfold unif; simp⟩
    infer_instance
  obtain ⟨Ω, m, P, X, hX, hl, hi, hp⟩ := exists_iid (ℕ × ℕ × ℕ) unif2
  refine ⟨Ω, m, P, fun ω i j k => X (i, j, k) ω, hp, fun i j k => hX _, fun i j k => (hl _).map_eq, ?_⟩
  intro i j k l hkl
  exact hi.indepFun (i := (i, j, k)) (j := (i, j, l)) (by simpa using hkl)

/-- A box of one pixel inside the inner ring of `exHalf`. -/
noncomputable def exBoxIn : BoxArgs := ⟨-1/4, 1/4, 1, -1/4, 1/4, 1⟩

theorem exBoxIn_ok : BoxOk exBoxIn := by
  constructor <;> simp [exBoxIn] <;> norm_num

theorem exBoxIn_pixel {pt : ℝ × ℝ} : InPixel exBoxIn pt 0 0 ↔ |pt.1| ≤ 1/4 ∧ |pt.2| ≤ 1/4 := by
  unfold InPixel InBin
  simp only [exBoxIn, edgeAt, abs_le]
  norm_num
  constructor
  · rintro ⟨⟨a, b⟩, c, d⟩
    refine ⟨⟨a, ?_⟩, c, ?_⟩
    · rcases b with b | b <;> linarith
    · rcases d with d | d <;> linarith
  · rintro ⟨⟨a, b⟩, c, d⟩
    exact ⟨⟨a, lt_or_eq_of_le (by linarith)⟩, c, lt_or_eq_of_le (by linarith)⟩

theorem exHalf_edges (i j : ℕ) : (Grid.lin exHalf).rEdge j = j/2 ∧ (Grid.lin exHalf).pEdge i = Real.pi*i := by
  constructor
  · simp [Grid.rEdge, exHalf, edgeAt]
    ring
  · simp [Grid.pEdge, Grid.nump, Grid.args, exHalf, edgeAt]
    ring

theorem overlaps_one {B : BoxArgs} (hB : B.numx = 1 ∧ B.numy = 1) {G : Grid} {i j : ℕ}
    (h : 0 < commonArea B G i j 0 0) : overlaps B G i j = 1 := by
  unfold overlaps
  rw [Set.ncard_eq_one]
  refine ⟨(0, 0), ?_⟩
  ext c
  simp only [Set.mem_setOf_eq, Set.mem_singleton_iff]
  constructor
  · intro hc
    have := commonArea_range hc
    rw [hB.1, hB.2] at this
    obtain ⟨a, b⟩ := this
    simp only [Int.toNat_one, Nat.lt_one_iff] at a b
    exact Prod.ext a b
  · rintro rfl; exact h

/-- The mass of a set of variates that contains those with a first one below `t`. -/
theorem unif2_ne_zero {S : Set (ℝ × ℝ)} {t : ℝ} (h0 : 0 < t) (h1 : t ≤ 1)
    (h : ∀ u v : ℝ, 0 ≤ u → u < t → (u, v) ∈ S) : unif2 S ≠ 0 := by
  have hs : Set.Ico 0 t ×ˢ Set.univ ⊆ S := fun x hx => h x.1 x.2 hx.1.1 hx.1.2
  intro hz
  have := measure_mono_null hs hz
  unfold unif2 at this
  rw [Measure.prod_prod, measure_univ, mul_one] at this
  unfold unif at this
  rw [Measure.restrict_apply measurableSet_Ico, Set.inter_eq_left.mpr (Set.Ico_subset_Ico_right h1)] at this
  rw [Real.volume_Ico, ENNReal.ofReal_eq_zero] at this
  linarith

theorem exHalf_numr : (Grid.lin exHalf).numr = 2 := by simp [Grid.numr, Grid.args, exHalf]

theorem exBoxIn_inner (i : ℕ) (hi : i < (Grid.lin exHalf).nump) :
    0 < commonArea exBoxIn (.lin exHalf) i 0 0 0 := by
  rw [commonArea_pos exHalf_ok hi (by rw [exHalf_numr]; norm_num)]
  refine unif2_ne_zero (t := 1/4) (by norm_num) (by norm_num) fun u v hu0 hu1 => ?_
  simp only [Set.mem_setOf_eq, exBoxIn_pixel]
  unfold Grid.point
  simp only [(exHalf_edges 0 _).1, (exHalf_edges _ 0).2]
  simp only [Grid.args, exHalf, List.getD_cons_zero, List.getD_cons_succ, add_zero]
  have hr : Real.sqrt ((((0:ℕ):ℝ)/2)^2 + u*(((0+1:ℕ):ℝ)/2*(((0+1:ℕ):ℝ)/2) - (((0:ℕ):ℝ)/2)^2)) ≤ 1/4 := by
    rw [Real.sqrt_le_left (by norm_num)]
    norm_num
    linarith
  rw [← sq] at hr
  have h0 := Real.sqrt_nonneg ((((0:ℕ):ℝ)/2)^2 + u*((((0+1:ℕ):ℝ)/2)^2 - (((0:ℕ):ℝ)/2)^2))
  constructor
  · rw [abs_mul, abs_of_nonneg h0]
    nlinarith [Real.abs_cos_le_one (Real.pi*i + v*(Real.pi*((i+1:ℕ):ℝ) - Real.pi*i)), abs_nonneg (Real.cos (Real.pi*i + v*(Real.pi*((i+1:ℕ):ℝ) - Real.pi*i)))]
  · rw [abs_mul, abs_of_nonneg h0]
    nlinarith [Real.abs_sin_le_one (Real.pi*i + v*(Real.pi*((i+1:ℕ):ℝ) - Real.pi*i)), abs_nonneg (Real.sin (Real.pi*i + v*(Real.pi*((i+1:ℕ):ℝ) - Real.pi*i)))]

theorem exBoxIn_outer (i : ℕ) : overlaps exBoxIn (.lin exHalf) i 1 = 0 := by
  have he : (Grid.lin exHalf).pixel i 1 ∩ {pt | InPixel exBoxIn pt 0 0} = ∅ := by
    ext pt
    simp only [Set.mem_inter_iff, Set.mem_setOf_eq, exBoxIn_pixel, Set.mem_empty_iff_false, iff_false]
    rintro ⟨⟨r, t, hr, -, rfl⟩, h1, h2⟩
    rw [(exHalf_edges 0 1).1] at hr
    have hr1 : 1/2 ≤ r := by simpa using hr.1
    simp only [Grid.args, exHalf, List.getD_cons_zero, List.getD_cons_succ, zero_add] at h1 h2
    have a1 := sq_abs (r*Real.cos t)
    have a2 := sq_abs (r*Real.sin t)
    have b1 := abs_nonneg (r*Real.cos t)
    have b2 := abs_nonneg (r*Real.sin t)
    have c := Real.sin_sq_add_cos_sq t
    have d : (r*Real.cos t)^2 + (r*Real.sin t)^2 = r^2 := by
      rw [mul_pow, mul_pow, ← mul_add, add_comm, c, mul_one]
    nlinarith
  unfold overlaps
  rw [show {c : ℕ × ℕ | 0 < commonArea exBoxIn (.lin exHalf) i 1 c.1 c.2} = ∅ from ?_, Set.ncard_empty]
  ext c
  simp only [Set.mem_setOf_eq, Set.mem_empty_iff_false, iff_false]
  intro hc
  obtain ⟨h1, h2⟩ := commonArea_range hc
  simp only [exBoxIn, Int.toNat_one, Nat.lt_one_iff] at h1 h2
  rw [h1, h2] at hc
  unfold commonArea at hc
  rw [he] at hc
  simp at hc

/-- The hypotheses of `C96_returns_partial` and, for the inner ring, of `C96_limit_partial`. -/
example : BoxOk exBoxIn ∧ (Grid.lin exHalf).Ok ∧
    (∀ i < (Grid.lin exHalf).nump, ∃ j k, j < (Grid.lin exHalf).numr ∧ k < (Grid.lin exHalf).numr ∧
      overlaps exBoxIn (.lin exHalf) i j ≠ overlaps exBoxIn (.lin exHalf) i k) ∧
    ∀ i < (Grid.lin exHalf).nump, areaSum exBoxIn (.lin exHalf) (wOf none) i 0 ≠ 0 := by
  refine ⟨exBoxIn_ok, exHalf_ok, fun i hi => ⟨0, 1, by rw [exHalf_numr]; norm_num, by rw [exHalf_numr]; norm_num, ?_⟩,
    fun i hi => ?_⟩
  · rw [exBoxIn_outer, overlaps_one ⟨rfl, rfl⟩ (exBoxIn_inner i hi)]
    norm_num
  · have := exBoxIn_inner i hi
    unfold areaSum
    simp only [exBoxIn, Int.toNat_one, Finset.range_one, Finset.sum_singleton, wOf, one_mul]
    exact this.ne'

/-- The hypothesis of `C96_bound`: the polar grid is inside the box. -/
example (i j : ℕ) (hj : j < 2) : ∀ pt ∈ (Grid.lin exHalf).pixel i j, ∃ c d, InPixel exBoxTwo pt c d := by
  rintro pt ⟨r, t, hr, -, rfl⟩
  rw [(exHalf_edges 0 _).1, (exHalf_edges 0 _).1] at hr
  have h0 : 0 ≤ r := le_trans (by positivity) hr.1
  have h1 : r ≤ 1 := by
    refine hr.2.trans ?_
    rw [div_le_one (by norm_num)]
    exact_mod_cast (by omega : j + 1 ≤ 2)
  simp only [Grid.args, exHalf, List.getD_cons_zero, List.getD_cons_succ, zero_add]
  by_cases hc : 0 ≤ Real.cos t
  · exact ⟨1, 0, (exBoxTwo_pixel h0 h1).1 hc⟩
  · rcases h0.eq_or_lt with rfl | h0'
    · exact ⟨1, 0, by simpa using (exBoxTwo_pixel (t := 0) le_rfl h1).1 (by simp)⟩
    · exact ⟨0, 0, (exBoxTwo_pixel h0 h1).2 h0' (not_le.mp hc)⟩

/-- The hypotheses of `C96_violated`: a box of one pixel that contains the polar grid. -/
example (i j : ℕ) (hi : i < (Grid.lin exHalf).nump) (hj : j < (Grid.lin exHalf).numr) :
    overlaps exBoxOne (.lin exHalf) i j = 1 := by
  refine overlaps_one ⟨rfl, rfl⟩ ?_
  rw [commonArea_pos exHalf_ok hi hj]
  rw [exHalf_numr] at hj
  refine unif2_ne_zero (t := 1) (by norm_num) le_rfl fun u v hu0 hu1 => ?_
  obtain ⟨r, r0, r1, -, e⟩ := exHalf_point i j hj (u := u) (w := v) ⟨hu0, hu1⟩
  simp only [Set.mem_setOf_eq]
  rw [e]
  exact exBoxOne_pixel r0 r1

end Magpie.Props
