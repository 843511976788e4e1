import Verif.Proof.DgLimit
import Verif.Props.DgBox2Ring
import Verif.Props.McLimit

/-!
# Property C97: dense grid remapping converges to the area weighted mean
-/

set_option linter.unusedSimpArgs false
set_option linter.unusedVariables false

namespace Magpie.Props
open Magpie Magpie.Box2Ring Magpie.Spec Magpie.Radial Magpie.Dg MeasureTheory Filter Topology
open Magpie.Mc (Grid wOf areaMean commonArea InPixel)

private theorem exists_all (P : ℕ → ℕ → ℕ → Prop) (n k : ℕ) (h : ∀ i < n, ∀ j < k, ∀ᶠ m : ℕ in atTop, P i j m) :
    ∀ᶠ m : ℕ in atTop, ∀ i < n, ∀ j < k, P i j m := by
  have h1 : ∀ i ∈ Set.Iio n, ∀ᶠ m : ℕ in atTop, ∀ j ∈ Set.Iio k, P i j m := by
    intro i hi
    rw [eventually_all_finite (Set.finite_Iio k)]
    exact fun j hj => h i hi j hj
  have h2 : ∀ᶠ m : ℕ in atTop, ∀ i ∈ Set.Iio n, ∀ j ∈ Set.Iio k, P i j m := by
    rw [eventually_all_finite (Set.finite_Iio n)]
    exact h1
  exact h2

section
variable (B : BoxArgs) (A : PolarArgs) (hB : BoxOk B) (hA : PolarOk A) (hr : 2 ≤ A.numr) (hp : 2 ≤ A.nump)
  (f : Arr2 (Option ℝ)) (v : ℕ → ℕ → ℝ) (hfr : f.rows = B.numy.toNat) (hfc : f.cols = B.numx.toNat)
  (hv : ∀ i j, i < f.rows → j < f.cols → f.val i j = some (v i j))
include hB hA hr hp hfr hfc hv

/-- C97: without weights the value of every polar pixel converges, as the dense grid is refined, to the integral of
the map over the polar pixel divided by its area; the map is zero outside the box. -/
theorem C97_limit (ε : ℝ) (hε : 0 < ε) : ∃ M, ∀ m ≥ M, ∀ s, ∃ out s',
    (do setupBox B; setupPolar A m m; remap f none : Meth Dg.State _) s = (.ok out, s') ∧
    out.rows = A.nump.toNat ∧ out.cols = A.numr.toNat ∧
    ∀ i < A.nump.toNat, ∀ j < A.numr.toNat, ∃ x, out.val i j = some x ∧
      |x - Mc.areaSum B (.lin A) v i j/(volume ((Grid.lin A).pixel i j)).toReal| < ε := by
  choose g hg using fun m n q => exists_reads B hB v (densePoint A m m n q)
  have hG : (Grid.lin A).Ok := ⟨hA, hr, hp⟩
  have hev := exists_all (fun i j m => |areaSum A m (g m) i j/areaSum A m (fun _ _ => 1) i j
      - Mc.areaSum B (.lin A) v i j/(volume ((Grid.lin A).pixel i j)).toReal| < ε) A.nump.toNat A.numr.toNat (by
    intro i hi j hj
    have t := areaSum_tendsto hB hG hi hj v g fun m n q _ _ => hg m n q
    have hS := Mc.sector_pos (Grid.rEdge_nonneg hG j) (Grid.rEdge_strict hG (j := j) hj)
      (Grid.pEdge_bounds hG (i := i) hi).1
    have hvol : (volume ((Grid.lin A).pixel i j)).toReal = sectorArea ((Grid.lin A).rEdge j) ((Grid.lin A).rEdge (j+1))
        ((Grid.lin A).pEdge i) ((Grid.lin A).pEdge (i+1)) := by
      rw [(Grid.point_law hG (i := i) (j := j) hi hj).2, ENNReal.toReal_ofReal hS.le]
    have t1 : ∀ᶠ m : ℕ in atTop, areaSum A m (fun _ _ => 1) i j = (volume ((Grid.lin A).pixel i j)).toReal := by
      filter_upwards [eventually_gt_atTop 0] with m hm
      rw [hvol]
      exact areaSum_one hG hj hm
    have t2 := (t.div_const (volume ((Grid.lin A).pixel i j)).toReal)
    rw [Metric.tendsto_nhds] at t2
    filter_upwards [t2 ε hε, t1] with m h1 h2
    rw [h2]
    exact h1)
  obtain ⟨M, hM⟩ := eventually_atTop.mp hev
  refine ⟨max M 1, fun m hm s => ?_⟩
  obtain ⟨out, s', h1, h2, h3, h4⟩ := C73_remap_partial B A m hB hA hr hp (le_of_max_le_right hm) f v hfr hfc hv (g m)
    (fun n q _ _ => hg m n q) s
  exact ⟨out, s', h1, h2, h3, fun i hi j hj => ⟨_, h4 i j hi hj, hM m (le_of_max_le_left hm) i hi j hj⟩⟩

/-- C97 with weights: the value of every polar pixel on which the weights do not cancel converges to the mean over
the box pixels that it overlaps, weighted by the common area times the weight. -/
theorem C97_weighted (w : Arr2 ℝ) (hwr : w.rows = B.numy.toNat) (hwc : w.cols = B.numx.toNat) (ε : ℝ) (hε : 0 < ε) :
    ∃ M, ∀ m ≥ M, ∀ s, ∃ out s',
    (do setupBox B; setupPolar A m m; remap f (some w) : Meth Dg.State _) s = (.ok out, s') ∧
    out.rows = A.nump.toNat ∧ out.cols = A.numr.toNat ∧
    ∀ i < A.nump.toNat, ∀ j < A.numr.toNat, Mc.areaSum B (.lin A) (wOf (some w)) i j ≠ 0 →
      ∃ x, out.val i j = some x ∧ |x - areaMean B (.lin A) (some w) v i j| < ε := by
  choose g hg using fun m n q => exists_reads B hB v (densePoint A m m n q)
  choose gw hgw using fun m n q => exists_reads B hB w.val (densePoint A m m n q)
  have hgp : ∀ m n q, Reads B (fun b a => w.val b a*v b a) (densePoint A m m n q) (gw m n q*g m n q) := by
    intro m n q
    obtain ⟨b1, b2⟩ := hg m n q
    obtain ⟨c1, c2⟩ := hgw m n q
    refine ⟨fun a b ha hb => ?_, fun hno => ?_⟩
    · rw [b1 a b ha hb, c1 a b ha hb]
    · rw [b2 hno, mul_zero]
  have hG : (Grid.lin A).Ok := ⟨hA, hr, hp⟩
  have hev := exists_all (fun i j m => Mc.areaSum B (.lin A) (wOf (some w)) i j ≠ 0 → areaSum A m (gw m) i j ≠ 0 ∧
      |areaSum A m (fun n q => gw m n q*g m n q) i j/areaSum A m (gw m) i j - areaMean B (.lin A) (some w) v i j| < ε)
      A.nump.toNat A.numr.toNat (by
    intro i hi j hj
    by_cases hne : Mc.areaSum B (.lin A) (wOf (some w)) i j = 0
    · exact Eventually.of_forall fun m h => absurd hne h
    have t := areaSum_tendsto hB hG hi hj w.val gw fun m n q _ _ => hgw m n q
    have t' := areaSum_tendsto hB hG hi hj _ (fun m n q => gw m n q*g m n q) fun m n q _ _ => hgp m n q
    have t2 := t'.div t hne
    rw [Metric.tendsto_nhds] at t2
    filter_upwards [t2 ε hε, t.eventually_ne hne] with m h1 h2 _ using ⟨h2, h1⟩)
  obtain ⟨M, hM⟩ := eventually_atTop.mp hev
  refine ⟨max M 1, fun m hm s => ?_⟩
  obtain ⟨out, s', h1, h2, h3, h4⟩ := C73_weighted_partial B A m hB hA hr hp (le_of_max_le_right hm) f w v hfr hfc
    hwr hwc hv (g m) (gw m) (fun n q _ _ => hg m n q) (fun n q _ _ => hgw m n q) s
  refine ⟨out, s', h1, h2, h3, fun i hi j hj hne => ?_⟩
  obtain ⟨k1, k2⟩ := hM m (le_of_max_le_left hm) i hi j hj hne
  exact ⟨_, (h4 i j hi hj).1 k1, k2⟩

end

/-- C97, what the limit of `C97_limit` is: the mean over the box pixels that the polar pixel overlaps, weighted by
the common area, times the fraction of the polar pixel that is in the box. -/
theorem C97_fraction (B : BoxArgs) (A : PolarArgs) (v : ℕ → ℕ → ℝ) (i j : ℕ)
    (h : Mc.areaSum B (.lin A) (fun _ _ => 1) i j ≠ 0) :
    Mc.areaSum B (.lin A) v i j/(volume ((Grid.lin A).pixel i j)).toReal
      = areaMean B (.lin A) none v i j*
        (Mc.areaSum B (.lin A) (fun _ _ => 1) i j/(volume ((Grid.lin A).pixel i j)).toReal) := by
  have e : wOf (none : Option (Arr2 ℝ)) = fun _ _ => 1 := rfl
  unfold areaMean
  rw [e]
  simp only [wOf, one_mul]
  rw [div_mul_div_cancel₀ h]

/-- C97 and C96: with the same weights the two classes agree in the limit. For almost all sequences of random numbers
and every polar pixel on which the weights do not cancel, whatever the Monte Carlo class returns for enough points is
close to what the dense grid class returns for a fine enough grid. -/
theorem C97_agree {Ω : Type} [MeasurableSpace Ω] (P : Measure Ω) [IsProbabilityMeasure P]
    (U : Ω → ℕ → ℕ → ℕ → ℝ × ℝ) (hU : Mc.Random P U) (B : BoxArgs) (A : PolarArgs) (hB : BoxOk B) (hA : PolarOk A)
    (hr : 2 ≤ A.numr) (hp : 2 ≤ A.nump) (f : Arr2 (Option ℝ)) (v : ℕ → ℕ → ℝ) (hfr : f.rows = B.numy.toNat)
    (hfc : f.cols = B.numx.toNat) (hv : ∀ i j, i < f.rows → j < f.cols → f.val i j = some (v i j))
    (w : Arr2 ℝ) (hwr : w.rows = B.numy.toNat) (hwc : w.cols = B.numx.toNat) :
    ∀ᵐ ω ∂P, ∀ i j, i < A.nump.toNat → j < A.numr.toNat → Mc.areaSum B (.lin A) (wOf (some w)) i j ≠ 0 →
    ∀ ε > 0, ∃ N, ∀ n ≥ N, ∀ m ≥ N, ∀ s out s' t out' t',
      Mc.mcRemap B (.lin A) n (Mc.drawsOf (U ω) n) f (some w) s = (.ok out, s') →
      (do setupBox B; setupPolar A m m; remap f (some w) : Meth Dg.State _) t = (.ok out', t') →
      ∃ x y, out.val i j = some x ∧ out'.val i j = some y ∧ |x - y| < ε := by
  filter_upwards [C96_limit_partial P U hU B (.lin A) hB ⟨hA, hr, hp⟩ f v ⟨hfr, hfc⟩ hv (some w) (by
    rintro t ⟨⟩; exact ⟨hwr, hwc⟩)] with ω hω i j hi hj hne ε hε
  obtain ⟨N, hN⟩ := hω i j hi hj hne (ε/2) (half_pos hε)
  obtain ⟨M, hM⟩ := C97_weighted B A hB hA hr hp f v hfr hfc hv w hwr hwc (ε/2) (half_pos hε)
  refine ⟨max N M, fun n hn m hm s out s' t out' t' e e' => ?_⟩
  obtain ⟨x, hx, hx'⟩ := hN n (le_of_max_le_left hn) s out s' e
  obtain ⟨o, t'', h1, -, -, h4⟩ := hM m (le_of_max_le_right hm) t
  rw [e'] at h1
  simp only [Prod.mk.injEq, Except.ok.injEq] at h1
  obtain ⟨rfl, -⟩ := h1
  obtain ⟨y, hy, hy'⟩ := h4 i hi j hj hne
  refine ⟨x, y, hx, hy, ?_⟩
  rw [abs_lt] at hx' hy' ⊢
  constructor <;> linarith

/-- The hypotheses are met: a box of one pixel inside the inner ring of a grid of two rings and two sectors. -/
example : BoxOk exBoxIn ∧ PolarOk exHalf ∧ 2 ≤ exHalf.numr ∧ 2 ≤ exHalf.nump ∧
    Mc.areaSum exBoxIn (.lin exHalf) (wOf (some ⟨1, 1, fun _ _ => 3⟩)) 0 0 ≠ 0 := by
  refine ⟨exBoxIn_ok, exHalf_ok.1, exHalf_ok.2.1, exHalf_ok.2.2, ?_⟩
  have := exBoxIn_inner 0 (by simp [Grid.nump, Grid.args, exHalf])
  unfold Mc.areaSum
  simp only [exBoxIn, Int.toNat_one, Finset.range_one, Finset.sum_singleton, wOf] at this ⊢
  positivity

end Magpie.Props
