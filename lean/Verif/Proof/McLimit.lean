import Verif.Spec.McLimit
import Verif.Proof.McBox2RingRun
import Verif.Proof.Box2RingRadial
import Verif.Proof.SectorLaw
import Verif.Proof.Lln

set_option linter.unusedSimpArgs false
set_option linter.unusedVariables false

namespace Magpie.Mc
open ProbabilityTheory hiding uniformOn
open Magpie.Box2Ring Magpie.Spec Magpie.Radial MeasureTheory
open Filter Topology Set

theorem Grid.rEdge_strict {G : Grid} (h : G.Ok) {j : ℕ} (hj : j < G.numr) : G.rEdge j < G.rEdge (j+1) := by
  have hA := h.polar
  cases G with
  | lin A => exact edgeAt_strict hA.r (by change j < A.numr.toNat at hj; omega) (Nat.lt_succ_self j)
  | log A z =>
    change j < A.numr.toNat at hj
    have h0 : 0 < A.rmin := h.1
    have hq : 1 < A.rmax/A.rmin := (one_lt_div h0).mpr hA.r
    cases z with
    | false =>
      simp only [Grid.rEdge]
      refine mul_lt_mul_of_pos_left (Real.rpow_lt_rpow_of_exponent_lt hq ?_) h0
      have : (0:ℝ) < A.numr.toNat := by exact_mod_cast (by omega : 0 < A.numr.toNat)
      apply div_lt_div_of_pos_right _ this
      push_cast; linarith
    | true =>
      cases j with
      | zero =>
        simp only [Grid.rEdge]
        have : 0 < A.rmax/A.rmin := by linarith
        positivity
      | succ j =>
        simp only [Grid.rEdge]
        refine mul_lt_mul_of_pos_left (Real.rpow_lt_rpow_of_exponent_lt hq ?_) h0
        have : (0:ℝ) < (A.numr.toNat - 1 : ℕ) := by exact_mod_cast (by omega : 0 < A.numr.toNat - 1)
        apply div_lt_div_of_pos_right _ this
        push_cast; linarith

theorem Grid.pEdge_bounds {G : Grid} (h : G.Ok) {i : ℕ} (hi : i < G.nump) :
    G.pEdge i < G.pEdge (i+1) ∧ G.pEdge (i+1) ≤ G.pEdge i + 2*Real.pi := by
  have hA := h.polar
  unfold Grid.pEdge
  have hn : 0 < G.nump := by omega
  refine ⟨edgeAt_strict hA.p hn (Nat.lt_succ_self i), ?_⟩
  have h1 := edgeAt_mono hA.p.le G.nump (Nat.zero_le i)
  have h2 := edgeAt_mono hA.p.le G.nump (show i + 1 ≤ G.nump by omega)
  rw [edgeAt_zero] at h1
  rw [edgeAt_last _ _ _ hn] at h2
  linarith [hA.pmin, hA.pmax2]

theorem Grid.point_eq (G : Grid) (i j : ℕ) (u : ℝ × ℝ) : G.point i j u.1 u.2
    = Sector.pt (G.args.center.getD 0 0, G.args.center.getD 1 0) (G.rEdge j) (G.rEdge (j+1))
      (G.pEdge i + G.args.phiShift) (G.pEdge (i+1) + G.args.phiShift) u := by
  unfold Grid.point Sector.pt
  simp only
  have e : G.pEdge i + u.2*(G.pEdge (i+1) - G.pEdge i) + G.args.phiShift
      = G.pEdge i + G.args.phiShift + u.2*(G.pEdge (i+1) + G.args.phiShift - (G.pEdge i + G.args.phiShift)) := by ring
  rw [e, add_comm _ (G.args.center.getD 0 0), add_comm _ (G.args.center.getD 1 0)]

theorem Grid.measurable_point (G : Grid) (i j : ℕ) : Measurable fun u : ℝ × ℝ => G.point i j u.1 u.2 := by
  simp only [G.point_eq]
  exact Sector.measurable_pt

/-- The law of the random points of a polar pixel. -/
theorem Grid.point_law {G : Grid} (h : G.Ok) {i j : ℕ} (hi : i < G.nump) (hj : j < G.numr) :
    Measure.map (fun u : ℝ × ℝ => G.point i j u.1 u.2) unif2 = uniformOn (G.pixel i j) ∧
    volume (G.pixel i j)
      = ENNReal.ofReal (sectorArea (G.rEdge j) (G.rEdge (j+1)) (G.pEdge i) (G.pEdge (i+1))) := by
  obtain ⟨h1, h2⟩ := Grid.pEdge_bounds h hi
  obtain ⟨e1, e2⟩ := Sector.law (c := (G.args.center.getD 0 0, G.args.center.getD 1 0))
    (p0 := G.pEdge i + G.args.phiShift) (p1 := G.pEdge (i+1) + G.args.phiShift)
    (Grid.rEdge_nonneg h j) (Grid.rEdge_strict h hj) (by linarith) (by linarith)
  simp only [G.point_eq]
  refine ⟨e1, ?_⟩
  unfold Grid.pixel
  rw [e2, sectorArea_eq, sectorArea_eq]
  congr 1
  ring

theorem sector_pos {r0 r1 p0 p1 : ℝ} (h0 : 0 ≤ r0) (hr : r0 < r1) (hp : p0 < p1) : 0 < sectorArea r0 r1 p0 p1 := by
  rw [sectorArea_eq]
  exact mul_pos (by linarith) (by nlinarith)

/-- The value of the box at a point, 0 outside. -/
noncomputable def boxVal (B : BoxArgs) (w : ℕ → ℕ → ℝ) (pt : ℝ × ℝ) : ℝ :=
  ∑ a ∈ Finset.range B.numx.toNat, ∑ b ∈ Finset.range B.numy.toNat,
    indicator {pt | InPixel B pt a b} (fun _ => w b a) pt

theorem measurableSet_inBin (lo hi : ℝ) (n k : ℕ) : MeasurableSet {x | InBin lo hi n k x} := by
  unfold InBin
  measurability

theorem measurableSet_inPixel (B : BoxArgs) (a b : ℕ) : MeasurableSet {pt | InPixel B pt a b} := by
  have h1 := (measurable_fst : Measurable (Prod.fst : ℝ × ℝ → ℝ)) (measurableSet_inBin B.xmin B.xmax B.numx.toNat a)
  have h2 := (measurable_snd : Measurable (Prod.snd : ℝ × ℝ → ℝ)) (measurableSet_inBin B.ymin B.ymax B.numy.toNat b)
  exact h1.inter h2

theorem measurable_boxVal (B : BoxArgs) (w : ℕ → ℕ → ℝ) : Measurable (boxVal B w) := by
  unfold boxVal
  refine Finset.measurable_sum _ fun a _ => Finset.measurable_sum _ fun b _ => ?_
  exact measurable_const.indicator (measurableSet_inPixel B a b)

theorem boxVal_in {B : BoxArgs} (hB : BoxOk B) (w : ℕ → ℕ → ℝ) {pt : ℝ × ℝ} {a b : ℕ} (h : InPixel B pt a b) :
    boxVal B w pt = w b a := by
  unfold boxVal
  rw [Finset.sum_eq_single a, Finset.sum_eq_single b]
  · exact indicator_of_mem (s := {pt | InPixel B pt a b}) h _
  · intro b' _ hb
    refine indicator_of_notMem (s := {pt | InPixel B pt a b'}) (fun h' => hb ?_) _
    exact inBin_unique hB.hy h'.2 h.2
  · intro hb
    exact absurd (Finset.mem_range.mpr h.2.1) hb
  · intro a' _ ha
    refine Finset.sum_eq_zero fun b' _ => indicator_of_notMem (s := {pt | InPixel B pt a' b'}) (fun h' => ha ?_) _
    exact inBin_unique hB.hx h'.1 h.1
  · intro ha
    exact absurd (Finset.mem_range.mpr h.1.1) ha

theorem boxVal_out {B : BoxArgs} (w : ℕ → ℕ → ℝ) {pt : ℝ × ℝ} (h : ¬ ∃ a b, InPixel B pt a b) :
    boxVal B w pt = 0 := by
  unfold boxVal
  refine Finset.sum_eq_zero fun a _ => Finset.sum_eq_zero fun b _ => ?_
  exact indicator_of_notMem (s := {pt | InPixel B pt a b}) (fun h' => h ⟨a, b, h'⟩) _

theorem boxVal_bdd (B : BoxArgs) (w : ℕ → ℕ → ℝ) : ∃ C, ∀ pt, |boxVal B w pt| ≤ C := by
  refine ⟨∑ a ∈ Finset.range B.numx.toNat, ∑ b ∈ Finset.range B.numy.toNat, |w b a|, fun pt => ?_⟩
  unfold boxVal
  refine (Finset.abs_sum_le_sum_abs _ _).trans (Finset.sum_le_sum fun a _ => ?_)
  refine (Finset.abs_sum_le_sum_abs _ _).trans (Finset.sum_le_sum fun b _ => ?_)
  by_cases h : pt ∈ {pt | InPixel B pt a b}
  · rw [indicator_of_mem h]
  · rw [indicator_of_notMem h, abs_zero]; exact abs_nonneg _

/-- The mean of the box over a polar pixel. -/
theorem integral_boxVal {B : BoxArgs} {G : Grid} (w : ℕ → ℕ → ℝ) {i j : ℕ} (hv : volume (G.pixel i j) ≠ 0)
    (hv' : volume (G.pixel i j) ≠ ⊤) :
    ∫ pt, boxVal B w pt ∂uniformOn (G.pixel i j) = areaSum B G w i j/(volume (G.pixel i j)).toReal := by
  unfold uniformOn
  rw [integral_smul_measure]
  unfold boxVal areaSum
  have hi : ∀ a b, Integrable (indicator {pt | InPixel B pt a b} fun _ => w b a)
      ((volume : Measure (ℝ × ℝ)).restrict (G.pixel i j)) := fun a b => by
    haveI : IsFiniteMeasure ((volume : Measure (ℝ × ℝ)).restrict (G.pixel i j)) :=
      ⟨by rw [Measure.restrict_apply_univ]; exact hv'.lt_top⟩
    exact (integrable_const _).indicator (measurableSet_inPixel B a b)
  rw [integral_finset_sum _ fun a _ => integrable_finset_sum _ fun b _ => hi a b]
  rw [smul_eq_mul, ENNReal.toReal_inv, ← div_eq_inv_mul]
  congr 1
  refine Finset.sum_congr rfl fun a _ => ?_
  rw [integral_finset_sum _ fun b _ => hi a b]
  refine Finset.sum_congr rfl fun b _ => ?_
  rw [integral_indicator (measurableSet_inPixel B a b), Measure.restrict_restrict (measurableSet_inPixel B a b),
    setIntegral_const, smul_eq_mul, mul_comm]
  unfold commonArea
  rw [inter_comm]
  rfl

/-- The sums of what is read at the points. -/
theorem reads_sum {B : BoxArgs} (hB : BoxOk B) {α : Type} (v : ℕ → ℕ → α) (F : α → ℝ) {pts : List (ℝ × ℝ)}
    {g : List (Option α)} (h : List.Forall₂ (Reads B v) pts g) :
    ((g.filterMap id).map F).sum = (pts.map (boxVal B fun b a => F (v b a))).sum := by
  induction h with
  | nil => rfl
  | @cons pt x pts g h1 h2 ih =>
    rw [List.map_cons, List.sum_cons, ← ih]
    by_cases hc : ∃ a b, InPixel B pt a b
    · obtain ⟨a, b, hab⟩ := hc
      rw [h1.1 a b hab, boxVal_in hB _ hab]
      simp
    · rw [h1.2 hc, boxVal_out _ hc]
      simp

theorem points_drawsOf (G : Grid) (u : ℕ → ℕ → ℕ → ℝ × ℝ) (n i j : ℕ) :
    G.points i j (drawsOf u n i j) = (List.range n).map fun (k : ℕ) => G.point i j (u i j k).1 (u i j k).2 := by
  unfold Grid.points drawsOf
  simp only [List.zipWith_map]
  induction List.range n with
  | nil => rfl
  | cons a l ih => simp [ih]

theorem sum_range_map (f : ℕ → ℝ) (n : ℕ) : ((List.range n).map f).sum = ∑ k ∈ Finset.range n, f k := by
  induction n with
  | zero => simp
  | succ n ih => rw [List.range_succ, List.map_append, List.sum_append, ih, Finset.sum_range_succ]; simp

theorem random_unit {Ω : Type} [MeasurableSpace Ω] {P : Measure Ω} {U : Ω → ℕ → ℕ → ℕ → ℝ × ℝ} (h : Random P U) :
    ∀ᵐ ω ∂P, ∀ i j k, (0 ≤ (U ω i j k).1 ∧ (U ω i j k).1 < 1) ∧ (0 ≤ (U ω i j k).2 ∧ (U ω i j k).2 < 1) := by
  rw [ae_all_iff]; intro i
  rw [ae_all_iff]; intro j
  rw [ae_all_iff]; intro k
  have : ∀ᵐ x ∂(unif2), (0 ≤ x.1 ∧ x.1 < 1) ∧ (0 ≤ x.2 ∧ x.2 < 1) := by
    rw [show unif2 = (volume.prod volume).restrict (Ico (0:ℝ) 1 ×ˢ Ico (0:ℝ) 1) by
      unfold unif2 unif; rw [Measure.prod_restrict]]
    rw [ae_restrict_iff' (measurableSet_Ico.prod measurableSet_Ico)]
    exact Eventually.of_forall fun x hx => hx
  rw [← h.law i j k] at this
  exact ae_of_ae_map (h.meas i j k).aemeasurable this

theorem draws_drawsOf {u : ℕ → ℕ → ℕ → ℝ × ℝ}
    (h : ∀ i j k, (0 ≤ (u i j k).1 ∧ (u i j k).1 < 1) ∧ (0 ≤ (u i j k).2 ∧ (u i j k).2 < 1)) (n i j : ℕ) :
    Draws n (drawsOf u n i j) := by
  refine ⟨by simp [drawsOf], by simp [drawsOf], ?_, ?_⟩
  · intro x hx
    simp only [drawsOf, List.mem_map] at hx
    obtain ⟨k, -, rfl⟩ := hx
    exact (h i j k).1
  · intro x hx
    simp only [drawsOf, List.mem_map] at hx
    obtain ⟨k, -, rfl⟩ := hx
    exact (h i j k).2

/-- One pixel of `remap`. -/
theorem pixel_value {B : BoxArgs} {G : Grid} (hB : BoxOk B) {n : ℕ} (hn : 1 < n)
    (draws : ℕ → ℕ → List ℝ × List ℝ)
    (f : Arr2 (Option ℝ)) (v : ℕ → ℕ → ℝ) (hf : f.rows = B.numy.toNat ∧ f.cols = B.numx.toNat)
    (hv : ∀ i j, i < f.rows → j < f.cols → f.val i j = some (v i j))
    (w : Option (Arr2 ℝ)) (hw : ∀ t, w = some t → t.rows = B.numy.toNat ∧ t.cols = B.numx.toNat)
    {i j : ℕ} {hits : ℕ → ℕ → List Hit} (hh : hits i j = pixelHits (hX B) (hY B) n ((G.points i j (draws i j)).map some))
    {o : Bool} {x : Option ℝ} (ht : remapPixel ⟨hits, o⟩ f w i j = .ok x) :
    x = fdiv ((G.points i j (draws i j)).map (boxVal B fun b a => wOf w b a*v b a)).sum
      ((G.points i j (draws i j)).map (boxVal B (wOf w))).sum := by
  set pts := G.points i j (draws i j) with hpts
  cases o with
  | false =>
    cases w with
    | none =>
      obtain ⟨g, hg⟩ := exists_reads hB v pts
      rw [remapPixel_none hB (by omega) pts ⟨hits, false⟩ i j hh rfl f v hf.1 hf.2 hv g hg,
        Except.ok.injEq] at ht
      have e1 := reads_sum hB v (fun x => x) hg
      have e2 := reads_sum hB v (fun _ => 1) hg
      simp only [List.map_id', List.map_const', List.sum_replicate, nsmul_eq_mul, mul_one] at e1 e2
      rw [← ht]
      simp only [wOf, one_mul]
      rw [← e1]
      show _ = fdiv _ (pts.map (boxVal B fun _ _ => 1)).sum
      rw [← e2]
      unfold mean fdiv
      by_cases h0 : g.filterMap id = []
      · rw [if_pos h0, h0, if_pos (by simp)]
      · rw [if_neg h0, if_neg]
        exact_mod_cast fun h => h0 (List.length_eq_zero_iff.mp h)
    | some w =>
      obtain ⟨g, hg⟩ := exists_reads hB (fun b a => (w.val b a, v b a)) pts
      rw [remapPixel_some hB (by omega) pts ⟨hits, false⟩ i j hh rfl f v hf.1 hf.2 hv w
        (hw w rfl).1 (hw w rfl).2 g hg, Except.ok.injEq] at ht
      have e1 := reads_sum hB _ (fun x => x.1*x.2) hg
      have e2 := reads_sum hB _ (fun x => x.1) hg
      rw [← ht]
      unfold wmean
      exact congrArg₂ fdiv e1 e2
  | true =>
    have hz : ((hits i j).map Hit.w).sum = 0 ∧ x = none := by
      unfold remapPixel at ht
      cases w with
      | none =>
        simp only at ht
        by_cases h0 : ((hits i j).map Hit.w).sum ≠ 0
        · rw [if_pos h0] at ht
          simp [readHits, Bind.bind, Except.bind] at ht
        · rw [if_neg h0, Except.ok.injEq] at ht
          exact ⟨not_not.mp h0, ht.symm⟩
      | some w =>
        simp only at ht
        by_cases h0 : ((hits i j).map Hit.w).sum ≠ 0
        · rw [if_pos h0] at ht
          simp [readHits, Bind.bind, Except.bind] at ht
        · rw [if_neg h0, Except.ok.injEq] at ht
          exact ⟨not_not.mp h0, ht.symm⟩
    rw [hz.2]
    have h0 := hz.1
    rw [hh, hits_wsum hB] at h0
    have hn' : (n:ℝ) ≠ 0 := by exact_mod_cast (show n ≠ 0 by omega)
    have h1 : (bins B pts).filterMap id = [] := by
      rcases div_eq_zero_iff.mp h0 with h | h
      · exact List.length_eq_zero_iff.mp (by exact_mod_cast h)
      · exact absurd h hn'
    obtain ⟨g, hg⟩ := exists_reads hB (wOf w) pts
    have e2 := reads_sum hB _ (fun x => x) hg
    rw [reads_bins hB _ pts g hg, h1] at e2
    simp only [List.map_nil, List.sum_nil] at e2
    unfold fdiv
    rw [if_pos e2.symm]

/-- Whenever `remap` returns, each value is the weighted mean over the random points in the box. -/
theorem ok_value {B : BoxArgs} {G : Grid} (hB : BoxOk B) (hG : G.Ok) {n : ℕ} (hn : 1 < n)
    (draws : ℕ → ℕ → List ℝ × List ℝ) (hd : ∀ i j, i < G.nump → j < G.numr → Draws n (draws i j))
    (f : Arr2 (Option ℝ)) (v : ℕ → ℕ → ℝ) (hf : f.rows = B.numy.toNat ∧ f.cols = B.numx.toNat)
    (hv : ∀ i j, i < f.rows → j < f.cols → f.val i j = some (v i j))
    (w : Option (Arr2 ℝ)) (hw : ∀ t, w = some t → t.rows = B.numy.toNat ∧ t.cols = B.numx.toNat)
    {s s' : State} {out : Arr2 (Option ℝ)} (ho : mcRemap B G n draws f w s = (.ok out, s'))
    {i j : ℕ} (hi : i < G.nump) (hj : j < G.numr) :
    out.val i j = fdiv ((G.points i j (draws i j)).map (boxVal B fun b a => wOf w b a*v b a)).sum
      ((G.points i j (draws i j)).map (boxVal B (wOf w))).sum := by
  obtain ⟨hits, hh, s1, e⟩ := mcRemap_run hB hG hn draws hd f w hf hw s
  rw [ho] at e
  cases hp : pack (lens B G draws) with
  | error x => rw [hp] at e; simp at e
  | ok o =>
    rw [hp] at e
    simp only [Prod.mk.injEq] at e
    have ht := (tabulate_inv e.1.symm).2.2 i j hi hj
    exact pixel_value hB hn draws f v hf hv w hw (hh i j hi hj) ht

/-- The mean of the box values at the random points of a polar pixel converges. -/
theorem mean_points {Ω : Type} [MeasurableSpace Ω] {P : Measure Ω} [IsProbabilityMeasure P]
    {U : Ω → ℕ → ℕ → ℕ → ℝ × ℝ} (hU : Random P U) {B : BoxArgs} {G : Grid} (hG : G.Ok) (w : ℕ → ℕ → ℝ)
    {i j : ℕ} (hi : i < G.nump) (hj : j < G.numr) :
    (∫ u, boxVal B w (G.point i j u.1 u.2) ∂unif2) = areaSum B G w i j/(volume (G.pixel i j)).toReal ∧
    0 < (volume (G.pixel i j)).toReal ∧
    ∀ᵐ ω ∂P, Tendsto (fun n : ℕ => ((G.points i j (drawsOf (U ω) n i j)).map (boxVal B w)).sum/n) atTop
      (𝓝 (areaSum B G w i j/(volume (G.pixel i j)).toReal)) := by
  obtain ⟨hl, hv⟩ := Grid.point_law hG hi hj
  have hpos := sector_pos (Grid.rEdge_nonneg hG j) (Grid.rEdge_strict hG hj) (Grid.pEdge_bounds hG hi).1
  have hm := (measurable_boxVal B w).comp (G.measurable_point i j)
  have hint : (∫ u, boxVal B w (G.point i j u.1 u.2) ∂unif2)
      = areaSum B G w i j/(volume (G.pixel i j)).toReal := by
    rw [← integral_boxVal w (by rw [hv]; simpa using hpos) (by rw [hv]; exact ENNReal.ofReal_ne_top), ← hl,
      integral_map (G.measurable_point i j).aemeasurable (measurable_boxVal B w).aestronglyMeasurable]
  refine ⟨hint, by rw [hv, ENNReal.toReal_ofReal hpos.le]; exact hpos, ?_⟩
  obtain ⟨C, hC⟩ := boxVal_bdd B w
  have := Lln.mean_tendsto (Y := fun k ω => U ω i j k) (hU.meas i j) (hU.law i j) (hU.indep i j) hm
    (fun y => hC _)
  simp only [Function.comp_apply] at this
  rw [hint] at this
  filter_upwards [this] with ω hω
  refine hω.congr fun n => ?_
  rw [points_drawsOf, List.map_map, sum_range_map]
  rfl

theorem point_mem {G : Grid} (hG : G.Ok) {i j : ℕ} (hi : i < G.nump) (hj : j < G.numr) {u v : ℝ}
    (hu : 0 ≤ u ∧ u < 1) (hv : 0 ≤ v ∧ v < 1) : G.point i j u v ∈ G.pixel i j := by
  have h0 := Grid.rEdge_nonneg hG j
  have h1 := Grid.rEdge_strict hG hj
  obtain ⟨p1, p2⟩ := Grid.pEdge_bounds hG hi
  have hd : 0 ≤ (G.rEdge (j+1))^2 - (G.rEdge j)^2 := by nlinarith
  refine ⟨√((G.rEdge j)^2 + u*((G.rEdge (j+1))^2 - (G.rEdge j)^2)),
    G.pEdge i + v*(G.pEdge (i+1) - G.pEdge i) + G.args.phiShift, ⟨?_, ?_⟩, ⟨?_, ?_⟩, ?_⟩
  · rw [Real.le_sqrt h0 (add_nonneg (sq_nonneg _) (mul_nonneg hu.1 hd))]
    nlinarith [mul_nonneg hu.1 hd]
  · rw [Real.sqrt_le_left (by linarith)]
    nlinarith [mul_nonneg (sub_nonneg.mpr hu.2.le) hd]
  · nlinarith [mul_nonneg hv.1 (sub_nonneg.mpr p1.le)]
  · nlinarith [mul_nonneg (sub_nonneg.mpr hv.2.le) (sub_nonneg.mpr p1.le)]
  · unfold Grid.point
    simp only
    rw [add_comm, add_comm (√_*Real.sin _)]

theorem inPixel_range {B : BoxArgs} {pt : ℝ × ℝ} {a b : ℕ} (h : InPixel B pt a b) :
    a < B.numx.toNat ∧ b < B.numy.toNat := ⟨h.1.1, h.2.1⟩

theorem commonArea_range {B : BoxArgs} {G : Grid} {i j a b : ℕ} (h : 0 < commonArea B G i j a b) :
    a < B.numx.toNat ∧ b < B.numy.toNat := by
  by_contra hc
  have : {pt : ℝ × ℝ | InPixel B pt a b} = ∅ := by
    ext pt
    simp only [mem_setOf_eq, mem_empty_iff_false, iff_false]
    exact fun h => hc (inPixel_range h)
  unfold commonArea at h
  rw [this] at h
  simp at h

/-- The probability that a random point of a polar pixel is in a box pixel. -/
theorem unif2_inPixel {B : BoxArgs} {G : Grid} (hG : G.Ok) {i j : ℕ} (hi : i < G.nump) (hj : j < G.numr) (a b : ℕ) :
    unif2 {u | InPixel B (G.point i j u.1 u.2) a b}
      = (volume (G.pixel i j))⁻¹*volume (G.pixel i j ∩ {pt | InPixel B pt a b}) := by
  have h := (Grid.point_law hG hi hj).1
  have hm := measurableSet_inPixel B a b
  have := congrArg (fun μ => μ {pt | InPixel B pt a b}) h
  simp only [Measure.map_apply (G.measurable_point i j) hm] at this
  refine this.trans ?_
  unfold uniformOn
  rw [Measure.smul_apply, Measure.restrict_apply hm, smul_eq_mul, inter_comm]

theorem volume_pixel {G : Grid} (hG : G.Ok) {i j : ℕ} (hi : i < G.nump) (hj : j < G.numr) :
    volume (G.pixel i j) ≠ 0 ∧ volume (G.pixel i j) ≠ ⊤ := by
  rw [(Grid.point_law hG hi hj).2]
  have hpos := sector_pos (Grid.rEdge_nonneg hG j) (Grid.rEdge_strict hG hj) (Grid.pEdge_bounds hG hi).1
  exact ⟨by simpa using hpos, ENNReal.ofReal_ne_top⟩

theorem commonArea_pos {B : BoxArgs} {G : Grid} (hG : G.Ok) {i j : ℕ} (hi : i < G.nump) (hj : j < G.numr) (a b : ℕ) :
    0 < commonArea B G i j a b ↔ unif2 {u | InPixel B (G.point i j u.1 u.2) a b} ≠ 0 := by
  obtain ⟨h0, ht⟩ := volume_pixel hG hi hj
  rw [unif2_inPixel hG hi hj, Ne, mul_eq_zero, ENNReal.inv_eq_zero, not_or]
  unfold commonArea
  rw [ENNReal.toReal_pos_iff, pos_iff_ne_zero]
  exact ⟨fun h => ⟨ht, h.1⟩, fun h => ⟨h.2, (measure_mono inter_subset_left).trans_lt ht.lt_top⟩⟩

theorem areaSum_single (B : BoxArgs) (G : Grid) (i j : ℕ) {a b : ℕ} (ha : a < B.numx.toNat) (hb : b < B.numy.toNat) :
    areaSum B G (fun d c => if c = a ∧ d = b then 1 else 0) i j = commonArea B G i j a b := by
  unfold areaSum
  rw [Finset.sum_eq_single a, Finset.sum_eq_single b]
  · simp
  · intro d _ hd; simp [hd]
  · intro h; exact absurd (Finset.mem_range.mpr hb) h
  · intro c _ hc; simp [hc]
  · intro h; exact absurd (Finset.mem_range.mpr ha) h

/-- With enough points the box pixels touched are those with a common area. -/
theorem touched_eventually {Ω : Type} [MeasurableSpace Ω] {P : Measure Ω} [IsProbabilityMeasure P]
    {U : Ω → ℕ → ℕ → ℕ → ℝ × ℝ} (hU : Random P U) {B : BoxArgs} {G : Grid} (hB : BoxOk B) (hG : G.Ok)
    {i j : ℕ} (hi : i < G.nump) (hj : j < G.numr) :
    ∀ᵐ ω ∂P, ∀ᶠ n : ℕ in atTop, touched B (G.points i j (drawsOf (U ω) n i j)) = overlaps B G i j := by
  have h1 : ∀ c : ℕ × ℕ, ∀ᵐ ω ∂P, ¬ 0 < commonArea B G i j c.1 c.2 →
      ∀ k, ¬ InPixel B (G.point i j (U ω i j k).1 (U ω i j k).2) c.1 c.2 := by
    intro c
    by_cases hc : 0 < commonArea B G i j c.1 c.2
    · exact Eventually.of_forall fun ω h => absurd hc h
    · have := ae_all_iff.mpr fun k => by
        have h0 : ∀ᵐ u ∂unif2, ¬ InPixel B (G.point i j u.1 u.2) c.1 c.2 := by
          rw [ae_iff]
          simp only [not_not]
          exact not_not.mp fun h => hc ((commonArea_pos hG hi hj _ _).mpr h)
        rw [← hU.law i j k] at h0
        exact ae_of_ae_map (hU.meas i j k).aemeasurable h0
      filter_upwards [this] with ω hω _ using hω
  have h2 : ∀ c : ℕ × ℕ, ∀ᵐ ω ∂P, 0 < commonArea B G i j c.1 c.2 →
      ∀ᶠ n : ℕ in atTop, ∃ pt ∈ G.points i j (drawsOf (U ω) n i j), InPixel B pt c.1 c.2 := by
    intro c
    by_cases hc : 0 < commonArea B G i j c.1 c.2
    · obtain ⟨ha, hb⟩ := commonArea_range hc
      obtain ⟨-, hpos, hlim⟩ := mean_points hU (B := B) hG (fun d e => if e = c.1 ∧ d = c.2 then 1 else 0) hi hj
      rw [areaSum_single B G i j ha hb] at hlim
      filter_upwards [hlim] with ω hω _
      filter_upwards [hω.eventually (lt_mem_nhds (div_pos hc hpos))] with n hn
      by_contra hno
      push Not at hno
      have hz : ((G.points i j (drawsOf (U ω) n i j)).map
          (boxVal B fun d e => if e = c.1 ∧ d = c.2 then 1 else 0)).sum = 0 := by
        refine List.sum_eq_zero fun x hx => ?_
        obtain ⟨pt, hpt, rfl⟩ := List.mem_map.mp hx
        by_cases hp : ∃ a b, InPixel B pt a b
        · obtain ⟨a, b, hab⟩ := hp
          rw [boxVal_in hB _ hab, if_neg]
          rintro ⟨rfl, rfl⟩
          exact hno pt hpt hab
        · exact boxVal_out _ hp
      rw [hz, zero_div] at hn
      exact lt_irrefl _ hn
    · exact Eventually.of_forall fun ω h => absurd h hc
  filter_upwards [ae_all_iff.mpr h1, ae_all_iff.mpr h2] with ω e1 e2
  have hfin : {c : ℕ × ℕ | 0 < commonArea B G i j c.1 c.2}.Finite :=
    ((finite_Iio B.numx.toNat).prod (finite_Iio B.numy.toNat)).subset fun c hc => commonArea_range hc
  have : ∀ᶠ n : ℕ in atTop, ∀ c ∈ {c : ℕ × ℕ | 0 < commonArea B G i j c.1 c.2},
      ∃ pt ∈ G.points i j (drawsOf (U ω) n i j), InPixel B pt c.1 c.2 :=
    (eventually_all_finite hfin).mpr fun c hc => e2 c hc
  filter_upwards [this] with n hn
  unfold touched overlaps
  congr 1
  ext c
  constructor
  · rintro ⟨pt, hpt, hin⟩
    by_contra hc
    rw [points_drawsOf, List.mem_map] at hpt
    obtain ⟨k, -, rfl⟩ := hpt
    exact e1 c hc k hin
  · exact fun hc => hn c hc

end Magpie.Mc
