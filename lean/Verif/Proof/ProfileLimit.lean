import Verif.Spec.ProfileLimit
import Verif.Proof.McLimit
import Verif.Proof.Box2RingRadial

/-!
# The pixels of a ring
-/

set_option linter.unusedSimpArgs false
set_option linter.unusedVariables false

namespace Magpie.Sector
open Magpie.Spec Real MeasureTheory Set

variable {c : ℝ × ℝ} {r0 r1 p0 p1 p2 p3 : ℝ}

theorem eq_image (c : ℝ × ℝ) (r0 r1 p0 p1 : ℝ) : Sector c r0 r1 p0 p1 = pol c '' (Icc r0 r1 ×ˢ Icc p0 p1) := by
  ext x
  constructor
  · rintro ⟨r, phi, hr, hp, rfl⟩
    exact ⟨(r, phi), ⟨hr, hp⟩, rfl⟩
  · rintro ⟨⟨r, phi⟩, ⟨hr, hp⟩, rfl⟩
    exact ⟨r, phi, hr, hp, rfl⟩

theorem measurableSet (c : ℝ × ℝ) (r0 r1 p0 p1 : ℝ) : MeasurableSet (Sector c r0 r1 p0 p1) := by
  rw [eq_image]
  refine ((isCompact_Icc.prod isCompact_Icc).image ?_).measurableSet
  unfold pol
  fun_prop

/-- Sectors one after the other have no area in common. -/
theorem aedisjoint (h0 : 0 ≤ r0) (h12 : p1 ≤ p2) (hw : p3 ≤ p0 + 2*π) :
    AEDisjoint volume (Sector c r0 r1 p0 p1) (Sector c r0 r1 p2 p3) := by
  have z : ∀ a : ℝ, volume (({a} : Set ℝ) ×ˢ (univ : Set ℝ)) = 0 := fun a => by
    rw [Measure.volume_eq_prod, Measure.prod_prod]; simp
  have z' : ∀ a : ℝ, volume ((univ : Set ℝ) ×ˢ ({a} : Set ℝ)) = 0 := fun a => by
    rw [Measure.volume_eq_prod, Measure.prod_prod]; simp
  have hs0 : volume (({0} ×ˢ univ) ∪ ((univ ×ˢ {p0}) ∪ (univ ×ˢ {p1})) : Set (ℝ × ℝ)) = 0 := by
    rw [measure_union_null_iff, measure_union_null_iff]
    exact ⟨z _, z' _, z' _⟩
  refine measure_mono_null ?_ (polar_null c _ hs0)
  rintro x ⟨⟨r, a, hr, ha, rfl⟩, ⟨s, b, hs, hb, e⟩⟩
  refine ⟨(r, a), ?_, rfl⟩
  by_contra hcon
  simp only [mem_union, mem_prod, mem_singleton_iff, mem_univ, and_true, true_and, not_or] at hcon
  obtain ⟨n1, n2, n3⟩ := hcon
  have r_pos : 0 < r := lt_of_le_of_ne (h0.trans hr.1) (Ne.symm n1)
  have a1 : p0 < a := lt_of_le_of_ne ha.1 (Ne.symm n2)
  have a2 : a < p1 := lt_of_le_of_ne ha.2 n3
  have s_pos : 0 < s := by
    refine lt_of_le_of_ne (h0.trans hs.1) ?_
    rintro rfl
    simp only [zero_mul, add_zero, Prod.mk.injEq, add_eq_left] at e
    rcases mul_eq_zero.mp e.1 with h | h
    · exact n1 h
    · rcases mul_eq_zero.mp e.2 with h' | h'
      · exact n1 h'
      · have := sin_sq_add_cos_sq a
        rw [h, h'] at this
        norm_num at this
  obtain ⟨-, hab⟩ := pol_inj (c := c) r_pos s_pos (a := a) (b := b) (by
    rw [abs_lt]; constructor <;> linarith [hb.1, hb.2]) e
  linarith [hb.1]

end Magpie.Sector

namespace Magpie.Mc
open Magpie.Box2Ring Magpie.Spec Magpie.Radial MeasureTheory Set

theorem Grid.measurableSet_pixel (G : Grid) (i j : ℕ) : MeasurableSet (G.pixel i j) := Sector.measurableSet _ _ _ _ _

theorem Grid.pEdge_zero (G : Grid) : G.pEdge 0 = G.args.pmin := edgeAt_zero _ _ _

theorem Grid.pEdge_last {G : Grid} (h : G.Ok) : G.pEdge G.nump = G.args.pmax := by
  refine edgeAt_last _ _ _ ?_
  have := h.polar.nump
  unfold Grid.nump
  omega

theorem Grid.pEdge_mono {G : Grid} (h : G.Ok) {i k : ℕ} (hik : i ≤ k) : G.pEdge i ≤ G.pEdge k :=
  edgeAt_mono h.polar.p.le G.nump hik

/-- A ring is the union of its pixels. -/
theorem Grid.ring_eq {G : Grid} (h : G.Ok) (j : ℕ) : G.ring j = ⋃ i ∈ Finset.range G.nump, G.pixel i j := by
  ext x
  simp only [mem_iUnion, Finset.mem_range]
  constructor
  · rintro ⟨r, phi, hr, hp, rfl⟩
    have hex : ∃ n, n < G.nump ∧ phi ≤ G.pEdge (n+1) + G.args.phiShift := by
      have hn : 0 < G.nump := by have := h.polar.nump; unfold Grid.nump; omega
      refine ⟨G.nump - 1, by omega, ?_⟩
      rw [Nat.sub_add_cancel hn, Grid.pEdge_last h]
      exact hp.2
    classical
    obtain ⟨k1, k2⟩ := Nat.find_spec hex
    refine ⟨Nat.find hex, k1, r, phi, hr, ⟨?_, k2⟩, rfl⟩
    rcases Nat.eq_zero_or_pos (Nat.find hex) with h0 | h0
    · rw [h0, Grid.pEdge_zero]; exact hp.1
    · have := Nat.find_min hex (show Nat.find hex - 1 < Nat.find hex by omega)
      push Not at this
      have := this (by omega)
      rw [Nat.sub_add_cancel h0] at this
      exact this.le
  · rintro ⟨i, hi, r, phi, hr, hp, rfl⟩
    refine ⟨r, phi, hr, ⟨?_, ?_⟩, rfl⟩
    · have := Grid.pEdge_mono h (Nat.zero_le i)
      rw [Grid.pEdge_zero] at this
      linarith [hp.1]
    · have := Grid.pEdge_mono h (show i + 1 ≤ G.nump from hi)
      rw [Grid.pEdge_last h] at this
      linarith [hp.2]

theorem Grid.pixel_disjoint {G : Grid} (h : G.Ok) (j : ℕ) (hj : j < G.numr) {i k : ℕ} (hi : i < G.nump) (hk : k < G.nump)
    (hik : i ≠ k) : AEDisjoint volume (G.pixel i j) (G.pixel k j) := by
  have key : ∀ {i k : ℕ}, i < k → k < G.nump → AEDisjoint volume (G.pixel i j) (G.pixel k j) := by
    intro i k hik hk
    refine Sector.aedisjoint (Grid.rEdge_nonneg h j) ?_ ?_
    · linarith [Grid.pEdge_mono h (show i + 1 ≤ k from hik)]
    · have h1 := Grid.pEdge_mono h (show k + 1 ≤ G.nump from hk)
      have h2 := Grid.pEdge_mono h (Nat.zero_le i)
      rw [Grid.pEdge_last h] at h1
      rw [Grid.pEdge_zero] at h2
      linarith [h.polar.pmin, h.polar.pmax2]
  rcases Nat.lt_or_gt_of_ne hik with h1 | h1
  · exact key h1 hk
  · exact (key h1 hi).symm

/-- The area of a part of a ring. -/
theorem Grid.volume_ring {G : Grid} (h : G.Ok) {j : ℕ} (hj : j < G.numr) {S : Set (ℝ × ℝ)} (hS : MeasurableSet S) :
    (volume (G.ring j ∩ S)).toReal = ∑ i ∈ Finset.range G.nump, (volume (G.pixel i j ∩ S)).toReal := by
  rw [Grid.ring_eq h, iUnion₂_inter, measure_biUnion_finset₀, ENNReal.toReal_sum]
  · intro i hi
    exact measure_ne_top_of_subset inter_subset_left (by
      rw [(Grid.point_law h (Finset.mem_range.mp hi) hj).2]; exact ENNReal.ofReal_ne_top)
  · intro i hi k hk hik
    have hi' := Finset.mem_range.mp (Finset.mem_coe.mp hi)
    have hk' := Finset.mem_range.mp (Finset.mem_coe.mp hk)
    exact (Grid.pixel_disjoint h j hj hi' hk' hik).mono inter_subset_left inter_subset_left
  · intro i hi
    exact ((G.measurableSet_pixel i j).inter hS).nullMeasurableSet

/-- The pixels of a ring have equal areas. -/
theorem Grid.volume_pixel_eq {G : Grid} (h : G.Ok) {i k j : ℕ} (hi : i < G.nump) (hk : k < G.nump) (hj : j < G.numr) :
    (volume (G.pixel i j)).toReal = (volume (G.pixel k j)).toReal := by
  rw [(Grid.point_law h hi hj).2, (Grid.point_law h hk hj).2, sectorArea_eq, sectorArea_eq]
  congr 2
  unfold Grid.pEdge edgeAt
  push_cast
  ring

/-- The mean over a ring is the mean of the means over its pixels. -/
theorem ringMean_eq {B : BoxArgs} {G : Grid} (h : G.Ok) {j : ℕ} (hj : j < G.numr) (v : ℕ → ℕ → ℝ) :
    ringMean B G v j = (∑ i ∈ Finset.range G.nump, areaSum B G v i j/(volume (G.pixel i j)).toReal)/G.nump := by
  have hn : 0 < G.nump := by have := h.polar.nump; unfold Grid.nump; omega
  have e1 : (volume (G.ring j)).toReal = G.nump*(volume (G.pixel 0 j)).toReal := by
    have := Grid.volume_ring h hj (MeasurableSet.univ (α := ℝ × ℝ))
    simp only [inter_univ] at this
    rw [this, Finset.sum_congr rfl fun i hi => Grid.volume_pixel_eq h (Finset.mem_range.mp hi) hn hj]
    simp
  have e2 : (∑ i ∈ Finset.range G.nump, areaSum B G v i j/(volume (G.pixel i j)).toReal)
      = (∑ i ∈ Finset.range G.nump, areaSum B G v i j)/(volume (G.pixel 0 j)).toReal := by
    rw [Finset.sum_div]
    exact Finset.sum_congr rfl fun i hi => by rw [Grid.volume_pixel_eq h (Finset.mem_range.mp hi) hn hj]
  have e3 : (∑ a ∈ Finset.range B.numx.toNat, ∑ b ∈ Finset.range B.numy.toNat,
      v b a*(volume (G.ring j ∩ {pt | InPixel B pt a b})).toReal) = ∑ i ∈ Finset.range G.nump, areaSum B G v i j := by
    unfold areaSum commonArea
    symm
    rw [Finset.sum_comm]
    refine Finset.sum_congr rfl fun a _ => ?_
    rw [Finset.sum_comm]
    refine Finset.sum_congr rfl fun b _ => ?_
    rw [Grid.volume_ring h hj (measurableSet_inPixel B a b), Finset.mul_sum]
  unfold ringMean
  rw [e1, e2, e3, div_div, mul_comm]

/-- The parts of a set inside the box. -/
theorem volume_box {B : BoxArgs} (hB : BoxOk B) {S : Set (ℝ × ℝ)} (hS : MeasurableSet S) (ht : volume S ≠ ⊤)
    (hin : ∀ pt ∈ S, ∃ a b, InPixel B pt a b) :
    (volume S).toReal = ∑ a ∈ Finset.range B.numx.toNat, ∑ b ∈ Finset.range B.numy.toNat,
      (volume (S ∩ {pt | InPixel B pt a b})).toReal := by
  have e : S = ⋃ c ∈ Finset.range B.numx.toNat ×ˢ Finset.range B.numy.toNat, S ∩ {pt | InPixel B pt c.1 c.2} := by
    ext pt
    simp only [mem_iUnion, mem_inter_iff, mem_setOf_eq, exists_prop]
    constructor
    · intro h
      obtain ⟨a, b, hab⟩ := hin pt h
      obtain ⟨ha, hb⟩ := inPixel_range hab
      exact ⟨(a, b), Finset.mem_product.mpr ⟨Finset.mem_range.mpr ha, Finset.mem_range.mpr hb⟩, h, hab⟩
    · rintro ⟨c, -, h, -⟩
      exact h
  have h1 : volume S = ∑ c ∈ Finset.range B.numx.toNat ×ˢ Finset.range B.numy.toNat,
      volume (S ∩ {pt | InPixel B pt c.1 c.2}) := by
    conv_lhs => rw [e]
    refine measure_biUnion_finset ?_ fun c _ => hS.inter (measurableSet_inPixel B c.1 c.2)
    intro c _ d _ hcd
    rw [Function.onFun, Set.disjoint_left]
    rintro pt ⟨-, h1⟩ ⟨-, h2⟩
    exact hcd (Prod.ext (inBin_unique hB.hx h1.1 h2.1) (inBin_unique hB.hy h1.2 h2.2))
  rw [h1, ENNReal.toReal_sum, Finset.sum_product]
  intro c _
  exact measure_ne_top_of_subset inter_subset_left ht

theorem volume_ring_box {B : BoxArgs} {G : Grid} (hB : BoxOk B) (hG : G.Ok) {j : ℕ} (hj : j < G.numr)
    (hin : ∀ pt ∈ G.ring j, ∃ a b, InPixel B pt a b) :
    (volume (G.ring j)).toReal = ∑ a ∈ Finset.range B.numx.toNat, ∑ b ∈ Finset.range B.numy.toNat,
      (volume (G.ring j ∩ {pt | InPixel B pt a b})).toReal := by
  refine volume_box hB (Sector.measurableSet _ _ _ _ _) ?_ hin
  refine ne_top_of_le_ne_top ?_ (show volume (G.ring j) ≤ ∑ i ∈ Finset.range G.nump, volume (G.pixel i j) by
    rw [Grid.ring_eq hG]; exact measure_biUnion_finset_le _ _)
  rw [Ne, ENNReal.sum_eq_top]
  rintro ⟨i, hi, h⟩
  exact (volume_pixel hG (Finset.mem_range.mp hi) hj).2 h

/-- The object after a successful remapping. -/
theorem mcRemap_split {B : BoxArgs} {G : Grid} (hB : BoxOk B) (hG : G.Ok) {n : ℕ} (hn : 1 < n)
    (draws : ℕ → ℕ → List ℝ × List ℝ) (hd : ∀ i j, i < G.nump → j < G.numr → Draws n (draws i j))
    (f : Arr2 (Option ℝ)) (w : Option (Arr2 ℝ)) (hf : f.rows = B.numy.toNat ∧ f.cols = B.numx.toNat)
    (hw : ∀ t, w = some t → t.rows = B.numy.toNat ∧ t.cols = B.numx.toNat) {s s1 : State} {fp : Arr2 (Option ℝ)}
    (h : mcRemap B G n draws f w s = (.ok fp, s1)) :
    s1.box = some B.box ∧ s1.polar = some (mkPolar G.edges G.args) ∧ s1.maskInBound = s.maskInBound ∧
    fp.rows = G.nump ∧ fp.cols = G.numr ∧
    ∀ f2 w2, mcRemap B G n draws f2 w2 s = remap f2 w2 s1 := by
  obtain ⟨s2, e2, k1, k2, k3⟩ := Grid.setup_run hG { s with box := some B.box }
  have k4 : s2.maskInBound = s.maskInBound := by
    have h2 : (G.setup { s with box := some B.box }).2 = s2 := by rw [e2]
    cases G with
    | lin A => rw [← h2]; exact (cls_good.setup (.lin A) _).2.2
    | log A z => rw [← h2]; exact (cls_good.setup (.log A z) _).2.2
  obtain ⟨hits, hh, e3⟩ := getWeights_run hB hG hn draws hd s2 k1 k2 k3
  have all : ∀ f2 w2, mcRemap B G n draws f2 w2 s = match getWeights n draws s2 with
      | (.ok _, s3) => remap f2 w2 s3
      | (.error e, s3) => (.error e, s3) := by
    intro f2 w2
    unfold mcRemap
    simp only [Meth.bind_apply]
    rw [setupBox_ok hB.numx hB.numy]
    simp only
    rw [e2]
    simp only
    cases getWeights n draws s2 with
    | mk r s3 => cases r <;> rfl
  have h' := h
  rw [all, e3] at h'
  cases hp : pack (lens B G draws) with
  | error e => rw [hp] at h'; simp at h'
  | ok o =>
    rw [hp] at h' e3
    simp only at h' e3
    have hrun := remap_run (G := G) (B := B) { s2 with extra := some ⟨⟨hits, o⟩, G.nump, G.numr⟩ } ⟨hits, o⟩ k2 k3 rfl f w hf hw
    rw [hrun] at h'
    simp only [Prod.mk.injEq] at h'
    obtain ⟨h1, rfl⟩ := h'
    obtain ⟨t1, t2, -⟩ := tabulate_inv h1
    refine ⟨k3, k2, k4, t1, t2, fun f2 w2 => ?_⟩
    rw [all, e3]

/-- The mean over a pixel inside the box. -/
theorem areaMean_inside {B : BoxArgs} {G : Grid} (hB : BoxOk B) (hG : G.Ok) {i j : ℕ} (hi : i < G.nump) (hj : j < G.numr)
    (hin : ∀ pt ∈ G.pixel i j, ∃ a b, InPixel B pt a b) (v : ℕ → ℕ → ℝ) :
    areaMean B G none v i j = areaSum B G v i j/(volume (G.pixel i j)).toReal := by
  unfold areaMean
  simp only [wOf, one_mul]
  rw [volume_box hB (G.measurableSet_pixel i j) (volume_pixel hG hi hj).2 hin]
  congr 1
  unfold areaSum wOf commonArea
  simp only [one_mul]

end Magpie.Mc
