import Verif.Proof.DgRate
import Verif.Props.DgLimit

/-!
# Property C123: the error of dense grid remapping at every refinement
-/

set_option linter.unusedSimpArgs false
set_option linter.unusedVariables false

namespace Magpie.Props
open Magpie Magpie.Box2Ring Magpie.Spec Magpie.Radial Magpie.Dg MeasureTheory Filter Topology
open Magpie.Mc (Grid wOf areaMean commonArea InPixel)

/-- At most all the lines of the box grid cross a polar pixel. -/
theorem C123_lines (B : BoxArgs) (A : PolarArgs) (i j : ℕ) :
    lines B A i j ≤ (B.numx.toNat + 1) + (B.numy.toNat + 1) := by
  have key : ∀ (n : ℕ) (P : ℕ → Prop), {a : ℕ | a ≤ n ∧ P a}.ncard ≤ n + 1 := by
    intro n P
    have := Set.ncard_le_ncard (s := {a : ℕ | a ≤ n ∧ P a}) (t := ↑(Finset.range (n+1)))
      (fun a ha => by simpa [Nat.lt_succ_iff] using ha.1)
    rwa [Set.ncard_coe_finset, Finset.card_range] at this
  exact Nat.add_le_add (key _ _) (key _ _)

private theorem zero_le_bound {B : BoxArgs} (hB : BoxOk B) {v : ℕ → ℕ → ℝ} {V : ℝ}
    (hV : ∀ a < B.numx.toNat, ∀ b < B.numy.toNat, |v b a| ≤ V) : 0 ≤ V := by
  have h1 := hB.numx
  have h2 := hB.numy
  exact (abs_nonneg _).trans (hV 0 (by omega) 0 (by omega))

private theorem denseArea_nonneg {A : PolarArgs} (hG : (Grid.lin A).Ok) {i j m k l : ℕ} (hi : i < A.nump.toNat)
    (hj : j < A.numr.toNat) (hl : l < m) : 0 ≤ denseArea A m m (i*m + k) (j*m + l) := by
  have h0 := Grid.rEdge_nonneg hG j
  have h1 := Grid.rEdge_strict hG (j := j) hj
  rw [denseArea_share hG.1 (by omega)]
  exact mul_nonneg (Mc.sector_pos h0 h1 (Grid.pEdge_bounds hG (i := i) hi).1).le (Riemann.share_le h0 h1 hl).1

section
variable (B : BoxArgs) (A : PolarArgs) (m : ℕ) (hB : BoxOk B) (hA : PolarOk A) (hr : 2 ≤ A.numr) (hp : 2 ≤ A.nump)
  (hm : 1 ≤ m) (f : Arr2 (Option ℝ)) (v : ℕ → ℕ → ℝ) (hfr : f.rows = B.numy.toNat) (hfc : f.cols = B.numx.toNat)
  (hv : ∀ i j, i < f.rows → j < f.cols → f.val i j = some (v i j))
  (V : ℝ) (hV : ∀ a < B.numx.toNat, ∀ b < B.numy.toNat, |v b a| ≤ V)
include hB hA hr hp hm hfr hfc hv hV

/-- C123: without weights the value of every polar pixel is at most `24*V*L/m` from the integral of the map over the
polar pixel divided by its area, for every refinement `m ≥ 1`, where the values of the map are between `-V` and `V` and
`L` lines of the box grid cross the polar pixel. -/
theorem C123_rate (s : Dg.State) : ∃ out s',
    (do setupBox B; setupPolar A m m; remap f none : Meth Dg.State _) s = (.ok out, s') ∧
    out.rows = A.nump.toNat ∧ out.cols = A.numr.toNat ∧
    ∀ i < A.nump.toNat, ∀ j < A.numr.toNat, ∃ x, out.val i j = some x ∧
      |x - Mc.areaSum B (.lin A) v i j/(volume ((Grid.lin A).pixel i j)).toReal| ≤ 24*V*lines B A i j/m := by
  have hV0 := zero_le_bound hB hV
  choose g hg using fun n q => exists_reads B hB v (densePoint A m m n q)
  have hG : (Grid.lin A).Ok := ⟨hA, hr, hp⟩
  obtain ⟨out, s', h1, h2, h3, h4⟩ := C73_remap_partial B A m hB hA hr hp hm f v hfr hfc hv g
    (fun n q _ _ => hg n q) s
  refine ⟨out, s', h1, h2, h3, fun i hi j hj => ⟨_, h4 i j hi hj, ?_⟩⟩
  have hS := Mc.sector_pos (Grid.rEdge_nonneg hG j) (Grid.rEdge_strict hG (j := j) hj)
    (Grid.pEdge_bounds hG (i := i) hi).1
  have hvol : (volume ((Grid.lin A).pixel i j)).toReal = sectorArea ((Grid.lin A).rEdge j) ((Grid.lin A).rEdge (j+1))
      ((Grid.lin A).pEdge i) ((Grid.lin A).pEdge (i+1)) := by
    rw [(Grid.point_law hG (i := i) (j := j) hi hj).2, ENNReal.toReal_ofReal hS.le]
  have herr := areaSum_error hB hG hi hj hV0 hV (m := m) (by omega) g fun n q _ _ => hg n q
  have hS' : 0 < (volume ((Grid.lin A).pixel i j)).toReal := by rw [hvol]; exact hS
  rw [areaSum_one hG hj (by omega), ← hvol, ← sub_div, abs_div, abs_of_pos hS', div_le_iff₀ hS']
  rw [mul_comm] at herr
  exact herr

/-- C123, a polar pixel that no line of the box grid crosses is remapped without error, by every refinement. -/
theorem C123_exact (s : Dg.State) : ∃ out s',
    (do setupBox B; setupPolar A m m; remap f none : Meth Dg.State _) s = (.ok out, s') ∧
    ∀ i < A.nump.toNat, ∀ j < A.numr.toNat, lines B A i j = 0 →
      out.val i j = some (Mc.areaSum B (.lin A) v i j/(volume ((Grid.lin A).pixel i j)).toReal) := by
  obtain ⟨out, s', h1, -, -, h4⟩ := C123_rate B A m hB hA hr hp hm f v hfr hfc hv V hV s
  refine ⟨out, s', h1, fun i hi j hj h0 => ?_⟩
  obtain ⟨x, hx, hx'⟩ := h4 i hi j hj
  rw [h0, Nat.cast_zero, mul_zero, zero_div] at hx'
  rw [hx, sub_eq_zero.mp (abs_nonpos_iff.mp hx')]

/-- C123 with weights between 0 and `W`, on a polar pixel with mean weight `μ`: once `24*W*L/m < μ` the value is a
number at most `48*V*W*L/(m*μ)` from the weighted mean. -/
theorem C123_weighted (w : Arr2 ℝ) (hwr : w.rows = B.numy.toNat) (hwc : w.cols = B.numx.toNat) (W : ℝ)
    (hW : ∀ a < B.numx.toNat, ∀ b < B.numy.toNat, 0 ≤ w.val b a ∧ w.val b a ≤ W) (s : Dg.State) : ∃ out s',
    (do setupBox B; setupPolar A m m; remap f (some w) : Meth Dg.State _) s = (.ok out, s') ∧
    out.rows = A.nump.toNat ∧ out.cols = A.numr.toNat ∧
    ∀ i < A.nump.toNat, ∀ j < A.numr.toNat, ∀ μ : ℝ,
      μ = Mc.areaSum B (.lin A) w.val i j/(volume ((Grid.lin A).pixel i j)).toReal → 24*W*lines B A i j/m < μ →
      ∃ x, out.val i j = some x ∧
        |x - areaMean B (.lin A) (some w) v i j| ≤ 48*V*W*lines B A i j/(m*μ) := by
  have hV0 := zero_le_bound hB hV
  have hW' : ∀ a < B.numx.toNat, ∀ b < B.numy.toNat, |w.val b a| ≤ W := by
    intro a ha b hb
    rw [abs_of_nonneg (hW a ha b hb).1]
    exact (hW a ha b hb).2
  have hW0 := zero_le_bound hB hW'
  choose g hg using fun n q => exists_reads B hB v (densePoint A m m n q)
  choose gw hgw using fun n q => exists_reads B hB w.val (densePoint A m m n q)
  have hgp : ∀ n q, Reads B (fun b a => w.val b a*v b a) (densePoint A m m n q) (gw n q*g n q) := by
    intro n q
    obtain ⟨b1, b2⟩ := hg n q
    obtain ⟨c1, c2⟩ := hgw n q
    refine ⟨fun a b ha hb => ?_, fun hno => ?_⟩
    · rw [b1 a b ha hb, c1 a b ha hb]
    · rw [b2 hno, mul_zero]
  have hG : (Grid.lin A).Ok := ⟨hA, hr, hp⟩
  have hm' : (0:ℝ) < m := by exact_mod_cast hm
  obtain ⟨out, s', h1, h2, h3, h4⟩ := C73_weighted_partial B A m hB hA hr hp hm f w v hfr hfc
    hwr hwc hv g gw (fun n q _ _ => hg n q) (fun n q _ _ => hgw n q) s
  refine ⟨out, s', h1, h2, h3, fun i hi j hj μ hμ hlt => ?_⟩
  have hS := Mc.sector_pos (Grid.rEdge_nonneg hG j) (Grid.rEdge_strict hG (j := j) hj)
    (Grid.pEdge_bounds hG (i := i) hi).1
  have hS' : 0 < (volume ((Grid.lin A).pixel i j)).toReal := by
    rw [(Grid.point_law hG (i := i) (j := j) hi hj).2, ENNReal.toReal_ofReal hS.le]
    exact hS
  have eD := areaSum_error hB hG hi hj hW0 hW' (m := m) (by omega) gw fun n q _ _ => hgw n q
  have eN := areaSum_error hB hG hi hj (v := fun b a => w.val b a*v b a) (C := V*W) (by positivity) (by
    intro a ha b hb
    rw [abs_mul, mul_comm V]
    exact mul_le_mul (hW' a ha b hb) (hV a ha b hb) (abs_nonneg _) hW0) (m := m) (by omega)
    (fun n q => gw n q*g n q) fun n q _ _ => hgp n q
  have hgw0 : ∀ n q, 0 ≤ gw n q := by
    intro n q
    obtain ⟨c1, c2⟩ := hgw n q
    by_cases hin : ∃ a b, InCell B.xmin B.xmax B.numx.toNat a (densePoint A m m n q).1 ∧
        InCell B.ymin B.ymax B.numy.toNat b (densePoint A m m n q).2
    · obtain ⟨a, b, ha, hb⟩ := hin
      rw [c1 a b ha hb]
      exact (hW a ha.1 b hb.1).1
    · rw [c2 hin]
  have hND : |areaSum A m (fun n q => gw n q*g n q) i j| ≤ V*areaSum A m gw i j := by
    unfold areaSum
    rw [Finset.mul_sum]
    refine (Finset.abs_sum_le_sum_abs _ _).trans (Finset.sum_le_sum fun k _ => ?_)
    rw [Finset.mul_sum]
    refine (Finset.abs_sum_le_sum_abs _ _).trans (Finset.sum_le_sum fun l hl => ?_)
    have hd := denseArea_nonneg hG (k := k) hi hj (Finset.mem_range.mp hl)
    rw [abs_mul, abs_mul, abs_of_nonneg hd, abs_of_nonneg (hgw0 _ _), mul_left_comm V, mul_comm V]
    have := reads_le hV0 hV (hg (i*m + k) (j*m + l))
    exact mul_le_mul_of_nonneg_left (mul_le_mul_of_nonneg_left this (hgw0 _ _)) hd
  have ha : areaMean B (.lin A) (some w) v i j
      = Mc.areaSum B (.lin A) (fun b a => w.val b a*v b a) i j/Mc.areaSum B (.lin A) w.val i j := rfl
  rw [ha]
  replace h4 := (h4 i j hi hj).1
  generalize areaSum A m gw i j = D at *
  generalize areaSum A m (fun n q => gw n q*g n q) i j = N at *
  generalize Mc.areaSum B (.lin A) (fun b a => w.val b a*v b a) i j = N0 at *
  generalize Mc.areaSum B (.lin A) w.val i j = D0 at *
  generalize (volume ((Grid.lin A).pixel i j)).toReal = S at *
  have hL0 : (0:ℝ) ≤ 24*W*lines B A i j/m := by positivity
  have hμ0 : 0 < μ := lt_of_le_of_lt hL0 hlt
  have hD0 : D0 = S*μ := by rw [hμ]; field_simp
  have hD : 0 < D := by
    have := (abs_le.mp eD).1
    have := mul_lt_mul_of_pos_left hlt hS'
    linarith
  refine ⟨_, h4 hD.ne', ?_⟩
  have hD0' : 0 < D0 := by rw [hD0]; positivity
  have hq : |N/D| ≤ V := by rw [abs_div, abs_of_pos hD, div_le_iff₀ hD]; exact hND
  have e : N/D - N0/D0 = ((N - N0) + N/D*(D0 - D))/D0 := by field_simp; ring
  rw [e, abs_div, abs_of_pos hD0', div_le_iff₀ hD0', hD0]
  have e2 : 48*V*W*lines B A i j/(m*μ)*(S*μ) = S*(24*(V*W)*lines B A i j/m) + V*(S*(24*W*lines B A i j/m)) := by
    field_simp; ring
  rw [e2, ← hD0]
  refine (abs_add_le _ _).trans (add_le_add eN ?_)
  rw [abs_mul, abs_sub_comm]
  exact mul_le_mul hq eD (abs_nonneg _) hV0

end

/-- The hypotheses are met, and the bounds are not all zero: a line of a box of one pixel crosses the first polar pixel
of a grid of two rings and two sectors, and with weight 3 the bound on the weights holds for a fine enough grid. -/
example : BoxOk exBoxIn ∧ PolarOk exHalf ∧ 2 ≤ exHalf.numr ∧ 2 ≤ exHalf.nump ∧ 0 < lines exBoxIn exHalf 0 0 ∧
    ∃ m : ℕ, 1 ≤ m ∧ 24*3*(lines exBoxIn exHalf 0 0:ℝ)/m
      < Mc.areaSum exBoxIn (.lin exHalf) (fun _ _ => 3) 0 0/(volume ((Grid.lin exHalf).pixel 0 0)).toReal := by
  refine ⟨exBoxIn_ok, exHalf_ok.1, exHalf_ok.2.1, exHalf_ok.2.2, ?_, ?_⟩
  · refine Nat.add_pos_left ?_ _
    rw [Set.ncard_pos ((Set.finite_Iic 1).subset fun a ha => by simpa [exBoxIn] using ha.1)]
    refine ⟨1, by simp [exBoxIn], (1/4, 0), ⟨1/4, 0, ?_, ?_, ?_⟩, ?_⟩
    · rw [(exHalf_edges 0 _).1, (exHalf_edges 0 _).1]; norm_num
    · rw [(exHalf_edges _ 0).2, (exHalf_edges _ 0).2]
      simp [Grid.args, exHalf, Real.pi_pos.le]
    · simp [Grid.args, exHalf]
    · simp [exBoxIn, edgeAt]
  · have hi : 0 < (Grid.lin exHalf).nump := by simp [Grid.nump, Grid.args, exHalf]
    have hj : 0 < (Grid.lin exHalf).numr := by rw [exHalf_numr]; norm_num
    have h1 := exBoxIn_inner 0 hi
    have hS := Mc.sector_pos (Grid.rEdge_nonneg exHalf_ok 0) (Grid.rEdge_strict exHalf_ok (j := 0) hj)
      (Grid.pEdge_bounds exHalf_ok (i := 0) hi).1
    have hS' : 0 < (volume ((Grid.lin exHalf).pixel 0 0)).toReal := by
      rw [(Grid.point_law exHalf_ok (i := 0) (j := 0) hi hj).2, ENNReal.toReal_ofReal hS.le]
      exact hS
    have hμ : 0 < Mc.areaSum exBoxIn (.lin exHalf) (fun _ _ => 3) 0 0/(volume ((Grid.lin exHalf).pixel 0 0)).toReal := by
      refine div_pos ?_ hS'
      unfold Mc.areaSum
      simp only [exBoxIn, Int.toNat_one, Finset.range_one, Finset.sum_singleton] at h1 ⊢
      positivity
    have t := tendsto_const_div_atTop_nhds_zero_nat (24*3*(lines exBoxIn exHalf 0 0:ℝ))
    obtain ⟨m, hm1, hm2⟩ := ((t.eventually (gt_mem_nhds hμ)).and (eventually_ge_atTop 1)).exists
    exact ⟨m, hm2, hm1⟩

/-- A polar pixel in the middle of a box pixel: no line crosses it. -/
example : lines ⟨-2, 2, 1, -2, 2, 1⟩ exHalf 0 0 = 0 := by
  have key : ∀ r t : ℝ, 0 ≤ r → r ≤ 1/2 → |r*Real.cos t| ≤ 1/2 ∧ |r*Real.sin t| ≤ 1/2 := by
    intro r t h1 h2
    rw [abs_mul, abs_mul, abs_of_nonneg h1]
    constructor
    · nlinarith [Real.abs_cos_le_one t, abs_nonneg (Real.cos t)]
    · nlinarith [Real.abs_sin_le_one t, abs_nonneg (Real.sin t)]
  unfold lines
  rw [Nat.add_eq_zero_iff]
  constructor <;>
  · refine (Set.ncard_eq_zero ((Set.finite_Iic 1).subset fun a ha => by simpa using ha.1)).mpr ?_
    rw [Set.eq_empty_iff_forall_notMem]
    rintro a ⟨ha, pt, ⟨r, t, hr, -, rfl⟩, he⟩
    rw [(exHalf_edges 0 _).1, (exHalf_edges 0 _).1] at hr
    norm_num at hr
    have := key r t hr.1 hr.2
    rw [abs_le, abs_le] at this
    simp [Grid.args, exHalf, edgeAt] at he ha
    interval_cases a
    · norm_num at he; linarith [this.1.1, this.2.1]
    · norm_num at he; linarith [this.1.2, this.2.2]

end Magpie.Props
