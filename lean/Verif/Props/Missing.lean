import Verif.Proof.Missing
import Verif.Props.DgBox2Ring
import Verif.Props.McReads

/-!
# Property C136: a missing value in the data spoils the pixels that sample it, and no others

The definitions are in `Verif/Spec/Missing.lean`; `densePoint`, `areaSum` and `Reads` in `Verif/Spec/Box2Ring.lean`,
`points`, `mean` and `wmean` in `Verif/Spec/McBox2Ring.lean`.
-/

set_option linter.unusedSimpArgs false
set_option linter.unusedVariables false
set_option linter.unusedSectionVars false

namespace Magpie.Props
open Magpie Magpie.Radial Magpie.OneD Magpie.Spec Magpie.Box2Ring Magpie.Missing

section
open Magpie.Dg
variable (B : BoxArgs) (A : PolarArgs) (m : ℕ) (hB : BoxOk B) (hA : PolarOk A) (hr : 2 ≤ A.numr) (hp : 2 ≤ A.nump)
  (hm : 1 ≤ m)
include hB hA hr hp hm

/-- C136, dense grid: with any missing values in the data `remap` returns, on an object with any history. A pixel of
the map is missing if and only if one of its sample points is in a cell with a missing value; otherwise it is the
area-weighted mean of the values at its sample points. -/
theorem C136_dense (f : Arr2 (Option ℝ)) (hfr : f.rows = B.numy.toNat) (hfc : f.cols = B.numx.toNat) (s : Dg.State) :
    ∃ out s', (do setupBox B; setupPolar A m m; remap f none : Meth Dg.State _) s = (.ok out, s') ∧
      out.rows = A.nump.toNat ∧ out.cols = A.numr.toNat ∧
      ∀ i j, i < A.nump.toNat → j < A.numr.toNat →
        (out.val i j = none ↔ ∃ k l, k < m ∧ l < m ∧ InHole B f (densePoint A m m (i*m + k) (j*m + l))) ∧
        ∀ g : ℕ → ℕ → ℝ, (∀ k l, k < m → l < m →
            Reads B (filled f) (densePoint A m m (i*m + k) (j*m + l)) (g (i*m + k) (j*m + l))) →
          out.val i j ≠ none → out.val i j = some (areaSum A m g i j/areaSum A m (fun _ _ => 1) i j) := by
  obtain ⟨s', e, hs, -⟩ := setup_run hB.numx hB.numy hA hr hp m m s
  obtain ⟨out, h1, h2, h3, h4⟩ := remap1_opt hB hA hm hs f hfr hfc
  refine ⟨out, s', ?_, h2, h3, fun i j hi hj => ?_⟩
  · simp only [Meth.bind_apply] at e ⊢
    rw [setupBox_ok hB.numx hB.numy] at e ⊢
    simp only at e ⊢
    rw [e]
    exact h1
  · obtain ⟨a1, a2⟩ := h4 i j hi hj
    have key : ∀ g : ℕ → ℕ → ℝ, (∀ k l, k < m → l < m →
        Reads B (filled f) (densePoint A m m (i*m + k) (j*m + l)) (g (i*m + k) (j*m + l))) →
        (¬ ∃ k l, k < m ∧ l < m ∧ InHole B f (densePoint A m m (i*m + k) (j*m + l))) →
        out.val i j = some (areaSum A m g i j/areaSum A m (fun _ _ => 1) i j) :=
      fun g hg hno => a2 (fun k l hk hl hh => hno ⟨k, l, hk, hl, hh⟩) g hg
    refine ⟨⟨fun hn => ?_, a1⟩, fun g hg hne => key g hg fun hh => hne (a1 hh)⟩
    by_contra hno
    choose g hg using fun n q => exists_reads B hB (filled f) (densePoint A m m n q)
    rw [key g (fun k l _ _ => hg _ _) hno] at hn
    simp at hn

/-- C136, dense grid with weights: a sample point in a cell with a missing value makes the pixel missing, whatever the
weight of the cell, zero included; otherwise the value is the mean weighted by area times weight (missing if the sum of
the weights is zero). -/
theorem C136_dense_weighted (f : Arr2 (Option ℝ)) (w : Arr2 ℝ) (hfr : f.rows = B.numy.toNat)
    (hfc : f.cols = B.numx.toNat) (hwr : w.rows = B.numy.toNat) (hwc : w.cols = B.numx.toNat) (s : Dg.State) :
    ∃ out s', (do setupBox B; setupPolar A m m; remap f (some w) : Meth Dg.State _) s = (.ok out, s') ∧
      out.rows = A.nump.toNat ∧ out.cols = A.numr.toNat ∧
      ∀ i j, i < A.nump.toNat → j < A.numr.toNat →
        ((∃ k l, k < m ∧ l < m ∧ InHole B f (densePoint A m m (i*m + k) (j*m + l))) → out.val i j = none) ∧
        ((∀ k l, k < m → l < m → ¬ InHole B f (densePoint A m m (i*m + k) (j*m + l))) →
          ∀ g gw : ℕ → ℕ → ℝ, (∀ k l, k < m → l < m →
            Reads B (filled f) (densePoint A m m (i*m + k) (j*m + l)) (g (i*m + k) (j*m + l)) ∧
            Reads B w.val (densePoint A m m (i*m + k) (j*m + l)) (gw (i*m + k) (j*m + l))) →
          (areaSum A m gw i j ≠ 0 → out.val i j
            = some (areaSum A m (fun n q => gw n q*g n q) i j/areaSum A m gw i j)) ∧
          (areaSum A m gw i j = 0 → out.val i j = none)) := by
  obtain ⟨s', e, hs, -⟩ := setup_run hB.numx hB.numy hA hr hp m m s
  have hole : ∀ pt, InHole B ⟨f.rows, f.cols, fun i j => omul (f.val i j) (w.val i j)⟩ pt ↔ InHole B f pt := by
    intro pt
    unfold InHole omul
    simp only [Option.map_eq_none_iff]
  have hole2 : ∀ pt, ¬ InHole B ⟨w.rows, w.cols, fun i j => some (w.val i j)⟩ pt := by
    rintro pt ⟨a, b, -, -, h⟩
    simp at h
  obtain ⟨o1, a1, a2, a3, a4⟩ := remap1_opt hB hA hm hs
    ⟨f.rows, f.cols, fun i j => omul (f.val i j) (w.val i j)⟩ hfr hfc
  obtain ⟨o2, d1, d2, d3, d4⟩ := remap1_opt hB hA hm hs
    ⟨w.rows, w.cols, fun i j => some (w.val i j)⟩ hwr hwc
  refine ⟨⟨o1.rows, o1.cols, fun i j => odiv (o1.val i j) (o2.val i j)⟩, s', ?_, a2, a3, ?_⟩
  · simp only [Meth.bind_apply] at e ⊢
    rw [setupBox_ok hB.numx hB.numy] at e ⊢
    simp only at e ⊢
    rw [e]
    have hz1 : f.rows = w.rows ∧ f.cols = w.cols := ⟨hfr.trans hwr.symm, hfc.trans hwc.symm⟩
    have hz2 : o1.rows = o2.rows ∧ o1.cols = o2.cols := ⟨a2.trans d2.symm, a3.trans d3.symm⟩
    show remap f (some w) s' = _
    unfold remap
    simp only [Meth.bind_apply, Meth.lift_apply, Arr2.zip, if_pos hz1, a1, d1, if_pos hz2]
  · intro i j hi hj
    obtain ⟨b1, b2⟩ := a4 i j hi hj
    obtain ⟨-, c2⟩ := d4 i j hi hj
    refine ⟨fun ⟨k, l, hk, hl, hh⟩ => ?_, fun hno g gw hg => ?_⟩
    · show odiv (o1.val i j) (o2.val i j) = none
      rw [b1 ⟨k, l, hk, hl, (hole _).mpr hh⟩]
      rfl
    · have hpos := (areaSum_pos hA hm i j).ne'
      show (_ → odiv (o1.val i j) (o2.val i j) = _) ∧ (_ → odiv (o1.val i j) (o2.val i j) = _)
      rw [c2 (fun k l _ _ => hole2 _) gw (fun k l hk hl => (hg k l hk hl).2),
        b2 (fun k l hk hl hh => hno k l hk hl ((hole _).mp hh)) (fun n q => gw n q*g n q) ?_]
      · unfold odiv fdiv
        simp only
        constructor
        · intro h
          rw [if_neg (div_ne_zero h hpos), div_div_div_cancel_right₀ hpos]
        · intro h
          rw [h, zero_div, if_pos rfl]
      · intro k l hk hl
        obtain ⟨⟨x1, x2⟩, y1, y2⟩ := hg k l hk hl
        refine ⟨fun a b ha hb => ?_, fun hn => ?_⟩
        · show gw _ _*g _ _ = (omul (f.val b a) (w.val b a)).getD 0
          rw [x1 a b ha hb, y1 a b ha hb]
          unfold filled omul
          cases f.val b a <;> simp [mul_comm]
        · show gw _ _*g _ _ = 0
          rw [x2 hn, mul_zero]

/-- C136, dense grid, locality: a pixel of the map depends only on the cells of the box that have a point in common with
it. Data that agree there, and are arbitrary elsewhere, missing values included, give the same value. -/
theorem C136_dense_local (f f' : Arr2 (Option ℝ)) (hfr : f.rows = B.numy.toNat) (hfc : f.cols = B.numx.toNat)
    (hfr' : f'.rows = B.numy.toNat) (hfc' : f'.cols = B.numx.toNat) (s t : Dg.State) :
    ∃ out s' out' t', (do setupBox B; setupPolar A m m; remap f none : Meth Dg.State _) s = (.ok out, s') ∧
      (do setupBox B; setupPolar A m m; remap f' none : Meth Dg.State _) t = (.ok out', t') ∧
      ∀ i j, i < A.nump.toNat → j < A.numr.toNat → AgreeNear B A i j f f' → out.val i j = out'.val i j := by
  obtain ⟨out, s', h1, -, -, h4⟩ := C136_dense B A m hB hA hr hp hm f hfr hfc s
  obtain ⟨out', t', h1', -, -, h4'⟩ := C136_dense B A m hB hA hr hp hm f' hfr' hfc' t
  refine ⟨out, s', out', t', h1, h1', fun i j hi hj hag => ?_⟩
  obtain ⟨a1, a2⟩ := h4 i j hi hj
  obtain ⟨b1, b2⟩ := h4' i j hi hj
  have hs : ∀ k l, k < m → l < m → ∀ a b, InCell B.xmin B.xmax B.numx.toNat a (densePoint A m m (i*m + k) (j*m + l)).1 →
      InCell B.ymin B.ymax B.numy.toNat b (densePoint A m m (i*m + k) (j*m + l)).2 → f.val b a = f'.val b a :=
    fun k l hk hl a b => hag _ a b (densePoint_sector hA hm i j k l hk hl)
  have hiff : out.val i j = none ↔ out'.val i j = none := by
    rw [a1, b1]
    constructor
    · rintro ⟨k, l, hk, hl, a, b, ha, hb, hh⟩
      exact ⟨k, l, hk, hl, a, b, ha, hb, by rw [← hs k l hk hl a b ha hb]; exact hh⟩
    · rintro ⟨k, l, hk, hl, a, b, ha, hb, hh⟩
      exact ⟨k, l, hk, hl, a, b, ha, hb, by rw [hs k l hk hl a b ha hb]; exact hh⟩
  by_cases hn : out.val i j = none
  · rw [hn, hiff.mp hn]
  · choose g hg using fun n q => exists_reads B hB (filled f) (densePoint A m m n q)
    rw [a2 g (fun k l _ _ => hg _ _) hn, b2 g ?_ (fun h => hn (hiff.mpr h))]
    intro k l hk hl
    refine ⟨fun a b ha hb => ?_, (hg _ _).2⟩
    rw [(hg _ _).1 a b ha hb]
    unfold filled
    rw [hs k l hk hl a b ha hb]

end

/-- Constant data with one missing value. -/
def exHole : Arr2 (Option ℝ) := ⟨6, 4, fun b a => if b = 3 ∧ a = 2 then none else some 7⟩

/-- The pixel at the hole is missing, the pixel on the other side of the centre is not. -/
example (s : Dg.State) : ∃ out s', (do setupBox exBox; Dg.setupPolar exPolar 1 1; Dg.remap exHole none : Meth Dg.State _) s
    = (.ok out, s') ∧ out.val 0 0 = none ∧ out.val 2 0 = some 7 := by
  obtain ⟨out, s', h1, -, -, h4⟩ := C136_dense exBox exPolar 1 exBox_ok exPolar_ok (by simp [exPolar])
    (by simp [exPolar]) le_rfl exHole rfl rfl s
  have hpi := Real.pi_pos
  have hr0 : midAt 0 1 (1*2) (0*1 + 0) = 1/4 := by unfold midAt edgeAt; norm_num
  have hp0 : midAt 0 (2*Real.pi) (1*5) (0*1 + 0) = Real.pi/5 := by unfold midAt edgeAt; push_cast; ring
  have hp2 : midAt 0 (2*Real.pi) (1*5) (2*1 + 0) = Real.pi := by unfold midAt edgeAt; push_cast; ring
  have e0 : Dg.densePoint exPolar 1 1 (0*1 + 0) (0*1 + 0) = (1/4*Real.cos (Real.pi/5), 1/4*Real.sin (Real.pi/5)) := by
    show (midAt 0 1 (1*2) (0*1 + 0)*Real.cos (midAt 0 (2*Real.pi) (1*5) (0*1 + 0) + 0) + 0,
      midAt 0 1 (1*2) (0*1 + 0)*Real.sin (midAt 0 (2*Real.pi) (1*5) (0*1 + 0) + 0) + 0) = _
    rw [hr0, hp0, add_zero, add_zero, add_zero]
  have e2 : Dg.densePoint exPolar 1 1 (2*1 + 0) (0*1 + 0) = (-1/4, 0) := by
    show (midAt 0 1 (1*2) (0*1 + 0)*Real.cos (midAt 0 (2*Real.pi) (1*5) (2*1 + 0) + 0) + 0,
      midAt 0 1 (1*2) (0*1 + 0)*Real.sin (midAt 0 (2*Real.pi) (1*5) (2*1 + 0) + 0) + 0) = _
    rw [hr0, hp2, add_zero, add_zero, add_zero, Real.cos_pi, Real.sin_pi]
    norm_num
  have c1 := Real.cos_le_one (Real.pi/5)
  have c2 : 0 < Real.cos (Real.pi/5) := Real.cos_pos_of_mem_Ioo ⟨by linarith, by linarith⟩
  have c3 := Real.sin_le_one (Real.pi/5)
  have c4 : 0 < Real.sin (Real.pi/5) := Real.sin_pos_of_pos_of_lt_pi (by linarith) (by linarith)
  have hN : exPolar.nump.toNat = 5 := rfl
  have hM : exPolar.numr.toNat = 2 := rfl
  refine ⟨out, s', h1, ?_, ?_⟩
  · refine (h4 0 0 (by rw [hN]; norm_num) (by rw [hM]; norm_num)).1.mpr ⟨0, 0, by norm_num, by norm_num, 2, 3, ?_, ?_, ?_⟩
    · rw [e0]
      have h : InCell (-2) 2 4 2 (1/4*Real.cos (Real.pi/5)) := by
        refine ⟨by norm_num, ?_, ?_⟩ <;> unfold edgeAt <;> push_cast <;> linarith
      exact h
    · rw [e0]
      have h : InCell (-3) 3 6 3 (1/4*Real.sin (Real.pi/5)) := by
        refine ⟨by norm_num, ?_, ?_⟩ <;> unfold edgeAt <;> push_cast <;> linarith
      exact h
    · simp [exHole]
  · obtain ⟨x1, x2⟩ := h4 2 0 (by rw [hN]; norm_num) (by rw [hM]; norm_num)
    have hcell : ∀ a b, InCell exBox.xmin exBox.xmax exBox.numx.toNat a (-1/4) →
        InCell exBox.ymin exBox.ymax exBox.numy.toNat b 0 → exHole.val b a = some 7 := by
      intro a b ha hb
      have h : a = 1 := by
        refine inCell_unique (lo := -2) (hi := 2) (n := 4) (x := -1/4) (by norm_num) (by norm_num) ha ?_
        refine ⟨by norm_num, ?_, ?_⟩ <;> simp only [edgeAt] <;> norm_num
      subst h
      simp [exHole]
    have hne : out.val 2 0 ≠ none := by
      rw [Ne, x1]
      rintro ⟨k, l, hk, hl, a, b, ha, hb, hh⟩
      obtain rfl : k = 0 := by omega
      obtain rfl : l = 0 := by omega
      rw [e2] at ha hb
      rw [hcell a b ha hb] at hh
      simp at hh
    rw [x2 (fun _ _ => 7) ?_ hne]
    · have hpos := (Dg.areaSum_pos exPolar_ok (m := 1) le_rfl 2 0).ne'
      congr 1
      rw [div_eq_iff hpos]
      unfold Dg.areaSum
      simp
      ring
    · intro k l hk hl
      obtain rfl : k = 0 := by omega
      obtain rfl : l = 0 := by omega
      rw [e2]
      refine ⟨fun a b ha hb => ?_, fun hno => ?_⟩
      · unfold filled
        rw [hcell a b ha hb]; rfl
      · refine absurd ⟨1, 3, ?_, ?_⟩ hno
        · have h : InCell (-2) 2 4 1 (-1/4) := by
            refine ⟨by norm_num, ?_, ?_⟩ <;> unfold edgeAt <;> norm_num
          exact h
        · have h : InCell (-3) 3 6 3 0 := by
            refine ⟨by norm_num, ?_, ?_⟩ <;> unfold edgeAt <;> norm_num
          exact h

section
open Magpie.Mc
variable (B : BoxArgs) (G : Grid) (hB : BoxOk B) (hG : G.Ok) (n : ℕ) (hn : 1 < n)
  (draws : ℕ → ℕ → List ℝ × List ℝ) (hd : ∀ i j, i < G.nump → j < G.numr → Draws n (draws i j))
include hB hG hn hd

/-- C136, Monte Carlo: whenever `remap` returns, a pixel with a random point in a cell with a missing value is missing,
with and without weights (whatever the weight of the cell); otherwise its value is the mean over its random points in
the box, as for data without missing values. -/
theorem C136_mc (f : Arr2 (Option ℝ)) (hf : f.rows = B.numy.toNat ∧ f.cols = B.numx.toNat)
    (w : Option (Arr2 ℝ)) (hw : ∀ t, w = some t → t.rows = B.numy.toNat ∧ t.cols = B.numx.toNat)
    (s s' : Mc.State) (out : Arr2 (Option ℝ)) (ho : mcRemap B G n draws f w s = (.ok out, s')) :
    ∀ i j, i < G.nump → j < G.numr →
      ((∃ pt ∈ G.points i j (draws i j), InHoleMc B f pt) → out.val i j = none) ∧
      ((∀ pt ∈ G.points i j (draws i j), ¬ InHoleMc B f pt) →
        (∀ g, List.Forall₂ (Mc.Reads B (filled f)) (G.points i j (draws i j)) g → w = none →
          out.val i j = mean (g.filterMap id)) ∧
        (∀ g t, List.Forall₂ (Mc.Reads B fun b a => (t.val b a, filled f b a)) (G.points i j (draws i j)) g →
          w = some t → out.val i j = wmean (g.filterMap id))) := by
  intro i j hi hj
  obtain ⟨h1, h2⟩ := mc_opt hB hG hn draws hd f hf w hw ho hi hj
  refine ⟨h1, fun hno => ⟨fun g hg hw0 => ?_, fun g t hg hw1 => ?_⟩⟩
  · rw [h2 hno]
    subst hw0
    have e1 := reads_sum hB (filled f) (fun x => x) hg
    have e2 := reads_sum hB (filled f) (fun _ => 1) hg
    simp only [List.map_id', List.map_const', List.sum_replicate, nsmul_eq_mul, mul_one] at e1 e2
    simp only [wOf, one_mul]
    rw [← e1]
    show fdiv _ ((G.points i j (draws i j)).map (boxVal B fun _ _ => 1)).sum = _
    rw [← e2]
    unfold mean fdiv
    by_cases h0 : g.filterMap id = []
    · rw [if_pos h0, h0, if_pos (by simp)]
    · rw [if_neg h0, if_neg]
      exact_mod_cast fun h => h0 (List.length_eq_zero_iff.mp h)
  · rw [h2 hno]
    subst hw1
    have e1 := reads_sum hB _ (fun x => x.1*x.2) hg
    have e2 := reads_sum hB _ (fun x => x.1) hg
    unfold wmean
    exact (congrArg₂ fdiv e1 e2).symm

/-- C136, Monte Carlo, locality: with the same random points a pixel of the map depends only on the cells of the box
that have a point in common with it. -/
theorem C136_mc_local (f f' : Arr2 (Option ℝ)) (hf : f.rows = B.numy.toNat ∧ f.cols = B.numx.toNat)
    (hf' : f'.rows = B.numy.toNat ∧ f'.cols = B.numx.toNat)
    (w : Option (Arr2 ℝ)) (hw : ∀ t, w = some t → t.rows = B.numy.toNat ∧ t.cols = B.numx.toNat)
    (s s' t t' : Mc.State) (out out' : Arr2 (Option ℝ)) (ho : mcRemap B G n draws f w s = (.ok out, s'))
    (ho' : mcRemap B G n draws f' w t = (.ok out', t')) (i j : ℕ) (hi : i < G.nump) (hj : j < G.numr)
    (hag : ∀ pt a b, pt ∈ G.pixel i j → InPixel B pt a b → f.val b a = f'.val b a) :
    out.val i j = out'.val i j := by
  obtain ⟨h1, h2⟩ := mc_opt hB hG hn draws hd f hf w hw ho hi hj
  obtain ⟨h1', h2'⟩ := mc_opt hB hG hn draws hd f' hf' w hw ho' hi hj
  obtain ⟨-, -, d3, d4⟩ := hd i j hi hj
  have hin : ∀ pt ∈ G.points i j (draws i j), pt ∈ G.pixel i j := by
    intro pt hpt
    unfold Grid.points at hpt
    rw [← List.map_uncurry_zip_eq_zipWith] at hpt
    obtain ⟨⟨u, v⟩, huv, rfl⟩ := List.mem_map.mp hpt
    exact point_mem hG hi hj (d3 u (List.of_mem_zip huv).1) (d4 v (List.of_mem_zip huv).2)
  have hole : ∀ pt ∈ G.points i j (draws i j), (InHoleMc B f pt ↔ InHoleMc B f' pt) := by
    intro pt hpt
    unfold InHoleMc
    constructor
    · rintro ⟨a, b, hab, e⟩
      exact ⟨a, b, hab, by rw [← hag pt a b (hin pt hpt) hab]; exact e⟩
    · rintro ⟨a, b, hab, e⟩
      exact ⟨a, b, hab, by rw [hag pt a b (hin pt hpt) hab]; exact e⟩
  by_cases hh : ∃ pt ∈ G.points i j (draws i j), InHoleMc B f pt
  · rw [h1 hh, h1' (by obtain ⟨pt, a, b⟩ := hh; exact ⟨pt, a, (hole pt a).mp b⟩)]
  · push Not at hh
    rw [h2 hh, h2' (fun pt hpt => fun h => hh pt hpt ((hole pt hpt).mpr h))]
    congr 2
    apply List.map_congr_left
    intro pt hpt
    by_cases hc : ∃ a b, InPixel B pt a b
    · obtain ⟨a, b, hab⟩ := hc
      rw [boxVal_in hB _ hab, boxVal_in hB _ hab]
      unfold filled
      rw [hag pt a b (hin pt hpt) hab]
    · rw [boxVal_out _ hc, boxVal_out _ hc]

/-- C136, Monte Carlo: missing values never make `remap` raise. If it returns for some data with these random points, it
returns for all data. -/
theorem C136_mc_returns (f f' : Arr2 (Option ℝ)) (hf : f.rows = B.numy.toNat ∧ f.cols = B.numx.toNat)
    (hf' : f'.rows = B.numy.toNat ∧ f'.cols = B.numx.toNat) (w : Option (Arr2 ℝ))
    (hw : ∀ t, w = some t → t.rows = B.numy.toNat ∧ t.cols = B.numx.toNat) (s s' t : Mc.State)
    (out : Arr2 (Option ℝ)) (ho : mcRemap B G n draws f w s = (.ok out, s')) :
    ∃ out' t', mcRemap B G n draws f' w t = (.ok out', t') ∧ out'.rows = G.nump ∧ out'.cols = G.numr := by
  obtain ⟨hits, hh, s1, e⟩ := mcRemap_run hB hG hn draws hd f w hf hw s
  obtain ⟨hits', hh', s1', e'⟩ := mcRemap_run hB hG hn draws hd f' w hf' hw t
  rw [ho] at e
  cases hp : pack (lens B G draws) with
  | error x => rw [hp] at e; simp at e
  | ok o =>
    rw [hp] at e e'
    simp only [Prod.mk.injEq] at e e'
    have hpix : ∀ i j, ∃ x, i < G.nump → j < G.numr → remapPixel ⟨hits', o⟩ f' w i j = .ok x := by
      intro i j
      by_cases hij : i < G.nump ∧ j < G.numr
      · have ht := (tabulate_inv e.1.symm).2.2 i j hij.1 hij.2
        unfold remapPixel at ht ⊢
        simp only at ht ⊢
        rw [hh i j hij.1 hij.2] at ht
        rw [hh' i j hij.1 hij.2]
        cases o with
        | false =>
          cases w with
          | none =>
            simp only [readHits_ok hB n _ f' hf'.1 hf'.2]
            split_ifs
            · exact ⟨_, fun _ _ => rfl⟩
            · exact ⟨_, fun _ _ => rfl⟩
          | some t =>
            simp only [readHits_ok hB n _ f' hf'.1 hf'.2, readHits_ok hB n _ t (hw t rfl).1 (hw t rfl).2]
            split_ifs
            · exact ⟨_, fun _ _ => rfl⟩
            · exact ⟨_, fun _ _ => rfl⟩
        | true =>
          cases w with
          | none =>
            simp only [readHits] at ht ⊢
            split_ifs at ht ⊢ with h0
            · cases ht
            · exact ⟨_, fun _ _ => rfl⟩
          | some t =>
            simp only [readHits] at ht ⊢
            split_ifs at ht ⊢ with h0
            · cases ht
            · exact ⟨_, fun _ _ => rfl⟩
      · exact ⟨none, fun a b => absurd ⟨a, b⟩ hij⟩
    choose x hx using hpix
    obtain ⟨out', h1, hr, hc, -⟩ := tabulate_ok G.nump G.numr (remapPixel ⟨hits', o⟩ f' w) x none hx
    exact ⟨out', s1' o, by rw [e', h1], hr, hc⟩

end

/-- Missing values in the first of two columns. The pixel with both random points in the second column has a value,
the pixel with one random point in each column is missing. -/
example (s : Mc.State) : ∃ out s', Mc.mcRemap exBoxTwo (.lin exHalf) 2 exDraws
    ⟨1, 2, fun _ a => if a = 0 then none else some 7⟩ none s = (.ok out, s') ∧
    out.val 0 0 = some 7 ∧ out.val 0 1 = none := by
  have hd : ∀ i j, i < (Mc.Grid.lin exHalf).nump → j < (Mc.Grid.lin exHalf).numr → Mc.Draws 2 (exDraws i j) :=
    fun i j _ _ => exDraws_ok i j
  obtain ⟨out0, s0, h0, -⟩ := C71_remap_partial exBoxTwo (.lin exHalf) exBoxTwo_ok exHalf_ok 2 (by norm_num) exDraws hd
    ⟨1, 2, fun _ _ => some 7⟩ (fun _ _ => 7) (by simp [exBoxTwo]) (fun i j _ _ => rfl) exDraws_differ s
  obtain ⟨out, s', h, -⟩ := C136_mc_returns exBoxTwo (.lin exHalf) exBoxTwo_ok exHalf_ok 2 (by norm_num) exDraws hd
    _ ⟨1, 2, fun _ a => if a = 0 then none else some 7⟩ (by simp [exBoxTwo]) (by simp [exBoxTwo]) none (by simp) s s0 s
    out0 h0
  have key := C136_mc exBoxTwo (.lin exHalf) exBoxTwo_ok exHalf_ok 2 (by norm_num) exDraws hd _ (by simp [exBoxTwo])
    none (by simp) s s' out h
  have hN : (Mc.Grid.lin exHalf).nump = 2 := rfl
  have hM : (Mc.Grid.lin exHalf).numr = 2 := rfl
  have hu : (0:ℝ) ≤ 1/2 ∧ (1/2:ℝ) < 1 := by norm_num
  obtain ⟨r, r0, r1, r2, e1⟩ := exHalf_point 0 0 (by omega) (w := 1/4) hu
  obtain ⟨q, q0, q1, q2, e3⟩ := exHalf_point 0 1 (by omega) (w := 3/4) hu
  have l0 : (Mc.Grid.lin exHalf).points 0 0 (exDraws 0 0) =
      [(Mc.Grid.lin exHalf).point 0 0 (1/2) (1/4), (Mc.Grid.lin exHalf).point 0 0 (1/2) (1/4)] := rfl
  have l1 : (Mc.Grid.lin exHalf).points 0 1 (exDraws 0 1) =
      [(Mc.Grid.lin exHalf).point 0 1 (1/2) (1/4), (Mc.Grid.lin exHalf).point 0 1 (1/2) (3/4)] := rfl
  obtain ⟨c1, c2, -, -⟩ := exCos
  have hin : Mc.InPixel exBoxTwo ((Mc.Grid.lin exHalf).point 0 0 (1/2) (1/4)) 1 0 := by
    rw [e1]
    simp only [Nat.cast_zero, zero_add]
    exact (exBoxTwo_pixel r0 r1).1 c1.le
  have huniq : ∀ a b, Mc.InPixel exBoxTwo ((Mc.Grid.lin exHalf).point 0 0 (1/2) (1/4)) a b → a = 1 ∧ b = 0 := by
    intro a b hab
    have h1 := (Mc.binOf_iff exBoxTwo_ok _ _ _).mpr hin
    have h2 := (Mc.binOf_iff exBoxTwo_ok _ _ _).mpr hab
    rw [h1] at h2
    simp only [Option.some.injEq, Prod.mk.injEq] at h2
    exact ⟨h2.1.symm, h2.2.symm⟩
  refine ⟨out, s', h, ?_, ?_⟩
  · obtain ⟨-, k2⟩ := key 0 0 (by omega) (by omega)
    rw [(k2 ?_).1 [some 7, some 7] ?_ rfl]
    · simp [Mc.mean]
    · rw [l0]
      intro pt hpt
      simp only [List.mem_cons, List.not_mem_nil, or_false, or_self] at hpt
      rw [hpt]
      rintro ⟨a, b, hab, hh⟩
      obtain ⟨rfl, rfl⟩ := huniq a b hab
      simp at hh
    · rw [l0]
      have hread : Mc.Reads exBoxTwo (filled ⟨1, 2, fun _ a => if a = 0 then none else some 7⟩)
          ((Mc.Grid.lin exHalf).point 0 0 (1/2) (1/4)) (some 7) := by
        refine ⟨fun a b hab => ?_, fun hno => absurd ⟨1, 0, hin⟩ hno⟩
        obtain ⟨rfl, rfl⟩ := huniq a b hab
        simp [filled]
      exact .cons hread (.cons hread .nil)
  · refine (key 0 1 (by omega) (by omega)).1 ⟨_, by rw [l1]; exact List.mem_cons_of_mem _ (List.mem_cons_self ..), 0, 0, ?_, rfl⟩
    rw [e3]
    simp only [Nat.cast_zero, zero_add]
    exact (exBoxTwo_pixel q0 q1).2 (q2 (by norm_num)) c2

end Magpie.Props
