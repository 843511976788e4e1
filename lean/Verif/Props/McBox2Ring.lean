import Verif.Proof.McBox2RingRun

/-!
# The Monte Carlo `Box2Ring` class: weights and remapping
-/

set_option linter.unusedSimpArgs false
set_option linter.unusedVariables false
set_option linter.unusedSectionVars false

namespace Magpie.Props
open Magpie Magpie.Radial Magpie.OneD Magpie.Spec Magpie.Box2Ring Magpie.Mc

/-! ## C71 -/

section
variable (B : BoxArgs) (G : Grid) (hB : BoxOk B) (hG : G.Ok) (n : ℕ) (hn : 1 < n)
  (draws : ℕ → ℕ → List ℝ × List ℝ) (hd : ∀ i j, i < G.nump → j < G.numr → Draws n (draws i j))
  (f : Arr2 (Option ℝ)) (v : ℕ → ℕ → ℝ) (hf : f.rows = B.numy.toNat ∧ f.cols = B.numx.toNat)
  (hv : ∀ i j, i < f.rows → j < f.cols → f.val i j = some (v i j))
include hB hG hn hd hf hv

/-- C71: on an object with any history, if in every row of polar pixels two of them touch different numbers
of box pixels, then for every draw each remapped value is the mean, over the random points of the polar
pixel that are in the box, of the value of the box pixel the point is in; NaN if there are none. Missing:
other draws, see `C71_violated_same` and `C71_violated_mixed`. -/
theorem C71_remap_partial (hdiff : RowsDiffer B G draws) (s : Mc.State) :
    ∃ out s', mcRemap B G n draws f none s = (.ok out, s') ∧ out.rows = G.nump ∧ out.cols = G.numr ∧
      ∀ i j, i < G.nump → j < G.numr → ∀ g, List.Forall₂ (Mc.Reads B v) (G.points i j (draws i j)) g →
        out.val i j = mean (g.filterMap id) := by
  obtain ⟨hits, hh, s', e⟩ := mcRemap_run hB hG hn draws hd f none hf (by simp) s
  rw [pack_differ hG hdiff] at e
  simp only at e
  choose g hg using fun i j => Mc.exists_reads hB v (G.points i j (draws i j))
  have hpix : ∀ i j, i < G.nump → j < G.numr → ∀ g, List.Forall₂ (Mc.Reads B v) (G.points i j (draws i j)) g →
      remapPixel ⟨hits, false⟩ f none i j = .ok (mean (g.filterMap id)) := fun i j hi hj g hg =>
    remapPixel_none hB (by omega) _ ⟨hits, false⟩ i j (hh i j hi hj) rfl f v hf.1 hf.2 hv g hg
  obtain ⟨out, ho, hr, hc, ht⟩ := tabulate_ok G.nump G.numr (remapPixel ⟨hits, false⟩ f none)
    (fun i j => mean ((g i j).filterMap id)) none (fun i j hi hj => hpix i j hi hj _ (hg i j))
  refine ⟨out, s' false, by rw [e, ho], hr, hc, ?_⟩
  intro i j hi hj g' hg'
  have a := hpix i j hi hj _ hg'
  rw [hpix i j hi hj _ (hg i j), Except.ok.injEq] at a
  rw [ht i j hi hj, a]

/-- C71 with weights: the mean is weighted by the weight of the box pixel the point is in. -/
theorem C71_weighted_partial (hdiff : RowsDiffer B G draws) (w : Arr2 ℝ)
    (hw : w.rows = B.numy.toNat ∧ w.cols = B.numx.toNat) (s : Mc.State) :
    ∃ out s', mcRemap B G n draws f (some w) s = (.ok out, s') ∧ out.rows = G.nump ∧ out.cols = G.numr ∧
      ∀ i j, i < G.nump → j < G.numr → ∀ g, List.Forall₂ (Mc.Reads B fun b a => (w.val b a, v b a))
          (G.points i j (draws i j)) g → out.val i j = wmean (g.filterMap id) := by
  obtain ⟨hits, hh, s', e⟩ := mcRemap_run hB hG hn draws hd f (some w) hf (by simpa using hw) s
  rw [pack_differ hG hdiff] at e
  simp only at e
  choose g hg using fun i j => Mc.exists_reads hB (fun b a => (w.val b a, v b a)) (G.points i j (draws i j))
  have hpix : ∀ i j, i < G.nump → j < G.numr → ∀ g, List.Forall₂ (Mc.Reads B fun b a => (w.val b a, v b a))
      (G.points i j (draws i j)) g → remapPixel ⟨hits, false⟩ f (some w) i j = .ok (wmean (g.filterMap id)) :=
    fun i j hi hj g hg => remapPixel_some hB (by omega) _ ⟨hits, false⟩ i j (hh i j hi hj) rfl f v hf.1 hf.2 hv
      w hw.1 hw.2 g hg
  obtain ⟨out, ho, hr, hc, ht⟩ := tabulate_ok G.nump G.numr (remapPixel ⟨hits, false⟩ f (some w))
    (fun i j => wmean ((g i j).filterMap id)) none (fun i j hi hj => hpix i j hi hj _ (hg i j))
  refine ⟨out, s' false, by rw [e, ho], hr, hc, ?_⟩
  intro i j hi hj g' hg'
  have a := hpix i j hi hj _ hg'
  rw [hpix i j hi hj _ (hg i j), Except.ok.injEq] at a
  rw [ht i j hi hj, a]

/-- C71, consequence: if all values of the box are in `[a, b]`, a remapped value is NaN, if no random point
of the polar pixel is in the box, or else in `[a, b]`; in particular a constant is preserved. -/
theorem C71_bounds_partial (hdiff : RowsDiffer B G draws) (a b : ℝ)
    (hab : ∀ i j, i < f.rows → j < f.cols → a ≤ v i j ∧ v i j ≤ b) (s : Mc.State) :
    ∃ out s', mcRemap B G n draws f none s = (.ok out, s') ∧
      ∀ i j, i < G.nump → j < G.numr →
        ((¬ ∃ pt ∈ G.points i j (draws i j), ∃ c d, InPixel B pt c d) → out.val i j = none) ∧
        ((∃ pt ∈ G.points i j (draws i j), ∃ c d, InPixel B pt c d) →
          ∃ x, out.val i j = some x ∧ a ≤ x ∧ x ≤ b) := by
  obtain ⟨out, s', e, -, -, h⟩ := C71_remap_partial B G hB hG n hn draws hd f v hf hv hdiff s
  refine ⟨out, s', e, fun i j hi hj => ?_⟩
  obtain ⟨g, hg⟩ := Mc.exists_reads hB v (G.points i j (draws i j))
  rw [h i j hi hj g hg, reads_bins hB v _ g hg]
  have hmem : ∀ c, c ∈ (bins B (G.points i j (draws i j))).filterMap id ↔
      ∃ pt ∈ G.points i j (draws i j), InPixel B pt c.1 c.2 := by
    intro c
    rw [← mem_bins hB]
    simp
  set l := (bins B (G.points i j (draws i j))).filterMap id with hl
  unfold mean
  constructor
  · intro hno
    rw [if_pos]
    rw [List.map_eq_nil_iff]
    cases hl' : l with
    | nil => rfl
    | cons c t =>
      obtain ⟨pt, h1, h2⟩ := (hmem c).mp (by rw [hl']; exact List.mem_cons_self ..)
      exact absurd ⟨pt, h1, _, _, h2⟩ hno
  · rintro ⟨pt, h1, c, d, h2⟩
    have hin : (c, d) ∈ l := (hmem (c, d)).mpr ⟨pt, h1, h2⟩
    have hne : l ≠ [] := List.ne_nil_of_mem hin
    rw [if_neg (by simpa using hne)]
    have hlen : (0:ℝ) < (l.map fun c => v c.2 c.1).length := by
      rw [List.length_map]
      exact_mod_cast List.length_pos_of_ne_nil hne
    have hv' : ∀ x ∈ l.map fun c => v c.2 c.1, a ≤ x ∧ x ≤ b := by
      intro x hx
      obtain ⟨c, hc, rfl⟩ := List.mem_map.mp hx
      obtain ⟨pt, -, h3, h4⟩ := (hmem c).mp hc
      exact hab _ _ (by rw [hf.1]; exact h4.1) (by rw [hf.2]; exact h3.1)
    refine ⟨_, rfl, ?_, ?_⟩
    · rw [le_div_iff₀ hlen, mul_comm, ← nsmul_eq_mul]
      exact List.card_nsmul_le_sum _ _ fun x hx => (hv' x hx).1
    · rw [div_le_iff₀ hlen, mul_comm, ← nsmul_eq_mul]
      exact List.sum_le_card_nsmul _ _ fun x hx => (hv' x hx).2

/-- C71: if no random point is in the box all remapped values are NaN. -/
theorem C71_outside (hno : AllTouch B G draws 0) (s : Mc.State) :
    ∃ out s', mcRemap B G n draws f none s = (.ok out, s') ∧ out.rows = G.nump ∧ out.cols = G.numr ∧
      ∀ i j, i < G.nump → j < G.numr → out.val i j = none := by
  obtain ⟨hits, hh, s', e⟩ := mcRemap_run hB hG hn draws hd f none hf (by simp) s
  rw [pack_same hG hno] at e
  simp only at e
  have hpix : ∀ i j, i < G.nump → j < G.numr → remapPixel ⟨hits, true⟩ f none i j = .ok none := by
    intro i j hi hj
    have hl := length_hits hB n (G.points i j (draws i j))
    rw [hno i j hi hj] at hl
    unfold remapPixel
    simp only
    rw [hh i j hi hj, List.length_eq_zero_iff.mp hl]
    simp
  obtain ⟨out, ho, hr, hc, ht⟩ := tabulate_ok G.nump G.numr (remapPixel ⟨hits, true⟩ f none)
    (fun i j => none) none hpix
  exact ⟨out, s' true, by rw [e, ho], hr, hc, ht⟩

/-- C71 does not hold if all polar pixels touch the same number of box pixels: `remap` raises
`IndexError`. -/
theorem C71_violated_same (k : ℕ) (hk : 0 < k) (hsame : AllTouch B G draws k) (s : Mc.State) :
    ∃ s', mcRemap B G n draws f none s = (.error .indexError, s') := by
  obtain ⟨hits, hh, s', e⟩ := mcRemap_run hB hG hn draws hd f none hf (by simp) s
  rw [pack_same hG hsame] at e
  simp only at e
  have hp := Grid.nump_two hG
  have hr := Grid.numr_pos hG
  refine ⟨s' true, ?_⟩
  rw [e, tabulate_error _ _ _ _ .indexError (by omega) hr]
  have hl := length_hits hB n (G.points 0 0 (draws 0 0))
  rw [hsame 0 0 (by omega) hr] at hl
  unfold remapPixel
  simp only
  rw [hh 0 0 (by omega) hr, hits_wsum hB, if_pos]
  · rfl
  · have hn' : (n:ℝ) ≠ 0 := by exact_mod_cast (show n ≠ 0 by omega)
    refine div_ne_zero ?_ hn'
    have hne : (bins B (G.points 0 0 (draws 0 0))).filterMap id ≠ [] := by
      intro h0
      rw [pixelHits_eq, List.length_map] at hl
      have hc : hitCells B (G.points 0 0 (draws 0 0)) ≠ [] := by
        intro h1
        rw [h1] at hl
        simp at hl
        omega
      obtain ⟨c, hc⟩ := List.exists_mem_of_ne_nil _ hc
      have := cnt_pos.mp (of_decide_eq_true (List.mem_filter.mp hc).2)
      have : c ∈ (bins B (G.points 0 0 (draws 0 0))).filterMap id := by simpa using this
      rw [h0] at this
      cases this
    exact_mod_cast fun h => hne (List.length_eq_zero_iff.mp h)

/-- C71 does not hold if in some row all polar pixels touch the same number of box pixels, but not in all
rows: `get_weights` raises `ValueError`. -/
theorem C71_violated_mixed (h1 : ¬ RowsDiffer B G draws) (h2 : ¬ ∃ k, AllTouch B G draws k) (s : Mc.State) :
    ∃ s', mcRemap B G n draws f none s = (.error .valueError, s') := by
  obtain ⟨hits, hh, s', e⟩ := mcRemap_run hB hG hn draws hd f none hf (by simp) s
  rw [pack_mixed hG h1 h2] at e
  exact ⟨_, e⟩

end

/-! ## Cases that meet the hypotheses -/

/-- A polar grid with two rings and two half planes. -/
noncomputable def exHalf : PolarArgs := { rmin := 0, rmax := 1, numr := 2, nump := 2 }

theorem exHalf_ok : (Grid.lin exHalf).Ok := by
  have := Real.pi_pos
  refine ⟨?_, by simp [exHalf], by simp [exHalf]⟩
  constructor <;> simp [exHalf] <;> positivity

/-- A point of the polar grid has radius at most `1`. -/
theorem exHalf_point (i j : ℕ) (hj : j < 2) {u w : ℝ} (hu : 0 ≤ u ∧ u < 1) :
    ∃ r, 0 ≤ r ∧ r ≤ 1 ∧ (0 < u → 0 < r) ∧
      (Grid.lin exHalf).point i j u w = (r*Real.cos (Real.pi*(i + w)), r*Real.sin (Real.pi*(i + w))) := by
  have hr : ∀ k : ℕ, (Grid.lin exHalf).rEdge k = k/2 := by
    intro k
    simp [Grid.rEdge, exHalf, edgeAt]
    ring
  have hp : ∀ k : ℕ, (Grid.lin exHalf).pEdge k = Real.pi*k := by
    intro k
    simp [Grid.pEdge, Grid.nump, Grid.args, exHalf, edgeAt]
    ring
  refine ⟨Real.sqrt (((j:ℝ)/2)^2 + u*((((j+1 : ℕ):ℝ)/2)^2 - ((j:ℝ)/2)^2)), Real.sqrt_nonneg _, ?_, ?_, ?_⟩
  · rw [Real.sqrt_le_one]
    obtain ⟨h0, h1⟩ := hu
    have hj : j = 0 ∨ j = 1 := by omega
    rcases hj with rfl | rfl <;> norm_num <;> nlinarith
  · intro h
    rw [Real.sqrt_pos]
    have hj : j = 0 ∨ j = 1 := by omega
    rcases hj with rfl | rfl <;> norm_num <;> nlinarith
  · unfold Grid.point
    simp only [hr, hp]
    have e : Real.pi*i + w*(Real.pi*((i+1 : ℕ):ℝ) - Real.pi*i) + (Grid.lin exHalf).args.phiShift = Real.pi*(i + w) := by
      simp [Grid.args, exHalf]
      ring
    rw [e]
    simp [Grid.args, exHalf]

theorem touched_one {B : BoxArgs} (hB : BoxOk B) {pts : List (ℝ × ℝ)} (hne : pts ≠ []) {a b : ℕ}
    (h : ∀ pt ∈ pts, InPixel B pt a b) : touched B pts = 1 := by
  unfold touched
  rw [Set.ncard_eq_one]
  refine ⟨(a, b), ?_⟩
  ext c
  simp only [Set.mem_setOf_eq, Set.mem_singleton_iff]
  constructor
  · rintro ⟨pt, h1, h2, h3⟩
    exact Prod.ext (inBin_unique hB.hx h2 (h pt h1).1) (inBin_unique hB.hy h3 (h pt h1).2)
  · rintro rfl
    obtain ⟨pt, hpt⟩ := List.exists_mem_of_ne_nil _ hne
    exact ⟨pt, hpt, h pt hpt⟩

theorem touched_ne_one {B : BoxArgs} {pts : List (ℝ × ℝ)} {p q : ℝ × ℝ} (hp : p ∈ pts) (hq : q ∈ pts)
    {a b c d : ℕ} (h1 : InPixel B p a b) (h2 : InPixel B q c d) (hne : a ≠ c) : touched B pts ≠ 1 := by
  unfold touched
  rw [Ne, Set.ncard_eq_one]
  rintro ⟨x, hx⟩
  have e1 : (a, b) ∈ ({x} : Set (ℕ × ℕ)) := by rw [← hx]; exact ⟨p, hp, h1⟩
  have e2 : (c, d) ∈ ({x} : Set (ℕ × ℕ)) := by rw [← hx]; exact ⟨q, hq, h2⟩
  rw [Set.mem_singleton_iff] at e1 e2
  exact hne (congrArg Prod.fst (e1.trans e2.symm))

/-- A box of two columns and one row. -/
def exBoxTwo : BoxArgs := ⟨-2, 2, 2, -2, 2, 1⟩

/-- A box of one pixel. -/
def exBoxOne : BoxArgs := ⟨-2, 2, 1, -2, 2, 1⟩

theorem exBoxTwo_ok : BoxOk exBoxTwo := by
  constructor <;> simp [exBoxTwo] <;> norm_num

theorem exBoxOne_ok : BoxOk exBoxOne := by
  constructor <;> simp [exBoxOne] <;> norm_num

theorem exBoxTwo_pixel {r t : ℝ} (h0 : 0 ≤ r) (h1 : r ≤ 1) :
    (0 ≤ Real.cos t → InPixel exBoxTwo (r*Real.cos t, r*Real.sin t) 1 0) ∧
    (0 < r → Real.cos t < 0 → InPixel exBoxTwo (r*Real.cos t, r*Real.sin t) 0 0) := by
  have c1 := Real.neg_one_le_cos t
  have c2 := Real.cos_le_one t
  have s1 := Real.neg_one_le_sin t
  have s2 := Real.sin_le_one t
  constructor
  · intro h
    have := mul_nonneg h0 h
    refine ⟨⟨by simp [exBoxTwo], ?_, Or.inl ?_⟩, ⟨by simp [exBoxTwo], ?_, Or.inl ?_⟩⟩ <;>
      simp [exBoxTwo, edgeAt] <;> nlinarith
  · intro hr h
    have := mul_neg_of_pos_of_neg hr h
    refine ⟨⟨by simp [exBoxTwo], ?_, Or.inl ?_⟩, ⟨by simp [exBoxTwo], ?_, Or.inl ?_⟩⟩ <;>
      simp [exBoxTwo, edgeAt] <;> nlinarith

theorem exBoxOne_pixel {r t : ℝ} (h0 : 0 ≤ r) (h1 : r ≤ 1) :
    InPixel exBoxOne (r*Real.cos t, r*Real.sin t) 0 0 := by
  have c1 := Real.neg_one_le_cos t
  have c2 := Real.cos_le_one t
  have s1 := Real.neg_one_le_sin t
  have s2 := Real.sin_le_one t
  refine ⟨⟨by simp [exBoxOne], ?_, Or.inl ?_⟩, ⟨by simp [exBoxOne], ?_, Or.inl ?_⟩⟩ <;>
      simp [exBoxOne, edgeAt] <;> nlinarith

/-- In the inner ring both points are the same; in the outer ring they are on both sides of the `y`
axis. -/
noncomputable def exDraws (_ j : ℕ) : List ℝ × List ℝ :=
  if j = 0 then ([1/2, 1/2], [1/4, 1/4]) else ([1/2, 1/2], [1/4, 3/4])

theorem exDraws_ok (i j : ℕ) : Draws 2 (exDraws i j) := by
  unfold exDraws
  split_ifs <;> refine ⟨rfl, rfl, ?_, ?_⟩ <;> intro u hu <;> simp at hu <;>
    first
    | (rcases hu with rfl | rfl <;> norm_num)
    | (subst hu; norm_num)

theorem exCos : 0 < Real.cos (Real.pi*(1/4)) ∧ Real.cos (Real.pi*(3/4)) < 0 ∧
    Real.cos (Real.pi*(1 + 1/4)) < 0 ∧ 0 < Real.cos (Real.pi*(1 + 3/4)) := by
  have hpi := Real.pi_pos
  have a : 0 < Real.cos (Real.pi*(1/4)) := Real.cos_pos_of_mem_Ioo ⟨by linarith, by linarith⟩
  have b : Real.cos (Real.pi*(3/4)) < 0 := Real.cos_neg_of_pi_div_two_lt_of_lt (by linarith) (by linarith)
  refine ⟨a, b, ?_, ?_⟩
  · rw [show Real.pi*(1 + 1/4) = Real.pi*(1/4) + Real.pi by ring, Real.cos_add_pi]; linarith
  · rw [show Real.pi*(1 + 3/4) = Real.pi*(3/4) + Real.pi by ring, Real.cos_add_pi]; linarith

/-- The hypotheses of the theorems above: the draws `exDraws`. -/
theorem exDraws_differ : RowsDiffer exBoxTwo (.lin exHalf) exDraws := by
  intro i hi
  have hi : i < 2 := by simpa [Grid.nump, Grid.args, exHalf] using hi
  refine ⟨0, 1, by simp [Grid.numr, Grid.args, exHalf], by simp [Grid.numr, Grid.args, exHalf], ?_⟩
  have hu : (0:ℝ) ≤ 1/2 ∧ (1/2:ℝ) < 1 := by norm_num
  obtain ⟨r, r0, r1, r2, e1⟩ := exHalf_point i 0 (by omega) (w := 1/4) hu
  obtain ⟨p, p0, p1, p2, e2⟩ := exHalf_point i 1 (by omega) (w := 1/4) hu
  obtain ⟨q, q0, q1, q2, e3⟩ := exHalf_point i 1 (by omega) (w := 3/4) hu
  have l0 : (Grid.lin exHalf).points i 0 (exDraws i 0) =
      [(Grid.lin exHalf).point i 0 (1/2) (1/4), (Grid.lin exHalf).point i 0 (1/2) (1/4)] := rfl
  have l1 : (Grid.lin exHalf).points i 1 (exDraws i 1) =
      [(Grid.lin exHalf).point i 1 (1/2) (1/4), (Grid.lin exHalf).point i 1 (1/2) (3/4)] := rfl
  obtain ⟨c1, c2, c3, c4⟩ := exCos
  rw [l0, l1, e1, e2, e3]
  have hi : i = 0 ∨ i = 1 := by omega
  rcases hi with rfl | rfl
  · simp only [Nat.cast_zero, zero_add]
    rw [touched_one exBoxTwo_ok (by simp) (a := 1) (b := 0)]
    · exact (touched_ne_one (List.mem_cons_self ..) (by simp) ((exBoxTwo_pixel p0 p1).1 c1.le)
        ((exBoxTwo_pixel q0 q1).2 (q2 (by norm_num)) c2) (by omega)).symm
    · intro pt hpt
      simp only [List.mem_cons, List.not_mem_nil, or_false, or_self] at hpt
      rw [hpt]
      exact (exBoxTwo_pixel r0 r1).1 c1.le
  · simp only [Nat.cast_one]
    rw [touched_one exBoxTwo_ok (by simp) (a := 0) (b := 0)]
    · exact (touched_ne_one (List.mem_cons_self ..) (by simp) ((exBoxTwo_pixel p0 p1).2 (p2 (by norm_num)) c3)
        ((exBoxTwo_pixel q0 q1).1 c4.le) (by omega)).symm
    · intro pt hpt
      simp only [List.mem_cons, List.not_mem_nil, or_false, or_self] at hpt
      rw [hpt]
      exact (exBoxTwo_pixel r0 r1).2 (r2 (by norm_num)) c3

example : BoxOk exBoxTwo ∧ (Grid.lin exHalf).Ok ∧
    (∀ i j, i < (Grid.lin exHalf).nump → j < (Grid.lin exHalf).numr → Draws 2 (exDraws i j)) ∧
    RowsDiffer exBoxTwo (.lin exHalf) exDraws :=
  ⟨exBoxTwo_ok, exHalf_ok, fun i j _ _ => exDraws_ok i j, exDraws_differ⟩

/-- C71 does not hold: for a box of one pixel that contains the polar grid, `remap` raises `IndexError`
for every draw, every size of the draw and every data. -/
theorem C71_violated (n : ℕ) (hn : 1 < n) (draws : ℕ → ℕ → List ℝ × List ℝ) (hd : ∀ i j, Draws n (draws i j))
    (x : ℝ) (s : Mc.State) :
    ∃ s', mcRemap exBoxOne (.lin exHalf) n draws ⟨1, 1, fun _ _ => some x⟩ none s = (.error .indexError, s') := by
  refine C71_violated_same exBoxOne (.lin exHalf) exBoxOne_ok exHalf_ok n hn draws (fun i j _ _ => hd i j)
    ⟨1, 1, fun _ _ => some x⟩ (fun _ _ => x) ⟨rfl, rfl⟩ (fun _ _ _ _ => rfl) 1 (by norm_num) ?_ s
  intro i j hi hj
  have hj : j < 2 := by simpa [Grid.numr, Grid.args, exHalf] using hj
  obtain ⟨d1, d2, d3, d4⟩ := hd i j
  refine touched_one exBoxOne_ok (a := 0) (b := 0) ?_ ?_
  · intro h
    have := congrArg List.length h
    unfold Grid.points at this
    rw [List.length_zipWith, d1, d2] at this
    simp at this
    omega
  · intro pt hpt
    unfold Grid.points at hpt
    rw [List.mem_iff_getElem] at hpt
    obtain ⟨k, hk, e⟩ := hpt
    rw [List.getElem_zipWith] at e
    obtain ⟨r, r0, r1, -, e2⟩ := exHalf_point i j hj (u := (draws i j).1[k]'(by
      rw [List.length_zipWith] at hk; omega)) (w := (draws i j).2[k]'(by
      rw [List.length_zipWith] at hk; omega)) (d3 _ (List.getElem_mem _))
    rw [← e, e2]
    exact exBoxOne_pixel r0 r1

/-- The draws `exDraws` in the first row; in the second row, those of the inner ring in both rings. -/
noncomputable def exMixed (i j : ℕ) : List ℝ × List ℝ := if i = 0 then exDraws i j else exDraws i 0

/-- The hypotheses of `C71_violated_mixed`. -/
example : (∀ i j, Draws 2 (exMixed i j)) ∧ ¬ RowsDiffer exBoxTwo (.lin exHalf) exMixed ∧
    ¬ ∃ k, AllTouch exBoxTwo (.lin exHalf) exMixed k := by
  have hr : (Grid.lin exHalf).numr = 2 := by simp [Grid.numr, Grid.args, exHalf]
  have hp : (Grid.lin exHalf).nump = 2 := by simp [Grid.nump, Grid.args, exHalf]
  have hrow : ∀ j, j < 2 → touched exBoxTwo ((Grid.lin exHalf).points 1 j (exMixed 1 j)) = 1 := by
    intro j hj
    refine touched_one exBoxTwo_ok (a := 0) (b := 0) (by simp [Grid.points, exMixed, exDraws]) ?_
    intro pt hpt
    have : pt = (Grid.lin exHalf).point 1 j (1/2) (1/4) := by
      simpa [Grid.points, exMixed, exDraws] using hpt
    obtain ⟨r, r0, r1, r2, e⟩ := exHalf_point 1 j hj (u := 1/2) (w := 1/4) (by norm_num)
    rw [this, e, Nat.cast_one]
    exact (exBoxTwo_pixel r0 r1).2 (r2 (by norm_num)) exCos.2.2.1
  refine ⟨?_, ?_, ?_⟩
  · intro i j
    unfold exMixed
    split_ifs
    · exact exDraws_ok i j
    · exact exDraws_ok i 0
  · intro h
    obtain ⟨j, k, hj, hk, hne⟩ := h 1 (by rw [hp]; norm_num)
    rw [hr] at hj hk
    exact hne ((hrow j hj).trans (hrow k hk).symm)
  · rintro ⟨k, h⟩
    obtain ⟨j, l, hj, hl, hne⟩ := exDraws_differ 0 (by rw [hp]; norm_num)
    have e1 := h 0 j (by rw [hp]; norm_num) hj
    have e2 := h 0 l (by rw [hp]; norm_num) hl
    exact hne (e1.trans e2.symm)

/-- The hypotheses of `C71_outside`: a box that does not meet the polar grid. -/
example (n : ℕ) (draws : ℕ → ℕ → List ℝ × List ℝ) (hd : ∀ i j, Draws n (draws i j)) :
    BoxOk ⟨10, 12, 2, 10, 12, 1⟩ ∧ AllTouch ⟨10, 12, 2, 10, 12, 1⟩ (.lin exHalf) draws 0 := by
  refine ⟨by constructor <;> norm_num, ?_⟩
  intro i j hi hj
  have hj : j < 2 := by simpa [Grid.numr, Grid.args, exHalf] using hj
  unfold touched
  have : {c : ℕ × ℕ | ∃ pt ∈ (Grid.lin exHalf).points i j (draws i j), InPixel ⟨10, 12, 2, 10, 12, 1⟩ pt c.1 c.2} = ∅ := by
    rw [Set.eq_empty_iff_forall_notMem]
    rintro c ⟨pt, hpt, ⟨-, h1, -⟩, -⟩
    unfold Grid.points at hpt
    rw [List.mem_iff_getElem] at hpt
    obtain ⟨k, hk, e⟩ := hpt
    rw [List.getElem_zipWith] at e
    obtain ⟨r, r0, r1, -, e2⟩ := exHalf_point i j hj (u := (draws i j).1[k]'(by
      rw [List.length_zipWith] at hk; omega)) (w := (draws i j).2[k]'(by
      rw [List.length_zipWith] at hk; omega)) ((hd i j).2.2.1 _ (List.getElem_mem _))
    have h0 := edgeAt_mono (show (10:ℝ) ≤ 12 by norm_num) (2:ℤ).toNat (Nat.zero_le c.1)
    rw [edgeAt_zero] at h0
    rw [← e, e2] at h1
    simp only at h1
    have := mul_le_mul_of_nonneg_left (Real.cos_le_one (Real.pi*((i:ℝ) + (draws i j).2[k]'(by
      rw [List.length_zipWith] at hk; omega)))) r0
    linarith
  rw [this, Set.ncard_empty]

end Magpie.Props
