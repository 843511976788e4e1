import Verif.Proof.Box2Ring

/-!
# The dense grid `Box2Ring` class: remapping
-/

set_option linter.unusedSimpArgs false
set_option linter.unusedVariables false
set_option linter.unusedSectionVars false

namespace Magpie.Props
open Magpie Magpie.Radial Magpie.OneD Magpie.Spec Magpie.Box2Ring Magpie.Dg Finset

/-- C73, for `rebin_r = rebin_p = m`: after `setup_box` and `setup_polar`, on an object with any history,
`remap(f)` returns a `nump × numr` array; each value is the mean, weighted by area, of the values `g` read
at the centres of the `m × m` dense cells of the pixel. A centre in the box reads the value of the box
pixel it is in; one outside the box reads `0`. Missing: `rebin_r ≠ rebin_p`, see `C73_violated`. -/
theorem C73_remap_partial (B : BoxArgs) (A : PolarArgs) (m : ℕ) (hB : BoxOk B) (hA : PolarOk A)
    (hr : 2 ≤ A.numr) (hp : 2 ≤ A.nump) (hm : 1 ≤ m) (f : Arr2 (Option ℝ)) (v : ℕ → ℕ → ℝ)
    (hfr : f.rows = B.numy.toNat) (hfc : f.cols = B.numx.toNat)
    (hv : ∀ i j, i < f.rows → j < f.cols → f.val i j = some (v i j)) (g : ℕ → ℕ → ℝ)
    (hg : ∀ n q, n < m*A.nump.toNat → q < m*A.numr.toNat → Reads B v (densePoint A m m n q) (g n q))
    (s : Dg.State) :
    ∃ out s', (do setupBox B; setupPolar A m m; remap f none : Meth Dg.State _) s = (.ok out, s') ∧
      out.rows = A.nump.toNat ∧ out.cols = A.numr.toNat ∧
      ∀ i j, i < A.nump.toNat → j < A.numr.toNat →
        out.val i j = some (areaSum A m g i j/areaSum A m (fun _ _ => 1) i j) := by
  obtain ⟨s', e, hs, -⟩ := setup_run hB.numx hB.numy hA hr hp m m s
  obtain ⟨out, h1, h2, h3, h4⟩ := remap1_mean hB hA hm hs f v hfr hfc hv g hg
  refine ⟨out, s', ?_, h2, h3, h4⟩
  simp only [Meth.bind_apply] at e ⊢
  rw [setupBox_ok hB.numx hB.numy] at e ⊢
  simp only at e ⊢
  rw [e]
  exact h1

/-- C73 with weights: each value is the mean weighted by area times weight, or NaN if all the weights
read are zero (NaN too, or infinite, if they cancel). Points outside the box have weight zero. -/
theorem C73_weighted_partial (B : BoxArgs) (A : PolarArgs) (m : ℕ) (hB : BoxOk B) (hA : PolarOk A)
    (hr : 2 ≤ A.numr) (hp : 2 ≤ A.nump) (hm : 1 ≤ m) (f : Arr2 (Option ℝ)) (w : Arr2 ℝ) (v : ℕ → ℕ → ℝ)
    (hfr : f.rows = B.numy.toNat) (hfc : f.cols = B.numx.toNat)
    (hwr : w.rows = B.numy.toNat) (hwc : w.cols = B.numx.toNat)
    (hv : ∀ i j, i < f.rows → j < f.cols → f.val i j = some (v i j)) (g gw : ℕ → ℕ → ℝ)
    (hg : ∀ n q, n < m*A.nump.toNat → q < m*A.numr.toNat → Reads B v (densePoint A m m n q) (g n q))
    (hgw : ∀ n q, n < m*A.nump.toNat → q < m*A.numr.toNat →
      Reads B w.val (densePoint A m m n q) (gw n q))
    (s : Dg.State) :
    ∃ out s', (do setupBox B; setupPolar A m m; remap f (some w) : Meth Dg.State _) s = (.ok out, s') ∧
      out.rows = A.nump.toNat ∧ out.cols = A.numr.toNat ∧
      ∀ i j, i < A.nump.toNat → j < A.numr.toNat →
        (areaSum A m gw i j ≠ 0 → out.val i j
          = some (areaSum A m (fun n q => gw n q*g n q) i j/areaSum A m gw i j)) ∧
        (areaSum A m gw i j = 0 → out.val i j = none) := by
  obtain ⟨s', e, hs, -⟩ := setup_run hB.numx hB.numy hA hr hp m m s
  obtain ⟨o1, a1, a2, a3, a4⟩ := remap1_mean hB hA hm hs
    ⟨f.rows, f.cols, fun i j => omul (f.val i j) (w.val i j)⟩ (fun i j => w.val i j*v i j) hfr hfc
    (by
      intro i j hi hj
      show omul (f.val i j) _ = _
      rw [hv i j hi hj]
      simp [omul, mul_comm])
    (fun n q => gw n q*g n q) (by
      intro n q hn hq
      obtain ⟨b1, b2⟩ := hg n q hn hq
      obtain ⟨c1, c2⟩ := hgw n q hn hq
      refine ⟨fun a b ha hb => ?_, fun hno => ?_⟩
      · show gw n q*g n q = w.val b a*v b a
        rw [b1 a b ha hb, c1 a b ha hb]
      · show gw n q*g n q = 0
        rw [b2 hno, mul_zero])
  obtain ⟨o2, d1, d2, d3, d4⟩ := remap1_mean hB hA hm hs
    ⟨w.rows, w.cols, fun i j => some (w.val i j)⟩ w.val hwr hwc (fun i j _ _ => rfl) gw hgw
  refine ⟨⟨o1.rows, o1.cols, fun i j => odiv (o1.val i j) (o2.val i j)⟩, s', ?_, a2, a3, ?_⟩
  · simp only [Meth.bind_apply] at e ⊢
    rw [setupBox_ok hB.numx hB.numy] at e ⊢
    simp only at e ⊢
    rw [e]
    have hz1 : f.rows = w.rows ∧ f.cols = w.cols := ⟨hfr.trans hwr.symm, hfc.trans hwc.symm⟩
    have hz2 : o1.rows = o2.rows ∧ o1.cols = o2.cols := ⟨a2.trans d2.symm, a3.trans d3.symm⟩
    show remap f (some w) s' = _
    unfold remap
    simp only [Meth.bind_apply, Meth.lift_apply, Arr2.zip, if_pos hz1, a1, d1, if_pos hz2]
  · intro i j hi hj
    have hpos := (areaSum_pos hA hm i j).ne'
    show (_ → odiv (o1.val i j) (o2.val i j) = _) ∧ (_ → odiv (o1.val i j) (o2.val i j) = _)
    rw [a4 i j hi hj, d4 i j hi hj]
    unfold odiv fdiv
    simp only
    constructor
    · intro h
      rw [if_neg (div_ne_zero h hpos), div_div_div_cancel_right₀ hpos]
    · intro h
      rw [h, zero_div, if_pos rfl]

/-- C73, consequence: if all the dense points of a polar pixel are in the box and all values of the grid
are in `[a, b]`, the value is in `[a, b]`; in particular a constant is preserved. -/
theorem C73_bounds_partial (B : BoxArgs) (A : PolarArgs) (m : ℕ) (hB : BoxOk B) (hA : PolarOk A)
    (hr : 2 ≤ A.numr) (hp : 2 ≤ A.nump) (hm : 1 ≤ m) (f : Arr2 (Option ℝ)) (v : ℕ → ℕ → ℝ)
    (hfr : f.rows = B.numy.toNat) (hfc : f.cols = B.numx.toNat)
    (hv : ∀ i j, i < f.rows → j < f.cols → f.val i j = some (v i j)) (a b : ℝ)
    (hab : ∀ i j, i < f.rows → j < f.cols → a ≤ v i j ∧ v i j ≤ b) (s : Dg.State) :
    ∃ out s', (do setupBox B; setupPolar A m m; remap f none : Meth Dg.State _) s = (.ok out, s') ∧
      ∀ i j, i < A.nump.toNat → j < A.numr.toNat →
        (∀ k l, k < m → l < m → InBox B (densePoint A m m (i*m + k) (j*m + l))) →
        ∃ x, out.val i j = some x ∧ a ≤ x ∧ x ≤ b := by
  choose g hg using fun n q => exists_reads B hB v (densePoint A m m n q)
  obtain ⟨out, s', h1, h2, h3, h4⟩ := C73_remap_partial B A m hB hA hr hp hm f v hfr hfc hv g
    (fun n q _ _ => hg n q) s
  refine ⟨out, s', h1, fun i j hi hj hin => ⟨_, h4 i j hi hj, ?_⟩⟩
  have hpos := areaSum_pos hA hm i j
  have hgab : ∀ k l, k < m → l < m → a ≤ g (i*m + k) (j*m + l) ∧ g (i*m + k) (j*m + l) ≤ b := by
    intro k l hk hl
    obtain ⟨c, d, hc, hd⟩ := (inBox_iff hB _).mpr (hin k l hk hl)
    rw [(hg (i*m + k) (j*m + l)).1 c d hc hd]
    exact hab d c (by rw [hfr]; exact hd.1) (by rw [hfc]; exact hc.1)
  have ea : ∀ c : ℝ, c*areaSum A m (fun _ _ => 1) i j = areaSum A m (fun _ _ => c) i j := by
    intro c
    unfold areaSum
    rw [mul_sum]
    refine sum_congr rfl fun k _ => ?_
    rw [mul_sum]
    exact sum_congr rfl fun l _ => by ring
  constructor
  · rw [le_div_iff₀ hpos, ea]
    unfold areaSum
    refine sum_le_sum fun k hk => sum_le_sum fun l hl => ?_
    exact mul_le_mul_of_nonneg_left (hgab k l (mem_range.mp hk) (mem_range.mp hl)).1
      (denseArea_pos hA hm _ _).le
  · rw [div_le_iff₀ hpos, ea]
    unfold areaSum
    refine sum_le_sum fun k hk => sum_le_sum fun l hl => ?_
    exact mul_le_mul_of_nonneg_left (hgab k l (mem_range.mp hk) (mem_range.mp hl)).2
      (denseArea_pos hA hm _ _).le

/-- C73 does not hold for `rebin_r ≠ rebin_p`: whatever the valid grids and the data, `remap` raises
`ValueError`. -/
theorem C73_violated (B : BoxArgs) (A : PolarArgs) (mr mp : ℕ) (hB : BoxOk B) (hA : PolarOk A)
    (hr : 2 ≤ A.numr) (hp : 2 ≤ A.nump) (h1 : 1 ≤ mr) (h2 : 1 ≤ mp) (hne : mr ≠ mp)
    (f : Arr2 (Option ℝ)) (v : ℕ → ℕ → ℝ)
    (hfr : f.rows = B.numy.toNat) (hfc : f.cols = B.numx.toNat)
    (hv : ∀ i j, i < f.rows → j < f.cols → f.val i j = some (v i j)) (s : Dg.State) :
    ∃ s', (do setupBox B; setupPolar A mr mp; remap f none : Meth Dg.State _) s = (.error .valueError, s') := by
  obtain ⟨s', e, hs, -⟩ := setup_run hB.numx hB.numy hA hr hp mr mp s
  refine ⟨s', ?_⟩
  simp only [Meth.bind_apply] at e ⊢
  rw [setupBox_ok hB.numx hB.numy] at e ⊢
  simp only at e ⊢
  rw [e]
  exact remap1_error hB hA h1 h2 hne hs f v hfr hfc hv

/-- Hypotheses of the theorems above: a box `[-2, 2] × [-3, 3]` of `4 × 6` pixels. -/
def exBox : BoxArgs := ⟨-2, 2, 4, -3, 3, 6⟩

/-- A polar grid of `2` rings and `5` sectors with radius `1`. -/
noncomputable def exPolar : PolarArgs := { rmin := 0, rmax := 1, numr := 2, nump := 5 }

theorem exBox_ok : BoxOk exBox := by
  constructor <;> simp [exBox] <;> norm_num

theorem exPolar_ok : PolarOk exPolar := by
  have := Real.pi_pos
  constructor <;> simp [exPolar] <;> positivity

/-- All the dense points of the example are in the box. -/
theorem exPolar_inBox (m n q : ℕ) (hm : 1 ≤ m) (hq : q < m*exPolar.numr.toNat) :
    InBox exBox (densePoint exPolar m m n q) := by
  have hn : 0 < m*exPolar.numr.toNat := by omega
  have h0 := edgeAt_mono (show (0:ℝ) ≤ 1 by norm_num) (m*exPolar.numr.toNat) (Nat.zero_le q)
  have h0' := edgeAt_mono (show (0:ℝ) ≤ 1 by norm_num) (m*exPolar.numr.toNat) (Nat.zero_le (q+1))
  have h1 := edgeAt_mono (show (0:ℝ) ≤ 1 by norm_num) (m*exPolar.numr.toNat) (show q + 1 ≤ _ from hq)
  have h2 := edgeAt_mono (show (0:ℝ) ≤ 1 by norm_num) (m*exPolar.numr.toNat) hq.le
  rw [edgeAt_zero] at h0 h0'
  rw [edgeAt_last _ _ _ hn] at h1 h2
  unfold InBox densePoint
  set r := midAt exPolar.rmin exPolar.rmax (m*exPolar.numr.toNat) q with hr
  have hr0 : 0 ≤ r := by rw [hr]; unfold midAt; simp only [exPolar] at *; linarith
  have hr1 : r ≤ 1 := by rw [hr]; unfold midAt; simp only [exPolar] at *; linarith
  set p := midAt exPolar.pmin exPolar.pmax (m*exPolar.nump.toNat) n + exPolar.phiShift
  have c1 := Real.cos_le_one p
  have c2 := Real.neg_one_le_cos p
  have s1 := Real.sin_le_one p
  have s2 := Real.neg_one_le_sin p
  simp only [exBox, exPolar, List.getD_cons_zero, List.getD_cons_succ]
  refine ⟨?_, ?_, ?_, ?_⟩ <;> nlinarith

example : BoxOk exBox ∧ PolarOk exPolar ∧ 2 ≤ exPolar.numr ∧ 2 ≤ exPolar.nump ∧
    (∀ i j k l, i < exPolar.nump.toNat → j < exPolar.numr.toNat → k < 3 → l < 3 →
      InBox exBox (densePoint exPolar 3 3 (i*3 + k) (j*3 + l))) := by
  refine ⟨exBox_ok, exPolar_ok, by simp [exPolar], by simp [exPolar], ?_⟩
  intro i j k l _ hj _ hl
  exact exPolar_inBox 3 _ _ (by norm_num) (by simp [exPolar] at hj ⊢; omega)

end Magpie.Props
