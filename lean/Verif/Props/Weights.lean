import Verif.Proof.Weights
import Verif.Props.DgBox2Ring
import Verif.Props.Heal2Ortho

/-!
# C133: weights matter only up to a common factor
-/

set_option linter.unusedSimpArgs false
set_option linter.unusedVariables false
set_option linter.unusedSectionVars false

namespace Magpie.Props
open Magpie Magpie.Radial Magpie.Spec Magpie.Linear

/-- C133, `densegrid.Box2Ring.remap`: the weights `c*w` give what `w` gives, for every object, exceptions included. -/
theorem C133_dense_box (c : ℝ) (hc : c ≠ 0) (f : Arr2 (Option ℝ)) (w : Arr2 ℝ) (s : Dg.State) :
    Dg.remap f (some (times c w)) s = Dg.remap f (some w) s :=
  dg_weights hc f w s

/-- C133, `montecarlo.Box2Ring.remap`. -/
theorem C133_mc_box (c : ℝ) (hc : c ≠ 0) (f : Arr2 (Option ℝ)) (w : Arr2 ℝ) (s : Mc.State) :
    Mc.remap f (some (times c w)) s = Mc.remap f (some w) s :=
  mc_weights hc f w s

/-- C133, `densegrid.Heal2Ortho.remap`. -/
theorem C133_ortho (c : ℝ) (hc : c ≠ 0) (f : List (Option ℝ)) (w : List ℝ) (s : Ortho.State) :
    Ortho.remap f (some (w.map fun x => c*x)) s = Ortho.remap f (some w) s :=
  ortho_weights hc f w s

/-- C133, `montecarlo.Cube2Shell.remap`. -/
theorem C133_mc_cube (c : ℝ) (hc : c ≠ 0) (f : Arr3 (Option ℝ)) (w : Arr3 ℝ) (s : McCube.State) :
    McCube.remap f (some (times3 c w)) s = McCube.remap f (some w) s :=
  cube_weights hc f w s

/-- C133, values of `polar2radial`. -/
theorem C133_radial (c : ℝ) (hc : c ≠ 0) (f : Arr2 (Option ℝ)) (w : Arr2 ℝ) :
    Radial.polar2radial f (some (times c w)) = Radial.polar2radial f (some w) :=
  radial_weights hc f w

/-- C133, errors of `polar2radial`. -/
theorem C133_radial_sigma (c : ℝ) (hc : c ≠ 0) (f : Arr2 (Option ℝ)) (area2d : Arr2 ℝ) (pixarea : ℝ) (sigma w : Arr2 ℝ) :
    polar2radialSigma f area2d pixarea sigma (some (times c w)) = polar2radialSigma f area2d pixarea sigma (some w) :=
  sigma_weights hc f area2d pixarea sigma w

/-- C133: equal weights are no weights, `montecarlo.Box2Ring.remap`. -/
theorem C133_equal_mc_box (c : ℝ) (hc : c ≠ 0) (f : Arr2 (Option ℝ)) (s : Mc.State) :
    Mc.remap f (some ⟨f.rows, f.cols, fun _ _ => c⟩) s = Mc.remap f none s := by
  rw [← mc_ones, ← mc_weights hc f ⟨f.rows, f.cols, fun _ _ => 1⟩ s]
  simp [times]

/-- C133: equal weights are no weights, `montecarlo.Cube2Shell.remap`. -/
theorem C133_equal_mc_cube (c : ℝ) (hc : c ≠ 0) (f : Arr3 (Option ℝ)) (s : McCube.State) :
    McCube.remap f (some ⟨f.n0, f.n1, f.n2, fun _ _ _ => c⟩) s = McCube.remap f none s := by
  rw [← cube_ones, ← cube_weights hc f ⟨f.n0, f.n1, f.n2, fun _ _ _ => 1⟩ s]
  simp [times3]

/-- C133: equal weights are no weights, values of `polar2radial`. -/
theorem C133_equal_radial (c : ℝ) (hc : c ≠ 0) (f : Arr2 (Option ℝ)) :
    Radial.polar2radial f (some ⟨f.rows, f.cols, fun _ _ => c⟩) = Radial.polar2radial f none := by
  have e := radial_weights hc f ⟨f.rows, f.cols, fun _ _ => 1⟩
  simp only [times, mul_one] at e
  rw [e]
  unfold Radial.polar2radial Arr2.zip
  simp only [and_self, if_true, bind, Except.bind, pure, Except.pure]
  refine congrArg Except.ok ?_
  have h1 : ∀ x : Option ℝ, OneD.omul x 1 = x := fun x => by cases x <;> simp [OneD.omul]
  have h2 : ∀ l : List ℕ, OneD.npSum (l.map fun _ => some (1:ℝ)) = some (l.length : ℝ) := by
    intro l
    induction l with
    | nil => simp [OneD.npSum]
    | cons a l ih =>
      rw [List.map_cons, npSum_cons, ih]
      simp [add_comm]
  unfold Arr2.sum0
  simp only [h1, h2, List.length_range, List.zipWith_map, List.map_map]
  rw [List.zipWith_self]
  rfl

/-- C133: equal weights are no weights, errors of `polar2radial`. -/
theorem C133_equal_radial_sigma (c : ℝ) (hc : c ≠ 0) (f : Arr2 (Option ℝ)) (area2d : Arr2 ℝ) (pixarea : ℝ) (sigma : Arr2 ℝ)
    (hr : sigma.rows = f.rows) (hcol : sigma.cols = f.cols) :
    polar2radialSigma f area2d pixarea sigma (some ⟨f.rows, f.cols, fun _ _ => c⟩) =
      polar2radialSigma f area2d pixarea sigma none := by
  have e := sigma_weights hc f area2d pixarea sigma ⟨f.rows, f.cols, fun _ _ => 1⟩
  simp only [times, mul_one] at e
  rw [e]
  have h2 : ∀ l : List ℕ, OneD.npSum (l.map fun _ => some (1:ℝ)) = some (l.length : ℝ) := by
    intro l
    induction l with
    | nil => simp [OneD.npSum]
    | cons a l ih =>
      rw [List.map_cons, npSum_cons, ih]
      simp [add_comm]
  unfold polar2radialSigma Arr2.zip
  simp only [hr, hcol, and_self, if_true, bind, Except.bind, pure, Except.pure, one_mul]
  by_cases h : area2d.rows = f.rows ∧ area2d.cols = f.cols
  swap
  · simp only [if_neg h]
  simp only [if_pos h]
  refine congrArg Except.ok ?_
  unfold Arr2.sum0
  simp only [h2, h.2, List.length_range, List.zipWith_map, List.map_map]
  rw [List.zipWith_self]
  rfl

section
open Magpie.Box2Ring Magpie.Dg Finset
variable (B : BoxArgs) (A : PolarArgs) (m : ℕ) (hB : BoxOk B) (hA : PolarOk A) (hr : 2 ≤ A.numr) (hp : 2 ≤ A.nump)
  (hm : 1 ≤ m) (f : Arr2 (Option ℝ)) (v : ℕ → ℕ → ℝ) (hfr : f.rows = B.numy.toNat) (hfc : f.cols = B.numx.toNat)
  (hv : ∀ i j, i < f.rows → j < f.cols → f.val i j = some (v i j))
include hB hA hr hp hm hfr hfc hv

/-- C133: equal weights are no weights, `densegrid.Box2Ring.remap`, in pixels all of whose dense points are in the box.
Missing: other pixels, see `C133_equal_dense_box_violated`. -/
theorem C133_equal_dense_box_partial (c : ℝ) (hc : c ≠ 0) (s : Dg.State) :
    ∃ x y s1 s2, (do setupBox B; setupPolar A m m; remap f none : Meth Dg.State _) s = (.ok x, s1) ∧
      (do setupBox B; setupPolar A m m; remap f (some ⟨f.rows, f.cols, fun _ _ => c⟩) : Meth Dg.State _) s = (.ok y, s2) ∧
      ∀ i j, i < A.nump.toNat → j < A.numr.toNat →
        (∀ k l, k < m → l < m → InBox B (densePoint A m m (i*m + k) (j*m + l))) → y.val i j = x.val i j := by
  choose g hg using fun n q => exists_reads B hB v (densePoint A m m n q)
  choose gw hgw using fun n q => exists_reads B hB (fun _ _ => c) (densePoint A m m n q)
  obtain ⟨x, s1, e1, -, -, h1⟩ := C73_remap_partial B A m hB hA hr hp hm f v hfr hfc hv g (fun n q _ _ => hg n q) s
  obtain ⟨y, s2, e2, -, -, h2⟩ := C73_weighted_partial B A m hB hA hr hp hm f ⟨f.rows, f.cols, fun _ _ => c⟩ v hfr hfc
    hfr hfc hv g gw (fun n q _ _ => hg n q) (fun n q _ _ => hgw n q) s
  refine ⟨x, y, s1, s2, e1, e2, fun i j hi hj hin => ?_⟩
  have hw : ∀ k l, k < m → l < m → gw (i*m + k) (j*m + l) = c := by
    intro k l hk hl
    obtain ⟨a, b, ha, hb⟩ := (inBox_iff hB _).mpr (hin k l hk hl)
    exact (hgw _ _).1 a b ha hb
  have ew : areaSum A m gw i j = c*areaSum A m (fun _ _ => 1) i j := by
    unfold areaSum
    rw [mul_sum]
    refine sum_congr rfl fun k hk => ?_
    rw [mul_sum]
    refine sum_congr rfl fun l hl => ?_
    rw [hw k l (mem_range.mp hk) (mem_range.mp hl)]
    ring
  have eg : areaSum A m (fun n q => gw n q*g n q) i j = c*areaSum A m g i j := by
    unfold areaSum
    rw [mul_sum]
    refine sum_congr rfl fun k hk => ?_
    rw [mul_sum]
    refine sum_congr rfl fun l hl => ?_
    simp only [hw k l (mem_range.mp hk) (mem_range.mp hl)]
    ring
  have hpos := areaSum_pos hA hm i j
  rw [h1 i j hi hj, (h2 i j hi hj).1 (by rw [ew]; exact mul_ne_zero hc hpos.ne'), eg, ew, mul_div_mul_left _ _ hc]

/-- C133: in pixels all of whose dense points are outside the box the dense grid gives 0 without weights, and NaN with
equal weights. -/
theorem C133_equal_dense_box_violated (c : ℝ) (s : Dg.State) :
    ∃ x y s1 s2, (do setupBox B; setupPolar A m m; remap f none : Meth Dg.State _) s = (.ok x, s1) ∧
      (do setupBox B; setupPolar A m m; remap f (some ⟨f.rows, f.cols, fun _ _ => c⟩) : Meth Dg.State _) s = (.ok y, s2) ∧
      ∀ i j, i < A.nump.toNat → j < A.numr.toNat →
        (∀ k l, k < m → l < m → ¬ InBox B (densePoint A m m (i*m + k) (j*m + l))) →
          x.val i j = some 0 ∧ y.val i j = none := by
  choose g hg using fun n q => exists_reads B hB v (densePoint A m m n q)
  choose gw hgw using fun n q => exists_reads B hB (fun _ _ => c) (densePoint A m m n q)
  obtain ⟨x, s1, e1, -, -, h1⟩ := C73_remap_partial B A m hB hA hr hp hm f v hfr hfc hv g (fun n q _ _ => hg n q) s
  obtain ⟨y, s2, e2, -, -, h2⟩ := C73_weighted_partial B A m hB hA hr hp hm f ⟨f.rows, f.cols, fun _ _ => c⟩ v hfr hfc
    hfr hfc hv g gw (fun n q _ _ => hg n q) (fun n q _ _ => hgw n q) s
  refine ⟨x, y, s1, s2, e1, e2, fun i j hi hj hin => ?_⟩
  have hz : ∀ g' : ℕ → ℕ → ℝ, (∀ k l, k < m → l < m → g' (i*m + k) (j*m + l) = 0) → areaSum A m g' i j = 0 := by
    intro g' hg'
    unfold areaSum
    refine sum_eq_zero fun k hk => sum_eq_zero fun l hl => ?_
    rw [hg' k l (mem_range.mp hk) (mem_range.mp hl), mul_zero]
  rw [h1 i j hi hj, hz g fun k l hk hl => (hg _ _).2 fun h => hin k l hk hl ((inBox_iff hB _).mp h), zero_div]
  exact ⟨rfl, (h2 i j hi hj).2 (hz gw fun k l hk hl => (hgw _ _).2 fun h => hin k l hk hl ((inBox_iff hB _).mp h))⟩

end

open Magpie.Ortho in
/-- C133: in `densegrid.Heal2Ortho` equal weights are not the same as no weights for rebin factors above 1 (the default
is 2): a constant map has the value `m*x` without weights, and `x` with equal weights, in pixels on the sphere. -/
theorem C133_equal_ortho_violated (ang2pix : ℤ → ℝ → ℝ → ℕ) (A : Ortho.BoxArgs) (c : ℝ × ℝ) (n : ℤ) (m : ℕ)
    (hA : Valid A c) (hn : 0 < n) (hm : 2 ≤ m) (hx : A.rebinX = m) (hy : A.rebinY = m) (x : ℝ) (hx0 : x ≠ 0)
    (hpix : ∀ t p, ang2pix n t p < 12*n.toNat^2) (s : Ortho.State) :
    ∃ u v s1 s2, (do Ortho.setupMap n; Ortho.setupBox ang2pix A
                     Ortho.remap (List.replicate (12*n.toNat^2) (some x)) none : Meth Ortho.State _) s = (.ok u, s1) ∧
      (do Ortho.setupMap n; Ortho.setupBox ang2pix A
          Ortho.remap (List.replicate (12*n.toNat^2) (some x)) (some (List.replicate (12*n.toNat^2) 1)) :
          Meth Ortho.State _) s = (.ok v, s2) ∧
      ∀ i j, i < ny A → j < nx A →
        (∀ k l, k < m → l < m → OnSphere A.radius (point A m m (i*m + k) (j*m + l))) →
        u.val i j = some (m*x) ∧ v.val i j = some x ∧ u.val i j ≠ v.val i j := by
  obtain ⟨u, s1, e1, h1⟩ := C77_violated ang2pix A c n m hA hn hm hx hy x hx0 hpix s
  obtain ⟨v, s2, e2, h2⟩ := C77_weighted_constant_partial ang2pix A c n m hA hn (by omega) hx hy x
    (List.replicate (12*n.toNat^2) 1) (by simp) (fun a ha => by rw [List.eq_of_mem_replicate ha]; norm_num) hpix s
  refine ⟨u, v, s1, s2, e1, e2, fun i j hi hj hin => ⟨(h1 i j hi hj hin).1, h2 i j hi hj hin, ?_⟩⟩
  rw [h2 i j hi hj hin]
  exact (h1 i j hi hj hin).2

/-! ### Examples -/

/-- A box and a polar grid whose dense points are all in the box, and a box that holds none of them: the hypotheses of
`C133_equal_dense_box_partial` and `C133_equal_dense_box_violated`. -/
example : (∀ i j k l, i < exPolar.nump.toNat → j < exPolar.numr.toNat → k < 3 → l < 3 →
      Dg.InBox exBox (Dg.densePoint exPolar 3 3 (i*3 + k) (j*3 + l))) ∧
    Box2Ring.BoxOk ⟨-10, -3, 4, -3, 3, 6⟩ ∧ ∀ i j k l, i < exPolar.nump.toNat → j < exPolar.numr.toNat → k < 3 → l < 3 →
      ¬ Dg.InBox ⟨-10, -3, 4, -3, 3, 6⟩ (Dg.densePoint exPolar 3 3 (i*3 + k) (j*3 + l)) := by
  have h : ∀ i j k l, i < exPolar.nump.toNat → j < exPolar.numr.toNat → k < 3 → l < 3 →
      Dg.InBox exBox (Dg.densePoint exPolar 3 3 (i*3 + k) (j*3 + l)) := by
    intro i j k l _ hj _ hl
    exact exPolar_inBox 3 _ _ (by norm_num) (by simp [exPolar] at hj ⊢; omega)
  refine ⟨h, by constructor <;> norm_num, fun i j k l hi hj hk hl h' => ?_⟩
  have h1 := (h i j k l hi hj hk hl).1
  have h2 := h'.2.1
  simp only [exBox] at h1 h2
  linarith


/-- The factor matters if it is zero: all values become NaN. -/
example : Radial.polar2radial (⟨1, 1, fun _ _ => some 3⟩ : Arr2 (Option ℝ)) (some (times 2 ⟨1, 1, fun _ _ => 5⟩)) =
      .ok [some 3] ∧
    Radial.polar2radial (⟨1, 1, fun _ _ => some 3⟩ : Arr2 (Option ℝ)) (some (times 0 ⟨1, 1, fun _ _ => 5⟩)) =
      .ok [none] := by
  constructor
  · rw [C133_radial 2 (by norm_num)]
    simp [Radial.polar2radial, Arr2.zip, Arr2.sum0, OneD.omul, OneD.odiv, OneD.npSum, fdiv, bind, Except.bind, pure,
      Except.pure, List.range_succ]
  · simp [Radial.polar2radial, Arr2.zip, Arr2.sum0, OneD.omul, OneD.odiv, OneD.npSum, fdiv, bind, Except.bind, pure,
      Except.pure, List.range_succ, times]

end Magpie.Props
