import Verif.Props.Box2RingMask
import Verif.Props.McBox2Ring
import Verif.Props.Grids
import Verif.Props.ObjectCalls

/-!
# The errors of radial profiles of a `Box2Ring` object
-/

set_option linter.unusedSimpArgs false
set_option linter.unusedVariables false
set_option linter.unusedSectionVars false

namespace Magpie.Props
open Magpie Magpie.Radial Magpie.OneD Magpie.Spec Magpie.Box2Ring Finset

/-! ## C54: pixel areas and sector areas -/

/-- C54: the area of a cell of a grid of edges, whatever the two numbers of cells are. -/
theorem C54_pixarea (x0 x1 y0 y1 : ℝ) (nx ny : ℕ) (hx : 0 < nx) (hy : 0 < ny) :
    getPixarea (linspace x0 x1 (nx + 1)) (linspace y0 y1 (ny + 1)) = .ok ((x1 - x0)/nx*((y1 - y0)/ny)) := by
  obtain ⟨n, rfl⟩ : ∃ n, nx = n + 1 := ⟨nx - 1, by omega⟩
  obtain ⟨k, rfl⟩ : ∃ n, ny = n + 1 := ⟨ny - 1, by omega⟩
  rw [linspace_eq, linspace_eq, List.range_succ_eq_map, List.range_succ_eq_map, List.range_succ_eq_map,
    List.range_succ_eq_map]
  simp only [List.map_cons, getPixarea]
  have h1 := edgeAt_diff x0 x1 (n+1) 0
  have h2 := edgeAt_diff y0 y1 (k+1) 0
  simp only [zero_add, Nat.succ_eq_add_one] at h1 h2 ⊢
  rw [h1, h2]

/-- C54: the area of a sector, `(r₁² - r₀²)/2` times the angle, for linear and logarithmic grids. -/
theorem C54_sector {G : Mc.Grid} (h : G.Ok) :
    ∃ a, getPolarArea2d G.edges.redges G.edges.pedges = .ok a ∧ a.rows = G.nump ∧ a.cols = G.numr ∧
      ∀ i j, j < G.numr → a.val i j
        = ((G.rEdge (j+1))^2 - (G.rEdge j)^2)/2*((G.args.pmax - G.args.pmin)/G.nump) := by
  have hp := Mc.Grid.nump_two h
  have hlen := G.redges_length
  obtain ⟨n, hn⟩ : ∃ n, G.nump = n + 1 := ⟨G.nump - 1, by omega⟩
  have e : G.edges.pedges = edgeAt G.args.pmin G.args.pmax (n+1) 0 :: edgeAt G.args.pmin G.args.pmax (n+1) 1 ::
      ((List.range n).map fun k => edgeAt G.args.pmin G.args.pmax (n+1) (k+2)) := by
    rw [G.pedges_eq, hn, linspace_eq, List.range_succ_eq_map, List.range_succ_eq_map]
    simp [Function.comp_def]
  unfold getPolarArea2d
  rw [e]
  simp only
  refine ⟨_, rfl, ?_, ?_, ?_⟩
  · simp [hn]
  · simp [hlen]
  · intro i j hj
    simp only
    have g1 := Mc.Grid.redges_getD h j hj.le
    have g2 := Mc.Grid.redges_getD h (j+1) hj
    rw [List.getD_eq_getElem?_getD, List.getElem?_eq_getElem (by omega), Option.getD_some] at g1 g2
    rw [List.getD_eq_getElem?_getD, List.getElem?_zipWith, List.getElem?_dropLast, List.getElem?_tail, hlen,
      if_pos (by omega), List.getElem?_eq_getElem (by omega : j < G.edges.redges.length),
      List.getElem?_eq_getElem (by omega : j+1 < G.edges.redges.length)]
    simp only [Option.getD_some, g1, g2]
    have := edgeAt_diff G.args.pmin G.args.pmax (n+1) 0
    rw [zero_add] at this
    rw [this, hn]
    have := Real.pi_ne_zero
    field_simp

/-- The edges of rings increase. -/
theorem rEdge_lt {G : Mc.Grid} (h : G.Ok) (j : ℕ) (hj : j < G.numr) : G.rEdge j < G.rEdge (j+1) := by
  have hA := h.polar
  cases G with
  | lin A =>
    exact edgeAt_strict hA.r (show 0 < A.numr.toNat by have : 0 < A.numr := hA.numr; omega) (Nat.lt_succ_self j)
  | log A z =>
    have h0 : 0 < A.rmin := h.1
    have hq : 1 < A.rmax/A.rmin := (one_lt_div h0).mpr hA.r
    have hn : j < A.numr.toNat := hj
    cases z with
    | false =>
      show A.rmin*(A.rmax/A.rmin)^((j:ℝ)/A.numr.toNat) < A.rmin*(A.rmax/A.rmin)^(((j+1 : ℕ):ℝ)/A.numr.toNat)
      have hN : (0:ℝ) < A.numr.toNat := by exact_mod_cast (by omega : 0 < A.numr.toNat)
      refine mul_lt_mul_of_pos_left (Real.rpow_lt_rpow_of_exponent_lt hq ?_) h0
      rw [div_lt_div_iff_of_pos_right hN]
      push_cast
      linarith
    | true =>
      cases j with
      | zero =>
        show (0:ℝ) < A.rmin*(A.rmax/A.rmin)^(((0:ℕ):ℝ)/(A.numr.toNat - 1 : ℕ))
        have := Real.rpow_pos_of_pos (zero_lt_one.trans hq) (((0:ℕ):ℝ)/(A.numr.toNat - 1 : ℕ))
        positivity
      | succ j =>
        show A.rmin*(A.rmax/A.rmin)^((j:ℝ)/(A.numr.toNat - 1 : ℕ))
          < A.rmin*(A.rmax/A.rmin)^(((j+1 : ℕ):ℝ)/(A.numr.toNat - 1 : ℕ))
        have hN : (0:ℝ) < (A.numr.toNat - 1 : ℕ) := by exact_mod_cast (by omega : 0 < A.numr.toNat - 1)
        refine mul_lt_mul_of_pos_left (Real.rpow_lt_rpow_of_exponent_lt hq ?_) h0
        rw [div_lt_div_iff_of_pos_right hN]
        push_cast
        linarith

/-- The radial error after masking with a mask of zeros and ones. -/
theorem radialOf_sigma (p : Polar) (a : Arr2 ℝ) (px : ℝ) (M : Arr2 ℝ) (h01 : Mask01 M)
    (f : Arr2 (Option ℝ)) (sg : Arr2 ℝ) (w : Option (Arr2 ℝ))
    (hf : f.sameShape M) (hs : sg.sameShape M) (hw : ∀ s, w = some s → s.sameShape M)
    (har : a.rows = f.rows) (hac : a.cols = f.cols) (hpx : 0 ≤ px)
    (hpos : ∀ i j, i < f.rows → j < f.cols → 0 < a.val i j)
    (out : Box2Ring.Radial) (ho : radialOf p a px M f (some sg) w = .ok out) :
    ∃ l, out.sigma = some l ∧ l.length = f.cols ∧ ∀ j, j < f.cols → ∑ i ∈ range f.rows, effW M w i j ≠ 0 →
      l[j]? = some (some (Real.sqrt (∑ i ∈ range f.rows, px/a.val i j*(effW M w i j*sg.val i j)^2)
        / |∑ i ∈ range f.rows, effW M w i j|)) := by
  have key : ∀ (f' : Arr2 (Option ℝ)) (s' : Arr2 ℝ) (w' c' : Option (Arr2 ℝ)),
      applyMask M f (some sg) w = .ok (f', some s', w', c') →
        ∃ l, polar2radialSigma f' a px s' w' = .ok l ∧ out.sigma = some l := by
    intro f' s' w' c' h1
    unfold radialOf at ho
    rw [h1] at ho
    simp only [bind, Except.bind, pure, Except.pure] at ho
    cases hp : pyAssert (s'.sameShape p.p2d) with
    | error e => rw [hp] at ho; cases ho
    | ok _ =>
      rw [hp] at ho
      simp only at ho
      cases h2 : Radial.polar2radial f' w' with
      | error e => rw [h2] at ho; cases ho
      | ok r =>
        rw [h2] at ho
        simp only at ho
        cases hq : polar2radialSigma f' a px s' w' with
        | error e => rw [hq] at ho; cases ho
        | ok r' =>
          rw [hq] at ho
          simp only [Except.ok.injEq] at ho
          exact ⟨r', rfl, by rw [← ho]⟩
  have hfr : f.rows = M.rows := hf.1
  have hfc : f.cols = M.cols := hf.2
  by_cases hall : ∃ i j, i < M.rows ∧ j < M.cols ∧ M.val i j = 0
  · obtain ⟨i0, j0, hi, hj, h0⟩ := hall
    have e := applyMask_some hi hj h0 f hf (some sg) (by rintro s ⟨⟩; exact hs) w hw
    obtain ⟨l, hl, ho'⟩ := key _ _ _ _ e
    refine ⟨l, ho', ?_⟩
    obtain ⟨W, hl, hWr, hWc, hWv⟩ : ∃ W : Arr2 ℝ, polar2radialSigma
        ⟨f.rows, f.cols, fun i j => if M.val i j ≠ 1 then some 0 else f.val i j⟩ a px
        ⟨sg.rows, sg.cols, fun i j => if M.val i j ≠ 1 then 0 else sg.val i j⟩ (some W) = .ok l ∧
          W.rows = f.rows ∧ W.cols = f.cols ∧ ∀ i j, i < f.rows → j < f.cols → W.val i j = effW M w i j := by
      refine ⟨_, hl, ?_⟩
      clear hl e key ho
      cases w with
      | none =>
        refine ⟨hfr.symm, hfc.symm, fun i j hi hj => ?_⟩
        rcases h01 i j (hfr ▸ hi) (hfc ▸ hj) with h | h <;> simp [effW, h]
      | some w =>
        refine ⟨(hw w rfl).1.trans hfr.symm, (hw w rfl).2.trans hfc.symm, fun i j hi hj => ?_⟩
        rcases h01 i j (hfr ▸ hi) (hfc ▸ hj) with h | h <;> simp [effW, h]
    obtain ⟨l', e1, e2, e3⟩ := C54_formula
      ⟨f.rows, f.cols, fun i j => if M.val i j ≠ 1 then some 0 else f.val i j⟩ a
      ⟨sg.rows, sg.cols, fun i j => if M.val i j ≠ 1 then 0 else sg.val i j⟩ px (some W) W.val
      (.inr ⟨W, rfl, hWr, hWc, rfl⟩) har hac (hs.1.trans hfr.symm) (hs.2.trans hfc.symm) hpx hpos
    rw [hl, Except.ok.injEq] at e1
    subst e1
    refine ⟨e2, fun j hj hne => ?_⟩
    have hs1 : ∑ i ∈ range f.rows, W.val i j = ∑ i ∈ range f.rows, effW M w i j :=
      sum_congr rfl fun i hi => hWv i j (mem_range.mp hi) hj
    rw [e3 j hj (by simpa [hs1] using hne)]
    simp only [hs1]
    congr 4
    refine sum_congr rfl fun i hi => ?_
    have hi' := mem_range.mp hi
    rw [hWv i j hi' hj]
    rcases h01 i j (hfr ▸ hi') (hfc ▸ hj) with h | h
    · cases w <;> simp [effW, h]
    · simp [h]
  · push Not at hall
    have h1 : ∀ i j, i < f.rows → j < f.cols → M.val i j = 1 := by
      intro i j hi hj
      rcases h01 i j (hfr ▸ hi) (hfc ▸ hj) with h | h
      · exact absurd h (hall i j (hfr ▸ hi) (hfc ▸ hj))
      · exact h
    obtain ⟨l, hl, ho'⟩ := key _ _ _ _ (applyMask_all hall f (some sg) w)
    refine ⟨l, ho', ?_⟩
    obtain ⟨ω, hω, hωv⟩ : ∃ ω : ℕ → ℕ → ℝ, ((w = none ∧ ∀ i j, ω i j = 1) ∨
        ∃ ww, w = some ww ∧ ww.rows = f.rows ∧ ww.cols = f.cols ∧ ww.val = ω) ∧
        ∀ i j, i < f.rows → j < f.cols → ω i j = effW M w i j := by
      cases w with
      | none => exact ⟨fun _ _ => 1, .inl ⟨rfl, fun _ _ => rfl⟩, fun i j hi hj => by simp [effW, h1 i j hi hj]⟩
      | some w => exact ⟨w.val, .inr ⟨w, rfl, (hw w rfl).1.trans hfr.symm, (hw w rfl).2.trans hfc.symm, rfl⟩,
          fun i j hi hj => by simp [effW, h1 i j hi hj]⟩
    obtain ⟨l', e1, e2, e3⟩ := C54_formula f a sg px w ω hω har hac (hs.1.trans hfr.symm)
      (hs.2.trans hfc.symm) hpx hpos
    rw [hl, Except.ok.injEq] at e1
    subst e1
    refine ⟨e2, fun j hj hne => ?_⟩
    have hs1 : ∑ i ∈ range f.rows, ω i j = ∑ i ∈ range f.rows, effW M w i j :=
      sum_congr rfl fun i hi => hωv i j (mem_range.mp hi) hj
    rw [e3 j hj (by simpa [hs1] using hne)]
    simp only [hs1]
    congr 4
    refine sum_congr rfl fun i hi => ?_
    rw [hωv i j (mem_range.mp hi) hj]

/-- The radial errors of an object with a box and a polar grid whose areas are not yet stored. -/
theorem errors_generic {X : Type} {getMask : Meth (Box2Ring.State X) Unit} {P : Box2Ring.State X → Py (Arr2 ℝ)}
    (hP : MaskBy getMask P) {B : BoxArgs} (hB : BoxOk B) {G : Mc.Grid} (hG : G.Ok) (s : Box2Ring.State X)
    (hbox : s.box = some B.box) (hed : s.edges = some G.edges) (ha : s.area2d = none) (hx : s.pixarea = none)
    (f : Arr2 (Option ℝ)) (sg : Arr2 ℝ) (w : Option (Arr2 ℝ)) (out : Box2Ring.Radial) (M : Arr2 ℝ)
    (ho : (Box2Ring.polar2radial getMask f (some sg) w s).1 = .ok out)
    (hM : (Box2Ring.polar2radial getMask f (some sg) w s).2.maskInBound = some M) (h01 : Mask01 M)
    (hfr : f.rows = G.nump) (hfc : f.cols = G.numr)
    (hf : f.sameShape M) (hs : sg.sameShape M) (hw : ∀ t, w = some t → t.sameShape M) :
    ∃ l, out.sigma = some l ∧ l.length = G.numr ∧ ∀ j, j < G.numr →
      ∑ i ∈ range G.nump, effW M w i j ≠ 0 →
      l[j]? = some (some (Real.sqrt (∑ i ∈ range G.nump,
        ((B.xmax - B.xmin)/B.numx.toNat*((B.ymax - B.ymin)/B.numy.toNat))
          /(((G.rEdge (j+1))^2 - (G.rEdge j)^2)/2*((G.args.pmax - G.args.pmin)/G.nump))
          *(effW M w i j*sg.val i j)^2)
        / |∑ i ∈ range G.nump, effW M w i j|)) := by
  obtain ⟨a, px, p, M', h1, h2, h3, h4, h5, h6, h7⟩ := polar2radial_ok hP f (some sg) w s out ho
  rw [hM, Option.some.injEq] at h7
  subst h7
  obtain ⟨a', ea, har, hac, hav⟩ := C54_sector hG
  have e1 : a' = a := by
    unfold areaOf at h1
    rw [ha, hed] at h1
    have : getPolarArea2d G.edges.redges G.edges.pedges = .ok a := h1
    rw [ea, Except.ok.injEq] at this
    exact this
  subst e1
  have hnx : 0 < B.numx.toNat := by have := hB.numx; omega
  have hny : 0 < B.numy.toNat := by have := hB.numy; omega
  have e2 : px = (B.xmax - B.xmin)/B.numx.toNat*((B.ymax - B.ymin)/B.numy.toNat) := by
    unfold pixOf at h2
    rw [hx, hbox] at h2
    have : getPixarea (linspace B.xmin B.xmax (B.numx.toNat + 1)) (linspace B.ymin B.ymax (B.numy.toNat + 1))
        = .ok px := h2
    rw [C54_pixarea _ _ _ _ _ _ hnx hny, Except.ok.injEq] at this
    exact this.symm
  have hpx : 0 ≤ px := by
    rw [e2]
    have h1 := hB.hx
    have h2 := hB.hy
    have : 0 < B.xmax - B.xmin := by linarith
    have : 0 < B.ymax - B.ymin := by linarith
    positivity
  have hpos : ∀ i j, i < f.rows → j < f.cols → 0 < a'.val i j := by
    intro i j hi hj
    rw [hav i j (hfc ▸ hj)]
    have l1 := rEdge_lt hG j (hfc ▸ hj)
    have l0 := Mc.Grid.rEdge_nonneg hG j
    have l2 : 0 < (G.rEdge (j+1))^2 - (G.rEdge j)^2 := by nlinarith
    have l3 : 0 < G.args.pmax - G.args.pmin := by have := hG.polar.p; linarith
    have l4 : (0:ℝ) < G.nump := by exact_mod_cast (by have := Mc.Grid.nump_two hG; omega : 0 < G.nump)
    positivity
  obtain ⟨l, hl, hl2, hl3⟩ := radialOf_sigma p a' px M h01 f sg w hf hs hw (har.trans hfr.symm)
    (hac.trans hfc.symm) hpx hpos out h6
  refine ⟨l, hl, hl2.trans hfc, fun j hj hne => ?_⟩
  rw [hl3 j (hfc.symm ▸ hj) (by rw [hfr]; exact hne), hfr]
  congr 4
  refine sum_congr rfl fun i hi => ?_
  rw [hav i j hj, e2]

/-! ## C54: the errors returned by the classes -/

/-- C54 for the dense grid class: after `setup_box` and `setup_polar` on a new object, if the mask used has
only the values `0` and `1`, the errors that `polar2radial` returns are
`sqrt(Σ (pixarea/area)(wσ)²)/|Σ w|` where `w` are the weights with zeros at masked pixels, `pixarea` is the
area of the cells of the box and `area` that of the polar pixels of the ring. -/
theorem C54_dg (B : BoxArgs) (hB : BoxOk B) (A : PolarArgs) (hA : PolarOk A) (hr : 2 ≤ A.numr) (hp : 2 ≤ A.nump)
    (mr mp : ℕ) (f : Arr2 (Option ℝ)) (sg : Arr2 ℝ) (w : Option (Arr2 ℝ)) (out : Box2Ring.Radial) (M : Arr2 ℝ)
    (s : Dg.State) (hrun : (Dg.cls.run [.setup (.box B), .setup (.polar A mr mp)] init).2 = s)
    (ho : (Dg.polar2radial f (some sg) w s).1 = .ok out)
    (hM : (Dg.polar2radial f (some sg) w s).2.maskInBound = some M) (h01 : Mask01 M)
    (hfr : f.rows = A.nump.toNat) (hfc : f.cols = A.numr.toNat)
    (hf : f.sameShape M) (hs : sg.sameShape M) (hw : ∀ t, w = some t → t.sameShape M) :
    ∃ l, out.sigma = some l ∧ l.length = A.numr.toNat ∧ ∀ j, j < A.numr.toNat →
      ∑ i ∈ range A.nump.toNat, effW M w i j ≠ 0 →
      l[j]? = some (some (Real.sqrt (∑ i ∈ range A.nump.toNat,
        ((B.xmax - B.xmin)/B.numx.toNat*((B.ymax - B.ymin)/B.numy.toNat))
          /(((edgeAt A.rmin A.rmax A.numr.toNat (j+1))^2 - (edgeAt A.rmin A.rmax A.numr.toNat j)^2)/2
            *((A.pmax - A.pmin)/A.nump.toNat))
          *(effW M w i j*sg.val i j)^2)
        / |∑ i ∈ range A.nump.toNat, effW M w i j|)) := by
  obtain ⟨s', e, hs', ha, hx, hm⟩ := Dg.setup_run (B := B) hB.numx hB.numy hA hr hp mr mp init
  have es : s = s' := by
    rw [← hrun]
    simp only [Meth.bind_apply, setupBox_ok hB.numx hB.numy] at e
    simp only [Cls.run, Cls.call, Dg.cls, setupBox_ok hB.numx hB.numy]
    rw [e]
  subst es
  exact errors_generic Dg.maskBy hB (G := .lin A) ⟨hA, hr, hp⟩ s hs'.box hs'.edges ha hx f sg w out M ho hM h01
    hfr hfc hf hs hw

/-- The hypotheses are met by a box and a polar grid inside it, with unit errors. -/
example : ∃ (out : Box2Ring.Radial) (M : Arr2 ℝ) (s : Dg.State),
    (Dg.cls.run [.setup (.box exBox), .setup (.polar exPolar2 1 1)] init).2 = s ∧
    (Dg.polar2radial ⟨5, 2, fun _ _ => some 0⟩ (some ⟨5, 2, fun _ _ => 1⟩) none s).1 = .ok out ∧
    (Dg.polar2radial ⟨5, 2, fun _ _ => some 0⟩ (some ⟨5, 2, fun _ _ => 1⟩) none s).2.maskInBound = some M ∧
    Mask01 M ∧ M.rows = 5 ∧ M.cols = 2 ∧ ∀ j, j < 2 → ∑ i ∈ range 5, effW M none i j ≠ 0 := by
  have hB := exBox_ok
  have hA2 := exPolar2_ok
  have hrp2 : exPolar2.numr.toNat = 2 ∧ exPolar2.nump.toNat = 5 := by simp [exPolar2]
  obtain ⟨s2, e4, hs2, d1, d2, d3⟩ := Dg.setup_run hB.numx hB.numy hA2 (by simp [exPolar2]) (by simp [exPolar2]) 1 1 init
  have r2 : (Dg.cls.run [.setup (.box exBox), .setup (.polar exPolar2 1 1)] init).2 = s2 := by
    have : (Dg.setupPolar exPolar2 1 1 (setupBox exBox init).2).2 = s2 := by
      simp only [Meth.bind_apply] at e4
      rw [setupBox_ok hB.numx hB.numy] at e4 ⊢
      simp only at e4 ⊢
      rw [e4]
    rw [← this]
    rfl
  obtain ⟨M, hM, hMr, hMc, hM1⟩ := mask_ones hB hA2 (le_refl 1) hs2 (fun n q _ hq => exPolar2_inBox n q hq)
  obtain ⟨a, ha, har, hac, hav⟩ := area_ok exPolar2 hA2
  obtain ⟨px, hpx, hpx0⟩ := pix_ok exBox hB
  have hpi := Real.pi_pos
  have hα : ∀ i, a.val i 0 = 9*Real.pi/80 := by
    intro i
    rw [hav i 0 (by rw [hrp2.1]; norm_num), hrp2.1, hrp2.2]
    simp only [edgeAt, exPolar2]
    push_cast
    rw [div_eq_iff (by positivity)]
    ring
  obtain ⟨out, l, o1, o2, o3⟩ := sigma_head (A := exPolar2) hA2 (s := s2) hs2.polar (a := a) (M := M) (px := px)
    (α := 9*Real.pi/80) (by unfold areaOf; rw [d1, hs2.edges]; exact ha) har hac hα (by positivity)
    (by unfold Box2Ring.pixOf; rw [d2, hs2.box]; exact hpx) hpx0 (by unfold maskOf; rw [d3]; exact hM) hMr hMc hM1
  rw [hrp2.1, hrp2.2] at o1 hM1
  obtain ⟨a', px', p', M', -, -, -, -, h5, -, h7⟩ := polar2radial_ok Dg.maskBy _ _ _ s2 out o1
  have : M = M' := by
    unfold maskOf at h5
    rw [d3] at h5
    have h5' : Dg.maskG s2 = .ok M' := h5
    rw [hM, Except.ok.injEq] at h5'
    exact h5'
  subst this
  refine ⟨out, M, s2, r2, o1, h7, ?_, hMr.trans hrp2.2, hMc.trans hrp2.1, ?_⟩
  · intro i j hi hj
    exact .inr (hM1 i j (by omega) (by omega))
  · intro j hj
    rw [sum_congr rfl fun i hi => show effW M none i j = 1 by simp [effW, hM1 i j (mem_range.mp hi) hj]]
    simp

/-- The set-up of a Monte Carlo object. -/
def gridCall : Mc.Grid → Mc.Setup
  | .lin A => .lin A
  | .log A z => .log A z

/-- C54 for the Monte Carlo class, with linear or logarithmic rings: the same formula. -/
theorem C54_mc (B : BoxArgs) (hB : BoxOk B) (G : Mc.Grid) (hG : G.Ok) (n : ℕ)
    (draws : ℕ → ℕ → List ℝ × List ℝ) (f : Arr2 (Option ℝ)) (sg : Arr2 ℝ) (w : Option (Arr2 ℝ))
    (out : Box2Ring.Radial) (M : Arr2 ℝ) (s : Mc.State)
    (hrun : (Mc.cls.run [.setup (.box B), .setup (gridCall G), .setup (.weights n draws)] init).2 = s)
    (ho : (Mc.polar2radial f (some sg) w s).1 = .ok out)
    (hM : (Mc.polar2radial f (some sg) w s).2.maskInBound = some M)
    (hfr : f.rows = G.nump) (hfc : f.cols = G.numr)
    (hf : f.sameShape M) (hs : sg.sameShape M) (hw : ∀ t, w = some t → t.sameShape M) :
    ∃ l, out.sigma = some l ∧ l.length = G.numr ∧ ∀ j, j < G.numr →
      ∑ i ∈ range G.nump, effW M w i j ≠ 0 →
      l[j]? = some (some (Real.sqrt (∑ i ∈ range G.nump,
        ((B.xmax - B.xmin)/B.numx.toNat*((B.ymax - B.ymin)/B.numy.toNat))
          /(((G.rEdge (j+1))^2 - (G.rEdge j)^2)/2*((G.args.pmax - G.args.pmin)/G.nump))
          *(effW M w i j*sg.val i j)^2)
        / |∑ i ∈ range G.nump, effW M w i j|)) := by
  have h01 : Mask01 M := by
    have e := Mc.run_mask01 ([.setup (.box B), .setup (gridCall G), .setup (.weights n draws)]
      ++ [.radial f (some sg) w]) init (by intro M h; cases h) M
    rw [run_append, hrun] at e
    exact e hM
  obtain ⟨s1, e1, k1, k2, k3⟩ := Mc.Grid.setup_run hG (({ init with box := some B.box } : Mc.State))
  have hk : s1.area2d = none ∧ s1.pixarea = none := by
    have kp : Keeps (fun s : Mc.State => (s.area2d, s.pixarea)) G.setup := by
      cases G with
      | lin A =>
        unfold Mc.Grid.setup Mc.setupPolarLin
        repeat' first | exact Keeps.lift _ | exact Keeps.assign fun _ => rfl | refine Keeps.bind ?_ fun _ => ?_
      | log A z =>
        unfold Mc.Grid.setup Mc.setupPolarLog
        repeat' first | exact Keeps.lift _ | exact Keeps.assign fun _ => rfl | refine Keeps.bind ?_ fun _ => ?_
    have := kp ({ init with box := some B.box } : Mc.State)
    rw [e1] at this
    simp only [init, Prod.mk.injEq] at this
    exact this
  have e2 : s = (Mc.getWeights n draws s1).2 := by
    have e3 : (Mc.cls.setup (gridCall G) { init with box := some B.box }).2 = s1 := by
      have : Mc.cls.setup (gridCall G) = G.setup := by cases G <;> rfl
      rw [this, e1]
    have e4 : (Mc.cls.setup (.box B) init).2 = { init with box := some B.box } := by
      show (setupBox B init).2 = _
      rw [setupBox_ok hB.numx hB.numy]
    rw [← hrun, ← e3, ← e4]
    rfl
  have kw : Keeps (fun s : Mc.State => (s.area2d, s.pixarea, s.box, s.edges)) (Mc.getWeights n draws) := by
    unfold Mc.getWeights
    repeat' first
      | exact Keeps.lift _ | exact Keeps.self | exact Keeps.assign fun _ => rfl | refine Keeps.bind ?_ fun _ => ?_
  have k := kw s1
  rw [← e2] at k
  simp only [Prod.mk.injEq] at k
  obtain ⟨g1, g2, g3, g4⟩ := k
  exact errors_generic Mc.maskBy hB hG s (by rw [g3, k3]) (by rw [g4, k1]) (by rw [g1, hk.1]) (by rw [g2, hk.2])
    f sg w out M ho hM h01 hfr hfc hf hs hw

end Magpie.Props
