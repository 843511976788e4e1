import Verif.Spec.Degenerate
import Verif.Proof.McCube2Shell
import Verif.Props.DgBox2Ring
import Verif.Props.McBox2Ring

/-!
# Property C119: boxes and cubes whose limits are equal or exchanged

`setup_box` and `setup_cube` check the numbers of cells only. `flipX`, `exchangeX`, `widenBox` and so on are in
`Verif/Spec/Degenerate.lean`.
-/

set_option linter.unusedSimpArgs false
set_option linter.unusedVariables false
set_option linter.unusedSectionVars false

namespace Magpie.Props
open Magpie Magpie.Radial Magpie.OneD Magpie.Remap Magpie.Spec Magpie.Box2Ring Magpie.Cube Magpie.Coords

/-! ## The dense grid class -/

namespace Degenerate

theorem remap1_congr {B B' : BoxArgs} {A : PolarArgs} {mr mp : ℕ} (hA : PolarOk A) {s s' : Dg.State}
    (hs : Dg.IsSetup B A mr mp s) (hs' : Dg.IsSetup B' A mr mp s') (f f' : Arr2 (Option ℝ))
    (h : ∀ n q, n < mp*A.nump.toNat → q < mr*A.numr.toNat → ∀ r phi, polar2cart r phi (centerOf A.center)
        = Dg.densePoint A mr mp n q →
      Dg.highres B.box (centerOf A.center) f r phi = Dg.highres B'.box (centerOf A.center) f' r phi) :
    (Dg.remap1 f s).1 = (Dg.remap1 f' s').1 ∧ (Dg.remap1 f s).2 = s ∧ (Dg.remap1 f' s').2 = s' := by
  have key : ∀ (B : BoxArgs) (s : Dg.State) (hs : Dg.IsSetup B A mr mp s) (f : Arr2 (Option ℝ)),
      ∃ K : Py (Arr2 (Option ℝ)) → Py (Arr2 (Option ℝ)), (∀ B s f, Dg.IsSetup B A mr mp s →
        Dg.remap1 f s = (K (tabulate (mp*A.nump.toNat) (mr*A.numr.toNat) (fun i j => Dg.highres B.box (centerOf A.center) f
          ((mids (linspace A.rmin A.rmax (mr*A.numr.toNat + 1))).getD j 0)
          (Dg.shiftPhi A.phiShift ((mids (linspace A.pmin A.pmax (mp*A.nump.toNat + 1))).getD i 0))) none), s)) := by
    intro B s hs f
    refine ⟨fun t => do
      let d := Dg.mkDense (linEdges A) A.phiShift mr mp
      let p := mkPolar (linEdges A) A
      let hi ← t
      let rw := List.zipWith (fun b a => b^2 - a^2) d.redges.tail d.redges.dropLast
      let rw2 := (meshgridXY rw d.pmid).1
      let hi ← hi.zip omul rw2
      let fp ← Dg.downgrade hi p.r2d.rows p.r2d.cols d.rebinR d.rebinP d.p2d.cols
      let wp ← Dg.downgrade ⟨rw2.rows, rw2.cols, fun i j => some (rw2.val i j)⟩ p.r2d.rows p.r2d.cols
        d.rebinR d.rebinP d.p2d.cols
      fp.zip odiv wp, fun B s f hs => ?_⟩
    unfold Dg.remap1
    simp only [Meth.bind_apply, Meth.self_apply, Meth.lift_apply, hs.extra, hs.polar, hs.box, need_some,
      Dg.mkDense_eq hA, mkPolar, bind, Except.bind]
    generalize tabulate _ _ _ _ = t
    cases t with
    | error e => rfl
    | ok hi =>
      simp only
      cases hi.zip omul _ with
      | error e => rfl
      | ok h2 =>
        simp only
        cases Dg.downgrade h2 _ _ _ _ _ with
        | error e => rfl
        | ok fp =>
          simp only
          cases Dg.downgrade _ _ _ _ _ _ with
          | error e => rfl
          | ok wp => rfl
  obtain ⟨K, hK⟩ := key B s hs f
  rw [hK B s f hs, hK B' s' f' hs']
  refine ⟨?_, rfl, rfl⟩
  simp only
  congr 1
  apply tabulate_congr
  intro i j hi hj
  refine h i j hi hj _ _ ?_
  rw [mids_getD _ _ _ _ hi, mids_getD _ _ _ _ hj]
  unfold polar2cart Dg.densePoint
  simp only [Dg.shiftPhi_cos, centerOf]

theorem cell_args (lo hi : ℝ) {n : ℕ} (hn : 0 < n) :
    (linspace lo hi (n + 1)).getD 0 0 = lo ∧
    (linspace lo hi (n + 1)).getD 1 0 - (linspace lo hi (n + 1)).getD 0 0 = (hi - lo)/n ∧
    (mids (linspace lo hi (n + 1))).length = n := by
  refine ⟨?_, ?_, length_mids_linspace _ _ _⟩
  · rw [linspace_getD _ _ _ _ (by omega), edgeAt_zero]
  · rw [linspace_getD _ _ _ _ (by omega), linspace_getD _ _ _ _ (by omega)]
    exact edgeAt_diff _ _ _ 0

/-- The cell along one axis, from the limits. -/
noncomputable def axis (lo hi : ℝ) (n : ℕ) (x : ℝ) : Option ℕ := Dg.cellIdx x lo ((hi - lo)/n) n

theorem highres_axis {B : BoxArgs} (hx : 0 < B.numx) (hy : 0 < B.numy) (c : ℝ × ℝ) (f : Arr2 (Option ℝ)) (r phi : ℝ) :
    Dg.highres B.box c f r phi =
      match axis B.xmin B.xmax B.numx.toNat (polar2cart r phi c).1, axis B.ymin B.ymax B.numy.toNat (polar2cart r phi c).2 with
      | some ix, some iy => f.get iy ix
      | _, _ => .ok (some 0) := by
  obtain ⟨a1, a2, a3⟩ := cell_args B.xmin B.xmax (n := B.numx.toNat) (by omega)
  obtain ⟨b1, b2, b3⟩ := cell_args B.ymin B.ymax (n := B.numy.toNat) (by omega)
  unfold Dg.highres axis BoxArgs.box
  simp only [a1, a2, a3, b1, b2, b3]
  rw [show (linspace B.xmin B.xmax (B.numx.toNat + 1)).getD 1 0 - B.xmin = (B.xmax - B.xmin)/B.numx.toNat by
      rw [← a2, a1],
    show (linspace B.ymin B.ymax (B.numy.toNat + 1)).getD 1 0 - B.ymin = (B.ymax - B.ymin)/B.numy.toNat by
      rw [← b2, b1]]
  rfl

theorem axis_lt {lo hi x : ℝ} {n k : ℕ} (h : axis lo hi n x = some k) : k < n := by
  unfold axis Dg.cellIdx at h
  simp only at h
  split_ifs at h with h1 h2
  rw [Option.some.injEq] at h
  omega

theorem axis_empty (lo : ℝ) (n : ℕ) (x : ℝ) : axis lo lo n x = none := by
  unfold axis Dg.cellIdx
  rw [if_pos (by simp)]

/-- Exchanging the limits counts the cells from the other end, away from the edges. -/
theorem axis_exchange {lo hi : ℝ} (h : hi ≠ lo) {n : ℕ} (hn : 0 < n) (x : ℝ)
    (hx : ∀ k, k ≤ n → x ≠ edgeAt lo hi n k) :
    axis hi lo n x = (axis lo hi n x).map fun k => n - 1 - k := by
  have hn' : (n:ℝ) ≠ 0 := by positivity
  set d := (hi - lo)/n with hd
  have hd0 : d ≠ 0 := div_ne_zero (sub_ne_zero.mpr h) hn'
  have ed : (lo - hi)/n = -d := by rw [hd]; ring
  have eh : hi = lo + n*d := by rw [hd]; field_simp; ring
  set t := (x - lo)/d with ht
  have et : (x - hi)/(-d) = n - t := by rw [ht, eh]; field_simp; ring
  have hint : ∀ z : ℤ, 0 ≤ z → z ≤ n → t ≠ z := by
    intro z h0 h1 e
    obtain ⟨k, rfl⟩ := Int.eq_ofNat_of_zero_le h0
    refine hx k (by exact_mod_cast h1) ?_
    unfold edgeAt
    rw [← hd]
    rw [ht, div_eq_iff hd0] at e
    push_cast at e
    linarith
  unfold axis Dg.cellIdx
  rw [ed, if_neg (neg_ne_zero.mpr hd0), ← hd, if_neg hd0]
  simp only
  rw [et, ← ht]
  have hf : ⌊(n:ℝ) - t⌋ = n - ⌈t⌉ := by
    have := Int.floor_natCast_add (R := ℝ) n (-t)
    rw [Int.floor_neg] at this
    rw [sub_eq_add_neg, this, sub_eq_add_neg]
  rw [hf]
  have hc : ⌈t⌉ = ⌊t⌋ ∨ ⌈t⌉ = ⌊t⌋ + 1 := by
    have h1 := Int.floor_le_ceil t
    have h2 := Int.ceil_le_floor_add_one t
    omega
  rcases hc with hc | hc
  · have hz : t = ⌊t⌋ := le_antisymm (by
      have := Int.le_ceil t
      rwa [hc] at this) (Int.floor_le t)
    have hout : ⌊t⌋ < 0 ∨ (n:ℤ) < ⌊t⌋ := by
      by_contra hno
      push Not at hno
      exact hint ⌊t⌋ hno.1 hno.2 hz
    rw [if_neg (by omega), if_neg (by omega)]
    rfl
  · by_cases hin : 0 ≤ ⌊t⌋ ∧ ⌊t⌋ < n
    · rw [if_pos (by omega), if_pos hin]
      simp only [Option.map_some, Option.some.injEq]
      omega
    · rw [if_neg (by omega), if_neg hin]
      rfl

theorem run_eq {B : BoxArgs} {A : PolarArgs} {mr mp : ℕ} (hx : 0 < B.numx) (hy : 0 < B.numy) (hA : PolarOk A)
    (hr : 2 ≤ A.numr) (hp : 2 ≤ A.nump) (f : Arr2 (Option ℝ)) (w : Option (Arr2 ℝ)) (s : Dg.State) :
    ∃ s', Dg.IsSetup B A mr mp s' ∧
      (do setupBox B; Dg.setupPolar A mr mp; Dg.remap f w : Meth Dg.State _) s = Dg.remap f w s' := by
  obtain ⟨s', e, hs, -⟩ := Dg.setup_run hx hy hA hr hp mr mp s
  refine ⟨s', hs, ?_⟩
  simp only [Meth.bind_apply] at e ⊢
  rw [setupBox_ok hx hy] at e ⊢
  simp only at e ⊢
  rw [e]

/-- `remap` is the same on two boxes if the values read are. -/
theorem remap_congr {B B' : BoxArgs} {A : PolarArgs} {mr mp : ℕ} (hA : PolarOk A) {s s' : Dg.State}
    (hs : Dg.IsSetup B A mr mp s) (hs' : Dg.IsSetup B' A mr mp s')
    (φ : {α : Type} → Arr2 α → Arr2 α)
    (hφ : ∀ (f : Arr2 (Option ℝ)) (w : Arr2 ℝ), (φ f).zip omul (φ w) = (f.zip omul w).map φ)
    (hφ' : ∀ w : Arr2 ℝ, φ (⟨w.rows, w.cols, fun i j => some (w.val i j)⟩ : Arr2 (Option ℝ))
      = ⟨(φ w).rows, (φ w).cols, fun i j => some ((φ w).val i j)⟩)
    (f : Arr2 (Option ℝ)) (w : Option (Arr2 ℝ)) (hf : f.rows = B.numy.toNat ∧ f.cols = B.numx.toNat)
    (hw : ∀ w', w = some w' → w'.rows = B.numy.toNat ∧ w'.cols = B.numx.toNat)
    (h : ∀ f : Arr2 (Option ℝ), f.rows = B.numy.toNat ∧ f.cols = B.numx.toNat →
      ∀ n q, n < mp*A.nump.toNat → q < mr*A.numr.toNat → ∀ r phi, polar2cart r phi (centerOf A.center)
        = Dg.densePoint A mr mp n q →
      Dg.highres B.box (centerOf A.center) f r phi = Dg.highres B'.box (centerOf A.center) (φ f) r phi) :
    (Dg.remap f w s).1 = (Dg.remap (φ f) (w.map φ) s').1 := by
  unfold Dg.remap
  cases w with
  | none => exact (remap1_congr hA hs hs' _ _ (h f hf)).1
  | some w =>
    have hw' := hw w rfl
    simp only [Option.map_some, Meth.bind_apply, Meth.lift_apply, hφ]
    unfold Arr2.zip
    rw [if_pos ⟨by rw [hf.1, hw'.1], by rw [hf.2, hw'.2]⟩]
    simp only [Except.map]
    obtain ⟨a1, a2, a3⟩ := remap1_congr hA hs hs' ⟨f.rows, f.cols, fun i j => omul (f.val i j) (w.val i j)⟩ _ (h _ hf)
    obtain ⟨b1, b2, b3⟩ := remap1_congr hA hs hs' ⟨w.rows, w.cols, fun i j => some (w.val i j)⟩ _ (h _ hw')
    rw [hφ'] at b1 b3
    generalize Dg.remap1 (φ ⟨f.rows, f.cols, fun i j => omul (f.val i j) (w.val i j)⟩) s' = x' at a1 a3 ⊢
    generalize Dg.remap1 ⟨f.rows, f.cols, fun i j => omul (f.val i j) (w.val i j)⟩ s = x at a1 a2 ⊢
    obtain ⟨x1, x2⟩ := x
    obtain ⟨y1, y2⟩ := x'
    simp only at a1 a2 a3
    subst a1 a2 a3
    cases x1 with
    | error e => rfl
    | ok x1 =>
      simp only
      generalize Dg.remap1 ⟨w.rows, w.cols, fun i j => some (w.val i j)⟩ x2 = z at b1 b2 ⊢
      generalize Dg.remap1 ⟨(φ w).rows, (φ w).cols, fun i j => some ((φ w).val i j)⟩ y2 = z' at b1 b3 ⊢
      obtain ⟨z1, z2⟩ := z
      obtain ⟨u1, u2⟩ := z'
      simp only at b1
      subst b1
      cases z1 with
      | error e => rfl
      | ok z1 => rfl

end Degenerate

open Degenerate

section Dense
variable (B : BoxArgs) (A : PolarArgs) (mr mp : ℕ) (hnx : 0 < B.numx) (hny : 0 < B.numy) (hA : PolarOk A)
  (hr : 2 ≤ A.numr) (hp : 2 ≤ A.nump)
include hnx hny hA hr hp

/-- C119 for the dense grid `Box2Ring`: with `xmin` and `xmax` exchanged, `remap` returns what it returns for the box
with ordered limits and the columns of the map in the opposite order, so that column `k` of the map still lies
between edges `k` and `k + 1`; no dense point may be on an edge. -/
theorem C119_dg_exchanged_x (hx : B.xmax < B.xmin) (f : Arr2 (Option ℝ)) (w : Option (Arr2 ℝ))
    (hf : f.rows = B.numy.toNat ∧ f.cols = B.numx.toNat)
    (hw : ∀ w', w = some w' → w'.rows = B.numy.toNat ∧ w'.cols = B.numx.toNat)
    (hoff : ∀ n q k, n < mp*A.nump.toNat → q < mr*A.numr.toNat → k ≤ B.numx.toNat →
      (Dg.densePoint A mr mp n q).1 ≠ edgeAt B.xmin B.xmax B.numx.toNat k) (s : Dg.State) :
    ((do setupBox B; Dg.setupPolar A mr mp; Dg.remap f w : Meth Dg.State _) s).1
      = ((do setupBox (exchangeX B); Dg.setupPolar A mr mp; Dg.remap (flipX f) (w.map flipX) : Meth Dg.State _) s).1 := by
  obtain ⟨s1, i1, e1⟩ := run_eq (mr := mr) (mp := mp) hnx hny hA hr hp f w s
  obtain ⟨s2, i2, e2⟩ := run_eq (B := exchangeX B) (mr := mr) (mp := mp) hnx hny hA hr hp (flipX f) (w.map flipX) s
  rw [e1, e2]
  refine remap_congr hA i1 i2 flipX ?_ (fun w => rfl) f w hf hw ?_
  · intro f w
    unfold Arr2.zip flipX
    simp only
    by_cases hs : f.rows = w.rows ∧ f.cols = w.cols
    · rw [if_pos hs, if_pos hs]
      simp only [Except.map, hs.2]
    · rw [if_neg hs, if_neg hs]; rfl
  · intro f hf n q hn hq r phi hpt
    rw [highres_axis hnx hny, highres_axis (B := exchangeX B) hnx hny]
    have ex := axis_exchange (lo := B.xmin) (hi := B.xmax) hx.ne (n := B.numx.toNat) (by omega)
      (polar2cart r phi (centerOf A.center)).1 (fun k hk => by rw [hpt]; exact hoff n q k hn hq hk)
    simp only [exchangeX, ex]
    cases hax : axis B.xmin B.xmax B.numx.toNat (polar2cart r phi (centerOf A.center)).1 with
    | none => rfl
    | some k =>
      have hk := axis_lt hax
      simp only [Option.map_some]
      cases axis B.ymin B.ymax B.numy.toNat (polar2cart r phi (centerOf A.center)).2 with
      | none => rfl
      | some l =>
        simp only [Arr2.get, flipX, hf.2]
        by_cases hl : l < f.rows
        · rw [if_pos ⟨hl, hk⟩, if_pos ⟨hl, by omega⟩, show B.numx.toNat - 1 - (B.numx.toNat - 1 - k) = k by omega]
        · rw [if_neg (fun h => hl h.1), if_neg (fun h => hl h.1)]

/-- C119 for the dense grid `Box2Ring`, with `ymin` and `ymax` exchanged. -/
theorem C119_dg_exchanged_y (hy : B.ymax < B.ymin) (f : Arr2 (Option ℝ)) (w : Option (Arr2 ℝ))
    (hf : f.rows = B.numy.toNat ∧ f.cols = B.numx.toNat)
    (hw : ∀ w', w = some w' → w'.rows = B.numy.toNat ∧ w'.cols = B.numx.toNat)
    (hoff : ∀ n q k, n < mp*A.nump.toNat → q < mr*A.numr.toNat → k ≤ B.numy.toNat →
      (Dg.densePoint A mr mp n q).2 ≠ edgeAt B.ymin B.ymax B.numy.toNat k) (s : Dg.State) :
    ((do setupBox B; Dg.setupPolar A mr mp; Dg.remap f w : Meth Dg.State _) s).1
      = ((do setupBox (exchangeY B); Dg.setupPolar A mr mp; Dg.remap (flipY f) (w.map flipY) : Meth Dg.State _) s).1 := by
  obtain ⟨s1, i1, e1⟩ := run_eq (mr := mr) (mp := mp) hnx hny hA hr hp f w s
  obtain ⟨s2, i2, e2⟩ := run_eq (B := exchangeY B) (mr := mr) (mp := mp) hnx hny hA hr hp (flipY f) (w.map flipY) s
  rw [e1, e2]
  refine remap_congr hA i1 i2 flipY ?_ (fun w => rfl) f w hf hw ?_
  · intro f w
    unfold Arr2.zip flipY
    simp only
    by_cases hs : f.rows = w.rows ∧ f.cols = w.cols
    · rw [if_pos hs, if_pos hs]
      simp only [Except.map, hs.1]
    · rw [if_neg hs, if_neg hs]; rfl
  · intro f hf n q hn hq r phi hpt
    rw [highres_axis hnx hny, highres_axis (B := exchangeY B) hnx hny]
    have ey := axis_exchange (lo := B.ymin) (hi := B.ymax) hy.ne (n := B.numy.toNat) (by omega)
      (polar2cart r phi (centerOf A.center)).2 (fun k hk => by rw [hpt]; exact hoff n q k hn hq hk)
    simp only [exchangeY, ey]
    cases axis B.xmin B.xmax B.numx.toNat (polar2cart r phi (centerOf A.center)).1 with
    | none => rfl
    | some l =>
      cases hay : axis B.ymin B.ymax B.numy.toNat (polar2cart r phi (centerOf A.center)).2 with
      | none => rfl
      | some k =>
        have hk := axis_lt hay
        simp only [Option.map_some, Arr2.get, flipY, hf.1]
        by_cases hl : l < f.cols
        · rw [if_pos ⟨hk, hl⟩, if_pos ⟨by omega, hl⟩, show B.numy.toNat - 1 - (B.numy.toNat - 1 - k) = k by omega]
        · rw [if_neg (fun h => hl h.2), if_neg (fun h => hl h.2)]

/-- C119 for the dense grid `Box2Ring`: nothing lies in a box without a width or height, `remap` returns zeros. -/
theorem C119_dg_empty (hx : B.xmin = B.xmax ∨ B.ymin = B.ymax) (m : ℕ) (hm : 1 ≤ m) (f : Arr2 (Option ℝ)) (s : Dg.State) :
    ∃ out s', (do setupBox B; Dg.setupPolar A m m; Dg.remap f none : Meth Dg.State _) s = (.ok out, s') ∧
      out.rows = A.nump.toNat ∧ out.cols = A.numr.toNat ∧
      ∀ i j, i < A.nump.toNat → j < A.numr.toNat → out.val i j = some 0 := by
  set B' : BoxArgs := { B with xmin := 0, xmax := 1, ymin := 0, ymax := 1 } with hB'
  have okB' : BoxOk B' := ⟨hnx, hny, by simp [hB'], by simp [hB']⟩
  obtain ⟨s1, i1, e1⟩ := run_eq (mr := m) (mp := m) hnx hny hA hr hp f none s
  obtain ⟨out, s2, h1, h2, h3, h4⟩ := C73_remap_partial B' A m okB' hA hr hp hm
    ⟨B.numy.toNat, B.numx.toNat, fun _ _ => some 0⟩ (fun _ _ => 0) rfl rfl (fun _ _ _ _ => rfl) (fun _ _ => 0)
    (fun _ _ _ _ => ⟨fun _ _ _ _ => rfl, fun _ => rfl⟩) s
  obtain ⟨s3, i3, e3⟩ := run_eq (B := B') (mr := m) (mp := m) hnx hny hA hr hp
    ⟨B.numy.toNat, B.numx.toNat, fun _ _ => some 0⟩ none s
  rw [e3] at h1
  have hc := remap1_congr hA i1 i3 f ⟨B.numy.toNat, B.numx.toNat, fun _ _ => some 0⟩ (by
    intro n q hn hq r phi hpt
    rw [highres_axis hnx hny, highres_axis (B := B') hnx hny]
    have e : ∀ a b, a < B.numx.toNat → b < B.numy.toNat →
        (⟨B.numy.toNat, B.numx.toNat, fun _ _ => some 0⟩ : Arr2 (Option ℝ)).get b a = .ok (some 0) := by
      intro a b ha hb
      unfold Arr2.get
      rw [if_pos ⟨hb, ha⟩]
    have hR : (match axis B'.xmin B'.xmax B'.numx.toNat (polar2cart r phi (centerOf A.center)).1,
        axis B'.ymin B'.ymax B'.numy.toNat (polar2cart r phi (centerOf A.center)).2 with
        | some ix, some iy => (⟨B.numy.toNat, B.numx.toNat, fun _ _ => some 0⟩ : Arr2 (Option ℝ)).get iy ix
        | _, _ => .ok (some 0)) = .ok (some 0) := by
      split
      · rename_i a b ha hb
        exact e a b (axis_lt ha) (axis_lt hb)
      · rfl
    rw [hR]
    rcases hx with h | h
    · rw [h, axis_empty]
    · rw [h, axis_empty]
      cases axis B.xmin B.xmax B.numx.toNat (polar2cart r phi (centerOf A.center)).1 <;> rfl)
  refine ⟨out, s1, ?_, h2, h3, fun i j hi hj => ?_⟩
  · rw [e1]
    show Dg.remap1 f s1 = _
    refine Prod.ext ?_ hc.2.1
    rw [hc.1]
    have h1' : Dg.remap1 _ s3 = _ := h1
    rw [h1']
  · rw [h4 i j hi hj]
    simp [Dg.areaSum]

end Dense

/-! ## The Monte Carlo classes -/

namespace Degenerate

theorem histEdges_widen (lo hi : ℝ) {n : ℕ} (hn : 0 < n) :
    Mc.histEdges (linspace lo hi (n+1)) = Mc.histEdges (linspace (widen lo hi).1 (widen lo hi).2 (n+1)) := by
  unfold widen
  by_cases h : lo = hi
  · rw [if_pos h]
    have ew : Mc.histEdges (linspace (lo - 1/2) (hi + 1/2) (n+1)) = .ok (linspace (lo - 1/2) (hi + 1/2) (n+1)) :=
      Mc.histEdges_ok (by rw [h]; linarith) hn
    rw [ew]
    unfold Mc.histEdges
    have e0 : (linspace lo hi (n+1)).getD 0 0 = lo := by
      rw [linspace_getD _ _ _ _ (Nat.zero_le n)]
      exact edgeAt_zero _ _ _
    simp only [e0, linspace_getLastD lo hi n hn]
    rw [if_neg (by rw [h]; exact lt_irrefl _), if_pos h, show (linspace lo hi (n+1)).length - 1 + 1 = n + 1 by
      rw [length_linspace]; omega]
  · rw [if_neg h]

theorem histEdges_reversed {lo hi : ℝ} (h : hi < lo) {n : ℕ} (hn : 0 < n) :
    Mc.histEdges (linspace lo hi (n+1)) = .error .valueError := by
  unfold Mc.histEdges
  have e0 : (linspace lo hi (n+1)).getD 0 0 = lo := by
    rw [linspace_getD _ _ _ _ (Nat.zero_le n)]
    exact edgeAt_zero _ _ _
  simp only [e0, linspace_getLastD lo hi n hn]
  rw [if_pos h]

theorem histEdges_cases (l : List ℝ) : (∃ r, Mc.histEdges l = .ok r) ∨ Mc.histEdges l = .error .valueError := by
  unfold Mc.histEdges
  simp only
  split_ifs
  · exact .inr rfl
  · exact .inl ⟨_, rfl⟩
  · exact .inl ⟨_, rfl⟩

theorem mc_congr (m : ℕ) (draws : ℕ → ℕ → List ℝ × List ℝ) (f : Arr2 (Option ℝ)) (w : Option (Arr2 ℝ)) (s s' : Mc.State)
    (b b' : Box) (he : s.edges = s'.edges) (hp : s.polar = s'.polar) (hb : s.box = some b) (hb' : s'.box = some b') (hx : Mc.histEdges b.xedges = Mc.histEdges b'.xedges) (hy : Mc.histEdges b.yedges = Mc.histEdges b'.yedges)
    (hr : b.x2d.rows = b'.x2d.rows) (hc : b.x2d.cols = b'.x2d.cols) :
    ((do Mc.getWeights m draws; Mc.remap f w : Meth Mc.State _) s).1
      = ((do Mc.getWeights m draws; Mc.remap f w : Meth Mc.State _) s').1 := by
  have hrem : ∀ x : Option Mc.Stored, (Mc.remap f w { s with extra := x }).1
      = (Mc.remap f w { s' with extra := x }).1 := by
    intro x
    have hA : ∀ {α : Type} (a : Arr2 α), pyAssert (a.sameShape b.x2d) = pyAssert (a.sameShape b'.x2d) := by
      intro α a
      have : a.sameShape b.x2d ↔ a.sameShape b'.x2d := by unfold Arr2.sameShape; rw [hr, hc]
      unfold pyAssert
      by_cases h : a.sameShape b'.x2d
      · rw [if_pos h, if_pos (this.mpr h)]
      · rw [if_neg h, if_neg (fun h' => h (this.mp h'))]
    unfold Mc.remap
    simp only [Meth.bind_apply, Meth.self_apply, Meth.lift_apply, hA, hb, hb', hp]
    cases pyAssert (f.sameShape b'.x2d) with
    | error e => rfl
    | ok _ =>
      cases w with
      | none =>
        simp only [Meth.pure_apply, Meth.bind_apply, Meth.lift_apply]
        cases need s'.polar with
        | error e => rfl
        | ok p =>
          cases need x with
          | error e => rfl
          | ok x => rfl
      | some w =>
        simp only [Meth.pure_apply, Meth.bind_apply, Meth.lift_apply, hA]
        cases pyAssert (w.sameShape b'.x2d) with
        | error e => rfl
        | ok _ =>
          simp only
          cases need s'.polar with
          | error e => rfl
          | ok p =>
            cases need x with
            | error e => rfl
            | ok x => rfl
  unfold Mc.getWeights
  simp only [Meth.bind_apply, Meth.self_apply, Meth.lift_apply, Meth.assign_apply, need_some, hx, hy, hb, hb', hp, he]
  cases pyAssert (m > 1) with
  | error e => rfl
  | ok _ =>
    simp only [hp]
    cases need s'.polar with
    | error e => rfl
    | ok p =>
      simp only [he]
      cases need s'.edges with
      | error e => rfl
      | ok e =>
        simp only [hb, hb', need_some, hx, hy]
        cases Mc.histEdges b'.xedges with
        | error e => rfl
        | ok xe =>
          simp only
          cases Mc.histEdges b'.yedges with
          | error e => rfl
          | ok ye =>
            simp only
            by_cases hl : p.r2d.cols < e.redges.length ∧ p.r2d.rows < e.pedges.length
            · simp only [if_pos hl]
              generalize Mc.pack _ = o
              cases o with
              | error e => rfl
              | ok o =>
                simp only [hb, hb', hp, he] at hrem ⊢
                exact hrem _
            · simp only [if_neg hl]

theorem cube_ok {C : CubeArgs} (a : 0 < C.numx) (b : 0 < C.numy) (c : 0 < C.numz) (s : McCube.State) :
    McCube.setupCube C s = (.ok (), { s with cube := some C.grid }) := by
  unfold McCube.setupCube Cube.setupCube
  simp only [Meth.bind_apply, Meth.lift_apply, Meth.assign_apply, bind, Except.bind, pyAssert, gt_iff_lt, a, b, if_true]
  rw [if_neg (by omega), if_neg (by omega)]
  rfl

end Degenerate

/-- C119 for the Monte Carlo `Box2Ring`: with `xmin > xmax` or `ymin > ymax`, `get_weights` raises `ValueError` after
any set-up of a polar grid, and stores nothing. -/
theorem C119_mc_exchanged (B : BoxArgs) (hnx : 0 < B.numx) (hny : 0 < B.numy)
    (h : B.xmax < B.xmin ∨ B.ymax < B.ymin) (m : ℕ) (hm : 1 < m) (draws : ℕ → ℕ → List ℝ × List ℝ) (s : Mc.State)
    (hp : s.polar ≠ none) (he : s.edges ≠ none) :
    (do setupBox B; Mc.getWeights m draws : Meth Mc.State Unit) s = (.error .valueError, { s with box := some B.box }) := by
  obtain ⟨p, hp⟩ := Option.ne_none_iff_exists'.mp hp
  obtain ⟨e, he⟩ := Option.ne_none_iff_exists'.mp he
  simp only [Meth.bind_apply, setupBox_ok hnx hny]
  unfold Mc.getWeights pyAssert
  rw [if_pos hm]
  simp only [Meth.bind_apply, Meth.self_apply, Meth.lift_apply, hp, he, need_some]
  rcases h with h | h
  · rw [show Mc.histEdges B.box.xedges = .error .valueError from histEdges_reversed h (by omega)]
  · have hy : Mc.histEdges B.box.yedges = .error .valueError := histEdges_reversed h (by omega)
    rcases histEdges_cases B.box.xedges with ⟨r, e⟩ | e
    · rw [e]
      simp only
      rw [hy]
    · rw [e]

/-- C119 is violated by the Monte Carlo `Box2Ring`: a box without a width or height is treated as if that side had the
width one, for every object, every set of random points and every map. -/
theorem C119_mc_empty_violated (B : BoxArgs) (m : ℕ) (draws : ℕ → ℕ → List ℝ × List ℝ) (f : Arr2 (Option ℝ))
    (w : Option (Arr2 ℝ)) (s : Mc.State) :
    ((do setupBox B; Mc.getWeights m draws; Mc.remap f w : Meth Mc.State _) s).1
      = ((do setupBox (widenBox B); Mc.getWeights m draws; Mc.remap f w : Meth Mc.State _) s).1 := by
  by_cases hnx : 0 < B.numx
  swap
  · simp only [Meth.bind_apply, setupBox, pyAssert, Meth.lift_apply, widenBox, gt_iff_lt, if_neg hnx]
  by_cases hny : 0 < B.numy
  swap
  · simp only [Meth.bind_apply, setupBox, pyAssert, Meth.lift_apply, widenBox, gt_iff_lt, if_neg hny, if_pos hnx]
  simp only [Meth.bind_apply]
  rw [setupBox_ok hnx hny, setupBox_ok (B := widenBox B) hnx hny]
  simp only
  exact mc_congr m draws f w _ _ B.box (widenBox B).box rfl rfl rfl rfl (histEdges_widen _ _ (by omega)) (histEdges_widen _ _ (by omega))
    (by simp only [BoxArgs.box, meshgridXY, length_mids_linspace, widenBox])
    (by simp only [BoxArgs.box, meshgridXY, length_mids_linspace, widenBox])

/-- C119 is violated by the Monte Carlo `Box2Ring`: if a side of the box has no width, the value of each pixel is the
mean of the values which the random points read in the box whose side has the width one. -/
theorem C119_mc_empty_mean_violated (B : BoxArgs) (G : Mc.Grid) (h : B.xmin = B.xmax ∨ B.ymin = B.ymax)
    (hB : BoxOk (widenBox B)) (hG : G.Ok) (n : ℕ) (hn : 1 < n)
    (draws : ℕ → ℕ → List ℝ × List ℝ) (hd : ∀ i j, i < G.nump → j < G.numr → Mc.Draws n (draws i j))
    (f : Arr2 (Option ℝ)) (v : ℕ → ℕ → ℝ) (hf : f.rows = B.numy.toNat ∧ f.cols = B.numx.toNat)
    (hv : ∀ i j, i < f.rows → j < f.cols → f.val i j = some (v i j))
    (hdiff : Mc.RowsDiffer (widenBox B) G draws) (s : Mc.State) :
    ∃ out, (Mc.mcRemap B G n draws f none s).1 = .ok out ∧ out.rows = G.nump ∧ out.cols = G.numr ∧
      ∀ i j, i < G.nump → j < G.numr → ∀ g, List.Forall₂ (Mc.Reads (widenBox B) v) (G.points i j (draws i j)) g →
        out.val i j = Mc.mean (g.filterMap id) := by
  obtain ⟨out, s', e, h1, h2, h3⟩ := C71_remap_partial (widenBox B) G hB hG n hn draws hd f v hf hv hdiff s
  refine ⟨out, ?_, h1, h2, h3⟩
  have hnx : 0 < B.numx := hB.numx
  have hny : 0 < B.numy := hB.numy
  obtain ⟨s1, e1, a1, a2, a3⟩ := Mc.Grid.setup_run hG { s with box := some B.box }
  obtain ⟨s2, e2, b1, b2, b3⟩ := Mc.Grid.setup_run hG { s with box := some (widenBox B).box }
  have key := mc_congr n draws f none s1 s2 B.box (widenBox B).box (a1.trans b1.symm) (a2.trans b2.symm) a3 b3
    (histEdges_widen _ _ (by omega)) (histEdges_widen _ _ (by omega))
    (by simp only [BoxArgs.box, meshgridXY, length_mids_linspace, widenBox])
    (by simp only [BoxArgs.box, meshgridXY, length_mids_linspace, widenBox])
  have e' := congrArg Prod.fst e
  unfold Mc.mcRemap at e' ⊢
  simp only [Meth.bind_apply] at e' key ⊢
  rw [setupBox_ok hnx hny]
  rw [setupBox_ok (B := widenBox B) hnx hny] at e'
  simp only at e' ⊢
  rw [e1]
  rw [e2] at e'
  exact key.trans e'

/-- C119 for the Monte Carlo `Cube2Shell`: with `xmin > xmax`, `ymin > ymax` or `zmin > zmax`, `get_weights` raises
`ValueError`. -/
theorem C119_mc_cube_exchanged (C : CubeArgs) (G : McCube.Shells) (hnx : 0 < C.numx) (hny : 0 < C.numy) (hnz : 0 < C.numz)
    (hG : G.Ok) (h : C.xmax < C.xmin ∨ C.ymax < C.ymin ∨ C.zmax < C.zmin) (m : ℕ) (draws : ℕ → ℕ → McCube.Draw)
    (hd : ∀ i j, i < G.numr → j < G.npix → McCube.Draws m (draws i j)) (dirs : ℕ → ℕ → List (ℝ × ℝ))
    (hs : McCube.Samples G draws dirs) (s : McCube.State) :
    ((do McCube.setupCube C; G.setup; McCube.getWeights m draws : Meth McCube.State Unit) s).1 = .error .valueError := by
  obtain ⟨s1, e1, h1, h2, h3⟩ := McCube.Shells.setup_run hG { s with cube := some C.grid }
  simp only [Meth.bind_apply]
  rw [cube_ok hnx hny hnz]
  simp only
  rw [e1]
  simp only
  unfold McCube.getWeights
  simp only [Meth.bind_apply, Meth.lift_apply, Meth.self_apply, Meth.assign_apply, h1, h2, h3, need_some,
    McCube.Shells.nside2npix hG, G.rmid_length]
  rw [tabulate_error _ _ _ _ .valueError (McCube.Shells.numr_pos hG) (McCube.Shells.npix_pos hG)]
  have hp := McCube.randomPoints_eq hG (McCube.Shells.numr_pos hG) (McCube.Shells.npix_pos hG)
    (hd 0 0 (McCube.Shells.numr_pos hG) (McCube.Shells.npix_pos hG)) hs
  simp only [hp, bind, Except.bind]
  have hx : C.xmax < C.xmin → Mc.histEdges C.grid.xedges = .error .valueError := fun h => histEdges_reversed h (by omega)
  have hy : C.ymax < C.ymin → Mc.histEdges C.grid.yedges = .error .valueError := fun h => histEdges_reversed h (by omega)
  have hz : C.zmax < C.zmin → Mc.histEdges C.grid.zedges = .error .valueError := fun h => histEdges_reversed h (by omega)
  rcases histEdges_cases C.grid.xedges with ⟨a, ea⟩ | ea
  · rcases histEdges_cases C.grid.yedges with ⟨b, eb⟩ | eb
    · rcases histEdges_cases C.grid.zedges with ⟨c, ec⟩ | ec
      · exfalso
        rcases h with h | h | h
        · rw [hx h] at ea; cases ea
        · rw [hy h] at eb; cases eb
        · rw [hz h] at ec; cases ec
      · simp only [ea, eb, ec]
    · simp only [ea, eb]
  · simp only [ea]

/-- C119 is violated by the Monte Carlo `Cube2Shell`: a cube without a width along an axis is treated as if its width
were one, for every grid of shells, every set of random points and every map. -/
theorem C119_mc_cube_empty_violated (C : CubeArgs) (G : McCube.Shells) (hG : G.Ok) (m : ℕ) (draws : ℕ → ℕ → McCube.Draw)
    (f : Arr3 (Option ℝ)) (w : Option (Arr3 ℝ)) (s : McCube.State) :
    (McCube.mcRemap C G m draws f w s).1 = (McCube.mcRemap (widenCube C) G m draws f w s).1 := by
  unfold McCube.mcRemap
  by_cases hn : 0 < C.numx ∧ 0 < C.numy ∧ 0 < C.numz
  swap
  · simp only [Meth.bind_apply, McCube.setupCube, Cube.setupCube, Meth.lift_apply, pyAssert, widenCube, gt_iff_lt, bind,
      Except.bind]
    by_cases hnx : 0 < C.numx
    · by_cases hny : 0 < C.numy
      · simp only [hnx, hny, if_true]
        by_cases hz : C.numz + 1 < 0
        · simp only [hz, if_true]
        · have : C.numz < 1 := by
            by_contra h
            exact hn ⟨hnx, hny, by omega⟩
          simp only [hz, this, if_true, if_false]
      · simp only [hnx, hny, if_true, if_false]
    · simp only [hnx, if_false]
  obtain ⟨hnx, hny, hnz⟩ := hn
  obtain ⟨s1, e1, h1, h2, h3⟩ := McCube.Shells.setup_run hG { s with cube := some C.grid }
  obtain ⟨s2, e2, g1, g2, g3⟩ := McCube.Shells.setup_run hG { s with cube := some (widenCube C).grid }
  simp only [Meth.bind_apply]
  rw [cube_ok hnx hny hnz, cube_ok (C := widenCube C) hnx hny hnz]
  simp only
  rw [e1, e2]
  simp only
  have hx : Mc.histEdges C.grid.xedges = Mc.histEdges (widenCube C).grid.xedges := histEdges_widen _ _ (by omega)
  have hy : Mc.histEdges C.grid.yedges = Mc.histEdges (widenCube C).grid.yedges := histEdges_widen _ _ (by omega)
  have hz : Mc.histEdges C.grid.zedges = Mc.histEdges (widenCube C).grid.zedges := histEdges_widen _ _ (by omega)
  unfold McCube.getWeights
  simp only [Meth.bind_apply, Meth.lift_apply, Meth.self_apply, Meth.assign_apply, h1, h2, h3, g1, g2, g3, need_some,
    McCube.Shells.nside2npix hG, G.rmid_length, hx, hy, hz]
  generalize tabulate _ _ _ _ = t
  cases t with
  | error e => rfl
  | ok hits =>
    simp only
    generalize Mc.pack _ = o
    cases o with
    | error e => rfl
    | ok o =>
      simp only
      exact (congrArg Prod.fst (McCube.remap_run hG
          { s1 with weights := some ⟨⟨hits.val, o⟩, G.numr, G.npix⟩ } ⟨hits.val, o⟩ h1 h2 rfl f w)).trans
        (congrArg Prod.fst (McCube.remap_run hG
          { s2 with weights := some ⟨⟨hits.val, o⟩, G.numr, G.npix⟩ } ⟨hits.val, o⟩ g1 g2 rfl f w)).symm

/-! ## Cases that meet the hypotheses -/

/-- Two columns, with the limits in `x` exchanged, and two rows, with the limits in `y` exchanged. -/
def exExchanged : BoxArgs := ⟨2, -2, 2, 3, -3, 2⟩

/-- A polar grid of `2` rings and `4` sectors with radius `1`. -/
noncomputable def exPolarFour : PolarArgs := { rmin := 0, rmax := 1, numr := 2, nump := 4 }

theorem exPolarFour_ok : PolarOk exPolarFour := by
  have := Real.pi_pos
  constructor <;> simp [exPolarFour] <;> positivity

theorem exPolarFour_point (m n q : ℕ) (hm : 1 ≤ m) (hq : q < m*2) :
    ∃ r, 0 < r ∧ r ≤ 1 ∧ Dg.densePoint exPolarFour m m n q
      = (r*Real.cos ((2*n + 1)*Real.pi/(4*m)), r*Real.sin ((2*n + 1)*Real.pi/(4*m))) := by
  have hm0 : (0:ℝ) < m := by exact_mod_cast hm
  have hq' : (q:ℝ) + 1 ≤ m*2 := by exact_mod_cast hq
  have h0 : (0:ℝ) ≤ q := Nat.cast_nonneg q
  refine ⟨(2*q + 1)/(4*m), by positivity, ?_, ?_⟩
  · rw [div_le_one (by positivity)]
    linarith
  · have hr : midAt exPolarFour.rmin exPolarFour.rmax (m*exPolarFour.numr.toNat) q = (2*q + 1)/(4*m) := by
      simp [midAt, edgeAt, exPolarFour]
      field_simp
      ring
    have hp : midAt exPolarFour.pmin exPolarFour.pmax (m*exPolarFour.nump.toNat) n + exPolarFour.phiShift
        = (2*n + 1)*Real.pi/(4*m) := by
      simp [midAt, edgeAt, exPolarFour]
      field_simp
      ring
    unfold Dg.densePoint
    simp only [hr, hp]
    simp [exPolarFour]

/-- The hypotheses of `C119_dg_exchanged_x` and `C119_dg_exchanged_y`, for every fineness of the dense grid. -/
example (m : ℕ) (hm : 1 ≤ m) :
    exExchanged.xmax < exExchanged.xmin ∧ exExchanged.ymax < exExchanged.ymin ∧ PolarOk exPolarFour ∧
    (∀ n q k, n < m*exPolarFour.nump.toNat → q < m*exPolarFour.numr.toNat → k ≤ exExchanged.numx.toNat →
      (Dg.densePoint exPolarFour m m n q).1 ≠ edgeAt exExchanged.xmin exExchanged.xmax exExchanged.numx.toNat k) ∧
    (∀ n q k, n < m*exPolarFour.nump.toNat → q < m*exPolarFour.numr.toNat → k ≤ exExchanged.numy.toNat →
      (Dg.densePoint exPolarFour m m n q).2 ≠ edgeAt exExchanged.ymin exExchanged.ymax exExchanged.numy.toNat k) := by
  have hpi := Real.pi_pos
  have hm0 : (m:ℝ) ≠ 0 := by positivity
  refine ⟨by simp [exExchanged], by simp [exExchanged], exPolarFour_ok, ?_, ?_⟩
  · intro n q k hn hq hk
    have hq : q < m*2 := by simpa [exPolarFour] using hq
    have hk : k ≤ 2 := by simpa [exExchanged] using hk
    obtain ⟨r, r0, r1, e⟩ := exPolarFour_point m n q hm hq
    rw [e]
    have c1 := Real.neg_one_le_cos ((2*n + 1)*Real.pi/(4*m))
    have c2 := Real.cos_le_one ((2*n + 1)*Real.pi/(4*m))
    have hc : Real.cos ((2*n + 1)*Real.pi/(4*m)) ≠ 0 := by
      intro h
      rw [Real.cos_eq_zero_iff] at h
      obtain ⟨z, hz⟩ := h
      field_simp at hz
      have : (2*n + 1 : ℤ) = 2*m*(2*z + 1) := by
        have h2 : (2*n + 1 : ℝ) = 2*m*(2*z + 1) := by linarith
        exact_mod_cast h2
      have h3 : (2*n + 1 : ℤ) = 2*(m*(2*z + 1)) := by rw [this]; ring
      omega
    interval_cases k <;> simp [exExchanged, edgeAt]
    · nlinarith
    · norm_num
      exact ⟨r0.ne', hc⟩
    · nlinarith
  · intro n q k hn hq hk
    have hq : q < m*2 := by simpa [exPolarFour] using hq
    have hk : k ≤ 2 := by simpa [exExchanged] using hk
    obtain ⟨r, r0, r1, e⟩ := exPolarFour_point m n q hm hq
    rw [e]
    have c1 := Real.neg_one_le_sin ((2*n + 1)*Real.pi/(4*m))
    have c2 := Real.sin_le_one ((2*n + 1)*Real.pi/(4*m))
    have hc : Real.sin ((2*n + 1)*Real.pi/(4*m)) ≠ 0 := by
      intro h
      rw [Real.sin_eq_zero_iff] at h
      obtain ⟨z, hz⟩ := h
      field_simp at hz
      have : (2*n + 1 : ℤ) = z*4*m := by
        have h2 : (2*n + 1 : ℝ) = z*4*m := by linarith
        exact_mod_cast h2
      have h3 : (2*n + 1 : ℤ) = 2*(z*2*m) := by rw [this]; ring
      omega
    interval_cases k <;> simp [exExchanged, edgeAt]
    · nlinarith
    · norm_num
      exact ⟨r0.ne', hc⟩
    · nlinarith

/-- A box without a width. -/
def exFlat : BoxArgs := ⟨0, 0, 2, -2, 2, 1⟩

theorem exFlat_widen : widenBox exFlat = ⟨-1/2, 1/2, 2, -2, 2, 1⟩ := by
  simp [widenBox, widen, exFlat]
  norm_num

theorem exFlat_ok : BoxOk (widenBox exFlat) := by
  rw [exFlat_widen]
  constructor <;> simp <;> norm_num

/-- In the inner ring both points are the same; in the outer ring they are on its inner edge, on both sides of the
`y` axis. -/
noncomputable def exFlatDraws (_ j : ℕ) : List ℝ × List ℝ :=
  if j = 0 then ([1/2, 1/2], [1/4, 1/4]) else ([0, 0], [1/4, 3/4])

theorem exFlat_point (i j : ℕ) (hj : j < 2) (w : ℝ) :
    ∃ r, 0 < r ∧ r ≤ 1/2 ∧ (Mc.Grid.lin exHalf).point i j (if j = 0 then 1/2 else 0) w
      = (r*Real.cos (Real.pi*(i + w)), r*Real.sin (Real.pi*(i + w))) := by
  have hr : ∀ k : ℕ, (Mc.Grid.lin exHalf).rEdge k = k/2 := by
    intro k
    simp [Mc.Grid.rEdge, exHalf, edgeAt]
    ring
  have hp : ∀ k : ℕ, (Mc.Grid.lin exHalf).pEdge k = Real.pi*k := by
    intro k
    simp [Mc.Grid.pEdge, Mc.Grid.nump, Mc.Grid.args, exHalf, edgeAt]
    ring
  refine ⟨Real.sqrt (((j:ℝ)/2)^2 + (if j = 0 then 1/2 else 0)*((((j+1 : ℕ):ℝ)/2)^2 - ((j:ℝ)/2)^2)), ?_, ?_, ?_⟩
  · rw [Real.sqrt_pos]
    have hj : j = 0 ∨ j = 1 := by omega
    rcases hj with rfl | rfl <;> norm_num
  · rw [Real.sqrt_le_left (by norm_num)]
    have hj : j = 0 ∨ j = 1 := by omega
    rcases hj with rfl | rfl <;> norm_num
  · unfold Mc.Grid.point
    simp only [hr, hp]
    have e : Real.pi*i + w*(Real.pi*((i+1 : ℕ):ℝ) - Real.pi*i) + (Mc.Grid.lin exHalf).args.phiShift = Real.pi*(i + w) := by
      simp [Mc.Grid.args, exHalf]
      ring
    rw [e]
    simp [Mc.Grid.args, exHalf]

theorem exFlat_pixel {r t : ℝ} (h0 : 0 < r) (h1 : r ≤ 1/2) :
    (0 ≤ Real.cos t → Mc.InPixel (widenBox exFlat) (r*Real.cos t, r*Real.sin t) 1 0) ∧
    (Real.cos t < 0 → Mc.InPixel (widenBox exFlat) (r*Real.cos t, r*Real.sin t) 0 0) := by
  have c1 := Real.neg_one_le_cos t
  have c2 := Real.cos_le_one t
  have s1 := Real.neg_one_le_sin t
  have s2 := Real.sin_le_one t
  rw [exFlat_widen]
  constructor
  · intro h
    have := mul_nonneg h0.le h
    have hle : r*Real.cos t ≤ 1/2 := by nlinarith
    refine ⟨⟨by simp, ?_, ?_⟩, ⟨by simp, ?_, Or.inl ?_⟩⟩
    · simp [edgeAt]; norm_num; linarith
    · rcases hle.lt_or_eq with h | h
      · left; simp [edgeAt]; norm_num; linarith
      · right; refine ⟨by simp, ?_⟩; simp [edgeAt]; norm_num; linarith
    · simp [edgeAt]; nlinarith
    · simp [edgeAt]; nlinarith
  · intro h
    have := mul_neg_of_pos_of_neg h0 h
    refine ⟨⟨by simp, ?_, Or.inl ?_⟩, ⟨by simp, ?_, Or.inl ?_⟩⟩ <;> simp [edgeAt] <;> norm_num <;> nlinarith

/-- The hypotheses of `C119_mc_empty_mean_violated`. -/
example : exFlat.xmin = exFlat.xmax ∧ BoxOk (widenBox exFlat) ∧ (Mc.Grid.lin exHalf).Ok ∧
    (∀ i j, Mc.Draws 2 (exFlatDraws i j)) ∧ Mc.RowsDiffer (widenBox exFlat) (.lin exHalf) exFlatDraws := by
  refine ⟨rfl, exFlat_ok, exHalf_ok, ?_, ?_⟩
  · intro i j
    unfold exFlatDraws
    split_ifs <;> refine ⟨rfl, rfl, ?_, ?_⟩ <;> intro u hu <;> simp at hu <;>
      first
      | (rcases hu with rfl | rfl <;> norm_num)
      | (subst hu; norm_num)
  · intro i hi
    have hi : i < 2 := by simpa [Mc.Grid.nump, Mc.Grid.args, exHalf] using hi
    refine ⟨0, 1, by simp [Mc.Grid.numr, Mc.Grid.args, exHalf], by simp [Mc.Grid.numr, Mc.Grid.args, exHalf], ?_⟩
    obtain ⟨r, r0, r1, e1⟩ := exFlat_point i 0 (by omega) (1/4)
    obtain ⟨p, p0, p1, e2⟩ := exFlat_point i 1 (by omega) (1/4)
    obtain ⟨q, q0, q1, e3⟩ := exFlat_point i 1 (by omega) (3/4)
    rw [if_pos rfl] at e1
    rw [if_neg (by omega)] at e2 e3
    have l0 : (Mc.Grid.lin exHalf).points i 0 (exFlatDraws i 0) =
        [(Mc.Grid.lin exHalf).point i 0 (1/2) (1/4), (Mc.Grid.lin exHalf).point i 0 (1/2) (1/4)] := rfl
    have l1 : (Mc.Grid.lin exHalf).points i 1 (exFlatDraws i 1) =
        [(Mc.Grid.lin exHalf).point i 1 0 (1/4), (Mc.Grid.lin exHalf).point i 1 0 (3/4)] := rfl
    obtain ⟨c1, c2, c3, c4⟩ := exCos
    rw [l0, l1, e1, e2, e3]
    have hi : i = 0 ∨ i = 1 := by omega
    rcases hi with rfl | rfl
    · simp only [Nat.cast_zero, zero_add]
      rw [touched_one exFlat_ok (by simp) (a := 1) (b := 0)]
      · exact (touched_ne_one (List.mem_cons_self ..) (by simp) ((exFlat_pixel p0 p1).1 c1.le)
          ((exFlat_pixel q0 q1).2 c2) (by omega)).symm
      · intro pt hpt
        simp only [List.mem_cons, List.not_mem_nil, or_false, or_self] at hpt
        rw [hpt]
        exact (exFlat_pixel r0 r1).1 c1.le
    · simp only [Nat.cast_one]
      rw [touched_one exFlat_ok (by simp) (a := 0) (b := 0)]
      · exact (touched_ne_one (List.mem_cons_self ..) (by simp) ((exFlat_pixel p0 p1).2 c3)
          ((exFlat_pixel q0 q1).1 c4.le) (by omega)).symm
      · intro pt hpt
        simp only [List.mem_cons, List.not_mem_nil, or_false, or_self] at hpt
        rw [hpt]
        exact (exFlat_pixel r0 r1).2 c3

end Magpie.Props
