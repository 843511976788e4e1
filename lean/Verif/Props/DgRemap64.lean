import Verif.Proof.DgRemap64
import Verif.Props.DgBox2Ring

/-!
# Property C127: dense grid remapping in double precision

`TrigNear`, `Orders.For`, `Fits`, `reach` and `ringSize` are in `Verif/Spec/DgRemap64.lean`; `Reads`, `densePoint` and
`areaSum` in `Verif/Spec/Box2Ring.lean`.
-/

set_option linter.unusedSimpArgs false
set_option linter.unusedVariables false

namespace Magpie.Props
open Magpie Magpie.Radial Magpie.Spec Magpie.Box2Ring Magpie.Dg Magpie.Dg64

/-- The dense grid `remap(f)` in double precision, for `rebin_r = rebin_p = m` and any order of the sums: each value is the
mean, weighted by area, of `m × m` values `g` of the pixel, up to an error of `m` times the ratio of the disc to the ring
times `2^-45` of the largest value. Each of the `g` is what the box has within `reach` of the centre of the dense cell, or
`0` if that is outside. -/
theorem C127_remap (L : Trig) (hL : TrigNear L) (m : ℕ) (O : Orders) (hO : O.For m) (B : BoxArgs) (A : PolarArgs)
    (h : Fits B A m) (f : Arr2 ℝ) (hr : f.rows = B.numy.toNat) (hc : f.cols = B.numx.toNat) (F : ℝ) (hF : 0 ≤ F)
    (hf : ∀ b < f.rows, ∀ a < f.cols, |f.val b a| ≤ F) :
    ∃ (out : Arr2 (Option ℝ)) (g : ℕ → ℕ → ℝ), remap64 L O B A m m f = .ok out ∧ out.rows = A.nump.toNat ∧
      out.cols = A.numr.toNat ∧
      (∀ n < m*A.nump.toNat, ∀ q < m*A.numr.toNat, ∃ pt : ℝ × ℝ,
        |pt.1 - (densePoint A m m n q).1| ≤ reach A.rmax (A.center.getD 0 0) B.xmin B.xmax B.numx.toNat ∧
        |pt.2 - (densePoint A m m n q).2| ≤ reach A.rmax (A.center.getD 1 0) B.ymin B.ymax B.numy.toNat ∧
        Reads B f.val pt (g n q)) ∧
      ∀ i < A.nump.toNat, ∀ j < A.numr.toNat, ∃ d : ℝ, out.val i j = some d ∧
        |d - areaSum A m g i j/areaSum A m (fun _ _ => 1) i j| ≤ A.rmax^2/ringSize A j*m/2^45*(F + (2:ℝ)^(-600 : ℤ)) := by
  obtain ⟨out, g, h1, h2, h3, h4, h5⟩ := remap64_ok hL h.box h.polar hO.rows hO.cols hO.areaRows hO.areaCols h.x h.xwide
    h.y h.ywide h.r h.p h.shift h.large h.rings hr hc hF hf
  refine ⟨out, g, h1, h2, h3, h4, fun i hi j hj => ?_⟩
  obtain ⟨d, d1, d2, -⟩ := h5 i hi j hj
  exact ⟨d, d1, d2⟩

/-- What `get_mask_in_bound` remaps, an array of ones: if data and areas are added in the same order, then a polar pixel whose
dense cells have their centres in the box by more than `reach` has exactly the value `1`. -/
theorem C127_mask (L : Trig) (hL : TrigNear L) (m : ℕ) (O : Orders) (hO : O.For m) (h1 : O.rows = O.areaRows)
    (h2 : O.cols = O.areaCols) (B : BoxArgs) (A : PolarArgs) (h : Fits B A m) (f : Arr2 ℝ) (hr : f.rows = B.numy.toNat)
    (hc : f.cols = B.numx.toNat) (hf : ∀ b < f.rows, ∀ a < f.cols, f.val b a = 1) :
    ∃ out : Arr2 (Option ℝ), remap64 L O B A m m f = .ok out ∧ ∀ i < A.nump.toNat, ∀ j < A.numr.toNat,
      (∀ k < m, ∀ l < m, let pt := densePoint A m m (i*m + k) (j*m + l)
        let rx := reach A.rmax (A.center.getD 0 0) B.xmin B.xmax B.numx.toNat
        let ry := reach A.rmax (A.center.getD 1 0) B.ymin B.ymax B.numy.toNat
        B.xmin + rx ≤ pt.1 ∧ pt.1 < B.xmax - rx ∧ B.ymin + ry ≤ pt.2 ∧ pt.2 < B.ymax - ry) →
      out.val i j = some 1 := by
  obtain ⟨out, g, e1, -, -, e4, e5⟩ := remap64_ok hL h.box h.polar hO.rows hO.cols hO.areaRows hO.areaCols h.x h.xwide
    h.y h.ywide h.r h.p h.shift h.large h.rings hr hc (F := 1) (by norm_num) (fun b hb a ha => by rw [hf b hb a ha, abs_one])
  refine ⟨out, e1, fun i hi j hj hin => ?_⟩
  obtain ⟨d, d1, -, d3⟩ := e5 i hi j hj
  rw [d1, d3 h1 h2]
  intro k hk l hl
  have hn : i*m + k < m*A.nump.toNat := by nlinarith
  have hq : j*m + l < m*A.numr.toNat := by nlinarith
  obtain ⟨pt, p1, p2, p3, -⟩ := e4 _ hn _ hq
  obtain ⟨b1, b2, b3, b4⟩ := hin k hk l hl
  rw [abs_le] at p1 p2
  unfold reach at b1 b2 b3 b4
  obtain ⟨a, ha⟩ := (exists_inCell h.box.hx h.x.pos pt.1).mpr ⟨by linarith, by linarith⟩
  obtain ⟨b, hb⟩ := (exists_inCell h.box.hy h.y.pos pt.2).mpr ⟨by linarith, by linarith⟩
  rw [p3 a b ha hb]
  exact hf b (by rw [hr]; exact hb.1) a (by rw [hc]; exact ha.1)

/-- Where no centre of a dense cell is within `reach` of a boundary between pixels of the box, the result in double
precision and the result of `remap` with exact arithmetic differ by no more than that error. -/
theorem C127_exact (L : Trig) (hL : TrigNear L) (m : ℕ) (O : Orders) (hO : O.For m) (B : BoxArgs) (A : PolarArgs)
    (h : Fits B A m) (h2r : 2 ≤ A.numr) (h2p : 2 ≤ A.nump) (f : Arr2 ℝ) (hr : f.rows = B.numy.toNat)
    (hc : f.cols = B.numx.toNat) (F : ℝ) (hF : 0 ≤ F) (hf : ∀ b < f.rows, ∀ a < f.cols, |f.val b a| ≤ F)
    (hx : ∀ n < m*A.nump.toNat, ∀ q < m*A.numr.toNat, ∀ k ≤ B.numx.toNat,
      reach A.rmax (A.center.getD 0 0) B.xmin B.xmax B.numx.toNat
        < |(densePoint A m m n q).1 - edgeAt B.xmin B.xmax B.numx.toNat k|)
    (hy : ∀ n < m*A.nump.toNat, ∀ q < m*A.numr.toNat, ∀ k ≤ B.numy.toNat,
      reach A.rmax (A.center.getD 1 0) B.ymin B.ymax B.numy.toNat
        < |(densePoint A m m n q).2 - edgeAt B.ymin B.ymax B.numy.toNat k|) (s : Dg.State) :
    ∃ (out out' : Arr2 (Option ℝ)) (s' : Dg.State), remap64 L O B A m m f = .ok out ∧
      (do setupBox B; setupPolar A m m; remap ⟨f.rows, f.cols, fun b a => some (f.val b a)⟩ none : Meth Dg.State _) s
        = (.ok out', s') ∧
      ∀ i < A.nump.toNat, ∀ j < A.numr.toNat, ∃ d e : ℝ, out.val i j = some d ∧ out'.val i j = some e ∧
        |d - e| ≤ A.rmax^2/ringSize A j*m/2^45*(F + (2:ℝ)^(-600 : ℤ)) := by
  obtain ⟨out, g, e, -, -, hg, hv⟩ := C127_remap L hL m O hO B A h f hr hc F hF hf
  have hm : 1 ≤ m := perm_pos hO.rows
  obtain ⟨out', s', e', -, -, hv'⟩ := C73_remap_partial B A m h.box h.polar h2r h2p hm
    ⟨f.rows, f.cols, fun b a => some (f.val b a)⟩ f.val hr hc (fun _ _ _ _ => rfl) g (by
      intro n q hn hq
      obtain ⟨pt, p1, p2, p3, p4⟩ := hg n hn q hq
      have ix := inCell_far p1 (hx n hn q hq)
      have iy := inCell_far p2 (hy n hn q hq)
      refine ⟨fun a b ha hb => p3 a b ((ix a).mpr ha) ((iy b).mpr hb), fun hno => p4 ?_⟩
      rintro ⟨a, b, ha, hb⟩
      exact hno ⟨a, b, (ix a).mp ha, (iy b).mp hb⟩) s
  refine ⟨out, out', s', e, e', fun i hi j hj => ?_⟩
  obtain ⟨d, h1, h2⟩ := hv i hi j hj
  exact ⟨d, _, h1, hv' i j hi hj, h2⟩

/-- The dense grid `remap(f, w)` in double precision, for weights between `0` and `W`. The data `g` and the weights `v` are
read at the same points, again within `reach` of the centres of the dense cells. Where the mean of the `v` is not below four
times the error of a mean of weights, the value returned is the weighted mean of the `g`, up to an error that grows as the mean
weight becomes smaller; where all the `v` are zero there is no value. -/
theorem C127_weighted (L : Trig) (hL : TrigNear L) (m : ℕ) (O O' : Orders) (hO : O.For m) (hO' : O'.For m) (B : BoxArgs)
    (A : PolarArgs) (h : Fits B A m) (f w : Arr2 ℝ) (fr : f.rows = B.numy.toNat) (fc : f.cols = B.numx.toNat)
    (wr : w.rows = B.numy.toNat) (wc : w.cols = B.numx.toNat) (F W : ℝ) (hF : 0 ≤ F) (hW : 0 ≤ W)
    (hf : ∀ b < f.rows, ∀ a < f.cols, |f.val b a| ≤ F) (hw : ∀ b < w.rows, ∀ a < w.cols, 0 ≤ w.val b a ∧ w.val b a ≤ W) :
    ∃ (out : Arr2 (Option ℝ)) (g v : ℕ → ℕ → ℝ), remapWeighted64 L O O' B A m m f w = .ok out ∧ out.rows = A.nump.toNat ∧
      out.cols = A.numr.toNat ∧
      (∀ n < m*A.nump.toNat, ∀ q < m*A.numr.toNat, ∃ pt : ℝ × ℝ,
        |pt.1 - (densePoint A m m n q).1| ≤ reach A.rmax (A.center.getD 0 0) B.xmin B.xmax B.numx.toNat ∧
        |pt.2 - (densePoint A m m n q).2| ≤ reach A.rmax (A.center.getD 1 0) B.ymin B.ymax B.numy.toNat ∧
        Reads B f.val pt (g n q) ∧ Reads B w.val pt (v n q)) ∧
      ∀ i < A.nump.toNat, ∀ j < A.numr.toNat,
        ((∀ k < m, ∀ l < m, v (i*m + k) (j*m + l) = 0) → out.val i j = none) ∧
        let κ := A.rmax^2/ringSize A j*m/2^45
        let D := areaSum A m v i j/areaSum A m (fun _ _ => 1) i j
        (4*κ*(W + (2:ℝ)^(-300 : ℤ)) ≤ D → ∃ d, out.val i j = some d ∧
          |d - areaSum A m (fun n q => g n q*v n q) i j/areaSum A m v i j|
            ≤ 4*κ*(F + (2:ℝ)^(-300 : ℤ))*(W + (2:ℝ)^(-300 : ℤ))/D) :=
  remapWeighted64_ok hL hO hO' h fr fc wr wc hF hW hf hw

/-- Where no centre of a dense cell is within `reach` of a boundary between pixels of the box and the mean weight `D` of a polar
pixel, as `remap(w)` with exact arithmetic returns it, is not too small, `remap(f, w)` in double precision and with exact
arithmetic differ by no more than that error. -/
theorem C127_weighted_exact (L : Trig) (hL : TrigNear L) (m : ℕ) (O O' : Orders) (hO : O.For m) (hO' : O'.For m) (B : BoxArgs)
    (A : PolarArgs) (h : Fits B A m) (h2r : 2 ≤ A.numr) (h2p : 2 ≤ A.nump) (f w : Arr2 ℝ) (fr : f.rows = B.numy.toNat)
    (fc : f.cols = B.numx.toNat) (wr : w.rows = B.numy.toNat) (wc : w.cols = B.numx.toNat) (F W : ℝ) (hF : 0 ≤ F) (hW : 0 ≤ W)
    (hf : ∀ b < f.rows, ∀ a < f.cols, |f.val b a| ≤ F) (hw : ∀ b < w.rows, ∀ a < w.cols, 0 ≤ w.val b a ∧ w.val b a ≤ W)
    (hx : ∀ n < m*A.nump.toNat, ∀ q < m*A.numr.toNat, ∀ k ≤ B.numx.toNat,
      reach A.rmax (A.center.getD 0 0) B.xmin B.xmax B.numx.toNat
        < |(densePoint A m m n q).1 - edgeAt B.xmin B.xmax B.numx.toNat k|)
    (hy : ∀ n < m*A.nump.toNat, ∀ q < m*A.numr.toNat, ∀ k ≤ B.numy.toNat,
      reach A.rmax (A.center.getD 1 0) B.ymin B.ymax B.numy.toNat
        < |(densePoint A m m n q).2 - edgeAt B.ymin B.ymax B.numy.toNat k|) (s : Dg.State) :
    ∃ (out out' wout : Arr2 (Option ℝ)) (s' s'' : Dg.State), remapWeighted64 L O O' B A m m f w = .ok out ∧
      (do setupBox B; setupPolar A m m; remap ⟨f.rows, f.cols, fun b a => some (f.val b a)⟩ (some w) : Meth Dg.State _) s
        = (.ok out', s') ∧
      (do setupBox B; setupPolar A m m; remap ⟨w.rows, w.cols, fun b a => some (w.val b a)⟩ none : Meth Dg.State _) s
        = (.ok wout, s'') ∧
      ∀ i < A.nump.toNat, ∀ j < A.numr.toNat, ∃ D : ℝ, wout.val i j = some D ∧
        let κ := A.rmax^2/ringSize A j*m/2^45
        (4*κ*(W + (2:ℝ)^(-300 : ℤ)) ≤ D → ∃ d e : ℝ, out.val i j = some d ∧ out'.val i j = some e ∧
          |d - e| ≤ 4*κ*(F + (2:ℝ)^(-300 : ℤ))*(W + (2:ℝ)^(-300 : ℤ))/D) := by
  obtain ⟨out, g, v, e, -, -, hg, hv⟩ := C127_weighted L hL m O O' hO hO' B A h f w fr fc wr wc F W hF hW hf hw
  have hm : 1 ≤ m := perm_pos hO.rows
  have move : ∀ {y : ℕ → ℕ → ℝ} {n q : ℕ} {pt : ℝ × ℝ} {x : ℝ}, n < m*A.nump.toNat → q < m*A.numr.toNat →
      |pt.1 - (densePoint A m m n q).1| ≤ reach A.rmax (A.center.getD 0 0) B.xmin B.xmax B.numx.toNat →
      |pt.2 - (densePoint A m m n q).2| ≤ reach A.rmax (A.center.getD 1 0) B.ymin B.ymax B.numy.toNat →
      Reads B y pt x → Reads B y (densePoint A m m n q) x := by
    intro y n q pt x hn hq p1 p2 p
    have ix := inCell_far p1 (hx n hn q hq)
    have iy := inCell_far p2 (hy n hn q hq)
    refine ⟨fun a b ha hb => p.1 a b ((ix a).mpr ha) ((iy b).mpr hb), fun hno => p.2 ?_⟩
    rintro ⟨a, b, ha, hb⟩
    exact hno ⟨a, b, (ix a).mp ha, (iy b).mp hb⟩
  have hgd : ∀ n q, n < m*A.nump.toNat → q < m*A.numr.toNat → Reads B f.val (densePoint A m m n q) (g n q) := by
    intro n q hn hq
    obtain ⟨pt, p1, p2, p3, -⟩ := hg n hn q hq
    exact move hn hq p1 p2 p3
  have hvd : ∀ n q, n < m*A.nump.toNat → q < m*A.numr.toNat → Reads B w.val (densePoint A m m n q) (v n q) := by
    intro n q hn hq
    obtain ⟨pt, p1, p2, -, p4⟩ := hg n hn q hq
    exact move hn hq p1 p2 p4
  obtain ⟨out', s', e', -, -, hv'⟩ := C73_weighted_partial B A m h.box h.polar h2r h2p hm
    ⟨f.rows, f.cols, fun b a => some (f.val b a)⟩ w f.val fr fc wr wc (fun _ _ _ _ => rfl) g v hgd hvd s
  obtain ⟨wout, s'', e'', -, -, hv''⟩ := C73_remap_partial B A m h.box h.polar h2r h2p hm
    ⟨w.rows, w.cols, fun b a => some (w.val b a)⟩ w.val wr wc (fun _ _ _ _ => rfl) v hvd s
  refine ⟨out, out', wout, s', s'', e, e', e'', fun i hi j hj => ⟨_, hv'' i j hi hj, ?_⟩⟩
  dsimp only
  intro hD
  obtain ⟨d, d1, d2⟩ := (hv i hi j hj).2 hD
  have hne : areaSum A m v i j ≠ 0 := by
    intro h0
    rw [h0, zero_div] at hD
    have hΩ : 0 < ringSize A j := by
      unfold ringSize
      rw [← ring_sum A hm j]
      exact Finset.sum_pos (fun l _ => Dg.rweight_pos h.polar hm _) ⟨0, Finset.mem_range.mpr hm⟩
    have hR0 : 0 < A.rmax := lt_of_lt_of_le (zpow_pos (by norm_num) _) h.large
    have ht : (0:ℝ) < (2:ℝ)^(-300 : ℤ) := zpow_pos (by norm_num) _
    have hm0 : (0:ℝ) < m := by exact_mod_cast hm
    have : 0 < 4*(A.rmax^2/ringSize A j*m/2^45)*(W + (2:ℝ)^(-300 : ℤ)) := by positivity
    linarith
  refine ⟨d, _, d1, (hv' i j hi hj).1 hne, ?_⟩
  simp only [mul_comm (v _ _)]
  exact d2

/-! ## The hypotheses can be met -/

theorem divisible_small {a b : ℤ} {n : ℕ} (hab : a < b) (ha : |a| ≤ 100) (hb : |b| ≤ 100) (hn : 1 ≤ n) (hn2 : n ≤ 100) :
    Divisible (a:ℝ) (b:ℝ) n := by
  have hM := maxDouble_big
  have ha' : |(a:ℝ)| ≤ 100 := by exact_mod_cast ha
  have hb' : |(b:ℝ)| ≤ 100 := by exact_mod_cast hb
  norm_num at hM
  refine ⟨⟨a, 0, by omega, by norm_num, by norm_num, by norm_num⟩, ⟨b, 0, by omega, by norm_num, by norm_num, by norm_num⟩,
    by exact_mod_cast hab.le, by linarith, by linarith, hn, hn2.trans (by norm_num), .inr ?_⟩
  have h1 : (1:ℝ) ≤ b - a := by
    have : (a:ℝ) + 1 ≤ b := by exact_mod_cast hab
    linarith
  have h2 : (n:ℝ) ≤ 100 := by exact_mod_cast hn2
  have h3 : (1:ℝ) ≤ n := by exact_mod_cast hn
  have h4 : (2:ℝ)^(-1022 : ℤ) ≤ (2:ℝ)^(-7 : ℤ) := zpow_le_zpow_right₀ (by norm_num) (by norm_num)
  refine h4.trans ?_
  rw [le_div_iff₀ (by linarith)]
  norm_num
  linarith

/-- A box of 8 by 8 pixels and a polar grid of 2 rings of 3 sectors in it, turned by 1, with `rebin_r = rebin_p = 2`. -/
theorem fits_small : Fits ⟨-4, 4, 8, -4, 4, 8⟩ ⟨0, 2, 2, 3, 0, 6, [0, 0], 1⟩ 2 := by
  have dx : Divisible (-4) 4 8 := by
    have := divisible_small (a := -4) (b := 4) (n := 8) (by norm_num) (by norm_num) (by norm_num) (by norm_num) (by norm_num)
    norm_num at this; exact this
  have dr : Divisible 0 2 4 := by
    have := divisible_small (a := 0) (b := 2) (n := 4) (by norm_num) (by norm_num) (by norm_num) (by norm_num) (by norm_num)
    norm_num at this; exact this
  have dp : Divisible 0 6 6 := by
    have := divisible_small (a := 0) (b := 6) (n := 6) (by norm_num) (by norm_num) (by norm_num) (by norm_num) (by norm_num)
    norm_num at this; exact this
  have hm : 2*cellMargin (-4) 4 8 ≤ (4 - (-4))/8 := by unfold cellMargin; norm_num
  have h8 : (8:ℤ).toNat = 8 := rfl
  have hpi := Real.pi_gt_three
  refine ⟨⟨by norm_num, by norm_num, by norm_num, by norm_num⟩,
    ⟨le_rfl, by norm_num, by norm_num, le_rfl, by linarith, by norm_num, by norm_num, by show (6:ℝ) ≤ _; linarith,
      by norm_num, rfl⟩, dx, by simpa using hm, dx, by simpa using hm, dr, dp, ?_, ?_, ?_⟩
  · norm_num
  · show (2:ℝ)^(-200 : ℤ) ≤ 2
    exact (zpow_le_one_of_nonpos₀ (by norm_num) (by norm_num)).trans (by norm_num)
  · intro j hj
    have hj' : j < 2 := hj
    have h2 : (2:ℤ).toNat = 2 := rfl
    interval_cases j <;> simp only [ringSize, edgeAt, h2] <;> norm_num

example (L : Trig) (hL : TrigNear L) (f : Arr2 ℝ) (hr : f.rows = 8) (hc : f.cols = 8)
    (hf : ∀ b < f.rows, ∀ a < f.cols, |f.val b a| ≤ 5) :
    ∃ (out : Arr2 (Option ℝ)), remap64 L ⟨.node (.leaf 0) (.leaf 1), .node (.leaf 1) (.leaf 0), .node (.leaf 0) (.leaf 1),
      .node (.leaf 0) (.leaf 1)⟩ ⟨-4, 4, 8, -4, 4, 8⟩ ⟨0, 2, 2, 3, 0, 6, [0, 0], 1⟩ 2 2 f = .ok out ∧ out.rows = 3 := by
  obtain ⟨out, g, h1, h2, -⟩ := C127_remap L hL 2 ⟨.node (.leaf 0) (.leaf 1), .node (.leaf 1) (.leaf 0),
    .node (.leaf 0) (.leaf 1), .node (.leaf 0) (.leaf 1)⟩ ⟨by decide, by decide, by decide, by decide⟩ _ _ fits_small f hr hc 5
    (by norm_num) hf
  exact ⟨out, h1, h2⟩

/-- A box of 3 by 3 pixels with a polar grid in the middle one. -/
theorem fits_middle : Fits ⟨-12, 12, 3, -12, 12, 3⟩ ⟨0, 2, 2, 3, 0, 6, [0, 0], 1⟩ 2 := by
  have dx : Divisible (-12) 12 3 := by
    have := divisible_small (a := -12) (b := 12) (n := 3) (by norm_num) (by norm_num) (by norm_num) (by norm_num) (by norm_num)
    norm_num at this; exact this
  have hm : 2*cellMargin (-12) 12 3 ≤ (12 - (-12))/3 := by unfold cellMargin; norm_num
  exact ⟨⟨by norm_num, by norm_num, by norm_num, by norm_num⟩, fits_small.polar, dx, by simpa using hm, dx,
    by simpa using hm, fits_small.r, fits_small.p, fits_small.shift, fits_small.large, fits_small.rings⟩

/-- There every value in double precision is within `5 / 2^40` of the exact one, if the data are at most 5. -/
example (L : Trig) (hL : TrigNear L) (O : Orders) (hO : O.For 2) (f : Arr2 ℝ) (hr : f.rows = 3) (hc : f.cols = 3)
    (hf : ∀ b < f.rows, ∀ a < f.cols, |f.val b a| ≤ 5) :
    ∃ (out out' : Arr2 (Option ℝ)) (s' : Dg.State),
      remap64 L O ⟨-12, 12, 3, -12, 12, 3⟩ ⟨0, 2, 2, 3, 0, 6, [0, 0], 1⟩ 2 2 f = .ok out ∧
      (do setupBox ⟨-12, 12, 3, -12, 12, 3⟩; setupPolar ⟨0, 2, 2, 3, 0, 6, [0, 0], 1⟩ 2 2;
          remap ⟨f.rows, f.cols, fun b a => some (f.val b a)⟩ none : Meth Dg.State _) Box2Ring.init = (.ok out', s') ∧
      ∀ i < 3, ∀ j < 2, ∃ d e : ℝ, out.val i j = some d ∧ out'.val i j = some e ∧ |d - e| ≤ 5/2^40 := by
  have hreach : reach 2 0 (-12) 12 3 < 1 := by unfold reach cellMargin; norm_num
  have hmid : ∀ q < 4, 0 ≤ midAt 0 2 4 q ∧ midAt 0 2 4 q ≤ 2 := by
    intro q hq
    interval_cases q <;> simp only [midAt, edgeAt] <;> norm_num
  have hline : ∀ x : ℝ, |x| ≤ 2 → ∀ k ≤ 3, reach 2 0 (-12) 12 3 < |x - edgeAt (-12) 12 3 k| := by
    intro x hx k hk
    refine hreach.trans_le ?_
    rw [abs_le] at hx
    rw [le_abs]
    interval_cases k <;> simp only [edgeAt] <;> norm_num
    · left; linarith
    · left; linarith
    · right; linarith
    · right; linarith
  have hcs : ∀ r c : ℝ, 0 ≤ r ∧ r ≤ 2 → |c| ≤ 1 → |r*c + 0| ≤ 2 := by
    intro r c hr hc
    rw [add_zero, abs_mul, abs_of_nonneg hr.1]
    nlinarith [abs_nonneg c, hr.1, hr.2]
  obtain ⟨out, out', s', h1, h2, h3⟩ := C127_exact L hL 2 O hO _ _ fits_middle (by norm_num) (by norm_num) f hr hc 5
    (by norm_num) hf (fun n hn q hq => hline _ (hcs _ _ (hmid q hq) (Real.abs_cos_le_one _)))
    (fun n hn q hq => hline _ (hcs _ _ (hmid q hq) (Real.abs_sin_le_one _))) Box2Ring.init
  refine ⟨out, out', s', h1, h2, fun i hi j hj => ?_⟩
  obtain ⟨d, e, e1, e2, e3⟩ := h3 i hi j hj
  refine ⟨d, e, e1, e2, e3.trans ?_⟩
  have ht : (2:ℝ)^(-600 : ℤ) ≤ 1 := zpow_le_one_of_nonpos₀ (by norm_num) (by norm_num)
  have hs : 1 ≤ ringSize ⟨0, 2, 2, 3, 0, 6, [0, 0], 1⟩ j := by
    have h2 : (2:ℤ).toNat = 2 := rfl
    interval_cases j <;> simp only [ringSize, edgeAt, h2] <;> norm_num
  have hq : (2:ℝ)^2/ringSize ⟨0, 2, 2, 3, 0, 6, [0, 0], 1⟩ j ≤ 4 := by
    rw [div_le_iff₀ (by linarith)]; linarith
  show (2:ℝ)^2/ringSize ⟨0, 2, 2, 3, 0, 6, [0, 0], 1⟩ j*((2:ℕ):ℝ)/2^45*(5 + (2:ℝ)^(-600 : ℤ)) ≤ 5/2^40
  calc _ ≤ 4*((2:ℕ):ℝ)/2^45*(5 + 1) := by gcongr
    _ ≤ 5/2^40 := by norm_num

/-- In the box of 3 by 3 pixels the mask is `1` everywhere. -/
example (L : Trig) (hL : TrigNear L) : ∃ out : Arr2 (Option ℝ),
    remap64 L ⟨.node (.leaf 0) (.leaf 1), .node (.leaf 1) (.leaf 0), .node (.leaf 0) (.leaf 1), .node (.leaf 1) (.leaf 0)⟩
      ⟨-12, 12, 3, -12, 12, 3⟩ ⟨0, 2, 2, 3, 0, 6, [0, 0], 1⟩ 2 2 ⟨3, 3, fun _ _ => 1⟩ = .ok out ∧
    ∀ i < 3, ∀ j < 2, out.val i j = some 1 := by
  obtain ⟨out, h1, h2⟩ := C127_mask L hL 2 ⟨.node (.leaf 0) (.leaf 1), .node (.leaf 1) (.leaf 0), .node (.leaf 0) (.leaf 1),
    .node (.leaf 1) (.leaf 0)⟩ ⟨by decide, by decide, by decide, by decide⟩ rfl rfl _ _ fits_middle ⟨3, 3, fun _ _ => 1⟩ rfl rfl
    (fun _ _ _ _ => rfl)
  refine ⟨out, h1, fun i hi j hj => h2 i hi j hj fun k hk l hl => ?_⟩
  have hreach : reach 2 0 (-12) 12 3 < 1 := by unfold reach cellMargin; norm_num
  have hmid : ∀ q < 4, 0 ≤ midAt 0 2 4 q ∧ midAt 0 2 4 q ≤ 2 := by
    intro q hq
    interval_cases q <;> simp only [midAt, edgeAt] <;> norm_num
  have hcs : ∀ r c : ℝ, 0 ≤ r ∧ r ≤ 2 → |c| ≤ 1 → |r*c + 0| ≤ 2 := by
    intro r c hr hc
    rw [add_zero, abs_mul, abs_of_nonneg hr.1]
    nlinarith [abs_nonneg c, hr.1, hr.2]
  have hr := hmid (j*2 + l) (by omega)
  have q1 := abs_le.mp (hcs _ _ hr (Real.abs_cos_le_one (midAt 0 6 6 (i*2 + k) + 1)))
  have q2 := abs_le.mp (hcs _ _ hr (Real.abs_sin_le_one (midAt 0 6 6 (i*2 + k) + 1)))
  show -12 + reach 2 0 (-12) 12 3 ≤ midAt 0 2 4 (j*2 + l)*Real.cos (midAt 0 6 6 (i*2 + k) + 1) + 0 ∧
    midAt 0 2 4 (j*2 + l)*Real.cos (midAt 0 6 6 (i*2 + k) + 1) + 0 < 12 - reach 2 0 (-12) 12 3 ∧
    -12 + reach 2 0 (-12) 12 3 ≤ midAt 0 2 4 (j*2 + l)*Real.sin (midAt 0 6 6 (i*2 + k) + 1) + 0 ∧
    midAt 0 2 4 (j*2 + l)*Real.sin (midAt 0 6 6 (i*2 + k) + 1) + 0 < 12 - reach 2 0 (-12) 12 3
  refine ⟨by linarith, by linarith, by linarith, by linarith⟩

/-- Correctly rounded functions are accurate enough. -/
theorem trigNear_fl : TrigNear ⟨fun p => F64.fl (Real.cos p), fun p => F64.fl (Real.sin p)⟩ := by
  have ht : (2:ℝ)^(-1075 : ℤ) ≤ (2:ℝ)^(-53 : ℤ) := zpow_le_zpow_right₀ (by norm_num) (by norm_num)
  have key : ∀ x : ℝ, |x| ≤ 1 → |F64.fl x - x| ≤ 1/2^52 := by
    intro x hx
    have h := F64.fl_err_abs x
    rw [abs_sub_comm]
    refine h.trans ?_
    have : |x|/2^53 ≤ 1/2^53 := div_le_div_of_nonneg_right hx (by norm_num)
    norm_num at this ht ⊢
    linarith
  exact ⟨fun p _ _ => key _ (Real.abs_cos_le_one p), fun p _ _ => key _ (Real.abs_sin_le_one p)⟩

/-- With weights between `1` and `2` every value is there, and it is near the weighted mean of the data read. -/
example (L : Trig) (hL : TrigNear L) (O O' : Orders) (hO : O.For 2) (hO' : O'.For 2) (f w : Arr2 ℝ) (fr : f.rows = 3)
    (fc : f.cols = 3) (wr : w.rows = 3) (wc : w.cols = 3) (hf : ∀ b < f.rows, ∀ a < f.cols, |f.val b a| ≤ 5)
    (hw : ∀ b < w.rows, ∀ a < w.cols, 1 ≤ w.val b a ∧ w.val b a ≤ 2) :
    ∃ (out : Arr2 (Option ℝ)) (g v : ℕ → ℕ → ℝ),
      remapWeighted64 L O O' ⟨-12, 12, 3, -12, 12, 3⟩ ⟨0, 2, 2, 3, 0, 6, [0, 0], 1⟩ 2 2 f w = .ok out ∧
      ∀ i < 3, ∀ j < 2, ∃ d, out.val i j = some d ∧
        |d - areaSum ⟨0, 2, 2, 3, 0, 6, [0, 0], 1⟩ 2 (fun n q => g n q*v n q) i j
          /areaSum ⟨0, 2, 2, 3, 0, 6, [0, 0], 1⟩ 2 v i j| ≤ 1/2^30 := by
  have hreach : reach 2 0 (-12) 12 3 < 1 := by unfold reach cellMargin; norm_num
  have hmid : ∀ q < 4, 0 ≤ midAt 0 2 4 q ∧ midAt 0 2 4 q ≤ 2 := by
    intro q hq
    interval_cases q <;> simp only [midAt, edgeAt] <;> norm_num
  have hcs : ∀ r c : ℝ, 0 ≤ r ∧ r ≤ 2 → |c| ≤ 1 → |r*c + 0| ≤ 2 := by
    intro r c hr hc
    rw [add_zero, abs_mul, abs_of_nonneg hr.1]
    nlinarith [abs_nonneg c, hr.1, hr.2]
  have hA := fits_middle.polar
  obtain ⟨out, g, v, e, -, -, hg, hv⟩ := C127_weighted L hL 2 O O' hO hO' _ _ fits_middle f w fr fc wr wc 5 2
    (by norm_num) (by norm_num) hf (fun b hb a ha => ⟨by linarith [(hw b hb a ha).1], (hw b hb a ha).2⟩)
  refine ⟨out, g, v, e, fun i hi j hj => ?_⟩
  have hv1 : ∀ n < 6, ∀ q < 4, 1 ≤ v n q := by
    intro n hn q hq
    obtain ⟨pt, p1, p2, -, p4⟩ := hg n hn q hq
    have c1 : |(densePoint ⟨0, 2, 2, 3, 0, 6, [0, 0], 1⟩ 2 2 n q).1| ≤ 2 :=
      hcs _ _ (hmid q hq) (Real.abs_cos_le_one _)
    have c2 : |(densePoint ⟨0, 2, 2, 3, 0, 6, [0, 0], 1⟩ 2 2 n q).2| ≤ 2 :=
      hcs _ _ (hmid q hq) (Real.abs_sin_le_one _)
    have p1' := p1.trans hreach.le
    have p2' := p2.trans hreach.le
    rw [abs_le] at c1 c2 p1' p2'
    obtain ⟨a, ha⟩ := (exists_inCell (lo := -12) (hi := 12) (n := 3) (by norm_num) (by norm_num) pt.1).mpr
      ⟨by linarith, by linarith⟩
    obtain ⟨b, hb⟩ := (exists_inCell (lo := -12) (hi := 12) (n := 3) (by norm_num) (by norm_num) pt.2).mpr
      ⟨by linarith, by linarith⟩
    rw [p4.1 a b ha hb]
    exact (hw b (by rw [wr]; exact hb.1) a (by rw [wc]; exact ha.1)).1
  have hsum : areaSum ⟨0, 2, 2, 3, 0, 6, [0, 0], 1⟩ 2 (fun _ _ => 1) i j ≤ areaSum ⟨0, 2, 2, 3, 0, 6, [0, 0], 1⟩ 2 v i j ∧
      0 < areaSum ⟨0, 2, 2, 3, 0, 6, [0, 0], 1⟩ 2 (fun _ _ => 1) i j := by
    rw [areaSum_eq hA (by norm_num), areaSum_eq hA (by norm_num)]
    constructor
    · refine mul_le_mul_of_nonneg_left (Finset.sum_le_sum fun l hl => Finset.sum_le_sum fun k hk =>
        mul_le_mul_of_nonneg_left (hv1 _ ?_ _ ?_) (rweight_pos hA (by norm_num) _).le) (pstep_pos hA (by norm_num)).le
      · have := Finset.mem_range.mp hk; omega
      · have := Finset.mem_range.mp hl; omega
    · exact mul_pos (pstep_pos hA (by norm_num)) (Finset.sum_pos (fun l _ => Finset.sum_pos (fun k _ => by
        rw [mul_one]; exact rweight_pos hA (by norm_num) _) ⟨0, by simp⟩) ⟨0, by simp⟩)
  have hD : 1 ≤ areaSum ⟨0, 2, 2, 3, 0, 6, [0, 0], 1⟩ 2 v i j/areaSum ⟨0, 2, 2, 3, 0, 6, [0, 0], 1⟩ 2 (fun _ _ => 1) i j := by
    rw [le_div_iff₀ hsum.2]; linarith [hsum.1]
  have ht : (2:ℝ)^(-300 : ℤ) ≤ 1 := zpow_le_one_of_nonpos₀ (by norm_num) (by norm_num)
  have ht0 : (0:ℝ) < (2:ℝ)^(-300 : ℤ) := zpow_pos (by norm_num) _
  have hs : 1 ≤ ringSize ⟨0, 2, 2, 3, 0, 6, [0, 0], 1⟩ j := by
    have h2 : (2:ℤ).toNat = 2 := rfl
    interval_cases j <;> simp only [ringSize, edgeAt, h2] <;> norm_num
  have hq : (2:ℝ)^2/ringSize ⟨0, 2, 2, 3, 0, 6, [0, 0], 1⟩ j ≤ 4 := by
    rw [div_le_iff₀ (by linarith)]; linarith
  have hq0 : 0 ≤ (2:ℝ)^2/ringSize ⟨0, 2, 2, 3, 0, 6, [0, 0], 1⟩ j := by positivity
  have hκ : (2:ℝ)^2/ringSize ⟨0, 2, 2, 3, 0, 6, [0, 0], 1⟩ j*((2:ℕ):ℝ)/2^45 ≤ 1/2^42 := by push_cast; linarith
  obtain ⟨d, d1, d2⟩ := (hv i hi j hj).2 (by
    refine le_trans ?_ hD
    calc _ ≤ 4*(1/2^42)*((2:ℝ) + 1) := by gcongr
      _ ≤ 1 := by norm_num)
  refine ⟨d, d1, d2.trans ?_⟩
  refine (div_le_self (by positivity) hD).trans ?_
  calc _ ≤ 4*(1/2^42)*((5:ℝ) + 1)*((2:ℝ) + 1) := by gcongr
    _ ≤ 1/2^30 := by norm_num

end Magpie.Props
