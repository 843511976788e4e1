import Verif.Proof.UnitsCube
import Verif.Proof.McBox2Ring

/-!
# C128: Results do not depend on the units of length or on the origin

The calls of a client in other units and from another origin are in `Verif/Spec/Units.lean`.
-/

set_option linter.unusedSimpArgs false

namespace Magpie.Props
open Magpie.Radial Magpie.Box2Ring

/-- **C128** (dense grid `Box2Ring`). Whatever calls are made, in whatever order: if the box, the radii and the
centre are given in other units and from another origin, each call returns the same. -/
theorem C128_dense_ring (c tx ty : ℝ) (hc : 0 < c) (calls : List (Call Dg.Setup)) :
    (Dg.cls.run (calls.map (Spec.Units.call (Spec.Units.dgSetup c tx ty))) init).1 =
      (Dg.cls.run calls init).1 := Units.dg_run hc calls

/-- **C128** (Monte Carlo `Box2Ring`), with the same random variates. If the units change, the boxes must have a
width (see `C128_width_needed`). -/
theorem C128_mc_ring (c tx ty : ℝ) (hc : 0 < c) (calls : List (Call Mc.Setup))
    (hw : c = 1 ∨ ∀ B, Call.setup (.box B) ∈ calls → Spec.Units.Wide B) :
    (Mc.cls.run (calls.map (Spec.Units.call (Spec.Units.mcSetup c tx ty))) init).1 =
      (Mc.cls.run calls init).1 := Units.mc_run hc calls hw

/-- **C128** (dense grid `Cube2Shell`), with any HEALPix pixels. -/
theorem C128_dense_shell (hp : DgCube.Hp) (c tx ty tz : ℝ) (hc : 0 < c) (calls : List DgCube.Call) :
    (runCalls (DgCube.call hp) (calls.map (Spec.Units.dgCubeCall c tx ty tz)) DgCube.init).1 =
      (runCalls (DgCube.call hp) calls DgCube.init).1 := Units.dgc_run hc hp calls

/-- **C128** (Monte Carlo `Cube2Shell`), with the same random variates. -/
theorem C128_mc_shell (c tx ty tz : ℝ) (hc : 0 < c) (calls : List McCube.Call)
    (hw : c = 1 ∨ ∀ B, McCube.Call.cube B ∈ calls → Spec.Units.Wide3 B) :
    (runCalls McCube.call (calls.map (Spec.Units.mcCubeCall c tx ty tz)) McCube.init).1 =
      (runCalls McCube.call calls McCube.init).1 := Units.mcc_run hc calls hw

namespace UnitsEx
open Magpie.Coords Magpie.Randoms

/-- A box of one point. -/
def B : BoxArgs := ⟨0, 0, 1, 0, 0, 1⟩

/-- Two rings with two pixels each; the outer radius is `2k`. -/
noncomputable def A (k : ℝ) : PolarArgs := { rmin := 0, rmax := 2*k, numr := 2, nump := 2 }

/-- The variates: the random points of a pixel are at the inner edge of its ring, or (for one pixel) at the outer
edge. -/
def draws (i j : ℕ) : List ℝ × List ℝ := if i = 1 ∧ j = 0 then ([1, 1], [0, 0]) else ([0, 0], [0, 0])

/-- The calls. -/
noncomputable def calls : List (Call Mc.Setup) :=
  [.setup (.box B), .setup (.lin (A 1)), .setup (.weights 2 draws)]

theorem hits_in {x : ℝ} (h1 : -(1/2) ≤ x) (h2 : x < 1/2) :
    (Mc.pixelHits [-(1/2), 1/2] [-(1/2), 1/2] 2 [some (x, 0), some (x, 0)]).length = 1 := by
  have hy : Mc.histBin [-(1/2), 1/2] 0 = some 0 := by
    unfold Mc.histBin; norm_num [List.filter]
  have hx : Mc.histBin [-(1/2), 1/2] x = some 0 := by
    unfold Mc.histBin
    have h3 : ¬ (1/2:ℝ) ≤ x := not_le.2 h2
    have h4 : x ≠ 1/2 := h2.ne
    simp only [List.filter, h1, h3, decide_true, decide_false, List.getLastD, List.getLast, List.length_cons,
      List.length_nil, h4, if_false]
    simp
  simp [Mc.pixelHits, Mc.histCount, Mc.binOf, hx, hy, List.range_succ, -one_div]

theorem hits_out {x : ℝ} (h : x < -(1/2) ∨ 1/2 < x) :
    (Mc.pixelHits [-(1/2), 1/2] [-(1/2), 1/2] 2 [some (x, 0), some (x, 0)]).length = 0 := by
  have hx : Mc.histBin [-(1/2), 1/2] x = none := by
    unfold Mc.histBin
    rcases h with h | h
    · have h1 : ¬ (-(1/2):ℝ) ≤ x := not_le.2 h
      have h3 : ¬ (1/2:ℝ) ≤ x := by intro h'; linarith
      have h4 : x ≠ 1/2 := by intro h'; linarith
      simp only [List.filter, h1, h3, decide_true, decide_false, List.getLastD, List.getLast, List.length_cons,
        List.length_nil, h4, if_false]
      simp
    · have h1 : (-(1/2):ℝ) ≤ x := by linarith
      have h3 : (1/2:ℝ) ≤ x := h.le
      have h4 : x ≠ 1/2 := h.ne'
      simp only [List.filter, h1, h3, decide_true, decide_false, List.getLastD, List.getLast, List.length_cons,
        List.length_nil, h4, if_false]
      simp
  simp [Mc.pixelHits, Mc.histCount, Mc.binOf, hx, List.range_succ, -one_div]

theorem points (r0 r1 p0 p1 u x : ℝ) (p : Polar) (hp : p.phiShift = 0) (hc : p.center = (0, 0))
    (h : Real.sqrt ((r1^2 - r0^2)*u + r0^2) * Real.cos p0 = x) (hs : Real.sin p0 = 0)
    (h0 : 0 ≤ (r1^2 - r0^2)*u + r0^2) :
    Mc.randomPoints r0 r1 p0 p1 p [u, u] [0, 0] = [some (x, 0), some (x, 0)] := by
  simp [Mc.randomPoints, randomsPolar, hp, hc, npSqrt, h0, polar2cart, hs, h]

theorem edges_eq (k : ℝ) : (linEdges (A k)).redges = [0, k, 2*k] ∧ (linEdges (A k)).pedges = [0, Real.pi, 2*Real.pi] := by
  constructor <;> simp [linEdges, mkEdges, A, linspace, List.range_succ] <;> norm_num

theorem box_hist : Mc.histEdges B.box.xedges = .ok [-(1/2), 1/2] ∧ Mc.histEdges B.box.yedges = .ok [-(1/2), 1/2] := by
  constructor <;> simp [B, BoxArgs.box, Mc.histEdges, linspace, List.range_succ] <;> norm_num

/-- The number of cells of each pixel. -/
theorem weights_eq {k : ℝ} (hk : 0 < k) (a b c : ℕ)
    (ha : (Mc.pixelHits [-(1/2), 1/2] [-(1/2), 1/2] 2 [some (0, 0), some (0, 0)]).length = a)
    (hb : (Mc.pixelHits [-(1/2), 1/2] [-(1/2), 1/2] 2 [some (k, 0), some (k, 0)]).length = b)
    (hc : (Mc.pixelHits [-(1/2), 1/2] [-(1/2), 1/2] 2 [some (-k, 0), some (-k, 0)]).length = c) :
    ∃ o1 o2, (Mc.cls.run [.setup (.box B), .setup (.lin (A k)), .setup (.weights 2 draws)] init).1 =
      [o1, o2, .unit ((Mc.pack [[a, b], [c, c]]).map fun _ => ())] := by
  have hA : PolarOk (A k) := by
    have := Real.pi_pos
    constructor <;> simp [A] <;> linarith
  obtain ⟨s1, e1, g1, g2, g3⟩ := Mc.Grid.setup_run (G := .lin (A k)) ⟨hA, by simp [A], by simp [A]⟩
    { (init : Mc.State) with box := some B.box }
  refine ⟨.unit (.ok ()), .unit (.ok ()), ?_⟩
  have e0 := setupBox_ok (B := B) (by simp [B]) (by simp [B]) (init : Mc.State)
  have ew : (Mc.getWeights 2 draws s1).1 = (Mc.pack [[a, b], [c, c]]).map fun _ => () := by
    have hp : (mkPolar (linEdges (A k)) (A k)).phiShift = 0 ∧ (mkPolar (linEdges (A k)) (A k)).center = (0, 0) ∧
        (mkPolar (linEdges (A k)) (A k)).r2d.rows = 2 ∧ (mkPolar (linEdges (A k)) (A k)).r2d.cols = 2 := by
      refine ⟨rfl, rfl, ?_, ?_⟩ <;>
        simp [mkPolar, linEdges, mkEdges, meshgridXY, mids, A, length_linspace]
    unfold Mc.getWeights
    simp only [Meth.bind_apply, Meth.lift_apply, Meth.self_apply, Meth.assign_apply]
    have l00 := points 0 k 0 Real.pi 0 0 _ hp.1 hp.2.1 (by simp) (by simp) (by simp)
    have l01 := points k (2*k) 0 Real.pi 0 k _ hp.1 hp.2.1 (by simp [Real.sqrt_sq hk.le]) (by simp) (by simp; positivity)
    have l10 := points 0 k Real.pi (2*Real.pi) 1 (-k) _ hp.1 hp.2.1 (by simp [Real.sqrt_sq hk.le]) (by simp)
      (by simp; positivity)
    have l11 := points k (2*k) Real.pi (2*Real.pi) 0 (-k) _ hp.1 hp.2.1 (by simp [Real.sqrt_sq hk.le]) (by simp)
      (by simp; positivity)
    rw [show pyAssert (2 > 1) = .ok () from rfl]
    simp only [g1, g2, g3, need_some, box_hist.1, box_hist.2, Mc.Grid.edges, Mc.Grid.args]
    simp only [(edges_eq k).1, (edges_eq k).2, hp.2.2.1, hp.2.2.2, List.length_cons, List.length_nil, List.range_succ,
      List.range_zero, List.map_append, List.map_cons, List.map_nil, List.nil_append, List.singleton_append,
      List.getD_cons_zero, List.getD_cons_succ, draws]
    norm_num only [if_true, if_false, and_true, and_false, true_and, false_and, zero_ne_one, one_ne_zero]
    simp only [l00, l01, l10, l11, ha, hb, hc]
    cases Mc.pack [[a, b], [c, c]] <;> rfl
  simp only [Cls.run, Cls.call, Mc.cls, e0]
  rw [show Mc.setupPolarLin (A k) = (Mc.Grid.lin (A k)).setup from rfl, e1]
  simp only [ew]

end UnitsEx

open UnitsEx in
/-- C128 without `hw`: a box of one point, which the Monte Carlo class takes to have the width one in whatever units
the lengths are given. -/
theorem C128_width_needed :
    (Mc.cls.run (calls.map (Spec.Units.call (Spec.Units.mcSetup (1/4) 0 0))) init).1 ≠ (Mc.cls.run calls init).1 := by
  obtain ⟨o1, o2, e⟩ := weights_eq (k := 1) one_pos 1 0 0 (hits_in (by norm_num) (by norm_num))
    (hits_out (by norm_num)) (hits_out (by norm_num))
  obtain ⟨o3, o4, e'⟩ := weights_eq (k := 1/4) (by norm_num) 1 1 1 (hits_in (by norm_num) (by norm_num))
    (hits_in (by norm_num) (by norm_num)) (hits_in (by norm_num) (by norm_num))
  have ec : calls.map (Spec.Units.call (Spec.Units.mcSetup (1/4) 0 0)) =
      [.setup (.box B), .setup (.lin (A (1/4))), .setup (.weights 2 draws)] := by
    simp [calls, Spec.Units.call, Spec.Units.mcSetup, Spec.Units.box, Spec.Units.polar, B, A, Spec.Units.center2]
    norm_num
  rw [ec, e']
  unfold calls
  rw [e]
  simp [Mc.pack, Mc.allEq, Except.map]

/-- A history that meets the hypotheses of `C128_mc_ring`: from megaparsecs to kiloparsecs, and from a corner of the
box to a point outside. -/
example (f : Arr2 (Option ℝ)) (w : Option (Arr2 ℝ)) :
    let calls : List (Call Mc.Setup) := [.setup (.box ⟨0, 10, 64, 0, 20, 128⟩), .setup (.lin (UnitsEx.A 3)),
      .setup (.weights 2 UnitsEx.draws), .remap f w, .clean, .setup (.box ⟨-1, 1, 8, 1, -1, 8⟩)]
    (Mc.cls.run (calls.map (Spec.Units.call (Spec.Units.mcSetup 1000 (-3) 7))) init).1 =
      (Mc.cls.run calls init).1 :=
  C128_mc_ring 1000 (-3) 7 (by norm_num) _ (.inr fun B hB => by
    simp only [List.mem_cons, Call.setup.injEq, Mc.Setup.box.injEq, reduceCtorEq, List.not_mem_nil, or_false,
      false_or] at hB
    rcases hB with rfl | rfl <;> constructor <;> norm_num)

/-- A history that meets the hypotheses of `C128_mc_shell`. -/
example (f : Arr3 (Option ℝ)) (d : ℕ → ℕ → McCube.Draw) :
    let calls : List McCube.Call := [.cube ⟨0, 10, 64, 0, 20, 128, -5, 5, 64⟩,
      .log { rmin := 1, rmax := 4, numr := 3, nside := 8, center := [5, 5, 0] } true, .weights 100 d, .remap f none]
    (runCalls McCube.call (calls.map (Spec.Units.mcCubeCall (7/10) 1 2 3)) McCube.init).1 =
      (runCalls McCube.call calls McCube.init).1 :=
  C128_mc_shell (7/10) 1 2 3 (by norm_num) _ (.inr fun B hB => by
    simp only [List.mem_cons, McCube.Call.cube.injEq, reduceCtorEq, List.not_mem_nil, or_false] at hB
    subst hB
    refine ⟨?_, ?_, ?_⟩ <;> norm_num)

end Magpie.Props
