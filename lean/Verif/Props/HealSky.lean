import Verif.Props.PolarRotate
import Verif.Proof.HealSky

/-!
# `Heal2Ring` and `Heal2Polar`
-/

set_option linter.unusedSimpArgs false
set_option linter.unusedVariables false
set_option linter.unusedSectionVars false

namespace Magpie.Props
open Magpie Magpie.Radial Magpie.OneD Magpie.Coords Magpie.Spec Magpie.Box2Ring Magpie.HealSky Matrix Real

/-! ## Monte Carlo `Heal2Ring` -/

/-- C79 does not hold: after any valid set-up, on any object, `get_weights` raises `AttributeError`. `rest` is
the part of the code that is never reached. -/
theorem C79_violated_mcring_weights (cs : List HealRing.Mc.Call) (A : PolarArgs) (c : ℝ × ℝ) (h : CapValid A c)
    (rest : List ℝ × List ℝ → Py (List ℕ × List ℝ)) (mcSize : ℤ) (hm : 1 < mcSize) :
    ∃ s', (do HealRing.Mc.setupPolarCap A; HealRing.Mc.getWeights rest mcSize
              : Meth (HealRing.State (Option HealRing.Mc.Weights)) Unit) (HealRing.Mc.after cs)
      = (.error .attributeError, s') := by
  obtain ⟨hi, -⟩ := mcring_inv cs
  obtain ⟨da, db, e⟩ := cap_run h (HealRing.Mc.after cs)
  have hi' := (hi.cap A).1
  rw [e] at hi'
  simp only [Meth.bind_apply, HealRing.Mc.setupPolarCap, e]
  rw [mcring_weights hi' rest mcSize, if_pos hm]
  exact ⟨_, rfl⟩

/-- C79 does not hold: on no object, whatever was called before, do `get_weights`, `remap`, `rotate_polar` and
`polar2radial` of the Monte Carlo `Heal2Ring` class return. -/
theorem C79_violated_mcring (cs : List HealRing.Mc.Call) :
    (∀ rest mcSize, ¬ Returns (HealRing.Mc.getWeights rest mcSize (HealRing.Mc.after cs))) ∧
    (∀ f w, ¬ Returns (HealRing.Mc.remap f w (HealRing.Mc.after cs))) ∧
    (∀ f, ¬ Returns (HealRing.rotatePolar f (HealRing.Mc.after cs))) ∧
    (∀ f sigma w, ¬ Returns (HealRing.polar2radial f sigma w (HealRing.Mc.after cs))) := by
  obtain ⟨hi, hx⟩ := mcring_inv cs
  refine ⟨fun rest n => ?_, fun f w => (mcring_remap hi hx f w).2, fun f => (rotate_same f _).2, fun f sg w => ?_⟩
  · rw [mcring_weights hi rest n]; exact fun ⟨o, h⟩ => by cases h
  · rw [hi.radial f sg w]; exact fun ⟨o, h⟩ => by cases h

/-- C79 does not hold: after a valid set-up, `polar2radial` of the Monte Carlo class raises
`AttributeError`. -/
theorem C79_violated_mcring_radial (cs : List HealRing.Mc.Call) (A : PolarArgs) (c : ℝ × ℝ) (h : CapValid A c)
    (f : Arr2 (Option ℝ)) (sigma w : Option (Arr2 ℝ)) :
    ∃ s', (do HealRing.Mc.setupPolarCap A; HealRing.polar2radial f sigma w
              : Meth (HealRing.State (Option HealRing.Mc.Weights)) HealRing.Profile) (HealRing.Mc.after cs)
      = (.error .attributeError, s') := by
  obtain ⟨hi, -⟩ := mcring_inv cs
  obtain ⟨da, db, e⟩ := cap_run h (HealRing.Mc.after cs)
  have hi' := (hi.cap A).1
  rw [e] at hi'
  simp only [Meth.bind_apply, HealRing.Mc.setupPolarCap, e]
  rw [hi'.radial]
  exact ⟨_, rfl⟩

/-! ## Monte Carlo `Heal2Polar` -/

/-- C79 does not hold for the Monte Carlo `Heal2Polar` class. -/
theorem C79_violated_mcbox_weights (cs : List HealPolar.Mc.Call) (A : HealPolar.BoxArgs) (c : ℝ × ℝ)
    (h : BoxValid A c) (rest : List ℝ × List ℝ → Py (List ℕ × List ℝ)) (mcSize : ℤ) (hm : 1 < mcSize) :
    ∃ s', (do HealPolar.Mc.setupBox A; HealPolar.Mc.getWeights rest mcSize
              : Meth (HealPolar.State (Option HealPolar.Mc.Weights)) Unit) (HealPolar.Mc.after cs)
      = (.error .attributeError, s') := by
  obtain ⟨hi, -⟩ := mcbox_inv cs
  obtain ⟨da, db, e⟩ := box_run h (HealPolar.Mc.after cs)
  have hi' := (hi.box A).1
  rw [e] at hi'
  simp only [Meth.bind_apply, HealPolar.Mc.setupBox, e]
  rw [mcbox_weights hi' rest mcSize, if_pos hm]
  exact ⟨_, rfl⟩

/-- C79 does not hold: on no object, whatever was called before, do `get_weights` and `remap` of the Monte
Carlo `Heal2Polar` class return. -/
theorem C79_violated_mcbox (cs : List HealPolar.Mc.Call) :
    (∀ rest mcSize, ¬ Returns (HealPolar.Mc.getWeights rest mcSize (HealPolar.Mc.after cs))) ∧
    (∀ f w, ¬ Returns (HealPolar.Mc.remap f w (HealPolar.Mc.after cs))) := by
  obtain ⟨hi, hx⟩ := mcbox_inv cs
  refine ⟨fun rest n => ?_, fun f w => (mcbox_remap hi hx f w).2⟩
  rw [mcbox_weights hi rest n]; exact fun ⟨o, h⟩ => by cases h

/-! ## Dense grid `Heal2Ring` -/

/-- C79 does not hold: on no object, whatever was called before (with rebin factors of at least one), do
`remap`, `rotate_polar` and `polar2radial` of the dense grid `Heal2Ring` class return. -/
theorem C79_violated_dgring (ang2pix : ℤ → ℝ → ℝ → ℕ) (cs : List HealRing.Dg.Call)
    (hcs : ∀ a, .setup a ∈ cs → 1 ≤ a.rebinAlpha ∧ 1 ≤ a.rebinBeta) :
    (∀ rest f w, ¬ Returns (HealRing.Dg.remap rest f w (HealRing.Dg.after ang2pix cs))) ∧
    (∀ f, ¬ Returns (HealRing.rotatePolar f (HealRing.Dg.after ang2pix cs))) ∧
    (∀ f sigma w, ¬ Returns (HealRing.polar2radial f sigma w (HealRing.Dg.after ang2pix cs))) := by
  obtain ⟨hi, hx⟩ := dgring_inv ang2pix cs (by
    intro c hc
    cases c with
    | setup a => exact hcs a hc
    | _ => trivial)
  refine ⟨fun rest f w => ?_, fun f => (rotate_same f _).2, fun f sg w => ?_⟩
  · obtain ⟨e, he⟩ := dgring_remap hx rest f w
    rw [he]; exact fun ⟨o, h⟩ => by cases h
  · rw [hi.radial f sg w]; exact fun ⟨o, h⟩ => by cases h

/-- C79 does not hold: after a valid set-up, `remap` of a map with one value for each pixel raises
`AttributeError`. -/
theorem C79_violated_dgring_remap (ang2pix : ℤ → ℝ → ℝ → ℕ) (A : HealRing.Dg.CapArgs) (c : ℝ × ℝ) (n : ℤ)
    (h : CapValid A.toPolarArgs c) (hn : 0 < n) (h1 : 1 ≤ A.rebinAlpha) (h2 : 1 ≤ A.rebinBeta)
    (hc1 : 0 ≤ c.1 ∧ c.1 < 2*π) (hc2 : 0 ≤ c.2 ∧ c.2 < π) (hs : 0 ≤ A.phiShift ∧ A.phiShift < 2*π)
    (ha : c.2 ≠ 0 ∨ A.rmax ≤ π) (rest : Arr2 (Option ℝ) → List ℝ → Py (Arr2 (Option ℝ))) (f : List (Option ℝ))
    (hf : f.length = 12*n.toNat^2) (hpix : ∀ t p, ang2pix n t p < 12*n.toNat^2)
    (s : HealRing.State HealRing.Dg.Extra) :
    ∃ s', (do HealRing.setupMap n; HealRing.Dg.setupPolarCap ang2pix A; HealRing.Dg.remap rest f none
              : Meth (HealRing.State HealRing.Dg.Extra) (Arr2 (Option ℝ))) s
      = (.error .attributeError, s') := by
  have hr := h.numr
  have hp := h.nump
  obtain ⟨s', sky, e, hx, -⟩ := dgring_setup_ok ang2pix h h1 h2 hc1 hc2 hs ha { s with nside := some n } rfl
  obtain ⟨d, ed, br, bc, ar, ac, hv, i1, i2⟩ := mkDense_facts h
  obtain ⟨l1, l2⟩ := mkDense_ok (a := A) (by omega) (by omega) h1 h2
  obtain ⟨db, hd⟩ := firstDiff_ok _ l2
  obtain ⟨vals, hi, g1, g2⟩ := read_ok (R := A.rebinBeta*A.nump.toNat) (C := A.rebinAlpha*A.numr.toNat) f
    (fun k => ang2pix n (sky k.1 k.2).2 (sky k.1 k.2).1) (fun k => by rw [hf]; exact hpix _ _)
  refine ⟨s', ?_⟩
  unfold HealRing.setupMap pyAssert
  simp only [Meth.bind_apply, Meth.lift_apply, Meth.assign_apply]
  rw [if_pos (show Cube.isNsideOk n from hn)]
  simp only [e]
  unfold HealRing.Dg.remap HealRing.Dg.remap1
  simp only [Meth.bind_apply, Meth.self_apply, Meth.lift_apply, hx, need_some, g1]
  rw [ed] at hd l1
  simp only [ed, ar, ac, i1, i2, g2, hd, areas_error db _ l1]

/-! ## Dense grid `Heal2Polar` -/

/-- C79 does not hold: on no object, whatever was called before (with rebin factors of at least one), does
`remap` of the dense grid `Heal2Polar` class return. -/
theorem C79_violated_dgbox (ang2pix : ℤ → ℝ → ℝ → ℕ) (cs : List HealPolar.Dg.Call)
    (hcs : ∀ a, .setup a ∈ cs → 1 ≤ a.rebinX ∧ 1 ≤ a.rebinY) :
    ∀ rest f w, ¬ Returns (HealPolar.Dg.remap rest f w (HealPolar.Dg.after ang2pix cs)) := by
  obtain ⟨hi, hx⟩ := dgbox_inv ang2pix cs (by
    intro c hc
    cases c with
    | setup a => exact hcs a hc
    | _ => trivial)
  intro rest f w
  obtain ⟨e, he⟩ := dgbox_remap hx rest f w
  rw [he]; exact fun ⟨o, h⟩ => by cases h

/-- C79 does not hold: after a valid set-up, `remap` of a map with one value for each pixel raises
`AttributeError`. -/
theorem C79_violated_dgbox_remap (ang2pix : ℤ → ℝ → ℝ → ℕ) (A : HealPolar.Dg.RebinArgs) (c : ℝ × ℝ) (n : ℤ)
    (h : BoxValid A.toBoxArgs c) (hn : 0 < n) (h1 : 1 ≤ A.rebinX) (h2 : 1 ≤ A.rebinY)
    (hc1 : 0 ≤ c.1 ∧ c.1 < 2*π) (hc2 : 0 ≤ c.2 ∧ c.2 ≤ π) (hs : 0 ≤ A.alpha ∧ A.alpha < 2*π)
    (rest : Arr2 (Option ℝ) → List ℝ → Py (Arr2 (Option ℝ))) (f : List (Option ℝ))
    (hf : f.length = 12*n.toNat^2) (hpix : ∀ t p, ang2pix n t p < 12*n.toNat^2)
    (s : HealPolar.State HealPolar.Dg.Extra) :
    ∃ s', (do HealPolar.setupMap n; HealPolar.Dg.setupBox ang2pix A; HealPolar.Dg.remap rest f none
              : Meth (HealPolar.State HealPolar.Dg.Extra) (Arr2 (Option ℝ))) s
      = (.error .attributeError, s') := by
  have hr := h.xGrid
  have hp : 2 ≤ A.yNum := by
    unfold HealPolar.BoxArgs.yNum
    cases hg : A.yGrid with
    | none => exact hr
    | some n => exact h.yGrid n hg
  obtain ⟨s', sky, e, -, hx, -⟩ := dgbox_setup_ok ang2pix h h1 h2 hc1 hc2 hs { s with nside := some n } rfl
  obtain ⟨d, ed, xr, xc, yr, yc, hv, i1, i2⟩ := boxDense_facts (a := A) (by omega) (by omega)
  obtain ⟨l1, l2⟩ := boxDense_ok (a := A) (by omega) (by omega) h1 h2
  obtain ⟨db, hd⟩ := firstDiff_ok _ l1
  obtain ⟨vals, hi, g1, g2⟩ := read_ok (R := A.rebinY*A.yNum.toNat) (C := A.rebinX*A.xGrid.toNat) f
    (fun k => ang2pix n (sky k.1 k.2).2 (sky k.1 k.2).1) (fun k => by rw [hf]; exact hpix _ _)
  refine ⟨s', ?_⟩
  unfold HealPolar.setupMap pyAssert
  simp only [Meth.bind_apply, Meth.lift_apply, Meth.assign_apply]
  rw [if_pos (show Cube.isNsideOk n from hn)]
  simp only [e]
  unfold HealPolar.Dg.remap HealPolar.Dg.remap1
  simp only [Meth.bind_apply, Meth.self_apply, Meth.lift_apply, hx, need_some, g1]
  rw [ed] at hd l2
  simp only [ed, xr, xc, i1, i2, g2, hd,
    areas_error db (d.yedges.map fun y => y + π/2) (by rw [List.length_map]; exact l2)]

/-! ## Where the dense grids look -/

/-- C87 for the dense polar cap, in part: for every valid set-up with a centre of longitude below `2 pi` (a
colatitude of `np.pi` is below the real number π), a `beta_shift` below `2 pi`, and distances up to `pi` if the centre
is the north pole, `setup_polar_cap` returns, and the pixel stored for the dense cell in row `i` and
column `j` is that of a direction at the angular distance `alpha` of the cell from the centre, at the position
angle `beta + beta_shift`. Missing for C87: a longitude or angle of
exactly `2 pi`, see `C87_violated`. -/
theorem C87_cap_partial (ang2pix : ℤ → ℝ → ℝ → ℕ) (A : HealRing.Dg.CapArgs) (c : ℝ × ℝ) (n : ℤ)
    (h : CapValid A.toPolarArgs c) (hn : 0 < n) (h1 : 1 ≤ A.rebinAlpha) (h2 : 1 ≤ A.rebinBeta)
    (hc1 : 0 ≤ c.1 ∧ c.1 < 2*π) (hc2 : 0 ≤ c.2 ∧ c.2 < π) (hs : 0 ≤ A.phiShift ∧ A.phiShift < 2*π)
    (ha : c.2 ≠ 0 ∨ A.rmax ≤ π) (s : HealRing.State HealRing.Dg.Extra) :
    ∃ (s' : HealRing.State HealRing.Dg.Extra) (pix : List ℕ) (sky : ℕ → ℕ → ℝ × ℝ),
      (do HealRing.setupMap n; HealRing.Dg.setupPolarCap ang2pix A
          : Meth (HealRing.State HealRing.Dg.Extra) Unit) s = (.ok (), s') ∧
      s'.extra.2 = some pix ∧
      pix.length = (A.rebinBeta*A.nump.toNat)*(A.rebinAlpha*A.numr.toNat) ∧
      ∀ i j, i < A.rebinBeta*A.nump.toNat → j < A.rebinAlpha*A.numr.toNat →
        pix[i*(A.rebinAlpha*A.numr.toNat) + j]? = some (ang2pix n (sky i j).2 (sky i j).1) ∧
        CapAt c (midAt A.rmin A.rmax (A.rebinAlpha*A.numr.toNat) j)
          (midAt A.pmin A.pmax (A.rebinBeta*A.nump.toNat) i + A.phiShift) (sky i j) := by
  obtain ⟨s', sky, e, hx, hd⟩ := dgring_setup_ok ang2pix h h1 h2 hc1 hc2 hs ha { s with nside := some n } rfl
  refine ⟨s', _, sky, ?_, by rw [hx], ?_, fun i j hi hj => ⟨?_, hd i j hi hj⟩⟩
  · unfold HealRing.setupMap pyAssert
    simp only [Meth.bind_apply, Meth.lift_apply, Meth.assign_apply]
    rw [if_pos (show Cube.isNsideOk n from hn)]
    exact e
  · simp [cells]
  · exact cells_get (fun i j => ang2pix n (sky i j).2 (sky i j).1) _ (fun _ => rfl) hi hj

/-- C87 does not hold for a centre of longitude `2 pi`, which the functions on the sky accept as a longitude:
`setup_polar_cap` raises `AssertionError` for every cap and every colatitude. -/
theorem C87_violated (ang2pix : ℤ → ℝ → ℝ → ℕ) (A : HealRing.Dg.CapArgs) (theta : ℝ) (n : ℤ)
    (h : CapValid A.toPolarArgs (2*π, theta)) (hn : 0 < n) (h1 : 1 ≤ A.rebinAlpha) (h2 : 1 ≤ A.rebinBeta)
    (hc2 : 0 ≤ theta ∧ theta ≤ π) (hs : 0 ≤ A.phiShift ∧ A.phiShift < 2*π)
    (s : HealRing.State HealRing.Dg.Extra) :
    ∃ s', (do HealRing.setupMap n; HealRing.Dg.setupPolarCap ang2pix A
          : Meth (HealRing.State HealRing.Dg.Extra) Unit) s = (.error .assertionError, s') := by
  have hr := h.numr
  have hp := h.nump
  obtain ⟨da, db, ec⟩ := cap_run h { s with nside := some n }
  obtain ⟨d, ed, br, bc, ar, ac, -⟩ := mkDense_facts h
  have hRp : 0 < A.rebinBeta*A.nump.toNat := Nat.mul_pos h2 (by omega)
  have hCp : 0 < A.rebinAlpha*A.numr.toNat := Nat.mul_pos h1 (by omega)
  have ecen : centerOf A.center = (2*π, theta) := by rw [h.center]; rfl
  have e := skyPix_turn ang2pix (cells d.b2d.rows d.b2d.cols) (by rw [br, bc]; exact cells_ne hRp hCp)
    (fun k => d.b2d.val k.1 k.2) (fun k => d.a2d.val k.1 k.2) (some n) hc2 hs
  have f2 : Ortho.flatten d.a2d = (cells d.b2d.rows d.b2d.cols).map fun k => d.a2d.val k.1 k.2 := by
    rw [flatten_cells, br, bc, ar, ac]
  unfold HealRing.setupMap HealRing.Dg.setupPolarCap pyAssert
  simp only [Meth.bind_apply, Meth.lift_apply, Meth.assign_apply, Meth.self_apply]
  rw [if_pos (show Cube.isNsideOk n from hn)]
  simp only [ec, ed]
  rw [if_neg (by omega)]
  simp only [flatten_cells d.b2d, f2, ecen, e]
  exact ⟨_, rfl⟩

/-- C87, angular distance: the direction read is at the angle `alpha` from the centre. -/
theorem C87_distance (c : ℝ × ℝ) (alpha beta : ℝ) (d : ℝ × ℝ) (h : CapAt c alpha beta d) :
    dir d.1 d.2 ⬝ᵥ dir c.1 c.2 = cos alpha := by
  have h1 := sin_sq_add_cos_sq c.1
  have h2 := sin_sq_add_cos_sq c.2
  unfold CapAt at h
  rw [h, dot3]
  simp only [dir, Ortho.north, Ortho.east, Pi.add_apply, Pi.smul_apply, Pi.neg_apply, smul_eq_mul, cons_val_zero,
    cons_val_one, cons_val]
  linear_combination (cos alpha*sin c.2^2 + sin alpha*cos beta*cos c.2*sin c.2)*h1 + cos alpha*h2

/-- C87 for the dense box, in part: for every valid set-up with an `alpha` below `2 pi`, `setup_box` returns, and the
pixel stored for the dense cell in row `i` and column `j` is that of the direction with the longitude `x` and
the latitude `y` of the cell, in coordinates centred on `center` and turned by `alpha`. Missing for C87: a
longitude or an angle of exactly `2 pi`. -/
theorem C87_box_partial (ang2pix : ℤ → ℝ → ℝ → ℕ) (A : HealPolar.Dg.RebinArgs) (c : ℝ × ℝ) (n : ℤ)
    (h : BoxValid A.toBoxArgs c) (hn : 0 < n) (h1 : 1 ≤ A.rebinX) (h2 : 1 ≤ A.rebinY)
    (hc1 : 0 ≤ c.1 ∧ c.1 < 2*π) (hc2 : 0 ≤ c.2 ∧ c.2 ≤ π) (hs : 0 ≤ A.alpha ∧ A.alpha < 2*π)
    (L : ℝ) (hL : L = A.yLength.getD (min A.xLength π)) (s : HealPolar.State HealPolar.Dg.Extra) :
    ∃ (s' : HealPolar.State HealPolar.Dg.Extra) (pix : List ℕ) (sky : ℕ → ℕ → ℝ × ℝ),
      (do HealPolar.setupMap n; HealPolar.Dg.setupBox ang2pix A
          : Meth (HealPolar.State HealPolar.Dg.Extra) Unit) s = (.ok (), s') ∧
      (∃ g, s'.grid = some g ∧ g.center = c ∧ g.alpha = A.alpha) ∧
      s'.extra.2 = some pix ∧
      pix.length = (A.rebinY*(A.yGrid.getD A.xGrid).toNat)*(A.rebinX*A.xGrid.toNat) ∧
      ∀ i j, i < A.rebinY*(A.yGrid.getD A.xGrid).toNat → j < A.rebinX*A.xGrid.toNat →
        pix[i*(A.rebinX*A.xGrid.toNat) + j]? = some (ang2pix n (sky i j).2 (sky i j).1) ∧
        BoxAt c A.alpha (midAt (-A.xLength/2) (A.xLength/2) (A.rebinX*A.xGrid.toNat) j)
          (midAt (-L/2) (L/2) (A.rebinY*(A.yGrid.getD A.xGrid).toNat) i) (sky i j) := by
  have eL : A.yLen = L := by
    rw [hL]
    unfold HealPolar.BoxArgs.yLen
    congr 1
    rcases le_or_gt A.xLength π with hx | hx
    · rw [if_neg (by linarith), min_eq_left hx]
    · rw [if_pos hx, min_eq_right hx.le]
  obtain ⟨s', sky, e, hg, hx, hd⟩ := dgbox_setup_ok ang2pix h h1 h2 hc1 hc2 hs { s with nside := some n } rfl
  rw [eL] at hd
  refine ⟨s', _, sky, ?_, hg, by rw [hx], ?_, fun i j hi hj => ⟨?_, hd i j hi hj⟩⟩
  · unfold HealPolar.setupMap pyAssert
    simp only [Meth.bind_apply, Meth.lift_apply, Meth.assign_apply]
    rw [if_pos (show Cube.isNsideOk n from hn)]
    exact e
  · simp [cells, HealPolar.BoxArgs.yNum]
  · exact cells_get (fun i j => ang2pix n (sky i j).2 (sky i j).1) _ (fun _ => rfl) hi hj

/-- A spin that returns, about a point on the equator, for `C24_spin_partial`. -/
example : ∃ s, spinArr [1, 2] [1, 1] 0 (π/2) 1 = .ok s ∧ s.callerPhi = [1, 2] := by
  have hpi := pi_gt_three
  obtain ⟨p', t', c, e, -⟩ := spinArr_equator [(1:ℝ), 2] (by simp) id (fun _ => 1) (s := 1)
    ⟨zero_le_one, by linarith⟩ one_ne_zero
  refine ⟨_, e, C24_spin_partial _ _ _ _ _ (by positivity) ?_ _ e⟩
  intro p hp
  simp only [List.map_id, List.mem_cons, List.not_mem_nil, or_false] at hp
  rcases hp with rfl | rfl
  · exact ⟨zero_le_one, by linarith⟩
  · exact ⟨zero_le_two, by linarith⟩

/-- A polar cap around `(1, 1)`, with the default rebin factors, turned by `1/2`. -/
noncomputable def exCap : HealRing.Dg.CapArgs :=
  { rmin := 0, rmax := 1, numr := 2, nump := 3, pmin := 0, pmax := 2, center := [1, 1], phiShift := 1/2,
    rebinAlpha := 2, rebinBeta := 2 }

/-- The hypotheses can be met. -/
example : CapValid exCap.toPolarArgs (1, 1) ∧ 1 ≤ exCap.rebinAlpha ∧ 1 ≤ exCap.rebinBeta ∧
    (0:ℝ) ≤ 1 ∧ 1 < 2*π ∧ (1:ℝ) < π ∧ 0 ≤ exCap.phiShift ∧ exCap.phiShift < 2*π ∧ (1:ℝ) ≠ 0 := by
  have hpi := two_le_pi
  refine ⟨⟨⟨le_rfl, by simp [exCap]⟩, ⟨le_rfl, by simp [exCap], by simp only [exCap]; linarith⟩, by simp [exCap],
    by simp [exCap], rfl⟩, by simp [exCap], by simp [exCap], zero_le_one, by linarith, by linarith,
    by simp [exCap], by simp only [exCap]; linarith, one_ne_zero⟩

/-- The hypotheses of `C87_violated` can be met. -/
example : CapValid { exCap.toPolarArgs with center := [2*π, 1] } (2*π, 1) := by
  have hpi := two_le_pi
  exact ⟨⟨le_rfl, by simp [exCap]⟩, ⟨le_rfl, by simp [exCap], by simp only [exCap]; linarith⟩, by simp [exCap],
    by simp [exCap], rfl⟩

/-- A box around `(1, 1)`, turned by `1/2`. -/
noncomputable def exSkyBox : HealPolar.Dg.RebinArgs :=
  { xLength := 1, xGrid := 2, center := [1, 1], alpha := 1/2, yLength := none, yGrid := some 3, rebinX := 2,
    rebinY := 2 }

/-- The hypotheses can be met. -/
example : BoxValid exSkyBox.toBoxArgs (1, 1) ∧ 1 ≤ exSkyBox.rebinX ∧ 1 ≤ exSkyBox.rebinY ∧
    0 ≤ exSkyBox.alpha ∧ exSkyBox.alpha < 2*π := by
  have hpi := two_le_pi
  refine ⟨⟨⟨by simp [exSkyBox], by simp only [exSkyBox]; linarith⟩, by simp [exSkyBox], by simp [exSkyBox],
    by simp [exSkyBox], rfl⟩, by simp [exSkyBox], by simp [exSkyBox],
    by simp [exSkyBox], by simp only [exSkyBox]; linarith⟩

/-- A direction at a distance from the centre: to the south. -/
example : CapAt (1, 1) (1/2) 0 (1, 3/2) := by
  unfold CapAt dir Ortho.north Ortho.east
  have e1 : sin (3/2) = sin 1*cos (1/2) + cos 1*sin (1/2) := by rw [← sin_add]; norm_num
  have e2 : cos (3/2) = cos 1*cos (1/2) - sin 1*sin (1/2) := by rw [← cos_add]; norm_num
  ext i
  fin_cases i <;> simp only [Fin.zero_eta, Fin.mk_one, Fin.reduceFinMk, Pi.add_apply, Pi.smul_apply, Pi.neg_apply,
    smul_eq_mul, cons_val_zero, cons_val_one, cons_val, e1, e2, cos_zero, sin_zero] <;> ring

/-- A history of calls on a dense grid object. -/
example : ∀ a, HealRing.Dg.Call.setup a ∈ [.map 4, .setup exCap, .rotate ⟨3, 2, fun _ _ => none⟩, .clean] →
    1 ≤ a.rebinAlpha ∧ 1 ≤ a.rebinBeta := by
  intro a ha
  simp at ha
  rw [ha]
  simp [exCap]

end Magpie.Props
