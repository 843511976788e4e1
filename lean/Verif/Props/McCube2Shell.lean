import Verif.Proof.McCube2Shell

/-!
# The Monte Carlo `Cube2Shell` class
-/

set_option linter.unusedSimpArgs false
set_option linter.unusedVariables false
set_option linter.unusedSectionVars false

namespace Magpie.Props
open Magpie Magpie.Radial Magpie.OneD Magpie.Spec Magpie.Box2Ring Magpie.Cube Magpie.McCube
open Magpie.Healpix

/-! ## C84 -/

section
variable (C : CubeArgs) (G : Shells) (hC : CubeOk C) (hG : G.Ok) (n : ℕ) (hn : 0 < n)
  (draws : ℕ → ℕ → Draw) (hd : ∀ i j, i < G.numr → j < G.npix → Draws n (draws i j))
  (dirs : ℕ → ℕ → List (ℝ × ℝ)) (hs : Samples G draws dirs)
  (f : Arr3 (Option ℝ)) (v : ℕ → ℕ → ℕ → ℝ) (hf : Fits C f)
  (hv : ∀ i j k, i < f.n0 → j < f.n1 → k < f.n2 → f.val i j k = some (v i j k))
include hC hG hn hd hs hf hv

/-- C84: on an object with any history, if in every shell two pixels touch different numbers of voxels,
each remapped value is the mean, over the random points of the pixel that are in the cube, of the value of
the voxel the point is in; `hp.UNSEEN` if there are none. Missing: other draws, see
`C84_violated_same` and `C84_violated_mixed`. -/
theorem C84_remap_partial (hdiff : McCube.RowsDiffer C G draws dirs) (s : McCube.State) :
    ∃ out s', McCube.mcRemap C G n draws f none s = (.ok out, s') ∧ out.rows = G.numr ∧ out.cols = G.npix ∧
      ∀ i j, i < G.numr → j < G.npix →
        ∀ g, List.Forall₂ (McCube.Reads C v) (G.points i (draws i j).ur (dirs i j)) g →
          out.val i j = some (meanOrUnseen (g.filterMap id)) := by
  obtain ⟨hits, hh, s', e⟩ := McCube.mcRemap_run hC hG draws hd dirs hs f none s
  unfold McCube.lens at e
  rw [Mc.pack_table_differ (Shells.npix_pos hG) hdiff] at e
  simp only at e
  choose g hg using fun i j => McCube.exists_reads hC v (G.points i (draws i j).ur (dirs i j))
  have hpix : ∀ i j, i < G.numr → j < G.npix →
      ∀ g, List.Forall₂ (McCube.Reads C v) (G.points i (draws i j).ur (dirs i j)) g →
      McCube.remapPixel ⟨hits, false⟩ f none i j = .ok (some (meanOrUnseen (g.filterMap id))) := fun i j hi hj g hg =>
    McCube.remapPixel_none hC hn _ ⟨hits, false⟩ i j (hh i j hi hj) rfl f v hf hv g hg
  obtain ⟨out, ho, hr, hc, ht⟩ := tabulate_ok G.numr G.npix (McCube.remapPixel ⟨hits, false⟩ f none)
    (fun i j => some (meanOrUnseen ((g i j).filterMap id))) none (fun i j hi hj => hpix i j hi hj _ (hg i j))
  refine ⟨out, s' false, by rw [e, ho], hr, hc, ?_⟩
  intro i j hi hj g' hg'
  have a := hpix i j hi hj _ hg'
  rw [hpix i j hi hj _ (hg i j), Except.ok.injEq] at a
  rw [ht i j hi hj, a]

/-- C84 with weights: the mean is weighted by the weight of the voxel the point is in. -/
theorem C84_weighted_partial (hdiff : McCube.RowsDiffer C G draws dirs) (w : Arr3 ℝ) (hw : Fits C w)
    (s : McCube.State) :
    ∃ out s', McCube.mcRemap C G n draws f (some w) s = (.ok out, s') ∧ out.rows = G.numr ∧ out.cols = G.npix ∧
      ∀ i j, i < G.numr → j < G.npix →
        ∀ g, List.Forall₂ (McCube.Reads C fun b a c => (w.val b a c, v b a c))
            (G.points i (draws i j).ur (dirs i j)) g → out.val i j = wmeanOrUnseen (g.filterMap id) := by
  obtain ⟨hits, hh, s', e⟩ := McCube.mcRemap_run hC hG draws hd dirs hs f (some w) s
  unfold McCube.lens at e
  rw [Mc.pack_table_differ (Shells.npix_pos hG) hdiff] at e
  simp only at e
  choose g hg using fun i j => McCube.exists_reads hC (fun b a c => (w.val b a c, v b a c))
    (G.points i (draws i j).ur (dirs i j))
  have hpix : ∀ i j, i < G.numr → j < G.npix →
      ∀ g, List.Forall₂ (McCube.Reads C fun b a c => (w.val b a c, v b a c)) (G.points i (draws i j).ur (dirs i j)) g →
      McCube.remapPixel ⟨hits, false⟩ f (some w) i j = .ok (wmeanOrUnseen (g.filterMap id)) := fun i j hi hj g hg =>
    McCube.remapPixel_some hC hn _ ⟨hits, false⟩ i j (hh i j hi hj) rfl f v hf hv w hw g hg
  obtain ⟨out, ho, hr, hc, ht⟩ := tabulate_ok G.numr G.npix (McCube.remapPixel ⟨hits, false⟩ f (some w))
    (fun i j => wmeanOrUnseen ((g i j).filterMap id)) none (fun i j hi hj => hpix i j hi hj _ (hg i j))
  refine ⟨out, s' false, by rw [e, ho], hr, hc, ?_⟩
  intro i j hi hj g' hg'
  have a := hpix i j hi hj _ hg'
  rw [hpix i j hi hj _ (hg i j), Except.ok.injEq] at a
  rw [ht i j hi hj, a]

/-- C84: if no random point is in the cube all remapped values are `hp.UNSEEN`. -/
theorem C84_outside (hno : McCube.AllTouch C G draws dirs 0) (s : McCube.State) :
    ∃ out s', McCube.mcRemap C G n draws f none s = (.ok out, s') ∧ out.rows = G.numr ∧ out.cols = G.npix ∧
      ∀ i j, i < G.numr → j < G.npix → out.val i j = some unseen := by
  obtain ⟨hits, hh, s', e⟩ := McCube.mcRemap_run hC hG draws hd dirs hs f none s
  unfold McCube.lens at e
  rw [Mc.pack_table_same (Shells.numr_pos hG) (Shells.npix_pos hG) hno] at e
  simp only at e
  have hpix : ∀ i j, i < G.numr → j < G.npix → McCube.remapPixel ⟨hits, true⟩ f none i j = .ok (some unseen) := by
    intro i j hi hj
    have hl := McCube.length_hits hC n (G.points i (draws i j).ur (dirs i j))
    rw [hno i j hi hj] at hl
    unfold McCube.remapPixel
    simp only
    rw [hh i j hi hj, List.length_eq_zero_iff.mp hl]
    simp
  obtain ⟨out, ho, hr, hc, ht⟩ := tabulate_ok G.numr G.npix (McCube.remapPixel ⟨hits, true⟩ f none)
    (fun i j => some unseen) none hpix
  exact ⟨out, s' true, by rw [e, ho], hr, hc, ht⟩

/-- C84 does not hold if all pixels touch the same number of voxels: `remap` raises `IndexError`. -/
theorem C84_violated_same (k : ℕ) (hk : 0 < k) (hsame : McCube.AllTouch C G draws dirs k) (s : McCube.State) :
    ∃ s', McCube.mcRemap C G n draws f none s = (.error .indexError, s') := by
  obtain ⟨hits, hh, s', e⟩ := McCube.mcRemap_run hC hG draws hd dirs hs f none s
  unfold McCube.lens at e
  have hp := Shells.npix_pos hG
  have hr := Shells.numr_pos hG
  rw [Mc.pack_table_same hr hp hsame] at e
  simp only at e
  refine ⟨s' true, ?_⟩
  rw [e, tabulate_error _ _ _ _ .indexError hr hp]
  set pts := G.points 0 (draws 0 0).ur (dirs 0 0) with hpts
  have hl := McCube.length_hits hC n pts
  rw [hsame 0 0 hr hp] at hl
  unfold McCube.remapPixel
  simp only
  rw [hh 0 0 hr hp, McCube.hits_wsum hC, if_pos]
  · rfl
  · have hn' : (n:ℝ) ≠ 0 := by exact_mod_cast (show n ≠ 0 by omega)
    refine div_ne_zero ?_ hn'
    have hne : (McCube.bins C pts).filterMap id ≠ [] := by
      intro h0
      rw [McCube.pixelHits_eq, List.length_map] at hl
      have hc : McCube.hitCells C pts ≠ [] := by
        intro h1
        rw [h1] at hl
        simp at hl
        omega
      obtain ⟨c, hc⟩ := List.exists_mem_of_ne_nil _ hc
      have := Mc.cnt_pos.mp (of_decide_eq_true (List.mem_filter.mp hc).2)
      have : c ∈ (McCube.bins C pts).filterMap id := by simpa using this
      rw [h0] at this
      cases this
    exact_mod_cast fun h => hne (List.length_eq_zero_iff.mp h)

/-- C84 does not hold if in some shell all pixels touch the same number of voxels, but not in all shells:
`get_weights` raises `ValueError`. -/
theorem C84_violated_mixed (h1 : ¬ McCube.RowsDiffer C G draws dirs) (h2 : ¬ ∃ k, McCube.AllTouch C G draws dirs k)
    (s : McCube.State) : ∃ s', McCube.mcRemap C G n draws f none s = (.error .valueError, s') := by
  obtain ⟨hits, hh, s', e⟩ := McCube.mcRemap_run hC hG draws hd dirs hs f none s
  unfold McCube.lens at e
  rw [Mc.pack_table_mixed (Shells.numr_pos hG) (Shells.npix_pos hG) h1 h2] at e
  exact ⟨_, e⟩

end

/-! ## C81 -/

/-- C81 for `setup_polar_lin`: it succeeds exactly if the assertions hold and there are at least two
shells. Missing: a single shell, see `C81_shell_violated`. -/
theorem C81_shell_lin_partial (A : ShellArgs) (s : McCube.State) :
    (McCube.setupPolarLin A s).1 = .ok () ↔
      0 ≤ A.rmin ∧ A.rmin < A.rmax ∧ 2 ≤ A.numr ∧ A.center.length = 3 := by
  unfold McCube.setupPolarLin shellChecks
  simp only [Meth.bind_apply, Meth.lift_apply, Meth.assign_apply, bind, Except.bind, pyAssert, ge_iff_le, gt_iff_lt]
  by_cases h1 : 0 ≤ A.rmin
  case neg => simp [h1]
  by_cases h2 : A.rmin < A.rmax
  case neg => simp [h1, h2]
  by_cases h3 : 0 < A.numr
  case neg => simp [h1, h2, h3]; omega
  by_cases h4 : A.center.length = 3
  case neg => simp [h1, h2, h3, h4]
  simp only [h1, h2, h3, h4, if_true]
  by_cases h5 : 2 ≤ A.numr
  · have e1 : firstDiff (mids (linspace A.rmin A.rmax (A.numr.toNat + 1))) = _ :=
      firstDiff_mids A.rmin A.rmax A.numr.toNat (by omega)
    rw [e1]
    simp [h5]
  · have e1 : firstDiff (mids (linspace A.rmin A.rmax (A.numr.toNat + 1))) = .error .indexError := by
      rw [show A.numr.toNat = 1 by omega]
      exact firstDiff_mids_one _ _
    rw [e1]
    simp [h5]

/-- C81 does not hold for `setup_polar_lin`: `IndexError` for a single shell. -/
theorem C81_shell_violated (A : ShellArgs) (s : McCube.State) (h1 : 0 ≤ A.rmin) (h2 : A.rmin < A.rmax)
    (h3 : A.numr = 1) (h4 : A.center.length = 3) : (McCube.setupPolarLin A s).1 = .error .indexError := by
  unfold McCube.setupPolarLin shellChecks
  have e1 : firstDiff (mids (linspace A.rmin A.rmax (A.numr.toNat + 1))) = .error .indexError := by
    rw [h3]; exact firstDiff_mids_one _ _
  have h3' : A.numr > 0 := by omega
  simp only [Meth.bind_apply, Meth.lift_apply, Meth.assign_apply, bind, Except.bind, pyAssert, ge_iff_le, h1, h2, h3',
    h4, if_true, e1]

/-- C81 for `setup_polar_log`: it succeeds exactly if the assertions hold. -/
theorem C81_shell_log (A : ShellArgs) (z : Bool) (s : McCube.State) :
    (McCube.setupPolarLog A z s).1 = .ok () ↔
      0 < A.rmin ∧ A.rmin < A.rmax ∧ 0 < A.numr ∧ A.center.length = 3 := by
  unfold McCube.setupPolarLog shellChecks
  simp only [Meth.bind_apply, Meth.lift_apply, Meth.assign_apply, bind, Except.bind, pyAssert, ge_iff_le, gt_iff_lt]
  by_cases h1 : 0 < A.rmin
  case neg => simp [h1]
  by_cases h2 : A.rmin < A.rmax
  case neg => simp [h1, h2]
  by_cases h3 : 0 < A.numr
  case neg => simp [h1, h2, h3]
  by_cases h4 : A.center.length = 3
  case neg => simp [h1, h2, h3, h4]
  simp [h1, h2, h3, h4]

/-- C81 for `setup_cube`, which has no assertion on `numz`: it succeeds exactly if all numbers of bins are
positive; the exception is not an `AssertionError` when only `numz` is wrong. -/
theorem C81_cube (C : CubeArgs) :
    ((∃ g, Cube.setupCube C = .ok g) ↔ 0 < C.numx ∧ 0 < C.numy ∧ 0 < C.numz) ∧
    (0 < C.numx → 0 < C.numy → C.numz ≤ 0 →
      Cube.setupCube C = .error .indexError ∨ Cube.setupCube C = .error .valueError) := by
  unfold Cube.setupCube
  simp only [bind, Except.bind, pyAssert, gt_iff_lt]
  constructor
  · by_cases h1 : 0 < C.numx
    case neg => simp [h1]
    by_cases h2 : 0 < C.numy
    case neg => simp [h1, h2]
    simp only [h1, h2, if_true, true_and]
    by_cases h3 : 0 < C.numz
    · rw [if_neg (by omega), if_neg (by omega)]
      exact ⟨fun _ => h3, fun _ => ⟨_, rfl⟩⟩
    · refine ⟨?_, fun h => absurd h h3⟩
      rintro ⟨g, hg⟩
      exfalso
      split_ifs at hg
      omega
  · intro h1 h2 h3
    simp only [h1, h2, if_true]
    by_cases h4 : C.numz + 1 < 0
    · rw [if_pos h4]; exact .inr rfl
    · rw [if_neg h4, if_pos (by omega)]; exact .inl rfl

/-! ## A case that meets the hypotheses -/

/-- Two shells of radius at most 1, `nside = 1`. -/
def exShell : ShellArgs := { rmin := 0, rmax := 1, numr := 2, nside := 1 }

theorem exShell_ok : (Shells.lin exShell).Ok := by
  refine ⟨?_, ?_, ?_, ?_, ?_⟩ <;> simp [exShell]

/-- A cube of side 4 cut into two along `z`. -/
def exCube : CubeArgs := ⟨-2, 2, 1, -2, 2, 1, -2, 2, 2⟩

theorem exCube_ok : CubeOk exCube := by
  constructor <;> simp [exCube] <;> norm_num

/-- Twice the same point in pixel 0; in the others, one point below and one above the centre. -/
noncomputable def exDraw (_ j : ℕ) : Draw :=
  if j = 0 then ⟨[1/2, 1/2], [1/4, 1/4], [1/2, 1/2]⟩ else ⟨[1/2, 1/2], [1/4, 3/4], [1/2, 1/2]⟩

theorem exDraw_ok (i j : ℕ) : McCube.Draws 2 (exDraw i j) := by
  unfold exDraw
  split_ifs <;> refine ⟨⟨rfl, ?_⟩, ⟨rfl, ?_⟩, rfl, ?_⟩ <;> intro u hu <;> simp at hu <;>
    first
    | (rcases hu with rfl | rfl <;> norm_num)
    | (subst hu; norm_num)

/-- The colatitudes of such points. -/
theorem exDraw_theta {p i j : ℤ} (hv : ValidRing 1 i j) (hp : ij2pix i j 1 = p) (v1 v2 : ℝ) :
    ∃ xs, Randoms.randomsHealpixPixel [1/2, 1/2] [v1, v2] p 1
      = .ok (xs, [(xy2ang 0 ((1 - i/2)*Real.pi/2 + (2*v1 - 1)*(Real.pi/4))).2,
          (xy2ang 0 ((1 - i/2)*Real.pi/2 + (2*v2 - 1)*(Real.pi/4))).2]) := by
  obtain ⟨d, hd, _, _⟩ := j2jd_star hv
  have hxy : pix2xy p 1 = .ok (d*Real.pi/(2*(1:ℤ)), i2id i 1*Real.pi/(2*(1:ℤ))) := by
    unfold pix2xy ij2xy
    rw [← hp, pix2ij_ij2pix hv]
    simp [bind, Except.bind, hd, pure, Except.pure]
  have h := randomsXY_eq hxy [(1/2, v1), (1/2, v2)]
  unfold Randoms.randomsHealpixPixel
  simp only [List.map_cons, List.map_nil] at h
  rw [h]
  simp only [bind, Except.bind]
  have hx := xy2angArr_eq_map [(fmod (sampleX (d*Real.pi/(2*(1:ℤ))) (getDelta 1) (1/2)) (2*Real.pi),
      sampleY (d*Real.pi/(2*(1:ℤ))) (i2id i 1*Real.pi/(2*(1:ℤ))) (getDelta 1) (1/2) v1),
      (fmod (sampleX (d*Real.pi/(2*(1:ℤ))) (getDelta 1) (1/2)) (2*Real.pi),
      sampleY (d*Real.pi/(2*(1:ℤ))) (i2id i 1*Real.pi/(2*(1:ℤ))) (getDelta 1) (1/2) v2)]
  simp only [List.map_cons, List.map_nil] at hx
  rw [hx]
  have hcol : ∀ x y, (xy2ang x y).2 = (xy2ang 0 y).2 := by
    intro x y
    unfold xy2ang
    by_cases c : |y| ≤ Real.pi/4
    · simp only [if_pos c]
    · simp only [if_neg c]
  have hy : ∀ w : ℝ, sampleY (d*Real.pi/(2*(1:ℤ))) (i2id i 1*Real.pi/(2*(1:ℤ))) (getDelta 1) (1/2) w
      = (1 - i/2)*Real.pi/2 + (2*w - 1)*(Real.pi/4) := by
    intro w
    unfold sampleY sampleX i2id
    rw [if_pos le_rfl, if_pos le_rfl, getDelta_eq]
    unfold halfDiag
    norm_num
    ring
  rw [hy, hy, hcol, hcol (fmod (sampleX (d*Real.pi/(2*(1:ℤ))) (getDelta 1) (1/2)) (2*Real.pi))
    ((1 - i/2)*Real.pi/2 + (2*v2 - 1)*(Real.pi/4))]
  exact ⟨_, rfl⟩

theorem exColat {y : ℝ} (h : |y| ≤ Real.pi/4) : ∃ t, (xy2ang 0 y).2 = some t ∧ Real.cos t = 8*y/(3*Real.pi) := by
  have hpi := Real.pi_pos
  have hb : |8*y/(3*Real.pi)| ≤ 1 := by
    rw [abs_div, abs_of_pos (show 0 < 3*Real.pi by positivity), div_le_one (by positivity), abs_mul]
    norm_num
    linarith
  unfold xy2ang
  rw [if_pos h]
  simp only
  unfold npArccos
  obtain ⟨b1, b2⟩ := abs_le.mp hb
  rw [if_pos ⟨b1, b2⟩]
  exact ⟨_, rfl, Real.cos_arccos b1 b2⟩

/-- A point of a shell in a direction of the given colatitude. -/
theorem exShell_point (i : ℕ) (hi : i < 2) (d : ℝ × ℝ) :
    (0 ≤ Real.cos d.2 → InVoxel exCube ((Shells.lin exShell).point i (1/2) d) 0 0 1) ∧
    (Real.cos d.2 < 0 → InVoxel exCube ((Shells.lin exShell).point i (1/2) d) 0 0 0) := by
  have hr : ∀ k : ℕ, (Shells.lin exShell).rEdge k = k/2 := by
    intro k
    simp [Shells.rEdge, exShell, edgeAt]
    ring
  obtain ⟨r, r0, r1, e⟩ : ∃ r, 0 < r ∧ r ≤ 1 ∧ (Shells.lin exShell).point i (1/2) d
      = (r*Real.sin d.2*Real.cos d.1, r*Real.sin d.2*Real.sin d.1, r*Real.cos d.2) := by
    refine ⟨(((i:ℝ)/2)^3 + 1/2*((((i+1 : ℕ):ℝ)/2)^3 - ((i:ℝ)/2)^3))^((1:ℝ)/3), ?_, ?_, ?_⟩
    · apply Real.rpow_pos_of_pos
      have : i = 0 ∨ i = 1 := by omega
      rcases this with rfl | rfl <;> norm_num
    · apply Real.rpow_le_one
      · have : i = 0 ∨ i = 1 := by omega
        rcases this with rfl | rfl <;> norm_num
      · have : i = 0 ∨ i = 1 := by omega
        rcases this with rfl | rfl <;> norm_num
      · norm_num
    · unfold Shells.point
      simp only [hr]
      simp [Shells.args, exShell]
  rw [e]
  have hb : ∀ a b : ℝ, |a| ≤ 1 → |b| ≤ 1 → -1 ≤ r*a*b ∧ r*a*b ≤ 1 := by
    intro a b ha hb
    rw [← abs_le, abs_mul, abs_mul, abs_of_pos r0]
    calc r * |a| * |b| ≤ 1*1*1 := by gcongr
      _ = 1 := by norm_num
  have hx := hb _ _ (Real.abs_sin_le_one d.2) (Real.abs_cos_le_one d.1)
  have hy := hb _ _ (Real.abs_sin_le_one d.2) (Real.abs_sin_le_one d.1)
  have hz := hb _ _ (Real.abs_cos_le_one d.2) (abs_one.le)
  constructor
  · intro h
    have := mul_nonneg r0.le h
    refine ⟨⟨by simp [exCube], ?_, Or.inl ?_⟩, ⟨by simp [exCube], ?_, Or.inl ?_⟩,
      ⟨by simp [exCube], ?_, Or.inl ?_⟩⟩ <;> simp [exCube, edgeAt] <;> linarith
  · intro h
    have := mul_neg_of_pos_of_neg r0 h
    refine ⟨⟨by simp [exCube], ?_, Or.inl ?_⟩, ⟨by simp [exCube], ?_, Or.inl ?_⟩,
      ⟨by simp [exCube], ?_, Or.inl ?_⟩⟩ <;> simp [exCube, edgeAt] <;> linarith

theorem map_two {α β : Type} {f : α → β} {l : List α} {b c : β} (h : l.map f = [b, c]) :
    ∃ x y, l = [x, y] ∧ f x = b ∧ f y = c := by
  match l, h with
  | [x, y], h => simp at h; exact ⟨x, y, rfl, h.1, h.2⟩

/-- The hypotheses of the theorems above: `exCube`, `exShell`, `exDraw`. -/
theorem exDraw_hyps : CubeOk exCube ∧ (Shells.lin exShell).Ok ∧ (∀ i j, McCube.Draws 2 (exDraw i j)) ∧
    ∃ dirs, Samples (.lin exShell) exDraw dirs ∧ McCube.RowsDiffer exCube (.lin exShell) exDraw dirs := by
  have hpi := Real.pi_pos
  refine ⟨exCube_ok, exShell_ok, exDraw_ok, ?_⟩
  obtain ⟨dirs, hs, -⟩ := exists_dirs exShell_ok exDraw fun i j _ _ => exDraw_ok i j
  refine ⟨dirs, hs, fun i hi => ?_⟩
  have hi2 : i < 2 := by simpa [Shells.numr, Shells.args, exShell] using hi
  have hnp : (Shells.lin exShell).npix = 12 := by simp [Shells.npix, Shells.args, exShell]
  refine ⟨0, 4, by rw [hnp]; norm_num, by rw [hnp]; norm_num, ?_⟩
  -- pixel 0
  have s0 := hs i 0 hi (by rw [hnp]; norm_num)
  obtain ⟨xs, t0⟩ := exDraw_theta (p := 0) (i := 1) (j := 1) (by unfold ValidRing; norm_num [ringLen])
    (by decide +kernel) (1/4) (1/4)
  have s4 := hs i 4 hi (by rw [hnp]; norm_num)
  obtain ⟨ys, t4⟩ := exDraw_theta (p := 4) (i := 2) (j := 1) (by unfold ValidRing; norm_num [ringLen])
    (by decide +kernel) (1/4) (3/4)
  have e0 : exDraw i 0 = ⟨[1/2, 1/2], [1/4, 1/4], [1/2, 1/2]⟩ := rfl
  have e4 : exDraw i 4 = ⟨[1/2, 1/2], [1/4, 3/4], [1/2, 1/2]⟩ := rfl
  rw [e0] at s0 ⊢
  rw [e4] at s4 ⊢
  simp only [Nat.cast_zero, Nat.cast_ofNat] at s0 s4 ⊢
  have hns : (Shells.lin exShell).args.nside = 1 := rfl
  rw [hns] at s0 s4
  rw [t0, Except.ok.injEq, Prod.mk.injEq] at s0
  rw [t4, Except.ok.injEq, Prod.mk.injEq] at s4
  have hy0 : |(1 - ((1:ℤ):ℝ)/2)*Real.pi/2 + (2*(1/4) - 1)*(Real.pi/4)| ≤ Real.pi/4 := by
    rw [abs_le]; push_cast; constructor <;> linarith
  have hy1 : |(1 - ((2:ℤ):ℝ)/2)*Real.pi/2 + (2*(1/4) - 1)*(Real.pi/4)| ≤ Real.pi/4 := by
    rw [abs_le]; push_cast; constructor <;> linarith
  have hy2 : |(1 - ((2:ℤ):ℝ)/2)*Real.pi/2 + (2*(3/4) - 1)*(Real.pi/4)| ≤ Real.pi/4 := by
    rw [abs_le]; push_cast; constructor <;> linarith
  obtain ⟨c0, k0, q0⟩ := exColat hy0
  obtain ⟨c1, k1, q1⟩ := exColat hy1
  obtain ⟨c2, k2, q2⟩ := exColat hy2
  rw [k0] at s0
  rw [k1, k2] at s4
  obtain ⟨x, y, l0, f1, f2⟩ := map_two s0.2.symm
  obtain ⟨x', y', l4, f3, f4⟩ := map_two s4.2.symm
  simp only [Option.some.injEq] at f1 f2 f3 f4
  rw [l0, l4]
  have n0 : 0 ≤ Real.cos c0 := by rw [q0]; push_cast; apply div_nonneg <;> linarith
  have n1 : Real.cos c1 < 0 := by rw [q1]; push_cast; apply div_neg_of_neg_of_pos <;> linarith
  have n2 : 0 ≤ Real.cos c2 := by rw [q2]; push_cast; apply div_nonneg <;> linarith
  have p0 := (exShell_point i hi2 x).1 (by rw [f1]; exact n0)
  have p1 := (exShell_point i hi2 y).1 (by rw [f2]; exact n0)
  have p2 := (exShell_point i hi2 x').2 (by rw [f3]; exact n1)
  have p3 := (exShell_point i hi2 y').1 (by rw [f4]; exact n2)
  have m0 : (Shells.lin exShell).points i [1/2, 1/2] [x, y]
      = [(Shells.lin exShell).point i (1/2) x, (Shells.lin exShell).point i (1/2) y] := rfl
  have m4 : (Shells.lin exShell).points i [1/2, 1/2] [x', y']
      = [(Shells.lin exShell).point i (1/2) x', (Shells.lin exShell).point i (1/2) y'] := rfl
  rw [m0, m4]
  have one : McCube.touched exCube [(Shells.lin exShell).point i (1/2) x, (Shells.lin exShell).point i (1/2) y] = 1 := by
    unfold McCube.touched
    rw [Set.ncard_eq_one]
    refine ⟨(0, 0, 1), ?_⟩
    ext c
    simp only [Set.mem_setOf_eq, Set.mem_singleton_iff]
    constructor
    · rintro ⟨pt, h1, h2, h3, h4⟩
      simp only [List.mem_cons, List.not_mem_nil, or_false] at h1
      rcases h1 with rfl | rfl
      · exact Prod.ext (Mc.inBin_unique exCube_ok.hx h2 p0.1) (Prod.ext (Mc.inBin_unique exCube_ok.hy h3 p0.2.1)
          (Mc.inBin_unique exCube_ok.hz h4 p0.2.2))
      · exact Prod.ext (Mc.inBin_unique exCube_ok.hx h2 p1.1) (Prod.ext (Mc.inBin_unique exCube_ok.hy h3 p1.2.1)
          (Mc.inBin_unique exCube_ok.hz h4 p1.2.2))
    · rintro rfl
      exact ⟨_, List.mem_cons_self .., p0⟩
  rw [one]
  intro h
  have h := h.symm
  unfold McCube.touched at h
  rw [Set.ncard_eq_one] at h
  obtain ⟨z, hz⟩ := h
  have g1 : ((0, 0, 0) : ℕ × ℕ × ℕ) ∈ ({z} : Set (ℕ × ℕ × ℕ)) := by rw [← hz]; exact ⟨_, List.mem_cons_self .., p2⟩
  have g2 : ((0, 0, 1) : ℕ × ℕ × ℕ) ∈ ({z} : Set (ℕ × ℕ × ℕ)) := by
    rw [← hz]; exact ⟨_, List.mem_cons_of_mem _ (List.mem_cons_self ..), p3⟩
  rw [Set.mem_singleton_iff] at g1 g2
  have := g1.trans g2.symm
  simp at this

/-- The points of the shells of `exShell` have coordinates in `[-1, 1]`. -/
theorem exShell_near {n : ℕ} {dr : Draw} (h : McCube.Draws n dr) (dirs : List (ℝ × ℝ)) {i : ℕ} (hi2 : i < 2)
    {pt : ℝ × ℝ × ℝ} (hpt : pt ∈ (Shells.lin exShell).points i dr.ur dirs) :
    (-1 ≤ pt.1 ∧ pt.1 ≤ 1) ∧ (-1 ≤ pt.2.1 ∧ pt.2.1 ≤ 1) ∧ -1 ≤ pt.2.2 ∧ pt.2.2 ≤ 1 := by
  obtain ⟨-, -, d1, d2⟩ := h
  unfold Shells.points at hpt
  rw [List.mem_iff_getElem] at hpt
  obtain ⟨k, hk, e⟩ := hpt
  rw [List.getElem_zipWith] at e
  obtain ⟨u0, u1⟩ := d2 _ (List.getElem_mem (by rw [List.length_zipWith] at hk; omega : k < dr.ur.length))
  generalize dr.ur[k]'(by rw [List.length_zipWith] at hk; omega) = u at e u0 u1
  generalize dirs[k]'(by rw [List.length_zipWith] at hk; omega) = d at e
  have hr : ∀ k : ℕ, (Shells.lin exShell).rEdge k = k/2 := by
    intro k
    simp [Shells.rEdge, exShell, edgeAt]
    ring
  obtain ⟨r, r0, r1, e'⟩ : ∃ r, 0 ≤ r ∧ r ≤ 1 ∧ (Shells.lin exShell).point i u d
      = (r*Real.sin d.2*Real.cos d.1, r*Real.sin d.2*Real.sin d.1, r*Real.cos d.2) := by
    have hbase : 0 ≤ ((i:ℝ)/2)^3 + u*((((i+1 : ℕ):ℝ)/2)^3 - ((i:ℝ)/2)^3) := by
      have : i = 0 ∨ i = 1 := by omega
      rcases this with rfl | rfl <;> norm_num <;> nlinarith
    refine ⟨(((i:ℝ)/2)^3 + u*((((i+1 : ℕ):ℝ)/2)^3 - ((i:ℝ)/2)^3))^((1:ℝ)/3), by positivity, ?_, ?_⟩
    · apply Real.rpow_le_one hbase
      · have : i = 0 ∨ i = 1 := by omega
        rcases this with rfl | rfl <;> norm_num <;> nlinarith
      · norm_num
    · unfold Shells.point
      simp only [hr]
      simp [Shells.args, exShell]
  have hb : ∀ a b : ℝ, |a| ≤ 1 → |b| ≤ 1 → -1 ≤ r*a*b ∧ r*a*b ≤ 1 := by
    intro a b ha hb
    rw [← abs_le, abs_mul, abs_mul, abs_of_nonneg r0]
    calc r * |a| * |b| ≤ 1*1*1 := by gcongr
      _ = 1 := by norm_num
  have hx := hb _ _ (Real.abs_sin_le_one d.2) (Real.abs_cos_le_one d.1)
  have hy := hb _ _ (Real.abs_sin_le_one d.2) (Real.abs_sin_le_one d.1)
  have hz := hb _ _ (Real.abs_cos_le_one d.2) (abs_one.le)
  rw [← e, e']
  rw [mul_one] at hz
  exact ⟨hx, hy, hz⟩

/-- C84 does not hold: for a cube of one voxel that contains the shells, `remap` raises `IndexError`
for every draw and all data. -/
theorem C84_violated (n : ℕ) (hn : 0 < n) (draws : ℕ → ℕ → Draw) (hd : ∀ i j, McCube.Draws n (draws i j))
    (x : ℝ) (s : McCube.State) :
    ∃ s', McCube.mcRemap ⟨-2, 2, 1, -2, 2, 1, -2, 2, 1⟩ (.lin exShell) n draws ⟨1, 1, 1, fun _ _ _ => some x⟩ none s
      = (.error .indexError, s') := by
  have hC : CubeOk ⟨-2, 2, 1, -2, 2, 1, -2, 2, 1⟩ := by constructor <;> norm_num
  obtain ⟨dirs, hs, hl⟩ := exists_dirs exShell_ok draws fun i j _ _ => hd i j
  refine C84_violated_same _ (.lin exShell) hC exShell_ok n hn draws (fun i j _ _ => hd i j) dirs hs
    ⟨1, 1, 1, fun _ _ _ => some x⟩ (fun _ _ _ => x) ⟨rfl, rfl, rfl⟩ (fun _ _ _ _ _ _ => rfl) 1 (by norm_num) ?_ s
  intro i j hi hj
  have hi2 : i < 2 := by simpa [Shells.numr, Shells.args, exShell] using hi
  have hl := hl i j hi hj
  obtain ⟨-, -, d1, d2⟩ := hd i j
  have hlen : ((Shells.lin exShell).points i (draws i j).ur (dirs i j)).length = n := by
    unfold Shells.points
    rw [List.length_zipWith, d1, hl, min_self]
  have hin : ∀ pt ∈ (Shells.lin exShell).points i (draws i j).ur (dirs i j),
      InVoxel ⟨-2, 2, 1, -2, 2, 1, -2, 2, 1⟩ pt 0 0 0 := by
    intro pt hpt
    obtain ⟨hx, hy, hz⟩ := exShell_near (hd i j) _ hi2 hpt
    refine ⟨⟨by simp, ?_, Or.inl ?_⟩, ⟨by simp, ?_, Or.inl ?_⟩, ⟨by simp, ?_, Or.inl ?_⟩⟩ <;>
      simp [edgeAt] <;> linarith
  unfold McCube.touched
  rw [Set.ncard_eq_one]
  refine ⟨(0, 0, 0), ?_⟩
  ext c
  simp only [Set.mem_setOf_eq, Set.mem_singleton_iff]
  constructor
  · rintro ⟨pt, h1, h2, h3, h4⟩
    have := hin pt h1
    exact Prod.ext (Mc.inBin_unique hC.hx h2 this.1) (Prod.ext (Mc.inBin_unique hC.hy h3 this.2.1)
      (Mc.inBin_unique hC.hz h4 this.2.2))
  · rintro rfl
    cases hp : (Shells.lin exShell).points i (draws i j).ur (dirs i j) with
    | nil => rw [hp] at hlen; simp at hlen; omega
    | cons pt t => exact ⟨pt, List.mem_cons_self .., hin pt (by rw [hp]; exact List.mem_cons_self ..)⟩

example (n : ℕ) : ∃ draws : ℕ → ℕ → Draw, ∀ i j, McCube.Draws n (draws i j) :=
  ⟨fun _ _ => ⟨List.replicate n 0, List.replicate n 0, List.replicate n 0⟩, fun _ _ => by
    refine ⟨⟨by simp, ?_⟩, ⟨by simp, ?_⟩, by simp, ?_⟩ <;> intro u hu <;> rw [List.eq_of_mem_replicate hu] <;> norm_num⟩

end Magpie.Props
