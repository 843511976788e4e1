import Verif.Proof.DgCube2Shell

/-!
# The dense grid `Cube2Shell` class
-/

set_option linter.unusedSimpArgs false
set_option linter.unusedVariables false
set_option linter.unusedSectionVars false

namespace Magpie.Props
open Magpie Magpie.Radial Magpie.OneD Magpie.Remap Magpie.Spec Magpie.Box2Ring Magpie.Cube Magpie.McCube

/-! ## C80 -/

/-- C80 in part: on an object with any history, for an array with the axes in the order `x`, `y`, `z`, each
remapped value is the mean, over the points of the dense grid in the pixel, of the value of the cell that contains
the point or one of the periodic images asked for, `0` where there is none; the dense shells are weighted with
their volume. Missing: arrays in the layout of `x3d`, see `C80_violated` and `C80_violated_shape`. -/
theorem C80_remap_partial (hp : DgCube.Hp) (C : CubeArgs) (A : DgCube.ShellArgs) (hC : CubeOk C)
    (hA : DgCube.ShellOk A) (hhp : DgCube.HpOk hp A) (f : Arr3 (Option ℝ)) (v : ℕ → ℕ → ℕ → ℝ)
    (hf : DgCube.Holds C f v) (s : DgCube.State) :
    ∃ out s', DgCube.dgRemap hp C A f s = (.ok out, s') ∧ out.rows = A.numr.toNat ∧
      out.cols = DgCube.npixOf A.nside ∧
      ∀ i p, i < A.numr.toNat → p < DgCube.npixOf A.nside → ∀ g : ℕ → ℕ → ℝ,
        (∀ k q, k < A.rebinR.toNat → q ∈ DgCube.subpix hp A p →
          DgCube.Reads C A v (DgCube.densePoint hp A (i*A.rebinR.toNat + k) q) (g (i*A.rebinR.toNat + k) q)) →
        out.val i p = some (DgCube.pixelMean hp A g i p) :=
  DgCube.remap_ok hp hC hA hhp f v hf s

/-- The values that C80 speaks of exist: a point has at most one image in the cube. -/
theorem C80_reads (C : CubeArgs) (A : DgCube.ShellArgs) (hC : CubeOk C) (v : ℕ → ℕ → ℕ → ℝ) (pt : ℝ × ℝ × ℝ) :
    ∃! g, DgCube.Reads C A v pt g := by
  obtain ⟨g, hg⟩ := DgCube.exists_reads hC A v pt
  refine ⟨g, hg, fun g' hg' => ?_⟩
  by_cases h : ∃ n a b c, DgCube.InRange A n ∧ DgCube.InCell3 C (DgCube.image C n pt) a b c
  · obtain ⟨n, a, b, c, hn, hin⟩ := h
    rw [hg.1 n a b c hn hin, hg'.1 n a b c hn hin]
  · rw [hg.2 h, hg'.2 h]

theorem pixelMean_const (hp : DgCube.Hp) {A : DgCube.ShellArgs} (hA : DgCube.ShellOk A) (i p : ℕ) (c : ℝ)
    (g : ℕ → ℕ → ℝ) (hne : DgCube.subpix hp A p ≠ [])
    (hg : ∀ k q, k < A.rebinR.toNat → q ∈ DgCube.subpix hp A p → g (i*A.rebinR.toNat + k) q = c) :
    DgCube.pixelMean hp A g i p = c := by
  have hm : 0 < A.rebinR.toNat := by have := hA.rebinR; omega
  have hsum : 0 < ∑ k ∈ Finset.range A.rebinR.toNat, DgCube.wt A (i*A.rebinR.toNat + k) :=
    Finset.sum_pos (fun k _ => DgCube.wt_pos hA _) ⟨0, by simpa using hm⟩
  rw [DgCube.pixelMean_eq hp hA]
  have : ∀ k ∈ Finset.range A.rebinR.toNat, DgCube.wt A (i*A.rebinR.toNat + k)*
      DgCube.meanAt (DgCube.subpix hp A p) (g (i*A.rebinR.toNat + k)) = DgCube.wt A (i*A.rebinR.toNat + k)*c := by
    intro k hk
    have hl : ((DgCube.subpix hp A p).length : ℝ) ≠ 0 := by
      exact_mod_cast fun h => hne (List.length_eq_zero_iff.mp h)
    have e : (DgCube.subpix hp A p).map (g (i*A.rebinR.toNat + k)) = (DgCube.subpix hp A p).map fun _ => c :=
      List.map_congr_left fun q hq => hg k q (Finset.mem_range.mp hk) hq
    unfold DgCube.meanAt
    rw [e, List.map_const', List.sum_replicate, nsmul_eq_mul, mul_div_assoc, mul_div_cancel₀ _ hl]
  rw [Finset.sum_congr rfl this, ← Finset.sum_mul, mul_comm, mul_div_assoc, div_self hsum.ne', mul_one]

/-- C80 in part: a pixel all of whose dense points have an image in the cube keeps a constant. -/
theorem C80_constant_partial (hp : DgCube.Hp) (C : CubeArgs) (A : DgCube.ShellArgs) (hC : CubeOk C)
    (hA : DgCube.ShellOk A) (hhp : DgCube.HpOk hp A) (f : Arr3 (Option ℝ)) (c : ℝ)
    (hf : DgCube.Holds C f fun _ _ _ => c) (s : DgCube.State) :
    ∃ out s', DgCube.dgRemap hp C A f s = (.ok out, s') ∧
      ∀ i p, i < A.numr.toNat → p < DgCube.npixOf A.nside →
        (∀ k q, k < A.rebinR.toNat → q ∈ DgCube.subpix hp A p → ∃ n a b d, DgCube.InRange A n ∧
          DgCube.InCell3 C (DgCube.image C n (DgCube.densePoint hp A (i*A.rebinR.toNat + k) q)) a b d) →
        out.val i p = some c := by
  obtain ⟨out, s', e, h1, h2, h⟩ := C80_remap_partial hp C A hC hA hhp f _ hf s
  refine ⟨out, s', e, fun i p hi hp' hin => ?_⟩
  rw [h i p hi hp' (fun _ _ => c), pixelMean_const hp hA i p c _ (hhp p hp').1 fun _ _ _ _ => rfl]
  intro k q hk hq
  exact ⟨fun _ _ _ _ _ _ => rfl, fun hno => absurd (hin k q hk hq) hno⟩

/-- C80: a pixel none of whose dense points has an image in the cube is `0`, whatever the array. -/
theorem C80_outside (hp : DgCube.Hp) (C : CubeArgs) (A : DgCube.ShellArgs) (hC : CubeOk C)
    (hA : DgCube.ShellOk A) (hhp : DgCube.HpOk hp A) (f : Arr3 (Option ℝ)) (v : ℕ → ℕ → ℕ → ℝ)
    (hf : DgCube.Holds C f v) (s : DgCube.State) :
    ∃ out s', DgCube.dgRemap hp C A f s = (.ok out, s') ∧
      ∀ i p, i < A.numr.toNat → p < DgCube.npixOf A.nside →
        (∀ k q, k < A.rebinR.toNat → q ∈ DgCube.subpix hp A p → ¬ ∃ n a b d, DgCube.InRange A n ∧
          DgCube.InCell3 C (DgCube.image C n (DgCube.densePoint hp A (i*A.rebinR.toNat + k) q)) a b d) →
        out.val i p = some 0 := by
  obtain ⟨out, s', e, h1, h2, h⟩ := C80_remap_partial hp C A hC hA hhp f _ hf s
  refine ⟨out, s', e, fun i p hi hp' hin => ?_⟩
  rw [h i p hi hp' (fun _ _ => 0), pixelMean_const hp hA i p 0 _ (hhp p hp').1 fun _ _ _ _ => rfl]
  intro k q hk hq
  exact ⟨fun n a b d hn h => absurd ⟨n, a, b, d, hn, h⟩ (hin k q hk hq), fun _ => rfl⟩

/-- C80 does not hold for arrays in the layout of `x3d` that are not cubic: `IndexError` as soon as a dense point
(or an image) is in a cell whose index along `x` is not less than the number of cells along `y`, or the other way
round. -/
theorem C80_violated_shape (hp : DgCube.Hp) (C : CubeArgs) (A : DgCube.ShellArgs) (hC : CubeOk C)
    (hA : DgCube.ShellOk A) (f : Arr3 (Option ℝ)) (hf : McCube.Fits C f) (k q : ℕ) (hk : k < DgCube.denseNum A)
    (hq : q < DgCube.npixOf (A.nside*A.rebinShell)) (n : ℤ × ℤ × ℤ) (a b c : ℕ) (hn : DgCube.InRange A n)
    (hin : DgCube.InCell3 C (DgCube.image C n (DgCube.densePoint hp A k q)) a b c)
    (hab : C.numy.toNat ≤ a ∨ C.numx.toNat ≤ b) (s : DgCube.State) :
    ∃ s', DgCube.dgRemap hp C A f s = (.error .indexError, s') := by
  refine DgCube.remap_error hp hC hA f s hk hq hn hin ?_
  rw [hf.1, hf.2.1]
  omega

/-! ### Examples -/

/-- The cube `[0, 2]³` with two cells along each axis. -/
noncomputable def exDgCube : CubeArgs := ⟨0, 2, 2, 0, 2, 2, 0, 2, 2⟩

theorem exDgCube_ok : CubeOk exDgCube := by constructor <;> norm_num [exDgCube]

/-- Two thin shells round the centre of the cell `x` in `[1, 2)`, `y` in `[0, 1)`, `z` in `[0, 1)`. -/
noncomputable def exDgShell : DgCube.ShellArgs :=
  { rmin := 0, rmax := 1/4, numr := 2, nside := 1, center := [3/2, 1/2, 1/2] }

theorem exDgShell_ok : DgCube.ShellOk exDgShell := by constructor <;> norm_num [exDgShell]

theorem exDgShell_cell (hp : DgCube.Hp) {k : ℕ} (hk : k < 4) (q : ℕ) :
    DgCube.InRange exDgShell (0, 0, 0) ∧
      DgCube.InCell3 exDgCube (DgCube.image exDgCube (0, 0, 0) (DgCube.densePoint hp exDgShell k q)) 1 0 0 := by
  have hr : 0 ≤ midAt (0:ℝ) (1/4) 4 k ∧ midAt (0:ℝ) (1/4) 4 k ≤ 1/4 := by
    have h : (k:ℝ) ≤ 3 := by exact_mod_cast (by omega : k ≤ 3)
    have h0 : (0:ℝ) ≤ k := by positivity
    unfold midAt edgeAt
    push_cast
    constructor <;> linarith
  have key : ∀ c, |c| ≤ 1 → |midAt (0:ℝ) (1/4) 4 k * c| ≤ 1/4 := by
    intro c hc
    rw [abs_mul, abs_of_nonneg hr.1]
    nlinarith [abs_nonneg c]
  have hnum : DgCube.denseNum exDgShell = 4 := rfl
  refine ⟨by simp [DgCube.InRange, exDgShell], ?_⟩
  set th := (hp.pix2ang (exDgShell.nside*exDgShell.rebinShell) q).1 with hth
  set ph := (hp.pix2ang (exDgShell.nside*exDgShell.rebinShell) q).2 with hph
  have e : DgCube.densePoint hp exDgShell k q = (3/2 + midAt 0 (1/4) 4 k*(Real.sin th*Real.cos ph),
      1/2 + midAt 0 (1/4) 4 k*(Real.sin th*Real.sin ph), 1/2 + midAt 0 (1/4) 4 k*Real.cos th) := by
    unfold DgCube.densePoint
    rw [hnum]
    simp only [exDgShell, List.getD_cons_zero, List.getD_cons_succ]
    rw [mul_assoc, mul_assoc]
    rfl
  have h1 := abs_le.mp (key (Real.sin th*Real.cos ph) (by
    rw [abs_mul]
    nlinarith [Real.abs_sin_le_one th, Real.abs_cos_le_one ph, abs_nonneg (Real.sin th), abs_nonneg (Real.cos ph)]))
  have h2 := abs_le.mp (key (Real.sin th*Real.sin ph) (by
    rw [abs_mul]
    nlinarith [Real.abs_sin_le_one th, Real.abs_sin_le_one ph, abs_nonneg (Real.sin th), abs_nonneg (Real.sin ph)]))
  have h3 := abs_le.mp (key (Real.cos th) (Real.abs_cos_le_one th))
  rw [e]
  unfold DgCube.InCell3 DgCube.image InCell edgeAt
  simp only [exDgCube, show Int.toNat 2 = 2 from rfl]
  norm_num
  refine ⟨⟨?_, ?_⟩, ⟨?_, ?_⟩, ?_, ?_⟩ <;> linarith [h1.1, h1.2, h2.1, h2.2, h3.1, h3.2]

/-- C80 does not hold for arrays in the layout of `x3d`: for the cube `[0, 2]³` with two cells along each axis and
two shells inside the cell with `x` in `[1, 2)`, `y` and `z` in `[0, 1)`, whatever the HEALPix pixels are, the
array `x3d` of the `x` coordinates of the cells has the value `x3d[0, 1, 0] = 3/2` in that cell, but all
remapped values are `1/2`. -/
theorem C80_violated (hp : DgCube.Hp) (hhp : DgCube.HpOk hp exDgShell) (s : DgCube.State) :
    ∃ gr out s', (DgCube.setupCube exDgCube s).2.cube = some gr ∧ gr.x3d.get 0 1 0 = .ok (3/2) ∧
      DgCube.dgRemap hp exDgCube exDgShell ⟨gr.x3d.n0, gr.x3d.n1, gr.x3d.n2, fun i j k => some (gr.x3d.val i j k)⟩ s
        = (.ok out, s') ∧
      ∀ i p, i < 2 → p < 12 → out.val i p = some (1/2) ∧
        ∀ k q, k < 2 → q ∈ DgCube.subpix hp exDgShell p →
          DgCube.InCell3 exDgCube (DgCube.densePoint hp exDgShell (i*2 + k) q) 1 0 0 := by
  have hmid : ∀ j, j < 2 → exDgCube.grid.xmid.getD j 0 = j + 1/2 := by
    intro j hj
    show (mids (linspace 0 2 (2 + 1))).getD j 0 = _
    rw [mids_getD _ _ _ _ hj]
    unfold midAt edgeAt
    push_cast
    ring
  have hl : exDgCube.grid.ymid.length = 2 := length_mids_linspace _ _ _
  have hl2 : exDgCube.grid.xmid.length = 2 := length_mids_linspace _ _ _
  have hl3 : exDgCube.grid.zmid.length = 2 := length_mids_linspace _ _ _
  have hf : DgCube.Holds exDgCube ⟨exDgCube.grid.x3d.n0, exDgCube.grid.x3d.n1, exDgCube.grid.x3d.n2, fun i j k =>
      some (exDgCube.grid.x3d.val i j k)⟩ (fun _ b _ => (b:ℝ) + 1/2) := by
    refine ⟨hl, hl2, hl3, ?_⟩
    intro a b c ha hb hc
    refine ⟨?_, ?_⟩
    · show some (exDgCube.grid.xmid.getD b 0) = _
      rw [hmid b hb]
    · unfold DgCube.isBad unseen
      have : (0:ℝ) ≤ b := by positivity
      rw [not_le, abs_of_pos (by linarith : (0:ℝ) < (b:ℝ) + 1/2 - (-1.6375e30)), abs_of_neg (by norm_num : (-1.6375e30:ℝ) < 0)]
      linarith
  obtain ⟨out, s', e, h1, h2, h⟩ := C80_remap_partial hp exDgCube exDgShell exDgCube_ok exDgShell_ok hhp _ _ hf s
  refine ⟨exDgCube.grid, out, s', ?_, ?_, e, ?_⟩
  · rw [DgCube.setupCube_ok exDgCube_ok]
  · unfold Arr3.get
    rw [if_pos]
    · show Except.ok (exDgCube.grid.xmid.getD 1 0) = _
      rw [hmid 1 (by norm_num)]
      norm_num
    · show 0 < exDgCube.grid.ymid.length ∧ 1 < exDgCube.grid.xmid.length ∧ 0 < exDgCube.grid.zmid.length
      rw [hl, hl2, hl3]
      norm_num
  · intro i p hi hp'
    have himg : ∀ pt, DgCube.image exDgCube (0, 0, 0) pt = pt := by
      intro pt
      simp [DgCube.image]
    refine ⟨?_, fun k q hk hq => ?_⟩
    · rw [h i p hi hp' (fun _ _ => 1/2), pixelMean_const hp exDgShell_ok i p (1/2) _ (hhp p hp').1 fun _ _ _ _ => rfl]
      intro k q hk hq
      have hc := exDgShell_cell hp (k := i*2 + k) (by have : k < 2 := hk; omega) q
      obtain ⟨g, hg⟩ := DgCube.exists_reads exDgCube_ok exDgShell (fun _ b _ => (b:ℝ) + 1/2)
        (DgCube.densePoint hp exDgShell (i*2 + k) q)
      have : g = 1/2 := by
        rw [hg.1 _ _ _ _ hc.1 hc.2]
        norm_num
      rw [this] at hg
      exact hg
    · have := (exDgShell_cell hp (k := i*2 + k) (by omega) q).2
      rwa [himg] at this

/-- Subpixels as in the nested numbering, and any directions. -/
def exHp (dir : ℕ → ℝ × ℝ) : DgCube.Hp := ⟨fun _ => dir, fun _ _ p => [4*p, 4*p + 1, 4*p + 2, 4*p + 3]⟩

theorem exHp_ok (dir : ℕ → ℝ × ℝ) : DgCube.HpOk (exHp dir) exDgShell := by
  intro p hp
  have hp' : p < 12 := hp
  refine ⟨by simp [exHp], fun q hq => ?_⟩
  show q < 48
  simp only [exHp, List.mem_cons, List.not_mem_nil, or_false] at hq
  omega

/-- The hypotheses of `C80_remap_partial` and `C80_violated` are met. -/
example (dir : ℕ → ℝ × ℝ) : CubeOk exDgCube ∧ DgCube.ShellOk exDgShell ∧ DgCube.HpOk (exHp dir) exDgShell ∧
    DgCube.Holds exDgCube ⟨2, 2, 2, fun _ _ _ => some 0⟩ (fun _ _ _ => 0) :=
  ⟨exDgCube_ok, exDgShell_ok, exHp_ok dir, rfl, rfl, rfl, fun _ _ _ _ _ _ => ⟨rfl, DgCube.zero_good⟩⟩

/-- The hypotheses of `C80_violated_shape` are met: with two cells along `x` and one along `y`, the dense points
are in the cell with index 1 along `x`. -/
example (dir : ℕ → ℝ × ℝ) : ∃ C : CubeArgs, CubeOk C ∧ C.numy.toNat ≤ 1 ∧
    DgCube.InCell3 C (DgCube.image C (0, 0, 0) (DgCube.densePoint (exHp dir) exDgShell 0 0)) 1 0 0 := by
  refine ⟨⟨0, 2, 2, 0, 2, 1, 0, 2, 2⟩, by constructor <;> norm_num, by norm_num, ?_⟩
  obtain ⟨h1, h2, h3⟩ := (exDgShell_cell (exHp dir) (k := 0) (by norm_num) 0).2
  refine ⟨h1, ?_, h3⟩
  have := DgCube.inCell_range (lo := 0) (hi := 2) (by norm_num) (n := 2) (by norm_num) h2
  unfold InCell edgeAt
  simp only [DgCube.image, exDgCube, show Int.toNat 1 = 1 from rfl] at this ⊢
  norm_num at this ⊢
  exact this

/-! ## C81 -/

/-- C81 for `setup_polar` after `setup_cube`: it succeeds exactly if the assertions hold and there are at least two
shells. Missing: a single shell, see `C81_dgshell_violated`. -/
theorem C81_dgshell_partial (C : CubeArgs) (hC : CubeOk C) (A : DgCube.ShellArgs) (s : DgCube.State)
    (hs : s.cube = some C.grid) : (DgCube.setupPolar A s).1 = .ok () ↔ DgCube.ShellOk A := by
  obtain ⟨cs, ecs, -⟩ := DgCube.mkCenters_ok hC A
  constructor
  · intro h
    unfold DgCube.setupPolar at h
    simp only [Meth.bind_apply, Meth.lift_apply, Meth.assign_apply, Meth.self_apply] at h
    cases hc : DgCube.shellChecks A with
    | error e => rw [hc] at h; cases h
    | ok u =>
      obtain ⟨h1, h2, h3, h4, h5, h6, h7⟩ := (DgCube.shellChecks_iff A).mp hc
      refine ⟨h1, h2, ?_, h4, h5, h6, h7⟩
      by_contra hn
      have e1 : A.numr.toNat = 1 := by omega
      rw [hc, e1, firstDiff_mids_one] at h
      cases h
  · intro hA
    have h3 := hA.numr
    have e1 : firstDiff (mids (linspace A.rmin A.rmax (A.numr.toNat + 1))) = _ :=
      firstDiff_mids A.rmin A.rmax A.numr.toNat (by omega)
    have e2 := DgCube.shellChecks_ok hA.rmin hA.r (by omega) hA.center hA.rebinShell hA.nside hA.rebinR
    unfold DgCube.setupPolar
    simp only [Meth.bind_apply, Meth.lift_apply, Meth.assign_apply, Meth.self_apply, e1, e2, hs, ecs]

/-- C81 does not hold: `IndexError` for a single shell. -/
theorem C81_dgshell_violated (A : DgCube.ShellArgs) (s : DgCube.State) (h1 : 0 ≤ A.rmin) (h2 : A.rmin < A.rmax)
    (h3 : A.numr = 1) (h4 : A.center.length = 3) (h5 : 1 ≤ A.rebinShell) (h6 : 0 < A.nside) (h7 : 1 ≤ A.rebinR) :
    (DgCube.setupPolar A s).1 = .error .indexError := by
  have e1 : A.numr.toNat = 1 := by omega
  unfold DgCube.setupPolar
  simp only [Meth.bind_apply, Meth.lift_apply, Meth.assign_apply, Meth.self_apply,
    DgCube.shellChecks_ok h1 h2 (by omega) h4 h5 h6 h7, e1, firstDiff_mids_one]

end Magpie.Props
