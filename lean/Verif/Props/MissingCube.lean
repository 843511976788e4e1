import Verif.Proof.MissingCube
import Verif.Props.DgCube2Shell
import Verif.Props.McCube2Shell
import Verif.Props.McReads

/-!
# Property C137: a missing voxel never turns into a number

The definitions are in `Verif/Spec/MissingCube.lean`; `densePoint`, `pixelMean` and `Reads` in
`Verif/Spec/DgCube2Shell.lean`, `points`, `Samples` and `InVoxel` in `Verif/Spec/McCube2Shell.lean`.
-/

set_option linter.unusedSimpArgs false
set_option linter.unusedVariables false
set_option linter.unusedSectionVars false

namespace Magpie.Props
open Magpie Magpie.Radial Magpie.OneD Magpie.Spec Magpie.Cube Magpie.Missing
open Magpie.McCube (CubeOk)

/-! ### Monte Carlo -/

section
open Magpie.McCube Magpie.Healpix
variable (C : CubeArgs) (G : Shells) (hC : CubeOk C) (hG : G.Ok) (n : ℕ) (hn : 0 < n)
  (draws : ℕ → ℕ → Draw) (hd : ∀ i j, i < G.numr → j < G.npix → McCube.Draws n (draws i j))
  (dirs : ℕ → ℕ → List (ℝ × ℝ)) (hs : Samples G draws dirs)
include hC hG hn hd hs

/-- C137, Monte Carlo: a pixel is missing if one of its random points is in a voxel with a missing value. Otherwise
it is the mean of the values at its random points, or the marker for an unseen pixel if none is in the cube. -/
theorem C137_mc (f : Arr3 (Option ℝ)) (hf : Fits C f) (w : Option (Arr3 ℝ)) (hw : ∀ t, w = some t → Fits C t)
    (s s' : McCube.State) (out : Arr2 (Option ℝ)) (ho : McCube.mcRemap C G n draws f w s = (.ok out, s')) :
    ∀ i j, i < G.numr → j < G.npix →
      ((∃ pt ∈ G.points i (draws i j).ur (dirs i j), InHoleVoxel C f pt) → out.val i j = none) ∧
      ((∀ pt ∈ G.points i (draws i j).ur (dirs i j), ¬ InHoleVoxel C f pt) →
        (∀ g, List.Forall₂ (McCube.Reads C (filled3 f)) (G.points i (draws i j).ur (dirs i j)) g → w = none →
          out.val i j = some (meanOrUnseen (g.filterMap id))) ∧
        (∀ g t, List.Forall₂ (McCube.Reads C fun b a c => (t.val b a c, filled3 f b a c))
            (G.points i (draws i j).ur (dirs i j)) g → w = some t →
          out.val i j = wmeanOrUnseen (g.filterMap id))) := by
  intro i j hi hj
  obtain ⟨h1, h2⟩ := mc3_opt hC hG hn draws hd dirs hs f hf w hw ho hi hj
  refine ⟨h1, fun hno => ?_⟩
  rw [h2 hno]
  exact valueAt_reads hC w _ _

/-- C137, Monte Carlo: missing values do not make `remap` raise. It returns for all data if in every shell two pixels
touch different numbers of voxels (see C84 for other draws). -/
theorem C137_mc_returns (hdiff : McCube.RowsDiffer C G draws dirs) (f : Arr3 (Option ℝ)) (hf : Fits C f)
    (w : Option (Arr3 ℝ)) (hw : ∀ t, w = some t → Fits C t) (s : McCube.State) :
    ∃ out s', McCube.mcRemap C G n draws f w s = (.ok out, s') ∧ out.rows = G.numr ∧ out.cols = G.npix := by
  obtain ⟨hits, hh, s', e⟩ := McCube.mcRemap_run hC hG draws hd dirs hs f w s
  unfold McCube.lens at e
  rw [Mc.pack_table_differ (Shells.npix_pos hG) hdiff] at e
  simp only at e
  have hpix : ∀ i j, ∃ x, i < G.numr → j < G.npix → McCube.remapPixel ⟨hits, false⟩ f w i j = .ok x := by
    intro i j
    by_cases hij : i < G.numr ∧ j < G.npix
    · unfold McCube.remapPixel
      simp only
      rw [hh i j hij.1 hij.2]
      cases w with
      | none =>
        simp only [McCube.readHits_ok n _ f hf]
        split_ifs
        · exact ⟨_, fun _ _ => rfl⟩
        · exact ⟨_, fun _ _ => rfl⟩
      | some t =>
        simp only [McCube.readHits_ok n _ f hf, McCube.readHits_ok n _ t (hw t rfl)]
        split_ifs
        · exact ⟨_, fun _ _ => rfl⟩
        · exact ⟨_, fun _ _ => rfl⟩
    · exact ⟨none, fun h1 h2 => absurd ⟨h1, h2⟩ hij⟩
  choose x hx using hpix
  obtain ⟨out, ho, hr, hc, -⟩ := Box2Ring.tabulate_ok G.numr G.npix (McCube.remapPixel ⟨hits, false⟩ f w) x none hx
  exact ⟨out, s' false, by rw [e, ho], hr, hc⟩

end

/-- The hypotheses of `C137_mc` and `C137_mc_returns` are met, and some pixels are missing: `exCube` with no value at
all. -/
example (s : McCube.State) : ∃ out s', McCube.mcRemap exCube (.lin exShell) 2 exDraw
      ⟨exCube.numy.toNat, exCube.numx.toNat, exCube.numz.toNat, fun _ _ _ => none⟩ none s = (.ok out, s') ∧
    ∀ i, i < 2 → ∃ j, j < 12 ∧ out.val i j = none := by
  obtain ⟨hC, hG, hd, dirs, hs, hdiff⟩ := exDraw_hyps
  obtain ⟨out, s', e, -, -⟩ := C137_mc_returns exCube (.lin exShell) hC hG 2 (by norm_num) exDraw (fun i j _ _ => hd i j)
    dirs hs hdiff ⟨exCube.numy.toNat, exCube.numx.toNat, exCube.numz.toNat, fun _ _ _ => none⟩ ⟨rfl, rfl, rfl⟩ none
    (by simp) s
  refine ⟨out, s', e, fun i hi => ?_⟩
  have hnum : (McCube.Shells.lin exShell).numr = 2 := by simp [McCube.Shells.numr, McCube.Shells.args, exShell]
  have hnp : (McCube.Shells.lin exShell).npix = 12 := by simp [McCube.Shells.npix, McCube.Shells.args, exShell]
  obtain ⟨j, k, hj, hk, hne⟩ := hdiff i (by rw [hnum]; exact hi)
  have key : ∀ j, j < (McCube.Shells.lin exShell).npix →
      McCube.touched exCube ((McCube.Shells.lin exShell).points i (exDraw i j).ur (dirs i j)) ≠ 0 →
      ∃ j, j < 12 ∧ out.val i j = none := by
    intro j hj h0
    obtain ⟨c, pt, hpt, hc⟩ := Set.nonempty_of_ncard_ne_zero h0
    exact ⟨j, hnp ▸ hj, ((C137_mc exCube (.lin exShell) hC hG 2 (by norm_num) exDraw (fun i j _ _ => hd i j) dirs hs _
      ⟨rfl, rfl, rfl⟩ none (by simp) s s' out e) i j (by rw [hnum]; exact hi) hj).1 ⟨pt, hpt, _, _, _, hc, rfl⟩⟩
  by_cases h0 : McCube.touched exCube ((McCube.Shells.lin exShell).points i (exDraw i j).ur (dirs i j)) = 0
  · exact key k hk fun h => hne (h0.trans h.symm)
  · exact key j hj h0

/-! ### Dense grid -/

section
open Magpie.DgCube
variable (hp : Hp) (C : CubeArgs) (A : DgCube.ShellArgs) (hC : CubeOk C) (hA : ShellOk A) (hhp : HpOk hp A)
include hC hA hhp

/-- C137, dense grid: with any missing values in the data `remap` returns, on an object with any history.
A pixel is missing if in one of its layers some, but not all, of the sample points are in cells with a missing value.
It is also missing if one sample point is, and there is one sample point per layer. In the remaining cases it is the
volume-weighted mean over its sample points, where a layer that is missing altogether counts with the value `UNSEEN`.

Partial: by C137 the pixel should be missing in that last case as well (see `C137_dense_violated`). -/
theorem C137_dense_partial (f : Arr3 (Option ℝ)) (hf : HoldsSome C f) (s : DgCube.State) :
    ∃ out s', dgRemap hp C A f s = (.ok out, s') ∧ out.rows = A.numr.toNat ∧ out.cols = npixOf A.nside ∧
      ∀ i p, i < A.numr.toNat → p < npixOf A.nside →
        ((∃ k, k < A.rebinR.toNat ∧
            (∃ q ∈ subpix hp A p, InHoleCell C A f (densePoint hp A (i*A.rebinR.toNat + k) q)) ∧
            ((∃ q ∈ subpix hp A p, ¬ InHoleCell C A f (densePoint hp A (i*A.rebinR.toNat + k) q)) ∨
              (subpix hp A p).length = 1)) →
          out.val i p = none) ∧
        (2 ≤ (subpix hp A p).length →
          (∀ k, k < A.rebinR.toNat →
            (∀ q ∈ subpix hp A p, InHoleCell C A f (densePoint hp A (i*A.rebinR.toNat + k) q)) ∨
            (∀ q ∈ subpix hp A p, ¬ InHoleCell C A f (densePoint hp A (i*A.rebinR.toNat + k) q))) →
          ∀ g : ℕ → ℕ → ℝ, (∀ k q, k < A.rebinR.toNat → q ∈ subpix hp A p →
            (InHoleCell C A f (densePoint hp A (i*A.rebinR.toNat + k) q) →
              g (i*A.rebinR.toNat + k) q = unseen) ∧
            (¬ InHoleCell C A f (densePoint hp A (i*A.rebinR.toNat + k) q) →
              DgCube.Reads C A (filled3 f) (densePoint hp A (i*A.rebinR.toNat + k) q) (g (i*A.rebinR.toNat + k) q))) →
          out.val i p = some (pixelMean hp A g i p)) ∧
        ((∀ k q, k < A.rebinR.toNat → q ∈ subpix hp A p →
            ¬ InHoleCell C A f (densePoint hp A (i*A.rebinR.toNat + k) q)) →
          ∀ g : ℕ → ℕ → ℝ, (∀ k q, k < A.rebinR.toNat → q ∈ subpix hp A p →
            DgCube.Reads C A (filled3 f) (densePoint hp A (i*A.rebinR.toNat + k) q) (g (i*A.rebinR.toNat + k) q)) →
          out.val i p = some (pixelMean hp A g i p)) := by
  obtain ⟨o, ho, out, s', e, h1, h2, h⟩ := dg3_opt hp hC hA hhp f hf s
  refine ⟨out, s', e, h1, h2, fun i p hi hp' => ?_⟩
  obtain ⟨ha, hb⟩ := h i p hi hp'
  have hne : subpix hp A p ≠ [] := (hhp p hp').1
  -- layers without missing values
  have hgood : ∀ k, k < A.rebinR.toNat →
      (∀ q ∈ subpix hp A p, ¬ InHoleCell C A f (densePoint hp A (i*A.rebinR.toNat + k) q)) →
      ∀ g : ℕ → ℕ → ℝ, (∀ q ∈ subpix hp A p,
        DgCube.Reads C A (filled3 f) (densePoint hp A (i*A.rebinR.toNat + k) q) (g (i*A.rebinR.toNat + k) q)) →
      udGrade ((subpix hp A p).map (o (i*A.rebinR.toNat + k)))
        = some (meanAt (subpix hp A p) (g (i*A.rebinR.toNat + k))) := by
    intro k hk hno g hg
    rw [List.map_congr_left fun q hq => readsO3_reads (ho _ q) (hno q hq) (hg q hq)]
    refine udGrade_ok _ hne _ fun q hq => ?_
    have := readsO3_reads (ho _ q) (hno q hq) (hg q hq)
    exact readsO3_good hf (this ▸ ho _ q)
  refine ⟨?_, ?_, ?_⟩
  · rintro ⟨k, hk, ⟨q, hq, hole⟩, hor⟩
    refine ha ⟨k, hk, ?_⟩
    have hnone : none ∈ (subpix hp A p).map (o (i*A.rebinR.toNat + k)) :=
      List.mem_map.mpr ⟨q, hq, (readsO3_none (ho _ q)).mpr hole⟩
    rcases hor with ⟨q', hq', hno⟩ | hl
    · cases hx : o (i*A.rebinR.toNat + k) q' with
      | none => exact absurd ((readsO3_none (ho _ q')).mp hx) hno
      | some x => exact udGrade_hole _ hnone x (List.mem_map.mpr ⟨q', hq', hx⟩) (readsO3_good hf (hx ▸ ho _ q'))
    · exact udGrade_one _ (by simpa using hl) hnone
  · intro hl hall g hg
    unfold pixelMean
    refine hb (fun k => meanAt (subpix hp A p) (g (i*A.rebinR.toNat + k))) fun k hk => ?_
    rcases hall k hk with hh | hno
    · rw [udGrade_all _ (by simpa using hl)]
      · congr 1
        unfold meanAt
        rw [List.map_congr_left (g := fun _ => unseen) fun q hq => (hg k q hk hq).1 (hh q hq)]
        rw [List.map_const', List.sum_replicate, nsmul_eq_mul, mul_div_cancel_left₀]
        exact_mod_cast (by omega : (subpix hp A p).length ≠ 0)
      · intro x hx
        obtain ⟨q, hq, rfl⟩ := List.mem_map.mp hx
        exact (readsO3_none (ho _ q)).mpr (hh q hq)
    · exact hgood k hk hno g fun q hq => (hg k q hk hq).2 (hno q hq)
  · intro hno g hg
    unfold pixelMean
    exact hb (fun k => meanAt (subpix hp A p) (g (i*A.rebinR.toNat + k))) fun k hk =>
      hgood k hk (fun q hq => hno k q hk hq) g fun q hq => hg k q hk hq

end

/-! ### Counterexample -/

/-- The cube `[-3, 3]³` with three cells along each axis. -/
noncomputable def exHoleCube : CubeArgs := ⟨-3, 3, 3, -3, 3, 3, -3, 3, 3⟩

theorem exHoleCube_ok : CubeOk exHoleCube := by constructor <;> norm_num [exHoleCube]

/-- A ball and a shell round the origin, each sampled in two layers. -/
noncomputable def exHoleShell : DgCube.ShellArgs :=
  { rmin := 0, rmax := 6, numr := 2, nside := 1, center := [0, 0, 0] }

theorem exHoleShell_ok : DgCube.ShellOk exHoleShell := by constructor <;> norm_num [exHoleShell]

/-- The value is missing in the middle cell and `0` in the other cells. -/
noncomputable def exHoleData : Arr3 (Option ℝ) :=
  ⟨3, 3, 3, fun a b c => if a = 1 ∧ b = 1 ∧ c = 1 then none else some 0⟩

theorem exHoleData_ok : HoldsSome exHoleCube exHoleData := by
  refine ⟨rfl, rfl, rfl, fun a b c _ _ _ x hx => ?_⟩
  simp only [exHoleData] at hx
  split_ifs at hx
  simp only [Option.some.injEq] at hx
  rw [← hx]
  exact DgCube.zero_good

theorem exHole_reads (pt : ℝ × ℝ × ℝ) : DgCube.Reads exHoleCube exHoleShell (filled3 exHoleData) pt 0 := by
  refine ⟨fun n a b c _ _ => ?_, fun _ => rfl⟩
  simp only [filled3, exHoleData]
  split_ifs <;> rfl

/-- The inner layer is in the middle cell, the outer layer of the ball is not. -/
theorem exHole_layer (hp : DgCube.Hp) (q : ℕ) :
    InHoleCell exHoleCube exHoleShell exHoleData (DgCube.densePoint hp exHoleShell 0 q) ∧
    ¬ InHoleCell exHoleCube exHoleShell exHoleData (DgCube.densePoint hp exHoleShell 1 q) := by
  have hnum : DgCube.denseNum exHoleShell = 4 := rfl
  have m0 : midAt (0:ℝ) 6 4 0 = 3/4 := by unfold midAt edgeAt; norm_num
  have m1 : midAt (0:ℝ) 6 4 1 = 9/4 := by unfold midAt edgeAt; norm_num
  set th := (hp.pix2ang (exHoleShell.nside*exHoleShell.rebinShell) q).1 with hth
  set ph := (hp.pix2ang (exHoleShell.nside*exHoleShell.rebinShell) q).2 with hph
  have e : ∀ k, DgCube.densePoint hp exHoleShell k q = (midAt 0 6 4 k*(Real.sin th*Real.cos ph),
      midAt 0 6 4 k*(Real.sin th*Real.sin ph), midAt 0 6 4 k*Real.cos th) := by
    intro k
    unfold DgCube.densePoint
    rw [hnum]
    simp only [exHoleShell, List.getD_cons_zero, List.getD_cons_succ, zero_add]
    rw [mul_assoc, mul_assoc]
    rfl
  have hunit : (Real.sin th*Real.cos ph)^2 + (Real.sin th*Real.sin ph)^2 + Real.cos th^2 = 1 := by
    have h1 := Real.sin_sq_add_cos_sq th
    have h2 := Real.sin_sq_add_cos_sq ph
    calc _ = Real.sin th^2*(Real.sin ph^2 + Real.cos ph^2) + Real.cos th^2 := by ring
      _ = 1 := by rw [h2]; linarith
  generalize Real.sin th*Real.cos ph = x at *
  generalize Real.sin th*Real.sin ph = y at *
  generalize Real.cos th = z at *
  rw [e, e, m0, m1]
  constructor
  · refine ⟨(0, 0, 0), 1, 1, 1, by simp [DgCube.InRange, exHoleShell], ?_, by simp [exHoleData]⟩
    have hx : |x| ≤ 1 := abs_le_of_sq_le_sq' (by nlinarith [sq_nonneg y, sq_nonneg z]) (by norm_num) |> abs_le.mpr
    have hy : |y| ≤ 1 := abs_le_of_sq_le_sq' (by nlinarith [sq_nonneg x, sq_nonneg z]) (by norm_num) |> abs_le.mpr
    have hz : |z| ≤ 1 := abs_le_of_sq_le_sq' (by nlinarith [sq_nonneg y, sq_nonneg x]) (by norm_num) |> abs_le.mpr
    rw [abs_le] at hx hy hz
    unfold DgCube.InCell3 DgCube.image Spec.InCell edgeAt
    simp only [exHoleCube, show Int.toNat 3 = 3 from rfl]
    norm_num
    refine ⟨⟨?_, ?_⟩, ⟨?_, ?_⟩, ?_, ?_⟩ <;> linarith [hx.1, hx.2, hy.1, hy.2, hz.1, hz.2]
  · rintro ⟨n, a, b, c, hn, hc, hnone⟩
    have hn0 : n = (0, 0, 0) := by
      obtain ⟨⟨h1, h2⟩, ⟨h3, h4⟩, h5, h6⟩ := hn
      simp only [exHoleShell] at h1 h2 h3 h4 h5 h6
      obtain ⟨n1, n2, n3⟩ := n
      simp only [Prod.mk.injEq]
      simp only at h1 h2 h3 h4 h5 h6
      omega
    subst hn0
    simp only [exHoleData] at hnone
    split_ifs at hnone with h1
    obtain ⟨rfl, rfl, rfl⟩ := h1
    unfold DgCube.InCell3 DgCube.image Spec.InCell edgeAt at hc
    simp only [exHoleCube, show Int.toNat 3 = 3 from rfl] at hc
    norm_num at hc
    obtain ⟨⟨x1, x2⟩, ⟨y1, y2⟩, z1, z2⟩ := hc
    have bx : (9/4*x)^2 ≤ 1 := by nlinarith
    have bY : (9/4*y)^2 ≤ 1 := by nlinarith
    have bz : (9/4*z)^2 ≤ 1 := by nlinarith
    nlinarith

/-- C137 does not hold for the dense grid: in the cube `[-3, 3]³` with three cells along each axis the value is missing
in the middle cell, which contains the origin, and `0` in the other cells. In the ball of radius 3 round the origin,
whatever the HEALPix pixels are, as long as each has at least two subpixels, all pixels of the map are the same number
`-2.046875e29`. It is not missing, it is not healpy's marker for an unseen pixel, and no value of the data is near it. -/
theorem C137_dense_violated (hp : DgCube.Hp) (hhp : DgCube.HpOk hp exHoleShell)
    (h2 : ∀ p, p < 12 → 2 ≤ (DgCube.subpix hp exHoleShell p).length) (s : DgCube.State) :
    ∃ out s', DgCube.dgRemap hp exHoleCube exHoleShell exHoleData s = (.ok out, s') ∧
      ∀ p, p < 12 → out.val 0 p = some (-2.046875e29) ∧ ¬ DgCube.isBad (-2.046875e29) ∧
        (∃ q ∈ DgCube.subpix hp exHoleShell p,
          InHoleCell exHoleCube exHoleShell exHoleData (DgCube.densePoint hp exHoleShell 0 q)) := by
  obtain ⟨out, s', e, -, -, h⟩ := C137_dense_partial hp exHoleCube exHoleShell exHoleCube_ok exHoleShell_ok hhp exHoleData
    exHoleData_ok s
  have hm : exHoleShell.rebinR.toNat = 2 := rfl
  refine ⟨out, s', e, fun p hp' => ?_⟩
  have hne : DgCube.subpix hp exHoleShell p ≠ [] := (hhp p hp').1
  refine ⟨?_, ?_, ?_⟩
  · obtain ⟨-, hb, -⟩ := h 0 p (by show 0 < 2; norm_num) hp'
    rw [hb (h2 p hp') ?_ (fun k _ => if k = 0 then unseen else 0)]
    · unfold DgCube.pixelMean
      have hu : ∀ c : ℝ, DgCube.meanAt (DgCube.subpix hp exHoleShell p) (fun _ => c) = c := by
        intro c
        unfold DgCube.meanAt
        rw [List.map_const', List.sum_replicate, nsmul_eq_mul, mul_div_cancel_left₀]
        exact_mod_cast fun h => hne (List.length_eq_zero_iff.mp h)
      rw [hm, Finset.sum_range_succ, Finset.sum_range_one, Finset.sum_range_succ, Finset.sum_range_one]
      have v0 : DgCube.denseVol exHoleShell 0 = 4/3*Real.pi*(27/8) := by
        unfold DgCube.denseVol edgeAt
        rw [show DgCube.denseNum exHoleShell = 4 from rfl]
        norm_num [exHoleShell]
      have v1 : DgCube.denseVol exHoleShell 1 = 4/3*Real.pi*(189/8) := by
        unfold DgCube.denseVol edgeAt
        rw [show DgCube.denseNum exHoleShell = 4 from rfl]
        norm_num [exHoleShell]
      simp only [zero_mul, zero_add, v0, v1, if_true, one_ne_zero, if_false, hu]
      congr 1
      have := Real.pi_pos.ne'
      unfold unseen
      field_simp
      norm_num
    · intro k q hk hq
      have hk' : k = 0 ∨ k = 1 := by have : k < 2 := hk; omega
      simp only [zero_mul, zero_add]
      rcases hk' with rfl | rfl
      · exact ⟨fun _ => rfl, fun hno => absurd (exHole_layer hp q).1 hno⟩
      · exact ⟨fun hh => absurd hh (exHole_layer hp q).2, fun _ => exHole_reads _⟩
    · intro k hk
      have hk' : k = 0 ∨ k = 1 := by have : k < 2 := hk; omega
      simp only [zero_mul, zero_add]
      rcases hk' with rfl | rfl
      · exact Or.inl fun q _ => (exHole_layer hp q).1
      · exact Or.inr fun q _ => (exHole_layer hp q).2
  · unfold DgCube.isBad unseen
    rw [not_le, abs_of_pos (by norm_num : (0:ℝ) < -2.046875e29 - -1.6375e30),
      abs_of_neg (by norm_num : (-1.6375e30:ℝ) < 0)]
    norm_num
  · obtain ⟨q, hq⟩ := List.exists_mem_of_ne_nil _ hne
    exact ⟨q, hq, (exHole_layer hp q).1⟩

/-- The hypotheses of `C137_dense_partial` and `C137_dense_violated` are met. -/
example (dir : ℕ → ℝ × ℝ) : CubeOk exHoleCube ∧ DgCube.ShellOk exHoleShell ∧ DgCube.HpOk (exHp dir) exHoleShell ∧
    HoldsSome exHoleCube exHoleData ∧ ∀ p, p < 12 → 2 ≤ (DgCube.subpix (exHp dir) exHoleShell p).length := by
  refine ⟨exHoleCube_ok, exHoleShell_ok, ?_, exHoleData_ok, fun p _ => by simp [DgCube.subpix, exHp]⟩
  intro p hp
  have hp' : p < 12 := hp
  refine ⟨by simp [exHp], fun q hq => ?_⟩
  show q < 48
  simp only [exHp, List.mem_cons, List.not_mem_nil, or_false] at hq
  omega

end Magpie.Props
