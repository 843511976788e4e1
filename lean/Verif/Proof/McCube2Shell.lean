import Verif.Spec.McCube2Shell
import Verif.Proof.McPack
import Verif.Props.HealpixRandoms

/-!
# Lemmas on the Monte Carlo `Cube2Shell` class
-/

set_option linter.unusedSimpArgs false
set_option linter.unusedVariables false
set_option linter.unusedSectionVars false

namespace Magpie.McCube
open Magpie Magpie.Radial Magpie.OneD Magpie.Spec Magpie.Box2Ring Magpie.Props Magpie.Randoms Magpie.Coords
open Magpie.Cube Magpie.Mc

/-! ## The shells -/

/-- A polar grid with the same radii. -/
noncomputable def Shells.flat : Shells → Mc.Grid
  | .lin A => .lin { rmin := A.rmin, rmax := A.rmax, numr := A.numr, nump := 2 }
  | .log A z => .log { rmin := A.rmin, rmax := A.rmax, numr := A.numr, nump := 2 } z

theorem Shells.flat_ok {G : Shells} (h : G.Ok) : G.flat.Ok := by
  have hpi := Real.pi_pos
  cases G with
  | lin A =>
    obtain ⟨h1, h2, h3, h4, h5⟩ := h
    refine ⟨⟨h1, h2, ?_, ?_, ?_, ?_, ?_, ?_, ?_, rfl⟩, h3, ?_⟩ <;> first | (simp; done) | (simp; linarith) | (simp; omega) | omega
  | log A z =>
    obtain ⟨h1, h2, h3, h4, h5⟩ := h
    refine ⟨h1, ⟨h1.le, h2, ?_, ?_, ?_, ?_, ?_, ?_, ?_, rfl⟩, ?_⟩ <;> first | (simp; done) | (simp; linarith) | (simp; omega) | omega

/-- The edges assigned by the set-up call. -/
noncomputable def Shells.redges : Shells → List ℝ
  | .lin A => linspace A.rmin A.rmax (A.numr.toNat + 1)
  | .log A z => logEdges A z

theorem Shells.redges_flat (G : Shells) : G.redges = G.flat.edges.redges := by
  cases G <;> rfl

theorem Shells.rEdge_flat (G : Shells) (i : ℕ) : G.rEdge i = G.flat.rEdge i := by
  cases G with
  | lin A => rfl
  | log A z =>
    cases z with
    | false => rfl
    | true => cases i <;> rfl

theorem Shells.numr_flat (G : Shells) : G.numr = G.flat.numr := by
  cases G <;> rfl

theorem Shells.redges_length (G : Shells) : G.redges.length = G.numr + 1 := by
  rw [G.redges_flat, G.numr_flat]
  exact G.flat.redges_length

theorem Shells.rmid_length (G : Shells) : (mids G.redges).length = G.numr := by
  unfold mids
  simp [G.redges_length]

theorem Shells.redges_getD {G : Shells} (h : G.Ok) (i : ℕ) (hi : i ≤ G.numr) : G.redges.getD i 0 = G.rEdge i := by
  rw [G.redges_flat, G.rEdge_flat]
  exact Grid.redges_getD (Shells.flat_ok h) i (by rw [← G.numr_flat]; exact hi)

theorem Shells.rEdge_nonneg {G : Shells} (h : G.Ok) (i : ℕ) : 0 ≤ G.rEdge i := by
  rw [G.rEdge_flat]
  exact Grid.rEdge_nonneg (Shells.flat_ok h) i

theorem Shells.rEdge_mono {G : Shells} (h : G.Ok) (i : ℕ) : G.rEdge i ≤ G.rEdge (i+1) := by
  rw [G.rEdge_flat, G.rEdge_flat]
  exact Grid.rEdge_mono (Shells.flat_ok h) i

theorem Shells.numr_pos {G : Shells} (h : G.Ok) : 0 < G.numr := by
  rw [G.numr_flat]
  exact Grid.numr_pos (Shells.flat_ok h)

theorem Shells.nside_pos {G : Shells} (h : G.Ok) : 0 < G.args.nside := by
  cases G with
  | lin A => exact h.2.2.2.1
  | log A z => exact h.2.2.2.1

theorem Shells.npix_pos {G : Shells} (h : G.Ok) : 0 < G.npix := by
  have := G.nside_pos h
  have : 0 < G.args.nside.toNat := by omega
  unfold Shells.npix
  positivity

theorem Shells.validPix {G : Shells} (h : G.Ok) {j : ℕ} (hj : j < G.npix) : ValidPix G.args.nside (j:ℤ) := by
  have h0 := G.nside_pos h
  unfold Shells.npix at hj
  have e : ((G.args.nside.toNat : ℕ) : ℤ) = G.args.nside := Int.toNat_of_nonneg h0.le
  refine ⟨by omega, ?_⟩
  have : (j:ℤ) < 12*(G.args.nside.toNat:ℤ)^2 := by exact_mod_cast hj
  rw [e] at this
  exact this

theorem Shells.nside2npix {G : Shells} (h : G.Ok) : Cube.nside2npix G.args.nside = .ok G.npix := by
  unfold Cube.nside2npix
  rw [if_pos (show isNsideOk _ from Shells.nside_pos h)]
  rfl

theorem Shells.setup_run {G : Shells} (h : G.Ok) (s : State) : ∃ s', G.setup s = (.ok (), s') ∧
    s'.edges = some (G.redges, mids G.redges) ∧ s'.shell = some ⟨G.args.nside, center3 G.args.center⟩ ∧
    s'.cube = s.cube := by
  cases G with
  | lin A =>
    obtain ⟨h1, h2, h3, h4, h5⟩ := h
    have e1 : firstDiff (mids (linspace A.rmin A.rmax (A.numr.toNat + 1))) = _ :=
      firstDiff_mids A.rmin A.rmax A.numr.toNat (by omega)
    have h6 : A.numr > 0 := by omega
    unfold Shells.setup setupPolarLin shellChecks
    simp only [Meth.bind_apply, Meth.lift_apply, Meth.assign_apply, bind, Except.bind, pyAssert, ge_iff_le, h1, h2,
      h5, h6, if_true, gt_iff_lt, e1]
    exact ⟨_, rfl, rfl, rfl, rfl⟩
  | log A z =>
    obtain ⟨h1, h2, h3, h4, h5⟩ := h
    have h6 : A.numr > 0 := by omega
    unfold Shells.setup setupPolarLog shellChecks
    simp only [Meth.bind_apply, Meth.lift_apply, Meth.assign_apply, bind, Except.bind, pyAssert, ge_iff_le, h1, h2,
      h5, h6, if_true, gt_iff_lt]
    exact ⟨_, rfl, rfl, rfl, rfl⟩

theorem setupCube_ok {C : CubeArgs} (h : CubeOk C) (s : State) :
    setupCube C s = (.ok (), { s with cube := some C.grid }) := by
  have a := h.numx
  have b := h.numy
  have c := h.numz
  unfold setupCube Cube.setupCube
  simp only [Meth.bind_apply, Meth.lift_apply, Meth.assign_apply, bind, Except.bind, pyAssert, gt_iff_lt, a, b, if_true]
  rw [if_neg (by omega), if_neg (by omega)]
  rfl

/-! ## The random points -/

theorem exists_dirs {G : Shells} (h : G.Ok) {n : ℕ} (draws : ℕ → ℕ → Draw)
    (hd : ∀ i j, i < G.numr → j < G.npix → Draws n (draws i j)) :
    ∃ dirs, Samples G draws dirs ∧ ∀ i j, i < G.numr → j < G.npix → (dirs i j).length = n := by
  have key : ∀ i j, ∃ l : List (ℝ × ℝ), i < G.numr → j < G.npix →
      Randoms.randomsHealpixPixel (draws i j).ux (draws i j).uy j G.args.nside
        = .ok (l.map fun s => some s.1, l.map fun s => some s.2) ∧ l.length = n := by
    intro i j
    by_cases hij : i < G.numr ∧ j < G.npix
    · obtain ⟨⟨l1, b1⟩, ⟨l2, b2⟩, -⟩ := hd i j hij.1 hij.2
      obtain ⟨xp, yp, sky, -, e, hl, -⟩ := C13_sky G.args.nside j (by have := G.nside_pos h; omega)
        (Shells.validPix h hij.2) ((draws i j).ux.zip (draws i j).uy)
        (fun r hr => ⟨b1 _ (List.of_mem_zip hr).1, b2 _ (List.of_mem_zip hr).2⟩)
      rw [List.map_fst_zip (by omega), List.map_snd_zip (by omega)] at e
      refine ⟨sky, fun _ _ => ⟨e, ?_⟩⟩
      rw [hl, List.length_zip, l1, l2, min_self]
    · exact ⟨[], fun a b => absurd ⟨a, b⟩ hij⟩
  choose dirs hdirs using key
  exact ⟨dirs, fun i j hi hj => (hdirs i j hi hj).1, fun i j hi hj => (hdirs i j hi hj).2⟩

theorem randomPoints_eq {G : Shells} (h : G.Ok) {i j : ℕ} (hi : i < G.numr) (hj : j < G.npix) {n : ℕ}
    {draws : ℕ → ℕ → Draw} (hd : Draws n (draws i j)) {dirs : ℕ → ℕ → List (ℝ × ℝ)} (hs : Samples G draws dirs) :
    randomPoints (G.redges.getD i 0) (G.redges.getD (i+1) 0) j ⟨G.args.nside, center3 G.args.center⟩
      (draws i j).ux (draws i j).uy (draws i j).ur = .ok ((G.points i (draws i j).ur (dirs i j)).map some) := by
  obtain ⟨-, -, -, hr⟩ := hd
  rw [Shells.redges_getD h i hi.le, Shells.redges_getD h (i+1) hi]
  unfold randomPoints
  simp only [hs i j hi hj, bind, Except.bind, pure, Except.pure, Except.ok.injEq]
  unfold randomsSphereR Shells.points
  generalize dirs i j = ds at *
  generalize (draws i j).ur = ur at *
  have h0 := Shells.rEdge_nonneg h i
  have h1 := Shells.rEdge_mono h i
  induction ur generalizing ds with
  | nil => rfl
  | cons u ur ih =>
    cases ds with
    | nil => rfl
    | cons d ds =>
      have hu := hr u (List.mem_cons_self ..)
      have h5 : 0 ≤ (G.rEdge (i+1)^3 - G.rEdge i^3)*u + G.rEdge i^3 := by
        have := pow_le_pow_left₀ h0 h1 3
        have := mul_nonneg (sub_nonneg.mpr this) hu.1
        positivity
      simp only [List.map_cons, List.zip_cons_cons, List.zipWith_cons_cons]
      rw [ih ds fun x hx => hr x (List.mem_cons_of_mem _ hx)]
      congr 1
      rw [npCbrt, if_pos h5]
      simp only [Option.some.injEq]
      unfold sphere2cart Shells.point center3
      simp only
      have e1 : (G.rEdge (i+1)^3 - G.rEdge i^3)*u + G.rEdge i^3
        = G.rEdge i^3 + u*(G.rEdge (i+1)^3 - G.rEdge i^3) := by ring
      rw [e1]
      refine Prod.ext ?_ (Prod.ext ?_ ?_)
      · simp only; ring
      · simp only; ring
      · rfl

/-! ## The hits of a pixel -/

/-- The edges of the histograms. -/
noncomputable def hX (C : CubeArgs) : List ℝ := linspace C.xmin C.xmax (C.numx.toNat + 1)
noncomputable def hY (C : CubeArgs) : List ℝ := linspace C.ymin C.ymax (C.numy.toNat + 1)
noncomputable def hZ (C : CubeArgs) : List ℝ := linspace C.zmin C.zmax (C.numz.toNat + 1)

theorem binOf_iff {C : CubeArgs} (hC : CubeOk C) (pt : ℝ × ℝ × ℝ) (a b c : ℕ) :
    binOf (hX C) (hY C) (hZ C) (some pt) = some (a, b, c) ↔ InVoxel C pt a b c := by
  have hx : 0 < C.numx.toNat := by have := hC.numx; omega
  have hy : 0 < C.numy.toNat := by have := hC.numy; omega
  have hz : 0 < C.numz.toNat := by have := hC.numz; omega
  unfold InVoxel
  rw [← histBin_iff hC.hx hx, ← histBin_iff hC.hy hy, ← histBin_iff hC.hz hz]
  unfold binOf hX hY hZ
  simp only
  cases histBin (linspace C.xmin C.xmax (C.numx.toNat + 1)) pt.1 <;>
    cases histBin (linspace C.ymin C.ymax (C.numy.toNat + 1)) pt.2.1 <;>
    cases histBin (linspace C.zmin C.zmax (C.numz.toNat + 1)) pt.2.2 <;> simp

/-- The bins of the points. -/
noncomputable def bins (C : CubeArgs) (pts : List (ℝ × ℝ × ℝ)) : List (Option (ℕ × ℕ × ℕ)) :=
  pts.map fun pt => binOf (hX C) (hY C) (hZ C) (some pt)

/-- The cells of the histogram. -/
def cells (C : CubeArgs) : List (ℕ × ℕ × ℕ) :=
  (List.range C.numx.toNat).flatMap fun a =>
    ((List.range C.numy.toNat).flatMap fun b => (List.range C.numz.toNat).map fun c => (b, c)).map fun bc => (a, bc)

theorem cells_nodup (C : CubeArgs) : (cells C).Nodup :=
  List.Nodup.product List.nodup_range (List.Nodup.product List.nodup_range List.nodup_range)

theorem mem_cells (C : CubeArgs) (c : ℕ × ℕ × ℕ) :
    c ∈ cells C ↔ c.1 < C.numx.toNat ∧ c.2.1 < C.numy.toNat ∧ c.2.2 < C.numz.toNat := by
  obtain ⟨a, b, c⟩ := c
  unfold cells
  simp

theorem mem_bins {C : CubeArgs} (hC : CubeOk C) (pts : List (ℝ × ℝ × ℝ)) (c : ℕ × ℕ × ℕ) :
    some c ∈ bins C pts ↔ ∃ pt ∈ pts, InVoxel C pt c.1 c.2.1 c.2.2 := by
  unfold bins
  simp only [List.mem_map]
  constructor
  · rintro ⟨pt, h1, h2⟩
    exact ⟨pt, h1, (binOf_iff hC pt c.1 c.2.1 c.2.2).mp h2⟩
  · rintro ⟨pt, h1, h2⟩
    exact ⟨pt, h1, (binOf_iff hC pt c.1 c.2.1 c.2.2).mpr h2⟩

theorem bins_cells {C : CubeArgs} (hC : CubeOk C) (pts : List (ℝ × ℝ × ℝ)) (c : ℕ × ℕ × ℕ) (h : some c ∈ bins C pts) :
    c ∈ cells C := by
  obtain ⟨pt, -, h1, h2, h3⟩ := (mem_bins hC pts c).mp h
  exact (mem_cells C c).mpr ⟨h1.1, h2.1, h3.1⟩

/-- The cells that are hit. -/
noncomputable def hitCells (C : CubeArgs) (pts : List (ℝ × ℝ × ℝ)) : List (ℕ × ℕ × ℕ) :=
  (cells C).filter fun c => decide (cnt (bins C pts) c ≠ 0)

theorem pixelHits_eq (C : CubeArgs) (n : ℕ) (pts : List (ℝ × ℝ × ℝ)) :
    pixelHits (hX C) (hY C) (hZ C) n (pts.map some)
      = (hitCells C pts).map fun c => ⟨c.2.1, c.1, c.2.2, (cnt (bins C pts) c : ℝ)/n⟩ := by
  have e : ∀ c, histCount (hX C) (hY C) (hZ C) (pts.map some) c = cnt (bins C pts) c := by
    intro c
    unfold histCount cnt bins
    rw [List.filter_map, List.length_map, List.filter_map, List.length_map]
    rfl
  unfold pixelHits hitCells cells
  simp only [e]
  rw [show (hX C).length - 1 = C.numx.toNat by unfold hX; rw [length_linspace]; rfl,
    show (hY C).length - 1 = C.numy.toNat by unfold hY; rw [length_linspace]; rfl,
    show (hZ C).length - 1 = C.numz.toNat by unfold hZ; rw [length_linspace]; rfl]

theorem length_hits {C : CubeArgs} (hC : CubeOk C) (n : ℕ) (pts : List (ℝ × ℝ × ℝ)) :
    (pixelHits (hX C) (hY C) (hZ C) n (pts.map some)).length = touched C pts := by
  rw [pixelHits_eq, List.length_map]
  unfold hitCells touched
  rw [length_hit_cells (cells C) (cells_nodup _) _ (bins_cells hC pts)]
  congr 1
  ext c
  exact mem_bins hC pts c

/-- The values read at the points that are in the cube. -/
theorem reads_bins {α : Type} {C : CubeArgs} (hC : CubeOk C) (v : ℕ → ℕ → ℕ → α) (pts : List (ℝ × ℝ × ℝ))
    (g : List (Option α)) (hg : List.Forall₂ (Reads C v) pts g) :
    g.filterMap id = ((bins C pts).filterMap id).map fun c => v c.2.1 c.1 c.2.2 := by
  unfold bins
  induction hg with
  | nil => rfl
  | @cons pt g pts gs h1 h2 ih =>
    rw [List.map_cons]
    cases hb : binOf (hX C) (hY C) (hZ C) (some pt) with
    | none =>
      have : g = none := h1.2 (by
        rintro ⟨a, b, c, hab⟩
        rw [(binOf_iff hC pt a b c).mpr hab] at hb
        cases hb)
      subst this
      rw [List.filterMap_cons_none rfl, List.filterMap_cons_none rfl]
      exact ih
    | some c =>
      have : g = some (v c.2.1 c.1 c.2.2) := h1.1 c.1 c.2.1 c.2.2 ((binOf_iff hC pt c.1 c.2.1 c.2.2).mp hb)
      subst this
      rw [List.filterMap_cons_some (rfl : id (some (v c.2.1 c.1 c.2.2)) = _),
        List.filterMap_cons_some (rfl : id (some c) = _), List.map_cons, ih]

theorem exists_reads {α : Type} {C : CubeArgs} (hC : CubeOk C) (v : ℕ → ℕ → ℕ → α) (pts : List (ℝ × ℝ × ℝ)) :
    ∃ g, List.Forall₂ (Reads C v) pts g := by
  induction pts with
  | nil => exact ⟨[], .nil⟩
  | cons pt pts ih =>
    obtain ⟨g, hg⟩ := ih
    by_cases h : ∃ a b c, InVoxel C pt a b c
    · obtain ⟨a, b, c, hab⟩ := h
      refine ⟨some (v b a c) :: g, .cons ⟨?_, fun hc => absurd ⟨a, b, c, hab⟩ hc⟩ hg⟩
      intro a' b' c' hab'
      rw [inBin_unique hC.hx hab.1 hab'.1, inBin_unique hC.hy hab.2.1 hab'.2.1,
        inBin_unique hC.hz hab.2.2 hab'.2.2]
    · exact ⟨none :: g, .cons ⟨fun a b c hab => absurd ⟨a, b, c, hab⟩ h, fun _ => rfl⟩ hg⟩

theorem hits_sum {C : CubeArgs} (hC : CubeOk C) (n : ℕ) (pts : List (ℝ × ℝ × ℝ)) (F : ℕ × ℕ × ℕ → ℝ) :
    ((hitCells C pts).map fun c => (cnt (bins C pts) c : ℝ)/n*F c).sum
      = (((bins C pts).filterMap id).map F).sum/n := by
  rw [← sum_hit_cells (cells C) (cells_nodup _) F _ (bins_cells hC pts), ← sum_div]
  congr 1
  apply List.map_congr_left
  intro c _
  ring

theorem hits_wsum {C : CubeArgs} (hC : CubeOk C) (n : ℕ) (pts : List (ℝ × ℝ × ℝ)) :
    ((pixelHits (hX C) (hY C) (hZ C) n (pts.map some)).map Hit.w).sum
      = (((bins C pts).filterMap id).length : ℝ)/n := by
  rw [pixelHits_eq, List.map_map]
  have := hits_sum hC n pts fun _ => 1
  simp only [mul_one, List.map_const', List.sum_replicate, nsmul_eq_mul] at this
  rw [← this]
  rfl

theorem readHits_ok {α : Type} {C : CubeArgs} (n : ℕ) (pts : List (ℝ × ℝ × ℝ)) (a : Arr3 α) (ha : Fits C a) :
    readHits false a (pixelHits (hX C) (hY C) (hZ C) n (pts.map some))
      = .ok ((hitCells C pts).map fun c => a.val c.2.1 c.1 c.2.2) := by
  unfold readHits
  rw [if_neg (by simp), pixelHits_eq, pyMap_ok _ (fun h => a.val h.ix h.iy h.iz)]
  · rw [List.map_map]; rfl
  · intro h hh
    obtain ⟨c, hc', rfl⟩ := List.mem_map.mp hh
    have hm : c ∈ cells C := (List.mem_filter.mp hc').1
    have := (mem_cells C c).mp hm
    obtain ⟨a1, a2, a3⟩ := ha
    unfold Arr3.get
    rw [if_pos ⟨by rw [a1]; exact this.2.1, by rw [a2]; exact this.1, by rw [a3]; exact this.2.2⟩]

theorem remapPixel_none {C : CubeArgs} (hC : CubeOk C) {n : ℕ} (hn : 0 < n) (pts : List (ℝ × ℝ × ℝ)) (wt : Weights)
    (i j : ℕ) (hw : wt.hits i j = pixelHits (hX C) (hY C) (hZ C) n (pts.map some)) (ho : wt.objIdx = false)
    (f : Arr3 (Option ℝ)) (v : ℕ → ℕ → ℕ → ℝ) (hf : Fits C f)
    (hv : ∀ i j k, i < f.n0 → j < f.n1 → k < f.n2 → f.val i j k = some (v i j k))
    (g : List (Option ℝ)) (hg : List.Forall₂ (Reads C v) pts g) :
    remapPixel wt f none i j = .ok (some (meanOrUnseen (g.filterMap id))) := by
  have hn' : (n:ℝ) ≠ 0 := by exact_mod_cast hn.ne'
  unfold remapPixel
  simp only
  rw [hw, ho, hits_wsum hC, reads_bins hC v pts g hg, readHits_ok n pts f hf]
  obtain ⟨a1, a2, a3⟩ := hf
  unfold meanOrUnseen
  by_cases h0 : (bins C pts).filterMap id = []
  · rw [h0]; simp
  · have hl : ((((bins C pts).filterMap id).length : ℕ) : ℝ) ≠ 0 := by
      exact_mod_cast fun h => h0 (List.length_eq_zero_iff.mp h)
    rw [if_pos (div_ne_zero hl hn')]
    simp only [bind, Except.bind, pure, Except.pure]
    rw [if_neg (by simpa using h0), pixelHits_eq, List.map_map, zipWith_map_same]
    have e : (hitCells C pts).map (fun c => omul (f.val c.2.1 c.1 c.2.2) (((Hit.w) ∘ fun c : ℕ × ℕ × ℕ =>
        (⟨c.2.1, c.1, c.2.2, (cnt (bins C pts) c : ℝ)/n⟩ : Hit)) c)) = ((hitCells C pts).map fun c =>
          (cnt (bins C pts) c : ℝ)/n*v c.2.1 c.1 c.2.2).map some := by
      rw [List.map_map]
      apply List.map_congr_left
      intro c hc
      have hm : c ∈ cells C := (List.mem_filter.mp hc).1
      have := (mem_cells C c).mp hm
      rw [hv _ _ _ (by rw [a1]; exact this.2.1) (by rw [a2]; exact this.1) (by rw [a3]; exact this.2.2)]
      simp [omul, mul_comm]
    rw [e, npSum_some, hits_sum hC n pts fun c => v c.2.1 c.1 c.2.2]
    unfold odiv fdiv
    simp only
    rw [if_neg (div_ne_zero hl hn'), div_div_div_cancel_right₀ hn', List.length_map]

theorem remapPixel_some {C : CubeArgs} (hC : CubeOk C) {n : ℕ} (hn : 0 < n) (pts : List (ℝ × ℝ × ℝ)) (wt : Weights)
    (i j : ℕ) (hw : wt.hits i j = pixelHits (hX C) (hY C) (hZ C) n (pts.map some)) (ho : wt.objIdx = false)
    (f : Arr3 (Option ℝ)) (v : ℕ → ℕ → ℕ → ℝ) (hf : Fits C f)
    (hv : ∀ i j k, i < f.n0 → j < f.n1 → k < f.n2 → f.val i j k = some (v i j k))
    (w : Arr3 ℝ) (hwf : Fits C w)
    (g : List (Option (ℝ × ℝ))) (hg : List.Forall₂ (Reads C fun b a c => (w.val b a c, v b a c)) pts g) :
    remapPixel wt f (some w) i j = .ok (wmeanOrUnseen (g.filterMap id)) := by
  have hn' : (n:ℝ) ≠ 0 := by exact_mod_cast hn.ne'
  unfold remapPixel
  simp only
  rw [hw, ho, hits_wsum hC, reads_bins hC _ pts g hg, readHits_ok n pts f hf, readHits_ok n pts w hwf]
  obtain ⟨a1, a2, a3⟩ := hf
  unfold wmeanOrUnseen wmean
  by_cases h0 : (bins C pts).filterMap id = []
  · rw [h0]; simp [fdiv]
  · have hl : ((((bins C pts).filterMap id).length : ℕ) : ℝ) ≠ 0 := by
      exact_mod_cast fun h => h0 (List.length_eq_zero_iff.mp h)
    rw [if_pos (div_ne_zero hl hn'), if_neg (by simpa using h0)]
    simp only [bind, Except.bind, pure, Except.pure]
    rw [pixelHits_eq, List.map_map, zipWith_map_same, zipWith_map_same]
    have e : (hitCells C pts).map (fun c => omul (f.val c.2.1 c.1 c.2.2) ((((Hit.w) ∘ fun c : ℕ × ℕ × ℕ =>
        (⟨c.2.1, c.1, c.2.2, (cnt (bins C pts) c : ℝ)/n⟩ : Hit)) c)*w.val c.2.1 c.1 c.2.2)) = ((hitCells C pts).map fun c =>
          (cnt (bins C pts) c : ℝ)/n*(w.val c.2.1 c.1 c.2.2*v c.2.1 c.1 c.2.2)).map some := by
      rw [List.map_map]
      apply List.map_congr_left
      intro c hc
      have hm : c ∈ cells C := (List.mem_filter.mp hc).1
      have := (mem_cells C c).mp hm
      rw [hv _ _ _ (by rw [a1]; exact this.2.1) (by rw [a2]; exact this.1) (by rw [a3]; exact this.2.2)]
      simp [omul]
      ring
    rw [e, npSum_some, hits_sum hC n pts fun c => w.val c.2.1 c.1 c.2.2*v c.2.1 c.1 c.2.2]
    have e2 := hits_sum hC n pts fun c => w.val c.2.1 c.1 c.2.2
    rw [show ((hitCells C pts).map fun c => ((Hit.w) ∘ fun c : ℕ × ℕ × ℕ =>
        (⟨c.2.1, c.1, c.2.2, (cnt (bins C pts) c : ℝ)/n⟩ : Hit)) c*w.val c.2.1 c.1 c.2.2).sum = _ from e2]
    unfold odiv fdiv
    simp only [List.map_map]
    by_cases hz : (((bins C pts).filterMap id).map fun c => w.val c.2.1 c.1 c.2.2).sum = 0
    · rw [if_pos (by rw [hz, zero_div]), if_pos (by exact hz)]
    · rw [if_neg (div_ne_zero hz hn'), if_neg (by exact hz), div_div_div_cancel_right₀ hn']
      rfl

/-! ## Sequences of calls -/

/-- The table of the numbers of voxels hit. -/
noncomputable def lens (C : CubeArgs) (G : Shells) (draws : ℕ → ℕ → Draw) (dirs : ℕ → ℕ → List (ℝ × ℝ)) :
    List (List ℕ) :=
  table G.numr G.npix fun i j => touched C (G.points i (draws i j).ur (dirs i j))

theorem getWeights_run {C : CubeArgs} {G : Shells} (hC : CubeOk C) (hG : G.Ok) {n : ℕ}
    (draws : ℕ → ℕ → Draw) (hd : ∀ i j, i < G.numr → j < G.npix → Draws n (draws i j))
    (dirs : ℕ → ℕ → List (ℝ × ℝ)) (hs : Samples G draws dirs) (s : State)
    (h1 : s.edges = some (G.redges, mids G.redges))
    (h2 : s.shell = some ⟨G.args.nside, center3 G.args.center⟩) (h3 : s.cube = some C.grid) :
    ∃ hits : ℕ → ℕ → List Hit, (∀ i j, i < G.numr → j < G.npix →
        hits i j = pixelHits (hX C) (hY C) (hZ C) n ((G.points i (draws i j).ur (dirs i j)).map some)) ∧
      getWeights n draws s = match pack (lens C G draws dirs) with
        | .error e => (.error e, s)
        | .ok o => (.ok (), { s with weights := some ⟨⟨hits, o⟩, G.numr, G.npix⟩ }) := by
  have hx : 0 < C.numx.toNat := by have := hC.numx; omega
  have hy : 0 < C.numy.toNat := by have := hC.numy; omega
  have hz : 0 < C.numz.toNat := by have := hC.numz; omega
  have ex : histEdges C.grid.xedges = .ok (hX C) := histEdges_ok hC.hx hx
  have ey : histEdges C.grid.yedges = .ok (hY C) := histEdges_ok hC.hy hy
  have ez : histEdges C.grid.zedges = .ok (hZ C) := histEdges_ok hC.hz hz
  obtain ⟨a, ha, hr, hc, hval⟩ := tabulate_ok G.numr G.npix (fun i j => do
    let d := draws i j
    let pts ← randomPoints (G.redges.getD i 0) (G.redges.getD (i+1) 0) j ⟨G.args.nside, center3 G.args.center⟩
      d.ux d.uy d.ur
    let hx ← histEdges C.grid.xedges
    let hy ← histEdges C.grid.yedges
    let hz ← histEdges C.grid.zedges
    return pixelHits hx hy hz n pts)
    (fun i j => pixelHits (hX C) (hY C) (hZ C) n ((G.points i (draws i j).ur (dirs i j)).map some)) [] (by
      intro i j hi hj
      simp only [randomPoints_eq hG hi hj (hd i j hi hj) hs, ex, ey, ez, bind, Except.bind, pure, Except.pure])
  refine ⟨a.val, hval, ?_⟩
  unfold getWeights
  simp only [Meth.bind_apply, Meth.lift_apply, Meth.self_apply, Meth.assign_apply, h1, h2, h3, need_some,
    Shells.nside2npix hG, G.rmid_length]
  rw [ha]
  simp only
  have el : ((List.range G.numr).map fun i => (List.range G.npix).map fun j => (a.val i j).length)
      = lens C G draws dirs := by
    unfold lens table
    apply List.map_congr_left
    intro i hi
    apply List.map_congr_left
    intro j hj
    rw [hval i j (List.mem_range.mp hi) (List.mem_range.mp hj), length_hits hC]
  rw [el]
  cases pack (lens C G draws dirs) with
  | error e => rfl
  | ok o => simp only [h1, h2, h3]

theorem remap_run {G : Shells} (hG : G.Ok) (s : State) (wt : Weights)
    (h1 : s.edges = some (G.redges, mids G.redges))
    (h2 : s.shell = some ⟨G.args.nside, center3 G.args.center⟩) (h4 : s.weights = some ⟨wt, G.numr, G.npix⟩)
    (f : Arr3 (Option ℝ)) (w : Option (Arr3 ℝ)) :
    remap f w s = (tabulate G.numr G.npix (remapPixel wt f w) none, s) := by
  have e0 : tabulate G.numr G.npix (storedPixel ⟨wt, G.numr, G.npix⟩ f w) none
      = tabulate G.numr G.npix (remapPixel wt f w) none :=
    tabulate_congr _ _ _ _ _ fun i j hi hj => by unfold storedPixel; rw [if_pos ⟨hi, hj⟩]
  rw [← e0]
  unfold remap
  simp only [Meth.bind_apply, Meth.self_apply, Meth.lift_apply, h1, h2, h4, need_some, Shells.nside2npix hG,
    G.rmid_length]

theorem mcRemap_run {C : CubeArgs} {G : Shells} (hC : CubeOk C) (hG : G.Ok) {n : ℕ}
    (draws : ℕ → ℕ → Draw) (hd : ∀ i j, i < G.numr → j < G.npix → Draws n (draws i j))
    (dirs : ℕ → ℕ → List (ℝ × ℝ)) (hs : Samples G draws dirs)
    (f : Arr3 (Option ℝ)) (w : Option (Arr3 ℝ)) (s : State) :
    ∃ hits : ℕ → ℕ → List Hit, (∀ i j, i < G.numr → j < G.npix →
        hits i j = pixelHits (hX C) (hY C) (hZ C) n ((G.points i (draws i j).ur (dirs i j)).map some)) ∧
      ∃ s' : Bool → State, mcRemap C G n draws f w s = match pack (lens C G draws dirs) with
        | .error e => (.error e, s' true)
        | .ok o => (tabulate G.numr G.npix (remapPixel ⟨hits, o⟩ f w) none, s' o) := by
  obtain ⟨s1, e1, h1, h2, h3⟩ := Shells.setup_run hG { s with cube := some C.grid }
  obtain ⟨hits, hh, e2⟩ := getWeights_run hC hG draws hd dirs hs s1 h1 h2 h3
  have e3 := fun o => remap_run hG { s1 with weights := some ⟨⟨hits, o⟩, G.numr, G.npix⟩ } ⟨hits, o⟩ h1 h2 rfl f w
  refine ⟨hits, hh, fun o => match pack (lens C G draws dirs) with
    | .error _ => s1
    | .ok _ => { s1 with weights := some ⟨⟨hits, o⟩, G.numr, G.npix⟩ }, ?_⟩
  unfold mcRemap
  simp only [Meth.bind_apply]
  rw [setupCube_ok hC]
  simp only
  rw [e1]
  simp only
  rw [e2]
  cases pack (lens C G draws dirs) with
  | error e => rfl
  | ok o => exact e3 o

end Magpie.McCube
