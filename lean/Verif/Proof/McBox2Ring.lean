import Verif.Proof.McHist
import Verif.Proof.Box2RingRadial
import Verif.Props.Box2RingSetup

/-!
# Lemmas on the Monte Carlo `Box2Ring` class
-/

set_option linter.unusedSimpArgs false
set_option linter.unusedVariables false
set_option linter.unusedSectionVars false

namespace Magpie.Mc
open Magpie Magpie.Radial Magpie.OneD Magpie.Spec Magpie.Box2Ring Magpie.Props Magpie.Randoms Magpie.Coords

/-! ## The grids -/

/-- The edges assigned by the set-up call. -/
noncomputable def Grid.edges : Grid → Edges
  | .lin A => linEdges A
  | .log A z => logE A z

theorem Grid.Ok.polar {G : Grid} (h : G.Ok) : PolarOk G.args := by
  cases G with
  | lin A => exact h.1
  | log A z => exact h.2.1

theorem Grid.setup_run {G : Grid} (h : G.Ok) (s : State) : ∃ s', G.setup s = (.ok (), s') ∧
    s'.edges = some G.edges ∧ s'.polar = some (mkPolar G.edges G.args) ∧ s'.box = s.box := by
  cases G with
  | lin A =>
    obtain ⟨hA, hr, hp⟩ := h
    have e1 : firstDiff (linEdges A).rmid = _ := firstDiff_mids A.rmin A.rmax A.numr.toNat (by omega)
    have e2 : firstDiff (linEdges A).pmid = _ := firstDiff_mids A.pmin A.pmax A.nump.toNat (by omega)
    unfold Grid.setup
    simp only
    rw [setupPolarLin_run, (Dg.polarChecks_iff A).1.mpr hA, e1, e2]
    exact ⟨_, rfl, rfl, rfl, rfl⟩
  | log A z =>
    obtain ⟨h0, hA, hp⟩ := h
    have e2 : firstDiff (linEdges A).pmid = _ := firstDiff_mids A.pmin A.pmax A.nump.toNat (by omega)
    unfold Grid.setup
    simp only
    rw [setupPolarLog_run, (checks_ok_iff A _).mpr ⟨h0, polarChecks_ok hA⟩, e2]
    exact ⟨_, rfl, rfl, rfl, rfl⟩

theorem logspace_getD {a b : ℝ} (ha : 0 < a) (hb : 0 < b) (n k : ℕ) (hk : k ≤ n) :
    (logspace a b (n+1)).getD k 0 = a*(b/a)^((k:ℝ)/n) := by
  unfold logspace
  rw [linspace_eq, List.map_map, getD_range_map _ _ _ (by omega)]
  exact logspace_val ha hb n k

theorem Grid.numr_pos {G : Grid} (h : G.Ok) : 0 < G.numr := by
  have := h.polar.numr
  unfold Grid.numr
  omega

theorem Grid.nump_two {G : Grid} (h : G.Ok) : 2 ≤ G.nump := by
  cases G with
  | lin A => have := h.2.2; show 2 ≤ A.nump.toNat; omega
  | log A z => have := h.2.2; show 2 ≤ A.nump.toNat; omega

theorem Grid.redges_length (G : Grid) : G.edges.redges.length = G.numr + 1 := by
  cases G with
  | lin A => exact length_linspace _ _ _
  | log A z =>
    show (logEdges A z).length = A.numr.toNat + 1
    unfold logEdges logspace
    split_ifs <;> simp [length_linspace]

theorem Grid.pedges_eq (G : Grid) : G.edges.pedges = linspace G.args.pmin G.args.pmax (G.nump + 1) := by
  cases G <;> rfl

theorem Grid.pedges_getD (G : Grid) (i : ℕ) (hi : i ≤ G.nump) : G.edges.pedges.getD i 0 = G.pEdge i := by
  rw [G.pedges_eq, linspace_getD _ _ _ _ hi]
  rfl

theorem Grid.redges_getD {G : Grid} (h : G.Ok) (j : ℕ) (hj : j ≤ G.numr) :
    G.edges.redges.getD j 0 = G.rEdge j := by
  have hr := G.numr_pos h
  have hA := h.polar
  cases G with
  | lin A => exact linspace_getD _ _ _ _ hj
  | log A z =>
    have h0 := h.1
    have hm : 0 < A.rmax := h0.trans hA.r
    show (logEdges A z).getD j 0 = _
    unfold logEdges
    cases z with
    | false => exact logspace_getD h0 hm _ _ hj
    | true =>
      simp only [if_true]
      cases j with
      | zero => rfl
      | succ j =>
        have hj : j + 1 ≤ A.numr.toNat := hj
        obtain ⟨n, hn⟩ : ∃ n, A.numr.toNat = n + 1 := ⟨A.numr.toNat - 1, by omega⟩
        rw [List.getD_cons_succ, hn, logspace_getD h0 hm n j (by omega)]
        show _ = A.rmin*(A.rmax/A.rmin)^((j:ℝ)/(A.numr.toNat - 1 : ℕ))
        rw [hn]
        simp

theorem Grid.rEdge_nonneg {G : Grid} (h : G.Ok) (j : ℕ) : 0 ≤ G.rEdge j := by
  have hA := h.polar
  cases G with
  | lin A =>
    have := edgeAt_mono hA.r.le A.numr.toNat (Nat.zero_le j)
    rw [edgeAt_zero] at this
    exact le_trans hA.rmin this
  | log A z =>
    have h0 : 0 < A.rmin := h.1
    have hm : 0 < A.rmax := h0.trans hA.r
    cases z with
    | false => simp only [Grid.rEdge]; positivity
    | true =>
      cases j with
      | zero => exact le_rfl
      | succ j => simp only [Grid.rEdge]; positivity

theorem Grid.rEdge_mono {G : Grid} (h : G.Ok) (j : ℕ) : G.rEdge j ≤ G.rEdge (j+1) := by
  have hA := h.polar
  cases G with
  | lin A => exact edgeAt_mono hA.r.le A.numr.toNat (Nat.le_succ j)
  | log A z =>
    have h0 : 0 < A.rmin := h.1
    have hq : 1 ≤ A.rmax/A.rmin := (one_le_div h0).mpr hA.r.le
    cases z with
    | false =>
      simp only [Grid.rEdge]
      refine mul_le_mul_of_nonneg_left (Real.rpow_le_rpow_of_exponent_le hq ?_) h0.le
      apply div_le_div_of_nonneg_right _ (Nat.cast_nonneg _)
      push_cast; linarith
    | true =>
      cases j with
      | zero => exact (Grid.rEdge_nonneg h 1)
      | succ j =>
        simp only [Grid.rEdge]
        refine mul_le_mul_of_nonneg_left (Real.rpow_le_rpow_of_exponent_le hq ?_) h0.le
        apply div_le_div_of_nonneg_right _ (Nat.cast_nonneg _)
        push_cast; linarith

theorem Grid.r2d_shape (G : Grid) : (mkPolar G.edges G.args).r2d.rows = G.nump ∧
    (mkPolar G.edges G.args).r2d.cols = G.numr := by
  constructor
  · show G.edges.pmid.length = _
    cases G <;> exact length_mids_linspace _ _ _
  · cases G with
    | lin A => exact length_mids_linspace _ _ _
    | log A z =>
      show (mids (logEdges A z)).length = _
      have := Grid.redges_length (.log A z)
      have e : (logEdges A z).length = (Grid.log A z).numr + 1 := this
      unfold mids
      simp [e]

/-! ## The random points -/

theorem randomPoints_eq {G : Grid} (h : G.Ok) (i j : ℕ) (hi : i < G.nump) (hj : j < G.numr) {n : ℕ}
    (d : List ℝ × List ℝ) (hd : Draws n d) :
    randomPoints (G.edges.redges.getD j 0) (G.edges.redges.getD (j+1) 0) (G.edges.pedges.getD i 0)
      (G.edges.pedges.getD (i+1) 0) (mkPolar G.edges G.args) d.1 d.2 = (G.points i j d).map some := by
  rw [Grid.redges_getD h j hj.le, Grid.redges_getD h (j+1) hj, G.pedges_getD i hi.le, G.pedges_getD (i+1) hi]
  obtain ⟨uR, uP⟩ := d
  obtain ⟨-, -, hR, -⟩ := hd
  simp only at hR ⊢
  have h0 := Grid.rEdge_nonneg h j
  have h1 := Grid.rEdge_mono h j
  unfold randomPoints randomsPolar Grid.points
  simp only
  set s := (mkPolar G.edges G.args).phiShift with hs
  have hs' : s = G.args.phiShift := rfl
  have e : (if s ≠ 0 then
      List.map (fun q => if q < 0 then q + 2*Real.pi else q)
        (List.map (fun q => if q > 2*Real.pi then q - 2*Real.pi else q)
          (List.map (fun q => q + s) (List.map (fun u => (G.pEdge (i+1) - G.pEdge i)*u + G.pEdge i) uP)))
      else List.map (fun u => (G.pEdge (i+1) - G.pEdge i)*u + G.pEdge i) uP)
      = uP.map fun u => Dg.shiftPhi s ((G.pEdge (i+1) - G.pEdge i)*u + G.pEdge i) := by
    unfold Dg.shiftPhi
    by_cases h : s = 0
    · simp [h]
    · simp only [ne_eq, h, not_false_eq_true, if_true, List.map_map]
      rfl
  rw [e]
  clear e
  induction uR generalizing uP with
  | nil => rfl
  | cons u uR ih =>
    cases uP with
    | nil => rfl
    | cons v uP =>
      have hu := hR u (List.mem_cons_self ..)
      simp only [List.map_cons, List.zipWith_cons_cons]
      rw [ih uP fun x hx => hR x (List.mem_cons_of_mem _ hx)]
      congr 1
      have h5 : 0 ≤ (G.rEdge (j+1)^2 - G.rEdge j^2)*u + G.rEdge j^2 := by
        have := pow_le_pow_left₀ h0 h1 2
        have := mul_nonneg (sub_nonneg.mpr this) hu.1
        positivity
      rw [npSqrt, if_pos h5]
      simp only [Option.map_some, Option.some.injEq]
      unfold polar2cart Grid.point
      simp only
      rw [(Dg.shiftPhi_cos s _).1, (Dg.shiftPhi_cos s _).2, hs']
      have e1 : (G.rEdge (j+1)^2 - G.rEdge j^2)*u + G.rEdge j^2
        = G.rEdge j^2 + u*(G.rEdge (j+1)^2 - G.rEdge j^2) := by ring
      have e2 : (G.pEdge (i+1) - G.pEdge i)*v + G.pEdge i + G.args.phiShift
        = G.pEdge i + v*(G.pEdge (i+1) - G.pEdge i) + G.args.phiShift := by ring
      rw [e1, e2]
      rfl

/-! ## The hits of a pixel -/

/-- The edges of the histograms. -/
noncomputable def hX (B : BoxArgs) : List ℝ := linspace B.xmin B.xmax (B.numx.toNat + 1)
noncomputable def hY (B : BoxArgs) : List ℝ := linspace B.ymin B.ymax (B.numy.toNat + 1)

theorem binOf_iff {B : BoxArgs} (hB : BoxOk B) (pt : ℝ × ℝ) (a b : ℕ) :
    binOf (hX B) (hY B) (some pt) = some (a, b) ↔ InPixel B pt a b := by
  have hx : 0 < B.numx.toNat := by have := hB.numx; omega
  have hy : 0 < B.numy.toNat := by have := hB.numy; omega
  unfold InPixel
  rw [← histBin_iff hB.hx hx, ← histBin_iff hB.hy hy]
  unfold binOf hX hY
  simp only
  cases histBin (linspace B.xmin B.xmax (B.numx.toNat + 1)) pt.1 <;>
    cases histBin (linspace B.ymin B.ymax (B.numy.toNat + 1)) pt.2 <;> simp

/-- The bins of the points. -/
noncomputable def bins (B : BoxArgs) (pts : List (ℝ × ℝ)) : List (Option (ℕ × ℕ)) :=
  pts.map fun pt => binOf (hX B) (hY B) (some pt)

/-- The cells of the histogram. -/
def cells (B : BoxArgs) : List (ℕ × ℕ) :=
  (List.range B.numx.toNat).flatMap fun a => (List.range B.numy.toNat).map fun b => (a, b)

theorem mem_bins {B : BoxArgs} (hB : BoxOk B) (pts : List (ℝ × ℝ)) (c : ℕ × ℕ) :
    some c ∈ bins B pts ↔ ∃ pt ∈ pts, InPixel B pt c.1 c.2 := by
  unfold bins
  simp only [List.mem_map]
  constructor
  · rintro ⟨pt, h1, h2⟩
    exact ⟨pt, h1, (binOf_iff hB pt c.1 c.2).mp h2⟩
  · rintro ⟨pt, h1, h2⟩
    exact ⟨pt, h1, (binOf_iff hB pt c.1 c.2).mpr h2⟩

theorem bins_cells {B : BoxArgs} (hB : BoxOk B) (pts : List (ℝ × ℝ)) (c : ℕ × ℕ) (h : some c ∈ bins B pts) :
    c ∈ cells B := by
  obtain ⟨pt, -, h1, h2⟩ := (mem_bins hB pts c).mp h
  exact (mem_cells _ _ _ _).mpr ⟨h1.1, h2.1⟩

/-- The cells that are hit. -/
noncomputable def hitCells (B : BoxArgs) (pts : List (ℝ × ℝ)) : List (ℕ × ℕ) :=
  (cells B).filter fun c => decide (cnt (bins B pts) c ≠ 0)

theorem pixelHits_eq (B : BoxArgs) (n : ℕ) (pts : List (ℝ × ℝ)) :
    pixelHits (hX B) (hY B) n (pts.map some)
      = (hitCells B pts).map fun c => ⟨c.2, c.1, (cnt (bins B pts) c : ℝ)/n⟩ := by
  have e : ∀ c, histCount (hX B) (hY B) (pts.map some) c = cnt (bins B pts) c := by
    intro c
    unfold histCount cnt bins
    rw [List.filter_map, List.length_map, List.filter_map, List.length_map]
    rfl
  unfold pixelHits hitCells cells
  simp only [e]
  rw [show (hX B).length - 1 = B.numx.toNat by unfold hX; rw [length_linspace]; rfl,
    show (hY B).length - 1 = B.numy.toNat by unfold hY; rw [length_linspace]; rfl]

theorem length_hits {B : BoxArgs} (hB : BoxOk B) (n : ℕ) (pts : List (ℝ × ℝ)) :
    (pixelHits (hX B) (hY B) n (pts.map some)).length = touched B pts := by
  rw [pixelHits_eq, List.length_map]
  unfold hitCells touched
  rw [length_hit_cells (cells B) (cells_nodup _ _) _ (bins_cells hB pts)]
  congr 1
  ext c
  exact mem_bins hB pts c

/-- The values read at the points that are in the box. -/
theorem reads_bins {α : Type} {B : BoxArgs} (hB : BoxOk B) (v : ℕ → ℕ → α) (pts : List (ℝ × ℝ))
    (g : List (Option α)) (hg : List.Forall₂ (Reads B v) pts g) :
    g.filterMap id = ((bins B pts).filterMap id).map fun c => v c.2 c.1 := by
  unfold bins
  induction hg with
  | nil => rfl
  | @cons pt g pts gs h1 h2 ih =>
    rw [List.map_cons]
    cases hb : binOf (hX B) (hY B) (some pt) with
    | none =>
      have : g = none := h1.2 (by
        rintro ⟨a, b, hab⟩
        rw [(binOf_iff hB pt a b).mpr hab] at hb
        cases hb)
      subst this
      rw [List.filterMap_cons_none rfl, List.filterMap_cons_none rfl]
      exact ih
    | some c =>
      have : g = some (v c.2 c.1) := h1.1 c.1 c.2 ((binOf_iff hB pt c.1 c.2).mp hb)
      subst this
      rw [List.filterMap_cons_some (rfl : id (some (v c.2 c.1)) = _), List.filterMap_cons_some (rfl : id (some c) = _),
        List.map_cons, ih]

theorem sum_div {ι : Type} (l : List ι) (F : ι → ℝ) (n : ℝ) : (l.map fun c => F c/n).sum = (l.map F).sum/n := by
  induction l with
  | nil => simp
  | cons a l ih => rw [List.map_cons, List.sum_cons, ih, List.map_cons, List.sum_cons, add_div]

theorem hits_sum {B : BoxArgs} (hB : BoxOk B) (n : ℕ) (pts : List (ℝ × ℝ)) (F : ℕ × ℕ → ℝ) :
    ((hitCells B pts).map fun c => (cnt (bins B pts) c : ℝ)/n*F c).sum
      = (((bins B pts).filterMap id).map F).sum/n := by
  rw [← sum_hit_cells (cells B) (cells_nodup _ _) F _ (bins_cells hB pts), ← sum_div]
  congr 1
  apply List.map_congr_left
  intro c _
  ring

theorem hits_wsum {B : BoxArgs} (hB : BoxOk B) (n : ℕ) (pts : List (ℝ × ℝ)) :
    ((pixelHits (hX B) (hY B) n (pts.map some)).map Hit.w).sum = (((bins B pts).filterMap id).length : ℝ)/n := by
  rw [pixelHits_eq, List.map_map]
  have := hits_sum hB n pts fun _ => 1
  simp only [mul_one, List.map_const', List.sum_replicate, nsmul_eq_mul] at this
  rw [← this]
  rfl

theorem readHits_ok {α : Type} {B : BoxArgs} (hB : BoxOk B) (n : ℕ) (pts : List (ℝ × ℝ)) (a : Arr2 α)
    (hr : a.rows = B.numy.toNat) (hc : a.cols = B.numx.toNat) :
    readHits false a (pixelHits (hX B) (hY B) n (pts.map some)) = .ok ((hitCells B pts).map fun c => a.val c.2 c.1) := by
  unfold readHits
  rw [if_neg (by simp), pixelHits_eq, pyMap_ok _ (fun h => a.val h.ix h.iy)]
  · rw [List.map_map]; rfl
  · intro h hh
    obtain ⟨c, hc', rfl⟩ := List.mem_map.mp hh
    have hm : c ∈ cells B := (List.mem_filter.mp hc').1
    have := (mem_cells _ _ c.1 c.2).mp hm
    unfold Arr2.get
    rw [if_pos ⟨by rw [hr]; exact this.2, by rw [hc]; exact this.1⟩]

theorem zipWith_map_same {ι α β γ : Type} (l : List ι) (f : α → β → γ) (p : ι → α) (q : ι → β) :
    List.zipWith f (l.map p) (l.map q) = l.map fun c => f (p c) (q c) := by
  induction l with
  | nil => rfl
  | cons a l ih => simp [ih]

theorem remapPixel_none {B : BoxArgs} (hB : BoxOk B) {n : ℕ} (hn : 0 < n) (pts : List (ℝ × ℝ)) (wt : Weights)
    (i j : ℕ) (hw : wt.hits i j = pixelHits (hX B) (hY B) n (pts.map some)) (ho : wt.objIdx = false)
    (f : Arr2 (Option ℝ)) (v : ℕ → ℕ → ℝ) (hfr : f.rows = B.numy.toNat) (hfc : f.cols = B.numx.toNat)
    (hv : ∀ i j, i < f.rows → j < f.cols → f.val i j = some (v i j))
    (g : List (Option ℝ)) (hg : List.Forall₂ (Reads B v) pts g) :
    remapPixel wt f none i j = .ok (mean (g.filterMap id)) := by
  have hn' : (n:ℝ) ≠ 0 := by exact_mod_cast hn.ne'
  unfold remapPixel
  simp only
  rw [hw, ho, hits_wsum hB, reads_bins hB v pts g hg, readHits_ok hB n pts f hfr hfc]
  unfold mean
  by_cases h0 : (bins B pts).filterMap id = []
  · rw [h0]; simp
  · have hl : ((((bins B pts).filterMap id).length : ℕ) : ℝ) ≠ 0 := by
      exact_mod_cast fun h => h0 (List.length_eq_zero_iff.mp h)
    rw [if_pos (div_ne_zero hl hn')]
    simp only [bind, Except.bind, pure, Except.pure]
    rw [if_neg (by simpa using h0), pixelHits_eq, List.map_map, zipWith_map_same]
    have e : (hitCells B pts).map (fun c => omul (f.val c.2 c.1) (((Hit.w) ∘ fun c : ℕ × ℕ =>
        (⟨c.2, c.1, (cnt (bins B pts) c : ℝ)/n⟩ : Hit)) c)) = ((hitCells B pts).map fun c =>
          (cnt (bins B pts) c : ℝ)/n*v c.2 c.1).map some := by
      rw [List.map_map]
      apply List.map_congr_left
      intro c hc
      have hm : c ∈ cells B := (List.mem_filter.mp hc).1
      have := (mem_cells _ _ c.1 c.2).mp hm
      rw [hv _ _ (by rw [hfr]; exact this.2) (by rw [hfc]; exact this.1)]
      simp [omul, mul_comm]
    rw [e, npSum_some, hits_sum hB n pts fun c => v c.2 c.1]
    unfold odiv fdiv
    simp only
    rw [if_neg (div_ne_zero hl hn'), div_div_div_cancel_right₀ hn', List.length_map]

theorem remapPixel_some {B : BoxArgs} (hB : BoxOk B) {n : ℕ} (hn : 0 < n) (pts : List (ℝ × ℝ)) (wt : Weights)
    (i j : ℕ) (hw : wt.hits i j = pixelHits (hX B) (hY B) n (pts.map some)) (ho : wt.objIdx = false)
    (f : Arr2 (Option ℝ)) (v : ℕ → ℕ → ℝ) (hfr : f.rows = B.numy.toNat) (hfc : f.cols = B.numx.toNat)
    (hv : ∀ i j, i < f.rows → j < f.cols → f.val i j = some (v i j))
    (w : Arr2 ℝ) (hwr : w.rows = B.numy.toNat) (hwc : w.cols = B.numx.toNat)
    (g : List (Option (ℝ × ℝ))) (hg : List.Forall₂ (Reads B fun b a => (w.val b a, v b a)) pts g) :
    remapPixel wt f (some w) i j = .ok (wmean (g.filterMap id)) := by
  have hn' : (n:ℝ) ≠ 0 := by exact_mod_cast hn.ne'
  unfold remapPixel
  simp only
  rw [hw, ho, hits_wsum hB, reads_bins hB _ pts g hg, readHits_ok hB n pts f hfr hfc,
    readHits_ok hB n pts w hwr hwc]
  unfold wmean
  by_cases h0 : (bins B pts).filterMap id = []
  · rw [h0]; simp [fdiv]
  · have hl : ((((bins B pts).filterMap id).length : ℕ) : ℝ) ≠ 0 := by
      exact_mod_cast fun h => h0 (List.length_eq_zero_iff.mp h)
    rw [if_pos (div_ne_zero hl hn')]
    simp only [bind, Except.bind, pure, Except.pure]
    rw [pixelHits_eq, List.map_map, zipWith_map_same, zipWith_map_same]
    have e : (hitCells B pts).map (fun c => omul (f.val c.2 c.1) ((((Hit.w) ∘ fun c : ℕ × ℕ =>
        (⟨c.2, c.1, (cnt (bins B pts) c : ℝ)/n⟩ : Hit)) c)*w.val c.2 c.1)) = ((hitCells B pts).map fun c =>
          (cnt (bins B pts) c : ℝ)/n*(w.val c.2 c.1*v c.2 c.1)).map some := by
      rw [List.map_map]
      apply List.map_congr_left
      intro c hc
      have hm : c ∈ cells B := (List.mem_filter.mp hc).1
      have := (mem_cells _ _ c.1 c.2).mp hm
      rw [hv _ _ (by rw [hfr]; exact this.2) (by rw [hfc]; exact this.1)]
      simp [omul]
      ring
    rw [e, npSum_some, hits_sum hB n pts fun c => w.val c.2 c.1*v c.2 c.1]
    have e2 := hits_sum hB n pts fun c => w.val c.2 c.1
    rw [show ((hitCells B pts).map fun c => ((Hit.w) ∘ fun c : ℕ × ℕ =>
        (⟨c.2, c.1, (cnt (bins B pts) c : ℝ)/n⟩ : Hit)) c*w.val c.2 c.1).sum = _ from e2]
    unfold odiv fdiv
    simp only [List.map_map]
    by_cases hz : (((bins B pts).filterMap id).map fun c => w.val c.2 c.1).sum = 0
    · rw [if_pos (by rw [hz, zero_div]), if_pos (by exact hz)]
    · rw [if_neg (div_ne_zero hz hn'), if_neg (by exact hz), div_div_div_cancel_right₀ hn']
      rfl

end Magpie.Mc
