import Verif.Spec.Missing
import Verif.Proof.Box2Ring
import Verif.Proof.McLimit

/-!
# Lemmas for C136: missing values in the data
-/

set_option linter.unusedSimpArgs false
set_option linter.unusedVariables false
set_option linter.unusedSectionVars false

namespace Magpie.Missing
open Magpie Magpie.Radial Magpie.OneD Magpie.Spec Magpie.Box2Ring Magpie.Dg Magpie.Coords Finset

/-- `downgrade` with missing values. -/
theorem downgrade_opt (a : Arr2 (Option ℝ)) (nump numr m : ℕ) (hm : 1 ≤ m)
    (hnr : 1 ≤ numr) (hr : a.rows = m*nump) (hc : a.cols = m*numr) :
    ∃ out, downgrade a nump numr m m (m*numr) = .ok out ∧ out.rows = nump ∧ out.cols = numr ∧
      ∀ i j, i < nump → j < numr →
        ((∃ k l, k < m ∧ l < m ∧ a.val (i*m + k) (j*m + l) = none) → out.val i j = none) ∧
        ∀ u : ℕ → ℕ → ℝ, (∀ k l, k < m → l < m → a.val (i*m + k) (j*m + l) = some (u (i*m + k) (j*m + l))) →
          out.val i j = some ((∑ l ∈ range m, ∑ k ∈ range m, u (i*m + k) (j*m + l))/m) := by
  have hC : 0 < m*numr := Nat.mul_pos hm hnr
  have h1 : a.rows*a.cols = nump*m*(m*numr) := by rw [hr, hc]; ring
  have h2 : nump*(m*numr) = nump*numr*m := by ring
  refine ⟨_, by
    unfold downgrade Arr2.reshape3
    rw [if_pos h1]
    simp only [bind, Except.bind]
    rw [if_pos h2]
    rfl, rfl, rfl, ?_⟩
  intro i j hi hj
  have hm0 : (m:ℝ) ≠ 0 := by positivity
  dsimp only
  have idx : ∀ l k, l < m → k < m →
      (((i*numr + j)*m + l)/(m*numr) = i ∧ ((i*numr + j)*m + l) % (m*numr) = j*m + l) ∧
      (((i*m + k)*(m*numr) + (j*m + l))/(m*numr) = i*m + k ∧
        ((i*m + k)*(m*numr) + (j*m + l)) % (m*numr) = j*m + l) := by
    intro l k hl hk
    have hlt : j*m + l < m*numr := by nlinarith
    have hflat : (i*numr + j)*m + l = (j*m + l) + i*(m*numr) := by ring
    refine ⟨⟨?_, ?_⟩, ?_, ?_⟩
    · rw [hflat, Nat.add_mul_div_right _ _ hC, Nat.div_eq_of_lt hlt]; simp
    · rw [hflat, Nat.add_mul_mod_self_right, Nat.mod_eq_of_lt hlt]
    · rw [add_comm, Nat.add_mul_div_right _ _ hC, Nat.div_eq_of_lt hlt]; simp
    · rw [add_comm, Nat.add_mul_mod_self_right, Nat.mod_eq_of_lt hlt]
  rw [hc]
  constructor
  · rintro ⟨k, l, hk, hl, e⟩
    rw [npSum_none]
    · rfl
    · refine List.mem_map.mpr ⟨l, List.mem_range.mpr hl, npSum_none _ ?_⟩
      refine List.mem_map.mpr ⟨k, List.mem_range.mpr hk, ?_⟩
      obtain ⟨⟨e1, e2⟩, e3, e4⟩ := idx l k hl hk
      simp only [e1, e2, e3, e4, e]
  · intro u hu
    rw [npSum_range_congr m _ fun l => ∑ k ∈ range m, u (i*m + k) (j*m + l)]
    · simp [odiv, fdiv, hm0]
    · intro l hl
      apply npSum_range_congr
      intro k hk
      obtain ⟨⟨e1, e2⟩, e3, e4⟩ := idx l k hl hk
      simp only [e1, e2, e3, e4]
      exact hu k l hk hl

/-- What the data have at a point: missing in a hole, `0` outside the box. -/
def ReadsO (B : BoxArgs) (f : Arr2 (Option ℝ)) (pt : ℝ × ℝ) (g : Option ℝ) : Prop :=
  (∀ a b, InCell B.xmin B.xmax B.numx.toNat a pt.1 → InCell B.ymin B.ymax B.numy.toNat b pt.2 →
    g = f.val b a) ∧
  ((¬ ∃ a b, InCell B.xmin B.xmax B.numx.toNat a pt.1 ∧ InCell B.ymin B.ymax B.numy.toNat b pt.2) →
    g = some 0)

theorem inCell_unique {lo hi : ℝ} (h : lo < hi) {n : ℕ} (hn : 0 < n) {x : ℝ} {k k' : ℕ}
    (h1 : InCell lo hi n k x) (h2 : InCell lo hi n k' x) : k = k' := by
  rw [← cellIdx_eq h hn] at h1 h2
  rw [h1] at h2
  exact Option.some.inj h2

theorem exists_readsO {B : BoxArgs} (hB : BoxOk B) (f : Arr2 (Option ℝ)) (pt : ℝ × ℝ) : ∃ g, ReadsO B f pt g := by
  have hx : 0 < B.numx.toNat := by have := hB.numx; omega
  have hy : 0 < B.numy.toNat := by have := hB.numy; omega
  by_cases h : ∃ a b, InCell B.xmin B.xmax B.numx.toNat a pt.1 ∧ InCell B.ymin B.ymax B.numy.toNat b pt.2
  · obtain ⟨a, b, ha, hb⟩ := h
    refine ⟨f.val b a, fun a' b' ha' hb' => ?_, fun hn => absurd ⟨a, b, ha, hb⟩ hn⟩
    rw [inCell_unique hB.hx hx ha ha', inCell_unique hB.hy hy hb hb']
  · exact ⟨some 0, fun a b ha hb => absurd ⟨a, b, ha, hb⟩ h, fun _ => rfl⟩

theorem readsO_none {B : BoxArgs} (hB : BoxOk B) {f : Arr2 (Option ℝ)} {pt : ℝ × ℝ} {g : Option ℝ}
    (h : ReadsO B f pt g) : g = none ↔ InHole B f pt := by
  constructor
  · intro e
    by_cases hc : ∃ a b, InCell B.xmin B.xmax B.numx.toNat a pt.1 ∧ InCell B.ymin B.ymax B.numy.toNat b pt.2
    · obtain ⟨a, b, ha, hb⟩ := hc
      exact ⟨a, b, ha, hb, (h.1 a b ha hb).symm.trans e⟩
    · rw [h.2 hc] at e; simp at e
  · rintro ⟨a, b, ha, hb, e⟩
    rw [h.1 a b ha hb, e]

theorem readsO_reads {B : BoxArgs} (hB : BoxOk B) {f : Arr2 (Option ℝ)} {pt : ℝ × ℝ} {o : Option ℝ} {g : ℝ}
    (h : ReadsO B f pt o) (hn : ¬ InHole B f pt) (hg : Reads B (filled f) pt g) : o = some g := by
  by_cases hc : ∃ a b, InCell B.xmin B.xmax B.numx.toNat a pt.1 ∧ InCell B.ymin B.ymax B.numy.toNat b pt.2
  · obtain ⟨a, b, ha, hb⟩ := hc
    rw [h.1 a b ha hb, hg.1 a b ha hb]
    unfold filled
    cases e : f.val b a with
    | none => exact absurd ⟨a, b, ha, hb, e⟩ hn
    | some x => rfl
  · rw [h.2 hc, hg.2 hc]

theorem highres_opt {B : BoxArgs} (h : BoxOk B) (c : ℝ × ℝ) (f : Arr2 (Option ℝ))
    (hr : f.rows = B.numy.toNat) (hc : f.cols = B.numx.toNat) (r phi : ℝ) (g : Option ℝ)
    (hg : ReadsO B f (polar2cart r phi c) g) : highres B.box c f r phi = .ok g := by
  have hnx := h.numx
  have hny := h.numy
  have ex : ∀ x k, cellIdx x (B.box.xedges.getD 0 0) B.box.dx B.box.xmid.length = some k ↔
      InCell B.xmin B.xmax B.numx.toNat k x := by
    intro x k
    rw [box_dx h]
    have e0 : B.box.xedges.getD 0 0 = B.xmin := by
      show (linspace B.xmin B.xmax (B.numx.toNat + 1)).getD 0 0 = _
      rw [linspace_getD _ _ _ _ (by omega), edgeAt_zero]
    have el : B.box.xmid.length = B.numx.toNat := length_mids_linspace _ _ _
    rw [e0, el]
    exact cellIdx_eq h.hx (by omega) x k
  have ey : ∀ x k, cellIdx x (B.box.yedges.getD 0 0) B.box.dy B.box.ymid.length = some k ↔
      InCell B.ymin B.ymax B.numy.toNat k x := by
    intro x k
    rw [box_dy h]
    have e0 : B.box.yedges.getD 0 0 = B.ymin := by
      show (linspace B.ymin B.ymax (B.numy.toNat + 1)).getD 0 0 = _
      rw [linspace_getD _ _ _ _ (by omega), edgeAt_zero]
    have el : B.box.ymid.length = B.numy.toNat := length_mids_linspace _ _ _
    rw [e0, el]
    exact cellIdx_eq h.hy (by omega) x k
  unfold highres
  simp only
  split
  · rename_i ix iy h1 h2
    rw [ex] at h1
    rw [ey] at h2
    have hin : iy < f.rows ∧ ix < f.cols := ⟨by rw [hr]; exact h2.1, by rw [hc]; exact h1.1⟩
    unfold Arr2.get
    rw [if_pos hin, hg.1 ix iy h1 h2]
  · rename_i hno
    rw [hg.2]
    rintro ⟨a, b, ha, hb⟩
    rw [← ex] at ha
    rw [← ey] at hb
    exact hno a b ha hb

/-- `_remap` with missing values: a missing value at one of the sample points makes the pixel missing, and
otherwise the value is the mean over them. -/
theorem remap1_opt {B : BoxArgs} {A : PolarArgs} {m : ℕ} (hB : BoxOk B) (hA : PolarOk A) (hm : 1 ≤ m)
    {s : State} (hs : IsSetup B A m m s) (f : Arr2 (Option ℝ))
    (hr : f.rows = B.numy.toNat) (hc : f.cols = B.numx.toNat) :
    ∃ out, remap1 f s = (.ok out, s) ∧ out.rows = A.nump.toNat ∧ out.cols = A.numr.toNat ∧
      ∀ i j, i < A.nump.toNat → j < A.numr.toNat →
        ((∃ k l, k < m ∧ l < m ∧ InHole B f (densePoint A m m (i*m + k) (j*m + l))) → out.val i j = none) ∧
        ((∀ k l, k < m → l < m → ¬ InHole B f (densePoint A m m (i*m + k) (j*m + l))) →
          ∀ g : ℕ → ℕ → ℝ, (∀ k l, k < m → l < m →
            Reads B (filled f) (densePoint A m m (i*m + k) (j*m + l)) (g (i*m + k) (j*m + l))) →
          out.val i j = some (areaSum A m g i j/areaSum A m (fun _ _ => 1) i j)) := by
  have hnr := hA.numr
  have hnp := hA.nump
  have hm0 : 0 < m := hm
  set NR := A.numr.toNat with hNR
  set NP := A.nump.toNat with hNP
  have hNR1 : 1 ≤ NR := by omega
  have hsum : ∀ j, 0 < ∑ l ∈ range m, ∑ k ∈ range m, rweight A m (j*m + l) := by
    intro j
    have hne : (range m).Nonempty := ⟨0, by simpa using hm0⟩
    exact sum_pos (fun l _ => sum_pos (fun k _ => rweight_pos hA hm _) hne) hne
  choose o ho using fun n q => exists_readsO hB f (densePoint A m m n q)
  obtain ⟨hi, ehi, hir, hic, hiv⟩ := tabulate_ok (m*NP) (m*NR)
    (fun i j => highres B.box (centerOf A.center) f
      ((mids (linspace A.rmin A.rmax (m*NR + 1))).getD j 0)
      (shiftPhi A.phiShift ((mids (linspace A.pmin A.pmax (m*NP + 1))).getD i 0)))
    (fun i j => o i j) none (by
      intro i j hi hj
      refine highres_opt hB _ f hr hc _ _ _ ?_
      have := ho i j
      rw [mids_getD _ _ _ _ hi, mids_getD _ _ _ _ hj]
      unfold polar2cart
      simp only [shiftPhi_cos]
      exact this)
  obtain ⟨fp, efp, fpr, fpc, fpv⟩ := downgrade_opt
    ⟨hi.rows, hi.cols, fun i j => omul (hi.val i j)
      ((List.zipWith (fun b a => b^2 - a^2) (linspace A.rmin A.rmax (m*NR + 1)).tail
        (linspace A.rmin A.rmax (m*NR + 1)).dropLast).getD j 0)⟩
    NP NR m hm hNR1 hir hic
  obtain ⟨wp, ewp, wpr, wpc, wpv⟩ := downgrade_ok
    ⟨m*NP, m*NR, fun i j => some
      ((List.zipWith (fun b a => b^2 - a^2) (linspace A.rmin A.rmax (m*NR + 1)).tail
        (linspace A.rmin A.rmax (m*NR + 1)).dropLast).getD j 0)⟩
    (fun i j => rweight A m j) NP NR m hm hNR1 rfl rfl (by
      intro i j hi' hj'
      show some _ = _
      rw [rw_eq A m j hj'])
  refine ⟨⟨fp.rows, fp.cols, fun i j => odiv (fp.val i j) (wp.val i j)⟩, ?_, fpr, fpc, ?_⟩
  · unfold remap1
    simp only [Meth.bind_apply, Meth.self_apply, Meth.lift_apply, hs.extra, hs.polar, hs.box, need_some,
      mkDense_eq hA, mkPolar, meshgridXY, linEdges_rmid_length, linEdges_pmid_length, ← hNR, ← hNP,
      length_mids_linspace, ehi, rw_length]
    have hz : hi.rows = m*NP ∧ hi.cols = m*NR := ⟨hir, hic⟩
    unfold Arr2.zip
    simp only [hNR, rw_length]
    simp only [← hNR, if_pos hz, efp, ewp, fpr, wpr, fpc, wpc, and_self, if_true]
  · intro i j hi' hj'
    have hin : ∀ k l, k < m → l < m → i*m + k < m*NP ∧ j*m + l < m*NR := by
      intro k l hk hl
      constructor <;> nlinarith
    constructor
    · rintro ⟨k, l, hk, hl, hh⟩
      show odiv (fp.val i j) (wp.val i j) = _
      rw [(fpv i j hi' hj').1 ⟨k, l, hk, hl, ?_⟩]
      · rfl
      · show omul (hi.val _ _) _ = none
        rw [hiv _ _ (hin k l hk hl).1 (hin k l hk hl).2, (readsO_none hB (ho _ _)).mpr hh]
        rfl
    · intro hno g hg
      show odiv (fp.val i j) (wp.val i j) = _
      rw [(fpv i j hi' hj').2 (fun n q => rweight A m q * g n q) ?_, wpv i j hi' hj']
      · rw [← mean_eq hA hm]
        have hs0 := (hsum j).ne'
        have hmr : (m:ℝ) ≠ 0 := by exact_mod_cast hm0.ne'
        unfold odiv fdiv
        simp only
        rw [if_neg (div_ne_zero hs0 hmr)]
        congr 1
        field_simp
      · intro k l hk hl
        show omul (hi.val _ _) _ = _
        rw [hiv _ _ (hin k l hk hl).1 (hin k l hk hl).2,
          readsO_reads hB (ho _ _) (hno k l hk hl) (hg k l hk hl), rw_eq A m _ (hin k l hk hl).2]
        simp [omul, mul_comm]

theorem edgeAt_fine (a b : ℝ) (n m i k : ℕ) (hm : 1 ≤ m) (hn : 1 ≤ n) (hab : a ≤ b) (hk : k < m) :
    edgeAt a b n i ≤ midAt a b (m*n) (i*m + k) ∧ midAt a b (m*n) (i*m + k) ≤ edgeAt a b n (i+1) := by
  have hm0 : (0:ℝ) < m := by exact_mod_cast hm
  have hn0 : (0:ℝ) < n := by exact_mod_cast hn
  have e : ∀ i : ℕ, edgeAt a b n i = edgeAt a b (m*n) (i*m) := by
    intro i
    unfold edgeAt
    push_cast
    field_simp
  rw [e, e]
  have h1 := edgeAt_mono hab (m*n) (show i*m ≤ i*m + k by omega)
  have h2 := edgeAt_mono hab (m*n) (show i*m + k ≤ i*m + k + 1 by omega)
  have h3 := edgeAt_mono hab (m*n) (show i*m + k + 1 ≤ (i+1)*m by nlinarith)
  unfold midAt
  constructor <;> linarith

/-- The sample points of a polar pixel are in it. -/
theorem densePoint_sector {A : PolarArgs} (hA : PolarOk A) {m : ℕ} (hm : 1 ≤ m) (i j k l : ℕ) (hk : k < m)
    (hl : l < m) : InSector A i j (densePoint A m m (i*m + k) (j*m + l)) := by
  have hnr := hA.numr
  have hnp := hA.nump
  obtain ⟨h1, h2⟩ := edgeAt_fine A.rmin A.rmax A.numr.toNat m j l hm (by omega) hA.r.le hl
  obtain ⟨h3, h4⟩ := edgeAt_fine A.pmin A.pmax A.nump.toNat m i k hm (by omega) hA.p.le hk
  exact ⟨_, _, h1, h2, h3, h4, rfl⟩

end Magpie.Missing

namespace Magpie.Missing
open Magpie Magpie.Radial Magpie.OneD Magpie.Spec Magpie.Box2Ring Magpie.Mc

theorem mem_hitCells {B : BoxArgs} (hB : BoxOk B) (pts : List (ℝ × ℝ)) (c : ℕ × ℕ) :
    c ∈ hitCells B pts ↔ ∃ pt ∈ pts, InPixel B pt c.1 c.2 := by
  rw [← mem_bins hB]
  unfold hitCells cnt
  rw [List.mem_filter, decide_eq_true_eq, Ne, List.length_eq_zero_iff, List.filter_eq_nil_iff]
  constructor
  · rintro ⟨-, h⟩
    push Not at h
    obtain ⟨x, hx, e⟩ := h
    simp only [decide_eq_true_eq] at e
    rwa [← e]
  · intro h
    exact ⟨bins_cells hB pts c h, fun hn => hn _ h (by simp)⟩

/-- The pixel depends only on the values of the cells that were hit. -/
theorem remapPixel_congr {B : BoxArgs} (hB : BoxOk B) {n : ℕ} (pts : List (ℝ × ℝ)) (wt : Weights)
    (i j : ℕ) (hh : wt.hits i j = pixelHits (hX B) (hY B) n (pts.map some)) (f g : Arr2 (Option ℝ))
    (hfr : f.rows = B.numy.toNat) (hfc : f.cols = B.numx.toNat)
    (hgr : g.rows = B.numy.toNat) (hgc : g.cols = B.numx.toNat) (w : Option (Arr2 ℝ))
    (hfg : ∀ pt ∈ pts, ∀ a b, InPixel B pt a b → f.val b a = g.val b a) :
    remapPixel wt f w i j = remapPixel wt g w i j := by
  have e : readHits wt.objIdx f (wt.hits i j) = readHits wt.objIdx g (wt.hits i j) := by
    cases ho : wt.objIdx with
    | true => rfl
    | false =>
      rw [hh, readHits_ok hB n pts f hfr hfc, readHits_ok hB n pts g hgr hgc]
      congr 1
      apply List.map_congr_left
      intro c hc
      obtain ⟨pt, h1, h2⟩ := (mem_hitCells hB pts c).mp hc
      exact hfg pt h1 _ _ h2
  unfold remapPixel
  simp only [e]

/-- A missing value in a cell that was hit makes the pixel missing. -/
theorem remapPixel_hole {B : BoxArgs} (hB : BoxOk B) {n : ℕ} (pts : List (ℝ × ℝ)) (wt : Weights)
    (i j : ℕ) (hh : wt.hits i j = pixelHits (hX B) (hY B) n (pts.map some)) (f : Arr2 (Option ℝ))
    (hfr : f.rows = B.numy.toNat) (hfc : f.cols = B.numx.toNat) (w : Option (Arr2 ℝ))
    (hw : ∀ t, w = some t → t.rows = B.numy.toNat ∧ t.cols = B.numx.toNat)
    (hhole : ∃ pt ∈ pts, InHoleMc B f pt) (x : Option ℝ) (hx : remapPixel wt f w i j = .ok x) : x = none := by
  obtain ⟨pt, hpt, a, b, hab, hn⟩ := hhole
  have hc : (a, b) ∈ hitCells B pts := (mem_hitCells hB pts _).mpr ⟨pt, hpt, hab⟩
  unfold remapPixel at hx
  cases w with
  | none =>
    simp only at hx
    split_ifs at hx with h0
    · cases ho : wt.objIdx with
      | true => simp [ho, readHits, Bind.bind, Except.bind] at hx
      | false =>
        rw [ho, hh, readHits_ok hB n pts f hfr hfc] at hx
        simp only [Bind.bind, Except.bind, pure, Except.pure, Except.ok.injEq] at hx
        rw [← hx, pixelHits_eq, List.map_map, zipWith_map_same, npSum_none]
        · rfl
        · exact List.mem_map.mpr ⟨(a, b), hc, by simp [hn, omul]⟩
    · simpa using hx.symm
  | some t =>
    simp only at hx
    split_ifs at hx with h0
    · cases ho : wt.objIdx with
      | true => simp [ho, readHits, Bind.bind, Except.bind] at hx
      | false =>
        rw [ho, hh, readHits_ok hB n pts f hfr hfc, readHits_ok hB n pts t (hw t rfl).1 (hw t rfl).2] at hx
        simp only [Bind.bind, Except.bind, pure, Except.pure, Except.ok.injEq] at hx
        rw [← hx, pixelHits_eq, List.map_map, zipWith_map_same, zipWith_map_same, npSum_none]
        · rfl
        · exact List.mem_map.mpr ⟨(a, b), hc, by simp [hn, omul]⟩
    · simpa using hx.symm

/-- The Monte Carlo remap with missing values. -/
theorem mc_opt {B : BoxArgs} {G : Grid} (hB : BoxOk B) (hG : G.Ok) {n : ℕ} (hn : 1 < n)
    (draws : ℕ → ℕ → List ℝ × List ℝ) (hd : ∀ i j, i < G.nump → j < G.numr → Draws n (draws i j))
    (f : Arr2 (Option ℝ)) (hf : f.rows = B.numy.toNat ∧ f.cols = B.numx.toNat)
    (w : Option (Arr2 ℝ)) (hw : ∀ t, w = some t → t.rows = B.numy.toNat ∧ t.cols = B.numx.toNat)
    {s s' : State} {out : Arr2 (Option ℝ)} (ho : mcRemap B G n draws f w s = (.ok out, s'))
    {i j : ℕ} (hi : i < G.nump) (hj : j < G.numr) :
    ((∃ pt ∈ G.points i j (draws i j), InHoleMc B f pt) → out.val i j = none) ∧
    ((∀ pt ∈ G.points i j (draws i j), ¬ InHoleMc B f pt) →
      out.val i j = fdiv ((G.points i j (draws i j)).map (boxVal B fun b a => wOf w b a*filled f b a)).sum
        ((G.points i j (draws i j)).map (boxVal B (wOf w))).sum) := by
  obtain ⟨hits, hh, s1, e⟩ := mcRemap_run hB hG hn draws hd f w hf hw s
  rw [ho] at e
  cases hp : pack (lens B G draws) with
  | error x => rw [hp] at e; simp at e
  | ok o =>
    rw [hp] at e
    simp only [Prod.mk.injEq] at e
    have ht := (tabulate_inv e.1.symm).2.2 i j hi hj
    refine ⟨fun h => remapPixel_hole hB _ ⟨hits, o⟩ i j (hh i j hi hj) f hf.1 hf.2 w hw h _ ht, fun h => ?_⟩
    refine pixel_value (G := G) hB hn draws ⟨f.rows, f.cols, fun b a => some (filled f b a)⟩ (filled f) hf
      (fun _ _ _ _ => rfl) w hw (hits := hits) (o := o) (hh i j hi hj) ?_
    rw [← ht]
    symm
    refine remapPixel_congr hB _ ⟨hits, o⟩ i j (hh i j hi hj) f
      ⟨f.rows, f.cols, fun b a => some (filled f b a)⟩ hf.1 hf.2 hf.1 hf.2 w ?_
    intro pt hpt a b hab
    show _ = some (filled f b a)
    unfold filled
    cases e : f.val b a with
    | none => exact absurd ⟨a, b, hab, e⟩ (h pt hpt)
    | some x => rfl

end Magpie.Missing
