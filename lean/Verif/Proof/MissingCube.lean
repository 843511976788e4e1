import Verif.Spec.MissingCube
import Verif.Proof.DgCube2Shell
import Verif.Proof.McCubeLimit

/-!
# Lemmas for C137: missing values in a cube
-/

set_option linter.unusedSimpArgs false
set_option linter.unusedVariables false
set_option linter.unusedSectionVars false

namespace Magpie.Missing
open Magpie Magpie.Radial Magpie.OneD Magpie.Spec Magpie.Box2Ring Magpie.Cube Magpie.McCube

/-! ## Monte Carlo -/

theorem mem_hitCells3 {C : CubeArgs} (hC : CubeOk C) (pts : List (ℝ × ℝ × ℝ)) (c : ℕ × ℕ × ℕ) :
    c ∈ hitCells C pts ↔ ∃ pt ∈ pts, InVoxel C pt c.1 c.2.1 c.2.2 := by
  rw [← mem_bins hC]
  unfold hitCells
  rw [List.mem_filter, decide_eq_true_eq, Mc.cnt_pos]
  exact ⟨fun h => h.2, fun h => ⟨bins_cells hC pts c h, h⟩⟩

theorem remapPixel3_congr {C : CubeArgs} (hC : CubeOk C) {n : ℕ} (pts : List (ℝ × ℝ × ℝ)) (wt : Weights)
    (i j : ℕ) (hh : wt.hits i j = pixelHits (hX C) (hY C) (hZ C) n (pts.map some)) (f g : Arr3 (Option ℝ))
    (hf : Fits C f) (hg : Fits C g) (w : Option (Arr3 ℝ))
    (hfg : ∀ pt ∈ pts, ∀ a b c, InVoxel C pt a b c → f.val b a c = g.val b a c) :
    remapPixel wt f w i j = remapPixel wt g w i j := by
  have e : readHits wt.objIdx f (wt.hits i j) = readHits wt.objIdx g (wt.hits i j) := by
    cases ho : wt.objIdx with
    | true => rfl
    | false =>
      rw [hh, readHits_ok n pts f hf, readHits_ok n pts g hg]
      congr 1
      apply List.map_congr_left
      intro c hc
      obtain ⟨pt, h1, h2⟩ := (mem_hitCells3 hC pts c).mp hc
      exact hfg pt h1 _ _ _ h2
  unfold remapPixel
  simp only [e]

theorem remapPixel3_hole {C : CubeArgs} (hC : CubeOk C) {n : ℕ} (hn : 0 < n) (pts : List (ℝ × ℝ × ℝ)) (wt : Weights)
    (i j : ℕ) (hh : wt.hits i j = pixelHits (hX C) (hY C) (hZ C) n (pts.map some)) (f : Arr3 (Option ℝ))
    (hf : Fits C f) (w : Option (Arr3 ℝ)) (hw : ∀ t, w = some t → Fits C t)
    (hhole : ∃ pt ∈ pts, InHoleVoxel C f pt) (x : Option ℝ) (hx : remapPixel wt f w i j = .ok x) : x = none := by
  obtain ⟨pt, hpt, a, b, c, hab, hnone⟩ := hhole
  have hc : (a, b, c) ∈ hitCells C pts := (mem_hitCells3 hC pts _).mpr ⟨pt, hpt, hab⟩
  have hsum : ((wt.hits i j).map Hit.w).sum ≠ 0 := by
    rw [hh, hits_wsum hC]
    have hb := (mem_bins hC pts (a, b, c)).mpr ⟨pt, hpt, hab⟩
    have hne : (bins C pts).filterMap id ≠ [] :=
      List.ne_nil_of_mem (List.mem_filterMap.mpr ⟨_, hb, rfl⟩)
    refine div_ne_zero ?_ (by exact_mod_cast hn.ne')
    exact_mod_cast fun h => hne (List.length_eq_zero_iff.mp h)
  unfold remapPixel at hx
  cases w with
  | none =>
    simp only at hx
    rw [if_pos hsum] at hx
    cases ho : wt.objIdx with
    | true => simp [ho, readHits, Bind.bind, Except.bind] at hx
    | false =>
      rw [ho, hh, readHits_ok n pts f hf] at hx
      simp only [Bind.bind, Except.bind, pure, Except.pure, Except.ok.injEq] at hx
      rw [← hx, pixelHits_eq, List.map_map, zipWith_map_same, npSum_none]
      · rfl
      · exact List.mem_map.mpr ⟨(a, b, c), hc, by simp [hnone, omul]⟩
  | some t =>
    simp only at hx
    rw [if_pos hsum] at hx
    cases ho : wt.objIdx with
    | true => simp [ho, readHits, Bind.bind, Except.bind] at hx
    | false =>
      rw [ho, hh, readHits_ok n pts f hf, readHits_ok n pts t (hw t rfl)] at hx
      simp only [Bind.bind, Except.bind, pure, Except.pure, Except.ok.injEq] at hx
      rw [← hx, pixelHits_eq, List.map_map, zipWith_map_same, zipWith_map_same, npSum_none]
      · rfl
      · exact List.mem_map.mpr ⟨(a, b, c), hc, by simp [hnone, omul]⟩

theorem mc3_opt {C : CubeArgs} {G : Shells} (hC : CubeOk C) (hG : G.Ok) {n : ℕ} (hn : 0 < n)
    (draws : ℕ → ℕ → Draw) (hd : ∀ i j, i < G.numr → j < G.npix → Draws n (draws i j))
    (dirs : ℕ → ℕ → List (ℝ × ℝ)) (hs : Samples G draws dirs)
    (f : Arr3 (Option ℝ)) (hf : Fits C f) (w : Option (Arr3 ℝ)) (hw : ∀ t, w = some t → Fits C t)
    {s s' : State} {out : Arr2 (Option ℝ)} (ho : mcRemap C G n draws f w s = (.ok out, s'))
    {i j : ℕ} (hi : i < G.numr) (hj : j < G.npix) :
    ((∃ pt ∈ G.points i (draws i j).ur (dirs i j), InHoleVoxel C f pt) → out.val i j = none) ∧
    ((∀ pt ∈ G.points i (draws i j).ur (dirs i j), ¬ InHoleVoxel C f pt) →
      out.val i j = valueAt C w (filled3 f) (G.points i (draws i j).ur (dirs i j))) := by
  obtain ⟨hits, hh, s1, e⟩ := mcRemap_run hC hG draws hd dirs hs f w s
  rw [ho] at e
  cases hp : Mc.pack (lens C G draws dirs) with
  | error x => rw [hp] at e; simp at e
  | ok o =>
    rw [hp] at e
    simp only [Prod.mk.injEq] at e
    have ht := (tabulate_inv e.1.symm).2.2 i j hi hj
    refine ⟨fun h => remapPixel3_hole hC hn _ ⟨hits, o⟩ i j (hh i j hi hj) f hf w hw h _ ht, fun h => ?_⟩
    refine pixel_value (G := G) hC hn draws dirs ⟨f.n0, f.n1, f.n2, fun b a c => some (filled3 f b a c)⟩ (filled3 f) hf
      (fun _ _ _ _ _ _ => rfl) w hw (hits := hits) (o := o) (hh i j hi hj) ?_
    rw [← ht]
    symm
    refine remapPixel3_congr hC _ ⟨hits, o⟩ i j (hh i j hi hj) f
      ⟨f.n0, f.n1, f.n2, fun b a c => some (filled3 f b a c)⟩ hf hf w ?_
    intro pt hpt a b c hab
    show _ = some (filled3 f b a c)
    unfold filled3
    cases e : f.val b a c with
    | none => exact absurd ⟨a, b, c, hab, e⟩ (h pt hpt)
    | some x => rfl

end Magpie.Missing

/-! ## Dense grid -/

namespace Magpie.Missing
open Magpie Magpie.Radial Magpie.OneD Magpie.Spec Magpie.Box2Ring Magpie.Cube Magpie.McCube Magpie.DgCube

/-- What the data have at a point: missing in a hole, `0` outside. -/
def ReadsO3 (C : CubeArgs) (A : DgCube.ShellArgs) (f : Arr3 (Option ℝ)) (pt : ℝ × ℝ × ℝ) (g : Option ℝ) : Prop :=
  (∀ n a b c, InRange A n → InCell3 C (image C n pt) a b c → g = f.val a b c) ∧
  ((¬ ∃ n a b c, InRange A n ∧ InCell3 C (image C n pt) a b c) → g = some 0)

theorem cell3_unique {C : CubeArgs} (hC : CubeOk C) {pt : ℝ × ℝ × ℝ} {n m : ℤ × ℤ × ℤ} {a b c a' b' c' : ℕ}
    (h : InCell3 C (image C n pt) a b c) (h' : InCell3 C (image C m pt) a' b' c') : a = a' ∧ b = b' ∧ c = c' := by
  obtain ⟨g, hg⟩ := DgCube.exists_reads hC ⟨0, 1, 2, 1, [0,0,0], 2, 2, (min n.1 m.1, max n.1 m.1),
    (min n.2.1 m.2.1, max n.2.1 m.2.1), (min n.2.2 m.2.2, max n.2.2 m.2.2)⟩ (fun x _ _ => (x:ℝ)) pt
  obtain ⟨g2, hg2⟩ := DgCube.exists_reads hC ⟨0, 1, 2, 1, [0,0,0], 2, 2, (min n.1 m.1, max n.1 m.1),
    (min n.2.1 m.2.1, max n.2.1 m.2.1), (min n.2.2 m.2.2, max n.2.2 m.2.2)⟩ (fun _ x _ => (x:ℝ)) pt
  obtain ⟨g3, hg3⟩ := DgCube.exists_reads hC ⟨0, 1, 2, 1, [0,0,0], 2, 2, (min n.1 m.1, max n.1 m.1),
    (min n.2.1 m.2.1, max n.2.1 m.2.1), (min n.2.2 m.2.2, max n.2.2 m.2.2)⟩ (fun _ _ x => (x:ℝ)) pt
  have i1 : InRange ⟨0, 1, 2, 1, [0,0,0], 2, 2, (min n.1 m.1, max n.1 m.1),
    (min n.2.1 m.2.1, max n.2.1 m.2.1), (min n.2.2 m.2.2, max n.2.2 m.2.2)⟩ n := by simp [InRange]
  have i2 : InRange ⟨0, 1, 2, 1, [0,0,0], 2, 2, (min n.1 m.1, max n.1 m.1),
    (min n.2.1 m.2.1, max n.2.1 m.2.1), (min n.2.2 m.2.2, max n.2.2 m.2.2)⟩ m := by simp [InRange]
  refine ⟨?_, ?_, ?_⟩
  · have := (hg.1 _ _ _ _ i1 h).symm.trans (hg.1 _ _ _ _ i2 h')
    simpa using this
  · have := (hg2.1 _ _ _ _ i1 h).symm.trans (hg2.1 _ _ _ _ i2 h')
    simpa using this
  · have := (hg3.1 _ _ _ _ i1 h).symm.trans (hg3.1 _ _ _ _ i2 h')
    simpa using this

theorem exists_readsO3 {C : CubeArgs} (hC : CubeOk C) (A : DgCube.ShellArgs) (f : Arr3 (Option ℝ)) (pt : ℝ × ℝ × ℝ) :
    ∃ g, ReadsO3 C A f pt g := by
  by_cases h : ∃ n a b c, InRange A n ∧ InCell3 C (image C n pt) a b c
  · obtain ⟨n, a, b, c, hn, hc⟩ := h
    refine ⟨f.val a b c, fun n' a' b' c' hn' hc' => ?_, fun hno => absurd ⟨n, a, b, c, hn, hc⟩ hno⟩
    obtain ⟨rfl, rfl, rfl⟩ := cell3_unique hC hc hc'
    rfl
  · exact ⟨some 0, fun n a b c hn hc => absurd ⟨n, a, b, c, hn, hc⟩ h, fun _ => rfl⟩

theorem readsO3_none {C : CubeArgs} {A : DgCube.ShellArgs} {f : Arr3 (Option ℝ)} {pt : ℝ × ℝ × ℝ} {g : Option ℝ}
    (h : ReadsO3 C A f pt g) : g = none ↔ InHoleCell C A f pt := by
  constructor
  · intro e
    by_cases hc : ∃ n a b c, InRange A n ∧ InCell3 C (image C n pt) a b c
    · obtain ⟨n, a, b, c, hn, hc⟩ := hc
      exact ⟨n, a, b, c, hn, hc, (h.1 n a b c hn hc).symm.trans e⟩
    · rw [h.2 hc] at e; simp at e
  · rintro ⟨n, a, b, c, hn, hc, e⟩
    rw [h.1 n a b c hn hc, e]

theorem readsO3_good {C : CubeArgs} {A : DgCube.ShellArgs} {f : Arr3 (Option ℝ)} (hf : HoldsSome C f)
    {pt : ℝ × ℝ × ℝ} {x : ℝ} (h : ReadsO3 C A f pt (some x)) : ¬ isBad x := by
  by_cases hc : ∃ n a b c, InRange A n ∧ InCell3 C (image C n pt) a b c
  · obtain ⟨n, a, b, c, hn, hc⟩ := hc
    exact hf.good a b c hc.1.1 hc.2.1.1 hc.2.2.1 x (h.1 n a b c hn hc).symm
  · have := h.2 hc
    simp only [Option.some.injEq] at this
    rw [this]
    exact zero_good

theorem readsO3_reads {C : CubeArgs} {A : DgCube.ShellArgs} {f : Arr3 (Option ℝ)} {pt : ℝ × ℝ × ℝ} {o : Option ℝ}
    {g : ℝ} (h : ReadsO3 C A f pt o) (hn : ¬ InHoleCell C A f pt) (hg : DgCube.Reads C A (filled3 f) pt g) :
    o = some g := by
  by_cases hc : ∃ n a b c, InRange A n ∧ InCell3 C (image C n pt) a b c
  · obtain ⟨n, a, b, c, hr, hc⟩ := hc
    rw [h.1 n a b c hr hc, hg.1 n a b c hr hc]
    unfold filled3
    cases e : f.val a b c with
    | none => exact absurd ⟨n, a, b, c, hr, hc, e⟩ hn
    | some x => rfl
  · rw [h.2 hc, hg.2 hc]

theorem highres_opt3 (hp : Hp) {C : CubeArgs} {A : DgCube.ShellArgs} (hC : CubeOk C) {cs : List (ℝ × ℝ × ℝ)}
    (hcs : ∀ c, c ∈ cs ↔ ∃ n, InRange A n ∧ c = image C n (center3 A.center))
    {f : Arr3 (Option ℝ)} (hf : HoldsSome C f) {k q : ℕ} (hk : k < denseNum A) {g : Option ℝ}
    (hg : ReadsO3 C A f (densePoint hp A k q) g) :
    highres C.grid f ((mids (linspace A.rmin A.rmax (denseNum A + 1))).getD k 0)
      (hp.pix2ang (A.nside*A.rebinShell) q) cs (some 0) = .ok g := by
  apply highres_ok
  · intro c hc a b d h
    obtain ⟨n, hn, rfl⟩ := (hcs c).mp hc
    rw [cellOf_iff hC, point_image hp C A n hk] at h
    have := hf.n0; have := hf.n1; have := hf.n2
    have h0 := h.1.1; have h1 := h.2.1.1; have h2 := h.2.2.1
    unfold Arr3.get
    rw [if_pos ⟨by omega, by omega, by omega⟩, hg.1 n a b d hn h]
  · intro hno
    rw [hg.2]
    rintro ⟨n, a, b, d, hn, h⟩
    rw [← point_image hp C A n hk, ← cellOf_iff hC] at h
    rw [hno _ ((hcs _).mpr ⟨n, hn, rfl⟩)] at h
    cases h

/-- `ud_grade` with some values missing and some not. -/
theorem udGrade_hole (l : List (Option ℝ)) (h0 : none ∈ l) (x : ℝ) (hx : some x ∈ l) (hb : ¬ isBad x) :
    udGrade l = none := by
  have hg : (open Classical in (l.filterMap id).filter fun x => decide (¬ isBad x)) ≠ [] := by
    refine List.ne_nil_of_mem (a := x) (List.mem_filter.mpr ⟨List.mem_filterMap.mpr ⟨_, hx, rfl⟩, by simpa using hb⟩)
  unfold udGrade
  split
  · rename_i v
    simp only [List.mem_singleton] at h0 hx
    rw [← h0] at hx
    cases hx
  · simp only
    rw [if_neg hg, if_pos h0]

/-- `ud_grade` with at least two values, all missing. -/
theorem udGrade_all (l : List (Option ℝ)) (h2 : 2 ≤ l.length) (h : ∀ o ∈ l, o = none) : udGrade l = some unseen := by
  have hg : l.filterMap id = [] := by
    rw [List.filterMap_eq_nil_iff]
    exact fun o ho => h o ho
  unfold udGrade
  split
  · simp at h2
  · simp only [hg]
    rw [if_pos (by simp)]

theorem udGrade_one (l : List (Option ℝ)) (h1 : l.length = 1) (h : none ∈ l) : udGrade l = none := by
  obtain ⟨v, rfl⟩ := List.length_eq_one_iff.mp h1
  simp only [List.mem_singleton] at h
  subst h
  rfl

theorem dg3_opt (hp : Hp) {C : CubeArgs} {A : DgCube.ShellArgs} (hC : CubeOk C) (hA : ShellOk A) (hhp : HpOk hp A)
    (f : Arr3 (Option ℝ)) (hf : HoldsSome C f) (s : DgCube.State) :
    ∃ o : ℕ → ℕ → Option ℝ, (∀ k q, ReadsO3 C A f (densePoint hp A k q) (o k q)) ∧
    ∃ out s', dgRemap hp C A f s = (.ok out, s') ∧ out.rows = A.numr.toNat ∧ out.cols = npixOf A.nside ∧
      ∀ i p, i < A.numr.toNat → p < npixOf A.nside →
        ((∃ k, k < A.rebinR.toNat ∧ udGrade ((subpix hp A p).map (o (i*A.rebinR.toNat + k))) = none) →
          out.val i p = none) ∧
        (∀ L : ℕ → ℝ, (∀ k, k < A.rebinR.toNat →
            udGrade ((subpix hp A p).map (o (i*A.rebinR.toNat + k))) = some (L k)) →
          out.val i p = some ((∑ k ∈ Finset.range A.rebinR.toNat, denseVol A (i*A.rebinR.toNat + k)*L k)/
            ∑ k ∈ Finset.range A.rebinR.toNat, denseVol A (i*A.rebinR.toNat + k))) := by
  obtain ⟨cs, s', e, hs⟩ := DgCube.setup_run hC hA s
  choose o ho using fun k q => exists_readsO3 hC A f (densePoint hp A k q)
  obtain ⟨hi, ehi, hir, hic, hiv⟩ := tabulate_ok (denseNum A) (npixOf (A.nside*A.rebinShell)) (fun i q =>
      highres C.grid f ((mids (linspace A.rmin A.rmax (denseNum A + 1))).getD i 0)
        (hp.pix2ang (A.nside*A.rebinShell) q) cs (some 0)) (fun k q => o k q) none
    (fun k q hk _ => highres_opt3 hp hC hs.mem hf hk (ho k q))
  have hrun := DgCube.remap_run hp hA hs f _ ehi
  simp only at hrun
  have hnp := DgCube.npix_pos hA.nside
  have hnum : denseNum A = A.numr.toNat*A.rebinR.toNat := Nat.mul_comm _ _
  obtain ⟨r3, er3, hr3⟩ := reshape3_rows (⟨denseNum A, 1, fun i _ => some ((List.zipWith (fun b a => b^3 - a^3)
          (linspace A.rmin A.rmax (denseNum A + 1)).tail
          (linspace A.rmin A.rmax (denseNum A + 1)).dropLast).getD i 0)⟩ : Arr2 (Option ℝ)) A.numr.toNat
            A.rebinR.toNat hnum (by simp)
  obtain ⟨s3, es3, hs3⟩ := reshape3_rows (⟨denseNum A, npixOf A.nside, fun i p =>
        omul (udGrade ((subpix hp A p).map (hi.val i)))
          ((List.zipWith (fun b a => b^3 - a^3) (linspace A.rmin A.rmax (denseNum A + 1)).tail
            (linspace A.rmin A.rmax (denseNum A + 1)).dropLast).getD i 0)⟩ : Arr2 (Option ℝ)) A.numr.toNat
            A.rebinR.toNat hnum hnp
  simp only at er3 es3
  rw [er3] at hrun
  simp only [bind, Except.bind] at hrun
  rw [es3] at hrun
  simp only [pure, Except.pure] at hrun
  have erun : dgRemap hp C A f s = DgCube.remap hp f s' := by
    have e' := e
    unfold dgRemap
    simp only [Meth.bind_apply] at e' ⊢
    cases h1 : DgCube.setupCube C s with
    | mk a b =>
      rw [h1] at e'
      cases a with
      | error _ => simp at e'
      | ok _ =>
        simp only at e' ⊢
        rw [e']
  refine ⟨o, ho, _, s', by rw [erun, hrun], rfl, rfl, ?_⟩
  intro i p hi' hp'
  have hm : 0 < A.rebinR.toNat := by have := hA.rebinR; omega
  have hlt : ∀ k, k < A.rebinR.toNat → i*A.rebinR.toNat + k < denseNum A := by
    intro k hk
    rw [hnum]
    have : (i+1)*A.rebinR.toNat ≤ A.numr.toNat*A.rebinR.toNat := Nat.mul_le_mul_right _ hi'
    rw [Nat.succ_mul] at this
    omega
  have hud : ∀ k, k < A.rebinR.toNat → udGrade ((subpix hp A p).map (hi.val (i*A.rebinR.toNat + k)))
      = udGrade ((subpix hp A p).map (o (i*A.rebinR.toNat + k))) := by
    intro k hk
    congr 1
    apply List.map_congr_left
    intro q hq
    rw [hiv _ _ (hlt k hk) ((hhp p hp').2 q hq)]
  simp only
  constructor
  · rintro ⟨k, hk, hn⟩
    rw [npSum_none]
    · rfl
    · refine List.mem_map.mpr ⟨k, List.mem_range.mpr hk, ?_⟩
      rw [hs3 i k p hp']
      simp only
      rw [hud k hk, hn]
      rfl
  · intro L hL
    have hsum : 0 < ∑ k ∈ Finset.range A.rebinR.toNat, wt A (i*A.rebinR.toNat + k) :=
      Finset.sum_pos (fun k _ => wt_pos hA _) ⟨0, by simpa using hm⟩
    rw [npSum_range_congr _ _ fun k => wt A (i*A.rebinR.toNat + k)*L k,
      npSum_range_congr _ _ fun k => wt A (i*A.rebinR.toNat + k)]
    · unfold odiv fdiv
      simp only
      rw [if_neg hsum.ne']
      simp only [denseVol_eq, mul_assoc]
      rw [← Finset.mul_sum, ← Finset.mul_sum, ← Finset.mul_sum, ← Finset.mul_sum,
        mul_div_mul_left _ _ (by norm_num), mul_div_mul_left _ _ Real.pi_pos.ne']
    · intro k hk
      rw [hr3 i k 0 (by simp)]
      simp only
      rw [rw_getD A _ (hlt k hk)]
    · intro k hk
      rw [hs3 i k p hp']
      simp only
      rw [rw_getD A _ (hlt k hk), hud k hk, hL k hk]
      simp [omul, mul_comm]

end Magpie.Missing
