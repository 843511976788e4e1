import Verif.Props.Box2RingCalls

/-!
# `Box2Ring`: masking and set-up
-/

set_option linter.unusedSimpArgs false
set_option linter.unusedVariables false
set_option linter.unusedSectionVars false

namespace Magpie.Props
open Magpie Magpie.Radial Magpie.OneD Magpie.Spec Magpie.Box2Ring Finset

/-! ## C75 -/

theorem masked_generic {X : Type} {getMask : Meth (Box2Ring.State X) Unit} {G : Box2Ring.State X → Py (Arr2 ℝ)}
    (hG : MaskBy getMask G) (s : Box2Ring.State X) (f : Arr2 (Option ℝ)) (sigma w : Option (Arr2 ℝ))
    (out : Box2Ring.Radial) (M : Arr2 ℝ) (v : ℕ → ℕ → ℝ)
    (ho : (Box2Ring.polar2radial getMask f sigma w s).1 = .ok out)
    (hM : (Box2Ring.polar2radial getMask f sigma w s).2.maskInBound = some M) (h01 : Mask01 M)
    (hrows : 0 < f.rows) (hf : f.sameShape M) (hs : ∀ t, sigma = some t → t.sameShape M)
    (hw : ∀ t, w = some t → t.sameShape M)
    (hv : ∀ i j, i < f.rows → j < f.cols → M.val i j = 1 → f.val i j = some (v i j)) :
    out.f = (List.range f.cols).map fun j =>
      fdiv (∑ i ∈ range f.rows, effW M w i j*v i j) (∑ i ∈ range f.rows, effW M w i j) := by
  obtain ⟨a, px, p, M', h1, h2, h3, h4, h5, h6, h7⟩ := polar2radial_ok hG f sigma w s out ho
  rw [hM, Option.some.injEq] at h7
  subst h7
  exact radialOf_formula p a px M h01 f sigma w v hrows hf hs hw hv out h6

/-- C75 for the dense grid class, if the mask used has only the values `0` and `1`: the profile at each
radius is the weighted mean over the pixels with mask `1` (NaN if their weights add up to zero). `f` may be
anything, also NaN, in the other pixels. Missing: masks with values between `0` and `1`, see
`C75_violated`; and the caller's weights are modified, see `C75_caller_w_violated`. -/
theorem C75_dg_partial (s : Dg.State) (f : Arr2 (Option ℝ)) (sigma w : Option (Arr2 ℝ))
    (out : Box2Ring.Radial) (M : Arr2 ℝ) (v : ℕ → ℕ → ℝ)
    (ho : (Dg.polar2radial f sigma w s).1 = .ok out)
    (hM : (Dg.polar2radial f sigma w s).2.maskInBound = some M) (h01 : Mask01 M)
    (hrows : 0 < f.rows) (hf : f.sameShape M) (hs : ∀ t, sigma = some t → t.sameShape M)
    (hw : ∀ t, w = some t → t.sameShape M)
    (hv : ∀ i j, i < f.rows → j < f.cols → M.val i j = 1 → f.val i j = some (v i j)) :
    out.f = (List.range f.cols).map fun j =>
      fdiv (∑ i ∈ range f.rows, effW M w i j*v i j) (∑ i ∈ range f.rows, effW M w i j) :=
  masked_generic Dg.maskBy s f sigma w out M v ho hM h01 hrows hf hs hw hv

/-- C75 for the Monte Carlo class, after any sequence of calls: the profile at each radius is the weighted
mean over the pixels with mask `1`. Missing: the caller's weights are modified, see
`C75_caller_w_violated`. -/
theorem C75_mc_partial (h : List (Call Mc.Setup)) (f : Arr2 (Option ℝ)) (sigma w : Option (Arr2 ℝ))
    (out : Box2Ring.Radial) (M : Arr2 ℝ) (v : ℕ → ℕ → ℝ)
    (ho : (Mc.polar2radial f sigma w (Mc.cls.run h init).2).1 = .ok out)
    (hM : (Mc.polar2radial f sigma w (Mc.cls.run h init).2).2.maskInBound = some M)
    (hrows : 0 < f.rows) (hf : f.sameShape M) (hs : ∀ t, sigma = some t → t.sameShape M)
    (hw : ∀ t, w = some t → t.sameShape M)
    (hv : ∀ i j, i < f.rows → j < f.cols → M.val i j = 1 → f.val i j = some (v i j)) :
    out.f = (List.range f.cols).map fun j =>
      fdiv (∑ i ∈ range f.rows, effW M w i j*v i j) (∑ i ∈ range f.rows, effW M w i j) := by
  refine masked_generic Mc.maskBy _ f sigma w out M v ho hM ?_ hrows hf hs hw hv
  have e := Mc.run_mask01 (h ++ [.radial f sigma w]) init (by intro M h; cases h) M
  rw [run_append] at e
  exact e hM

/-- The mask of the Monte Carlo class has only the values `0` and `1`, after any sequence of calls. -/
theorem C75_mc_mask (h : List (Call Mc.Setup)) (M : Arr2 ℝ)
    (hM : (Mc.cls.run h init).2.maskInBound = some M) : Mask01 M :=
  Mc.run_mask01 h init (by intro M h; cases h) M hM

/-! ### A mask between zero and one -/

/-- A box `[-1, 3) × [-2, 2)`. -/
def exBox3 : BoxArgs := ⟨-1, 3, 4, -2, 2, 4⟩

/-- Two thin rings around the circle of radius `1` in three sectors. The dense points are at the angles
`n π/3`. -/
noncomputable def exPolar3 : PolarArgs :=
  { rmin := 1, rmax := 6/5, numr := 2, nump := 3, phiShift := -(Real.pi/6) }

theorem exBox3_ok : BoxOk exBox3 := by
  constructor <;> simp [exBox3] <;> norm_num

theorem exPolar3_ok : PolarOk exPolar3 := by
  have := Real.pi_pos
  constructor <;> simp [exPolar3] <;> first | positivity | norm_num

theorem exPolar3_nums : exPolar3.numr.toNat = 2 ∧ exPolar3.nump.toNat = 3 := by simp [exPolar3]

theorem exPolar3_point (n q : ℕ) (hq : q < 4) : ∃ r, 1 < r ∧ r < 6/5 ∧
    Dg.densePoint exPolar3 2 2 n q = (r*Real.cos (n*(Real.pi/3)), r*Real.sin (n*(Real.pi/3))) := by
  have e : midAt (0:ℝ) (2*Real.pi) 6 n + -(Real.pi/6) = n*(Real.pi/3) := by
    unfold midAt edgeAt
    push_cast
    ring
  refine ⟨midAt 1 (6/5) 4 q, ?_, ?_, ?_⟩
  · unfold midAt edgeAt
    push_cast
    have : (0:ℝ) ≤ q := by positivity
    linarith
  · unfold midAt edgeAt
    push_cast
    have : (q:ℝ) ≤ 3 := by exact_mod_cast (show q ≤ 3 by omega)
    linarith
  · unfold Dg.densePoint
    simp only [exPolar3, List.getD_cons_zero, List.getD_cons_succ, Int.reduceToNat, Nat.reduceMul, add_zero, e]

theorem exPolar3_cos (n : ℕ) (hn : n < 6) :
    (n = 3 → Real.cos (n*(Real.pi/3)) = -1) ∧ (n ≠ 3 → -(1/2) ≤ Real.cos (n*(Real.pi/3))) := by
  have h3 := Real.cos_pi_div_three
  have h2 : Real.cos (2*(Real.pi/3)) = -(1/2) := by
    rw [show 2*(Real.pi/3) = Real.pi - Real.pi/3 by ring, Real.cos_pi_sub, h3]
  have h4 : Real.cos (4*(Real.pi/3)) = -(1/2) := by
    rw [show 4*(Real.pi/3) = Real.pi/3 + Real.pi by ring, Real.cos_add_pi, h3]
  have h5 : Real.cos (5*(Real.pi/3)) = 1/2 := by
    rw [show 5*(Real.pi/3) = 2*Real.pi - Real.pi/3 by ring, Real.cos_two_pi_sub, h3]
  have h6 : Real.cos (3*(Real.pi/3)) = -1 := by
    rw [show 3*(Real.pi/3) = Real.pi by ring, Real.cos_pi]
  constructor
  · rintro rfl
    push_cast
    exact h6
  · intro h
    interval_cases n
    · norm_num
    · norm_num [h3]
    · push_cast; rw [h2]
    · exact absurd rfl h
    · push_cast; rw [h4]
    · push_cast; rw [h5]; norm_num

theorem exPolar3_in (n q : ℕ) (hn : n < 6) (hq : q < 4) :
    Dg.InBox exBox3 (Dg.densePoint exPolar3 2 2 n q) ↔ n ≠ 3 := by
  obtain ⟨r, h1, h2, e⟩ := exPolar3_point n q hq
  obtain ⟨c1, c2⟩ := exPolar3_cos n hn
  rw [e]
  unfold Dg.InBox
  simp only [exBox3]
  have s1 := Real.sin_le_one (n*(Real.pi/3))
  have s2 := Real.neg_one_le_sin (n*(Real.pi/3))
  have c3 := Real.cos_le_one (n*(Real.pi/3))
  constructor
  · rintro ⟨h, -⟩ h3
    rw [c1 h3] at h
    linarith
  · intro h3
    have := c2 h3
    refine ⟨?_, ?_, ?_, ?_⟩ <;> nlinarith

theorem exPolar3_mask {s : Dg.State} (hs : Dg.IsSetup exBox3 exPolar3 2 2 s) :
    ∃ M, Dg.maskG s = .ok M ∧ M.rows = 3 ∧ M.cols = 2 ∧ (∀ i j, i < 3 → j < 2 → M.val i j ≠ 0) ∧
      M.val 1 0 ≠ 1 := by
  have hA := exPolar3_ok
  have hB := exBox3_ok
  obtain ⟨hr, hp⟩ := exPolar3_nums
  obtain ⟨out, h1, h2, h3, h4⟩ := Dg.remap1_mean hB hA (show 1 ≤ 2 by norm_num) hs
    ⟨exBox3.numy.toNat, exBox3.numx.toNat, fun _ _ => some 1⟩ (fun _ _ => 1) rfl rfl (fun _ _ _ _ => rfl)
    (fun n _ => if n = 3 then 0 else 1) (by
      intro n q hn hq
      rw [hp] at hn
      rw [hr] at hq
      have hin := exPolar3_in n q (by omega) (by omega)
      refine ⟨fun a b ha hb => ?_, fun hno => ?_⟩
      · show (if n = 3 then (0:ℝ) else 1) = 1
        rw [if_neg]
        exact hin.mp ((Dg.inBox_iff hB _).mp ⟨a, b, ha, hb⟩)
      · show (if n = 3 then (0:ℝ) else 1) = 0
        rw [if_pos]
        by_contra hc
        exact hno ((Dg.inBox_iff hB _).mpr (hin.mpr hc)))
  rw [hp] at h2
  rw [hr] at h3
  have hpos : ∀ n q, 0 < Dg.denseArea exPolar3 2 2 n q := fun n q => Dg.denseArea_pos hA (by norm_num) n q
  refine ⟨⟨out.rows, out.cols, fun i j => (out.val i j).getD 0⟩, ?_, h2, h3, ?_, ?_⟩
  · unfold Dg.maskG
    rw [hs.box, hs.polar]
    simp only
    have er : exBox3.box.x2d.rows = exBox3.numy.toNat := length_mids_linspace _ _ _
    have ec : exBox3.box.x2d.cols = exBox3.numx.toNat := length_mids_linspace _ _ _
    rw [er, ec]
    show ((do
      let m ← (Dg.remap1 ⟨exBox3.numy.toNat, exBox3.numx.toNat, fun _ _ => some 1⟩ s).1
      return (⟨m.rows, m.cols, fun i j => (m.val i j).getD 0⟩ : Arr2 ℝ)) : Py (Arr2 ℝ)) = _
    rw [h1]
    rfl
  · intro i j hi hj
    simp only
    rw [h4 i j (by omega) (by omega)]
    have hp1 := Dg.areaSum_pos hA (show 1 ≤ 2 by norm_num) i j
    refine ne_of_gt (div_pos ?_ hp1)
    unfold Dg.areaSum
    refine sum_pos' (fun k _ => sum_nonneg fun l _ => ?_) ⟨0, by simp, ?_⟩
    · have := hpos (i*2 + k) (j*2 + l)
      beta_reduce
      split_ifs <;> simp [this.le]
    · refine sum_pos (fun l _ => ?_) ⟨0, by simp⟩
      have := hpos (i*2 + 0) (j*2 + l)
      beta_reduce
      rw [if_neg (by omega)]
      simpa using this
  · simp only
    rw [h4 1 0 (by omega) (by omega)]
    have hp1 := Dg.areaSum_pos hA (show 1 ≤ 2 by norm_num) 1 0
    refine ne_of_lt ?_
    rw [Option.getD_some, div_lt_one hp1]
    unfold Dg.areaSum
    simp only [sum_range_succ, sum_range_zero]
    norm_num
    have h1 := hpos 3 0
    have h2 := hpos 3 1
    linarith

/-- C75 does not hold for the dense grid class: on an object just set up, the value of `f` in a pixel whose
mask is not `1` changes the profile returned. -/
theorem C75_violated : ∃ (f f' : Arr2 (Option ℝ)) (M : Arr2 ℝ) (out out' : Box2Ring.Radial) (s : Dg.State),
    s = (Dg.cls.run [.setup (.box exBox3), .setup (.polar exPolar3 2 2)] init).2 ∧
    (Dg.polar2radial f none none s).1 = .ok out ∧ (Dg.polar2radial f' none none s).1 = .ok out' ∧
    (Dg.polar2radial f none none s).2.maskInBound = some M ∧
    (Dg.polar2radial f' none none s).2.maskInBound = some M ∧
    M.val 1 0 ≠ 1 ∧ (∀ i j, (i, j) ≠ (1, 0) → f.val i j = f'.val i j) ∧ f.sameShape f' ∧ out.f ≠ out'.f := by
  have hB := exBox3_ok
  have hA := exPolar3_ok
  obtain ⟨hr, hp⟩ := exPolar3_nums
  obtain ⟨s, e, hs, c1, c2, c3⟩ := Dg.setup_run hB.numx hB.numy hA (by simp [exPolar3]) (by simp [exPolar3]) 2 2 init
  obtain ⟨M, hM, hMr, hMc, hM0, hM1⟩ := exPolar3_mask hs
  obtain ⟨a, ha, -⟩ := area_ok exPolar3 hA
  obtain ⟨px, hpx, -⟩ := pix_ok exBox3 hB
  have rs : s = (Dg.cls.run [.setup (.box exBox3), .setup (.polar exPolar3 2 2)] init).2 := by
    have : (Dg.setupPolar exPolar3 2 2 (setupBox exBox3 init).2).2 = s := by
      simp only [Meth.bind_apply] at e
      rw [setupBox_ok hB.numx hB.numy] at e ⊢
      simp only at e ⊢
      rw [e]
    rw [← this]
    rfl
  have run : ∀ v : ℕ → ℕ → ℝ, polar2radial Dg.getMaskInBound ⟨3, 2, fun i j => some (v i j)⟩ none none s =
      (.ok ⟨(List.range 2).map fun j => fdiv (∑ i ∈ range 3, v i j) (3:ℕ), none, none⟩,
        { s with area2d := some a, pixarea := some px, maskInBound := some M }) := by
    intro v
    have hsh : (⟨3, 2, fun i j => some (v i j)⟩ : Arr2 (Option ℝ)).sameShape (mkPolar (linEdges exPolar3) exPolar3).p2d :=
      ⟨hp.symm.trans (Dg.linEdges_pmid_length exPolar3).symm, hr.symm.trans (Dg.linEdges_rmid_length exPolar3).symm⟩
    rw [polar2radial_steps Dg.maskBy]
    unfold p2rSteps
    have ea : areaOf s = .ok a := by
      unfold areaOf; rw [c1, hs.edges]; exact ha
    have ep : pixOf s = .ok px := by
      unfold pixOf; rw [c2, hs.box]; exact hpx
    have em : maskOf Dg.maskG s = .ok M := by
      unfold maskOf; rw [c3]; exact hM
    rw [ea, ep, hs.polar]
    simp only
    rw [if_pos hsh, em]
    simp only
    unfold radialOf
    rw [applyMask_all (fun i j hi hj => hM0 i j (hMr ▸ hi) (hMc ▸ hj))]
    simp only [bind, Except.bind, pure, Except.pure]
    rw [radial_none _ v (fun _ _ _ _ => rfl)]
  have r0 := run (fun _ _ => 0)
  have r1 := run (fun i j => if i = 1 ∧ j = 0 then 1 else 0)
  refine ⟨⟨3, 2, fun _ _ => some 0⟩, ⟨3, 2, fun i j => some (if i = 1 ∧ j = 0 then 1 else 0)⟩, M,
    ⟨(List.range 2).map fun j => fdiv (∑ i ∈ range 3, (0:ℝ)) (3:ℕ), none, none⟩,
    ⟨(List.range 2).map fun j => fdiv (∑ i ∈ range 3, if i = 1 ∧ j = 0 then (1:ℝ) else 0) (3:ℕ), none, none⟩,
    s, rs, ?_, ?_, ?_, ?_, hM1, ?_, ?_, ?_⟩
  · unfold Dg.polar2radial; rw [r0]
  · unfold Dg.polar2radial; rw [r1]
  · unfold Dg.polar2radial; rw [r0]
  · unfold Dg.polar2radial; rw [r1]
  · intro i j hij
    simp only [ne_eq, Prod.mk.injEq] at hij
    simp only [if_neg hij]
  · exact ⟨rfl, rfl⟩
  · intro h
    simp [List.range_succ, fdiv, sum_range_succ] at h

/-! ### The caller's weights -/

/-- C75 does not hold for the caller's weights: whenever the mask has a zero, a call with weights `w`
multiplies the caller's array by the mask (both classes; here any method `getMask` to compute the mask). -/
theorem C75_caller_w {X : Type} {getMask : Meth (Box2Ring.State X) Unit} {G : Box2Ring.State X → Py (Arr2 ℝ)}
    (hG : MaskBy getMask G) (s : Box2Ring.State X) (f : Arr2 (Option ℝ)) (sigma : Option (Arr2 ℝ)) (w : Arr2 ℝ)
    (out : Box2Ring.Radial) (M : Arr2 ℝ)
    (ho : (Box2Ring.polar2radial getMask f sigma (some w) s).1 = .ok out)
    (hM : (Box2Ring.polar2radial getMask f sigma (some w) s).2.maskInBound = some M)
    (hf : f.sameShape M) (hs : ∀ t, sigma = some t → t.sameShape M) (hw : w.sameShape M)
    (i0 j0 : ℕ) (hi : i0 < M.rows) (hj : j0 < M.cols) (h0 : M.val i0 j0 = 0) :
    out.callerW = some ⟨w.rows, w.cols, fun i j => w.val i j*M.val i j⟩ := by
  obtain ⟨a, px, p, M', h1, h2, h3, h4, h5, h6, h7⟩ := polar2radial_ok hG f sigma (some w) s out ho
  rw [hM, Option.some.injEq] at h7
  subst h7
  exact radialOf_callerW p a px M hi hj h0 f sigma w hf hs hw out h6

/-- A polar grid far from the box. -/
noncomputable def exPolar4 : PolarArgs := { rmin := 0, rmax := 1, numr := 2, nump := 3, center := [100, 0] }

theorem exPolar4_ok : PolarOk exPolar4 := by
  have := Real.pi_pos
  constructor <;> simp [exPolar4] <;> positivity

theorem exPolar4_out (n q : ℕ) (hq : q < 1*exPolar4.numr.toNat) :
    ¬ Dg.InBox exBox (Dg.densePoint exPolar4 1 1 n q) := by
  have hq2 : q = 0 ∨ q = 1 := by simp [exPolar4] at hq; omega
  have hr : 0 ≤ midAt (0:ℝ) 1 2 q ∧ midAt (0:ℝ) 1 2 q ≤ 1 := by
    rcases hq2 with rfl | rfl <;> norm_num [midAt, edgeAt]
  unfold Dg.InBox Dg.densePoint
  simp only [exPolar4, exBox, List.getD_cons_zero, List.getD_cons_succ, one_mul, Int.reduceToNat]
  set r := midAt (0:ℝ) 1 2 q
  set p := midAt (0:ℝ) (2*Real.pi) 3 n + 0
  have c2 := Real.neg_one_le_cos p
  obtain ⟨hr0, hr1⟩ := hr
  rintro ⟨-, h, -⟩
  nlinarith

/-- C75 for the caller's weights: an example on an object just set up, where an array of ones passed as
weights contains zeros after the call. -/
theorem C75_caller_w_violated : ∃ (f : Arr2 (Option ℝ)) (w w' : Arr2 ℝ) (out : Box2Ring.Radial),
    (Dg.polar2radial f none (some w)
      (Dg.cls.run [.setup (.box exBox), .setup (.polar exPolar4 1 1)] init).2).1 = .ok out ∧
    out.callerW = some w' ∧ w.rows = 3 ∧ w.cols = 2 ∧ (∀ i j, w.val i j = 1) ∧
    (∀ i j, i < 3 → j < 2 → w'.val i j = 0) := by
  have hB := exBox_ok
  have hA := exPolar4_ok
  have hrp : exPolar4.numr.toNat = 2 ∧ exPolar4.nump.toNat = 3 := by simp [exPolar4]
  obtain ⟨hr, hp⟩ := hrp
  obtain ⟨s, e, hs, c1, c2, c3⟩ := Dg.setup_run hB.numx hB.numy hA (by simp [exPolar4]) (by simp [exPolar4]) 1 1 init
  obtain ⟨a, ha, -⟩ := area_ok exPolar4 hA
  obtain ⟨px, hpx, -⟩ := pix_ok exBox hB
  have rs : (Dg.cls.run [.setup (.box exBox), .setup (.polar exPolar4 1 1)] init).2 = s := by
    have : (Dg.setupPolar exPolar4 1 1 (setupBox exBox init).2).2 = s := by
      simp only [Meth.bind_apply] at e
      rw [setupBox_ok hB.numx hB.numy] at e ⊢
      simp only at e ⊢
      rw [e]
    rw [← this]
    rfl
  obtain ⟨m, h1, h2, h3, h4⟩ := Dg.remap1_mean hB hA (le_refl 1) hs
    ⟨exBox.numy.toNat, exBox.numx.toNat, fun _ _ => some 1⟩ (fun _ _ => 1) rfl rfl (fun _ _ _ _ => rfl)
    (fun _ _ => 0) (by
      intro n q hn hq
      refine ⟨fun a b ha hb => ?_, fun _ => rfl⟩
      exact absurd ((Dg.inBox_iff hB _).mp ⟨a, b, ha, hb⟩) (exPolar4_out n q hq))
  rw [hp] at h2
  rw [hr] at h3
  have hM : Dg.maskG s = .ok ⟨m.rows, m.cols, fun i j => (m.val i j).getD 0⟩ := by
    unfold Dg.maskG
    rw [hs.box, hs.polar]
    simp only
    have er : exBox.box.x2d.rows = exBox.numy.toNat := length_mids_linspace _ _ _
    have ec : exBox.box.x2d.cols = exBox.numx.toNat := length_mids_linspace _ _ _
    rw [er, ec]
    show ((do
      let m ← (Dg.remap1 ⟨exBox.numy.toNat, exBox.numx.toNat, fun _ _ => some 1⟩ s).1
      return (⟨m.rows, m.cols, fun i j => (m.val i j).getD 0⟩ : Arr2 ℝ)) : Py (Arr2 ℝ)) = _
    rw [h1]
    rfl
  have hm0 : ∀ i j, i < 3 → j < 2 → m.val i j = some 0 := by
    intro i j hi hj
    rw [h4 i j (by omega) (by omega)]
    simp [Dg.areaSum]
  have hsh : (⟨3, 2, fun _ _ => some 0⟩ : Arr2 (Option ℝ)).sameShape (mkPolar (linEdges exPolar4) exPolar4).p2d :=
    ⟨hp.symm.trans (Dg.linEdges_pmid_length exPolar4).symm, hr.symm.trans (Dg.linEdges_rmid_length exPolar4).symm⟩
  have ea : areaOf s = .ok a := by
    unfold areaOf; rw [c1, hs.edges]; exact ha
  have ep : pixOf s = .ok px := by
    unfold pixOf; rw [c2, hs.box]; exact hpx
  have em : maskOf Dg.maskG s = .ok ⟨m.rows, m.cols, fun i j => (m.val i j).getD 0⟩ := by
    unfold maskOf; rw [c3]; exact hM
  have ho : ∃ out, (Dg.polar2radial ⟨3, 2, fun _ _ => some 0⟩ none (some ⟨3, 2, fun _ _ => 1⟩) s).1 = .ok out := by
    unfold Dg.polar2radial
    rw [polar2radial_steps Dg.maskBy]
    unfold p2rSteps
    rw [ea, ep, hs.polar]
    simp only
    rw [if_pos hsh, em]
    simp only
    unfold radialOf
    rw [applyMask_some (i0 := 0) (j0 := 0) (by simp [h2]) (by simp [h3])
      (by simp [hm0 0 0 (by norm_num) (by norm_num)]) _ ⟨h2.symm, h3.symm⟩ none (by simp) _
      (by intro t ht; cases ht; exact ⟨h2.symm, h3.symm⟩)]
    simp only [bind, Except.bind, pure, Except.pure, Option.map_none]
    rw [radial_some _ _ (fun _ _ => 0) (fun _ _ => 0) ⟨rfl, rfl⟩
      (by intro i j hi hj; simp [omul, hm0 i j hi hj]) (by intro i j hi hj; simp [hm0 i j hi hj])]
    exact ⟨_, rfl⟩
  obtain ⟨out, ho⟩ := ho
  have hmask : (Dg.polar2radial ⟨3, 2, fun _ _ => some 0⟩ none (some ⟨3, 2, fun _ _ => 1⟩) s).2.maskInBound
      = some ⟨m.rows, m.cols, fun i j => (m.val i j).getD 0⟩ := by
    obtain ⟨-, -, -, M', -, -, -, -, h5, -, h7⟩ := polar2radial_ok Dg.maskBy _ _ _ s out ho
    rw [em, Except.ok.injEq] at h5
    rw [h5]
    exact h7
  have hw := C75_caller_w Dg.maskBy s _ none _ out _ ho hmask ⟨h2.symm, h3.symm⟩ (by simp) ⟨h2.symm, h3.symm⟩ 0 0
    (by simp [h2]) (by simp [h3]) (by simp [hm0 0 0 (by norm_num) (by norm_num)])
  refine ⟨_, _, _, out, by rw [rs]; exact ho, hw, rfl, rfl, fun _ _ => rfl, ?_⟩
  intro i j hi hj
  simp [hm0 i j hi hj]

/-! ## C81 -/

/-- C81 for the dense grid class: `setup_polar` succeeds exactly if the assertions hold and there are at
least two rings and two sectors. Missing: a single ring or sector, see `C81_dg_violated`. -/
theorem C81_dg_partial (A : PolarArgs) (mr mp : ℕ) (s : Dg.State) :
    (Dg.setupPolar A mr mp s).1 = .ok () ↔ PolarOk A ∧ 2 ≤ A.numr ∧ 2 ≤ A.nump := by
  constructor
  · intro h
    rw [Dg.setupPolar_run] at h
    rcases (Dg.polarChecks_iff A).2 with e | e
    · rw [e] at h
      have hA := (Dg.polarChecks_iff A).1.mp e
      have hr := hA.numr
      have hp := hA.nump
      refine ⟨hA, ?_, ?_⟩
      · by_contra hc
        have h1 : A.numr.toNat = 1 := by omega
        have e1 : firstDiff (linEdges A).rmid = .error .indexError := by
          show firstDiff (mids (linspace A.rmin A.rmax (A.numr.toNat + 1))) = _
          rw [h1]; exact firstDiff_mids_one _ _
        rw [e1] at h
        cases h
      · by_contra hc
        have h1 : A.nump.toNat = 1 := by omega
        have e1 : firstDiff (linEdges A).pmid = .error .indexError := by
          show firstDiff (mids (linspace A.pmin A.pmax (A.nump.toNat + 1))) = _
          rw [h1]; exact firstDiff_mids_one _ _
        rw [e1] at h
        cases hd : firstDiff (linEdges A).rmid <;> rw [hd] at h <;> cases h
    · rw [e] at h
      cases h
  · rintro ⟨hA, hr, hp⟩
    obtain ⟨dr, dp, e⟩ := Dg.setupPolar_ok hA hr hp mr mp s
    rw [e]

/-- C81 does not hold: a call that passes all the assertions but asks for a single ring or sector raises
`IndexError`, after it has changed the edges but not the grid of the object. -/
theorem C81_dg_violated (A : PolarArgs) (mr mp : ℕ) (s : Dg.State) (hA : PolarOk A)
    (h : A.numr = 1 ∨ A.nump = 1) :
    (Dg.setupPolar A mr mp s).1 = .error .indexError ∧ (Dg.setupPolar A mr mp s).2.edges = some (linEdges A) ∧
    (Dg.setupPolar A mr mp s).2.polar = s.polar := by
  rw [Dg.setupPolar_run, (Dg.polarChecks_iff A).1.mpr hA]
  simp only
  by_cases hr : A.numr = 1
  · have e1 : firstDiff (linEdges A).rmid = .error .indexError := by
      show firstDiff (mids (linspace A.rmin A.rmax (A.numr.toNat + 1))) = _
      rw [hr]; exact firstDiff_mids_one _ _
    rw [e1]
    exact ⟨rfl, rfl, rfl⟩
  · have hp := h.resolve_left hr
    have hr0 := hA.numr
    have e1 : firstDiff (linEdges A).rmid = _ := firstDiff_mids A.rmin A.rmax A.numr.toNat (by omega)
    have e2 : firstDiff (linEdges A).pmid = .error .indexError := by
      show firstDiff (mids (linspace A.pmin A.pmax (A.nump.toNat + 1))) = _
      rw [hp]; exact firstDiff_mids_one _ _
    rw [e1, e2]
    exact ⟨rfl, rfl, rfl⟩

example : PolarOk { exPolar with numr := 1 } ∧ PolarOk { exPolar with nump := 1 } := by
  have := Real.pi_pos
  constructor <;> constructor <;> simp [exPolar] <;> positivity

end Magpie.Props
