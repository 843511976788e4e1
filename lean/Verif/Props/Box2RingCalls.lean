import Verif.Proof.Box2RingRadial
import Verif.Props.DgBox2Ring

/-!
# Properties of `Box2Ring` objects over sequences of calls
-/

set_option linter.unusedSimpArgs false
set_option linter.unusedVariables false
set_option linter.unusedSectionVars false

namespace Magpie.Props
open Magpie Magpie.Radial Magpie.OneD Magpie.Spec Magpie.Box2Ring Finset

/-! ## C76 -/

theorem run_append {X C : Type} (K : Cls X C) (h k : List (Call C)) (s : Box2Ring.State X) :
    K.run (h ++ k) s = ((K.run h s).1 ++ (K.run k (K.run h s).2).1, (K.run k (K.run h s).2).2) := by
  induction h generalizing s with
  | nil => rfl
  | cons c h ih =>
    show ((K.call c s).1 :: (K.run (h ++ k) (K.call c s).2).1, (K.run (h ++ k) (K.call c s).2).2) = _
    rw [ih]
    rfl

theorem run_length {X C : Type} (K : Cls X C) (h : List (Call C)) (s : Box2Ring.State X) :
    (K.run h s).1.length = h.length := by
  induction h generalizing s with
  | nil => rfl
  | cons c h ih => simp [Cls.run, ih]

theorem clean_generic {X C : Type} (K : Cls X C) (h k : List (Call C)) (s : Box2Ring.State X) :
    (K.run (h ++ [.clean] ++ k) s).1.drop (h.length + 1) = (K.run k init).1 ∧
    (K.run (h ++ [.clean] ++ k) s).2 = (K.run k init).2 := by
  have e : (K.run (h ++ [.clean]) s).2 = init := by rw [run_append]; rfl
  have el : (K.run (h ++ [.clean]) s).1.length = h.length + 1 := by rw [run_length]; simp
  rw [run_append K (h ++ [Call.clean]) k s, e]
  refine ⟨?_, rfl⟩
  simp only
  rw [← el, List.drop_left]

/-- C76 for the dense grid class: after any sequence `h` of calls and `clean()`, the calls `k` return what
they return on a new object, and leave the same object. -/
theorem C76_dg_clean (h k : List (Call Dg.Setup)) (s : Dg.State) :
    (Dg.cls.run (h ++ [.clean] ++ k) s).1.drop (h.length + 1) = (Dg.cls.run k init).1 ∧
    (Dg.cls.run (h ++ [.clean] ++ k) s).2 = (Dg.cls.run k init).2 := clean_generic _ h k s

/-- C76 for the Monte Carlo class. -/
theorem C76_mc_clean (h k : List (Call Mc.Setup)) (s : Mc.State) :
    (Mc.cls.run (h ++ [.clean] ++ k) s).1.drop (h.length + 1) = (Mc.cls.run k init).1 ∧
    (Mc.cls.run (h ++ [.clean] ++ k) s).2 = (Mc.cls.run k init).2 := clean_generic _ h k s

/-! ## C74 -/

/-- C74 for the dense grid class: after any sequence of calls `h` in which no setup call follows a call of
`polar2radial` or `get_mask_in_bound` without a `clean()` in between, `polar2radial` returns what it
returns on a new object that was set up with the last grids only. Missing: setup calls after such calls,
see `C74_violated`; and setup calls for a single bin, which fail half-way, see `C81_dg_violated`. -/
theorem C74_dg_partial (h : List (Call Dg.Setup)) (hf : SetupFirst false h) (h2 : Dg.TwoBins (setups h []))
    (f : Arr2 (Option ℝ)) (sigma w : Option (Arr2 ℝ)) :
    (Dg.polar2radial f sigma w (Dg.cls.run h init).2).1 =
    (Dg.polar2radial f sigma w (Dg.cls.run ((Dg.freshSetup (Dg.lastBox (setups h []) none)
      (Dg.lastPolar (setups h []) none)).map .setup) init).2).1 := by
  obtain ⟨h3, h4⟩ := run_state Dg.cls_good h [] false init hf rfl (coherent_core _ init) (fun _ => rfl)
  unfold Dg.polar2radial
  rw [polar2radial_core Dg.maskBy f sigma w _ h4, h3, setupAll_run, Dg.setupAll_latest _ h2]

/-- C74 for `remap` of the dense grid class: this holds for any sequence of calls, also if setup calls
follow calls of `polar2radial`. -/
theorem C74_dg_remap (h : List (Call Dg.Setup)) (h2 : Dg.TwoBins (setups h []))
    (f : Arr2 (Option ℝ)) (w : Option (Arr2 ℝ)) :
    (Dg.remap f w (Dg.cls.run h init).2).1 =
    (Dg.remap f w (Dg.cls.run ((Dg.freshSetup (Dg.lastBox (setups h []) none)
      (Dg.lastPolar (setups h []) none)).map .setup) init).2).1 := by
  have h3 := run_core Dg.cls_good Dg.cls_setup_core h [] init rfl
  rw [← (Dg.remap_readOnly f w _).2, h3, setupAll_run, Dg.setupAll_latest _ h2]

/-- C74 for the Monte Carlo class: with the same restriction on `h`, `polar2radial` returns what it returns
on a new object on which only the setup calls since the last `clean()` were made. -/
theorem C74_mc_partial (h : List (Call Mc.Setup)) (hf : SetupFirst false h)
    (f : Arr2 (Option ℝ)) (sigma w : Option (Arr2 ℝ)) :
    (Mc.polar2radial f sigma w (Mc.cls.run h init).2).1 =
    (Mc.polar2radial f sigma w (Mc.cls.run ((setups h []).map .setup) init).2).1 := by
  obtain ⟨h3, h4⟩ := run_state Mc.cls_good h [] false init hf rfl (coherent_core _ init) (fun _ => rfl)
  unfold Mc.polar2radial
  rw [polar2radial_core Mc.maskBy f sigma w _ h4, h3, setupAll_run]

/-- A sequence of calls that meets the hypotheses. -/
noncomputable def exCalls (f : Arr2 (Option ℝ)) : List (Call Dg.Setup) :=
  [.setup (.box exBox), .setup (.polar { exPolar with rmax := 3 } 2 2), .remap f none, .getMask, .clean,
    .setup (.polar exPolar 2 2), .setup (.box exBox), .radial f none none, .remap f none]

example (f : Arr2 (Option ℝ)) : SetupFirst false (exCalls f) ∧ Dg.TwoBins (setups (exCalls f) []) ∧
    setups (exCalls f) [] = [.polar exPolar 2 2, .box exBox] := by
  refine ⟨by simp [exCalls, SetupFirst], ?_, by simp [exCalls, setups]⟩
  intro A mr mp hm hA
  simp [exCalls, setups] at hm
  rw [hm.1]
  simp [exPolar]

/-- The mask of a polar grid all of whose dense points are in the box. -/
theorem mask_ones {B : BoxArgs} {A : PolarArgs} {m : ℕ} (hB : BoxOk B) (hA : PolarOk A) (hm : 1 ≤ m)
    {s : Dg.State} (hs : Dg.IsSetup B A m m s)
    (hin : ∀ n q, n < m*A.nump.toNat → q < m*A.numr.toNat → Dg.InBox B (Dg.densePoint A m m n q)) :
    ∃ M, Dg.maskG s = .ok M ∧ M.rows = A.nump.toNat ∧ M.cols = A.numr.toNat ∧
      ∀ i j, i < A.nump.toNat → j < A.numr.toNat → M.val i j = 1 := by
  obtain ⟨out, h1, h2, h3, h4⟩ := Dg.remap1_mean hB hA hm hs
    ⟨B.numy.toNat, B.numx.toNat, fun _ _ => some 1⟩ (fun _ _ => 1) rfl rfl (fun _ _ _ _ => rfl) (fun _ _ => 1) (by
      intro n q hn hq
      refine ⟨fun a b _ _ => rfl, fun hno => ?_⟩
      exact absurd ((Dg.inBox_iff hB _).mpr (hin n q hn hq)) hno)
  refine ⟨⟨out.rows, out.cols, fun i j => (out.val i j).getD 0⟩, ?_, h2, h3, ?_⟩
  · unfold Dg.maskG
    rw [hs.box, hs.polar]
    simp only
    have er : B.box.x2d.rows = B.numy.toNat := length_mids_linspace _ _ _
    have ec : B.box.x2d.cols = B.numx.toNat := length_mids_linspace _ _ _
    rw [er, ec]
    show ((do
      let m ← (Dg.remap1 ⟨B.numy.toNat, B.numx.toNat, fun _ _ => some 1⟩ s).1
      return (⟨m.rows, m.cols, fun i j => (m.val i j).getD 0⟩ : Arr2 ℝ)) : Py (Arr2 ℝ)) = _
    rw [h1]
    rfl
  · intro i j hi hj
    simp only
    rw [h4 i j hi hj, div_self (Dg.areaSum_pos hA hm i j).ne']
    rfl

/-- The areas of a polar grid. -/
theorem area_ok (A : PolarArgs) (hA : PolarOk A) :
    ∃ a, getPolarArea2d (linEdges A).redges (linEdges A).pedges = .ok a ∧ a.rows = A.nump.toNat ∧
      a.cols = A.numr.toNat ∧ ∀ i j, j < A.numr.toNat → a.val i j =
        Real.pi*(edgeAt A.rmin A.rmax A.numr.toNat (j+1)^2 - edgeAt A.rmin A.rmax A.numr.toNat j^2)*
          ((A.pmax - A.pmin)/A.nump.toNat)/(2*Real.pi) := by
  have hp := hA.nump
  obtain ⟨n, hn⟩ : ∃ n, A.nump.toNat = n + 1 := ⟨A.nump.toNat - 1, by omega⟩
  have e : (linEdges A).pedges = edgeAt A.pmin A.pmax (n+1) 0 :: edgeAt A.pmin A.pmax (n+1) 1 ::
      ((List.range n).map fun k => edgeAt A.pmin A.pmax (n+1) (k+2)) := by
    show linspace A.pmin A.pmax (A.nump.toNat + 1) = _
    rw [hn, linspace_eq, List.range_succ_eq_map, List.range_succ_eq_map]
    simp [Function.comp_def]
  have e2 : (linEdges A).redges = linspace A.rmin A.rmax (A.numr.toNat + 1) := rfl
  unfold getPolarArea2d
  rw [e, e2]
  simp only
  refine ⟨_, rfl, ?_, ?_, ?_⟩
  · simp [hn]
  · simp [length_linspace]
  · intro i j hj
    simp only
    rw [tail_linspace, dropLast_linspace, List.zipWith_map, List.zipWith_self, getD_range_map _ _ _ hj, hn]
    have := edgeAt_diff A.pmin A.pmax (n+1) 0
    rw [zero_add] at this
    rw [this]

/-- The pixel area of a box. -/
theorem pix_ok (B : BoxArgs) (hB : BoxOk B) : ∃ px, getPixarea B.box.xedges B.box.yedges = .ok px ∧ 0 < px := by
  have hx := hB.numx
  have hy := hB.numy
  obtain ⟨n, hn⟩ : ∃ n, B.numx.toNat = n + 1 := ⟨B.numx.toNat - 1, by omega⟩
  obtain ⟨k, hk⟩ : ∃ n, B.numy.toNat = n + 1 := ⟨B.numy.toNat - 1, by omega⟩
  have e : B.box.xedges = edgeAt B.xmin B.xmax (n+1) 0 :: edgeAt B.xmin B.xmax (n+1) 1 ::
      ((List.range n).map fun k => edgeAt B.xmin B.xmax (n+1) (k+2)) := by
    show linspace B.xmin B.xmax (B.numx.toNat + 1) = _
    rw [hn, linspace_eq, List.range_succ_eq_map, List.range_succ_eq_map]
    simp [Function.comp_def]
  have e' : B.box.yedges = edgeAt B.ymin B.ymax (k+1) 0 :: edgeAt B.ymin B.ymax (k+1) 1 ::
      ((List.range k).map fun j => edgeAt B.ymin B.ymax (k+1) (j+2)) := by
    show linspace B.ymin B.ymax (B.numy.toNat + 1) = _
    rw [hk, linspace_eq, List.range_succ_eq_map, List.range_succ_eq_map]
    simp [Function.comp_def]
  rw [e, e']
  refine ⟨_, rfl, ?_⟩
  have h1 := edgeAt_strict hB.hx (show 0 < n + 1 by omega) (show 0 < 1 by norm_num)
  have h2 := edgeAt_strict hB.hy (show 0 < k + 1 by omega) (show 0 < 1 by norm_num)
  exact mul_pos (by linarith) (by linarith)

/-- The error of the innermost ring for unit errors, if nothing is masked. -/
theorem sigma_head {A : PolarArgs} (hA : PolarOk A) {s : Dg.State}
    (hpol : s.polar = some (mkPolar (linEdges A) A)) {a M : Arr2 ℝ} {px α : ℝ}
    (ha : areaOf s = .ok a) (har : a.rows = A.nump.toNat) (hac : a.cols = A.numr.toNat)
    (hα : ∀ i, a.val i 0 = α) (hα0 : 0 < α) (hpx : pixOf s = .ok px) (hpx0 : 0 < px)
    (hM : maskOf Dg.maskG s = .ok M) (hMr : M.rows = A.nump.toNat) (hMc : M.cols = A.numr.toNat)
    (hM1 : ∀ i j, i < A.nump.toNat → j < A.numr.toNat → M.val i j = 1) :
    ∃ out l, (Dg.polar2radial ⟨A.nump.toNat, A.numr.toNat, fun _ _ => some 0⟩
        (some ⟨A.nump.toNat, A.numr.toNat, fun _ _ => 1⟩) none s).1 = .ok out ∧ out.sigma = some l ∧
      l.head? = some (some (Real.sqrt (px/(A.nump.toNat*α)))) := by
  have hnr := hA.numr
  have hnp := hA.nump
  have h1 : (mkPolar (linEdges A) A).p2d.rows = A.nump.toNat := Dg.linEdges_pmid_length A
  have h2 : (mkPolar (linEdges A) A).p2d.cols = A.numr.toNat := Dg.linEdges_rmid_length A
  have hsh : (⟨A.nump.toNat, A.numr.toNat, fun _ _ => some 0⟩ : Arr2 (Option ℝ)).sameShape
      (mkPolar (linEdges A) A).p2d := ⟨h1.symm, h2.symm⟩
  have hsh2 : (⟨A.nump.toNat, A.numr.toNat, fun _ _ => 1⟩ : Arr2 ℝ).sameShape
      (mkPolar (linEdges A) A).p2d := ⟨h1.symm, h2.symm⟩
  obtain ⟨n, hn⟩ : ∃ n, A.numr.toNat = n + 1 := ⟨A.numr.toNat - 1, by omega⟩
  have hNP : (0:ℝ) < A.nump.toNat := by exact_mod_cast (show 0 < A.nump.toNat by omega)
  unfold Dg.polar2radial
  rw [polar2radial_steps Dg.maskBy]
  unfold p2rSteps
  rw [ha, hpx, hpol]
  simp only
  rw [if_pos hsh, hM]
  simp only
  unfold radialOf
  rw [applyMask_all (fun i j hi hj => by rw [hM1 i j (hMr ▸ hi) (hMc ▸ hj)]; norm_num)]
  simp only [bind, Except.bind, pure, Except.pure]
  have hpa : pyAssert ((⟨A.nump.toNat, A.numr.toNat, fun _ _ => 1⟩ : Arr2 ℝ).sameShape
      (mkPolar (linEdges A) A).p2d) = .ok () := by unfold pyAssert; rw [if_pos hsh2]
  rw [hpa]
  simp only
  rw [radial_none _ (fun _ _ => 0) (fun _ _ _ _ => rfl)]
  simp only
  unfold polar2radialSigma Arr2.zip
  simp only
  rw [if_pos ⟨har, hac⟩]
  simp only [bind, Except.bind, pure, Except.pure]
  refine ⟨_, _, rfl, rfl, ?_⟩
  unfold Arr2.sum0
  simp only [hac, har, hn, List.range_succ_eq_map, List.map_cons, List.head?_cons]
  rw [npSum_range_congr A.nump.toNat _ (fun _ => px/α) (fun i _ => by
    rw [hα]; unfold fdiv; rw [if_neg hα0.ne']; simp)]
  simp only [sum_const, card_range, nsmul_eq_mul]
  unfold odiv fdiv
  simp only
  rw [if_neg (by positivity)]
  unfold osqrt
  simp only [Option.bind_some]
  congr 1
  unfold npSqrt
  rw [if_pos (by positivity)]
  congr 2
  field_simp

/-- Another polar grid, with radius `3/2`. -/
noncomputable def exPolar2 : PolarArgs := { rmin := 0, rmax := 3/2, numr := 2, nump := 5 }

theorem exPolar2_ok : PolarOk exPolar2 := by
  have := Real.pi_pos
  constructor <;> simp [exPolar2] <;> positivity

theorem exPolar2_inBox (n q : ℕ) (hq : q < 1*exPolar2.numr.toNat) :
    Dg.InBox exBox (Dg.densePoint exPolar2 1 1 n q) := by
  have hq2 : q = 0 ∨ q = 1 := by simp [exPolar2] at hq; omega
  have hr : 0 ≤ midAt (0:ℝ) (3/2) 2 q ∧ midAt (0:ℝ) (3/2) 2 q ≤ 3/2 := by
    rcases hq2 with rfl | rfl <;> norm_num [midAt, edgeAt]
  unfold Dg.InBox Dg.densePoint
  simp only [exPolar2, exBox, List.getD_cons_zero, List.getD_cons_succ, one_mul, Int.reduceToNat]
  set r := midAt (0:ℝ) (3/2) 2 q
  set p := midAt (0:ℝ) (2*Real.pi) 5 n + 0
  have c1 := Real.cos_le_one p
  have c2 := Real.neg_one_le_cos p
  have s1 := Real.sin_le_one p
  have s2 := Real.neg_one_le_sin p
  obtain ⟨hr0, hr1⟩ := hr
  refine ⟨?_, ?_, ?_, ?_⟩ <;> nlinarith

/-- C74 does not hold in general. The object is set up with a box and a polar grid, `polar2radial` is
called, and the object is set up with another polar grid. Then the errors returned by `polar2radial` are
not those of a new object with the same box and the second grid: the stored areas of the first grid are
used. -/
theorem C74_violated : ∃ (f f0 : Arr2 (Option ℝ)) (sigma : Arr2 ℝ) (out out' : Box2Ring.Radial),
    (Dg.polar2radial f (some sigma) none (Dg.cls.run [.setup (.box exBox), .setup (.polar exPolar 1 1),
      .radial f0 none none, .setup (.polar exPolar2 1 1)] init).2).1 = .ok out ∧
    (Dg.polar2radial f (some sigma) none (Dg.cls.run [.setup (.box exBox),
      .setup (.polar exPolar2 1 1)] init).2).1 = .ok out' ∧ out ≠ out' := by
  have hB := exBox_ok
  have hA := exPolar_ok
  have hA2 := exPolar2_ok
  have hrp : exPolar.numr.toNat = 2 ∧ exPolar.nump.toNat = 5 := by simp [exPolar]
  have hrp2 : exPolar2.numr.toNat = 2 ∧ exPolar2.nump.toNat = 5 := by simp [exPolar2]
  -- the first two calls
  obtain ⟨s1, e1, hs1, c1, c2, c3⟩ := Dg.setup_run hB.numx hB.numy hA (by simp [exPolar]) (by simp [exPolar]) 1 1 init
  obtain ⟨M, hM, hMr, hMc, hM1⟩ := mask_ones hB hA (le_refl 1) hs1
    (fun n q _ hq => exPolar_inBox 1 n q (le_refl 1) hq)
  obtain ⟨a, ha, har, hac, hav⟩ := area_ok exPolar hA
  obtain ⟨px, hpx, hpx0⟩ := pix_ok exBox hB
  have ea : areaOf s1 = .ok a := by
    unfold areaOf; rw [c1, hs1.edges]; exact ha
  have ep : pixOf s1 = .ok px := by
    unfold pixOf; rw [c2, hs1.box]; exact hpx
  have em : maskOf Dg.maskG s1 = .ok M := by
    unfold maskOf; rw [c3]; exact hM
  have hsh : (⟨5, 2, fun _ _ => some 0⟩ : Arr2 (Option ℝ)).sameShape (mkPolar (linEdges exPolar) exPolar).p2d :=
    ⟨hrp.2.symm.trans (Dg.linEdges_pmid_length exPolar).symm, hrp.1.symm.trans (Dg.linEdges_rmid_length exPolar).symm⟩
  -- the call of `polar2radial`
  have e2 : (polar2radial Dg.getMaskInBound ⟨5, 2, fun _ _ => some 0⟩ none none s1).2 =
      { s1 with area2d := some a, pixarea := some px, maskInBound := some M } := by
    rw [polar2radial_steps Dg.maskBy]
    unfold p2rSteps
    rw [ea, ep, hs1.polar]
    simp only
    rw [if_pos hsh, em]
  -- the second grid
  obtain ⟨dr, dp, e3⟩ := Dg.setupPolar_ok hA2 (by simp [exPolar2]) (by simp [exPolar2]) 1 1
    { s1 with area2d := some a, pixarea := some px, maskInBound := some M }
  have r1 : (Dg.cls.run [.setup (.box exBox), .setup (.polar exPolar 1 1),
      .radial ⟨5, 2, fun _ _ => some 0⟩ none none, .setup (.polar exPolar2 1 1)] init).2 =
      (Dg.setupPolar exPolar2 1 1 { s1 with area2d := some a, pixarea := some px, maskInBound := some M }).2 := by
    rw [← e2]
    have : (Dg.setupPolar exPolar 1 1 (setupBox exBox init).2).2 = s1 := by
      simp only [Meth.bind_apply] at e1
      rw [setupBox_ok hB.numx hB.numy] at e1 ⊢
      simp only at e1 ⊢
      rw [e1]
    rw [← this]
    rfl
  rw [e3] at r1
  -- a new object
  obtain ⟨s2, e4, hs2, d1, d2, d3⟩ := Dg.setup_run hB.numx hB.numy hA2 (by simp [exPolar2]) (by simp [exPolar2]) 1 1 init
  have r2 : (Dg.cls.run [.setup (.box exBox), .setup (.polar exPolar2 1 1)] init).2 = s2 := by
    have : (Dg.setupPolar exPolar2 1 1 (setupBox exBox init).2).2 = s2 := by
      simp only [Meth.bind_apply] at e4
      rw [setupBox_ok hB.numx hB.numy] at e4 ⊢
      simp only at e4 ⊢
      rw [e4]
    rw [← this]
    rfl
  obtain ⟨M', hM', hMr', hMc', hM1'⟩ := mask_ones hB hA2 (le_refl 1) hs2
    (fun n q _ hq => exPolar2_inBox n q hq)
  obtain ⟨a', ha', har', hac', hav'⟩ := area_ok exPolar2 hA2
  have hpi := Real.pi_pos
  have hα : ∀ i, a.val i 0 = Real.pi/20 := by
    intro i
    rw [hav i 0 (by rw [hrp.1]; norm_num), hrp.1, hrp.2]
    simp only [edgeAt, exPolar]
    push_cast
    rw [div_eq_iff (by positivity)]
    ring
  have hα' : ∀ i, a'.val i 0 = 9*Real.pi/80 := by
    intro i
    rw [hav' i 0 (by rw [hrp2.1]; norm_num), hrp2.1, hrp2.2]
    simp only [edgeAt, exPolar2]
    push_cast
    rw [div_eq_iff (by positivity)]
    ring
  obtain ⟨out, l, o1, o2, o3⟩ := sigma_head (A := exPolar2) hA2 (s := { s1 with
      edges := some (linEdges exPolar2), dr := some (.scalar dr), dp := some dp
      polar := some (mkPolar (linEdges exPolar2) exPolar2)
      extra := some (Dg.mkDense (linEdges exPolar2) exPolar2.phiShift 1 1)
      area2d := some a, pixarea := some px, maskInBound := some M }) rfl (a := a) (M := M) (px := px)
    (α := Real.pi/20) rfl (by rw [har, hrp.2, hrp2.2]) (by rw [hac, hrp.1, hrp2.1]) hα (by positivity) rfl hpx0
    rfl (by rw [hMr, hrp.2, hrp2.2]) (by rw [hMc, hrp.1, hrp2.1])
    (fun i j hi hj => hM1 i j (by rw [hrp.2]; rw [hrp2.2] at hi; exact hi)
      (by rw [hrp.1]; rw [hrp2.1] at hj; exact hj))
  obtain ⟨out', l', o1', o2', o3'⟩ := sigma_head (A := exPolar2) hA2 (s := s2) hs2.polar (a := a') (M := M')
    (px := px) (α := 9*Real.pi/80) (by unfold areaOf; rw [d1, hs2.edges]; exact ha') har' hac' hα'
    (by positivity) (by unfold pixOf; rw [d2, hs2.box]; exact hpx) hpx0
    (by unfold maskOf; rw [d3]; exact hM') hMr' hMc' hM1'
  refine ⟨⟨exPolar2.nump.toNat, exPolar2.numr.toNat, fun _ _ => some 0⟩, ⟨5, 2, fun _ _ => some 0⟩,
    ⟨exPolar2.nump.toNat, exPolar2.numr.toNat, fun _ _ => 1⟩, out, out', ?_, ?_, ?_⟩
  · rw [r1]; exact o1
  · rw [r2]; exact o1'
  · rintro rfl
    rw [o2, Option.some.injEq] at o2'
    subst o2'
    rw [o3, Option.some.injEq, Option.some.injEq, Real.sqrt_inj (by positivity) (by positivity), hrp2.2] at o3'
    rw [div_eq_div_iff (by positivity) (by positivity)] at o3'
    have := mul_left_cancel₀ hpx0.ne' o3'
    push_cast at this
    nlinarith

end Magpie.Props
