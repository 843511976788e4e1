import Verif.Model.ObjectCalls
import Verif.Props.DgCube2Shell
import Verif.Props.McCube2Shell
import Verif.Props.Heal2Ortho

/-!
# Properties of the other objects over sequences of calls
-/

set_option linter.unusedSimpArgs false
set_option linter.unusedVariables false
set_option linter.unusedSectionVars false

namespace Magpie.Props
open Magpie Magpie.Radial Magpie.OneD Magpie.Spec Magpie.Box2Ring Magpie.Cube

/-! ## C76 -/

section
variable {S C O : Type} (call : C → S → O × S)

theorem runCalls_append (h k : List C) (s : S) : runCalls call (h ++ k) s
    = ((runCalls call h s).1 ++ (runCalls call k (runCalls call h s).2).1,
      (runCalls call k (runCalls call h s).2).2) := by
  induction h generalizing s with
  | nil => rfl
  | cons c h ih =>
    show ((call c s).1 :: (runCalls call (h ++ k) (call c s).2).1, (runCalls call (h ++ k) (call c s).2).2) = _
    rw [ih]
    rfl

theorem runCalls_length (h : List C) (s : S) : (runCalls call h s).1.length = h.length := by
  induction h generalizing s with
  | nil => rfl
  | cons c h ih => simp [runCalls, ih]

theorem runCalls_clean (c : C) (i : S) (hc : ∀ s, (call c s).2 = i) (h k : List C) (s : S) :
    (runCalls call (h ++ [c] ++ k) s).1.drop (h.length + 1) = (runCalls call k i).1 ∧
    (runCalls call (h ++ [c] ++ k) s).2 = (runCalls call k i).2 := by
  have e : (runCalls call (h ++ [c]) s).2 = i := by rw [runCalls_append]; exact hc _
  have el : (runCalls call (h ++ [c]) s).1.length = h.length + 1 := by rw [runCalls_length]; simp
  rw [runCalls_append call (h ++ [c]) k s, e]
  refine ⟨?_, rfl⟩
  simp only
  rw [← el, List.drop_left]

/-- Calls that keep a property of the object. -/
theorem runCalls_keep (P : S → Prop) (h : List C) (hk : ∀ c ∈ h, ∀ s, P s → P (call c s).2) (s : S) (hs : P s) :
    P (runCalls call h s).2 := by
  induction h generalizing s with
  | nil => exact hs
  | cons c h ih =>
    exact ih (fun c' hc' => hk c' (List.mem_cons_of_mem _ hc')) _ (hk c List.mem_cons_self s hs)

end

/-- C76 for the dense grid `Cube2Shell`: after any sequence `h` of calls and `clean()`, the calls `k` return what
they return on a new object, and leave the same object. -/
theorem C76_dgcube_clean (hp : DgCube.Hp) (h k : List DgCube.Call) (s : DgCube.State) :
    (runCalls (DgCube.call hp) (h ++ [.clean] ++ k) s).1.drop (h.length + 1)
      = (runCalls (DgCube.call hp) k DgCube.init).1 ∧
    (runCalls (DgCube.call hp) (h ++ [.clean] ++ k) s).2 = (runCalls (DgCube.call hp) k DgCube.init).2 :=
  runCalls_clean _ _ _ (fun _ => rfl) h k s

/-- C76 for the Monte Carlo `Cube2Shell`. -/
theorem C76_mccube_clean (h k : List McCube.Call) (s : McCube.State) :
    (runCalls McCube.call (h ++ [.clean] ++ k) s).1.drop (h.length + 1) = (runCalls McCube.call k McCube.init).1 ∧
    (runCalls McCube.call (h ++ [.clean] ++ k) s).2 = (runCalls McCube.call k McCube.init).2 :=
  runCalls_clean _ _ _ (fun _ => rfl) h k s

/-- C76 for `Heal2Ortho`. -/
theorem C76_ortho_clean (ang2pix : ℤ → ℝ → ℝ → ℕ) (h k : List Ortho.Call) (s : Ortho.State) :
    (runCalls (Ortho.call ang2pix) (h ++ [.clean] ++ k) s).1.drop (h.length + 1)
      = (runCalls (Ortho.call ang2pix) k Ortho.init).1 ∧
    (runCalls (Ortho.call ang2pix) (h ++ [.clean] ++ k) s).2 = (runCalls (Ortho.call ang2pix) k Ortho.init).2 :=
  runCalls_clean _ _ _ (fun _ => rfl) h k s

/-- C76 for `PointOfView`. -/
theorem C76_pov_clean (h k : List Pov.Call) (s : Pov.State) :
    (runCalls Pov.call (h ++ [.clean] ++ k) s).1.drop (h.length + 1) = (runCalls Pov.call k Pov.init).1 ∧
    (runCalls Pov.call (h ++ [.clean] ++ k) s).2 = (runCalls Pov.call k Pov.init).2 :=
  runCalls_clean _ _ _ (fun _ => rfl) h k s

/-- C76 for the Monte Carlo `Heal2Ring`: any calls, `clean()`, and the calls `k` leave the object that the calls `k`
leave of a new object. -/
theorem C76_mchealring_clean (h k : List HealRing.Mc.Call) :
    HealRing.Mc.after (h ++ [.clean] ++ k) = HealRing.Mc.after k := by
  unfold HealRing.Mc.after
  rw [List.foldl_append, List.foldl_append]
  rfl

/-- C76 for the dense grid `Heal2Ring`. -/
theorem C76_dghealring_clean (ang2pix : ℤ → ℝ → ℝ → ℕ) (h k : List HealRing.Dg.Call) :
    HealRing.Dg.after ang2pix (h ++ [.clean] ++ k) = HealRing.Dg.after ang2pix k := by
  unfold HealRing.Dg.after
  rw [List.foldl_append, List.foldl_append]
  rfl

/-- C76 for the Monte Carlo `Heal2Polar`. -/
theorem C76_mchealpolar_clean (h k : List HealPolar.Mc.Call) :
    HealPolar.Mc.after (h ++ [.clean] ++ k) = HealPolar.Mc.after k := by
  unfold HealPolar.Mc.after
  rw [List.foldl_append, List.foldl_append]
  rfl

/-- C76 for the dense grid `Heal2Polar`. -/
theorem C76_dghealpolar_clean (ang2pix : ℤ → ℝ → ℝ → ℕ) (h k : List HealPolar.Dg.Call) :
    HealPolar.Dg.after ang2pix (h ++ [.clean] ++ k) = HealPolar.Dg.after ang2pix k := by
  unfold HealPolar.Dg.after
  rw [List.foldl_append, List.foldl_append]
  rfl

/-! ## C106 -/

/-- The method does not change what `g` reads. -/
def Keeps {S α β : Type} (g : S → β) (m : Meth S α) : Prop := ∀ s, g (m s).2 = g s

section
variable {S α β γ : Type} {g : S → γ}

theorem Keeps.pure (a : α) : Keeps g (pure a : Meth S α) := fun _ => rfl
theorem Keeps.lift (p : Py α) : Keeps g (Meth.lift p : Meth S α) := fun _ => rfl
theorem Keeps.self : Keeps g (Meth.self : Meth S S) := fun _ => rfl
theorem Keeps.assign {f : S → S} (h : ∀ s, g (f s) = g s) : Keeps g (Meth.assign f) := h
theorem Keeps.bind {m : Meth S α} {f : α → Meth S β} (hm : Keeps g m) (hf : ∀ a, Keeps g (f a)) :
    Keeps g (m >>= f) := by
  intro s
  rw [Meth.bind_apply]
  have h := hm s
  rcases hms : m s with ⟨r, t⟩
  rw [hms] at h
  cases r with
  | error e => exact h
  | ok a => exact (hf a t).trans h
end

theorem dgRemap_keeps (hp : DgCube.Hp) (f : Arr3 (Option ℝ)) : Keeps id (DgCube.remap hp f) := by
  unfold DgCube.remap
  repeat' first
    | exact Keeps.lift _
    | exact Keeps.self
    | exact Keeps.pure _
    | (refine Keeps.bind ?_ fun _ => ?_)

theorem setupPolar_cube (a : DgCube.ShellArgs) : Keeps DgCube.State.cube (DgCube.setupPolar a) := by
  unfold DgCube.setupPolar
  repeat' first
    | exact Keeps.lift _
    | exact Keeps.self
    | exact Keeps.assign fun _ => rfl
    | (refine Keeps.bind ?_ fun _ => ?_)

/-- An accepted `setup_polar` determines the object from the cube. -/
theorem setupPolar_only (a : DgCube.ShellArgs) (s t : DgCube.State) (h : s.cube = t.cube)
    (ok : (DgCube.setupPolar a t).1 = .ok ()) : DgCube.setupPolar a s = DgCube.setupPolar a t := by
  unfold DgCube.setupPolar at *
  simp only [Meth.bind_apply, Meth.lift_apply, Meth.self_apply, Meth.assign_apply] at *
  cases h1 : DgCube.shellChecks a with
  | error e => rw [h1] at ok; cases ok
  | ok u =>
    simp only [h1] at ok ⊢
    cases h2 : firstDiff (mids (linspace a.rmin a.rmax (a.numr.toNat + 1))) with
    | error e => rw [h2] at ok; cases ok
    | ok dr =>
      simp only [h2] at ok ⊢
      rw [h]
      cases h3 : DgCube.mkCenters t.cube a with
      | error e => rw [h3] at ok; cases ok
      | ok cs => simp only [h, h3]

/-- Sequences of calls that leave the same object: later calls return the same. -/
theorem same_later {S C O : Type} (call : C → S → O × S) {h h' : List C} {s s' : S}
    (e : (runCalls call h s).2 = (runCalls call h' s').2) (k : List C) :
    (runCalls call (h ++ k) s).1.drop h.length = (runCalls call (h' ++ k) s').1.drop h'.length := by
  rw [runCalls_append, runCalls_append, e]
  simp only
  rw [← runCalls_length call h s, List.drop_left, ← runCalls_length call h' s', List.drop_left]

theorem dgcube_state (hp : DgCube.Hp) (h1 h2 h3 : List DgCube.Call) (C : CubeArgs) (P : DgCube.ShellArgs)
    (hC : (DgCube.setupCube C DgCube.init).1 = .ok ())
    (hP : (DgCube.setupPolar P (DgCube.setupCube C DgCube.init).2).1 = .ok ())
    (h2' : ∀ c ∈ h2, c ≠ .clean ∧ ∀ C', c ≠ .cube C') (h3' : ∀ c ∈ h3, ∃ f, c = .remap f) (s : DgCube.State) :
    (runCalls (DgCube.call hp) (h1 ++ [.cube C] ++ h2 ++ [.polar P] ++ h3) s).2
      = (runCalls (DgCube.call hp) [.cube C, .polar P] DgCube.init).2 := by
  have hcube : ∀ t, (DgCube.setupCube C t).2.cube = (DgCube.setupCube C DgCube.init).2.cube := by
    intro t
    unfold DgCube.setupCube at *
    simp only [Meth.bind_apply, Meth.lift_apply, Meth.assign_apply] at *
    cases hg : Cube.setupCube C with
    | error e => rw [hg] at hC; cases hC
    | ok g => rfl
  simp only [runCalls_append]
  set s1 := (runCalls (DgCube.call hp) h1 s).2
  have e2 : (runCalls (DgCube.call hp) [.cube C] s1).2.cube = (DgCube.setupCube C DgCube.init).2.cube := hcube s1
  set s2 := (runCalls (DgCube.call hp) [.cube C] s1).2
  have e3 : (runCalls (DgCube.call hp) h2 s2).2.cube = (DgCube.setupCube C DgCube.init).2.cube := by
    refine runCalls_keep _ (fun t => t.cube = (DgCube.setupCube C DgCube.init).2.cube) h2 ?_ s2 e2
    intro c hc t ht
    cases c with
    | cube C' => exact absurd rfl ((h2' _ hc).2 C')
    | polar a => exact (setupPolar_cube a t).trans ht
    | remap f => exact (congrArg DgCube.State.cube (dgRemap_keeps hp f t)).trans ht
    | clean => exact absurd rfl (h2' _ hc).1
  set s3 := (runCalls (DgCube.call hp) h2 s2).2
  have e4 : (runCalls (DgCube.call hp) [.polar P] s3).2
      = (runCalls (DgCube.call hp) [.cube C, .polar P] DgCube.init).2 := by
    show (DgCube.setupPolar P s3).2 = (DgCube.setupPolar P (DgCube.setupCube C DgCube.init).2).2
    rw [setupPolar_only P s3 (DgCube.setupCube C DgCube.init).2 e3 hP]
  rw [e4]
  refine runCalls_keep _ (fun t => t = (runCalls (DgCube.call hp) [.cube C, .polar P] DgCube.init).2) h3 ?_ _ rfl
  intro c hc t ht
  obtain ⟨f', rfl⟩ := h3' c hc
  exact (dgRemap_keeps hp f' t).trans ht

/-- C106 for the dense grid `Cube2Shell`: after any calls `h1`, `setup_cube`, any calls `h2` other than `setup_cube`
and `clean`, `setup_polar` and any remaps, all later calls return what they return on a new object after these two
set-up calls.  Missing: calls of `setup_cube` after `setup_polar`, see `C106_dgcube_violated`. -/
theorem C106_dgcube_partial (hp : DgCube.Hp) (h1 h2 h3 : List DgCube.Call) (C : CubeArgs) (P : DgCube.ShellArgs)
    (hC : (DgCube.setupCube C DgCube.init).1 = .ok ())
    (hP : (DgCube.setupPolar P (DgCube.setupCube C DgCube.init).2).1 = .ok ())
    (h2' : ∀ c ∈ h2, c ≠ .clean ∧ ∀ C', c ≠ .cube C') (h3' : ∀ c ∈ h3, ∃ f, c = .remap f)
    (s : DgCube.State) (k : List DgCube.Call) :
    (runCalls (DgCube.call hp) (h1 ++ [.cube C] ++ h2 ++ [.polar P] ++ h3 ++ k) s).1.drop
        (h1.length + h2.length + h3.length + 2)
      = (runCalls (DgCube.call hp) ([.cube C, .polar P] ++ k) DgCube.init).1.drop 2 := by
  have := same_later _ (dgcube_state hp h1 h2 h3 C P hC hP h2' h3' s) k
  rw [← show (h1 ++ [DgCube.Call.cube C] ++ h2 ++ [DgCube.Call.polar P] ++ h3).length
    = h1.length + h2.length + h3.length + 2 by simp only [List.length_append, List.length_cons, List.length_nil]; omega]
  exact this

/-- The hypotheses of `C106_dgcube_partial` can be met: the cube `exDgCube` and the shells `exDgShell`, after another
cube and other shells. -/
example : (DgCube.setupCube exDgCube DgCube.init).1 = .ok () ∧
    (DgCube.setupPolar exDgShell (DgCube.setupCube exDgCube DgCube.init).2).1 = .ok () := by
  rw [DgCube.setupCube_ok exDgCube_ok]
  refine ⟨rfl, ?_⟩
  obtain ⟨out, s1, e1, h1⟩ := C80_constant_partial (exHp fun _ => (0, 0)) exDgCube exDgShell exDgCube_ok exDgShell_ok (exHp_ok _)
    ⟨2, 2, 2, fun _ _ _ => some 1⟩ 1 ⟨rfl, rfl, rfl, fun _ _ _ _ _ _ => ⟨rfl, by
      unfold DgCube.isBad unseen
      rw [abs_of_pos (by norm_num), abs_of_neg (by norm_num)]
      norm_num⟩⟩ DgCube.init
  unfold DgCube.dgRemap at e1
  rw [Meth.bind_apply, DgCube.setupCube_ok exDgCube_ok] at e1
  simp only at e1
  rw [Meth.bind_apply] at e1
  rcases hq : DgCube.setupPolar exDgShell { DgCube.init with cube := some exDgCube.grid } with ⟨r, t⟩
  rw [hq] at e1
  cases r with
  | error e => cases congrArg Prod.fst e1
  | ok u => rfl

/-- The unit cube as one cell. -/
noncomputable def exUnitCube : CubeArgs := ⟨0, 1, 1, 0, 1, 1, 0, 1, 1⟩

/-- The thin shells of `exDgShell`, seen one side of the unit cube further along `x`. -/
noncomputable def exImageShell : DgCube.ShellArgs :=
  { rmin := 0, rmax := 1/4, numr := 2, nside := 1, center := [1/2, 1/2, 1/2], perx := (1, 1) }

theorem exImageShell_ok : DgCube.ShellOk exImageShell := by constructor <;> norm_num [exImageShell]

theorem exUnitCube_ok : McCube.CubeOk exUnitCube := by constructor <;> norm_num [exUnitCube]

theorem one_good : ¬ DgCube.isBad 1 := by
  unfold DgCube.isBad unseen
  rw [abs_of_pos (by norm_num), abs_of_neg (by norm_num)]
  norm_num

theorem cube_side {C : CubeArgs} (hC : McCube.CubeOk C) : DgCube.side C.grid.xedges = C.xmax - C.xmin := by
  have := hC.numx
  show (linspace C.xmin C.xmax (C.numx.toNat + 1)).getLastD 0 - (linspace C.xmin C.xmax (C.numx.toNat + 1)).getD 0 0 = _
  rw [linspace_getLastD _ _ _ (by omega), linspace_getD _ _ _ _ (by omega), edgeAt_zero]

theorem exCenters : DgCube.mkCenters (some exUnitCube.grid) exImageShell = .ok [(3/2, 1/2, 1/2)] ∧
    DgCube.mkCenters (some exDgCube.grid) exDgShell = .ok [(3/2, 1/2, 1/2)] := by
  have r1 : DgCube.perRange (1, 1) = [1] := by decide
  have r0 : DgCube.perRange (0, 0) = [0] := by decide
  have s1 := cube_side exUnitCube_ok
  constructor
  · unfold DgCube.mkCenters exImageShell
    simp only [r1, r0, need_some, bind, Except.bind, pure, Except.pure, center3, List.flatMap_cons, List.flatMap_nil,
      List.map_cons, List.map_nil, List.append_nil, s1]
    norm_num [exUnitCube]
  · unfold DgCube.mkCenters exDgShell
    simp only [r1, r0, need_some, bind, Except.bind, pure, Except.pure, center3, List.flatMap_cons, List.flatMap_nil,
      List.map_cons, List.map_nil, List.append_nil]
    norm_num

/-- `remap` does not read `center`. -/
theorem dgRemap_center (hp : DgCube.Hp) (f : Arr3 (Option ℝ)) (cube : Option Grid3) (edges : Option (List ℝ × List ℝ))
    (dr dr' : Option ℝ) (sh : DgCube.Shell) (c : ℝ × ℝ × ℝ) :
    (DgCube.remap hp f ⟨cube, edges, dr, some { sh with center := c }⟩).1
      = (DgCube.remap hp f ⟨cube, edges, dr', some sh⟩).1 := by
  unfold DgCube.remap
  simp only [Meth.bind_apply, Meth.lift_apply, Meth.self_apply, need_some]
  cases need edges with
  | error e => rfl
  | ok e =>
    simp only []
    cases nside2npix sh.nside with
    | error e => rfl
    | ok n =>
      simp only []
      cases nside2npix (sh.nside*sh.rebinShell) with
      | error e => rfl
      | ok m =>
        simp only []
        cases (if sh.rrmid = [] ∨ sh.centers = [] then (Except.ok none : Py (Option Grid3))
            else Except.map some (need cube)) with
        | error e => rfl
        | ok g =>
          simp only []
          cases Box2Ring.tabulate sh.rrmid.length m
              (fun i q => DgCube.entry g f (sh.rrmid.getD i 0) (hp.pix2ang (sh.nside*sh.rebinShell) q) sh.centers)
              none with
          | error e => rfl
          | ok hi =>
            simp only []
            cases (⟨(List.zipWith (fun b a => b^3 - a^3) sh.rredges.tail sh.rredges.dropLast).length, 1,
                fun i _ => some ((List.zipWith (fun b a => b^3 - a^3) sh.rredges.tail sh.rredges.dropLast).getD i 0)⟩
                  : Arr2 (Option ℝ)).reshape3 e.2.length sh.rebinR 1 with
            | error e => rfl
            | ok r3 =>
              simp only []
              cases (⟨sh.rrmid.length, n, fun i p => omul (DgCube.udGrade ((hp.children (sh.nside*sh.rebinShell)
                  sh.nside p).map (hi.val i))) ((List.zipWith (fun b a => b^3 - a^3) sh.rredges.tail
                    sh.rredges.dropLast).getD i 0)⟩ : Arr2 (Option ℝ)).reshape3 e.2.length sh.rebinR n <;> rfl

/-- C106 does not hold for `setup_cube` after `setup_polar`: the images are at distances of the side of the first
cube. -/
theorem C106_dgcube_violated (hp : DgCube.Hp) (hhp : DgCube.HpOk hp exDgShell) :
    ∃ out out', (DgCube.remap hp ⟨2, 2, 2, fun _ _ _ => some 1⟩
        (runCalls (DgCube.call hp) [.cube exUnitCube, .polar exImageShell, .cube exDgCube] DgCube.init).2).1 = .ok out ∧
      (DgCube.remap hp ⟨2, 2, 2, fun _ _ _ => some 1⟩
        (runCalls (DgCube.call hp) [.cube exDgCube, .polar exImageShell] DgCube.init).2).1 = .ok out' ∧
      ∀ i p, i < 2 → p < 12 → out.val i p = some 1 ∧ out'.val i p = some 0 := by
  obtain ⟨out, s1, e1, h1⟩ := C80_constant_partial hp exDgCube exDgShell exDgCube_ok exDgShell_ok hhp
    ⟨2, 2, 2, fun _ _ _ => some 1⟩ 1 ⟨rfl, rfl, rfl, fun _ _ _ _ _ _ => ⟨rfl, one_good⟩⟩ DgCube.init
  obtain ⟨out', s2, e2, h2⟩ := C80_outside hp exDgCube exImageShell exDgCube_ok exImageShell_ok hhp
    ⟨2, 2, 2, fun _ _ _ => some 1⟩ (fun _ _ _ => 1) ⟨rfl, rfl, rfl, fun _ _ _ _ _ _ => ⟨rfl, one_good⟩⟩ DgCube.init
  have ch1 : DgCube.shellChecks exImageShell = .ok () := by
    apply DgCube.shellChecks_ok <;> norm_num [exImageShell]
  have ch2 : DgCube.shellChecks exDgShell = .ok () := by
    apply DgCube.shellChecks_ok <;> norm_num [exDgShell]
  have hfd : firstDiff (mids (linspace 0 (1/4) (2 + 1))) = _ := firstDiff_mids 0 (1/4) 2 (by norm_num)
  have p1 : ∀ t, t.cube = some exUnitCube.grid → ∃ dr sh, DgCube.setupPolar exImageShell t
      = (.ok (), ⟨t.cube, some (linspace 0 (1/4) (2 + 1), mids (linspace 0 (1/4) (2 + 1))), some dr,
        some { sh with center := (1/2, 1/2, 1/2) }⟩) ∧ ∀ u, u.cube = some exDgCube.grid →
      ∃ dr', DgCube.setupPolar exDgShell u
        = (.ok (), ⟨u.cube, some (linspace 0 (1/4) (2 + 1), mids (linspace 0 (1/4) (2 + 1))), some dr', some sh⟩) := by
    intro t ht
    refine ⟨midAt 0 (1/4) 2 1 - midAt 0 (1/4) 2 0, ⟨1, (3/2, 1/2, 1/2), 2, 2, [(3/2, 1/2, 1/2)],
      linspace ((linspace (0:ℝ) (1/4) (2 + 1)).getD 0 0) ((linspace (0:ℝ) (1/4) (2 + 1)).getLastD 0)
        (2*(mids (linspace (0:ℝ) (1/4) (2 + 1))).length + 1),
      mids (linspace ((linspace (0:ℝ) (1/4) (2 + 1)).getD 0 0) ((linspace (0:ℝ) (1/4) (2 + 1)).getLastD 0)
        (2*(mids (linspace (0:ℝ) (1/4) (2 + 1))).length + 1))⟩, ?_, ?_⟩
    rotate_left
    · intro u hu
      refine ⟨midAt 0 (1/4) 2 1 - midAt 0 (1/4) 2 0, ?_⟩
      unfold DgCube.setupPolar
      simp only [Meth.bind_apply, Meth.lift_apply, Meth.assign_apply, Meth.self_apply, ch2]
      rw [show firstDiff (mids (linspace exDgShell.rmin exDgShell.rmax (exDgShell.numr.toNat + 1))) = _ from hfd]
      simp only [hu, exCenters.2]
      rfl
    · unfold DgCube.setupPolar
      simp only [Meth.bind_apply, Meth.lift_apply, Meth.assign_apply, Meth.self_apply, ch1]
      rw [show firstDiff (mids (linspace exImageShell.rmin exImageShell.rmax (exImageShell.numr.toNat + 1))) = _
        from hfd]
      simp only [ht, exCenters.1]
      rfl
  have q1 : ∀ t, DgCube.setupCube exUnitCube t = (.ok (), { t with cube := some exUnitCube.grid }) :=
    fun t => DgCube.setupCube_ok exUnitCube_ok t
  have q2 : ∀ t, DgCube.setupCube exDgCube t = (.ok (), { t with cube := some exDgCube.grid }) :=
    fun t => DgCube.setupCube_ok exDgCube_ok t
  refine ⟨out, out', ?_, ?_, ?_⟩
  · obtain ⟨dr, sh, g1, g2⟩ := p1 { DgCube.init with cube := some exUnitCube.grid } rfl
    obtain ⟨dr', g2⟩ := g2 { DgCube.init with cube := some exDgCube.grid } rfl
    unfold DgCube.dgRemap at e1
    simp only [Meth.bind_apply, q2, g2] at e1
    show (DgCube.remap hp _ (DgCube.setupCube exDgCube (DgCube.setupPolar exImageShell
      (DgCube.setupCube exUnitCube DgCube.init).2).2).2).1 = _
    rw [q1, g1, q2, dgRemap_center hp _ _ _ _ (some dr'), e1]
  · unfold DgCube.dgRemap at e2
    simp only [Meth.bind_apply, q2] at e2
    show (DgCube.remap hp _ (DgCube.setupPolar exImageShell (DgCube.setupCube exDgCube DgCube.init).2).2).1 = _
    rw [q2]
    rcases hq : DgCube.setupPolar exImageShell { DgCube.init with cube := some exDgCube.grid } with ⟨r, t⟩
    rw [hq] at e2
    cases r with
    | error e => cases congrArg Prod.fst e2
    | ok u => exact congrArg Prod.fst e2
  · intro i p hi hp'
    refine ⟨h1 i p hi hp' fun k q hk hq => ?_, h2 i p hi hp' fun k q hk hq => ?_⟩
    · have : i*exDgShell.rebinR.toNat + k < 4 := by
        have e : exDgShell.rebinR.toNat = 2 := rfl
        rw [e] at hk ⊢
        omega
      exact ⟨(0, 0, 0), 1, 0, 0, (exDgShell_cell hp this q).1, (exDgShell_cell hp this q).2⟩
    · have hk4 : i*exImageShell.rebinR.toNat + k < 4 := by
        have e : exImageShell.rebinR.toNat = 2 := rfl
        rw [e] at hk ⊢
        omega
      have c := (exDgShell_cell hp hk4 q).2.1
      rintro ⟨n, a, b, d, ⟨hn, -⟩, hin, -⟩
      have hn1 : n.1 = 1 := by simp only [exImageShell] at hn; omega
      have e1 : (DgCube.densePoint hp exImageShell (i*exImageShell.rebinR.toNat + k) q).1
          = (DgCube.densePoint hp exDgShell (i*exImageShell.rebinR.toNat + k) q).1 - 1 := by
        unfold DgCube.densePoint
        simp only [exImageShell, exDgShell, DgCube.denseNum, List.getD_cons_zero]
        ring
      obtain ⟨-, c1, -⟩ := c
      obtain ⟨ha, -, hin⟩ := hin
      simp only [DgCube.image, e1, hn1, exDgCube, edgeAt] at c1 hin ha
      have ha' : (a:ℝ) ≤ 1 := by exact_mod_cast Nat.lt_succ_iff.mp ha
      push_cast at c1 hin
      norm_num at c1 hin
      linarith

/-! ### Monte Carlo `Cube2Shell` -/

theorem mcRemap_keeps (f : Arr3 (Option ℝ)) (w : Option (Arr3 ℝ)) : Keeps id (McCube.remap f w) := by
  unfold McCube.remap
  repeat' first
    | exact Keeps.lift _
    | exact Keeps.self
    | exact Keeps.pure _
    | (refine Keeps.bind ?_ fun _ => ?_)

/-- What `get_weights` reads. -/
def mcRead (s : McCube.State) : Option Grid3 × Option (List ℝ × List ℝ) × Option (Remap.Arg ℝ) × Option McCube.Shell :=
  (s.cube, s.edges, s.dr, s.shell)

theorem getWeights_keeps (n : ℕ) (d : ℕ → ℕ → McCube.Draw) : Keeps mcRead (McCube.getWeights n d) := by
  unfold McCube.getWeights
  repeat' first
    | exact Keeps.lift _
    | exact Keeps.self
    | exact Keeps.pure _
    | exact Keeps.assign fun _ => rfl
    | (refine Keeps.bind ?_ fun _ => ?_)

/-- From objects related by `R` the two methods return the same, and when they return a value leave objects
related by `R'`. -/
def Sync {S α : Type} (R R' : S → S → Prop) (m m' : Meth S α) : Prop :=
  ∀ s t, R s t → (m s).1 = (m' t).1 ∧ (∀ a, (m s).1 = .ok a → R' (m s).2 (m' t).2)

section
variable {S α β : Type} {R R' R'' : S → S → Prop}

theorem Sync.lift (p : Py α) : Sync R R (Meth.lift p : Meth S α) (Meth.lift p) := fun _ _ h => ⟨rfl, fun _ _ => h⟩
theorem Sync.assign {f : S → S} (h : ∀ s t, R s t → R' (f s) (f t)) : Sync R R' (Meth.assign f) (Meth.assign f) :=
  fun s t hs => ⟨rfl, fun _ _ => h s t hs⟩
theorem Sync.bind {m m' : Meth S α} {f f' : α → Meth S β} (hm : Sync R R' m m') (hf : ∀ a, Sync R' R'' (f a) (f' a)) :
    Sync R R'' (m >>= f) (m' >>= f') := by
  intro s t hs
  rw [Meth.bind_apply, Meth.bind_apply]
  obtain ⟨h1, h2⟩ := hm s t hs
  rcases hms : m s with ⟨r, s'⟩
  rcases hmt : m' t with ⟨r', t'⟩
  rw [hms, hmt] at h1 h2
  obtain rfl : r = r' := h1
  cases r with
  | error e => exact ⟨rfl, fun a h => by cases h⟩
  | ok a => exact hf a s' t' (h2 a rfl)
theorem Sync.self {f f' : S → Meth S β} (h : ∀ s t, R s t → Sync R R' (f s) (f' t)) :
    Sync R R' (Meth.self >>= f) (Meth.self >>= f') := fun s t hs => h s t hs s t hs
end

theorem getWeights_only (n : ℕ) (d : ℕ → ℕ → McCube.Draw) :
    Sync (fun s t => mcRead s = mcRead t) Eq (McCube.getWeights n d) (McCube.getWeights n d) := by
  unfold McCube.getWeights
  refine Sync.self ?_
  rintro ⟨c, e, dr, sh, w⟩ ⟨c', e', dr', sh', w'⟩ h
  simp only [mcRead, Prod.mk.injEq] at h
  obtain ⟨h1, h2, h3, h4⟩ := h
  subst h1 h2 h3 h4
  refine Sync.bind (Sync.lift _) fun _ => ?_
  split
  repeat' first
    | exact Sync.lift _
    | (refine Sync.bind (Sync.lift _) fun _ => ?_)
  refine Sync.assign ?_
  rintro ⟨c, e, dr, sh, w⟩ ⟨c', e', dr', sh', w'⟩ h
  simp only [mcRead, Prod.mk.injEq] at h
  obtain ⟨h1, h2, h3, h4⟩ := h
  subst h1 h2 h3 h4
  rfl

theorem mcLin_only (a : McCube.ShellArgs) :
    Sync (fun s t => s.cube = t.cube) (fun s t => mcRead s = mcRead t) (McCube.setupPolarLin a)
      (McCube.setupPolarLin a) := by
  unfold McCube.setupPolarLin
  refine Sync.bind (Sync.lift _) fun _ => Sync.bind (Sync.lift _) fun _ => ?_
  refine Sync.bind (R' := fun s t => s.cube = t.cube ∧ s.edges = t.edges)
    (Sync.assign fun s t h => ⟨h, rfl⟩) fun _ => ?_
  refine Sync.bind (Sync.lift _) fun _ => Sync.assign fun s t h => ?_
  simp only [mcRead, h.1, h.2]

theorem mcLog_only (a : McCube.ShellArgs) (z : Bool) :
    Sync (fun s t => s.cube = t.cube) (fun s t => mcRead s = mcRead t) (McCube.setupPolarLog a z)
      (McCube.setupPolarLog a z) := by
  unfold McCube.setupPolarLog
  refine Sync.bind (Sync.lift _) fun _ => Sync.bind (Sync.lift _) fun _ => ?_
  refine Sync.assign fun s t h => ?_
  simp only [mcRead, h]

theorem mcCube_only (a : CubeArgs) :
    Sync (fun _ _ => True) (fun s t => s.cube = t.cube) (McCube.setupCube a) (McCube.setupCube a) := by
  unfold McCube.setupCube
  exact Sync.bind (Sync.lift _) fun _ => Sync.assign fun s t h => rfl

theorem mcLin_cube (a : McCube.ShellArgs) : Keeps McCube.State.cube (McCube.setupPolarLin a) := by
  unfold McCube.setupPolarLin
  repeat' first
    | exact Keeps.lift _
    | exact Keeps.assign fun _ => rfl
    | (refine Keeps.bind ?_ fun _ => ?_)

theorem mcLog_cube (a : McCube.ShellArgs) (z : Bool) : Keeps McCube.State.cube (McCube.setupPolarLog a z) := by
  unfold McCube.setupPolarLog
  repeat' first
    | exact Keeps.lift _
    | exact Keeps.assign fun _ => rfl
    | (refine Keeps.bind ?_ fun _ => ?_)

theorem mcLin_weights (a : McCube.ShellArgs) : Keeps McCube.State.weights (McCube.setupPolarLin a) := by
  unfold McCube.setupPolarLin
  repeat' first
    | exact Keeps.lift _
    | exact Keeps.assign fun _ => rfl
    | (refine Keeps.bind ?_ fun _ => ?_)

theorem mcCube_keeps (a : CubeArgs) :
    Keeps (fun s : McCube.State => (s.edges, s.dr, s.shell)) (McCube.setupCube a) := by
  unfold McCube.setupCube
  repeat' first
    | exact Keeps.lift _
    | exact Keeps.assign fun _ => rfl
    | (refine Keeps.bind ?_ fun _ => ?_)

/-- The set-ups of the shells. -/
def IsPolar (c : McCube.Call) : Prop := (∃ a, c = .lin a) ∨ ∃ a z, c = .log a z

theorem mcPolar_only (P : McCube.Call) (hP : IsPolar P) (s t : McCube.State) (h : s.cube = t.cube)
    (ok : (McCube.call P t).1.Ok) : mcRead (McCube.call P s).2 = mcRead (McCube.call P t).2 := by
  rcases hP with ⟨a, rfl⟩ | ⟨a, z, rfl⟩
  · exact ((mcLin_only a t s h.symm).2 () ok).symm
  · exact ((mcLog_only a z t s h.symm).2 () ok).symm

theorem mcPolar_cube (P : McCube.Call) (hP : IsPolar P) (s : McCube.State) :
    (McCube.call P s).2.cube = s.cube := by
  rcases hP with ⟨a, rfl⟩ | ⟨a, z, rfl⟩
  · exact mcLin_cube a s
  · exact mcLog_cube a z s

theorem mccube_state (h1 h2 h3 h4 : List McCube.Call) (C : CubeArgs) (P : McCube.Call) (n : ℕ)
    (d : ℕ → ℕ → McCube.Draw) (hP : IsPolar P)
    (ok : ∀ o ∈ (runCalls McCube.call [.cube C, P, .weights n d] McCube.init).1, o.Ok)
    (h2' : ∀ c ∈ h2, c ≠ .clean ∧ ∀ C', c ≠ .cube C')
    (h3' : ∀ c ∈ h3, c ≠ .clean ∧ (∀ C', c ≠ .cube C') ∧ ¬ IsPolar c)
    (h4' : ∀ c ∈ h4, ∃ f w, c = .remap f w) (s : McCube.State) :
    (runCalls McCube.call (h1 ++ [.cube C] ++ h2 ++ [P] ++ h3 ++ [.weights n d] ++ h4) s).2
      = (runCalls McCube.call [.cube C, P, .weights n d] McCube.init).2 := by
  set i1 := (McCube.call (.cube C) McCube.init).2 with hi1
  set i2 := (McCube.call P i1).2 with hi2
  have ok1 : (McCube.call (.cube C) McCube.init).1.Ok := ok _ (by simp [runCalls])
  have ok2 : (McCube.call P i1).1.Ok := ok _ (by simp [runCalls, hi1])
  have ok3 : (McCube.call (.weights n d) i2).1.Ok := ok _ (by simp [runCalls, hi1, hi2])
  simp only [runCalls_append]
  set s1 := (runCalls McCube.call h1 s).2
  have e2 : (runCalls McCube.call [.cube C] s1).2.cube = i1.cube :=
    ((mcCube_only C McCube.init s1 trivial).2 () ok1).symm
  set s2 := (runCalls McCube.call [.cube C] s1).2
  have e3 : (runCalls McCube.call h2 s2).2.cube = i1.cube := by
    refine runCalls_keep _ (fun t => t.cube = i1.cube) h2 ?_ s2 e2
    intro c hc t ht
    cases c with
    | cube C' => exact absurd rfl ((h2' _ hc).2 C')
    | lin a => exact (mcLin_cube a t).trans ht
    | log a z => exact (mcLog_cube a z t).trans ht
    | weights n d => exact (congrArg Prod.fst (getWeights_keeps n d t)).trans ht
    | remap f w => exact (congrArg McCube.State.cube (mcRemap_keeps f w t)).trans ht
    | clean => exact absurd rfl (h2' _ hc).1
  set s3 := (runCalls McCube.call h2 s2).2
  have e4 : mcRead (runCalls McCube.call [P] s3).2 = mcRead i2 := mcPolar_only P hP s3 i1 e3 ok2
  set s4 := (runCalls McCube.call [P] s3).2
  have e5 : mcRead (runCalls McCube.call h3 s4).2 = mcRead i2 := by
    refine runCalls_keep _ (fun t => mcRead t = mcRead i2) h3 ?_ s4 e4
    intro c hc t ht
    cases c with
    | cube C' => exact absurd rfl ((h3' _ hc).2.1 C')
    | lin a => exact absurd (.inl ⟨a, rfl⟩) (h3' _ hc).2.2
    | log a z => exact absurd (.inr ⟨a, z, rfl⟩) (h3' _ hc).2.2
    | weights n d => exact (getWeights_keeps n d t).trans ht
    | remap f w => exact (congrArg mcRead (mcRemap_keeps f w t)).trans ht
    | clean => exact absurd rfl (h3' _ hc).1
  set s5 := (runCalls McCube.call h3 s4).2
  have e6 : (runCalls McCube.call [.weights n d] s5).2 = (McCube.call (.weights n d) i2).2 :=
    ((getWeights_only n d i2 s5 e5.symm).2 () ok3).symm
  rw [e6]
  refine runCalls_keep _ (fun t => t = (McCube.call (.weights n d) i2).2) h4 ?_ _ rfl
  intro c hc t ht
  obtain ⟨f', w', rfl⟩ := h4' c hc
  exact (mcRemap_keeps f' w' t).trans ht

/-- C106 for the Monte Carlo `Cube2Shell`: after any calls `h1`, `setup_cube`, any calls `h2` other than `setup_cube`
and `clean`, `setup_polar_lin` or `setup_polar_log`, any calls `h3` that set nothing up, `get_weights` and any remaps,
all later calls return what they return on a new object after these three set-up calls.  Missing: a set-up after
`get_weights`, see `C106_mccube_violated`. -/
theorem C106_mccube_partial (h1 h2 h3 h4 : List McCube.Call) (C : CubeArgs) (P : McCube.Call) (n : ℕ)
    (d : ℕ → ℕ → McCube.Draw) (hP : IsPolar P)
    (ok : ∀ o ∈ (runCalls McCube.call [.cube C, P, .weights n d] McCube.init).1, o.Ok)
    (h2' : ∀ c ∈ h2, c ≠ .clean ∧ ∀ C', c ≠ .cube C')
    (h3' : ∀ c ∈ h3, c ≠ .clean ∧ (∀ C', c ≠ .cube C') ∧ ¬ IsPolar c)
    (h4' : ∀ c ∈ h4, ∃ f w, c = .remap f w) (s : McCube.State) (k : List McCube.Call) :
    (runCalls McCube.call (h1 ++ [.cube C] ++ h2 ++ [P] ++ h3 ++ [.weights n d] ++ h4 ++ k) s).1.drop
        (h1.length + h2.length + h3.length + h4.length + 3)
      = (runCalls McCube.call ([.cube C, P, .weights n d] ++ k) McCube.init).1.drop 3 := by
  have := same_later _ (mccube_state h1 h2 h3 h4 C P n d hP ok h2' h3' h4' s) k
  rw [← show (h1 ++ [McCube.Call.cube C] ++ h2 ++ [P] ++ h3 ++ [McCube.Call.weights n d] ++ h4).length
    = h1.length + h2.length + h3.length + h4.length + 3 by
      simp only [List.length_append, List.length_cons, List.length_nil]; omega]
  exact this

theorem bind_ok {S α β : Type} {m : Meth S α} {f : α → Meth S β} {s s' : S} {b : β} (h : (m >>= f) s = (.ok b, s')) :
    ∃ a t, m s = (.ok a, t) ∧ f a t = (.ok b, s') := by
  rw [Meth.bind_apply] at h
  rcases hm : m s with ⟨r, t⟩
  rw [hm] at h
  cases r with
  | error e => cases congrArg Prod.fst h
  | ok a => exact ⟨a, t, rfl, h⟩

theorem setupCube_remap (C : CubeArgs) (f : Arr3 (Option ℝ)) (w : Option (Arr3 ℝ)) (s : McCube.State) :
    (McCube.remap f w (McCube.setupCube C s).2).1 = (McCube.remap f w s).1 := by
  have hr : ∀ s t : McCube.State, s.edges = t.edges → s.shell = t.shell → s.weights = t.weights →
      (McCube.remap f w s).1 = (McCube.remap f w t).1 := by
    rintro ⟨c, e, dr, sh, wt⟩ ⟨c', e', dr', sh', wt'⟩ h1 h2 h3
    obtain rfl : e = e' := h1
    obtain rfl : sh = sh' := h2
    obtain rfl : wt = wt' := h3
    have : Sync (fun s t : McCube.State => s.edges = t.edges ∧ s.shell = t.shell ∧ s.weights = t.weights)
        (fun _ _ => True) (McCube.remap f w) (McCube.remap f w) := by
      unfold McCube.remap
      refine Sync.self ?_
      rintro ⟨c, e, dr, sh, wt⟩ ⟨c', e', dr', sh', wt'⟩ ⟨h1, h2, h3⟩
      obtain rfl : e = e' := h1
      obtain rfl : sh = sh' := h2
      obtain rfl : wt = wt' := h3
      refine Sync.bind (Sync.lift _) fun _ => ?_
      split
      refine Sync.bind (Sync.lift _) fun _ => Sync.bind (Sync.lift _) fun _ => Sync.bind (Sync.lift _) fun _ => ?_
      exact fun _ _ _ => ⟨rfl, fun _ _ => trivial⟩
    exact (this ⟨c, e, dr, sh, wt⟩ ⟨c', e, dr', sh, wt⟩ ⟨rfl, rfl, rfl⟩).1
  refine hr _ _ ?_ ?_ ?_ <;> unfold McCube.setupCube <;> rw [Meth.bind_apply, Meth.lift_apply] <;>
    cases Cube.setupCube C <;> rfl

/-- A `get_weights` that raises an exception leaves the object as it is. -/
theorem getWeights_error (n : ℕ) (d : ℕ → ℕ → McCube.Draw) (s : McCube.State) (e : PyErr)
    (h : (McCube.getWeights n d s).1 = .error e) : (McCube.getWeights n d s).2 = s := by
  have key : ∀ {α : Type} {p : Py α} {f : α → Meth McCube.State Unit} {s : McCube.State},
      (∀ a, (f a s).1 = .error e → (f a s).2 = s) →
      ((Meth.lift p >>= f) s).1 = .error e → ((Meth.lift p >>= f) s).2 = s := by
    intro α p f s hf h
    rw [Meth.bind_apply, Meth.lift_apply] at *
    cases p with
    | error e => rfl
    | ok a => exact hf a h
  revert h
  unfold McCube.getWeights
  rw [Meth.bind_apply, Meth.self_apply]
  simp only
  refine key fun _ => ?_
  refine key fun _ => key fun _ => key fun _ => key fun _ => key fun _ h => ?_
  cases h

theorem remap_noweights (f : Arr3 (Option ℝ)) (w : Option (Arr3 ℝ)) (s : McCube.State) (h : s.weights = none)
    (out : Arr2 (Option ℝ)) : (McCube.remap f w s).1 ≠ .ok out := by
  intro hok
  have hok : McCube.remap f w s = (.ok out, (McCube.remap f w s).2) := Prod.ext hok rfl
  unfold McCube.remap at hok
  obtain ⟨_, _, h0, hok⟩ := bind_ok hok
  cases h0
  obtain ⟨_, _, h1, hok⟩ := bind_ok hok
  obtain ⟨_, _, h2, hok⟩ := bind_ok hok
  obtain ⟨_, _, h3, hok⟩ := bind_ok hok
  obtain ⟨_, _, h4, hok⟩ := bind_ok hok
  rw [h] at h4
  cases congrArg Prod.fst h4

/-- One voxel away from the shells of `exShell`. -/
noncomputable def exFarCube : CubeArgs := ⟨100, 101, 1, 100, 101, 1, 100, 101, 1⟩

theorem exFar_run (n : ℕ) (hn : 0 < n) (draws : ℕ → ℕ → McCube.Draw) (hd : ∀ i j, McCube.Draws n (draws i j)) :
    ∃ out t1 t2 t3 s', McCube.setupCube exFarCube McCube.init = (.ok (), t1) ∧
      McCube.setupPolarLin exShell t1 = (.ok (), t2) ∧ McCube.getWeights n draws t2 = (.ok (), t3) ∧
      McCube.remap ⟨1, 1, 1, fun _ _ _ => some 7⟩ none t3 = (.ok out, s') ∧
      ∀ i j, i < 2 → j < 12 → out.val i j = some Magpie.Cube.unseen := by
  have hF : McCube.CubeOk exFarCube := by constructor <;> norm_num [exFarCube]
  obtain ⟨dirs, hs, -⟩ := McCube.exists_dirs exShell_ok draws fun i j _ _ => hd i j
  obtain ⟨out, s', e, -, -, h⟩ := C84_outside exFarCube (.lin exShell) hF exShell_ok n hn
    draws (fun i j _ _ => hd i j) dirs hs ⟨1, 1, 1, fun _ _ _ => some 7⟩ (fun _ _ _ => 7) ⟨rfl, rfl, rfl⟩
    (fun _ _ _ _ _ _ => rfl) (by
      intro i j hi hj
      have hi2 : i < 2 := by simpa [McCube.Shells.numr, McCube.Shells.args, exShell] using hi
      unfold McCube.touched
      rw [show (0:ℕ) = (∅ : Set (ℕ × ℕ × ℕ)).ncard from (Set.ncard_empty _).symm]
      congr 1
      ext c
      simp only [Set.mem_setOf_eq, Set.mem_empty_iff_false, iff_false]
      rintro ⟨pt, hpt, ⟨h0, h1, -⟩, -⟩
      obtain ⟨⟨-, hx⟩, -⟩ := exShell_near (hd i j) _ hi2 hpt
      simp [Spec.edgeAt, exFarCube] at h0 h1
      have : (0:ℝ) ≤ c.1 := Nat.cast_nonneg _
      linarith) McCube.init
  unfold McCube.mcRemap at e
  obtain ⟨⟨⟩, t1, a1, e⟩ := bind_ok e
  obtain ⟨⟨⟩, t2, a2, e⟩ := bind_ok e
  obtain ⟨⟨⟩, t3, a3, e⟩ := bind_ok e
  exact ⟨out, t1, t2, t3, s', a1, a2, a3, e,
    fun i j hi hj => h i j (by simpa [McCube.Shells.numr, McCube.Shells.args, exShell] using hi)
    (by simpa [McCube.Shells.npix, McCube.Shells.args, exShell] using hj)⟩

/-- C106 does not hold for the Monte Carlo `Cube2Shell`, for every draw: the weights of a cube away from the shells
stay in use after the set-up of a cube around the shells, and all values are `hp.UNSEEN`; with the weights of the new
cube `remap` returns something else (it raises an exception, see C84). -/
theorem C106_mccube_violated (n : ℕ) (hn : 0 < n) (draws : ℕ → ℕ → McCube.Draw) (hd : ∀ i j, McCube.Draws n (draws i j)) :
    ∃ out, (McCube.remap ⟨1, 1, 1, fun _ _ _ => some 7⟩ none
        (runCalls McCube.call [.cube exFarCube, .lin exShell, .weights n draws,
          .cube ⟨-2, 2, 1, -2, 2, 1, -2, 2, 1⟩] McCube.init).2).1 = .ok out ∧
      (∀ i j, i < 2 → j < 12 → out.val i j = some Magpie.Cube.unseen) ∧
      (McCube.remap ⟨1, 1, 1, fun _ _ _ => some 7⟩ none
        (runCalls McCube.call [.cube ⟨-2, 2, 1, -2, 2, 1, -2, 2, 1⟩, .lin exShell, .weights n draws]
          McCube.init).2).1 ≠ .ok out := by
  have hC : McCube.CubeOk ⟨-2, 2, 1, -2, 2, 1, -2, 2, 1⟩ := by constructor <;> norm_num
  obtain ⟨out, t1, t2, t3, s', a1, a2, a3, e, h⟩ := exFar_run n hn draws hd
  obtain ⟨s'', e'⟩ := C84_violated n hn draws hd 7 McCube.init
  unfold McCube.mcRemap at e'
  refine ⟨out, ?_, h, ?_⟩
  · show (McCube.remap _ none (McCube.setupCube _ (McCube.getWeights n draws (McCube.setupPolarLin exShell
      (McCube.setupCube _ McCube.init).2).2).2).2).1 = _
    rw [setupCube_remap, a1, a2, a3]
    exact congrArg Prod.fst e
  · intro hok
    have b1 : McCube.setupCube ⟨-2, 2, 1, -2, 2, 1, -2, 2, 1⟩ McCube.init = _ := McCube.setupCube_ok hC McCube.init
    obtain ⟨t1', b2, -, -, -⟩ := McCube.Shells.setup_run exShell_ok
      (McCube.setupCube ⟨-2, 2, 1, -2, 2, 1, -2, 2, 1⟩ McCube.init).2
    have hw : t1'.weights = none := by
      have := mcLin_weights exShell (McCube.setupCube ⟨-2, 2, 1, -2, 2, 1, -2, 2, 1⟩ McCube.init).2
      rw [show McCube.setupPolarLin exShell _ = _ from b2, b1] at this
      exact this
    have b1' : McCube.setupCube ⟨-2, 2, 1, -2, 2, 1, -2, 2, 1⟩ McCube.init
      = (.ok (), (McCube.setupCube ⟨-2, 2, 1, -2, 2, 1, -2, 2, 1⟩ McCube.init).2) := by rw [b1]
    rw [Meth.bind_apply, b1'] at e'
    simp only at e'
    rw [Meth.bind_apply, b2] at e'
    simp only at e'
    have hok : (McCube.remap ⟨1, 1, 1, fun _ _ _ => some 7⟩ none (McCube.getWeights n draws (McCube.setupPolarLin exShell
      (McCube.setupCube ⟨-2, 2, 1, -2, 2, 1, -2, 2, 1⟩ McCube.init).2).2).2).1 = .ok out := hok
    rw [show McCube.setupPolarLin exShell _ = _ from b2] at hok
    rw [Meth.bind_apply] at e'
    cases hg : (McCube.getWeights n draws t1').1 with
    | error e0 =>
      rw [show (t1' : McCube.State) = (Except.ok (), t1').2 from rfl] at hg
      rw [getWeights_error n draws _ e0 hg] at hok
      exact remap_noweights _ _ _ hw _ hok
    | ok u =>
      rw [show McCube.getWeights n draws t1' = (.ok u, (McCube.getWeights n draws t1').2) from Prod.ext hg rfl] at e'
      have := congrArg Prod.fst e'
      rw [hok] at this
      cases this

/-- Draws as assumed in `C106_mccube_violated`. -/
example : ∀ i j : ℕ, McCube.Draws 3 ((fun _ _ => ⟨[0, 1/2, 1/3], [0, 1/4, 1/2], [1/5, 0, 1/2]⟩ :
    ℕ → ℕ → McCube.Draw) i j) := by
  intro i j
  refine ⟨⟨rfl, ?_⟩, ⟨rfl, ?_⟩, rfl, ?_⟩ <;> intro u hu <;> simp at hu <;> rcases hu with rfl | rfl | rfl <;> norm_num

/-- The hypotheses of `C106_mccube_partial` can be met: `exFarCube`, `exShell` and any draws, after another cube
and weights that were not accepted. -/
example (n : ℕ) (hn : 0 < n) (draws : ℕ → ℕ → McCube.Draw) (hd : ∀ i j, McCube.Draws n (draws i j)) :
    IsPolar (.lin exShell) ∧
    (∀ o ∈ (runCalls McCube.call [.cube exFarCube, .lin exShell, .weights n draws] McCube.init).1, o.Ok) ∧
    (∀ c ∈ [McCube.Call.weights n draws, .log exShell true], c ≠ .clean ∧ ∀ C', c ≠ .cube C') ∧
    (∀ c ∈ [McCube.Call.weights n draws], c ≠ .clean ∧ (∀ C', c ≠ .cube C') ∧ ¬ IsPolar c) := by
  obtain ⟨out, t1, t2, t3, s', a1, a2, a3, -, -⟩ := exFar_run n hn draws hd
  refine ⟨.inl ⟨_, rfl⟩, ?_, ?_, ?_⟩
  · have e : (runCalls McCube.call [.cube exFarCube, .lin exShell, .weights n draws] McCube.init).1
        = [.unit (.ok ()), .unit (.ok ()), .unit (.ok ())] := by
      simp only [runCalls, McCube.call, Meth.call, a1, a2, a3]
    rw [e]
    intro o ho
    simp only [List.mem_cons, List.not_mem_nil, or_false, or_self] at ho
    rw [ho]
    rfl
  · intro c hc
    simp only [List.mem_cons, List.not_mem_nil, or_false] at hc
    rcases hc with rfl | rfl <;> simp
  · intro c hc
    simp only [List.mem_cons, List.not_mem_nil, or_false] at hc
    subst hc
    refine ⟨by simp, by simp, ?_⟩
    rintro (⟨a, h⟩ | ⟨a, z, h⟩) <;> cases h

/-! ### `Heal2Ortho` -/

theorem orthoRemap1_keeps (f : List (Option ℝ)) : Keeps id (Ortho.remap1 f) := by
  unfold Ortho.remap1
  repeat' first
    | exact Keeps.lift _
    | exact Keeps.self
    | exact Keeps.pure _
    | (refine Keeps.bind ?_ fun _ => ?_)

theorem orthoRemap_keeps (f : List (Option ℝ)) (w : Option (List ℝ)) : Keeps id (Ortho.remap f w) := by
  unfold Ortho.remap
  cases w with
  | none => exact orthoRemap1_keeps f
  | some w =>
    exact Keeps.bind (Keeps.lift _) fun _ => Keeps.bind (orthoRemap1_keeps _) fun _ =>
      Keeps.bind (orthoRemap1_keeps _) fun _ => Keeps.lift _

theorem orthoTransform_keeps (p t : ℝ) : Keeps id (Ortho.transform p t) := by
  unfold Ortho.transform
  repeat' first
    | exact Keeps.lift _
    | exact Keeps.self
    | exact Keeps.pure _
    | (refine Keeps.bind ?_ fun _ => ?_)

theorem orthoTransformArr_keeps (p t : List ℝ) : Keeps id (Ortho.transformArr p t) := by
  unfold Ortho.transformArr
  repeat' first
    | exact Keeps.lift _
    | exact Keeps.self
    | exact Keeps.pure _
    | (refine Keeps.bind ?_ fun _ => ?_)

theorem orthoBox_keeps (ang2pix : ℤ → ℝ → ℝ → ℕ) (a : Ortho.BoxArgs) :
    Keeps Ortho.State.nside (Ortho.setupBox ang2pix a) := by
  unfold Ortho.setupBox
  refine Keeps.bind (Keeps.lift _) fun _ => Keeps.bind (Keeps.lift _) fun _ => Keeps.bind (Keeps.lift _) fun _ => ?_
  refine Keeps.bind (Keeps.assign fun _ => rfl) fun _ => Keeps.bind (Keeps.lift _) fun _ => ?_
  refine Keeps.bind (Keeps.assign fun _ => rfl) fun _ => Keeps.bind (Keeps.lift _) fun _ => ?_
  refine Keeps.bind (Keeps.assign fun _ => rfl) fun _ => ?_
  refine Keeps.bind (Keeps.assign fun _ => rfl) fun _ => Keeps.bind Keeps.self fun _ => ?_
  exact Keeps.bind (Keeps.lift _) fun _ => Keeps.assign fun _ => rfl

theorem orthoMap_only (n : ℤ) :
    Sync (fun _ _ => True) (fun s t => s.nside = t.nside) (Ortho.setupMap n) (Ortho.setupMap n) := by
  unfold Ortho.setupMap
  exact Sync.bind (Sync.lift _) fun _ => Sync.assign fun s t h => rfl

theorem orthoBox_only (ang2pix : ℤ → ℝ → ℝ → ℕ) (a : Ortho.BoxArgs) :
    Sync (fun s t => s.nside = t.nside) Eq (Ortho.setupBox ang2pix a) (Ortho.setupBox ang2pix a) := by
  unfold Ortho.setupBox
  refine Sync.bind (Sync.lift _) fun _ => Sync.bind (Sync.lift _) fun _ => Sync.bind (Sync.lift _) fun _ => ?_
  refine Sync.bind (R' := fun s t => s.nside = t.nside ∧ s.edges = t.edges)
    (Sync.assign fun s t h => ⟨h, rfl⟩) fun _ => Sync.bind (Sync.lift _) fun _ => ?_
  refine Sync.bind (R' := fun s t => s.nside = t.nside ∧ s.edges = t.edges ∧ s.dx = t.dx)
    (Sync.assign fun s t h => ⟨h.1, h.2, rfl⟩) fun _ => Sync.bind (Sync.lift _) fun _ => ?_
  refine Sync.bind (R' := fun s t => s.nside = t.nside ∧ s.edges = t.edges ∧ s.dx = t.dx ∧ s.dy = t.dy)
    (Sync.assign fun s t h => ⟨h.1, h.2.1, h.2.2, rfl⟩) fun _ => ?_
  refine Sync.bind (R' := fun s t => s.nside = t.nside ∧ s.edges = t.edges ∧ s.dx = t.dx ∧ s.dy = t.dy ∧
    s.grid = t.grid) (Sync.assign fun s t h => ⟨h.1, h.2.1, h.2.2.1, h.2.2.2, rfl⟩) fun _ => ?_
  refine Sync.self fun s t h => ?_
  rw [h.1]
  refine Sync.bind (Sync.lift _) fun _ => Sync.assign ?_
  rintro ⟨n, e, dx, dy, g, p⟩ ⟨n', e', dx', dy', g', p'⟩ ⟨h1, h2, h3, h4, h5⟩
  simp only at h1 h2 h3 h4 h5
  subst h1 h2 h3 h4 h5
  rfl

/-- Calls of `Heal2Ortho` that set nothing up. -/
def OrthoReads (c : Ortho.Call) : Prop :=
  (∃ f w, c = .remap f w) ∨ (∃ p t, c = .transform p t) ∨ ∃ p t, c = .transformArr p t

theorem orthoReads_keeps (ang2pix : ℤ → ℝ → ℝ → ℕ) (c : Ortho.Call) (h : OrthoReads c) (s : Ortho.State) :
    (Ortho.call ang2pix c s).2 = s := by
  rcases h with ⟨f, w, rfl⟩ | ⟨p, t, rfl⟩ | ⟨p, t, rfl⟩
  · exact orthoRemap_keeps f w s
  · exact orthoTransform_keeps p t s
  · exact orthoTransformArr_keeps p t s

theorem ortho_state (ang2pix : ℤ → ℝ → ℝ → ℕ) (h1 h2 h3 : List Ortho.Call) (N : ℤ) (B : Ortho.BoxArgs)
    (hN : (Ortho.setupMap N Ortho.init).1 = .ok ())
    (hB : (Ortho.setupBox ang2pix B (Ortho.setupMap N Ortho.init).2).1 = .ok ())
    (h2' : ∀ c ∈ h2, c ≠ .clean ∧ ∀ n, c ≠ .map n) (h3' : ∀ c ∈ h3, OrthoReads c) (s : Ortho.State) :
    (runCalls (Ortho.call ang2pix) (h1 ++ [.map N] ++ h2 ++ [.box B] ++ h3) s).2
      = (runCalls (Ortho.call ang2pix) [.map N, .box B] Ortho.init).2 := by
  simp only [runCalls_append]
  set s1 := (runCalls (Ortho.call ang2pix) h1 s).2
  have e2 : (runCalls (Ortho.call ang2pix) [.map N] s1).2.nside = (Ortho.setupMap N Ortho.init).2.nside :=
    ((orthoMap_only N Ortho.init s1 trivial).2 () hN).symm
  set s2 := (runCalls (Ortho.call ang2pix) [.map N] s1).2
  have e3 : (runCalls (Ortho.call ang2pix) h2 s2).2.nside = (Ortho.setupMap N Ortho.init).2.nside := by
    refine runCalls_keep _ (fun t => t.nside = (Ortho.setupMap N Ortho.init).2.nside) h2 ?_ s2 e2
    intro c hc t ht
    cases c with
    | map n => exact absurd rfl ((h2' _ hc).2 n)
    | box a => exact (orthoBox_keeps ang2pix a t).trans ht
    | remap f w => exact (congrArg Ortho.State.nside (orthoRemap_keeps f w t)).trans ht
    | transform p q => exact (congrArg Ortho.State.nside (orthoTransform_keeps p q t)).trans ht
    | transformArr p q => exact (congrArg Ortho.State.nside (orthoTransformArr_keeps p q t)).trans ht
    | clean => exact absurd rfl (h2' _ hc).1
  set s3 := (runCalls (Ortho.call ang2pix) h2 s2).2
  have e4 : (runCalls (Ortho.call ang2pix) [.box B] s3).2
      = (runCalls (Ortho.call ang2pix) [.map N, .box B] Ortho.init).2 :=
    ((orthoBox_only ang2pix B (Ortho.setupMap N Ortho.init).2 s3 e3.symm).2 () hB).symm
  rw [e4]
  refine runCalls_keep _ (fun t => t = (runCalls (Ortho.call ang2pix) [.map N, .box B] Ortho.init).2) h3 ?_ _ rfl
  intro c hc t ht
  exact (orthoReads_keeps ang2pix c (h3' c hc) t).trans ht

/-- C106 for `Heal2Ortho`: after any calls `h1`, `setup_map`, any calls `h2` other than `setup_map` and `clean`,
`setup_box`, and any calls `h3` of `remap` and `transform`, all later calls return what they return on a new object
after these two set-up calls.  Missing: `setup_map` after `setup_box`, see `C106_ortho_violated`. -/
theorem C106_ortho_partial (ang2pix : ℤ → ℝ → ℝ → ℕ) (h1 h2 h3 : List Ortho.Call) (N : ℤ) (B : Ortho.BoxArgs)
    (hN : (Ortho.setupMap N Ortho.init).1 = .ok ())
    (hB : (Ortho.setupBox ang2pix B (Ortho.setupMap N Ortho.init).2).1 = .ok ())
    (h2' : ∀ c ∈ h2, c ≠ .clean ∧ ∀ n, c ≠ .map n) (h3' : ∀ c ∈ h3, OrthoReads c) (s : Ortho.State)
    (k : List Ortho.Call) :
    (runCalls (Ortho.call ang2pix) (h1 ++ [.map N] ++ h2 ++ [.box B] ++ h3 ++ k) s).1.drop
        (h1.length + h2.length + h3.length + 2)
      = (runCalls (Ortho.call ang2pix) ([.map N, .box B] ++ k) Ortho.init).1.drop 2 := by
  have := same_later _ (ortho_state ang2pix h1 h2 h3 N B hN hB h2' h3' s) k
  rw [← show (h1 ++ [Ortho.Call.map N] ++ h2 ++ [Ortho.Call.box B] ++ h3).length
    = h1.length + h2.length + h3.length + 2 by simp only [List.length_append, List.length_cons, List.length_nil]; omega]
  exact this

/-- A view around a point of the southern hemisphere. -/
noncomputable def exSouth : Ortho.BoxArgs := ⟨1/10, 2, [1, 2], none, none, 1, 1, 1⟩

theorem exSouth_valid : Ortho.Valid exSouth (1, 2) := by
  have hpi := Real.pi_gt_three
  refine ⟨by simp [exSouth], by simp [exSouth], rfl, by simp [exSouth], ⟨by norm_num, by simp only; linarith⟩,
    ⟨by norm_num, by simp only; linarith⟩⟩

/-- The hypotheses of `C106_ortho_partial` can be met, for every pixelisation. -/
example (ang2pix : ℤ → ℝ → ℝ → ℕ) : (Ortho.setupMap 2 Ortho.init).1 = .ok () ∧
    (Ortho.setupBox ang2pix exSouth (Ortho.setupMap 2 Ortho.init).2).1 = .ok () ∧
    OrthoReads (.transform 1 2) ∧ ∀ n, Ortho.Call.box exSouth ≠ .map n := by
  obtain ⟨sky, s', e, hs⟩ := Ortho.setup_run ang2pix exSouth_valid le_rfl le_rfl (n := 2) (by norm_num) Ortho.init
  obtain ⟨u, t, a1, a2⟩ := bind_ok e
  refine ⟨congrArg Prod.fst a1, ?_, .inr (.inl ⟨_, _, rfl⟩), by simp⟩
  rw [a1]
  exact congrArg Prod.fst a2

/-- C106 does not hold for `Heal2Ortho`: a map set up with `nside = 2`, a view of the southern sky, then a map with
`nside = 1`. A `remap` of a constant map with `nside = 1` (12 pixels) raises `IndexError`, as it still reads pixels of
the first map; on a new object it returns the constant.  Of the pixelisation it is used that the map with `nside = 1`
has 12 pixels, and that pixels of the map with `nside = 2` in the southern hemisphere have numbers from 12 (in fact
from 20). -/
theorem C106_ortho_violated (ang2pix : ℤ → ℝ → ℝ → ℕ) (h1 : ∀ t p, ang2pix 1 t p < 12)
    (h2 : ∀ t p, Real.cos t < 0 → 12 ≤ ang2pix 2 t p) (x : ℝ) :
    (Ortho.remap (List.replicate 12 (some x)) none
      (runCalls (Ortho.call ang2pix) [.map 2, .box exSouth, .map 1] Ortho.init).2).1 = .error .indexError ∧
    ∃ out, (Ortho.remap (List.replicate 12 (some x)) none
      (runCalls (Ortho.call ang2pix) [.map 1, .box exSouth] Ortho.init).2).1 = .ok out ∧
      ∀ i j, i < 2 → j < 2 → out.val i j = some x := by
  have hx : ∀ q, q < 2 → ∀ n, n < 2 → (Ortho.point exSouth 1 1 n q).1^2 ≤ 1/100 ∧ (Ortho.point exSouth 1 1 n q).2^2 ≤ 1/100
      ∧ |(Ortho.point exSouth 1 1 n q).2| ≤ 1/10 := by
    intro q hq n hn
    unfold Ortho.point
    simp only [exSouth, Ortho.nx, Ortho.ny, Spec.midAt, Spec.edgeAt, Option.getD_none]
    have e2 : Int.toNat 2 = 2 := rfl
    interval_cases q <;> interval_cases n <;> norm_num [abs_le, e2]
  have hon : ∀ i j, i < 2 → j < 2 → Ortho.OnSphere exSouth.radius (Ortho.point exSouth 1 1 i j) := by
    intro i j hi hj
    obtain ⟨a, b, -⟩ := hx j hj i hi
    unfold Ortho.OnSphere
    simp only [exSouth] at *
    linarith
  constructor
  · obtain ⟨sky, s', e, hs⟩ := Ortho.setup_run ang2pix exSouth_valid le_rfl le_rfl (n := 2) (by norm_num) Ortho.init
    obtain ⟨u, t, a1, a2⟩ := bind_ok e
    show (Ortho.remap _ none (Ortho.setupMap 1 (Ortho.setupBox ang2pix exSouth (Ortho.setupMap 2 Ortho.init).2).2).2).1 = _
    rw [a1]
    simp only
    rw [a2]
    have hm : Ortho.setupMap 1 s' = (.ok (), { s' with nside := some 1 }) := rfl
    simp only [hm]
    unfold Ortho.remap Ortho.remap1
    simp only [Meth.bind_apply, Meth.self_apply, Meth.lift_apply, hs.grid, hs.pix, need]
    have hseen := hs.seen 0 0 (by decide) (by decide) (hon 0 0 (by norm_num) (by norm_num))
    have hcos : Real.cos (sky 0 0).2 < 0 := by
      have h2 := congrFun hseen 2
      obtain ⟨a0, a, b⟩ := hx 0 (by norm_num) 0 (by norm_num)
      have e1 : exSouth.rebinX = 1 := rfl
      have e2 : exSouth.rebinY = 1 := rfl
      have e3 : exSouth.radius = 1 := rfl
      simp only [e1, e2, e3] at h2
      generalize Ortho.point exSouth 1 1 0 0 = p at a0 a b h2
      simp [dir, Ortho.east, Ortho.north] at h2
      have c1 : Real.cos 2 ≤ -31/81 := by
        have h := Real.cos_two_mul 1
        rw [mul_one] at h
        have h1 := Real.cos_one_le
        have h0 := Real.cos_one_pos
        rw [h]
        nlinarith
      have c2 : (9:ℝ)/10 ≤ √(1 - p.1^2 - p.2^2) := by
        apply Real.le_sqrt_of_sq_le
        linarith
      have c3 : p.2*Real.sin 2 ≤ 1/10 := by
        calc p.2*Real.sin 2 ≤ |p.2*Real.sin 2| := le_abs_self _
          _ = |p.2| * |Real.sin 2| := abs_mul _ _
          _ ≤ 1/10*1 := by gcongr; exact Real.abs_sin_le_one 2
          _ = 1/10 := by norm_num
      rw [h2]
      nlinarith
    have hp := h2 _ (sky 0 0).1 hcos
    have hl : List.range (exSouth.rebinY*Ortho.ny exSouth*(exSouth.rebinX*Ortho.nx exSouth)) = [0, 1, 2, 3] := rfl
    rw [hl, List.map_cons]
    have hg : ∀ rest, gather (List.replicate 12 (some x)) (ang2pix 2 (sky (0 / (exSouth.rebinX*Ortho.nx exSouth))
        (0 % (exSouth.rebinX*Ortho.nx exSouth))).2 (sky (0 / (exSouth.rebinX*Ortho.nx exSouth))
        (0 % (exSouth.rebinX*Ortho.nx exSouth))).1 :: rest) = .error .indexError := by
      intro rest
      rw [Nat.zero_div, Nat.zero_mod, gather]
      rw [List.getElem?_eq_none (by simpa using hp)]
    rw [hg]
  · obtain ⟨out, s', e, h⟩ := C77_constant_partial ang2pix exSouth (1, 2) 1 exSouth_valid (by norm_num) rfl rfl x h1
      Ortho.init
    obtain ⟨u, t, a1, e⟩ := bind_ok e
    obtain ⟨u, t', a2, e⟩ := bind_ok e
    refine ⟨out, ?_, fun i j hi hj => h i j hi hj (hon i j hi hj)⟩
    show (Ortho.remap _ none (Ortho.setupBox ang2pix exSouth (Ortho.setupMap 1 Ortho.init).2).2).1 = _
    rw [a1]
    simp only
    rw [a2]
    exact congrArg Prod.fst e

/-- The hypotheses of `C106_ortho_violated` can be met. -/
example : ∃ ang2pix : ℤ → ℝ → ℝ → ℕ, (∀ t p, ang2pix 1 t p < 12) ∧ ∀ t p, Real.cos t < 0 → 12 ≤ ang2pix 2 t p :=
  ⟨fun n t _ => if n = 1 then 3 else if Real.cos t < 0 then 40 else 3, fun t p => by simp, fun t p h => by simp [h]⟩

/-! ### `PointOfView` -/

/-- C106 for `PointOfView`: after any calls, `setup`, and any calls of `transform` and `reverse`, all later calls
return what they return on a new object after this `setup`. -/
theorem C106_pov (h1 h2 : List Pov.Call) (camera point : ℝ × ℝ × ℝ) (display spin : ℝ)
    (h2' : ∀ c ∈ h2, (∃ x y z, c = .transform x y z) ∨ ∃ x y d, c = .reverse x y d) (s : Pov.State)
    (k : List Pov.Call) :
    (runCalls Pov.call (h1 ++ [.setup camera point display spin] ++ h2 ++ k) s).1.drop (h1.length + h2.length + 1)
      = (runCalls Pov.call ([.setup camera point display spin] ++ k) Pov.init).1.drop 1 := by
  have e : (runCalls Pov.call (h1 ++ [.setup camera point display spin] ++ h2) s).2
      = (runCalls Pov.call [.setup camera point display spin] Pov.init).2 := by
    simp only [runCalls_append]
    refine runCalls_keep _ (fun t => t = (runCalls Pov.call [.setup camera point display spin] Pov.init).2) h2 ?_ _ rfl
    intro c hc t ht
    rw [← ht]
    rcases h2' c hc with ⟨x, y, z, rfl⟩ | ⟨x, y, d, rfl⟩
    · have : Keeps id (Pov.transform x y z) := by
        unfold Pov.transform
        repeat' first
          | exact Keeps.lift _
          | exact Keeps.self
          | exact Keeps.pure _
          | (refine Keeps.bind ?_ fun _ => ?_)
          | split
      exact this t
    · have : Keeps id (Pov.reverse x y d) := by
        unfold Pov.reverse
        repeat' first
          | exact Keeps.lift _
          | exact Keeps.self
          | exact Keeps.pure _
          | (refine Keeps.bind ?_ fun _ => ?_)
          | split
      exact this t
  have := same_later _ e k
  rw [← show (h1 ++ [Pov.Call.setup camera point display spin] ++ h2).length
    = h1.length + h2.length + 1 by simp only [List.length_append, List.length_cons, List.length_nil]; omega]
  exact this

end Magpie.Props
