import Verif.Proof.Mono
import Verif.Props.Linear

/-!
# C135: larger data never give a smaller map
-/

set_option linter.unusedSimpArgs false
set_option linter.unusedVariables false
set_option linter.unusedSectionVars false

namespace Magpie.Props
open Magpie Magpie.Radial Magpie.Spec Magpie.Mono

/-- C135, `densegrid.Box2Ring`: after any sequence of calls on a new object, remapping data that are nowhere larger,
with weights that are not negative, gives a map that is nowhere larger and is NaN at the same pixels; or both calls
raise the same exception. -/
theorem C135_dense_box (cs : List (Box2Ring.Call Dg.Setup)) (f g : Arr2 (Option ℝ)) (h : BelowArr f g)
    (w : Option (Arr2 ℝ)) (hw : ∀ w', w = some w' → ∀ i j, i < w'.rows → j < w'.cols → 0 ≤ w'.val i j) :
    BelowCalls (Dg.remap f w (Dg.cls.run cs Box2Ring.init).2).1 (Dg.remap g w (Dg.cls.run cs Box2Ring.init).2).1 :=
  belowCalls' (dg_remap below_closed (below_data h) w hw (dg_run cs)).1

/-- C135, `montecarlo.Box2Ring`: the same, for all random variates. -/
theorem C135_mc_box (cs : List (Box2Ring.Call Mc.Setup)) (f g : Arr2 (Option ℝ)) (h : BelowArr f g)
    (w : Option (Arr2 ℝ)) (hw : ∀ w', w = some w' → ∀ i j, i < w'.rows → j < w'.cols → 0 ≤ w'.val i j) :
    BelowCalls (Mc.remap f w (Mc.cls.run cs Box2Ring.init).2).1 (Mc.remap g w (Mc.cls.run cs Box2Ring.init).2).1 :=
  belowCalls' (mc_remap below_closed (below_data h) w hw (mc_run cs)).1

/-- C135, `densegrid.Heal2Ortho`: the same for HEALPix maps. -/
theorem C135_ortho (ang2pix : ℤ → ℝ → ℝ → ℕ) (cs : List Ortho.Call) (f g : List (Option ℝ))
    (h : List.Forall₂ Below f g) (w : Option (List ℝ)) (hw : ∀ w', w = some w' → ∀ c ∈ w', 0 ≤ c) :
    BelowCalls (Ortho.remap f w (runCalls (Ortho.call ang2pix) cs Ortho.init).2).1
      (Ortho.remap g w (runCalls (Ortho.call ang2pix) cs Ortho.init).2).1 :=
  belowCalls' (ortho_remap below_closed (below_list h) w hw (ortho_run ang2pix cs)).1

/-- C135, `montecarlo.Cube2Shell`: the same, for all random variates. -/
theorem C135_mc_cube (cs : List McCube.Call) (f g : Arr3 (Option ℝ)) (h : BelowArr3 f g) (w : Option (Arr3 ℝ))
    (hw : ∀ w', w = some w' → ∀ i j k, i < w'.n0 → j < w'.n1 → k < w'.n2 → 0 ≤ w'.val i j k) :
    BelowCalls (McCube.remap f w (runCalls McCube.call cs McCube.init).2).1
      (McCube.remap g w (runCalls McCube.call cs McCube.init).2).1 :=
  belowCalls' (cube_remap h w hw (cube_run cs)).1

/-- C135, `densegrid.Cube2Shell`: the same for data of finite numbers that healpy does not take for missing values. -/
theorem C135_dense_cube (hp : DgCube.Hp) (cs : List DgCube.Call) (f g : Arr3 (Option ℝ)) (h : BelowArr3 f g)
    (hf : Usual f) (hg : Usual g) (hs : Nested hp (runCalls (DgCube.call hp) cs DgCube.init).2) :
    BelowCalls (DgCube.remap hp f (runCalls (DgCube.call hp) cs DgCube.init).2).1
      (DgCube.remap hp g (runCalls (DgCube.call hp) cs DgCube.init).2).1 :=
  belowCalls (dgcube_remap h hf hg hp hs (dgcube_run hp cs)).1

/-- C135, `polar2radial` of `densegrid.Box2Ring`: the ring profile of a map that is nowhere smaller is nowhere smaller,
after any sequence of calls. -/
theorem C135_dense_profile (cs : List (Box2Ring.Call Dg.Setup)) (f g : Arr2 (Option ℝ)) (h : BelowArr f g)
    (sigma w : Option (Arr2 ℝ)) (hw : ∀ w', w = some w' → ∀ i j, i < w'.rows → j < w'.cols → 0 ≤ w'.val i j) :
    BelowProfiles (Dg.polar2radial f sigma w (Dg.cls.run cs Box2Ring.init).2).1
      (Dg.polar2radial g sigma w (Dg.cls.run cs Box2Ring.init).2).1 :=
  belowProfiles (radial_rel (I := fun s => DgInv s ∧ MaskInv s) below_closed (fun s a h => h) (fun s a h => h)
    (fun s h => h.2) dg_mask (below_data h) sigma w hw (dg_run' cs))

/-- C135, `polar2radial` of `montecarlo.Box2Ring`. -/
theorem C135_mc_profile (cs : List (Box2Ring.Call Mc.Setup)) (f g : Arr2 (Option ℝ)) (h : BelowArr f g)
    (sigma w : Option (Arr2 ℝ)) (hw : ∀ w', w = some w' → ∀ i j, i < w'.rows → j < w'.cols → 0 ≤ w'.val i j) :
    BelowProfiles (Mc.polar2radial f sigma w (Mc.cls.run cs Box2Ring.init).2).1
      (Mc.polar2radial g sigma w (Mc.cls.run cs Box2Ring.init).2).1 :=
  belowProfiles (radial_rel (I := fun s => McInv s ∧ MaskInv s) below_closed (fun s a h => h) (fun s a h => h)
    (fun s h => h.2) mc_mask (below_data h) sigma w hw (mc_run' cs))

/-- C135 needs weights that are not negative: with the weights `2` and `-1` the profile of the ring `1, 1` is `1`, that
of the ring `1, 2`, which is larger, is `0`. -/
theorem C135_negative_weights : Radial.polar2radial ⟨2, 1, fun _ _ => some (1:ℝ)⟩ (some ⟨2, 1, fun i _ => 2 - 3*(i:ℝ)⟩)
      = .ok [some 1] ∧
    Radial.polar2radial ⟨2, 1, fun i _ => some (1 + (i:ℝ))⟩ (some ⟨2, 1, fun i _ => 2 - 3*(i:ℝ)⟩) = .ok [some 0] := by
  constructor <;>
  · simp [Radial.polar2radial, Arr2.zip, Arr2.sum0, OneD.omul, OneD.odiv, OneD.npSum, List.range_succ, fdiv, bind, Except.bind,
      pure, Except.pure]
    norm_num

/-! ### Examples -/

/-- After a set-up in two calls, the two calls of `C135_dense_box` return, and the second map is nowhere smaller. -/
example : ∃ x y, (Dg.remap ⟨6, 4, fun _ _ => some 1⟩ none (Dg.cls.run [.setup (.box exBox), .setup (.polar exPolar 3 3)]
      Box2Ring.init).2).1 = .ok x ∧
    (Dg.remap ⟨6, 4, fun i j => some (1 + (i:ℝ)*j)⟩ none (Dg.cls.run [.setup (.box exBox), .setup (.polar exPolar 3 3)]
      Box2Ring.init).2).1 = .ok y ∧ BelowArr x y := by
  obtain ⟨s, e, hs, -⟩ := Dg.setup_run exBox_ok.numx exBox_ok.numy exPolar_ok (by simp [exPolar]) (by simp [exPolar])
    3 3 Box2Ring.init
  obtain ⟨out, s', e', -⟩ := C73_bounds_partial exBox exPolar 3 exBox_ok exPolar_ok (by simp [exPolar])
    (by simp [exPolar]) (by norm_num) ⟨6, 4, fun _ _ => some 1⟩ (fun _ _ => 1) rfl rfl (fun _ _ _ _ => rfl) 1 1
    (fun _ _ _ _ => ⟨le_rfl, le_rfl⟩) Box2Ring.init
  have e1 : (do Box2Ring.setupBox exBox; Dg.setupPolar exPolar 3 3 : Meth Dg.State Unit) Box2Ring.init = (.ok (), s) := e
  have e2 : (Dg.remap ⟨6, 4, fun _ _ => some 1⟩ none s).1 = .ok out := by
    have : ((do Box2Ring.setupBox exBox; Dg.setupPolar exPolar 3 3 : Meth Dg.State Unit) >>= fun _ =>
        Dg.remap ⟨6, 4, fun _ _ => some 1⟩ none) Box2Ring.init = (.ok out, s') := by
      rw [← e']
      simp only [Meth.bind_apply]
      cases Box2Ring.setupBox exBox Box2Ring.init with
      | mk q t => cases q <;> rfl
    rw [Meth.bind_apply, e1] at this
    simp only at this
    rw [this]
  have er : (Dg.cls.run [.setup (.box exBox), .setup (.polar exPolar 3 3)] Box2Ring.init).2 = s := by
    rw [Meth.bind_apply] at e1
    show (Dg.setupPolar exPolar 3 3 (Box2Ring.setupBox exBox Box2Ring.init).2).2 = s
    generalize Box2Ring.setupBox exBox Box2Ring.init = q at e1
    obtain ⟨q, t⟩ := q
    cases q with
    | error e => simp at e1
    | ok u => simp only at e1; rw [e1]
  have h := C135_dense_box [.setup (.box exBox), .setup (.polar exPolar 3 3)] ⟨6, 4, fun _ _ => some 1⟩
    ⟨6, 4, fun i j => some (1 + (i:ℝ)*j)⟩ ⟨⟨rfl, rfl⟩, fun i j _ _ => by
      show (1:ℝ) ≤ 1 + (i:ℝ)*j
      have : (0:ℝ) ≤ (i:ℝ)*j := by positivity
      linarith⟩ none (by simp)
  rw [er] at h ⊢
  rw [e2] at h ⊢
  unfold BelowCalls at h
  split at h
  · rename_i x y ex ey
    simp only [Except.ok.injEq] at ex
    exact ⟨x, y, by rw [ex], ey, h⟩
  · rename_i ey _; simp at ey
  · exact h.elim

/-- Weights that meet the hypothesis, and data below others. -/
example : (∀ w', some (⟨6, 4, fun i j => (i:ℝ) + j⟩ : Arr2 ℝ) = some w' → ∀ i j, i < w'.rows → j < w'.cols →
      0 ≤ w'.val i j) ∧
    BelowArr3 ⟨2, 2, 2, fun _ _ _ => some (-5)⟩ ⟨2, 2, 2, fun i _ _ => some (i:ℝ)⟩ ∧
    List.Forall₂ Below [none, some 1] [none, some 3] := by
  refine ⟨?_, ⟨⟨rfl, rfl, rfl⟩, fun i j k _ _ _ => ?_⟩, .cons trivial (.cons ?_ .nil)⟩
  · intro w' hw i j _ _
    simp only [Option.some.injEq] at hw
    rw [← hw]
    show (0:ℝ) ≤ (i:ℝ) + j
    positivity
  · show (-5:ℝ) ≤ (i:ℝ)
    have : (0:ℝ) ≤ i := Nat.cast_nonneg _
    linarith
  · show (1:ℝ) ≤ 3
    norm_num

/-- An object and data that meet the hypotheses of `C135_dense_cube`. -/
example (dir : ℕ → ℝ × ℝ) : Nested (exHp dir) (runCalls (DgCube.call (exHp dir)) [.cube exDgCube, .polar exDgShell]
      DgCube.init).2 ∧ (∃ sh, (runCalls (DgCube.call (exHp dir)) [.cube exDgCube, .polar exDgShell] DgCube.init).2.shell
        = some sh) ∧
    Usual ⟨2, 2, 2, fun _ _ _ => some (-5)⟩ ∧ Usual ⟨2, 2, 2, fun _ _ _ => some 1⟩ := by
  obtain ⟨cs, s, e, h⟩ := DgCube.setup_run_nums exDgCube_ok.numx exDgCube_ok.numy exDgCube_ok.numz exDgShell_ok DgCube.init
  have er : (runCalls (DgCube.call (exHp dir)) [.cube exDgCube, .polar exDgShell] DgCube.init).2 = s := by
    rw [Meth.bind_apply] at e
    show (DgCube.setupPolar exDgShell (DgCube.setupCube exDgCube DgCube.init).2).2 = s
    generalize DgCube.setupCube exDgCube DgCube.init = q at e
    obtain ⟨q, t⟩ := q
    cases q with
    | error e' => simp at e
    | ok u => simp only at e; rw [e]
  rw [er]
  refine ⟨?_, ⟨_, h.shell⟩, fun _ _ _ => ⟨_, rfl, by norm_num⟩, fun _ _ _ => ⟨_, rfl, by norm_num⟩⟩
  intro sh hsh p hp
  rw [h.shell, Option.some.injEq] at hsh
  subst hsh
  exact exHp_ok dir p hp

end Magpie.Props
