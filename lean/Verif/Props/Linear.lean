import Verif.Proof.Linear
import Verif.Props.DgBox2Ring
import Verif.Props.DgCube2Shell

/-!
# C132: the remapping methods are linear in the data
-/

set_option linter.unusedSimpArgs false
set_option linter.unusedVariables false
set_option linter.unusedSectionVars false

namespace Magpie.Props
open Magpie Magpie.Radial Magpie.Spec Magpie.Linear

/-- C132, `densegrid.Box2Ring`: whatever calls have led to the object, remapping `a*f + b*g` gives `a` times the
remapped `f` plus `b` times the remapped `g`, NaN where one of them is; or all three calls raise the same exception. -/
theorem C132_dense_box (a b : ℝ) (f g : Arr2 (Option ℝ)) (hr : g.rows = f.rows) (hc : g.cols = f.cols)
    (w : Option (Arr2 ℝ)) (s : Dg.State) :
    ThreeCalls (fun x y z => z = lin a b x y) (Dg.remap f w s).1 (Dg.remap g w s).1
      (Dg.remap (combine a b f g) w s).1 :=
  threeCalls (dg_remap (RA.combine hr hc) w s).1

/-- C132, `montecarlo.Box2Ring`: the same, with the weights stored by `get_polar_weights`. -/
theorem C132_mc_box (a b : ℝ) (f g : Arr2 (Option ℝ)) (hr : g.rows = f.rows) (hc : g.cols = f.cols)
    (w : Option (Arr2 ℝ)) (s : Mc.State) :
    ThreeCalls (fun x y z => z = lin a b x y) (Mc.remap f w s).1 (Mc.remap g w s).1
      (Mc.remap (combine a b f g) w s).1 :=
  threeCalls (mc_remap (RA.combine hr hc) w s).1

/-- C132, `densegrid.Heal2Ortho`: the same for HEALPix maps. -/
theorem C132_ortho (a b : ℝ) (f g : List (Option ℝ)) (hl : g.length = f.length) (w : Option (List ℝ))
    (s : Ortho.State) :
    ThreeCalls (fun x y z => z = lin a b x y) (Ortho.remap f w s).1 (Ortho.remap g w s).1
      (Ortho.remap (List.zipWith (lin a b) f g) w s).1 :=
  threeCalls (ortho_remap (list_combine hl) w s).1

/-- C132, `montecarlo.Cube2Shell`: the same, except that pixels without random points in the cube hold the number
`hp.UNSEEN` whatever the data are. -/
theorem C132_mc_cube (a b : ℝ) (f g : Arr3 (Option ℝ)) (h0 : g.n0 = f.n0) (h1 : g.n1 = f.n1) (h2 : g.n2 = f.n2)
    (w : Option (Arr3 ℝ)) (s : McCube.State) :
    ThreeCalls (fun x y z => z = lin a b x y ∨ x = some Cube.unseen ∧ y = some Cube.unseen ∧ z = some Cube.unseen)
      (McCube.remap f w s).1 (McCube.remap g w s).1 (McCube.remap (combine3 a b f g) w s).1 :=
  threeCalls (cube_remap h0 h1 h2 w s).1

/-- C132, `densegrid.Cube2Shell`: the same for data of finite numbers that healpy does not take for missing values. -/
theorem C132_dense_cube (a b : ℝ) (f g : Arr3 (Option ℝ)) (h0 : g.n0 = f.n0) (h1 : g.n1 = f.n1) (h2 : g.n2 = f.n2)
    (hf : Usual f) (hg : Usual g) (hfg : Usual (combine3 a b f g)) (hp : DgCube.Hp) (s : DgCube.State)
    (hs : Nested hp s) :
    ThreeCalls (fun x y z => z = lin a b x y) (DgCube.remap hp f s).1 (DgCube.remap hp g s).1
      (DgCube.remap hp (combine3 a b f g) s).1 :=
  threeCalls_lt (dgcube_remap h0 h1 h2 hf hg hfg hp s hs).1

/-- C132 for the dense grid needs `Usual`: two subpixels with the values `1` and `3` have the mean `2`, but times
`-1.6375e30/3` the second is taken for a missing value and the result is not `-1.6375e30*2/3`. -/
theorem C132_usual_needed : DgCube.udGrade [some 1, some 3] = some 2 ∧
    DgCube.udGrade ([some (1:ℝ), some 3].map fun x => OneD.omul x (-1.6375e30/3)) =
      some (-1.6375e30/3) := by
  have b1 : ¬ DgCube.isBad 1 := good30 (by norm_num)
  have b3 : ¬ DgCube.isBad 3 := good30 (by norm_num)
  have c1 : ¬ DgCube.isBad (1*(-1.6375e30/3)) := good30 (by rw [abs_lt]; norm_num)
  have c3 : DgCube.isBad (3*(-1.6375e30/3)) := by
    unfold DgCube.isBad Cube.unseen
    norm_num
  constructor
  · simp [DgCube.udGrade, b1, b3]
    norm_num
  · simp only [List.map_cons, List.map_nil, OneD.omul, Option.map_some, DgCube.udGrade, List.filterMap_cons, id_eq,
      List.filterMap_nil, c1, c3, not_true_eq_false, not_false_eq_true, decide_true, decide_false, List.filter_cons,
      List.filter_nil, if_true]
    simp

/-! ### Examples -/

/-- After a set-up in two calls, the three calls of `C132_dense_box` return. -/
example (a b : ℝ) : ∃ s x y z, ((do Box2Ring.setupBox exBox; Dg.setupPolar exPolar 3 3 : Meth Dg.State Unit) Box2Ring.init) = (.ok (), s) ∧
    (Dg.remap ⟨6, 4, fun i j => some ((i:ℝ)*j)⟩ none s).1 = .ok x ∧ (Dg.remap ⟨6, 4, fun i j => some 1⟩ none s).1 = .ok y ∧
    (Dg.remap (combine a b ⟨6, 4, fun i j => some ((i:ℝ)*j)⟩ ⟨6, 4, fun _ _ => some 1⟩) none s).1 = .ok z ∧
    ∀ i j, i < x.rows → j < x.cols → z.val i j = lin a b (x.val i j) (y.val i j) := by
  obtain ⟨s, e, hs, -⟩ := Dg.setup_run exBox_ok.numx exBox_ok.numy exPolar_ok (by simp [exPolar]) (by simp [exPolar])
    3 3 Box2Ring.init
  obtain ⟨out, s', e', -⟩ := C73_bounds_partial exBox exPolar 3 exBox_ok exPolar_ok (by simp [exPolar])
    (by simp [exPolar]) (by norm_num) ⟨6, 4, fun _ _ => some 1⟩ (fun _ _ => 1) rfl rfl (fun _ _ _ _ => rfl) 1 1
    (fun _ _ _ _ => ⟨le_rfl, le_rfl⟩) Box2Ring.init
  have e1 : (do Box2Ring.setupBox exBox; Dg.setupPolar exPolar 3 3 : Meth Dg.State Unit) Box2Ring.init = (.ok (), s) := e
  have e2 : (Dg.remap ⟨6, 4, fun _ _ => some 1⟩ none s).1 = .ok out := by
    have : ((do Box2Ring.setupBox exBox; Dg.setupPolar exPolar 3 3 : Meth Dg.State Unit) >>= fun _ =>
        Dg.remap ⟨6, 4, fun _ _ => some 1⟩ none) Box2Ring.init = (.ok out, s') := by
      rw [← e']
      simp only [Meth.bind_apply]
      cases Box2Ring.setupBox exBox Box2Ring.init with
      | mk q t => cases q <;> rfl
    rw [Meth.bind_apply, e1] at this
    simp only at this
    rw [this]
  have h := C132_dense_box a b ⟨6, 4, fun i j => some ((i:ℝ)*j)⟩ ⟨6, 4, fun _ _ => some 1⟩ rfl rfl none s
  rw [e2] at h
  unfold ThreeCalls at h
  split at h
  · rename_i x y z ex ey ez
    simp only [Except.ok.injEq] at ey
    exact ⟨s, x, y, z, e1, ex, ey ▸ e2, ez, h.2⟩
  · rename_i ey _; simp at ey
  · exact h.elim

/-- Data and an object that meet the hypotheses of `C132_dense_cube`. -/
example (dir : ℕ → ℝ × ℝ) : ∃ s cs, (do DgCube.setupCube exDgCube; DgCube.setupPolar exDgShell :
      Meth DgCube.State Unit) DgCube.init = (.ok (), s) ∧ DgCube.IsSetup exDgCube exDgShell cs s ∧
    Nested (exHp dir) s ∧ Usual ⟨2, 2, 2, fun _ _ _ => some 1⟩ ∧ Usual ⟨2, 2, 2, fun _ _ _ => some (-5)⟩ ∧
    Usual (combine3 2 3 ⟨2, 2, 2, fun _ _ _ => some 1⟩ ⟨2, 2, 2, fun _ _ _ => some (-5)⟩) := by
  obtain ⟨cs, s, e, h⟩ := DgCube.setup_run_nums exDgCube_ok.numx exDgCube_ok.numy exDgCube_ok.numz exDgShell_ok DgCube.init
  refine ⟨s, cs, e, h, ?_, fun _ _ _ => ⟨_, rfl, by norm_num⟩, fun _ _ _ => ⟨_, rfl, by norm_num⟩,
    fun _ _ _ => ⟨_, rfl, by norm_num⟩⟩
  intro sh hsh p hp
  rw [h.shell, Option.some.injEq] at hsh
  subst hsh
  exact exHp_ok dir p hp

end Magpie.Props
