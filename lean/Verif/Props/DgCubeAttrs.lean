import Verif.Model.DgCubeAttrs
import Verif.Props.Rejected

/-!
# Property C107 for the dense grid `Cube2Shell`, attribute by attribute
-/

set_option linter.unusedSimpArgs false
set_option linter.unusedVariables false
set_option linter.unusedSectionVars false

namespace Magpie.Props
open Magpie Magpie.Radial Magpie.OneD Magpie.Spec Magpie.Box2Ring Magpie.Cube Magpie.DgCubeAttrs
open Magpie.DgCube (Hp ShellOk)

namespace CubeAttrs

theorem linspaceZ_ok (lo hi : ℝ) {n : ℤ} (h : 0 ≤ n) : linspaceZ lo hi (n + 1) = .ok (linspace lo hi (n.toNat + 1)) := by
  unfold linspaceZ
  rw [if_neg (by omega), show (n + 1).toNat = n.toNat + 1 by omega]

theorem firstDiff_linspace (lo hi : ℝ) {n : ℕ} (h : 0 < n) : firstDiff (linspace lo hi (n + 1))
    = .ok ((linspace lo hi (n + 1)).getD 1 0 - (linspace lo hi (n + 1)).getD 0 0) := by
  obtain ⟨m, rfl⟩ : ∃ m, n = m + 1 := ⟨n - 1, by omega⟩
  have hl : (linspace lo hi (m + 1 + 1)).length = m + 2 := length_linspace ..
  match e : linspace lo hi (m + 1 + 1), hl with
  | x :: y :: l, _ => rfl

/-- The attributes of the cube after `setup_cube`. -/
noncomputable def withCube (C : CubeArgs) (s : Attrs) : Attrs :=
  { s with
    xedges := some C.grid.xedges, yedges := some C.grid.yedges, zedges := some C.grid.zedges
    xmid := some C.grid.xmid, ymid := some C.grid.ymid, zmid := some C.grid.zmid
    dx := some C.grid.dx, dy := some C.grid.dy, dz := some C.grid.dz
    grids := some (C.grid.x3d, C.grid.y3d, C.grid.z3d) }

theorem setupCube_ok {C : CubeArgs} (a : 0 < C.numx) (b : 0 < C.numy) (c : 0 < C.numz) (s : Attrs) :
    DgCubeAttrs.setupCube C s = (.ok (), withCube C s) := by
  unfold DgCubeAttrs.setupCube
  simp only [Meth.bind_apply, Meth.lift_apply, Meth.assign_apply, pyAssert, gt_iff_lt, a, b, if_true,
    linspaceZ_ok _ _ a.le, linspaceZ_ok _ _ b.le, linspaceZ_ok _ _ c.le,
    firstDiff_linspace C.xmin C.xmax (n := C.numx.toNat) (by omega),
    firstDiff_linspace C.ymin C.ymax (n := C.numy.toNat) (by omega),
    firstDiff_linspace C.zmin C.zmax (n := C.numz.toNat) (by omega)]
  rfl

theorem setupCube_reject {C : CubeArgs} (h : ¬ (0 < C.numx ∧ 0 < C.numy)) (s : Attrs) :
    DgCubeAttrs.setupCube C s = (.error .assertionError, s) := by
  unfold DgCubeAttrs.setupCube
  by_cases a : 0 < C.numx
  · have b : ¬ 0 < C.numy := fun b => h ⟨a, b⟩
    simp only [Meth.bind_apply, Meth.lift_apply, pyAssert, gt_iff_lt, a, b, if_true, if_false]
  · simp only [Meth.bind_apply, Meth.lift_apply, pyAssert, gt_iff_lt, a, if_false]

theorem setupCube_short {C : CubeArgs} (a : 0 < C.numx) (b : 0 < C.numy) (c : C.numz + 1 < 0) (s : Attrs) :
    DgCubeAttrs.setupCube C s = (.error .valueError,
      { s with xedges := some C.grid.xedges, yedges := some C.grid.yedges }) := by
  have e : linspaceZ C.zmin C.zmax (C.numz + 1) = .error .valueError := by
    unfold linspaceZ
    rw [if_pos c]
  unfold DgCubeAttrs.setupCube
  simp only [Meth.bind_apply, Meth.lift_apply, Meth.assign_apply, pyAssert, gt_iff_lt, a, b, if_true,
    linspaceZ_ok _ _ a.le, linspaceZ_ok _ _ b.le, e]
  rfl

theorem setupCube_flat {C : CubeArgs} (a : 0 < C.numx) (b : 0 < C.numy) (c0 : -1 ≤ C.numz) (c1 : C.numz ≤ 0) (s : Attrs) :
    DgCubeAttrs.setupCube C s = (.error .indexError, { s with
      xedges := some C.grid.xedges, yedges := some C.grid.yedges
      zedges := some (linspace C.zmin C.zmax (C.numz + 1).toNat)
      xmid := some C.grid.xmid, ymid := some C.grid.ymid, zmid := some []
      dx := some C.grid.dx, dy := some C.grid.dy }) := by
  have e : linspaceZ C.zmin C.zmax (C.numz + 1) = .ok (linspace C.zmin C.zmax (C.numz + 1).toNat) := by
    unfold linspaceZ
    rw [if_neg (by omega)]
  have e2 : firstDiff (linspace C.zmin C.zmax (C.numz + 1).toNat) = .error .indexError ∧
      mids (linspace C.zmin C.zmax (C.numz + 1).toNat) = [] := by
    obtain h | h : C.numz = -1 ∨ C.numz = 0 := by omega
    · rw [h]; exact ⟨rfl, rfl⟩
    · rw [h]; exact ⟨rfl, rfl⟩
  unfold DgCubeAttrs.setupCube
  simp only [Meth.bind_apply, Meth.lift_apply, Meth.assign_apply, pyAssert, gt_iff_lt, a, b, if_true,
    linspaceZ_ok _ _ a.le, linspaceZ_ok _ _ b.le, e, e2.1, e2.2,
    firstDiff_linspace C.xmin C.xmax (n := C.numx.toNat) (by omega),
    firstDiff_linspace C.ymin C.ymax (n := C.numy.toNat) (by omega)]
  rfl

theorem view_withCube (C : CubeArgs) (s : Attrs) : (withCube C s).view = { s.view with cube := some C.grid } := rfl

/-- The cube has not been set up, or completely. -/
def Whole (s : Attrs) : Prop :=
  (s.xedges = none ∧ s.yedges = none ∧ s.zedges = none ∧ s.cube = none) ∨
  ∃ C : CubeArgs, 0 < C.numx ∧ 0 < C.numy ∧ 0 < C.numz ∧ s.xedges = some C.grid.xedges ∧ s.yedges = some C.grid.yedges ∧
    s.zedges = some C.grid.zedges ∧ s.cube = some C.grid

theorem whole_withCube {C : CubeArgs} (a : 0 < C.numx) (b : 0 < C.numy) (c : 0 < C.numz) (s : Attrs) :
    Whole (withCube C s) := .inr ⟨C, a, b, c, rfl, rfl, rfl, rfl⟩

theorem sideOf_linspace (lo hi : ℝ) (n : ℕ) : sideOf (some (linspace lo hi (n + 1))) = .ok (DgCube.side (linspace lo hi (n + 1))) := by
  have : linspace lo hi (n + 1) ≠ [] := by
    intro h
    have := congrArg List.length h
    rw [length_linspace] at this
    simp at this
  unfold sideOf
  simp only [need_some, bind, Except.bind, if_neg this]
  rfl

theorem mkCenters_whole {s : Attrs} (h : Whole s) (A : DgCube.ShellArgs) :
    DgCubeAttrs.mkCenters s A = DgCube.mkCenters s.cube A := by
  unfold DgCubeAttrs.mkCenters DgCube.mkCenters
  simp only
  by_cases hi : ((DgCube.perRange A.perx).flatMap fun i => (DgCube.perRange A.pery).flatMap fun j =>
    (DgCube.perRange A.perz).map fun k => (i, j, k)) = []
  · rw [if_pos hi, if_pos hi]
  · rw [if_neg hi, if_neg hi]
    rcases h with ⟨h1, h2, h3, h4⟩ | ⟨C, a, b, c, h1, h2, h3, h4⟩
    · rw [h1, h4]; rfl
    · rw [h1, h2, h3, h4]
      have e1 : sideOf (some C.grid.xedges) = .ok (DgCube.side C.grid.xedges) := sideOf_linspace ..
      have e2 : sideOf (some C.grid.yedges) = .ok (DgCube.side C.grid.yedges) := sideOf_linspace ..
      have e3 : sideOf (some C.grid.zedges) = .ok (DgCube.side C.grid.zedges) := sideOf_linspace ..
      simp only [e1, e2, e3, need_some, bind, Except.bind]

/-- `setup_polar` on a whole object: as in the coarse model, unless it raises after its checks. -/
theorem setupPolar_sim {s : Attrs} (h : Whole s) (A : DgCube.ShellArgs)
    (hr : (DgCubeAttrs.setupPolar A s).1 = .ok () ∨ (DgCubeAttrs.setupPolar A s).1 = .error .assertionError) :
    (DgCubeAttrs.setupPolar A s).1 = (DgCube.setupPolar A s.view).1 ∧
    (DgCubeAttrs.setupPolar A s).2.view = (DgCube.setupPolar A s.view).2 ∧ Whole (DgCubeAttrs.setupPolar A s).2 := by
  have hm : ∀ t : Attrs, t.xedges = s.xedges → t.yedges = s.yedges → t.zedges = s.zedges →
      DgCubeAttrs.mkCenters t A = DgCube.mkCenters s.cube A := by
    intro t h1 h2 h3
    rw [← mkCenters_whole h]
    unfold DgCubeAttrs.mkCenters
    rw [h1, h2, h3]
  unfold DgCubeAttrs.setupPolar at hr ⊢
  unfold DgCube.setupPolar
  simp only [Meth.bind_apply, Meth.lift_apply, Meth.assign_apply, Meth.self_apply] at hr ⊢
  rcases hc : DgCube.shellChecks A with e | u
  · exact ⟨rfl, rfl, h⟩
  · rw [hc] at hr
    simp only at hr ⊢
    rcases hd : firstDiff (mids (linspace A.rmin A.rmax (A.numr.toNat + 1))) with e | dr
    · rw [hd] at hr
      exfalso
      simp only at hr
      rcases hr with hr | hr
      · cases hr
      · refine firstDiff_noAssert _ (hd.trans ?_)
        simpa using hr
    · rw [hd] at hr
      simp only at hr ⊢
      rw [hm { s with
        redges := some (linspace A.rmin A.rmax (A.numr.toNat + 1))
        rmid := some (mids (linspace A.rmin A.rmax (A.numr.toNat + 1))), dr := some dr, nside := some A.nside
        center := some (center3 A.center), rebinShell := some A.rebinShell, rebinR := some A.rebinR.toNat }
        rfl rfl rfl] at hr ⊢
      show _ ∧ _ ∧ _
      have hv : s.view.cube = s.cube := rfl
      simp only [hv]
      rcases hcs : DgCube.mkCenters s.cube A with e | cs
      · exfalso
        rw [hcs] at hr
        simp only at hr
        rcases hr with hr | hr
        · cases hr
        · have : e = .assertionError := by simpa using hr
          subst this
          unfold DgCube.mkCenters at hcs
          simp only at hcs
          split_ifs at hcs
          cases hq : s.cube with
          | none => rw [hq] at hcs; cases hcs
          | some g => rw [hq] at hcs; cases hcs
      · exact ⟨rfl, rfl, h⟩

theorem need_ok {α : Type} (a : α) : need (some a) = .ok a := rfl

theorem remap_sim (hp : Hp) {s : Attrs} (h : Whole s) (f : Arr3 (Option ℝ)) :
    (DgCubeAttrs.remap hp f s).1 = (DgCube.remap hp f s.view).1 ∧ (DgCubeAttrs.remap hp f s).2 = s := by
  unfold DgCubeAttrs.remap
  have hz : s.zedges ≠ some [] := by
    rcases h with ⟨h1, h2, h3, h4⟩ | ⟨C, a, b, c, h1, h2, h3, h4⟩
    · rw [h3]; intro h; cases h
    · rw [h3]
      intro h
      have := congrArg (Option.map List.length) h
      have hl : C.grid.zedges.length = C.numz.toNat + 1 := length_linspace ..
      simp only [Option.map_some, hl] at this
      simp at this
  cases h1 : s.view.shell with
  | none =>
    refine ⟨?_, rfl⟩
    unfold DgCube.remap
    simp only [Meth.bind_apply, Meth.self_apply, Meth.lift_apply, h1]
    rfl
  | some sh =>
    cases h2 : s.view.edges with
    | none =>
      refine ⟨?_, rfl⟩
      unfold DgCube.remap
      simp only [Meth.bind_apply, Meth.self_apply, Meth.lift_apply, h1, h2]
      rfl
    | some e =>
      simp only
      rw [if_neg (fun hh => hz hh.2.2)]
      exact ⟨rfl, rfl⟩

end CubeAttrs

open CubeAttrs

/-- The object of the dense grid `Cube2Shell` modelled attribute by attribute returns what the model with grouped
attributes returns, in every history in which each set-up returns or raises `AssertionError`. -/
theorem C107_attributes (hp : Hp) (h : List DgCube.Call)
    (hr : ∀ o ∈ (runCalls (DgCubeAttrs.call hp) h DgCubeAttrs.init).1, ∀ r, o = .unit r →
      r = .ok () ∨ r = .error .assertionError) :
    (runCalls (DgCubeAttrs.call hp) h DgCubeAttrs.init).1 = (runCalls (DgCube.call hp) h DgCube.init).1 := by
  have key : ∀ (h : List DgCube.Call) (s : Attrs), Whole s →
      (∀ o ∈ (runCalls (DgCubeAttrs.call hp) h s).1, ∀ r, o = .unit r → r = .ok () ∨ r = .error .assertionError) →
      (runCalls (DgCubeAttrs.call hp) h s).1 = (runCalls (DgCube.call hp) h s.view).1 := by
    intro h
    induction h with
    | nil => intro s _ _; rfl
    | cons c h ih =>
      intro s hw hr
      have step : (DgCubeAttrs.call hp c s).1 = (DgCube.call hp c s.view).1 ∧
          (DgCubeAttrs.call hp c s).2.view = (DgCube.call hp c s.view).2 ∧ Whole (DgCubeAttrs.call hp c s).2 := by
        have h0 := hr (DgCubeAttrs.call hp c s).1 (by simp [runCalls])
        cases c with
        | cube C =>
          simp only [DgCubeAttrs.call, DgCube.call, Meth.call] at h0 ⊢
          have h0 := h0 _ rfl
          by_cases hxy : 0 < C.numx ∧ 0 < C.numy
          · by_cases hz : 0 < C.numz
            · rw [setupCube_ok hxy.1 hxy.2 hz, DgCube.setupCube_nums hxy.1 hxy.2 hz]
              exact ⟨rfl, view_withCube C s, whole_withCube hxy.1 hxy.2 hz s⟩
            · exfalso
              by_cases hz' : C.numz + 1 < 0
              · rw [setupCube_short hxy.1 hxy.2 hz'] at h0
                rcases h0 with h0 | h0 <;> cases h0
              · rw [setupCube_flat hxy.1 hxy.2 (by omega) (by omega)] at h0
                rcases h0 with h0 | h0 <;> cases h0
          · rw [setupCube_reject hxy, (C107_cube C).1.rejects hxy]
            exact ⟨rfl, rfl, hw⟩
        | polar A =>
          simp only [DgCubeAttrs.call, DgCube.call, Meth.call] at h0 ⊢
          obtain ⟨e1, e2, e3⟩ := setupPolar_sim hw A (h0 _ rfl)
          exact ⟨congrArg _ e1, e2, e3⟩
        | remap f =>
          simp only [DgCubeAttrs.call, DgCube.call, Meth.call]
          obtain ⟨e1, e2⟩ := remap_sim hp hw f
          refine ⟨congrArg _ e1, ?_, ?_⟩
          · rw [e2]; exact (dgRemap_keeps hp f s.view).symm
          · rw [e2]; exact hw
        | clean => exact ⟨rfl, rfl, .inl ⟨rfl, rfl, rfl, rfl⟩⟩
      have := ih (DgCubeAttrs.call hp c s).2 step.2.2 (fun o ho => hr o (by simp [runCalls, ho]))
      simp only [runCalls]
      rw [this, step.1, step.2.1]
  exact key h DgCubeAttrs.init (.inl ⟨rfl, rfl, rfl, rfl⟩) hr

/-! ## `setup_cube` without layers -/

/-- C107 is violated by `setup_cube` of the dense grid `Cube2Shell`, which does not check `numz`. For `numz <= -2` it
raises `ValueError` and leaves the object with the new edges along `x` and `y`, and all else as it was. For `numz` of
`-1` or `0` it raises `IndexError` when all but `dz` and the grids has been replaced. -/
theorem C107_numz_violated (C : CubeArgs) (hx : 0 < C.numx) (hy : 0 < C.numy) (s : Attrs) :
    (C.numz ≤ -2 → DgCubeAttrs.setupCube C s = (.error .valueError,
      { s with
        xedges := some (linspace C.xmin C.xmax (C.numx.toNat + 1))
        yedges := some (linspace C.ymin C.ymax (C.numy.toNat + 1)) })) ∧
    (C.numz = -1 ∨ C.numz = 0 → DgCubeAttrs.setupCube C s = (.error .indexError,
      { s with
        xedges := some (linspace C.xmin C.xmax (C.numx.toNat + 1))
        yedges := some (linspace C.ymin C.ymax (C.numy.toNat + 1))
        zedges := some (linspace C.zmin C.zmax (C.numz + 1).toNat)
        xmid := some (mids (linspace C.xmin C.xmax (C.numx.toNat + 1)))
        ymid := some (mids (linspace C.ymin C.ymax (C.numy.toNat + 1)))
        zmid := some []
        dx := some ((C.xmax - C.xmin)/C.numx.toNat)
        dy := some ((C.ymax - C.ymin)/C.numy.toNat) })) := by
  refine ⟨fun h => setupCube_short hx hy (by omega) s, fun h => ?_⟩
  rw [setupCube_flat hx hy (by omega) (by omega) s]
  have e1 : C.grid.dx = (C.xmax - C.xmin)/C.numx.toNat := DgCube.step_eq _ _ (by omega)
  have e2 : C.grid.dy = (C.ymax - C.ymin)/C.numy.toNat := DgCube.step_eq _ _ (by omega)
  rw [e1, e2]
  rfl

namespace CubeAttrs

theorem highres_grid {g g' : Grid3} (hg : ∀ r ang c, DgCube.cellOf g r ang c = DgCube.cellOf g' r ang c)
    (f : Arr3 (Option ℝ)) (r : ℝ) (ang : ℝ × ℝ) : ∀ (cs : List (ℝ × ℝ × ℝ)) (v : Option ℝ),
      DgCube.highres g f r ang cs v = DgCube.highres g' f r ang cs v
  | [], v => rfl
  | c :: cs, v => by
    unfold DgCube.highres
    rw [hg]
    cases DgCube.cellOf g' r ang c with
    | none => exact highres_grid hg f r ang cs v
    | some t =>
      obtain ⟨a, b, d⟩ := t
      simp only [highres_grid hg f r ang cs]

theorem remap_grid (hp : Hp) (f : Arr3 (Option ℝ)) {s s' : DgCube.State} {g g' : Grid3}
    (hg : ∀ r ang c, DgCube.cellOf g r ang c = DgCube.cellOf g' r ang c) (h1 : s.cube = some g) (h2 : s'.cube = some g')
    (he : s.edges = s'.edges) (hs : s.shell = s'.shell) :
    (DgCube.remap hp f s).1 = (DgCube.remap hp f s').1 := by
  unfold DgCube.remap
  simp only [Meth.bind_apply, Meth.self_apply, Meth.lift_apply, he, hs, h1, h2]
  cases hsh : need s'.shell with
  | error e => rfl
  | ok sh =>
    simp only
    cases hed : need s'.edges with
    | error e => rfl
    | ok ed =>
      obtain ⟨re, rm⟩ := ed
      simp only
      cases nside2npix sh.nside with
      | error e => rfl
      | ok n1 =>
        simp only
        cases nside2npix (sh.nside*sh.rebinShell) with
        | error e => rfl
        | ok n2 =>
          simp only
          by_cases hc : sh.rrmid = [] ∨ sh.centers = []
          · simp only [if_pos hc]
            cases tabulate _ _ _ _ with
            | error e => rfl
            | ok hi =>
              simp only
              cases Arr2.reshape3 _ _ _ _ with
              | error e => rfl
              | ok r3 =>
                simp only
                cases Arr2.reshape3 _ _ _ _ <;> rfl
          · simp only [if_neg hc, need_some, Except.map, DgCube.entry, highres_grid hg]
            cases tabulate _ _ _ _ with
            | error e => rfl
            | ok hi =>
              simp only
              cases Arr2.reshape3 _ _ _ _ with
              | error e => rfl
              | ok r3 =>
                simp only
                cases Arr2.reshape3 _ _ _ _ <;> rfl

end CubeAttrs

/-- The cube `C` moved so that its corner in `x` and `y` is that of `C'`. -/
def movedTo (C C' : CubeArgs) : CubeArgs :=
  { C with
    xmin := C'.xmin, xmax := C'.xmin + (C.xmax - C.xmin)
    ymin := C'.ymin, ymax := C'.ymin + (C.ymax - C.ymin) }

/-- C107 is violated by the dense grid `Cube2Shell`: after a set-up, a call of `setup_cube` with other limits and
`numz <= -2` raises `ValueError`, and the next `remap` returns what it returns for the old cube moved to the corner
given in the call that raised. -/
theorem C107_numz_moved_violated (hp : Hp) (C C' : CubeArgs) (A : DgCube.ShellArgs) (nx : 0 < C.numx) (ny : 0 < C.numy)
    (nz : 0 < C.numz) (nx' : 0 < C'.numx) (ny' : 0 < C'.numy) (nz' : C'.numz ≤ -2) (hA : ShellOk A)
    (f : Arr3 (Option ℝ)) (s : Attrs) :
    ∃ out, (runCalls (DgCubeAttrs.call hp) [.cube C, .polar A, .cube C', .remap f] s).1
        = [.unit (.ok ()), .unit (.ok ()), .unit (.error .valueError), .arr out] ∧
      (runCalls (DgCubeAttrs.call hp) [.cube (movedTo C C'), .polar A, .remap f] s).1
        = [.unit (.ok ()), .unit (.ok ()), .arr out] := by
  have hn := hA.numr
  have e0 := DgCube.shellChecks_ok hA.rmin hA.r (by omega) hA.center hA.rebinShell hA.nside hA.rebinR
  have e1 : firstDiff (mids (linspace A.rmin A.rmax (A.numr.toNat + 1))) = _ :=
    firstDiff_mids A.rmin A.rmax A.numr.toNat (by omega)
  have side_eq : ∀ lo hi : ℝ, ∀ n : ℕ, 0 < n → DgCube.side (linspace lo hi (n + 1)) = hi - lo := by
    intro lo hi n h
    unfold DgCube.side
    rw [linspace_getLastD _ _ _ h, linspace_getD _ _ _ _ (by omega), edgeAt_zero]
  have hmove : DgCube.mkCenters (some (movedTo C C').grid) A = DgCube.mkCenters (some C.grid) A := by
    have a1 : DgCube.side (movedTo C C').grid.xedges = DgCube.side C.grid.xedges := by
      show DgCube.side (linspace _ _ (C.numx.toNat + 1)) = DgCube.side (linspace _ _ (C.numx.toNat + 1))
      rw [side_eq _ _ _ (by omega), side_eq _ _ _ (by omega)]
      simp [movedTo]
    have a2 : DgCube.side (movedTo C C').grid.yedges = DgCube.side C.grid.yedges := by
      show DgCube.side (linspace _ _ (C.numy.toNat + 1)) = DgCube.side (linspace _ _ (C.numy.toNat + 1))
      rw [side_eq _ _ _ (by omega), side_eq _ _ _ (by omega)]
      simp [movedTo]
    have a3 : (movedTo C C').grid.zedges = C.grid.zedges := rfl
    unfold DgCube.mkCenters
    simp only [need_some, bind, Except.bind, a1, a2, a3]
  obtain ⟨cs, ecs, -⟩ := DgCube.mkCenters_nums nx ny nz A
  have hpol : ∀ (D : CubeArgs) (nx : 0 < D.numx) (ny : 0 < D.numy) (nz : 0 < D.numz)
      (hcs : DgCube.mkCenters (some D.grid) A = .ok cs) (s : Attrs),
      DgCubeAttrs.setupPolar A (withCube D s) = (.ok (), { withCube D s with
        redges := some (linspace A.rmin A.rmax (A.numr.toNat + 1))
        rmid := some (mids (linspace A.rmin A.rmax (A.numr.toNat + 1)))
        dr := some (midAt A.rmin A.rmax A.numr.toNat 1 - midAt A.rmin A.rmax A.numr.toNat 0), nside := some A.nside
        center := some (center3 A.center), rebinShell := some A.rebinShell, rebinR := some A.rebinR.toNat
        centers := some cs
        rredges := some (linspace A.rmin A.rmax (DgCube.denseNum A + 1))
        rrmid := some (mids (linspace A.rmin A.rmax (DgCube.denseNum A + 1))) }) := by
    intro D nx ny nz hcs s
    have hm : ∀ t : Attrs, t.xedges = some D.grid.xedges → t.yedges = some D.grid.yedges → t.zedges = some D.grid.zedges →
        DgCubeAttrs.mkCenters t A = .ok cs := by
      intro t h1 h2 h3
      rw [← hcs]
      have := mkCenters_whole (whole_withCube nx ny nz s) A
      have e : DgCubeAttrs.mkCenters t A = DgCubeAttrs.mkCenters (withCube D s) A := by
        unfold DgCubeAttrs.mkCenters
        rw [h1, h2, h3]
        rfl
      rw [e, this]
      rfl
    have e3 : (linspace A.rmin A.rmax (A.numr.toNat + 1)).getD 0 0 = A.rmin := by
      rw [linspace_getD _ _ _ _ (by omega), edgeAt_zero]
    have e4 : (linspace A.rmin A.rmax (A.numr.toNat + 1)).getLastD 0 = A.rmax := linspace_getLastD _ _ _ (by omega)
    unfold DgCubeAttrs.setupPolar
    simp only [Meth.bind_apply, Meth.lift_apply, Meth.assign_apply, Meth.self_apply, e0, e1]
    rw [hm _ (by rfl) (by rfl) (by rfl)]
    simp only [e3, e4, length_mids_linspace]
    rfl
  refine ⟨?_, ?_, ?_⟩
  · exact (DgCubeAttrs.remap hp f (DgCubeAttrs.setupPolar A (withCube (movedTo C C') s)).2).1
  · simp only [runCalls, DgCubeAttrs.call, Meth.call, setupCube_ok nx ny nz, hpol C nx ny nz ecs,
      hpol (movedTo C C') nx ny nz (hmove.trans ecs), setupCube_short nx' ny' (show C'.numz + 1 < 0 by omega)]
    have hz : C.grid.zedges ≠ [] := by
      intro h
      have := congrArg List.length h
      have hl : C.grid.zedges.length = C.numz.toNat + 1 := length_linspace ..
      rw [hl] at this
      simp at this
    have hcell : ∀ r ang c, DgCube.cellOf { C.grid with xedges := C'.grid.xedges, yedges := C'.grid.yedges } r ang c
        = DgCube.cellOf (movedTo C C').grid r ang c := by
      intro r ang c
      have a1 : C'.grid.xedges.getD 0 0 = C'.xmin := by
        show (linspace _ _ (C'.numx.toNat + 1)).getD 0 0 = _
        rw [linspace_getD _ _ _ _ (by omega), edgeAt_zero]
      have a2 : (movedTo C C').grid.xedges.getD 0 0 = C'.xmin := by
        show (linspace _ _ (C.numx.toNat + 1)).getD 0 0 = _
        rw [linspace_getD _ _ _ _ (by omega), edgeAt_zero]
        rfl
      have b1 : C'.grid.yedges.getD 0 0 = C'.ymin := by
        show (linspace _ _ (C'.numy.toNat + 1)).getD 0 0 = _
        rw [linspace_getD _ _ _ _ (by omega), edgeAt_zero]
      have b2 : (movedTo C C').grid.yedges.getD 0 0 = C'.ymin := by
        show (linspace _ _ (C.numy.toNat + 1)).getD 0 0 = _
        rw [linspace_getD _ _ _ _ (by omega), edgeAt_zero]
        rfl
      have c1 : C.grid.dx = (movedTo C C').grid.dx := by
        have h1 : C.grid.dx = (C.xmax - C.xmin)/C.numx.toNat := DgCube.step_eq _ _ (by omega)
        have h2 : (movedTo C C').grid.dx = (C'.xmin + (C.xmax - C.xmin) - C'.xmin)/C.numx.toNat :=
          DgCube.step_eq _ _ (by show 0 < C.numx.toNat; omega)
        rw [h1, h2, add_sub_cancel_left]
      have c2 : C.grid.dy = (movedTo C C').grid.dy := by
        have h1 : C.grid.dy = (C.ymax - C.ymin)/C.numy.toNat := DgCube.step_eq _ _ (by omega)
        have h2 : (movedTo C C').grid.dy = (C'.ymin + (C.ymax - C.ymin) - C'.ymin)/C.numy.toNat :=
          DgCube.step_eq _ _ (by show 0 < C.numy.toNat; omega)
        rw [h1, h2, add_sub_cancel_left]
      have l1 : C.grid.xmid.length = (movedTo C C').grid.xmid.length := by
        show (mids (linspace _ _ (C.numx.toNat + 1))).length = (mids (linspace _ _ (C.numx.toNat + 1))).length
        rw [length_mids_linspace, length_mids_linspace]
      have l2 : C.grid.ymid.length = (movedTo C C').grid.ymid.length := by
        show (mids (linspace _ _ (C.numy.toNat + 1))).length = (mids (linspace _ _ (C.numy.toNat + 1))).length
        rw [length_mids_linspace, length_mids_linspace]
      unfold DgCube.cellOf
      simp only [a1, a2, b1, b2, c1, c2, l1, l2]
      rfl
    have hrem : ∀ (T U : Attrs) (sh : DgCube.Shell) (ed : List ℝ × List ℝ), T.view.shell = some sh → U.view.shell = some sh →
        T.view.edges = some ed → U.view.edges = some ed → T.zedges = some C.grid.zedges → U.zedges = some C.grid.zedges →
        T.view.cube = some { C.grid with xedges := C'.grid.xedges, yedges := C'.grid.yedges } →
        U.view.cube = some (movedTo C C').grid →
        (DgCubeAttrs.remap hp f T).1 = (DgCubeAttrs.remap hp f U).1 := by
      intro T U sh ed t1 u1 t2 u2 t3 u3 t4 u4
      unfold DgCubeAttrs.remap
      rw [t1, u1, t2, u2]
      simp only [t3, u3]
      rw [if_neg (fun h => hz (Option.some.inj h.2.2)), if_neg (fun h => hz (Option.some.inj h.2.2))]
      exact remap_grid hp f hcell t4 u4 (t2.trans u2.symm) (t1.trans u1.symm)
    refine congrArg (fun o => [.unit (.ok ()), .unit (.ok ()), .unit (.error .valueError), DgCube.Out.arr o]) ?_
    exact hrem _ _ _ _ rfl rfl rfl rfl rfl rfl rfl rfl
  · simp only [runCalls, DgCubeAttrs.call, Meth.call, setupCube_ok (C := movedTo C C') nx ny nz,
      hpol (movedTo C C') nx ny nz (hmove.trans ecs)]

theorem runCalls_dgRemap (hp : Hp) {C : CubeArgs} {A : DgCube.ShellArgs} (nx : 0 < C.numx) (ny : 0 < C.numy)
    (nz : 0 < C.numz) (hA : ShellOk A) (f : Arr3 (Option ℝ)) :
    (runCalls (DgCubeAttrs.call hp) [.cube C, .polar A, .remap f] DgCubeAttrs.init).1
      = [.unit (.ok ()), .unit (.ok ()), .arr (DgCube.dgRemap hp C A f DgCube.init).1] := by
  have hn := hA.numr
  obtain ⟨cs, ecs, -⟩ := DgCube.mkCenters_nums nx ny nz A
  have e0 := DgCube.shellChecks_ok hA.rmin hA.r (by omega) hA.center hA.rebinShell hA.nside hA.rebinR
  have e1 : firstDiff (mids (linspace A.rmin A.rmax (A.numr.toNat + 1))) = _ :=
    firstDiff_mids A.rmin A.rmax A.numr.toNat (by omega)
  have hok : (DgCubeAttrs.setupPolar A (withCube C DgCubeAttrs.init)).1 = .ok () := by
    have hm : ∀ t : Attrs, t.xedges = some C.grid.xedges → t.yedges = some C.grid.yedges → t.zedges = some C.grid.zedges →
        DgCubeAttrs.mkCenters t A = .ok cs := by
      intro t h1 h2 h3
      rw [← ecs]
      have := mkCenters_whole (whole_withCube nx ny nz DgCubeAttrs.init) A
      have e : DgCubeAttrs.mkCenters t A = DgCubeAttrs.mkCenters (withCube C DgCubeAttrs.init) A := by
        unfold DgCubeAttrs.mkCenters
        rw [h1, h2, h3]
        rfl
      rw [e, this]
      rfl
    unfold DgCubeAttrs.setupPolar
    simp only [Meth.bind_apply, Meth.lift_apply, Meth.assign_apply, Meth.self_apply, e0, e1]
    rw [hm _ (by rfl) (by rfl) (by rfl)]
  have hsim := setupPolar_sim (whole_withCube nx ny nz DgCubeAttrs.init) A (.inl hok)
  obtain ⟨r1, -⟩ := remap_sim hp hsim.2.2 f
  have hd : (DgCube.dgRemap hp C A f DgCube.init).1
      = (DgCubeAttrs.remap hp f (DgCubeAttrs.setupPolar A (withCube C DgCubeAttrs.init)).2).1 := by
    rw [r1, hsim.2.1]
    unfold DgCube.dgRemap
    simp only [Meth.bind_apply, DgCube.setupCube_nums nx ny nz]
    have e2 := hsim.1
    rw [hok] at e2
    change Except.ok () = (DgCube.setupPolar A { DgCube.init with cube := some C.grid }).1 at e2
    change _ = (DgCube.remap hp f (DgCube.setupPolar A { DgCube.init with cube := some C.grid }).2).1
    rcases hq : DgCube.setupPolar A { DgCube.init with cube := some C.grid } with ⟨r, t⟩
    rw [hq] at e2
    simp only at e2 ⊢
    subst e2
    rfl
  simp only [runCalls, DgCubeAttrs.call, Meth.call, setupCube_ok nx ny nz, hok, hd]

/-- The hypotheses of `C107_attributes` can be met: a complete history, with any array. -/
example (hp : Hp) (f : Arr3 (Option ℝ)) :
    ∀ o ∈ (runCalls (DgCubeAttrs.call hp) [.cube exDgCube, .polar exDgShell, .remap f] DgCubeAttrs.init).1, ∀ r,
      o = .unit r → r = .ok () ∨ r = .error .assertionError := by
  rw [runCalls_dgRemap hp exDgCube_ok.numx exDgCube_ok.numy exDgCube_ok.numz exDgShell_ok]
  intro o ho r hr
  subst hr
  simp only [List.mem_cons, List.not_mem_nil, or_false, DgCube.Out.unit.injEq, reduceCtorEq, or_self] at ho
  exact .inl ho

/-- C107 is violated by the dense grid `Cube2Shell`: two shells inside a cell of the cube `[0, 2]³`, and an array of ones.
`remap` returns ones. With a call of `setup_cube` before it that raises `ValueError`, because `numz` is `-2`, it returns
zeros. -/
theorem C107_numz_remap_violated (hp : Hp) (hhp : DgCube.HpOk hp exDgShell) :
    ∃ a b : Arr2 (Option ℝ),
      (runCalls (DgCubeAttrs.call hp) [.cube exDgCube, .polar exDgShell, .remap ⟨2, 2, 2, fun _ _ _ => some 1⟩]
        DgCubeAttrs.init).1 = [.unit (.ok ()), .unit (.ok ()), .arr (.ok a)] ∧
      (runCalls (DgCubeAttrs.call hp) [.cube exDgCube, .polar exDgShell, .cube ⟨10, 12, 2, 0, 2, 2, 0, 2, -2⟩,
        .remap ⟨2, 2, 2, fun _ _ _ => some 1⟩] DgCubeAttrs.init).1
        = [.unit (.ok ()), .unit (.ok ()), .unit (.error .valueError), .arr (.ok b)] ∧
      ∀ i p, i < 2 → p < 12 → a.val i p = some 1 ∧ b.val i p = some 0 := by
  have ok := exDgCube_ok
  set C' : CubeArgs := ⟨10, 12, 2, 0, 2, 2, 0, 2, -2⟩ with hC'
  set f : Arr3 (Option ℝ) := ⟨2, 2, 2, fun _ _ _ => some 1⟩ with hf
  have one_good : ¬ DgCube.isBad 1 := by
    unfold DgCube.isBad unseen
    rw [not_le, abs_of_neg (by norm_num : (-1.6375e30:ℝ) < 0), abs_of_pos (by norm_num)]
    norm_num
  have eM : movedTo exDgCube C' = ⟨10, 12, 2, 0, 2, 2, 0, 2, 2⟩ := by
    simp only [movedTo, exDgCube, hC', CubeArgs.mk.injEq, true_and, and_true]
    norm_num
  have okM : McCube.CubeOk (movedTo exDgCube C') := by rw [eM]; constructor <;> norm_num
  obtain ⟨a, s1, ea, ha⟩ := C80_constant_partial hp exDgCube exDgShell ok exDgShell_ok hhp f 1
    ⟨rfl, rfl, rfl, fun _ _ _ _ _ _ => ⟨rfl, one_good⟩⟩ DgCube.init
  obtain ⟨b, s2, eb, hb⟩ := C80_outside hp (movedTo exDgCube C') exDgShell okM exDgShell_ok hhp f (fun _ _ _ => 1)
    (by rw [eM]; exact ⟨rfl, rfl, rfl, fun _ _ _ _ _ _ => ⟨rfl, one_good⟩⟩) DgCube.init
  obtain ⟨out, o1, o2⟩ := C107_numz_moved_violated hp exDgCube C' exDgShell ok.numx ok.numy ok.numz (by norm_num [hC'])
    (by norm_num [hC']) (by norm_num [hC']) exDgShell_ok f DgCubeAttrs.init
  have hmv := runCalls_dgRemap hp okM.numx okM.numy okM.numz exDgShell_ok f
  rw [o2, eb] at hmv
  have hout : out = .ok b := by simpa using hmv
  refine ⟨a, b, ?_, ?_, fun i p hi hp' => ⟨ha i p hi hp' ?_, hb i p hi hp' ?_⟩⟩
  · rw [runCalls_dgRemap hp ok.numx ok.numy ok.numz exDgShell_ok, ea]
  · rw [o1, hout]
  · intro k q hk hq
    have hk' : k < 2 := hk
    obtain ⟨h1, h2⟩ := exDgShell_cell hp (k := i*2 + k) (by omega) q
    exact ⟨_, _, _, _, h1, h2⟩
  · rintro k q hk hq ⟨⟨n1, n2, n3⟩, x, y, z, hn, hin⟩
    have hk' : k < 2 := hk
    obtain ⟨h1, h2⟩ := exDgShell_cell hp (k := i*2 + k) (by omega) q
    have hx := DgCube.inCell_range ok.hx (by decide) h2.1
    have hx' := DgCube.inCell_range okM.hx (by rw [eM]; decide) hin.1
    have hn1 : n1 = 0 := by
      have := hn.1
      simp only [exDgShell] at this
      omega
    subst hn1
    rw [eM] at hx'
    simp only [DgCube.image, exDgCube] at hx hx'
    have e2 : exDgShell.rebinR.toNat = 2 := rfl
    rw [e2] at hx'
    norm_num at hx hx'
    linarith [hx.2, hx'.1]

end Magpie.Props
