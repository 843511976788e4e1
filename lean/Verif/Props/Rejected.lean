import Verif.Spec.Rejected
import Verif.Props.ObjectCalls
import Verif.Props.Box2RingSetup
import Verif.Props.HealSky

/-!
# Calls that raise
-/

set_option linter.unusedSimpArgs false
set_option linter.unusedVariables false
set_option linter.unusedSectionVars false

namespace Magpie.Props
open Magpie Magpie.Radial Magpie.OneD Magpie.Spec Magpie.Box2Ring Magpie.Cube
open Magpie.Coords

/-! ## Helpers -/

/-- The method does not raise `AssertionError`. -/
def NoAssert {S α : Type} (m : Meth S α) : Prop := ∀ s, (m s).1 ≠ .error .assertionError

section
variable {S α β : Type}

theorem NoAssert.pure (a : α) : NoAssert (pure a : Meth S α) := fun _ h => by cases h
theorem NoAssert.self : NoAssert (Meth.self : Meth S S) := fun _ h => by cases h
theorem NoAssert.assign (f : S → S) : NoAssert (Meth.assign f) := fun _ h => by cases h
theorem NoAssert.lift {p : Py α} (h : p ≠ .error .assertionError) : NoAssert (Meth.lift p : Meth S α) := fun _ => h
theorem NoAssert.bind {m : Meth S α} {f : α → Meth S β} (hm : NoAssert m) (hf : ∀ a, NoAssert (f a)) :
    NoAssert (m >>= f) := by
  intro s
  rw [Meth.bind_apply]
  have h := hm s
  rcases hms : m s with ⟨r, t⟩
  rw [hms] at h
  cases r with
  | error e =>
    intro he
    cases he
    exact h rfl
  | ok a => exact hf a t

theorem need_noAssert (a : Option α) : need a ≠ .error .assertionError := by cases a <;> intro h <;> cases h

theorem firstDiff_noAssert (l : List ℝ) : firstDiff l ≠ .error .assertionError := by
  unfold firstDiff
  split <;> intro h <;> cases h

/-- Assertions first, then a part that does not raise `AssertionError`. -/
theorem guarded_of {P : Prop} {chk : Py Unit} {rest : Unit → Meth S α} (h1 : P → chk = .ok ())
    (h2 : ¬ P → chk = .error .assertionError) (hr : P → NoAssert (rest ())) :
    Guarded (Meth.lift chk >>= rest) P := by
  constructor
  · intro hp s
    rw [Meth.bind_apply, Meth.lift_apply, h2 hp]
  · intro hp s
    rw [Meth.bind_apply, Meth.lift_apply, h1 hp]
    exact hr hp s

/-- One more assertion before. -/
theorem guarded_and {P Q : Prop} [Decidable P] {m : Meth S α} (h : P → Guarded m Q) :
    Guarded (Meth.lift (pyAssert P) >>= fun _ => m) (P ∧ Q) := by
  by_cases hP : P
  · have e : ∀ s, (Meth.lift (pyAssert P) >>= fun _ => m) s = m s := by
      intro s
      rw [Meth.bind_apply, Meth.lift_apply]
      unfold pyAssert
      rw [if_pos hP]
    constructor
    · intro hq s
      rw [e]
      exact (h hP).rejects (fun q => hq ⟨hP, q⟩) s
    · intro hq s
      rw [e]
      exact (h hP).accepts hq.2 s
  · constructor
    · intro _ s
      rw [Meth.bind_apply, Meth.lift_apply]
      unfold pyAssert
      rw [if_neg hP]
    · intro hq
      exact absurd hq.1 hP

theorem guarded_true {m : Meth S α} (h : NoAssert m) : Guarded m True :=
  ⟨fun hn => absurd trivial hn, fun _ => h⟩

theorem guarded_iff {P Q : Prop} {m : Meth S α} (h : Guarded m P) (e : P ↔ Q) : Guarded m Q := by
  rw [← propext e]; exact h

theorem Atomic.keeps {m : Meth S α} (h : Keeps id m) : Atomic m := fun s _ _ => h s

theorem Atomic.lift_assign (p : Py β) (f : β → S → S) :
    Atomic ((Meth.lift p : Meth S β) >>= fun b => Meth.assign (f b)) := by
  intro s e h
  rw [Meth.bind_apply, Meth.lift_apply] at *
  cases p with
  | error e => rfl
  | ok b => cases h

/-- A part that only reads, then a part that leaves the object as it was if it raises. -/
theorem Atomic.bind {m : Meth S β} {f : β → Meth S α} (hm : Keeps id m) (hf : ∀ b, Atomic (f b)) :
    Atomic (m >>= f) := by
  intro s e
  rw [Meth.bind_apply]
  have h := hm s
  rcases hms : m s with ⟨r, t⟩
  rw [hms] at h
  obtain rfl : t = s := h
  cases r with
  | error e => exact fun _ => rfl
  | ok a => exact hf a t e

theorem Atomic.assign (f : S → S) : Atomic (Meth.assign f) := fun s e h => by cases h

end

/-! ## C107: the checks of the set-up methods -/

/-- C107: `setup_box` of the two `Box2Ring` classes. -/
theorem C107_box {X : Type} (B : BoxArgs) :
    Guarded (setupBox B : Meth (Box2Ring.State X) Unit) (0 < B.numx ∧ 0 < B.numy) := by
  unfold setupBox
  refine guarded_and fun _ => ?_
  exact guarded_iff (guarded_and (Q := True) fun _ => guarded_true (NoAssert.assign _)) (by simp)

theorem polar_guarded {S α : Type} (A : PolarArgs) (rest : Meth S α) (hr : NoAssert rest) :
    Guarded (do Meth.lift (pyAssert (A.rmin ≥ 0)); Meth.lift (polarChecks A); rest) (PolarOk A) := by
  have e : (do Meth.lift (pyAssert (A.rmin ≥ 0)); Meth.lift (polarChecks A); rest : Meth S α)
      = (do Meth.lift (do pyAssert (A.rmin ≥ 0); polarChecks A); rest) := by
    funext s
    simp only [Meth.bind_apply, Meth.lift_apply]
    cases pyAssert (A.rmin ≥ 0) <;> rfl
  rw [e]
  refine guarded_of (Dg.polarChecks_iff A).1.mpr (fun hn => ?_) fun _ => hr
  exact (Dg.polarChecks_iff A).2.resolve_left fun hc => hn ((Dg.polarChecks_iff A).1.mp hc)

/-- C107: `setup_polar` of the dense grid `Box2Ring`. -/
theorem C107_dg (A : PolarArgs) (mr mp : ℕ) : Guarded (Dg.setupPolar A mr mp) (PolarOk A) := by
  unfold Dg.setupPolar
  refine polar_guarded A _ ?_
  exact (NoAssert.assign _).bind fun _ => (NoAssert.lift (firstDiff_noAssert _)).bind fun _ =>
    (NoAssert.assign _).bind fun _ => (NoAssert.lift (firstDiff_noAssert _)).bind fun _ =>
    (NoAssert.assign _).bind fun _ => NoAssert.assign _

/-- C107: `setup_polar_lin` of the Monte Carlo `Box2Ring`. -/
theorem C107_mc_lin (A : PolarArgs) : Guarded (Mc.setupPolarLin A) (PolarOk A) := by
  unfold Mc.setupPolarLin
  refine polar_guarded A _ ?_
  exact (NoAssert.assign _).bind fun _ => (NoAssert.lift (firstDiff_noAssert _)).bind fun _ =>
    (NoAssert.assign _).bind fun _ => (NoAssert.lift (firstDiff_noAssert _)).bind fun _ =>
    (NoAssert.assign _).bind fun _ => NoAssert.assign _

/-- C107: `setup_polar_log` of the Monte Carlo `Box2Ring`: the radius must be positive. -/
theorem C107_mc_log (A : PolarArgs) (z : Bool) : Guarded (Mc.setupPolarLog A z) (0 < A.rmin ∧ PolarOk A) := by
  unfold Mc.setupPolarLog
  refine guarded_and fun h0 => ?_
  have h0' : 0 ≤ A.rmin := le_of_lt h0
  refine guarded_of (polarChecks_ok_iff A h0').mpr (fun hn => ?_) fun _ => ?_
  · rcases (Dg.polarChecks_iff A).2 with e | e
    · exact absurd ((Dg.polarChecks_iff A).1.mp e) hn
    · unfold pyAssert at e
      rw [if_pos h0'] at e
      exact e
  · exact (NoAssert.assign _).bind fun _ => (NoAssert.assign _).bind fun _ =>
      (NoAssert.lift (firstDiff_noAssert _)).bind fun _ =>
      (NoAssert.assign _).bind fun _ => NoAssert.assign _

theorem histEdges_noAssert (l : List ℝ) : Mc.histEdges l ≠ .error .assertionError := by
  unfold Mc.histEdges
  simp only
  split_ifs <;> simp

theorem histEdges_noIndex (l : List ℝ) : Mc.histEdges l ≠ .error .indexError := by
  unfold Mc.histEdges
  simp only
  split_ifs <;> simp

theorem pack_noIndex (l : List (List ℕ)) : Mc.pack l ≠ .error .indexError := by
  unfold Mc.pack
  split_ifs <;> simp

theorem pack_noAssert (l : List (List ℕ)) : Mc.pack l ≠ .error .assertionError := by
  unfold Mc.pack
  split_ifs <;> simp

/-- C107: `get_weights` of the Monte Carlo `Box2Ring` asks for at least two points, and every exception that it
raises leaves the object as it was. -/
theorem C107_mc_weights (n : ℕ) (draws : ℕ → ℕ → List ℝ × List ℝ) :
    Guarded (Mc.getWeights n draws) (2 ≤ n) ∧ Atomic (Mc.getWeights n draws) := by
  constructor
  · unfold Mc.getWeights
    refine guarded_iff (guarded_and (Q := True) fun _ => guarded_true ?_) (by simp; omega)
    refine NoAssert.self.bind fun s => (NoAssert.lift (need_noAssert _)).bind fun p =>
      (NoAssert.lift (need_noAssert _)).bind fun e => (NoAssert.lift (need_noAssert _)).bind fun b =>
      (NoAssert.lift (histEdges_noAssert _)).bind fun hx => (NoAssert.lift (histEdges_noAssert _)).bind fun hy =>
      (NoAssert.lift ?_).bind fun _ => (NoAssert.lift (pack_noAssert _)).bind fun o => NoAssert.assign _
    split_ifs <;> simp
  · unfold Mc.getWeights
    exact Atomic.bind (Keeps.lift _) fun _ => Atomic.bind Keeps.self fun s => Atomic.bind (Keeps.lift _) fun p =>
      Atomic.bind (Keeps.lift _) fun e => Atomic.bind (Keeps.lift _) fun b => Atomic.bind (Keeps.lift _) fun _ =>
      Atomic.bind (Keeps.lift _) fun hx => Atomic.bind (Keeps.lift _) fun hy => Atomic.bind (Keeps.lift _) fun o =>
      Atomic.assign _

theorem setupCube_noAssert {S : Type} (B : CubeArgs) (f : Grid3 → S → S) :
    Guarded (Meth.lift (Cube.setupCube B) >>= fun g => Meth.assign (f g)) (0 < B.numx ∧ 0 < B.numy) := by
  constructor
  · intro hn s
    have e : Cube.setupCube B = .error .assertionError := by
      unfold Cube.setupCube pyAssert
      by_cases h1 : B.numx > 0
      · have h2 : ¬ B.numy > 0 := fun h2 => hn ⟨h1, h2⟩
        rw [if_pos h1, if_neg h2]
        rfl
      · rw [if_neg h1]
        rfl
    rw [Meth.bind_apply, Meth.lift_apply, e]
  · intro hp s
    refine (NoAssert.lift ?_).bind (fun _ => NoAssert.assign _) s
    unfold Cube.setupCube pyAssert
    rw [if_pos hp.1, if_pos hp.2]
    simp only [bind, Except.bind]
    split_ifs <;> simp [pure, Except.pure]

/-- C107: `setup_cube` of the two `Cube2Shell` classes. -/
theorem C107_cube (B : CubeArgs) : Guarded (DgCube.setupCube B) (0 < B.numx ∧ 0 < B.numy) ∧
    Guarded (McCube.setupCube B) (0 < B.numx ∧ 0 < B.numy) :=
  ⟨setupCube_noAssert B _, setupCube_noAssert B _⟩

theorem mkCenters_noAssert (g : Option Grid3) (A : DgCube.ShellArgs) :
    DgCube.mkCenters g A ≠ .error .assertionError := by
  unfold DgCube.mkCenters
  simp only
  split_ifs
  · simp
  · cases g <;> simp [need, bind, Except.bind, pure, Except.pure]

theorem shellChecks_error (A : DgCube.ShellArgs) :
    DgCube.shellChecks A = .ok () ∨ DgCube.shellChecks A = .error .assertionError := by
  unfold DgCube.shellChecks pyAssert
  simp only [bind, Except.bind]
  split_ifs <;> simp

/-- C107: `setup_polar` of the dense grid `Cube2Shell`. -/
theorem C107_dgshell (A : DgCube.ShellArgs) : Guarded (DgCube.setupPolar A) (0 ≤ A.rmin ∧ A.rmin < A.rmax ∧
    0 < A.numr ∧ A.center.length = 3 ∧ 1 ≤ A.rebinShell ∧ 0 < A.nside ∧ 1 ≤ A.rebinR) := by
  unfold DgCube.setupPolar
  refine guarded_of (DgCube.shellChecks_iff A).mpr
    (fun hn => (shellChecks_error A).resolve_left fun hc => hn ((DgCube.shellChecks_iff A).mp hc)) fun _ => ?_
  exact (NoAssert.assign _).bind fun _ => (NoAssert.lift (firstDiff_noAssert _)).bind fun _ =>
    (NoAssert.assign _).bind fun _ => NoAssert.self.bind fun s =>
    (NoAssert.lift (mkCenters_noAssert _ _)).bind fun c => NoAssert.assign _

theorem mcShell_guarded {S α : Type} (A : McCube.ShellArgs) (rest : Meth S α) (hr : NoAssert rest) :
    Guarded (do Meth.lift (McCube.shellChecks A); rest) (A.rmin < A.rmax ∧ 0 < A.numr ∧ A.center.length = 3) := by
  refine guarded_of (fun h => ?_) (fun hn => ?_) fun _ => hr
  · unfold McCube.shellChecks pyAssert
    rw [if_pos h.1, if_pos h.2.1, if_pos h.2.2]
    rfl
  · unfold McCube.shellChecks pyAssert
    simp only [bind, Except.bind]
    split_ifs with h1 h2 h3
    · exact absurd ⟨h1, h2, h3⟩ hn
    all_goals rfl

/-- C107: `setup_polar_lin` of the Monte Carlo `Cube2Shell`. -/
theorem C107_mcshell_lin (A : McCube.ShellArgs) : Guarded (McCube.setupPolarLin A)
    (0 ≤ A.rmin ∧ A.rmin < A.rmax ∧ 0 < A.numr ∧ A.center.length = 3) := by
  unfold McCube.setupPolarLin
  refine guarded_and fun _ => mcShell_guarded A _ ?_
  exact (NoAssert.assign _).bind fun _ => (NoAssert.lift (firstDiff_noAssert _)).bind fun _ => NoAssert.assign _

/-- C107: `setup_polar_log` of the Monte Carlo `Cube2Shell`, which leaves the object as it was whenever it
raises. -/
theorem C107_mcshell_log (A : McCube.ShellArgs) (z : Bool) : Guarded (McCube.setupPolarLog A z)
    (0 < A.rmin ∧ A.rmin < A.rmax ∧ 0 < A.numr ∧ A.center.length = 3) ∧ Atomic (McCube.setupPolarLog A z) := by
  constructor
  · unfold McCube.setupPolarLog
    exact guarded_and fun _ => mcShell_guarded A _ (NoAssert.assign _)
  · unfold McCube.setupPolarLog
    exact Atomic.bind (Keeps.lift _) fun _ => Atomic.bind (Keeps.lift _) fun _ => Atomic.assign _

/-- C107: `get_weights` of the Monte Carlo `Cube2Shell` leaves the object as it was whenever it raises. -/
theorem C107_mcshell_weights (n : ℕ) (draws : ℕ → ℕ → McCube.Draw) : Atomic (McCube.getWeights n draws) := by
  unfold McCube.getWeights
  exact Atomic.bind Keeps.self fun s => Atomic.bind (Keeps.lift _) fun _ => Atomic.bind (Keeps.lift _) fun _ =>
    Atomic.bind (Keeps.lift _) fun _ => Atomic.bind (Keeps.lift _) fun _ => Atomic.bind (Keeps.lift _) fun _ =>
    Atomic.bind (Keeps.lift _) fun _ => Atomic.assign _

/-- C107: `setup_map` of all classes for HEALPix maps. -/
theorem C107_map {X : Type} (n : ℤ) : Guarded (Ortho.setupMap n) (0 < n) ∧
    Guarded (HealRing.setupMap n : Meth (HealRing.State X) Unit) (0 < n) ∧
    Guarded (HealPolar.setupMap n : Meth (HealPolar.State X) Unit) (0 < n) := by
  refine ⟨?_, ?_, ?_⟩
  · unfold Ortho.setupMap
    exact guarded_iff (guarded_and (Q := True) fun _ => guarded_true (NoAssert.assign _)) (by simp [isNsideOk])
  · unfold HealRing.setupMap
    exact guarded_iff (guarded_and (Q := True) fun _ => guarded_true (NoAssert.assign _)) (by simp [isNsideOk])
  · unfold HealPolar.setupMap
    exact guarded_iff (guarded_and (Q := True) fun _ => guarded_true (NoAssert.assign _)) (by simp [isNsideOk])

theorem setupCap_guarded {X : Type} (A : PolarArgs) :
    Guarded (HealRing.setupCap A : Meth (HealRing.State X) Unit) (PolarOk A) := by
  unfold HealRing.setupCap
  refine polar_guarded A _ ?_
  exact (NoAssert.assign _).bind fun _ => (NoAssert.lift (firstDiff_noAssert _)).bind fun _ =>
    (NoAssert.assign _).bind fun _ => (NoAssert.lift (firstDiff_noAssert _)).bind fun _ =>
    (NoAssert.assign _).bind fun _ => NoAssert.assign _

/-- C107: `setup_polar_cap` of the Monte Carlo `Heal2Ring`. -/
theorem C107_mccap (A : PolarArgs) : Guarded (HealRing.Mc.setupPolarCap A) (PolarOk A) := setupCap_guarded A

/-- C107: `setup_polar_cap` of the dense grid `Heal2Ring`. Missing: the centre and `phi_shift` are checked later, when
attributes have been assigned. -/
theorem C107_dgcap_partial (ang2pix : ℤ → ℝ → ℝ → ℕ) (A : HealRing.Dg.CapArgs) (h : ¬ PolarOk A.toPolarArgs)
    (s : HealRing.State HealRing.Dg.Extra) :
    HealRing.Dg.setupPolarCap ang2pix A s = (.error .assertionError, s) := by
  have e := (setupCap_guarded (X := HealRing.Dg.Extra) A.toPolarArgs).rejects h s
  unfold HealRing.Dg.setupPolarCap
  rw [Meth.bind_apply, e]

theorem skyChecks (A : HealPolar.BoxArgs) : (SkyBoxOk A → HealPolar.checks A = .ok ()) ∧
    (¬ SkyBoxOk A → HealPolar.checks A = .error .assertionError) := by
  have key : HealPolar.checks A = .ok () ∧ SkyBoxOk A ∨ HealPolar.checks A = .error .assertionError ∧ ¬ SkyBoxOk A := by
    unfold HealPolar.checks pyAssert
    obtain ⟨xl, xg, ce, al, yl, yg⟩ := A
    rcases yl with _ | l <;> rcases yg with _ | n <;> simp only [bind, Except.bind, pure, Except.pure] <;> split_ifs
    all_goals simp only [ge_iff_le, gt_iff_lt] at *
    all_goals first
      | (refine .inl ⟨by simp, ⟨⟨by assumption, by assumption⟩, by assumption, ?_, ?_, by assumption⟩⟩ <;>
          intro m hm <;> cases hm <;> first | assumption | exact ⟨by assumption, by assumption⟩)
      | (refine .inr ⟨by simp, ?_⟩
         rintro ⟨⟨a, b⟩, c, d, e, f⟩
         simp only at a b c d e f
         first
           | contradiction
           | (have d := d _ rfl; obtain ⟨d, d'⟩ := d; contradiction)
           | (have e := e _ rfl; contradiction))
  constructor
  · intro h
    rcases key with k | k
    · exact k.1
    · exact absurd h k.2
  · intro h
    rcases key with k | k
    · exact absurd k.2 h
    · exact k.1

theorem setupGrid_guarded {X : Type} (A : HealPolar.BoxArgs) :
    Guarded (HealPolar.setupGrid A : Meth (HealPolar.State X) Unit) (SkyBoxOk A) := by
  unfold HealPolar.setupGrid
  refine guarded_of (skyChecks A).1 (skyChecks A).2 fun _ => ?_
  exact (NoAssert.assign _).bind fun _ => (NoAssert.lift (firstDiff_noAssert _)).bind fun _ =>
    (NoAssert.assign _).bind fun _ => (NoAssert.lift (firstDiff_noAssert _)).bind fun _ =>
    (NoAssert.assign _).bind fun _ => NoAssert.assign _

/-- C107: `setup_box` of the Monte Carlo `Heal2Polar`. -/
theorem C107_mcskybox (A : HealPolar.BoxArgs) : Guarded (HealPolar.Mc.setupBox A) (SkyBoxOk A) := setupGrid_guarded A

/-- C107: `setup_box` of the dense grid `Heal2Polar`. Missing: the values of the centre and of `alpha` are checked
later, when attributes have been assigned. -/
theorem C107_dgskybox_partial (ang2pix : ℤ → ℝ → ℝ → ℕ) (A : HealPolar.Dg.RebinArgs) (h : ¬ SkyBoxOk A.toBoxArgs)
    (s : HealPolar.State HealPolar.Dg.Extra) :
    HealPolar.Dg.setupBox ang2pix A s = (.error .assertionError, s) := by
  have e := (setupGrid_guarded (X := HealPolar.Dg.Extra) A.toBoxArgs).rejects h s
  unfold HealPolar.Dg.setupBox
  rw [Meth.bind_apply, e]

/-- C107: `get_weights` of the Monte Carlo `Heal2Ring` and `Heal2Polar` asks for at least two points, and every exception
leaves the object as it was. -/
theorem C107_heal_weights (rest : List ℝ × List ℝ → Py (List ℕ × List ℝ)) (n : ℤ) :
    (n < 2 → ∀ s, HealRing.Mc.getWeights rest n s = (.error .assertionError, s)) ∧
    (n < 2 → ∀ s, HealPolar.Mc.getWeights rest n s = (.error .assertionError, s)) ∧
    Atomic (HealRing.Mc.getWeights rest n) ∧ Atomic (HealPolar.Mc.getWeights rest n) := by
  refine ⟨fun hn s => ?_, fun hn s => ?_, ?_, ?_⟩
  · unfold HealRing.Mc.getWeights pyAssert
    rw [if_neg (by omega)]
    rfl
  · unfold HealPolar.Mc.getWeights pyAssert
    rw [if_neg (by omega)]
    rfl
  · unfold HealRing.Mc.getWeights
    exact Atomic.bind (Keeps.lift _) fun _ => Atomic.bind Keeps.self fun s => Atomic.bind (Keeps.lift _) fun _ =>
      Atomic.bind (Keeps.lift _) fun _ => Atomic.bind (Keeps.lift _) fun _ => Atomic.assign _
  · unfold HealPolar.Mc.getWeights
    exact Atomic.bind (Keeps.lift _) fun _ => Atomic.bind Keeps.self fun s => Atomic.bind (Keeps.lift _) fun _ =>
      Atomic.bind (Keeps.lift _) fun _ => Atomic.bind (Keeps.lift _) fun _ => Atomic.assign _

/-- C107: `setup_box` of `Heal2Ortho` rejects a grid without columns and a centre that is not a pair. Missing: the values
of the centre are checked later, when attributes have been assigned, see `C107_ortho_violated`. -/
theorem C107_ortho_partial (ang2pix : ℤ → ℝ → ℝ → ℕ) (A : Ortho.BoxArgs) (h : ¬ (0 < A.xGrid ∧ A.center.length = 2))
    (s : Ortho.State) : Ortho.setupBox ang2pix A s = (.error .assertionError, s) := by
  unfold Ortho.setupBox pyAssert
  by_cases h1 : A.xGrid > 0
  · rw [if_pos h1, if_neg fun h2 => h ⟨h1, h2⟩]
    rfl
  · rw [if_neg h1]
    rfl

/-! ## C107: methods that only read -/

theorem mcBoxRemap_keeps (f : Arr2 (Option ℝ)) (w : Option (Arr2 ℝ)) : Keeps id (Mc.remap f w) := by
  unfold Mc.remap
  refine Keeps.bind Keeps.self fun s => ?_
  split
  · exact Keeps.lift _
  · refine Keeps.bind (Keeps.lift _) fun _ => ?_
    cases w <;> repeat' first
      | exact Keeps.lift _
      | exact Keeps.pure _
      | (refine Keeps.bind ?_ fun _ => ?_)

theorem dgBoxRemap_keeps (f : Arr2 (Option ℝ)) (w : Option (Arr2 ℝ)) : Keeps id (Dg.remap f w) := by
  have h : ∀ f, Keeps id (Dg.remap1 f) := by
    intro f
    unfold Dg.remap1
    repeat' first
      | exact Keeps.lift _
      | exact Keeps.self
      | exact Keeps.pure _
      | (refine Keeps.bind ?_ fun _ => ?_)
  unfold Dg.remap
  cases w with
  | none => exact h f
  | some w =>
    exact (Keeps.lift _).bind fun _ => (h _).bind fun _ => (h _).bind fun _ => Keeps.lift _

theorem rotate_keeps {X : Type} (f : Arr2 (Option ℝ)) : Keeps id (rotatePolar f : Meth (Box2Ring.State X) _) := by
  unfold rotatePolar
  refine Keeps.bind Keeps.self fun s => ?_
  split
  · exact Keeps.lift _
  · exact (Keeps.lift _).bind fun _ => Keeps.lift _

theorem capRotate_keeps {X : Type} (f : Arr2 (Option ℝ)) :
    Keeps id (HealRing.rotatePolar f : Meth (HealRing.State X) _) := by
  unfold HealRing.rotatePolar
  refine Keeps.bind Keeps.self fun s => ?_
  split
  · exact Keeps.lift _
  · exact (Keeps.lift _).bind fun _ => Keeps.lift _

theorem mcMask_atomic : Atomic Mc.getMaskInBound := by
  unfold Mc.getMaskInBound
  refine Atomic.bind Keeps.self fun s => ?_
  split
  · exact Atomic.bind (mcBoxRemap_keeps _ _) fun _ => Atomic.assign _
  · exact Atomic.keeps (Keeps.lift _)

theorem dgMask_atomic : Atomic Dg.getMaskInBound := by
  unfold Dg.getMaskInBound
  refine Atomic.bind Keeps.self fun s => ?_
  split
  · exact Atomic.bind (dgBoxRemap_keeps _ _) fun _ => Atomic.assign _
  · exact Atomic.keeps (Keeps.lift _)

theorem mcCapRemap_keeps (f : List (Option ℝ)) (w : Option (List ℝ)) : Keeps id (HealRing.Mc.remap f w) := by
  unfold HealRing.Mc.remap
  cases w <;> repeat' first
    | exact Keeps.lift _
    | exact Keeps.self
    | exact Keeps.pure _
    | (refine Keeps.bind ?_ fun _ => ?_)

theorem mcSkyRemap_keeps (f : List (Option ℝ)) (w : Option (List ℝ)) : Keeps id (HealPolar.Mc.remap f w) := by
  unfold HealPolar.Mc.remap
  cases w <;> repeat' first
    | exact Keeps.lift _
    | exact Keeps.self
    | exact Keeps.pure _
    | (refine Keeps.bind ?_ fun _ => ?_)

theorem dgCapRemap_keeps (rest : Arr2 (Option ℝ) → List ℝ → Py (Arr2 (Option ℝ))) (f : List (Option ℝ))
    (w : Option (List ℝ)) : Keeps id (HealRing.Dg.remap rest f w) := by
  have h : ∀ f, Keeps id (HealRing.Dg.remap1 rest f) := by
    intro f
    unfold HealRing.Dg.remap1
    repeat' first
      | exact Keeps.lift _
      | exact Keeps.self
      | exact Keeps.pure _
      | (refine Keeps.bind ?_ fun _ => ?_)
  unfold HealRing.Dg.remap
  cases w with
  | none => exact h f
  | some w => exact (Keeps.lift _).bind fun _ => (h _).bind fun _ => (h _).bind fun _ => Keeps.lift _

theorem dgSkyRemap_keeps (rest : Arr2 (Option ℝ) → List ℝ → Py (Arr2 (Option ℝ))) (f : List (Option ℝ))
    (w : Option (List ℝ)) : Keeps id (HealPolar.Dg.remap rest f w) := by
  have h : ∀ f, Keeps id (HealPolar.Dg.remap1 rest f) := by
    intro f
    unfold HealPolar.Dg.remap1
    repeat' first
      | exact Keeps.lift _
      | exact Keeps.self
      | exact Keeps.pure _
      | (refine Keeps.bind ?_ fun _ => ?_)
  unfold HealPolar.Dg.remap
  cases w with
  | none => exact h f
  | some w => exact (Keeps.lift _).bind fun _ => (h _).bind fun _ => (h _).bind fun _ => Keeps.lift _

/-- C107: `remap` of all the remapping classes and `rotate_polar` never change the object, whether they raise or
not. -/
theorem C107_reads (hp : DgCube.Hp) (rest : Arr2 (Option ℝ) → List ℝ → Py (Arr2 (Option ℝ))) :
    (∀ f w s, (Mc.remap f w s).2 = s) ∧ (∀ f w s, (Dg.remap f w s).2 = s) ∧
    (∀ f w s, (McCube.remap f w s).2 = s) ∧ (∀ f s, (DgCube.remap hp f s).2 = s) ∧
    (∀ f w s, (HealRing.Mc.remap f w s).2 = s) ∧ (∀ f w s, (HealRing.Dg.remap rest f w s).2 = s) ∧
    (∀ f w s, (HealPolar.Mc.remap f w s).2 = s) ∧ (∀ f w s, (HealPolar.Dg.remap rest f w s).2 = s) ∧
    (∀ f w s, (Ortho.remap f w s).2 = s) ∧
    (∀ f (s : Mc.State), (rotatePolar f s).2 = s) ∧ (∀ f (s : Dg.State), (rotatePolar f s).2 = s) :=
  ⟨fun f w s => mcBoxRemap_keeps f w s, fun f w s => dgBoxRemap_keeps f w s, fun f w s => mcRemap_keeps f w s,
    fun f s => dgRemap_keeps hp f s, fun f w s => mcCapRemap_keeps f w s, fun f w s => dgCapRemap_keeps rest f w s,
    fun f w s => mcSkyRemap_keeps f w s, fun f w s => dgSkyRemap_keeps rest f w s,
    fun f w s => orthoRemap_keeps f w s, fun f s => rotate_keeps f s, fun f s => rotate_keeps f s⟩

/-! ## C107: histories -/

/-- What a call of a `Box2Ring` method returned was an exception. -/
def BoxRaised : Box2Ring.Out → Prop
  | .unit r => ∃ e, r = .error e
  | .arr r => ∃ e, r = .error e
  | .radial r => ∃ e, r = .error e

theorem run_skip {X C : Type} (K : Cls X C) (h k : List (Box2Ring.Call C)) (c : Box2Ring.Call C) (s : Box2Ring.State X)
    (hc : (K.call c (K.run h s).2).2 = (K.run h s).2) :
    (K.run (h ++ [c] ++ k) s).1.drop (h.length + 1) = (K.run (h ++ k) s).1.drop h.length ∧
    (K.run (h ++ [c] ++ k) s).2 = (K.run (h ++ k) s).2 := by
  have len : ∀ (h : List (Box2Ring.Call C)) s, (K.run h s).1.length = h.length := by
    intro h
    induction h with
    | nil => intro s; rfl
    | cons c h ih => intro s; simp [Cls.run, ih]
  have e1 : (K.run (h ++ [c]) s).2 = (K.run h s).2 := by
    rw [run_append]
    exact hc
  have l1 : (K.run (h ++ [c]) s).1.length = h.length + 1 := by rw [len]; simp
  rw [run_append (h := h ++ [c]) (k := k), run_append (h := h) (k := k), e1]
  refine ⟨?_, rfl⟩
  simp only
  rw [← l1, List.drop_left, ← len h s, List.drop_left]

theorem setupBox_atomic {X : Type} (B : BoxArgs) : Atomic (setupBox B : Meth (Box2Ring.State X) Unit) := by
  unfold setupBox
  exact Atomic.bind (Keeps.lift _) fun _ => Atomic.bind (Keeps.lift _) fun _ => Atomic.assign _

/-- C107 for the dense grid `Box2Ring`: a call that raises can be left out of any history; the calls before and after
return the same. Missing: `setup_polar` with arguments in the documented ranges that raises all the same (a single ring
or sector, see `C81_dg_violated`), and `polar2radial`. -/
theorem C107_dg_history_partial (h k : List (Box2Ring.Call Dg.Setup)) (c : Box2Ring.Call Dg.Setup) (s : Dg.State)
    (hr : BoxRaised (Dg.cls.call c (Dg.cls.run h s).2).1) (h1 : ∀ A mr mp, c = .setup (.polar A mr mp) → ¬ PolarOk A)
    (h2 : ∀ f sg w, c ≠ .radial f sg w) :
    (Dg.cls.run (h ++ [c] ++ k) s).1.drop (h.length + 1) = (Dg.cls.run (h ++ k) s).1.drop h.length ∧
    (Dg.cls.run (h ++ [c] ++ k) s).2 = (Dg.cls.run (h ++ k) s).2 := by
  refine run_skip _ h k c s ?_
  generalize (Dg.cls.run h s).2 = t at hr
  cases c with
  | setup c =>
    cases c with
    | box B => obtain ⟨e, he⟩ := hr; exact setupBox_atomic B t e he
    | polar A mr mp =>
      show (Dg.setupPolar A mr mp t).2 = t
      rw [(C107_dg A mr mp).rejects (h1 A mr mp rfl)]
  | remap f w => exact dgBoxRemap_keeps f w t
  | rotate f => exact rotate_keeps f t
  | getMask => obtain ⟨e, he⟩ := hr; exact dgMask_atomic t e he
  | radial f sg w => exact absurd rfl (h2 f sg w)
  | clean => obtain ⟨e, he⟩ := hr; cases he

/-- The hypotheses of `C107_dg_history_partial` can be met: a set-up without sectors, on every object. -/
example (s : Dg.State) : ¬ PolarOk { exPolar2 with nump := 0 } ∧
    BoxRaised (Dg.cls.call (.setup (.polar { exPolar2 with nump := 0 } 2 2)) s).1 := by
  have h : ¬ PolarOk { exPolar2 with nump := 0 } := fun h => absurd h.nump (by simp)
  exact ⟨h, .assertionError, congrArg Prod.fst ((C107_dg _ 2 2).rejects h s)⟩

/-- C107 for the Monte Carlo `Box2Ring`. Missing: `setup_polar_lin` and `setup_polar_log` with arguments in the documented
ranges that raise all the same, see `C107_mc_violated`, and `polar2radial`. -/
theorem C107_mc_history_partial (h k : List (Box2Ring.Call Mc.Setup)) (c : Box2Ring.Call Mc.Setup) (s : Mc.State)
    (hr : BoxRaised (Mc.cls.call c (Mc.cls.run h s).2).1) (h1 : ∀ A, c = .setup (.lin A) → ¬ PolarOk A)
    (h1' : ∀ A z, c = .setup (.log A z) → ¬ (0 < A.rmin ∧ PolarOk A))
    (h2 : ∀ f sg w, c ≠ .radial f sg w) :
    (Mc.cls.run (h ++ [c] ++ k) s).1.drop (h.length + 1) = (Mc.cls.run (h ++ k) s).1.drop h.length ∧
    (Mc.cls.run (h ++ [c] ++ k) s).2 = (Mc.cls.run (h ++ k) s).2 := by
  refine run_skip _ h k c s ?_
  generalize (Mc.cls.run h s).2 = t at hr
  cases c with
  | setup c =>
    cases c with
    | box B => obtain ⟨e, he⟩ := hr; exact setupBox_atomic B t e he
    | lin A =>
      show (Mc.setupPolarLin A t).2 = t
      rw [(C107_mc_lin A).rejects (h1 A rfl)]
    | log A z =>
      show (Mc.setupPolarLog A z t).2 = t
      rw [(C107_mc_log A z).rejects (h1' A z rfl)]
    | weights n d => obtain ⟨e, he⟩ := hr; exact (C107_mc_weights n d).2 t e he
  | remap f w => exact mcBoxRemap_keeps f w t
  | rotate f => exact rotate_keeps f t
  | getMask => obtain ⟨e, he⟩ := hr; exact mcMask_atomic t e he
  | radial f sg w => exact absurd rfl (h2 f sg w)
  | clean => obtain ⟨e, he⟩ := hr; cases he

/-- The hypotheses of `C107_mc_history_partial` can be met: weights from a single random point, on every object. -/
example (s : Mc.State) (draws : ℕ → ℕ → List ℝ × List ℝ) : BoxRaised (Mc.cls.call (.setup (.weights 1 draws)) s).1 :=
  ⟨.assertionError, congrArg Prod.fst ((C107_mc_weights 1 draws).1.rejects (by norm_num) s)⟩

theorem runCalls_skip {S C O : Type} (call : C → S → O × S) (h k : List C) (c : C) (s : S)
    (hc : (call c (runCalls call h s).2).2 = (runCalls call h s).2) :
    (runCalls call (h ++ [c] ++ k) s).1.drop (h.length + 1) = (runCalls call (h ++ k) s).1.drop h.length ∧
    (runCalls call (h ++ [c] ++ k) s).2 = (runCalls call (h ++ k) s).2 := by
  have e1 : (runCalls call (h ++ [c]) s).2 = (runCalls call h s).2 := by
    rw [runCalls_append]
    exact hc
  have l1 : (runCalls call (h ++ [c]) s).1.length = h.length + 1 := by rw [runCalls_length]; simp
  rw [runCalls_append call (h ++ [c]) k, runCalls_append call h k, e1]
  refine ⟨?_, rfl⟩
  simp only
  rw [← l1, List.drop_left, ← runCalls_length call h s, List.drop_left]

/-- C107 for the Monte Carlo `Cube2Shell`: a call that raises can be left out of any history. Missing: `setup_polar_lin`
with arguments in the documented ranges, which raises for a single shell, and `setup_cube` with valid numbers of cells
along `x` and `y`, but not along `z`. -/
theorem C107_mcshell_history_partial (h k : List McCube.Call) (c : McCube.Call) (s : McCube.State)
    (hr : ¬ (McCube.call c (runCalls McCube.call h s).2).1.Ok)
    (h0 : ∀ B, c = .cube B → ¬ (0 < B.numx ∧ 0 < B.numy))
    (h1 : ∀ A, c = .lin A → ¬ (0 ≤ A.rmin ∧ A.rmin < A.rmax ∧ 0 < A.numr ∧ A.center.length = 3)) :
    (runCalls McCube.call (h ++ [c] ++ k) s).1.drop (h.length + 1) = (runCalls McCube.call (h ++ k) s).1.drop h.length ∧
    (runCalls McCube.call (h ++ [c] ++ k) s).2 = (runCalls McCube.call (h ++ k) s).2 := by
  refine runCalls_skip _ h k c s ?_
  generalize (runCalls McCube.call h s).2 = t at hr
  have key : ∀ (m : Meth McCube.State Unit), Atomic m → ¬ (m t).1 = .ok () → (m t).2 = t := by
    intro m hm hn
    rcases he : (m t).1 with e | u
    · exact hm t e he
    · exact absurd he hn
  cases c with
  | cube B =>
    show (McCube.setupCube B t).2 = t
    rw [(C107_cube B).2.rejects (h0 B rfl)]
  | lin A =>
    show (McCube.setupPolarLin A t).2 = t
    rw [(C107_mcshell_lin A).rejects (h1 A rfl)]
  | log A z => exact key _ (C107_mcshell_log A z).2 hr
  | weights n d => exact key _ (C107_mcshell_weights n d) hr
  | remap f w => exact mcRemap_keeps f w t
  | clean => exact absurd rfl hr

/-- The hypotheses of `C107_mcshell_history_partial` can be met: weights before any set-up. -/
example (draws : ℕ → ℕ → McCube.Draw) :
    ¬ (McCube.call (.weights 5 draws) (runCalls McCube.call [] McCube.init).2).1.Ok := by
  intro h
  cases h

/-- C107 for the dense grid `Cube2Shell`: a rejected set-up and every `remap` can be left out of any history. -/
theorem C107_dgshell_history_partial (hp : DgCube.Hp) (h k : List DgCube.Call) (c : DgCube.Call) (s : DgCube.State)
    (hc : (∃ B, c = .cube B ∧ ¬ (0 < B.numx ∧ 0 < B.numy)) ∨ (∃ A, c = .polar A ∧ ¬ (0 ≤ A.rmin ∧ A.rmin < A.rmax ∧
      0 < A.numr ∧ A.center.length = 3 ∧ 1 ≤ A.rebinShell ∧ 0 < A.nside ∧ 1 ≤ A.rebinR)) ∨ ∃ f, c = .remap f) :
    (runCalls (DgCube.call hp) (h ++ [c] ++ k) s).1.drop (h.length + 1)
      = (runCalls (DgCube.call hp) (h ++ k) s).1.drop h.length ∧
    (runCalls (DgCube.call hp) (h ++ [c] ++ k) s).2 = (runCalls (DgCube.call hp) (h ++ k) s).2 := by
  refine runCalls_skip _ h k c s ?_
  generalize (runCalls (DgCube.call hp) h s).2 = t
  rcases hc with ⟨B, rfl, hB⟩ | ⟨A, rfl, hA⟩ | ⟨f, rfl⟩
  · show (DgCube.setupCube B t).2 = t
    rw [(C107_cube B).1.rejects hB]
  · show (DgCube.setupPolar A t).2 = t
    rw [(C107_dgshell A).rejects hA]
  · exact dgRemap_keeps hp f t

/-! ## C107: violations -/

theorem ortho_center_error (ang2pix : ℤ → ℝ → ℝ → ℕ) {A : Ortho.BoxArgs} {c : ℝ × ℝ} (hxg : 2 ≤ A.xGrid)
    (hyg : 2 ≤ A.yGrid.getD A.xGrid) (hcen : A.center = [c.1, c.2])
    (hc : ¬ ((0 ≤ c.1 ∧ c.1 ≤ 2*Real.pi) ∧ 0 ≤ c.2 ∧ c.2 ≤ Real.pi)) (s : Ortho.State) :
    (Ortho.setupBox ang2pix A s).1 = .error .assertionError ∧
    (Ortho.setupBox ang2pix A s).2.grid = some (Ortho.mkGrid (Ortho.edgesOf A) A) := by
  have hpi := Real.pi_pos
  have F := Ortho.mkGrid_facts' (c := c) hxg hyg hcen
  have tx : (A.xGrid + 1).toNat = Ortho.nx A + 1 := by unfold Ortho.nx; omega
  have ty : (A.yGrid.getD A.xGrid + 1).toNat = Ortho.ny A + 1 := by unfold Ortho.ny; omega
  have ex := firstDiff_mids (-A.xLength/2) (A.xLength/2) (Ortho.nx A) (by unfold Ortho.nx; omega)
  have ey := firstDiff_mids (-A.yLength.getD A.xLength/2) (A.yLength.getD A.xLength/2) (Ortho.ny A)
    (by unfold Ortho.ny; omega)
  have e : Ortho.skyPix ang2pix s.nside (Ortho.mkGrid (Ortho.edgesOf A) A) = .error .assertionError := by
    set g := Ortho.mkGrid (Ortho.edgesOf A) A with hg
    set R := A.rebinY*Ortho.ny A with hR
    set C := A.rebinX*Ortho.nx A with hC
    set q : ℕ → ℝ × ℝ × ℝ := fun k =>
      (g.rx2d.val (k / C) (k % C), g.ry2d.val (k / C) (k % C), g.rz2d.val (k / C) (k % C)) with hq
    have f1 : Ortho.flatten g.rx2d = (List.range (R*C)).map fun k => (q k).1 := by
      unfold Ortho.flatten; rw [F.rxr, F.rxc]
    have f2 : Ortho.flatten g.ry2d = (List.range (R*C)).map fun k => (q k).2.1 := by
      unfold Ortho.flatten; rw [F.ryr, F.ryc]
    have f3 : Ortho.flatten g.rz2d = (List.range (R*C)).map fun k => (q k).2.2 := by
      unfold Ortho.flatten; rw [F.rzr, F.rzc]
    have ec := Coords.cart2sphereArr_eq_map ((List.range (R*C)).map q) (0, 0, 0)
    simp only [cart2sphere_eq, List.map_map, Function.comp_def] at ec
    have es : ∀ p t, shiftArr p t Ortho.endCenter.1 Ortho.endCenter.2 c.1 c.2 = .error .assertionError := by
      intro p t
      unfold shiftArr shiftChecks pyAssert Ortho.endCenter
      rw [if_pos ⟨by positivity, by linarith⟩]
      by_cases h1 : c.1 ≥ 0 ∧ c.1 ≤ 2*Real.pi
      · rw [if_pos h1, if_pos ⟨le_rfl, hpi.le⟩, if_neg fun h2 => hc ⟨h1, h2⟩]
        rfl
      · rw [if_neg h1]
        rfl
    unfold Ortho.skyPix
    simp only [f1, f2, f3, ec, bind, Except.bind, Ortho.finiteArr_map, F.center, es]
  unfold Ortho.setupBox pyAssert
  simp only [Meth.bind_apply, Meth.lift_apply, Meth.assign_apply, Meth.self_apply]
  rw [if_pos (by omega)]
  simp only
  rw [if_pos (by rw [hcen]; rfl)]
  simp only
  rw [if_neg (by omega)]
  simp only [tx, ty, ex, ey]
  unfold Ortho.edgesOf at e
  simp only [e]
  exact ⟨trivial, rfl⟩

/-- C107 does not hold for `Heal2Ortho`: `setup_box` with a centre outside the range of the angles raises
`AssertionError`, but has already replaced the centre. After it, `transform` raises `AssertionError` for every
direction. -/
theorem C107_ortho_violated (ang2pix : ℤ → ℝ → ℝ → ℕ) {A : Ortho.BoxArgs} {c : ℝ × ℝ} (hxg : 2 ≤ A.xGrid)
    (hyg : 2 ≤ A.yGrid.getD A.xGrid) (hcen : A.center = [c.1, c.2])
    (hc : ¬ ((0 ≤ c.1 ∧ c.1 ≤ 2*Real.pi) ∧ 0 ≤ c.2 ∧ c.2 ≤ Real.pi)) (s : Ortho.State) :
    (Ortho.setupBox ang2pix A s).1 = .error .assertionError ∧
    ∀ phi theta, (Ortho.transform phi theta (Ortho.setupBox ang2pix A s).2).1 = .error .assertionError := by
  obtain ⟨h1, h2⟩ := ortho_center_error ang2pix hxg hyg hcen hc s
  refine ⟨h1, fun phi theta => ?_⟩
  have hpi := Real.pi_pos
  have F := Ortho.mkGrid_facts' (c := c) hxg hyg hcen
  have es : shift phi theta c.1 c.2 Ortho.endCenter.1 Ortho.endCenter.2 = .error .assertionError := by
    unfold shift shiftChecks pyAssert Ortho.endCenter
    by_cases h1 : c.1 ≥ 0 ∧ c.1 ≤ 2*Real.pi
    · rw [if_pos h1, if_pos ⟨by positivity, by linarith⟩, if_neg fun h2 => hc ⟨h1, h2⟩]
      rfl
    · rw [if_neg h1]
      rfl
  unfold Ortho.transform
  simp only [Meth.bind_apply, Meth.self_apply, Meth.lift_apply, h2, need, F.center, es]

/-- A valid view, then a `setup_box` with a longitude above `2π`: the hypotheses of `C107_ortho_violated` can be met,
and before that call `transform` did not raise. -/
example (ang2pix : ℤ → ℝ → ℝ → ℕ) : ∃ s : Ortho.State, s = (runCalls (Ortho.call ang2pix) [.map 2, .box exSouth] Ortho.init).2 ∧
    (∃ r, (Ortho.transform 1 2 s).1 = .ok r) ∧
    (Ortho.transform 1 2 (Ortho.setupBox ang2pix { exSouth with center := [7, 1] } s).2).1 = .error .assertionError := by
  have hpi := Real.pi_gt_three
  have hpi' := Real.pi_lt_d2
  refine ⟨_, rfl, ?_, (C107_ortho_violated ang2pix (A := { exSouth with center := [7, 1] }) (c := (7, 1)) le_rfl le_rfl rfl
    (fun h => by have := h.1.2; norm_num at this; linarith) _).2 1 2⟩
  obtain ⟨sky, s', e, hs⟩ := Ortho.setup_run ang2pix exSouth_valid le_rfl le_rfl (n := 2) (by norm_num) Ortho.init
  obtain ⟨u, t, a1, a2⟩ := bind_ok e
  show ∃ r, (Ortho.transform 1 2 (Ortho.setupBox ang2pix exSouth (Ortho.setupMap 2 Ortho.init).2).2).1 = .ok r
  rw [a1]
  simp only
  rw [a2]
  obtain ⟨p', t', es, -⟩ := (Ortho.shift_from exSouth_valid.phi exSouth_valid.theta).2 1 2
  have F := Ortho.mkGrid_facts exSouth_valid
  unfold Ortho.transform
  simp only [Meth.bind_apply, Meth.self_apply, Meth.lift_apply, hs.grid, need, F.center, es]
  exact ⟨_, rfl⟩

/-- C107 does not hold for the Monte Carlo `Box2Ring`: `setup_polar_lin` with a single ring raises `IndexError`, but has
already replaced the edges of the rings. After it, `get_weights` raises `IndexError`; without it, it does not. -/
theorem C107_mc_violated (B : BoxArgs) (hB : BoxOk B) (A A' : PolarArgs) (hA : PolarOk A) (hr : 2 ≤ A.numr)
    (hp : 2 ≤ A.nump) (hA' : PolarOk A') (h1 : A'.numr = 1) (n : ℕ) (hn : 2 ≤ n) (draws : ℕ → ℕ → List ℝ × List ℝ)
    (s : Mc.State) :
    (Mc.setupPolarLin A' (Mc.cls.run [.setup (.box B), .setup (.lin A)] s).2).1 = .error .indexError ∧
    (Mc.getWeights n draws (Mc.cls.run [.setup (.box B), .setup (.lin A), .setup (.lin A')] s).2).1
      = .error .indexError ∧
    (Mc.getWeights n draws (Mc.cls.run [.setup (.box B), .setup (.lin A)] s).2).1 ≠ .error .indexError := by
  have e1 : firstDiff (linEdges A).rmid = _ := firstDiff_mids A.rmin A.rmax A.numr.toNat (by omega)
  have e2 : firstDiff (linEdges A).pmid = _ := firstDiff_mids A.pmin A.pmax A.nump.toNat (by omega)
  obtain ⟨t, et, eb, ee, ep⟩ : ∃ t, (Mc.cls.run [.setup (.box B), .setup (.lin A)] s).2 = t ∧ t.box = some B.box ∧
      t.edges = some (linEdges A) ∧ t.polar = some (mkPolar (linEdges A) A) := by
    refine ⟨_, rfl, ?_⟩
    simp only [Cls.run, Cls.call, Mc.cls, setupBox_ok hB.numx hB.numy]
    rw [setupPolarLin_run, (Dg.polarChecks_iff A).1.mpr hA, e1, e2]
    exact ⟨rfl, rfl, rfl⟩
  obtain ⟨v1, v2, v3⟩ := C81_lin_violated A' t hA' (.inl h1)
  have vb : (Mc.setupPolarLin A' t).2.box = some B.box := by
    rw [← eb]
    refine (?_ : Keeps Box2Ring.State.box (Mc.setupPolarLin A')) t
    unfold Mc.setupPolarLin
    repeat' first | exact Keeps.lift _ | exact Keeps.assign fun _ => rfl | refine Keeps.bind ?_ fun _ => ?_
  have er : (Mc.cls.run [.setup (.box B), .setup (.lin A), .setup (.lin A')] s).2 = (Mc.setupPolarLin A' t).2 := by
    rw [← et]
    rfl
  have hx : Mc.histEdges B.box.xedges = .ok B.box.xedges :=
    Mc.histEdges_ok hB.hx (Int.lt_toNat.mpr (by simpa using hB.numx))
  have hy : Mc.histEdges B.box.yedges = .ok B.box.yedges :=
    Mc.histEdges_ok hB.hy (Int.lt_toNat.mpr (by simpa using hB.numy))
  rw [er, et]
  refine ⟨v1, ?_, ?_⟩
  · unfold Mc.getWeights pyAssert
    rw [if_pos (show n > 1 by omega)]
    simp only [Meth.bind_apply, Meth.lift_apply, Meth.self_apply, v2, v3, ep, vb, need, hx, hy]
    rw [if_neg]
    rintro ⟨c1, -⟩
    have l1 : (linEdges A').redges.length = 2 := by
      show (linspace _ _ _).length = 2
      rw [length_linspace, h1]
      rfl
    have l2 : (mkPolar (linEdges A) A).r2d.cols = A.numr.toNat := length_mids_linspace _ _ _
    rw [l1, l2] at c1
    omega
  · unfold Mc.getWeights pyAssert
    rw [if_pos (show n > 1 by omega)]
    simp only [Meth.bind_apply, Meth.lift_apply, Meth.self_apply, eb, ee, ep, need, hx, hy]
    rw [if_pos]
    · simp only
      intro he
      split at he
      · cases he
      · rename_i hk
        cases he
        exact pack_noIndex _ (congrArg Prod.fst hk)
    · have l1 : (linEdges A).redges.length = A.numr.toNat + 1 := length_linspace _ _ _
      have l2 : (linEdges A).pedges.length = A.nump.toNat + 1 := length_linspace _ _ _
      have l3 : (mkPolar (linEdges A) A).r2d.cols = A.numr.toNat := length_mids_linspace _ _ _
      have l4 : (mkPolar (linEdges A) A).r2d.rows = A.nump.toNat := length_mids_linspace _ _ _
      rw [l1, l2, l3, l4]
      omega

/-- The hypotheses of `C107_mc_violated` can be met. -/
example : BoxOk exBox ∧ PolarOk exPolar2 ∧ 2 ≤ exPolar2.numr ∧ 2 ≤ exPolar2.nump ∧
    PolarOk { exPolar2 with numr := 1 } ∧ ({ exPolar2 with numr := 1 } : PolarArgs).numr = 1 := by
  have hpi := Real.pi_pos
  refine ⟨exBox_ok, exPolar2_ok, by simp [exPolar2], by simp [exPolar2], ?_, rfl⟩
  constructor <;> simp [exPolar2] <;> positivity

end Magpie.Props
