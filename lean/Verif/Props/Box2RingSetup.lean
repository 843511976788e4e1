import Verif.Props.Box2RingMask
import Mathlib.Analysis.SpecialFunctions.Pow.Real

/-!
# `Box2Ring`: the grids
-/

set_option linter.unusedSimpArgs false
set_option linter.unusedVariables false
set_option linter.unusedSectionVars false

namespace Magpie.Props
open Magpie Magpie.Radial Magpie.OneD Magpie.Spec Magpie.Box2Ring Finset

/-! ## C81, Monte Carlo class -/

theorem checks_ok_iff (A : PolarArgs) (p : Prop) [Decidable p] :
    ((do pyAssert p; polarChecks A : Py Unit) = .ok () ↔ p ∧ polarChecks A = .ok ()) := by
  unfold pyAssert
  by_cases h : p <;> simp [h, bind, Except.bind]

theorem polarChecks_ok_iff (A : PolarArgs) (h : 0 ≤ A.rmin) : polarChecks A = .ok () ↔ PolarOk A := by
  constructor
  · intro e
    exact (Dg.polarChecks_iff A).1.mp ((checks_ok_iff A _).mpr ⟨h, e⟩)
  · exact polarChecks_ok

theorem setupPolarLin_run (A : PolarArgs) (s : Mc.State) :
    Mc.setupPolarLin A s = match (do pyAssert (A.rmin ≥ 0); polarChecks A : Py Unit) with
      | .error e => (.error e, s)
      | .ok _ => match firstDiff (linEdges A).rmid with
        | .error e => (.error e, { s with edges := some (linEdges A) })
        | .ok dr => match firstDiff (linEdges A).pmid with
          | .error e => (.error e, { s with edges := some (linEdges A), dr := some (.scalar dr) })
          | .ok dp => (.ok (), { s with
              edges := some (linEdges A), dr := some (.scalar dr), dp := some dp
              polar := some (mkPolar (linEdges A) A) }) := by
  unfold Mc.setupPolarLin
  simp only [Meth.bind_apply, Meth.lift_apply, Meth.assign_apply, bind, Except.bind]
  cases pyAssert (A.rmin ≥ 0) with
  | error e => rfl
  | ok _ =>
    simp only
    cases polarChecks A with
    | error e => rfl
    | ok _ =>
      simp only
      cases h1 : firstDiff (linEdges A).rmid with
      | error e =>
        have h1' := h1
        unfold linEdges at h1'
        rw [h1']; rfl
      | ok dr =>
        have h1' := h1
        unfold linEdges at h1'
        rw [h1']
        simp only
        cases h2 : firstDiff (linEdges A).pmid with
        | error e =>
          have h2' := h2
          unfold linEdges at h2'
          rw [h2']; rfl
        | ok dp =>
          have h2' := h2
          unfold linEdges at h2'
          rw [h2']; rfl

/-- The edges of `setup_polar_log`. -/
noncomputable def logE (A : PolarArgs) (z : Bool) : Edges :=
  mkEdges (Mc.logEdges A z) (linspace A.pmin A.pmax (A.nump.toNat + 1))

theorem setupPolarLog_run (A : PolarArgs) (z : Bool) (s : Mc.State) :
    Mc.setupPolarLog A z s = match (do pyAssert (A.rmin > 0); polarChecks A : Py Unit) with
      | .error e => (.error e, s)
      | .ok _ => match firstDiff (linEdges A).pmid with
          | .error e => (.error e, { s with edges := some (logE A z), dr := some (.list (List.zipWith
              (fun b a => b - a) (Mc.logEdges A z).tail (Mc.logEdges A z).dropLast)) })
          | .ok dp => (.ok (), { s with
              edges := some (logE A z), dr := some (.list (List.zipWith
              (fun b a => b - a) (Mc.logEdges A z).tail (Mc.logEdges A z).dropLast)), dp := some dp
              polar := some (mkPolar (logE A z) A) }) := by
  unfold Mc.setupPolarLog
  simp only [Meth.bind_apply, Meth.lift_apply, Meth.assign_apply, bind, Except.bind]
  cases pyAssert (A.rmin > 0) with
  | error e => rfl
  | ok _ =>
    simp only
    cases polarChecks A with
    | error e => rfl
    | ok _ =>
      simp only
      cases h2 : firstDiff (linEdges A).pmid with
      | error e =>
        have h2' := h2
        unfold linEdges mkEdges at h2'
        simp only at h2'
        simp only [mkEdges]
        rw [h2']; rfl
      | ok dp =>
        have h2' := h2
        unfold linEdges mkEdges at h2'
        simp only at h2'
        simp only [mkEdges]
        rw [h2']; rfl

/-- C81 for `setup_polar_lin` of the Monte Carlo class: it succeeds exactly if the assertions hold and there
are at least two rings and two sectors. Missing: a single ring or sector, see `C81_lin_violated`. -/
theorem C81_lin_partial (A : PolarArgs) (s : Mc.State) :
    (Mc.setupPolarLin A s).1 = .ok () ↔ PolarOk A ∧ 2 ≤ A.numr ∧ 2 ≤ A.nump := by
  constructor
  · intro h
    rw [setupPolarLin_run] at h
    rcases (Dg.polarChecks_iff A).2 with e | e
    · rw [e] at h
      have hA := (Dg.polarChecks_iff A).1.mp e
      have hr := hA.numr
      have hp := hA.nump
      refine ⟨hA, ?_, ?_⟩
      · by_contra hc
        have h1 : A.numr.toNat = 1 := by omega
        have e1 : firstDiff (linEdges A).rmid = .error .indexError := by
          show firstDiff (mids (linspace A.rmin A.rmax (A.numr.toNat + 1))) = _
          rw [h1]; exact firstDiff_mids_one _ _
        rw [e1] at h
        cases h
      · by_contra hc
        have h1 : A.nump.toNat = 1 := by omega
        have e1 : firstDiff (linEdges A).pmid = .error .indexError := by
          show firstDiff (mids (linspace A.pmin A.pmax (A.nump.toNat + 1))) = _
          rw [h1]; exact firstDiff_mids_one _ _
        rw [e1] at h
        cases hd : firstDiff (linEdges A).rmid <;> rw [hd] at h <;> cases h
    · rw [e] at h
      cases h
  · rintro ⟨hA, hr, hp⟩
    have e1 : firstDiff (linEdges A).rmid = _ := firstDiff_mids A.rmin A.rmax A.numr.toNat (by omega)
    have e2 : firstDiff (linEdges A).pmid = _ := firstDiff_mids A.pmin A.pmax A.nump.toNat (by omega)
    rw [setupPolarLin_run, (Dg.polarChecks_iff A).1.mpr hA, e1, e2]

/-- C81 does not hold for `setup_polar_lin`: `IndexError` for a single ring or sector. -/
theorem C81_lin_violated (A : PolarArgs) (s : Mc.State) (hA : PolarOk A) (h : A.numr = 1 ∨ A.nump = 1) :
    (Mc.setupPolarLin A s).1 = .error .indexError ∧ (Mc.setupPolarLin A s).2.edges = some (linEdges A) ∧
    (Mc.setupPolarLin A s).2.polar = s.polar := by
  rw [setupPolarLin_run, (Dg.polarChecks_iff A).1.mpr hA]
  simp only
  by_cases hr : A.numr = 1
  · have e1 : firstDiff (linEdges A).rmid = .error .indexError := by
      show firstDiff (mids (linspace A.rmin A.rmax (A.numr.toNat + 1))) = _
      rw [hr]; exact firstDiff_mids_one _ _
    rw [e1]
    exact ⟨rfl, rfl, rfl⟩
  · have hp := h.resolve_left hr
    have hr0 := hA.numr
    have e1 : firstDiff (linEdges A).rmid = _ := firstDiff_mids A.rmin A.rmax A.numr.toNat (by omega)
    have e2 : firstDiff (linEdges A).pmid = .error .indexError := by
      show firstDiff (mids (linspace A.pmin A.pmax (A.nump.toNat + 1))) = _
      rw [hp]; exact firstDiff_mids_one _ _
    rw [e1, e2]
    exact ⟨rfl, rfl, rfl⟩

/-- C81 for `setup_polar_log`: it succeeds exactly if the assertions hold (`rmin` must be positive) and
there are at least two sectors; a single ring is accepted. -/
theorem C81_log_partial (A : PolarArgs) (z : Bool) (s : Mc.State) :
    (Mc.setupPolarLog A z s).1 = .ok () ↔ 0 < A.rmin ∧ PolarOk A ∧ 2 ≤ A.nump := by
  rw [setupPolarLog_run]
  by_cases h0 : 0 < A.rmin ∧ PolarOk A
  · obtain ⟨h0, hA⟩ := h0
    rw [(checks_ok_iff A _).mpr ⟨h0, polarChecks_ok hA⟩]
    simp only
    have hp := hA.nump
    by_cases h2 : 2 ≤ A.nump
    · have e2 : firstDiff (linEdges A).pmid = _ := firstDiff_mids A.pmin A.pmax A.nump.toNat (by omega)
      rw [e2]
      simp [h0, hA, h2]
    · have h1 : A.nump.toNat = 1 := by omega
      have e2 : firstDiff (linEdges A).pmid = .error .indexError := by
        show firstDiff (mids (linspace A.pmin A.pmax (A.nump.toNat + 1))) = _
        rw [h1]; exact firstDiff_mids_one _ _
      rw [e2]
      simp [h2]
  · constructor
    · intro h
      exfalso
      cases hc : (do pyAssert (A.rmin > 0); polarChecks A : Py Unit) with
      | error e => rw [hc] at h; cases h
      | ok _ =>
        obtain ⟨h1, h2⟩ := (checks_ok_iff A _).mp hc
        exact h0 ⟨h1, (polarChecks_ok_iff A (le_of_lt h1)).mp h2⟩
    · rintro ⟨h1, h2, -⟩
      exact absurd ⟨h1, h2⟩ h0

/-- C81 does not hold for `setup_polar_log`: `IndexError` for a single sector. -/
theorem C81_log_violated (A : PolarArgs) (z : Bool) (s : Mc.State) (h0 : 0 < A.rmin) (hA : PolarOk A)
    (h : A.nump = 1) : (Mc.setupPolarLog A z s).1 = .error .indexError := by
  have e2 : firstDiff (linEdges A).pmid = .error .indexError := by
    show firstDiff (mids (linspace A.pmin A.pmax (A.nump.toNat + 1))) = _
    rw [h]; exact firstDiff_mids_one _ _
  rw [setupPolarLog_run, (checks_ok_iff A _).mpr ⟨h0, polarChecks_ok hA⟩, e2]

/-- Arguments for `setup_polar_log`: three rings from 1 to 8, four sectors. -/
noncomputable def exLog : PolarArgs := { rmin := 1, rmax := 8, numr := 3, nump := 4 }

theorem exLog_ok : PolarOk exLog := by
  have := Real.pi_pos
  constructor <;> simp [exLog] <;> positivity

example : 0 < exLog.rmin ∧ PolarOk exLog ∧ 2 ≤ exLog.nump := ⟨by simp [exLog], exLog_ok, by simp [exLog]⟩

/-! ## C83: the grids that are set up -/

/-- C83 for boxes: after `setup_box`, whatever the object was before, the edges divide the box into equal
cells, and `x2d[j, i]`, `y2d[j, i]` is the centre of the cell in column `i` and row `j`. -/
theorem C83_box {X : Type} (B : BoxArgs) (hx : 0 < B.numx) (hy : 0 < B.numy) (s : Box2Ring.State X) :
    ∃ b, (setupBox B s).2.box = some b ∧ (setupBox B s).1 = .ok () ∧
      b.xedges = (List.range (B.numx.toNat + 1)).map (edgeAt B.xmin B.xmax B.numx.toNat) ∧
      b.yedges = (List.range (B.numy.toNat + 1)).map (edgeAt B.ymin B.ymax B.numy.toNat) ∧
      b.x2d.rows = B.numy.toNat ∧ b.x2d.cols = B.numx.toNat ∧
      b.y2d.rows = B.numy.toNat ∧ b.y2d.cols = B.numx.toNat ∧
      ∀ i j, i < B.numx.toNat → j < B.numy.toNat →
        b.x2d.val j i = midAt B.xmin B.xmax B.numx.toNat i ∧ b.y2d.val j i = midAt B.ymin B.ymax B.numy.toNat j := by
  rw [setupBox_ok hx hy]
  refine ⟨B.box, rfl, rfl, linspace_eq _ _ _, linspace_eq _ _ _, length_mids_linspace _ _ _,
    length_mids_linspace _ _ _, length_mids_linspace _ _ _, length_mids_linspace _ _ _, ?_⟩
  intro i j hi hj
  exact ⟨mids_getD _ _ _ _ hi, mids_getD _ _ _ _ hj⟩

/-- C83 for linear polar grids (dense grid class): the edges divide `[rmin, rmax]` and `[pmin, pmax]` into
equal parts, and `r2d[i, j]`, `p2d[i, j]` is the centre of sector `i` in ring `j`. -/
theorem C83_dg (A : PolarArgs) (hA : PolarOk A) (hr : 2 ≤ A.numr) (hp : 2 ≤ A.nump) (mr mp : ℕ) (s : Dg.State) :
    ∃ e p, (Dg.setupPolar A mr mp s).2.edges = some e ∧ (Dg.setupPolar A mr mp s).2.polar = some p ∧
      e.redges = (List.range (A.numr.toNat + 1)).map (edgeAt A.rmin A.rmax A.numr.toNat) ∧
      e.pedges = (List.range (A.nump.toNat + 1)).map (edgeAt A.pmin A.pmax A.nump.toNat) ∧
      p.r2d.rows = A.nump.toNat ∧ p.r2d.cols = A.numr.toNat ∧
      (∀ i j, i < A.nump.toNat → j < A.numr.toNat →
        p.r2d.val i j = midAt A.rmin A.rmax A.numr.toNat j ∧ p.p2d.val i j = midAt A.pmin A.pmax A.nump.toNat i) ∧
      A.center = [p.center.1, p.center.2] ∧ p.phiShift = A.phiShift := by
  obtain ⟨dr, dp, e⟩ := Dg.setupPolar_ok hA hr hp mr mp s
  rw [e]
  refine ⟨linEdges A, mkPolar (linEdges A) A, rfl, rfl, linspace_eq _ _ _, linspace_eq _ _ _,
    length_mids_linspace _ _ _, length_mids_linspace _ _ _, ?_, ?_, rfl⟩
  · intro i j hi hj
    exact ⟨mids_getD _ _ _ _ hj, mids_getD _ _ _ _ hi⟩
  · have := hA.center
    match hc : A.center, this with
    | [a, b], _ => simp [mkPolar, centerOf, hc]

/-- C83 for linear polar grids (Monte Carlo class). -/
theorem C83_lin (A : PolarArgs) (hA : PolarOk A) (hr : 2 ≤ A.numr) (hp : 2 ≤ A.nump) (s : Mc.State) :
    ∃ e p, (Mc.setupPolarLin A s).2.edges = some e ∧ (Mc.setupPolarLin A s).2.polar = some p ∧
      e.redges = (List.range (A.numr.toNat + 1)).map (edgeAt A.rmin A.rmax A.numr.toNat) ∧
      e.pedges = (List.range (A.nump.toNat + 1)).map (edgeAt A.pmin A.pmax A.nump.toNat) ∧
      p.r2d.rows = A.nump.toNat ∧ p.r2d.cols = A.numr.toNat ∧
      (∀ i j, i < A.nump.toNat → j < A.numr.toNat →
        p.r2d.val i j = midAt A.rmin A.rmax A.numr.toNat j ∧ p.p2d.val i j = midAt A.pmin A.pmax A.nump.toNat i) ∧
      A.center = [p.center.1, p.center.2] ∧ p.phiShift = A.phiShift := by
  have e1 : firstDiff (linEdges A).rmid = _ := firstDiff_mids A.rmin A.rmax A.numr.toNat (by omega)
  have e2 : firstDiff (linEdges A).pmid = _ := firstDiff_mids A.pmin A.pmax A.nump.toNat (by omega)
  rw [setupPolarLin_run, (Dg.polarChecks_iff A).1.mpr hA, e1, e2]
  refine ⟨linEdges A, mkPolar (linEdges A) A, rfl, rfl, linspace_eq _ _ _, linspace_eq _ _ _,
    length_mids_linspace _ _ _, length_mids_linspace _ _ _, ?_, ?_, rfl⟩
  · intro i j hi hj
    exact ⟨mids_getD _ _ _ _ hj, mids_getD _ _ _ _ hi⟩
  · have := hA.center
    match hc : A.center, this with
    | [a, b], _ => simp [mkPolar, centerOf, hc]

/-- A value of `np.logspace(np.log10(a), np.log10(b), n + 1)`. -/
theorem logspace_val {a b : ℝ} (ha : 0 < a) (hb : 0 < b) (n k : ℕ) :
    (10:ℝ)^(edgeAt (Real.logb 10 a) (Real.logb 10 b) n k) = a*(b/a)^((k:ℝ)/n) := by
  unfold edgeAt
  rw [Real.rpow_add (by norm_num), Real.rpow_logb (by norm_num) (by norm_num) ha]
  congr 1
  rw [show (k:ℝ)*((Real.logb 10 b - Real.logb 10 a)/n) = (Real.logb 10 b - Real.logb 10 a)*((k:ℝ)/n) by ring,
    Real.rpow_mul (by norm_num), ← Real.logb_div hb.ne' ha.ne', Real.rpow_logb (by norm_num) (by norm_num)
      (div_pos hb ha)]

/-- C83 for logarithmic polar grids: without `addzero` there are `numr` rings between `rmin` and `rmax`
with a constant ratio of radii; with `addzero` the first ring is the disc of radius `rmin`, and the others
are `numr - 1` such rings. In both cases the edges increase strictly from the smallest to `rmax` (with
`addzero`, if `numr ≥ 2`). -/
theorem C83_log (A : PolarArgs) (h0 : 0 < A.rmin) (hA : PolarOk A) (hp : 2 ≤ A.nump) (z : Bool) (s : Mc.State) :
    ∃ e p, (Mc.setupPolarLog A z s).2.edges = some e ∧ (Mc.setupPolarLog A z s).2.polar = some p ∧
      e.redges.length = A.numr.toNat + 1 ∧
      (z = false → ∀ k, k ≤ A.numr.toNat →
        e.redges.getD k 0 = A.rmin*(A.rmax/A.rmin)^((k:ℝ)/A.numr.toNat)) ∧
      (z = true → e.redges.getD 0 0 = 0 ∧ ∀ k, k < A.numr.toNat →
        e.redges.getD (k+1) 0 = A.rmin*(A.rmax/A.rmin)^((k:ℝ)/(A.numr.toNat - 1 : ℕ))) ∧
      e.pedges = (List.range (A.nump.toNat + 1)).map (edgeAt A.pmin A.pmax A.nump.toNat) ∧
      p.r2d.rows = A.nump.toNat ∧ p.r2d.cols = A.numr.toNat ∧
      (∀ i j, i < A.nump.toNat → j < A.numr.toNat →
        p.r2d.val i j = (e.redges.getD j 0 + e.redges.getD (j+1) 0)/2 ∧
        p.p2d.val i j = midAt A.pmin A.pmax A.nump.toNat i) := by
  have hr := hA.numr
  have hmax : 0 < A.rmax := h0.trans hA.r
  have e2 : firstDiff (linEdges A).pmid = _ := firstDiff_mids A.pmin A.pmax A.nump.toNat (by omega)
  rw [setupPolarLog_run, (checks_ok_iff A _).mpr ⟨h0, polarChecks_ok hA⟩, e2]
  have hlen : (Mc.logEdges A z).length = A.numr.toNat + 1 := by
    unfold Mc.logEdges Mc.logspace
    split_ifs <;> simp [length_linspace]
  have hmid : ∀ (l : List ℝ) (j : ℕ), j + 1 < l.length → (mids l).getD j 0 = (l.getD j 0 + l.getD (j+1) 0)/2 := by
    intro l j hj
    unfold mids
    have h1 : (List.zipWith (fun b a => 1/2*(b + a)) l.tail l.dropLast)[j]? =
        some (1/2*(l[j+1] + l[j])) := by
      rw [List.getElem?_zipWith, List.getElem?_tail, List.getElem?_dropLast, if_pos (by omega),
        List.getElem?_eq_getElem hj, List.getElem?_eq_getElem (by omega : j < l.length)]
    rw [List.getD_eq_getElem?_getD, h1, List.getD_eq_getElem?_getD, List.getD_eq_getElem?_getD,
      List.getElem?_eq_getElem hj, List.getElem?_eq_getElem (by omega : j < l.length)]
    simp only [Option.getD_some]
    ring
  have hls : ∀ n k, k ≤ n → (Mc.logspace A.rmin A.rmax (n+1)).getD k 0 = A.rmin*(A.rmax/A.rmin)^((k:ℝ)/n) := by
    intro n k hk
    unfold Mc.logspace
    rw [linspace_eq, List.map_map, getD_range_map _ _ _ (by omega)]
    exact logspace_val h0 hmax n k
  refine ⟨logE A z, mkPolar (logE A z) A, rfl, rfl, hlen, ?_, ?_, linspace_eq _ _ _,
    length_mids_linspace _ _ _, ?_, ?_⟩
  · rintro rfl k hk
    show (Mc.logEdges A false).getD k 0 = _
    unfold Mc.logEdges
    exact hls _ _ hk
  · rintro rfl
    refine ⟨rfl, fun k hk => ?_⟩
    obtain ⟨n, hn⟩ : ∃ n, A.numr.toNat = n + 1 := ⟨A.numr.toNat - 1, by omega⟩
    show (Mc.logEdges A true).getD (k+1) 0 = _
    unfold Mc.logEdges
    simp only [if_true]
    rw [hn, List.getD_cons_succ, hls n k (by omega)]
    simp
  · show (mids (Mc.logEdges A z)).length = _
    unfold mids
    simp [hlen]
  · intro i j hi hj
    refine ⟨hmid _ j ?_, mids_getD _ _ _ _ hi⟩
    show j + 1 < (Mc.logEdges A z).length
    omega

/-- C83 for logarithmic grids, consequence: the edges increase strictly. -/
theorem C83_log_increasing (A : PolarArgs) (h0 : 0 < A.rmin) (hA : PolarOk A) (hp : 2 ≤ A.nump) (z : Bool)
    (s : Mc.State) (e : Edges) (he : (Mc.setupPolarLog A z s).2.edges = some e) (k : ℕ) (hk : k < A.numr.toNat) :
    e.redges.getD k 0 < e.redges.getD (k+1) 0 := by
  obtain ⟨e', p, h1, -, -, h2, h3, -⟩ := C83_log A h0 hA hp z s
  rw [he, Option.some.injEq] at h1
  subst h1
  have hq : 1 < A.rmax/A.rmin := (one_lt_div h0).mpr hA.r
  cases z with
  | false =>
    have h2 := h2 rfl
    rw [h2 k hk.le, h2 (k+1) hk]
    have hn : (0:ℝ) < A.numr.toNat := by exact_mod_cast (show 0 < A.numr.toNat by omega)
    refine mul_lt_mul_of_pos_left (Real.rpow_lt_rpow_of_exponent_lt hq ?_) h0
    rw [div_lt_div_iff_of_pos_right hn]
    push_cast
    linarith
  | true =>
    obtain ⟨h3, h4⟩ := h3 rfl
    cases k with
    | zero =>
      rw [h3, h4 0 hk]
      have : (0:ℝ) < A.rmax/A.rmin := by linarith
      positivity
    | succ k =>
      rw [h4 k (by omega), h4 (k+1) hk]
      have hn : (0:ℝ) < (A.numr.toNat - 1 : ℕ) := by exact_mod_cast (show 0 < A.numr.toNat - 1 by omega)
      refine mul_lt_mul_of_pos_left (Real.rpow_lt_rpow_of_exponent_lt hq ?_) h0
      rw [div_lt_div_iff_of_pos_right hn]
      push_cast
      linarith

end Magpie.Props
