import Verif.Proof.McBox2Ring

/-!
# Lemmas on the Monte Carlo `Box2Ring` class: sequences of calls
-/

set_option linter.unusedSimpArgs false
set_option linter.unusedVariables false
set_option linter.unusedSectionVars false

namespace Magpie.Mc
open Magpie Magpie.Radial Magpie.OneD Magpie.Spec Magpie.Box2Ring Magpie.Props

/-- The table of the numbers of box pixels hit. -/
noncomputable def lens (B : BoxArgs) (G : Grid) (draws : ℕ → ℕ → List ℝ × List ℝ) : List (List ℕ) :=
  (List.range G.nump).map fun i => (List.range G.numr).map fun j => touched B (G.points i j (draws i j))

theorem getWeights_run {B : BoxArgs} {G : Grid} (hB : BoxOk B) (hG : G.Ok) {n : ℕ} (hn : 1 < n)
    (draws : ℕ → ℕ → List ℝ × List ℝ) (hd : ∀ i j, i < G.nump → j < G.numr → Draws n (draws i j)) (s : State)
    (h1 : s.edges = some G.edges) (h2 : s.polar = some (mkPolar G.edges G.args)) (h3 : s.box = some B.box) :
    ∃ hits : ℕ → ℕ → List Hit, (∀ i j, i < G.nump → j < G.numr →
        hits i j = pixelHits (hX B) (hY B) n ((G.points i j (draws i j)).map some)) ∧
      getWeights n draws s = match pack (lens B G draws) with
        | .error e => (.error e, s)
        | .ok o => (.ok (), { s with extra := some ⟨⟨hits, o⟩, G.nump, G.numr⟩ }) := by
  have hx : 0 < B.numx.toNat := by have := hB.numx; omega
  have hy : 0 < B.numy.toNat := by have := hB.numy; omega
  refine ⟨fun i j => pixelHits (hX B) (hY B) n (randomPoints (G.edges.redges.getD j 0) (G.edges.redges.getD (j+1) 0)
    (G.edges.pedges.getD i 0) (G.edges.pedges.getD (i+1) 0) (mkPolar G.edges G.args) (draws i j).1 (draws i j).2),
    ?_, ?_⟩
  · intro i j hi hj
    show pixelHits _ _ _ _ = _
    rw [randomPoints_eq hG i j hi hj _ (hd i j hi hj)]
  · have hlen : G.edges.pedges.length = G.nump + 1 := by rw [G.pedges_eq, length_linspace]
    have ex : histEdges B.box.xedges = .ok (hX B) := histEdges_ok hB.hx hx
    have ey : histEdges B.box.yedges = .ok (hY B) := histEdges_ok hB.hy hy
    have ea : pyAssert (n > 1) = .ok () := by unfold pyAssert; rw [if_pos hn]
    unfold getWeights
    simp only [Meth.bind_apply, Meth.lift_apply, Meth.self_apply, Meth.assign_apply, h1, h2, h3, need_some, ea,
      G.r2d_shape.1, G.r2d_shape.2, G.redges_length, hlen, ex, ey]
    rw [if_pos ⟨by omega, by omega⟩]
    simp only
    have el : ((List.range G.nump).map fun i => (List.range G.numr).map fun j =>
        (pixelHits (hX B) (hY B) n (randomPoints (G.edges.redges.getD j 0) (G.edges.redges.getD (j+1) 0)
          (G.edges.pedges.getD i 0) (G.edges.pedges.getD (i+1) 0) (mkPolar G.edges G.args)
          (draws i j).1 (draws i j).2)).length) = lens B G draws := by
      unfold lens
      apply List.map_congr_left
      intro i hi
      apply List.map_congr_left
      intro j hj
      have hi := List.mem_range.mp hi
      have hj := List.mem_range.mp hj
      rw [randomPoints_eq hG i j hi hj _ (hd i j hi hj), length_hits hB]
    rw [el]
    cases pack (lens B G draws) with
    | error e => rfl
    | ok o => simp only [h1, h2, h3]

theorem allEq_range (m : ℕ) (t : ℕ → ℕ) (hm : 0 < m) :
    allEq ((List.range m).map t) = true ↔ ∀ j, j < m → t j = t 0 := by
  obtain ⟨k, rfl⟩ : ∃ k, m = k + 1 := ⟨m - 1, by omega⟩
  unfold allEq
  have : ((List.range (k+1)).map t).headD 0 = t 0 := by simp [List.range_succ_eq_map]
  rw [this]
  simp

theorem row_iff {B : BoxArgs} {G : Grid} (hG : G.Ok) (draws : ℕ → ℕ → List ℝ × List ℝ) (i : ℕ) :
    allEq ((List.range G.numr).map fun j => touched B (G.points i j (draws i j))) = false ↔
      ∃ j k, j < G.numr ∧ k < G.numr ∧
        touched B (G.points i j (draws i j)) ≠ touched B (G.points i k (draws i k)) := by
  rw [← Bool.not_eq_true, allEq_range _ _ (Grid.numr_pos hG)]
  push Not
  constructor
  · rintro ⟨j, hj, h⟩
    exact ⟨j, 0, hj, Grid.numr_pos hG, h⟩
  · rintro ⟨j, k, hj, hk, h⟩
    by_contra hc
    push Not at hc
    exact h ((hc j hj).trans (hc k hk).symm)

theorem pack_differ {B : BoxArgs} {G : Grid} (hG : G.Ok) {draws : ℕ → ℕ → List ℝ × List ℝ}
    (h : RowsDiffer B G draws) : pack (lens B G draws) = .ok false := by
  unfold pack
  rw [if_pos]
  unfold lens
  simp only [List.all_map, List.all_eq_true, List.mem_range, Function.comp_apply, Bool.not_eq_true']
  exact fun i hi => (row_iff hG draws i).mpr (h i hi)

theorem pack_same {B : BoxArgs} {G : Grid} (hG : G.Ok) {draws : ℕ → ℕ → List ℝ × List ℝ} {k : ℕ}
    (h : AllTouch B G draws k) : pack (lens B G draws) = .ok true := by
  have hp := Grid.nump_two hG
  have hr := Grid.numr_pos hG
  have hrow : ∀ i, i < G.nump → allEq ((List.range G.numr).map fun j => touched B (G.points i j (draws i j))) = true :=
    fun i hi => (allEq_range _ _ hr).mpr fun j hj => (h i j hi hj).trans (h i 0 hi hr).symm
  unfold pack
  rw [if_neg, if_pos]
  · have hh : (lens B G draws).map (fun row => row.headD 0) = (List.range G.nump).map fun i =>
        touched B (G.points i 0 (draws i 0)) := by
      unfold lens
      rw [List.map_map]
      apply List.map_congr_left
      intro i _
      obtain ⟨m, hm⟩ : ∃ m, G.numr = m + 1 := ⟨G.numr - 1, by omega⟩
      rw [hm]
      simp [List.range_succ_eq_map]
    rw [hh, Bool.and_eq_true]
    refine ⟨?_, ?_⟩
    · unfold lens
      simp only [List.all_map, List.all_eq_true, List.mem_range, Function.comp_apply]
      exact hrow
    · rw [allEq_range _ _ (by omega)]
      exact fun i hi => (h i 0 hi hr).trans (h 0 0 (by omega) hr).symm
  · unfold lens
    simp only [List.all_map, List.all_eq_true, List.mem_range, Function.comp_apply, Bool.not_eq_true']
    push Not
    exact ⟨0, by omega, by rw [hrow 0 (by omega)]; simp⟩

theorem pack_mixed {B : BoxArgs} {G : Grid} (hG : G.Ok) {draws : ℕ → ℕ → List ℝ × List ℝ}
    (h1 : ¬ RowsDiffer B G draws) (h2 : ¬ ∃ k, AllTouch B G draws k) :
    pack (lens B G draws) = .error .valueError := by
  have hp := Grid.nump_two hG
  have hr := Grid.numr_pos hG
  unfold pack
  rw [if_neg, if_neg]
  · intro h
    rw [Bool.and_eq_true] at h
    obtain ⟨ha, hb⟩ := h
    have hh : (lens B G draws).map (fun row => row.headD 0) = (List.range G.nump).map fun i =>
        touched B (G.points i 0 (draws i 0)) := by
      unfold lens
      rw [List.map_map]
      apply List.map_congr_left
      intro i _
      obtain ⟨m, hm⟩ : ∃ m, G.numr = m + 1 := ⟨G.numr - 1, by omega⟩
      rw [hm]
      simp [List.range_succ_eq_map]
    rw [hh, allEq_range _ _ (by omega)] at hb
    unfold lens at ha
    simp only [List.all_map, List.all_eq_true, List.mem_range, Function.comp_apply] at ha
    exact h2 ⟨_, fun i j hi hj => ((allEq_range _ _ hr).mp (ha i hi) j hj).trans (hb i hi)⟩
  · intro h
    unfold lens at h
    simp only [List.all_map, List.all_eq_true, List.mem_range, Function.comp_apply, Bool.not_eq_true'] at h
    exact h1 fun i hi => (row_iff hG draws i).mp (h i hi)

/-- The state after the set-up calls. -/
theorem setups_run {B : BoxArgs} {G : Grid} (hB : BoxOk B) (hG : G.Ok) (s : State) :
    ∃ s', (do setupBox B; G.setup : Meth State Unit) s = (.ok (), s') ∧ s'.edges = some G.edges ∧
      s'.polar = some (mkPolar G.edges G.args) ∧ s'.box = some B.box := by
  simp only [Meth.bind_apply]
  rw [setupBox_ok hB.numx hB.numy]
  exact Grid.setup_run hG _

theorem x2d_shape (B : BoxArgs) : B.box.x2d.rows = B.numy.toNat ∧ B.box.x2d.cols = B.numx.toNat :=
  ⟨length_mids_linspace _ _ _, length_mids_linspace _ _ _⟩

/-- `remap` on an object with weights. -/
theorem remap_run {B : BoxArgs} {G : Grid} (s : State) (wt : Weights) (h2 : s.polar = some (mkPolar G.edges G.args))
    (h3 : s.box = some B.box) (h4 : s.extra = some ⟨wt, G.nump, G.numr⟩) (f : Arr2 (Option ℝ)) (w : Option (Arr2 ℝ))
    (hf : f.rows = B.numy.toNat ∧ f.cols = B.numx.toNat)
    (hw : ∀ t, w = some t → t.rows = B.numy.toNat ∧ t.cols = B.numx.toNat) :
    remap f w s = (tabulate G.nump G.numr (remapPixel wt f w) none, s) := by
  have e0 : tabulate G.nump G.numr (storedPixel ⟨wt, G.nump, G.numr⟩ f w) none
      = tabulate G.nump G.numr (remapPixel wt f w) none :=
    tabulate_congr _ _ _ _ _ fun i j hi hj => by unfold storedPixel; rw [if_pos ⟨hi, hj⟩]
  rw [← e0]
  have e1 : pyAssert (f.sameShape B.box.x2d) = .ok () := by
    unfold pyAssert
    rw [if_pos ⟨hf.1.trans (x2d_shape B).1.symm, hf.2.trans (x2d_shape B).2.symm⟩]
  unfold remap
  simp only [Meth.bind_apply, Meth.self_apply, h3, Meth.lift_apply, e1, h2, h4, need_some]
  cases w with
  | none =>
    simp only [Meth.pure_apply, Meth.bind_apply, Meth.lift_apply, G.r2d_shape.1, G.r2d_shape.2]
  | some t =>
    have e2 : pyAssert (t.sameShape B.box.x2d) = .ok () := by
      unfold pyAssert
      rw [if_pos ⟨(hw t rfl).1.trans (x2d_shape B).1.symm, (hw t rfl).2.trans (x2d_shape B).2.symm⟩]
    simp only [e2, Meth.bind_apply, Meth.lift_apply, G.r2d_shape.1, G.r2d_shape.2]

/-- The values read at a list of points exist. -/
theorem exists_reads {α : Type} {B : BoxArgs} (hB : BoxOk B) (v : ℕ → ℕ → α) (pts : List (ℝ × ℝ)) :
    ∃ g, List.Forall₂ (Reads B v) pts g := by
  induction pts with
  | nil => exact ⟨[], .nil⟩
  | cons pt pts ih =>
    obtain ⟨g, hg⟩ := ih
    by_cases h : ∃ a b, InPixel B pt a b
    · obtain ⟨a, b, hab⟩ := h
      refine ⟨some (v b a) :: g, .cons ⟨?_, fun hc => absurd ⟨a, b, hab⟩ hc⟩ hg⟩
      intro a' b' hab'
      rw [inBin_unique hB.hx hab.1 hab'.1, inBin_unique hB.hy hab.2 hab'.2]
    · exact ⟨none :: g, .cons ⟨fun a b hab => absurd ⟨a, b, hab⟩ h, fun _ => rfl⟩ hg⟩

theorem mcRemap_run {B : BoxArgs} {G : Grid} (hB : BoxOk B) (hG : G.Ok) {n : ℕ} (hn : 1 < n)
    (draws : ℕ → ℕ → List ℝ × List ℝ) (hd : ∀ i j, i < G.nump → j < G.numr → Draws n (draws i j))
    (f : Arr2 (Option ℝ)) (w : Option (Arr2 ℝ)) (hf : f.rows = B.numy.toNat ∧ f.cols = B.numx.toNat)
    (hw : ∀ t, w = some t → t.rows = B.numy.toNat ∧ t.cols = B.numx.toNat) (s : State) :
    ∃ hits : ℕ → ℕ → List Hit, (∀ i j, i < G.nump → j < G.numr →
        hits i j = pixelHits (hX B) (hY B) n ((G.points i j (draws i j)).map some)) ∧
      ∃ s' : Bool → State, mcRemap B G n draws f w s = match pack (lens B G draws) with
        | .error e => (.error e, s' true)
        | .ok o => (tabulate G.nump G.numr (remapPixel ⟨hits, o⟩ f w) none, s' o) := by
  obtain ⟨s1, e1, h1, h2, h3⟩ := setups_run hB hG s
  obtain ⟨hits, hh, e2⟩ := getWeights_run hB hG hn draws hd s1 h1 h2 h3
  have e3 := fun o => remap_run { s1 with extra := some ⟨⟨hits, o⟩, G.nump, G.numr⟩ } ⟨hits, o⟩ h2 h3 rfl f w hf hw
  refine ⟨hits, hh, fun o => match pack (lens B G draws) with
    | .error _ => s1
    | .ok _ => { s1 with extra := some ⟨⟨hits, o⟩, G.nump, G.numr⟩ }, ?_⟩
  unfold mcRemap
  simp only [Meth.bind_apply] at e1 ⊢
  rw [setupBox_ok hB.numx hB.numy] at e1 ⊢
  simp only at e1 ⊢
  rw [e1]
  simp only
  rw [e2]
  cases pack (lens B G draws) with
  | error e => rfl
  | ok o => exact e3 o

end Magpie.Mc

