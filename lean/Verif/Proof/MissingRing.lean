import Verif.Proof.Box2RingRadial
import Verif.Spec.MissingRing

/-!
# Radial profiles of maps with missing values
-/

set_option linter.unusedSimpArgs false
set_option linter.unusedVariables false

namespace Magpie.Box2Ring
open Magpie Magpie.Radial Magpie.OneD Magpie.Spec Finset

open Classical in
theorem npSum_opt (n : ℕ) (o : ℕ → Option ℝ) : npSum ((List.range n).map o)
    = if ∃ i, i < n ∧ o i = none then none else some (∑ i ∈ range n, (o i).getD 0) := by
  split_ifs with h
  · obtain ⟨i, hi, e⟩ := h
    exact npSum_none _ (List.mem_map.mpr ⟨i, List.mem_range.mpr hi, e⟩)
  · refine npSum_range_congr n o _ fun i hi => ?_
    cases e : o i with
    | none => exact absurd ⟨i, hi, e⟩ h
    | some x => rfl

theorem quot_opt (n : ℕ) (e : ℕ → ℝ) (o p : ℕ → Option ℝ) (h1 : ∀ i, i < n → (p i = none ↔ o i = none))
    (h2 : ∀ i, i < n → o i ≠ none → (p i).getD 0 = e i*(o i).getD 0) :
    odiv (npSum ((List.range n).map p)) (some (∑ i ∈ range n, e i)) = meanOrMissing n e o := by
  rw [npSum_opt]
  unfold meanOrMissing
  have hi : (∃ i, i < n ∧ p i = none) ↔ ∃ i, i < n ∧ o i = none :=
    ⟨fun ⟨i, a, b⟩ => ⟨i, a, (h1 i a).mp b⟩, fun ⟨i, a, b⟩ => ⟨i, a, (h1 i a).mpr b⟩⟩
  by_cases h : ∃ i, i < n ∧ o i = none
  · rw [if_pos (hi.mpr h), if_pos (Or.inl h)]
    rfl
  · rw [if_neg (fun k => h (hi.mp k))]
    have es : ∑ i ∈ range n, (p i).getD 0 = ∑ i ∈ range n, e i*(o i).getD 0 :=
      Finset.sum_congr rfl fun i hi' => h2 i (Finset.mem_range.mp hi') fun k => h ⟨i, Finset.mem_range.mp hi', k⟩
    rw [es]
    unfold odiv fdiv
    simp only
    by_cases h0 : ∑ i ∈ range n, e i = 0
    · rw [if_pos h0, if_pos (Or.inr h0)]
    · rw [if_neg h0, if_neg (fun k => k.elim h h0)]

theorem radial_none_opt (f : Arr2 (Option ℝ)) :
    Radial.polar2radial f none = .ok ((List.range f.cols).map fun j => meanOrMissing f.rows (fun _ => 1) (f.val · j)) := by
  unfold Radial.polar2radial Arr2.sum0
  simp only
  rw [List.map_map]
  congr 1
  refine List.map_congr_left fun j hj => ?_
  simp only [Function.comp]
  rw [← quot_opt f.rows (fun _ => 1) (f.val · j) (f.val · j) (fun _ _ => Iff.rfl) (fun _ _ _ => by ring)]
  simp

theorem radial_some_opt (f : Arr2 (Option ℝ)) (w : Arr2 ℝ) (hw : w.sameShape f) :
    Radial.polar2radial f (some w) = .ok ((List.range f.cols).map fun j =>
      meanOrMissing f.rows (w.val · j) (f.val · j)) := by
  have hw' : w.rows = f.rows ∧ w.cols = f.cols := hw
  unfold Radial.polar2radial Arr2.sum0 Arr2.zip
  simp only
  rw [if_pos ⟨hw'.1.symm, hw'.2.symm⟩]
  simp only [bind, Except.bind, pure, Except.pure]
  congr 1
  rw [hw'.2, List.zipWith_map, List.zipWith_self]
  refine List.map_congr_left fun j hj => ?_
  rw [hw'.1, npSum_range_congr f.rows (fun i => some (w.val i j)) (fun i => w.val i j) (fun i hi => rfl)]
  refine quot_opt f.rows (w.val · j) (f.val · j) _ ?_ ?_
  · intro i _
    cases e : f.val i j <;> simp [omul]
  · intro i _ h
    cases e : f.val i j with
    | none => exact absurd e h
    | some x => simp [omul, mul_comm]

theorem meanOrMissing_congr {n : ℕ} {e e' : ℕ → ℝ} {o o' : ℕ → Option ℝ} (h1 : ∀ i, i < n → e i = e' i)
    (h2 : ∀ i, i < n → o i = o' i) : meanOrMissing n e o = meanOrMissing n e' o' := by
  unfold meanOrMissing
  have a : (∃ i, i < n ∧ o i = none) ↔ ∃ i, i < n ∧ o' i = none :=
    exists_congr fun i => and_congr_right fun hi => by rw [h2 i hi]
  have b : ∑ i ∈ range n, e i = ∑ i ∈ range n, e' i := Finset.sum_congr rfl fun i hi => h1 i (Finset.mem_range.mp hi)
  have c : ∑ i ∈ range n, e i*(o i).getD 0 = ∑ i ∈ range n, e' i*(o' i).getD 0 :=
    Finset.sum_congr rfl fun i hi => by rw [h1 i (Finset.mem_range.mp hi), h2 i (Finset.mem_range.mp hi)]
  simp only [a, b, c]

/-- The radial mean after masking with a mask of zeros and ones, for a map with missing values. -/
theorem radialOf_opt (p : Polar) (a : Arr2 ℝ) (px : ℝ) (M : Arr2 ℝ) (h01 : Mask01 M)
    (f : Arr2 (Option ℝ)) (sigma w : Option (Arr2 ℝ))
    (hf : f.sameShape M) (hs : ∀ s, sigma = some s → s.sameShape M) (hw : ∀ s, w = some s → s.sameShape M)
    (out : Radial) (ho : radialOf p a px M f sigma w = .ok out) :
    out.f = (List.range f.cols).map fun j => meanOrMissing f.rows (effW M w · j)
      (fun i => if M.val i j = 1 then f.val i j else some 0) := by
  have key : ∀ (f' : Arr2 (Option ℝ)) (s' w' c' : Option (Arr2 ℝ)) (l : List (Option ℝ)),
      applyMask M f sigma w = .ok (f', s', w', c') → Radial.polar2radial f' w' = .ok l → out.f = l := by
    intro f' s' w' c' l h1 h2
    unfold radialOf at ho
    rw [h1] at ho
    simp only [bind, Except.bind, pure, Except.pure] at ho
    cases s' with
    | none =>
      simp only [h2, Except.ok.injEq] at ho
      rw [← ho]
    | some sg =>
      simp only at ho
      cases hp : pyAssert (sg.sameShape p.p2d) with
      | error e => rw [hp] at ho; cases ho
      | ok _ =>
        rw [hp] at ho
        simp only [h2] at ho
        cases hq : polar2radialSigma f' a px sg w' with
        | error e => rw [hq] at ho; cases ho
        | ok r =>
          rw [hq] at ho
          simp only [Except.ok.injEq] at ho
          rw [← ho]
  have hfr : f.rows = M.rows := hf.1
  have hfc : f.cols = M.cols := hf.2
  by_cases hall : ∃ i j, i < M.rows ∧ j < M.cols ∧ M.val i j = 0
  · obtain ⟨i0, j0, hi, hj, h0⟩ := hall
    have e := applyMask_some hi hj h0 f hf sigma hs w hw
    rw [key _ _ _ _ _ e (radial_some_opt _ _ ?_)]
    · refine List.map_congr_left fun j hj => ?_
      have hj' := List.mem_range.mp hj
      simp only at hj' ⊢
      refine meanOrMissing_congr ?_ ?_
      · intro i hi
        rcases h01 i j (hfr ▸ hi) (hfc ▸ hj') with h | h <;> cases w <;> simp [h, effW]
      · intro i hi
        rcases h01 i j (hfr ▸ hi) (hfc ▸ hj') with h | h <;> simp [h]
    · cases w with
      | none => exact ⟨hfr.symm, hfc.symm⟩
      | some w => exact ⟨(hw w rfl).1.trans hfr.symm, (hw w rfl).2.trans hfc.symm⟩
  · have h1 : ∀ i j, i < M.rows → j < M.cols → M.val i j = 1 := fun i j hi hj =>
      (h01 i j hi hj).resolve_left fun h => hall ⟨i, j, hi, hj, h⟩
    have e := applyMask_all (fun i j hi hj h => hall ⟨i, j, hi, hj, h⟩) f sigma w
    cases w with
    | none =>
      rw [key _ _ _ _ _ e (radial_none_opt f)]
      refine List.map_congr_left fun j hj => ?_
      have hj' := List.mem_range.mp hj
      refine meanOrMissing_congr ?_ ?_ <;> intro i hi <;> simp [effW, h1 i j (hfr ▸ hi) (hfc ▸ hj')]
    | some w =>
      have hw' := hw w rfl
      rw [key _ _ _ _ _ e (radial_some_opt f w ⟨hw'.1.trans hfr.symm, hw'.2.trans hfc.symm⟩)]
      refine List.map_congr_left fun j hj => ?_
      have hj' := List.mem_range.mp hj
      refine meanOrMissing_congr ?_ ?_ <;> intro i hi <;> simp [effW, h1 i j (hfr ▸ hi) (hfc ▸ hj')]

end Magpie.Box2Ring
