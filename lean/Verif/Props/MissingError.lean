import Verif.Props.MissingSum
import Verif.Spec.MissingError

/-!
# Property C143: a missing error spoils the error of the profile at its radius only

`filled` (missing values replaced by 0) is in `Verif/Spec/MissingError.lean`.
-/

set_option linter.unusedSimpArgs false
set_option linter.unusedVariables false
set_option linter.unusedSectionVars false

namespace Magpie.Props
open Magpie Magpie.Radial Magpie.OneD Magpie.Spec Finset

/-- C143: the errors of `polar2radial` for errors with missing values, with or without weights, can be computed whenever they
can for complete errors. The error of the profile is NaN at the radii where an error is missing; at all other radii it is
what it is if the missing errors are replaced by 0 (so they do not matter). -/
theorem C143_errors (f : Arr2 (Option ℝ)) (area2d : Arr2 ℝ) (pixarea : ℝ) (sigma : Arr2 (Option ℝ))
    (w : Option (Arr2 ℝ)) (r₀ : List (Option ℝ))
    (h : polar2radialSigma f area2d pixarea (filled sigma) w = .ok r₀) :
    ∃ r, polar2radialSigmaN f area2d pixarea sigma w = .ok r ∧ r.length = sigma.cols ∧ r₀.length = sigma.cols ∧
      ∀ j, j < sigma.cols →
        ((∃ i, i < sigma.rows ∧ sigma.val i j = none) → r[j]? = some none) ∧
        ((∀ i, i < sigma.rows → sigma.val i j ≠ none) → r[j]? = r₀[j]?) := by
  unfold polar2radialSigma Arr2.zip filled at h
  unfold polar2radialSigmaN Arr2.zip
  cases w with
  | none =>
    simp only [bind, Except.bind, pure, Except.pure] at h ⊢
    split_ifs at h ⊢ with h1
    simp only [Except.ok.injEq] at h
    obtain ⟨hr, hc⟩ := h1
    refine ⟨_, rfl, by simp [Arr2.sum0, hc], by rw [← h]; simp [Arr2.sum0, hc], fun j hj => ?_⟩
    rw [← h]
    simp only [Arr2.sum0, List.map_map, List.getElem?_map, hc, hr, List.getElem?_range hj, Option.map_some, Function.comp]
    constructor
    · rintro ⟨i, hi, ho⟩
      rw [npSum_none _ (List.mem_map.mpr ⟨i, List.mem_range.mpr hi, by simp [ho]⟩)]
      rfl
    · intro hall
      congr 4
      apply List.map_congr_left
      intro i hi
      cases e : sigma.val i j with
      | none => exact absurd e (hall i (List.mem_range.mp hi))
      | some v => cases fdiv pixarea (area2d.val i j) <;> simp
  | some w =>
    simp only [bind, Except.bind, pure, Except.pure] at h ⊢
    by_cases h1 : w.rows = sigma.rows ∧ w.cols = sigma.cols
    · rw [if_pos h1] at h ⊢
      simp only at h ⊢
      split_ifs at h ⊢ with h2
      simp only [Except.ok.injEq] at h
      obtain ⟨hr, hc⟩ := h1
      obtain ⟨hr', hc'⟩ := h2
      refine ⟨_, rfl, by simp [Arr2.sum0, hc, hc'], by rw [← h]; simp [Arr2.sum0, hc, hc'], fun j hj => ?_⟩
      rw [← h]
      simp only [Arr2.sum0, List.getElem?_zipWith, List.getElem?_map, hc, hr, hc', hr', List.getElem?_range hj,
        Option.map_some]
      constructor
      · rintro ⟨i, hi, ho⟩
        rw [npSum_none _ (List.mem_map.mpr ⟨i, List.mem_range.mpr hi, by simp [ho]⟩)]
        rfl
      · intro hall
        congr 4
        apply List.map_congr_left
        intro i hi
        cases e : sigma.val i j with
        | none => exact absurd e (hall i (List.mem_range.mp hi))
        | some v => cases fdiv pixarea (area2d.val i j) <;> simp
    · rw [if_neg h1] at h
      simp at h

/-- C143: missing values of the map do not matter to the errors, nor do its other values. -/
theorem C143_data (f f' : Arr2 (Option ℝ)) (area2d : Arr2 ℝ) (pixarea : ℝ) (sigma : Arr2 (Option ℝ))
    (w : Option (Arr2 ℝ)) (hf : f.rows = f'.rows) :
    polar2radialSigmaN f area2d pixarea sigma w = polar2radialSigmaN f' area2d pixarea sigma w := by
  unfold polar2radialSigmaN
  rw [hf]

/-- For complete errors the two models agree. -/
theorem C143_complete (f : Arr2 (Option ℝ)) (area2d : Arr2 ℝ) (pixarea : ℝ) (sigma : Arr2 ℝ)
    (w : Option (Arr2 ℝ)) (r₀ : List (Option ℝ)) (h : polar2radialSigma f area2d pixarea sigma w = .ok r₀) :
    polar2radialSigmaN f area2d pixarea ⟨sigma.rows, sigma.cols, fun i j => some (sigma.val i j)⟩ w = .ok r₀ := by
  obtain ⟨r, h1, h2, h3, h4⟩ := C143_errors f area2d pixarea ⟨sigma.rows, sigma.cols, fun i j => some (sigma.val i j)⟩ w r₀
    (by simpa [filled] using h)
  rw [h1]
  congr 1
  apply List.ext_getElem?
  intro j
  rcases Nat.lt_or_ge j sigma.cols with hj | hj
  · exact (h4 j hj).2 (by simp)
  · rw [List.getElem?_eq_none (h2.trans_le hj), List.getElem?_eq_none (h3.trans_le hj)]

/-- Two angles and two radii, one error missing at the second radius: the first error is that of C54. -/
example : ∃ r, polar2radialSigmaN ⟨2, 2, fun _ _ => none⟩ ⟨2, 2, fun _ _ => 1⟩ 2
      ⟨2, 2, fun i j => if i = 0 ∧ j = 1 then none else some 3⟩ none = .ok r ∧
    r[0]? = some (some 3) ∧ r[1]? = some none := by
  obtain ⟨r₀, g1, g2, g3⟩ := C54_formula ⟨2, 2, fun _ _ => none⟩ ⟨2, 2, fun _ _ => 1⟩
    (filled ⟨2, 2, fun i j => if i = 0 ∧ j = 1 then none else some 3⟩) 2 none (fun _ _ => 1) (.inl ⟨rfl, fun _ _ => rfl⟩)
    rfl rfl rfl rfl (by norm_num) (by norm_num)
  obtain ⟨r, h1, h2, h3, h4⟩ := C143_errors _ _ _ _ _ _ g1
  refine ⟨r, h1, ?_, (h4 1 (by norm_num)).1 ⟨0, by norm_num, by simp⟩⟩
  rw [(h4 0 (by norm_num)).2 (by simp), g3 0 (by norm_num) (by simp)]
  simp only [filled, Finset.sum_range_succ, Finset.sum_range_zero]
  norm_num
  rw [show (36 : ℝ) = 6^2 by norm_num, Real.sqrt_sq (by norm_num)]
  norm_num

end Magpie.Props
