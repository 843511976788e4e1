import Verif.Proof.MissingSum
import Verif.Props.MissingRing
import Verif.Props.Grids

/-!
# Property C142: a missing ring spoils the running integral from there on, and nowhere else

`sumOrMissing` is defined in `Verif/Spec/MissingSum.lean`. A missing value (NaN) is `none`.
-/

set_option linter.unusedSimpArgs false
set_option linter.unusedVariables false
set_option linter.unusedSectionVars false

namespace Magpie.Props
open Magpie Magpie.Radial Magpie.OneD Magpie.Spec Finset

/-- C142: `cumulative_radial` of a profile and errors with missing values. The integral up to edge `k` is the sum over the
rings below `k`, and missing if and only if the profile is missing in one of them; the error is the root of the sum of the
squared ring errors, and missing if and only if an error below `k` is missing. Missing values of the profile do not matter
to the errors, nor the other way round. -/
theorem C142_running (redges : List ℝ) (f : List (Option ℝ)) (sigma : Option (List (Option ℝ))) (N : ℕ)
    (hr : redges.length = N + 1) (hf : f.length = N) (hs : ∀ s, sigma = some s → s.length = N) :
    ∃ c e, cumulativeRadialN redges f sigma = .ok (c, e) ∧ c.length = N + 1 ∧
      (∀ k, k ≤ N → c[k]? = some (sumOrMissing k
        (fun i => Real.pi*((redges.getD (i+1) 0)^2 - (redges.getD i 0)^2)) fun i => f.getD i none)) ∧
      (sigma = none → e = none) ∧
      ∀ s, sigma = some s → ∃ es, e = some es ∧ es.length = N + 1 ∧ ∀ k, k ≤ N →
        es[k]? = some ((sumOrMissing k
          (fun i => (Real.pi*((redges.getD (i+1) 0)^2 - (redges.getD i 0)^2))^2)
          fun i => (s.getD i none).map (·^2)).map Real.sqrt) :=
  cumulative_opt redges f sigma N hr hf hs

/-- C142, read off: the integral is NaN exactly beyond the first missing ring. -/
theorem C142_missing (redges : List ℝ) (f : List (Option ℝ)) (sigma : Option (List (Option ℝ)))
    (hr : redges.length = f.length + 1) (hs : ∀ s, sigma = some s → s.length = f.length) :
    ∃ c e, cumulativeRadialN redges f sigma = .ok (c, e) ∧
      (∀ k, k ≤ f.length → (c[k]? = some none ↔ ∃ i, i < k ∧ f[i]? = some none)) ∧
      ∀ s es, sigma = some s → e = some es →
        ∀ k, k ≤ f.length → (es[k]? = some none ↔ ∃ i, i < k ∧ s[i]? = some none) := by
  obtain ⟨c, e, h1, h2, h3, h4, h5⟩ := cumulative_opt redges f sigma f.length hr rfl hs
  have get : ∀ (l : List (Option ℝ)) i, i < l.length → (l.getD i none = none ↔ l[i]? = some none) := by
    intro l i hi
    simp [List.getD_eq_getElem?_getD, hi]
  refine ⟨c, e, h1, fun k hk => ?_, fun s es hs' he k hk => ?_⟩
  · rw [h3 k hk, Option.some.injEq]
    unfold sumOrMissing
    split_ifs with h
    · obtain ⟨i, hi, ho⟩ := h
      exact ⟨fun _ => ⟨i, hi, (get f i (by omega)).mp ho⟩, fun _ => rfl⟩
    · refine ⟨fun h' => by simp at h', ?_⟩
      rintro ⟨i, hi, ho⟩
      exact absurd ⟨i, hi, (get f i (by omega)).mpr ho⟩ h
  · obtain ⟨es', g1, g2, g3⟩ := h5 s hs'
    obtain rfl : es = es' := Option.some.inj (he.symm.trans g1)
    have hsl := hs s hs'
    rw [g3 k hk, Option.some.injEq]
    unfold sumOrMissing
    split_ifs with h
    · obtain ⟨i, hi, ho⟩ := h
      refine ⟨fun _ => ⟨i, hi, (get s i (by omega)).mp (by simpa using ho)⟩, fun _ => rfl⟩
    · refine ⟨fun h' => by simp at h', ?_⟩
      rintro ⟨i, hi, ho⟩
      exact absurd ⟨i, hi, by beta_reduce; rw [(get s i (by omega)).mpr ho]; rfl⟩ h

/-- The second of three rings is missing: the integral is known up to the second edge. -/
example : ∃ c, cumulativeRadialN [0, 1, 2, 3] [some 1, none, some 5] none = .ok (c, none) ∧
    c[1]? = some (some Real.pi) ∧ c[2]? = some none ∧ c[3]? = some none := by
  obtain ⟨c, e, h1, _, h3, h4, _⟩ := C142_running [0, 1, 2, 3] [some 1, none, some 5] none 3 rfl rfl (by simp)
  rw [h4 rfl] at h1
  refine ⟨c, h1, ?_, ?_, ?_⟩
  · rw [h3 1 (by norm_num)]
    unfold sumOrMissing
    rw [if_neg]
    · norm_num
    · rintro ⟨i, hi, ho⟩
      obtain rfl : i = 0 := by omega
      simp at ho
  · rw [h3 2 (by norm_num)]
    unfold sumOrMissing
    rw [if_pos ⟨1, by norm_num, rfl⟩]
  · rw [h3 3 (by norm_num)]
    unfold sumOrMissing
    rw [if_pos ⟨1, by norm_num, rfl⟩]

/-- For a complete profile the two models of `cumulative_radial` agree. -/
theorem C142_complete (redges f : List ℝ) (sigma : Option (List ℝ)) (hr : redges.length = f.length + 1)
    (hs : ∀ s, sigma = some s → s.length = f.length) :
    ∃ c e, cumulativeRadial redges f sigma = .ok (c, e) ∧
      cumulativeRadialN redges (f.map some) (sigma.map (·.map some)) = .ok (c.map some, e) := by
  obtain ⟨c, e, h1, h2, h3, h4, h5⟩ := C55_running redges f sigma f.length hr rfl hs
  obtain ⟨c', e', g1, g2, g3, g4, g5⟩ := cumulative_opt redges (f.map some) (sigma.map (·.map some)) f.length hr (by simp)
    (by intro s h; cases sigma with
        | none => simp at h
        | some t => simp only [Option.map_some, Option.some.injEq] at h; subst h; simpa using hs t rfl)
  have get : ∀ (l : List ℝ) i, i < l.length → (l.map some).getD i none = some (l.getD i 0) := by
    intro l i hi
    simp [List.getD_eq_getElem?_getD, hi]
  have sm : ∀ (l : List ℝ), l.length = f.length → ∀ (a : ℕ → ℝ) (g : ℝ → ℝ) k, k ≤ f.length →
      sumOrMissing k a (fun i => ((l.map some).getD i none).map g)
        = some (∑ i ∈ range k, a i*g (l.getD i 0)) := by
    intro l hl a g k hk
    unfold sumOrMissing
    rw [if_neg]
    · congr 1
      refine Finset.sum_congr rfl fun i hi => ?_
      beta_reduce
      rw [get l i (by have := Finset.mem_range.mp hi; omega)]
      rfl
    · rintro ⟨i, hi, ho⟩
      beta_reduce at ho
      rw [get l i (by omega)] at ho
      simp at ho
  refine ⟨c, e, h1, ?_⟩
  rw [g1]
  have hc : c' = c.map some := by
    apply List.ext_getElem?
    intro k
    rcases Nat.lt_or_ge k (f.length + 1) with hk | hk
    · have := sm f rfl (fun i => Real.pi*((redges.getD (i+1) 0)^2 - (redges.getD i 0)^2)) id k (by omega)
      simp only [Option.map_id, id] at this
      rw [List.getElem?_map, h3 k (by omega), g3 k (by omega), this]
      rfl
    · rw [List.getElem?_eq_none (by omega), List.getElem?_eq_none (by simp; omega)]
  have he : e' = e := by
    cases sigma with
    | none => rw [h4 rfl, g4 rfl]
    | some s =>
      obtain ⟨es, a1, a2, a3⟩ := h5 s rfl
      obtain ⟨es', b1, b2, b3⟩ := g5 (s.map some) rfl
      rw [a1, b1]
      congr 1
      apply List.ext_getElem?
      intro k
      rcases Nat.lt_or_ge k (f.length + 1) with hk | hk
      · rw [a3 k (by omega), b3 k (by omega), sm s (hs s rfl) _ (·^2) k (by omega)]
        simp only [Option.map_some, mul_pow]
      · rw [List.getElem?_eq_none (by omega), List.getElem?_eq_none (by omega)]
  rw [hc, he]

/-- C142 from the map: the running integral of the profile of a polar map is NaN at edge `k` exactly if a pixel at a radius
below this edge is missing. -/
theorem C142_map (redges : List ℝ) (f : Arr2 (Option ℝ)) (hr : redges.length = f.cols + 1) (hrows : 0 < f.rows) :
    ∃ p c, Radial.polar2radial f none = .ok p ∧ cumulativeRadialN redges p none = .ok (c, none) ∧
      ∀ k, k ≤ f.cols → (c[k]? = some none ↔ ∃ i j, i < f.rows ∧ j < k ∧ f.val i j = none) := by
  have hp := C140_profile f
  obtain ⟨c, e, h1, h2, h3, h4, _⟩ := cumulative_opt redges _ none f.cols hr
    (by simp : ((List.range f.cols).map fun j =>
      meanOrMissing f.rows (fun _ => 1) (fun i => f.val i j)).length = f.cols) (by simp)
  rw [h4 rfl] at h1
  refine ⟨_, c, hp, h1, fun k hk => ?_⟩
  have hcol : ∀ j, j < f.cols → (((List.range f.cols).map fun j =>
      meanOrMissing f.rows (fun _ => 1) (fun i => f.val i j)).getD j none = none ↔ ∃ i, i < f.rows ∧ f.val i j = none) := by
    intro j hj
    rw [List.getD_eq_getElem?_getD, List.getElem?_map, List.getElem?_range hj]
    simp only [Option.map_some, Option.getD_some]
    unfold meanOrMissing
    have : ∑ i ∈ range f.rows, (1 : ℝ) ≠ 0 := by simp; omega
    split_ifs with h'
    · exact ⟨fun _ => h'.resolve_right this, fun _ => rfl⟩
    · exact ⟨fun h => by simp at h, fun h => absurd (Or.inl h) h'⟩
  rw [h3 k hk, Option.some.injEq]
  unfold sumOrMissing
  split_ifs with h
  · obtain ⟨j, hj, ho⟩ := h
    obtain ⟨i, hi, hv⟩ := (hcol j (by omega)).mp ho
    exact ⟨fun _ => ⟨i, j, hi, hj, hv⟩, fun _ => rfl⟩
  · refine ⟨fun h' => by simp at h', ?_⟩
    rintro ⟨i, j, hi, hj, hv⟩
    exact absurd ⟨j, hj, (hcol j (by omega)).mpr ⟨i, hi, hv⟩⟩ h

/-- A map of two angles and three radii with one pixel missing at the second radius. -/
example : ∃ p c, Radial.polar2radial (⟨2, 3, fun i j => if i = 1 ∧ j = 1 then none else some 2⟩ : Arr2 (Option ℝ)) none = .ok p ∧
    cumulativeRadialN [0, 1, 2, 3] p none = .ok (c, none) ∧ c[1]? ≠ some none ∧ c[2]? = some none := by
  obtain ⟨p, c, h1, h2, h3⟩ := C142_map [0, 1, 2, 3]
    (⟨2, 3, fun i j => if i = 1 ∧ j = 1 then none else some 2⟩ : Arr2 (Option ℝ)) rfl (by norm_num)
  refine ⟨p, c, h1, h2, ?_, ?_⟩
  · rw [Ne, h3 1 (by norm_num)]
    rintro ⟨i, j, hi, hj, hv⟩
    obtain rfl : j = 0 := by omega
    simp at hv
  · exact (h3 2 (by norm_num)).mpr ⟨1, 1, by norm_num, by norm_num, by simp⟩

end Magpie.Props
