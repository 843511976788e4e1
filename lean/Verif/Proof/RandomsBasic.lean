import Verif.Model.RandomsBasic
import Verif.Proof.Grids
import Verif.Proof.Unif
import Mathlib.MeasureTheory.Integral.Bochner.Basic
import Mathlib.MeasureTheory.Integral.Bochner.Set

/-!
# Lemmas for `Verif/Props/Subsample.lean`
-/

set_option linter.unusedSimpArgs false
set_option linter.unusedVariables false
set_option linter.unusedSectionVars false

namespace Magpie.Randoms
open Magpie Magpie.OneD Magpie.Polar Magpie.Radial Finset

/-! ## Gathering -/

theorem gather_ok {α : Type} (l : List α) (idx : List ℕ) (h : ∀ i ∈ idx, i < l.length) :
    ∃ out, gather l idx = .ok out ∧ out.map some = idx.map fun (i : ℕ) => l[i]? := by
  induction idx with
  | nil => exact ⟨[], rfl, rfl⟩
  | cons i idx ih =>
    obtain ⟨r, h1, h2⟩ := ih fun j hj => h j (List.mem_cons_of_mem _ hj)
    have hi := h i List.mem_cons_self
    refine ⟨l[i] :: r, ?_, ?_⟩
    · simp only [gather, List.getElem?_eq_getElem hi, h1]
    · simp [List.getElem?_eq_getElem hi, h2]

theorem map_some_perm {α : Type} {a b : List α} (h : (a.map some).Perm (b.map some)) : a.Perm b := by
  have := h.filterMap id
  simpa [List.filterMap_map] using this

theorem range_map_get {α : Type} (l : List α) :
    (List.range l.length).map (fun (i : ℕ) => l[i]?) = l.map some := by
  apply List.ext_getElem?
  intro i
  by_cases hi : i < l.length
  · simp [hi, List.getElem?_range hi]
  · simp [hi]

theorem gather_perm_range {α : Type} (l : List α) (idx : List ℕ) (h : idx.Perm (List.range l.length)) :
    ∃ out, gather l idx = .ok out ∧ out.Perm l := by
  obtain ⟨out, h1, h2⟩ := gather_ok l idx fun i hi => List.mem_range.mp (h.mem_iff.mp hi)
  refine ⟨out, h1, map_some_perm ?_⟩
  rw [h2, ← range_map_get]
  exact h.map _

/-! ## Cumulative sums and maxima -/

section
variable {K : Type} [Field K] [LinearOrder K] [IsStrictOrderedRing K]

theorem foldl_max_eq (l : List K) (x m : K) (h : ∀ y ∈ x :: l, y ≤ m) (hm : m ∈ x :: l) :
    l.foldl max x = m := by
  induction l generalizing x with
  | nil => exact (List.mem_singleton.mp hm).symm
  | cons y l ih =>
    rw [List.foldl_cons]
    apply ih
    · intro z hz
      rcases List.mem_cons.mp hz with rfl | hz
      · exact max_le (h x List.mem_cons_self) (h y (by simp))
      · exact h z (by simp [hz])
    · rcases List.mem_cons.mp hm with rfl | hm
      · have := h y (by simp)
        rw [max_eq_left this]; exact List.mem_cons_self
      · rcases List.mem_cons.mp hm with rfl | hm
        · have := h x List.mem_cons_self
          rw [max_eq_right this]; exact List.mem_cons_self
        · exact List.mem_cons_of_mem _ hm

/-! ## Linear interpolation -/

theorem takeWhile_mem {α : Type} (p : α → Bool) (l : List α) (i : ℕ)
    (hi : i < (l.takeWhile p).length) : ∃ a, l[i]? = some a ∧ p a = true := by
  induction l generalizing i with
  | nil => simp at hi
  | cons a l ih =>
    by_cases hp : p a
    · simp only [List.takeWhile_cons, hp, if_true, List.length_cons] at hi
      cases i with
      | zero => exact ⟨a, rfl, hp⟩
      | succ i => simpa using ih i (by omega)
    · simp [List.takeWhile_cons, hp] at hi

theorem takeWhile_stop {α : Type} (p : α → Bool) (l : List α) (a : α)
    (h : l[(l.takeWhile p).length]? = some a) : p a = false := by
  induction l with
  | nil => simp at h
  | cons b l ih =>
    by_cases hp : p b
    · simp only [List.takeWhile_cons, hp, if_true, List.length_cons, List.getElem?_cons_succ] at h
      exact ih h
    · simp only [List.takeWhile_cons, hp, Bool.false_eq_true, if_false, List.length_nil,
        List.getElem?_cons_zero, Option.some.injEq] at h
      subst h; simpa using hp

/-- The interpolated value for a variate, on a table that starts at 0 and ends at 1. -/
theorem interp_eq (c x : List K) (n : ℕ) (hc : c.length = n + 1) (hx : x.length = n + 1)
    (h0 : c.getD 0 0 = 0) (h1 : c.getD n 0 = 1) (u : K) (hu0 : 0 ≤ u) (hu1 : u < 1) :
    ∃ j, j < n ∧ c.getD j 0 ≤ u ∧ u < c.getD (j+1) 0 ∧
      interpLinear c x u = .ok ((x.getD (j+1) 0 - x.getD j 0)/(c.getD (j+1) 0 - c.getD j 0)
        *(u - c.getD j 0) + x.getD j 0) := by
  have gc : ∀ k, k ≤ n → c[k]? = some (c.getD k 0) := by
    intro k hk
    rw [List.getD_eq_getElem?_getD, List.getElem?_eq_getElem (by omega)]; rfl
  have gx : ∀ k, k ≤ n → x[k]? = some (x.getD k 0) := by
    intro k hk
    rw [List.getD_eq_getElem?_getD, List.getElem?_eq_getElem (by omega)]; rfl
  set m := (c.takeWhile fun x => decide (x ≤ u)).length with hm
  have hmle : m ≤ n := by
    by_contra hcon
    obtain ⟨a, ha, hp⟩ := takeWhile_mem (fun x => decide (x ≤ u)) c n (by omega)
    rw [gc n le_rfl, h1] at ha
    simp only [Option.some.injEq] at ha
    subst ha
    simp only [decide_eq_true_eq] at hp
    linarith
  have hm1 : 1 ≤ m := by
    by_contra hcon
    have hz : m = 0 := by omega
    have := takeWhile_stop (fun x => decide (x ≤ u)) c (c.getD 0 0) (by
      rw [← hm, hz]; exact gc 0 (by omega))
    rw [h0] at this
    simp only [decide_eq_false_iff_not] at this
    exact this hu0
  obtain ⟨j, hj⟩ : ∃ j, m = j + 1 := ⟨m - 1, by omega⟩
  have hle : c.getD j 0 ≤ u := by
    obtain ⟨a, ha, hp⟩ := takeWhile_mem (fun x => decide (x ≤ u)) c j (by omega)
    rw [gc j (by omega)] at ha
    simp only [Option.some.injEq] at ha
    subst ha
    simpa using hp
  have hlt : u < c.getD (j+1) 0 := by
    have := takeWhile_stop (fun x => decide (x ≤ u)) c (c.getD (j+1) 0) (by
      rw [← hm, hj]; exact gc (j+1) (by omega))
    simpa using this
  refine ⟨j, by omega, hle, hlt, ?_⟩
  have hlast : c.getLast? = some (c.getD n 0) := by
    rw [List.getLast?_eq_getElem?, hc, Nat.add_sub_cancel]; exact gc n le_rfl
  unfold interpLinear
  simp only [pyGet, pyLast, gc 0 (by omega), hlast, bind, Except.bind, h0, h1]
  rw [if_neg (by push Not; exact ⟨hu0, hu1.le⟩)]
  simp only [← hm, hj, Nat.add_sub_cancel, gc j (by omega), gx j (by omega), hc]
  by_cases he : c.getD j 0 = u
  · rw [if_pos (Or.inr he)]
    simp only [pure, Except.pure]
    congr 1
    rw [he]; ring
  · rw [if_neg (by push Not; exact ⟨by omega, he⟩)]
    simp only [gc (j+1) (by omega), gx (j+1) (by omega)]
    rfl

end

/-! ## Probability -/

open MeasureTheory Set in
theorem unif_sandwich {P : ℝ → Prop} {F : ℝ} (h0 : 0 ≤ F) (h1 : F ≤ 1)
    (ha : ∀ u, 0 ≤ u → u < 1 → u < F → P u) (hb : ∀ u, 0 ≤ u → u < 1 → P u → u ≤ F) :
    Spec.unif {u | P u} = ENNReal.ofReal F := by
  apply le_antisymm
  · rw [← Spec.unif_cdf (P := fun u => u ≤ F) h0 h1 fun _ _ _ => Iff.rfl]
    unfold Spec.unif
    rw [Measure.restrict_apply' measurableSet_Ico, Measure.restrict_apply' measurableSet_Ico]
    apply measure_mono
    rintro u ⟨hp, hu⟩
    exact ⟨hb u hu.1 hu.2 hp, hu⟩
  · rw [← Spec.unif_cdf_lt (P := fun u => u < F) h0 h1 fun _ _ _ => Iff.rfl]
    unfold Spec.unif
    rw [Measure.restrict_apply' measurableSet_Ico, Measure.restrict_apply' measurableSet_Ico]
    apply measure_mono
    rintro u ⟨hp, hu⟩
    exact ⟨ha u hu.1 hu.2 hp, hu⟩

open MeasureTheory Set in
/-- The mean of a variable that is `a` for `u < t` and `b` otherwise. -/
theorem integral_two (t a b : ℝ) (h0 : 0 ≤ t) (h1 : t ≤ 1) :
    ∫ u, (if u < t then a else b) ∂Spec.unif = t*a + (1-t)*b := by
  have e : ∀ u : ℝ, (if u < t then a else b) = b + (Iio t).indicator (fun _ => a - b) u := by
    intro u
    by_cases h : u < t <;> simp [h]
  simp only [e]
  have hm : Spec.unif (Iio t) = ENNReal.ofReal t :=
    Spec.unif_cdf_lt (P := fun u => u < t) h0 h1 fun _ _ _ => Iff.rfl
  rw [integral_add (integrable_const b)
    ((integrable_const (a - b)).indicator measurableSet_Iio), integral_const,
    integral_indicator_const _ measurableSet_Iio]
  simp only [measureReal_def, measure_univ, hm, ENNReal.toReal_one, one_smul, smul_eq_mul,
    ENNReal.toReal_ofReal h0]
  ring

end Magpie.Randoms
