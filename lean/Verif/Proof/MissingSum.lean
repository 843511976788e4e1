import Verif.Model.RadialNan
import Verif.Spec.MissingSum

/-!
# Lemmas on running sums of values that may be missing
-/

set_option linter.unusedSimpArgs false

namespace Magpie.Radial
open Finset Magpie.OneD Magpie.Spec

theorem cumsumN_length {K : Type} [Field K] (acc : Option K) (l : List (Option K)) :
    (cumsumN acc l).length = l.length := by
  induction l generalizing acc with
  | nil => rfl
  | cons x l ih => simp [cumsumN, ih]

theorem cumsumN_step {K : Type} [Field K] (acc : Option K) (l : List (Option K)) (k : ℕ) (o s : Option K)
    (ho : l[k]? = some o) (hs : (acc :: cumsumN acc l)[k]? = some s) :
    (acc :: cumsumN acc l)[k+1]? = some (oplus s o) := by
  induction l generalizing acc k with
  | nil => simp at ho
  | cons x l ih =>
    cases k with
    | zero =>
      simp at ho hs
      subst ho hs
      simp [cumsumN]
    | succ k =>
      simp only [List.getElem?_cons_succ, cumsumN] at ho hs ⊢
      exact ih _ k ho hs

theorem sumOrMissing_succ (k : ℕ) (a : ℕ → ℝ) (o : ℕ → Option ℝ) :
    sumOrMissing (k+1) a o = oplus (sumOrMissing k a o) ((o k).map fun v => a k*v) := by
  unfold sumOrMissing
  by_cases h : ∃ i, i < k ∧ o i = none
  · obtain ⟨i, hi, ho⟩ := h
    rw [if_pos ⟨i, hi.trans (Nat.lt_succ_self k), ho⟩, if_pos ⟨i, hi, ho⟩]
    rfl
  · rw [if_neg h]
    cases e : o k with
    | none => rw [if_pos ⟨k, Nat.lt_succ_self k, e⟩]; rfl
    | some v =>
      rw [if_neg, sum_range_succ, e]
      · rfl
      · rintro ⟨i, hi, ho⟩
        rcases Nat.lt_succ_iff_lt_or_eq.mp hi with hi | rfl
        · exact h ⟨i, hi, ho⟩
        · rw [e] at ho; cases ho

theorem sumOrMissing_zero (a : ℕ → ℝ) (o : ℕ → Option ℝ) : sumOrMissing 0 a o = some 0 := by
  simp [sumOrMissing]

theorem runningSumN_get {redges : List ℝ} {N : ℕ} (hr : redges.length = N + 1) (x : List (Option ℝ)) (a : ℕ → ℝ)
    (o : ℕ → Option ℝ) (hl : x.length = N) (hx : ∀ i, i < N → x[i]? = some ((o i).map fun v => a i*v)) :
    (runningSumN redges x).length = N + 1 ∧
      ∀ k, k ≤ N → (runningSumN redges x)[k]? = some (sumOrMissing k a o) := by
  unfold runningSumN
  rw [if_neg (by omega)]
  refine ⟨by simp [cumsumN_length, hl], fun k => ?_⟩
  induction k with
  | zero => intro _; simp [sumOrMissing_zero]
  | succ k ih =>
    intro hk
    rw [cumsumN_step _ _ k _ _ (hx k (by omega)) (ih (by omega)), sumOrMissing_succ]

theorem ringArea_get {redges : List ℝ} {N : ℕ} (hr : redges.length = N + 1) (i : ℕ) (hi : i < N) :
    (ringArea redges)[i]? = some (Real.pi*((redges.getD (i+1) 0)^2 - (redges.getD i 0)^2)) := by
  unfold ringArea
  rw [List.getElem?_zipWith, List.getElem?_dropLast, List.getElem?_tail, hr, if_pos (by omega),
    List.getD_eq_getElem?_getD, List.getD_eq_getElem?_getD,
    List.getElem?_eq_getElem (by omega : i < redges.length),
    List.getElem?_eq_getElem (by omega : i+1 < redges.length)]
  simp only [Option.getD_some]

theorem cumulative_opt (redges : List ℝ) (f : List (Option ℝ)) (sigma : Option (List (Option ℝ))) (N : ℕ)
    (hr : redges.length = N + 1) (hf : f.length = N) (hs : ∀ s, sigma = some s → s.length = N) :
    ∃ c e, cumulativeRadialN redges f sigma = .ok (c, e) ∧ c.length = N + 1 ∧
      (∀ k, k ≤ N → c[k]? = some (sumOrMissing k
        (fun i => Real.pi*((redges.getD (i+1) 0)^2 - (redges.getD i 0)^2)) fun i => f.getD i none)) ∧
      (sigma = none → e = none) ∧
      ∀ s, sigma = some s → ∃ es, e = some es ∧ es.length = N + 1 ∧ ∀ k, k ≤ N →
        es[k]? = some ((sumOrMissing k
          (fun i => (Real.pi*((redges.getD (i+1) 0)^2 - (redges.getD i 0)^2))^2)
          fun i => (s.getD i none).map (·^2)).map Real.sqrt) := by
  have hal : (ringArea redges).length = N := by simp [ringArea, hr]
  have hm : ∀ x : List (Option ℝ), x.length = N → ∀ i, i < N →
      (List.zipWith (fun (a : ℝ) (b : Option ℝ) => b.map fun b => a*b) (ringArea redges) x)[i]?
        = some ((x.getD i none).map fun v => Real.pi*((redges.getD (i+1) 0)^2 - (redges.getD i 0)^2)*v) := by
    intro x hx i hi
    have hx' : x[i]? = some (x.getD i none) := by
      rw [List.getD_eq_getElem?_getD, List.getElem?_eq_getElem (by omega : i < x.length)]; rfl
    rw [List.getElem?_zipWith, ringArea_get hr i hi, hx']
  have h1 := runningSumN_get hr _ _ _ (by simp [hal, hf]) (hm f hf)
  unfold cumulativeRadialN vmulN
  simp only []
  rw [if_pos (by omega)]
  simp only [bind, Except.bind]
  cases sigma with
  | none => exact ⟨_, none, rfl, h1.1, h1.2, fun _ => rfl, fun s h => by simp at h⟩
  | some s =>
    have hsl := hs s rfl
    have h2 := runningSumN_get hr
      ((List.zipWith (fun (a : ℝ) (b : Option ℝ) => b.map fun b => a*b) (ringArea redges) s).map fun o => o.map (·^2))
      (fun i => (Real.pi*((redges.getD (i+1) 0)^2 - (redges.getD i 0)^2))^2) (fun i => (s.getD i none).map (·^2))
      (by simp [hal, hsl]) (fun i hi => by
        rw [List.getElem?_map, hm s hsl i hi]
        simp only [Option.map_some, Option.map_map]
        congr 2
        funext v
        simp only [Function.comp]
        ring)
    refine ⟨_, some _, by simp only []; rw [if_pos (by omega)]; rfl, h1.1, h1.2, fun h => by simp at h, ?_⟩
    intro s' h
    simp only [Option.some.injEq] at h
    subst h
    refine ⟨_, rfl, by rw [List.length_map]; exact h2.1, ?_⟩
    intro k hk
    rw [List.getElem?_map, h2.2 k hk]
    simp only [Option.map_some]
    congr 1
    unfold sumOrMissing
    split_ifs with hmiss
    · rfl
    · simp only [osqrt, Option.bind_some, Option.map_some, npSqrt]
      rw [if_pos]
      refine Finset.sum_nonneg fun i _ => mul_nonneg (sq_nonneg _) ?_
      cases s.getD i none with
      | none => simp
      | some v => simpa using sq_nonneg v

end Magpie.Radial
