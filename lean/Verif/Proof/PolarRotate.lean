import Verif.Model.PolarRotate
import Mathlib.Data.List.Rotate
import Mathlib.Tactic.Module

set_option linter.unusedSimpArgs false
set_option linter.unusedVariables false

namespace Magpie.Polar
open Real
variable {V : Type} [AddCommGroup V] [Module ℝ V]

/-- Edges of `n` equal bins covering the full circle from `a`. -/
noncomputable def circleEdges (a : ℝ) (n : ℕ) : List ℝ :=
  (List.range (n+1)).map fun (k : ℕ) => a + (k:ℝ)*(2*π/n)

theorem sliceBound_neg {n k : ℕ} (h : 1 ≤ k) : sliceBound n (-(k:ℤ)) = n - k := by
  unfold sliceBound
  rw [if_pos (by omega)]; omega

theorem sliceBound_pos {n k : ℕ} : sliceBound n (k:ℤ) = min k n := by
  unfold sliceBound
  rw [if_neg (by omega)]; simp

omit [Module ℝ V] in
/-- The copied slices are the cyclic shift. -/
theorem slices_rotate (f : List V) {k : ℕ} (h1 : 1 ≤ k) (h2 : k ≤ f.length) :
    (assignFrom (List.replicate f.length (0:V)) (-(k:ℤ)) (sliceTo f k) >>= fun r =>
      assignTo r (-(k:ℤ)) (sliceFrom f k)) = .ok (f.rotate k) := by
  unfold assignFrom assignTo sliceTo sliceFrom
  simp only [List.length_replicate, sliceBound_neg h1, sliceBound_pos, Nat.min_eq_left h2,
    List.length_take, List.length_drop, bind, Except.bind]
  rw [if_pos (by omega)]
  simp only [List.length_append, List.length_take, List.length_replicate, sliceBound_neg h1]
  have e : min (f.length - k) f.length + min k f.length = f.length := by omega
  rw [e]
  rw [if_pos (by omega)]
  congr 1
  rw [List.rotate_eq_drop_append_take h2]
  congr 1
  rw [List.drop_append_of_le_length (by simp)]
  rw [List.drop_eq_nil_of_le (by simp)]; simp

theorem blend_eq (g : List V) (w : ℝ) (hg : g ≠ []) :
    assignTo g (-1) (List.zipWith (fun a b => w • a + (1 - w) • b) (sliceTo g (-1)) (sliceFrom g 1))
      = .ok (List.zipWith (fun a b => w • a + (1 - w) • b) g.dropLast g.tail ++ [g.getLast hg]) := by
  have hl : 1 ≤ g.length := List.length_pos_of_ne_nil hg
  have b1 : sliceBound g.length (-1) = g.length - 1 := by
    have := sliceBound_neg (n := g.length) (k := 1) le_rfl
    simpa using this
  have b2 : sliceBound g.length 1 = 1 := by
    have := sliceBound_pos (n := g.length) (k := 1)
    simp only [Nat.cast_one] at this
    rw [this]; omega
  have e1 : sliceTo g (-1) = g.dropLast := by
    unfold sliceTo; rw [b1, List.dropLast_eq_take]
  have e2 : sliceFrom g 1 = g.tail := by
    unfold sliceFrom; rw [b2, List.drop_one]
  have e3 : sliceFrom g (-1) = [g.getLast hg] := by
    unfold sliceFrom; rw [b1, List.drop_length_sub_one hg]
  unfold assignTo
  rw [e1, e2, e3, if_pos]
  simp

theorem circle_get (a : ℝ) (n : ℕ) (hn : 1 ≤ n) :
    pyGet (circleEdges a n) 1 = .ok (a + 2*π/n) ∧ pyGet (circleEdges a n) 0 = .ok a ∧
      pyLast (circleEdges a n) = .ok (a + 2*π) := by
  have hn' : (n:ℝ) ≠ 0 := by positivity
  refine ⟨?_, ?_, ?_⟩
  · unfold pyGet circleEdges
    rw [List.getElem?_map, List.getElem?_range (by omega)]; simp
  · unfold pyGet circleEdges
    rw [List.getElem?_map, List.getElem?_range (by omega)]; simp
  · unfold pyLast circleEdges
    rw [List.range_succ, List.map_append]
    simp only [List.map_cons, List.map_nil, List.getLast?_append, List.getLast?_singleton,
      Option.some_or]
    congr 2
    field_simp

/-- What `rotate_polar_grid` computes on a full-circle grid. -/
theorem rotatePolarGrid_eq (a : ℝ) (f : List V) (s : ℝ) (hs : 0 < s) (hs2 : s < 2*π)
    (hf : 1 ≤ f.length) (k : ℕ) (w : ℝ) (hw0 : 0 ≤ w) (hw1 : w < 1)
    (hsk : s = (k + w)*(2*π/f.length)) :
    ∃ r : List V, ∃ hr : r.length = f.length,
      rotatePolarGrid (circleEdges a f.length) f s = .ok ⟨r, if k ≠ 0 then f else r⟩ ∧
      (∀ i (hi : i + 1 < f.length), r[i] = w • (f.rotate k)[i]'(by simp; omega)
        + (1 - w) • (f.rotate k)[i+1]'(by simp; omega)) ∧
      r[f.length-1] = w • (f.rotate k)[f.length-1]'(by simp; omega)
        + (1 - w) • r[0] := by
  have hpi := pi_pos
  have hn : (0:ℝ) < f.length := by exact_mod_cast hf
  obtain ⟨c1, c0, cl⟩ := circle_get a f.length hf
  have hdp : a + 2*π/f.length - a = 2*π/f.length := by ring
  have hdp0 : 2*π/f.length ≠ 0 := by positivity
  have hdiv : s / (2*π/f.length) = k + w := by rw [hsk]; field_simp
  have hfl : ⌊s / (2*π/f.length)⌋ = (k:ℤ) := by
    rw [hdiv, Int.floor_eq_iff]; push_cast; constructor <;> linarith
  have hkn : k < f.length := by
    have h1 : s < f.length*(2*π/f.length) := by field_simp; linarith
    rw [hsk] at h1
    have h2 : (k:ℝ) + w < f.length := lt_of_mul_lt_mul_right h1 (by positivity)
    have : (k:ℝ) < f.length := by linarith
    exact_mod_cast this
  have hwe : s / (2*π/f.length) - ((k:ℤ):ℝ) = w := by rw [hdiv]; push_cast; ring
  set g := f.rotate k with hg
  have hgl : g.length = f.length := by simp [hg]
  have hgne : g ≠ [] := by
    intro h; rw [h] at hgl; simp at hgl; omega
  have hrot : (if (k:ℤ) ≠ 0 then do
        let rot := List.replicate f.length (0 : V)
        let rot ← assignFrom rot (-(k:ℤ)) (sliceTo f k)
        let rot ← assignTo rot (-(k:ℤ)) (sliceFrom f k)
        pure rot
      else pure f : Py (List V)) = .ok g := by
    by_cases hk : k = 0
    · subst hk; simp [hg, pure, Except.pure]
    · rw [if_pos (by exact_mod_cast hk)]
      have := slices_rotate f (k := k) (by omega) hkn.le
      simp only [bind, Except.bind, pure, Except.pure] at this ⊢
      revert this
      cases assignFrom (List.replicate f.length (0:V)) (-(k:ℤ)) (sliceTo f k) with
      | error e => intro h; cases h
      | ok v => 
        simp only
        intro h; rw [h]
  set h1 := List.zipWith (fun a b => w • a + (1 - w) • b) g.dropLast g.tail with hh1
  set b := h1 ++ [g.getLast hgne] with hb
  have hh1l : h1.length = f.length - 1 := by simp [hh1, hgl]
  have hbl : b.length = f.length := by simp [hb, hh1l]; omega
  have hlast : pyLast b = .ok (g.getLast hgne) := by
    unfold pyLast; rw [hb]; simp
  have hfirst : pyGet b 0 = .ok (b[0]'(by omega)) := by
    unfold pyGet; rw [List.getElem?_eq_getElem (by omega)]
  set r := b.set (b.length - 1) (w • g.getLast hgne + (1 - w) • b[0]'(by omega)) with hr
  have hrl : r.length = f.length := by simp [hr, hbl]
  have hgLast : g.getLast hgne = g[f.length-1]'(by omega) := by
    rw [List.getLast_eq_getElem]; congr 1; omega
  refine ⟨r, hrl, ?_, ?_, ?_⟩
  · unfold rotatePolarGrid pyAssert
    rw [if_pos hs, if_pos hs2, c1, c0]
    simp only [bind, Except.bind]
    rw [hdp, if_neg hdp0, hfl, hwe]
    have hrot' := hrot
    simp only [bind, Except.bind] at hrot'
    rw [hrot']
    simp only []
    rw [blend_eq g w hgne, cl]
    simp only []
    rw [hlast, hfirst]
    simp only []
    rw [if_pos (by ring)]
    simp only [pure, Except.pure]
    congr 2
    by_cases hk : k = 0
    · rw [if_neg (by simp [hk]), if_neg (by simp [hk])]
    · rw [if_pos hk, if_pos (by exact_mod_cast hk)]
  · intro i hi
    simp only [hr]
    rw [List.getElem_set_ne (by omega)]
    simp only [hb]
    rw [List.getElem_append_left (by omega)]
    simp only [hh1, List.getElem_zipWith, List.getElem_dropLast, List.getElem_tail]
    rfl
  · have e0 : r[0]'(by omega) = b[0]'(by omega) ∨ f.length = 1 := by
      by_cases h : f.length = 1
      · exact Or.inr h
      · left; simp only [hr]; rw [List.getElem_set_ne (by omega)]
    have el : r[f.length-1]'(by omega) = w • g.getLast hgne + (1 - w) • b[0]'(by omega) := by
      simp only [hr, hbl]
      rw [List.getElem_set_self]
    rw [el, hgLast]
    rcases e0 with e | e
    · rw [e]
    · have hb0 : b[0]'(by omega) = g[f.length-1]'(by omega) := by
        rw [← hgLast]
        simp only [hb]
        rw [List.getElem_append_right (by omega)]; simp
      have hr0 : r[0]'(by omega) = w • g[f.length-1]'(by omega) + (1 - w) • b[0]'(by omega) := by
        have : r[0]'(by omega) = r[f.length-1]'(by omega) := by congr 1; omega
        rw [this, el, hgLast]
      rw [hr0, hb0]
      module

end Magpie.Polar
