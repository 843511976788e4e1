import Verif.Proof.RemapExact
import Mathlib.Algebra.BigOperators.Intervals
import Mathlib.Tactic.FieldSimp

set_option linter.unusedSimpArgs false
set_option linter.unusedVariables false
set_option linter.unusedSectionVars false

namespace Magpie.Remap
open Magpie.Spec Finset

variable {K : Type} [Field K] [LinearOrder K] [IsStrictOrderedRing K] [FloorRing K]

theorem overlap_inside {a b c d : K} (h1 : c ≤ a) (h2 : b ≤ d) (h : a ≤ b) : overlap a b c d = b - a := by
  unfold overlap
  rw [min_eq_left h2, max_eq_left h1, max_eq_right (by linarith)]

theorem overlap_apart {a b c d : K} (h : b ≤ c ∨ d ≤ a) : overlap a b c d = 0 := by
  unfold overlap
  refine max_eq_left ?_
  rcases h with h | h
  · have := min_le_left b d
    have := le_max_right a c
    linarith
  · have := min_le_right b d
    have := le_max_left a c
    linarith

/-- Shares of the input cells in an output cell that is `r` input cells wide. -/
theorem cellFrac_coarsen {o L : K} (hL : 0 < L) {n r : ℕ} (hn : 0 < n) (hr : 0 < r) (k j : ℕ) :
    cellFrac (⟨o, L, n*r⟩ : Axis K) ⟨o, L, n⟩ k j = if k / r = j then 1/(r:K) else 0 := by
  have hn' : (0:K) < n := by exact_mod_cast hn
  have hr' : (0:K) < r := by exact_mod_cast hr
  unfold cellFrac cellOverlap Axis.edge Axis.dx
  simp only
  set w : K := L/((n*r : ℕ) : K) with hw
  have hw0 : 0 < w := by rw [hw]; push_cast; positivity
  have e : L/(n:K) = r*w := by rw [hw]; push_cast; field_simp
  rw [e]
  have h1 : (k / r) * r ≤ k := Nat.div_mul_le_self k r
  have h2 : k < (k / r + 1) * r := by
    have := Nat.lt_div_mul_add (a := k) hr; rw [add_mul, one_mul]; exact this
  split_ifs with h
  · subst h
    have c1 : ((k/r : ℕ) : K)*r ≤ k := by exact_mod_cast h1
    have c2 : (k:K) + 1 ≤ (((k/r : ℕ) : K) + 1)*r := by exact_mod_cast h2
    rw [overlap_inside]
    · push_cast; field_simp; ring
    · nlinarith
    · push_cast; nlinarith
    · push_cast; nlinarith
  · rw [overlap_apart, zero_div]
    rcases Nat.lt_or_gt_of_ne h with h | h
    · left
      have : k + 1 ≤ j*r := by
        have : (k/r + 1)*r ≤ j*r := Nat.mul_le_mul_right r h
        omega
      have c : (k:K) + 1 ≤ j*r := by exact_mod_cast this
      push_cast; nlinarith
    · right
      have : (j+1)*r ≤ k := le_trans (Nat.mul_le_mul_right r h) h1
      have c : ((j:K)+1)*r ≤ k := by exact_mod_cast this
      push_cast; nlinarith

/-- Coarsening by a factor `r`: the mean of the `r` cells. -/
theorem exact1_coarsen {o L : K} (hL : 0 < L) {n r : ℕ} (hn : 0 < n) (hr : 0 < r) (f : ℕ → K) {j : ℕ}
    (hj : j < n) :
    exact1 (⟨o, L, n*r⟩ : Axis K) ⟨o, L, n⟩ f j = (∑ i ∈ range r, f (j*r + i))/r := by
  unfold exact1
  simp only [cellFrac_coarsen hL hn hr, mul_ite, mul_zero]
  rw [← sum_filter]
  have hs : (range (n*r)).filter (fun k => k / r = j) = Ico (j*r) (j*r + r) := by
    ext k
    rw [mem_filter, mem_range, mem_Ico, Nat.div_eq_iff hr]
    have : (j+1)*r ≤ n*r := Nat.mul_le_mul_right r hj
    rw [add_mul, one_mul] at this
    omega
  rw [hs, sum_Ico_eq_sum_range, sum_div]
  simp only [add_tsub_cancel_left, mul_one_div]

/-- Shares of the input cells in one of the `r` parts of an input cell. -/
theorem cellFrac_refine {o L : K} (hL : 0 < L) {n r : ℕ} (hn : 0 < n) (hr : 0 < r) (k j : ℕ) :
    cellFrac (⟨o, L, n⟩ : Axis K) ⟨o, L, n*r⟩ k j = if j / r = k then 1 else 0 := by
  have hr' : (0:K) < r := by exact_mod_cast hr
  have hn' : (0:K) < n := by exact_mod_cast hn
  have h := cellFrac_coarsen (K := K) (o := o) hL hn hr j k
  unfold cellFrac cellOverlap at h ⊢
  rw [overlap_comm]
  have e : Axis.dx (⟨o, L, n⟩ : Axis K) = r*Axis.dx (⟨o, L, n*r⟩ : Axis K) := by
    unfold Axis.dx; push_cast; field_simp
  have hp : Axis.dx (⟨o, L, n*r⟩ : Axis K) ≠ 0 := by
    unfold Axis.dx; push_cast; positivity
  rw [e] at h
  split_ifs at h ⊢ with hc
  · rw [div_eq_iff (by positivity)] at h
    rw [h]; field_simp
  · rw [div_eq_zero_iff] at h
    rcases h with h | h
    · rw [h, zero_div]
    · exact absurd h (by positivity)

/-- Refining by a factor `r`: the value of the cell. -/
theorem exact1_refine {o L : K} (hL : 0 < L) {n r : ℕ} (hn : 0 < n) (hr : 0 < r) (f : ℕ → K) {j : ℕ}
    (hj : j < n*r) : exact1 (⟨o, L, n⟩ : Axis K) ⟨o, L, n*r⟩ f j = f (j / r) := by
  unfold exact1
  simp only [cellFrac_refine hL hn hr, mul_ite, mul_zero, mul_one]
  rw [sum_ite_eq, if_pos]
  rw [mem_range]; exact Nat.div_lt_of_lt_mul (by rwa [mul_comm])

/-- Output cells of the same width, `s` cells further on. -/
theorem cellFrac_crop {A B : Axis K} (hA : A.Valid) (hdx : B.dx = A.dx) (s : ℤ) (hlo : B.lo = A.lo + s*A.dx) (k j : ℕ) :
    cellFrac A B k j = if (k:ℤ) = j + s then 1 else 0 := by
  have hd := dx_pos hA
  unfold cellFrac cellOverlap Axis.edge
  rw [hdx, hlo]
  split_ifs with h
  · have c : (k:K) = j + s := by exact_mod_cast congrArg (Int.cast : ℤ → K) h
    rw [overlap_inside]
    · push_cast; field_simp; ring
    · rw [c]; exact le_of_eq (by ring)
    · push_cast; rw [c]; exact le_of_eq (by ring)
    · push_cast; nlinarith
  · rw [overlap_apart, zero_div]
    rcases lt_or_gt_of_ne h with h | h
    · left
      have c : (k:K) + 1 ≤ j + s := by exact_mod_cast h
      push_cast; nlinarith
    · right
      have c : (j:K) + s + 1 ≤ k := by exact_mod_cast h
      push_cast; nlinarith

/-- Cutting out or padding by whole cells. -/
theorem exact1_crop {A B : Axis K} (hA : A.Valid) (hdx : B.dx = A.dx) (s : ℤ) (hlo : B.lo = A.lo + s*A.dx)
    (f : ℕ → K) (j : ℕ) :
    exact1 A B f j = if 0 ≤ (j:ℤ) + s ∧ (j:ℤ) + s < A.n then f ((j:ℤ) + s).toNat else 0 := by
  unfold exact1
  simp only [cellFrac_crop hA hdx s hlo, mul_ite, mul_zero, mul_one]
  split_ifs with h
  · obtain ⟨m, hm⟩ := Int.eq_ofNat_of_zero_le h.1
    rw [hm, Int.toNat_natCast]
    simp only [hm, Nat.cast_inj]
    rw [sum_ite_eq', if_pos]
    rw [mem_range]; rw [hm] at h; exact_mod_cast h.2
  · apply sum_eq_zero
    intro k hk
    rw [if_neg]
    intro hc
    apply h
    rw [← hc]
    exact ⟨by positivity, by exact_mod_cast mem_range.mp hk⟩

/-- Change of the unit of length and of the origin. -/
theorem cellFrac_affine {A B : Axis K} {s : K} (hs : 0 < s) (c : K) (k j : ℕ) :
    cellFrac (⟨c + s*A.lo, s*A.size, A.n⟩ : Axis K) ⟨c + s*B.lo, s*B.size, B.n⟩ k j = cellFrac A B k j := by
  have e : ∀ (A : Axis K) (k : ℕ), Axis.edge (⟨c + s*A.lo, s*A.size, A.n⟩ : Axis K) k = s*A.edge k + c := by
    intro A k; unfold Axis.edge Axis.dx; simp only; ring
  have ed : Axis.dx (⟨c + s*B.lo, s*B.size, B.n⟩ : Axis K) = s*B.dx := by
    unfold Axis.dx; simp only; ring
  unfold cellFrac cellOverlap
  rw [e, e, e, e, ed]
  have eo : ∀ a b x y : K, overlap (s*a + c) (s*b + c) (s*x + c) (s*y + c) = s*overlap a b x y := by
    intro a b x y
    unfold overlap
    rw [min_add_add_right, max_add_add_right, ← mul_min_of_nonneg _ _ hs.le, ← mul_max_of_nonneg _ _ hs.le,
      add_sub_add_right_eq_sub, ← mul_sub, ← mul_zero s, ← mul_max_of_nonneg _ _ hs.le, mul_zero]
  rw [eo, mul_div_mul_left _ _ hs.ne']

theorem clear_affine {A B : Axis K} {s : K} (hs : 0 < s) (c : K) :
    FirstCellClear (⟨c + s*A.lo, s*A.size, A.n⟩ : Axis K) ⟨c + s*B.lo, s*B.size, B.n⟩ ↔ FirstCellClear A B := by
  unfold FirstCellClear Axis.dx
  simp only [mul_div_assoc]
  have e1 : c + s*A.lo - s*(A.size/A.n) ≤ c + s*B.lo ↔ A.lo - A.size/A.n ≤ B.lo := by
    constructor
    · intro h
      have : s*(A.lo - A.size/A.n) ≤ s*B.lo := by linarith
      exact le_of_mul_le_mul_left this hs
    · intro h
      have := mul_le_mul_of_nonneg_left h hs.le
      linarith
  have e2 : c + s*B.lo + s*(B.size/B.n) < c + s*A.lo ↔ B.lo + B.size/B.n < A.lo := by
    constructor
    · intro h
      have : s*(B.lo + B.size/B.n) < s*A.lo := by linarith
      exact lt_of_mul_lt_mul_left this hs.le
    · intro h
      have := mul_lt_mul_of_pos_left h hs
      linarith
  rw [e1, e2]

/-- Reflection of both grids. -/
theorem cellFrac_mirror {A B : Axis K} (hA : A.Valid) (hB : B.Valid) {k j : ℕ} (hk : k < A.n) (hj : j < B.n) :
    cellFrac (⟨-(A.lo + A.size), A.size, A.n⟩ : Axis K) ⟨-(B.lo + B.size), B.size, B.n⟩ (A.n - 1 - k) (B.n - 1 - j)
      = cellFrac A B k j := by
  have e : ∀ (A : Axis K), A.Valid → ∀ k, k ≤ A.n →
      Axis.edge (⟨-(A.lo + A.size), A.size, A.n⟩ : Axis K) (A.n - k) = -A.edge k := by
    intro A hA k hk
    have : (A.n:K) ≠ 0 := by have := hA.2; positivity
    unfold Axis.edge Axis.dx; simp only
    rw [Nat.cast_sub hk]; field_simp; ring
  have i1 : A.n - 1 - k = A.n - (k+1) := by omega
  have i2 : A.n - 1 - k + 1 = A.n - k := by omega
  have i3 : B.n - 1 - j = B.n - (j+1) := by omega
  have i4 : B.n - 1 - j + 1 = B.n - j := by omega
  unfold cellFrac cellOverlap
  have ed : Axis.dx (⟨-(B.lo + B.size), B.size, B.n⟩ : Axis K) = B.dx := rfl
  rw [i2, i4, i1, i3, e A hA _ hk, e B hB _ hj, e A hA _ hk.le, e B hB _ hj.le, ed]
  unfold overlap
  rw [min_neg_neg, max_neg_neg]
  congr 2
  ring

theorem exact1_mirror {A B : Axis K} (hA : A.Valid) (hB : B.Valid) (f : ℕ → K) {j : ℕ} (hj : j < B.n) :
    exact1 (⟨-(A.lo + A.size), A.size, A.n⟩ : Axis K) ⟨-(B.lo + B.size), B.size, B.n⟩
      (fun k => f (A.n - 1 - k)) (B.n - 1 - j) = exact1 A B f j := by
  unfold exact1
  simp only
  rw [← sum_range_reflect]
  refine sum_congr rfl fun k hk => ?_
  have hk := mem_range.mp hk
  rw [cellFrac_mirror hA hB hk hj]
  congr 2
  omega

end Magpie.Remap
