import Verif.Proof.Remap
import Verif.Proof.Flat
import Mathlib.Algebra.BigOperators.Field

/-!
# Consequences of the exact overlap formula
-/

set_option linter.unusedSimpArgs false
set_option linter.unusedVariables false
set_option linter.unusedSectionVars false

namespace Magpie.Remap
open Magpie.Spec Finset

variable {K : Type} [Field K] [LinearOrder K] [IsStrictOrderedRing K] [FloorRing K]

/-- Nearest point of `[a, b]`. -/
def clamp (a b x : K) : K := max a (min b x)

theorem overlap_comm (a b c d : K) : overlap a b c d = overlap c d a b := by
  unfold overlap; rw [min_comm, max_comm a c]

theorem overlap_nonneg (a b c d : K) : 0 ≤ overlap a b c d := le_max_left _ _

theorem overlap_clamp {a b c d : K} (hab : a ≤ b) (hcd : c ≤ d) :
    overlap a b c d = clamp a b d - clamp a b c := by
  unfold overlap clamp
  rcases le_total b d with h1 | h1
  · rw [min_eq_left h1]
    rcases le_total b c with h2 | h2
    · rw [min_eq_left h2, max_eq_right hab, max_eq_right (le_trans hab h2), max_eq_left (by linarith)]
      ring
    · rw [min_eq_right h2, max_eq_right hab, max_eq_right]
      rw [sub_nonneg]; exact max_le hab h2
  · rw [min_eq_right h1, min_eq_right (le_trans hcd h1)]
    rcases le_total a c with h2 | h2
    · rw [max_eq_right h2, max_eq_right (le_trans h2 hcd), max_eq_right (by linarith)]
    · rw [max_eq_left h2]
      rcases le_total a d with h3 | h3
      · rw [max_eq_right h3, max_eq_right (by linarith)]
      · rw [max_eq_left h3, max_eq_left (by linarith)]; ring

section
variable {A B : Axis K}

theorem edge_mono (hA : A.Valid) {i j : ℕ} (h : i ≤ j) : A.edge i ≤ A.edge j := by
  have : (i:K) ≤ j := by exact_mod_cast h
  unfold Axis.edge
  nlinarith [dx_pos hA]

theorem edge_zero (A : Axis K) : A.edge 0 = A.lo := by simp [Axis.edge]

theorem edge_last (hA : A.Valid) : A.edge A.n = A.lo + A.size := by
  have : (A.n:K) ≠ 0 := by exact_mod_cast hA.2.ne'
  unfold Axis.edge Axis.dx; field_simp

theorem sum_overlap (hB : B.Valid) {a b : K} (hab : a ≤ b) (h1 : B.lo ≤ a) (h2 : b ≤ B.lo + B.size) :
    ∑ j ∈ range B.n, overlap a b (B.edge j) (B.edge (j+1)) = b - a := by
  have : ∀ j ∈ range B.n, overlap a b (B.edge j) (B.edge (j+1))
      = clamp a b (B.edge (j+1)) - clamp a b (B.edge j) :=
    fun j _ => overlap_clamp hab (edge_lt hB j).le
  rw [sum_congr rfl this, sum_range_sub (fun j => clamp a b (B.edge j)), edge_last hB, edge_zero]
  unfold clamp
  rw [min_eq_left h2, max_eq_right hab, min_eq_right (le_trans h1 hab), max_eq_left h1]

/-- Columns: an input cell inside the output box is shared out completely. -/
theorem sum_cellFrac_out (hA : A.Valid) (hB : B.Valid) (h1 : B.lo ≤ A.lo)
    (h2 : A.lo + A.size ≤ B.lo + B.size) {k : ℕ} (hk : k < A.n) :
    ∑ j ∈ range B.n, cellFrac A B k j = A.dx / B.dx := by
  unfold cellFrac cellOverlap
  rw [← sum_div, sum_overlap hB (edge_lt hA k).le, edge_succ]
  · congr 1; ring
  · have := edge_mono hA (Nat.zero_le k); rw [edge_zero] at this; linarith
  · have := edge_mono hA (Nat.succ_le_of_lt hk); rw [edge_last hA] at this
    exact le_trans this h2

/-- Rows: an output cell inside the input box has total weight one. -/
theorem sum_cellFrac_in (hA : A.Valid) (hB : B.Valid) {j : ℕ} (h1 : A.lo ≤ B.edge j)
    (h2 : B.edge (j+1) ≤ A.lo + A.size) :
    ∑ k ∈ range A.n, cellFrac A B k j = 1 := by
  unfold cellFrac cellOverlap
  simp_rw [overlap_comm (A.edge _)]
  rw [← sum_div, sum_overlap hA (edge_lt hB j).le h1 h2, edge_succ, add_sub_cancel_left,
    div_self (dx_pos hB).ne']

theorem cellFrac_nonneg (hB : B.Valid) (k j : ℕ) : 0 ≤ cellFrac A B k j :=
  div_nonneg (overlap_nonneg _ _ _ _) (dx_pos hB).le

theorem exact1_const (hA : A.Valid) (hB : B.Valid) {j : ℕ} (h1 : A.lo ≤ B.edge j)
    (h2 : B.edge (j+1) ≤ A.lo + A.size) (f : ℕ → K) (c : K) (hf : ∀ k < A.n, f k = c) :
    exact1 A B f j = c := by
  unfold exact1
  rw [sum_congr rfl (fun k hk => by rw [hf k (mem_range.mp hk)]), ← mul_sum,
    sum_cellFrac_in hA hB h1 h2, mul_one]

theorem exact1_bounds (hA : A.Valid) (hB : B.Valid) {j : ℕ} (h1 : A.lo ≤ B.edge j)
    (h2 : B.edge (j+1) ≤ A.lo + A.size) (f : ℕ → K) (c d : K)
    (hf : ∀ k < A.n, c ≤ f k ∧ f k ≤ d) : c ≤ exact1 A B f j ∧ exact1 A B f j ≤ d := by
  have s := sum_cellFrac_in hA hB h1 h2
  unfold exact1
  constructor
  · calc c = ∑ k ∈ range A.n, c * cellFrac A B k j := by rw [← mul_sum, s, mul_one]
      _ ≤ _ := sum_le_sum fun k hk =>
        mul_le_mul_of_nonneg_right (hf k (mem_range.mp hk)).1 (cellFrac_nonneg hB k j)
  · calc _ ≤ ∑ k ∈ range A.n, d * cellFrac A B k j := sum_le_sum fun k hk =>
        mul_le_mul_of_nonneg_right (hf k (mem_range.mp hk)).2 (cellFrac_nonneg hB k j)
      _ = d := by rw [← mul_sum, s, mul_one]

theorem exact1_linear (f g : ℕ → K) (a b : K) (j : ℕ) :
    exact1 A B (fun k => a*f k + b*g k) j = a*exact1 A B f j + b*exact1 A B g j := by
  unfold exact1
  rw [mul_sum, mul_sum, ← sum_add_distrib]
  apply sum_congr rfl; intro k _; ring

/-- Total of the output. -/
theorem exact1_total (hA : A.Valid) (hB : B.Valid) (h1 : B.lo ≤ A.lo)
    (h2 : A.lo + A.size ≤ B.lo + B.size) (f : ℕ → K) :
    (∑ j ∈ range B.n, exact1 A B f j) * B.dx = (∑ k ∈ range A.n, f k) * A.dx := by
  unfold exact1
  rw [sum_comm]
  simp_rw [← mul_sum]
  rw [sum_congr rfl (fun k hk => by rw [sum_cellFrac_out hA hB h1 h2 (mem_range.mp hk)]),
    ← sum_mul, mul_assoc, div_mul_cancel₀ _ (dx_pos hB).ne']

/-- Cells that do not meet the input box. -/
theorem exact1_outside (hA : A.Valid) {j : ℕ}
    (h : B.edge (j+1) ≤ A.lo ∨ A.lo + A.size ≤ B.edge j) (f : ℕ → K) : exact1 A B f j = 0 := by
  unfold exact1
  apply sum_eq_zero
  intro k hk
  rcases h with h | h
  · rw [cellFrac_zero_left hA h, mul_zero]
  · have h3 := edge_mono hA (Nat.succ_le_of_lt (mem_range.mp hk))
    rw [edge_last hA] at h3
    unfold cellFrac cellOverlap overlap
    rw [max_eq_left, zero_div, mul_zero]
    rw [sub_nonpos]
    exact le_trans (min_le_left _ _) (le_trans (le_trans h3 h) (le_max_right _ _))

theorem exact1_same (hA : A.Valid) (f : ℕ → K) {j : ℕ} (hj : j < A.n) : exact1 A A f j = f j := by
  have hd := dx_pos hA
  unfold exact1
  rw [sum_eq_single j]
  · unfold cellFrac cellOverlap overlap
    rw [min_self, max_self, edge_succ, add_sub_cancel_left, max_eq_right hd.le, div_self hd.ne',
      mul_one]
  · intro k _ hk
    unfold cellFrac cellOverlap overlap
    rw [max_eq_left, zero_div, mul_zero]
    rw [sub_nonpos]
    rcases Nat.lt_or_gt_of_ne hk with h | h
    · exact le_trans (min_le_left _ _) (le_trans (edge_mono hA h) (le_max_right _ _))
    · exact le_trans (min_le_right _ _) (le_trans (edge_mono hA h) (le_max_left _ _))
  · intro h; exact absurd (mem_range.mpr hj) h

end

section
variable {Ax Ay Az Bx By Bz : Axis K}

theorem exact2_nested (f : ℕ → ℕ → K) (i j : ℕ) :
    exact2 Ax Ay Bx By f i j = exact1 Ax Bx (fun k => exact1 Ay By (f k) j) i := by
  unfold exact2 exact1
  apply sum_congr rfl; intro k _
  rw [sum_mul]
  apply sum_congr rfl; intro l _; ring

theorem exact3_nested (f : ℕ → ℕ → ℕ → K) (i j h : ℕ) :
    exact3 Ax Ay Az Bx By Bz f i j h
      = exact1 Ax Bx (fun k => exact1 Ay By (fun l => exact1 Az Bz (f k l) h) j) i := by
  unfold exact3 exact1
  apply sum_congr rfl; intro k _
  rw [sum_mul]
  apply sum_congr rfl; intro l _
  rw [sum_mul, sum_mul]
  apply sum_congr rfl; intro m _; ring

theorem exact1_sum {A B : Axis K} {ι : Type*} (s : Finset ι) (f : ι → ℕ → K) (j : ℕ) :
    exact1 A B (fun k => ∑ x ∈ s, f x k) j = ∑ x ∈ s, exact1 A B (f x) j := by
  unfold exact1
  rw [sum_comm]
  apply sum_congr rfl; intro k _
  rw [sum_mul]

theorem exact1_mul {A B : Axis K} (f : ℕ → K) (c : K) (j : ℕ) :
    exact1 A B (fun k => f k * c) j = exact1 A B f j * c := by
  unfold exact1
  rw [sum_mul]
  apply sum_congr rfl; intro k _; ring

theorem exact2_total (hAx : Ax.Valid) (hBx : Bx.Valid) (hAy : Ay.Valid) (hBy : By.Valid)
    (x1 : Bx.lo ≤ Ax.lo) (x2 : Ax.lo + Ax.size ≤ Bx.lo + Bx.size)
    (y1 : By.lo ≤ Ay.lo) (y2 : Ay.lo + Ay.size ≤ By.lo + By.size) (f : ℕ → ℕ → K) :
    (∑ i ∈ range Bx.n, ∑ j ∈ range By.n, exact2 Ax Ay Bx By f i j) * (Bx.dx*By.dx)
      = (∑ k ∈ range Ax.n, ∑ l ∈ range Ay.n, f k l) * (Ax.dx*Ay.dx) := by
  simp_rw [exact2_nested]
  rw [sum_comm]
  have e : ∀ j, ∑ i ∈ range Bx.n, exact1 Ax Bx (fun k => exact1 Ay By (f k) j) i
      = (∑ k ∈ range Ax.n, exact1 Ay By (f k) j) * (Ax.dx/Bx.dx) := by
    intro j
    have := exact1_total hAx hBx x1 x2 (fun k => exact1 Ay By (f k) j)
    have hd := (dx_pos hBx).ne'
    field_simp
    exact this
  simp_rw [e]
  rw [← sum_mul, sum_comm]
  have e2 : ∀ k, ∑ j ∈ range By.n, exact1 Ay By (f k) j = (∑ l ∈ range Ay.n, f k l) * (Ay.dx/By.dx) := by
    intro k
    have := exact1_total hAy hBy y1 y2 (f k)
    have hd := (dx_pos hBy).ne'
    field_simp
    exact this
  simp_rw [e2]
  rw [← sum_mul]
  have h1 := (dx_pos hBx).ne'
  have h2 := (dx_pos hBy).ne'
  field_simp

theorem exact3_total (hAx : Ax.Valid) (hBx : Bx.Valid) (hAy : Ay.Valid) (hBy : By.Valid)
    (hAz : Az.Valid) (hBz : Bz.Valid)
    (x1 : Bx.lo ≤ Ax.lo) (x2 : Ax.lo + Ax.size ≤ Bx.lo + Bx.size)
    (y1 : By.lo ≤ Ay.lo) (y2 : Ay.lo + Ay.size ≤ By.lo + By.size)
    (z1 : Bz.lo ≤ Az.lo) (z2 : Az.lo + Az.size ≤ Bz.lo + Bz.size) (f : ℕ → ℕ → ℕ → K) :
    (∑ i ∈ range Bx.n, ∑ j ∈ range By.n, ∑ h ∈ range Bz.n, exact3 Ax Ay Az Bx By Bz f i j h)
        * (Bx.dx*By.dx*Bz.dx)
      = (∑ k ∈ range Ax.n, ∑ l ∈ range Ay.n, ∑ m ∈ range Az.n, f k l m) * (Ax.dx*Ay.dx*Az.dx) := by
  have e : ∀ i j, ∑ h ∈ range Bz.n, exact3 Ax Ay Az Bx By Bz f i j h
      = exact2 Ax Ay Bx By (fun k l => ∑ m ∈ range Az.n, f k l m) i j * (Az.dx/Bz.dx) := by
    intro i j
    simp_rw [exact3_nested]
    rw [exact2_nested, ← exact1_sum]
    have : ∀ k, ∑ x ∈ range Bz.n, exact1 Ay By (fun l => exact1 Az Bz (f k l) x) j
        = exact1 Ay By (fun l => ∑ m ∈ range Az.n, f k l m) j * (Az.dx/Bz.dx) := by
      intro k
      rw [← exact1_sum, ← exact1_mul]
      congr 1
      funext l
      have := exact1_total hAz hBz z1 z2 (f k l)
      have hd := (dx_pos hBz).ne'
      field_simp
      exact this
    simp_rw [this]
    rw [exact1_mul]
  simp_rw [e, ← sum_mul]
  have := exact2_total hAx hBx hAy hBy x1 x2 y1 y2 (fun k l => ∑ m ∈ range Az.n, f k l m)
  have hd := (dx_pos hBz).ne'
  calc _ = ((∑ i ∈ range Bx.n, ∑ j ∈ range By.n,
        exact2 Ax Ay Bx By (fun k l => ∑ m ∈ range Az.n, f k l m) i j) * (Bx.dx*By.dx)) * Az.dx := by
        field_simp
    _ = _ := by rw [this]; ring

end

end Magpie.Remap
