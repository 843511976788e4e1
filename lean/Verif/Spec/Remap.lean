import Mathlib.Algebra.Order.Field.Basic
import Mathlib.Algebra.BigOperators.Group.Finset.Basic

/-!
# Exact remapping between uniform grids
-/

namespace Magpie.Spec
open Finset

variable {K : Type} [Field K] [LinearOrder K]

/-- Length of the intersection of the intervals `[a, b]` and `[c, d]`. -/
def overlap (a b c d : K) : K := max 0 (min b d - max a c)

/-- `n` equal cells covering `[lo, lo + size]`. -/
structure Axis (K : Type) where
  lo : K
  size : K
  n : ℕ

namespace Axis

/-- Cell width. -/
def dx (A : Axis K) : K := A.size / A.n

/-- Left edge of cell `k`. -/
def edge (A : Axis K) (k : ℕ) : K := A.lo + A.dx * k

def Valid (A : Axis K) : Prop := 0 < A.size ∧ 0 < A.n

end Axis

/-- Length of the intersection of cell `k` of `A` and cell `j` of `B`. -/
def cellOverlap (A B : Axis K) (k j : ℕ) : K :=
  overlap (A.edge k) (A.edge (k+1)) (B.edge j) (B.edge (j+1))

/-- Fraction of cell `j` of `B` that lies in cell `k` of `A`. -/
def cellFrac (A B : Axis K) (k j : ℕ) : K := cellOverlap A B k j / B.dx

/-- Overlap average in cell `j` of the field `f` given on the cells of `A`. -/
def exact1 (A B : Axis K) (f : ℕ → K) (j : ℕ) : K :=
  ∑ k ∈ range A.n, f k * cellFrac A B k j

/-- Two-dimensional overlap average in cell `(i, j)`. -/
def exact2 (Ax Ay Bx By : Axis K) (f : ℕ → ℕ → K) (i j : ℕ) : K :=
  ∑ k ∈ range Ax.n, ∑ l ∈ range Ay.n, f k l * (cellFrac Ax Bx k i * cellFrac Ay By l j)

/-- Three-dimensional overlap average in cell `(i, j, h)`. -/
def exact3 (Ax Ay Az Bx By Bz : Axis K) (f : ℕ → ℕ → ℕ → K) (i j h : ℕ) : K :=
  ∑ k ∈ range Ax.n, ∑ l ∈ range Ay.n, ∑ m ∈ range Az.n,
    f k l m * (cellFrac Ax Bx k i * cellFrac Ay By l j * cellFrac Az Bz m h)

/-- The first output cell does not lie strictly inside the one cell width to the left of the
input box. -/
def FirstCellClear (A B : Axis K) : Prop :=
  ¬ (A.lo - A.dx ≤ B.lo ∧ B.lo + B.dx < A.lo)

end Magpie.Spec

namespace Magpie.Spec
variable {K : Type} [Field K] [LinearOrder K]

/-- Output cell `j` of `B` lies in input cell `c` of `A` and does not reach its right edge. -/
def InsideCell (A B : Axis K) (j c : ℕ) : Prop :=
  A.edge c ≤ B.edge j ∧ B.edge (j+1) < A.edge (c+1)

/-- The input cells on which output cell `j` depends in the program: those it overlaps and, when
it lies inside one input cell, also the next one to the right. -/
def Reads (A B : Axis K) (j k : ℕ) : Prop :=
  0 < cellOverlap A B k j ∨ ∃ c, k = c + 1 ∧ InsideCell A B j c

end Magpie.Spec
