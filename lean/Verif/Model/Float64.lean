import Verif.Np
import Mathlib.Data.Int.Log
import Mathlib.Algebra.Ring.Int.Parity
import Mathlib.Data.Rat.Floor

/-!
# Binary64 arithmetic

NumPy's `float64` operations used by the modelled code: each is the exact real
operation followed by one rounding to nearest, ties to even (IEEE 754 binary64,
with gradual underflow).  Simplification: overflow to infinity is not modelled,
`fl` keeps numbers beyond the largest finite one; the theorems that use `fl`
bound the numbers, or only compare those that would overflow.  Nothing in this file is specific to magpie.
-/

namespace Magpie.F64

/-- Nearest integer, ties to the even one. -/
noncomputable def rne (x : ℝ) : ℤ :=
  if 2*(x - ⌊x⌋) < 1 then ⌊x⌋
  else if 1 < 2*(x - ⌊x⌋) then ⌊x⌋ + 1
  else if Even ⌊x⌋ then ⌊x⌋ else ⌊x⌋ + 1

/-- Exponent of the last digit of a number of size `|x|`. -/
noncomputable def ulpExp (x : ℝ) : ℤ := max (Int.log 2 |x| - 52) (-1074)

/-- Rounding of a real to binary64. -/
noncomputable def fl (x : ℝ) : ℝ := (rne (x / (2:ℝ)^ulpExp x) : ℝ) * (2:ℝ)^ulpExp x

/-- `rne` on rationals, where it can be computed. -/
def rneQ (x : ℚ) : ℤ :=
  if 2*(x - ⌊x⌋) < 1 then ⌊x⌋
  else if 1 < 2*(x - ⌊x⌋) then ⌊x⌋ + 1
  else if Even ⌊x⌋ then ⌊x⌋ else ⌊x⌋ + 1

/-- `ulpExp` on rationals. -/
def ulpExpQ (x : ℚ) : ℤ := max (Int.log 2 |x| - 52) (-1074)

/-- `fl` on rationals (`flQ_cast` in Proof/Float64Q.lean: it is the same rounding). -/
def flQ (x : ℚ) : ℚ := (rneQ (x / (2:ℚ)^ulpExpQ x) : ℚ) * (2:ℚ)^ulpExpQ x

/-- `a + b` on floats. -/
noncomputable def add (a b : ℝ) : ℝ := fl (a + b)
/-- `a - b` on floats. -/
noncomputable def sub (a b : ℝ) : ℝ := fl (a - b)
/-- `a * b` on floats. -/
noncomputable def mul (a b : ℝ) : ℝ := fl (a * b)
/-- `a / b` on floats with `b ≠ 0`. -/
noncomputable def div (a b : ℝ) : ℝ := fl (a / b)
/-- Conversion of an integer to a float. -/
noncomputable def ofInt (n : ℤ) : ℝ := fl n
/-- `np.sqrt` on floats: NaN (`none`) for a negative argument. -/
noncomputable def sqrt (x : ℝ) : Option ℝ := if 0 ≤ x then some (fl (Real.sqrt x)) else none

end Magpie.F64
