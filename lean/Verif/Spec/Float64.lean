import Mathlib.Data.Real.Basic
import Mathlib.Algebra.Ring.Int.Parity

/-!
# Independent specification of IEEE 754 binary64 numbers

The finite binary64 numbers are the reals `m * 2^e` with `|m| < 2^53` and
`-1074 ≤ e ≤ 971`.  The result of an arithmetic operation in the default
rounding mode is a finite number nearest to the exact result and, of two equally
near ones, the one with an even last digit.
-/

namespace Magpie.Spec

/-- `x` is a finite binary64 number. -/
def IsDouble (x : ℝ) : Prop :=
  ∃ m e : ℤ, |m| < 2^53 ∧ -1074 ≤ e ∧ e ≤ 971 ∧ x = (m : ℝ) * (2 : ℝ)^e

/-- The largest finite binary64 number. -/
noncomputable def maxDouble : ℝ := (2^53 - 1) * (2 : ℝ)^(971 : ℤ)

/-- `y` is a binary64 number nearest to `x`. -/
def IsNearest (x y : ℝ) : Prop :=
  IsDouble y ∧ ∀ d, IsDouble d → |x - y| ≤ |x - d|

/-- `y` can be written with an even significand that is normalised
(`2^52 ≤ |m|`) or has the least exponent: its last digit is `0`. -/
def LastDigitEven (y : ℝ) : Prop :=
  ∃ m e : ℤ, Even m ∧ |m| ≤ 2^53 ∧ (2^52 ≤ |m| ∨ e = -1074) ∧ y = (m : ℝ) * (2 : ℝ)^e

end Magpie.Spec
