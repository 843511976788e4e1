import Mathlib.Analysis.SpecialFunctions.Trigonometric.Basic
import Mathlib.LinearAlgebra.CrossProduct
import Mathlib.LinearAlgebra.Matrix.Determinant.Basic
import Mathlib.LinearAlgebra.Matrix.Notation

/-!
# Directions on the unit sphere
-/

namespace Magpie.Spec
open Matrix

/-- Unit vector of longitude `phi` and colatitude `theta`. -/
noncomputable def dir (phi theta : ℝ) : Fin 3 → ℝ :=
  ![Real.cos phi * Real.sin theta, Real.sin phi * Real.sin theta, Real.cos theta]

/-- A rational number, as every finite floating-point number is. -/
def IsRat (x : ℝ) : Prop := ∃ q : ℚ, (q : ℝ) = x

/-- Oriented volume spanned by three vectors. -/
def triple (a b c : Fin 3 → ℝ) : ℝ := a ⬝ᵥ (b ⨯₃ c)

/-- A map of the directions is a rigid rotation: it keeps all inner products (angles) and all
oriented volumes. -/
def Rigid (F : (Fin 3 → ℝ) → (Fin 3 → ℝ)) : Prop :=
  (∀ a b, F a ⬝ᵥ F b = a ⬝ᵥ b) ∧ ∀ a b c, triple (F a) (F b) (F c) = triple a b c

end Magpie.Spec
