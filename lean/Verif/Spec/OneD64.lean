import Verif.Spec.Float64

/-!
# Words used by property C131: rebinning in double precision
-/

namespace Magpie.Spec

/-- No two of the edges lie closer than `2^-200` or farther apart than `2^200`, unless they are equal. -/
def Apart (l : List ℝ) : Prop :=
  ∀ a ∈ l, ∀ b ∈ l, a = b ∨ ((2:ℝ)^(-200 : ℤ) ≤ |a - b| ∧ |a - b| ≤ (2:ℝ)^(200 : ℤ))

/-- A double that is zero or of a size between `2^-200` and `2^200`. -/
def Sized (x : ℝ) : Prop :=
  IsDouble x ∧ (x = 0 ∨ ((2:ℝ)^(-200 : ℤ) ≤ |x| ∧ |x| ≤ (2:ℝ)^(200 : ℤ)))

/-- Two results, NaN being `none`: both NaN, or values at most `δ` apart. -/
def BothNear (δ : ℝ) : Option ℝ → Option ℝ → Prop
  | some x, some y => |x - y| ≤ δ
  | none, none => True
  | _, _ => False

/-- Two calls: the same exception, or arrays whose entries agree up to `δ`. -/
def CallsNear {E : Type} (δ : ℝ) : Except E (List (Option ℝ)) → Except E (List (Option ℝ)) → Prop
  | .ok a, .ok b => List.Forall₂ (BothNear δ) a b
  | .error e, .error e' => e = e'
  | _, _ => False

end Magpie.Spec
