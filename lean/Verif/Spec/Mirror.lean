import Mathlib.Algebra.Ring.Basic

/-!
# Mirror images of edges
-/

namespace Magpie.Spec

/-- The mirror image of edges: the axis is turned around. -/
def mirror {K : Type} [Neg K] (edges : List K) : List K := (edges.map fun e => -e).reverse

end Magpie.Spec
