import Verif.Model.McBox2Ring
import Verif.Spec.Box2Ring
import Mathlib.Analysis.SpecialFunctions.Pow.Real
import Mathlib.Data.Set.Card

/-!
# Monte Carlo `Box2Ring`: random points and the box pixels they hit
-/

namespace Magpie.Mc
open Magpie.Box2Ring Magpie.Spec Magpie.Radial

/-- A call of `setup_polar_lin` or `setup_polar_log`. -/
inductive Grid where
  | lin (A : PolarArgs)
  | log (A : PolarArgs) (addzero : Bool)

/-- The arguments of the call. -/
def Grid.args : Grid → PolarArgs
  | .lin A => A
  | .log A _ => A

/-- The call. -/
noncomputable def Grid.setup : Grid → Meth State Unit
  | .lin A => setupPolarLin A
  | .log A z => setupPolarLog A z

/-- The call is accepted (see C81). -/
def Grid.Ok : Grid → Prop
  | .lin A => PolarOk A ∧ 2 ≤ A.numr ∧ 2 ≤ A.nump
  | .log A _ => 0 < A.rmin ∧ PolarOk A ∧ 2 ≤ A.nump

/-- Number of rings. -/
def Grid.numr (G : Grid) : ℕ := G.args.numr.toNat

/-- Number of sectors. -/
def Grid.nump (G : Grid) : ℕ := G.args.nump.toNat

/-- The radius of edge `j` (see C83). -/
noncomputable def Grid.rEdge : Grid → ℕ → ℝ
  | .lin A, j => edgeAt A.rmin A.rmax A.numr.toNat j
  | .log A false, j => A.rmin*(A.rmax/A.rmin)^((j:ℝ)/A.numr.toNat)
  | .log A true, 0 => 0
  | .log A true, j+1 => A.rmin*(A.rmax/A.rmin)^((j:ℝ)/(A.numr.toNat - 1 : ℕ))

/-- The angle of edge `i`. -/
noncomputable def Grid.pEdge (G : Grid) (i : ℕ) : ℝ := edgeAt G.args.pmin G.args.pmax G.nump i

/-- The random point that the variates `u`, `v` give in polar pixel `(i, j)` (see C56 for its law). -/
noncomputable def Grid.point (G : Grid) (i j : ℕ) (u v : ℝ) : ℝ × ℝ :=
  let r := Real.sqrt ((G.rEdge j)^2 + u*((G.rEdge (j+1))^2 - (G.rEdge j)^2))
  let phi := G.pEdge i + v*(G.pEdge (i+1) - G.pEdge i) + G.args.phiShift
  (r*Real.cos phi + G.args.center.getD 0 0, r*Real.sin phi + G.args.center.getD 1 0)

/-- The random points of polar pixel `(i, j)`. -/
noncomputable def Grid.points (G : Grid) (i j : ℕ) (d : List ℝ × List ℝ) : List (ℝ × ℝ) :=
  List.zipWith (G.point i j) d.1 d.2

/-- The variates are `mcSize` numbers in `[0, 1)` each. -/
def Draws (mcSize : ℕ) (d : List ℝ × List ℝ) : Prop :=
  d.1.length = mcSize ∧ d.2.length = mcSize ∧ (∀ u ∈ d.1, 0 ≤ u ∧ u < 1) ∧ ∀ u ∈ d.2, 0 ≤ u ∧ u < 1

/-- The point is in column `a`, row `b` of the box. -/
def InPixel (B : BoxArgs) (pt : ℝ × ℝ) (a b : ℕ) : Prop :=
  InBin B.xmin B.xmax B.numx.toNat a pt.1 ∧ InBin B.ymin B.ymax B.numy.toNat b pt.2

/-- What a grid of values `v` has at a point: `v b a` in column `a`, row `b`; nothing (`none`) outside. -/
def Reads {α : Type} (B : BoxArgs) (v : ℕ → ℕ → α) (pt : ℝ × ℝ) (g : Option α) : Prop :=
  (∀ a b, InPixel B pt a b → g = some (v b a)) ∧ ((¬ ∃ a b, InPixel B pt a b) → g = none)

/-- Number of box pixels with at least one of the points. -/
noncomputable def touched (B : BoxArgs) (pts : List (ℝ × ℝ)) : ℕ :=
  {c : ℕ × ℕ | ∃ pt ∈ pts, InPixel B pt c.1 c.2}.ncard

/-- The mean of a list, NaN (`none`) for an empty list. -/
noncomputable def mean (l : List ℝ) : Option ℝ := if l = [] then none else some (l.sum/l.length)

/-- The mean of the second components weighted by the first, not a number for an empty list or weights
with sum zero. -/
noncomputable def wmean (l : List (ℝ × ℝ)) : Option ℝ := fdiv (l.map fun p => p.1*p.2).sum (l.map Prod.fst).sum

/-- In every row of polar pixels two of them touch different numbers of box pixels. -/
def RowsDiffer (B : BoxArgs) (G : Grid) (draws : ℕ → ℕ → List ℝ × List ℝ) : Prop :=
  ∀ i, i < G.nump → ∃ j k, j < G.numr ∧ k < G.numr ∧
    touched B (G.points i j (draws i j)) ≠ touched B (G.points i k (draws i k))

/-- All polar pixels touch `k` box pixels. -/
def AllTouch (B : BoxArgs) (G : Grid) (draws : ℕ → ℕ → List ℝ × List ℝ) (k : ℕ) : Prop :=
  ∀ i j, i < G.nump → j < G.numr → touched B (G.points i j (draws i j)) = k

/-- The calls `setup_box`, `setup_polar_lin` or `setup_polar_log`, `get_weights`, `remap`. -/
noncomputable def mcRemap (B : BoxArgs) (G : Grid) (n : ℕ) (draws : ℕ → ℕ → List ℝ × List ℝ)
    (f : Arr2 (Option ℝ)) (w : Option (Arr2 ℝ)) : Meth State (Arr2 (Option ℝ)) := do
  setupBox B
  G.setup
  getWeights n draws
  remap f w

end Magpie.Mc
