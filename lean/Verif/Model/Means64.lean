import Verif.Model.Float64
import Mathlib.Data.List.Perm.Basic

/-!
# The means of `/repo/magpie/polar/polar2radial.py` and of the Monte Carlo remappings in binary64

The means of `Verif/Model/Radial.lean`, `Verif/Model/McBox2Ring.lean` and `Verif/Model/McCube2Shell.lean`
again, each arithmetic operation rounded.  `np.sum` adds in an order that depends on the number of entries and
on how the array lies in memory; it is any binary tree of additions here.
-/

namespace Magpie.Means64

/-- An order of summation: which entries, or sums made before, are added (NumPy). -/
inductive SumTree where
  | leaf (k : ℕ)
  | node (l r : SumTree)

/-- The numbers of the entries added. -/
def SumTree.leaves : SumTree → List ℕ
  | leaf k => [k]
  | node l r => l.leaves ++ r.leaves

/-- The largest number of additions an entry goes through. -/
def SumTree.depth : SumTree → ℕ
  | leaf _ => 0
  | node l r => max l.depth r.depth + 1

/-- `np.sum(x)`. -/
noncomputable def SumTree.sum (x : ℕ → ℝ) : SumTree → ℝ
  | leaf k => x k
  | node l r => F64.add (l.sum x) (r.sum x)

/-- `f_radial[j]` of `polar2radial` (polar2radial.py:65-67, 71-73), for `n > 0` rows; `t` and `t'` are the orders
of the sums. -/
noncomputable def polar2radial (t t' : SumTree) (n : ℕ) (f : ℕ → ℕ → ℝ) (w : Option (ℕ → ℕ → ℝ)) (j : ℕ) :
    Option ℝ :=
  match w with
  | none => some (F64.div (t.sum fun i => f i j) (F64.ofInt n))
  | some w =>
    let d := t'.sum fun i => w i j
    if d = 0 then none else some (F64.div (t.sum fun i => F64.mul (f i j) (w i j)) d)

/-- One pixel of `remap` with at least one hit: `ind_w = H[condition]/float(mc_size)` and the means
(box2ring.py:234, 271-282; cube2shell.py:164, 202-213). `h k` is the number of random points in the `k`-th pixel
hit, `f k` and `w k` are the data and the weight of that pixel. A value that is not finite is `none`, and so is the
case of no weight (NaN, `hp.UNSEEN`). -/
noncomputable def remapPixel (t t' t'' : SumTree) (mcSize : ℕ) (h : ℕ → ℕ) (f : ℕ → ℝ) (w : Option (ℕ → ℝ)) :
    Option ℝ :=
  let ws := fun k => F64.div (F64.ofInt (h k)) (F64.ofInt mcSize)
  if t''.sum ws ≠ 0 then
    match w with
    | none =>
      let d := t'.sum ws
      if d = 0 then none else some (F64.div (t.sum fun k => F64.mul (ws k) (f k)) d)
    | some w =>
      let d := t'.sum fun k => F64.mul (ws k) (w k)
      if d = 0 then none else some (F64.div (t.sum fun k => F64.mul (F64.mul (ws k) (w k)) (f k)) d)
  else none

end Magpie.Means64
