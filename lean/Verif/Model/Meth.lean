import Verif.Np
import Verif.Model.Radial

/-!
# Methods of Python objects

A method reads and changes the attributes of its object and returns a value or raises. An exception
does not undo the assignments made before it.
-/

namespace Magpie

/-- A method of an object with attributes `S`. -/
def Meth (S α : Type) := S → Py α × S

namespace Meth
variable {S α β : Type}

instance : Monad (Meth S) where
  pure a := fun s => (.ok a, s)
  bind m f := fun s => match m s with
    | (.ok a, s') => f a s'
    | (.error e, s') => (.error e, s')

/-- An expression that may raise. -/
def lift (p : Py α) : Meth S α := fun s => (p, s)

/-- The attributes. -/
def self : Meth S S := fun s => (.ok s, s)

/-- Assignment to attributes. -/
def assign (f : S → S) : Meth S Unit := fun s => (.ok (), f s)

@[simp] theorem pure_apply (a : α) (s : S) : (pure a : Meth S α) s = (.ok a, s) := rfl
@[simp] theorem bind_apply (m : Meth S α) (f : α → Meth S β) (s : S) :
    (m >>= f) s = match m s with
      | (.ok a, s') => f a s'
      | (.error e, s') => (.error e, s') := rfl
@[simp] theorem lift_apply (p : Py α) (s : S) : (lift p : Meth S α) s = (p, s) := rfl
@[simp] theorem self_apply (s : S) : (self : Meth S S) s = (.ok s, s) := rfl
@[simp] theorem assign_apply (f : S → S) (s : S) : assign f s = (.ok (), f s) := rfl

end Meth

/-- Use of an attribute that may still be `None`: subscripting `None` or taking its length is a
`TypeError`. -/
def need {α : Type} : Option α → Py α
  | some a => .ok a
  | none => .error .typeError

@[simp] theorem need_some {α : Type} (a : α) : need (some a) = .ok a := rfl

namespace Radial

/-- `np.meshgrid(x, y)` (NumPy, default `indexing='xy'`): rows along `y`. -/
def meshgridXY (x y : List ℝ) : Arr2 ℝ × Arr2 ℝ :=
  (⟨y.length, x.length, fun _ j => x.getD j 0⟩, ⟨y.length, x.length, fun i _ => y.getD i 0⟩)

/-- Same shape. -/
def Arr2.sameShape {α β : Type} (a : Arr2 α) (b : Arr2 β) : Prop := a.rows = b.rows ∧ a.cols = b.cols

instance {α β : Type} (a : Arr2 α) (b : Arr2 β) : Decidable (a.sameShape b) := by
  unfold Arr2.sameShape; infer_instance

/-- `a.reshape(n1, n2, n3)` of a 2d array (row-major); `ValueError` if the sizes differ. -/
def Arr2.reshape3 {α : Type} (a : Arr2 α) (n1 n2 n3 : ℕ) : Py (ℕ → ℕ → ℕ → α) :=
  if a.rows*a.cols = n1*n2*n3 then
    .ok fun i j k => let flat := (i*n2 + j)*n3 + k; a.val (flat / a.cols) (flat % a.cols)
  else .error .valueError

/-- `a[row, col]`; `IndexError` outside the array. -/
def Arr2.get {α : Type} (a : Arr2 α) (i j : ℕ) : Py α :=
  if i < a.rows ∧ j < a.cols then .ok (a.val i j) else .error .indexError

end Radial

/-- `0.5*(edges[1:] + edges[:-1])`. -/
noncomputable def mids (edges : List ℝ) : List ℝ :=
  List.zipWith (fun b a => 1/2*(b + a)) edges.tail edges.dropLast

/-- `a[1] - a[0]`. -/
noncomputable def firstDiff (a : List ℝ) : Py ℝ :=
  match a with
  | x0 :: x1 :: _ => .ok (x1 - x0)
  | _ => .error .indexError

end Magpie
