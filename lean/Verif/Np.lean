import Mathlib.Algebra.Order.Floor.Ring
import Mathlib.Algebra.Order.Field.Basic
import Mathlib.Data.Rat.Floor
import Mathlib.Analysis.Real.Sqrt
import Mathlib.Algebra.Order.Archimedean.Real.Basic
import Mathlib.Tactic.Ring
import Mathlib.Tactic.Linarith
import Mathlib.Tactic.NormNum
import Mathlib.Tactic.FieldSimp
import Mathlib.Tactic.Positivity
import Mathlib.Tactic.Push
import Mathlib.Algebra.BigOperators.Group.Finset.Basic

/-!
# Python / NumPy base layer

A small model of the part of Python and NumPy that the code of
`/repo/magpie` relies on.  Nothing in this file is specific to magpie.
-/

namespace Magpie

/-- Python exceptions that occur in the modelled code. -/
inductive PyErr where
  | assertionError | typeError | nameError | indexError | valueError
  | attributeError | unboundLocalError | zeroDivisionError
  deriving DecidableEq, Repr

/-- A Python call: a value or an exception. -/
abbrev Py (α : Type*) := Except PyErr α

/-- Python `assert c`. -/
def pyAssert (c : Prop) [Decidable c] : Py Unit :=
  if c then .ok () else .error .assertionError

/-- `np.sqrt` on a float: NaN (`none`) for a negative argument. -/
noncomputable def npSqrt (x : ℝ) : Option ℝ := if 0 ≤ x then some (Real.sqrt x) else none

/-- Truncation towards zero, as done by `int(x)` and `astype('int')`. -/
def trunc {K : Type*} [Field K] [LinearOrder K] [FloorRing K] (x : K) : ℤ :=
  if 0 ≤ x then ⌊x⌋ else ⌈x⌉

/-- `int(x)` on a float: `ValueError` for NaN. -/
noncomputable def pyInt : Option ℝ → Py ℤ
  | some x => .ok (trunc x)
  | none => .error .valueError

/-- Float division: `none` stands for NaN or infinity (division by zero). -/
def fdiv {K : Type*} [Field K] [DecidableEq K] (a b : K) : Option K :=
  if b = 0 then none else some (a / b)

section Idx
variable {α β ρ : Type*}

/-- Positions at which `c` holds, counted from `n`. -/
def whereFrom (c : α → Bool) : Nat → List α → List Nat
  | _, [] => []
  | n, a :: l => if c a then n :: whereFrom c (n + 1) l else whereFrom c (n + 1) l

/-- `np.where(c(l))[0]`: the increasing list of positions at which the
condition holds. -/
def whereIdx (c : α → Bool) (l : List α) : List Nat := whereFrom c 0 l

/-- `l[idx]` for an index array (fancy indexing); an index outside the array
is an `IndexError`. -/
def gather (l : List α) : List Nat → Py (List α)
  | [] => .ok []
  | n :: ns => match l[n]? with
    | none => .error .indexError
    | some a => match gather l ns with
      | .error e => .error e
      | .ok r => .ok (a :: r)

/-- `dst[idx] = vals` for an index array: values are stored one after the
other; `IndexError` for a position outside the array, `ValueError` when the
numbers of positions and values differ. -/
def scatter (dst : List α) : List Nat → List α → Py (List α)
  | [], [] => .ok dst
  | n :: ns, v :: vs =>
      if n < dst.length then scatter (dst.set n v) ns vs else .error .indexError
  | _, _ => .error .valueError

theorem whereFrom_map (g : ρ → α) (c : α → Bool) (n : Nat) (l : List ρ) :
    whereFrom c n (l.map g) = whereFrom (fun r => c (g r)) n l := by
  induction l generalizing n with
  | nil => rfl
  | cons a l ih => simp [whereFrom, ih]

theorem whereIdx_map (g : ρ → α) (c : α → Bool) (l : List ρ) :
    whereIdx c (l.map g) = whereIdx (fun r => c (g r)) l := whereFrom_map g c 0 l

theorem gather_whereFrom (c : α → Bool) (g : α → β) (pre : List β) (l : List α) :
    gather (pre ++ l.map g) (whereFrom c pre.length l) = .ok ((l.filter c).map g) := by
  induction l generalizing pre with
  | nil => simp [whereFrom, gather]
  | cons a l ih =>
    have h := ih (pre ++ [g a])
    have e : pre ++ [g a] ++ l.map g = pre ++ (a :: l).map g := by simp
    rw [e] at h
    simp only [List.length_append, List.length_singleton] at h
    by_cases hc : c a
    · simp [whereFrom, hc, gather, List.map_cons] at h ⊢
      rw [h]
    · simp [whereFrom, hc, List.map_cons] at h ⊢
      exact h

/-- Reading a column of a table at the positions where a condition on the rows
holds gives the column of the filtered table. -/
theorem gather_whereIdx (c : ρ → Bool) (g : ρ → β) (l : List ρ) :
    gather (l.map g) (whereIdx c l) = .ok ((l.filter c).map g) := by
  simpa [whereIdx] using gather_whereFrom c g [] l

theorem scatter_whereFrom (c : ρ → Bool) (d f : ρ → β) (pre : List β) (l : List ρ) :
    scatter (pre ++ l.map d) (whereFrom c pre.length l) ((l.filter c).map f)
      = .ok (pre ++ l.map fun r => if c r then f r else d r) := by
  induction l generalizing pre with
  | nil => simp [whereFrom, scatter]
  | cons a l ih =>
    by_cases hc : c a
    · have h := ih (pre ++ [f a])
      have e : pre ++ [f a] ++ l.map d = (pre ++ (a :: l).map d).set pre.length (f a) := by
        simp
      rw [e] at h
      simp only [List.length_append, List.length_singleton] at h
      simp [whereFrom, hc, scatter] at h ⊢
      rw [h]
    · have h := ih (pre ++ [d a])
      have e : pre ++ [d a] ++ l.map d = pre ++ (a :: l).map d := by simp
      rw [e] at h
      simp only [List.length_append, List.length_singleton] at h
      simp [whereFrom, hc] at h ⊢
      rw [h]

/-- Masked assignment on a table column is a pointwise conditional. -/
theorem scatter_whereIdx (c : ρ → Bool) (d f : ρ → β) (l : List ρ) :
    scatter (l.map d) (whereIdx c l) ((l.filter c).map f)
      = .ok (l.map fun r => if c r then f r else d r) := by
  simpa [whereIdx] using scatter_whereFrom c d f [] l

theorem whereFrom_eq_zipIdx (c : α → Bool) (n : Nat) (l : List α) :
    whereFrom c n l = ((l.zipIdx n).filter fun x => c x.1).map Prod.snd := by
  induction l generalizing n with
  | nil => rfl
  | cons a l ih =>
    by_cases hc : c a
    · simp [whereFrom, hc, ih, List.zipIdx_cons]
    · simp [whereFrom, hc, ih, List.zipIdx_cons]

theorem filter_eq_zipIdx (c : α → Bool) (n : Nat) (l : List α) :
    l.filter c = ((l.zipIdx n).filter fun x => c x.1).map Prod.fst := by
  induction l generalizing n with
  | nil => rfl
  | cons a l ih =>
    by_cases hc : c a
    · simp [hc, ih (n+1), List.zipIdx_cons]
    · simp [hc, ih (n+1), List.zipIdx_cons]

/-- `cond[c1]` where `cond = np.where(c)[0]` and `c1` is a second `np.where` on
the selected rows: the positions satisfying both conditions. -/
theorem gather_whereIdx_whereIdx (c d : α → Bool) (l : List α) :
    gather (whereIdx c l) (whereIdx d (l.filter c)) = .ok (whereIdx (fun a => d a && c a) l) := by
  unfold whereIdx
  rw [filter_eq_zipIdx c 0 l, whereFrom_map, whereFrom_eq_zipIdx c 0 l]
  have h := gather_whereIdx (fun x : α × Nat => d x.1) Prod.snd
    ((l.zipIdx 0).filter fun x => c x.1)
  unfold whereIdx at h
  rw [h, whereFrom_eq_zipIdx, List.filter_filter]

theorem length_whereIdx (c : α → Bool) (l : List α) :
    (whereIdx c l).length = (l.filter c).length := by
  unfold whereIdx
  rw [whereFrom_eq_zipIdx, filter_eq_zipIdx c 0 l]; simp

theorem replicate_length_map (l : List α) (b : β) :
    List.replicate l.length b = l.map fun _ => b := by
  simp

theorem zipWith_map_same {γ : Type*} (f : α → β → γ) (g : ρ → α) (h : ρ → β) (l : List ρ) :
    List.zipWith f (l.map g) (l.map h) = l.map fun r => f (g r) (h r) := by
  rw [List.zipWith_map]; simp

theorem zip_map_same (g : ρ → α) (h : ρ → β) (l : List ρ) :
    List.zip (l.map g) (l.map h) = l.map fun r => (g r, h r) := by
  rw [List.zip, zipWith_map_same]

theorem gather_self (c : α → Bool) (l : List α) :
    gather l (whereIdx c l) = .ok (l.filter c) := by
  simpa using gather_whereIdx c id l

theorem zipWith_same_map {γ : Type*} (f : ρ → β → γ) (h : ρ → β) (l : List ρ) :
    List.zipWith f l (l.map h) = l.map fun r => f r (h r) := by
  simpa using zipWith_map_same f id h l

end Idx

section Linspace
variable {K : Type*} [Field K] [LinearOrder K] [IsStrictOrderedRing K]

/-- `np.linspace(a, b, n)` for `n ≥ 0`: `n` equally spaced values from `a` to `b`
(the division by `n - 1 = 0` for `n = 1` does not matter: only `k = 0` occurs and the
value is `a`, as in NumPy). -/
def linspace (a b : K) (n : ℕ) : List K :=
  (List.range n).map fun (k : ℕ) => a + (k : K) * ((b - a) / ((n : K) - 1))

@[simp] theorem length_linspace (a b : K) (n : ℕ) : (linspace a b n).length = n := by
  simp [linspace]

theorem getElem_linspace (a b : K) (n k : ℕ) (h : k < (linspace a b n).length) :
    (linspace a b n)[k] = a + (k : K) * ((b - a) / ((n : K) - 1)) := by
  simp [linspace]

theorem linspace_frac {n k : ℕ} (h : k < n) :
    ∃ t : K, 0 ≤ t ∧ t ≤ 1 ∧ ∀ a b : K, a + (k : K) * ((b - a) / ((n : K) - 1)) = a + t*(b-a) := by
  rcases Nat.lt_or_ge 1 n with h1 | h1
  · have hn : (0:K) < (n:K) - 1 := by
      have : (1:K) < n := by exact_mod_cast h1
      linarith
    have hk : (k:K) ≤ (n:K) - 1 := by
      have : (k:K) + 1 ≤ n := by exact_mod_cast h
      linarith
    refine ⟨(k:K)/((n:K)-1), by positivity, by rw [div_le_one hn]; exact hk, fun a b => ?_⟩
    field_simp
  · have : k = 0 := by omega
    subst this
    exact ⟨0, le_rfl, zero_le_one, fun a b => by simp⟩

theorem mem_linspace_frac {a b : K} {n : ℕ} {v : K} (h : v ∈ linspace a b n) :
    ∃ t : K, 0 ≤ t ∧ t ≤ 1 ∧ v = a + t*(b-a) := by
  unfold linspace at h
  rw [List.mem_map] at h
  obtain ⟨k, hk, rfl⟩ := h
  obtain ⟨t, h0, h1, e⟩ := linspace_frac (K := K) (List.mem_range.mp hk)
  exact ⟨t, h0, h1, e a b⟩

theorem mem_linspace_bounds {a b : K} (hab : a ≤ b) {n : ℕ} {v : K} (h : v ∈ linspace a b n) :
    a ≤ v ∧ v ≤ b := by
  obtain ⟨t, h0, h1, rfl⟩ := mem_linspace_frac h
  constructor <;> nlinarith

theorem linspace_head (a b : K) {n : ℕ} (h : 0 < n) : (linspace a b n)[0]? = some a := by
  simp [linspace, h]

theorem linspace_last (a b : K) {n : ℕ} (h : 1 < n) : (linspace a b n)[n-1]? = some b := by
  have hn : ((n:K) - 1) ≠ 0 := by
    have : (1:K) < n := by exact_mod_cast h
    linarith
  have h1 : n - 1 < n := by omega
  simp only [linspace, List.getElem?_map, List.getElem?_range h1, Option.map_some]
  rw [Nat.cast_sub (by omega), Nat.cast_one, mul_div_cancel₀ _ hn]
  congr 1; ring

end Linspace

end Magpie
