import Verif.Proof.Means64
import Verif.Proof.Float64Q
import Mathlib.Algebra.BigOperators.Field

/-!
# Property C118: ring means and Monte Carlo means in double precision

`IsDouble` and `maxDouble` are in `Verif/Spec/Float64.lean`. A summation order is a `SumTree`
(`Verif/Model/Means64.lean`); that it adds each of `n` entries once is `t.leaves.Perm (List.range n)`, and
`t.depth` is at most `n - 1`, about `log2 n` for NumPy's pairwise sums.
-/

set_option linter.unusedSimpArgs false
set_option linter.unusedVariables false
set_option linter.unusedSectionVars false

namespace Magpie.Props
open Magpie Magpie.F64 Magpie.Spec Magpie.Means64

theorem perm_sum {l : List ℕ} {n : ℕ} (h : l.Perm (List.range n)) (x : ℕ → ℝ) :
    (l.map x).sum = ∑ k ∈ Finset.range n, x k := by
  rw [(h.map x).sum_eq]
  induction n with
  | zero => simp
  | succ n ih =>
    clear h
    have : ∀ n, ((List.range n).map x).sum = ∑ k ∈ Finset.range n, x k := by
      intro n
      induction n with
      | zero => simp
      | succ n ih => rw [List.range_succ, List.map_append, List.sum_append, ih, Finset.sum_range_succ]; simp
    exact this _

theorem perm_mem {l : List ℕ} {n : ℕ} (h : l.Perm (List.range n)) {k : ℕ} (hk : k ∈ l) : k < n :=
  List.mem_range.mp (h.mem_iff.mp hk)

theorem abs_sum_le (n : ℕ) (x : ℕ → ℝ) : |∑ k ∈ Finset.range n, x k| ≤ ∑ k ∈ Finset.range n, |x k| :=
  Finset.abs_sum_le_sum_abs _ _

/-- The sum of `n` numbers with `a` roundings each. -/
theorem sum_err' {t : SumTree} {n a : ℕ} (ht : t.leaves.Perm (List.range n)) {x y : ℕ → ℝ}
    (hg : ∀ k < n, Means64.Grid (y k)) (h : ∀ k < n, Rel a (y k) (x k)) :
    |t.sum y - ∑ k ∈ Finset.range n, x k| ≤ gam (a + t.depth)*∑ k ∈ Finset.range n, |x k| := by
  have := sum_err (t := t) (x := x) (y := y) (a := a) (fun k hk => hg k (perm_mem ht hk))
    (fun k hk => h k (perm_mem ht hk))
  rwa [perm_sum ht, perm_sum ht] at this

theorem leaves_pos (t : SumTree) : t.leaves ≠ [] := by
  induction t with
  | leaf k => simp [SumTree.leaves]
  | node l r ih _ => simp [SumTree.leaves, ih]

theorem perm_pos {t : SumTree} {n : ℕ} (ht : t.leaves.Perm (List.range n)) : 0 < n := by
  rcases Nat.eq_zero_or_pos n with rfl | h
  · exact absurd (List.perm_nil.mp ht) (leaves_pos t)
  · exact h

/-! ## C118 -/

/-- No sum overflows: if the sum of the absolute values is at most half the largest double, every sum on the way is
a double, in every order. -/
theorem C118_no_overflow (t : SumTree) (x : ℕ → ℝ) (hx : ∀ k ∈ t.leaves, IsDouble (x k)) (hd : t.depth ≤ 2^42)
    (hs : 2*(t.leaves.map fun k => |x k|).sum ≤ maxDouble) : IsDouble (t.sum x) := by
  cases t with
  | leaf k => exact hx k (by simp [SumTree.leaves])
  | node l r =>
    refine fl_isDouble ?_
    simp only [SumTree.leaves, List.mem_append, SumTree.depth] at hx hd
    have key : ∀ t : SumTree, (∀ k ∈ t.leaves, IsDouble (x k)) → t.depth ≤ 2^42 →
        |t.sum x| ≤ 2*(t.leaves.map fun k => |x k|).sum := by
      intro t ht hd
      have h := sum_err (t := t) (x := x) (y := x) (a := 0) (fun k hk => grid_double (ht k hk))
        (fun k hk => Rel.refl _)
      have hs : |(t.leaves.map x).sum| ≤ (t.leaves.map fun k => |x k|).sum := by
        generalize t.leaves = s
        induction s with
        | nil => simp
        | cons k s ih =>
          simp only [List.map_cons, List.sum_cons]
          exact (abs_add_le _ _).trans (by linarith)
      have hg : gam (0 + t.depth) ≤ 1 := by
        refine (gam_le (by omega)).trans ?_
        have : ((0 + t.depth : ℕ):ℝ) ≤ 2^42 := by
          rw [zero_add]; exact_mod_cast hd
        have : ((0 + t.depth : ℕ):ℝ)/2^53 ≤ 1/2^11 := by
          rw [div_le_div_iff₀ (by norm_num) (by norm_num)]
          linarith
        nlinarith
      have h0 : 0 ≤ (t.leaves.map fun k => |x k|).sum := (abs_nonneg _).trans hs
      have := abs_sub_abs_le_abs_sub (t.sum x) (t.leaves.map x).sum
      nlinarith
    have hl := key l (fun k hk => hx k (.inl hk)) (by have := le_max_left l.depth r.depth; omega)
    have hr := key r (fun k hk => hx k (.inr hk)) (by have := le_max_right l.depth r.depth; omega)
    simp only [SumTree.leaves, List.map_append, List.sum_append] at hs
    refine (abs_add_le _ _).trans ?_
    linarith

/-- C118 for `polar2radial` without weights: whatever the order of the sum, the mean over a ring is the exact mean
up to `(depth + 1)·2^-52` times the mean of the absolute values. -/
theorem C118_ring (t t' : SumTree) (n : ℕ) (ht : t.leaves.Perm (List.range n)) (hn : n ≤ 2^53) (hd : t.depth ≤ 2^41)
    (f : ℕ → ℕ → ℝ) (j : ℕ) (hf : ∀ i < n, IsDouble (f i j)) :
    ∃ y, Means64.polar2radial t t' n f none j = some y ∧
      |y - (∑ i ∈ Finset.range n, f i j)/n|
        ≤ (t.depth + 1)/2^52*((∑ i ∈ Finset.range n, |f i j|)/n) + (2:ℝ)^(-1075 : ℤ) := by
  have hn0 : (0:ℝ) < n := by exact_mod_cast perm_pos ht
  have hi : ofInt n = n := by
    unfold ofInt
    have := fl_int (n := (n:ℤ)) (by rw [abs_of_nonneg (by positivity)]; exact_mod_cast hn)
    simpa using this
  have h := sum_err' (a := 0) ht (x := fun i => f i j) (y := fun i => f i j) (fun k hk => grid_double (hf k hk))
    (fun k hk => Rel.refl _)
  rw [zero_add] at h
  have := quot_err (D := ofInt n) (W := n) (k := t.depth) (l := 0) (by omega) h (by rw [hi, gam_zero]; simp)
    (abs_sum_le n _) hn0
  refine ⟨_, rfl, this.2.trans (le_of_eq ?_)⟩
  push_cast; ring

/-- C118 for `polar2radial` with weights that are not negative. The products must not underflow. -/
theorem C118_ring_weights (t t' : SumTree) (n : ℕ) (ht : t.leaves.Perm (List.range n))
    (ht' : t'.leaves.Perm (List.range n)) (hd : t.depth ≤ 2^40) (hd' : t'.depth ≤ 2^40)
    (f w : ℕ → ℕ → ℝ) (j : ℕ) (hw : ∀ i < n, IsDouble (w i j) ∧ 0 ≤ w i j)
    (hp : ∀ i < n, f i j*w i j = 0 ∨ (2:ℝ)^(-1022 : ℤ) ≤ |f i j*w i j|)
    (hW : 0 < ∑ i ∈ Finset.range n, w i j) :
    ∃ y, Means64.polar2radial t t' n f (some w) j = some y ∧
      |y - (∑ i ∈ Finset.range n, f i j*w i j)/∑ i ∈ Finset.range n, w i j|
        ≤ (t.depth + t'.depth + 2)/2^52*((∑ i ∈ Finset.range n, |f i j| * w i j)/∑ i ∈ Finset.range n, w i j)
          + (2:ℝ)^(-1075 : ℤ) := by
  have h := sum_err' (a := 1) ht (x := fun i => f i j*w i j) (y := fun i => F64.mul (f i j) (w i j))
    (fun k hk => grid_fl _) (fun k hk => rel_fl (hp k hk))
  have hA : ∑ i ∈ Finset.range n, |f i j*w i j| = ∑ i ∈ Finset.range n, |f i j| * w i j :=
    Finset.sum_congr rfl fun i hi => by rw [abs_mul, abs_of_nonneg (hw i (Finset.mem_range.mp hi)).2]
  have hA' : ∑ i ∈ Finset.range n, |w i j| = ∑ i ∈ Finset.range n, w i j :=
    Finset.sum_congr rfl fun i hi => abs_of_nonneg (hw i (Finset.mem_range.mp hi)).2
  have h' := sum_err' (a := 0) ht' (x := fun i => w i j) (y := fun i => w i j)
    (fun k hk => grid_double (hw k hk).1) (fun k hk => Rel.refl _)
  rw [hA'] at h'
  obtain ⟨q1, q2⟩ := quot_err (by omega) h h' (abs_sum_le n _) hW
  refine ⟨_, by unfold Means64.polar2radial; simp only []; rw [if_neg q1.ne'], q2.trans (le_of_eq ?_)⟩
  rw [hA]
  push_cast; ring

/-- The rounding cannot be left out: the mean of three times the double nearest to 0.1, added from first to last, is
another double. -/
theorem C118_constant_violated :
    let t : SumTree := .node (.node (.leaf 0) (.leaf 1)) (.leaf 2)
    let c : ℝ := 3602879701896397/2^55
    Means64.polar2radial t t 3 (fun _ _ => c) none 0 = some (7205759403792795/2^56) := by
  simp only [Means64.polar2radial, SumTree.sum, Option.some.injEq]
  have e : ((3602879701896397/2^55 : ℚ):ℝ) = 3602879701896397/2^55 := by push_cast; norm_num
  unfold F64.div F64.add F64.ofInt
  have h1 : fl ((3602879701896397/2^55 : ℝ) + 3602879701896397/2^55) = ((3602879701896397/2^54 : ℚ):ℝ) := by
    rw [← e, ← Rat.cast_add, ← flQ_cast]
    exact congrArg _ (by decide +kernel)
  have h2 : fl (((3602879701896397/2^54 : ℚ):ℝ) + 3602879701896397/2^55) = ((1351079888211149/2^52 : ℚ):ℝ) := by
    rw [← e, ← Rat.cast_add, ← flQ_cast]
    exact congrArg _ (by decide +kernel)
  have h3 : fl (((3:ℕ):ℤ):ℝ) = ((3:ℚ):ℝ) := by
    have := fl_int (n := 3) (by norm_num)
    simpa using this
  rw [h1, h2, h3, ← Rat.cast_div, ← flQ_cast]
  have : flQ (1351079888211149/2^52/3) = 7205759403792795/2^56 := by decide +kernel
  rw [this]
  push_cast; norm_num

section
variable (t t' t'' : SumTree) (n : ℕ) (ht : t.leaves.Perm (List.range n)) (ht' : t'.leaves.Perm (List.range n))
  (ht'' : t''.leaves.Perm (List.range n)) (hd : t.depth ≤ 2^40) (hd' : t'.depth ≤ 2^40) (hd'' : t''.depth ≤ 2^40)
  (m : ℕ) (hm : 0 < m) (hm' : m ≤ 2^53) (h : ℕ → ℕ) (hh : ∀ k < n, 0 < h k ∧ h k ≤ m)
include ht ht' ht'' hd hd' hd'' hm hm' hh

theorem weight64 {k : ℕ} (hk : k < n) :
    Rel 1 (F64.div (F64.ofInt (h k)) (F64.ofInt m)) ((h k:ℝ)/m) ∧
    (2:ℝ)^(-54 : ℤ) ≤ F64.div (F64.ofInt (h k)) (F64.ofInt m) := by
  obtain ⟨h1, h2⟩ := hh k hk
  have e : ∀ a : ℕ, a ≤ 2^53 → F64.ofInt a = a := by
    intro a ha
    unfold F64.ofInt
    have := fl_int (n := (a:ℤ)) (by rw [abs_of_nonneg (by positivity)]; exact_mod_cast ha)
    simpa using this
  rw [e m hm', e (h k) (h2.trans hm')]
  have hm0 : (0:ℝ) < m := by exact_mod_cast hm
  have hge : (2:ℝ)^(-53 : ℤ) ≤ (h k:ℝ)/m := by
    rw [le_div_iff₀ hm0]
    have a1 : (m:ℝ) ≤ 2^53 := by exact_mod_cast hm'
    have a2 : (1:ℝ) ≤ h k := by exact_mod_cast h1
    have a3 : (2:ℝ)^(-53 : ℤ) = 1/2^53 := by norm_num
    rw [a3]
    refine le_trans ?_ a2
    rw [one_div_mul_eq_div, div_le_one (by norm_num)]
    exact a1
  have hnn : 0 ≤ (h k:ℝ)/m := by positivity
  have hR : Rel 1 (fl ((h k:ℝ)/m)) ((h k:ℝ)/m) := by
    refine rel_fl (.inr ?_)
    rw [abs_of_nonneg hnn]
    exact le_trans (zpow_le_zpow_right₀ (by norm_num) (by norm_num)) hge
  refine ⟨hR, ?_⟩
  unfold F64.div
  unfold Means64.Rel at hR
  rw [gam_one, abs_of_nonneg hnn] at hR
  have := (abs_le.mp hR).1
  have e2 : (2:ℝ)^(-54 : ℤ) = (2:ℝ)^(-53 : ℤ)/2 := by
    rw [show (-53 : ℤ) = -54 + 1 by norm_num, zpow_add₀ (by norm_num)]; norm_num
  rw [e2]
  nlinarith

theorem weights_pos : 0 < ∑ k ∈ Finset.range n, (h k:ℝ)/m := by
  have hm0 : (0:ℝ) < m := by exact_mod_cast hm
  refine Finset.sum_pos (fun k hk => ?_) ⟨0, Finset.mem_range.mpr (perm_pos ht)⟩
  have : (0:ℝ) < h k := by exact_mod_cast (hh k (Finset.mem_range.mp hk)).1
  positivity

theorem weights_sum {s : SumTree} (hs : s.leaves.Perm (List.range n)) :
    |s.sum (fun k => F64.div (F64.ofInt (h k)) (F64.ofInt m)) - ∑ k ∈ Finset.range n, (h k:ℝ)/m|
      ≤ gam (1 + s.depth)*∑ k ∈ Finset.range n, (h k:ℝ)/m := by
  have := sum_err' (a := 1) hs (x := fun k => (h k:ℝ)/m)
    (y := fun k => F64.div (F64.ofInt (h k)) (F64.ofInt m)) (fun k hk => grid_fl _)
    (fun k hk => (weight64 t t' t'' n ht ht' ht'' hd hd' hd'' m hm hm' h hh hk).1)
  rwa [show ∑ k ∈ Finset.range n, |(h k:ℝ)/m| = ∑ k ∈ Finset.range n, (h k:ℝ)/m from
    Finset.sum_congr rfl fun k _ => abs_of_nonneg (by positivity)] at this

theorem weights_ne {s : SumTree} (hs : s.leaves.Perm (List.range n)) (hsd : s.depth ≤ 2^40) :
    s.sum (fun k => F64.div (F64.ofInt (h k)) (F64.ofInt m)) ≠ 0 := by
  have hW := weights_pos t t' t'' n ht ht' ht'' hd hd' hd'' m hm hm' h hh
  have := quot_err (N := 0) (F := 0) (A := 0) (k := 0) (by omega) (by simp)
    (weights_sum t t' t'' n ht ht' ht'' hd hd' hd'' m hm hm' h hh hs) (by simp) hW
  exact this.1.ne'

/-- C118 for the Monte Carlo remappings: a pixel of `remap` of `Box2Ring` and `Cube2Shell` with `n` pixels of the box
or cube hit, the `k`-th by `h k` of the `m` random points, has the mean over the points up to rounding. -/
theorem C118_remap (f : ℕ → ℝ) (hf : ∀ k < n, f k = 0 ∨ (2:ℝ)^(-900 : ℤ) ≤ |f k|) :
    ∃ y, Means64.remapPixel t t' t'' m h f none = some y ∧
      |y - (∑ k ∈ Finset.range n, h k*f k)/∑ k ∈ Finset.range n, (h k:ℝ)|
        ≤ (t.depth + t'.depth + 4)/2^52*((∑ k ∈ Finset.range n, h k*|f k|)/∑ k ∈ Finset.range n, (h k:ℝ))
          + (2:ℝ)^(-1075 : ℤ) := by
  have hm0 : (0:ℝ) < m := by exact_mod_cast hm
  have hwt := fun k hk => weight64 t t' t'' n ht ht' ht'' hd hd' hd'' m hm hm' h hh (k := k) hk
  have hN := sum_err' (a := 2) ht (x := fun k => (h k:ℝ)/m*f k)
    (y := fun k => F64.mul (F64.div (F64.ofInt (h k)) (F64.ofInt m)) (f k)) (fun k hk => grid_fl _) (by
      intro k hk
      obtain ⟨h1, h2⟩ := hwt k hk
      refine (h1.mul (Rel.refl (f k))).trans (rel_fl ?_)
      rcases hf k hk with e | e
      · left; rw [e, mul_zero]
      · right
        rw [abs_mul, abs_of_nonneg ((by positivity : (0:ℝ) ≤ (2:ℝ)^(-54 : ℤ)).trans h2)]
        refine le_trans ?_ (mul_le_mul h2 e (by positivity) ((by positivity : (0:ℝ) ≤ (2:ℝ)^(-54 : ℤ)).trans h2))
        rw [← zpow_add₀ (by norm_num)]
        exact zpow_le_zpow_right₀ (by norm_num) (by norm_num))
  have hW := weights_pos t t' t'' n ht ht' ht'' hd hd' hd'' m hm hm' h hh
  have hD := weights_sum t t' t'' n ht ht' ht'' hd hd' hd'' m hm hm' h hh ht'
  obtain ⟨q1, q2⟩ := quot_err (by omega) hN hD (abs_sum_le n _) hW
  refine ⟨_, by
    unfold Means64.remapPixel
    simp only []
    rw [if_pos (weights_ne t t' t'' n ht ht' ht'' hd hd' hd'' m hm hm' h hh ht'' hd''), if_neg q1.ne'], ?_⟩
  have e1 : (∑ k ∈ Finset.range n, (h k:ℝ)/m) = (∑ k ∈ Finset.range n, (h k:ℝ))/m := by rw [Finset.sum_div]
  have e2 : (∑ k ∈ Finset.range n, (h k:ℝ)/m*f k) = (∑ k ∈ Finset.range n, h k*f k)/m := by
    rw [Finset.sum_div]; exact Finset.sum_congr rfl fun k _ => by ring
  have e3 : (∑ k ∈ Finset.range n, |(h k:ℝ)/m*f k|) = (∑ k ∈ Finset.range n, h k*|f k|)/m := by
    rw [Finset.sum_div]
    refine Finset.sum_congr rfl fun k _ => ?_
    rw [abs_mul, abs_of_nonneg (by positivity)]; ring
  rw [e1, e2, e3, div_div_div_cancel_right₀ hm0.ne', div_div_div_cancel_right₀ hm0.ne'] at q2
  refine q2.trans (le_of_eq ?_)
  push_cast; ring

/-- C118 with weights that are not negative, for the Monte Carlo remappings. -/
theorem C118_remap_weights (f w : ℕ → ℝ) (hf : ∀ k < n, f k = 0 ∨ (2:ℝ)^(-500 : ℤ) ≤ |f k|)
    (hw : ∀ k < n, w k = 0 ∨ (2:ℝ)^(-400 : ℤ) ≤ w k) (hw1 : ∃ k < n, w k ≠ 0) :
    ∃ y, Means64.remapPixel t t' t'' m h f (some w) = some y ∧
      |y - (∑ k ∈ Finset.range n, h k*w k*f k)/∑ k ∈ Finset.range n, h k*w k|
        ≤ (t.depth + t'.depth + 6)/2^52*((∑ k ∈ Finset.range n, h k*w k*|f k|)/∑ k ∈ Finset.range n, h k*w k)
          + (2:ℝ)^(-1075 : ℤ) := by
  have hm0 : (0:ℝ) < m := by exact_mod_cast hm
  have hwt := fun k hk => weight64 t t' t'' n ht ht' ht'' hd hd' hd'' m hm hm' h hh (k := k) hk
  have hw0 : ∀ k < n, 0 ≤ w k := fun k hk => by
    rcases hw k hk with e | e
    · rw [e]
    · exact (by positivity : (0:ℝ) ≤ (2:ℝ)^(-400 : ℤ)).trans e
  -- the products of the two weights
  have hq : ∀ k < n, Rel 2 (F64.mul (F64.div (F64.ofInt (h k)) (F64.ofInt m)) (w k)) ((h k:ℝ)/m*w k) ∧
      (w k = 0 ∧ F64.mul (F64.div (F64.ofInt (h k)) (F64.ofInt m)) (w k) = 0 ∨
        (2:ℝ)^(-455 : ℤ) ≤ F64.mul (F64.div (F64.ofInt (h k)) (F64.ofInt m)) (w k)) := by
    intro k hk
    obtain ⟨h1, h2⟩ := hwt k hk
    have hz : (0:ℝ) ≤ F64.div (F64.ofInt (h k)) (F64.ofInt m) := (by positivity : (0:ℝ) ≤ (2:ℝ)^(-54 : ℤ)).trans h2
    rcases hw k hk with e | e
    · have : F64.mul (F64.div (F64.ofInt (h k)) (F64.ofInt m)) (w k) = 0 := by
        unfold F64.mul; rw [e, mul_zero, fl_zero]
      exact ⟨by rw [this, e, mul_zero]; exact (Rel.refl 0).mono (by norm_num), .inl ⟨e, this⟩⟩
    · have hge : (2:ℝ)^(-454 : ℤ) ≤ F64.div (F64.ofInt (h k)) (F64.ofInt m)*w k := by
        refine le_trans ?_ (mul_le_mul h2 e (by positivity) hz)
        rw [← zpow_add₀ (by norm_num)]
        norm_num
      have hge0 : 0 ≤ F64.div (F64.ofInt (h k)) (F64.ofInt m)*w k := (by positivity : (0:ℝ) ≤ (2:ℝ)^(-454 : ℤ)).trans hge
      have hR : Rel 1 (fl (F64.div (F64.ofInt (h k)) (F64.ofInt m)*w k)) (F64.div (F64.ofInt (h k)) (F64.ofInt m)*w k) := by
        refine rel_fl (.inr ?_)
        rw [abs_of_nonneg hge0]
        exact le_trans (zpow_le_zpow_right₀ (by norm_num) (by norm_num)) hge
      refine ⟨(h1.mul (Rel.refl (w k))).trans hR, .inr ?_⟩
      unfold F64.mul
      unfold Means64.Rel at hR
      rw [gam_one, abs_of_nonneg hge0] at hR
      have := (abs_le.mp hR).1
      have e2 : (2:ℝ)^(-455 : ℤ) = (2:ℝ)^(-454 : ℤ)/2 := by
        rw [show (-454 : ℤ) = -455 + 1 by norm_num, zpow_add₀ (by norm_num)]; norm_num
      rw [e2]
      nlinarith
  have hN := sum_err' (a := 3) ht (x := fun k => (h k:ℝ)/m*w k*f k)
    (y := fun k => F64.mul (F64.mul (F64.div (F64.ofInt (h k)) (F64.ofInt m)) (w k)) (f k)) (fun k hk => grid_fl _) (by
      intro k hk
      obtain ⟨h1, h2⟩ := hq k hk
      refine (h1.mul (Rel.refl (f k))).trans (rel_fl ?_)
      rcases h2 with ⟨-, e⟩ | h2
      · left; rw [e, zero_mul]
      rcases hf k hk with e | e
      · left; rw [e, mul_zero]
      · right
        have hz := (by positivity : (0:ℝ) ≤ (2:ℝ)^(-455 : ℤ)).trans h2
        rw [abs_mul, abs_of_nonneg hz]
        refine le_trans ?_ (mul_le_mul h2 e (by positivity) hz)
        rw [← zpow_add₀ (by norm_num)]
        exact zpow_le_zpow_right₀ (by norm_num) (by norm_num))
  have hD := sum_err' (a := 2) ht' (x := fun k => (h k:ℝ)/m*w k)
    (y := fun k => F64.mul (F64.div (F64.ofInt (h k)) (F64.ofInt m)) (w k)) (fun k hk => grid_fl _)
    (fun k hk => (hq k hk).1)
  have hnn : ∀ k < n, 0 ≤ (h k:ℝ)/m*w k := fun k hk => mul_nonneg (by positivity) (hw0 k hk)
  rw [show ∑ k ∈ Finset.range n, |(h k:ℝ)/m*w k| = ∑ k ∈ Finset.range n, (h k:ℝ)/m*w k from
    Finset.sum_congr rfl fun k hk => abs_of_nonneg (hnn k (Finset.mem_range.mp hk))] at hD
  have hW : 0 < ∑ k ∈ Finset.range n, (h k:ℝ)/m*w k := by
    obtain ⟨k, hk, hkw⟩ := hw1
    refine Finset.sum_pos' (fun k hk => hnn k (Finset.mem_range.mp hk)) ⟨k, Finset.mem_range.mpr hk, ?_⟩
    have : (0:ℝ) < h k := by exact_mod_cast (hh k hk).1
    exact mul_pos (by positivity) (lt_of_le_of_ne (hw0 k hk) (Ne.symm hkw))
  obtain ⟨q1, q2⟩ := quot_err (by omega) hN hD (abs_sum_le n _) hW
  refine ⟨_, by
    unfold Means64.remapPixel
    simp only []
    rw [if_pos (weights_ne t t' t'' n ht ht' ht'' hd hd' hd'' m hm hm' h hh ht'' hd''), if_neg q1.ne'], ?_⟩
  have e1 : (∑ k ∈ Finset.range n, (h k:ℝ)/m*w k) = (∑ k ∈ Finset.range n, h k*w k)/m := by
    rw [Finset.sum_div]; exact Finset.sum_congr rfl fun k _ => by ring
  have e2 : (∑ k ∈ Finset.range n, (h k:ℝ)/m*w k*f k) = (∑ k ∈ Finset.range n, h k*w k*f k)/m := by
    rw [Finset.sum_div]; exact Finset.sum_congr rfl fun k _ => by ring
  have e3 : (∑ k ∈ Finset.range n, |(h k:ℝ)/m*w k*f k|) = (∑ k ∈ Finset.range n, h k*w k*|f k|)/m := by
    rw [Finset.sum_div]
    refine Finset.sum_congr rfl fun k hk => ?_
    rw [abs_mul, abs_of_nonneg (hnn k (Finset.mem_range.mp hk))]; ring
  rw [e1, e2, e3, div_div_div_cancel_right₀ hm0.ne', div_div_div_cancel_right₀ hm0.ne'] at q2
  refine q2.trans (le_of_eq ?_)
  push_cast; ring

/-- C118: the mask of pixels inside the box, the remapping of ones, is exactly one in double precision for a pixel
with a hit, if the two sums of equal arrays are made in the same order. -/
theorem C118_mask : Means64.remapPixel t' t' t'' m h (fun _ => 1) none = some 1 := by
  have h1 := weights_ne t t' t'' n ht ht' ht'' hd hd' hd'' m hm hm' h hh ht' hd'
  unfold Means64.remapPixel
  simp only []
  rw [if_pos (weights_ne t t' t'' n ht ht' ht'' hd hd' hd'' m hm hm' h hh ht'' hd''), if_neg h1]
  have e : (fun k => F64.mul (F64.div (F64.ofInt (h k)) (F64.ofInt m)) 1)
      = fun k => F64.div (F64.ofInt (h k)) (F64.ofInt m) := by
    funext k
    unfold F64.mul F64.div
    rw [mul_one, fl_fl]
  rw [e]
  unfold F64.div at h1 ⊢
  rw [div_self h1]
  have := fl_int (n := 1) (by norm_num)
  simpa using this

end

/-- NumPy's order for three rows, and NumPy's pairwise order for four, are among the orders. -/
example : (SumTree.node (.node (.leaf 0) (.leaf 1)) (.leaf 2)).leaves.Perm (List.range 3) ∧
    (SumTree.node (.node (.leaf 0) (.leaf 1)) (.node (.leaf 2) (.leaf 3))).leaves.Perm (List.range 4) ∧
    (SumTree.node (.node (.leaf 0) (.leaf 1)) (.node (.leaf 2) (.leaf 3))).depth = 2 := by
  decide

/-- A ring of three pixels of values 1, 1/2 and 0 with a mask that leaves out the second. -/
example : ∃ (f w : ℕ → ℕ → ℝ), (∀ i < 3, IsDouble (w i 0) ∧ 0 ≤ w i 0) ∧
    (∀ i < 3, f i 0*w i 0 = 0 ∨ (2:ℝ)^(-1022 : ℤ) ≤ |f i 0*w i 0|) ∧
    0 < ∑ i ∈ Finset.range 3, w i 0 := by
  refine ⟨fun i _ => if i = 0 then 1 else if i = 1 then 1/2 else 0, fun i _ => if i = 1 then 0 else 1, ?_, ?_, ?_⟩
  · intro i hi
    by_cases h : i = 1
    · simp only [h, if_true]
      exact ⟨⟨0, 0, by norm_num, by norm_num, by norm_num, by norm_num⟩, le_rfl⟩
    · simp only [h, if_false]
      exact ⟨⟨1, 0, by norm_num, by norm_num, by norm_num, by norm_num⟩, by norm_num⟩
  · intro i hi
    by_cases h : i = 1
    · left; simp [h]
    · by_cases h0 : i = 0
      · right
        subst h0
        simp only [if_true, one_mul, zero_ne_one, if_false, abs_one]
        exact zpow_le_one_of_nonpos₀ (by norm_num) (by norm_num)
      · left; simp [h, h0]
  · norm_num [Finset.sum_range_succ]

/-- Two pixels hit by three and one of four points. -/
example : ∀ k < 2, 0 < (fun k : ℕ => if k = 0 then 3 else 1) k ∧ (fun k : ℕ => if k = 0 then 3 else 1) k ≤ 4 := by
  intro k _
  by_cases h : k = 0 <;> simp [h]

end Magpie.Props
