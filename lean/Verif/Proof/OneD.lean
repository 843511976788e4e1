import Verif.Model.OneD
import Verif.Proof.Flat
import Verif.Spec.Remap
import Mathlib.Algebra.BigOperators.Intervals
import Mathlib.Algebra.BigOperators.Group.List.Basic
import Mathlib.Algebra.Order.BigOperators.Group.Finset
import Mathlib.Algebra.BigOperators.Field

set_option linter.unusedSimpArgs false
set_option linter.unusedVariables false
set_option linter.unusedSectionVars false

namespace Magpie.OneD

/-! ## Monotone lists -/

section Mono
variable {K : Type} [LinearOrder K]

theorem isPosMonotonic_iff (arr : List K) :
    isPosMonotonic arr = true ↔
      ∀ i j (hi : i < arr.length) (hj : j < arr.length), i ≤ j → arr[i] ≤ arr[j] := by
  unfold isPosMonotonic
  rw [List.all_eq_true]
  constructor
  · intro h i j hi hj hij
    induction j with
    | zero => have : i = 0 := by omega
              subst this; exact le_refl _
    | succ j ih =>
      rcases Nat.lt_or_ge i (j+1) with h1 | h1
      · have hj' : j < arr.length := by omega
        have := h j (by simp; omega)
        rw [List.getElem?_eq_getElem hj', List.getElem?_eq_getElem hj] at this
        exact le_trans (ih hj' (by omega)) (by simpa using this)
      · have : i = j+1 := by omega
        subst this; exact le_refl _
  · intro h i hi
    simp only [List.mem_range] at hi
    rw [List.getElem?_eq_getElem (by omega : i < arr.length),
      List.getElem?_eq_getElem (by omega : i+1 < arr.length)]
    simpa using h i (i+1) (by omega) (by omega) (by omega)

end Mono

/-! ## Lists as tabulated functions -/

section Tab
variable {α : Type}

/-- The list `[f 0, …, f (n-1)]`. -/
def tab (n : ℕ) (f : ℕ → α) : List α := (List.range n).map f

@[simp] theorem tab_length (n : ℕ) (f : ℕ → α) : (tab n f).length = n := by simp [tab]

theorem tab_getElem? (n : ℕ) (f : ℕ → α) (k : ℕ) (h : k < n) : (tab n f)[k]? = some (f k) := by
  simp [tab, h]

theorem eq_tab [Inhabited α] (l : List α) : l = tab l.length fun k => l.getD k default := by
  apply List.ext_getElem
  · simp
  · intro i h1 h2
    simp [tab, h1]

theorem getZ_tab (n : ℕ) (f : ℕ → α) (k : ℕ) (h : k < n) : getZ (tab n f) (k : ℤ) = .ok (f k) := by
  unfold getZ
  simp [tab_getElem? n f k h]

theorem getZ_tab' (n : ℕ) (f : ℕ → α) (i : ℤ) (k : ℕ) (hi : i = k) (h : k < n) :
    getZ (tab n f) i = .ok (f k) := by
  subst hi; exact getZ_tab n f k h

theorem getZ_tab_last (n : ℕ) (f : ℕ → α) (h : 0 < n) : getZ (tab n f) (-1) = .ok (f (n-1)) := by
  unfold getZ
  have : ((-1 : ℤ) + (n:ℤ)).toNat = n - 1 := by omega
  have h2 : (0:ℤ) ≤ -1 + (n:ℤ) := by omega
  simp only [tab_length, this, h2, if_true]
  simp [tab_getElem? n f (n-1) (by omega)]

theorem getZ_tab_none (n : ℕ) (f : ℕ → α) (k : ℕ) (h : n ≤ k) :
    getZ (tab n f) (k : ℤ) = .error .indexError := by
  unfold getZ
  simp [tab, h]

theorem gatherZ_tab (n : ℕ) (f : ℕ → α) (idx : List ℕ) (h : ∀ k ∈ idx, k < n) :
    gatherZ (tab n f) (idx.map fun (k : ℕ) => (k : ℤ)) = .ok (idx.map f) := by
  induction idx with
  | nil => rfl
  | cons k ks ih =>
    simp only [List.map_cons, gatherZ]
    rw [getZ_tab n f k (h k (by simp)), ih (fun k hk => h k (by simp [hk]))]
    rfl

theorem whereFrom_tab (c : α → Bool) (L R : ℕ) (l : List α) (n : ℕ)
    (h : ∀ k a, l[k]? = some a → (c a = true ↔ L ≤ n + k ∧ n + k < R)) :
    whereFrom c n l = (List.range' n l.length).filter fun k => decide (L ≤ k ∧ k < R) := by
  induction l generalizing n with
  | nil => rfl
  | cons a l ih =>
    have h0 := h 0 a (by simp)
    have ih' := ih (n+1) (fun k b hb => by
      have := h (k+1) b (by simpa using hb)
      rw [this]; constructor <;> (intro _; omega))
    simp only [List.length_cons, List.range'_succ, List.filter_cons, whereFrom, ih']
    simp only [Nat.add_zero] at h0
    by_cases hc : c a = true
    · simp [hc, h0.mp hc]
    · rw [if_neg hc, if_neg (by simp only [decide_eq_true_eq]; exact fun hh => hc (h0.mpr hh))]

theorem filter_range'_window (L R N : ℕ) (hL : L ≤ R) (hR : R ≤ N) :
    (List.range' 0 N).filter (fun k => decide (L ≤ k ∧ k < R)) = List.range' L (R - L) := by
  have e : List.range' 0 N = List.range' 0 L ++ (List.range' L (R-L) ++ List.range' R (N-R)) := by
    have h1 := List.range'_append_1 (s := L) (m := R-L) (n := N-R)
    have h2 := List.range'_append_1 (s := 0) (m := L) (n := N-L)
    rw [show L + (R-L) = R by omega, show R - L + (N-R) = N-L by omega] at h1
    rw [show 0 + L = L by omega, show L + (N-L) = N by omega] at h2
    rw [h1, h2]
  rw [e, List.filter_append, List.filter_append]
  have f1 : (List.range' 0 L).filter (fun k => decide (L ≤ k ∧ k < R)) = [] := by
    rw [List.filter_eq_nil_iff]; intro k hk; simp at hk ⊢; omega
  have f2 : (List.range' L (R-L)).filter (fun k => decide (L ≤ k ∧ k < R)) = List.range' L (R-L) := by
    rw [List.filter_eq_self]; intro k hk; simp at hk ⊢; omega
  have f3 : (List.range' R (N-R)).filter (fun k => decide (L ≤ k ∧ k < R)) = [] := by
    rw [List.filter_eq_nil_iff]; intro k hk; simp at hk ⊢; omega
  rw [f1, f2, f3]; simp

theorem whereIdx_tab (c : α → Bool) (L R n : ℕ) (f : ℕ → α) (hL : L ≤ R) (hR : R ≤ n)
    (h : ∀ k, k < n → (c (f k) = true ↔ L ≤ k ∧ k < R)) :
    whereIdx c (tab n f) = List.range' L (R - L) := by
  unfold whereIdx
  rw [whereFrom_tab c L R, tab_length, filter_range'_window L R n hL hR]
  intro k a ha
  have hk : k < n := by
    by_contra hk
    rw [List.getElem?_eq_none (by simp; omega)] at ha
    simp at ha
  rw [tab_getElem? n f k hk] at ha
  simp only [Option.some.injEq] at ha
  rw [← ha, h k hk]; simp

end Tab

/-! ## One new bin -/

section Single
variable {K : Type} [Field K] [LinearOrder K] [IsStrictOrderedRing K]

/-- `L` edges lie strictly below `bmin`, `R` edges lie at or below `bmax`. -/
structure Window (e : ℕ → K) (n : ℕ) (bmin bmax : K) (L R : ℕ) : Prop where
  hL : L ≤ n + 1
  hR : R ≤ n + 1
  le : L ≤ R
  lt_min : ∀ k, k ≤ n → (e k < bmin ↔ k < L)
  le_max : ∀ k, k ≤ n → (e k ≤ bmax ↔ k < R)

theorem exists_cut (P : ℕ → Prop) (n : ℕ) (h : ∀ i j, i ≤ j → j ≤ n → P j → P i) :
    ∃ L, L ≤ n + 1 ∧ ∀ k, k ≤ n → (P k ↔ k < L) := by
  classical
  by_cases hall : ∀ k, k ≤ n → P k
  · exact ⟨n+1, le_refl _, fun k hk => ⟨fun _ => by omega, fun _ => hall k hk⟩⟩
  · push Not at hall
    have hex : ∃ k, k ≤ n ∧ ¬ P k := hall
    refine ⟨Nat.find hex, ?_, ?_⟩
    · have := (Nat.find_spec hex).1; omega
    · intro k hk
      constructor
      · intro hP
        by_contra hlt
        exact (Nat.find_spec hex).2 (h _ k (by omega) hk hP)
      · intro hlt
        by_contra hP
        exact Nat.find_min hex hlt ⟨hk, hP⟩

theorem exists_window (e : ℕ → K) (n : ℕ) (he : ∀ i j, i ≤ j → j ≤ n → e i ≤ e j) {bmin bmax : K}
    (hb : bmin ≤ bmax) : ∃ L R, Window e n bmin bmax L R := by
  obtain ⟨L, hL, h1⟩ := exists_cut (fun k => e k < bmin) n
    (fun i j hij hj hP => lt_of_le_of_lt (he i j hij hj) hP)
  obtain ⟨R, hR, h2⟩ := exists_cut (fun k => e k ≤ bmax) n
    (fun i j hij hj hP => le_trans (he i j hij hj) hP)
  refine ⟨L, R, hL, hR, ?_, h1, h2⟩
  by_contra hlt
  have h3 : e R < bmin := (h1 R (by omega)).mpr (by omega)
  have h4 := (h2 R (by omega)).mp (le_of_lt (lt_of_lt_of_le h3 hb))
  omega

variable {e : ℕ → K} {n : ℕ} {bmin bmax : K} {L R : ℕ}

theorem condition_eq (W : Window e n bmin bmax L R) :
    condition (tab (n+1) e) bmin bmax = List.range' L (R - L) := by
  unfold condition
  refine whereIdx_tab _ L R (n+1) e W.le W.hR ?_
  intro k hk
  have h1 := W.lt_min k (by omega)
  have h2 := W.le_max k (by omega)
  simp only [Bool.and_eq_true, decide_eq_true_eq, ge_iff_le, h2, ← not_lt, h1]

theorem condition1_eq (W : Window e n bmin bmax L R) :
    condition1 (tab (n+1) e) bmin = List.range' L (n + 1 - L) := by
  unfold condition1
  refine whereIdx_tab _ L (n+1) (n+1) e W.hL (le_refl _) ?_
  intro k hk
  have h1 := W.lt_min k (by omega)
  simp only [decide_eq_true_eq, ge_iff_le, ← not_lt, h1]
  constructor <;> (intro _; omega)

theorem npSum_some (l : List K) : npSum (l.map some) = some l.sum := by
  unfold npSum
  have : (l.map some).mapM id = some l := by
    induction l with
    | nil => rfl
    | cons a l ih => simp [List.mapM_cons, ih]
  rw [this]; rfl

theorem npSum_none (l : List (Option K)) (h : none ∈ l) : npSum l = none := by
  unfold npSum
  have : l.mapM id = none := by
    induction l with
    | nil => simp at h
    | cons a l ih =>
      cases a with
      | none => simp [List.mapM_cons]
      | some a =>
        have : none ∈ l := by simpa using h
        simp [List.mapM_cons, ih this]
  rw [this]; rfl

/-- The weight the code gives to bin `k` in the general case, before division by zero is taken
into account. -/
def wgt (e : ℕ → K) (n : ℕ) (bmin bmax : K) (L R : ℕ) (k : ℕ) : Option K :=
  if k + 1 = L then fdiv (e L - bmin) (e L - e (L-1))
  else if k + 1 = R ∧ k < n then fdiv (bmax - e k) (e k - e (k-1))
  else some 1

theorem startIndex_eq (L p n : ℕ) (e : ℕ → K) (hR : L + p + 2 ≤ n + 1) (hc : ¬ (L = 0 ∧ L + p + 1 = n)) :
    startIndex (tab (n+1) e) (List.range' L (p+2))
      = ((List.range' (L-1) ((min (L+p+2) n) - (L-1))).map (fun (k : ℕ) => (k:ℤ)),
          List.replicate ((min (L+p+2) n) - (L-1)) (some 1)) := by
  unfold startIndex
  have hlast : (List.range' L (p+2)).getLastD 0 = L + p + 1 := by
    have hr : List.range' L (p+2) = List.range' L (p+1) ++ [L+p+1] := by
      rw [List.range'_concat]; simp [Nat.add_assoc]
    rw [hr]; simp [List.getLastD_eq_getLast?]
  have hhead : (List.range' L (p+2)).headD 0 = L := by simp [List.range'_succ]
  have hidx : ((List.range' L (p+2)).map fun (c : ℕ) => (c : ℤ) - 1) ++ [((L+p+1 : ℕ) : ℤ)]
      = ((L:ℤ) - 1) :: (List.range' L (p+2)).map (fun (c : ℕ) => (c : ℤ)) := by
    have h1 : List.range' L (p+2) = List.range' L (p+1) ++ [L+p+1] := by
      rw [List.range'_concat]; simp [Nat.add_assoc]
    have h2 : (List.range' L (p+2)).map (fun (c : ℕ) => (c : ℤ) - 1)
        = ((L:ℤ) - 1) :: (List.range' L (p+1)).map (fun (c : ℕ) => (c : ℤ)) := by
      rw [List.range'_succ, List.map_cons]
      congr 1
      rw [List.range'_eq_map_range, List.range'_eq_map_range, List.map_map, List.map_map]
      apply List.map_congr_left
      intro a _
      simp only [Function.comp]
      push_cast; ring
    rw [h2, List.cons_append]
    congr 1
    rw [h1, List.map_append]; rfl
  simp only [hlast, hhead, tab_length, Nat.add_sub_cancel, hidx, List.length_range']
  by_cases h1 : L + p + 1 = n
  · have hL0 : L ≠ 0 := fun h => hc ⟨h, h1⟩
    rw [if_pos h1]
    have hm : min (L+p+2) n - (L-1) = p + 2 := by omega
    rw [hm]
    refine Prod.ext ?_ ?_
    · simp only
      have hr : List.range' L (p+2) = List.range' L (p+1) ++ [L+p+1] := by
        rw [List.range'_concat]; simp [Nat.add_assoc]
      rw [hr, List.map_append, List.map_singleton, ← List.cons_append, List.dropLast_concat]
      rw [show p + 2 = (p+1) + 1 by omega, List.range'_succ (s := L-1), List.map_cons]
      rw [show L - 1 + 1 = L by omega]
      congr 1
      omega
    · simp only
      rw [show p + 2 + 1 = (p+2) + 1 by omega, List.replicate_succ', List.dropLast_concat]
  · rw [if_neg h1]
    by_cases hL0 : L = 0
    · rw [if_pos hL0]
      subst hL0
      have hm : min (0+p+2) n - (0-1) = p + 2 := by omega
      rw [hm]
      refine Prod.ext ?_ ?_
      · simp
      · simp [List.replicate_succ]
    · rw [if_neg hL0]
      have hm : min (L+p+2) n - (L-1) = p + 3 := by omega
      rw [hm]
      refine Prod.ext ?_ ?_
      · simp only
        rw [show p + 3 = (p+2) + 1 by omega, List.range'_succ (s := L-1), List.map_cons]
        rw [show L - 1 + 1 = L by omega]
        congr 1
        omega
      · rfl

theorem generalWeights_eq (W : Window e n bmin bmax L R) (h2 : L + 2 ≤ R)
    (hc : ¬ (L = 0 ∧ R = n + 1)) :
    generalWeights (tab (n+1) e) bmin bmax (List.range' L (R-L))
      = .ok ((List.range' (L-1) (min R n - (L-1))).map (fun (k : ℕ) => (k:ℤ)),
          (List.range' (L-1) (min R n - (L-1))).map (wgt e n bmin bmax L R)) := by
  obtain ⟨p, rfl⟩ : ∃ p, R = L + p + 2 := ⟨R - L - 2, by omega⟩
  have hR := W.hR
  have hd : L + p + 2 - L = p + 2 := by omega
  rw [hd]
  unfold generalWeights
  rw [startIndex_eq L p n e hR (by omega)]
  have hlast : (List.range' L (p+2)).getLastD 0 = L + p + 1 := by
    have hr : List.range' L (p+2) = List.range' L (p+1) ++ [L+p+1] := by
      rw [List.range'_concat]; simp [Nat.add_assoc]
    rw [hr]; simp [List.getLastD_eq_getLast?]
  have hhead : (List.range' L (p+2)).headD 0 = L := by simp [List.range'_succ]
  simp only [hlast, hhead, tab_length, Nat.add_sub_cancel]
  set m := min (L+p+2) n - (L-1) with hm
  have hw1 : (if L ≠ 0 then (do
      let e1 ← getZ (tab (n+1) e) (L:ℤ)
      let e' ← getZ (tab (n+1) e) ((L:ℤ) - 1)
      pure ((List.replicate m (some (1:K))).set 0 (fdiv (e1 - bmin) (e1 - e'))))
    else pure (List.replicate m (some (1:K))) : Py (List (Option K)))
      = .ok ((List.range' (L-1) m).map fun k =>
          if k + 1 = L then fdiv (e L - bmin) (e L - e (L-1)) else some 1) := by
    by_cases hL0 : L = 0
    · rw [if_neg (by simpa using hL0)]
      show Except.ok _ = _
      congr 1
      apply List.ext_getElem
      · simp
      · intro i hi1 hi2
        simp [hL0]
    · rw [if_pos hL0, getZ_tab (n+1) e L (by omega), getZ_tab' (n+1) e _ (L-1) (by omega) (by omega)]
      show Except.ok _ = _
      congr 1
      apply List.ext_getElem
      · simp
      · intro i hi1 hi2
        simp only [List.getElem_set, List.getElem_replicate, List.getElem_map, List.getElem_range']
        by_cases hi : i = 0
        · rw [if_pos hi.symm, if_pos (by omega)]
        · rw [if_neg (fun h => hi h.symm), if_neg (by omega)]
  rw [hw1]
  simp only [bind, Except.bind]
  by_cases h1 : L + p + 1 = n
  · rw [if_neg (by simpa using h1)]
    show Except.ok _ = _
    congr 2
    apply List.map_congr_left
    intro k hk
    simp only [List.mem_range'_1] at hk
    unfold wgt
    split_ifs
    · rfl
    · omega
    · rfl
  · rw [if_pos h1, getZ_tab (n+1) e (L+p+1) (by omega),
      getZ_tab' (n+1) e _ (L+p) (by push_cast; omega) (by omega)]
    show Except.ok _ = _
    congr 2
    apply List.ext_getElem
    · simp
    · intro i hi1 hi2
      simp only [List.getElem_set, List.length_map, List.length_range', List.getElem_map,
        List.getElem_range', wgt]
      simp only [List.length_map, List.length_set, List.length_range'] at hi1
      by_cases hi : i = m - 1
      · have ek : L - 1 + 1 * i = L + p + 1 := by omega
        rw [if_pos hi.symm, if_neg (by omega), if_pos (by omega), ek]
        rfl
      · rw [if_neg (fun h => hi h.symm)]
        split_ifs
        · rfl
        · omega
        · rfl

/-! ### The rebinned value as a weighted mean -/

theorem sum_range'_map (f : ℕ → K) (a m : ℕ) :
    ((List.range' a m).map f).sum = ∑ k ∈ Finset.Ico a (a+m), f k := by
  rw [List.range'_eq_map_range, List.map_map, sum_range_map, Finset.sum_Ico_eq_sum_range]
  simp [Function.comp]

theorem single_general (W : Window e n bmin bmax L R) (h2 : L + 2 ≤ R)
    (hc : ¬ (L = 0 ∧ R = n + 1)) (d : ℕ → K) :
    rebinSingleBin (tab (n+1) e) (tab n d) bmin bmax
      = .ok (odiv (npSum ((List.range' (L-1) (min R n - (L-1))).map fun k =>
            omul (wgt e n bmin bmax L R k) (d k)))
          (npSum ((List.range' (L-1) (min R n - (L-1))).map (wgt e n bmin bmax L R)))) := by
  have hR := W.hR
  have hr : List.range' L (R-L) = L :: (L+1) :: List.range' (L+2) (R-L-2) := by
    rw [show R - L = (R-L-2) + 1 + 1 by omega, List.range'_succ, List.range'_succ]
    simp
  unfold rebinSingleBin
  rw [condition_eq W, hr]
  simp only
  rw [← hr, generalWeights_eq W h2 hc]
  simp only [bind, Except.bind]
  rw [gatherZ_tab n d _ (by intro k hk; simp only [List.mem_range'_1] at hk; omega)]
  simp only [pure, Except.pure]
  rw [zipWith_map_same]

theorem single_cover (W : Window e n bmin bmax 0 (n+1)) (hn : 0 < n) (d : ℕ → K) :
    rebinSingleBin (tab (n+1) e) (tab n d) bmin bmax
      = .ok (some ((d (n-1) + ∑ k ∈ Finset.range n, d k) / ((n:K) + 1))) := by
  obtain ⟨p, rfl⟩ : ∃ p, n = p + 1 := ⟨n-1, by omega⟩
  have hr : List.range' 0 (p+2) = 0 :: 1 :: List.range' 2 p := by
    rw [show p + 2 = p + 1 + 1 by omega, List.range'_succ, List.range'_succ]
  unfold rebinSingleBin
  rw [condition_eq W]
  rw [show p + 1 + 1 - 0 = p + 2 by omega, hr]
  simp only
  rw [← hr]
  have hlast : (List.range' 0 (p+2)).getLastD 0 = p + 1 := by
    have hr : List.range' 0 (p+2) = List.range' 0 (p+1) ++ [p+1] := by
      rw [List.range'_concat]; simp
    rw [hr]; simp [List.getLastD_eq_getLast?]
  have hs : generalWeights (tab (p+1+1) e) bmin bmax (List.range' 0 (p+2))
      = .ok (((-1 : ℤ)) :: (List.range' 0 (p+1)).map (fun (k : ℕ) => (k:ℤ)),
          List.replicate (p+2) (some 1)) := by
    have hh : (List.range' 0 (p+2)).headD 0 = 0 := by simp [List.range'_succ]
    unfold generalWeights startIndex
    simp only [hlast, hh, tab_length, Nat.add_sub_cancel, if_true, List.dropLast_concat, ne_eq,
      not_true, if_false, List.length_range']
    show Except.ok _ = _
    congr 2
    · rw [show p + 2 = (p+1)+1 by omega, List.range'_succ, List.map_cons]
      congr 1
      rw [List.range'_eq_map_range, List.range'_eq_map_range, List.map_map, List.map_map]
      apply List.map_congr_left
      intro a _
      simp only [Function.comp]; push_cast; ring
    · rw [List.replicate_succ', List.dropLast_concat]
  rw [hs]
  simp only [bind, Except.bind, gatherZ]
  rw [getZ_tab_last (p+1) d (by omega),
    gatherZ_tab (p+1) d _ (by intro k hk; simp only [List.mem_range'_1] at hk; omega)]
  simp only [pure, Except.pure]
  have e1 : List.zipWith omul (List.replicate (p+2) (some (1:K)))
      (d (p+1-1) :: (List.range' 0 (p+1)).map d)
      = (d (p+1-1) :: (List.range' 0 (p+1)).map d).map some := by
    apply List.ext_getElem
    · simp
    · intro i hi1 hi2
      rw [List.getElem_zipWith, List.getElem_map]
      simp only [List.getElem_replicate, omul, Option.map_some, one_mul]
  have e2 : List.replicate (p+2) (some (1:K)) = (List.replicate (p+2) (1:K)).map some := by simp
  rw [e1, e2, npSum_some, npSum_some, List.sum_cons, sum_range'_map]
  simp only [odiv, fdiv]
  have hpos : (List.replicate (p+2) (1:K)).sum = ((p+1 : ℕ):K) + 1 := by
    rw [List.sum_replicate]; simp; ring
  rw [hpos, if_neg (by positivity), Nat.zero_add, ← Finset.range_eq_Ico]

theorem ratio_pick (n j : ℕ) (hj : j < n) (d : ℕ → K) :
    (∑ k ∈ Finset.range n, (if k = j then (1:K) else 0) * d k)
      / ∑ k ∈ Finset.range n, (if k = j then (1:K) else 0) = d j := by
  simp [Finset.sum_ite_eq', hj]

theorem sum_pick (n j : ℕ) (hj : j < n) :
    ∑ k ∈ Finset.range n, (if k = j then (1:K) else 0) = 1 := by
  simp [Finset.sum_ite_eq', hj]

open Spec in
theorem overlap_window (W : Window e n bmin bmax L R) (k : ℕ) (hk : k < n) :
    overlap (e k) (e (k+1)) bmin bmax
      = max 0 ((if k + 1 < R then e (k+1) else bmax) - (if k < L then bmin else e k)) := by
  unfold overlap
  have h1 := W.lt_min k (by omega)
  have h2 := W.le_max (k+1) (by omega)
  have e1 : min (e (k+1)) bmax = if k + 1 < R then e (k+1) else bmax := by
    split_ifs with h
    · exact min_eq_left (h2.mpr h)
    · exact min_eq_right (le_of_lt (not_le.mp fun h' => h (h2.mp h')))
  have e2 : max (e k) bmin = if k < L then bmin else e k := by
    split_ifs with h
    · exact max_eq_right (le_of_lt (h1.mpr h))
    · exact max_eq_left (not_lt.mp fun h' => h (h1.mp h'))
  rw [e1, e2]

/-- What the code computes for one new bin: either a weighted mean with non-negative weights that
do not depend on the data, or NaN. -/
theorem single_repr (hn : 0 < n) (he : ∀ i j, i ≤ j → j ≤ n → e i ≤ e j)
    (hb : bmin ≤ bmax) (W : Window e n bmin bmax L R) :
    (∃ ω : ℕ → K, (∀ k, k < n → 0 ≤ ω k) ∧ 0 < ∑ k ∈ Finset.range n, ω k ∧
        (∀ d : ℕ → K, rebinSingleBin (tab (n+1) e) (tab n d) bmin bmax
          = .ok (some ((∑ k ∈ Finset.range n, ω k * d k) / ∑ k ∈ Finset.range n, ω k))) ∧
        (e 0 ≤ bmax ∧ bmin ≤ e n) ∧
        (∀ δ : K, 0 < δ → (∀ k, k < n → e (k+1) = e k + δ) → ¬ (bmin ≤ e 0 ∧ e n ≤ bmax) →
          ∃ c, ∀ k, k < n → Spec.overlap (e k) (e (k+1)) bmin bmax = c * ω k)) ∨
      ((∀ d : ℕ → K, rebinSingleBin (tab (n+1) e) (tab n d) bmin bmax = .ok none) ∧
        ((∀ i j, i < j → j ≤ n → e i < e j) → bmin < bmax → bmax < e 0 ∨ e n < bmin)) := by
  have hL := W.hL
  have hR := W.hR
  have hLR := W.le
  have meets : 0 < R → L ≤ n → e 0 ≤ bmax ∧ bmin ≤ e n := fun h1 h2 =>
    ⟨(W.le_max 0 (by omega)).mpr h1, not_lt.mp fun h => by
      have := (W.lt_min n (le_refl _)).mp h; omega⟩
  rcases Nat.lt_or_ge (L+1) R with hbig | hsmall
  · -- at least two edges
    by_cases hc : L = 0 ∧ R = n + 1
    · obtain ⟨rfl, rfl⟩ := hc
      left
      refine ⟨fun k => 1 + if k = n - 1 then 1 else 0, ?_, ?_, ?_, meets (by omega) (by omega), ?_⟩
      · intro k _; simp only; split_ifs <;> norm_num
      · simp only [Finset.sum_add_distrib, sum_pick n (n-1) (by omega)]
        simp; positivity
      · intro d
        rw [single_cover W hn d]
        simp only [Finset.sum_add_distrib, sum_pick n (n-1) (by omega), add_mul, one_mul]
        congr 3
        · rw [add_comm]; congr 1
          simp [Finset.sum_ite_eq', hn]
        · simp
      · intro δ _ _ hno
        exfalso
        apply hno
        refine ⟨?_, ?_⟩
        · by_contra h
          have := (W.lt_min 0 (by omega)).mp (not_le.mp h); omega
        · exact (W.le_max n (le_refl _)).mpr (by omega)
    · have h2 : L + 2 ≤ R := hbig
      -- the first weight is a number
      have hfirst : ∀ k, k + 1 = L → 0 ≤ e L - bmin ∧ 0 < e L - e (L-1) ∧ L ≤ n := by
        intro k hk
        have hLn : L ≤ n := by omega
        have h3 : e (L-1) < bmin := (W.lt_min (L-1) (by omega)).mpr (by omega)
        have h4 : bmin ≤ e L := not_lt.mp fun h => by
          have := (W.lt_min L hLn).mp h; omega
        exact ⟨by linarith, by linarith, hLn⟩
      by_cases hrep : R ≤ n ∧ e (R-1) = e (R-2)
      · right
        constructor
        · intro d
          rw [single_general W h2 hc d]
          have hmem : none ∈ (List.range' (L-1) (min R n - (L-1))).map (wgt e n bmin bmax L R) := by
            rw [List.mem_map]
            refine ⟨R-1, by simp only [List.mem_range'_1]; omega, ?_⟩
            unfold wgt
            rw [if_neg (by omega), if_pos (by omega)]
            have : R - 1 - 1 = R - 2 := by omega
            rw [this, hrep.2]; simp [fdiv]
          rw [npSum_none _ hmem]
          unfold odiv
          split <;> simp_all
        · intro hs _
          exfalso
          have := hs (R-2) (R-1) (by omega) (by omega)
          rw [hrep.2] at this
          exact lt_irrefl _ this
      · left
        have hlast : ∀ k, k + 1 = R → k < n → 0 ≤ bmax - e k ∧ 0 < e k - e (k-1) := by
          intro k hk hkn
          have h3 : e k ≤ bmax := (W.le_max k (by omega)).mpr (by omega)
          have h4 : e (k-1) ≤ e k := he _ _ (by omega) (by omega)
          have h5 : e k ≠ e (k-1) := by
            intro h
            apply hrep
            refine ⟨by omega, ?_⟩
            rw [show R - 1 = k by omega, show R - 2 = k - 1 by omega, h]
          exact ⟨by linarith, by linarith [lt_of_le_of_ne h4 (Ne.symm h5)]⟩
        let v : ℕ → K := fun k =>
          if k + 1 = L then (e L - bmin) / (e L - e (L-1))
          else if k + 1 = R ∧ k < n then (bmax - e k) / (e k - e (k-1)) else 1
        have hwv : ∀ k, wgt e n bmin bmax L R k = some (v k) := by
          intro k
          simp only [wgt, v]
          split_ifs with h1 h3
          · obtain ⟨_, h, _⟩ := hfirst k h1
            simp [fdiv, h.ne']
          · obtain ⟨_, h⟩ := hlast k h3.1 h3.2
            simp [fdiv, h.ne']
          · rfl
        have hvn : ∀ k, 0 ≤ v k := by
          intro k
          simp only [v]
          split_ifs with h1 h3
          · obtain ⟨h, h', _⟩ := hfirst k h1
            exact div_nonneg h h'.le
          · obtain ⟨h, h'⟩ := hlast k h3.1 h3.2
            exact div_nonneg h h'.le
          · exact zero_le_one
        have hvL : v L = 1 := by
          simp only [v]
          rw [if_neg (by omega), if_neg (by omega)]
        let ω : ℕ → K := fun k => if L - 1 ≤ k ∧ k < min R n then v k else 0
        have hsum : ∀ g : ℕ → K, ∑ k ∈ Finset.Ico (L-1) (L-1 + (min R n - (L-1))), v k * g k
            = ∑ k ∈ Finset.range n, ω k * g k := by
          intro g
          have hsub : Finset.Ico (L-1) (L-1 + (min R n - (L-1))) ⊆ Finset.range n := by
            intro k hk
            simp only [Finset.mem_Ico, Finset.mem_range] at hk ⊢; omega
          rw [← Finset.sum_subset hsub]
          · apply Finset.sum_congr rfl
            intro k hk
            simp only [Finset.mem_Ico] at hk
            simp only [ω]
            rw [if_pos (by omega)]
          · intro k _ hk
            simp only [Finset.mem_Ico] at hk
            simp only [ω]
            rw [if_neg (by omega), zero_mul]
        have hωn : ∀ k, 0 ≤ ω k := by
          intro k; simp only [ω]; split_ifs
          · exact hvn k
          · exact le_refl _
        have hpos : 0 < ∑ k ∈ Finset.range n, ω k := by
          have h1 : ω L = 1 := by
            simp only [ω]; rw [if_pos (by omega)]; exact hvL
          have h3 : ω L ≤ ∑ k ∈ Finset.range n, ω k :=
            Finset.single_le_sum (fun k _ => hωn k) (Finset.mem_range.mpr (by omega))
          rw [h1] at h3
          exact lt_of_lt_of_le zero_lt_one h3
        refine ⟨ω, fun k _ => hωn k, hpos, ?_, meets (by omega) (by omega), ?_⟩
        · intro d
          rw [single_general W h2 hc d]
          have e1 : (List.range' (L-1) (min R n - (L-1))).map (fun k =>
              omul (wgt e n bmin bmax L R k) (d k))
              = ((List.range' (L-1) (min R n - (L-1))).map fun k => v k * d k).map some := by
            rw [List.map_map]
            apply List.map_congr_left
            intro k _
            simp [hwv, omul]
          have e2 : (List.range' (L-1) (min R n - (L-1))).map (wgt e n bmin bmax L R)
              = ((List.range' (L-1) (min R n - (L-1))).map v).map some := by
            rw [List.map_map]
            apply List.map_congr_left
            intro k _
            simp [hwv]
          have e3 := hsum fun _ => 1
          simp only [mul_one] at e3
          rw [e1, e2, npSum_some, npSum_some, sum_range'_map, sum_range'_map, hsum d, e3]
          simp only [odiv, fdiv]
          rw [if_neg hpos.ne']
        · intro δ hδ hu hno
          refine ⟨δ, ?_⟩
          intro k hk
          rw [overlap_window W k hk]
          beta_reduce
          simp only [ω, v]
          have huk := hu k hk
          by_cases c1 : k + 1 < L
          · have : e (k+1) < bmin := (W.lt_min (k+1) (by omega)).mpr c1
            rw [if_pos (by omega), if_pos (by omega), if_neg (by omega), mul_zero]
            exact max_eq_left (by linarith)
          · by_cases c2 : k + 1 = L
            · obtain ⟨h, h', h''⟩ := hfirst k c2
              rw [if_pos (by omega), if_pos (by omega), if_pos (by omega), if_pos c2]
              have e1 : e L = e (L-1) + δ := by
                have := hu (L-1) (by omega)
                rwa [show L - 1 + 1 = L by omega] at this
              have e2 : e L - e (L-1) = δ := by linarith
              rw [e2, mul_div_cancel₀ _ hδ.ne', c2]
              exact max_eq_right h
            · by_cases c3 : k + 1 < R
              · rw [if_pos c3, if_neg (by omega), if_pos (by omega), if_neg c2, if_neg (by omega),
                  huk]
                simp [hδ.le]
              · by_cases c4 : k + 1 = R
                · obtain ⟨h, h'⟩ := hlast k c4 hk
                  rw [if_neg c3, if_neg (by omega), if_pos (by omega), if_neg c2, if_pos ⟨c4, hk⟩]
                  have e1 : e k = e (k-1) + δ := by
                    have := hu (k-1) (by omega)
                    rwa [show k - 1 + 1 = k by omega] at this
                  have e2 : e k - e (k-1) = δ := by linarith
                  rw [e2, mul_div_cancel₀ _ hδ.ne']
                  exact max_eq_right h
                · have h3 : bmax < e k := not_le.mp fun h => by
                    have := (W.le_max k (by omega)).mp h; omega
                  rw [if_neg c3, if_neg (by omega), if_neg (by omega), mul_zero]
                  exact max_eq_left (by linarith)
  · rcases Nat.lt_or_ge L R with h1 | h1
    · -- exactly one edge
      have hRL : R = L + 1 := by omega
      subst hRL
      have hcond : condition (tab (n+1) e) bmin bmax = [L] := by
        rw [condition_eq W]; simp
      have eL1 : bmin ≤ e L := not_lt.mp fun h => by
        have := (W.lt_min L (by omega)).mp h; omega
      have eL2 : e L ≤ bmax := (W.le_max L (by omega)).mpr (by omega)
      by_cases hin : 0 < L ∧ L < n
      · have h3 : e (L-1) < bmin := (W.lt_min (L-1) (by omega)).mpr (by omega)
        have h4 : bmax < e (L+1) := not_le.mp fun h => by
          have := (W.le_max (L+1) (by omega)).mp h; omega
        have d1 : 0 < e L - e (L-1) := by linarith
        have d2 : 0 < e (L+1) - e L := by linarith
        have hval : ∀ d : ℕ → K, rebinSingleBin (tab (n+1) e) (tab n d) bmin bmax
            = .ok (odiv (some ((e L - bmin)/(e L - e (L-1)) * d (L-1)
                + (bmax - e L)/(e (L+1) - e L) * d L))
              (some ((e L - bmin)/(e L - e (L-1)) + (bmax - e L)/(e (L+1) - e L)))) := by
          intro d
          unfold rebinSingleBin
          rw [hcond]
          simp only [tab_length, Nat.add_sub_cancel]
          rw [if_pos hin, getZ_tab (n+1) e L (by omega),
            getZ_tab' (n+1) e _ (L-1) (by omega) (by omega),
            getZ_tab' (n+1) e _ (L+1) (by push_cast; ring) (by omega),
            getZ_tab' n d _ (L-1) (by omega) (by omega), getZ_tab n d L (by omega)]
          simp [bind, Except.bind, pure, Except.pure, fdiv, d1.ne', d2.ne', omul, npSum]
        have n1 : 0 ≤ (e L - bmin)/(e L - e (L-1)) := div_nonneg (by linarith) d1.le
        have n2 : 0 ≤ (bmax - e L)/(e (L+1) - e L) := div_nonneg (by linarith) d2.le
        by_cases hz : (e L - bmin)/(e L - e (L-1)) + (bmax - e L)/(e (L+1) - e L) = 0
        · right
          constructor
          · intro d
            rw [hval d, hz]; simp [odiv, fdiv]
          · intro _ hlt
            exfalso
            have z1 : (e L - bmin)/(e L - e (L-1)) = 0 := by linarith
            have z2 : (bmax - e L)/(e (L+1) - e L) = 0 := by linarith
            rw [div_eq_zero_iff] at z1 z2
            rcases z1 with z1 | z1
            · rcases z2 with z2 | z2
              · linarith
              · linarith
            · linarith
        · left
          have hs : ∀ g : ℕ → K, ∑ k ∈ Finset.range n, (if k = L - 1 then
                (e L - bmin)/(e L - e (L-1)) else if k = L then (bmax - e L)/(e (L+1) - e L) else 0)
                * g k = (e L - bmin)/(e L - e (L-1)) * g (L-1)
                  + (bmax - e L)/(e (L+1) - e L) * g L := by
            intro g
            have : ∀ k, (if k = L - 1 then
                (e L - bmin)/(e L - e (L-1)) else if k = L then (bmax - e L)/(e (L+1) - e L) else 0)
                * g k = (if k = L - 1 then (e L - bmin)/(e L - e (L-1)) * g k else 0)
                  + (if k = L then (bmax - e L)/(e (L+1) - e L) * g k else 0) := by
              intro k
              split_ifs with c1 c2
              · omega
              · ring
              · ring
              · ring
            simp only [this, Finset.sum_add_distrib, Finset.sum_ite_eq', Finset.mem_range]
            rw [if_pos (by omega), if_pos (by omega)]
          have hs1 := hs fun _ => 1
          simp only [mul_one] at hs1
          refine ⟨fun k => if k = L - 1 then
                (e L - bmin)/(e L - e (L-1)) else if k = L then (bmax - e L)/(e (L+1) - e L) else 0,
            ?_, ?_, ?_, meets (by omega) (by omega), ?_⟩
          · intro k _; simp only; split_ifs
            · exact n1
            · exact n2
            · exact le_refl _
          · rw [hs1]
            exact lt_of_le_of_ne (by linarith) (Ne.symm hz)
          · intro d
            rw [hval d, hs d, hs1]
            simp [odiv, fdiv, hz]
          · intro δ hδ hu hno
            refine ⟨δ, ?_⟩
            intro k hk
            rw [overlap_window W k hk]
            beta_reduce
            have e1 : e L = e (L-1) + δ := by
              have := hu (L-1) (by omega)
              rwa [show L - 1 + 1 = L by omega] at this
            have e2 : e L - e (L-1) = δ := by linarith
            have e3 : e (L+1) - e L = δ := by linarith [hu L (by omega)]
            simp only [e2, e3]
            by_cases c1 : k + 1 < L
            · have : e (k+1) < bmin := (W.lt_min (k+1) (by omega)).mpr c1
              rw [if_pos (by omega), if_pos (by omega), if_neg (by omega), if_neg (by omega),
                mul_zero]
              exact max_eq_left (by linarith)
            · by_cases c2 : k + 1 = L
              · rw [if_pos (by omega), if_pos (by omega), if_pos (by omega),
                  mul_div_cancel₀ _ hδ.ne', c2]
                exact max_eq_right (by linarith)
              · by_cases c3 : k = L
                · rw [if_neg (by omega), if_neg (by omega), if_neg (by omega), if_pos c3,
                    mul_div_cancel₀ _ hδ.ne', c3]
                  exact max_eq_right (by linarith)
                · have h5 : bmax < e k := not_le.mp fun h => by
                    have := (W.le_max k (by omega)).mp h; omega
                  rw [if_neg (by omega), if_neg (by omega), if_neg (by omega), if_neg c3, mul_zero]
                  exact max_eq_left (by linarith)
      · left
        by_cases hL0 : L = 0
        · refine ⟨fun k => if k = 0 then 1 else 0, ?_, ?_, ?_, meets (by omega) (by omega), ?_⟩
          · intro k _; simp only; split_ifs <;> norm_num
          · rw [sum_pick n 0 hn]; exact zero_lt_one
          · intro d
            rw [ratio_pick n 0 hn d]
            unfold rebinSingleBin
            rw [hcond]
            simp only [tab_length, Nat.add_sub_cancel]
            rw [if_neg hin, if_pos hL0, getZ_tab' n d 0 0 rfl hn]
            rfl
          · intro δ hδ hu hno
            refine ⟨bmax - e 0, ?_⟩
            intro k hk
            rw [overlap_window W k hk]
            beta_reduce
            subst hL0
            rw [if_neg (by omega), if_neg (by omega)]
            by_cases hk0 : k = 0
            · subst hk0; simp; exact eL2
            · have h5 : bmax < e k := not_le.mp fun h => by
                have := (W.le_max k (by omega)).mp h; omega
              rw [if_neg hk0, mul_zero]
              exact max_eq_left (by linarith)
        · have hLn : L = n := by omega
          refine ⟨fun k => if k = n - 1 then 1 else 0, ?_, ?_, ?_, meets (by omega) (by omega), ?_⟩
          · intro k _; simp only; split_ifs <;> norm_num
          · rw [sum_pick n (n-1) (by omega)]; exact zero_lt_one
          · intro d
            rw [ratio_pick n (n-1) (by omega) d]
            unfold rebinSingleBin
            rw [hcond]
            simp only [tab_length, Nat.add_sub_cancel]
            rw [if_neg hin, if_neg hL0, getZ_tab_last n d hn]
            rfl
          · intro δ hδ hu hno
            refine ⟨e n - bmin, ?_⟩
            intro k hk
            rw [overlap_window W k hk]
            beta_reduce
            subst hLn
            rw [if_pos (by omega), if_pos (by omega)]
            by_cases hk0 : k = L - 1
            · rw [if_pos hk0, mul_one, show k + 1 = L by omega]
              exact max_eq_right (by linarith)
            · have h5 : e (k+1) < bmin := (W.lt_min (k+1) (by omega)).mpr (by omega)
              rw [if_neg hk0, mul_zero]
              exact max_eq_left (by linarith)
    · -- no edge
      have hRL : R = L := by omega
      subst hRL
      have hcond : condition (tab (n+1) e) bmin bmax = [] := by
        rw [condition_eq W]; simp
      by_cases hin : 0 < R ∧ R ≤ n
      · left
        have hc1 : condition1 (tab (n+1) e) bmin = R :: List.range' (R+1) (n-R) := by
          rw [condition1_eq W, show n + 1 - R = (n-R) + 1 by omega, List.range'_succ]
        refine ⟨fun k => if k = R - 1 then 1 else 0, ?_, ?_, ?_, meets (by omega) (by omega), ?_⟩
        · intro k _; simp only; split_ifs <;> norm_num
        · rw [sum_pick n (R-1) (by omega)]; exact zero_lt_one
        · intro d
          rw [ratio_pick n (R-1) (by omega) d]
          unfold rebinSingleBin
          rw [hcond]
          simp only [hc1]
          rw [if_pos (by simp; omega), getZ_tab' n d _ (R-1) (by omega) (by omega)]
          rfl
        · intro δ hδ hu hno
          refine ⟨bmax - bmin, ?_⟩
          intro k hk
          rw [overlap_window W k hk]
          beta_reduce
          have m1 : e (R-1) < bmin := (W.lt_min (R-1) (by omega)).mpr (by omega)
          have m3 : e (R-1) ≤ bmax := (W.le_max (R-1) (by omega)).mpr (by omega)
          by_cases c1 : k + 1 < R
          · have : e (k+1) < bmin := (W.lt_min (k+1) (by omega)).mpr c1
            rw [if_pos c1, if_pos (by omega), if_neg (by omega), mul_zero]
            exact max_eq_left (by linarith)
          · by_cases c2 : k = R - 1
            · rw [if_neg c1, if_pos (by omega), if_pos c2, mul_one]
              exact max_eq_right (by linarith)
            · have h5 : bmax < e k := not_le.mp fun h => by
                have := (W.le_max k (by omega)).mp h; omega
              rw [if_neg c1, if_neg (by omega), if_neg c2, mul_zero]
              exact max_eq_left (by linarith)
      · right
        constructor
        · intro d
          unfold rebinSingleBin
          rw [hcond]
          by_cases hR0 : R = 0
          · have hc1 : condition1 (tab (n+1) e) bmin = 0 :: List.range' 1 n := by
              rw [condition1_eq W, hR0, show n + 1 - 0 = n + 1 by omega, List.range'_succ]
            simp only [hc1]
            rw [if_neg (by simp)]
          · have hc1 : condition1 (tab (n+1) e) bmin = [] := by
              rw [condition1_eq W, show n + 1 - R = 0 by omega]; rfl
            simp only [hc1]
        · intro _ _
          by_cases hR0 : R = 0
          · left
            exact not_le.mp fun h => by
              have := (W.le_max 0 (by omega)).mp h; omega
          · right
            exact (W.lt_min n (le_refl _)).mpr (by omega)

end Single

end Magpie.OneD
