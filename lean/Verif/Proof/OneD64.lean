import Verif.Model.OneD64
import Verif.Spec.OneD64
import Verif.Proof.OneD
import Verif.Proof.OneDList
import Verif.Proof.DgRemap64

/-!
# Rounding errors of `rebin_1d`
-/

set_option linter.unusedSimpArgs false
set_option linter.unusedVariables false
set_option linter.unusedSectionVars false

namespace Magpie.OneD64
open Magpie Magpie.F64 Magpie.Spec Magpie.OneD Magpie.Means64

/-! ## The weights -/

variable {e : ℕ → ℝ} {n : ℕ} {bmin bmax : ℝ} {L R : ℕ}

/-- The weight the code gives to bin `k` in the general case. -/
noncomputable def wgt64 (e : ℕ → ℝ) (n : ℕ) (bmin bmax : ℝ) (L R : ℕ) (k : ℕ) : Option ℝ :=
  if k + 1 = L then ratio64 (e L) bmin (e L) (e (L-1))
  else if k + 1 = R ∧ k < n then ratio64 bmax (e k) (e k) (e (k-1))
  else some 1

theorem generalWeights64_eq (W : Window e n bmin bmax L R) (h2 : L + 2 ≤ R)
    (hc : ¬ (L = 0 ∧ R = n + 1)) :
    generalWeights64 (tab (n+1) e) bmin bmax (List.range' L (R-L))
      = .ok ((List.range' (L-1) (min R n - (L-1))).map (fun (k : ℕ) => (k:ℤ)),
          (List.range' (L-1) (min R n - (L-1))).map (wgt64 e n bmin bmax L R)) := by
  obtain ⟨p, rfl⟩ : ∃ p, R = L + p + 2 := ⟨R - L - 2, by omega⟩
  have hR := W.hR
  have hd : L + p + 2 - L = p + 2 := by omega
  rw [hd]
  unfold generalWeights64
  rw [startIndex_eq L p n e hR (by omega)]
  have hlast : (List.range' L (p+2)).getLastD 0 = L + p + 1 := by
    have hr : List.range' L (p+2) = List.range' L (p+1) ++ [L+p+1] := by
      rw [List.range'_concat]; simp [Nat.add_assoc]
    rw [hr]; simp [List.getLastD_eq_getLast?]
  have hhead : (List.range' L (p+2)).headD 0 = L := by simp [List.range'_succ]
  simp only [hlast, hhead, tab_length, Nat.add_sub_cancel]
  set m := min (L+p+2) n - (L-1) with hm
  have hw1 : (if L ≠ 0 then (do
      let e1 ← getZ (tab (n+1) e) (L:ℤ)
      let e' ← getZ (tab (n+1) e) ((L:ℤ) - 1)
      pure ((List.replicate m (some (1:ℝ))).set 0 (ratio64 e1 bmin e1 e')))
    else pure (List.replicate m (some (1:ℝ))) : Py (List (Option ℝ)))
      = .ok ((List.range' (L-1) m).map fun k =>
          if k + 1 = L then ratio64 (e L) bmin (e L) (e (L-1)) else some 1) := by
    by_cases hL0 : L = 0
    · rw [if_neg (by simpa using hL0)]
      show Except.ok _ = _
      congr 1
      apply List.ext_getElem
      · simp
      · intro i hi1 hi2
        simp [hL0]
    · rw [if_pos hL0, getZ_tab (n+1) e L (by omega), getZ_tab' (n+1) e _ (L-1) (by omega) (by omega)]
      show Except.ok _ = _
      congr 1
      apply List.ext_getElem
      · simp
      · intro i hi1 hi2
        simp only [List.getElem_set, List.getElem_replicate, List.getElem_map, List.getElem_range']
        by_cases hi : i = 0
        · rw [if_pos hi.symm, if_pos (by omega)]
        · rw [if_neg (fun h => hi h.symm), if_neg (by omega)]
  rw [hw1]
  simp only [bind, Except.bind]
  by_cases h1 : L + p + 1 = n
  · rw [if_neg (by simpa using h1)]
    show Except.ok _ = _
    congr 2
    apply List.map_congr_left
    intro k hk
    simp only [List.mem_range'_1] at hk
    unfold wgt64
    split_ifs
    · rfl
    · omega
    · rfl
  · rw [if_pos h1, getZ_tab (n+1) e (L+p+1) (by omega),
      getZ_tab' (n+1) e _ (L+p) (by push_cast; omega) (by omega)]
    show Except.ok _ = _
    congr 2
    apply List.ext_getElem
    · simp
    · intro i hi1 hi2
      simp only [List.getElem_set, List.length_map, List.length_range', List.getElem_map,
        List.getElem_range', wgt64]
      simp only [List.length_map, List.length_set, List.length_range'] at hi1
      by_cases hi : i = m - 1
      · have ek : L - 1 + 1 * i = L + p + 1 := by omega
        rw [if_pos hi.symm, if_neg (by omega), if_pos (by omega), ek]
        rfl
      · rw [if_neg (fun h => hi h.symm)]
        split_ifs
        · rfl
        · omega
        · rfl

theorem single64_general (ord : ℕ → SumTree) (W : Window e n bmin bmax L R) (h2 : L + 2 ≤ R)
    (hc : ¬ (L = 0 ∧ R = n + 1)) (d : ℕ → ℝ) :
    rebinSingleBin64 ord (tab (n+1) e) (tab n d) bmin bmax
      = .ok (mean64 (ord (min R n - (L-1))) ((List.range' (L-1) (min R n - (L-1))).map (wgt64 e n bmin bmax L R))
          ((List.range' (L-1) (min R n - (L-1))).map d)) := by
  have hR := W.hR
  have hr : List.range' L (R-L) = L :: (L+1) :: List.range' (L+2) (R-L-2) := by
    rw [show R - L = (R-L-2) + 1 + 1 by omega, List.range'_succ, List.range'_succ]
    simp
  unfold rebinSingleBin64
  rw [condition_eq W, hr]
  simp only
  rw [← hr, generalWeights64_eq W h2 hc]
  simp only [bind, Except.bind]
  rw [gatherZ_tab n d _ (by intro k hk; simp only [List.mem_range'_1] at hk; omega)]
  simp only [pure, Except.pure, List.length_map, List.length_range']

theorem single64_cover (ord : ℕ → SumTree) (W : Window e n bmin bmax 0 (n+1)) (hn : 0 < n) (d : ℕ → ℝ) :
    rebinSingleBin64 ord (tab (n+1) e) (tab n d) bmin bmax
      = .ok (mean64 (ord (n+1)) (List.replicate (n+1) (some 1)) (d (n-1) :: (List.range' 0 n).map d)) := by
  obtain ⟨p, rfl⟩ : ∃ p, n = p + 1 := ⟨n-1, by omega⟩
  have hr : List.range' 0 (p+2) = 0 :: 1 :: List.range' 2 p := by
    rw [show p + 2 = p + 1 + 1 by omega, List.range'_succ, List.range'_succ]
  unfold rebinSingleBin64
  rw [condition_eq W]
  rw [show p + 1 + 1 - 0 = p + 2 by omega, hr]
  simp only
  rw [← hr]
  have hlast : (List.range' 0 (p+2)).getLastD 0 = p + 1 := by
    have hr : List.range' 0 (p+2) = List.range' 0 (p+1) ++ [p+1] := by
      rw [List.range'_concat]; simp
    rw [hr]; simp [List.getLastD_eq_getLast?]
  have hs : generalWeights64 (tab (p+1+1) e) bmin bmax (List.range' 0 (p+2))
      = .ok (((-1 : ℤ)) :: (List.range' 0 (p+1)).map (fun (k : ℕ) => (k:ℤ)),
          List.replicate (p+2) (some 1)) := by
    have hh : (List.range' 0 (p+2)).headD 0 = 0 := by simp [List.range'_succ]
    unfold generalWeights64 startIndex
    simp only [hlast, hh, tab_length, Nat.add_sub_cancel, if_true, List.dropLast_concat, ne_eq,
      not_true, if_false, List.length_range']
    show Except.ok _ = _
    congr 2
    · rw [show p + 2 = (p+1)+1 by omega, List.range'_succ, List.map_cons]
      congr 1
      rw [List.range'_eq_map_range, List.range'_eq_map_range, List.map_map, List.map_map]
      apply List.map_congr_left
      intro a _
      simp only [Function.comp]; push_cast; ring
    · rw [List.replicate_succ', List.dropLast_concat]
  rw [hs]
  simp only [bind, Except.bind, gatherZ]
  rw [getZ_tab_last (p+1) d (by omega),
    gatherZ_tab (p+1) d _ (by intro k hk; simp only [List.mem_range'_1] at hk; omega)]
  simp only [pure, Except.pure, List.length_replicate]

/-! ## The error of a weight -/

/-- The rounded weight `w'` of a weight `w ≥ 0`. -/
structure WRel (w' w : ℝ) : Prop where
  nonneg : 0 ≤ w
  rel : Rel 4 w' w
  grid : Means64.Grid w'
  size : w' = 0 ∨ (2:ℝ)^(-402 : ℤ) ≤ |w'|

theorem WRel.one : WRel 1 1 := by
  refine ⟨by norm_num, (Rel.refl 1).mono (by norm_num), ?_, .inr ?_⟩
  · have := grid_of (m := 1) (e := 0) (by norm_num)
    simpa using this
  · rw [abs_one]
    calc (2:ℝ)^(-402 : ℤ) ≤ (2:ℝ)^(0 : ℤ) := zpow_le_zpow_right₀ (by norm_num) (by norm_num)
      _ = 1 := by simp

theorem rel_sub {a b : ℝ} (ha : Means64.Grid a) (hb : Means64.Grid b) : Rel 1 (F64.sub a b) (a - b) := by
  have hb' : Means64.Grid (-b) := by
    obtain ⟨m, rfl⟩ := hb
    exact ⟨-m, by push_cast; ring⟩
  have := rel_add ha hb'
  unfold F64.add at this
  unfold F64.sub
  rwa [← sub_eq_add_neg] at this

theorem rel_div3 {x' x y' y : ℝ} (hx : Rel 1 x' x) (hy : Rel 1 y' y) (h : y ≠ 0) :
    y' ≠ 0 ∧ Rel 3 (x'/y') (x/y) := by
  have hy0 := abs_pos.mpr h
  unfold Means64.Rel at *
  rw [gam_one] at hx hy
  have b1 : |y| * (1 - 1/2^53) ≤ |y'| := by
    have := abs_sub_abs_le_abs_sub y y'
    rw [abs_sub_comm] at this
    linarith
  have b2 : 0 < |y'| := lt_of_lt_of_le (mul_pos hy0 (by norm_num)) b1
  have hne : y' ≠ 0 := abs_pos.mp b2
  refine ⟨hne, ?_⟩
  have e1 : x'/y' - x/y = ((x' - x)*y - x*(y' - y))/(y'*y) := by field_simp; ring
  rw [e1, abs_div, abs_div, abs_mul y' y, div_le_iff₀ (by positivity)]
  have e2 : |(x' - x)*y - x*(y' - y)| ≤ 1/2^53*|x| * |y| + |x| * (1/2^53*|y|) := by
    refine (abs_sub _ _).trans ?_
    rw [abs_mul, abs_mul]
    exact add_le_add (mul_le_mul_of_nonneg_right hx (abs_nonneg _)) (mul_le_mul_of_nonneg_left hy (abs_nonneg _))
  refine e2.trans ?_
  have e3 : gam 3*(|x|/|y|)*(|y'| * |y|) = gam 3*|x| * |y'| := by field_simp
  rw [e3]
  have g3 : 3/2^53 ≤ gam 3 := by unfold gam; norm_num
  have e4 : 3/2^53*|x| * (|y| * (1 - 1/2^53)) ≤ gam 3*|x| * |y'| :=
    mul_le_mul (mul_le_mul_of_nonneg_right g3 (abs_nonneg _)) b1 (by positivity)
      (mul_nonneg (gam_nonneg 3) (abs_nonneg _))
  have : 0 ≤ |x| * |y| := by positivity
  nlinarith

theorem rel_ge_half {k : ℕ} (hk : k ≤ 2^40) {x' x : ℝ} (h : Rel k x' x) : |x|/2 ≤ |x'| := by
  unfold Means64.Rel at h
  have hg : gam k ≤ 1/2 := by
    refine (gam_le (by omega)).trans ?_
    have : (k:ℝ) ≤ 2^40 := by exact_mod_cast hk
    rw [div_mul_eq_mul_div, div_le_iff₀ (by norm_num)]
    nlinarith
  have := abs_sub_abs_le_abs_sub x x'
  rw [abs_sub_comm] at this
  have := mul_le_mul_of_nonneg_right hg (abs_nonneg x)
  linarith

/-- Two edges that may be subtracted. -/
def Pair (a b : ℝ) : Prop :=
  Means64.Grid a ∧ Means64.Grid b ∧ (a = b ∨ ((2:ℝ)^(-200 : ℤ) ≤ |a - b| ∧ |a - b| ≤ (2:ℝ)^(200 : ℤ)))

theorem ratio64_rel {a b c d : ℝ} (h1 : Pair a b) (h2 : Pair c d) (hab : 0 ≤ a - b) (hcd : 0 < c - d) :
    ∃ w', ratio64 a b c d = some w' ∧ WRel w' ((a - b)/(c - d)) := by
  obtain ⟨h, hr⟩ := rel_div3 (rel_sub h1.1 h1.2.1) (rel_sub h2.1 h2.2.1) hcd.ne'
  unfold ratio64
  rw [if_neg h]
  refine ⟨_, rfl, ?_⟩
  have hsz : a - b = 0 ∨ (2:ℝ)^(-400 : ℤ) ≤ (a - b)/(c - d) := by
    rcases h1.2.2 with h3 | ⟨h3, -⟩
    · exact .inl (by linarith)
    · right
      rw [abs_of_nonneg hab] at h3
      rcases h2.2.2 with h4 | ⟨-, h4⟩
      · linarith
      · rw [abs_of_pos hcd] at h4
        rw [le_div_iff₀ hcd]
        calc (2:ℝ)^(-400 : ℤ)*(c - d) ≤ (2:ℝ)^(-400 : ℤ)*(2:ℝ)^(200 : ℤ) := by gcongr
          _ = (2:ℝ)^(-200 : ℤ) := by rw [← zpow_add₀ (by norm_num)]; norm_num
          _ ≤ _ := h3
  have hq : F64.sub a b/F64.sub c d = 0 ∨ (2:ℝ)^(-401 : ℤ) ≤ |F64.sub a b/F64.sub c d| := by
    rcases hsz with h3 | h3
    · left
      unfold F64.sub
      rw [h3, fl_zero, zero_div]
    · right
      have := rel_ge_half (by norm_num) hr
      rw [abs_of_nonneg (div_nonneg hab hcd.le)] at this
      have e : (2:ℝ)^(-401 : ℤ) = (2:ℝ)^(-400 : ℤ)/2 := by
        rw [show (-400 : ℤ) = -401 + 1 by norm_num, zpow_add₀ (by norm_num)]; norm_num
      rw [e]; linarith
  have hN : Normal (F64.sub a b/F64.sub c d) := by
    rcases hq with h3 | h3
    · exact .inl h3
    · exact .inr ((zpow_le_zpow_right₀ (by norm_num) (by norm_num)).trans h3)
  have hf := rel_fl hN
  refine ⟨div_nonneg hab hcd.le, hr.trans hf, grid_fl _, ?_⟩
  rcases hq with h3 | h3
  · left
    unfold F64.div
    rw [h3, fl_zero]
  · right
    have := rel_ge_half (by norm_num) hf
    have e : (2:ℝ)^(-402 : ℤ) = (2:ℝ)^(-401 : ℤ)/2 := by
      rw [show (-401 : ℤ) = -402 + 1 by norm_num, zpow_add₀ (by norm_num)]; norm_num
    rw [e]
    unfold F64.div
    linarith

theorem ratio64_zero {a b c d : ℝ} (hcd : c - d = 0) : ratio64 a b c d = none := by
  unfold ratio64 F64.sub
  rw [hcd, fl_zero, if_pos rfl]

/-! ## One new bin -/

theorem tree_congr {x y : ℕ → ℝ} : ∀ {t : SumTree}, (∀ k ∈ t.leaves, x k = y k) → t.sum x = t.sum y
  | .leaf k, h => h k (by simp [SumTree.leaves])
  | .node l r, h => by
    simp only [SumTree.leaves, List.mem_append] at h
    simp only [SumTree.sum]
    rw [tree_congr (t := l) fun k hk => h k (.inl hk), tree_congr (t := r) fun k hk => h k (.inr hk)]

theorem mapM_some (l : List ℝ) : (l.map some).mapM id = some l := by
  induction l with
  | nil => rfl
  | cons a l ih => simp [List.mapM_cons, ih]

theorem mapM_none (l : List (Option ℝ)) (h : none ∈ l) : l.mapM id = none := by
  induction l with
  | nil => simp at h
  | cons a l ih =>
    cases a with
    | none => simp [List.mapM_cons]
    | some a =>
      have : none ∈ l := by simpa using h
      simp [List.mapM_cons, ih this]

theorem mean64_none (t : SumTree) (w : List (Option ℝ)) (ds : List ℝ) (h : none ∈ w) : mean64 t w ds = none := by
  unfold mean64
  rw [mapM_none w h]

theorem mean64_some {t : SumTree} {m : ℕ} (ht : t.leaves.Perm (List.range m)) (w' d : ℕ → ℝ)
    {w : List (Option ℝ)} {ds : List ℝ} (hw : w = ((List.range m).map w').map some) (hds : ds = (List.range m).map d) :
    mean64 t w ds = if t.sum w' = 0 then none else some (F64.div (t.sum fun i => F64.mul (w' i) (d i)) (t.sum w')) := by
  subst hw hds
  unfold mean64
  rw [mapM_some]
  simp only
  have hlt : ∀ k ∈ t.leaves, k < m := fun k hk => List.mem_range.mp (ht.mem_iff.mp hk)
  have g : ∀ (f : ℕ → ℝ) (k : ℕ), k < m → ((List.range m).map f).getD k 0 = f k := by
    intro f k hk
    simp [List.getD_eq_getElem?_getD, hk]
  rw [tree_congr (x := fun i => ((List.range m).map w').getD i 0) (y := w') (fun k hk => g _ _ (hlt k hk)),
    tree_congr (x := fun i => F64.mul (((List.range m).map w').getD i 0) (((List.range m).map d).getD i 0))
      (y := fun i => F64.mul (w' i) (d i)) (fun k hk => by rw [g _ _ (hlt k hk), g _ _ (hlt k hk)])]

theorem sumw {t : SumTree} {m : ℕ} (ht : t.leaves.Perm (List.range m)) {w w' : ℕ → ℝ}
    (hw : ∀ i < m, WRel (w' i) (w i)) :
    |t.sum w' - ∑ i ∈ Finset.range m, w i| ≤ gam (4 + m)*∑ i ∈ Finset.range m, w i := by
  have h := Props.sum_err' ht (fun k hk => (hw k hk).grid) (fun k hk => (hw k hk).rel)
  have e1 : ∑ i ∈ Finset.range m, |w i| = ∑ i ∈ Finset.range m, w i :=
    Finset.sum_congr rfl fun i hi => abs_of_nonneg (hw i (Finset.mem_range.mp hi)).nonneg
  rw [e1] at h
  refine h.trans (mul_le_mul_of_nonneg_right (gam_mono ?_) (Finset.sum_nonneg fun i hi => (hw i (Finset.mem_range.mp hi)).nonneg))
  have := Dg64.depth_le ht
  omega

theorem sumw_pos {t : SumTree} {m : ℕ} (hm : m ≤ 2^40) (ht : t.leaves.Perm (List.range m)) {w w' : ℕ → ℝ}
    (hw : ∀ i < m, WRel (w' i) (w i)) (hW : 0 < ∑ i ∈ Finset.range m, w i) : t.sum w' ≠ 0 := by
  refine ((quot_err (k := 0) (N := 0) (F := 0) (A := 0) (by omega) (by simp) (sumw ht hw) (by simp) hW).1).ne'

/-- What the code computes for one new bin, before and after rounding. -/
theorem single_plan (ord : ℕ → SumTree) (hord : ∀ m, 0 < m → (ord m).leaves.Perm (List.range m)) (hn : 0 < n)
    (hn2 : n + 1 ≤ 2^40) (he : ∀ i j, i ≤ j → j ≤ n → e i ≤ e j) (hP : ∀ i ≤ n, ∀ j ≤ n, Pair (e i) (e j))
    (hmin : ∀ i ≤ n, Pair (e i) bmin) (hmax : ∀ i ≤ n, Pair bmax (e i)) (W : Window e n bmin bmax L R) :
    (∀ d, rebinSingleBin (tab (n+1) e) (tab n d) bmin bmax = .ok none ∧
      rebinSingleBin64 ord (tab (n+1) e) (tab n d) bmin bmax = .ok none) ∨
    (∃ i < n, ∀ d, rebinSingleBin (tab (n+1) e) (tab n d) bmin bmax = .ok (some (d i)) ∧
      rebinSingleBin64 ord (tab (n+1) e) (tab n d) bmin bmax = .ok (some (d i))) ∨
    (∃ m ≤ n + 1, ∃ t : SumTree, t.leaves.Perm (List.range m) ∧ ∃ w w' : ℕ → ℝ, ∃ idx : ℕ → ℕ,
      (∀ i < m, WRel (w' i) (w i) ∧ idx i < n) ∧ 0 < ∑ i ∈ Finset.range m, w i ∧
      ∀ d, rebinSingleBin (tab (n+1) e) (tab n d) bmin bmax
          = .ok (some ((∑ i ∈ Finset.range m, w i*d (idx i))/∑ i ∈ Finset.range m, w i)) ∧
        rebinSingleBin64 ord (tab (n+1) e) (tab n d) bmin bmax
          = .ok (some (F64.div (t.sum fun i => F64.mul (w' i) (d (idx i))) (t.sum w')))) := by
  have hL := W.hL
  have hR := W.hR
  have hLR := W.le
  rcases Nat.lt_or_ge (L+1) R with hbig | hsmall
  · by_cases hc : L = 0 ∧ R = n + 1
    · obtain ⟨rfl, rfl⟩ := hc
      right; right
      refine ⟨n+1, le_rfl, ord (n+1), hord _ (by omega), fun _ => 1, fun _ => 1,
        fun i => if i = 0 then n - 1 else i - 1, ?_, ?_, ?_⟩
      · intro i hi
        refine ⟨WRel.one, ?_⟩
        simp only
        split_ifs <;> omega
      · simp; positivity
      · intro d
        constructor
        · rw [single_cover W hn d, Finset.sum_range_succ']
          simp [add_comm]
        · rw [single64_cover ord W hn d, mean64_some (hord (n+1) (by omega)) (fun _ => 1)
            (fun i => d (if i = 0 then n - 1 else i - 1)), if_neg]
          · exact sumw_pos hn2 (hord _ (by omega)) (w := fun _ => 1) (fun i _ => WRel.one) (by simp; positivity)
          · simp
          · rw [List.range_succ_eq_map, List.map_cons, List.map_map, List.range'_eq_map_range, List.map_map]
            simp [Function.comp]
    · have h2 : L + 2 ≤ R := hbig
      have hfirst : ∀ k, k + 1 = L → 0 ≤ e L - bmin ∧ 0 < e L - e (L-1) ∧ L ≤ n := by
        intro k hk
        have hLn : L ≤ n := by omega
        have h3 : e (L-1) < bmin := (W.lt_min (L-1) (by omega)).mpr (by omega)
        have h4 : bmin ≤ e L := not_lt.mp fun h => by
          have := (W.lt_min L hLn).mp h; omega
        exact ⟨by linarith, by linarith, hLn⟩
      by_cases hrep : R ≤ n ∧ e (R-1) = e (R-2)
      · left
        intro d
        constructor
        · rw [single_general W h2 hc d]
          have hmem : none ∈ (List.range' (L-1) (min R n - (L-1))).map (wgt e n bmin bmax L R) := by
            rw [List.mem_map]
            refine ⟨R-1, by simp only [List.mem_range'_1]; omega, ?_⟩
            unfold wgt
            rw [if_neg (by omega), if_pos (by omega)]
            have : R - 1 - 1 = R - 2 := by omega
            rw [this, hrep.2]; simp [fdiv]
          rw [npSum_none _ hmem]
          unfold odiv
          split <;> simp_all
        · rw [single64_general ord W h2 hc d, mean64_none]
          rw [List.mem_map]
          refine ⟨R-1, by simp only [List.mem_range'_1]; omega, ?_⟩
          unfold wgt64
          rw [if_neg (by omega), if_pos (by omega)]
          have : R - 1 - 1 = R - 2 := by omega
          rw [this, ratio64_zero (by rw [hrep.2]; ring)]
      · right; right
        have hlast : ∀ k, k + 1 = R → k < n → 0 ≤ bmax - e k ∧ 0 < e k - e (k-1) := by
          intro k hk hkn
          have h3 : e k ≤ bmax := (W.le_max k (by omega)).mpr (by omega)
          have h4 : e (k-1) ≤ e k := he _ _ (by omega) (by omega)
          have h5 : e k ≠ e (k-1) := by
            intro h
            apply hrep
            refine ⟨by omega, ?_⟩
            rw [show R - 1 = k by omega, show R - 2 = k - 1 by omega, h]
          exact ⟨by linarith, by linarith [lt_of_le_of_ne h4 (Ne.symm h5)]⟩
        have hboth : ∀ k, ∃ v v', wgt e n bmin bmax L R k = some v ∧ wgt64 e n bmin bmax L R k = some v' ∧
            WRel v' v ∧ (k = L → v = 1) := by
          intro k
          unfold wgt wgt64
          by_cases h1 : k + 1 = L
          · obtain ⟨p1, p2, p3⟩ := hfirst k h1
            obtain ⟨v', q1, q2⟩ := ratio64_rel (hmin L p3) (hP L p3 (L-1) (by omega)) p1 p2
            rw [if_pos h1, if_pos h1]
            refine ⟨_, v', ?_, q1, q2, by omega⟩
            simp [fdiv, p2.ne']
          · by_cases h3 : k + 1 = R ∧ k < n
            · obtain ⟨p1, p2⟩ := hlast k h3.1 h3.2
              obtain ⟨v', q1, q2⟩ := ratio64_rel (hmax k (by omega)) (hP k (by omega) (k-1) (by omega)) p1 p2
              rw [if_neg h1, if_neg h1, if_pos h3, if_pos h3]
              refine ⟨_, v', ?_, q1, q2, by omega⟩
              simp [fdiv, p2.ne']
            · rw [if_neg h1, if_neg h1, if_neg h3, if_neg h3]
              exact ⟨1, 1, rfl, rfl, WRel.one, fun _ => rfl⟩
        choose v v' hv hv' hvr hv1 using hboth
        set m := min R n - (L-1) with hm
        have hW : 0 < ∑ i ∈ Finset.range m, v (L - 1 + i) := by
          have h3 : v (L - 1 + (L - (L-1))) ≤ ∑ i ∈ Finset.range m, v (L - 1 + i) :=
            Finset.single_le_sum (f := fun i => v (L - 1 + i)) (fun i _ => (hvr _).nonneg) (Finset.mem_range.mpr (by omega))
          rw [hv1 _ (by omega)] at h3
          linarith
        have hrel : ∀ i < m, WRel (v' (L - 1 + i)) (v (L - 1 + i)) := fun i _ => hvr _
        refine ⟨m, by omega, ord m, hord m (by omega), fun i => v (L - 1 + i), fun i => v' (L - 1 + i),
          fun i => L - 1 + i, fun i hi => ⟨hvr _, show L - 1 + i < n by omega⟩, hW, ?_⟩
        intro d
        constructor
        · rw [single_general W h2 hc d]
          have e1 : (List.range' (L-1) m).map (fun k => omul (wgt e n bmin bmax L R k) (d k))
              = ((List.range' (L-1) m).map fun k => v k * d k).map some := by
            rw [List.map_map]
            apply List.map_congr_left
            intro k _
            simp [hv, omul]
          have e2 : (List.range' (L-1) m).map (wgt e n bmin bmax L R)
              = ((List.range' (L-1) m).map v).map some := by
            rw [List.map_map]
            apply List.map_congr_left
            intro k _
            simp [hv]
          rw [e1, e2, npSum_some, npSum_some, sum_range'_map, sum_range'_map]
          simp only [odiv, fdiv, Finset.sum_Ico_eq_sum_range, Nat.add_sub_cancel_left]
          rw [if_neg hW.ne']
        · rw [single64_general ord W h2 hc d, mean64_some (hord m (by omega)) (fun i => v' (L - 1 + i))
            (fun i => d (L - 1 + i)), if_neg]
          · exact sumw_pos (by omega) (hord m (by omega)) hrel hW
          · rw [List.range'_eq_map_range, List.map_map, List.map_map]
            apply List.map_congr_left
            intro k _
            simp [hv']
          · rw [List.range'_eq_map_range, List.map_map]
            rfl
  · rcases Nat.lt_or_ge L R with h1 | h1
    · have hRL : R = L + 1 := by omega
      subst hRL
      have hcond : condition (tab (n+1) e) bmin bmax = [L] := by
        rw [condition_eq W]; simp
      have eL1 : bmin ≤ e L := not_lt.mp fun h => by
        have := (W.lt_min L (by omega)).mp h; omega
      have eL2 : e L ≤ bmax := (W.le_max L (by omega)).mpr (by omega)
      by_cases hin : 0 < L ∧ L < n
      · have h3 : e (L-1) < bmin := (W.lt_min (L-1) (by omega)).mpr (by omega)
        have h4 : bmax < e (L+1) := not_le.mp fun h => by
          have := (W.le_max (L+1) (by omega)).mp h; omega
        have d1 : 0 < e L - e (L-1) := by linarith
        have d2 : 0 < e (L+1) - e L := by linarith
        obtain ⟨v1, q1, r1⟩ := ratio64_rel (hmin L (by omega)) (hP L (by omega) (L-1) (by omega)) (by linarith) d1
        obtain ⟨v2, q2, r2⟩ := ratio64_rel (hmax L (by omega)) (hP (L+1) (by omega) L (by omega)) (by linarith) d2
        have hval : ∀ d : ℕ → ℝ, rebinSingleBin (tab (n+1) e) (tab n d) bmin bmax
            = .ok (odiv (some ((e L - bmin)/(e L - e (L-1)) * d (L-1)
                + (bmax - e L)/(e (L+1) - e L) * d L))
              (some ((e L - bmin)/(e L - e (L-1)) + (bmax - e L)/(e (L+1) - e L)))) := by
          intro d
          unfold rebinSingleBin
          rw [hcond]
          simp only [tab_length, Nat.add_sub_cancel]
          rw [if_pos hin, getZ_tab (n+1) e L (by omega),
            getZ_tab' (n+1) e _ (L-1) (by omega) (by omega),
            getZ_tab' (n+1) e _ (L+1) (by push_cast; ring) (by omega),
            getZ_tab' n d _ (L-1) (by omega) (by omega), getZ_tab n d L (by omega)]
          simp [bind, Except.bind, pure, Except.pure, fdiv, d1.ne', d2.ne', omul, npSum]
        have hval' : ∀ d : ℕ → ℝ, rebinSingleBin64 ord (tab (n+1) e) (tab n d) bmin bmax
            = .ok (mean64 (.node (.leaf 0) (.leaf 1)) [some v1, some v2] [d (L-1), d L]) := by
          intro d
          unfold rebinSingleBin64
          rw [hcond]
          simp only [tab_length, Nat.add_sub_cancel]
          rw [if_pos hin, getZ_tab (n+1) e L (by omega),
            getZ_tab' (n+1) e _ (L-1) (by omega) (by omega),
            getZ_tab' (n+1) e _ (L+1) (by push_cast; ring) (by omega),
            getZ_tab' n d _ (L-1) (by omega) (by omega), getZ_tab n d L (by omega)]
          simp [bind, Except.bind, pure, Except.pure, q1, q2]
        generalize hw1 : (e L - bmin)/(e L - e (L-1)) = w1 at *
        generalize hw2 : (bmax - e L)/(e (L+1) - e L) = w2 at *
        have ht : (SumTree.node (.leaf 0) (.leaf 1)).leaves.Perm (List.range 2) := by
          simp [SumTree.leaves, List.range_succ]
        have n1 := r1.nonneg
        have n2 := r2.nonneg
        have hmean : ∀ d : ℕ → ℝ, _ := fun d => mean64_some ht (fun i => if i = 0 then v1 else v2)
          (fun i => d (if i = 0 then L - 1 else L)) (w := [some v1, some v2]) (ds := [d (L-1), d L])
          (by simp [List.range_succ]) (by simp [List.range_succ])
        have hrel : ∀ i < 2, WRel (if i = 0 then v1 else v2) (if i = 0 then w1 else w2) := by
          intro i hi
          split_ifs
          · exact r1
          · exact r2
        by_cases hz : w1 + w2 = 0
        · left
          intro d
          have z1 : w1 = 0 := by linarith
          have z2 : w2 = 0 := by linarith
          have y1 : v1 = 0 := by
            have := r1.rel
            unfold Means64.Rel at this
            simpa [z1] using this
          have y2 : v2 = 0 := by
            have := r2.rel
            unfold Means64.Rel at this
            simpa [z2] using this
          refine ⟨by rw [hval d, hz]; simp [odiv, fdiv], ?_⟩
          rw [hval' d, hmean d, if_pos]
          simp [SumTree.sum, y1, y2, F64.add, fl_zero]
        · right; right
          have hW : 0 < ∑ i ∈ Finset.range 2, if i = 0 then w1 else w2 := by
            simp [Finset.sum_range_succ]
            exact lt_of_le_of_ne (by linarith) (Ne.symm hz)
          refine ⟨2, by omega, _, ht, fun i => if i = 0 then w1 else w2, fun i => if i = 0 then v1 else v2,
            fun i => if i = 0 then L - 1 else L, ?_, hW, ?_⟩
          · intro i hi
            refine ⟨hrel i hi, ?_⟩
            simp only
            split_ifs <;> omega
          · intro d
            refine ⟨?_, ?_⟩
            · rw [hval d]
              simp [odiv, fdiv, hz, Finset.sum_range_succ]
            · rw [hval' d, hmean d, if_neg]
              exact sumw_pos (by norm_num) ht hrel hW
      · right; left
        by_cases hL0 : L = 0
        · refine ⟨0, hn, fun d => ?_⟩
          unfold rebinSingleBin rebinSingleBin64
          rw [hcond]
          simp only [tab_length, Nat.add_sub_cancel]
          simp only [if_neg hin, if_pos hL0]
          rw [getZ_tab' n d 0 0 rfl hn]
          exact ⟨rfl, rfl⟩
        · refine ⟨n-1, by omega, fun d => ?_⟩
          unfold rebinSingleBin rebinSingleBin64
          rw [hcond]
          simp only [tab_length, Nat.add_sub_cancel]
          simp only [if_neg hin, if_neg hL0]
          rw [getZ_tab_last n d hn]
          exact ⟨rfl, rfl⟩
    · have hRL : R = L := by omega
      subst hRL
      have hcond : condition (tab (n+1) e) bmin bmax = [] := by
        rw [condition_eq W]; simp
      by_cases hR1 : R = n + 1
      · left
        intro d
        have hc1 : condition1 (tab (n+1) e) bmin = [] := by rw [condition1_eq W, hR1]; simp
        unfold rebinSingleBin rebinSingleBin64
        rw [hcond]
        simp only [hc1, and_self]
      · have hc1 : condition1 (tab (n+1) e) bmin = R :: List.range' (R+1) (n-R) := by
          rw [condition1_eq W, show n + 1 - R = (n-R) + 1 by omega, List.range'_succ]
        by_cases hin : 0 < R
        · right; left
          refine ⟨R-1, by omega, fun d => ?_⟩
          unfold rebinSingleBin rebinSingleBin64
          rw [hcond]
          simp only [hc1]
          rw [if_pos (by simp; omega), getZ_tab' n d _ (R-1) (by omega) (by omega)]
          exact ⟨rfl, rfl⟩
        · left
          intro d
          unfold rebinSingleBin rebinSingleBin64
          rw [hcond]
          simp only [hc1]
          rw [if_neg (by simp; omega)]
          exact ⟨rfl, rfl⟩

/-! ## The error of a mean -/

theorem mean_err {t : SumTree} {m a : ℕ} (hm : m ≤ 2^40) (ha : a ≤ 4) (ht : t.leaves.Perm (List.range m)) {w w' d d' : ℕ → ℝ}
    (hw : ∀ i < m, WRel (w' i) (w i)) (hW : 0 < ∑ i ∈ Finset.range m, w i) (hd : ∀ i < m, Rel a (d' i) (d i))
    (hs : ∀ i < m, d' i = 0 ∨ (2:ℝ)^(-600 : ℤ) ≤ |d' i|) :
    |F64.div (t.sum fun i => F64.mul (w' i) (d' i)) (t.sum w') - (∑ i ∈ Finset.range m, w i*d i)/∑ i ∈ Finset.range m, w i|
      ≤ (2*m + a + 10)/2^52*((∑ i ∈ Finset.range m, w i*|d i|)/∑ i ∈ Finset.range m, w i) + (2:ℝ)^(-1075 : ℤ) := by
  have hr : ∀ i < m, Rel (4 + a + 1) (F64.mul (w' i) (d' i)) (w i*d i) := by
    intro i hi
    refine ((hw i hi).rel.mul (hd i hi)).trans (rel_fl ?_)
    rcases (hw i hi).size with h | h
    · left; rw [h, zero_mul]
    · rcases hs i hi with h' | h'
      · left; rw [h', mul_zero]
      · right
        rw [abs_mul]
        calc (2:ℝ)^(-1022 : ℤ) ≤ (2:ℝ)^(-402 + -600 : ℤ) := zpow_le_zpow_right₀ (by norm_num) (by norm_num)
          _ = (2:ℝ)^(-402 : ℤ)*(2:ℝ)^(-600 : ℤ) := zpow_add₀ (by norm_num) _ _
          _ ≤ _ := mul_le_mul h h' (by positivity) (abs_nonneg _)
  have h1 := Props.sum_err' ht (fun k _ => grid_fl _) hr
  have e1 : ∑ i ∈ Finset.range m, |w i*d i| = ∑ i ∈ Finset.range m, w i*|d i| :=
    Finset.sum_congr rfl fun i hi => by rw [abs_mul, abs_of_nonneg (hw i (Finset.mem_range.mp hi)).nonneg]
  rw [e1] at h1
  have hA : 0 ≤ ∑ i ∈ Finset.range m, w i*|d i| :=
    Finset.sum_nonneg fun i hi => mul_nonneg (hw i (Finset.mem_range.mp hi)).nonneg (abs_nonneg _)
  have h2 : |(t.sum fun i => F64.mul (w' i) (d' i)) - ∑ i ∈ Finset.range m, w i*d i|
      ≤ gam (5 + a + m)*∑ i ∈ Finset.range m, w i*|d i| := by
    refine h1.trans (mul_le_mul_of_nonneg_right (gam_mono ?_) hA)
    have := Dg64.depth_le ht
    omega
  have h3 : |∑ i ∈ Finset.range m, w i*d i| ≤ ∑ i ∈ Finset.range m, w i*|d i| := by
    rw [← e1]
    exact Finset.abs_sum_le_sum_abs _ _
  have := (quot_err (by omega) h2 (sumw ht hw) h3 hW).2
  refine this.trans (le_of_eq ?_)
  push_cast
  ring

theorem mean_le {m : ℕ} {w d : ℕ → ℝ} {F : ℝ} (hw : ∀ i < m, 0 ≤ w i) (hW : 0 < ∑ i ∈ Finset.range m, w i)
    (hd : ∀ i < m, d i ≤ F) : (∑ i ∈ Finset.range m, w i*d i)/∑ i ∈ Finset.range m, w i ≤ F := by
  rw [div_le_iff₀ hW, Finset.mul_sum]
  refine Finset.sum_le_sum fun i hi => ?_
  rw [mul_comm]
  exact mul_le_mul_of_nonneg_right (hd i (Finset.mem_range.mp hi)) (hw i (Finset.mem_range.mp hi))

theorem le_mean {m : ℕ} {w d : ℕ → ℝ} {F : ℝ} (hw : ∀ i < m, 0 ≤ w i) (hW : 0 < ∑ i ∈ Finset.range m, w i)
    (hd : ∀ i < m, F ≤ d i) : F ≤ (∑ i ∈ Finset.range m, w i*d i)/∑ i ∈ Finset.range m, w i := by
  rw [le_div_iff₀ hW, Finset.mul_sum]
  refine Finset.sum_le_sum fun i hi => ?_
  rw [mul_comm F]
  exact mul_le_mul_of_nonneg_left (hd i (Finset.mem_range.mp hi)) (hw i (Finset.mem_range.mp hi))

theorem le_gam (k : ℕ) : k/2^53 ≤ gam k := by
  unfold gam
  have := one_add_mul_le_pow (a := (1/2^53 : ℝ)) (by norm_num) k
  have e : (k:ℝ)/2^53 = k*(1/2^53) := by ring
  rw [e]; linarith

/-- The quotient of the two means of a weighted rebinning. -/
theorem quot_means {n : ℕ} (hn : n + 1 ≤ 2^38) {N N' D D' M F : ℝ} (hM : |N| ≤ M) (hMF : M ≤ F*D) (hD : (2:ℝ)^(-200 : ℤ) ≤ D)
    (hN : |N' - N| ≤ (2*n + 13)/2^52*M + (2:ℝ)^(-1075 : ℤ)) (hD' : |D' - D| ≤ (2*n + 12)/2^52*D + (2:ℝ)^(-1075 : ℤ)) :
    0 < D' ∧ |F64.div N' D' - N/D| ≤ (8*n + 55)/2^52*(F + (2:ℝ)^(-800 : ℤ)) + (2:ℝ)^(-1075 : ℤ) := by
  have hD0 : 0 < D := lt_of_lt_of_le (by positivity) hD
  have hn0 : (0:ℝ) ≤ n := Nat.cast_nonneg n
  have p1 : (2:ℝ)^(-1075 : ℤ) ≤ 1/2^52*((2:ℝ)^(-800 : ℤ)*D) := by
    calc (2:ℝ)^(-1075 : ℤ) ≤ (2:ℝ)^(-52 + (-800 + -200) : ℤ) := zpow_le_zpow_right₀ (by norm_num) (by norm_num)
      _ = 1/2^52*((2:ℝ)^(-800 : ℤ)*(2:ℝ)^(-200 : ℤ)) := by
        rw [zpow_add₀ (by norm_num), zpow_add₀ (by norm_num)]
        congr 1
        norm_num
      _ ≤ _ := by gcongr
  have p2 : (2:ℝ)^(-800 : ℤ) ≤ 1 := zpow_le_one_of_nonpos₀ (by norm_num) (by norm_num)
  have p0 : (0:ℝ) < (2:ℝ)^(-800 : ℤ) := by positivity
  generalize (2:ℝ)^(-800 : ℤ) = q at *
  have hM0 : 0 ≤ M := (abs_nonneg _).trans hM
  have hA : M ≤ (F + q)*D := by nlinarith
  have hA0 : 0 ≤ (F + q)*D := hM0.trans hA
  have hFD : 0 ≤ F*D := hM0.trans hMF
  have k1 : |N' - N| ≤ gam (4*n + 28)*((F + q)*D) := by
    refine hN.trans ?_
    have g := le_gam (4*n + 28)
    push_cast at g
    have h1 := mul_le_mul_of_nonneg_right g hA0
    have h2 : (2*(n:ℝ) + 13)/2^52*M ≤ (2*n + 13)/2^52*((F + q)*D) := mul_le_mul_of_nonneg_left hA (by positivity)
    have h3 : 1/2^52*(q*D) ≤ 1/2^52*((F + q)*D) := mul_le_mul_of_nonneg_left (by nlinarith) (by norm_num)
    have h4 : (2*(n:ℝ) + 13)/2^52*((F + q)*D) + 1/2^52*((F + q)*D) = (4*(n:ℝ) + 28)/2^53*((F + q)*D) := by ring
    linarith
  have k2 : |D' - D| ≤ gam (4*n + 26)*D := by
    refine hD'.trans ?_
    have g := le_gam (4*n + 26)
    push_cast at g
    have h1 := mul_le_mul_of_nonneg_right g hD0.le
    have h3 : 1/2^52*(q*D) ≤ 1/2^52*D := mul_le_mul_of_nonneg_left (by nlinarith) (by norm_num)
    have h4 : (2*(n:ℝ) + 12)/2^52*D + 1/2^52*D = (4*(n:ℝ) + 26)/2^53*D := by ring
    linarith
  obtain ⟨r1, r2⟩ := quot_err (by omega) k1 k2 (hM.trans hA) hD0
  refine ⟨r1, r2.trans (le_of_eq ?_)⟩
  rw [mul_div_assoc, div_self hD0.ne']
  push_cast
  ring

end Magpie.OneD64
