import Verif.Model.Cumulative64
import Verif.Proof.Means64
import Verif.Proof.Remap64
import Verif.Proof.RandomsBasic
import Verif.Proof.Grids64

/-!
# Running sums in binary64
-/

set_option linter.unusedSimpArgs false
set_option linter.unusedVariables false
set_option linter.unusedSectionVars false

namespace Magpie.Cumul64
open Magpie Magpie.F64 Magpie.Spec Magpie.Means64 Magpie.OneD Magpie.Polar Finset

/-- The sum of the entries up to the `k`-th, one addition after the other. -/
noncomputable def acc (x : ℕ → ℝ) : ℕ → ℝ
  | 0 => x 0
  | k+1 => F64.add (acc x k) (x (k+1))

/-- The order of summation of `np.cumsum`. -/
def comb : ℕ → SumTree
  | 0 => .leaf 0
  | k+1 => .node (comb k) (.leaf (k+1))

theorem comb_sum (x : ℕ → ℝ) : ∀ k, (comb k).sum x = acc x k
  | 0 => rfl
  | k+1 => by simp only [comb, SumTree.sum, acc, comb_sum x k]

theorem comb_leaves : ∀ k, (comb k).leaves = List.range (k+1)
  | 0 => rfl
  | k+1 => by rw [comb, SumTree.leaves, comb_leaves k, SumTree.leaves, ← List.range_succ]

theorem comb_depth : ∀ k, (comb k).depth = k
  | 0 => rfl
  | k+1 => by simp [comb, SumTree.depth, comb_depth k]

theorem sum_range_list (x : ℕ → ℝ) (n : ℕ) : ((List.range n).map x).sum = ∑ i ∈ range n, x i := by
  induction n with
  | zero => simp
  | succ n ih => rw [List.range_succ, List.map_append, List.sum_append, ih, Finset.sum_range_succ]; simp

/-- The error of a running sum. -/
theorem acc_err {x y : ℕ → ℝ} {a k : ℕ} (hg : ∀ i ≤ k, Means64.Grid (y i)) (h : ∀ i ≤ k, Means64.Rel a (y i) (x i)) :
    |acc y k - ∑ i ∈ range (k+1), x i| ≤ gam (a + k)*∑ i ∈ range (k+1), |x i| := by
  have hm : ∀ i ∈ (comb k).leaves, i ≤ k := by
    intro i hi
    rw [comb_leaves, List.mem_range] at hi
    omega
  have := sum_err (t := comb k) (fun i hi => hg i (hm i hi)) (fun i hi => h i (hm i hi))
  rwa [comb_sum, comb_leaves, comb_depth, sum_range_list, sum_range_list] at this

theorem acc_fl {x : ℕ → ℝ} (h0 : fl (x 0) = x 0) (k : ℕ) : fl (acc x k) = acc x k := by
  cases k with
  | zero => exact h0
  | succ k => exact fl_fl _

theorem acc_step {x : ℕ → ℝ} (h0 : fl (x 0) = x 0) {k : ℕ} (h : 0 ≤ x (k+1)) : acc x k ≤ acc x (k+1) := by
  have := fl_mono (show acc x k ≤ acc x k + x (k+1) by linarith)
  rwa [acc_fl h0] at this

theorem acc_nonneg {x : ℕ → ℝ} {k : ℕ} (h : ∀ i ≤ k, 0 ≤ x i) : 0 ≤ acc x k := by
  induction k with
  | zero => exact h 0 le_rfl
  | succ k ih =>
    exact fl_nonneg (add_nonneg (ih fun i hi => h i (by omega)) (h _ le_rfl))

theorem running_length (a : ℝ) (l : List ℝ) : (running a l).length = l.length := by
  induction l generalizing a with
  | nil => rfl
  | cons x l ih => simp [running, ih]

theorem cumsum64_length (l : List ℝ) : (cumsum64 l).length = l.length := by
  cases l with
  | nil => rfl
  | cons x l => simp [cumsum64, running_length]

theorem running_get (f : ℕ → ℝ) : ∀ (l : List ℝ) (k i : ℕ), (∀ i < l.length, l[i]? = some (f (k+1+i))) →
    i < l.length → (running (acc f k) l)[i]? = some (acc f (k+1+i))
  | [], k, i, _, hi => by simp at hi
  | x :: l, k, 0, h, hi => by
    have := h 0 (by simp)
    simp only [List.getElem?_cons_zero, Option.some.injEq, add_zero] at this
    simp [running, acc, this]
  | x :: l, k, i+1, h, hi => by
    have h0 := h 0 (by simp)
    simp only [List.getElem?_cons_zero, Option.some.injEq, add_zero] at h0
    rw [running, List.getElem?_cons_succ, h0, show F64.add (acc f k) (f (k+1)) = acc f (k+1) from rfl,
      running_get f l (k+1) i ?_ (by simpa using hi)]
    · congr 2; omega
    · intro i hi
      have := h (i+1) (by simpa using hi)
      rw [List.getElem?_cons_succ] at this
      rw [this]; congr 2; omega

theorem cumsum64_get (l : List ℝ) {k : ℕ} (hk : k < l.length) :
    (cumsum64 l)[k]? = some (acc (fun i => l.getD i 0) k) := by
  cases l with
  | nil => simp at hk
  | cons x l =>
    cases k with
    | zero => simp [cumsum64, acc]
    | succ k =>
      rw [cumsum64, List.getElem?_cons_succ]
      have := running_get (fun i => (x :: l).getD i 0) l 0 k ?_ (by simpa using hk)
      · simp only [acc, List.getD_cons_zero] at this
        rw [this]; congr 2; omega
      · intro i hi
        rw [show 0 + 1 + i = i + 1 by omega, List.getD_cons_succ, List.getD_eq_getElem?_getD,
          List.getElem?_eq_getElem hi]
        rfl

/-! ## Small facts about rounding -/

theorem grid_iff_fl {x : ℝ} (h : fl x = x) : Means64.Grid x := by rw [← h]; exact grid_fl x

theorem rel_sub {a b : ℝ} (ha : Means64.Grid a) (hb : Means64.Grid b) : Means64.Rel 1 (F64.sub a b) (a - b) := by
  have hb' : Means64.Grid (-b) := by
    obtain ⟨m, rfl⟩ := hb
    exact ⟨-m, by push_cast; ring⟩
  have := rel_add ha hb'
  unfold F64.add at this
  unfold F64.sub
  rwa [← sub_eq_add_neg] at this

theorem rel_bounds {k : ℕ} {y x : ℝ} (h : Means64.Rel k y x) (hx : 0 ≤ x) : (1 - gam k)*x ≤ y ∧ y ≤ (1 + gam k)*x := by
  unfold Means64.Rel at h
  rw [abs_of_nonneg hx, abs_le] at h
  constructor <;> linarith [h.1, h.2]

theorem sub_pos64 {a b : ℝ} (ha : IsDouble a) (hb : IsDouble b) (h : a < b) :
    (b - a)/2 ≤ F64.sub b a ∧ F64.sub b a ≤ 2*(b - a) := by
  obtain ⟨h1, h2⟩ := rel_bounds (rel_sub (grid_double hb) (grid_double ha)) (by linarith)
  rw [gam_one] at h1 h2
  constructor <;> nlinarith

/-- Adding a number below half a unit in the last place changes nothing. -/
theorem absorb {A p : ℝ} (hA : fl A = A) (hp : 0 ≤ p) (hbig : (2:ℝ)^(-1020 : ℤ) ≤ A) (hs : p*2^54 < A) :
    F64.add A p = A := by
  have hA0 : 0 < A := (two_zpow_pos _).trans_le hbig
  set e := ulpExp A with he
  have hlog : (-1020 : ℤ) ≤ Int.log 2 A := by
    have := Int.log_mono_right (b := 2) (two_zpow_pos (-1020)) hbig
    rwa [show ((2:ℝ)^(-1020 : ℤ)) = ((2:ℕ):ℝ)^(-1020 : ℤ) by norm_num, Int.log_zpow (by norm_num)] at this
  have he' : -1074 < e := by
    rw [he]
    unfold ulpExp
    rw [abs_of_pos hA0]
    exact lt_max_of_lt_left (by omega)
  have hlow := ulp_le_abs hA0.ne' (by rw [← he]; exact he')
  have hhi := abs_lt_ulp A
  rw [← he, abs_of_pos hA0] at hlow hhi
  obtain ⟨m, hm, hmA⟩ : ∃ m : ℤ, |m| ≤ 2^53 ∧ A = (m:ℝ)*(2:ℝ)^e := by
    obtain ⟨m, hm, h⟩ := fl_form A
    exact ⟨m, hm, by rw [hA] at h; exact h⟩
  have hpe := two_zpow_pos e
  have h53 : (2:ℝ)^(e+53) = 2^53*(2:ℝ)^e := by rw [zpow_add₀ (by norm_num)]; norm_num; ring
  have h52 : (2:ℝ)^(e+52) = 2^52*(2:ℝ)^e := by rw [zpow_add₀ (by norm_num)]; norm_num; ring
  have hm1 : m + 1 ≤ 2^53 := by
    have : (m:ℝ) < 2^53 := by
      rw [hmA, h53] at hhi
      exact lt_of_mul_lt_mul_right hhi hpe.le
    have : m < 2^53 := by exact_mod_cast this
    omega
  have hm1' : (m:ℝ) + 1 ≤ 2^53 := by exact_mod_cast hm1
  have hps : p < (2:ℝ)^e/2 := by
    rw [h53] at hhi
    have : p*2^54 < 2^53*(2:ℝ)^e := hs.trans hhi
    nlinarith
  have hAe : A + (2:ℝ)^e ≤ 2^53*(2:ℝ)^e := by
    rw [hmA]; nlinarith
  have hu : ulpExp (A + p) = e := by
    refine ulpExp_eq he'.le ?_ ?_
    · rw [abs_of_pos (by linarith)]; linarith
    · rw [abs_of_pos (by linarith), h53]; linarith
  unfold F64.add
  rw [fl_of_ulp hu (rne_near (n := m) ?_), hmA]
  have : (A + p)/(2:ℝ)^e - m = p/(2:ℝ)^e := by
    rw [hmA]; field_simp; ring
  rw [this, abs_of_nonneg (by positivity), div_lt_iff₀ hpe]
  linarith

/-! ## The table of `pdf2cdf` -/

/-- The entries of the table before the normalisation. -/
noncomputable def tab (p : ℕ → ℝ) (dx : ℝ) : ℕ → ℝ
  | 0 => 0
  | k+1 => F64.mul (acc p k) dx

section
variable {p : ℕ → ℝ} {n : ℕ} {dx : ℝ} (hp : ∀ i < n, IsDouble (p i)) (hp0 : ∀ i < n, 0 ≤ p i) (hdx : 0 < dx)
include hp hp0 hdx

theorem tab_mono {j k : ℕ} (hjk : j ≤ k) (hk : k ≤ n) : tab p dx j ≤ tab p dx k := by
  induction k, hjk using Nat.le_induction with
  | base => exact le_rfl
  | succ k hjk ih =>
    refine (ih (by omega)).trans ?_
    cases k with
    | zero => exact fl_nonneg (mul_nonneg (hp0 0 (by omega)) hdx.le)
    | succ k =>
      exact fl_mono (mul_le_mul_of_nonneg_right (acc_step (Remap64.isDouble_fl (hp 0 (by omega))) (hp0 _ (by omega))) hdx.le)

theorem acc_bounds {k : ℕ} (hk : k < n) :
    |acc p k - ∑ i ∈ range (k+1), p i| ≤ gam k*∑ i ∈ range (k+1), p i := by
  have := acc_err (x := p) (y := p) (a := 0) (k := k) (fun i hi => grid_double (hp i (by omega)))
    (fun i hi => Means64.Rel.refl _)
  rw [zero_add] at this
  refine this.trans (le_of_eq ?_)
  congr 1
  exact Finset.sum_congr rfl fun i hi => abs_of_nonneg (hp0 i (by rw [mem_range] at hi; omega))

theorem sum_mono {j k : ℕ} (hjk : j ≤ k) (hk : k ≤ n) : ∑ i ∈ range j, p i ≤ ∑ i ∈ range k, p i :=
  Finset.sum_le_sum_of_subset_of_nonneg (Finset.range_mono hjk) fun i hi _ => hp0 i (by rw [mem_range] at hi; omega)

theorem tab_err (hW : (2:ℝ)^(-1010 : ℤ) ≤ (∑ i ∈ range n, p i)*dx) {k : ℕ} (hk : k ≤ n) :
    |tab p dx k - (∑ i ∈ range k, p i)*dx| ≤ gam (k+1)*((∑ i ∈ range n, p i)*dx) := by
  set W := (∑ i ∈ range n, p i)*dx with hWd
  have hW0 : 0 < W := (two_zpow_pos _).trans_le hW
  cases k with
  | zero =>
    simp only [tab, Finset.range_zero, Finset.sum_empty, zero_mul, sub_zero, abs_zero]
    exact mul_nonneg (gam_nonneg _) hW0.le
  | succ k =>
    have h1 := acc_bounds hp hp0 hdx (k := k) (by omega)
    set S := ∑ i ∈ range (k+1), p i with hS
    have hS0 : 0 ≤ S := Finset.sum_nonneg fun i hi => hp0 i (by rw [mem_range] at hi; omega)
    have hSW : S*dx ≤ W := mul_le_mul_of_nonneg_right (sum_mono hp hp0 hdx hk le_rfl) hdx.le
    have hSd : 0 ≤ S*dx := mul_nonneg hS0 hdx.le
    have g := gam_nonneg k
    have h2 : |acc p k*dx - S*dx| ≤ gam k*(S*dx) := by
      rw [← sub_mul, abs_mul, abs_of_pos hdx]
      have := mul_le_mul_of_nonneg_right h1 hdx.le
      linarith
    have h3 : |acc p k*dx| ≤ (1 + gam k)*(S*dx) := by
      have := abs_sub_abs_le_abs_sub (acc p k*dx) (S*dx)
      rw [abs_of_nonneg hSd] at this
      linarith
    have h4 := fl_err_abs (acc p k*dx)
    rw [abs_sub_comm] at h4
    have h5 : (2:ℝ)^(-1075 : ℤ) ≤ W/2^53 := by
      have : (2:ℝ)^(-1010 : ℤ) = 2^65*(2:ℝ)^(-1075 : ℤ) := by
        rw [← zpow_natCast, ← zpow_add₀ (by norm_num)]; norm_num
      rw [this] at hW
      have := two_zpow_pos (-1075)
      rw [le_div_iff₀ (by norm_num)]
      nlinarith
    show |fl (acc p k*dx) - S*dx| ≤ _
    have h6 := abs_sub_le (fl (acc p k*dx)) (acc p k*dx) (S*dx)
    rw [show k + 1 + 1 = (k + 1) + 1 by rfl, gam_add, gam_add, gam_one]
    have h7 := mul_le_mul_of_nonneg_left hSW g
    have e : (0:ℝ) < 1/2^53 := by norm_num
    have h8 : |acc p k*dx|/2^53 ≤ (1 + gam k)*W*(1/2^53) := by
      rw [div_eq_mul_one_div]
      refine mul_le_mul_of_nonneg_right (h3.trans (mul_le_mul_of_nonneg_left hSW (by linarith))) e.le
    have h9 : W/2^53 = W*(1/2^53) := by ring
    have h10 : 0 ≤ (gam k + 1/2^53 + gam k*(1/2^53))*(1/2^53)*W := by positivity
    nlinarith

theorem tab_pos (hn : n ≤ 2^40) (hW : (2:ℝ)^(-1010 : ℤ) ≤ (∑ i ∈ range n, p i)*dx) : 0 < tab p dx n := by
  have h := tab_err hp hp0 hdx hW (le_refl n)
  have hW0 : 0 < (∑ i ∈ range n, p i)*dx := (two_zpow_pos _).trans_le hW
  have hg : gam (n+1) ≤ 1/2 := by
    refine (gam_le (by omega)).trans ?_
    have : ((n+1 : ℕ):ℝ) ≤ 2^41 := by exact_mod_cast (by omega : n + 1 ≤ 2^41)
    rw [div_mul_eq_mul_div, div_le_iff₀ (by norm_num)]
    nlinarith
  have := (abs_le.mp h).1
  nlinarith

/-- The accuracy of the normalised table. -/
theorem cdf_err (hn : n ≤ 2^40) (hW : (2:ℝ)^(-1010 : ℤ) ≤ (∑ i ∈ range n, p i)*dx) {k : ℕ} (hk : k ≤ n) :
    |F64.div (tab p dx k) (tab p dx n) - (∑ i ∈ range k, p i)/(∑ i ∈ range n, p i)| ≤ (n + 3)/2^51 := by
  have hW0 : 0 < (∑ i ∈ range n, p i)*dx := (two_zpow_pos _).trans_le hW
  have hS0 : 0 < ∑ i ∈ range n, p i := pos_of_mul_pos_left hW0 hdx.le
  have hF : |(∑ i ∈ range k, p i)*dx| ≤ (∑ i ∈ range n, p i)*dx := by
    rw [abs_of_nonneg (mul_nonneg (Finset.sum_nonneg fun i hi => hp0 i (by rw [mem_range] at hi; omega)) hdx.le)]
    exact mul_le_mul_of_nonneg_right (sum_mono hp hp0 hdx hk le_rfl) hdx.le
  obtain ⟨-, h⟩ := quot_err (by omega) (tab_err hp hp0 hdx hW hk) (tab_err hp hp0 hdx hW (le_refl n)) hF hW0
  rw [mul_div_mul_right _ _ hdx.ne', div_self hW0.ne'] at h
  refine h.trans ?_
  have hk' : (k:ℝ) ≤ n := by exact_mod_cast hk
  have h5 : (2:ℝ)^(-1075 : ℤ) ≤ 1/2^52 := by
    rw [show (1:ℝ)/2^52 = (2:ℝ)^(-52 : ℤ) by norm_num]
    exact zpow_le_zpow_right₀ (by norm_num) (by norm_num)
  push_cast
  rw [show ((n:ℝ) + 3)/2^51 = (2*n + 6)/2^52 by ring]
  have : ((k:ℝ) + 1 + (n + 1) + 1)/2^52*1 ≤ (2*n + 3)/2^52 := by
    rw [mul_one]; exact div_le_div_of_nonneg_right (by linarith) (by norm_num)
  have e : ((2:ℝ)*n + 6)/2^52 = (2*n + 3)/2^52 + 3*(1/2^52) := by ring
  linarith

end

/-- What `pdf2cdf` returns. -/
theorem pdf2cdf64_run (xmid pdf : List ℝ) (n : ℕ) (hn : 2 ≤ n) (hx : xmid.length = n) (hpl : pdf.length = n)
    (hp : ∀ q ∈ pdf, IsDouble q) (hp0 : ∀ q ∈ pdf, 0 ≤ q) (dx : ℝ) (hdx : 0 < dx)
    (hd : dx = F64.sub (xmid.getD 1 0) (xmid.getD 0 0)) :
    ∃ x : List ℝ, x.length = n + 1 ∧ pdf2cdf64 xmid pdf = .ok (x,
      (List.range (n+1)).map (fun (k : ℕ) => fdiv64 (tab (fun i => pdf.getD i 0) dx k) (tab (fun i => pdf.getD i 0) dx n)),
      pdf.map fun q => fdiv64 q (tab (fun i => pdf.getD i 0) dx n)) := by
  set p : ℕ → ℝ := fun i => pdf.getD i 0 with hpd
  have gx : ∀ k, k < n → xmid[k]? = some (xmid.getD k 0) := by
    intro k hk
    rw [List.getD_eq_getElem?_getD, List.getElem?_eq_getElem (by omega)]; rfl
  have gp : ∀ i < n, p i ∈ pdf := by
    intro i hi
    rw [hpd]
    simp only
    rw [List.getD_eq_getElem?_getD, List.getElem?_eq_getElem (by omega)]
    exact List.getElem_mem _
  have glast : xmid.getLast? = some (xmid.getD (n-1) 0) := by
    rw [List.getLast?_eq_getElem?, hx]; exact gx (n-1) (by omega)
  have hraw : (0 : ℝ) :: (cumsum64 pdf).map (fun s => F64.mul s dx) = (List.range (n+1)).map (tab p dx) := by
    apply List.ext_getElem?
    intro k
    cases k with
    | zero => simp [tab]
    | succ k =>
      rw [List.getElem?_cons_succ, List.getElem?_map, List.getElem?_map]
      by_cases hk : k < n
      · rw [cumsum64_get pdf (by omega), List.getElem?_range (by omega)]
        rfl
      · rw [List.getElem?_eq_none (by rw [cumsum64_length]; omega),
          List.getElem?_eq_none (by simp; omega)]; rfl
  have hmax : Randoms.npMax ((List.range (n+1)).map (tab p dx)) = .ok (tab p dx n) := by
    rw [← hraw]
    simp only [Randoms.npMax]
    rw [Randoms.foldl_max_eq _ _ (tab p dx n)]
    · intro y hy
      rw [hraw] at hy
      simp only [List.mem_map, List.mem_range] at hy
      obtain ⟨k, hk, rfl⟩ := hy
      exact tab_mono (fun i hi => hp _ (gp i hi)) (fun i hi => hp0 _ (gp i hi)) hdx (by omega) le_rfl
    · rw [hraw]
      simp only [List.mem_map, List.mem_range]
      exact ⟨n, by omega, rfl⟩
  refine ⟨Grids64.linspace64 (F64.sub (xmid.getD 0 0) (F64.mul (1/2) dx)) (F64.add (xmid.getD (n-1) 0)
    (F64.mul (1/2) dx)) (n+1), ?_, ?_⟩
  · rw [Grids64.linspace64_eq _ _ (by omega)]
    simp
  · unfold pdf2cdf64
    simp only [pyGet, gx 1 (by omega), gx 0 (by omega), pyLast, glast, bind, Except.bind, hx, ← hd]
    rw [Grids64.linspace64_eq _ _ (by omega), List.length_map, List.length_range]
    have hassign : assignFrom (List.replicate (n+1) (0:ℝ)) 1 ((cumsum64 pdf).map fun s => F64.mul s dx)
        = .ok ((List.range (n+1)).map (tab p dx)) := by
      rw [← hraw]
      unfold assignFrom sliceFrom sliceTo sliceBound
      rw [if_pos (by simp [cumsum64_length, hpl])]
      simp [List.replicate_succ]
    rw [hassign]
    simp only [hmax, pure, Except.pure, List.map_map]
    rfl

/-! ## Linear interpolation -/

/-- The interpolated value with and without rounding, on a table that starts at 0 and ends at 1. -/
theorem interp_eq64 (fused : Bool) (c x : List ℝ) (n : ℕ) (hc : c.length = n + 1) (hx : x.length = n + 1)
    (h0 : c.getD 0 0 = 0) (h1 : c.getD n 0 = 1) (hfx : ∀ k ≤ n, fl (x.getD k 0) = x.getD k 0)
    (u : ℝ) (hu0 : 0 ≤ u) (hu1 : u < 1) :
    ∃ j, j < n ∧ c.getD j 0 ≤ u ∧ u < c.getD (j+1) 0 ∧
      Randoms.interpLinear c x u = .ok ((x.getD (j+1) 0 - x.getD j 0)/(c.getD (j+1) 0 - c.getD j 0)
        *(u - c.getD j 0) + x.getD j 0) ∧
      interpLinear64 fused c x u = .ok (Remap64.madd fused (x.getD j 0) (F64.div (F64.sub (x.getD (j+1) 0) (x.getD j 0))
        (F64.sub (c.getD (j+1) 0) (c.getD j 0))) (F64.sub u (c.getD j 0))) := by
  have gc : ∀ k, k ≤ n → c[k]? = some (c.getD k 0) := by
    intro k hk
    rw [List.getD_eq_getElem?_getD, List.getElem?_eq_getElem (by omega)]; rfl
  have gx : ∀ k, k ≤ n → x[k]? = some (x.getD k 0) := by
    intro k hk
    rw [List.getD_eq_getElem?_getD, List.getElem?_eq_getElem (by omega)]; rfl
  set m := (c.takeWhile fun x => decide (x ≤ u)).length with hm
  have hmle : m ≤ n := by
    by_contra hcon
    obtain ⟨a, ha, hp⟩ := Randoms.takeWhile_mem (fun x => decide (x ≤ u)) c n (by omega)
    rw [gc n le_rfl, h1] at ha
    simp only [Option.some.injEq] at ha
    subst ha
    simp only [decide_eq_true_eq] at hp
    linarith
  have hm1 : 1 ≤ m := by
    by_contra hcon
    have hz : m = 0 := by omega
    have := Randoms.takeWhile_stop (fun x => decide (x ≤ u)) c (c.getD 0 0) (by
      rw [← hm, hz]; exact gc 0 (by omega))
    rw [h0] at this
    simp only [decide_eq_false_iff_not] at this
    exact this hu0
  obtain ⟨j, hj⟩ : ∃ j, m = j + 1 := ⟨m - 1, by omega⟩
  have hle : c.getD j 0 ≤ u := by
    obtain ⟨a, ha, hp⟩ := Randoms.takeWhile_mem (fun x => decide (x ≤ u)) c j (by omega)
    rw [gc j (by omega)] at ha
    simp only [Option.some.injEq] at ha
    subst ha
    simpa using hp
  have hlt : u < c.getD (j+1) 0 := by
    have := Randoms.takeWhile_stop (fun x => decide (x ≤ u)) c (c.getD (j+1) 0) (by
      rw [← hm, hj]; exact gc (j+1) (by omega))
    simpa using this
  have hlast : c.getLast? = some (c.getD n 0) := by
    rw [List.getLast?_eq_getElem?, hc, Nat.add_sub_cancel]; exact gc n le_rfl
  refine ⟨j, by omega, hle, hlt, ?_, ?_⟩
  · unfold Randoms.interpLinear
    simp only [pyGet, pyLast, gc 0 (by omega), hlast, bind, Except.bind, h0, h1]
    rw [if_neg (by push Not; exact ⟨hu0, hu1.le⟩)]
    simp only [← hm, hj, Nat.add_sub_cancel, gc j (by omega), gx j (by omega), hc]
    by_cases he : c.getD j 0 = u
    · rw [if_pos (Or.inr he)]
      simp only [pure, Except.pure]
      congr 1
      rw [he]; ring
    · rw [if_neg (by push Not; exact ⟨by omega, he⟩)]
      simp only [gc (j+1) (by omega), gx (j+1) (by omega)]
      rfl
  · unfold interpLinear64
    simp only [pyGet, pyLast, gc 0 (by omega), hlast, bind, Except.bind, h0, h1]
    rw [if_neg (by push Not; exact ⟨hu0, hu1.le⟩)]
    simp only [← hm, hj, Nat.add_sub_cancel, gc j (by omega), gx j (by omega), hc]
    by_cases he : c.getD j 0 = u
    · rw [if_pos (Or.inr he)]
      simp only [pure, Except.pure]
      congr 1
      rw [he]
      unfold Remap64.madd F64.sub F64.add F64.mul
      simp only [sub_self, fl_zero, mul_zero, add_zero, hfx j (by omega), ite_self]
    · rw [if_neg (by push Not; exact ⟨by omega, he⟩)]
      simp only [gc (j+1) (by omega), gx (j+1) (by omega)]
      rfl

set_option maxHeartbeats 1000000 in
/-- The error of one interpolated value. -/
theorem lerp_err (fused : Bool) {f g c d u M : ℝ} (hf : IsDouble f) (hg : IsDouble g) (hc : IsDouble c) (hd : IsDouble d)
    (hu : IsDouble u) (hcu : c ≤ u) (hud : u < d) (hd1 : d ≤ 1) (hc0 : 0 ≤ c) (hfM : |f| ≤ M) (hgM : |g| ≤ M) :
    |Remap64.madd fused f (F64.div (F64.sub g f) (F64.sub d c)) (F64.sub u c) - ((g - f)/(d - c)*(u - c) + f)|
      ≤ 32*(M/2^53) + 8*(2:ℝ)^(-1075 : ℤ) := by
  set η := (2:ℝ)^(-1075 : ℤ) with hη
  have hη0 : 0 < η := two_zpow_pos _
  have r1 := rel_sub (grid_double hg) (grid_double hf)
  have r2 := rel_bounds (rel_sub (grid_double hd) (grid_double hc)) (by linarith)
  have r3 := rel_bounds (rel_sub (grid_double hu) (grid_double hc)) (by linarith)
  unfold Means64.Rel at r1
  rw [gam_one] at r1 r2 r3
  set G := F64.sub g f
  set D := F64.sub d c
  set V := F64.sub u c
  set t := (u - c)/(d - c) with ht
  have hdc : 0 < d - c := by linarith
  have ht0 : 0 ≤ t := div_nonneg (by linarith) hdc.le
  have ht1 : t ≤ 1 := by rw [ht, div_le_one hdc]; linarith
  have hD0 : 0 < D := by nlinarith
  have hV0 : 0 ≤ V := by nlinarith
  have hM0 : 0 ≤ M := (abs_nonneg _).trans hfM
  have hgf : |g - f| ≤ 2*M := by
    have := abs_sub_abs_le_abs_sub g f
    have : |g - f| ≤ |g| + |f| := abs_sub g f
    linarith
  -- the ratio of the computed lengths
  have hr : |V/D - t| ≤ 3/2^53 := by
    have e : V/D - t = (V - t*D)/D := by field_simp
    have hut : u - c = t*(d - c) := by rw [ht]; field_simp
    rw [e, abs_div, abs_of_pos hD0, div_le_iff₀ hD0]
    rw [hut] at r3
    have h1 : |V - t*(d - c)| ≤ 1/2^53*(d - c) := by
      rw [abs_le]
      constructor <;> nlinarith [r3.1, r3.2]
    have h2 : |t*(d - c) - t*D| ≤ 1/2^53*(d - c) := by
      rw [← mul_sub, abs_mul, abs_of_nonneg ht0]
      have : |d - c - D| ≤ 1/2^53*(d - c) := by
        rw [abs_le]
        constructor <;> linarith [r2.1, r2.2]
      calc t * |d - c - D| ≤ 1 * |d - c - D| := by gcongr
        _ ≤ _ := by linarith
    have h3 := abs_sub_le V (t*(d - c)) (t*D)
    have h4 : d - c ≤ (3/2)*D := by nlinarith [r2.1]
    nlinarith
  have hr1 : V/D ≤ 2 := by
    have := (abs_le.mp hr).2
    have : (3:ℝ)/2^53 ≤ 1 := by norm_num
    linarith
  have hr0 : 0 ≤ V/D := div_nonneg hV0 hD0.le
  have hV2 : V ≤ 2 := by nlinarith [r3.2]
  have hG : |G| ≤ 3*M := by
    have := abs_sub_abs_le_abs_sub G (g - f)
    nlinarith
  have hq := fl_err_abs (G/D)
  rw [abs_sub_comm] at hq
  change |F64.div G D - G/D| ≤ |G/D|/2^53 + η at hq
  set Q := F64.div G D with hQ
  have h1 : |Q*V - G*(V/D)| ≤ 6*(M/2^53) + 2*η := by
    have e : Q*V - G*(V/D) = (Q - G/D)*V := by field_simp
    rw [e, abs_mul, abs_of_nonneg hV0]
    have h2 := mul_le_mul_of_nonneg_right hq hV0
    have h3 : |G/D|/2^53*V = |G| * (V/D)/2^53 := by
      rw [abs_div, abs_of_pos hD0]; field_simp
    have h4 : |G| * (V/D) ≤ 3*M*2 := mul_le_mul hG hr1 hr0 (by linarith)
    have h5 : |G| * (V/D)/2^53 ≤ 6*(M/2^53) := by
      rw [show 6*(M/2^53) = 3*M*2/2^53 by ring]; gcongr
    have h6 : η*V ≤ 2*η := by nlinarith
    nlinarith
  have h2 : |G*(V/D) - (g - f)*t| ≤ 13*(M/2^53) - M/2^53 := by
    have e : G*(V/D) - (g - f)*t = G*(V/D - t) + (G - (g - f))*t := by ring
    rw [e]
    refine (abs_add_le _ _).trans ?_
    rw [abs_mul, abs_mul, abs_of_nonneg ht0]
    have h3 : |G| * |V/D - t| ≤ 3*M*(3/2^53) := mul_le_mul hG hr (abs_nonneg _) (by linarith)
    have h4 : |G - (g - f)| * t ≤ |G - (g - f)| * 1 := by gcongr
    have h5 : 1/2^53 * |g - f| ≤ 1/2^53*(2*M) := by gcongr
    have : 3*M*(3/2^53) + 1/2^53*(2*M) = 11*(M/2^53) := by ring
    have : 0 ≤ M/2^53 := by positivity
    linarith
  have hQV : |Q*V| ≤ 3*M + 2*η := by
    have h3 : |(g - f)*t| ≤ 2*M := by
      rw [abs_mul, abs_of_nonneg ht0]
      calc |g - f| * t ≤ 2*M*1 := by gcongr
        _ = 2*M := by ring
    have h4 := abs_sub_le (Q*V) (G*(V/D)) ((g - f)*t)
    have h5 := abs_sub_abs_le_abs_sub (Q*V) ((g - f)*t)
    have : 18*(M/2^53) ≤ M := by
      rw [mul_div_assoc', div_le_iff₀ (by norm_num)]; nlinarith
    linarith
  have h3 := Remap64.madd_err fused (a := f) (b := Q) (c := V) hfM hQV
  have h4 : |Q*V - (g - f)*t| ≤ 18*(M/2^53) + 2*η := by
    have := abs_sub_le (Q*V) (G*(V/D)) ((g - f)*t)
    linarith
  have e : (g - f)/(d - c)*(u - c) + f = f + (g - f)*t := by rw [ht]; ring
  rw [e]
  have h5 := abs_sub_le (Remap64.madd fused f Q V) (f + Q*V) (f + (g - f)*t)
  rw [add_sub_add_left_eq_sub] at h5
  have : 3*((3*M + 2*η)/2^53) = 9*(M/2^53) + 6*η/2^53 := by ring
  have : 6*η/2^53 ≤ η := by rw [div_le_iff₀ (by norm_num)]; nlinarith
  have : 0 ≤ M/2^53 := by positivity
  linarith

end Magpie.Cumul64
