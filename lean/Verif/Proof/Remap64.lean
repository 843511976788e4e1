import Verif.Model.Remap64
import Verif.Spec.Remap64
import Verif.Proof.Remap
import Verif.Proof.Conversions64

/-!
# Grid to grid remapping in binary64
-/

set_option linter.unusedSimpArgs false
set_option linter.unusedVariables false
set_option linter.unusedSectionVars false

namespace Magpie.Remap64
open Magpie.Remap Magpie.F64 Magpie.Spec

/-! ## Conversions and rounding -/

theorem real4_int {n : ℤ} (h : |n| ≤ 2^24) : real4 n = n := by
  by_cases h0 : n = 0
  · subst h0; simp [real4, rne]
  have hn : 0 < |(n:ℝ)| := abs_pos.mpr (by exact_mod_cast h0)
  have hn' : |(n:ℝ)| ≤ 2^24 := by exact_mod_cast h
  unfold real4
  set l := Int.log 2 |(n:ℝ)| with hl
  have hl1 : (2:ℝ)^l ≤ |(n:ℝ)| := by
    have := Int.zpow_log_le_self (b := 2) (by norm_num) hn
    simpa using this
  have hl2 : l ≤ 24 := by
    by_contra hc
    have : (2:ℝ)^(25:ℤ) ≤ (2:ℝ)^l := zpow_le_zpow_right₀ (by norm_num) (by omega)
    have h25 : (2:ℝ)^(25:ℤ) = 2^25 := by norm_num
    rw [h25] at this
    linarith [this.trans hl1 |>.trans hn']
  have hint : ∃ m : ℤ, (n:ℝ)/(2:ℝ)^(l - 23) = m := by
    rcases lt_or_eq_of_le hl2 with hlt | heq
    · refine ⟨n*2^(23 - l).toNat, ?_⟩
      have : (2:ℝ)^(l - 23) = ((2:ℝ)^(23 - l).toNat)⁻¹ := by
        rw [← zpow_natCast, ← zpow_neg]
        congr 1
        omega
      rw [this, div_inv_eq_mul]
      push_cast
      ring
    · rw [heq] at hl1 ⊢
      have e : |(n:ℝ)| = 2^24 := le_antisymm hn' (by
        have : (2:ℝ)^(24:ℤ) = 2^24 := by norm_num
        linarith)
      have e' : |n| = 2^24 := by exact_mod_cast e
      rcases abs_choice n with hh | hh <;> rw [hh] at e'
      · refine ⟨2^23, ?_⟩
        rw [e']
        norm_num
      · refine ⟨-2^23, ?_⟩
        rw [show n = -2^24 by omega]
        norm_num
  obtain ⟨m, hm⟩ := hint
  rw [hm, rne_int, ← hm, div_mul_cancel₀ _ (two_zpow_pos _).ne']

/-- A rounding error, in one inequality. -/
theorem fl_abs_le {x c : ℝ} (h : |x| ≤ c) : |x - fl x| ≤ c/2^53 + (2:ℝ)^(-1075 : ℤ) :=
  (fl_err_abs x).trans (by gcongr)

theorem madd_err (fused : Bool) {a b c p q : ℝ} (ha : |a| ≤ p) (hb : |b*c| ≤ q) :
    |madd fused a b c - (a + b*c)| ≤ p/2^53 + 3*(q/2^53) + 3*(2:ℝ)^(-1075 : ℤ) := by
  have hη := two_zpow_pos (-1075)
  have hp : 0 ≤ p := (abs_nonneg _).trans ha
  have hq : 0 ≤ q := (abs_nonneg _).trans hb
  have hη1 : (2:ℝ)^(-1075 : ℤ)/2^53 ≤ (2:ℝ)^(-1075 : ℤ) := div_le_self hη.le (by norm_num)
  have hq1 : q/2^53/2^53 ≤ q/2^53 := div_le_self (by positivity) (by norm_num)
  unfold madd
  split_ifs
  · have : |a + b*c| ≤ p + q := (abs_add_le _ _).trans (add_le_add ha hb)
    have := fl_abs_le this
    rw [abs_sub_comm]
    have : (0:ℝ) ≤ q/2^53 := by positivity
    have e : (p + q)/2^53 = p/2^53 + q/2^53 := by ring
    linarith
  · unfold F64.add F64.mul
    have h1 := fl_abs_le hb
    set m := fl (b*c) with hm
    have hmq : |m| ≤ q + (q/2^53 + (2:ℝ)^(-1075 : ℤ)) := by
      have : m = b*c - (b*c - m) := by ring
      rw [this]
      exact (abs_sub _ _).trans (add_le_add hb h1)
    have h2 : |a + m| ≤ p + (q + (q/2^53 + (2:ℝ)^(-1075 : ℤ))) := (abs_add_le _ _).trans (add_le_add ha hmq)
    have h3 := fl_abs_le h2
    have e : fl (a + m) - (a + b*c) = -((a + m) - fl (a + m)) - (b*c - m) := by ring
    rw [e]
    refine (abs_sub _ _).trans ?_
    rw [abs_neg]
    have e2 : (p + (q + (q/2^53 + (2:ℝ)^(-1075 : ℤ))))/2^53
        = p/2^53 + q/2^53 + q/2^53/2^53 + (2:ℝ)^(-1075 : ℤ)/2^53 := by ring
    rw [e2] at h3
    linarith

/-- `a + 0*v` and `0 + 1*v` are exact. -/
theorem madd_zero (fused : Bool) {a v : ℝ} (ha : fl a = a) : madd fused a 0 v = a := by
  unfold madd F64.add F64.mul
  simp [fl_zero, ha]

theorem madd_one (fused : Bool) {v : ℝ} (hv : fl v = v) : madd fused 0 1 v = v := by
  unfold madd F64.add F64.mul
  simp [hv]

theorem isDouble_fl {x : ℝ} (h : IsDouble x) : fl x = x := by
  obtain ⟨m, e, hm, he, -, rfl⟩ := h
  exact fl_exact hm.le he

/-! ## Cell width and edges -/

/-- The computed cell width. -/
noncomputable def dx64 (o b : ℝ) (n : ℕ) : ℝ := F64.div (F64.sub (F64.add o b) o) (real4 n)

/-- The computed edges. -/
noncomputable def ed (fused : Bool) (o b : ℝ) (n : ℕ) (k : ℤ) : ℝ := madd fused o (dx64 o b n) (real4 k)

section
variable {o b : ℝ} {n : ℕ} (h : Resolved o b n)
include h

theorem res_n : (1:ℝ) ≤ n ∧ (n:ℝ) ≤ 2^24 := by
  constructor
  · exact_mod_cast h.pos
  · exact_mod_cast h.le

theorem res_b : 0 < b := (two_zpow_pos _).trans_le h.low

theorem res_cell : 0 < b/n ∧ b/n ≤ b ∧ (2:ℝ)^(-1075 : ℤ) ≤ b/n/2^100 := by
  have hb := res_b h
  obtain ⟨h1, h2⟩ := res_n h
  refine ⟨by positivity, div_le_self hb.le h1, ?_⟩
  rw [div_div, le_div_iff₀ (by positivity)]
  have h3 := h.low
  have e : (2:ℝ)^(-1075 : ℤ)*(2^24*2^100) ≤ (2:ℝ)^(-900 : ℤ) := by
    have : (2:ℝ)^24*2^100 = (2:ℝ)^(124 : ℤ) := by norm_num
    rw [this, ← zpow_add₀ (by norm_num)]
    exact zpow_le_zpow_right₀ (by norm_num) (by norm_num)
  refine le_trans ?_ (e.trans h3)
  gcongr

theorem res_o : |o|/2^53 ≤ b/n/2^5 := by
  have := h.near
  rw [div_le_div_iff₀ (by positivity) (by positivity)]
  nlinarith

theorem dx64_range : (7/8)*(b/n) ≤ dx64 o b n ∧ dx64 o b n ≤ (9/8)*(b/n) := by
  have hb := res_b h
  obtain ⟨n1, n2⟩ := res_n h
  obtain ⟨c0, c1, c2⟩ := res_cell h
  have ho := res_o h
  unfold dx64 F64.div F64.sub F64.add
  rw [real4_int (by rw [Nat.abs_cast]; exact_mod_cast h.le)]
  have hη := two_zpow_pos (-1075)
  have hob : |o + b| ≤ |o| + b := (abs_add_le _ _).trans (by rw [abs_of_pos hb])
  have e1 := fl_abs_le hob
  set X := fl (o + b)
  have e1' : |X - o - b| ≤ b/2^5 + b/2^53 + b/2^100 := by
    have : X - o - b = -((o + b) - X) := by ring
    rw [this, abs_neg]
    have e : (|o| + b)/2^53 = |o|/2^53 + b/2^53 := by ring
    have e3 : b/n/2^5 ≤ b/2^5 := by gcongr
    have e4 : b/n/2^100 ≤ b/2^100 := by gcongr
    linarith
  have e1'' : |X - o| ≤ 2*b := by
    have : X - o = (X - o - b) + b := by ring
    rw [this]
    refine (abs_add_le _ _).trans ?_
    rw [abs_of_pos hb]
    linarith
  have e2 := fl_abs_le e1''
  set B := fl (X - o)
  have hB : |B - b| ≤ b/16 := by
    have : B - b = (X - o - b) - (X - o - B) := by ring
    rw [this]
    refine (abs_sub _ _).trans ?_
    have e4 : b/n/2^100 ≤ b/2^100 := by gcongr
    linarith
  rw [abs_le] at hB
  have hq1 : B/n ≤ (17/16)*(b/n) := by rw [← mul_div_assoc]; gcongr; linarith [hB.2]
  have hq2 : (15/16)*(b/n) ≤ B/n := by rw [← mul_div_assoc]; gcongr; linarith [hB.1]
  have hq3 : |B/n| ≤ 2*(b/n) := by rw [abs_le]; constructor <;> linarith
  have e3 := fl_abs_le hq3
  rw [abs_le] at e3
  push_cast
  constructor <;> linarith [e3.1, e3.2]

theorem dx64_pos : 0 < dx64 o b n := by
  have := (dx64_range h).1
  have := (res_cell h).1
  linarith

/-- The computed edges are near the exact ones. -/
theorem ed_err (fused : Bool) {k : ℤ} (h0 : 0 ≤ k) (hk : k ≤ n) :
    |ed fused o b n k - (o + dx64 o b n*k)| ≤ dx64 o b n/16 := by
  obtain ⟨n1, n2⟩ := res_n h
  obtain ⟨c0, c1, c2⟩ := res_cell h
  have ho := res_o h
  obtain ⟨d1, d2⟩ := dx64_range h
  have d0 := dx64_pos h
  unfold ed
  have hkn : (k:ℝ) ≤ 2^24 := le_trans (by exact_mod_cast hk) n2
  have hk0 : (0:ℝ) ≤ k := by exact_mod_cast h0
  rw [real4_int (by rw [abs_of_nonneg h0]; have := h.le; omega)]
  set d := dx64 o b n
  have hdk : |d*k| ≤ d*2^24 := by
    rw [abs_of_nonneg (by positivity)]
    gcongr
  refine (madd_err fused (le_refl |o|) hdk).trans ?_
  have : d*2^24/2^53 = d/2^29 := by ring
  linarith

theorem ed_lt (fused : Bool) {k l : ℤ} (h0 : 0 ≤ k) (hkl : k < l) (hl : l ≤ n) :
    ed fused o b n k < ed fused o b n l := by
  have e1 := ed_err h fused h0 (by omega)
  have e2 := ed_err h fused (by omega) hl
  have d0 := dx64_pos h
  rw [abs_le] at e1 e2
  have : (k:ℝ) + 1 ≤ l := by exact_mod_cast hkl
  have : dx64 o b n*(k + 1) ≤ dx64 o b n*l := by gcongr
  linarith [e1.2, e2.1]

theorem which_ed (fused : Bool) {k : ℤ} (h0 : 0 ≤ k) (hk : k ≤ n) :
    whichPix64 o (dx64 o b n) (ed fused o b n k) = k - 1 ∨ whichPix64 o (dx64 o b n) (ed fused o b n k) = k := by
  have e1 := ed_err h fused h0 hk
  have d0 := dx64_pos h
  obtain ⟨n1, n2⟩ := res_n h
  obtain ⟨c0, c1, c2⟩ := res_cell h
  obtain ⟨d1, d2⟩ := dx64_range h
  have hkn : (k:ℝ) ≤ 2^24 := le_trans (by exact_mod_cast hk) n2
  have hk0 : (0:ℝ) ≤ k := by exact_mod_cast h0
  unfold whichPix64 F64.div F64.sub
  set d := dx64 o b n
  set E := ed fused o b n k
  have f1 : |E - o| ≤ d*2^25 := by
    rw [abs_le] at e1 ⊢
    have : d*k ≤ d*2^24 := by gcongr
    have : 0 ≤ d*k := by positivity
    constructor <;> linarith [e1.1, e1.2]
  have f2 := fl_abs_le f1
  set y := fl (E - o)
  have f3 : |y - d*k| ≤ d/14 := by
    have : y - d*k = (E - (o + d*k)) - (E - o - y) := by ring
    rw [this]
    refine (abs_sub _ _).trans ?_
    have : d*2^25/2^53 = d/2^28 := by ring
    linarith
  have f4 : |y/d - k| ≤ 1/14 := by
    have : y/d - k = (y - d*k)/d := by field_simp
    rw [this, abs_div, abs_of_pos d0, div_le_iff₀ d0]
    linarith
  have f5 : |y/d| ≤ 2^25 := by
    rw [abs_le] at f4 ⊢
    constructor <;> linarith [f4.1, f4.2]
  have f6 := fl_abs_le f5
  have hη : (2:ℝ)^(-1075 : ℤ) ≤ 1/100 := by
    have : (2:ℝ)^(-1075 : ℤ) ≤ (2:ℝ)^(-7 : ℤ) := zpow_le_zpow_right₀ (by norm_num) (by norm_num)
    refine this.trans (by norm_num)
  set q := fl (y/d)
  have f7 : |q - k| ≤ 1/10 := by
    have : q - k = (y/d - k) - (y/d - q) := by ring
    rw [this]
    refine (abs_sub _ _).trans ?_
    have : (2:ℝ)^25/2^53 ≤ 1/100 := by norm_num
    linarith
  rw [abs_le] at f7
  by_cases hq : (k:ℝ) ≤ q
  · right
    rw [Int.floor_eq_iff]
    exact ⟨hq, by linarith [f7.2]⟩
  · left
    rw [Int.floor_eq_iff]
    push Not at hq
    push_cast
    exact ⟨by linarith [f7.1], by linarith⟩

/-- The length of the work arrays on one grid. -/
theorem pixLen_same : pixLen64 o (F64.add o b) n o (F64.add o b) n = 3 := by
  have d0 := dx64_pos h
  unfold pixLen64
  simp only
  have : F64.div (F64.sub (F64.add o b) o) (real4 n) = dx64 o b n := rfl
  rw [this]
  unfold F64.div
  rw [div_self d0.ne']
  have := fl_int (n := 1) (by norm_num)
  push_cast at this
  rw [this, Int.floor_one]
  norm_num

end

/-! ## Work arrays that select one cell -/

/-- Entries that contribute nothing. -/
def Idle (n : ℕ) (e : ℤ × ℝ) : Prop := e.1 = -1 ∨ (0 ≤ e.1 ∧ e.1 < n ∧ e.2 = 0)

/-- The work arrays select cell `k` of `n`. -/
def Picks (n : ℕ) (k : ℕ) (buf : Buf ℝ) : Prop :=
  k < n ∧ ∃ l r, buf = l ++ ((k:ℤ), 1) :: r ∧ (∀ e ∈ l, Idle n e) ∧ ∀ e ∈ r, Idle n e

theorem accum64_idle (fused : Bool) (f1 : List ℝ) {acc : ℝ} (ha : fl acc = acc) (l r : Buf ℝ)
    (hl : ∀ e ∈ l, Idle f1.length e) : accum64 fused f1 acc (l ++ r) = accum64 fused f1 acc r := by
  induction l with
  | nil => rfl
  | cons e l ih =>
    obtain ⟨p, w⟩ := e
    have ih := ih fun e he => hl e (List.mem_cons_of_mem _ he)
    rw [List.cons_append, accum64]
    rcases hl (p, w) List.mem_cons_self with hp | ⟨h0, h1, hw⟩
    · simp only at hp
      rw [if_neg (by simpa using hp)]
      exact ih
    · simp only at h0 h1 hw
      rw [if_pos (by omega)]
      unfold readAt
      rw [if_pos h0, List.getElem?_eq_getElem (by omega)]
      simp only
      rw [hw, madd_zero fused ha]
      exact ih

theorem accum64_picks (fused : Bool) (f1 : List ℝ) (hf : ∀ v ∈ f1, fl v = v) {k : ℕ} {buf : Buf ℝ}
    (h : Picks f1.length k buf) : accum64 fused f1 0 buf = f1[k]? := by
  obtain ⟨hk, l, r, rfl, hl, hr⟩ := h
  rw [accum64_idle fused f1 fl_zero l _ hl]
  unfold accum64
  rw [if_pos (by omega)]
  unfold readAt
  rw [if_pos (by omega), Int.toNat_natCast, List.getElem?_eq_getElem hk]
  simp only
  have hv := hf _ (List.getElem_mem hk)
  rw [madd_one fused hv, ← List.append_nil r, accum64_idle fused f1 hv r [] hr]
  rfl

section
variable {o b : ℝ} {n : ℕ} (h : Resolved o b n)
include h

/-- The entries of the first branch on one grid. -/
theorem entry_same_grid (fused : Bool) {k : ℕ} (hk : k < n) (p : ℤ) :
    entryAcross64 fused o (dx64 o b n) n (ed fused o b n k) (ed fused o b n (k+1)) p
      = if p = k then ((k:ℤ), 1) else (-1, 0) := by
  have f1 := fl_int (n := 1) (by norm_num)
  push_cast at f1
  unfold entryAcross64
  have e1 : madd fused o (dx64 o b n) (real4 p) = ed fused o b n p := rfl
  have e2 : madd fused o (dx64 o b n) (real4 (p+1)) = ed fused o b n (p+1) := rfl
  simp only [e1, e2]
  have hlt := ed_lt h fused (k := k) (l := k+1) (by omega) (by omega) (by omega)
  by_cases hp : p = k
  · subst hp
    rw [if_pos rfl, if_pos ⟨by omega, by omega⟩, if_pos ⟨le_rfl, le_rfl⟩]
    unfold F64.div F64.sub
    have : fl (ed fused o b n (k+1) - ed fused o b n k) ≠ 0 := by
      intro hc
      have e1 := ed_err h fused (k := k) (by omega) (by omega)
      have e2 := ed_err h fused (k := k+1) (by omega) (by omega)
      have d0 := dx64_pos h
      have hη := (res_cell h).2.2
      have hd := (dx64_range h).1
      have e3 := fl_err_abs (ed fused o b n (k+1) - ed fused o b n k)
      rw [hc, sub_zero, abs_of_pos (by linarith)] at e3
      rw [abs_le] at e1 e2
      push_cast at e1 e2
      have : dx64 o b n*((k:ℝ)+1) = dx64 o b n*k + dx64 o b n := by ring
      linarith [e1.2, e2.1]
    rw [div_self this, f1]
  · rw [if_neg hp]
    by_cases hr : 0 ≤ p ∧ p < n
    swap
    · rw [if_neg hr]
    rw [if_pos hr]
    rcases lt_or_gt_of_ne hp with hpk | hpk
    · have a : ed fused o b n (p+1) ≤ ed fused o b n k := by
        rcases eq_or_lt_of_le (show p + 1 ≤ k by omega) with e | e
        · rw [e]
        · exact (ed_lt h fused (by omega) e (by omega)).le
      have a' := ed_lt h fused hr.1 (show p < p + 1 by omega) (by omega)
      rw [if_neg (by rintro ⟨x, y⟩; linarith), if_neg (by rintro ⟨x, y, z⟩; linarith),
        if_neg (by rintro ⟨x, y, z⟩; linarith), if_neg (by rintro ⟨x, y⟩; linarith)]
    · have a : ed fused o b n (k+1) ≤ ed fused o b n p := by
        rcases eq_or_lt_of_le (show (k:ℤ) + 1 ≤ p by omega) with e | e
        · rw [e]
        · exact (ed_lt h fused (by omega) e (by omega)).le
      have a' := ed_lt h fused hr.1 (show p < p + 1 by omega) (by omega)
      rw [if_neg (by rintro ⟨x, y⟩; linarith), if_neg (by rintro ⟨x, y, z⟩; linarith),
        if_neg (by rintro ⟨x, y, z⟩; linarith), if_neg (by rintro ⟨x, y⟩; linarith)]

theorem pixel_picks (fused : Bool) {k : ℕ} (hk : k < n) (buf : Buf ℝ) :
    Picks n k (pixel64 fused (mkAxis64 o b n o b n) k buf) := by
  refine ⟨hk, ?_⟩
  unfold pixel64 remapPixel64 mkAxis64
  simp only []
  rw [pixLen_same h]
  have e0 : F64.div (F64.sub (F64.add o b) o) (real4 n) = dx64 o b n := rfl
  have e1 : ∀ p : ℤ, madd fused o (dx64 o b n) (real4 p) = ed fused o b n p := fun _ => rfl
  simp only [e0, e1]
  have w1 := which_ed h fused (k := k) (by omega) (by omega)
  have w2 := which_ed h fused (k := k+1) (by omega) (by omega)
  set p1 := whichPix64 o (dx64 o b n) (ed fused o b n k)
  set p2 := whichPix64 o (dx64 o b n) (ed fused o b n (k+1))
  have h3 : (3:ℤ).toNat = 3 := rfl
  rw [h3]
  by_cases hp : p1 ≠ p2
  · rw [if_pos hp]
    simp only [entry_same_grid h fused hk]
    have idle : ∀ q : ℤ, q ≠ k → Idle n (if q = k then ((k:ℤ), (1:ℝ)) else (-1, 0)) := by
      intro q hq; rw [if_neg hq]; exact Or.inl rfl
    rcases w1 with w1 | w1
    · refine ⟨[(-1, 0)], [(-1, 0)], ?_, ?_, ?_⟩
      · simp [List.range_succ, w1]
        omega
      · simp [Idle]
      · simp [Idle]
    · refine ⟨[], [(-1, 0), (-1, 0)], ?_, ?_, ?_⟩
      · simp [List.range_succ, w1]
      · simp
      · simp [Idle]
  · rw [if_neg hp]
    have hp1 : p1 = k := by omega
    rw [if_pos (by omega), hp1]
    refine ⟨[], [entrySame n k 1, entrySame n k 2], ?_, by simp, ?_⟩
    · simp [List.range_succ, entrySame, hk]
    · intro e he
      simp only [List.mem_cons, List.not_mem_nil, or_false] at he
      rcases he with rfl | rfl
      all_goals
        unfold entrySame Idle
        simp only []
        split_ifs with hc h0
        · simp at h0
        · exact Or.inr ⟨hc.1, hc.2, rfl⟩
        · exact Or.inl rfl

end

/-! ## Products of work arrays -/

/-- The combined work array of two axes. -/
noncomputable def prod64 (m : ℕ) (xb yb : Buf ℝ) : Buf ℝ :=
  xb.flatMap fun (x : ℤ × ℝ) => yb.map fun (y : ℤ × ℝ) =>
    (if x.1 ≠ -1 ∧ y.1 ≠ -1 then y.1 + m*x.1 else -1, F64.mul x.2 y.2)

theorem prod64_picks {n m k l : ℕ} {xb yb : Buf ℝ} (hx : Picks n k xb) (hy : Picks m l yb) :
    Picks (n*m) (k*m + l) (prod64 m xb yb) := by
  obtain ⟨hk, l1, r1, rfl, hl1, hr1⟩ := hx
  obtain ⟨hl, l2, r2, rfl, hl2, hr2⟩ := hy
  have f1 := fl_int (n := 1) (by norm_num)
  push_cast at f1
  have hlt : k*m + l < n*m := by nlinarith
  refine ⟨hlt, ?_⟩
  have key : ∀ x y : ℤ × ℝ, (Idle n x ∧ (Idle m y ∨ (0 ≤ y.1 ∧ y.1 < m ∧ y.2 = 1))) ∨
      (Idle m y ∧ (Idle n x ∨ (0 ≤ x.1 ∧ x.1 < n ∧ x.2 = 1))) →
      Idle (n*m) (if x.1 ≠ -1 ∧ y.1 ≠ -1 then y.1 + m*x.1 else -1, F64.mul x.2 y.2) := by
    intro x y hxy
    by_cases hc : x.1 ≠ -1 ∧ y.1 ≠ -1
    swap
    · rw [if_neg hc]; exact Or.inl rfl
    rw [if_pos hc]
    refine Or.inr ?_
    simp only []
    have hx : 0 ≤ x.1 ∧ x.1 < n := by
      rcases hxy with ⟨h1, -⟩ | ⟨-, h1 | h1⟩
      · exact ⟨(h1.resolve_left hc.1).1, (h1.resolve_left hc.1).2.1⟩
      · exact ⟨(h1.resolve_left hc.1).1, (h1.resolve_left hc.1).2.1⟩
      · exact ⟨h1.1, h1.2.1⟩
    have hy : 0 ≤ y.1 ∧ y.1 < m := by
      rcases hxy with ⟨-, h1 | h1⟩ | ⟨h1, -⟩
      · exact ⟨(h1.resolve_left hc.2).1, (h1.resolve_left hc.2).2.1⟩
      · exact ⟨h1.1, h1.2.1⟩
      · exact ⟨(h1.resolve_left hc.2).1, (h1.resolve_left hc.2).2.1⟩
    refine ⟨by have := mul_nonneg (Int.natCast_nonneg m) hx.1; omega, ?_, ?_⟩
    · push_cast
      nlinarith [hx.1, hx.2, hy.1, hy.2]
    · unfold F64.mul
      rcases hxy with ⟨h1, -⟩ | ⟨h1, -⟩
      · rw [(h1.resolve_left hc.1).2.2, zero_mul, fl_zero]
      · rw [(h1.resolve_left hc.2).2.2, mul_zero, fl_zero]
  have sub : ∀ x : ℤ × ℝ, Idle n x → ∀ e ∈ ((l2 ++ ((l:ℤ), (1:ℝ)) :: r2).map fun (y : ℤ × ℝ) =>
      ((if x.1 ≠ -1 ∧ y.1 ≠ -1 then y.1 + m*x.1 else -1 : ℤ), F64.mul x.2 y.2)), Idle (n*m) e := by
    intro x hx e he
    rw [List.mem_map] at he
    obtain ⟨y, hy, rfl⟩ := he
    refine key x y (Or.inl ⟨hx, ?_⟩)
    rw [List.mem_append, List.mem_cons] at hy
    rcases hy with hy | rfl | hy
    · exact Or.inl (hl2 y hy)
    · exact Or.inr ⟨by simp, by simpa using hl, rfl⟩
    · exact Or.inl (hr2 y hy)
  unfold prod64
  rw [List.flatMap_append, List.flatMap_cons, List.map_append, List.map_cons]
  refine ⟨(l1.flatMap fun (x : ℤ × ℝ) => (l2 ++ ((l:ℤ), (1:ℝ)) :: r2).map fun (y : ℤ × ℝ) =>
      ((if x.1 ≠ -1 ∧ y.1 ≠ -1 then y.1 + m*x.1 else -1 : ℤ), F64.mul x.2 y.2)) ++
      (l2.map fun (y : ℤ × ℝ) => ((if (k:ℤ) ≠ -1 ∧ y.1 ≠ -1 then y.1 + m*(k:ℤ) else -1 : ℤ), F64.mul 1 y.2)),
    (r2.map fun (y : ℤ × ℝ) => ((if (k:ℤ) ≠ -1 ∧ y.1 ≠ -1 then y.1 + m*(k:ℤ) else -1 : ℤ), F64.mul 1 y.2)) ++
      (r1.flatMap fun (x : ℤ × ℝ) => (l2 ++ ((l:ℤ), (1:ℝ)) :: r2).map fun (y : ℤ × ℝ) =>
      ((if x.1 ≠ -1 ∧ y.1 ≠ -1 then y.1 + m*x.1 else -1 : ℤ), F64.mul x.2 y.2)), ?_, ?_, ?_⟩
  · have e1 : (if (k:ℤ) ≠ -1 ∧ (l:ℤ) ≠ -1 then (l:ℤ) + m*(k:ℤ) else -1) = ((k*m + l : ℕ) : ℤ) := by
      rw [if_pos ⟨by omega, by omega⟩]; push_cast; ring
    have e2 : F64.mul 1 1 = 1 := by unfold F64.mul; rw [one_mul, f1]
    simp only [e1, e2, List.append_assoc, List.cons_append]
  · intro e he
    rw [List.mem_append] at he
    rcases he with he | he
    · rw [List.mem_flatMap] at he
      obtain ⟨x, hx, he⟩ := he
      exact sub x (hl1 x hx) e he
    · rw [List.mem_map] at he
      obtain ⟨y, hy, rfl⟩ := he
      exact key ((k:ℤ), 1) y (Or.inr ⟨hl2 y hy, Or.inr ⟨by simp, by simpa using hk, rfl⟩⟩)
  · intro e he
    rw [List.mem_append] at he
    rcases he with he | he
    · rw [List.mem_map] at he
      obtain ⟨y, hy, rfl⟩ := he
      exact key ((k:ℤ), 1) y (Or.inr ⟨hr2 y hy, Or.inr ⟨by simp, by simpa using hk, rfl⟩⟩)
    · rw [List.mem_flatMap] at he
      obtain ⟨x, hx, he⟩ := he
      exact sub x (hr1 x hx) e he

theorem picks_inR {n k : ℕ} {b : Buf ℝ} (h : Picks n k b) : InR n b := by
  obtain ⟨hk, l, r, rfl, hl, hr⟩ := h
  intro e he
  have idle : ∀ e, Idle n e → e.1 = -1 ∨ (0 ≤ e.1 ∧ e.1 < n) := fun e h => h.imp id fun h => ⟨h.1, h.2.1⟩
  rw [List.mem_append, List.mem_cons] at he
  rcases he with he | rfl | he
  · exact idle e (hl e he)
  · exact Or.inr ⟨by simp, by simpa using hk⟩
  · exact idle e (hr e he)

theorem zip_prod64 (m : ℕ) (xb yb : Buf ℝ) :
    (pix2d m xb yb).zip (xb.flatMap fun (x : ℤ × ℝ) => yb.map fun (y : ℤ × ℝ) => F64.mul x.2 y.2)
      = prod64 m xb yb := by
  unfold pix2d prod64
  induction xb with
  | nil => rfl
  | cons x xb ih =>
    simp only [List.flatMap_cons]
    rw [List.zip_append (by simp), ih, zip_map_same]

theorem zip_prod64_3 {n m : ℕ} (o : ℕ) {xb yb : Buf ℝ} (zb : Buf ℝ) (hx : InR n xb) (hy : InR m yb) :
    (pix3d m o xb yb zb).zip (xb.flatMap fun (x : ℤ × ℝ) => yb.flatMap fun (y : ℤ × ℝ) =>
      zb.map fun (z : ℤ × ℝ) => F64.mul (F64.mul x.2 y.2) z.2) = prod64 o (prod64 m xb yb) zb := by
  have step : (pix3d m o xb yb zb).zip (xb.flatMap fun (x : ℤ × ℝ) => yb.flatMap fun (y : ℤ × ℝ) =>
      zb.map fun (z : ℤ × ℝ) => F64.mul (F64.mul x.2 y.2) z.2)
      = xb.flatMap fun (x : ℤ × ℝ) => yb.flatMap fun (y : ℤ × ℝ) => zb.map fun (z : ℤ × ℝ) =>
        ((if x.1 ≠ -1 ∧ y.1 ≠ -1 ∧ z.1 ≠ -1 then z.1 + o*(y.1 + m*x.1) else -1 : ℤ), F64.mul (F64.mul x.2 y.2) z.2) := by
    unfold pix3d
    clear hx
    induction xb with
    | nil => rfl
    | cons x xb ih =>
      simp only [List.flatMap_cons]
      rw [List.zip_append, ih]
      · congr 1
        clear ih hy
        induction yb with
        | nil => rfl
        | cons y yb ihy =>
          simp only [List.flatMap_cons]
          rw [List.zip_append (by simp), ihy, zip_map_same]
      · clear ih hy
        induction yb with
        | nil => rfl
        | cons y yb ihy => simp only [List.flatMap_cons, List.length_append, ihy, List.length_map]
  rw [step]
  unfold prod64
  rw [List.flatMap_assoc]
  apply List.flatMap_congr
  intro x hxm
  rw [List.flatMap_map]
  apply List.flatMap_congr
  intro y hym
  apply List.map_congr_left
  intro z _
  simp only [Function.comp]
  congr 1
  by_cases c : x.1 ≠ -1 ∧ y.1 ≠ -1
  · obtain ⟨a, b⟩ := (hx x hxm).resolve_left c.1
    obtain ⟨a', b'⟩ := (hy y hym).resolve_left c.2
    have h0 : 0 ≤ y.1 + m*x.1 := by positivity
    rw [if_pos c]
    by_cases cz : z.1 ≠ -1
    · rw [if_pos ⟨c.1, c.2, cz⟩, if_pos ⟨by omega, cz⟩]
    · rw [if_neg (by tauto), if_neg (by tauto)]
  · rw [if_neg (by tauto)]
    simp only [if_neg c]
    simp

/-! ## The loops -/

/-- A loop whose passes all succeed. -/
theorem sweep_all {S T : Type} (step : S → ℕ → Option (S × T)) (v : ℕ → T) (n : ℕ)
    (hstep : ∀ j < n, ∀ s, ∃ s', step s j = some (s', v j)) (s0 : S) :
    ∃ s', sweep step s0 (List.range n) = some (s', (List.range n).map v) := by
  have main : ∀ l : List ℕ, (∀ j ∈ l, j < n) → ∀ s, ∃ s', sweep step s l = some (s', l.map v) := by
    intro l
    induction l with
    | nil => intro _ s; exact ⟨s, rfl⟩
    | cons j l ih =>
      intro hl s
      obtain ⟨s1, e1⟩ := hstep j (hl j List.mem_cons_self) s
      obtain ⟨s2, e2⟩ := ih (fun i hi => hl i (List.mem_cons_of_mem _ hi)) s1
      exact ⟨s2, by simp only [sweep, e1, e2, List.map_cons]⟩
  exact main _ (fun j hj => List.mem_range.mp hj) s0

end Magpie.Remap64
