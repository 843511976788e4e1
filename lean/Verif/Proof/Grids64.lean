import Verif.Model.Grids64
import Verif.Proof.Float64
import Verif.Proof.Remap64
import Verif.Proof.Conversions64
import Mathlib.Tactic.Linarith

set_option linter.unusedSimpArgs false
set_option linter.unusedVariables false

namespace Magpie.Grids64
open Magpie.F64 Magpie.Coords64 Magpie.Remap64

/-- Entry `k` of the edges of a grid with `N` cells, for `k < N`. -/
noncomputable def low (a b : ℝ) (N : ℕ) (k : ℕ) : ℝ :=
  let delta := F64.sub b a
  let step := F64.div delta (F64.ofInt N)
  F64.add (if step = 0 then F64.mul (F64.div (F64.ofInt k) (F64.ofInt N)) delta
        else F64.mul (F64.ofInt k) step) a

/-- Entry `k` of the edges. -/
noncomputable def edge64 (a b : ℝ) (N : ℕ) (k : ℕ) : ℝ := if k = N then b else low a b N k

theorem linspace64_eq (a b : ℝ) {N : ℕ} (hN : 1 ≤ N) :
    linspace64 a b (N+1) = (List.range (N+1)).map (edge64 a b N) := by
  unfold linspace64
  have h : (0:ℤ) < ((N+1 : ℕ) : ℤ) - 1 := by push_cast; omega
  simp only [if_pos h]
  refine List.map_congr_left fun k hk => ?_
  unfold edge64 low
  have e : (((N+1 : ℕ) : ℤ) - 1) = (N:ℤ) := by push_cast; ring
  simp only [e, Nat.add_right_cancel_iff]

/-- The facts about `a`, `b` and the number of cells used below. -/
structure Ok (a b : ℝ) (N : ℕ) : Prop where
  fa : fl a = a
  fb : fl b = b
  n1 : 1 ≤ N
  n2 : N ≤ 2^50
  wide : (N:ℝ) * (2:ℝ)^(-1022 : ℤ) ≤ b - a

section
variable {a b : ℝ} {N : ℕ} (h : Ok a b N)
include h

theorem ok_N : (1:ℝ) ≤ N ∧ (N:ℝ) ≤ 2^50 := by
  constructor
  · exact_mod_cast h.n1
  · exact_mod_cast h.n2

theorem ok_D : 0 < b - a ∧ (2:ℝ)^(-1022 : ℤ) ≤ b - a ∧ (2:ℝ)^(-1022 : ℤ) ≤ (b - a)/N := by
  obtain ⟨h1, -⟩ := ok_N h
  have hp := two_zpow_pos (-1022)
  have : (2:ℝ)^(-1022 : ℤ) ≤ (N:ℝ) * (2:ℝ)^(-1022 : ℤ) := le_mul_of_one_le_left hp.le h1
  refine ⟨by linarith [h.wide], by linarith [h.wide], ?_⟩
  rw [le_div_iff₀ (by linarith), mul_comm]; exact h.wide

theorem ofInt_N : F64.ofInt N = N := by
  unfold F64.ofInt
  rw [fl_int]
  · push_cast; rfl
  · rw [abs_of_nonneg (by positivity)]
    have := h.n2
    have h2 : (N:ℤ) ≤ 2^50 := by exact_mod_cast this
    omega

omit h in
theorem ofInt_k {k : ℕ} (hk : k ≤ 2^50) : F64.ofInt k = k := by
  unfold F64.ofInt
  rw [fl_int]
  · push_cast; rfl
  · rw [abs_of_nonneg (by positivity)]
    have h2 : (k:ℤ) ≤ 2^50 := by exact_mod_cast hk
    omega

theorem fl_pow : fl ((2:ℝ)^(-1022 : ℤ)) = (2:ℝ)^(-1022 : ℤ) := by
  have := fl_exact (m := 1) (e := -1022) (by norm_num) (by norm_num)
  simpa using this

/-- The rounded difference. -/
theorem delta_bounds : (b-a)*(1 - 1/2^53) ≤ fl (b-a) ∧ fl (b-a) ≤ (b-a)*(1 + 1/2^53) ∧
    (2:ℝ)^(-1022 : ℤ) ≤ fl (b-a)/N := by
  obtain ⟨hD, hD2, hD3⟩ := ok_D h
  have e := fl_err (x := b-a) (by rwa [abs_of_pos hD])
  rw [abs_of_pos hD, abs_le] at e
  refine ⟨by linarith [e.2], by linarith [e.1], ?_⟩
  obtain ⟨h1, -⟩ := ok_N h
  rw [le_div_iff₀ (by linarith), mul_comm]
  have hm := fl_mono h.wide
  have hx : fl ((N:ℝ) * (2:ℝ)^(-1022 : ℤ)) = (N:ℝ) * (2:ℝ)^(-1022 : ℤ) := by
    have hN : |(N:ℤ)| ≤ 2^53 := by
      rw [abs_of_nonneg (by positivity)]
      have h2 : (N:ℤ) ≤ 2^50 := by exact_mod_cast h.n2
      omega
    have := fl_exact (m := (N:ℤ)) (e := -1022) hN (by norm_num)
    simpa using this
  rwa [hx] at hm

theorem step_bounds : (b-a)/N*(1 - 2/2^53) ≤ F64.div (F64.sub b a) (F64.ofInt N) ∧
    F64.div (F64.sub b a) (F64.ofInt N) ≤ (b-a)/N*(1 + 2/2^53 + 1/2^106) ∧
    (2:ℝ)^(-1022 : ℤ) ≤ F64.div (F64.sub b a) (F64.ofInt N) := by
  obtain ⟨d1, d2, d3⟩ := delta_bounds h
  obtain ⟨h1, h2⟩ := ok_N h
  obtain ⟨hD, -, -⟩ := ok_D h
  rw [ofInt_N h]
  unfold F64.div F64.sub
  have hp := two_zpow_pos (-1022)
  have e := fl_err (x := fl (b-a)/N) (by rwa [abs_of_pos (hp.trans_le d3)])
  rw [abs_of_pos (hp.trans_le d3), abs_le] at e
  have hq : (b-a)*(1 - 1/2^53)/N ≤ fl (b-a)/N := by gcongr
  have hr : fl (b-a)/N ≤ (b-a)*(1 + 1/2^53)/N := by gcongr
  have hw : 0 < (b-a)/N := by positivity
  have e1 : (b-a)*(1 - 1/2^53)/N = (b-a)/N*(1 - 1/2^53) := by ring
  have e2 : (b-a)*(1 + 1/2^53)/N = (b-a)/N*(1 + 1/2^53) := by ring
  rw [e1] at hq
  rw [e2] at hr
  refine ⟨?_, ?_, ?_⟩
  · generalize fl (b-a)/N = q at *
    nlinarith [e.2]
  · generalize fl (b-a)/N = q at *
    nlinarith [e.1]
  · have := fl_mono d3
    rwa [fl_pow h] at this

/-- The product `k*step`, which is near `k*(b-a)/N`. -/
theorem prod_bounds {k : ℕ} (hk : k ≤ N) :
    |fl (k*F64.div (F64.sub b a) (F64.ofInt N)) - k*((b-a)/N)| ≤ 4/2^53*(k*((b-a)/N)) := by
  obtain ⟨s1, s2, s3⟩ := step_bounds h
  obtain ⟨hD, -, -⟩ := ok_D h
  obtain ⟨h1, h2⟩ := ok_N h
  generalize hs : F64.div (F64.sub b a) (F64.ofInt N) = s at *
  have hw : 0 < (b-a)/N := by positivity
  rcases Nat.eq_zero_or_pos k with rfl | hk0
  · simp [fl_zero]
  have hk1 : (1:ℝ) ≤ k := by exact_mod_cast hk0
  have hp := two_zpow_pos (-1022)
  have hs0 : 0 < s := hp.trans_le s3
  have hks : (2:ℝ)^(-1022 : ℤ) ≤ |k*s| := by
    rw [abs_of_pos (by positivity)]
    exact s3.trans (le_mul_of_one_le_left hs0.le hk1)
  have e := fl_err hks
  rw [abs_of_pos (show (0:ℝ) < k*s by positivity), abs_le] at e
  have a1 : (k:ℝ)*((b-a)/N*(1 - 2/2^53)) ≤ k*s := by gcongr
  have a2 : (k:ℝ)*s ≤ k*((b-a)/N*(1 + 2/2^53 + 1/2^106)) := by gcongr
  have ht : 0 < (k:ℝ)*((b-a)/N) := by positivity
  have b1 : (k:ℝ)*((b-a)/N)*(1 - 2/2^53) ≤ k*s := by linarith
  have b2 : (k:ℝ)*s ≤ (k:ℝ)*((b-a)/N)*(1 + 2/2^53 + 1/2^106) := by linarith
  generalize (k:ℝ)*((b-a)/N) = t at *
  generalize (k:ℝ)*s = q at *
  rw [abs_le]
  constructor
  · nlinarith [e.2]
  · nlinarith [e.1]

theorem low_eq {k : ℕ} (hk : k ≤ N) : low a b N k = fl (fl (k*F64.div (F64.sub b a) (F64.ofInt N)) + a) := by
  obtain ⟨-, -, s3⟩ := step_bounds h
  have hs : F64.div (F64.sub b a) (F64.ofInt N) ≠ 0 := by
    have := two_zpow_pos (-1022); intro hc; rw [hc] at s3; linarith
  unfold low
  simp only [if_neg hs]
  rw [ofInt_k (k := k) (hk.trans h.n2)]
  rfl

/-- The product stays below `b - a`. -/
theorem prod_le {k : ℕ} (hk : k < N) : 0 ≤ fl (k*F64.div (F64.sub b a) (F64.ofInt N)) ∧
    fl (k*F64.div (F64.sub b a) (F64.ofInt N)) ≤ b - a := by
  have hb := prod_bounds h hk.le
  obtain ⟨hD, -, -⟩ := ok_D h
  obtain ⟨h1, h2⟩ := ok_N h
  have hN0 : (0:ℝ) < N := by linarith
  have hk1 : (k:ℝ) + 1 ≤ N := by exact_mod_cast hk
  have hk0 : (0:ℝ) ≤ k := by positivity
  have hw : 0 < (b-a)/N := by positivity
  have hNw : (N:ℝ)*((b-a)/N) = b - a := by field_simp
  have ht : (k:ℝ)*((b-a)/N) ≤ (b-a) - (b-a)/N := by nlinarith
  have ht0 : 0 ≤ (k:ℝ)*((b-a)/N) := by positivity
  have hsmall : 4/2^53*(b-a) ≤ (b-a)/N := by
    rw [le_div_iff₀ hN0]
    have : (4:ℝ)/2^53*N ≤ 1 := by
      have : (4:ℝ)/2^53*N ≤ 4/2^53*2^50 := by gcongr
      norm_num at this ⊢; linarith
    nlinarith
  rw [abs_le] at hb
  generalize (k:ℝ)*((b-a)/N) = t at *
  generalize fl (k*F64.div (F64.sub b a) (F64.ofInt N)) = m at *
  have h4 : (4:ℝ)/2^53*t ≤ 4/2^53*(b-a) := by
    have : t ≤ b - a := by linarith
    gcongr
  have h5 : (4:ℝ)/2^53*t ≤ t := by
    have : (4:ℝ)/2^53 ≤ 1 := by norm_num
    nlinarith
  exact ⟨by linarith, by linarith⟩

theorem edge64_fl (k : ℕ) : fl (edge64 a b N k) = edge64 a b N k := by
  unfold edge64
  split_ifs
  · exact h.fb
  · unfold low F64.add; exact fl_fl _

theorem edge64_zero : edge64 a b N 0 = a := by
  unfold edge64
  have hN : (0:ℕ) ≠ N := by have := h.n1; omega
  rw [if_neg hN, low_eq h (Nat.zero_le _)]
  simp [fl_zero, h.fa]

theorem edge64_last : edge64 a b N N = b := by unfold edge64; simp

theorem edge64_mono {k l : ℕ} (hkl : k ≤ l) (hl : l ≤ N) : edge64 a b N k ≤ edge64 a b N l := by
  obtain ⟨-, -, s3⟩ := step_bounds h
  have hs := (two_zpow_pos (-1022)).trans_le s3
  unfold edge64
  by_cases h1 : k = N
  · have : l = N := by omega
    simp [h1, this]
  · rw [if_neg h1]
    split_ifs with h2
    · rw [low_eq h (by omega)]
      have := (prod_le h (k := k) (by omega)).2
      have h3 := fl_mono (show fl (k*F64.div (F64.sub b a) (F64.ofInt N)) + a ≤ b by linarith)
      rwa [h.fb] at h3
    · rw [low_eq h (by omega), low_eq h hl]
      apply fl_mono
      have : fl (k*F64.div (F64.sub b a) (F64.ofInt N)) ≤ fl (l*F64.div (F64.sub b a) (F64.ofInt N)) := by
        apply fl_mono
        have : (k:ℝ) ≤ l := by exact_mod_cast hkl
        gcongr
      linarith

theorem edge64_err {k : ℕ} (hk : k ≤ N) :
    |edge64 a b N k - (a + k*((b-a)/N))| ≤ (|a| + 6*(b-a))/2^53 := by
  obtain ⟨hD, hD2, -⟩ := ok_D h
  obtain ⟨h1, h2⟩ := ok_N h
  unfold edge64
  split_ifs with hkN
  · subst hkN
    have : b - (a + (k:ℝ)*((b-a)/k)) = 0 := by field_simp; ring
    rw [this, abs_zero]; positivity
  · have hlt : k < N := by omega
    rw [low_eq h hk]
    have hb := prod_bounds h hk
    obtain ⟨p1, p2⟩ := prod_le h hlt
    have ht : (k:ℝ)*((b-a)/N) ≤ b - a := by
      have hk1 : (k:ℝ) ≤ N := by exact_mod_cast hk
      have : (k:ℝ)*((b-a)/N) ≤ N*((b-a)/N) := by gcongr
      have e : (N:ℝ)*((b-a)/N) = b - a := by field_simp
      linarith
    generalize (k:ℝ)*((b-a)/N) = t at *
    generalize fl (k*F64.div (F64.sub b a) (F64.ofInt N)) = m at *
    have e := fl_err_abs (m + a)
    have hm : |m + a| ≤ |a| + (b - a) := by
      have := abs_add_le m a
      rw [abs_of_nonneg p1] at this
      linarith
    have htiny : (2:ℝ)^(-1075 : ℤ) ≤ (b-a)/2^53 := by
      rw [le_div_iff₀ (by norm_num)]
      refine le_trans (le_of_eq ?_) hD2
      rw [← zpow_natCast, ← zpow_add₀ (by norm_num)]; norm_num
    have h3 : |m + a|/2^53 ≤ (|a| + (b-a))/2^53 := by gcongr
    have h4 : |fl (m + a) - (a + t)| ≤ |m + a - fl (m+a)| + |m - t| := by
      have e1 : fl (m + a) - (a + t) = -(m + a - fl (m+a)) + (m - t) := by ring
      rw [e1]
      refine (abs_add_le _ _).trans ?_
      rw [abs_neg]
    have h5 : 4/2^53*t ≤ 4/2^53*(b-a) := by gcongr
    have h6 : (|a| + 6*(b-a))/2^53 = (|a| + (b-a))/2^53 + (b-a)/2^53 + 4/2^53*(b-a) := by ring
    rw [h6]
    linarith

theorem edge64_lt (hr : (N:ℝ)*(|a| + 6*(b-a)) < 2^52*(b-a)) {k l : ℕ} (hkl : k < l) (hl : l ≤ N) :
    edge64 a b N k < edge64 a b N l := by
  obtain ⟨hD, -, -⟩ := ok_D h
  obtain ⟨h1, h2⟩ := ok_N h
  have e1 := edge64_err h (k := k) (by omega)
  have e2 := edge64_err h (k := k+1) (by omega)
  have e3 := edge64_mono h (show k+1 ≤ l by omega) hl
  rw [abs_le] at e1 e2
  have hN0 : (0:ℝ) < N := by linarith
  have hw : 2*((|a| + 6*(b-a))/2^53) < (b-a)/N := by
    rw [lt_div_iff₀ hN0]
    have : 2*((|a| + 6*(b-a))/2^53)*N = (N*(|a| + 6*(b-a)))/2^52 := by ring
    rw [this, div_lt_iff₀ (by norm_num)]
    linarith
  push_cast at e2
  have : a + ((k:ℝ)+1)*((b-a)/N) = a + k*((b-a)/N) + (b-a)/N := by ring
  rw [this] at e2
  linarith [e1.1, e1.2, e2.1, e2.2]

end

/-- Grids without extent: every edge is the same. -/
theorem edge64_degenerate {a : ℝ} (ha : fl a = a) {N k : ℕ} (hN : 1 ≤ N) : edge64 a a N k = a := by
  unfold edge64
  split_ifs with hk
  · rfl
  · unfold low F64.add F64.mul F64.div F64.sub
    simp [fl_zero, ha]

/-- The mid point of two floats lies between them. -/
theorem mid_between {x y : ℝ} (hx : fl x = x) (hy : fl y = y) (hxy : x ≤ y) :
    x ≤ F64.mul (1/2) (F64.add x y) ∧ F64.mul (1/2) (F64.add x y) ≤ y := by
  unfold F64.mul F64.add
  have h1 := fl_mono (show 2*x ≤ x + y by linarith)
  have h2 := fl_mono (show x + y ≤ 2*y by linarith)
  rw [fl_two_mul hx] at h1
  rw [fl_two_mul hy] at h2
  have h3 := fl_mono (show x ≤ 1/2*fl (x+y) by linarith)
  have h4 := fl_mono (show 1/2*fl (x+y) ≤ y by linarith)
  rw [hx] at h3
  rw [hy] at h4
  exact ⟨h3, h4⟩

/-- The rounding of the mid point. -/
theorem mid_err {x y : ℝ} : |F64.mul (1/2) (F64.add x y) - (x+y)/2| ≤ 2*(|x| + |y|)/2^53 + (2:ℝ)^(-1074 : ℤ) := by
  unfold F64.mul F64.add
  have e1 := fl_err_abs (x+y)
  have e2 := fl_err_abs (1/2*fl (x+y))
  have hs := abs_add_le x y
  have hp : (2:ℝ)^(-1074 : ℤ) = 2*(2:ℝ)^(-1075 : ℤ) := by
    rw [← zpow_one_add₀ (by norm_num)]; norm_num
  rw [hp]
  have hp0 := two_zpow_pos (-1075)
  have h2 : |1/2*fl (x+y)| ≤ 1/2*(|x+y| + |x+y - fl (x+y)|) := by
    rw [abs_mul, abs_of_pos (by norm_num : (0:ℝ) < 1/2)]
    have : |fl (x+y)| ≤ |x+y| + |x+y - fl (x+y)| := by
      have e := abs_sub_abs_le_abs_sub (fl (x+y)) (x+y)
      rw [abs_sub_comm] at e; linarith
    linarith
  have h3 : |fl (1/2*fl (x+y)) - (x+y)/2| ≤ |1/2*fl (x+y) - fl (1/2*fl (x+y))| + 1/2*|x+y - fl (x+y)| := by
    have e : fl (1/2*fl (x+y)) - (x+y)/2 = -(1/2*fl (x+y) - fl (1/2*fl (x+y))) - 1/2*(x+y - fl (x+y)) := by ring
    rw [e]
    refine (abs_sub _ _).trans ?_
    rw [abs_neg, abs_mul, abs_of_pos (by norm_num : (0:ℝ) < 1/2)]
  generalize (2:ℝ)^(-1075 : ℤ) = τ at *
  generalize |x+y - fl (x+y)| = p at *
  generalize |1/2*fl (x+y) - fl (1/2*fl (x+y))| = q at *
  generalize |1/2*fl (x+y)| = r at *
  generalize |x+y| = s at *
  have : s/2^53 ≤ (|x|+|y|)/2^53 := by gcongr
  have hr : r/2^53 ≤ 1/2*(s+p)/2^53 := by gcongr
  have hs0 : s ≤ |x| + |y| := hs
  have hp1 : 0 ≤ |x| := abs_nonneg _
  have hp2 : 0 ≤ |y| := abs_nonneg _
  generalize |x| = ax at *
  generalize |y| = ay at *
  clear hp
  norm_num at e1 e2 hr this ⊢
  linarith

/-! ## Cell lookup -/

section
variable {a b : ℝ} {N : ℕ} (h : Ok a b N)
include h

theorem boxCell64_eq (x : ℝ) : boxCell64 a b N x =
    cellIdx64 x a (fl (edge64 a b N 1 - a)) N := by
  have hN := h.n1
  unfold boxCell64 setupEdges64 cellWidth64
  rw [linspace64_eq a b hN]
  have e0 : ((List.range (N+1)).map (edge64 a b N)).getD 0 0 = a := by
    rw [List.getD_eq_getElem?_getD, List.getElem?_map, List.getElem?_range (by omega)]
    exact edge64_zero h
  have e1 : ((List.range (N+1)).map (edge64 a b N)).getD 1 0 = edge64 a b N 1 := by
    rw [List.getD_eq_getElem?_getD, List.getElem?_map, List.getElem?_range (by omega)]; rfl
  simp only [e0, e1]
  have el : (setupMids64 ((List.range (N+1)).map (edge64 a b N))).length = N := by
    unfold setupMids64; simp
  rw [el]; rfl

/-- The cell width. -/
theorem width_err : |fl (edge64 a b N 1 - a) - (b-a)/N| ≤ (|a| + 8*(b-a))/2^53 := by
  obtain ⟨hD, hD2, -⟩ := ok_D h
  obtain ⟨h1, h2⟩ := ok_N h
  have e := edge64_err h h.n1
  have m1 := edge64_mono h (Nat.zero_le 1) h.n1
  have m2 := edge64_mono h h.n1 (le_refl N)
  rw [edge64_zero h] at m1
  rw [edge64_last h] at m2
  have e2 := fl_abs_le (x := edge64 a b N 1 - a) (c := b - a) (by rw [abs_of_nonneg] <;> linarith)
  have htiny : (2:ℝ)^(-1075 : ℤ) ≤ (b-a)/2^53 := by
    rw [le_div_iff₀ (by norm_num)]
    refine le_trans (le_of_eq ?_) hD2
    rw [← zpow_natCast, ← zpow_add₀ (by norm_num)]; norm_num
  have h3 : (|a| + 8*(b-a))/2^53 = (|a| + 6*(b-a))/2^53 + (b-a)/2^53 + (b-a)/2^53 := by ring
  rw [h3]
  push_cast at e
  rw [one_mul] at e
  rw [abs_le] at *
  constructor <;> linarith [e.1, e.2, e2.1, e2.2]

/-- A point well inside cell `i` is found there. -/
theorem boxCell64_inside {x : ℝ} {i : ℕ} (hi : i < N)
    (h1 : a + i*((b-a)/N) + 4*N*(|a| + 8*(b-a))/2^53 ≤ x)
    (h2 : x ≤ a + (i+1)*((b-a)/N) - 4*N*(|a| + 8*(b-a))/2^53) : boxCell64 a b N x = some i := by
  rw [boxCell64_eq h]
  obtain ⟨hD, hD2, -⟩ := ok_D h
  obtain ⟨n1, n2⟩ := ok_N h
  have hd := width_err h
  have htiny : (2:ℝ)^(-1075 : ℤ) ≤ (b-a)/2^53 := by
    rw [le_div_iff₀ (by norm_num)]
    refine le_trans (le_of_eq ?_) hD2
    rw [← zpow_natCast, ← zpow_add₀ (by norm_num)]; norm_num
  have htiny2 : (2:ℝ)^(-1075 : ℤ) ≤ 1/2^53 := by
    have : (2:ℝ)^(-1075 : ℤ) ≤ (2:ℝ)^(-53 : ℤ) := zpow_le_zpow_right₀ (by norm_num) (by norm_num)
    refine this.trans (le_of_eq ?_)
    rw [zpow_neg]; norm_num
  generalize hdd : fl (edge64 a b N 1 - a) = d at *
  generalize hD' : b - a = D at *
  generalize hT : (|a| + 8*D)/2^53 = T at *
  have hTD : 8*D/2^53 ≤ T := by
    rw [← hT]
    have := abs_nonneg a
    gcongr; linarith
  have hT0 : 0 < T := lt_of_lt_of_le (by positivity) hTD
  have e4 : 4*(N:ℝ)*(|a| + 8*D)/2^53 = 4*(N*T) := by rw [← hT]; ring
  rw [e4] at h1 h2
  have hN0 : (0:ℝ) < N := by linarith
  have hNT : T ≤ N*T := by nlinarith
  generalize hw : D/N = w at *
  have hw0 : 0 < w := by rw [← hw]; positivity
  have hDw : D = N*w := by rw [← hw]; field_simp
  have hi1 : (i:ℝ) + 1 ≤ N := by exact_mod_cast hi
  have hi0 : (0:ℝ) ≤ i := by positivity
  rw [abs_le] at hd
  -- the width is positive
  have hwT : 8*(N*T) ≤ w := by nlinarith
  have hd0 : 0 < d := by linarith [hd.1]
  have hd2 : d ≤ 2*w := by linarith [hd.2]
  -- the distance from the first edge
  have hx0 : 0 ≤ x - a := by have : 0 ≤ (i:ℝ)*w := by positivity
                             linarith
  have hxD : x - a ≤ D := by
    have : ((i:ℝ)+1)*w ≤ N*w := by gcongr
    linarith
  have ey := fl_abs_le (x := x - a) (c := D) (by rw [abs_of_nonneg hx0]; exact hxD)
  rw [abs_le] at ey
  have hy : |x - a - fl (x - a)| ≤ T := by
    have : D/2^53 + D/2^53 ≤ T := by
      have e : D/2^53 + D/2^53 = 2*D/2^53 := by ring
      have : 2*D/2^53 ≤ 8*D/2^53 := by gcongr; norm_num
      linarith
    rw [abs_le]; constructor <;> linarith [ey.1, ey.2]
  rw [abs_le] at hy
  -- lower bound
  have hiT : (i:ℝ)*T ≤ N*T := mul_le_mul_of_nonneg_right (by linarith) hT0.le
  have hi1T : ((i:ℝ)+1)*T ≤ N*T := by gcongr
  have lo : (i:ℝ) ≤ fl (x - a)/d := by
    rw [le_div_iff₀ hd0]
    have : (i:ℝ)*d ≤ i*(w + T) := by gcongr; linarith [hd.2]
    nlinarith [hy.2]
  have up : fl (x - a)/d ≤ (i:ℝ) + 1 - 2*(N*T)/d := by
    rw [le_sub_iff_add_le, ← add_div, div_le_iff₀ hd0]
    have : ((i:ℝ)+1)*w ≤ (i+1)*(d + T) := by gcongr; linarith [hd.1]
    nlinarith [hy.1]
  have hup2 : 8*(N:ℝ)/2^53 ≤ 2*(N*T)/d := by
    rw [div_le_div_iff₀ (by norm_num) hd0]
    have h5 : 8*D ≤ T*2^53 := by rwa [div_le_iff₀ (by norm_num)] at hTD
    have h6 : T*2^53 ≤ N*T*2^53 := mul_le_mul_of_nonneg_right hNT (by norm_num)
    have h7 : 8*(N:ℝ)*d ≤ 8*(N:ℝ)*(2*w) := mul_le_mul_of_nonneg_left hd2 (by positivity)
    have h8 : 8*(N:ℝ)*(2*w) = 2*(8*D) := by rw [hDw]; ring
    linarith
  have hfi : fl ((i:ℝ)) = i := by
    have := ofInt_k (k := i) (by have := h.n2; omega)
    unfold F64.ofInt at this
    push_cast at this; exact this
  have q1 : (i:ℝ) ≤ fl (fl (x - a)/d) := by
    have := fl_mono lo
    rwa [hfi] at this
  have q2 : fl (fl (x - a)/d) < (i:ℝ) + 1 := by
    have hz : |fl (x-a)/d| ≤ N := by
      rw [abs_of_nonneg (hi0.trans lo)]
      have : 0 ≤ 2*(N*T)/d := by positivity
      linarith
    have e := fl_abs_le hz
    rw [abs_le] at e
    have : 2*((N:ℝ)/2^53) < 8*N/2^53 := by
      have : 0 < (N:ℝ)/2^53 := by positivity
      have e : 8*(N:ℝ)/2^53 = 8*(N/2^53) := by ring
      rw [e]; linarith
    have h7 : (1:ℝ)/2^53 ≤ N/2^53 := by gcongr
    linarith [e.1]
  unfold cellIdx64
  rw [if_neg hd0.ne']
  have hfloor : ⌊F64.div (F64.sub x a) d⌋ = (i:ℤ) := by
    unfold F64.div F64.sub
    rw [Int.floor_eq_iff]; push_cast; exact ⟨q1, q2⟩
  simp only [hfloor]
  rw [if_pos ⟨by positivity, by exact_mod_cast hi⟩]
  simp

/-- The cell that is read is near the point. -/
theorem boxCell64_near (hr : (N:ℝ)*(|a| + 8*(b-a)) ≤ 2^50*((b-a)/N)) {x : ℝ} {i : ℕ}
    (hx : boxCell64 a b N x = some i) : i < N ∧
    a + i*((b-a)/N) - 4*N*(|a| + 8*(b-a))/2^53 ≤ x ∧ x ≤ a + (i+1)*((b-a)/N) + 4*N*(|a| + 8*(b-a))/2^53 := by
  rw [boxCell64_eq h] at hx
  obtain ⟨hD, hD2, -⟩ := ok_D h
  obtain ⟨n1, n2⟩ := ok_N h
  have hd := width_err h
  have htiny : (2:ℝ)^(-1075 : ℤ) ≤ (b-a)/2^53 := by
    rw [le_div_iff₀ (by norm_num)]
    refine le_trans (le_of_eq ?_) hD2
    rw [← zpow_natCast, ← zpow_add₀ (by norm_num)]; norm_num
  have htiny2 : (2:ℝ)^(-1075 : ℤ) ≤ 1/2^53 := by
    have : (2:ℝ)^(-1075 : ℤ) ≤ (2:ℝ)^(-53 : ℤ) := zpow_le_zpow_right₀ (by norm_num) (by norm_num)
    refine this.trans (le_of_eq ?_)
    rw [zpow_neg]; norm_num
  generalize hdd : fl (edge64 a b N 1 - a) = d at *
  generalize hD' : b - a = D at *
  generalize hw : D/N = w at *
  have hNT8 : (N:ℝ)*((|a| + 8*D)/2^53) ≤ w/8 := by
    have : (N:ℝ)*((|a| + 8*D)/2^53) = N*(|a| + 8*D)/2^53 := by ring
    rw [this, div_le_iff₀ (by norm_num)]
    linarith
  generalize hT : (|a| + 8*D)/2^53 = T at *
  have hTD : 8*D/2^53 ≤ T := by
    rw [← hT]
    have := abs_nonneg a
    gcongr; linarith
  have hT0 : 0 < T := lt_of_lt_of_le (by positivity) hTD
  have e4 : 4*(N:ℝ)*(|a| + 8*D)/2^53 = 4*(N*T) := by rw [← hT]; ring
  rw [e4]
  have hN0 : (0:ℝ) < N := by linarith
  have hNT : T ≤ N*T := by nlinarith
  have hw0 : 0 < w := by rw [← hw]; positivity
  have hDw : D = N*w := by rw [← hw]; field_simp
  rw [abs_le] at hd
  have hd0 : 0 < d := by linarith [hd.1]
  have hd2 : d ≤ 2*w := by linarith [hd.2]
  unfold cellIdx64 at hx
  rw [if_neg hd0.ne'] at hx
  simp only at hx
  split_ifs at hx with hc
  have hfloor : ⌊F64.div (F64.sub x a) d⌋ = (i:ℤ) := by
    have := Option.some.inj hx
    omega
  rw [hfloor] at hc
  have hi : i < N := by exact_mod_cast hc.2
  refine ⟨hi, ?_⟩
  unfold F64.div F64.sub at hfloor
  rw [Int.floor_eq_iff] at hfloor
  push_cast at hfloor
  obtain ⟨q1, q2⟩ := hfloor
  have hi1 : (i:ℝ) + 1 ≤ N := by exact_mod_cast hi
  have hi0 : (0:ℝ) ≤ i := by positivity
  have hi1T : ((i:ℝ)+1)*T ≤ N*T := by gcongr
  have hiT : (i:ℝ)*T ≤ N*T := mul_le_mul_of_nonneg_right (by linarith) hT0.le
  have hfi : fl ((i:ℝ) + 1) = i + 1 := by
    have := fl_int (n := (i:ℤ)+1) (by
      rw [abs_of_nonneg (by positivity)]
      have h2 : (N:ℤ) ≤ 2^50 := by exact_mod_cast h.n2
      have h3 : (i:ℤ) < N := by exact_mod_cast hi
      omega)
    push_cast at this; exact this
  have up : fl (x - a)/d < (i:ℝ) + 1 := by
    by_contra hcon
    have := fl_mono (not_lt.mp hcon)
    rw [hfi] at this; linarith
  have ez := fl_err_abs (fl (x-a)/d)
  -- the quotient from below
  have lo : (i:ℝ) - 2*(N/2^53) ≤ fl (x - a)/d := by
    generalize fl (x-a)/d = z at *
    by_contra hcon
    have hcon := not_le.mp hcon
    have h7 : (1:ℝ)/2^53 ≤ N/2^53 := by gcongr
    rcases le_or_gt 0 z with hz | hz
    · rw [abs_of_nonneg hz, abs_le] at ez
      have : z/2^53 ≤ N/2^53 := by gcongr; linarith
      linarith [ez.1]
    · rw [abs_of_neg hz, abs_le] at ez
      have : -z/2^53 = -(z/2^53) := by ring
      rw [this] at ez
      have h9 : z + z * (-1/2^53) ≤ 0 := by nlinarith
      have h8 : (N:ℝ)/2^53 ≤ 1/8 := by
        rw [div_le_iff₀ (by norm_num)]; linarith
      have : z*(-1/2^53) = -(z/2^53) := by ring
      have h10 : -(z/2^53) ≤ -(1/4)*z := by linarith
      have h11 : 0 < (N:ℝ)/2^53 := by positivity
      linarith [ez.1]
  have ylo : ((i:ℝ) - 2*(N/2^53))*d ≤ fl (x-a) := by rwa [le_div_iff₀ hd0] at lo
  have yup : fl (x-a) < ((i:ℝ)+1)*d := by rwa [div_lt_iff₀ hd0] at up
  have s1 : ((i:ℝ)+1)*d ≤ (i+1)*w + N*T := by
    have : ((i:ℝ)+1)*d ≤ (i+1)*(w+T) := by gcongr; linarith [hd.2]
    linarith
  have s2 : (i:ℝ)*w - N*T - T/2 ≤ ((i:ℝ) - 2*(N/2^53))*d := by
    have a1 : (i:ℝ)*(w - T) ≤ i*d := by gcongr; linarith [hd.1]
    have a2 : 2*((N:ℝ)/2^53)*d ≤ T/2 := by
      have : 2*((N:ℝ)/2^53)*d ≤ 2*((N:ℝ)/2^53)*(2*w) := by gcongr
      have e : 2*((N:ℝ)/2^53)*(2*w) = 4*D/2^53 := by rw [hDw]; ring
      rw [e] at this
      have e2 : 8*D/2^53 = 2*(4*D/2^53) := by ring
      rw [e2] at hTD
      linarith
    linarith
  have ey := fl_err_abs (x - a)
  generalize fl (x-a) = y at *
  have hyD : |y| ≤ 2*D := by
    have : ((i:ℝ)+1)*w ≤ D := by rw [hDw]; gcongr
    have hwD : w ≤ D := by rw [hDw]; nlinarith
    have : 0 ≤ (i:ℝ)*w := by positivity
    rw [abs_le]; constructor <;> linarith
  have hxa : |x - a| ≤ 3*D := by
    have t1 : |x - a| ≤ |x - a - y| + |y| := by
      have := abs_add_le (x - a - y) y
      simpa using this
    have t2 : |x-a|/2^53 ≤ |x-a|/8 := by
      have := abs_nonneg (x-a)
      gcongr; norm_num
    have t3 : D/2^53 ≤ D/8 := by gcongr; norm_num
    linarith
  have hxe : |x - a|/2^53 ≤ 3*D/2^53 := by gcongr
  have hT4 : 3*D/2^53 + D/2^53 ≤ T/2 := by
    have e2 : 8*D/2^53 = 2*(3*D/2^53 + D/2^53) := by ring
    rw [e2] at hTD; linarith
  rw [abs_le] at ey
  constructor <;> linarith [ey.1, ey.2]

end

end Magpie.Grids64
