import Verif.Proof.RemapExact
import Verif.Proof.Remap64
import Verif.Spec.RemapRound
import Verif.Proof.Flat
import Mathlib.Data.Int.Interval

/-!
# Rounding errors of grid to grid remapping
-/

set_option linter.unusedSimpArgs false
set_option linter.unusedVariables false
set_option linter.unusedSectionVars false

namespace Magpie.Remap64
open Magpie.Remap Magpie.F64 Magpie.Spec Finset

/-! ## Perturbed overlaps -/

theorem overlap_lip {a b c d a' b' c' d' t : ℝ} (ha : |a - a'| ≤ t) (hb : |b - b'| ≤ t) (hc : |c - c'| ≤ t)
    (hd : |d - d'| ≤ t) : |overlap a b c d - overlap a' b' c' d'| ≤ 2*t := by
  unfold overlap
  have ht : 0 ≤ t := (abs_nonneg _).trans ha
  have h1 := (abs_min_sub_min_le_max b d b' d').trans (max_le hb hd)
  have h2 := (abs_max_sub_max_le_max a c a' c').trans (max_le ha hc)
  refine (abs_max_sub_max_le_max _ _ _ _).trans (max_le ?_ ?_)
  · rw [sub_self, abs_zero]; linarith
  · rw [abs_le] at h1 h2 ⊢
    constructor <;> linarith [h1.1, h1.2, h2.1, h2.2]

theorem overlap_left {a b c d t : ℝ} (h : b ≤ c + t) (ht : 0 ≤ t) : overlap a b c d ≤ t := by
  unfold overlap
  refine max_le ht ?_
  have := min_le_left b d
  have := le_max_right a c
  linarith

theorem overlap_right {a b c d t : ℝ} (h : d ≤ a + t) (ht : 0 ≤ t) : overlap a b c d ≤ t := by
  unfold overlap
  refine max_le ht ?_
  have := min_le_right b d
  have := le_max_left a c
  linarith

theorem overlap_le_right {a b c d : ℝ} (h : c ≤ d) : overlap a b c d ≤ d - c := by
  unfold overlap
  refine max_le (by linarith) ?_
  have := min_le_right b d
  have := le_max_right a c
  linarith

theorem overlap_ge {a b c d t : ℝ} (h1 : a ≤ c + t) (h2 : d ≤ b + t) (ht : 0 ≤ t) :
    d - c - 2*t ≤ overlap a b c d := by
  unfold overlap
  refine le_trans ?_ (le_max_right _ _)
  have := le_min (show d - t ≤ b by linarith) (show d - t ≤ d by linarith)
  have := max_le (show a ≤ c + t by linarith) (show c ≤ c + t by linarith)
  linarith

/-! ## Counting cells -/

theorem card_between (S : Finset ℤ) {s t : ℝ} (hst : s ≤ t) (h : ∀ z ∈ S, s < z ∧ (z:ℝ) < t) : (S.card : ℝ) ≤ t - s + 1 := by
  have hsub : S ⊆ Finset.Ioo ⌊s⌋ ⌈t⌉ := by
    intro z hz
    rw [Finset.mem_Ioo]
    exact ⟨Int.floor_lt.mpr (h z hz).1, Int.lt_ceil.mpr (h z hz).2⟩
  have h1 := Finset.card_le_card hsub
  rw [Int.card_Ioo] at h1
  have h2 : (S.card : ℝ) ≤ ((⌈t⌉ - ⌊s⌋ - 1).toNat : ℝ) := by exact_mod_cast h1
  refine h2.trans ?_
  have h3 : ((⌈t⌉ - ⌊s⌋ - 1).toNat : ℝ) = ((max (⌈t⌉ - ⌊s⌋ - 1) 0 : ℤ) : ℝ) := by
    rw [← Int.toNat_eq_max]; simp
  rw [h3]
  push_cast
  have := Int.ceil_lt_add_one t
  have := Int.lt_floor_add_one s
  refine max_le ?_ ?_ <;> linarith

/-- The input cells that overlap one output cell. -/
theorem count_cells {A B : Axis ℝ} (hA : A.Valid) (hB : B.Valid) (j : ℕ) (S : Finset ℤ)
    (h : ∀ z ∈ S, wz A.lo A.dx (B.edge j) (B.edge (j+1)) z ≠ 0) : (S.card : ℝ) ≤ B.dx/A.dx + 2 := by
  have hd := dx_pos hA
  have hd2 := dx_pos hB
  have := card_between S (s := (B.edge j - A.lo)/A.dx - 1) (t := (B.edge (j+1) - A.lo)/A.dx) (by
    rw [edge_succ]
    have : 0 < B.dx/A.dx := by positivity
    have e : (B.edge j + B.dx - A.lo)/A.dx = (B.edge j - A.lo)/A.dx + B.dx/A.dx := by ring
    rw [e]; linarith) (by
    intro z hz
    constructor
    · by_contra hc
      push Not at hc
      refine h z hz (wz_left ?_)
      have : (z:ℝ) + 1 ≤ (B.edge j - A.lo)/A.dx := by linarith
      rw [le_div_iff₀ hd] at this
      linarith
    · by_contra hc
      push Not at hc
      refine h z hz (wz_right ?_)
      rw [div_le_iff₀ hd] at hc
      linarith)
  have e : (B.edge (j+1) - A.lo)/A.dx - ((B.edge j - A.lo)/A.dx - 1) + 1 = B.dx/A.dx + 2 := by
    rw [edge_succ]; field_simp; ring
  linarith

/-! ## Work arrays close to the exact ones -/

/-- The work array sums like the weights `c` on `n` cells, up to `T`. -/
structure Near (n : ℕ) (c : ℕ → ℝ) (T : ℝ) (N : ℕ) (buf : Buf ℝ) : Prop where
  inR : InR n buf
  nonneg : ∀ e ∈ buf, 0 ≤ e.2
  close : ∀ (g : ℤ → ℝ) (F : ℝ), (∀ z, |g z| ≤ F) → |bufSum buf g - ∑ k ∈ range n, c k*g k| ≤ T*F
  len : buf.length ≤ N
  cnonneg : ∀ k, 0 ≤ c k
  csum : ∑ k ∈ range n, c k ≤ 1

theorem near_of_entries {A B : Axis ℝ} (hA : A.Valid) (hB : B.Valid) (j : ℕ) {p : ℤ} {L : ℕ} {τ : ℝ} (hτ : 0 ≤ τ)
    (e : ℕ → ℤ × ℝ) (w : ℤ → ℝ)
    (he : ∀ (i : ℕ) (g : ℤ → ℝ), (if (e i).1 = -1 then 0 else (e i).2*g (e i).1)
        = if 0 ≤ p + i ∧ p + i < A.n then w (p + i)*g (p + i) else 0)
    (hin : ∀ z : ℤ, 0 ≤ z → z < A.n → p ≤ z → z < p + L → |w z - wz A.lo A.dx (B.edge j) (B.edge (j+1)) z| ≤ τ)
    (hout : ∀ z : ℤ, 0 ≤ z → z < A.n → (z < p ∨ p + L ≤ z) → wz A.lo A.dx (B.edge j) (B.edge (j+1)) z ≤ τ)
    (g : ℤ → ℝ) {F : ℝ} (hg : ∀ z, |g z| ≤ F) :
    |bufSum ((List.range L).map e) g - ∑ k ∈ range A.n, cellFrac A B k j*g k| ≤ (L + B.dx/A.dx + 2)*τ*F := by
  have hF : 0 ≤ F := (abs_nonneg _).trans (hg 0)
  have hd2 := dx_pos hB
  set c := wz A.lo A.dx (B.edge j) (B.edge (j+1)) with hc
  have hc0 : ∀ z, 0 ≤ c z := fun z => div_nonneg (overlap_nonneg _ _ _ _) (by rw [edge_succ]; linarith)
  have e1 : bufSum ((List.range L).map e) g
      = ∑ z ∈ Ico p (p + L), if 0 ≤ z ∧ z < A.n then w z*g z else 0 := by
    rw [← sum_shift L p (fun z => if 0 ≤ z ∧ z < A.n then w z*g z else 0)]
    unfold bufSum
    rw [List.map_map]
    congr 1
    apply List.map_congr_left
    intro i _
    exact he i g
  have e2 : ∑ k ∈ range A.n, cellFrac A B k j*g k = ∑ z ∈ Ico (0:ℤ) A.n, c z*g z := by
    rw [sum_int_range A.n (fun z => c z*g z)]
    apply sum_congr rfl
    intro k _
    rw [cellFrac_wz]
  have e3 : ∑ z ∈ Ico (0:ℤ) A.n, c z*g z
      = (∑ z ∈ Ico p (p + L), if 0 ≤ z ∧ z < A.n then c z*g z else 0)
        + ∑ z ∈ (Ico (0:ℤ) A.n).filter (fun z => ¬ (p ≤ z ∧ z < p + L)), c z*g z := by
    rw [← sum_filter_add_sum_filter_not (Ico (0:ℤ) A.n) (fun z => p ≤ z ∧ z < p + L), ← sum_filter]
    congr 1
    apply sum_congr _ (fun _ _ => rfl)
    ext z
    simp only [mem_filter, mem_Ico]
    tauto
  rw [e1, e2, e3, ← sub_sub, ← sum_sub_distrib]
  refine (abs_sub _ _).trans ?_
  have b1 : |∑ z ∈ Ico p (p + L), ((if 0 ≤ z ∧ z < A.n then w z*g z else 0) - if 0 ≤ z ∧ z < A.n then c z*g z else 0)|
      ≤ L*(τ*F) := by
    refine (abs_sum_le_sum_abs _ _).trans ?_
    have : ∀ z ∈ Ico p (p + L), |(if 0 ≤ z ∧ z < A.n then w z*g z else 0) - if 0 ≤ z ∧ z < A.n then c z*g z else 0|
        ≤ τ*F := by
      intro z hz
      rw [mem_Ico] at hz
      by_cases hr : 0 ≤ z ∧ z < A.n
      · rw [if_pos hr, if_pos hr, ← sub_mul, abs_mul]
        exact mul_le_mul (hin z hr.1 hr.2 hz.1 hz.2) (hg z) (abs_nonneg _) hτ
      · rw [if_neg hr, if_neg hr, sub_zero, abs_zero]; positivity
    refine (sum_le_card_nsmul _ _ _ this).trans ?_
    rw [Int.card_Ico, nsmul_eq_mul, add_sub_cancel_left, Int.toNat_natCast]
  have b2 : |∑ z ∈ (Ico (0:ℤ) A.n).filter (fun z => ¬ (p ≤ z ∧ z < p + L)), c z*g z| ≤ (B.dx/A.dx + 2)*(τ*F) := by
    refine (abs_sum_le_sum_abs _ _).trans ?_
    rw [← sum_filter_ne_zero]
    set S := ((Ico (0:ℤ) A.n).filter (fun z => ¬ (p ≤ z ∧ z < p + L))).filter (fun z => |c z*g z| ≠ 0) with hS
    have hcard := count_cells hA hB j S (by
      intro z hz h0
      rw [hS, mem_filter] at hz
      apply hz.2
      rw [hc, h0, zero_mul, abs_zero])
    have : ∀ z ∈ S, |c z*g z| ≤ τ*F := by
      intro z hz
      rw [hS, mem_filter, mem_filter, mem_Ico] at hz
      rw [abs_mul, abs_of_nonneg (hc0 z)]
      exact mul_le_mul (hout z hz.1.1.1 hz.1.1.2 (by have := hz.1.2; omega)) (hg z) (abs_nonneg _) hτ
    refine (sum_le_card_nsmul _ _ _ this).trans ?_
    rw [nsmul_eq_mul]
    have : 0 ≤ τ*F := by positivity
    gcongr
  linarith

/-! ## Widths and edges -/

section
variable {o b : ℝ} {n : ℕ} (h : Resolved o b n)
include h

theorem dx_err : |dx64 o b n - b/n| ≤ (|o| + 6*b)/2^53/n := by
  have hb := res_b h
  obtain ⟨n1, n2⟩ := res_n h
  obtain ⟨c0, c1, c2⟩ := res_cell h
  have ho := res_o h
  have ho0 := abs_nonneg o
  unfold dx64 F64.div F64.sub F64.add
  rw [real4_int (by rw [Nat.abs_cast]; exact_mod_cast h.le)]
  have hη := two_zpow_pos (-1075)
  have hob : |o + b| ≤ |o| + b := (abs_add_le _ _).trans (by rw [abs_of_pos hb])
  have e1 := fl_abs_le hob
  set X := fl (o + b)
  have e4 : b/n/2^100 ≤ b/2^100 := by gcongr
  have e1' : |X - o - b| ≤ (|o| + b)/2^53 + (2:ℝ)^(-1075 : ℤ) := by
    have : X - o - b = -((o + b) - X) := by ring
    rw [this, abs_neg]
    exact e1
  have e1'' : |X - o| ≤ 2*b := by
    have : X - o = (X - o - b) + b := by ring
    rw [this]
    refine (abs_add_le _ _).trans ?_
    rw [abs_of_pos hb]
    have e : (|o| + b)/2^53 = |o|/2^53 + b/2^53 := by ring
    have e3 : b/n/2^5 ≤ b/2^5 := by gcongr
    linarith
  have e2 := fl_abs_le e1''
  set B := fl (X - o)
  have hB : |B - b| ≤ (|o| + 3*b)/2^53 + 2*(2:ℝ)^(-1075 : ℤ) := by
    have : B - b = (X - o - b) - (X - o - B) := by ring
    rw [this]
    refine (abs_sub _ _).trans ?_
    have e : (|o| + 3*b)/2^53 = (|o| + b)/2^53 + 2*b/2^53 := by ring
    linarith
  have hB2 : |B| ≤ 2*b := by
    have : B = (B - b) + b := by ring
    rw [this]
    refine (abs_add_le _ _).trans ?_
    rw [abs_of_pos hb]
    have e : (|o| + 3*b)/2^53 = |o|/2^53 + 3*b/2^53 := by ring
    have e3 : b/n/2^5 ≤ b/2^5 := by gcongr
    linarith
  have hq3 : |B/n| ≤ 2*b/n := by rw [abs_div, Nat.abs_cast]; gcongr
  have e3 := fl_abs_le hq3
  push_cast
  have e5 : fl (B/n) - b/n = (B - b)/n - (B/n - fl (B/n)) := by ring
  rw [e5]
  refine (abs_sub _ _).trans ?_
  rw [abs_div, Nat.abs_cast]
  have e6 : |B - b|/n ≤ ((|o| + 3*b)/2^53 + 2*(2:ℝ)^(-1075 : ℤ))/n := by gcongr
  have e7 : ((|o| + 3*b)/2^53 + 2*(2:ℝ)^(-1075 : ℤ))/n + (2*b/n/2^53 + (2:ℝ)^(-1075 : ℤ))
      ≤ (|o| + 6*b)/2^53/n := by
    have e8 : (2:ℝ)^(-1075 : ℤ)/n ≤ (2:ℝ)^(-1075 : ℤ) := div_le_self hη.le n1
    have e9 : ((|o| + 3*b)/2^53 + 2*(2:ℝ)^(-1075 : ℤ))/n = (|o|/n + 3*(b/n))/2^53 + 2*((2:ℝ)^(-1075 : ℤ)/n) := by
      ring
    have e10 : (|o| + 6*b)/2^53/n = (|o|/n + 6*(b/n))/2^53 := by ring
    have e11 : 2*b/n/2^53 = 2*(b/n)/2^53 := by ring
    rw [e9, e10, e11]
    linarith
  linarith

theorem dx_err_mul {k : ℝ} (h0 : 0 ≤ k) (hk : k ≤ n) : |dx64 o b n*k - b/n*k| ≤ (|o| + 6*b)/2^53 := by
  obtain ⟨n1, n2⟩ := res_n h
  have hb := res_b h
  have ho0 := abs_nonneg o
  rw [← sub_mul, abs_mul, abs_of_nonneg h0]
  refine (mul_le_mul (dx_err h) hk h0 (by positivity)).trans ?_
  rw [div_mul_cancel₀ _ (by positivity)]

/-- The computed edges and the exact ones. -/
theorem ed_exact (fused : Bool) {k : ℤ} (h0 : 0 ≤ k) (hk : k ≤ n) :
    |ed fused o b n k - (o + b/n*k)| ≤ 10*(|o| + b)/2^53 := by
  obtain ⟨n1, n2⟩ := res_n h
  obtain ⟨c0, c1, c2⟩ := res_cell h
  have hb := res_b h
  have ho0 := abs_nonneg o
  obtain ⟨d1, d2⟩ := dx64_range h
  have d0 := dx64_pos h
  have hkn : (k:ℝ) ≤ n := by exact_mod_cast hk
  have hk0 : (0:ℝ) ≤ k := by exact_mod_cast h0
  have hm := dx_err_mul h hk0 hkn
  unfold ed
  rw [real4_int (by rw [abs_of_nonneg h0]; have := h.le; omega)]
  set d := dx64 o b n
  have hdk : |d*k| ≤ 9/8*b := by
    rw [abs_of_nonneg (by positivity)]
    calc d*k ≤ 9/8*(b/n)*n := mul_le_mul d2 hkn hk0 (by positivity)
      _ = 9/8*b := by field_simp
  have e1 := madd_err fused (le_refl |o|) hdk
  have e2 : madd fused o d k - (o + b/n*k) = (madd fused o d k - (o + d*k)) + (d*k - b/n*k) := by ring
  rw [e2]
  refine (abs_add_le _ _).trans ?_
  have e4 : b/n/2^100 ≤ b/2^100 := by gcongr
  linarith

end

/-! ## Which cell an edge falls in -/

section
variable {A B : Axis ℝ} (hA : Resolved A.lo A.size A.n) (hB : Resolved B.lo B.size B.n)
include hA hB

theorem scale_facts : 0 < gridScale A B ∧ |A.lo| + A.size ≤ gridScale A B ∧ |B.lo| + B.size ≤ gridScale A B ∧
    A.dx ≤ gridScale A B ∧ B.dx ≤ gridScale A B ∧ 0 < A.dx ∧ 0 < B.dx ∧ A.Valid ∧ B.Valid := by
  have a := res_b hA
  have b := res_b hB
  have a0 := abs_nonneg A.lo
  have b0 := abs_nonneg B.lo
  have a1 : A.dx ≤ A.size := (res_cell hA).2.1
  have b1 : B.dx ≤ B.size := (res_cell hB).2.1
  unfold gridScale
  refine ⟨by linarith, by linarith, by linarith, by linarith, by linarith, (res_cell hA).1, (res_cell hB).1,
    ⟨a, hA.pos⟩, b, hB.pos⟩

theorem edA_near (fused : Bool) {z : ℤ} (h0 : 0 ≤ z) (hz : z ≤ A.n) :
    |ed fused A.lo A.size A.n z - (A.lo + A.dx*z)| ≤ gridScale A B/2^49 := by
  have := ed_exact hA fused h0 hz
  obtain ⟨s1, s2, -⟩ := scale_facts hA hB
  unfold Axis.dx
  refine this.trans ?_
  linarith

theorem edB_near (fused : Bool) {z : ℤ} (h0 : 0 ≤ z) (hz : z ≤ B.n) :
    |ed fused B.lo B.size B.n z - (B.lo + B.dx*z)| ≤ gridScale A B/2^49 := by
  have := ed_exact hB fused h0 hz
  obtain ⟨s1, -, s2, -⟩ := scale_facts hA hB
  unfold Axis.dx
  refine this.trans ?_
  linarith

theorem edB_range (fused : Bool) {z : ℤ} (h0 : 0 ≤ z) (hz : z ≤ B.n) :
    |ed fused B.lo B.size B.n z - A.lo| ≤ 2*gridScale A B := by
  have h1 := edB_near hA hB fused h0 hz
  obtain ⟨s1, sA, sB, -, -, -, dB, -⟩ := scale_facts hA hB
  have bA := res_b hA
  have bB := res_b hB
  have hk : (z:ℝ) ≤ B.n := by exact_mod_cast hz
  have hk0 : (0:ℝ) ≤ z := by exact_mod_cast h0
  have n1 := (res_n hB).1
  have h2 : B.dx*z ≤ B.size := by
    calc B.dx*z ≤ B.dx*B.n := by gcongr
      _ = B.size := by unfold Axis.dx; field_simp
  have h3 : 0 ≤ B.dx*z := by positivity
  have h4 := neg_abs_le B.lo
  have h5 := le_abs_self B.lo
  have h6 := neg_abs_le A.lo
  have h7 := le_abs_self A.lo
  have h8 := abs_nonneg A.lo
  have h9 := abs_nonneg B.lo
  unfold gridScale at *
  rw [abs_le] at h1 ⊢
  constructor <;> linarith [h1.1, h1.2]

/-- The quotient of which `which_pix` takes the floor. -/
theorem quot_near {E : ℝ} (hE : |E - A.lo| ≤ 2*gridScale A B) :
    |F64.div (F64.sub E A.lo) (dx64 A.lo A.size A.n)*dx64 A.lo A.size A.n - (E - A.lo)| ≤ gridScale A B/2^49 := by
  obtain ⟨s1, sA, sB, dA, -, dA0, -⟩ := scale_facts hA hB
  have d0 := dx64_pos hA
  obtain ⟨d1, d2⟩ := dx64_range hA
  change _ ≤ 9/8*A.dx at d2
  have hη : (2:ℝ)^(-1075 : ℤ) ≤ 1/2^100 := by
    have : (2:ℝ)^(-1075 : ℤ) ≤ (2:ℝ)^(-100 : ℤ) := zpow_le_zpow_right₀ (by norm_num) (by norm_num)
    refine this.trans (by norm_num)
  have hη2 : (2:ℝ)^(-1075 : ℤ) ≤ A.dx/2^100 := (res_cell hA).2.2
  unfold F64.div F64.sub
  have f1 := fl_abs_le hE
  set y := fl (E - A.lo)
  set d := dx64 A.lo A.size A.n
  set S := gridScale A B
  have hy : |y| ≤ 3*S := by
    have : y = (E - A.lo) - (E - A.lo - y) := by ring
    rw [this]
    refine (abs_sub _ _).trans ?_
    linarith
  have f2 := fl_err_abs (y/d)
  have f3 : |y/d - fl (y/d)| * d ≤ 3*S/2^53 + d/2^100 := by
    calc |y/d - fl (y/d)| * d ≤ (|y/d|/2^53 + (2:ℝ)^(-1075 : ℤ))*d := by gcongr
      _ = |y|/2^53 + (2:ℝ)^(-1075 : ℤ)*d := by
          rw [abs_div, abs_of_pos d0]; field_simp
      _ ≤ 3*S/2^53 + 1/2^100*d := by gcongr
      _ = _ := by ring
  have e : fl (y/d)*d - (E - A.lo) = -((y/d - fl (y/d))*d) - (E - A.lo - y) := by
    field_simp
    ring
  rw [e]
  refine (abs_sub _ _).trans ?_
  rw [abs_neg, abs_mul, abs_of_pos d0]
  linarith

theorem pix_left {E : ℝ} (hE : |E - A.lo| ≤ 2*gridScale A B) {z : ℤ} (h0 : 0 ≤ z) (hz : z ≤ A.n)
    (h : z ≤ whichPix64 A.lo (dx64 A.lo A.size A.n) E) : A.lo + A.dx*z ≤ E + 2*(gridScale A B/2^49) := by
  have q := quot_near hA hB hE
  have d0 := dx64_pos hA
  obtain ⟨s1, sA, -⟩ := scale_facts hA hB
  have m := dx_err_mul hA (k := z) (by exact_mod_cast h0) (by exact_mod_cast hz)
  change |_ - A.dx*z| ≤ _ at m
  have ho := abs_nonneg A.lo
  have hb := res_b hA
  unfold whichPix64 at h
  have h2 := Int.le_floor.mp h
  have h3 := mul_le_mul_of_nonneg_right h2 d0.le
  rw [abs_le] at q m
  linarith [q.2, m.1]

theorem pix_right {E : ℝ} (hE : |E - A.lo| ≤ 2*gridScale A B) {z : ℤ} (h0 : 0 ≤ z) (hz : z ≤ A.n)
    (h : whichPix64 A.lo (dx64 A.lo A.size A.n) E < z) : E ≤ A.lo + A.dx*z + 2*(gridScale A B/2^49) := by
  have q := quot_near hA hB hE
  have d0 := dx64_pos hA
  obtain ⟨s1, sA, -⟩ := scale_facts hA hB
  have m := dx_err_mul hA (k := z) (by exact_mod_cast h0) (by exact_mod_cast hz)
  change |_ - A.dx*z| ≤ _ at m
  have ho := abs_nonneg A.lo
  have hb := res_b hA
  unfold whichPix64 at h
  have h2 := Int.floor_lt.mp h
  have h3 := mul_le_mul_of_nonneg_right h2.le d0.le
  rw [abs_le] at q m
  linarith [q.1, m.2]

/-- The ratio of the widths. -/
theorem ratio_near : |F64.div (dx64 B.lo B.size B.n) (dx64 A.lo A.size A.n)*dx64 A.lo A.size A.n - B.dx|
    ≤ gridScale A B/2^49 := by
  have d0 := dx64_pos hA
  have e0 := dx64_pos hB
  obtain ⟨s1, sA, sB, dA, dB, dA0, dB0, -⟩ := scale_facts hA hB
  have hd := (dx64_range hA).2
  have he := (dx64_range hB).2
  change _ ≤ 9/8*A.dx at hd
  change _ ≤ 9/8*B.dx at he
  have m := dx_err_mul hB (k := 1) (by norm_num) (res_n hB).1
  change |_ - B.dx*1| ≤ _ at m
  rw [mul_one, mul_one] at m
  have hη : (2:ℝ)^(-1075 : ℤ) ≤ 1/2^100 := by
    have : (2:ℝ)^(-1075 : ℤ) ≤ (2:ℝ)^(-100 : ℤ) := zpow_le_zpow_right₀ (by norm_num) (by norm_num)
    refine this.trans (by norm_num)
  have ho := abs_nonneg B.lo
  have hb := res_b hB
  unfold F64.div
  set d := dx64 A.lo A.size A.n
  set e := dx64 B.lo B.size B.n
  have f2 := fl_err_abs (e/d)
  have f3 : |e/d - fl (e/d)| * d ≤ e/2^53 + d/2^100 := by
    calc |e/d - fl (e/d)| * d ≤ (|e/d|/2^53 + (2:ℝ)^(-1075 : ℤ))*d := by gcongr
      _ = e/2^53 + (2:ℝ)^(-1075 : ℤ)*d := by
          rw [abs_div, abs_of_pos d0, abs_of_pos e0]; field_simp
      _ ≤ e/2^53 + 1/2^100*d := by gcongr
      _ = _ := by ring
  have e1 : fl (e/d)*d - B.dx = -((e/d - fl (e/d))*d) + (e - B.dx) := by
    field_simp
    ring
  rw [e1]
  refine (abs_add_le _ _).trans ?_
  rw [abs_neg, abs_mul, abs_of_pos d0]
  linarith

/-- The length of the work arrays. -/
noncomputable def len64 (A B : Axis ℝ) : ℤ := pixLen64 A.lo (F64.add A.lo A.size) A.n B.lo (F64.add B.lo B.size) B.n

theorem len64_eq : len64 A B = ⌊F64.div (dx64 B.lo B.size B.n) (dx64 A.lo A.size A.n)⌋ + 2 := rfl

theorem ratio_nonneg : 0 ≤ F64.div (dx64 B.lo B.size B.n) (dx64 A.lo A.size A.n) :=
  fl_nonneg (div_nonneg (dx64_pos hB).le (dx64_pos hA).le)

theorem len64_pos : 2 ≤ len64 A B := by
  rw [len64_eq hA hB]
  have := Int.floor_nonneg.mpr (ratio_nonneg hA hB)
  omega

theorem len64_le : (len64 A B : ℝ) ≤ 3/2*(B.dx/A.dx) + 3 := by
  rw [len64_eq hA hB]
  have d0 := dx64_pos hA
  have e0 := dx64_pos hB
  obtain ⟨s1, sA, sB, dA, dB, dA0, dB0, -⟩ := scale_facts hA hB
  have hd := (dx64_range hA).1
  have he := (dx64_range hB).2
  change 7/8*A.dx ≤ _ at hd
  change _ ≤ 9/8*B.dx at he
  have hη : (2:ℝ)^(-1075 : ℤ) ≤ 1/2^100 := by
    have : (2:ℝ)^(-1075 : ℤ) ≤ (2:ℝ)^(-100 : ℤ) := zpow_le_zpow_right₀ (by norm_num) (by norm_num)
    refine this.trans (by norm_num)
  unfold F64.div
  set d := dx64 A.lo A.size A.n
  set e := dx64 B.lo B.size B.n
  have h1 : e/d ≤ 9/7*(B.dx/A.dx) := by
    calc e/d ≤ (9/8*B.dx)/(7/8*A.dx) := by gcongr
      _ = 9/7*(B.dx/A.dx) := by field_simp
  have h2 := fl_err_abs (e/d)
  rw [abs_of_nonneg (show 0 ≤ e/d by positivity), abs_le] at h2
  have h3 := Int.floor_le (fl (e/d))
  push_cast
  have : 0 < B.dx/A.dx := by positivity
  linarith [h2.1]

theorem pix_beyond {E : ℝ} (hE : |E - A.lo| ≤ 2*gridScale A B) {z : ℤ} (h0 : 0 ≤ z) (hz : z ≤ A.n)
    (h : whichPix64 A.lo (dx64 A.lo A.size A.n) E + len64 A B ≤ z) :
    E + B.dx ≤ A.lo + A.dx*z + 3*(gridScale A B/2^49) := by
  have q := quot_near hA hB hE
  have r := ratio_near hA hB
  have d0 := dx64_pos hA
  obtain ⟨s1, sA, -⟩ := scale_facts hA hB
  have m := dx_err_mul hA (k := z) (by exact_mod_cast h0) (by exact_mod_cast hz)
  change |_ - A.dx*z| ≤ _ at m
  have ho := abs_nonneg A.lo
  have hb := res_b hA
  rw [len64_eq hA hB] at h
  unfold whichPix64 at h
  set Q := F64.div (F64.sub E A.lo) (dx64 A.lo A.size A.n)
  set R := F64.div (dx64 B.lo B.size B.n) (dx64 A.lo A.size A.n)
  have h1 : ((⌊Q⌋ + (⌊R⌋ + 2) : ℤ) : ℝ) ≤ z := by exact_mod_cast h
  push_cast at h1
  have h2 := Int.lt_floor_add_one Q
  have h3 := Int.lt_floor_add_one R
  have h4 : Q + R ≤ z := by linarith
  have h5 := mul_le_mul_of_nonneg_right h4 d0.le
  rw [abs_le] at q r m
  linarith [q.1, r.1, m.2]

end

/-! ## The weights -/

/-- The weight of input cell `z` as computed. -/
noncomputable def w64 (fused : Bool) (A : Axis ℝ) (a b : ℝ) (z : ℤ) : ℝ :=
  fl (fl (overlap (ed fused A.lo A.size A.n z) (ed fused A.lo A.size A.n (z+1)) a b)/fl (b - a))

theorem w64_nonneg (fused : Bool) {A : Axis ℝ} {a b : ℝ} (h : a ≤ b) (z : ℤ) : 0 ≤ w64 fused A a b z :=
  fl_nonneg (div_nonneg (fl_nonneg (overlap_nonneg _ _ _ _)) (fl_nonneg (by linarith)))

theorem entry64_spec {A : Axis ℝ} (hA : Resolved A.lo A.size A.n) (fused : Bool) {a b : ℝ} (hab : a < b) (p : ℤ) :
    (entryAcross64 fused A.lo (dx64 A.lo A.size A.n) A.n a b p).1 = -1 ∧
      (entryAcross64 fused A.lo (dx64 A.lo A.size A.n) A.n a b p).2 = 0 ∧
      (0 ≤ p → p < A.n → w64 fused A a b p = 0) ∨
    0 ≤ p ∧ p < A.n ∧ entryAcross64 fused A.lo (dx64 A.lo A.size A.n) A.n a b p = (p, w64 fused A a b p) := by
  unfold entryAcross64
  by_cases hp : 0 ≤ p ∧ p < A.n
  swap
  · rw [if_neg hp]
    exact Or.inl ⟨rfl, rfl, fun h1 h2 => absurd ⟨h1, h2⟩ hp⟩
  rw [if_pos hp]
  have e1 : madd fused A.lo (dx64 A.lo A.size A.n) (real4 p) = ed fused A.lo A.size A.n p := rfl
  have e2 : madd fused A.lo (dx64 A.lo A.size A.n) (real4 (p+1)) = ed fused A.lo A.size A.n (p+1) := rfl
  simp only [e1, e2]
  have hlt := ed_lt hA fused hp.1 (show p < p + 1 by omega) (by omega)
  unfold w64 F64.div F64.sub overlap
  set c := ed fused A.lo A.size A.n p
  set d := ed fused A.lo A.size A.n (p+1)
  split_ifs with h1 h2 h3 h4
  · right
    refine ⟨hp.1, hp.2, ?_⟩
    rw [min_eq_right h1.2, max_eq_right h1.1, max_eq_right (by linarith)]
  · right
    refine ⟨hp.1, hp.2, ?_⟩
    rw [min_eq_right h2.2.1, max_eq_left h2.1.le, max_eq_right (by linarith [h2.2.2])]
  · right
    refine ⟨hp.1, hp.2, ?_⟩
    rw [min_eq_left h3.2.2.le, max_eq_right h3.1, max_eq_right (by linarith [h3.2.1])]
  · right
    refine ⟨hp.1, hp.2, ?_⟩
    rw [min_eq_left h4.2.le, max_eq_left h4.1.le, max_eq_right (by linarith)]
  · left
    refine ⟨rfl, rfl, fun _ _ => ?_⟩
    have : max 0 (min d b - max c a) = 0 := by
      apply max_eq_left
      rw [sub_nonpos]
      rcases le_or_gt d a with g1 | g1
      · exact (min_le_left _ _).trans (g1.trans (le_max_right _ _))
      rcases le_or_gt b c with g2 | g2
      · exact (min_le_right _ _).trans (g2.trans (le_max_left _ _))
      exfalso
      rcases le_or_gt c a with g3 | g3
      · rcases le_or_gt b d with g4 | g4
        · exact h1 ⟨g3, g4⟩
        · exact h3 ⟨g3, g1, g4⟩
      · rcases le_or_gt b d with g4 | g4
        · exact h2 ⟨g3, g4, g2⟩
        · exact h4 ⟨g3, g4⟩
    rw [this, fl_zero, zero_div, fl_zero]

/-- A rounded quotient of a part and the whole. -/
theorem quot_part {v W : ℝ} (hv : 0 ≤ v) (hvW : v ≤ W) (hW : (2:ℝ)^(-1075 : ℤ) ≤ W/2^60) :
    |fl (fl v/fl W) - v/W| ≤ 8/2^53 := by
  have hη := two_zpow_pos (-1075)
  have hW0 : 0 < W := by
    have : (0:ℝ) < W/2^60 := lt_of_lt_of_le hη hW
    by_contra hc
    push Not at hc
    have : W/2^60 ≤ 0 := div_nonpos_of_nonpos_of_nonneg hc (by norm_num)
    linarith
  have hη1 : (2:ℝ)^(-1075 : ℤ) ≤ 1/2^100 := by
    have : (2:ℝ)^(-1075 : ℤ) ≤ (2:ℝ)^(-100 : ℤ) := zpow_le_zpow_right₀ (by norm_num) (by norm_num)
    refine this.trans (by norm_num)
  have e1 := fl_abs_le (show |v| ≤ W by rw [abs_of_nonneg hv]; exact hvW)
  have e2 := fl_abs_le (show |W| ≤ W by rw [abs_of_pos hW0])
  set V := fl v
  set D := fl W
  have hD : W*(1 - 1/2^50) ≤ D := by
    rw [abs_le] at e2
    linarith [e2.2]
  have hD0 : 0 < D := lt_of_lt_of_le (by positivity) hD
  have h1 : |V/D - v/W| ≤ 3/2^53 := by
    have e : V/D - v/W = ((V - v)*W - v*(D - W))/(D*W) := by field_simp; ring
    rw [e, abs_div, abs_of_pos (show 0 < D*W by positivity), div_le_iff₀ (by positivity)]
    refine (abs_sub _ _).trans ?_
    rw [abs_mul, abs_mul, abs_of_pos hW0, abs_of_nonneg hv, abs_sub_comm V, abs_sub_comm D]
    have g1 : |v - V| * W ≤ (W/2^53 + W/2^60)*W := by gcongr; linarith
    have g2 : v*|W - D| ≤ W*(W/2^53 + W/2^60) := by gcongr; linarith
    have g3 : 3/2^53*(W*(1 - 1/2^50)*W) ≤ 3/2^53*(D*W) := by gcongr
    have g4 : 0 < W*W := by positivity
    linarith
  have h2 : v/W ≤ 1 := by rw [div_le_one hW0]; exact hvW
  have h2' : 0 ≤ v/W := by positivity
  have h3 : |V/D| ≤ 2 := by
    rw [abs_le] at h1 ⊢
    constructor <;> linarith [h1.1, h1.2]
  have h4 := fl_abs_le h3
  have e : fl (V/D) - v/W = (V/D - v/W) - (V/D - fl (V/D)) := by ring
  rw [e]
  refine (abs_sub _ _).trans ?_
  linarith

section
variable {A B : Axis ℝ} (hA : Resolved A.lo A.size A.n) (hB : Resolved B.lo B.size B.n)
include hA hB

theorem B_edge (j : ℕ) : B.edge j = B.lo + B.dx*((j:ℤ):ℝ) := by unfold Axis.edge; push_cast; rfl

theorem w64_near (fused : Bool) {j : ℕ} (hj : j < B.n) {z : ℤ} (h0 : 0 ≤ z) (hz : z < A.n)
    (hsep : gridScale A B/2^49 ≤ B.dx/8) :
    |w64 fused A (ed fused B.lo B.size B.n j) (ed fused B.lo B.size B.n (j+1)) z
      - wz A.lo A.dx (B.edge j) (B.edge (j+1)) z| ≤ 8*(gridScale A B/2^49)/B.dx := by
  obtain ⟨s1, sA, sB, dA, dB, dA0, dB0, vA, vB⟩ := scale_facts hA hB
  have b1 := edB_near hA hB fused (z := j) (by omega) (by omega)
  have b2 := edB_near hA hB fused (z := j+1) (by omega) (by omega)
  have a1 := edA_near hA hB fused h0 hz.le
  have a2 := edA_near hA hB fused (z := z+1) (by omega) (by omega)
  have hlt := ed_lt hB fused (k := j) (l := j+1) (by omega) (by omega) (by omega)
  rw [← B_edge hA hB] at b1
  have eb : B.lo + B.dx*(((j:ℤ)+1 : ℤ):ℝ) = B.edge (j+1) := by unfold Axis.edge; push_cast; ring
  rw [eb] at b2
  push_cast at a2
  unfold w64 wz
  have hη : (2:ℝ)^(-1075 : ℤ) ≤ B.dx/2^100 := (res_cell hB).2.2
  have es := edge_succ B j
  set a := ed fused B.lo B.size B.n j
  set b := ed fused B.lo B.size B.n (j+1)
  set c := ed fused A.lo A.size A.n z
  set d := ed fused A.lo A.size A.n (z+1)
  set ε := gridScale A B/2^49 with hε
  have hε0 : 0 ≤ ε := by positivity
  have hov := overlap_lip a1 a2 b1 b2
  have hle := overlap_le_right (a := c) (b := d) hlt.le
  have hov0 := overlap_nonneg c d a b
  set v := overlap c d a b
  set v0 := overlap (A.lo + A.dx*z) (A.lo + A.dx*(z+1)) (B.edge j) (B.edge (j+1))
  have hW : |(b - a) - B.dx| ≤ 2*ε := by
    rw [abs_le] at b1 b2 ⊢
    constructor <;> linarith [b1.1, b1.2, b2.1, b2.2]
  have hW' : 3/4*B.dx ≤ b - a := by
    rw [abs_le] at hW
    linarith [hW.1]
  have q := quot_part hov0 hle (by linarith)
  have hba : 0 < b - a := by linarith
  have h1 : |v/(b - a) - v0/B.dx| ≤ 4*ε/B.dx := by
    have e : v/(b - a) - v0/B.dx = (v - v0)/B.dx + v/(b - a)*((B.dx - (b - a))/B.dx) := by
      field_simp
      ring
    rw [e]
    refine (abs_add_le _ _).trans ?_
    rw [abs_div, abs_mul, abs_div (B.dx - (b - a)), abs_of_pos dB0, abs_of_nonneg (show 0 ≤ v/(b - a) by positivity),
      abs_sub_comm B.dx]
    have g1 : v/(b - a) ≤ 1 := by rw [div_le_one hba]; exact hle
    calc |v - v0|/B.dx + v/(b - a)*(|(b - a) - B.dx|/B.dx) ≤ 2*ε/B.dx + 1*(2*ε/B.dx) := by gcongr
      _ = 4*ε/B.dx := by ring
  have h2 : (8:ℝ)/2^53 ≤ ε/B.dx := by
    rw [le_div_iff₀ dB0, hε]
    linarith
  have e : B.edge (j+1) - B.edge j = B.dx := by rw [es]; ring
  rw [e]
  have e2 : fl (fl v/fl (b - a)) - v0/B.dx = (fl (fl v/fl (b - a)) - v/(b - a)) + (v/(b - a) - v0/B.dx) := by ring
  rw [e2]
  refine (abs_add_le _ _).trans ?_
  have e3 : 8*ε/B.dx = 4*ε/B.dx + 4*(ε/B.dx) := by ring
  have : 0 ≤ ε/B.dx := by positivity
  rw [e3]
  linarith

end

/-! ## One output cell -/

theorem sum_cellFrac_le {A B : Axis ℝ} (hA : A.Valid) (hB : B.Valid) (j : ℕ) :
    ∑ k ∈ range A.n, cellFrac A B k j ≤ 1 := by
  have hd := dx_pos hB
  have hlt := edge_lt hB j
  unfold cellFrac cellOverlap
  rw [← sum_div, div_le_one hd]
  have : ∀ k ∈ range A.n, overlap (A.edge k) (A.edge (k+1)) (B.edge j) (B.edge (j+1))
      = clamp (B.edge j) (B.edge (j+1)) (A.edge (k+1)) - clamp (B.edge j) (B.edge (j+1)) (A.edge k) := by
    intro k _
    rw [overlap_comm]
    exact overlap_clamp hlt.le (edge_lt hA k).le
  rw [sum_congr rfl this, sum_range_sub (fun k => clamp (B.edge j) (B.edge (j+1)) (A.edge k))]
  have h1 : clamp (B.edge j) (B.edge (j+1)) (A.edge A.n) ≤ B.edge (j+1) := max_le hlt.le (min_le_left _ _)
  have h2 : B.edge j ≤ clamp (B.edge j) (B.edge (j+1)) (A.edge 0) := le_max_left _ _
  have := edge_succ B j
  linarith

/-- The input cell in which the left edge of output cell `j` falls, as computed. -/
noncomputable def pixOf (fused : Bool) (A B : Axis ℝ) (j : ℕ) : ℤ :=
  whichPix64 A.lo (dx64 A.lo A.size A.n) (ed fused B.lo B.size B.n j)

/-- The arguments of the Fortran routine. -/
noncomputable def axis64 (A B : Axis ℝ) : AxisArgs ℝ := mkAxis64 A.lo A.size A.n B.lo B.size B.n

theorem pixel64_unfold (fused : Bool) (A B : Axis ℝ) (j : ℕ) (buf : Buf ℝ) :
    pixel64 fused (axis64 A B) j buf
      = if pixOf fused A B j ≠ pixOf fused A B (j+1) then
          (List.range (len64 A B).toNat).map fun (i : ℕ) =>
            entryAcross64 fused A.lo (dx64 A.lo A.size A.n) A.n (ed fused B.lo B.size B.n j)
              (ed fused B.lo B.size B.n (j+1)) (pixOf fused A B j + i)
        else if pixOf fused A B j ≠ -1 then
          (List.range (len64 A B).toNat).map fun (i : ℕ) => entrySame A.n (pixOf fused A B j) i
        else buf := by
  unfold pixOf
  push_cast
  rfl

section
variable {A B : Axis ℝ} (hA : Resolved A.lo A.size A.n) (hB : Resolved B.lo B.size B.n)
  (hc : gridCond A B ≤ 2^41)
include hA hB hc

theorem sep : gridScale A B/2^49 ≤ B.dx/2^8 := by
  obtain ⟨s1, sA, sB, dA, dB, dA0, dB0, vA, vB⟩ := scale_facts hA hB
  unfold gridCond at hc
  have h1 : gridScale A B*(1/B.dx) ≤ 2^41 := by
    refine le_trans ?_ hc
    have : 0 < 1/A.dx := by positivity
    gcongr
    linarith
  rw [mul_one_div, div_le_iff₀ dB0] at h1
  linarith

theorem total_le {L : ℕ} (hL : (L:ℝ) ≤ 3/2*(B.dx/A.dx) + 3) :
    (L + B.dx/A.dx + 2)*(8*(gridScale A B/2^49)/B.dx) ≤ gridCond A B/2^43 := by
  obtain ⟨s1, sA, sB, dA, dB, dA0, dB0, vA, vB⟩ := scale_facts hA hB
  have hρ : 0 < B.dx/A.dx := by positivity
  have h1 : (L:ℝ) + B.dx/A.dx + 2 ≤ 5*(B.dx/A.dx + 1) := by linarith
  have h2 : 0 < gridCond A B := by unfold gridCond; positivity
  calc (L + B.dx/A.dx + 2)*(8*(gridScale A B/2^49)/B.dx)
      ≤ 5*(B.dx/A.dx + 1)*(8*(gridScale A B/2^49)/B.dx) := by gcongr
    _ = 40/2^49*gridCond A B := by unfold gridCond; field_simp; ring
    _ ≤ gridCond A B/2^43 := by linarith

theorem len_toNat : (((len64 A B).toNat : ℕ) : ℝ) ≤ 3/2*(B.dx/A.dx) + 3 := by
  have h1 := len64_pos hA hB
  have h2 : (((len64 A B).toNat : ℕ) : ℤ) = len64 A B := Int.toNat_of_nonneg (by omega)
  have h3 : (((len64 A B).toNat : ℕ) : ℝ) = ((len64 A B : ℤ) : ℝ) := by exact_mod_cast h2
  rw [h3]
  exact len64_le hA hB

/-- Overlaps with cells that the computed indices leave out. -/
theorem wz_small {j : ℕ} {z : ℤ} (h : overlap (A.lo + A.dx*z) (A.lo + A.dx*(z+1)) (B.edge j) (B.edge (j+1))
      ≤ 8*(gridScale A B/2^49)) :
    wz A.lo A.dx (B.edge j) (B.edge (j+1)) z ≤ 8*(gridScale A B/2^49)/B.dx := by
  obtain ⟨s1, sA, sB, dA, dB, dA0, dB0, vA, vB⟩ := scale_facts hA hB
  unfold wz
  have e : B.edge (j+1) - B.edge j = B.dx := by rw [edge_succ]; ring
  rw [e]
  gcongr

theorem small_left (fused : Bool) {j : ℕ} (hj : j < B.n) {z : ℤ} (h0 : 0 ≤ z) (hz : z < A.n)
    (h : z < pixOf fused A B j) :
    wz A.lo A.dx (B.edge j) (B.edge (j+1)) z ≤ 8*(gridScale A B/2^49)/B.dx := by
  obtain ⟨s1, -⟩ := scale_facts hA hB
  refine wz_small hA hB hc ((overlap_left (t := 3*(gridScale A B/2^49)) ?_ (by positivity)).trans (by linarith))
  have h1 := pix_left hA hB (edB_range hA hB fused (z := j) (by omega) (by omega)) (z := z+1) (by omega) (by omega)
    (by unfold pixOf at h; omega)
  have h2 := edB_near hA hB fused (z := j) (by omega) (by omega)
  rw [← B_edge hA hB, abs_le] at h2
  push_cast at h1
  linarith [h2.2]

theorem small_right (fused : Bool) {j : ℕ} (hj : j < B.n) {z : ℤ} (h0 : 0 ≤ z) (hz : z < A.n)
    (h : pixOf fused A B (j+1) < z) :
    wz A.lo A.dx (B.edge j) (B.edge (j+1)) z ≤ 8*(gridScale A B/2^49)/B.dx := by
  obtain ⟨s1, -⟩ := scale_facts hA hB
  refine wz_small hA hB hc ((overlap_right (t := 3*(gridScale A B/2^49)) ?_ (by positivity)).trans (by linarith))
  have h1 := pix_right hA hB (edB_range hA hB fused (z := (j+1 : ℕ)) (by omega) (by omega)) (z := z) (by omega) (by omega)
    (by unfold pixOf at h; omega)
  have h2 := edB_near hA hB fused (z := (j+1 : ℕ)) (by omega) (by omega)
  rw [← B_edge hA hB, abs_le] at h2
  linarith [h2.1]

theorem small_beyond (fused : Bool) {j : ℕ} (hj : j < B.n) {z : ℤ} (h0 : 0 ≤ z) (hz : z < A.n)
    (h : pixOf fused A B j + len64 A B ≤ z) :
    wz A.lo A.dx (B.edge j) (B.edge (j+1)) z ≤ 8*(gridScale A B/2^49)/B.dx := by
  obtain ⟨s1, -⟩ := scale_facts hA hB
  refine wz_small hA hB hc ((overlap_right (t := 4*(gridScale A B/2^49)) ?_ (by positivity)).trans (by linarith))
  have h1 := pix_beyond hA hB (edB_range hA hB fused (z := j) (by omega) (by omega)) (z := z) (by omega) (by omega)
    (by unfold pixOf at h; omega)
  have h2 := edB_near hA hB fused (z := j) (by omega) (by omega)
  rw [← B_edge hA hB, abs_le] at h2
  rw [edge_succ]
  linarith [h2.1]

/-- Both edges in one input cell. -/
theorem large_same (fused : Bool) {j : ℕ} (hj : j < B.n) {z : ℤ} (h0 : 0 ≤ z) (hz : z < A.n)
    (h1 : pixOf fused A B j = z) (h2 : pixOf fused A B (j+1) = z) :
    |1 - wz A.lo A.dx (B.edge j) (B.edge (j+1)) z| ≤ 8*(gridScale A B/2^49)/B.dx := by
  obtain ⟨s1, sA, sB, dA, dB, dA0, dB0, vA, vB⟩ := scale_facts hA hB
  have b1 := edB_near hA hB fused (z := j) (by omega) (by omega)
  have b2 := edB_near hA hB fused (z := (j+1 : ℕ)) (by omega) (by omega)
  rw [← B_edge hA hB, abs_le] at b1 b2
  have g1 := pix_left hA hB (edB_range hA hB fused (z := j) (by omega) (by omega)) (z := z) (by omega) (by omega)
    (by unfold pixOf at h1; omega)
  have g2 := pix_right hA hB (edB_range hA hB fused (z := (j+1 : ℕ)) (by omega) (by omega)) (z := z+1) (by omega) (by omega)
    (by unfold pixOf at h2; omega)
  push_cast at g2 b2
  have lo := overlap_ge (a := A.lo + A.dx*z) (b := A.lo + A.dx*(z+1)) (c := B.edge j) (d := B.edge (j+1))
    (t := 3*(gridScale A B/2^49)) (by linarith [b1.2]) (by linarith [b2.1]) (by positivity)
  have hi := overlap_le_right (a := A.lo + A.dx*z) (b := A.lo + A.dx*(z+1)) (edge_lt vB j).le
  unfold wz
  have e : B.edge (j+1) - B.edge j = B.dx := by rw [edge_succ]; ring
  rw [e] at lo hi ⊢
  set v := overlap (A.lo + A.dx*z) (A.lo + A.dx*(z+1)) (B.edge j) (B.edge (j+1))
  have e2 : 1 - v/B.dx = (B.dx - v)/B.dx := by field_simp
  rw [e2, abs_div, abs_of_pos dB0, abs_of_nonneg (by linarith)]
  gcongr
  linarith

theorem near_mk (fused : Bool) {j : ℕ} {p : ℤ} (e : ℕ → ℤ × ℝ) (w : ℤ → ℝ)
    (he : ∀ i : ℕ, (e i = (-1, 0) ∧ (0 ≤ p + i → p + i < A.n → w (p + i) = 0)) ∨
      (0 ≤ p + i ∧ p + i < A.n ∧ e i = (p + i, w (p + i)) ∧ 0 ≤ w (p + i)))
    (hin : ∀ z : ℤ, 0 ≤ z → z < A.n → p ≤ z → z < p + len64 A B →
      |w z - wz A.lo A.dx (B.edge j) (B.edge (j+1)) z| ≤ 8*(gridScale A B/2^49)/B.dx)
    (hout : ∀ z : ℤ, 0 ≤ z → z < A.n → (z < p ∨ p + len64 A B ≤ z) →
      wz A.lo A.dx (B.edge j) (B.edge (j+1)) z ≤ 8*(gridScale A B/2^49)/B.dx) :
    Near A.n (fun k => cellFrac A B k j) (gridCond A B/2^43) (len64 A B).toNat
      ((List.range (len64 A B).toNat).map e) := by
  obtain ⟨s1, sA, sB, dA, dB, dA0, dB0, vA, vB⟩ := scale_facts hA hB
  have hL : (((len64 A B).toNat : ℕ) : ℤ) = len64 A B := Int.toNat_of_nonneg (by have := len64_pos hA hB; omega)
  refine ⟨?_, ?_, ?_, ?_, fun k => cellFrac_nonneg vB k j, sum_cellFrac_le vA vB j⟩
  · intro x hx
    rw [List.mem_map] at hx
    obtain ⟨i, -, rfl⟩ := hx
    rcases he i with ⟨h, -⟩ | ⟨h1, h2, h, -⟩
    · rw [h]; exact Or.inl rfl
    · rw [h]; exact Or.inr ⟨h1, h2⟩
  · intro x hx
    rw [List.mem_map] at hx
    obtain ⟨i, -, rfl⟩ := hx
    rcases he i with ⟨h, -⟩ | ⟨h1, h2, h, h3⟩
    · rw [h]
    · rw [h]; exact h3
  · intro g F hg
    have hF : 0 ≤ F := (abs_nonneg _).trans (hg 0)
    refine (near_of_entries vA vB j (p := p) (L := (len64 A B).toNat) (τ := 8*(gridScale A B/2^49)/B.dx)
      (by positivity) e w ?_ ?_ ?_ g hg).trans ?_
    · intro i g
      rcases he i with ⟨h, h'⟩ | ⟨h1, h2, h, -⟩
      · rw [h, if_pos rfl]
        split_ifs with hr
        · rw [h' hr.1 hr.2, zero_mul]
        · rfl
      · rw [h, if_neg (by simp only; omega), if_pos ⟨h1, h2⟩]
    · rw [hL]; exact hin
    · rw [hL]; exact hout
    · exact mul_le_mul_of_nonneg_right (total_le hA hB hc (len_toNat hA hB hc)) hF
  · simp

/-- The weights of a cell, when the work arrays are written. -/
theorem pixel_near (fused : Bool) {j : ℕ} (hj : j < B.n)
    (hs : ¬ (pixOf fused A B j = -1 ∧ pixOf fused A B (j+1) = -1)) (buf : Buf ℝ) :
    Near A.n (fun k => cellFrac A B k j) (gridCond A B/2^43) (len64 A B).toNat
      (pixel64 fused (axis64 A B) j buf) := by
  have hsep := sep hA hB hc
  obtain ⟨s1, sA, sB, dA, dB, dA0, dB0, vA, vB⟩ := scale_facts hA hB
  have hlt := ed_lt hB fused (k := j) (l := j+1) (by omega) (by omega) (by omega)
  rw [pixel64_unfold]
  by_cases h : pixOf fused A B j ≠ pixOf fused A B (j+1)
  · rw [if_pos h]
    refine near_mk hA hB hc fused (p := pixOf fused A B j) _
      (w64 fused A (ed fused B.lo B.size B.n j) (ed fused B.lo B.size B.n (j+1))) ?_ ?_ ?_
    · intro i
      rcases entry64_spec hA fused hlt (pixOf fused A B j + i) with ⟨h1, h2, h3⟩ | ⟨h1, h2, h3⟩
      · exact Or.inl ⟨Prod.ext h1 h2, h3⟩
      · exact Or.inr ⟨h1, h2, h3, w64_nonneg fused hlt.le _⟩
    · intro z h0 hz _ _
      exact w64_near hA hB fused hj h0 hz (by linarith)
    · rintro z h0 hz (hh | hh)
      · exact small_left hA hB hc fused hj h0 hz hh
      · exact small_beyond hA hB hc fused hj h0 hz hh
  · rw [if_neg h]
    push Not at h
    have hp : pixOf fused A B j ≠ -1 := fun hc => hs ⟨hc, by rw [← h]; exact hc⟩
    rw [if_pos hp]
    refine near_mk hA hB hc fused (p := pixOf fused A B j) _ (fun z => if z = pixOf fused A B j then 1 else 0) ?_ ?_ ?_
    · intro i
      unfold entrySame
      simp only []
      split_ifs with hr hi hpi hpi
      · exact Or.inr ⟨hr.1, hr.2, rfl, by norm_num⟩
      · omega
      · omega
      · exact Or.inr ⟨hr.1, hr.2, rfl, le_refl _⟩
      · exact Or.inl ⟨rfl, fun a b => absurd ⟨a, b⟩ hr⟩
      · exact Or.inl ⟨rfl, fun a b => rfl⟩
    · intro z h0 hz _ _
      split_ifs with hzp
      · exact large_same hA hB hc fused hj h0 hz hzp.symm (by rw [← h]; exact hzp.symm)
      · rw [zero_sub, abs_neg, abs_of_nonneg (by rw [← Int.toNat_of_nonneg h0, ← cellFrac_wz]; exact cellFrac_nonneg vB _ _)]
        rcases lt_or_gt_of_ne hzp with hh | hh
        · exact small_left hA hB hc fused hj h0 hz hh
        · exact small_right hA hB hc fused hj h0 hz (by rw [← h]; exact hh)
    · rintro z h0 hz (hh | hh)
      · exact small_left hA hB hc fused hj h0 hz hh
      · exact small_beyond hA hB hc fused hj h0 hz hh

theorem pixOf_neg (fused : Bool) {j : ℕ} (h : pixOf fused A B j < 0) : ed fused B.lo B.size B.n j < A.lo := by
  by_contra hcc
  push Not at hcc
  have h1 : 0 ≤ F64.div (F64.sub (ed fused B.lo B.size B.n j) A.lo) (dx64 A.lo A.size A.n) :=
    fl_nonneg (div_nonneg (fl_nonneg (by linarith)) (dx64_pos hA).le)
  have := Int.floor_nonneg.mpr h1
  unfold pixOf whichPix64 at h
  omega

theorem edA_ge (fA : fl A.lo = A.lo) (fused : Bool) {z : ℤ} (h0 : 0 ≤ z) (hz : z ≤ A.n) :
    A.lo ≤ ed fused A.lo A.size A.n z := by
  have d0 := dx64_pos hA
  have hz0 : (0:ℝ) ≤ z := by exact_mod_cast h0
  unfold ed
  rw [real4_int (by rw [abs_of_nonneg h0]; have := hA.le; omega)]
  unfold madd F64.add F64.mul
  split_ifs
  · calc A.lo = fl A.lo := fA.symm
      _ ≤ _ := fl_mono (by nlinarith)
  · have := fl_nonneg (show 0 ≤ dx64 A.lo A.size A.n*z by positivity)
    calc A.lo = fl A.lo := fA.symm
      _ ≤ _ := fl_mono (by linarith)

/-- The state of the work arrays after output cell `j`. -/
def After (fused : Bool) (A B : Axis ℝ) (j : ℕ) (buf : Buf ℝ) : Prop :=
  Near A.n (fun k => cellFrac A B k j) (gridCond A B/2^43) (len64 A B).toNat buf ∧
    (pixOf fused A B (j+1) = -1 → ∀ e ∈ buf, e.2 = 0)

theorem after_fresh (fA : fl A.lo = A.lo) (fused : Bool) {j : ℕ} (hj : j < B.n)
    (hs : ¬ (pixOf fused A B j = -1 ∧ pixOf fused A B (j+1) = -1)) (buf : Buf ℝ) :
    After fused A B j (pixel64 fused (axis64 A B) j buf) := by
  refine ⟨pixel_near hA hB hc fused hj hs buf, ?_⟩
  intro hp e he
  have hne : pixOf fused A B j ≠ pixOf fused A B (j+1) := fun h => hs ⟨by rw [h]; exact hp, hp⟩
  rw [pixel64_unfold, if_pos hne, List.mem_map] at he
  obtain ⟨i, -, rfl⟩ := he
  have hlt := ed_lt hB fused (k := j) (l := j+1) (by omega) (by omega) (by omega)
  have hneg := pixOf_neg hA hB hc fused (j := j+1) (by omega)
  push_cast at hneg
  rcases entry64_spec hA fused hlt (pixOf fused A B j + i) with ⟨h1, h2, h3⟩ | ⟨h1, h2, h3⟩
  · exact h2
  · rw [h3]
    simp only [w64]
    have g1 := edA_ge hA hB hc fA fused h1 h2.le
    have : overlap (ed fused A.lo A.size A.n (pixOf fused A B j + i)) (ed fused A.lo A.size A.n (pixOf fused A B j + i + 1))
        (ed fused B.lo B.size B.n j) (ed fused B.lo B.size B.n (j+1)) = 0 :=
      le_antisymm (overlap_right (by linarith) le_rfl) (overlap_nonneg _ _ _ _)
    rw [this, fl_zero, zero_div, fl_zero]

theorem after_step (fA : fl A.lo = A.lo) (fused : Bool) {j : ℕ} (hj : j + 1 < B.n) (buf : Buf ℝ)
    (h : After fused A B j buf) : After fused A B (j+1) (pixel64 fused (axis64 A B) (j+1) buf) := by
  by_cases hs : pixOf fused A B (j+1) = -1 ∧ pixOf fused A B (j+1+1) = -1
  swap
  · exact after_fresh hA hB hc fA fused hj hs buf
  obtain ⟨s1, sA, sB, dA, dB, dA0, dB0, vA, vB⟩ := scale_facts hA hB
  rw [pixel64_unfold, if_neg (by simp [hs.1, hs.2]), if_neg (by simp [hs.1])]
  have hz := h.2 hs.1
  refine ⟨⟨h.1.inR, h.1.nonneg, ?_, h.1.len, fun k => cellFrac_nonneg vB k _, sum_cellFrac_le vA vB _⟩, fun _ => hz⟩
  intro g F hg
  have hF : 0 ≤ F := (abs_nonneg _).trans (hg 0)
  have e0 : bufSum buf g = bufSum ((List.range 0).map fun _ => ((-1 : ℤ), (0:ℝ))) g := by
    unfold bufSum
    rw [List.range_zero, List.map_nil, List.map_nil, List.sum_nil]
    apply List.sum_eq_zero
    intro x hx
    rw [List.mem_map] at hx
    obtain ⟨e, he, rfl⟩ := hx
    rw [hz e he, zero_mul, ite_self]
  rw [e0]
  refine (near_of_entries vA vB (j+1) (p := 0) (L := 0) (τ := 8*(gridScale A B/2^49)/B.dx) (by positivity)
    (fun _ => ((-1 : ℤ), (0:ℝ))) (fun _ => 0) (by intro i g; simp) (by intro z; omega) ?_ g hg).trans ?_
  · intro z h0 hz _
    exact small_right hA hB hc fused hj h0 hz (by omega)
  · refine mul_le_mul_of_nonneg_right (total_le hA hB hc (L := 0) ?_) hF
    push_cast
    positivity

/-- The first output cell. -/
theorem first_fresh (fB : fl B.lo = B.lo) (fused : Bool) (h : FirstCellClearly A B) :
    ¬ (pixOf fused A B 0 = -1 ∧ pixOf fused A B (0+1) = -1) := by
  obtain ⟨s1, sA, sB, dA, dB, dA0, dB0, vA, vB⟩ := scale_facts hA hB
  have n1 := hB.pos
  have e0 : ed fused B.lo B.size B.n (0 : ℕ) = B.lo := by
    unfold ed
    rw [real4_int (by norm_num)]
    unfold madd F64.add F64.mul
    push_cast
    rw [mul_zero, fl_zero, add_zero, fB, ite_self]
  rintro ⟨h1, h2⟩
  rcases h with h | h | h
  · have := pixOf_neg hA hB hc fused (j := 0) (by omega)
    rw [e0] at this
    linarith
  · have g := pixOf_neg hA hB hc fused (j := 0+1) (by omega)
    have b := edB_near hA hB fused (z := (0+1 : ℕ)) (by omega) (by omega)
    rw [abs_le] at b
    push_cast at b g
    rw [mul_one] at b
    linarith [b.1]
  · have hE := edB_range hA hB fused (z := (0 : ℕ)) (by omega) (by omega)
    have q := quot_near hA hB hE
    have d0 := dx64_pos hA
    have m := dx_err_mul hA (k := 1) (by norm_num) (res_n hA).1
    change |_ - A.dx*1| ≤ _ at m
    rw [mul_one, mul_one] at m
    have ho := abs_nonneg A.lo
    have hb := res_b hA
    unfold pixOf whichPix64 at h1
    rw [e0] at h1 q
    have g1 := (Int.floor_eq_iff.mp h1).1
    push_cast at g1
    have g2 := mul_le_mul_of_nonneg_right g1 d0.le
    rw [abs_le] at q m
    linarith [q.2, m.2]

theorem after_all (fA : fl A.lo = A.lo) (fB : fl B.lo = B.lo) (fused : Bool) (h : FirstCellClearly A B) {j : ℕ}
    (hj : j < B.n) (buf : Buf ℝ) (hbuf : j = 0 ∨ After fused A B (j-1) buf) :
    After fused A B j (pixel64 fused (axis64 A B) j buf) := by
  cases j with
  | zero => exact after_fresh hA hB hc fA fused hj (first_fresh hA hB hc fB fused h) buf
  | succ j => exact after_step hA hB hc fA fused hj buf (hbuf.resolve_left (by omega))

end

/-! ## Accumulation -/

theorem bufSum_one_nonneg {buf : Buf ℝ} (h : ∀ e ∈ buf, 0 ≤ e.2) : 0 ≤ bufSum buf fun _ => 1 := by
  unfold bufSum
  apply List.sum_nonneg
  intro x hx
  rw [List.mem_map] at hx
  obtain ⟨e, he, rfl⟩ := hx
  simp only [mul_one]
  split_ifs
  · exact le_rfl
  · exact h e he

theorem accum64_err (fused : Bool) (f1 : List ℝ) {F G s : ℝ} (hf : ∀ v ∈ f1, |v| ≤ F) (hF : 0 ≤ F) (hG0 : 0 ≤ G)
    (hs : 4*G/2^53 + 3*(2:ℝ)^(-1075 : ℤ) ≤ s) (buf : Buf ℝ) (hin : InR f1.length buf) (hnn : ∀ e ∈ buf, 0 ≤ e.2)
    (acc : ℝ) (hG : |acc| + bufSum buf (fun _ => 1)*F + buf.length*s ≤ G) :
    ∃ v, accum64 fused f1 acc buf = some v ∧
      |v - (acc + bufSum buf fun p => f1.getD p.toNat 0)| ≤ buf.length*s := by
  have hη := two_zpow_pos (-1075)
  induction buf generalizing acc with
  | nil => exact ⟨acc, rfl, by simp [bufSum]⟩
  | cons e buf ih =>
    obtain ⟨p, w⟩ := e
    have hin' : InR f1.length buf := fun e he => hin e (List.mem_cons_of_mem _ he)
    have hnn' : ∀ e ∈ buf, 0 ≤ e.2 := fun e he => hnn e (List.mem_cons_of_mem _ he)
    have hW := bufSum_one_nonneg hnn'
    have hw : 0 ≤ w := hnn _ List.mem_cons_self
    rw [bufSum_cons] at hG ⊢
    rw [List.length_cons] at hG ⊢
    push_cast at hG ⊢
    rw [accum64]
    have ha := abs_nonneg acc
    have hs0 : 0 ≤ s := le_trans (by positivity) hs
    by_cases hp : p = -1
    · rw [if_neg (by simpa using hp)]
      rw [if_pos hp, zero_add] at hG
      rw [if_pos hp, zero_add]
      obtain ⟨v, e1, e2⟩ := ih hin' hnn' acc (by linarith)
      exact ⟨v, e1, by linarith⟩
    · rw [if_pos hp]
      rw [if_neg hp, mul_one] at hG
      rw [if_neg hp]
      obtain ⟨h0, h1⟩ := (hin _ List.mem_cons_self).resolve_left hp
      simp only at h0 h1
      have hlt : p.toNat < f1.length := by omega
      unfold readAt
      rw [if_pos h0, List.getElem?_eq_getElem hlt]
      simp only []
      set x := f1[p.toNat]
      have hx : |x| ≤ F := hf _ (List.getElem_mem hlt)
      have hgx : f1.getD p.toNat 0 = x := by
        rw [List.getD_eq_getElem?_getD, List.getElem?_eq_getElem hlt, Option.getD_some]
      have hls : 0 ≤ (buf.length:ℝ)*s := by positivity
      have hWF : 0 ≤ bufSum buf (fun _ => 1)*F := by positivity
      have hwF : 0 ≤ w*F := by positivity
      have hwx : |w*x| ≤ w*F := by rw [abs_mul, abs_of_nonneg hw]; gcongr
      have m := madd_err fused (a := acc) (b := w) (c := x) (p := G) (q := G) (by linarith) (by linarith)
      have m' : |madd fused acc w x - (acc + w*x)| ≤ s := by
        refine m.trans (le_trans (le_of_eq ?_) hs)
        ring
      obtain ⟨v, e1, e2⟩ := ih hin' hnn' (madd fused acc w x) (by
        have : madd fused acc w x = (madd fused acc w x - (acc + w*x)) + (acc + w*x) := by ring
        have h2 : |madd fused acc w x| ≤ s + (|acc| + w*F) := by
          rw [this]
          exact (abs_add_le _ _).trans (add_le_add m' ((abs_add_le _ _).trans (by linarith)))
        linarith)
      refine ⟨v, e1, ?_⟩
      rw [hgx]
      have : v - (acc + (w*x + bufSum buf fun p => f1.getD p.toNat 0))
          = (v - (madd fused acc w x + bufSum buf fun p => f1.getD p.toNat 0)) + (madd fused acc w x - (acc + w*x)) := by
        ring
      rw [this]
      refine (abs_add_le _ _).trans ?_
      linarith

theorem tiny_facts : (2:ℝ)^(-1075 : ℤ) = (2:ℝ)^(-1000 : ℤ)/2^75 ∧ 0 < (2:ℝ)^(-1000 : ℤ) := by
  refine ⟨?_, two_zpow_pos _⟩
  rw [eq_div_iff (by norm_num), show (2:ℝ)^75 = (2:ℝ)^(75 : ℤ) by norm_num, ← zpow_add₀ (by norm_num)]
  norm_num

theorem near_weight {n : ℕ} {c : ℕ → ℝ} {T : ℝ} {N : ℕ} {buf : Buf ℝ} (h : Near n c T N buf) (hT : T ≤ 1/2) :
    bufSum buf (fun _ => 1) ≤ 3/2 := by
  have h1 := h.close (fun _ => 1) 1 (by intro z; simp)
  simp only [mul_one] at h1
  rw [abs_le] at h1
  linarith [h1.2, h.csum]

/-- The value computed with such work arrays. -/
theorem near_value (fused : Bool) (f1 : List ℝ) {F : ℝ} (hf : ∀ v ∈ f1, |v| ≤ F) (hF : 0 ≤ F)
    {c : ℕ → ℝ} {T : ℝ} {N : ℕ} {buf : Buf ℝ} (h : Near f1.length c T N buf) (hT : T ≤ 1/2) (hN : N ≤ 2^46) :
    ∃ v, accum64 fused f1 0 buf = some v ∧
      |v - ∑ k ∈ range f1.length, c k*f1.getD k 0| ≤ (T + N/2^50)*F + (2:ℝ)^(-1000 : ℤ) := by
  obtain ⟨t1, t2⟩ := tiny_facts
  have hW := near_weight h hT
  have hW0 := bufSum_one_nonneg h.nonneg
  set x := (2:ℝ)^(-1000 : ℤ) with hx
  set η := (2:ℝ)^(-1075 : ℤ) with hη
  have hl : (buf.length : ℝ) ≤ N := by exact_mod_cast h.len
  have hN' : (N:ℝ) ≤ 2^46 := by exact_mod_cast hN
  set s := 4*(2*F + x)/2^53 + 3*η with hs
  have hs0 : 0 ≤ s := by rw [hs, t1]; positivity
  have hls : (buf.length : ℝ)*s ≤ N*s := by gcongr
  have hNs : (N:ℝ)*s ≤ 2^46*s := by gcongr
  have hWF : bufSum buf (fun _ => 1)*F ≤ 3/2*F := by gcongr
  obtain ⟨v, e1, e2⟩ := accum64_err fused f1 hf hF (G := 2*F + x) (s := s) (by positivity) (le_of_eq hs.symm) buf h.inR h.nonneg 0 (by
    rw [abs_zero]
    have : (2:ℝ)^46*s = (2*F + x)/2^5 + 3*x/2^29 := by rw [hs, t1]; ring
    linarith)
  refine ⟨v, e1, ?_⟩
  rw [zero_add] at e2
  have h3 := h.close (fun p => f1.getD p.toNat 0) F (by
    intro z
    simp only [List.getD_eq_getElem?_getD]
    cases hz : f1[z.toNat]? with
    | none => simpa using hF
    | some y => exact hf y (List.mem_of_getElem? hz))
  simp only [Int.toNat_natCast] at h3
  have e3 : v - ∑ k ∈ range f1.length, c k*f1.getD k 0
      = (v - bufSum buf fun p => f1.getD p.toNat 0)
        + ((bufSum buf fun p => f1.getD p.toNat 0) - ∑ k ∈ range f1.length, c k*f1.getD k 0) := by ring
  rw [e3]
  refine (abs_add_le _ _).trans ?_
  have h4 : (N:ℝ)*s = N/2^50*F + N*(4*x/2^53 + 3*x/2^75) := by rw [hs, t1]; ring
  have h5 : (N:ℝ)*(4*x/2^53 + 3*x/2^75) ≤ 2^46*(4*x/2^53 + 3*x/2^75) := by gcongr
  linarith

/-! ## Products -/

theorem list_sum_diff {α : Type} (l : List α) (a b c : α → ℝ) (h : ∀ x ∈ l, |a x - b x| ≤ c x) :
    |(l.map a).sum - (l.map b).sum| ≤ (l.map c).sum := by
  induction l with
  | nil => simp
  | cons x l ih =>
    simp only [List.map_cons, List.sum_cons]
    have h1 := h x List.mem_cons_self
    have h2 := ih fun y hy => h y (List.mem_cons_of_mem _ hy)
    have e : a x + (l.map a).sum - (b x + (l.map b).sum) = (a x - b x) + ((l.map a).sum - (l.map b).sum) := by ring
    rw [e]
    exact (abs_add_le _ _).trans (add_le_add h1 h2)

theorem list_sum_affine {α : Type} (l : List α) (a : α → ℝ) (r t : ℝ) :
    (l.map fun x => r*a x + t).sum = r*(l.map a).sum + l.length*t := by
  induction l with
  | nil => simp
  | cons x l ih => simp only [List.map_cons, List.sum_cons, ih, List.length_cons]; push_cast; ring

/-- All pairs of entries. -/
def pairs (xb yb : Buf ℝ) : List ((ℤ × ℝ) × (ℤ × ℝ)) := xb.flatMap fun (x : ℤ × ℝ) => yb.map fun (y : ℤ × ℝ) => (x, y)

theorem pairs_length (xb yb : Buf ℝ) : (pairs xb yb).length = xb.length*yb.length := by
  unfold pairs
  induction xb with
  | nil => simp
  | cons x xb ih => rw [List.flatMap_cons, List.length_append, ih, List.length_map, List.length_cons]; ring

theorem mem_pairs {xb yb : Buf ℝ} {q : (ℤ × ℝ) × (ℤ × ℝ)} (h : q ∈ pairs xb yb) : q.1 ∈ xb ∧ q.2 ∈ yb := by
  unfold pairs at h
  rw [List.mem_flatMap] at h
  obtain ⟨x, hx, h⟩ := h
  rw [List.mem_map] at h
  obtain ⟨y, hy, rfl⟩ := h
  exact ⟨hx, hy⟩

theorem prod64_pairs (m : ℕ) (xb yb : Buf ℝ) : prod64 m xb yb = (pairs xb yb).map fun q =>
    ((if q.1.1 ≠ -1 ∧ q.2.1 ≠ -1 then q.2.1 + m*q.1.1 else -1 : ℤ), F64.mul q.1.2 q.2.2) := by
  unfold prod64 pairs
  rw [List.map_flatMap]
  simp only [List.map_map]
  rfl

theorem prod2_pairs (m : ℕ) (xb yb : Buf ℝ) : prod2 m xb yb = (pairs xb yb).map fun q =>
    ((if q.1.1 ≠ -1 ∧ q.2.1 ≠ -1 then q.2.1 + m*q.1.1 else -1 : ℤ), q.1.2*q.2.2) := by
  unfold prod2 pairs
  rw [List.map_flatMap]
  simp only [List.map_map]
  rfl

theorem prod_round (m : ℕ) {xb yb : Buf ℝ} (hx : ∀ e ∈ xb, 0 ≤ e.2) (hy : ∀ e ∈ yb, 0 ≤ e.2) (g : ℤ → ℝ) {F : ℝ}
    (hg : ∀ z, |g z| ≤ F) :
    |bufSum (prod64 m xb yb) g - bufSum (prod2 m xb yb) g|
      ≤ F/2^53*bufSum (prod2 m xb yb) (fun _ => 1) + (xb.length*yb.length : ℕ)*((2:ℝ)^(-1075 : ℤ)*F) := by
  have hF : 0 ≤ F := (abs_nonneg _).trans (hg 0)
  have hη := two_zpow_pos (-1075)
  rw [prod64_pairs, prod2_pairs]
  unfold bufSum
  simp only [List.map_map]
  rw [← pairs_length, ← list_sum_affine]
  apply list_sum_diff
  intro q hq
  obtain ⟨h1, h2⟩ := mem_pairs hq
  have h1 := hx _ h1
  have h2 := hy _ h2
  simp only [Function.comp, mul_one]
  generalize (if q.1.1 ≠ -1 ∧ q.2.1 ≠ -1 then q.2.1 + m*q.1.1 else -1 : ℤ) = z
  split_ifs
  · rw [sub_zero, abs_zero]; positivity
  · unfold F64.mul
    rw [← sub_mul, abs_mul, abs_sub_comm]
    have h3 := fl_err_abs (q.1.2*q.2.2)
    rw [abs_of_nonneg (show 0 ≤ q.1.2*q.2.2 by positivity)] at h3
    calc |q.1.2*q.2.2 - fl (q.1.2*q.2.2)| * |g z|
        ≤ (q.1.2*q.2.2/2^53 + (2:ℝ)^(-1075 : ℤ))*F := mul_le_mul h3 (hg _) (abs_nonneg _) (by positivity)
      _ = _ := by ring

theorem near_prod {n m : ℕ} {cx cy : ℕ → ℝ} {Tx Ty : ℝ} {Nx Ny : ℕ} {xb yb : Buf ℝ} (hx : Near n cx Tx Nx xb)
    (hy : Near m cy Ty Ny yb) (hTx : Tx ≤ 1/2) (hTy : Ty ≤ 1/2) (hTx0 : 0 ≤ Tx) (hTy0 : 0 ≤ Ty) (hN : Nx*Ny ≤ 2^46) :
    Near (n*m) (fun q => cx (q/m)*cy (q%m)) (3/2*Tx + Ty + 4/2^53) (Nx*Ny) (prod64 m xb yb) := by
  obtain ⟨t1, t2⟩ := tiny_facts
  have hWx := near_weight hx hTx
  have hWy := near_weight hy hTy
  have hWx0 := bufSum_one_nonneg hx.nonneg
  have hWy0 := bufSum_one_nonneg hy.nonneg
  have block : ∀ g : ℕ → ℝ, ∑ q ∈ range (n*m), cx (q/m)*cy (q%m)*g q
      = ∑ k ∈ range n, cx k*∑ l ∈ range m, cy l*g (k*m + l) := by
    intro g
    rw [sum_mul_block]
    apply sum_congr rfl
    intro k _
    rw [mul_sum]
    apply sum_congr rfl
    intro l hl
    rw [mem_range] at hl
    have hm : 0 < m := by omega
    rw [show (k*m + l)/m = k by
        rw [Nat.mul_comm, Nat.mul_add_div hm, Nat.div_eq_of_lt hl, Nat.add_zero],
      show (k*m + l)%m = l by rw [Nat.mul_comm, Nat.mul_add_mod, Nat.mod_eq_of_lt hl]]
    ring
  refine ⟨?_, ?_, ?_, ?_, fun q => mul_nonneg (hx.cnonneg _) (hy.cnonneg _), ?_⟩
  · have := prod2_InR hx.inR hy.inR
    rw [prod2_pairs] at this
    rw [prod64_pairs]
    intro e he
    rw [List.mem_map] at he
    obtain ⟨q, hq, rfl⟩ := he
    have t := this _ (List.mem_map_of_mem (f := fun q : (ℤ × ℝ) × (ℤ × ℝ) =>
      ((if q.1.1 ≠ -1 ∧ q.2.1 ≠ -1 then q.2.1 + m*q.1.1 else -1 : ℤ), q.1.2*q.2.2)) hq)
    exact t
  · rw [prod64_pairs]
    intro e he
    rw [List.mem_map] at he
    obtain ⟨q, hq, rfl⟩ := he
    obtain ⟨h1, h2⟩ := mem_pairs hq
    exact fl_nonneg (mul_nonneg (hx.nonneg _ h1) (hy.nonneg _ h2))
  · intro g F hg
    have hF : 0 ≤ F := (abs_nonneg _).trans (hg 0)
    have r := prod_round m hx.nonneg hy.nonneg g hg
    have hone : bufSum (prod2 m xb yb) (fun _ => 1) = bufSum xb (fun _ => 1)*bufSum yb (fun _ => 1) := by
      rw [prod2_sum hx.inR hy.inR]
      generalize bufSum yb (fun _ => (1:ℝ)) = Y
      clear hx hWx hWx0 r
      induction xb with
      | nil => simp [bufSum]
      | cons e xb ih =>
        rw [bufSum_cons, bufSum_cons, ih]
        split_ifs <;> ring
    rw [hone] at r
    rw [prod2_sum hx.inR hy.inR] at r
    set Y : ℤ → ℝ := fun p => bufSum yb fun q => g (q + m*p) with hY
    set Wx := bufSum xb fun _ => (1:ℝ)
    set Wy := bufSum yb fun _ => (1:ℝ)
    have hYb : ∀ p, |Y p| ≤ 3/2*F := by
      intro p
      have h1 : |Y p| ≤ Wy*F := by
        have := list_sum_diff yb (fun e => if e.1 = -1 then 0 else e.2*g (e.1 + m*p)) (fun _ => 0)
          (fun e => F*(if e.1 = -1 then 0 else e.2*1) + 0) (by
            intro e he
            have := hy.nonneg e he
            split_ifs
            · simp
            · rw [sub_zero, abs_mul, abs_of_nonneg this, mul_one, add_zero, mul_comm F]
              gcongr
              exact hg _)
        rw [list_sum_affine] at this
        simp only [List.map_const', List.sum_replicate, smul_zero, sub_zero, mul_zero, add_zero] at this
        rw [mul_comm]
        exact this
      refine h1.trans ?_
      gcongr
    have c1 := hx.close Y (3/2*F) hYb
    have c2 : |∑ k ∈ range n, cx k*Y k - ∑ k ∈ range n, cx k*∑ l ∈ range m, cy l*g ((k*m + l : ℕ) : ℤ)| ≤ Ty*F := by
      rw [← sum_sub_distrib]
      refine (abs_sum_le_sum_abs _ _).trans ?_
      have : ∀ k ∈ range n, |cx k*Y k - cx k*∑ l ∈ range m, cy l*g ((k*m + l : ℕ) : ℤ)| ≤ cx k*(Ty*F) := by
        intro k _
        rw [← mul_sub, abs_mul, abs_of_nonneg (hx.cnonneg k)]
        refine mul_le_mul_of_nonneg_left ?_ (hx.cnonneg k)
        have := hy.close (fun q => g (q + m*k)) F (fun z => hg _)
        refine le_trans (le_of_eq ?_) this
        congr 2
        apply sum_congr rfl
        intro l _
        congr 2
        push_cast
        ring
      refine (sum_le_sum this).trans ?_
      rw [← sum_mul]
      have h0 : 0 ≤ Ty*F := by positivity
      nlinarith [hx.csum]
    rw [block fun q => g (q : ℤ)]
    set S0 := ∑ k ∈ range n, cx k*∑ l ∈ range m, cy l*g ((k*m + l : ℕ) : ℤ)
    have e : bufSum (prod64 m xb yb) g - S0 = (bufSum (prod64 m xb yb) g - bufSum xb Y)
        + ((bufSum xb Y - ∑ k ∈ range n, cx k*Y k) + (∑ k ∈ range n, cx k*Y k - S0)) := by ring
    rw [e]
    refine (abs_add_le _ _).trans ?_
    refine (add_le_add r ((abs_add_le _ _).trans (add_le_add c1 c2))).trans ?_
    have hlen : (((xb.length*yb.length : ℕ)) : ℝ) ≤ 2^46 := by
      have : xb.length*yb.length ≤ 2^46 := le_trans (Nat.mul_le_mul hx.len hy.len) hN
      have h2 : (((xb.length*yb.length : ℕ)) : ℝ) ≤ ((2^46 : ℕ) : ℝ) := Nat.cast_le.mpr this
      refine h2.trans (le_of_eq ?_)
      norm_num
    generalize (((xb.length*yb.length : ℕ)) : ℝ) = L at hlen ⊢
    have l1 : L*((2:ℝ)^(-1075 : ℤ)*F) ≤ 1/2^53*F := by
      have hη : (2:ℝ)^(-1075 : ℤ) ≤ 1/2^100 := by
        have : (2:ℝ)^(-1075 : ℤ) ≤ (2:ℝ)^(-100 : ℤ) := zpow_le_zpow_right₀ (by norm_num) (by norm_num)
        refine this.trans (by norm_num)
      have h0 := two_zpow_pos (-1075)
      have h1 : (2:ℝ)^(-1075 : ℤ)*F ≤ 1/2^100*F := mul_le_mul_of_nonneg_right hη hF
      have h2 : L*((2:ℝ)^(-1075 : ℤ)*F) ≤ 2^46*(1/2^100*F) :=
        mul_le_mul hlen h1 (mul_nonneg h0.le hF) (by norm_num)
      linarith
    have l2 : F/2^53*(Wx*Wy) ≤ F/2^53*(9/4) := by
      have : Wx*Wy ≤ 3/2*(3/2) := by gcongr
      gcongr
      linarith
    have : 0 ≤ F/2^53 := by positivity
    linarith
  · rw [prod64_pairs, List.length_map, pairs_length]
    exact Nat.mul_le_mul hx.len hy.len
  · have := block fun _ => 1
    simp only [mul_one] at this
    rw [this, ← sum_mul]
    have h1 := hx.csum
    have h2 := hy.csum
    have h3 : 0 ≤ ∑ k ∈ range n, cx k := sum_nonneg fun k _ => hx.cnonneg k
    have h4 : 0 ≤ ∑ k ∈ range m, cy k := sum_nonneg fun k _ => hy.cnonneg k
    nlinarith

end Magpie.Remap64
