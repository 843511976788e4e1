import Verif.Model.Means64
import Verif.Proof.Conversions64

/-!
# Error bounds for sums in any order, and for quotients of sums
-/

set_option linter.unusedSimpArgs false
set_option linter.unusedVariables false

namespace Magpie.Means64
open Magpie Magpie.F64 Magpie.Spec

/-- `(1 + 2^-53)^k - 1`. -/
noncomputable def gam (k : ℕ) : ℝ := (1 + 1/2^53)^k - 1

theorem gam_zero : gam 0 = 0 := by simp [gam]

theorem gam_nonneg (k : ℕ) : 0 ≤ gam k := by
  unfold gam
  have : (1:ℝ) ≤ (1 + 1/2^53)^k := one_le_pow₀ (by norm_num)
  linarith

theorem gam_mono {k l : ℕ} (h : k ≤ l) : gam k ≤ gam l := by
  unfold gam
  have : (1 + 1/2^53 : ℝ)^k ≤ (1 + 1/2^53)^l := pow_le_pow_right₀ (by norm_num) h
  linarith

theorem gam_add (k l : ℕ) : gam (k+l) = gam k + gam l + gam k*gam l := by
  unfold gam
  rw [pow_add]; ring

theorem gam_one : gam 1 = 1/2^53 := by unfold gam; ring

theorem gam_le {k : ℕ} (h : k ≤ 2^43) : gam k ≤ k/2^53*(1 + 1/2^10) := by
  have key : ∀ k : ℕ, (k:ℝ)/2^53 ≤ 1 → (1 + 1/2^53 : ℝ)^k ≤ 1 + k/2^53 + (k/2^53)^2 := by
    intro k
    induction k with
    | zero => intro _; norm_num
    | succ k ih =>
      intro h
      push_cast at h ⊢
      have hk0 : (0:ℝ) ≤ k := Nat.cast_nonneg k
      have hk : (k:ℝ)/2^53 ≤ 1 := by
        refine le_trans ?_ h
        gcongr; linarith
      have := ih hk
      rw [pow_succ]
      set u : ℝ := 1/2^53 with hu
      have hu0 : 0 < u := by positivity
      have e1 : (k:ℝ)/2^53 = k*u := by rw [hu]; ring
      have e2 : ((k:ℝ)+1)/2^53 = (k+1)*u := by rw [hu]; ring
      rw [e1] at this hk
      rw [e2]
      have h1 : (1 + u)^k*(1+u) ≤ (1 + k*u + (k*u)^2)*(1+u) := mul_le_mul_of_nonneg_right this (by linarith)
      have h2 : (k:ℝ)*u*(k*u*u) ≤ 1*(k*u*u) := mul_le_mul_of_nonneg_right hk (by positivity)
      nlinarith [mul_nonneg hk0 (mul_nonneg hu0.le hu0.le), mul_pos hu0 hu0]
  have hk : (k:ℝ) ≤ 2^43 := by exact_mod_cast h
  have hk0 : (0:ℝ) ≤ k := Nat.cast_nonneg k
  have hx : (k:ℝ)/2^53 ≤ 1/2^10 := by
    rw [div_le_div_iff₀ (by norm_num) (by norm_num)]
    calc (k:ℝ)*2^10 ≤ 2^43*2^10 := by gcongr
      _ = _ := by norm_num
  have := key k (hx.trans (by norm_num))
  unfold gam
  have h0 : 0 ≤ (k:ℝ)/2^53 := by positivity
  have : ((k:ℝ)/2^53)^2 ≤ (k:ℝ)/2^53*(1/2^10) := by rw [sq]; exact mul_le_mul_of_nonneg_left hx h0
  linarith

/-- `y` is `x` up to `k` roundings. -/
def Rel (k : ℕ) (y x : ℝ) : Prop := |y - x| ≤ gam k*|x|

theorem Rel.refl (x : ℝ) : Rel 0 x x := by unfold Rel; simp [gam_zero]

theorem Rel.mono {k l : ℕ} {x y : ℝ} (h : Rel k y x) (hkl : k ≤ l) : Rel l y x :=
  h.trans (mul_le_mul_of_nonneg_right (gam_mono hkl) (abs_nonneg _))

theorem Rel.abs_le {k : ℕ} {x y : ℝ} (h : Rel k y x) : |y| ≤ (1 + gam k)*|x| := by
  have := abs_sub_abs_le_abs_sub y x
  unfold Rel at h
  linarith

theorem Rel.trans {k l : ℕ} {x y z : ℝ} (h : Rel k y x) (h' : Rel l z y) : Rel (k+l) z x := by
  have h1 := h.abs_le
  have g := gam_nonneg l
  unfold Rel at *
  have : |z - x| ≤ |z - y| + |y - x| := abs_sub_le _ _ _
  rw [gam_add]
  nlinarith [mul_le_mul_of_nonneg_left h1 g]

theorem Rel.mul {k l : ℕ} {x y x' y' : ℝ} (h : Rel k x' x) (h' : Rel l y' y) : Rel (k+l) (x'*y') (x*y) := by
  have g := gam_nonneg l
  have g' := gam_nonneg k
  have h1 := h.abs_le
  unfold Rel at *
  have e : x'*y' - x*y = x'*(y' - y) + (x' - x)*y := by ring
  rw [e, gam_add, abs_mul x y]
  refine (abs_add_le _ _).trans ?_
  rw [abs_mul, abs_mul]
  have a1 : |x'| * |y' - y| ≤ ((1 + gam k)*|x|)*(gam l*|y|) := mul_le_mul h1 h' (abs_nonneg _) (by positivity)
  have a2 : |x' - x| * |y| ≤ gam k * |x| * |y| := mul_le_mul_of_nonneg_right h (abs_nonneg _)
  nlinarith

/-- Zero, or large enough to be rounded with full precision. -/
def Normal (x : ℝ) : Prop := x = 0 ∨ (2:ℝ)^(-1022 : ℤ) ≤ |x|

theorem rel_fl {x : ℝ} (h : Normal x) : Rel 1 (fl x) x := by
  unfold Rel
  rw [gam_one]
  rcases h with rfl | h
  · rw [fl_zero]; simp
  · rw [abs_sub_comm]
    have := fl_err h
    linarith

/-- A multiple of the least positive binary64 number. -/
def Grid (x : ℝ) : Prop := ∃ m : ℤ, x = m*(2:ℝ)^(-1074 : ℤ)

theorem grid_of {m e : ℤ} (he : -1074 ≤ e) : Grid ((m:ℝ)*(2:ℝ)^e) := by
  obtain ⟨n, hn⟩ : ∃ n : ℕ, e = n + (-1074) := ⟨(e + 1074).toNat, by omega⟩
  refine ⟨m*2^n, ?_⟩
  rw [hn, zpow_add₀ (by norm_num), zpow_natCast]
  push_cast; ring

theorem grid_fl (x : ℝ) : Grid (fl x) := by
  obtain ⟨m, -, h⟩ := fl_form x
  rw [h]
  exact grid_of (ulp_ge x)

theorem grid_double {x : ℝ} (h : IsDouble x) : Grid x := by
  obtain ⟨m, e, -, he, -, rfl⟩ := h
  exact grid_of he

/-- A sum of two binary64 numbers never loses digits by underflow. -/
theorem rel_add {a b : ℝ} (ha : Grid a) (hb : Grid b) : Rel 1 (add a b) (a + b) := by
  obtain ⟨m, rfl⟩ := ha
  obtain ⟨n, rfl⟩ := hb
  unfold F64.add
  by_cases h : (2:ℝ)^(-1022 : ℤ) ≤ |(m:ℝ)*(2:ℝ)^(-1074 : ℤ) + n*(2:ℝ)^(-1074 : ℤ)|
  · exact rel_fl (.inr h)
  · have e : (m:ℝ)*(2:ℝ)^(-1074 : ℤ) + n*(2:ℝ)^(-1074 : ℤ) = ((m+n : ℤ):ℝ)*(2:ℝ)^(-1074 : ℤ) := by
      push_cast; ring
    rw [e] at h ⊢
    rw [fl_exact (m := m+n) (e := -1074) _ le_rfl]
    · exact (Rel.refl _).mono (by norm_num)
    · rw [not_le, abs_mul, abs_of_pos (two_zpow_pos _)] at h
      have h2 : (2:ℝ)^(-1022 : ℤ) = 2^52*(2:ℝ)^(-1074 : ℤ) := by
        rw [← zpow_natCast, ← zpow_add₀ (by norm_num)]; norm_num
      rw [h2] at h
      have h3 := lt_of_mul_lt_mul_right h (two_zpow_pos _).le
      have h4 : |((m+n : ℤ))| < 2^52 := by
        have : ((|m+n| : ℤ):ℝ) < ((2^52 : ℤ):ℝ) := by push_cast; push_cast at h3; norm_num at h3 ⊢; exact h3
        exact_mod_cast this
      exact h4.le.trans (by norm_num)

theorem grid_sum {x : ℕ → ℝ} : ∀ {t : SumTree}, (∀ k ∈ t.leaves, Grid (x k)) → Grid (t.sum x)
  | .leaf k, h => h k (by simp [SumTree.leaves])
  | .node l r, h => grid_fl _

/-- The error of a sum in any order; the entries themselves may have errors. -/
theorem sum_err {x y : ℕ → ℝ} {a : ℕ} : ∀ {t : SumTree}, (∀ k ∈ t.leaves, Grid (y k)) →
    (∀ k ∈ t.leaves, Rel a (y k) (x k)) →
    |t.sum y - (t.leaves.map x).sum| ≤ gam (a + t.depth)*(t.leaves.map fun k => |x k|).sum
  | .leaf k, hg, h => by
    have := h k (by simp [SumTree.leaves])
    simpa [SumTree.leaves, SumTree.sum, SumTree.depth, Rel] using this
  | .node l r, hg, h => by
    simp only [SumTree.leaves, List.mem_append] at hg h
    have hl := sum_err (t := l) (fun k hk => hg k (.inl hk)) (fun k hk => h k (.inl hk))
    have hr := sum_err (t := r) (fun k hk => hg k (.inr hk)) (fun k hk => h k (.inr hk))
    have hadd := rel_add (grid_sum (t := l) fun k hk => hg k (.inl hk)) (grid_sum (t := r) fun k hk => hg k (.inr hk))
    simp only [SumTree.leaves, SumTree.sum, SumTree.depth, List.map_append, List.sum_append]
    set L := l.sum y
    set R := r.sum y
    set SL := (l.leaves.map x).sum with hSL
    set SR := (r.leaves.map x).sum with hSR
    set AL := (l.leaves.map fun k => |x k|).sum with hAL
    set AR := (r.leaves.map fun k => |x k|).sum with hAR
    have absl : ∀ s : List ℕ, |(s.map x).sum| ≤ (s.map fun k => |x k|).sum := by
      intro s
      induction s with
      | nil => simp
      | cons k s ih =>
        simp only [List.map_cons, List.sum_cons]
        exact (abs_add_le _ _).trans (by linarith)
    have hAL0 : 0 ≤ AL := (abs_nonneg _).trans (absl _)
    have hAR0 : 0 ≤ AR := (abs_nonneg _).trans (absl _)
    set D := max l.depth r.depth
    have gl : gam (a + l.depth) ≤ gam (a + D) := gam_mono (by have := le_max_left l.depth r.depth; omega)
    have gr : gam (a + r.depth) ≤ gam (a + D) := gam_mono (by have := le_max_right l.depth r.depth; omega)
    have e1 : |L + R - (SL + SR)| ≤ gam (a + D)*(AL + AR) := by
      have : L + R - (SL + SR) = (L - SL) + (R - SR) := by ring
      rw [this]
      refine (abs_add_le _ _).trans ?_
      have := mul_le_mul_of_nonneg_right gl hAL0
      have := mul_le_mul_of_nonneg_right gr hAR0
      linarith
    have e2 : |L + R| ≤ (1 + gam (a + D))*(AL + AR) := by
      have h1 := abs_sub_abs_le_abs_sub (L + R) (SL + SR)
      have h2 := abs_add_le SL SR
      have h3 := absl l.leaves
      have h4 := absl r.leaves
      linarith
    unfold Rel at hadd
    rw [show a + (D + 1) = a + D + 1 by ring, gam_add]
    have h5 : |F64.add L R - (SL + SR)| ≤ |F64.add L R - (L + R)| + |L + R - (SL + SR)| := abs_sub_le _ _ _
    have g1 := gam_nonneg 1
    have h6 := mul_le_mul_of_nonneg_left e2 g1
    nlinarith

/-- The error of a rounded quotient of two sums. -/
theorem quot_err {N D F A W : ℝ} {k l : ℕ} (hkl : k + l ≤ 2^42) (hN : |N - F| ≤ gam k*A) (hD : |D - W| ≤ gam l*W)
    (hF : |F| ≤ A) (hW : 0 < W) :
    0 < D ∧ |F64.div N D - F/W| ≤ (k + l + 1)/2^52*(A/W) + (2:ℝ)^(-1075 : ℤ) := by
  have hA : 0 ≤ A := (abs_nonneg _).trans hF
  have hkl' : ((k:ℝ) + l) ≤ 2^42 := by exact_mod_cast hkl
  have hk0 : (0:ℝ) ≤ k := Nat.cast_nonneg k
  have hl0 : (0:ℝ) ≤ l := Nat.cast_nonneg l
  have gk := gam_le (k := k) (by omega)
  have gl := gam_le (k := l) (by omega)
  have gk0 := gam_nonneg k
  have gl0 := gam_nonneg l
  have hl1 : gam l ≤ 1/2^10 := by
    refine gl.trans ?_
    have : (l:ℝ)/2^53 ≤ 1/2^11 := by
      rw [div_le_div_iff₀ (by norm_num) (by norm_num)]
      nlinarith
    nlinarith
  have hDW : (1 - gam l)*W ≤ D := by have := (abs_le.mp hD).1; linarith
  have hD0 : 0 < D := lt_of_lt_of_le (mul_pos (by linarith) hW) hDW
  refine ⟨hD0, ?_⟩
  set Q := A/W with hQ
  have hQ0 : 0 ≤ Q := by positivity
  -- the quotient before rounding
  have h1 : |N/D - F/W| ≤ (gam k + gam l)/(1 - gam l)*Q := by
    have e : N/D - F/W = ((N - F)*W - F*(D - W))/(D*W) := by field_simp; ring
    rw [e, abs_div, abs_of_pos (mul_pos hD0 hW), div_le_iff₀ (mul_pos hD0 hW)]
    have a1 : |(N - F)*W - F*(D - W)| ≤ gam k*A*W + A*(gam l*W) := by
      refine (abs_sub _ _).trans ?_
      rw [abs_mul, abs_mul, abs_of_pos hW]
      exact add_le_add (mul_le_mul_of_nonneg_right hN hW.le) (mul_le_mul hF hD (abs_nonneg _) hA)
    refine a1.trans ?_
    have a2 : (gam k + gam l)/(1 - gam l)*Q*(D*W) = (gam k + gam l)*A*(D/(1 - gam l)) := by
      rw [hQ]; field_simp
    rw [a2]
    have a3 : W ≤ D/(1 - gam l) := by rw [le_div_iff₀ (by linarith)]; linarith
    have := mul_le_mul_of_nonneg_left a3 (show 0 ≤ (gam k + gam l)*A by positivity)
    linarith
  set g := (gam k + gam l)/(1 - gam l) with hg
  have hgle : g ≤ ((k:ℝ) + l)/2^53*(1 + 1/2^8) := by
    rw [hg, div_le_iff₀ (by linarith)]
    have b1 : gam k + gam l ≤ ((k:ℝ)+l)/2^53*(1 + 1/2^10) := by
      have : ((k:ℝ)+l)/2^53 = k/2^53 + l/2^53 := by ring
      rw [this]; linarith
    have hx : 0 ≤ ((k:ℝ)+l)/2^53 := by positivity
    nlinarith
  have hg0 : 0 ≤ g := by rw [hg]; exact div_nonneg (by linarith) (by linarith)
  have hgs : g ≤ 1 := by
    refine hgle.trans ?_
    have : ((k:ℝ)+l)/2^53 ≤ 1/2^11 := by
      rw [div_le_div_iff₀ (by norm_num) (by norm_num)]
      nlinarith
    nlinarith
  have h2 : |F/W| ≤ Q := by rw [abs_div, abs_of_pos hW, hQ]; gcongr
  have h3 : |N/D| ≤ (1 + g)*Q := by
    have := abs_sub_abs_le_abs_sub (N/D) (F/W)
    linarith
  have h4 := fl_err_abs (N/D)
  unfold F64.div
  have h5 : |fl (N/D) - F/W| ≤ |fl (N/D) - N/D| + |N/D - F/W| := abs_sub_le _ _ _
  rw [abs_sub_comm (fl (N/D)) (N/D)] at h5
  have h6 : |N/D|/2^53 ≤ 2*Q/2^53 := by
    refine div_le_div_of_nonneg_right ?_ (by norm_num)
    nlinarith
  have h7 : g*Q ≤ ((k:ℝ) + l)/2^53*(1 + 1/2^8)*Q := mul_le_mul_of_nonneg_right hgle hQ0
  have h8 : (((k:ℝ) + l + 1)/2^52)*Q = 2*(((k:ℝ)+l)/2^53*Q) + 2*Q/2^53 := by ring
  have h9 : 0 ≤ ((k:ℝ)+l)/2^53*Q := by positivity
  rw [h8]
  linarith

end Magpie.Means64
