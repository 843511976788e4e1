import Verif.Spec.DgRemap64
import Verif.Proof.Radial64
import Verif.Proof.DgCube2Shell
import Verif.Props.Grids64
import Verif.Props.Means64

/-!
# The dense grid `remap` in binary64
-/

set_option linter.unusedSimpArgs false
set_option linter.unusedVariables false
set_option linter.unusedSectionVars false

namespace Magpie.Dg64
open Magpie Magpie.Radial Magpie.Box2Ring Magpie.Grids64 Magpie.Means64 Magpie.Spec Magpie.F64 Magpie.Props Finset

/-! ## Cells -/

section
variable {lo hi : ℝ} {n : ℕ} (h : Divisible lo hi n) (hlt : lo < hi)
  (hw : 2*cellMargin lo hi n ≤ (hi - lo)/n)
include h hlt

theorem margin_pos : 0 < cellMargin lo hi n := by
  have hn : (0:ℝ) < n := by exact_mod_cast h.pos
  have := abs_nonneg lo
  unfold cellMargin
  have : 0 < |lo| + 8*(hi - lo) := by linarith
  positivity

theorem cell_ok : Ok lo hi n := by
  rcases divisible_cases h with e | h'
  · exact absurd e hlt.ne
  · exact h'

theorem boxCell_mono {x y z : ℝ} {a b : ℕ} (hx : boxCell64 lo hi n x = some a) (hz : boxCell64 lo hi n z = some b)
    (hxy : x ≤ y) (hyz : y ≤ z) : ∃ c, boxCell64 lo hi n y = some c := by
  have hok := cell_ok h hlt
  rw [boxCell64_eq hok] at *
  set d := fl (edge64 lo hi n 1 - lo) with hd
  have hd0 : 0 ≤ d := by
    have := edge64_mono hok (Nat.zero_le 1) hok.n1
    rw [edge64_zero hok] at this
    exact fl_nonneg (by linarith)
  unfold cellIdx64 at *
  by_cases h0 : d = 0
  · rw [if_pos h0] at hx; cases hx
  rw [if_neg h0] at *
  have hm : ∀ u v : ℝ, u ≤ v → ⌊F64.div (F64.sub u lo) d⌋ ≤ ⌊F64.div (F64.sub v lo) d⌋ := by
    intro u v huv
    apply Int.floor_le_floor
    apply fl_mono
    exact div_le_div_of_nonneg_right (fl_mono (by linarith)) hd0
  have h1 := hm x y hxy
  have h2 := hm y z hyz
  dsimp only at *
  split_ifs at hx hz with c1 c2
  refine ⟨_, if_pos ⟨?_, ?_⟩⟩
  · exact c1.1.trans h1
  · exact h2.trans_lt c2.2

include hw in
/-- A cell is read, or none, as if the coordinate were another one nearby. -/
theorem cell_near (x : ℝ) : ∃ x', |x' - x| ≤ 2*cellMargin lo hi n ∧
    ∀ a, InCell lo hi n a x' ↔ boxCell64 lo hi n x = some a := by
  have hμ := margin_pos h hlt
  have hn : (0:ℝ) < n := by exact_mod_cast h.pos
  have hn1 := h.pos
  set μ := cellMargin lo hi n with hμd
  have hE : ∀ k, exactEdge lo hi n k = edgeAt lo hi n k := fun k => rfl
  have hstep : ∀ k, edgeAt lo hi n (k+1) = edgeAt lo hi n k + (hi - lo)/n := by
    intro k; unfold edgeAt; push_cast; ring
  have hlast : edgeAt lo hi n n = hi := by unfold edgeAt; field_simp; ring
  have hzero : edgeAt lo hi n 0 = lo := by unfold edgeAt; simp
  cases hc : boxCell64 lo hi n x with
  | some i =>
    obtain ⟨hi', h1, h2⟩ := C109_near lo hi n h hlt hw x i hc
    rw [hE] at h1 h2
    have hs := hstep i
    obtain ⟨x', e1, e2⟩ : ∃ x', |x' - x| ≤ 2*μ ∧ InCell lo hi n i x' := by
      by_cases c1 : x < edgeAt lo hi n i
      · refine ⟨edgeAt lo hi n i, ?_, hi', le_rfl, by linarith⟩
        rw [abs_le]; constructor <;> linarith
      by_cases c2 : edgeAt lo hi n (i+1) ≤ x
      · refine ⟨edgeAt lo hi n (i+1) - μ, ?_, hi', by linarith, by linarith⟩
        rw [abs_le]; constructor <;> linarith
      · refine ⟨x, ?_, hi', by linarith, by linarith⟩
        rw [sub_self, abs_zero]; linarith
    refine ⟨x', e1, fun a => ⟨fun ha => ?_, fun ha => ?_⟩⟩
    · rw [DgCube.inCell_unique hlt hn1 ha e2]
    · cases ha; exact e2
  | none =>
    obtain ⟨x', e1, e2⟩ : ∃ x', |x' - x| ≤ 2*μ ∧ (x' < lo ∨ hi ≤ x') := by
      by_cases c1 : x < lo + μ
      · by_cases c0 : x < lo
        · refine ⟨x, ?_, .inl c0⟩
          rw [sub_self, abs_zero]; linarith
        · refine ⟨lo - μ, ?_, .inl (by linarith)⟩
          rw [abs_le]; constructor <;> linarith
      by_cases c2 : hi - μ < x
      · by_cases c0 : hi ≤ x
        · refine ⟨x, ?_, .inr c0⟩
          rw [sub_self, abs_zero]; linarith
        · refine ⟨hi, ?_, .inr le_rfl⟩
          rw [abs_le]; constructor <;> linarith
      exfalso
      have s0 := hstep 0
      have s1 := hstep (n-1)
      rw [Nat.sub_add_cancel hn1, hlast] at s1
      rw [hzero] at s0
      obtain ⟨c, hcc⟩ := boxCell_mono h hlt
        (C109_inside lo hi n h hlt 0 hn1 (lo + μ) (by rw [hE, hzero]) (by rw [hE]; rw [s0]; linarith))
        (C109_inside lo hi n h hlt (n-1) (by omega) (hi - μ) (by rw [hE]; linarith)
          (by rw [Nat.sub_add_cancel hn1, hE, hlast]))
        (not_lt.mp c1) (not_lt.mp c2)
      rw [hc] at hcc; cases hcc
    refine ⟨x', e1, fun a => ⟨fun ha => ?_, fun ha => by cases ha⟩⟩
    obtain ⟨r1, r2⟩ := DgCube.inCell_range hlt hn1 ha
    rcases e2 with e2 | e2 <;> linarith

end

/-! ## Sums -/

theorem depth_lt (t : SumTree) : t.depth < t.leaves.length := by
  induction t with
  | leaf k => simp [SumTree.depth, SumTree.leaves]
  | node l r ihl ihr =>
    simp only [SumTree.depth, SumTree.leaves, List.length_append]
    omega

theorem depth_le {t : SumTree} {m : ℕ} (ht : t.leaves.Perm (List.range m)) : t.depth ≤ m := by
  have := depth_lt t
  rw [ht.length_eq, List.length_range] at this
  omega

/-- A sum of entries with errors. -/
theorem tree_er {t : SumTree} {m : ℕ} (ht : t.leaves.Perm (List.range m)) (hm : m ≤ 2^40) {x y A δ : ℕ → ℝ} {a : ℕ}
    (hg : ∀ i < m, Means64.Grid (y i)) (hx : ∀ i < m, |x i| ≤ A i)
    (hδ : ∀ i < m, 0 ≤ δ i) (h : ∀ i < m, |y i - x i| ≤ gam a*A i + δ i) :
    |t.sum y - ∑ i ∈ range m, x i| ≤ gam (a + m)*∑ i ∈ range m, A i + 5/4*∑ i ∈ range m, δ i := by
  have h1 := sum_err' (x := y) (y := y) (a := 0) ht hg (fun i _ => Means64.Rel.refl _)
  rw [zero_add] at h1
  have hgm := gam_mono (depth_le ht)
  have hgk : gam m ≤ 1/4 := by
    refine (gam_le (by omega)).trans ?_
    have : (m:ℝ) ≤ 2^40 := by exact_mod_cast hm
    rw [div_mul_eq_mul_div, div_le_iff₀ (by norm_num)]
    nlinarith
  have hmem : ∀ i ∈ range m, i < m := fun i hi => by rwa [mem_range] at hi
  have h2 : |∑ i ∈ range m, y i - ∑ i ∈ range m, x i| ≤ gam a*∑ i ∈ range m, A i + ∑ i ∈ range m, δ i := by
    rw [← Finset.sum_sub_distrib, Finset.mul_sum, ← Finset.sum_add_distrib]
    exact (Finset.abs_sum_le_sum_abs _ _).trans (Finset.sum_le_sum fun i hi => h i (hmem i hi))
  have h3 : ∑ i ∈ range m, |y i| ≤ (1 + gam a)*∑ i ∈ range m, A i + ∑ i ∈ range m, δ i := by
    rw [Finset.mul_sum, ← Finset.sum_add_distrib]
    refine Finset.sum_le_sum fun i hi => ?_
    have e1 := h i (hmem i hi)
    have e2 := hx i (hmem i hi)
    have := abs_sub_abs_le_abs_sub (y i) (x i)
    linarith
  have h4 := abs_sub_le (t.sum y) (∑ i ∈ range m, y i) (∑ i ∈ range m, x i)
  have hD : 0 ≤ ∑ i ∈ range m, δ i := Finset.sum_nonneg fun i hi => hδ i (hmem i hi)
  have hY : 0 ≤ ∑ i ∈ range m, |y i| := Finset.sum_nonneg fun i _ => abs_nonneg _
  have h5 := mul_le_mul_of_nonneg_left h3 (gam_nonneg m)
  have h6 := mul_le_mul_of_nonneg_right hgm hY
  rw [gam_add]
  nlinarith

theorem tiny_le {G R : ℝ} (hG : (2:ℝ)^(-600 : ℤ) ≤ G) (hR : (2:ℝ)^(-200 : ℤ) ≤ R) :
    (2:ℝ)^(-1075 : ℤ) ≤ G*R^2/2^75 := by
  rw [le_div_iff₀ (by norm_num)]
  have h0 := two_zpow_pos (-600)
  have h1 := two_zpow_pos (-200)
  have e : (2:ℝ)^(-1075 : ℤ)*2^75 = (2:ℝ)^(-600 : ℤ)*((2:ℝ)^(-200 : ℤ))^2 := by
    rw [sq, ← zpow_natCast (2:ℝ) 75, ← zpow_add₀ (by norm_num), ← zpow_add₀ (by norm_num), ← zpow_add₀ (by norm_num)]
    norm_num
  rw [e]
  exact mul_le_mul hG (pow_le_pow_left₀ h1.le hR 2) (by positivity) (h0.le.trans hG)

set_option maxHeartbeats 1000000 in
/-- Sums over both axes, and the division by the number of entries of one. -/
theorem mean2 {t t' : SumTree} {m : ℕ} (ht : t.leaves.Perm (List.range m)) (ht' : t'.leaves.Perm (List.range m))
    (hm : m ≤ 2^40) {G R Ω : ℝ} (hG : (2:ℝ)^(-600 : ℤ) ≤ G) (hR : (2:ℝ)^(-200 : ℤ) ≤ R)
    {w : ℕ → ℝ} (hw : ∀ l < m, 0 ≤ w l) (hΩ : ∑ l ∈ range m, w l = Ω) (hΩ0 : 0 < Ω) (hΩR : Ω ≤ R^2)
    (hK : m*R^2 ≤ 2^40*Ω) {g Y : ℕ → ℕ → ℝ} (hg : ∀ k < m, ∀ l < m, |g k l| ≤ G)
    (hY : ∀ k < m, ∀ l < m, Means64.Grid (Y k l))
    (hE : ∀ k < m, ∀ l < m, |Y k l - w l*g k l| ≤ 34/2^53*(G*R^2)) :
    |F64.div (t'.sum fun l => t.sum fun k => Y k l) (F64.ofInt m)
        - (∑ l ∈ range m, ∑ k ∈ range m, w l*g k l)/m| ≤ m*60/2^53*(G*R^2) ∧
    |(∑ l ∈ range m, ∑ k ∈ range m, w l*g k l)/m| ≤ G*Ω := by
  have hm0 : 0 < m := perm_pos ht
  have hmr : (1:ℝ) ≤ m := by exact_mod_cast hm0
  have hmr' : (m:ℝ) ≤ 2^40 := by exact_mod_cast hm
  have hG0 : 0 < G := (two_zpow_pos _).trans_le hG
  have hR0 : 0 < R := (two_zpow_pos _).trans_le hR
  have hT := tiny_le hG hR
  set δ := 34/2^53*(G*R^2) with hδ
  have hδ0 : 0 ≤ δ := by positivity
  have hin : ∀ l < m, |(t.sum fun k => Y k l) - ∑ k ∈ range m, w l*g k l| ≤ gam m*(m*(G*w l)) + 5/4*(m*δ) := by
    intro l hl
    have := tree_er (a := 0) ht hm (x := fun k => w l*g k l) (y := fun k => Y k l) (A := fun _ => G*w l) (δ := fun _ => δ)
      (fun k hk => hY k hk l hl) (fun k hk => by
        rw [abs_mul, abs_of_nonneg (hw l hl), mul_comm]
        exact mul_le_mul_of_nonneg_right (hg k hk l hl) (hw l hl)) (fun _ _ => hδ0)
      (fun k hk => by rw [gam_zero]; have := hE k hk l hl; linarith)
    simpa only [zero_add, sum_const, card_range, nsmul_eq_mul] using this
  have hxin : ∀ l < m, |∑ k ∈ range m, w l*g k l| ≤ m*(G*w l) := by
    intro l hl
    refine (Finset.abs_sum_le_sum_abs _ _).trans ?_
    refine (Finset.sum_le_sum (g := fun _ => G*w l) fun k hk => ?_).trans (by simp)
    rw [abs_mul, abs_of_nonneg (hw l hl), mul_comm]
    exact mul_le_mul_of_nonneg_right (hg k (mem_range.mp hk) l hl) (hw l hl)
  have hout := tree_er (a := m) ht' hm (x := fun l => ∑ k ∈ range m, w l*g k l) (y := fun l => t.sum fun k => Y k l)
    (A := fun l => m*(G*w l)) (δ := fun _ => 5/4*(m*δ))
    (fun l hl => grid_sum fun k hk => hY k (perm_mem ht hk) l hl) hxin (fun _ _ => by positivity) hin
  have hA : ∑ l ∈ range m, (m:ℝ)*(G*w l) = m*(G*Ω) := by rw [← Finset.mul_sum, ← Finset.mul_sum, hΩ]
  rw [hA] at hout
  simp only [sum_const, card_range, nsmul_eq_mul] at hout
  have hX : |∑ l ∈ range m, ∑ k ∈ range m, w l*g k l| ≤ m*(G*Ω) := by
    rw [← hA]
    exact (Finset.abs_sum_le_sum_abs _ _).trans (Finset.sum_le_sum fun l hl => hxin l (mem_range.mp hl))
  set X := ∑ l ∈ range m, ∑ k ∈ range m, w l*g k l with hXd
  set N := t'.sum fun l => t.sum fun k => Y k l with hN
  have hgam : gam (m + m) ≤ 2.01*m/2^53 := by
    refine (gam_le (by omega)).trans ?_
    push_cast
    rw [div_mul_eq_mul_div, div_le_div_iff_of_pos_right (by norm_num)]
    nlinarith
  have hGΩ : G*Ω ≤ G*R^2 := mul_le_mul_of_nonneg_left hΩR hG0.le
  have hGΩ0 : 0 < G*Ω := mul_pos hG0 hΩ0
  -- the sum
  have hNX : |N - X| ≤ m*(56*m/2^53*(G*R^2)) := by
    refine hout.trans ?_
    have h1 : gam (m+m)*(m*(G*Ω)) ≤ 2.01*m/2^53*(m*(G*R^2)) :=
      mul_le_mul hgam (mul_le_mul_of_nonneg_left hGΩ (by linarith)) (by positivity) (by positivity)
    have h2 : 5/4*(m*(5/4*(m*δ))) = 25/16*34*m*m/2^53*(G*R^2) := by rw [hδ]; ring
    rw [h2]
    have : 0 ≤ (m:ℝ)*m/2^53*(G*R^2) := by positivity
    nlinarith
  have ei : F64.ofInt m = m := by
    unfold F64.ofInt
    have := fl_int (n := m) (by
      rw [Nat.abs_cast]
      have : (m:ℤ) ≤ 2^40 := by exact_mod_cast hm
      exact this.trans (by norm_num))
    simpa using this
  have hm' : (0:ℝ) < m := by linarith
  have hNm : |N/m - X/m| ≤ 56*m/2^53*(G*R^2) := by
    rw [← sub_div, abs_div, abs_of_pos hm', div_le_iff₀ hm']
    linarith
  have hXm : |X/m| ≤ G*Ω := by
    rw [abs_div, abs_of_pos hm', div_le_iff₀ hm']
    linarith
  refine ⟨?_, hXm⟩
  unfold F64.div
  rw [ei]
  have h1 := fl_err_abs (N/m)
  have h2 : |N/m| ≤ G*R^2 + 56*m/2^53*(G*R^2) := by
    have := abs_sub_abs_le_abs_sub (N/m) (X/m)
    linarith
  have h3 := abs_sub_le (fl (N/m)) (N/m) (X/m)
  rw [abs_sub_comm (fl (N/m)) (N/m)] at h3
  have hGR : 0 < G*R^2 := by positivity
  have h4 : 56*(m:ℝ)/2^53*(G*R^2) ≤ 1/4*(G*R^2) := by
    refine mul_le_mul_of_nonneg_right ?_ hGR.le
    rw [div_le_iff₀ (by norm_num)]
    linarith
  have h5 : (G*R^2)/2^53 ≤ m/2^53*(G*R^2) := by
    rw [div_mul_eq_mul_div]
    refine div_le_div_of_nonneg_right ?_ (by norm_num)
    nlinarith
  have h6 : |N/m|/2^53 ≤ 5/4*((G*R^2)/2^53) := by
    rw [← mul_div_assoc]
    exact div_le_div_of_nonneg_right (by linarith) (by norm_num)
  have h7 : G*R^2/2^75 ≤ G*R^2/2^53 := by
    refine div_le_div_of_nonneg_left hGR.le (by norm_num) (by norm_num)
  have e : m*60/2^53*(G*R^2) = 56*m/2^53*(G*R^2) + 4*(m/2^53*(G*R^2)) := by ring
  rw [e]
  linarith

/-- The quotient of the two means. -/
theorem quot2 {G R Ω X P Q : ℝ} {m : ℕ} (hm : 1 ≤ m) (hG : (2:ℝ)^(-600 : ℤ) ≤ G) (hΩ0 : 0 < Ω) (hΩR : Ω ≤ R^2)
    (hK : m*R^2 ≤ 2^40*Ω) (hX : |X| ≤ G*Ω) (hP : |P - X| ≤ m*60/2^53*(G*R^2)) (hQ : |Q - Ω| ≤ m*60/2^53*R^2) :
    0 < Q ∧ |F64.div P Q - X/Ω| ≤ R^2/Ω*m/2^45*G := by
  have hG0 : 0 < G := (two_zpow_pos _).trans_le hG
  have hmr : (1:ℝ) ≤ m := by exact_mod_cast hm
  set ρ := R^2/Ω*m*60/2^53 with hρ
  have hRΩ : 1 ≤ R^2/Ω := by rw [le_div_iff₀ hΩ0]; linarith
  have hρ1 : 60/2^53 ≤ ρ := by
    rw [hρ]
    refine div_le_div_of_nonneg_right ?_ (by norm_num)
    nlinarith
  have hρ2 : ρ ≤ 1/100 := by
    have : R^2/Ω*m ≤ 2^40 := by
      rw [div_mul_eq_mul_div, div_le_iff₀ hΩ0]; linarith
    rw [hρ, div_le_iff₀ (by norm_num)]
    linarith
  have eP : m*60/2^53*(G*R^2) = ρ*(G*Ω) := by rw [hρ]; field_simp
  have eQ : m*60/2^53*R^2 = ρ*Ω := by rw [hρ]; field_simp
  rw [eP] at hP
  rw [eQ] at hQ
  have hQ1 : 99/100*Ω ≤ Q := by
    have := (abs_le.mp hQ).1
    nlinarith
  have hQ0 : 0 < Q := by linarith
  refine ⟨hQ0, ?_⟩
  have hXΩ : |X/Ω| ≤ G := by rw [abs_div, abs_of_pos hΩ0, div_le_iff₀ hΩ0]; exact hX
  have hq : |P/Q - X/Ω| ≤ 2.1*(ρ*G) := by
    have e : P/Q - X/Ω = ((P - X) - (Q - Ω)*(X/Ω))/Q := by field_simp; ring
    rw [e, abs_div, abs_of_pos hQ0, div_le_iff₀ hQ0]
    have h1 : |(Q - Ω)*(X/Ω)| ≤ ρ*Ω*G := by
      rw [abs_mul]
      exact mul_le_mul hQ hXΩ (abs_nonneg _) (by positivity)
    have h2 := abs_sub (P - X) ((Q - Ω)*(X/Ω))
    have h3 : 2.1*(ρ*G)*(99/100*Ω) ≤ 2.1*(ρ*G)*Q := mul_le_mul_of_nonneg_left hQ1 (by positivity)
    have : 0 ≤ ρ*G*Ω := by positivity
    nlinarith
  unfold F64.div
  have h1 := fl_err_abs (P/Q)
  have h2 : |P/Q| ≤ G + 2.1*(ρ*G) := by
    have := abs_sub_abs_le_abs_sub (P/Q) (X/Ω)
    linarith
  have h3 := abs_sub_le (fl (P/Q)) (P/Q) (X/Ω)
  rw [abs_sub_comm (fl (P/Q)) (P/Q)] at h3
  have hρG : 60/2^53*G ≤ ρ*G := mul_le_mul_of_nonneg_right hρ1 hG0.le
  have hρG2 : ρ*G ≤ 1/100*G := mul_le_mul_of_nonneg_right hρ2 hG0.le
  have ht : (2:ℝ)^(-1075 : ℤ) ≤ 1/2^53*G := by
    refine le_trans ?_ (mul_le_mul_of_nonneg_left hG (by norm_num))
    rw [one_div, ← zpow_natCast, ← zpow_neg, ← zpow_add₀ (by norm_num)]
    exact zpow_le_zpow_right₀ (by norm_num) (by norm_num)
  have h4 : |P/Q|/2^53 ≤ 1/2^53*(1.1*G) := by
    rw [one_div, inv_mul_eq_div]
    exact div_le_div_of_nonneg_right (by linarith) (by norm_num)
  have e : R^2/Ω*m/2^45*G = 2^8/60*(ρ*G) := by rw [hρ]; ring
  rw [e]
  linarith

/-! ## The dense grid -/

theorem divisible_of_mul {lo hi : ℝ} {num m : ℕ} (h : Divisible lo hi (m*num)) : Divisible lo hi num := by
  have hpos := h.pos
  have hm : 1 ≤ m := Nat.pos_of_ne_zero (by rintro rfl; simp at hpos)
  have hn : 1 ≤ num := Nat.pos_of_ne_zero (by rintro rfl; simp at hpos)
  have hle : num ≤ m*num := Nat.le_mul_of_pos_left _ hm
  refine ⟨h.dlo, h.dhi, h.le, h.small_lo, h.small_hi, hn, hle.trans h.few, ?_⟩
  rcases h.cell with e | e
  · exact .inl e
  · refine .inr (e.trans ?_)
    have := h.le
    refine div_le_div_of_nonneg_left (by linarith) (by exact_mod_cast hn) (by exact_mod_cast hle)

theorem denseEdges64_eq {lo hi : ℝ} {num m : ℕ} (h : Divisible lo hi (m*num)) :
    denseEdges64 lo hi num m = (List.range (m*num+1)).map (edge64 lo hi (m*num)) := by
  have hd := divisible_of_mul h
  unfold denseEdges64 setupEdges64
  rw [linspace64_eq lo hi hd.pos]
  have e0 : ((List.range (num+1)).map (edge64 lo hi num)).getD 0 0 = lo := by
    rw [getD_range_map _ _ _ (by omega), edge64_zero' hd]
  have e1 : ((List.range (num+1)).map (edge64 lo hi num)).getLastD 0 = hi := by
    rw [List.range_succ, List.map_append]
    simp [List.getLastD_eq_getLast?, edge64]
  have el : (setupMids64 ((List.range (num+1)).map (edge64 lo hi num))).length = num := by
    unfold setupMids64; simp
  dsimp only
  rw [e0, e1, el, linspace64_eq lo hi h.pos]

theorem zip_range {γ : Type} (e : ℕ → ℝ) (N : ℕ) (f : ℝ → ℝ → γ) :
    List.zipWith f ((List.range (N+1)).map e).tail ((List.range (N+1)).map e).dropLast
      = (List.range N).map fun k => f (e (k+1)) (e k) := by
  have h1 : ((List.range (N+1)).map e).tail = (List.range N).map fun k => e (k+1) := by
    rw [List.range_succ_eq_map]; simp
  have h2 : ((List.range (N+1)).map e).dropLast = (List.range N).map e := by
    rw [List.range_succ, List.map_append]; simp
  rw [h1, h2, List.zipWith_map, List.zipWith_self]

/-- The centre of a dense cell. -/
noncomputable def mid64 (lo hi : ℝ) (N k : ℕ) : ℝ := F64.mul (1/2) (F64.add (edge64 lo hi N (k+1)) (edge64 lo hi N k))

theorem denseMids_eq {lo hi : ℝ} {num m : ℕ} (h : Divisible lo hi (m*num)) :
    setupMids64 (denseEdges64 lo hi num m) = (List.range (m*num)).map (mid64 lo hi (m*num)) := by
  rw [denseEdges64_eq h]
  unfold setupMids64
  rw [zip_range]
  rfl

theorem weights_eq {lo hi : ℝ} {num m : ℕ} (h : Divisible lo hi (m*num)) :
    ringWeights64 (denseEdges64 lo hi num m) = (List.range (m*num)).map fun k =>
      F64.sub (F64.mul (edge64 lo hi (m*num) (k+1)) (edge64 lo hi (m*num) (k+1)))
        (F64.mul (edge64 lo hi (m*num) k) (edge64 lo hi (m*num) k)) := by
  rw [denseEdges64_eq h]
  unfold ringWeights64
  rw [zip_range]

section
variable {lo hi : ℝ} {N : ℕ} (h : Divisible lo hi N) (h0 : 0 ≤ lo)
include h h0

theorem edge_near {k : ℕ} (hk : k ≤ N) : |edge64 lo hi N k - edgeAt lo hi N k| ≤ 6*hi/2^53 := by
  have hle := h.le
  rcases divisible_cases h with e | h'
  · subst e
    rw [edge64_degenerate (Remap64.isDouble_fl h.dlo) h.pos]
    unfold edgeAt
    rw [sub_self, zero_div, mul_zero, add_zero, sub_self, abs_zero]
    positivity
  · refine (edge64_err h' hk).trans ?_
    rw [abs_of_nonneg h0]
    exact div_le_div_of_nonneg_right (by linarith) (by norm_num)

theorem mid64_between {k : ℕ} (hk : k < N) : 0 ≤ mid64 lo hi N k ∧ mid64 lo hi N k ≤ hi := by
  have e1 := edge64_between h (show k ≤ N by omega)
  have e2 := edge64_between h (show k+1 ≤ N by omega)
  have f1 := Remap64.isDouble_fl (edge64_isDouble h (show k ≤ N by omega))
  have f2 := Remap64.isDouble_fl (edge64_isDouble h (show k+1 ≤ N by omega))
  have := mid_between f1 f2 (edge64_mono' h (Nat.le_succ k) hk)
  unfold mid64
  have ec : F64.add (edge64 lo hi N (k+1)) (edge64 lo hi N k) = F64.add (edge64 lo hi N k) (edge64 lo hi N (k+1)) := by
    unfold F64.add; rw [add_comm]
  rw [ec]
  exact ⟨h0.trans (e1.1.trans this.1), this.2.trans e2.2⟩

theorem mid64_near {k : ℕ} (hk : k < N) : |mid64 lo hi N k - midAt lo hi N k| ≤ 10*hi/2^53 + (2:ℝ)^(-1074 : ℤ) := by
  have e1 := edge64_between h (show k ≤ N by omega)
  have e2 := edge64_between h (show k+1 ≤ N by omega)
  have n1 := edge_near h h0 (show k ≤ N by omega)
  have n2 := edge_near h h0 (show k+1 ≤ N by omega)
  have m := mid_err (x := edge64 lo hi N (k+1)) (y := edge64 lo hi N k)
  rw [abs_of_nonneg (h0.trans e1.1), abs_of_nonneg (h0.trans e2.1)] at m
  unfold mid64 midAt
  rw [abs_le] at *
  have : 2*(edge64 lo hi N (k+1) + edge64 lo hi N k)/2^53 ≤ 4*hi/2^53 :=
    div_le_div_of_nonneg_right (by linarith) (by norm_num)
  constructor <;> linarith

end

theorem mid64_double {lo hi : ℝ} {N k : ℕ} (h : 0 ≤ mid64 lo hi N k ∧ mid64 lo hi N k ≤ hi) (hh : |hi| ≤ maxDouble/2) :
    IsDouble (mid64 lo hi N k) := by
  have e : fl (mid64 lo hi N k) = mid64 lo hi N k := fl_fl _
  rw [← e]
  refine fl_isDouble ?_
  have : 0 ≤ maxDouble := by linarith [abs_nonneg hi]
  rw [abs_le] at *
  constructor <;> linarith

theorem maxDouble_big : (2:ℝ)^60 ≤ maxDouble := by
  unfold maxDouble
  have : (1:ℝ) ≤ (2:ℝ)^(900 : ℤ) := one_le_zpow₀ (by norm_num) (by norm_num)
  have e : (2:ℝ)^(971 : ℤ) = (2:ℝ)^(900 : ℤ)*2^71 := by
    rw [← zpow_natCast (2:ℝ) 71, ← zpow_add₀ (by norm_num)]; norm_num
  rw [e]
  have e2 : (2:ℝ)^60 ≤ (2^53 - 1)*(1*2^71) := by norm_num
  refine e2.trans (mul_le_mul_of_nonneg_left (mul_le_mul_of_nonneg_right this (by norm_num)) (by norm_num))

/-- The angle of a dense cell. -/
theorem angle_near {A : PolarArgs} (hA : PolarOk A) {m : ℕ} (hd : Divisible A.pmin A.pmax (m*A.nump.toNat))
    (hs : |A.phiShift| ≤ 16) {n : ℕ} (hn : n < m*A.nump.toNat) :
    IsDouble (shiftPhi64 A.phiShift (mid64 A.pmin A.pmax (m*A.nump.toNat) n)) ∧
    |shiftPhi64 A.phiShift (mid64 A.pmin A.pmax (m*A.nump.toNat) n)| ≤ 2^10 ∧
    ∃ z : ℤ, |shiftPhi64 A.phiShift (mid64 A.pmin A.pmax (m*A.nump.toNat) n)
      - (midAt A.pmin A.pmax (m*A.nump.toNat) n + A.phiShift + z*(2*Real.pi))| ≤ 1/2^45 := by
  obtain ⟨b1, b2⟩ := mid64_between hd hA.pmin hn
  have hnear := mid64_near hd hA.pmin hn
  have hdb := mid64_double ⟨b1, b2⟩ hd.small_hi
  have hpi : Real.pi < 3.15 := Real.pi_lt_d2
  have hpi3 := Real.pi_gt_three
  have hpm := hA.pmax2
  set p := mid64 A.pmin A.pmax (m*A.nump.toNat) n with hp
  set q := midAt A.pmin A.pmax (m*A.nump.toNat) n with hq
  set s := A.phiShift with hsd
  have ht : (2:ℝ)^(-1074 : ℤ) ≤ 1/2^60 := by
    rw [one_div, ← zpow_natCast, ← zpow_neg]
    exact zpow_le_zpow_right₀ (by norm_num) (by norm_num)
  have ht' : (2:ℝ)^(-1075 : ℤ) ≤ 1/2^60 := by
    rw [one_div, ← zpow_natCast, ← zpow_neg]
    exact zpow_le_zpow_right₀ (by norm_num) (by norm_num)
  have hpq : |p - q| ≤ 1/2^46 := by
    refine hnear.trans ?_
    have : 10*A.pmax/2^53 ≤ 64/2^53 := div_le_div_of_nonneg_right (by linarith) (by norm_num)
    norm_num at this ht ⊢
    linarith
  have hpa : |p| ≤ 6.3 := by rw [abs_of_nonneg b1]; linarith
  obtain ⟨tp1, tp2⟩ : |Coords64.twoPi - 2*Real.pi| ≤ 7/2^53 ∧ 0 < Coords64.twoPi := by
    have e := Coords64.twoPi_eq
    have h1 := fl_err_abs Real.pi
    rw [abs_of_pos Real.pi_pos] at h1
    have h2 : |Coords64.pi - Real.pi| ≤ 3.2/2^53 := by
      rw [abs_sub_comm]
      refine h1.trans ?_
      have : Real.pi/2^53 ≤ 3.15/2^53 := div_le_div_of_nonneg_right hpi.le (by norm_num)
      norm_num at this ht' ⊢
      linarith
    refine ⟨?_, by rw [e]; linarith [Coords64.pi_pos64.1]⟩
    rw [e, show 2*Coords64.pi - 2*Real.pi = 2*(Coords64.pi - Real.pi) by ring, abs_mul, abs_of_pos (by norm_num : (0:ℝ) < 2)]
    norm_num at h2 ⊢
    linarith
  set T := Coords64.twoPi with hT
  have hflm : ∀ x : ℝ, |x| ≤ 32 → |fl x - x| ≤ 33/2^53 := by
    intro x hx
    have := fl_err_abs x
    rw [abs_sub_comm]
    refine this.trans ?_
    have : |x|/2^53 ≤ 32/2^53 := div_le_div_of_nonneg_right hx (by norm_num)
    norm_num at this ht' ⊢
    linarith
  have hfd : ∀ x : ℝ, |x| ≤ 32 → IsDouble (fl x) := by
    intro x hx
    have := maxDouble_big
    refine fl_isDouble ?_
    norm_num at this
    linarith
  have hT' : |T| ≤ 7 := by
    rw [abs_of_pos tp2]
    have := (abs_le.mp tp1).2
    norm_num at this
    linarith
  unfold shiftPhi64
  by_cases c0 : s ≠ 0
  · rw [if_pos c0]
    have a1 : |p + s| ≤ 23 := (abs_add_le _ _).trans (by linarith)
    have r1 := hflm (p + s) (by linarith)
    have d1 := hfd (p + s) (by linarith)
    have b3 : |fl (p + s)| ≤ 24 := by
      have := abs_sub_abs_le_abs_sub (fl (p+s)) (p+s)
      norm_num at r1
      linarith
    dsimp only
    unfold F64.add F64.sub
    set u := fl (p + s) with hu
    by_cases c1 : u > T
    · rw [if_pos c1]
      have a2 : |u - T| ≤ 31 := (abs_sub _ _).trans (by linarith)
      have r2 := hflm (u - T) (by linarith)
      have n2 : ¬ fl (u - T) < 0 := not_lt.mpr (fl_nonneg (by linarith))
      rw [if_neg n2]
      refine ⟨hfd _ (by linarith), ?_, -1, ?_⟩
      · have := abs_sub_abs_le_abs_sub (fl (u - T)) (u - T)
        norm_num at r2 ⊢
        linarith
      · push_cast
        rw [abs_le] at *
        norm_num at hpq tp1 r1 r2 ⊢
        constructor <;> linarith
    · rw [if_neg c1]
      by_cases c2 : u < 0
      · rw [if_pos c2]
        have a2 : |u + T| ≤ 31 := (abs_add_le _ _).trans (by linarith)
        have r2 := hflm (u + T) (by linarith)
        refine ⟨hfd _ (by linarith), ?_, 1, ?_⟩
        · have := abs_sub_abs_le_abs_sub (fl (u + T)) (u + T)
          norm_num at r2 ⊢
          linarith
        · push_cast
          rw [abs_le] at *
          norm_num at hpq tp1 r1 r2 ⊢
          constructor <;> linarith
      · rw [if_neg c2]
        refine ⟨d1, by norm_num; linarith, 0, ?_⟩
        push_cast
        rw [abs_le] at *
        norm_num at hpq r1 ⊢
        constructor <;> linarith
  · rw [if_neg c0]
    push Not at c0
    refine ⟨hdb, by norm_num; linarith, 0, ?_⟩
    rw [c0]
    push_cast
    rw [abs_le] at *
    norm_num at hpq ⊢
    constructor <;> linarith

theorem cos_near {L : Trig} (hL : TrigNear L) {p q : ℝ} (h1 : IsDouble p) (h2 : |p| ≤ 2^10) {z : ℤ}
    (h3 : |p - (q + z*(2*Real.pi))| ≤ 1/2^45) :
    |L.cos p - Real.cos q| ≤ 1/2^45 + 1/2^52 ∧ |L.sin p - Real.sin q| ≤ 1/2^45 + 1/2^52 := by
  constructor
  · have a := hL.cos p h1 h2
    have b := (Real.abs_cos_sub_cos_le p (q + z*(2*Real.pi))).trans h3
    rw [Real.cos_add_int_mul_two_pi] at b
    have := abs_sub_le (L.cos p) (Real.cos p) (Real.cos q)
    linarith
  · have a := hL.sin p h1 h2
    have b := (Real.abs_sin_sub_sin_le p (q + z*(2*Real.pi))).trans h3
    rw [Real.sin_add_int_mul_two_pi] at b
    have := abs_sub_le (L.sin p) (Real.sin p) (Real.sin q)
    linarith

/-- One Cartesian coordinate. -/
theorem coord_near {R r' r c' c x0 : ℝ} (hR : (2:ℝ)^(-200 : ℤ) ≤ R) (h1 : 0 ≤ r' ∧ r' ≤ R) (h2 : 0 ≤ r ∧ r ≤ R)
    (h3 : |r' - r| ≤ 10*R/2^53 + (2:ℝ)^(-1074 : ℤ)) (hc : |c| ≤ 1) (h4 : |c' - c| ≤ 1/2^45 + 1/2^52) :
    |F64.add (F64.mul r' c') x0 - (r*c + x0)| ≤ (R + |x0|)/2^44 := by
  have hR0 : 0 < R := (two_zpow_pos _).trans_le hR
  have tin : ∀ e : ℤ, e ≤ -1074 → (2:ℝ)^e ≤ R/2^60 := by
    intro e he
    rw [le_div_iff₀ (by norm_num)]
    refine le_trans ?_ hR
    rw [← zpow_natCast (2:ℝ) 60, ← zpow_add₀ (by norm_num)]
    exact zpow_le_zpow_right₀ (by norm_num) (by push_cast; omega)
  have t1 := tin (-1074) (by norm_num)
  have t2 := tin (-1075) (by norm_num)
  clear tin
  have hη := fl_err_abs
  generalize (2:ℝ)^(-1074 : ℤ) = η at *
  generalize (2:ℝ)^(-1075 : ℤ) = η' at *
  have hc' : |c'| ≤ 1.01 := by
    have := abs_sub_abs_le_abs_sub c' c
    norm_num at h4 ⊢
    linarith
  unfold F64.add F64.mul
  have e1 : |r'*c' - r*c| ≤ 1.01*(10*R/2^53 + η) + R*(1/2^45 + 1/2^52) := by
    rw [show r'*c' - r*c = c'*(r' - r) + r*(c' - c) by ring]
    refine (abs_add_le _ _).trans ?_
    rw [abs_mul, abs_mul, abs_of_nonneg h2.1]
    refine add_le_add (mul_le_mul hc' h3 (abs_nonneg _) (by norm_num)) (mul_le_mul h2.2 h4 (abs_nonneg _) hR0.le)
  have e2 : |r'*c'| ≤ 1.01*R := by
    rw [abs_mul, abs_of_nonneg h1.1, mul_comm]
    exact mul_le_mul hc' h1.2 h1.1 (by norm_num)
  have f1 := hη (r'*c')
  have f2 := hη (fl (r'*c') + x0)
  clear hη
  set u := fl (r'*c') with hu
  have e3 : |u| ≤ 1.02*R := by
    have := abs_sub_abs_le_abs_sub u (r'*c')
    rw [abs_sub_comm u] at this
    norm_num [-abs_mul] at f1 t2 e2 this ⊢
    linarith
  have e4 : |u + x0| ≤ 1.02*R + |x0| := (abs_add_le _ _).trans (by linarith)
  have ha := abs_nonneg x0
  have e5 : |fl (u + x0) - (r*c + x0)| ≤ |u + x0 - fl (u + x0)| + |r'*c' - u| + |r'*c' - r*c| := by
    rw [abs_sub_comm (u + x0), abs_sub_comm (r'*c') u]
    have g1 := abs_sub_le (fl (u + x0)) (u + x0) (r*c + x0)
    have g2 := abs_sub_le u (r'*c') (r*c)
    rw [show u + x0 - (r*c + x0) = u - r*c by ring] at g1
    linarith
  norm_num [-abs_mul] at *
  linarith [abs_nonneg x0]

/-- The radial weight of a dense cell. -/
theorem weight_near {R E E' e e' : ℝ} (hR : (2:ℝ)^(-200 : ℤ) ≤ R) (h1 : 0 ≤ E ∧ E ≤ R) (h2 : 0 ≤ E' ∧ E' ≤ R)
    (h3 : 0 ≤ e ∧ e ≤ R) (h4 : 0 ≤ e' ∧ e' ≤ R) (n1 : |E - e| ≤ 6*R/2^53) (n2 : |E' - e'| ≤ 6*R/2^53) :
    |F64.sub (F64.mul E' E') (F64.mul E E) - (e'^2 - e^2)| ≤ 30/2^53*R^2 := by
  have hR0 : 0 < R := (two_zpow_pos _).trans_le hR
  have ht := tiny_le (G := 1) (by
    rw [show (1:ℝ) = (2:ℝ)^(0:ℤ) by norm_num]; exact zpow_le_zpow_right₀ (by norm_num) (by norm_num)) hR
  rw [one_mul] at ht
  set Q := R^2 with hQ
  have hQ0 : 0 < Q := by positivity
  have key : ∀ u v : ℝ, 0 ≤ u ∧ u ≤ R → 0 ≤ v ∧ v ≤ R → |u - v| ≤ 6*R/2^53 → |F64.mul u u - v^2| ≤ 13/2^53*Q + Q/2^75 := by
    intro u v hu hv huv
    have f := sq_le_sq' (by linarith [hu.1] : -R ≤ u) hu.2
    have g := fl_err_abs (u*u)
    rw [abs_of_nonneg (mul_self_nonneg u)] at g
    have k1 : |u*u - v^2| ≤ 12/2^53*Q := by
      rw [show u*u - v^2 = (u - v)*(u + v) by ring, abs_mul, abs_of_nonneg (add_nonneg hu.1 hv.1)]
      refine (mul_le_mul huv (show u + v ≤ 2*R by linarith [hu.2, hv.2]) (add_nonneg hu.1 hv.1) (by positivity)).trans
        (le_of_eq ?_)
      rw [hQ]; ring
    have k2 := abs_sub_le (fl (u*u)) (u*u) (v^2)
    rw [abs_sub_comm (fl (u*u)) (u*u)] at k2
    have k3 : u*u/2^53 ≤ Q/2^53 := div_le_div_of_nonneg_right (by rw [← sq]; exact f) (by norm_num)
    unfold F64.mul
    have e : 13/2^53*Q = 12/2^53*Q + Q/2^53 := by ring
    rw [e]
    linarith
  have k1 := key E e h1 h3 n1
  have k2 := key E' e' h2 h4 n2
  unfold F64.sub
  set a := F64.mul E' E'
  set b := F64.mul E E
  have d1 : |a - b - (e'^2 - e^2)| ≤ 26/2^53*Q + 2*(Q/2^75) := by
    rw [show a - b - (e'^2 - e^2) = (a - e'^2) - (b - e^2) by ring]
    refine (abs_sub _ _).trans ?_
    have : 26/2^53*Q = 13/2^53*Q + 13/2^53*Q := by ring
    linarith
  have d2 : |e'^2 - e^2| ≤ Q := by
    have u1 := sq_le_sq' (by linarith [h3.1] : -R ≤ e) h3.2
    have u2 := sq_le_sq' (by linarith [h4.1] : -R ≤ e') h4.2
    rw [abs_le]
    constructor <;> nlinarith [sq_nonneg e, sq_nonneg e']
  have g := fl_err_abs (a - b)
  have d3 := abs_sub_abs_le_abs_sub (a - b) (e'^2 - e^2)
  have d4 := abs_sub_le (fl (a - b)) (a - b) (e'^2 - e^2)
  rw [abs_sub_comm (fl (a - b)) (a - b)] at d4
  norm_num at *
  linarith

/-- An entry of the weighted dense grid. -/
theorem entry_near {R G w W g : ℝ} (hR : (2:ℝ)^(-200 : ℤ) ≤ R) (hG : (2:ℝ)^(-600 : ℤ) ≤ G) (hw : 0 ≤ w ∧ w ≤ R^2)
    (hW : |W - w| ≤ 30/2^53*R^2) (hg : |g| ≤ G) : |F64.mul g W - w*g| ≤ 34/2^53*(G*R^2) := by
  have hR0 : 0 < R := (two_zpow_pos _).trans_le hR
  have hG0 : 0 < G := (two_zpow_pos _).trans_le hG
  have ht := tiny_le hG hR
  have hW' : |W| ≤ 1.01*R^2 := by
    have := abs_sub_abs_le_abs_sub W w
    rw [abs_of_nonneg hw.1] at this
    have : 30/2^53*R^2 ≤ 0.01*R^2 := mul_le_mul_of_nonneg_right (by norm_num) (by positivity)
    linarith [hw.2]
  have a1 : |g*W - w*g| ≤ G*(30/2^53*R^2) := by
    rw [show g*W - w*g = g*(W - w) by ring, abs_mul]
    exact mul_le_mul hg hW (abs_nonneg _) hG0.le
  have a2 : |g*W| ≤ G*(1.01*R^2) := by
    rw [abs_mul]
    exact mul_le_mul hg hW' (abs_nonneg _) hG0.le
  have f := fl_err_abs (g*W)
  unfold F64.mul
  have a3 := abs_sub_le (fl (g*W)) (g*W) (w*g)
  rw [abs_sub_comm (fl (g*W)) (g*W)] at a3
  have : 0 < G*R^2 := by positivity
  norm_num at *
  nlinarith

/-! ## The remapping -/

theorem tree_congr {x y : ℕ → ℝ} : ∀ {t : SumTree}, (∀ k ∈ t.leaves, x k = y k) → t.sum x = t.sum y
  | .leaf k, h => h k (by simp [SumTree.leaves])
  | .node l r, h => by
    simp only [SumTree.leaves, List.mem_append] at h
    simp only [SumTree.sum]
    rw [tree_congr fun k hk => h k (.inl hk), tree_congr fun k hk => h k (.inr hk)]

theorem downgrade64_ok {t t' : SumTree} {a : Arr2 ℝ} {nump numr m : ℕ} (ht : t.leaves.Perm (List.range m))
    (ht' : t'.leaves.Perm (List.range m)) (hnr : 1 ≤ numr) (hr : a.rows = m*nump) (hc : a.cols = m*numr) :
    ∃ out, downgrade64 t t' a nump numr m m (m*numr) = .ok out ∧ out.rows = nump ∧ out.cols = numr ∧
      ∀ i j, i < nump → j < numr → out.val i j
        = F64.div (t'.sum fun l => t.sum fun k => a.val (i*m + k) (j*m + l)) (F64.ofInt m) := by
  have hm : 1 ≤ m := perm_pos ht
  have hC : 0 < m*numr := Nat.mul_pos hm hnr
  have h1 : a.rows*a.cols = nump*m*(m*numr) := by rw [hr, hc]; ring
  have h2 : nump*(m*numr) = nump*numr*m := by ring
  refine ⟨_, by
    unfold downgrade64 Arr2.reshape3
    rw [if_pos h1]
    simp only [bind, Except.bind]
    rw [if_pos h2]
    rfl, rfl, rfl, ?_⟩
  intro i j hi hj
  dsimp only
  congr 1
  refine tree_congr fun l hl => ?_
  have hl' := perm_mem ht' hl
  have hlt : j*m + l < m*numr := by nlinarith
  have hflat : (i*numr + j)*m + l = (j*m + l) + i*(m*numr) := by ring
  have hdiv : ((i*numr + j)*m + l)/(m*numr) = i := by
    rw [hflat, Nat.add_mul_div_right _ _ hC, Nat.div_eq_of_lt hlt]; simp
  have hmod : ((i*numr + j)*m + l) % (m*numr) = j*m + l := by
    rw [hflat, Nat.add_mul_mod_self_right, Nat.mod_eq_of_lt hlt]
  simp only [hdiv, hmod]
  refine tree_congr fun k hk => ?_
  have hd : ((i*m + k)*(m*numr) + (j*m + l))/(m*numr) = i*m + k := by
    rw [add_comm, Nat.add_mul_div_right _ _ hC, Nat.div_eq_of_lt hlt]; simp
  have hmd : ((i*m + k)*(m*numr) + (j*m + l)) % (m*numr) = j*m + l := by
    rw [add_comm, Nat.add_mul_mod_self_right, Nat.mod_eq_of_lt hlt]
  rw [hc]
  simp only [hd, hmd]

theorem boxCell_lt {lo hi x : ℝ} {n a : ℕ} (h : Divisible lo hi n) (hlt : lo < hi)
    (hw : 2*cellMargin lo hi n ≤ (hi - lo)/n) (hx : boxCell64 lo hi n x = some a) : a < n :=
  (C109_near lo hi n h hlt hw x a hx).1

/-- A sample of the box: the point at which it is read does not depend on the data. -/
theorem sample_ok (L : Trig) {B : BoxArgs} (hB : BoxOk B)
    (hx : Divisible B.xmin B.xmax B.numx.toNat) (hxw : 2*cellMargin B.xmin B.xmax B.numx.toNat ≤ (B.xmax - B.xmin)/B.numx.toNat)
    (hy : Divisible B.ymin B.ymax B.numy.toNat) (hyw : 2*cellMargin B.ymin B.ymax B.numy.toNat ≤ (B.ymax - B.ymin)/B.numy.toNat)
    (c : ℝ × ℝ) (r p : ℝ) :
    ∃ pt : ℝ × ℝ, |pt.1 - (polar2cart64 L r p c).1| ≤ 2*cellMargin B.xmin B.xmax B.numx.toNat ∧
      |pt.2 - (polar2cart64 L r p c).2| ≤ 2*cellMargin B.ymin B.ymax B.numy.toNat ∧
      ∀ f : Arr2 ℝ, f.rows = B.numy.toNat → f.cols = B.numx.toNat →
        ∃ g, highres64 L B c f r p = .ok g ∧ (g = 0 ∨ ∃ b < f.rows, ∃ a < f.cols, g = f.val b a) ∧
          Dg.Reads B f.val pt g := by
  obtain ⟨x', ex, ix⟩ := cell_near hx hB.hx hxw (polar2cart64 L r p c).1
  obtain ⟨y', ey, iy⟩ := cell_near hy hB.hy hyw (polar2cart64 L r p c).2
  refine ⟨(x', y'), ex, ey, fun f hr hc => ?_⟩
  unfold highres64
  dsimp only
  cases cx : boxCell64 B.xmin B.xmax B.numx.toNat (polar2cart64 L r p c).1 with
  | none =>
    refine ⟨0, rfl, .inl rfl, ?_, fun _ => rfl⟩
    intro a b ha hb
    have := (ix a).mp ha
    rw [cx] at this; cases this
  | some a =>
    cases cy : boxCell64 B.ymin B.ymax B.numy.toNat (polar2cart64 L r p c).2 with
    | none =>
      refine ⟨0, rfl, .inl rfl, ?_, fun _ => rfl⟩
      intro a b ha hb
      have := (iy b).mp hb
      rw [cy] at this; cases this
    | some b =>
      have la : a < f.cols := by rw [hc]; exact boxCell_lt hx hB.hx hxw cx
      have lb : b < f.rows := by rw [hr]; exact boxCell_lt hy hB.hy hyw cy
      refine ⟨f.val b a, ?_, .inr ⟨b, lb, a, la, rfl⟩, ?_, ?_⟩
      · simp only [Arr2.get]
        rw [if_pos ⟨lb, la⟩]
      · intro a' b' ha hb
        have h1 := (ix a').mp ha
        have h2 := (iy b').mp hb
        rw [cx] at h1; rw [cy] at h2
        cases h1; cases h2; rfl
      · intro hn
        exact absurd ⟨a, b, (ix a).mpr cx, (iy b).mpr cy⟩ hn

theorem edgeAt_mul (lo hi : ℝ) {m n : ℕ} (hm : 1 ≤ m) (j : ℕ) : edgeAt lo hi (m*n) (j*m) = edgeAt lo hi n j := by
  have : (m:ℝ) ≠ 0 := by positivity
  unfold edgeAt
  push_cast
  rcases Nat.eq_zero_or_pos n with rfl | hn
  · simp
  · have : (n:ℝ) ≠ 0 := by positivity
    field_simp

theorem ring_sum (A : PolarArgs) {m : ℕ} (hm : 1 ≤ m) (j : ℕ) : ∑ l ∈ range m, Dg.rweight A m (j*m + l)
    = edgeAt A.rmin A.rmax A.numr.toNat (j+1)^2 - edgeAt A.rmin A.rmax A.numr.toNat j^2 := by
  unfold Dg.rweight
  have := Finset.sum_range_sub (fun l => edgeAt A.rmin A.rmax (m*A.numr.toNat) (j*m + l)^2) m
  simp only [← add_assoc] at this
  rw [this, add_zero, edgeAt_mul _ _ hm, ← edgeAt_mul A.rmin A.rmax hm (j+1)]
  congr 3
  ring

theorem edgeAt_range {lo hi : ℝ} (h : lo ≤ hi) {n k : ℕ} (hn : 0 < n) (hk : k ≤ n) : lo ≤ edgeAt lo hi n k ∧ edgeAt lo hi n k ≤ hi := by
  have h1 := Box2Ring.edgeAt_mono h n (Nat.zero_le k)
  have h2 := Box2Ring.edgeAt_mono h n hk
  have hn' : (n:ℝ) ≠ 0 := by positivity
  have e1 : edgeAt lo hi n 0 = lo := by unfold edgeAt; simp
  have e2 : edgeAt lo hi n n = hi := by unfold edgeAt; field_simp; ring
  rw [e1] at h1
  rw [e2] at h2
  exact ⟨h1, h2⟩

theorem tree_zero {t : SumTree} {x : ℕ → ℝ} (h : ∀ k ∈ t.leaves, x k = 0) : t.sum x = 0 := by
  induction t with
  | leaf k => exact h k (by simp [SumTree.leaves])
  | node a b ha hb =>
    show F64.add (a.sum x) (b.sum x) = 0
    rw [ha fun k hk => h k (by simp [SumTree.leaves, hk]), hb fun k hk => h k (by simp [SumTree.leaves, hk])]
    unfold F64.add; rw [add_zero]; simpa using fl_int (n := 0) (by norm_num)

/-- The points at which the box is read. -/
theorem points_ok {L : Trig} (hL : TrigNear L) {B : BoxArgs} {A : PolarArgs} {m : ℕ} (hB : BoxOk B) (hA : PolarOk A)
    (hx : Divisible B.xmin B.xmax B.numx.toNat) (hxw : 2*cellMargin B.xmin B.xmax B.numx.toNat ≤ (B.xmax - B.xmin)/B.numx.toNat)
    (hy : Divisible B.ymin B.ymax B.numy.toNat) (hyw : 2*cellMargin B.ymin B.ymax B.numy.toNat ≤ (B.ymax - B.ymin)/B.numy.toNat)
    (hr : Divisible A.rmin A.rmax (m*A.numr.toNat)) (hp : Divisible A.pmin A.pmax (m*A.nump.toNat))
    (hs : |A.phiShift| ≤ 16) (hR : (2:ℝ)^(-200 : ℤ) ≤ A.rmax) :
    ∃ pt : ℕ → ℕ → ℝ × ℝ, (∀ n < m*A.nump.toNat, ∀ q < m*A.numr.toNat,
        |(pt n q).1 - (Dg.densePoint A m m n q).1| ≤ (A.rmax + |A.center.getD 0 0|)/2^44 + 2*cellMargin B.xmin B.xmax B.numx.toNat ∧
        |(pt n q).2 - (Dg.densePoint A m m n q).2| ≤ (A.rmax + |A.center.getD 1 0|)/2^44 + 2*cellMargin B.ymin B.ymax B.numy.toNat) ∧
      ∀ f : Arr2 ℝ, f.rows = B.numy.toNat → f.cols = B.numx.toNat → ∀ n q,
        ∃ g, highres64 L B (centerOf A.center) f (mid64 A.rmin A.rmax (m*A.numr.toNat) q)
            (shiftPhi64 A.phiShift (mid64 A.pmin A.pmax (m*A.nump.toNat) n)) = .ok g ∧
          (g = 0 ∨ ∃ b < f.rows, ∃ a < f.cols, g = f.val b a) ∧ Dg.Reads B f.val (pt n q) g := by
  set NR := A.numr.toNat with hNR
  set NP := A.nump.toNat with hNP
  set c := centerOf A.center with hc
  have hsam := fun n q => sample_ok L hB hx hxw hy hyw c (mid64 A.rmin A.rmax (m*NR) q)
    (shiftPhi64 A.phiShift (mid64 A.pmin A.pmax (m*NP) n))
  choose pt p1 p2 p3 using hsam
  refine ⟨pt, fun n hn q hq => ?_, fun f fr fc n q => p3 n q f fr fc⟩
  obtain ⟨a1, a2, z, a3⟩ := angle_near hA hp hs hn
  obtain ⟨c1, c2⟩ := cos_near hL a1 a2 a3
  have r1 := mid64_between hr hA.rmin hq
  have r2 := mid64_near hr hA.rmin hq
  have r3 : 0 ≤ midAt A.rmin A.rmax (m*NR) q ∧ midAt A.rmin A.rmax (m*NR) q ≤ A.rmax := by
    have e1 := edgeAt_range hA.r.le (n := m*NR) (k := q) (by omega) hq.le
    have e2 := edgeAt_range hA.r.le (n := m*NR) (k := q+1) (by omega) hq
    have := hA.rmin
    unfold midAt
    constructor <;> linarith
  have x1 := coord_near (x0 := c.1) hR r1 r3 r2 (Real.abs_cos_le_one _) c1
  have x2 := coord_near (x0 := c.2) hR r1 r3 r2 (Real.abs_sin_le_one _) c2
  constructor
  · have := abs_sub_le (pt n q).1 (polar2cart64 L (mid64 A.rmin A.rmax (m*NR) q)
      (shiftPhi64 A.phiShift (mid64 A.pmin A.pmax (m*NP) n)) c).1 (Dg.densePoint A m m n q).1
    have : |(polar2cart64 L (mid64 A.rmin A.rmax (m*NR) q)
      (shiftPhi64 A.phiShift (mid64 A.pmin A.pmax (m*NP) n)) c).1 - (Dg.densePoint A m m n q).1|
        ≤ (A.rmax + |A.center.getD 0 0|)/2^44 := x1
    linarith [p1 n q]
  · have := abs_sub_le (pt n q).2 (polar2cart64 L (mid64 A.rmin A.rmax (m*NR) q)
      (shiftPhi64 A.phiShift (mid64 A.pmin A.pmax (m*NP) n)) c).2 (Dg.densePoint A m m n q).2
    have : |(polar2cart64 L (mid64 A.rmin A.rmax (m*NR) q)
      (shiftPhi64 A.phiShift (mid64 A.pmin A.pmax (m*NP) n)) c).2 - (Dg.densePoint A m m n q).2|
        ≤ (A.rmax + |A.center.getD 1 0|)/2^44 := x2
    linarith [p2 n q]

set_option maxHeartbeats 1000000 in
theorem remap64_at {L : Trig} (hL : TrigNear L) {O : Orders} {B : BoxArgs} {A : PolarArgs} {m : ℕ} (hB : BoxOk B) (hA : PolarOk A)
    (o1 : O.rows.leaves.Perm (List.range m)) (o2 : O.cols.leaves.Perm (List.range m))
    (o3 : O.areaRows.leaves.Perm (List.range m)) (o4 : O.areaCols.leaves.Perm (List.range m))
    (hr : Divisible A.rmin A.rmax (m*A.numr.toNat)) (hp : Divisible A.pmin A.pmax (m*A.nump.toNat))
    (hs : |A.phiShift| ≤ 16) (hR : (2:ℝ)^(-200 : ℤ) ≤ A.rmax)
    (hK : ∀ j < A.numr.toNat, m*A.rmax^2 ≤ 2^40*(edgeAt A.rmin A.rmax A.numr.toNat (j+1)^2 - edgeAt A.rmin A.rmax A.numr.toNat j^2))
    {pt : ℕ → ℕ → ℝ × ℝ} {f : Arr2 ℝ} (hpt : ∀ n q,
        ∃ g, highres64 L B (centerOf A.center) f (mid64 A.rmin A.rmax (m*A.numr.toNat) q)
            (shiftPhi64 A.phiShift (mid64 A.pmin A.pmax (m*A.nump.toNat) n)) = .ok g ∧
          (g = 0 ∨ ∃ b < f.rows, ∃ a < f.cols, g = f.val b a) ∧ Dg.Reads B f.val (pt n q) g)
    (fr : f.rows = B.numy.toNat) (fc : f.cols = B.numx.toNat) {F : ℝ} (hF : 0 ≤ F)
    (hf : ∀ b < f.rows, ∀ a < f.cols, |f.val b a| ≤ F) :
    ∃ out g, remap64 L O B A m m f = .ok out ∧ out.rows = A.nump.toNat ∧ out.cols = A.numr.toNat ∧
      (∀ n q, Dg.Reads B f.val (pt n q) (g n q)) ∧
      ∀ i < A.nump.toNat, ∀ j < A.numr.toNat, ∃ d, out.val i j = some d ∧
        |d - Dg.areaSum A m g i j/Dg.areaSum A m (fun _ _ => 1) i j|
          ≤ A.rmax^2/(edgeAt A.rmin A.rmax A.numr.toNat (j+1)^2 - edgeAt A.rmin A.rmax A.numr.toNat j^2)*m/2^45*
            (F + (2:ℝ)^(-600 : ℤ)) ∧
        (O.rows = O.areaRows → O.cols = O.areaCols → (∀ k < m, ∀ l < m, g (i*m + k) (j*m + l) = 1) → d = 1) ∧
        ((∀ k < m, ∀ l < m, g (i*m + k) (j*m + l) = 0) → d = 0) := by
  have hm : 1 ≤ m := perm_pos o1
  have hnr := hA.numr
  have hnp := hA.nump
  set NR := A.numr.toNat with hNR
  set NP := A.nump.toNat with hNP
  have hNR1 : 1 ≤ NR := by omega
  set c := centerOf A.center with hc
  -- the samples
  choose g hg1 hg2' hg3 using hpt
  have hg2 : ∀ n q, |g n q| ≤ F := by
    intro n q
    rcases hg2' n q with h | ⟨b, hb, a, ha, h⟩
    · rw [h, abs_zero]; exact hF
    · rw [h]; exact hf b hb a ha
  obtain ⟨hi, ehi, hir, hic, hiv⟩ := tabulate_ok (m*NP) (m*NR)
    (fun i j => highres64 L B c f (((List.range (m*NR)).map (mid64 A.rmin A.rmax (m*NR))).getD j 0)
      (shiftPhi64 A.phiShift (((List.range (m*NP)).map (mid64 A.pmin A.pmax (m*NP))).getD i 0)))
    g 0 (by
      intro i j hi hj
      rw [getD_range_map _ _ _ hi, getD_range_map _ _ _ hj]
      exact hg1 i j)
  set W : ℕ → ℝ := fun k => F64.sub (F64.mul (edge64 A.rmin A.rmax (m*NR) (k+1)) (edge64 A.rmin A.rmax (m*NR) (k+1)))
    (F64.mul (edge64 A.rmin A.rmax (m*NR) k) (edge64 A.rmin A.rmax (m*NR) k)) with hW
  set rw2 : Arr2 ℝ := ⟨m*NP, m*NR, fun _ j => ((List.range (m*NR)).map W).getD j 0⟩ with hrw2
  set hi2 : Arr2 ℝ := ⟨hi.rows, hi.cols, fun i j => F64.mul (hi.val i j) (rw2.val i j)⟩ with hhi2
  obtain ⟨fp, efp, fpr, fpc, fpv⟩ := downgrade64_ok (a := hi2) (nump := NP) (numr := NR) o1 o2 hNR1 hir hic
  obtain ⟨wp, ewp, wpr, wpc, wpv⟩ := downgrade64_ok (a := rw2) (nump := NP) (numr := NR) o3 o4 hNR1 rfl rfl
  refine ⟨⟨fp.rows, fp.cols, fun i j => if wp.val i j = 0 then none else some (F64.div (fp.val i j) (wp.val i j))⟩, g,
    ?_, fpr, fpc, hg3, ?_⟩
  · unfold remap64
    simp only [denseMids_eq hr, denseMids_eq hp, weights_eq hr, List.length_map, List.length_range, ← hc, ehi, bind,
      Except.bind, ← hNR, ← hNP]
    have z1 : hi.zip F64.mul rw2 = .ok hi2 := by
      unfold Arr2.zip; rw [if_pos ⟨hir, hic⟩]
    rw [show (⟨m*NP, m*NR, fun _ j => ((List.range (m*NR)).map fun k =>
      F64.sub (F64.mul (edge64 A.rmin A.rmax (m*NR) (k+1)) (edge64 A.rmin A.rmax (m*NR) (k+1)))
    (F64.mul (edge64 A.rmin A.rmax (m*NR) k) (edge64 A.rmin A.rmax (m*NR) k))).getD j 0⟩ : Arr2 ℝ) = rw2 from rfl]
    simp only [z1, efp, ewp]
    unfold Arr2.zip
    rw [if_pos ⟨by rw [fpr, wpr], by rw [fpc, wpc]⟩]
  · intro i hi' j hj
    set G := F + (2:ℝ)^(-600 : ℤ) with hG
    have hG1 : (2:ℝ)^(-600 : ℤ) ≤ G := by linarith
    have h1' : (2:ℝ)^(-600 : ℤ) ≤ 1 := by
      rw [show (1:ℝ) = (2:ℝ)^(0:ℤ) by norm_num]; exact zpow_le_zpow_right₀ (by norm_num) (by norm_num)
    set w : ℕ → ℝ := fun l => Dg.rweight A m (j*m + l) with hw
    set Ω := edgeAt A.rmin A.rmax NR (j+1)^2 - edgeAt A.rmin A.rmax NR j^2 with hΩd
    have hΩ : ∑ l ∈ range m, w l = Ω := ring_sum A hm j
    have hw0 : ∀ l, 0 < w l := fun l => Dg.rweight_pos hA hm _
    have hR0 : 0 < A.rmax := (two_zpow_pos _).trans_le hR
    have hΩ0 : 0 < Ω := by
      rw [← hΩ]; exact sum_pos (fun l _ => hw0 l) ⟨0, mem_range.mpr hm⟩
    have hrm := hA.rmin
    have hsq : ∀ e : ℝ, 0 ≤ e → e ≤ A.rmax → e^2 ≤ A.rmax^2 := fun e h1 h2 => pow_le_pow_left₀ h1 h2 2
    have hΩR : Ω ≤ A.rmax^2 := by
      obtain ⟨u1, u2⟩ := edgeAt_range hA.r.le (n := NR) (k := j+1) hNR1 hj
      have := hsq _ (hrm.trans u1) u2
      have := sq_nonneg (edgeAt A.rmin A.rmax NR j)
      linarith
    have hm40 : m ≤ 2^40 := by
      have := hK j hj
      have h2 : (m:ℝ)*A.rmax^2 ≤ 2^40*A.rmax^2 := by nlinarith
      have h3 : (m:ℝ) ≤ 2^40 := le_of_mul_le_mul_right h2 (by positivity)
      exact_mod_cast h3
    have hlt : ∀ l < m, j*m + l < m*NR := fun l hl => by nlinarith
    have hlt2 : ∀ k < m, i*m + k < m*NP := fun k hk => by nlinarith
    have hWn : ∀ l < m, |W (j*m + l) - w l| ≤ 30/2^53*A.rmax^2 := by
      intro l hl
      have l1 := hlt l hl
      have b1 := edge64_between hr (show j*m + l ≤ m*NR by omega)
      have b2 := edge64_between hr (show j*m + l + 1 ≤ m*NR by omega)
      have b3 := edgeAt_range hA.r.le (n := m*NR) (k := j*m + l) (by omega) (by omega)
      have b4 := edgeAt_range hA.r.le (n := m*NR) (k := j*m + l + 1) (by omega) (by omega)
      exact weight_near hR ⟨hrm.trans b1.1, b1.2⟩ ⟨hrm.trans b2.1, b2.2⟩ ⟨hrm.trans b3.1, b3.2⟩ ⟨hrm.trans b4.1, b4.2⟩
        (edge_near hr hrm (by omega)) (edge_near hr hrm (by omega))
    have hwR : ∀ l < m, w l ≤ A.rmax^2 := by
      intro l hl
      have l1 := hlt l hl
      obtain ⟨u1, u2⟩ := edgeAt_range hA.r.le (n := m*NR) (k := j*m + l + 1) (by omega) (by omega)
      have := hsq _ (hrm.trans u1) u2
      have := sq_nonneg (edgeAt A.rmin A.rmax (m*NR) (j*m + l))
      show edgeAt A.rmin A.rmax (m*NR) (j*m + l + 1)^2 - _ ≤ _
      linarith
    obtain ⟨P1, P2⟩ := mean2 o1 o2 hm40 hG1 hR (w := w) (fun l _ => (hw0 l).le) hΩ hΩ0 hΩR (hK j hj)
      (g := fun k l => g (i*m + k) (j*m + l)) (Y := fun k l => F64.mul (g (i*m + k) (j*m + l)) (W (j*m + l)))
      (fun k _ l _ => (hg2 _ _).trans (by have := two_zpow_pos (-600); linarith)) (fun _ _ _ _ => grid_fl _)
      (fun k hk l hl => entry_near hR hG1 ⟨(hw0 l).le, hwR l hl⟩ (hWn l hl)
        ((hg2 _ _).trans (by have := two_zpow_pos (-600); linarith)))
    obtain ⟨Q1, -⟩ := mean2 o3 o4 hm40 h1' hR (w := w) (fun l _ => (hw0 l).le) hΩ hΩ0 hΩR (hK j hj)
      (g := fun k l => 1) (Y := fun k l => W (j*m + l))
      (fun k _ l _ => by rw [abs_one]) (fun _ _ _ _ => grid_fl _)
      (fun k hk l hl => by
        rw [mul_one, one_mul]
        refine (hWn l hl).trans (mul_le_mul_of_nonneg_right (by norm_num) (by positivity)))
    have hmr : (m:ℝ) ≠ 0 := by positivity
    have eΩ : (∑ l ∈ range m, ∑ k ∈ range m, w l*(1:ℝ))/m = Ω := by
      simp only [mul_one, sum_const, card_range, nsmul_eq_mul]
      rw [← Finset.mul_sum, hΩ]
      field_simp
    rw [eΩ, one_mul] at Q1
    have efp : fp.val i j = F64.div (O.cols.sum fun l => O.rows.sum fun k => F64.mul (g (i*m + k) (j*m + l)) (W (j*m + l)))
        (F64.ofInt m) := by
      rw [fpv i j hi' hj]
      congr 1
      refine tree_congr fun l hl => tree_congr fun k hk => ?_
      have l1 := hlt l (perm_mem o2 hl)
      have k1 := hlt2 k (perm_mem o1 hk)
      show F64.mul (hi.val _ _) (((List.range (m*NR)).map W).getD _ 0) = _
      rw [hiv _ _ k1 l1, getD_range_map _ _ _ l1]
    have ewp : wp.val i j = F64.div (O.areaCols.sum fun l => O.areaRows.sum fun k => W (j*m + l)) (F64.ofInt m) := by
      rw [wpv i j hi' hj]
      congr 1
      refine tree_congr fun l hl => tree_congr fun k hk => ?_
      have l1 := hlt l (perm_mem o4 hl)
      show ((List.range (m*NR)).map W).getD _ 0 = _
      rw [getD_range_map _ _ _ l1]
    rw [← efp] at P1
    rw [← ewp] at Q1
    obtain ⟨q1, q2⟩ := quot2 hm hG1 hΩ0 hΩR (hK j hj) P2 P1 Q1
    refine ⟨_, if_neg q1.ne', ?_, fun x1 x2 x3 => ?_, fun x3 => ?_⟩
    rotate_left
    · have e : fp.val i j = wp.val i j := by
        rw [efp, ewp, x1, x2]
        congr 1
        refine tree_congr fun l hl => tree_congr fun k hk => ?_
        rw [x3 k (perm_mem o3 hk) l (perm_mem o4 hl)]
        unfold F64.mul
        rw [one_mul]
        exact fl_fl _
      rw [e]
      unfold F64.div
      rw [div_self q1.ne']
      simpa using fl_int (n := 1) (by norm_num)
    · have e : fp.val i j = 0 := by
        rw [efp, tree_zero fun l hl => ?_]
        · unfold F64.div; rw [zero_div]; simpa using fl_int (n := 0) (by norm_num)
        · refine tree_zero fun k hk => ?_
          rw [x3 k (perm_mem o1 hk) l (perm_mem o2 hl)]
          unfold F64.mul; rw [zero_mul]; simpa using fl_int (n := 0) (by norm_num)
      rw [e]
      unfold F64.div
      rw [zero_div]
      simpa using fl_int (n := 0) (by norm_num)
    have hps := Dg.pstep_pos hA hm
    have ea : Dg.areaSum A m g i j/Dg.areaSum A m (fun _ _ => 1) i j
        = (∑ l ∈ range m, ∑ k ∈ range m, w l*g (i*m + k) (j*m + l))/m/Ω := by
      rw [Dg.areaSum_eq hA hm, Dg.areaSum_eq hA hm, mul_div_mul_left _ _ hps.ne']
      have e1 : ∑ l ∈ range m, ∑ k ∈ range m, Dg.rweight A m (j*m + l)*(1:ℝ) = m*Ω := by
        have := (div_eq_iff hmr).mp eΩ
        exact this.trans (mul_comm _ _)
      rw [e1, div_div]
    rw [ea]
    exact q2

theorem remap64_ok {L : Trig} (hL : TrigNear L) {O : Orders} {B : BoxArgs} {A : PolarArgs} {m : ℕ} (hB : BoxOk B) (hA : PolarOk A)
    (o1 : O.rows.leaves.Perm (List.range m)) (o2 : O.cols.leaves.Perm (List.range m))
    (o3 : O.areaRows.leaves.Perm (List.range m)) (o4 : O.areaCols.leaves.Perm (List.range m))
    (hx : Divisible B.xmin B.xmax B.numx.toNat) (hxw : 2*cellMargin B.xmin B.xmax B.numx.toNat ≤ (B.xmax - B.xmin)/B.numx.toNat)
    (hy : Divisible B.ymin B.ymax B.numy.toNat) (hyw : 2*cellMargin B.ymin B.ymax B.numy.toNat ≤ (B.ymax - B.ymin)/B.numy.toNat)
    (hr : Divisible A.rmin A.rmax (m*A.numr.toNat)) (hp : Divisible A.pmin A.pmax (m*A.nump.toNat))
    (hs : |A.phiShift| ≤ 16) (hR : (2:ℝ)^(-200 : ℤ) ≤ A.rmax)
    (hK : ∀ j < A.numr.toNat, m*A.rmax^2 ≤ 2^40*(edgeAt A.rmin A.rmax A.numr.toNat (j+1)^2 - edgeAt A.rmin A.rmax A.numr.toNat j^2))
    {f : Arr2 ℝ} (fr : f.rows = B.numy.toNat) (fc : f.cols = B.numx.toNat) {F : ℝ} (hF : 0 ≤ F)
    (hf : ∀ b < f.rows, ∀ a < f.cols, |f.val b a| ≤ F) :
    ∃ out g, remap64 L O B A m m f = .ok out ∧ out.rows = A.nump.toNat ∧ out.cols = A.numr.toNat ∧
      (∀ n < m*A.nump.toNat, ∀ q < m*A.numr.toNat, ∃ pt : ℝ × ℝ,
        |pt.1 - (Dg.densePoint A m m n q).1| ≤ (A.rmax + |A.center.getD 0 0|)/2^44 + 2*cellMargin B.xmin B.xmax B.numx.toNat ∧
        |pt.2 - (Dg.densePoint A m m n q).2| ≤ (A.rmax + |A.center.getD 1 0|)/2^44 + 2*cellMargin B.ymin B.ymax B.numy.toNat ∧
        Dg.Reads B f.val pt (g n q)) ∧
      ∀ i < A.nump.toNat, ∀ j < A.numr.toNat, ∃ d, out.val i j = some d ∧
        |d - Dg.areaSum A m g i j/Dg.areaSum A m (fun _ _ => 1) i j|
          ≤ A.rmax^2/(edgeAt A.rmin A.rmax A.numr.toNat (j+1)^2 - edgeAt A.rmin A.rmax A.numr.toNat j^2)*m/2^45*
            (F + (2:ℝ)^(-600 : ℤ)) ∧
        (O.rows = O.areaRows → O.cols = O.areaCols → (∀ k < m, ∀ l < m, g (i*m + k) (j*m + l) = 1) → d = 1) := by
  obtain ⟨pt, h1, h2⟩ := points_ok hL hB hA hx hxw hy hyw hr hp hs hR
  obtain ⟨out, g, e1, e2, e3, e4, e5⟩ := remap64_at (O := O) hL hB hA o1 o2 o3 o4 hr hp hs hR hK (h2 f fr fc) fr fc hF hf
  refine ⟨out, g, e1, e2, e3, fun n hn q hq => ⟨pt n q, (h1 n hn q hq).1, (h1 n hn q hq).2, e4 n q⟩, fun i hi j hj => ?_⟩
  obtain ⟨d, d1, d2, d3, -⟩ := e5 i hi j hj
  exact ⟨d, d1, d2, d3⟩

/-- A coordinate far from the cell boundaries is in the same cell as those near it. -/
theorem inCell_far {lo hi x x' ε : ℝ} {n : ℕ} (h : |x' - x| ≤ ε) (hf : ∀ k ≤ n, ε < |x - edgeAt lo hi n k|) (a : ℕ) :
    InCell lo hi n a x' ↔ InCell lo hi n a x := by
  have key : ∀ k ≤ n, (edgeAt lo hi n k ≤ x' ↔ edgeAt lo hi n k ≤ x) := by
    intro k hk
    have h1 := hf k hk
    rw [abs_le] at h
    rw [lt_abs] at h1
    constructor
    · intro h2
      by_contra h3
      push Not at h3
      rcases h1 with h1 | h1 <;> linarith
    · intro h2
      rcases h1 with h1 | h1 <;> linarith
  unfold InCell
  constructor
  · rintro ⟨h1, h2, h3⟩
    refine ⟨h1, (key a h1.le).mp h2, ?_⟩
    by_contra h4
    exact absurd ((key (a+1) h1).mpr (not_lt.mp h4)) (not_le.mpr h3)
  · rintro ⟨h1, h2, h3⟩
    refine ⟨h1, (key a h1.le).mpr h2, ?_⟩
    by_contra h4
    exact absurd ((key (a+1) h1).mp (not_lt.mp h4)) (not_le.mpr h3)

theorem reads_unique {B : BoxArgs} {v : ℕ → ℕ → ℝ} {pt : ℝ × ℝ} {x y : ℝ} (hx : Dg.Reads B v pt x) (hy : Dg.Reads B v pt y) :
    x = y := by
  by_cases h : ∃ a b, InCell B.xmin B.xmax B.numx.toNat a pt.1 ∧ InCell B.ymin B.ymax B.numy.toNat b pt.2
  · obtain ⟨a, b, h1, h2⟩ := h
    rw [hx.1 a b h1 h2, hy.1 a b h1 h2]
  · rw [hx.2 h, hy.2 h]

/-- The quotient of two means, each with an error. -/
theorem quot_weighted {κ F W D S N a b : ℝ} (hF : 0 ≤ F) (hW : 0 ≤ W) (hκ : 1/2^45 ≤ κ) (hDW : D ≤ W) (hS : |S| ≤ F*D)
    (hN : |N - S| ≤ F*D/2^53 + (2:ℝ)^(-1075 : ℤ))
    (ha : |a - N| ≤ κ*(F*W*(1 + 1/2^53) + (2:ℝ)^(-1075 : ℤ) + (2:ℝ)^(-600 : ℤ)))
    (hb : |b - D| ≤ κ*(W + (2:ℝ)^(-600 : ℤ)))
    (hD : 4*κ*(W + (2:ℝ)^(-300 : ℤ)) ≤ D) :
    0 < b ∧ |F64.div a b - S/D| ≤ 4*κ*(F + (2:ℝ)^(-300 : ℤ))*(W + (2:ℝ)^(-300 : ℤ))/D := by
  have hκ0 : 0 < κ := lt_of_lt_of_le (by norm_num) hκ
  have ht0 : (0:ℝ) < (2:ℝ)^(-300 : ℤ) := two_zpow_pos _
  have ht1 : (2:ℝ)^(-300 : ℤ) ≤ 1 := by
    rw [show (1:ℝ) = (2:ℝ)^(0:ℤ) by norm_num]; exact zpow_le_zpow_right₀ (by norm_num) (by norm_num)
  have ht2 : (2:ℝ)^(-600 : ℤ) = (2:ℝ)^(-300 : ℤ)*(2:ℝ)^(-300 : ℤ) := by rw [← zpow_add₀ (by norm_num)]; norm_num
  have hu : (2:ℝ)^(-1075 : ℤ) ≤ 1/2^45/2^100*((2:ℝ)^(-300 : ℤ)*(2:ℝ)^(-300 : ℤ)) := by
    rw [← ht2, show (1:ℝ)/2^45/2^100 = (2:ℝ)^(-145 : ℤ) by norm_num, ← zpow_add₀ (by norm_num)]
    exact zpow_le_zpow_right₀ (by norm_num) (by norm_num)
  have hu0 : (0:ℝ) < (2:ℝ)^(-1075 : ℤ) := two_zpow_pos _
  have h9 := fl_err_abs (a/b)
  rw [ht2] at ha hb
  generalize (2:ℝ)^(-300 : ℤ) = t at *
  generalize (2:ℝ)^(-1075 : ℤ) = u at *
  clear ht2
  set X := κ*((F + t)*(W + t)) with hX
  have htt : 0 < t*t := mul_pos ht0 ht0
  have hFW : 0 ≤ F*W := mul_nonneg hF hW
  have hFt : 0 ≤ F*t := mul_nonneg hF ht0.le
  have hWt : 0 ≤ W*t := mul_nonneg hW ht0.le
  have hGV : F*W + t*t ≤ (F + t)*(W + t) := by nlinarith
  have hX0 : 0 < X := mul_pos hκ0 (mul_pos (by linarith) (by linarith))
  have huX : u ≤ X/2^100 := by
    have h1 : 1/2^45*(t*t) ≤ κ*(t*t) := mul_le_mul_of_nonneg_right hκ htt.le
    have h2 : κ*(t*t) ≤ X := mul_le_mul_of_nonneg_left (by linarith) hκ0.le
    linarith
  have hD0 : 0 < D := lt_of_lt_of_le (by positivity) hD
  have hbD : |b - D| ≤ D/4 ∧ |b - D| ≤ κ*(W + t) := by
    have : κ*(W + t*t) ≤ κ*(W + t) := mul_le_mul_of_nonneg_left (by nlinarith) hκ0.le
    constructor <;> linarith
  have hb0 : 3*D/4 ≤ b := by have := (abs_le.mp hbD.1).1; linarith
  have hbp : 0 < b := lt_of_lt_of_le (by linarith) hb0
  have hFWX : F*W/2^53 ≤ X/2^8 := by
    have h1 : 1/2^45*(F*W) ≤ κ*(F*W) := mul_le_mul_of_nonneg_right hκ hFW
    have h2 : κ*(F*W) ≤ X := mul_le_mul_of_nonneg_left (by linarith) hκ0.le
    linarith
  have h1 : |a - N| ≤ X*(1 + 1/2^50) := by
    refine ha.trans ?_
    have e : X*(1 + 1/2^50) = κ*((F + t)*(W + t)*(1 + 1/2^50)) := by rw [hX]; ring
    rw [e]
    refine mul_le_mul_of_nonneg_left ?_ hκ0.le
    have : u ≤ 1/2^53*(t*t) := by
      refine hu.trans (mul_le_mul_of_nonneg_right (by norm_num) htt.le)
    linarith
  have h2 : |N - S| ≤ X/2^7 := by
    have : F*D ≤ F*W := mul_le_mul_of_nonneg_left hDW hF
    linarith
  have h3 : |a - S| ≤ X*(1 + 1/2^6) := by
    have := abs_sub_le a N S
    linarith
  have h4 : |a/b - S/D| ≤ 3*X/D := by
    have e : a/b - S/D = ((a - S)*D + S*(D - b))/(b*D) := by field_simp; ring
    rw [e, abs_div, abs_of_pos (mul_pos hbp hD0), div_le_div_iff₀ (mul_pos hbp hD0) hD0]
    have p1 : |(a - S)*D + S*(D - b)| ≤ X*(1 + 1/2^6)*D + X*D := by
      refine (abs_add_le _ _).trans (add_le_add ?_ ?_)
      · rw [abs_mul, abs_of_pos hD0]
        exact mul_le_mul_of_nonneg_right h3 hD0.le
      · rw [abs_mul, abs_sub_comm D b]
        refine (mul_le_mul hS hbD.2 (abs_nonneg _) (mul_nonneg hF hD0.le)).trans ?_
        have : F*(W + t) ≤ (F + t)*(W + t) := mul_le_mul_of_nonneg_right (by linarith) (by linarith)
        have := mul_le_mul_of_nonneg_left this hκ0.le
        rw [show F*D*(κ*(W + t)) = κ*(F*(W + t))*D by ring]
        exact mul_le_mul_of_nonneg_right this hD0.le
    have p2 : X*(1 + 1/2^6)*D + X*D ≤ 3*X*b := by nlinarith
    calc _ ≤ (3*X*b)*D := mul_le_mul_of_nonneg_right (p1.trans p2) hD0.le
      _ = _ := by ring
  have h5 : F ≤ F*W/D := by
    rw [le_div_iff₀ hD0]; exact mul_le_mul_of_nonneg_left hDW hF
  have hSD : |S/D| ≤ F := by
    rw [abs_div, abs_of_pos hD0, div_le_iff₀ hD0]; exact hS
  have h6 : F/2^53 ≤ X/D/2^8 := by
    have : F*W/D/2^53 ≤ X/2^8/D := by
      rw [div_right_comm]; exact div_le_div_of_nonneg_right hFWX hD0.le
    have e : X/2^8/D = X/D/2^8 := div_right_comm _ _ _
    linarith
  have h7 : u ≤ X/D/2^100 := by
    have q1 : κ*t ≤ X/D := by
      rw [le_div_iff₀ hD0, hX, mul_assoc]
      refine mul_le_mul_of_nonneg_left ?_ hκ0.le
      exact mul_le_mul (by linarith) (by linarith) hD0.le (by linarith)
    have q2 : 1/2^45*(t*t) ≤ κ*t := mul_le_mul hκ (by nlinarith) htt.le hκ0.le
    linarith
  have h8 : |a/b| ≤ F + 3*X/D := by
    have := abs_sub_abs_le_abs_sub (a/b) (S/D)
    linarith
  refine ⟨hbp, ?_⟩
  have h10 := abs_sub_le (F64.div a b) (a/b) (S/D)
  rw [abs_sub_comm] at h9
  have h11 : |F64.div a b - a/b| ≤ |a/b|/2^53 + u := h9
  have e : 4*κ*(F + t)*(W + t)/D = 4*(X/D) := by rw [hX]; ring
  have e2 : 3*X/D = 3*(X/D) := by ring
  rw [e]
  rw [e2] at h4 h8
  have : 0 < X/D := by positivity
  linarith

set_option maxHeartbeats 1000000 in
theorem remapWeighted64_ok {L : Trig} (hL : TrigNear L) {O O' : Orders} {B : BoxArgs} {A : PolarArgs} {m : ℕ} (hO : O.For m)
    (hO' : O'.For m) (h : Fits B A m) {f w : Arr2 ℝ} (fr : f.rows = B.numy.toNat) (fc : f.cols = B.numx.toNat)
    (wr : w.rows = B.numy.toNat) (wc : w.cols = B.numx.toNat) {F W : ℝ} (hF : 0 ≤ F) (hW : 0 ≤ W)
    (hf : ∀ b < f.rows, ∀ a < f.cols, |f.val b a| ≤ F) (hw : ∀ b < w.rows, ∀ a < w.cols, 0 ≤ w.val b a ∧ w.val b a ≤ W) :
    ∃ (out : Arr2 (Option ℝ)) (g v : ℕ → ℕ → ℝ), remapWeighted64 L O O' B A m m f w = .ok out ∧ out.rows = A.nump.toNat ∧
      out.cols = A.numr.toNat ∧
      (∀ n < m*A.nump.toNat, ∀ q < m*A.numr.toNat, ∃ pt : ℝ × ℝ,
        |pt.1 - (Dg.densePoint A m m n q).1| ≤ reach A.rmax (A.center.getD 0 0) B.xmin B.xmax B.numx.toNat ∧
        |pt.2 - (Dg.densePoint A m m n q).2| ≤ reach A.rmax (A.center.getD 1 0) B.ymin B.ymax B.numy.toNat ∧
        Dg.Reads B f.val pt (g n q) ∧ Dg.Reads B w.val pt (v n q)) ∧
      ∀ i < A.nump.toNat, ∀ j < A.numr.toNat,
        ((∀ k < m, ∀ l < m, v (i*m + k) (j*m + l) = 0) → out.val i j = none) ∧
        let κ := A.rmax^2/ringSize A j*m/2^45
        let D := Dg.areaSum A m v i j/Dg.areaSum A m (fun _ _ => 1) i j
        (4*κ*(W + (2:ℝ)^(-300 : ℤ)) ≤ D → ∃ d, out.val i j = some d ∧
          |d - Dg.areaSum A m (fun n q => g n q*v n q) i j/Dg.areaSum A m v i j|
            ≤ 4*κ*(F + (2:ℝ)^(-300 : ℤ))*(W + (2:ℝ)^(-300 : ℤ))/D) := by
  have hm : 1 ≤ m := perm_pos hO.rows
  obtain ⟨pt, hpt1, hpt2⟩ := points_ok hL h.box h.polar h.x h.xwide h.y h.ywide h.r h.p h.shift h.large
  set fw : Arr2 ℝ := ⟨f.rows, f.cols, fun i j => F64.mul (f.val i j) (w.val i j)⟩ with hfw
  have ez : f.zip F64.mul w = .ok fw := by
    unfold Arr2.zip; rw [if_pos ⟨by rw [fr, wr], by rw [fc, wc]⟩]
  have hfwb : ∀ b < f.rows, ∀ a < f.cols, |f.val b a*w.val b a - fw.val b a| ≤ |f.val b a| * w.val b a/2^53 + (2:ℝ)^(-1075 : ℤ) := by
    intro b hb a ha
    have h1 := fl_err_abs (f.val b a*w.val b a)
    rw [abs_mul, abs_of_nonneg (hw b (by rw [wr, ← fr]; exact hb) a (by rw [wc, ← fc]; exact ha)).1] at h1
    exact h1
  have hprod : ∀ b < f.rows, ∀ a < f.cols, |f.val b a| * w.val b a ≤ F*W := by
    intro b hb a ha
    have hw' := hw b (by rw [wr, ← fr]; exact hb) a (by rw [wc, ← fc]; exact ha)
    exact mul_le_mul (hf b hb a ha) hw'.2 hw'.1 hF
  have hu := two_zpow_pos (-1075)
  have hFW : 0 ≤ F*W := mul_nonneg hF hW
  obtain ⟨oa, ga, ea, oar, oac, ra, va⟩ := remap64_at (O := O) hL h.box h.polar hO.rows hO.cols hO.areaRows hO.areaCols
    h.r h.p h.shift h.large h.rings (hpt2 fw fr fc) fr fc (F := F*W*(1 + 1/2^53) + (2:ℝ)^(-1075 : ℤ)) (by positivity) (by
      intro b hb a ha
      have h1 := hfwb b hb a ha
      have h2 := hprod b hb a ha
      have h3 := abs_sub_abs_le_abs_sub (fw.val b a) (f.val b a*w.val b a)
      rw [abs_sub_comm] at h1
      rw [abs_mul, abs_of_nonneg (hw b (by rw [wr, ← fr]; exact hb) a (by rw [wc, ← fc]; exact ha)).1] at h3
      linarith)
  obtain ⟨ob, gb, eb, obr, obc, rb, vb⟩ := remap64_at (O := O') hL h.box h.polar hO'.rows hO'.cols hO'.areaRows hO'.areaCols
    h.r h.p h.shift h.large h.rings (hpt2 w wr wc) wr wc (F := W) hW (by
      intro b hb a ha
      rw [abs_of_nonneg (hw b hb a ha).1]; exact (hw b hb a ha).2)
  choose g hg0 hg1 hg2 using fun n q => hpt2 f fr fc n q
  -- the three readings at one point
  have tri : ∀ n q, 0 ≤ gb n q ∧ gb n q ≤ W ∧ |g n q| ≤ F ∧ |ga n q - g n q*gb n q| ≤ |g n q| * gb n q/2^53 + (2:ℝ)^(-1075 : ℤ) ∧
      (gb n q = 0 → ga n q = 0) := by
    intro n q
    by_cases hc : ∃ a b, InCell B.xmin B.xmax B.numx.toNat a (pt n q).1 ∧ InCell B.ymin B.ymax B.numy.toNat b (pt n q).2
    · obtain ⟨a, b, ca, cb⟩ := hc
      have la : a < B.numx.toNat := ca.1
      have lb : b < B.numy.toNat := cb.1
      rw [(ra n q).1 a b ca cb, (rb n q).1 a b ca cb, (hg2 n q).1 a b ca cb]
      have hw' := hw b (by rw [wr]; exact lb) a (by rw [wc]; exact la)
      have := hfwb b (by rw [fr]; exact lb) a (by rw [fc]; exact la)
      rw [abs_sub_comm] at this
      refine ⟨hw'.1, hw'.2, hf b (by rw [fr]; exact lb) a (by rw [fc]; exact la), this, fun h0 => ?_⟩
      show F64.mul _ _ = 0
      unfold F64.mul; rw [h0, mul_zero]; exact fl_zero
    · rw [(ra n q).2 hc, (rb n q).2 hc, (hg2 n q).2 hc]
      refine ⟨le_rfl, hW, by simpa using hF, ?_, fun _ => rfl⟩
      norm_num
  refine ⟨⟨oa.rows, oa.cols, fun i j => (oa.val i j).bind fun x => (ob.val i j).bind fun y =>
      if y = 0 then none else some (F64.div x y)⟩, g, gb, ?_, oar, oac,
    fun n hn q hq => ⟨pt n q, (hpt1 n hn q hq).1, (hpt1 n hn q hq).2, hg2 n q, rb n q⟩, fun i hi j hj => ?_⟩
  · unfold remapWeighted64
    simp only [ez, bind, Except.bind, ea, eb]
    unfold Arr2.zip
    rw [if_pos ⟨by rw [oar, obr], by rw [oac, obc]⟩]
  obtain ⟨a, a1, a2, -, a4⟩ := va i hi j hj
  obtain ⟨b, b1, b2, -, b4⟩ := vb i hi j hj
  simp only [a1, b1]
  refine ⟨fun h0 => ?_, ?_⟩
  · simp [b4 h0]
  intro hD
  have hS1 : 0 < Dg.areaSum A m (fun _ _ => 1) i j := by
    rw [Dg.areaSum_eq h.polar hm]
    exact mul_pos (Dg.pstep_pos h.polar hm) (sum_pos (fun l _ => sum_pos (fun k _ => by
      rw [mul_one]; exact Dg.rweight_pos h.polar hm _) ⟨0, mem_range.mpr hm⟩) ⟨0, mem_range.mpr hm⟩)
  -- monotonicity of the weighted sum
  have mono : ∀ {x y : ℕ → ℕ → ℝ}, (∀ n q, x n q ≤ y n q) → Dg.areaSum A m x i j ≤ Dg.areaSum A m y i j := by
    intro x y hxy
    rw [Dg.areaSum_eq h.polar hm, Dg.areaSum_eq h.polar hm]
    exact mul_le_mul_of_nonneg_left (sum_le_sum fun l _ => sum_le_sum fun k _ =>
      mul_le_mul_of_nonneg_left (hxy _ _) (Dg.rweight_pos h.polar hm _).le) (Dg.pstep_pos h.polar hm).le
  have lin : ∀ (x y : ℕ → ℕ → ℝ) (c d : ℝ), Dg.areaSum A m (fun n q => c*x n q + d*y n q) i j
      = c*Dg.areaSum A m x i j + d*Dg.areaSum A m y i j := by
    intro x y c d
    simp only [Dg.areaSum_eq h.polar hm, mul_sum, ← sum_add_distrib]
    refine sum_congr rfl fun l _ => sum_congr rfl fun k _ => ?_
    ring
  set S1 := Dg.areaSum A m (fun _ _ => 1) i j with hS1d
  set Sv := Dg.areaSum A m gb i j with hSv
  set Sg := Dg.areaSum A m (fun n q => g n q*gb n q) i j with hSg
  have hDW : Sv/S1 ≤ W := by
    rw [div_le_iff₀ hS1]
    have := mono (x := gb) (y := fun n q => W*1 + 0*1) (fun n q => by linarith [(tri n q).2.1])
    rw [lin (fun _ _ => 1) (fun _ _ => 1) W 0] at this
    linarith
  have hS : |Sg/S1| ≤ F*(Sv/S1) := by
    rw [abs_div, abs_of_pos hS1, ← mul_div_assoc]
    refine div_le_div_of_nonneg_right ?_ hS1.le
    have e1 := mono (x := fun n q => g n q*gb n q) (y := fun n q => F*gb n q + 0*1) (fun n q => by
      have := mul_le_mul_of_nonneg_right ((le_abs_self _).trans (tri n q).2.2.1) (tri n q).1; linarith)
    have e2 := mono (x := fun n q => (-F)*gb n q + 0*1) (y := fun n q => g n q*gb n q) (fun n q => by
      have := mul_le_mul_of_nonneg_right ((neg_le_of_abs_le (tri n q).2.2.1)) (tri n q).1; linarith)
    rw [lin gb (fun _ _ => 1)] at e1 e2
    rw [abs_le]
    constructor <;> linarith
  have hN : |Dg.areaSum A m ga i j/S1 - Sg/S1| ≤ F*(Sv/S1)/2^53 + (2:ℝ)^(-1075 : ℤ) := by
    rw [← sub_div, abs_div, abs_of_pos hS1, div_le_iff₀ hS1]
    have e0 := lin ga (fun n q => g n q*gb n q) 1 (-1)
    have bd : ∀ n q, |1*ga n q + -1*(g n q*gb n q)| ≤ F/2^53*gb n q + (2:ℝ)^(-1075 : ℤ)*1 := by
      intro n q
      have h1 := (tri n q).2.2.2.1
      have h2 := mul_le_mul_of_nonneg_right (tri n q).2.2.1 (tri n q).1
      rw [show 1*ga n q + -1*(g n q*gb n q) = ga n q - g n q*gb n q by ring]
      linarith
    have e1 := mono (x := fun n q => 1*ga n q + -1*(g n q*gb n q)) (y := fun n q => F/2^53*gb n q + (2:ℝ)^(-1075 : ℤ)*1)
      (fun n q => (le_abs_self _).trans (bd n q))
    have e2 := mono (x := fun n q => -(F/2^53)*gb n q + -(2:ℝ)^(-1075 : ℤ)*1) (y := fun n q => 1*ga n q + -1*(g n q*gb n q))
      (fun n q => by have := neg_le_of_abs_le (bd n q); linarith)
    rw [lin gb (fun _ _ => 1)] at e1 e2
    rw [e0] at e1 e2
    have e3 : (F*(Sv/S1)/2^53 + (2:ℝ)^(-1075 : ℤ))*S1 = F/2^53*Sv + (2:ℝ)^(-1075 : ℤ)*S1 := by
      field_simp
    rw [e3, abs_le]
    constructor <;> linarith
  have hκ : 1/2^45 ≤ A.rmax^2/ringSize A j*m/2^45 := by
    refine div_le_div_of_nonneg_right ?_ (by norm_num)
    have hR0 : 0 < A.rmax := (two_zpow_pos _).trans_le h.large
    have hΩR : ringSize A j ≤ A.rmax^2 := by
      obtain ⟨u1, u2⟩ := edgeAt_range h.polar.r.le (n := A.numr.toNat) (k := j+1) (by omega) hj
      have := pow_le_pow_left₀ (h.polar.rmin.trans u1) u2 2
      have := sq_nonneg (edgeAt A.rmin A.rmax A.numr.toNat j)
      unfold ringSize
      linarith
    have hΩ0 : 0 < ringSize A j := by
      unfold ringSize
      rw [← ring_sum A hm j]
      exact sum_pos (fun l _ => Dg.rweight_pos h.polar hm _) ⟨0, mem_range.mpr hm⟩
    have h1 : 1 ≤ A.rmax^2/ringSize A j := by rw [le_div_iff₀ hΩ0]; linarith
    have h2 : (1:ℝ) ≤ m := by exact_mod_cast hm
    nlinarith
  obtain ⟨q1, q2⟩ := quot_weighted hF hW hκ hDW hS hN a2 b2 hD
  refine ⟨F64.div a b, ?_, (le_of_eq ?_).trans q2⟩
  · show (if b = 0 then none else some (F64.div a b)) = _
    rw [if_neg q1.ne']
  · congr 2
    have : S1 ≠ 0 := hS1.ne'
    rw [div_div_div_cancel_right₀ this]

end Magpie.Dg64
