import Verif.Proof.LlnRatio
import Mathlib.Data.Nat.Choose.Sum

/-!
# The variance of the mean over those of `n` independent draws that fall in a set
-/

set_option linter.unusedSimpArgs false
set_option linter.unusedVariables false

namespace Magpie.Lln
open MeasureTheory ProbabilityTheory Filter Topology

variable {Ω E : Type} [MeasurableSpace Ω] [MeasurableSpace E] {P : Measure Ω} [IsProbabilityMeasure P]
  {μ : Measure E} {Y : ℕ → Ω → E}

theorem count_nat {g : E → ℝ} (hg : ∀ y, g y = 0 ∨ g y = 1) (s : Finset ℕ) (ω : Ω) :
    ∃ m : ℕ, ∑ k ∈ s, g (Y k ω) = m := by
  classical
  induction s using Finset.induction_on with
  | empty => exact ⟨0, by simp⟩
  | insert a s ha ih =>
    obtain ⟨m, hm⟩ := ih
    rw [Finset.sum_insert ha, hm]
    rcases hg (Y a ω) with e | e
    · exact ⟨m, by rw [e]; ring⟩
    · exact ⟨m+1, by rw [e]; push_cast; ring⟩

/-- The draws with numbers in `s` are independent of one that is not. -/
theorem indep_off (hY : ∀ k, Measurable (Y k)) (hind : iIndepFun Y P) (s : Finset ℕ) {k : ℕ} (hk : k ∉ s)
    {f : E → ℝ} (hf : Measurable f) {ψ : (s → E) → ℝ} (hψ : Measurable ψ) :
    IndepFun (fun ω => f (Y k ω)) (fun ω => ψ fun l => Y l ω) P := by
  have h := hind.indepFun_finset {k} s (by simpa using hk) hY
  exact h.comp (φ := fun y : ({k} : Finset ℕ) → E => f (y ⟨k, by simp⟩)) (ψ := ψ)
    (hf.comp (measurable_pi_apply _)) hψ

theorem inv_nat_le_one (m : ℕ) : |((m:ℝ))⁻¹| ≤ 1 := by
  rw [abs_of_nonneg (by positivity)]
  exact Nat.cast_inv_le_one m

theorem count_inv (hY : ∀ k, Measurable (Y k)) (hlaw : ∀ k, Measure.map (Y k) P = μ)
    (hind : iIndepFun Y P) {g : E → ℝ} (hgm : Measurable g) (hg : ∀ y, g y = 0 ∨ g y = 1) (n c : ℕ) :
    Integrable (fun ω => ((∑ k ∈ Finset.range n, g (Y k ω)) + c)⁻¹) P ∧
    ∫ ω, ((∑ k ∈ Finset.range n, g (Y k ω)) + c)⁻¹ ∂P
      = ∑ k ∈ Finset.range (n+1),
          (n.choose k:ℝ)*(∫ y, g y ∂μ)^k*(1 - ∫ y, g y ∂μ)^(n-k)*((k:ℝ) + c)⁻¹ := by
  have hI : ∀ n c : ℕ, Integrable (fun ω => ((∑ k ∈ Finset.range n, g (Y k ω)) + (c:ℝ))⁻¹) P := by
    intro n c
    refine memLp_one_iff_integrable.mp (MemLp.of_bound
      (((Finset.measurable_fun_sum _ fun k _ => hgm.comp (hY k)).add_const _).inv).aestronglyMeasurable 1
      (Eventually.of_forall fun ω => ?_))
    obtain ⟨m, hm⟩ := count_nat (Y := Y) hg (Finset.range n) ω
    rw [hm, Real.norm_eq_abs]
    have := inv_nat_le_one (m+c)
    push_cast at this
    exact this
  refine ⟨hI n c, ?_⟩
  induction n generalizing c with
  | zero => simp
  | succ n ih =>
    set q := ∫ y, g y ∂μ with hq
    have hgI : Integrable (fun ω => g (Y n ω)) P :=
      memLp_one_iff_integrable.mp (MemLp.of_bound (hgm.comp (hY n)).aestronglyMeasurable 1
        (Eventually.of_forall fun ω => by
          rw [Real.norm_eq_abs]
          change |g (Y n ω)| ≤ 1
          rcases hg (Y n ω) with e | e <;> rw [e] <;> norm_num))
    have hgq : ∫ ω, g (Y n ω) ∂P = q := by rw [hq, integral_law hY hlaw hgm]
    have hsp : ∀ ω, ((∑ k ∈ Finset.range (n+1), g (Y k ω)) + (c:ℝ))⁻¹
        = (1 - g (Y n ω))*((∑ k ∈ Finset.range n, g (Y k ω)) + (c:ℝ))⁻¹
          + g (Y n ω)*((∑ k ∈ Finset.range n, g (Y k ω)) + ((c+1:ℕ):ℝ))⁻¹ := by
      intro ω
      rw [Finset.sum_range_succ]
      rcases hg (Y n ω) with e | e <;> rw [e]
      · simp
      · push_cast
        rw [sub_self, zero_mul, zero_add, one_mul]
        congr 1; ring
    have hψ : ∀ c : ℕ, Measurable fun y : ({x // x ∈ Finset.range n} → E) => ((∑ l, g (y l)) + (c:ℝ))⁻¹ :=
      fun c => ((Finset.measurable_fun_sum _ fun l _ => hgm.comp (measurable_pi_apply l)).add_const _).inv
    have hin : ∀ (c : ℕ) {f : E → ℝ}, Measurable f → IndepFun (fun ω => f (Y n ω))
        (fun ω => ((∑ k ∈ Finset.range n, g (Y k ω)) + (c:ℝ))⁻¹) P := by
      intro c f hf
      refine (indep_off hY hind (Finset.range n) (k := n) (by simp) hf (hψ c)).congr
        (Eventually.of_forall fun ω => rfl) (Eventually.of_forall fun ω => ?_)
      simp only
      rw [Finset.sum_coe_sort (Finset.range n) (fun l => g (Y l ω))]
    have hm' := hgm.const_sub 1
    have i1 : Integrable (fun ω => (1 - g (Y n ω))*((∑ k ∈ Finset.range n, g (Y k ω)) + (c:ℝ))⁻¹) P :=
      (hin c hm').integrable_mul ((integrable_const (1:ℝ)).sub hgI) (hI n c)
    have i2 : Integrable (fun ω => g (Y n ω)*((∑ k ∈ Finset.range n, g (Y k ω)) + ((c+1:ℕ):ℝ))⁻¹) P :=
      (hin (c+1) hgm).integrable_mul hgI (hI n (c+1))
    rw [integral_congr_ae (Eventually.of_forall hsp), integral_add i1 i2,
      (hin c hm').integral_fun_mul_eq_mul_integral (hm'.comp (hY n)).aestronglyMeasurable
        (hI n c).aestronglyMeasurable,
      (hin (c+1) hgm).integral_fun_mul_eq_mul_integral (hgm.comp (hY n)).aestronglyMeasurable
        (hI n (c+1)).aestronglyMeasurable, hgq, integral_sub (integrable_const _) hgI, hgq, ih c, ih (c+1)]
    have key := Finset.sum_antidiagonal_choose_succ_mul
      (fun a b : ℕ => q^a*(1-q)^b*((a:ℝ) + c)⁻¹) n
    rw [Finset.Nat.sum_antidiagonal_eq_sum_range_succ
        (fun a b => ((n+1).choose a:ℝ)*(q^a*(1-q)^b*((a:ℝ) + c)⁻¹)),
      Finset.Nat.sum_antidiagonal_eq_sum_range_succ
        (fun a b => (n.choose a:ℝ)*(q^a*(1-q)^(b+1)*((a:ℝ) + c)⁻¹)),
      Finset.Nat.sum_antidiagonal_eq_sum_range_succ
        (fun a b => (n.choose b:ℝ)*(q^(a+1)*(1-q)^b*(((a+1:ℕ):ℝ) + c)⁻¹))] at key
    rw [show (∑ k ∈ Finset.range (n+1+1), ((n+1).choose k:ℝ)*q^k*(1-q)^(n+1-k)*((k:ℝ) + c)⁻¹)
      = ∑ k ∈ Finset.range (n+1).succ, ((n+1).choose k:ℝ)*(q^k*(1-q)^(n+1-k)*((k:ℝ) + c)⁻¹) from
        Finset.sum_congr rfl fun k _ => by ring, key, Finset.mul_sum, Finset.mul_sum]
    simp only [probReal_univ, integral_const, smul_eq_mul, mul_one]
    congr 1
    · exact Finset.sum_congr rfl fun k _ => by ring
    · refine Finset.sum_congr rfl fun k hk => ?_
      rw [Nat.choose_symm (by simp at hk; omega)]
      push_cast
      rw [show (k:ℝ) + (c+1) = k + 1 + c by ring]
      ring

/-- The mean of the reciprocal of a binomial count, with `1/0 = 0`, is at most `2/((n+1)q)`. -/
theorem binom_inv_le {q : ℝ} (hq : 0 < q) (hq1 : q ≤ 1) (n : ℕ) :
    ∑ k ∈ Finset.range (n+1), (n.choose k:ℝ)*q^k*(1 - q)^(n-k)*((k:ℝ))⁻¹ ≤ 2/((n+1)*q) := by
  have h1q : 0 ≤ 1 - q := by linarith
  have hn : (0:ℝ) < n + 1 := by positivity
  have step : ∀ k ∈ Finset.range (n+1), (n.choose k:ℝ)*q^k*(1 - q)^(n-k)*((k:ℝ))⁻¹
      ≤ 2/((n+1)*q)*(q^(k+1)*(1-q)^(n+1-(k+1))*((n+1).choose (k+1):ℝ)) := by
    intro k hk
    have hc : ((n:ℝ)+1)*(n.choose k:ℝ) = ((n+1).choose (k+1):ℝ)*((k:ℝ)+1) := by
      exact_mod_cast Nat.add_one_mul_choose_eq n k
    have hc' : ((n+1).choose (k+1):ℝ) = ((n:ℝ)+1)*(n.choose k:ℝ)/((k:ℝ)+1) := by
      rw [eq_div_iff (by positivity), hc]
    rw [hc', show n + 1 - (k+1) = n - k by omega]
    have hinv : ((k:ℝ))⁻¹ ≤ 2/((k:ℝ)+1) := by
      rcases Nat.eq_zero_or_pos k with rfl | h
      · norm_num
      · have : (1:ℝ) ≤ k := by exact_mod_cast h
        rw [inv_eq_one_div, div_le_div_iff₀ (by linarith) (by linarith)]
        linarith
    calc (n.choose k:ℝ)*q^k*(1 - q)^(n-k)*((k:ℝ))⁻¹
        ≤ (n.choose k:ℝ)*q^k*(1 - q)^(n-k)*(2/((k:ℝ)+1)) :=
          mul_le_mul_of_nonneg_left hinv (by positivity)
      _ = _ := by
          rw [pow_succ]
          field_simp
  refine (Finset.sum_le_sum step).trans ?_
  rw [← Finset.mul_sum]
  have hb := add_pow q (1-q) (n+1)
  rw [show q + (1 - q) = 1 by ring, one_pow, Finset.sum_range_succ'] at hb
  have h0 : 0 ≤ q^0*(1-q)^(n+1-0)*((n+1).choose 0:ℝ) := by positivity
  calc _ ≤ 2/((n+1)*q)*1 := mul_le_mul_of_nonneg_left (by linarith) (by positivity)
    _ = _ := mul_one _

/-- The mean square deviation of the mean over the draws in the set from the mean over the set, where there is
a draw in the set. -/
theorem ratio_variance (hY : ∀ k, Measurable (Y k)) (hlaw : ∀ k, Measure.map (Y k) P = μ)
    (hind : iIndepFun Y P) {g : E → ℝ} (hgm : Measurable g) (hg : ∀ y, g y = 0 ∨ g y = 1)
    {h : E → ℝ} (hh : Measurable h) {C : ℝ} (hC : ∀ y, |h y| ≤ C) (hgh : ∀ y, g y = 0 → h y = 0)
    (n : ℕ) (hne : ∫ y, g y ∂μ ≠ 0) :
    ∫ ω in {ω | (∑ k ∈ Finset.range n, g (Y k ω)) ≠ 0},
        ((∑ k ∈ Finset.range n, h (Y k ω))/(∑ k ∈ Finset.range n, g (Y k ω))
          - (∫ y, h y ∂μ)/(∫ y, g y ∂μ))^2 ∂P
      = ((∫ y, h y^2 ∂μ)/(∫ y, g y ∂μ) - ((∫ y, h y ∂μ)/(∫ y, g y ∂μ))^2)
        *∑ k ∈ Finset.range (n+1),
          (n.choose k:ℝ)*(∫ y, g y ∂μ)^k*(1 - ∫ y, g y ∂μ)^(n-k)*((k:ℝ))⁻¹ ∧
    0 ≤ (∫ y, h y^2 ∂μ)/(∫ y, g y ∂μ) - ((∫ y, h y ∂μ)/(∫ y, g y ∂μ))^2 ∧
    0 < ∫ y, g y ∂μ ∧ ∫ y, g y ∂μ ≤ 1 := by
  have hμ : IsProbabilityMeasure μ := by
    rw [← hlaw 0]; exact Measure.isProbabilityMeasure_map (hY 0).aemeasurable
  set q := ∫ y, g y ∂μ with hq
  set m := (∫ y, h y ∂μ)/q with hm
  have bdd : ∀ {F : Ω → ℝ} (D : ℝ), Measurable F → (∀ ω, |F ω| ≤ D) → Integrable F P := by
    intro F D hF hD
    exact memLp_one_iff_integrable.mp (MemLp.of_bound hF.aestronglyMeasurable D
      (Eventually.of_forall fun ω => by rw [Real.norm_eq_abs]; exact hD ω))
  have bddE : ∀ {F : E → ℝ} (D : ℝ), Measurable F → (∀ y, |F y| ≤ D) → Integrable F μ := by
    intro F D hF hD
    exact memLp_one_iff_integrable.mp (MemLp.of_bound hF.aestronglyMeasurable D
      (Eventually.of_forall fun y => by rw [Real.norm_eq_abs]; exact hD y))
  have hg1 : ∀ y, |g y| ≤ 1 := fun y => by rcases hg y with e | e <;> rw [e] <;> norm_num
  have hgI : Integrable g μ := bddE 1 hgm hg1
  have hhI : Integrable h μ := bddE C hh hC
  -- the deviation from the mean, zero off the set
  set Z : E → ℝ := fun y => h y - m*g y with hZ
  have hZm : Measurable Z := hh.sub (hgm.const_mul m)
  set D := C + |m| with hD
  have hZC : ∀ y, |Z y| ≤ D := by
    intro y
    refine (abs_sub _ _).trans (add_le_add (hC y) ?_)
    rw [abs_mul]
    exact mul_le_of_le_one_right (abs_nonneg _) (hg1 y)
  have hgZ : ∀ y, g y = 0 → Z y = 0 := fun y e => by simp only [hZ]; rw [hgh y e, e]; ring
  have hZ0 : ∫ y, Z y ∂μ = 0 := by
    simp only [hZ]
    rw [integral_sub hhI (hgI.const_mul m), integral_const_mul, ← hq, hm]
    field_simp
    ring
  have hZ2 : ∫ y, Z y^2 ∂μ = (∫ y, h y^2 ∂μ) - m^2*q := by
    have hh2 : Integrable (fun y => h y^2) μ := bddE (C^2) (hh.pow_const 2) fun y => by
      rw [abs_pow]; exact pow_le_pow_left₀ (abs_nonneg _) (hC y) 2
    have e : ∀ y, Z y^2 = (h y^2 - 2*m*h y) + m^2*g y := by
      intro y
      simp only [hZ]
      rcases hg y with e | e
      · rw [hgh y e, e]; ring
      · rw [e]; ring
    have i1 : Integrable (fun y => h y^2 - 2*m*h y) μ := hh2.sub (hhI.const_mul _)
    rw [integral_congr_ae (Eventually.of_forall e), integral_add i1 (hgI.const_mul _),
      integral_sub hh2 (hhI.const_mul _), integral_const_mul, integral_const_mul, ← hq]
    have : ∫ y, h y ∂μ = m*q := by rw [hm]; field_simp
    rw [this]; ring
  have hZ2C : ∀ y, |Z y^2| ≤ D^2 := fun y => by
    rw [abs_pow]; exact pow_le_pow_left₀ (abs_nonneg _) (hZC y) 2
  set R : ℕ → Ω → ℝ := rest g Y n with hR
  have hRm := fun k => measurable_rest hY hgm n k
  have hRb := fun k ω => rest_bound (Y := Y) hg n k ω
  have hR2 : ∀ k ω, |R k ω^2| ≤ 1 := fun k ω => by
    obtain ⟨a, b⟩ := hRb k ω
    rw [abs_pow, abs_of_pos a]
    exact pow_le_one₀ a.le b
  set K : Ω → ℝ := fun ω => ∑ k ∈ Finset.range n, g (Y k ω) with hK
  -- independence of a draw and a function of the others
  have hRind : ∀ k {f : E → ℝ}, Measurable f → IndepFun (fun ω => f (Y k ω)) (fun ω => R k ω^2) P :=
    fun k f hf => (indep_rest hY hind hgm n k hf).comp measurable_id (measurable_id.pow_const 2)
  have hoff : ∀ k l, k ∈ Finset.range n → l ∈ Finset.range n → k ≠ l →
      ∫ ω, Z (Y k ω)*(Z (Y l ω)*R k ω^2) ∂P = 0 := by
    intro k l hk hl hkl
    have hmem : l ∈ (Finset.range n).erase k := Finset.mem_erase.mpr ⟨hkl.symm, hl⟩
    have hψ : Measurable fun y : {x // x ∈ (Finset.range n).erase k} → E =>
        Z (y ⟨l, hmem⟩)*((1 + ∑ i, g (y i))⁻¹)^2 :=
      (hZm.comp (measurable_pi_apply _)).mul
        ((measurable_const.add (Finset.measurable_fun_sum _ fun l _ => hgm.comp (measurable_pi_apply l))).inv.pow_const 2)
    have hi := (indep_off hY hind ((Finset.range n).erase k) (k := k) (by simp) hZm hψ).congr
      (Eventually.of_forall fun ω => rfl) (g' := fun ω => Z (Y l ω)*R k ω^2)
      (Eventually.of_forall fun ω => by
        simp only [hR, rest]
        rw [Finset.sum_coe_sort ((Finset.range n).erase k) (fun l => g (Y l ω))])
    rw [hi.integral_fun_mul_eq_mul_integral (hZm.comp (hY k)).aestronglyMeasurable
      ((hZm.comp (hY l)).mul ((hRm k).pow_const 2)).aestronglyMeasurable, integral_law hY hlaw hZm, hZ0,
      zero_mul]
  have hcross : ∀ k l, k ∈ Finset.range n → ∀ ω,
      Z (Y k ω)/K ω*(Z (Y l ω)/K ω) = Z (Y k ω)*(Z (Y l ω)*R k ω^2) := by
    intro k l hk ω
    have h1 := div_count (Y := Y) hg hgZ (Finset.mem_range.mp hk) ω
    rcases hg (Y k ω) with e | e
    · rw [hgZ _ e]; simp
    · have hc : K ω = (R k ω)⁻¹ := by
        simp only [hK, hR, rest, inv_inv]
        rw [← Finset.add_sum_erase _ _ hk, e]
      rw [hc]
      simp only [div_inv_eq_mul]
      ring
  have hdiag : ∀ k, ∫ ω, Z (Y k ω)*(Z (Y k ω)*R k ω^2) ∂P = (∫ y, Z y^2 ∂μ)*∫ ω, R k ω^2 ∂P := by
    intro k
    rw [← integral_law hY hlaw (hZm.pow_const 2) (k := k),
      ← (hRind k (hZm.pow_const 2)).integral_fun_mul_eq_mul_integral
        ((hZm.pow_const 2).comp (hY k)).aestronglyMeasurable ((hRm k).pow_const 2).aestronglyMeasurable]
    exact integral_congr_ae (Eventually.of_forall fun ω => by simp only; ring)
  have hprodI : ∀ k l, Integrable (fun ω => Z (Y k ω)*(Z (Y l ω)*R k ω^2)) P := by
    intro k l
    refine bdd (D*(D*1)) ((hZm.comp (hY k)).mul ((hZm.comp (hY l)).mul ((hRm k).pow_const 2))) fun ω => ?_
    change |Z (Y k ω)*(Z (Y l ω)*R k ω^2)| ≤ _
    have hD0 : 0 ≤ D := (abs_nonneg _).trans (hZC (Y k ω))
    rw [abs_mul, abs_mul]
    exact mul_le_mul (hZC _) (mul_le_mul (hZC _) (hR2 k ω) (abs_nonneg _) hD0) (by positivity) hD0
  have hsq : ∫ ω, ((∑ k ∈ Finset.range n, Z (Y k ω))/K ω)^2 ∂P
      = (∫ y, Z y^2 ∂μ)*∑ k ∈ Finset.range n, ∫ ω, R k ω^2 ∂P := by
    have e : ∀ ω, ((∑ k ∈ Finset.range n, Z (Y k ω))/K ω)^2
        = ∑ k ∈ Finset.range n, ∑ l ∈ Finset.range n, Z (Y k ω)*(Z (Y l ω)*R k ω^2) := by
      intro ω
      rw [sq, Finset.sum_div, Finset.sum_mul_sum]
      exact Finset.sum_congr rfl fun k hk => Finset.sum_congr rfl fun l _ => hcross k l hk ω
    rw [integral_congr_ae (Eventually.of_forall e), integral_finset_sum _ fun k _ =>
      integrable_finset_sum _ fun l _ => hprodI k l, Finset.mul_sum]
    refine Finset.sum_congr rfl fun k hk => ?_
    rw [integral_finset_sum _ fun l _ => hprodI k l, Finset.sum_eq_single k]
    · exact hdiag k
    · intro l hl hlk
      exact hoff k l hk hl hlk.symm
    · exact fun h => absurd hk h
  have hinv : q*∑ k ∈ Finset.range n, ∫ ω, R k ω^2 ∂P = ∫ ω, (K ω + ((0:ℕ):ℝ))⁻¹ ∂P := by
    have e : ∀ ω, (K ω + ((0:ℕ):ℝ))⁻¹ = ∑ k ∈ Finset.range n, g (Y k ω)*R k ω^2 := by
      intro ω
      have : ∀ k ∈ Finset.range n, g (Y k ω)*R k ω^2 = g (Y k ω)*(K ω)⁻¹^2 := by
        intro k hk
        rcases hg (Y k ω) with e | e
        · rw [e]; ring
        · have hc : K ω = (R k ω)⁻¹ := by
            simp only [hK, hR, rest, inv_inv]
            rw [← Finset.add_sum_erase _ _ hk, e]
          rw [hc, inv_inv]
      rw [Finset.sum_congr rfl this, ← Finset.sum_mul]
      change _ = K ω*(K ω)⁻¹^2
      push_cast
      rw [add_zero]
      by_cases h0 : K ω = 0
      · rw [h0]; simp
      · field_simp
    have hi : ∀ k, Integrable (fun ω => g (Y k ω)*R k ω^2) P := fun k =>
      bdd (1*1) ((hgm.comp (hY k)).mul ((hRm k).pow_const 2)) fun ω => by
        change |g (Y k ω)*R k ω^2| ≤ _
        rw [abs_mul]
        exact mul_le_mul (hg1 _) (hR2 k ω) (abs_nonneg _) zero_le_one
    rw [integral_congr_ae (Eventually.of_forall e), integral_finset_sum _ fun k _ => hi k, Finset.mul_sum]
    refine Finset.sum_congr rfl fun k _ => ?_
    rw [(hRind k hgm).integral_fun_mul_eq_mul_integral (hgm.comp (hY k)).aestronglyMeasurable
      ((hRm k).pow_const 2).aestronglyMeasurable, integral_law hY hlaw hgm]
  have hset : ∫ ω in {ω | K ω ≠ 0}, ((∑ k ∈ Finset.range n, h (Y k ω))/K ω - m)^2 ∂P
      = ∫ ω, ((∑ k ∈ Finset.range n, Z (Y k ω))/K ω)^2 ∂P := by
    have hKm : Measurable K := Finset.measurable_fun_sum _ fun k _ => hgm.comp (hY k)
    have hS : MeasurableSet {ω | K ω ≠ 0} := (hKm (measurableSet_singleton 0)).compl
    have e0 : ∫ ω in {ω | K ω ≠ 0}, ((∑ k ∈ Finset.range n, Z (Y k ω))/K ω)^2 ∂P
        = ∫ ω, ((∑ k ∈ Finset.range n, Z (Y k ω))/K ω)^2 ∂P := by
      refine setIntegral_eq_integral_of_forall_compl_eq_zero fun ω hω => ?_
      simp only [Set.mem_setOf_eq, not_not] at hω
      rw [hω]; simp
    rw [← e0]
    · refine setIntegral_congr_fun hS fun ω hω => ?_
      have hω' : K ω ≠ 0 := hω
      change ((∑ k ∈ Finset.range n, h (Y k ω))/K ω - m)^2 = ((∑ k ∈ Finset.range n, Z (Y k ω))/K ω)^2
      have : ∑ k ∈ Finset.range n, Z (Y k ω) = (∑ k ∈ Finset.range n, h (Y k ω)) - m*K ω := by
        simp only [hZ, hK]
        rw [Finset.sum_sub_distrib, Finset.mul_sum]
      rw [this, sub_div, mul_div_assoc, div_self hω', mul_one]
  have hcount := (count_inv hY hlaw hind hgm hg n 0).2
  simp only [Nat.cast_zero, add_zero] at hcount hinv
  have hq0 : 0 < q := lt_of_le_of_ne
    (integral_nonneg fun y => by rcases hg y with e | e <;> simp [e]) (Ne.symm hne)
  have hq1 : q ≤ 1 := by
    have := integral_mono hgI (integrable_const (1:ℝ)) fun y => (abs_le.mp (hg1 y)).2
    simpa using this
  have hnn : 0 ≤ (∫ y, h y^2 ∂μ)/q - m^2 := by
    have h0 : 0 ≤ ∫ y, Z y^2 ∂μ := integral_nonneg fun y => sq_nonneg _
    rw [hZ2] at h0
    have := div_nonneg h0 hq0.le
    rwa [sub_div, mul_div_assoc, div_self hne, mul_one] at this
  refine ⟨?_, hnn, hq0, hq1⟩
  rw [hset, hsq, hZ2]
  rw [← hq] at hcount
  rw [← hcount]
  change _ = _*∫ ω, (K ω)⁻¹ ∂P
  rw [← hinv]
  field_simp

theorem sum_inv_Icc (n : ℕ) (q : ℝ) :
    ∑ k ∈ Finset.range (n+1), (n.choose k:ℝ)*q^k*(1 - q)^(n-k)*((k:ℝ))⁻¹
      = ∑ k ∈ Finset.Icc 1 n, (n.choose k:ℝ)*q^k*(1 - q)^(n-k)/k := by
  rw [Finset.range_eq_Ico, Finset.sum_eq_sum_Ico_succ_bot (by omega)]
  simp only [Nat.cast_zero, inv_zero, mul_zero, zero_add]
  rfl

theorem ratio_variance_le (hY : ∀ k, Measurable (Y k)) (hlaw : ∀ k, Measure.map (Y k) P = μ)
    (hind : iIndepFun Y P) {g : E → ℝ} (hgm : Measurable g) (hg : ∀ y, g y = 0 ∨ g y = 1)
    {h : E → ℝ} (hh : Measurable h) {C : ℝ} (hC : ∀ y, |h y| ≤ C) (hgh : ∀ y, g y = 0 → h y = 0)
    (n : ℕ) {q m V : ℝ} (hq : ∫ y, g y ∂μ = q) (hm : (∫ y, h y ∂μ)/q = m)
    (hV : (∫ y, h y^2 ∂μ)/q = V) (hne : q ≠ 0) :
    ∫ ω in {ω | (∑ k ∈ Finset.range n, g (Y k ω)) ≠ 0},
        ((∑ k ∈ Finset.range n, h (Y k ω))/(∑ k ∈ Finset.range n, g (Y k ω)) - m)^2 ∂P
      = (V - m^2)*∑ k ∈ Finset.Icc 1 n, (n.choose k:ℝ)*q^k*(1 - q)^(n-k)/k ∧
    ∫ ω in {ω | (∑ k ∈ Finset.range n, g (Y k ω)) ≠ 0},
        ((∑ k ∈ Finset.range n, h (Y k ω))/(∑ k ∈ Finset.range n, g (Y k ω)) - m)^2 ∂P
      ≤ (V - m^2)*(2/((n + 1)*q)) := by
  obtain ⟨h1, h2, h3, h4⟩ := ratio_variance hY hlaw hind hgm hg hh hC hgh n (by rw [hq]; exact hne)
  rw [hq, hm, hV] at h1 h2
  rw [hq] at h3 h4
  refine ⟨by rw [h1, sum_inv_Icc], ?_⟩
  rw [h1]
  exact mul_le_mul_of_nonneg_left (binom_inv_le h3 h4 n) h2

end Magpie.Lln
