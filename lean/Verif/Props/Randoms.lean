import Verif.Model.RandomsBasic
import Verif.Spec.Volumes
import Verif.Proof.Unif

/-!
# Properties C56-C59: random points

`unif2`, `unif3` (laws of independent uniform variates), `sectorArea`, `solidAngle` and
`shellVolume` are in `Verif/Spec`.
-/

set_option linter.unusedSimpArgs false
set_option linter.unusedVariables false
set_option linter.unusedSectionVars false

namespace Magpie.Props
open Magpie Magpie.Healpix Magpie.Randoms Magpie.Spec MeasureTheory Set

/-! ## Helpers -/

private theorem mem_unit {l : List ℝ} (h : ∀ u ∈ l, 0 ≤ u ∧ u < 1) {k : ℕ} {u : ℝ}
    (hk : l[k]? = some u) : 0 ≤ u ∧ u < 1 := h u (List.mem_of_getElem? hk)

private theorem lin_mem {a b u : ℝ} (hab : a ≤ b) (h0 : 0 ≤ u) (h1 : u < 1) :
    a ≤ (b - a)*u + a ∧ (b - a)*u + a ≤ b := by
  constructor <;> nlinarith

private theorem lin_le_iff {a b u c : ℝ} (hab : a < b) : (b - a)*u + a ≤ c ↔ u ≤ (c - a)/(b - a) := by
  rw [le_div_iff₀ (by linarith)]
  constructor <;> intro h <;> linarith

private theorem frac_mem {a b c : ℝ} (hab : a < b) (h0 : a ≤ c) (h1 : c ≤ b) :
    0 ≤ (c - a)/(b - a) ∧ (c - a)/(b - a) ≤ 1 := by
  have : 0 < b - a := by linarith
  exact ⟨div_nonneg (by linarith) this.le, by rw [div_le_one this]; linarith⟩

private theorem npSqrt_draw {a b u : ℝ} (ha : 0 ≤ a) (hab : a ≤ b) (h0 : 0 ≤ u) (h1 : u < 1) :
    npSqrt ((b^2 - a^2)*u + a^2) = some (Real.sqrt ((b^2 - a^2)*u + a^2)) ∧
    a ≤ Real.sqrt ((b^2 - a^2)*u + a^2) ∧ Real.sqrt ((b^2 - a^2)*u + a^2) ≤ b := by
  have h2 : a^2 ≤ b^2 := pow_le_pow_left₀ ha hab 2
  obtain ⟨h3, h4⟩ := lin_mem h2 h0 h1
  have h5 : 0 ≤ (b^2 - a^2)*u + a^2 := le_trans (sq_nonneg a) h3
  refine ⟨by rw [npSqrt, if_pos h5], Real.le_sqrt_of_sq_le h3, ?_⟩
  rw [Real.sqrt_le_left (le_trans ha hab)]; exact h4

private theorem sqrt_le_iff' {a b u ρ : ℝ} (ha : 0 ≤ a) (hab : a < b) (hρ : a ≤ ρ) :
    Real.sqrt ((b^2 - a^2)*u + a^2) ≤ ρ ↔ u ≤ (ρ^2 - a^2)/(b^2 - a^2) := by
  have h2 : a^2 < b^2 := pow_lt_pow_left₀ hab ha (by norm_num)
  rw [Real.sqrt_le_left (le_trans ha hρ), lin_le_iff h2]

private theorem cbrt_le {x ρ : ℝ} (hx : 0 ≤ x) (hρ : 0 ≤ ρ) : x ^ ((1:ℝ)/3) ≤ ρ ↔ x ≤ ρ^3 := by
  have h1 : ρ = (ρ^3) ^ ((1:ℝ)/3) := by
    rw [← Real.rpow_natCast, ← Real.rpow_mul hρ]; norm_num
  constructor
  · intro h
    by_contra hc
    push Not at hc
    have := Real.rpow_lt_rpow (by positivity) hc (by norm_num : (0:ℝ) < 1/3)
    rw [← h1] at this
    linarith
  · intro h
    rw [h1]
    exact Real.rpow_le_rpow hx h (by norm_num)

private theorem le_cbrt {x ρ : ℝ} (hx : 0 ≤ x) (hρ : 0 ≤ ρ) (h : ρ^3 ≤ x) : ρ ≤ x ^ ((1:ℝ)/3) := by
  have h1 : ρ = (ρ^3) ^ ((1:ℝ)/3) := by
    rw [← Real.rpow_natCast, ← Real.rpow_mul hρ]; norm_num
  rw [h1]
  exact Real.rpow_le_rpow (by positivity) h (by norm_num)

private theorem npCbrt_draw {a b u : ℝ} (ha : 0 ≤ a) (hab : a ≤ b) (h0 : 0 ≤ u) (h1 : u < 1) :
    0 ≤ (b^3 - a^3)*u + a^3 ∧
    npCbrt ((b^3 - a^3)*u + a^3) = some (((b^3 - a^3)*u + a^3) ^ ((1:ℝ)/3)) ∧
    a ≤ ((b^3 - a^3)*u + a^3) ^ ((1:ℝ)/3) ∧ ((b^3 - a^3)*u + a^3) ^ ((1:ℝ)/3) ≤ b := by
  have h2 : a^3 ≤ b^3 := pow_le_pow_left₀ ha hab 3
  obtain ⟨h3, h4⟩ := lin_mem h2 h0 h1
  have h5 : 0 ≤ (b^3 - a^3)*u + a^3 := le_trans (pow_nonneg ha 3) h3
  exact ⟨h5, by rw [npCbrt, if_pos h5], le_cbrt h5 ha h3, (cbrt_le h5 (le_trans ha hab)).mpr h4⟩

private theorem theta_draw {t0 t1 u : ℝ} (h0 : 0 ≤ t0) (h01 : t0 ≤ t1) (h1 : t1 ≤ Real.pi)
    (hu0 : 0 ≤ u) (hu1 : u < 1) :
    npArccos (Real.cos t0 - (Real.cos t0 - Real.cos t1)*u)
      = some (Real.arccos (Real.cos t0 - (Real.cos t0 - Real.cos t1)*u)) ∧
    t0 ≤ Real.arccos (Real.cos t0 - (Real.cos t0 - Real.cos t1)*u) ∧
    Real.arccos (Real.cos t0 - (Real.cos t0 - Real.cos t1)*u) ≤ t1 := by
  have hc : Real.cos t1 ≤ Real.cos t0 := Real.cos_le_cos_of_nonneg_of_le_pi h0 h1 h01
  have g1 : Real.cos t1 ≤ Real.cos t0 - (Real.cos t0 - Real.cos t1)*u := by nlinarith
  have g2 : Real.cos t0 - (Real.cos t0 - Real.cos t1)*u ≤ Real.cos t0 := by nlinarith
  refine ⟨?_, ?_, ?_⟩
  · rw [npArccos, if_pos ⟨le_trans (Real.neg_one_le_cos _) g1, le_trans g2 (Real.cos_le_one _)⟩]
  · have := Real.arccos_le_arccos g2
    rwa [Real.arccos_cos h0 (by linarith)] at this
  · have := Real.arccos_le_arccos g1
    rwa [Real.arccos_cos (by linarith) h1] at this

private theorem theta_le_iff {t0 t1 t u : ℝ} (h0 : 0 ≤ t0) (h01 : t0 < t1) (h1 : t1 ≤ Real.pi)
    (ht0 : t0 ≤ t) (ht1 : t ≤ t1) (hu0 : 0 ≤ u) (hu1 : u < 1) :
    Real.arccos (Real.cos t0 - (Real.cos t0 - Real.cos t1)*u) ≤ t ↔
      u ≤ (Real.cos t0 - Real.cos t)/(Real.cos t0 - Real.cos t1) := by
  have hc : Real.cos t1 < Real.cos t0 := Real.cos_lt_cos_of_nonneg_of_le_pi h0 h1 h01
  have g1 : Real.cos t1 ≤ Real.cos t0 - (Real.cos t0 - Real.cos t1)*u := by nlinarith
  have g2 : Real.cos t0 - (Real.cos t0 - Real.cos t1)*u ≤ Real.cos t0 := by nlinarith
  have m1 := le_trans (Real.neg_one_le_cos _) g1
  have m2 := le_trans g2 (Real.cos_le_one _)
  rw [le_div_iff₀ (by linarith)]
  constructor
  · intro h
    have := Real.cos_le_cos_of_nonneg_of_le_pi (Real.arccos_nonneg _) (by linarith) h
    rw [Real.cos_arccos m1 m2] at this
    linarith
  · intro h
    have : Real.cos t ≤ Real.cos t0 - (Real.cos t0 - Real.cos t1)*u := by linarith
    have := Real.arccos_le_arccos this
    rwa [Real.arccos_cos (by linarith) (by linarith)] at this

private theorem theta_frac {t0 t1 t : ℝ} (h0 : 0 ≤ t0) (h01 : t0 < t1) (h1 : t1 ≤ Real.pi)
    (ht0 : t0 ≤ t) (ht1 : t ≤ t1) :
    0 < Real.cos t0 - Real.cos t1 ∧ 0 ≤ (Real.cos t0 - Real.cos t)/(Real.cos t0 - Real.cos t1) ∧
      (Real.cos t0 - Real.cos t)/(Real.cos t0 - Real.cos t1) ≤ 1 := by
  have hc : Real.cos t1 < Real.cos t0 := Real.cos_lt_cos_of_nonneg_of_le_pi h0 h1 h01
  have c1 : Real.cos t ≤ Real.cos t0 := Real.cos_le_cos_of_nonneg_of_le_pi h0 (by linarith) ht0
  have c2 : Real.cos t1 ≤ Real.cos t := Real.cos_le_cos_of_nonneg_of_le_pi (by linarith) h1 ht1
  have : 0 < Real.cos t0 - Real.cos t1 := by linarith
  exact ⟨this, div_nonneg (by linarith) this.le, by rw [div_le_one this]; linarith⟩

/-- The probability that two independent variates each satisfy a condition. -/
private theorem unif2_rect {P : ℝ × ℝ → Prop} {A B : ℝ → Prop} (h : ∀ u v, 0 ≤ u → u < 1 → 0 ≤ v → v < 1 →
    (P (u, v) ↔ A u ∧ B v)) : unif2 {x | P x} = unif {u | A u} * unif {v | B v} := by
  have e : unif2 = (volume.restrict (Ico (0:ℝ) 1 ×ˢ Ico (0:ℝ) 1) : Measure (ℝ × ℝ)) := by
    unfold unif2 unif; rw [Measure.prod_restrict]; rfl
  have e2 : unif2 ({u | A u} ×ˢ {v | B v}) = unif {u | A u} * unif {v | B v} := by
    unfold unif2; rw [Measure.prod_prod]
  rw [← e2, e, Measure.restrict_apply' (measurableSet_Ico.prod measurableSet_Ico),
    Measure.restrict_apply' (measurableSet_Ico.prod measurableSet_Ico)]
  congr 1
  ext ⟨u, v⟩
  simp only [mem_inter_iff, mem_ofPred_eq, mem_prod, mem_Ico]
  constructor
  · rintro ⟨hp, ⟨a, b⟩, c, d⟩; exact ⟨(h u v a b c d).mp hp, ⟨a, b⟩, c, d⟩
  · rintro ⟨hp, ⟨a, b⟩, c, d⟩; exact ⟨(h u v a b c d).mpr hp, ⟨a, b⟩, c, d⟩

private theorem unif3_box {P : ℝ × ℝ × ℝ → Prop} {A B C : ℝ → Prop}
    (h : ∀ u v w, 0 ≤ u → u < 1 → 0 ≤ v → v < 1 → 0 ≤ w → w < 1 → (P (u, v, w) ↔ A u ∧ B v ∧ C w)) :
    unif3 {x | P x} = unif {u | A u} * (unif {v | B v} * unif {w | C w}) := by
  have e : unif3 = (volume.restrict (Ico (0:ℝ) 1 ×ˢ Ico (0:ℝ) 1 ×ˢ Ico (0:ℝ) 1)
      : Measure (ℝ × ℝ × ℝ)) := by
    unfold unif3 unif2 unif; rw [Measure.prod_restrict, Measure.prod_restrict]; rfl
  have e2 : unif3 ({u | A u} ×ˢ {v | B v} ×ˢ {w | C w})
      = unif {u | A u} * (unif {v | B v} * unif {w | C w}) := by
    unfold unif3 unif2; rw [Measure.prod_prod, Measure.prod_prod]
  have hm := measurableSet_Ico (a := (0:ℝ)) (b := 1) |>.prod
    (measurableSet_Ico (a := (0:ℝ)) (b := 1) |>.prod (measurableSet_Ico (a := (0:ℝ)) (b := 1)))
  rw [← e2, e, Measure.restrict_apply' hm, Measure.restrict_apply' hm]
  congr 1
  ext ⟨u, v, w⟩
  simp only [mem_inter_iff, mem_ofPred_eq, mem_prod, mem_Ico]
  constructor
  · rintro ⟨hp, ⟨a, b⟩, ⟨c, d⟩, e', f⟩; exact ⟨(h u v w a b c d e' f).mp hp, ⟨a, b⟩, ⟨c, d⟩, e', f⟩
  · rintro ⟨hp, ⟨a, b⟩, ⟨c, d⟩, e', f⟩; exact ⟨(h u v w a b c d e' f).mpr hp, ⟨a, b⟩, ⟨c, d⟩, e', f⟩

/-! ## C56 -/

/-- C56: every draw lies inside the limits, there are as many as requested, and draw `k` depends on
the `k`-th variates only. -/
theorem C56_range (uR uPhi : List ℝ) (hlen : uPhi.length = uR.length)
    (hR : ∀ u ∈ uR, 0 ≤ u ∧ u < 1) (hP : ∀ u ∈ uPhi, 0 ≤ u ∧ u < 1)
    (r0 r1 p0 p1 : ℝ) (h0 : 0 ≤ r0) (hr : r0 ≤ r1) (hp : p0 ≤ p1) :
    ∃ (r phi : List ℝ), randomsPolar uR uPhi r0 r1 p0 p1 = (r.map some, phi) ∧
      r.length = uR.length ∧ phi.length = uR.length ∧
      (∀ x ∈ r, r0 ≤ x ∧ x ≤ r1) ∧ (∀ x ∈ phi, p0 ≤ x ∧ x ≤ p1) ∧
      ∀ (k : ℕ) u v, uR[k]? = some u → uPhi[k]? = some v → ∃ x y, r[k]? = some x ∧ phi[k]? = some y ∧
        randomsPolar [u] [v] r0 r1 p0 p1 = ([some x], [y]) := by
  refine ⟨uR.map fun u => Real.sqrt ((r1^2 - r0^2)*u + r0^2), uPhi.map fun u => (p1 - p0)*u + p0,
    ?_, by simp, by simp [hlen], ?_, ?_, ?_⟩
  · unfold randomsPolar
    simp only [List.map_map, Prod.mk.injEq, and_true]
    apply List.map_congr_left
    intro u hu
    exact (npSqrt_draw h0 hr (hR u hu).1 (hR u hu).2).1
  · simp only [List.mem_map]
    rintro x ⟨u, hu, rfl⟩
    exact (npSqrt_draw h0 hr (hR u hu).1 (hR u hu).2).2
  · simp only [List.mem_map]
    rintro x ⟨u, hu, rfl⟩
    exact lin_mem hp (hP u hu).1 (hP u hu).2
  · intro k u v hu hv
    have := mem_unit hR hu
    refine ⟨_, _, by rw [List.getElem?_map, hu]; rfl, by rw [List.getElem?_map, hv]; rfl, ?_⟩
    simp [randomsPolar, (npSqrt_draw h0 hr this.1 this.2).1]

/-- C56: the probability that a draw has `r ≤ ρ` and `phi ≤ ψ` is the fraction of the area of the
annular sector with `r ≤ ρ` and `phi ≤ ψ`. -/
theorem C56_law (r0 r1 p0 p1 : ℝ) (h0 : 0 ≤ r0) (hr : r0 < r1) (hp : p0 < p1)
    (ρ ψ : ℝ) (hρ : r0 ≤ ρ) (hρ1 : ρ ≤ r1) (hψ : p0 ≤ ψ) (hψ1 : ψ ≤ p1) :
    unif2 {x | ∃ r phi, randomsPolar [x.1] [x.2] r0 r1 p0 p1 = ([some r], [phi]) ∧ r ≤ ρ ∧ phi ≤ ψ}
      = ENNReal.ofReal (sectorArea r0 ρ p0 ψ / sectorArea r0 r1 p0 p1) := by
  have h2 : r0^2 < r1^2 := pow_lt_pow_left₀ hr h0 (by norm_num)
  have f1 := frac_mem h2 (pow_le_pow_left₀ h0 hρ 2) (pow_le_pow_left₀ (le_trans h0 hρ) hρ1 2)
  have f2 := frac_mem hp hψ hψ1
  rw [unif2_rect (A := fun u => u ≤ (ρ^2 - r0^2)/(r1^2 - r0^2)) (B := fun v => v ≤ (ψ - p0)/(p1 - p0)),
    unif_cdf f1.1 f1.2 (fun _ _ _ => Iff.rfl), unif_cdf f2.1 f2.2 (fun _ _ _ => Iff.rfl),
    ← ENNReal.ofReal_mul f1.1, sectorArea_eq, sectorArea_eq]
  · congr 1
    have : r1^2 - r0^2 ≠ 0 := by linarith
    have : p1 - p0 ≠ 0 := by linarith
    field_simp
  · intro u v a b c d
    rw [← sqrt_le_iff' h0 hr hρ, ← lin_le_iff hp]
    constructor
    · rintro ⟨r, phi, h, hh⟩
      simp only [randomsPolar, List.map_cons, List.map_nil, Prod.mk.injEq, List.cons.injEq,
        and_true] at h
      rw [(npSqrt_draw h0 hr.le a b).1] at h
      simp only [Option.some.injEq] at h
      rw [h.1, h.2]; exact hh
    · intro h
      exact ⟨_, _, by simp only [randomsPolar, List.map_cons, List.map_nil]
                      rw [(npSqrt_draw h0 hr.le a b).1], h⟩

/-- The default call: the probability to land within `1/2` of the centre is `1/4`. -/
example : unif2 {x | ∃ r phi, randomsPolar [x.1] [x.2] 0 1 0 (2*Real.pi) = ([some r], [phi]) ∧
    r ≤ 1/2 ∧ phi ≤ 2*Real.pi} = ENNReal.ofReal (1/4) := by
  rw [C56_law 0 1 0 (2*Real.pi) le_rfl one_pos (by positivity) (1/2) (2*Real.pi) (by norm_num)
    (by norm_num) (by positivity) le_rfl, sectorArea_eq, sectorArea_eq]
  congr 1
  have := Real.pi_ne_zero
  field_simp; norm_num

/-! ## C57 -/

/-- C57: every draw lies inside the limits and draw `k` depends on the `k`-th variates only. -/
theorem C57_range (uPhi uTheta : List ℝ) (hlen : uTheta.length = uPhi.length)
    (hP : ∀ u ∈ uPhi, 0 ≤ u ∧ u < 1) (hT : ∀ u ∈ uTheta, 0 ≤ u ∧ u < 1)
    (p0 p1 t0 t1 : ℝ) (hp : p0 ≤ p1) (h0 : 0 ≤ t0) (ht : t0 ≤ t1) (h1 : t1 ≤ Real.pi) :
    ∃ (phi theta : List ℝ), randomsUsphere uPhi uTheta p0 p1 t0 t1 = (phi, theta.map some) ∧
      phi.length = uPhi.length ∧ theta.length = uPhi.length ∧
      (∀ x ∈ phi, p0 ≤ x ∧ x ≤ p1) ∧ (∀ x ∈ theta, t0 ≤ x ∧ x ≤ t1) ∧
      ∀ (k : ℕ) u v, uPhi[k]? = some u → uTheta[k]? = some v → ∃ x y, phi[k]? = some x ∧
        theta[k]? = some y ∧ randomsUsphere [u] [v] p0 p1 t0 t1 = ([x], [some y]) := by
  refine ⟨uPhi.map fun u => p0 + (p1 - p0)*u,
    uTheta.map fun u => Real.arccos (Real.cos t0 - (Real.cos t0 - Real.cos t1)*u),
    ?_, by simp, by simp [hlen], ?_, ?_, ?_⟩
  · unfold randomsUsphere
    simp only [List.map_map, Prod.mk.injEq, true_and]
    apply List.map_congr_left
    intro u hu
    exact (theta_draw h0 ht h1 (hT u hu).1 (hT u hu).2).1
  · simp only [List.mem_map]
    rintro x ⟨u, hu, rfl⟩
    rw [add_comm]
    exact lin_mem hp (hP u hu).1 (hP u hu).2
  · simp only [List.mem_map]
    rintro x ⟨u, hu, rfl⟩
    exact (theta_draw h0 ht h1 (hT u hu).1 (hT u hu).2).2
  · intro k u v hu hv
    have := mem_unit hT hv
    refine ⟨_, _, by rw [List.getElem?_map, hu]; rfl, by rw [List.getElem?_map, hv]; rfl, ?_⟩
    simp [randomsUsphere, (theta_draw h0 ht h1 this.1 this.2).1]

/-- C57: the probability that a draw has `phi ≤ ψ` and `theta ≤ t` is the fraction of the solid angle
with `phi ≤ ψ` and `theta ≤ t`. -/
theorem C57_law (p0 p1 t0 t1 : ℝ) (hp : p0 < p1) (h0 : 0 ≤ t0) (ht : t0 < t1) (h1 : t1 ≤ Real.pi)
    (ψ t : ℝ) (hψ : p0 ≤ ψ) (hψ1 : ψ ≤ p1) (ht0 : t0 ≤ t) (ht1 : t ≤ t1) :
    unif2 {x | ∃ phi theta, randomsUsphere [x.1] [x.2] p0 p1 t0 t1 = ([phi], [some theta]) ∧
        phi ≤ ψ ∧ theta ≤ t}
      = ENNReal.ofReal (solidAngle p0 ψ t0 t / solidAngle p0 p1 t0 t1) := by
  have f1 := frac_mem hp hψ hψ1
  have f2 := theta_frac h0 ht h1 ht0 ht1
  rw [unif2_rect (A := fun u => u ≤ (ψ - p0)/(p1 - p0))
      (B := fun v => v ≤ (Real.cos t0 - Real.cos t)/(Real.cos t0 - Real.cos t1)),
    unif_cdf f1.1 f1.2 (fun _ _ _ => Iff.rfl), unif_cdf f2.2.1 f2.2.2 (fun _ _ _ => Iff.rfl),
    ← ENNReal.ofReal_mul f1.1, solidAngle_eq, solidAngle_eq]
  · congr 1
    have := f2.1.ne'
    have : p1 - p0 ≠ 0 := by linarith
    field_simp
  · intro u v a b c d
    rw [← lin_le_iff hp, ← theta_le_iff h0 ht h1 ht0 ht1 c d, add_comm _ p0]
    constructor
    · rintro ⟨phi, th, h, hh⟩
      simp only [randomsUsphere, List.map_cons, List.map_nil, Prod.mk.injEq, List.cons.injEq,
        and_true] at h
      rw [(theta_draw h0 ht.le h1 c d).1] at h
      simp only [Option.some.injEq] at h
      rw [h.1, h.2]; exact hh
    · intro h
      exact ⟨_, _, by simp only [randomsUsphere, List.map_cons, List.map_nil]
                      rw [(theta_draw h0 ht.le h1 c d).1], h⟩

/-- The default call: half of the draws fall on the northern hemisphere. -/
example : unif2 {x | ∃ phi theta, randomsUsphere [x.1] [x.2] 0 (2*Real.pi) 0 Real.pi
    = ([phi], [some theta]) ∧ phi ≤ 2*Real.pi ∧ theta ≤ Real.pi/2} = ENNReal.ofReal (1/2) := by
  have hpi := Real.pi_pos
  rw [C57_law 0 (2*Real.pi) 0 Real.pi (by positivity) le_rfl hpi le_rfl (2*Real.pi) (Real.pi/2)
    (by positivity) le_rfl (by positivity) (by linarith), solidAngle_eq, solidAngle_eq]
  congr 1
  have := hpi.ne'
  simp only [Real.cos_zero, Real.cos_pi, Real.cos_pi_div_two]
  field_simp; norm_num

/-! ## C58 -/

/-- C58: every draw lies inside the limits and draw `k` depends on the `k`-th variates only. -/
theorem C58_range (uR uPhi uTheta : List ℝ) (hlen : uPhi.length = uR.length)
    (hlen' : uTheta.length = uR.length) (hR : ∀ u ∈ uR, 0 ≤ u ∧ u < 1)
    (hP : ∀ u ∈ uPhi, 0 ≤ u ∧ u < 1) (hT : ∀ u ∈ uTheta, 0 ≤ u ∧ u < 1)
    (r0 r1 p0 p1 t0 t1 : ℝ) (hr0 : 0 ≤ r0) (hr : r0 ≤ r1) (hp : p0 ≤ p1) (h0 : 0 ≤ t0) (ht : t0 ≤ t1)
    (h1 : t1 ≤ Real.pi) :
    ∃ (r phi theta : List ℝ), randomsSphere uR uPhi uTheta r0 r1 p0 p1 t0 t1 = (r.map some, phi, theta.map some) ∧
      r.length = uR.length ∧ phi.length = uR.length ∧ theta.length = uR.length ∧
      (∀ x ∈ r, r0 ≤ x ∧ x ≤ r1) ∧ (∀ x ∈ phi, p0 ≤ x ∧ x ≤ p1) ∧ (∀ x ∈ theta, t0 ≤ x ∧ x ≤ t1) ∧
      ∀ (k : ℕ) u v w, uR[k]? = some u → uPhi[k]? = some v → uTheta[k]? = some w → ∃ x y z,
        r[k]? = some x ∧ phi[k]? = some y ∧ theta[k]? = some z ∧
        randomsSphere [u] [v] [w] r0 r1 p0 p1 t0 t1 = ([some x], [y], [some z]) := by
  obtain ⟨phi, theta, e, l1, l2, b1, b2, hk⟩ := C57_range uPhi uTheta (by omega) hP hT p0 p1 t0 t1 hp h0 ht h1
  refine ⟨uR.map fun u => ((r1^3 - r0^3)*u + r0^3) ^ ((1:ℝ)/3), phi, theta, ?_, by simp, by omega,
    by omega, ?_, b1, b2, ?_⟩
  · unfold randomsSphere
    rw [e]
    simp only [randomsSphereR, List.map_map, Prod.mk.injEq, and_true]
    apply List.map_congr_left
    intro u hu
    exact (npCbrt_draw hr0 hr (hR u hu).1 (hR u hu).2).2.1
  · simp only [List.mem_map]
    rintro x ⟨u, hu, rfl⟩
    exact (npCbrt_draw hr0 hr (hR u hu).1 (hR u hu).2).2.2
  · intro k u v w hu hv hw
    obtain ⟨x, y, hx, hy, e'⟩ := hk k v w hv hw
    have := mem_unit hR hu
    refine ⟨_, x, y, by rw [List.getElem?_map, hu]; rfl, hx, hy, ?_⟩
    unfold randomsSphere
    rw [e']
    simp [randomsSphereR, (npCbrt_draw hr0 hr this.1 this.2).2.1]

/-- C58: the probability that a draw has `r ≤ ρ`, `phi ≤ ψ` and `theta ≤ t` is the fraction of the
volume of the shell with `r ≤ ρ`, `phi ≤ ψ` and `theta ≤ t`. -/
theorem C58_law (r0 r1 p0 p1 t0 t1 : ℝ) (hr0 : 0 ≤ r0) (hr : r0 < r1) (hp : p0 < p1) (h0 : 0 ≤ t0)
    (ht : t0 < t1) (h1 : t1 ≤ Real.pi) (ρ ψ t : ℝ) (hρ : r0 ≤ ρ) (hρ1 : ρ ≤ r1)
    (hψ : p0 ≤ ψ) (hψ1 : ψ ≤ p1) (ht0 : t0 ≤ t) (ht1 : t ≤ t1) :
    unif3 {x | ∃ r phi theta, randomsSphere [x.1] [x.2.1] [x.2.2] r0 r1 p0 p1 t0 t1
          = ([some r], [phi], [some theta]) ∧ r ≤ ρ ∧ phi ≤ ψ ∧ theta ≤ t}
      = ENNReal.ofReal (shellVolume r0 ρ p0 ψ t0 t / shellVolume r0 r1 p0 p1 t0 t1) := by
  have h3 : r0^3 < r1^3 := pow_lt_pow_left₀ hr hr0 (by norm_num)
  have f0 := frac_mem h3 (pow_le_pow_left₀ hr0 hρ 3) (pow_le_pow_left₀ (le_trans hr0 hρ) hρ1 3)
  have f1 := frac_mem hp hψ hψ1
  have f2 := theta_frac h0 ht h1 ht0 ht1
  rw [unif3_box (A := fun u => u ≤ (ρ^3 - r0^3)/(r1^3 - r0^3)) (B := fun u => u ≤ (ψ - p0)/(p1 - p0))
      (C := fun v => v ≤ (Real.cos t0 - Real.cos t)/(Real.cos t0 - Real.cos t1)),
    unif_cdf f0.1 f0.2 (fun _ _ _ => Iff.rfl),
    unif_cdf f1.1 f1.2 (fun _ _ _ => Iff.rfl), unif_cdf f2.2.1 f2.2.2 (fun _ _ _ => Iff.rfl),
    ← ENNReal.ofReal_mul f1.1, ← ENNReal.ofReal_mul f0.1, shellVolume_eq, shellVolume_eq]
  · congr 1
    have := f2.1.ne'
    have : p1 - p0 ≠ 0 := by linarith
    have : r1^3 - r0^3 ≠ 0 := by linarith
    field_simp
  · intro s u v a' b' a b c d
    have hd := npCbrt_draw hr0 hr.le a' b'
    rw [← lin_le_iff hp, ← theta_le_iff h0 ht h1 ht0 ht1 c d, add_comm _ p0, ← lin_le_iff h3,
      ← cbrt_le hd.1 (le_trans hr0 hρ)]
    constructor
    · rintro ⟨r, phi, th, h, hh⟩
      simp only [randomsSphere, randomsSphereR, randomsUsphere, List.map_cons, List.map_nil,
        Prod.mk.injEq, List.cons.injEq, and_true] at h
      rw [(theta_draw h0 ht.le h1 c d).1, hd.2.1] at h
      simp only [Option.some.injEq] at h
      rw [h.1, h.2.1, h.2.2]; exact hh
    · intro h
      exact ⟨_, _, _, by simp only [randomsSphere, randomsSphereR, randomsUsphere, List.map_cons,
                          List.map_nil]
                         rw [(theta_draw h0 ht.le h1 c d).1, hd.2.1], h⟩

/-- The default call: an eighth of the draws falls within half the radius. -/
example : unif3 {x | ∃ r phi theta, randomsSphere [x.1] [x.2.1] [x.2.2] 0 1 0 (2*Real.pi) 0 Real.pi
    = ([some r], [phi], [some theta]) ∧ r ≤ 1/2 ∧ phi ≤ 2*Real.pi ∧ theta ≤ Real.pi}
    = ENNReal.ofReal (1/8) := by
  have hpi := Real.pi_pos
  rw [C58_law 0 1 0 (2*Real.pi) 0 Real.pi le_rfl one_pos (by positivity) le_rfl hpi le_rfl (1/2)
    (2*Real.pi) Real.pi (by norm_num) (by norm_num) (by positivity) le_rfl hpi.le le_rfl,
    shellVolume_eq, shellVolume_eq]
  congr 1
  have := hpi.ne'
  simp only [Real.cos_zero, Real.cos_pi]
  field_simp; norm_num

/-! ## C59 -/

/-- C59 is false for every call: no call of the three functions returns. -/
theorem C59_violated {K : Type} [Field K] [LinearOrder K] :
    (∀ (u : List K) xmin xmax out, randoms1d u xmin xmax ≠ .ok out) ∧
    (∀ (ux uy mins maxs : List K) out, randoms2d ux uy mins maxs ≠ .ok out) ∧
    (∀ (ux uy uz mins maxs : List K) out, randoms3d ux uy uz mins maxs ≠ .ok out) := by
  refine ⟨?_, ?_, ?_⟩
  · intro u a b out h; simp [randoms1d, bind, Except.bind] at h
  · intro ux uy mins maxs out h
    cases mins <;> simp [randoms2d, randoms1d, Polar.pyGet, bind, Except.bind] at h
  · intro ux uy uz mins maxs out h
    cases mins <;> simp [randoms3d, randoms1d, Polar.pyGet, bind, Except.bind] at h

/-- The exception is NameError, also for the default limits. -/
theorem C59_nameError_partial {K : Type} [Field K] [LinearOrder K] (u v w : List K) (a b : K) :
    randoms1d u a b = .error .nameError ∧
    randoms2d u v [0, 0] [1, 1] = .error .nameError ∧
    randoms3d u v w [0, 0, 0] [1, 1, 1] = .error .nameError := ⟨rfl, rfl, rfl⟩

end Magpie.Props
