import Verif.Spec.Prob
import Mathlib.MeasureTheory.Measure.Lebesgue.VolumeOfBalls
import Mathlib.MeasureTheory.Integral.IntervalIntegral.FundThmCalculus
import Mathlib.MeasureTheory.Constructions.BorelSpace.Order

/-!
# Push-forwards of the uniform law
-/

namespace Magpie.Spec
open MeasureTheory Set

/-- The affine image of a uniform variate. -/
theorem unif_affine (a : ℝ) {b : ℝ} (hb : 0 < b) (A : Set ℝ) :
    ENNReal.ofReal b * unif ((fun v => a + b*v) ⁻¹' A) = volume (A ∩ Ico a (a+b)) := by
  have h1 : (fun v => a + b*v) ⁻¹' (A ∩ Ico a (a+b)) = ((fun v => a + b*v) ⁻¹' A) ∩ Ico 0 1 := by
    ext v
    simp only [mem_preimage, mem_inter_iff, mem_Ico, and_congr_right_iff]
    intro _
    constructor
    · rintro ⟨h, h'⟩
      constructor
      · by_contra hc; push Not at hc; nlinarith
      · by_contra hc; push Not at hc; nlinarith
    · rintro ⟨h, h'⟩
      constructor <;> nlinarith
  have h2 : volume ((fun v => a + b*v) ⁻¹' (A ∩ Ico a (a+b)))
      = ENNReal.ofReal |b⁻¹| * volume (A ∩ Ico a (a+b)) := by
    have : (fun v => a + b*v) ⁻¹' (A ∩ Ico a (a+b))
        = (fun v => b*v) ⁻¹' ((fun w => a + w) ⁻¹' (A ∩ Ico a (a+b))) := rfl
    rw [this, Real.volume_preimage_mul_left hb.ne', measure_preimage_add]
  unfold unif
  rw [Measure.restrict_apply' measurableSet_Ico, ← h1, h2, ← mul_assoc,
    ← ENNReal.ofReal_mul hb.le, abs_of_pos (by positivity), mul_inv_cancel₀ hb.ne',
    ENNReal.ofReal_one, one_mul]

/-- If `X u ≤ t` means `u ≤ F` then the event has probability `F`. -/
theorem unif_cdf {P : ℝ → Prop} {F : ℝ} (h0 : 0 ≤ F) (h1 : F ≤ 1)
    (h : ∀ u, 0 ≤ u → u < 1 → (P u ↔ u ≤ F)) : unif {u | P u} = ENNReal.ofReal F := by
  unfold unif
  rw [Measure.restrict_apply' measurableSet_Ico]
  have hle : {u | P u} ∩ Ico 0 1 = Icc 0 F ∩ Ico 0 1 := by
    ext u
    simp only [mem_inter_iff, mem_ofPred_eq, mem_Ico, mem_Icc]
    constructor
    · rintro ⟨a, b, c⟩; exact ⟨⟨b, (h u b c).1 a⟩, b, c⟩
    · rintro ⟨⟨a, b⟩, c, d⟩; exact ⟨(h u c d).2 b, c, d⟩
  rw [hle]
  apply le_antisymm
  · calc volume (Icc 0 F ∩ Ico 0 1) ≤ volume (Icc 0 F) := measure_mono inter_subset_left
      _ = _ := by simp
  · calc ENNReal.ofReal F = volume (Ico 0 F) := by simp
      _ ≤ volume (Icc 0 F ∩ Ico 0 1) := by
        apply measure_mono
        intro u hu
        exact ⟨⟨hu.1, hu.2.le⟩, hu.1, lt_of_lt_of_le hu.2 h1⟩

/-- Strict version: if `P u` means `u < F`. -/
theorem unif_cdf_lt {P : ℝ → Prop} {F : ℝ} (h0 : 0 ≤ F) (h1 : F ≤ 1)
    (h : ∀ u, 0 ≤ u → u < 1 → (P u ↔ u < F)) : unif {u | P u} = ENNReal.ofReal F := by
  unfold unif
  rw [Measure.restrict_apply' measurableSet_Ico]
  have hle : {u | P u} ∩ Ico 0 1 = Ico 0 F := by
    ext u
    simp only [mem_inter_iff, mem_ofPred_eq, mem_Ico]
    constructor
    · rintro ⟨a, b, c⟩; exact ⟨b, (h u b c).1 a⟩
    · rintro ⟨a, b⟩; exact ⟨(h u a (by linarith)).2 b, a, by linarith⟩
  rw [hle]; simp

theorem unif_eq_zero {P : ℝ → Prop} (h : ∀ u, 0 ≤ u → u < 1 → ¬ P u) : unif {u | P u} = 0 := by
  unfold unif
  rw [Measure.restrict_apply' measurableSet_Ico]
  have : {u | P u} ∩ Ico 0 1 = ∅ := by
    ext u
    simp only [mem_inter_iff, mem_ofPred_eq, mem_Ico, mem_empty_iff_false, iff_false]
    rintro ⟨a, b, c⟩; exact h u b c a
  rw [this]; simp

theorem unif_eq_one {P : ℝ → Prop} (h : ∀ u, 0 ≤ u → u < 1 → P u) : unif {u | P u} = 1 := by
  unfold unif
  rw [Measure.restrict_apply' measurableSet_Ico]
  have : {u | P u} ∩ Ico 0 1 = Ico 0 1 := by
    ext u
    simp only [mem_inter_iff, mem_ofPred_eq, mem_Ico, and_iff_right_iff_imp]
    rintro ⟨b, c⟩; exact h u b c
  rw [this]; simp

end Magpie.Spec
