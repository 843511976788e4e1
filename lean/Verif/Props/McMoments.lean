import Verif.Props.McLimit
import Verif.Props.McCubeLimit
import Verif.Proof.LlnVariance

/-!
# Property C113: mean and variance of the Monte Carlo remapping

`areaMean`, `volMean` and `Random` are in `Verif/Spec/McLimit.lean` and `Verif/Spec/McCubeLimit.lean`.
-/

set_option linter.unusedSimpArgs false
set_option linter.unusedVariables false
set_option linter.unusedSectionVars false

namespace Magpie.Props
open ProbabilityTheory hiding uniformOn
open Magpie Magpie.Radial Magpie.OneD Magpie.Spec Magpie.Box2Ring Magpie.Mc MeasureTheory Filter Topology

/-! ## C113 -/

section
variable {Ω : Type} [MeasurableSpace Ω] (P : Measure Ω) [IsProbabilityMeasure P]
  (U : Ω → ℕ → ℕ → ℕ → ℝ × ℝ) (hU : Random P U)
  (B : BoxArgs) (G : Grid) (hB : BoxOk B) (hG : G.Ok)
include hU hB hG

/-- C113 for `Box2Ring`: for a polar pixel inside the box there is a random variable, which is the value of
`remap` whenever it returns, on an object with any history; its mean is exactly the mean of the box weighted
by common area, and its variance is the variance of the values of the box weighted by common area, divided by
the number of points. -/
theorem C113_ring (f : Arr2 (Option ℝ)) (v : ℕ → ℕ → ℝ)
    (hf : f.rows = B.numy.toNat ∧ f.cols = B.numx.toNat)
    (hv : ∀ i j, i < f.rows → j < f.cols → f.val i j = some (v i j))
    (i j : ℕ) (hi : i < G.nump) (hj : j < G.numr)
    (hin : ∀ pt ∈ G.pixel i j, ∃ c d, InPixel B pt c d) (n : ℕ) (hn : 1 < n) :
    ∃ X : Ω → ℝ, MemLp X 2 P ∧
      (∀ᵐ ω ∂P, ∀ s out s', mcRemap B G n (drawsOf (U ω) n) f none s = (.ok out, s') →
        out.val i j = some (X ω)) ∧
      ∫ ω, X ω ∂P = areaMean B G none v i j ∧
      variance X P = (areaMean B G none (fun b a => v b a^2) i j - areaMean B G none v i j^2)/n := by
  obtain ⟨C, hC⟩ := boxVal_bdd B v
  have hone : ∀ pt ∈ G.pixel i j, boxVal B (fun _ _ => (1:ℝ)) pt = 1 := by
    intro pt hpt
    obtain ⟨c, d, h⟩ := hin pt hpt
    rw [boxVal_in hB _ h]
  have hunit : ∀ᵐ u ∂unif2, G.point i j u.1 u.2 ∈ G.pixel i j := by
    rw [show unif2 = (volume.prod volume).restrict (Set.Ico (0:ℝ) 1 ×ˢ Set.Ico (0:ℝ) 1) by
      unfold unif2 unif; rw [Measure.prod_restrict]]
    rw [ae_restrict_iff' (measurableSet_Ico.prod measurableSet_Ico)]
    exact Eventually.of_forall fun x hx => point_mem hG hi hj hx.1 hx.2
  obtain ⟨hI1, hpos, -⟩ := mean_points hU (B := B) hG (fun _ _ => (1:ℝ)) hi hj
  have hA : areaSum B G (fun _ _ => (1:ℝ)) i j = (volume (G.pixel i j)).toReal := by
    have e : (∫ u, boxVal B (fun _ _ => (1:ℝ)) (G.point i j u.1 u.2) ∂unif2) = ∫ u, (1:ℝ) ∂unif2 :=
      integral_congr_ae (hunit.mono fun u hu => hone _ hu)
    rw [e] at hI1
    haveI : IsProbabilityMeasure unif2 := by
      rw [← hU.law 0 0 0]; exact Measure.isProbabilityMeasure_map (hU.meas 0 0 0).aemeasurable
    rw [integral_const, probReal_univ, one_smul, eq_div_iff hpos.ne', one_mul] at hI1
    exact hI1.symm
  have hmean : ∀ v : ℕ → ℕ → ℝ,
      areaMean B G none v i j = ∫ u, boxVal B v (G.point i j u.1 u.2) ∂unif2 := by
    intro v
    rw [(mean_points hU (B := B) hG v hi hj).1]
    unfold areaMean
    simp only [wOf, one_mul]
    exact congrArg _ hA
  have hsq : areaMean B G none (fun b a => v b a^2) i j
      = ∫ u, (boxVal B v (G.point i j u.1 u.2))^2 ∂unif2 := by
    rw [hmean]
    refine integral_congr_ae (hunit.mono fun u hu => ?_)
    obtain ⟨c, d, h⟩ := hin _ hu
    simp only [boxVal_in hB _ h]
  obtain ⟨m1, m2, m3⟩ := Lln.mean_moments (Y := fun k ω => U ω i j k) (hU.meas i j) (hU.law i j)
    (hU.indep i j) ((measurable_boxVal B v).comp (G.measurable_point i j)) (fun y => hC _) (n := n)
    (by omega)
  refine ⟨_, m1, ?_, m2.trans (hmean v).symm, ?_⟩
  · filter_upwards [random_unit hU] with ω hu
    intro s out s' ho
    rw [ok_value hB hG hn _ (fun i j _ _ => draws_drawsOf hu n i j) f v hf hv none (by simp) ho hi hj,
      points_drawsOf, List.map_map, List.map_map, sum_range_map, sum_range_map]
    have e1 : (∑ k ∈ Finset.range n, (boxVal B (wOf none) ∘ fun k => G.point i j (U ω i j k).1 (U ω i j k).2) k) = n := by
      refine (Finset.sum_congr rfl (g := fun _ => (1:ℝ)) fun k _ =>
        hone _ (point_mem hG hi hj (hu i j k).1 (hu i j k).2)).trans ?_
      simp
    rw [e1]
    simp only [wOf, one_mul, Function.comp_apply]
    unfold fdiv
    rw [if_neg (by exact_mod_cast (show n ≠ 0 by omega))]
  · rw [m3, hsq, hmean v]
    rfl

/-- C113 for `Box2Ring` and any polar pixel that overlaps the box, if the draws for it are independent of each
other: there is an event, of probability `1 - (1 - q)^n` where `q` is the part of the area of the polar pixel
that is in the box, in which `remap` has a value for it, and outside which it is nan. Within that event the mean of
the value is exactly the mean of the box weighted by common area, and its mean square deviation from that is the
variance of the values of the box weighted by common area, times the mean of one over the number of points in
the box, which is at most `2/((n+1)q)`. -/
theorem C113_ring_some (f : Arr2 (Option ℝ)) (v : ℕ → ℕ → ℝ)
    (hf : f.rows = B.numy.toNat ∧ f.cols = B.numx.toNat)
    (hv : ∀ i j, i < f.rows → j < f.cols → f.val i j = some (v i j))
    (i j : ℕ) (hi : i < G.nump) (hj : j < G.numr) (hind : iIndepFun (fun k ω => U ω i j k) P)
    (hov : areaSum B G (fun _ _ => 1) i j ≠ 0) (n : ℕ) (hn : 1 < n) :
    ∃ (A : Set Ω) (X : Ω → ℝ), MeasurableSet A ∧ Integrable X P ∧
      (∀ᵐ ω ∂P, ∀ s out s', mcRemap B G n (drawsOf (U ω) n) f none s = (.ok out, s') →
        (ω ∈ A → out.val i j = some (X ω)) ∧ (ω ∉ A → out.val i j = none)) ∧
      P.real A = 1 - (1 - areaSum B G (fun _ _ => 1) i j/(volume (G.pixel i j)).toReal)^n ∧
      ∫ ω in A, X ω ∂P = areaMean B G none v i j*P.real A ∧
      ∫ ω in A, (X ω - areaMean B G none v i j)^2 ∂P
        = (areaMean B G none (fun b a => v b a^2) i j - areaMean B G none v i j^2)
          *∑ k ∈ Finset.Icc 1 n, (n.choose k:ℝ)*(areaSum B G (fun _ _ => 1) i j/(volume (G.pixel i j)).toReal)^k
            *(1 - areaSum B G (fun _ _ => 1) i j/(volume (G.pixel i j)).toReal)^(n-k)/k ∧
      ∫ ω in A, (X ω - areaMean B G none v i j)^2 ∂P
        ≤ (areaMean B G none (fun b a => v b a^2) i j - areaMean B G none v i j^2)
          *(2/((n + 1)*(areaSum B G (fun _ _ => 1) i j/(volume (G.pixel i j)).toReal))) := by
  have hw1 : wOf none = fun _ _ => (1:ℝ) := rfl
  obtain ⟨C, hC⟩ := boxVal_bdd B v
  obtain ⟨h1, hpos, -⟩ := mean_points hU (B := B) hG (fun _ _ => (1:ℝ)) hi hj
  have h2 := (mean_points hU (B := B) hG v hi hj).1
  have hg : ∀ u : ℝ × ℝ, boxVal B (fun _ _ => (1:ℝ)) (G.point i j u.1 u.2) = 0 ∨
      boxVal B (fun _ _ => (1:ℝ)) (G.point i j u.1 u.2) = 1 := by
    intro u
    by_cases h : ∃ a b, InPixel B (G.point i j u.1 u.2) a b
    · obtain ⟨a, b, h⟩ := h
      exact .inr (boxVal_in hB _ h)
    · exact .inl (boxVal_out _ h)
  have hgh : ∀ u : ℝ × ℝ, boxVal B (fun _ _ => (1:ℝ)) (G.point i j u.1 u.2) = 0 →
      boxVal B v (G.point i j u.1 u.2) = 0 := by
    intro u hu
    by_cases h : ∃ a b, InPixel B (G.point i j u.1 u.2) a b
    · obtain ⟨a, b, h⟩ := h
      rw [boxVal_in hB _ h] at hu
      exact absurd hu one_ne_zero
    · exact boxVal_out _ h
  have mg := (measurable_boxVal B (fun _ _ => (1:ℝ))).comp (G.measurable_point i j)
  have mh := (measurable_boxVal B v).comp (G.measurable_point i j)
  have hc := Lln.count_prob (Y := fun k ω => U ω i j k) (hU.meas i j) (hU.law i j) hind mg hg n
  have hI := Lln.integral_ratio (Y := fun k ω => U ω i j k) (hU.meas i j) (hU.law i j) hind mg hg mh
    (fun u => hC _) hgh n
  have hr := Lln.ratio_mean (Y := fun k ω => U ω i j k) (hU.meas i j) (hU.law i j) hind mg hg mh
    (fun u => hC _) hgh n (by
      simp only [Function.comp_apply]
      rw [h1]
      exact div_ne_zero hov hpos.ne')
  have hM : ∀ x : ℝ, x/(volume (G.pixel i j)).toReal/(areaSum B G (fun _ _ => 1) i j/(volume (G.pixel i j)).toReal)
      = x/areaSum B G (fun _ _ => 1) i j := fun x => div_div_div_cancel_right₀ hpos.ne' _ _
  have hsq : ∫ u, ((boxVal B v ∘ fun u : ℝ × ℝ => G.point i j u.1 u.2) u)^2 ∂unif2
      = areaSum B G (fun b a => v b a^2) i j/(volume (G.pixel i j)).toReal := by
    rw [← (mean_points hU (B := B) hG (fun b a => v b a^2) hi hj).1]
    refine integral_congr_ae (Eventually.of_forall fun u => ?_)
    simp only [Function.comp_apply]
    by_cases h : ∃ a b, InPixel B (G.point i j u.1 u.2) a b
    · obtain ⟨a, b, h⟩ := h
      rw [boxVal_in hB _ h, boxVal_in hB _ h]
    · rw [boxVal_out _ h, boxVal_out _ h]
      norm_num
  obtain ⟨hvar, hle⟩ := Lln.ratio_variance_le (Y := fun k ω => U ω i j k) (hU.meas i j) (hU.law i j) hind mg hg mh
    (fun u => hC _) hgh n h1 (m := areaMean B G none v i j)
    (V := areaMean B G none (fun b a => v b a^2) i j)
    (by
      simp only [Function.comp_apply]
      rw [h2, hM]
      unfold areaMean
      simp only [hw1, one_mul])
    (by
      rw [hsq, hM]
      unfold areaMean
      simp only [hw1, one_mul])
    (div_ne_zero hov hpos.ne')
  simp only [Function.comp_apply] at hc hI hr hvar hle
  refine ⟨_, _, ?_, hI.1, ?_, by rw [hc, h1], ?_, hvar, hle⟩
  · exact ((Finset.measurable_fun_sum _ fun k _ => mg.comp (hU.meas i j k))
      (measurableSet_singleton 0)).compl
  · filter_upwards [random_unit hU] with ω hu
    intro s out s' ho
    rw [ok_value hB hG hn _ (fun i j _ _ => draws_drawsOf hu n i j) f v hf hv none (by simp) ho hi hj,
      points_drawsOf, List.map_map, List.map_map, sum_range_map, sum_range_map]
    simp only [hw1, one_mul, Function.comp_apply]
    unfold fdiv
    constructor
    · intro hA
      rw [if_neg hA]
    · intro hA
      rw [if_pos (not_not.mp hA)]
  · rw [hr, h1, h2]
    congr 1
    unfold areaMean
    simp only [hw1, one_mul]
    exact div_div_div_cancel_right₀ hpos.ne' _ _

end

section
open Magpie.Cube Magpie.McCube
variable {Ω : Type} [MeasurableSpace Ω] (P : Measure Ω) [IsProbabilityMeasure P]
  (U : Ω → ℕ → ℕ → ℕ → ℝ × ℝ × ℝ) (hU : McCube.Random P U)
  (C : CubeArgs) (G : Shells) (hC : CubeOk C) (hG : G.Ok)
include hU hC hG

/-- C113 for `Cube2Shell`, with volumes. -/
theorem C113_shell (f : Arr3 (Option ℝ)) (v : ℕ → ℕ → ℕ → ℝ) (hf : Fits C f)
    (hv : ∀ i j k, i < f.n0 → j < f.n1 → k < f.n2 → f.val i j k = some (v i j k))
    (i j : ℕ) (hi : i < G.numr) (hj : j < G.npix)
    (hin : ∀ pt ∈ G.pixel i j, ∃ c d e, InVoxel C pt c d e) (n : ℕ) (hn : 0 < n) :
    ∃ X : Ω → ℝ, MemLp X 2 P ∧
      (∀ᵐ ω ∂P, ∀ s out s', McCube.mcRemap C G n (McCube.drawsOf (U ω) n) f none s = (.ok out, s') →
        out.val i j = some (X ω)) ∧
      ∫ ω, X ω ∂P = volMean C G none v i j ∧
      variance X P
        = (volMean C G none (fun b a c => v b a c^2) i j - volMean C G none v i j^2)/n := by
  obtain ⟨D, Q, hQ, hgood⟩ := mcCube_good P U hU C G hC hG
  have hQ' := hQ i j hi hj
  obtain ⟨B, hB⟩ := voxVal_bdd C v
  have hpos := (McCube.volume_pixel hG hi hj).2.2
  obtain ⟨hI1, -⟩ := McCube.mean_points hU (C := C) hG (fun _ _ _ => (1:ℝ)) hi hj hQ'
  have hcube : MeasurableSet {pt : ℝ × ℝ × ℝ | ∃ c d e, InVoxel C pt c d e} := by
    simp only [Set.setOf_exists]
    exact MeasurableSet.iUnion fun c => MeasurableSet.iUnion fun d => MeasurableSet.iUnion fun e =>
      measurableSet_inVoxel C c d e
  have hae : ∀ᵐ u ∂unif3, ∃ c d e, InVoxel C (Q i j u) c d e := by
    have : ∀ᵐ pt ∂uniformOn3 (G.pixel i j), ∃ c d e, InVoxel C pt c d e := by
      rw [ae_iff]
      unfold uniformOn3
      rw [Measure.smul_apply, smul_eq_mul]
      have : (volume.restrict (G.pixel i j)) {pt : ℝ × ℝ × ℝ | ¬ ∃ c d e, InVoxel C pt c d e} = 0 := by
        change (volume.restrict (G.pixel i j)) {pt : ℝ × ℝ × ℝ | ∃ c d e, InVoxel C pt c d e}ᶜ = 0
        rw [Measure.restrict_apply hcube.compl]
        convert measure_empty (μ := volume)
        ext pt
        simp only [Set.mem_inter_iff, Set.mem_compl_iff, Set.mem_setOf_eq, Set.mem_empty_iff_false, iff_false, not_and]
        exact fun h h' => h (hin pt h')
      rw [this, mul_zero]
    rw [← hQ'.law] at this
    exact ae_of_ae_map hQ'.meas.aemeasurable this
  have hA : volSum C G (fun _ _ _ => (1:ℝ)) i j = (volume (G.pixel i j)).toReal := by
    have e : (∫ u, voxVal C (fun _ _ _ => (1:ℝ)) (Q i j u) ∂unif3) = ∫ u, (1:ℝ) ∂unif3 :=
      integral_congr_ae (hae.mono fun u ⟨c, d, e, hu⟩ => voxVal_in hC _ hu)
    rw [e, integral_const, probReal_univ, one_smul, eq_div_iff hpos.ne', one_mul] at hI1
    exact hI1.symm
  have hmean : ∀ v : ℕ → ℕ → ℕ → ℝ, volMean C G none v i j = ∫ u, voxVal C v (Q i j u) ∂unif3 := by
    intro v
    rw [(McCube.mean_points hU (C := C) hG v hi hj hQ').1]
    unfold volMean
    simp only [McCube.wOf, one_mul]
    exact congrArg _ hA
  have hsq : volMean C G none (fun b a c => v b a c^2) i j = ∫ u, (voxVal C v (Q i j u))^2 ∂unif3 := by
    rw [hmean]
    refine integral_congr_ae (hae.mono fun u ⟨c, d, e, h⟩ => ?_)
    simp only [voxVal_in hC _ h]
  obtain ⟨m1, m2, m3⟩ := Lln.mean_moments (Y := fun k ω => U ω i j k) (hU.meas i j) (hU.law i j)
    (hU.indep i j) ((measurable_voxVal C v).comp hQ'.meas) (fun y => hB _) (n := n) hn
  refine ⟨_, m1, ?_, m2.trans (hmean v).symm, ?_⟩
  · filter_upwards [hgood, McCube.random_ae hU hae i j] with ω hg hvox
    obtain ⟨g1, g2, g3⟩ := hg
    intro s out s' ho
    rw [McCube.ok_value hC hG hn _ (g1 n) _ (g2 n) f v hf hv none (by simp) ho hi hj, g3 n i j hi hj]
    unfold valueAt
    simp only [List.map_map, Mc.sum_range_map]
    have e1 : (∑ k ∈ Finset.range n, (voxVal C (fun _ _ _ => 1) ∘ fun k => Q i j (U ω i j k)) k) = n := by
      refine (Finset.sum_congr rfl (g := fun _ => (1:ℝ)) fun k _ => ?_).trans (by simp)
      obtain ⟨c, d, e, h⟩ := hvox k
      exact voxVal_in hC _ h
    have e2 : (∑ k ∈ Finset.range n, (voxVal C (McCube.wOf none) ∘ fun k => Q i j (U ω i j k)) k) = n := e1
    have hn0 : (n:ℝ) ≠ 0 := by exact_mod_cast (show n ≠ 0 by omega)
    rw [e1, e2, if_neg hn0]
    simp only [McCube.wOf, one_mul, Function.comp_apply]
    unfold fdiv
    rw [if_neg hn0]
  · rw [m3, hsq, hmean v]
    rfl

/-- C113 for `Cube2Shell` and any pixel that overlaps the cube; where there is no value, it is `hp.UNSEEN`. -/
theorem C113_shell_some (f : Arr3 (Option ℝ)) (v : ℕ → ℕ → ℕ → ℝ) (hf : Fits C f)
    (hv : ∀ i j k, i < f.n0 → j < f.n1 → k < f.n2 → f.val i j k = some (v i j k))
    (i j : ℕ) (hi : i < G.numr) (hj : j < G.npix) (hind : iIndepFun (fun k ω => U ω i j k) P)
    (hov : volSum C G (fun _ _ _ => 1) i j ≠ 0) (n : ℕ) (hn : 0 < n) :
    ∃ (A : Set Ω) (X : Ω → ℝ), MeasurableSet A ∧ Integrable X P ∧
      (∀ᵐ ω ∂P, ∀ s out s', McCube.mcRemap C G n (McCube.drawsOf (U ω) n) f none s = (.ok out, s') →
        (ω ∈ A → out.val i j = some (X ω)) ∧ (ω ∉ A → out.val i j = some unseen)) ∧
      P.real A = 1 - (1 - volSum C G (fun _ _ _ => 1) i j/(volume (G.pixel i j)).toReal)^n ∧
      ∫ ω in A, X ω ∂P = volMean C G none v i j*P.real A ∧
      ∫ ω in A, (X ω - volMean C G none v i j)^2 ∂P
        = (volMean C G none (fun b a c => v b a c^2) i j - volMean C G none v i j^2)
          *∑ k ∈ Finset.Icc 1 n, (n.choose k:ℝ)*(volSum C G (fun _ _ _ => 1) i j/(volume (G.pixel i j)).toReal)^k
            *(1 - volSum C G (fun _ _ _ => 1) i j/(volume (G.pixel i j)).toReal)^(n-k)/k ∧
      ∫ ω in A, (X ω - volMean C G none v i j)^2 ∂P
        ≤ (volMean C G none (fun b a c => v b a c^2) i j - volMean C G none v i j^2)
          *(2/((n + 1)*(volSum C G (fun _ _ _ => 1) i j/(volume (G.pixel i j)).toReal))) := by
  have hw1 : McCube.wOf none = fun _ _ _ => (1:ℝ) := rfl
  obtain ⟨D, Q, hQ, hgood⟩ := mcCube_good P U hU C G hC hG
  have hQ' := hQ i j hi hj
  obtain ⟨B, hB⟩ := voxVal_bdd C v
  have hpos := (McCube.volume_pixel hG hi hj).2.2
  have h1 := (McCube.mean_points hU (C := C) hG (fun _ _ _ => (1:ℝ)) hi hj hQ').1
  have h2 := (McCube.mean_points hU (C := C) hG v hi hj hQ').1
  have hg : ∀ u, voxVal C (fun _ _ _ => (1:ℝ)) (Q i j u) = 0 ∨ voxVal C (fun _ _ _ => (1:ℝ)) (Q i j u) = 1 := by
    intro u
    by_cases h : ∃ a b c, InVoxel C (Q i j u) a b c
    · obtain ⟨a, b, c, h⟩ := h
      exact .inr (voxVal_in hC _ h)
    · exact .inl (voxVal_out _ h)
  have hgh : ∀ u, voxVal C (fun _ _ _ => (1:ℝ)) (Q i j u) = 0 → voxVal C v (Q i j u) = 0 := by
    intro u hu
    by_cases h : ∃ a b c, InVoxel C (Q i j u) a b c
    · obtain ⟨a, b, c, h⟩ := h
      rw [voxVal_in hC _ h] at hu
      exact absurd hu one_ne_zero
    · exact voxVal_out _ h
  have mg := (measurable_voxVal C (fun _ _ _ => (1:ℝ))).comp hQ'.meas
  have mh := (measurable_voxVal C v).comp hQ'.meas
  have hc := Lln.count_prob (Y := fun k ω => U ω i j k) (hU.meas i j) (hU.law i j) hind mg hg n
  have hI := Lln.integral_ratio (Y := fun k ω => U ω i j k) (hU.meas i j) (hU.law i j) hind mg hg mh
    (fun u => hB _) hgh n
  have hr := Lln.ratio_mean (Y := fun k ω => U ω i j k) (hU.meas i j) (hU.law i j) hind mg hg mh
    (fun u => hB _) hgh n (by
      simp only [Function.comp_apply]
      rw [h1]
      exact div_ne_zero hov hpos.ne')
  have hM : ∀ x : ℝ, x/(volume (G.pixel i j)).toReal/(volSum C G (fun _ _ _ => 1) i j/(volume (G.pixel i j)).toReal)
      = x/volSum C G (fun _ _ _ => 1) i j := fun x => div_div_div_cancel_right₀ hpos.ne' _ _
  have hsq : ∫ u, ((voxVal C v ∘ Q i j) u)^2 ∂unif3
      = volSum C G (fun b a c => v b a c^2) i j/(volume (G.pixel i j)).toReal := by
    rw [← (McCube.mean_points hU (C := C) hG (fun b a c => v b a c^2) hi hj hQ').1]
    refine integral_congr_ae (Eventually.of_forall fun u => ?_)
    simp only [Function.comp_apply]
    by_cases h : ∃ a b c, InVoxel C (Q i j u) a b c
    · obtain ⟨a, b, c, h⟩ := h
      rw [voxVal_in hC _ h, voxVal_in hC _ h]
    · rw [voxVal_out _ h, voxVal_out _ h]
      norm_num
  obtain ⟨hvar, hle⟩ := Lln.ratio_variance_le (Y := fun k ω => U ω i j k) (hU.meas i j) (hU.law i j) hind mg hg mh
    (fun u => hB _) hgh n h1 (m := volMean C G none v i j)
    (V := volMean C G none (fun b a c => v b a c^2) i j)
    (by
      simp only [Function.comp_apply]
      rw [h2, hM]
      unfold volMean
      simp only [hw1, one_mul])
    (by
      rw [hsq, hM]
      unfold volMean
      simp only [hw1, one_mul])
    (div_ne_zero hov hpos.ne')
  simp only [Function.comp_apply] at hc hI hr hvar hle
  refine ⟨_, _, ?_, hI.1, ?_, by rw [hc, h1], ?_, hvar, hle⟩
  · exact ((Finset.measurable_fun_sum _ fun k _ => mg.comp (hU.meas i j k))
      (measurableSet_singleton 0)).compl
  · filter_upwards [hgood] with ω hg
    obtain ⟨g1, g2, g3⟩ := hg
    intro s out s' ho
    rw [McCube.ok_value hC hG hn _ (g1 n) _ (g2 n) f v hf hv none (by simp) ho hi hj, g3 n i j hi hj]
    unfold valueAt
    simp only [List.map_map, Mc.sum_range_map, hw1, one_mul, Function.comp_apply]
    constructor
    · intro hA
      rw [if_neg hA]
      unfold fdiv
      rw [if_neg hA]
    · intro hA
      rw [if_pos (not_not.mp hA)]
  · rw [hr, h1, h2]
    congr 1
    unfold volMean
    simp only [hw1, one_mul]
    exact div_div_div_cancel_right₀ hpos.ne' _ _

end

/-- The hypotheses of `C113_shell` and, for the same cube, of `C103_returns_partial`, so that `remap`
returns for all large enough numbers of points. -/
example (i : ℕ) (hi : i < (McCube.Shells.lin exShells).numr) :
    McCube.CubeOk exCubeOct ∧ (McCube.Shells.lin exShells).Ok ∧
    (∀ pt ∈ (McCube.Shells.lin exShells).pixel i 0, ∃ c d e, McCube.InVoxel exCubeOct pt c d e) ∧
    McCube.overlaps exCubeOct (.lin exShells) i 0 ≠ McCube.overlaps exCubeOct (.lin exShells) i 2 := by
  refine ⟨exCubeOct_ok, exShells_ok, fun x hx => ⟨0, 0, 0, exCubeOct_in hi x hx⟩, ?_⟩
  rw [exCubeOct_none hi, (exCubeOct_one hi).1]
  norm_num

/-- A half disc inside a box of two pixels, one on either side: the hypotheses of `C113_ring`. -/
example (i : ℕ) : BoxOk exBoxTwo ∧ (Grid.lin exHalf).Ok ∧
    ∀ pt ∈ (Grid.lin exHalf).pixel i 0, ∃ c d, InPixel exBoxTwo pt c d := by
  refine ⟨exBoxTwo_ok, exHalf_ok, ?_⟩
  rintro pt ⟨r, t, hr, -, rfl⟩
  rw [(exHalf_edges 0 _).1, (exHalf_edges 0 _).1] at hr
  have h0 : 0 ≤ r := le_trans (by positivity) hr.1
  have h1 : r ≤ 1 := by
    refine hr.2.trans ?_
    norm_num
  simp only [Grid.args, exHalf, List.getD_cons_zero, List.getD_cons_succ, zero_add]
  by_cases hc : 0 ≤ Real.cos t
  · exact ⟨1, 0, (exBoxTwo_pixel h0 h1).1 hc⟩
  · rcases h0.eq_or_lt with rfl | h0'
    · exact ⟨1, 0, by simpa using (exBoxTwo_pixel (t := 0) le_rfl h1).1 (by simp)⟩
    · exact ⟨0, 0, (exBoxTwo_pixel h0 h1).2 h0' (not_le.mp hc)⟩

/-- Variates that are all independent of each other exist. -/
example : ∃ (Ω : Type) (_ : MeasurableSpace Ω) (P : Measure Ω) (U : Ω → ℕ → ℕ → ℕ → ℝ × ℝ),
    IsProbabilityMeasure P ∧ Random P U ∧ ∀ i j, iIndepFun (fun k ω => U ω i j k) P := by
  haveI : IsProbabilityMeasure unif2 := by
    unfold unif2
    haveI : IsProbabilityMeasure unif := ⟨by unfold unif; simp⟩
    infer_instance
  obtain ⟨Ω, m, P, X, hX, hl, hi, hp⟩ := exists_iid (ℕ × ℕ × ℕ) unif2
  refine ⟨Ω, m, P, fun ω i j k => X (i, j, k) ω, hp,
    ⟨fun i j k => hX _, fun i j k => (hl _).map_eq, ?_⟩, fun i j => ?_⟩
  · intro i j k l hkl
    exact hi.indepFun (i := (i, j, k)) (j := (i, j, l)) (by simpa using hkl)
  · exact hi.precomp (g := fun k => (i, j, k)) fun k l h => by simpa using h

/-- The inner half disc of `exHalf` overlaps the box `exBoxIn` but is not inside it: the hypothesis of
`C113_ring_some`. -/
example (i : ℕ) (hi : i < (Grid.lin exHalf).nump) : areaSum exBoxIn (.lin exHalf) (fun _ _ => 1) i 0 ≠ 0 := by
  have := exBoxIn_inner i hi
  unfold areaSum
  simp only [exBoxIn, Int.toNat_one, Finset.sum_range_one, one_mul]
  exact this.ne'

/-- The hypothesis of `C113_shell_some`. -/
example (i : ℕ) (hi : i < (McCube.Shells.lin exShells).numr) :
    McCube.volSum exCubeOct (.lin exShells) (fun _ _ _ => 1) i 0 ≠ 0 := (exCubeOct_one hi).2

end Magpie.Props
