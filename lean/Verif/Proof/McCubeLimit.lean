import Verif.Spec.McCubeLimit
import Verif.Proof.McCube2Shell
import Verif.Proof.McLimit
import Verif.Proof.ShellLaw
import Verif.Proof.Lln
import Verif.Props.HealpixSky

set_option linter.unusedSimpArgs false
set_option linter.unusedVariables false

namespace Magpie.McCube
open ProbabilityTheory hiding uniformOn
open Magpie.Box2Ring Magpie.Cube Magpie.Spec Magpie.Radial MeasureTheory
open Filter Topology Set

theorem Shells.rEdge_strict {G : Shells} (h : G.Ok) {i : ℕ} (hi : i < G.numr) : G.rEdge i < G.rEdge (i+1) := by
  rw [G.rEdge_flat, G.rEdge_flat]
  exact Mc.Grid.rEdge_strict (Shells.flat_ok h) (by rw [← G.numr_flat]; exact hi)

/-- The centre of the shells. -/
noncomputable def Shells.mid (G : Shells) : ℝ × ℝ × ℝ :=
  (G.args.center.getD 0 0, G.args.center.getD 1 0, G.args.center.getD 2 0)

/-- The random directions of a HEALPix pixel: a version that is measurable, and their law. -/
theorem dirs_law (N p : ℤ) (hN : 1 ≤ N) (hp : ValidPix N p) :
    ∃ (c : ℝ × ℝ) (D M : ℝ × ℝ → ℝ × ℝ), Healpix.pix2xy p N = .ok c ∧
      (∀ draws : List (ℝ × ℝ), (∀ r ∈ draws, (0 ≤ r.1 ∧ r.1 < 1) ∧ (0 ≤ r.2 ∧ r.2 < 1)) →
        Randoms.randomsHealpixPixel (draws.map Prod.fst) (draws.map Prod.snd) p N
          = .ok (draws.map fun r => some (D r).1, draws.map fun r => some (D r).2)) ∧
      (∀ r : ℝ × ℝ, (0 ≤ r.1 ∧ r.1 < 1) ∧ (0 ≤ r.2 ∧ r.2 < 1) → 0 ≤ (D r).2 ∧ (D r).2 ≤ Real.pi) ∧
      Measurable M ∧ (∀ᵐ r ∂unif2, M r = ((D r).1, Real.cos (D r).2)) ∧
      Measure.map M unif2 = uniformOn (SkyPixel N c) ∧ volume (SkyPixel N c) = ENNReal.ofReal (pixArea N) := by
  obtain ⟨c, D, hc, hD, hl, hv⟩ := Props.C89_uniform N p hN hp
  have hNR : (0:ℝ) < N := by exact_mod_cast (by omega : 0 < N)
  have hpos : 0 < pixArea N := by unfold pixArea; have := Real.pi_pos; positivity
  have hae : AEMeasurable (fun r => ((D r).1, Real.cos (D r).2)) unif2 := by
    by_contra hcon
    rw [Measure.map_of_not_aemeasurable hcon] at hl
    have := congrArg (fun m : Measure (ℝ × ℝ) => m univ) hl
    unfold uniformOn at this
    simp only [Measure.coe_zero, Pi.zero_apply, Measure.smul_apply, Measure.restrict_apply_univ, smul_eq_mul] at this
    rw [hv, ENNReal.inv_mul_cancel (by simpa using hpos) ENNReal.ofReal_ne_top] at this
    exact zero_ne_one this
  refine ⟨c, D, hae.mk _, hc, hD, ?_, hae.measurable_mk, ?_, ?_, hv⟩
  · intro r hr
    obtain ⟨xp, yp, sky, -, e, -, h⟩ := Props.C13_sky N p hN hp [r] (by simpa using hr)
    rw [hD [r] (by simpa using hr), Except.ok.injEq, Prod.mk.injEq] at e
    have e2 : some (D r).2 ∈ sky.map fun s => some s.2 := by rw [← e.2]; simp
    obtain ⟨s, hs, hs'⟩ := List.mem_map.mp e2
    rw [← Option.some.inj hs']
    exact ⟨(h s hs).1, (h s hs).2.1⟩
  · filter_upwards [hae.ae_eq_mk] with r hr using hr.symm
  · rw [← hl]
    exact (Measure.map_congr hae.ae_eq_mk).symm

theorem Shells.point_eq (G : Shells) (i : ℕ) (u : ℝ) {d : ℝ × ℝ} (h0 : 0 ≤ d.2) (h1 : d.2 ≤ Real.pi) :
    G.point i u d = Shell3.pt G.mid (G.rEdge i) (G.rEdge (i+1)) (u, d.1, Real.cos d.2) := by
  have hs : √(1 - Real.cos d.2^2) = Real.sin d.2 := by
    rw [← Real.abs_sin_eq_sqrt_one_sub_cos_sq, abs_of_nonneg (Real.sin_nonneg_of_nonneg_of_le_pi h0 h1)]
  unfold Shells.point Shell3.pt Shell3.sph Shell3.rad Shells.mid
  simp only [hs]
  refine Prod.ext ?_ (Prod.ext ?_ ?_) <;> simp only <;> ring

/-- The random directions of pixel `j`, and a measurable function that gives the random points almost surely. -/
structure Sampler (G : Shells) (i j : ℕ) (D : ℝ × ℝ → ℝ × ℝ) (Q : ℝ × ℝ × ℝ → ℝ × ℝ × ℝ) : Prop where
  dirs : ∀ draws : List (ℝ × ℝ), (∀ r ∈ draws, (0 ≤ r.1 ∧ r.1 < 1) ∧ (0 ≤ r.2 ∧ r.2 < 1)) →
    Randoms.randomsHealpixPixel (draws.map Prod.fst) (draws.map Prod.snd) j G.args.nside
      = .ok (draws.map fun r => some (D r).1, draws.map fun r => some (D r).2)
  meas : Measurable Q
  eq : ∀ᵐ u ∂unif3, G.point i u.1 (D u.2) = Q u
  law : Measure.map Q unif3 = uniformOn3 (G.pixel i j)

instance : IsProbabilityMeasure unif2 := by unfold unif2; infer_instance
instance : IsProbabilityMeasure unif3 := by unfold unif3; infer_instance

theorem unif2_unit : ∀ᵐ x ∂unif2, (0 ≤ x.1 ∧ x.1 < 1) ∧ (0 ≤ x.2 ∧ x.2 < 1) := by
  rw [show unif2 = (volume.prod volume).restrict (Ico (0:ℝ) 1 ×ˢ Ico (0:ℝ) 1) by
    unfold unif2 unif; rw [Measure.prod_restrict]]
  rw [ae_restrict_iff' (measurableSet_Ico.prod measurableSet_Ico)]
  exact Eventually.of_forall fun x hx => hx

theorem unif3_snd {p : ℝ × ℝ → Prop} (h : ∀ᵐ x ∂unif2, p x) : ∀ᵐ u ∂unif3, p u.2 := by
  unfold unif3
  exact Measure.quasiMeasurePreserving_snd.ae h

theorem unif3_unit : ∀ᵐ u ∂unif3, (0 ≤ u.1 ∧ u.1 < 1) ∧ (0 ≤ u.2.1 ∧ u.2.1 < 1) ∧ (0 ≤ u.2.2 ∧ u.2.2 < 1) := by
  have h1 : ∀ᵐ u ∂unif3, 0 ≤ u.1 ∧ u.1 < 1 := by
    have : ∀ᵐ x ∂unif, 0 ≤ x ∧ x < 1 := by
      unfold unif
      rw [ae_restrict_iff' measurableSet_Ico]
      exact Eventually.of_forall fun x hx => hx
    unfold unif3
    exact Measure.quasiMeasurePreserving_fst.ae this
  filter_upwards [h1, unif3_snd unif2_unit] with u a b using ⟨a, b⟩

theorem exists_sampler {G : Shells} (h : G.Ok) {i j : ℕ} (hi : i < G.numr) (hj : j < G.npix) :
    (∃ D Q, Sampler G i j D Q) ∧
    volume (G.pixel i j) = ENNReal.ofReal (((G.rEdge (i+1))^3 - (G.rEdge i)^3)/3*pixArea G.args.nside) := by
  have hN : 1 ≤ G.args.nside := by have := G.nside_pos h; omega
  have hNR : (0:ℝ) < G.args.nside := by exact_mod_cast (by omega : 0 < G.args.nside)
  have hpos : 0 < pixArea G.args.nside := by unfold pixArea; have := Real.pi_pos; positivity
  obtain ⟨c, D, M, hc, hD, hr, hM, hMD, hl, hv⟩ := dirs_law G.args.nside j hN (Shells.validPix h hj)
  have h0 := Shells.rEdge_nonneg h i
  have h1 := Shells.rEdge_strict h hi
  have hpix : G.pixel i j = ShellPart G.mid (G.rEdge i) (G.rEdge (i+1)) (SkyPixel G.args.nside c) := by
    ext x
    unfold Shells.pixel
    constructor
    · rintro ⟨c', hc', hx⟩
      rw [hc, Except.ok.injEq] at hc'
      rw [← hc'] at hx
      exact hx
    · exact fun hx => ⟨c, hc, hx⟩
  obtain ⟨e1, e2⟩ := Shell3.law (c := G.mid) h0 h1 (Shell3.measurableSet_skyPixel G.args.nside c)
    (fun v hv => ⟨hv.1, hv.2.1⟩) (by rw [hv]; simpa using hpos) (by rw [hv]; exact ENNReal.ofReal_ne_top)
  refine ⟨⟨D, fun u => Shell3.pt G.mid (G.rEdge i) (G.rEdge (i+1)) (u.1, M u.2), hD, ?_, ?_, ?_⟩, ?_⟩
  · exact Shell3.measurable_pt.comp (measurable_fst.prodMk (hM.comp measurable_snd))
  · filter_upwards [unif3_snd unif2_unit, unif3_snd hMD] with u hu hu'
    rw [G.point_eq i u.1 (hr _ hu).1 (hr _ hu).2, hu']
  · rw [hpix, ← e1, ← hl]
    have : unif.prod (Measure.map M unif2) = Measure.map (Prod.map id M) unif3 := by
      unfold unif3
      rw [← Measure.map_prod_map _ _ measurable_id hM, Measure.map_id]
    rw [this, Measure.map_map Shell3.measurable_pt (measurable_id.prodMap hM)]
    rfl
  · rw [hpix, e2, hv, ← ENNReal.ofReal_mul (by have := Shell3.cube_lt h0 h1; linarith)]

theorem volume_pixel {G : Shells} (h : G.Ok) {i j : ℕ} (hi : i < G.numr) (hj : j < G.npix) :
    volume (G.pixel i j) ≠ 0 ∧ volume (G.pixel i j) ≠ ⊤ ∧ 0 < (volume (G.pixel i j)).toReal := by
  have hNR : (0:ℝ) < G.args.nside := by exact_mod_cast G.nside_pos h
  have hpos : 0 < pixArea G.args.nside := by unfold pixArea; have := Real.pi_pos; positivity
  have hd := Shell3.cube_lt (Shells.rEdge_nonneg h i) (Shells.rEdge_strict h hi)
  have : 0 < ((G.rEdge (i+1))^3 - (G.rEdge i)^3)/3*pixArea G.args.nside := mul_pos (by linarith) hpos
  rw [(exists_sampler h hi hj).2]
  exact ⟨by simpa using this, ENNReal.ofReal_ne_top, by rw [ENNReal.toReal_ofReal this.le]; exact this⟩

/-! ## The value of the cube at a point -/

/-- The value of the cube at a point, 0 outside. -/
noncomputable def voxVal (C : CubeArgs) (w : ℕ → ℕ → ℕ → ℝ) (pt : ℝ × ℝ × ℝ) : ℝ :=
  ∑ a ∈ Finset.range C.numx.toNat, ∑ b ∈ Finset.range C.numy.toNat, ∑ c ∈ Finset.range C.numz.toNat,
    indicator {pt | InVoxel C pt a b c} (fun _ => w b a c) pt

theorem measurableSet_inVoxel (C : CubeArgs) (a b c : ℕ) : MeasurableSet {pt | InVoxel C pt a b c} := by
  have h1 := (measurable_fst : Measurable (Prod.fst : ℝ × ℝ × ℝ → ℝ))
    (Mc.measurableSet_inBin C.xmin C.xmax C.numx.toNat a)
  have h2 := (measurable_fst.comp measurable_snd : Measurable ((Prod.fst : ℝ × ℝ → ℝ) ∘ (Prod.snd : ℝ × ℝ × ℝ → ℝ × ℝ)))
    (Mc.measurableSet_inBin C.ymin C.ymax C.numy.toNat b)
  have h3 := (measurable_snd.comp measurable_snd : Measurable ((Prod.snd : ℝ × ℝ → ℝ) ∘ (Prod.snd : ℝ × ℝ × ℝ → ℝ × ℝ)))
    (Mc.measurableSet_inBin C.zmin C.zmax C.numz.toNat c)
  exact h1.inter (h2.inter h3)

theorem measurable_voxVal (C : CubeArgs) (w : ℕ → ℕ → ℕ → ℝ) : Measurable (voxVal C w) := by
  unfold voxVal
  refine Finset.measurable_sum _ fun a _ => Finset.measurable_sum _ fun b _ => Finset.measurable_sum _ fun c _ => ?_
  exact measurable_const.indicator (measurableSet_inVoxel C a b c)

theorem voxVal_in {C : CubeArgs} (hC : CubeOk C) (w : ℕ → ℕ → ℕ → ℝ) {pt : ℝ × ℝ × ℝ} {a b c : ℕ}
    (h : InVoxel C pt a b c) : voxVal C w pt = w b a c := by
  unfold voxVal
  rw [Finset.sum_eq_single a, Finset.sum_eq_single b, Finset.sum_eq_single c]
  · exact indicator_of_mem (s := {pt | InVoxel C pt a b c}) h _
  · intro c' _ hc
    refine indicator_of_notMem (s := {pt | InVoxel C pt a b c'}) (fun h' => hc ?_) _
    exact Mc.inBin_unique hC.hz h'.2.2 h.2.2
  · intro hc
    exact absurd (Finset.mem_range.mpr h.2.2.1) hc
  · intro b' _ hb
    refine Finset.sum_eq_zero fun c' _ => indicator_of_notMem (s := {pt | InVoxel C pt a b' c'}) (fun h' => hb ?_) _
    exact Mc.inBin_unique hC.hy h'.2.1 h.2.1
  · intro hb
    exact absurd (Finset.mem_range.mpr h.2.1.1) hb
  · intro a' _ ha
    refine Finset.sum_eq_zero fun b' _ => Finset.sum_eq_zero fun c' _ =>
      indicator_of_notMem (s := {pt | InVoxel C pt a' b' c'}) (fun h' => ha ?_) _
    exact Mc.inBin_unique hC.hx h'.1 h.1
  · intro ha
    exact absurd (Finset.mem_range.mpr h.1.1) ha

theorem voxVal_out {C : CubeArgs} (w : ℕ → ℕ → ℕ → ℝ) {pt : ℝ × ℝ × ℝ} (h : ¬ ∃ a b c, InVoxel C pt a b c) :
    voxVal C w pt = 0 := by
  unfold voxVal
  refine Finset.sum_eq_zero fun a _ => Finset.sum_eq_zero fun b _ => Finset.sum_eq_zero fun c _ => ?_
  exact indicator_of_notMem (s := {pt | InVoxel C pt a b c}) (fun h' => h ⟨a, b, c, h'⟩) _

theorem voxVal_bdd (C : CubeArgs) (w : ℕ → ℕ → ℕ → ℝ) : ∃ B, ∀ pt, |voxVal C w pt| ≤ B := by
  refine ⟨∑ a ∈ Finset.range C.numx.toNat, ∑ b ∈ Finset.range C.numy.toNat, ∑ c ∈ Finset.range C.numz.toNat, |w b a c|,
    fun pt => ?_⟩
  unfold voxVal
  refine (Finset.abs_sum_le_sum_abs _ _).trans (Finset.sum_le_sum fun a _ => ?_)
  refine (Finset.abs_sum_le_sum_abs _ _).trans (Finset.sum_le_sum fun b _ => ?_)
  refine (Finset.abs_sum_le_sum_abs _ _).trans (Finset.sum_le_sum fun c _ => ?_)
  by_cases h : pt ∈ {pt | InVoxel C pt a b c}
  · rw [indicator_of_mem h]
  · rw [indicator_of_notMem h, abs_zero]; exact abs_nonneg _

/-- The mean of the cube over a pixel of a shell. -/
theorem integral_voxVal {C : CubeArgs} {G : Shells} (w : ℕ → ℕ → ℕ → ℝ) {i j : ℕ}
    (hv' : volume (G.pixel i j) ≠ ⊤) :
    ∫ pt, voxVal C w pt ∂uniformOn3 (G.pixel i j) = volSum C G w i j/(volume (G.pixel i j)).toReal := by
  unfold uniformOn3
  rw [integral_smul_measure]
  unfold voxVal volSum
  have hi : ∀ a b c, Integrable (indicator {pt | InVoxel C pt a b c} fun _ => w b a c)
      ((volume : Measure (ℝ × ℝ × ℝ)).restrict (G.pixel i j)) := fun a b c => by
    haveI : IsFiniteMeasure ((volume : Measure (ℝ × ℝ × ℝ)).restrict (G.pixel i j)) :=
      ⟨by rw [Measure.restrict_apply_univ]; exact hv'.lt_top⟩
    exact (integrable_const _).indicator (measurableSet_inVoxel C a b c)
  rw [integral_finset_sum _ fun a _ => integrable_finset_sum _ fun b _ => integrable_finset_sum _ fun c _ => hi a b c]
  rw [smul_eq_mul, ENNReal.toReal_inv, ← div_eq_inv_mul]
  congr 1
  refine Finset.sum_congr rfl fun a _ => ?_
  rw [integral_finset_sum _ fun b _ => integrable_finset_sum _ fun c _ => hi a b c]
  refine Finset.sum_congr rfl fun b _ => ?_
  rw [integral_finset_sum _ fun c _ => hi a b c]
  refine Finset.sum_congr rfl fun c _ => ?_
  rw [integral_indicator (measurableSet_inVoxel C a b c), Measure.restrict_restrict (measurableSet_inVoxel C a b c),
    setIntegral_const, smul_eq_mul, mul_comm]
  unfold commonVol
  rw [inter_comm]
  rfl

/-- The sums of what is read at the points. -/
theorem reads_sum {C : CubeArgs} (hC : CubeOk C) {α : Type} (v : ℕ → ℕ → ℕ → α) (F : α → ℝ) {pts : List (ℝ × ℝ × ℝ)}
    {g : List (Option α)} (h : List.Forall₂ (Reads C v) pts g) :
    ((g.filterMap id).map F).sum = (pts.map (voxVal C fun b a c => F (v b a c))).sum := by
  induction h with
  | nil => rfl
  | @cons pt x pts g h1 h2 ih =>
    rw [List.map_cons, List.sum_cons, ← ih]
    by_cases hc : ∃ a b c, InVoxel C pt a b c
    · obtain ⟨a, b, c, hab⟩ := hc
      rw [h1.1 a b c hab, voxVal_in hC _ hab]
      simp
    · rw [h1.2 hc, voxVal_out _ hc]
      simp

/-- What `remap` returns for a pixel: the weighted mean over the random points in the cube, `hp.UNSEEN` if there
are none. -/
noncomputable def valueAt (C : CubeArgs) (w : Option (Arr3 ℝ)) (v : ℕ → ℕ → ℕ → ℝ) (pts : List (ℝ × ℝ × ℝ)) : Option ℝ :=
  if (pts.map (voxVal C fun _ _ _ => 1)).sum = 0 then some unseen
  else fdiv (pts.map (voxVal C fun b a c => wOf w b a c*v b a c)).sum (pts.map (voxVal C (wOf w))).sum

/-- One pixel of `remap`. -/
theorem pixel_value {C : CubeArgs} {G : Shells} (hC : CubeOk C) {n : ℕ} (hn : 0 < n)
    (draws : ℕ → ℕ → Draw) (dirs : ℕ → ℕ → List (ℝ × ℝ))
    (f : Arr3 (Option ℝ)) (v : ℕ → ℕ → ℕ → ℝ) (hf : Fits C f)
    (hv : ∀ i j k, i < f.n0 → j < f.n1 → k < f.n2 → f.val i j k = some (v i j k))
    (w : Option (Arr3 ℝ)) (hw : ∀ t, w = some t → Fits C t)
    {i j : ℕ} {hits : ℕ → ℕ → List Hit}
    (hh : hits i j = pixelHits (hX C) (hY C) (hZ C) n ((G.points i (draws i j).ur (dirs i j)).map some))
    {o : Bool} {x : Option ℝ} (ht : remapPixel ⟨hits, o⟩ f w i j = .ok x) :
    x = valueAt C w v (G.points i (draws i j).ur (dirs i j)) := by
  set pts := G.points i (draws i j).ur (dirs i j) with hpts
  have key1 : ∀ (α : Type) (q : ℕ → ℕ → ℕ → α) (g : List (Option α)), List.Forall₂ (Reads C q) pts g →
      (pts.map (voxVal C fun _ _ _ => 1)).sum = (g.filterMap id).length := by
    intro α q g hg
    have e2 := reads_sum hC q (fun _ => 1) hg
    simp only [List.map_const', List.sum_replicate, nsmul_eq_mul, mul_one] at e2
    exact e2.symm
  unfold valueAt
  cases o with
  | false =>
    cases w with
    | none =>
      obtain ⟨g, hg⟩ := exists_reads hC v pts
      rw [remapPixel_none hC hn pts ⟨hits, false⟩ i j hh rfl f v hf hv g hg,
        Except.ok.injEq] at ht
      have e1 := reads_sum hC v (fun x => x) hg
      have e2 := key1 _ v g hg
      simp only [List.map_id'] at e1
      rw [← ht, e2]
      simp only [wOf, one_mul]
      rw [← e1]
      show _ = if _ then _ else fdiv _ (pts.map (voxVal C fun _ _ _ => 1)).sum
      rw [e2]
      unfold meanOrUnseen fdiv
      by_cases h0 : g.filterMap id = []
      · rw [if_pos h0, h0, if_pos (by simp)]
      · have : ((g.filterMap id).length : ℝ) ≠ 0 := by
          exact_mod_cast fun h => h0 (List.length_eq_zero_iff.mp h)
        rw [if_neg h0, if_neg this, if_neg this]
    | some w =>
      obtain ⟨g, hg⟩ := exists_reads hC (fun b a c => (w.val b a c, v b a c)) pts
      rw [remapPixel_some hC hn pts ⟨hits, false⟩ i j hh rfl f v hf hv w
        (hw w rfl) g hg, Except.ok.injEq] at ht
      have e1 := reads_sum hC _ (fun x => x.1*x.2) hg
      have e2 := reads_sum hC _ (fun x => x.1) hg
      rw [← ht, key1 _ _ g hg]
      unfold wmeanOrUnseen Mc.wmean
      by_cases h0 : g.filterMap id = []
      · rw [if_pos h0, h0, if_pos (by simp)]
      · have : ((g.filterMap id).length : ℝ) ≠ 0 := by
          exact_mod_cast fun h => h0 (List.length_eq_zero_iff.mp h)
        rw [if_neg h0, if_neg this]
        exact congrArg₂ fdiv e1 e2
  | true =>
    have hz : ((hits i j).map Hit.w).sum = 0 ∧ x = some unseen := by
      unfold remapPixel at ht
      cases w with
      | none =>
        simp only at ht
        by_cases h0 : ((hits i j).map Hit.w).sum ≠ 0
        · rw [if_pos h0] at ht
          simp [readHits, Bind.bind, Except.bind] at ht
        · rw [if_neg h0, Except.ok.injEq] at ht
          exact ⟨not_not.mp h0, ht.symm⟩
      | some w =>
        simp only at ht
        by_cases h0 : ((hits i j).map Hit.w).sum ≠ 0
        · rw [if_pos h0] at ht
          simp [readHits, Bind.bind, Except.bind] at ht
        · rw [if_neg h0, Except.ok.injEq] at ht
          exact ⟨not_not.mp h0, ht.symm⟩
    rw [hz.2]
    have h0 := hz.1
    rw [hh, hits_wsum hC] at h0
    have hn' : (n:ℝ) ≠ 0 := by exact_mod_cast (show n ≠ 0 by omega)
    have h1 : (bins C pts).filterMap id = [] := by
      rcases div_eq_zero_iff.mp h0 with h | h
      · exact List.length_eq_zero_iff.mp (by exact_mod_cast h)
      · exact absurd h hn'
    obtain ⟨g, hg⟩ := exists_reads hC v pts
    rw [key1 _ _ g hg, reads_bins hC _ pts g hg, h1]
    simp

/-- Whenever `remap` returns, each value is the weighted mean over the random points in the cube. -/
theorem ok_value {C : CubeArgs} {G : Shells} (hC : CubeOk C) (hG : G.Ok) {n : ℕ} (hn : 0 < n)
    (draws : ℕ → ℕ → Draw) (hd : ∀ i j, i < G.numr → j < G.npix → Draws n (draws i j))
    (dirs : ℕ → ℕ → List (ℝ × ℝ)) (hs : Samples G draws dirs)
    (f : Arr3 (Option ℝ)) (v : ℕ → ℕ → ℕ → ℝ) (hf : Fits C f)
    (hv : ∀ i j k, i < f.n0 → j < f.n1 → k < f.n2 → f.val i j k = some (v i j k))
    (w : Option (Arr3 ℝ)) (hw : ∀ t, w = some t → Fits C t)
    {s s' : State} {out : Arr2 (Option ℝ)} (ho : mcRemap C G n draws f w s = (.ok out, s'))
    {i j : ℕ} (hi : i < G.numr) (hj : j < G.npix) :
    out.val i j = valueAt C w v (G.points i (draws i j).ur (dirs i j)) := by
  obtain ⟨hits, hh, s1, e⟩ := mcRemap_run hC hG draws hd dirs hs f w s
  rw [ho] at e
  cases hp : Mc.pack (lens C G draws dirs) with
  | error x => rw [hp] at e; simp at e
  | ok o =>
    rw [hp] at e
    simp only [Prod.mk.injEq] at e
    have ht := (tabulate_inv e.1.symm).2.2 i j hi hj
    exact pixel_value hC hn draws dirs f v hf hv w hw (hh i j hi hj) ht

/-! ## Random variates -/

section
variable {Ω : Type} [MeasurableSpace Ω] {P : Measure Ω} {U : Ω → ℕ → ℕ → ℕ → ℝ × ℝ × ℝ}

theorem random_ae (h : Random P U) {p : ℝ × ℝ × ℝ → Prop} (hp : ∀ᵐ u ∂unif3, p u) (i j : ℕ) :
    ∀ᵐ ω ∂P, ∀ k, p (U ω i j k) := by
  rw [ae_all_iff]; intro k
  rw [← h.law i j k] at hp
  exact ae_of_ae_map (h.meas i j k).aemeasurable hp

theorem random_unit (h : Random P U) : ∀ᵐ ω ∂P, ∀ i j k, (0 ≤ (U ω i j k).1 ∧ (U ω i j k).1 < 1) ∧
    (0 ≤ (U ω i j k).2.1 ∧ (U ω i j k).2.1 < 1) ∧ (0 ≤ (U ω i j k).2.2 ∧ (U ω i j k).2.2 < 1) := by
  rw [ae_all_iff]; intro i
  rw [ae_all_iff]; intro j
  exact random_ae h unif3_unit i j

theorem draws_drawsOf {u : ℕ → ℕ → ℕ → ℝ × ℝ × ℝ} (h : ∀ i j k, (0 ≤ (u i j k).1 ∧ (u i j k).1 < 1) ∧
    (0 ≤ (u i j k).2.1 ∧ (u i j k).2.1 < 1) ∧ (0 ≤ (u i j k).2.2 ∧ (u i j k).2.2 < 1)) (n i j : ℕ) :
    Draws n (drawsOf u n i j) := by
  refine ⟨⟨by simp [drawsOf], ?_⟩, ⟨by simp [drawsOf], ?_⟩, by simp [drawsOf], ?_⟩
  · intro x hx
    simp only [drawsOf, List.mem_map] at hx
    obtain ⟨k, -, rfl⟩ := hx
    exact (h i j k).2.1
  · intro x hx
    simp only [drawsOf, List.mem_map] at hx
    obtain ⟨k, -, rfl⟩ := hx
    exact (h i j k).2.2
  · intro x hx
    simp only [drawsOf, List.mem_map] at hx
    obtain ⟨k, -, rfl⟩ := hx
    exact (h i j k).1

/-- The directions of the variates. -/
noncomputable def dirsOf (D : ℕ → ℕ → ℝ × ℝ → ℝ × ℝ) (u : ℕ → ℕ → ℕ → ℝ × ℝ × ℝ) (n i j : ℕ) : List (ℝ × ℝ) :=
  (List.range n).map fun (k : ℕ) => D i j (u i j k).2

theorem samples_dirsOf {G : Shells} {D : ℕ → ℕ → ℝ × ℝ → ℝ × ℝ} {Q : ℕ → ℕ → ℝ × ℝ × ℝ → ℝ × ℝ × ℝ}
    (hDQ : ∀ i j, i < G.numr → j < G.npix → Sampler G i j (D i j) (Q i j)) {u : ℕ → ℕ → ℕ → ℝ × ℝ × ℝ}
    (h : ∀ i j k, (0 ≤ (u i j k).1 ∧ (u i j k).1 < 1) ∧
      (0 ≤ (u i j k).2.1 ∧ (u i j k).2.1 < 1) ∧ (0 ≤ (u i j k).2.2 ∧ (u i j k).2.2 < 1)) (n : ℕ) :
    Samples G (drawsOf u n) (dirsOf D u n) := by
  intro i j hi hj
  have := (hDQ i j hi hj).dirs ((List.range n).map fun (k : ℕ) => (u i j k).2) (by
    intro r hr
    obtain ⟨k, -, rfl⟩ := List.mem_map.mp hr
    exact (h i j k).2)
  simp only [List.map_map] at this
  unfold drawsOf dirsOf
  simp only [List.map_map]
  exact this

theorem points_drawsOf (G : Shells) (D : ℕ → ℕ → ℝ × ℝ → ℝ × ℝ) (u : ℕ → ℕ → ℕ → ℝ × ℝ × ℝ) (n i j : ℕ) :
    G.points i (drawsOf u n i j).ur (dirsOf D u n i j)
      = (List.range n).map fun (k : ℕ) => G.point i (u i j k).1 (D i j (u i j k).2) := by
  unfold Shells.points drawsOf dirsOf
  simp only [List.zipWith_map]
  induction List.range n with
  | nil => rfl
  | cons a l ih => simp [ih]

variable [IsProbabilityMeasure P]

/-- The mean of the cube values at the random points of a pixel converges. -/
theorem mean_points (hU : Random P U) {C : CubeArgs} {G : Shells} (hG : G.Ok) (w : ℕ → ℕ → ℕ → ℝ)
    {i j : ℕ} (hi : i < G.numr) (hj : j < G.npix) {D Q} (hQ : Sampler G i j D Q) :
    (∫ u, voxVal C w (Q u) ∂unif3) = volSum C G w i j/(volume (G.pixel i j)).toReal ∧
    ∀ᵐ ω ∂P, Tendsto (fun n : ℕ => (((List.range n).map fun (k : ℕ) => Q (U ω i j k)).map (voxVal C w)).sum/n) atTop
      (𝓝 (volSum C G w i j/(volume (G.pixel i j)).toReal)) := by
  obtain ⟨h0, h1, h2⟩ := volume_pixel hG hi hj
  have hm := (measurable_voxVal C w).comp hQ.meas
  have hint : (∫ u, voxVal C w (Q u) ∂unif3) = volSum C G w i j/(volume (G.pixel i j)).toReal := by
    rw [← integral_voxVal w h1, ← hQ.law,
      integral_map hQ.meas.aemeasurable (measurable_voxVal C w).aestronglyMeasurable]
  refine ⟨hint, ?_⟩
  obtain ⟨B, hB⟩ := voxVal_bdd C w
  have := Lln.mean_tendsto (Y := fun k ω => U ω i j k) (hU.meas i j) (hU.law i j) (hU.indep i j) hm
    (fun y => hB _)
  simp only [Function.comp_apply] at this
  rw [hint] at this
  filter_upwards [this] with ω hω
  refine hω.congr fun n => ?_
  rw [List.map_map, Mc.sum_range_map]
  rfl

theorem inVoxel_range {C : CubeArgs} {pt : ℝ × ℝ × ℝ} {a b c : ℕ} (h : InVoxel C pt a b c) :
    a < C.numx.toNat ∧ b < C.numy.toNat ∧ c < C.numz.toNat := ⟨h.1.1, h.2.1.1, h.2.2.1⟩

theorem commonVol_range {C : CubeArgs} {G : Shells} {i j a b c : ℕ} (h : 0 < commonVol C G i j a b c) :
    a < C.numx.toNat ∧ b < C.numy.toNat ∧ c < C.numz.toNat := by
  by_contra hc
  have : {pt : ℝ × ℝ × ℝ | InVoxel C pt a b c} = ∅ := by
    ext pt
    simp only [mem_setOf_eq, mem_empty_iff_false, iff_false]
    exact fun h => hc (inVoxel_range h)
  unfold commonVol at h
  rw [this] at h
  simp at h

/-- Whether a voxel has a volume in common with a pixel of a shell. -/
theorem commonVol_pos {C : CubeArgs} {G : Shells} (hG : G.Ok) {i j : ℕ} (hi : i < G.numr) (hj : j < G.npix)
    {D Q} (hQ : Sampler G i j D Q) (a b c : ℕ) :
    0 < commonVol C G i j a b c ↔ unif3 {u | InVoxel C (Q u) a b c} ≠ 0 := by
  obtain ⟨h0, ht, -⟩ := volume_pixel hG hi hj
  have hm := measurableSet_inVoxel C a b c
  have : unif3 {u | InVoxel C (Q u) a b c}
      = (volume (G.pixel i j))⁻¹*volume (G.pixel i j ∩ {pt | InVoxel C pt a b c}) := by
    have := congrArg (fun μ => μ {pt | InVoxel C pt a b c}) hQ.law
    simp only [Measure.map_apply hQ.meas hm] at this
    refine this.trans ?_
    unfold uniformOn3
    rw [Measure.smul_apply, Measure.restrict_apply hm, smul_eq_mul, inter_comm]
  rw [this, Ne, mul_eq_zero, ENNReal.inv_eq_zero, not_or]
  unfold commonVol
  rw [ENNReal.toReal_pos_iff, pos_iff_ne_zero]
  exact ⟨fun h => ⟨ht, h.1⟩, fun h => ⟨h.2, (measure_mono inter_subset_left).trans_lt ht.lt_top⟩⟩

theorem volSum_single (C : CubeArgs) (G : Shells) (i j : ℕ) {a b c : ℕ} (ha : a < C.numx.toNat)
    (hb : b < C.numy.toNat) (hc : c < C.numz.toNat) :
    volSum C G (fun e d g => if d = a ∧ e = b ∧ g = c then 1 else 0) i j = commonVol C G i j a b c := by
  unfold volSum
  rw [Finset.sum_eq_single a, Finset.sum_eq_single b, Finset.sum_eq_single c]
  · simp
  · intro d _ hd; simp [hd]
  · intro h; exact absurd (Finset.mem_range.mpr hc) h
  · intro d _ hd; simp [hd]
  · intro h; exact absurd (Finset.mem_range.mpr hb) h
  · intro d _ hd; simp [hd]
  · intro h; exact absurd (Finset.mem_range.mpr ha) h

/-- With enough points the voxels touched are those with a common volume. -/
theorem touched_eventually (hU : Random P U) {C : CubeArgs} {G : Shells} (hC : CubeOk C) (hG : G.Ok)
    {i j : ℕ} (hi : i < G.numr) (hj : j < G.npix) {D Q} (hQ : Sampler G i j D Q) :
    ∀ᵐ ω ∂P, (∀ᶠ n : ℕ in atTop, touched C ((List.range n).map fun (k : ℕ) => Q (U ω i j k)) = overlaps C G i j) ∧
      ∀ a b c k, InVoxel C (Q (U ω i j k)) a b c → 0 < commonVol C G i j a b c := by
  have h1 : ∀ c : ℕ × ℕ × ℕ, ∀ᵐ ω ∂P, ¬ 0 < commonVol C G i j c.1 c.2.1 c.2.2 →
      ∀ k, ¬ InVoxel C (Q (U ω i j k)) c.1 c.2.1 c.2.2 := by
    intro c
    by_cases hc : 0 < commonVol C G i j c.1 c.2.1 c.2.2
    · exact Eventually.of_forall fun ω h => absurd hc h
    · have h0 : ∀ᵐ u ∂unif3, ¬ InVoxel C (Q u) c.1 c.2.1 c.2.2 := by
        rw [ae_iff]
        simp only [not_not]
        exact not_not.mp fun h => hc ((commonVol_pos hG hi hj hQ _ _ _).mpr h)
      filter_upwards [random_ae hU h0 i j] with ω hω _ using hω
  have h2 : ∀ c : ℕ × ℕ × ℕ, ∀ᵐ ω ∂P, 0 < commonVol C G i j c.1 c.2.1 c.2.2 →
      ∀ᶠ n : ℕ in atTop, ∃ pt ∈ (List.range n).map fun (k : ℕ) => Q (U ω i j k), InVoxel C pt c.1 c.2.1 c.2.2 := by
    intro c
    by_cases hc : 0 < commonVol C G i j c.1 c.2.1 c.2.2
    · obtain ⟨ha, hb, hcc⟩ := commonVol_range hc
      obtain ⟨-, hlim⟩ := mean_points hU (C := C) hG
        (fun e d g => if d = c.1 ∧ e = c.2.1 ∧ g = c.2.2 then 1 else 0) hi hj hQ
      have hpos := (volume_pixel hG hi hj).2.2
      rw [volSum_single C G i j ha hb hcc] at hlim
      filter_upwards [hlim] with ω hω _
      filter_upwards [hω.eventually (lt_mem_nhds (div_pos hc hpos))] with n hn
      by_contra hno
      push Not at hno
      have hz : (((List.range n).map fun (k : ℕ) => Q (U ω i j k)).map
          (voxVal C fun e d g => if d = c.1 ∧ e = c.2.1 ∧ g = c.2.2 then 1 else 0)).sum = 0 := by
        refine List.sum_eq_zero fun x hx => ?_
        obtain ⟨pt, hpt, rfl⟩ := List.mem_map.mp hx
        by_cases hp : ∃ a b c, InVoxel C pt a b c
        · obtain ⟨a, b, g, hab⟩ := hp
          rw [voxVal_in hC _ hab, if_neg]
          rintro ⟨rfl, rfl, rfl⟩
          exact hno pt hpt hab
        · exact voxVal_out _ hp
      rw [hz, zero_div] at hn
      exact lt_irrefl _ hn
    · exact Eventually.of_forall fun ω h => absurd h hc
  filter_upwards [ae_all_iff.mpr h1, ae_all_iff.mpr h2] with ω e1 e2
  have hfin : {c : ℕ × ℕ × ℕ | 0 < commonVol C G i j c.1 c.2.1 c.2.2}.Finite :=
    ((finite_Iio C.numx.toNat).prod ((finite_Iio C.numy.toNat).prod (finite_Iio C.numz.toNat))).subset
      fun c hc => commonVol_range hc
  have : ∀ᶠ n : ℕ in atTop, ∀ c ∈ {c : ℕ × ℕ × ℕ | 0 < commonVol C G i j c.1 c.2.1 c.2.2},
      ∃ pt ∈ (List.range n).map fun (k : ℕ) => Q (U ω i j k), InVoxel C pt c.1 c.2.1 c.2.2 :=
    (eventually_all_finite hfin).mpr fun c hc => e2 c hc
  constructor
  · filter_upwards [this] with n hn
    unfold touched overlaps
    congr 1
    ext c
    constructor
    · rintro ⟨pt, hpt, hin⟩
      by_contra hc
      rw [List.mem_map] at hpt
      obtain ⟨k, -, rfl⟩ := hpt
      exact e1 c hc k hin
    · exact fun hc => hn c hc
  · intro a b c k hin
    by_contra hc
    exact e1 (a, b, c) hc k hin

end

end Magpie.McCube
