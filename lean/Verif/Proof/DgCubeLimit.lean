import Verif.Spec.DgCubeLimit
import Verif.Proof.DgCubeRiemann
import Verif.Proof.DgCube2Shell
import Verif.Proof.DgLimit
import Verif.Proof.McCubeLimit

/-!
# The dense grid means of `Cube2Shell` converge to the volume means
-/

set_option linter.unusedSimpArgs false
set_option linter.unusedVariables false

namespace Magpie.DgCube
open Magpie.Cube Magpie.Spec Magpie.Healpix Magpie.McCube MeasureTheory Filter Topology Set Real
open Magpie.Props (halfDiag_pos)
open Magpie.Box2Ring (edgeAt_strict edgeAt_mono edgeAt_zero)

/-! ## The value at a point -/

/-- Number of the cell along one axis, periodic images included. -/
noncomputable def slot (lo hi : ℝ) (n : ℕ) (x : ℝ) : ℤ := ⌊(x - lo)*n/(hi - lo)⌋

theorem inCell_image {lo hi : ℝ} (h : lo < hi) {num : ℕ} (hn : 0 < num) (n : ℤ) (a : ℕ) (x : ℝ) :
    InCell lo hi num a (x + n*(hi - lo)) ↔ a < num ∧ slot lo hi num x = a - n*num := by
  have hl : 0 < hi - lo := by linarith
  have hn' : (0:ℝ) < num := by exact_mod_cast hn
  unfold InCell edgeAt slot
  rw [Int.floor_eq_iff]
  have e1 : lo + (a:ℝ)*((hi - lo)/num) ≤ x + n*(hi - lo) ↔ ((a - n*num : ℤ) : ℝ) ≤ (x - lo)*num/(hi - lo) := by
    rw [le_div_iff₀ hl]
    push_cast
    rw [← mul_le_mul_iff_left₀ hn']
    have : (lo + (a:ℝ)*((hi - lo)/num))*num = lo*num + a*(hi - lo) := by field_simp
    rw [this]
    constructor <;> intro h <;> nlinarith
  have e2 : x + n*(hi - lo) < lo + ((a+1 : ℕ):ℝ)*((hi - lo)/num) ↔ (x - lo)*num/(hi - lo) < ((a - n*num : ℤ) : ℝ) + 1 := by
    rw [div_lt_iff₀ hl]
    push_cast
    rw [← mul_lt_mul_iff_left₀ hn']
    have : (lo + ((a:ℝ) + 1)*((hi - lo)/num))*num = lo*num + (a + 1)*(hi - lo) := by field_simp
    rw [this]
    constructor <;> intro h <;> nlinarith
  rw [e1, e2]

/-- The three numbers. -/
noncomputable def slots (C : CubeArgs) (x : ℝ × ℝ × ℝ) : ℤ × ℤ × ℤ :=
  (slot C.xmin C.xmax C.numx.toNat x.1, slot C.ymin C.ymax C.numy.toNat x.2.1, slot C.zmin C.zmax C.numz.toNat x.2.2)

theorem inCell3_image {C : CubeArgs} (hC : CubeOk C) (n : ℤ × ℤ × ℤ) (a b c : ℕ) (x : ℝ × ℝ × ℝ) :
    InCell3 C (image C n x) a b c ↔ (a < C.numx.toNat ∧ b < C.numy.toNat ∧ c < C.numz.toNat) ∧
      slots C x = (a - n.1*C.numx.toNat, b - n.2.1*C.numy.toNat, c - n.2.2*C.numz.toNat) := by
  have nx : 0 < C.numx.toNat := by have := hC.numx; omega
  have ny : 0 < C.numy.toNat := by have := hC.numy; omega
  have nz : 0 < C.numz.toNat := by have := hC.numz; omega
  unfold InCell3 image slots
  simp only [inCell_image hC.hx nx, inCell_image hC.hy ny, inCell_image hC.hz nz, Prod.mk.injEq]
  tauto

theorem reads_slots {C : CubeArgs} (hC : CubeOk C) (A : ShellArgs) (v : ℕ → ℕ → ℕ → ℝ) {x y : ℝ × ℝ × ℝ}
    (h : slots C x = slots C y) {g g' : ℝ} (hg : Reads C A v x g) (hg' : Reads C A v y g') : g = g' := by
  by_cases hx : ∃ n a b c, InRange A n ∧ InCell3 C (image C n x) a b c
  · obtain ⟨n, a, b, c, hn, hin⟩ := hx
    have hin' : InCell3 C (image C n y) a b c := by
      rw [inCell3_image hC] at hin ⊢
      rwa [← h]
    rw [hg.1 n a b c hn hin, hg'.1 n a b c hn hin']
  · have hy : ¬ ∃ n a b c, InRange A n ∧ InCell3 C (image C n y) a b c := by
      rintro ⟨n, a, b, c, hn, hin⟩
      refine hx ⟨n, a, b, c, hn, ?_⟩
      rw [inCell3_image hC] at hin ⊢
      rwa [h]
    rw [hg.2 hx, hg'.2 hy]

theorem reads_bdd (C : CubeArgs) (A : ShellArgs) (v : ℕ → ℕ → ℕ → ℝ) : ∃ B, ∀ pt g, Reads C A v pt g → |g| ≤ B := by
  refine ⟨∑ a ∈ Finset.range C.numx.toNat, ∑ b ∈ Finset.range C.numy.toNat, ∑ c ∈ Finset.range C.numz.toNat,
    |v a b c|, fun pt g hg => ?_⟩
  by_cases hx : ∃ n a b c, InRange A n ∧ InCell3 C (image C n pt) a b c
  · obtain ⟨n, a, b, c, hn, hin⟩ := hx
    rw [hg.1 n a b c hn hin]
    refine le_trans ?_ (Finset.single_le_sum (f := fun a => ∑ b ∈ Finset.range C.numy.toNat,
      ∑ c ∈ Finset.range C.numz.toNat, |v a b c|) (fun _ _ => by positivity) (Finset.mem_range.mpr hin.1.1))
    refine le_trans ?_ (Finset.single_le_sum (f := fun b => ∑ c ∈ Finset.range C.numz.toNat, |v a b c|)
      (fun _ _ => by positivity) (Finset.mem_range.mpr hin.2.1.1))
    exact Finset.single_le_sum (f := fun c => |v a b c|) (fun _ _ => by positivity) (Finset.mem_range.mpr hin.2.2.1)
  · rw [hg.2 hx, abs_zero]
    positivity

theorem measurable_slot (lo hi : ℝ) (n : ℕ) : Measurable (slot lo hi n) := by
  unfold slot
  exact (((measurable_id.sub_const _).mul_const _).div_const _).floor

theorem measurable_slots (C : CubeArgs) : Measurable (slots C) :=
  ((measurable_slot _ _ _).comp measurable_fst).prodMk
    (((measurable_slot _ _ _).comp (measurable_fst.comp measurable_snd)).prodMk
      ((measurable_slot _ _ _).comp (measurable_snd.comp measurable_snd)))

theorem measurable_reads {C : CubeArgs} (hC : CubeOk C) (A : ShellArgs) (v : ℕ → ℕ → ℕ → ℝ) {F : ℝ × ℝ × ℝ → ℝ}
    (hF : ∀ x, Reads C A v x (F x)) : Measurable F := by
  classical
  have : F = (fun s => F (Function.invFun (slots C) s)) ∘ slots C := by
    funext x
    refine reads_slots hC A v ?_ (hF x) (hF _)
    exact (Function.invFun_eq ⟨x, rfl⟩).symm
  rw [this]
  exact (measurable_of_countable _).comp (measurable_slots C)

/-- The point is not on one of the planes of the grid and its images. -/
def OffPlanes (C : CubeArgs) (x : ℝ × ℝ × ℝ) : Prop :=
  (∀ k : ℤ, (x.1 - C.xmin)*C.numx.toNat/(C.xmax - C.xmin) ≠ k) ∧
  (∀ k : ℤ, (x.2.1 - C.ymin)*C.numy.toNat/(C.ymax - C.ymin) ≠ k) ∧
  ∀ k : ℤ, (x.2.2 - C.zmin)*C.numz.toNat/(C.zmax - C.zmin) ≠ k

private theorem plane {lo hi : ℝ} (h : lo < hi) {n : ℕ} (hn : 0 < n) {x : ℝ} (k : ℤ)
    (e : x ≠ lo + k*(hi - lo)/n) : (x - lo)*n/(hi - lo) ≠ k := by
  have hl : hi - lo ≠ 0 := by linarith
  have hn' : (n:ℝ) ≠ 0 := by positivity
  intro h
  apply e
  field_simp at h ⊢
  linarith

theorem ae_offPlanes {C : CubeArgs} (hC : CubeOk C) : ∀ᵐ x : ℝ × ℝ × ℝ, OffPlanes C x := by
  have nx : 0 < C.numx.toNat := by have := hC.numx; omega
  have ny : 0 < C.numy.toNat := by have := hC.numy; omega
  have nz : 0 < C.numz.toNat := by have := hC.numz; omega
  have h1 : ∀ c : ℝ, ∀ᵐ x : ℝ × ℝ × ℝ, x.1 ≠ c := by
    intro c
    rw [ae_iff]
    have : {x : ℝ × ℝ × ℝ | ¬ x.1 ≠ c} = {c} ×ˢ univ := by ext; simp
    rw [this, Measure.volume_eq_prod, Measure.prod_prod]
    simp
  have h2 : ∀ c : ℝ, ∀ᵐ x : ℝ × ℝ × ℝ, x.2.1 ≠ c := by
    intro c
    rw [ae_iff]
    have : {x : ℝ × ℝ × ℝ | ¬ x.2.1 ≠ c} = univ ×ˢ ({c} ×ˢ univ) := by ext; simp
    rw [this, Measure.volume_eq_prod, Measure.prod_prod, Measure.volume_eq_prod, Measure.prod_prod]
    simp
  have h3 : ∀ c : ℝ, ∀ᵐ x : ℝ × ℝ × ℝ, x.2.2 ≠ c := by
    intro c
    rw [ae_iff]
    have : {x : ℝ × ℝ × ℝ | ¬ x.2.2 ≠ c} = univ ×ˢ (univ ×ˢ {c}) := by ext; simp
    rw [this, Measure.volume_eq_prod, Measure.prod_prod, Measure.volume_eq_prod, Measure.prod_prod]
    simp
  filter_upwards [ae_all_iff.mpr fun k : ℤ => h1 (C.xmin + k*(C.xmax - C.xmin)/C.numx.toNat),
    ae_all_iff.mpr fun k : ℤ => h2 (C.ymin + k*(C.ymax - C.ymin)/C.numy.toNat),
    ae_all_iff.mpr fun k : ℤ => h3 (C.zmin + k*(C.zmax - C.zmin)/C.numz.toNat)] with x a b c
  exact ⟨fun k => plane hC.hx nx k (a k), fun k => plane hC.hy ny k (b k), fun k => plane hC.hz nz k (c k)⟩

private theorem floor_near {f : ℝ × ℝ × ℝ → ℝ} (hf : Continuous f) {x : ℝ × ℝ × ℝ} (h : ∀ k : ℤ, f x ≠ k) :
    ∀ᶠ y in 𝓝 x, ⌊f y⌋ = ⌊f x⌋ := by
  have h1 : (⌊f x⌋ : ℝ) < f x := lt_of_le_of_ne (Int.floor_le _) (h _).symm
  have h2 : f x < ⌊f x⌋ + 1 := Int.lt_floor_add_one _
  filter_upwards [(hf.tendsto x).eventually_const_lt h1, (hf.tendsto x).eventually_lt_const h2] with y a b
  rw [Int.floor_eq_iff]
  exact ⟨a.le, b⟩

theorem slots_near (C : CubeArgs) {x : ℝ × ℝ × ℝ} (h : OffPlanes C x) : ∀ᶠ y in 𝓝 x, slots C y = slots C x := by
  have h1 := floor_near (f := fun x => (x.1 - C.xmin)*C.numx.toNat/(C.xmax - C.xmin))
    (((continuous_fst.sub continuous_const).mul continuous_const).div_const _) h.1
  have h2 := floor_near (f := fun x => (x.2.1 - C.ymin)*C.numy.toNat/(C.ymax - C.ymin))
    ((((continuous_fst.comp continuous_snd).sub continuous_const).mul continuous_const).div_const _) h.2.1
  have h3 := floor_near (f := fun x => (x.2.2 - C.zmin)*C.numz.toNat/(C.zmax - C.zmin))
    ((((continuous_snd.comp continuous_snd).sub continuous_const).mul continuous_const).div_const _) h.2.2
  filter_upwards [h1, h2, h3] with y a b c
  unfold slots slot
  rw [a, b, c]

/-! ## The diamond as an image of the unit square -/

/-- The point of the diamond with the given coordinates along its sides. -/
noncomputable def dia (N : ℤ) (c : ℝ × ℝ) (s : ℝ × ℝ) : ℝ × ℝ :=
  (c.1 + halfDiag N*(s.1 - s.2), c.2 + halfDiag N*(s.1 + s.2 - 1))

theorem continuous_dia (N : ℤ) (c : ℝ × ℝ) : Continuous (dia N c) := by unfold dia; fun_prop

theorem dia_mem {N : ℤ} (hN : 1 ≤ N) (c s : ℝ × ℝ) :
    InDiamond N c (dia N c s).1 (dia N c s).2 ↔ (0 < s.1 ∧ s.1 < 1) ∧ (0 < s.2 ∧ s.2 < 1) := by
  have hd := halfDiag_pos hN
  unfold InDiamond dia
  simp only [add_sub_cancel_left, abs_mul, abs_of_pos hd]
  rw [← mul_add, mul_lt_iff_lt_one_right hd]
  constructor
  · intro h
    have a1 := le_abs_self (s.1 - s.2)
    have a2 := neg_abs_le (s.1 - s.2)
    have b1 := le_abs_self (s.1 + s.2 - 1)
    have b2 := neg_abs_le (s.1 + s.2 - 1)
    refine ⟨⟨?_, ?_⟩, ?_, ?_⟩ <;> linarith
  · rintro ⟨⟨h1, h2⟩, h3, h4⟩
    rcases abs_cases (s.1 - s.2) with ⟨e, -⟩ | ⟨e, -⟩ <;> rcases abs_cases (s.1 + s.2 - 1) with ⟨e', -⟩ | ⟨e', -⟩ <;>
      rw [e, e'] <;> linarith

theorem dia_image {N : ℤ} (hN : 1 ≤ N) (c : ℝ × ℝ) :
    dia N c '' (Ioo 0 1 ×ˢ Ioo 0 1) = {v : ℝ × ℝ | InDiamond N c v.1 v.2} := by
  have hd := halfDiag_pos hN
  ext v
  constructor
  · rintro ⟨s, hs, rfl⟩
    exact (dia_mem hN c s).mpr ⟨hs.1, hs.2⟩
  · intro hv
    have e : dia N c (((v.1 - c.1)/halfDiag N + (v.2 - c.2)/halfDiag N + 1)/2,
        ((v.2 - c.2)/halfDiag N - (v.1 - c.1)/halfDiag N + 1)/2) = v := by
      unfold dia
      refine Prod.ext ?_ ?_ <;> simp only <;> field_simp <;> ring
    refine ⟨_, ?_, e⟩
    rw [← e] at hv
    exact (dia_mem hN c _).mp hv

theorem unif2_eq : unif2 = (volume : Measure (ℝ × ℝ)).restrict (Ioo 0 1 ×ˢ Ioo 0 1) := by
  unfold unif2
  rw [Shell3.unif_Ioo, Measure.prod_restrict]
  rfl

/-- The image of the uniform law on the square is uniform on the diamond. -/
theorem map_dia {N : ℤ} (hN : 1 ≤ N) (c : ℝ × ℝ) :
    ENNReal.ofReal (2*halfDiag N^2) • Measure.map (dia N c) unif2
      = volume.restrict {v : ℝ × ℝ | InDiamond N c v.1 v.2} := by
  have hd := halfDiag_pos hN
  have hm : MeasurableSet (Ioo (0:ℝ) 1 ×ˢ Ioo (0:ℝ) 1) := measurableSet_Ioo.prod measurableSet_Ioo
  have hder : ∀ s, HasFDerivAt (dia N c) (lin2 (halfDiag N) (-halfDiag N) (halfDiag N) (halfDiag N)) s := by
    intro s
    have f1 : HasFDerivAt (fun y : ℝ × ℝ => y.1) (ContinuousLinearMap.fst ℝ ℝ ℝ) s := hasFDerivAt_fst
    have f2 : HasFDerivAt (fun y : ℝ × ℝ => y.2) (ContinuousLinearMap.snd ℝ ℝ ℝ) s := hasFDerivAt_snd
    have d := (((f1.sub f2).const_mul (halfDiag N)).const_add c.1).prodMk
      ((((f1.add f2).sub_const 1).const_mul (halfDiag N)).const_add c.2)
    refine HasFDerivAt.congr_fderiv (f := dia N c) d ?_
    refine ContinuousLinearMap.ext fun v => ?_
    rw [lin2_apply]
    simp
    ring
  have hinj : InjOn (dia N c) (Ioo 0 1 ×ˢ Ioo 0 1) := by
    intro s _ t _ h
    simp only [dia, Prod.mk.injEq, add_right_inj, mul_eq_mul_left_iff, hd.ne', or_false] at h
    exact Prod.ext (by linarith) (by linarith)
  rw [← dia_image hN c, ← map_withDensity_abs_det_fderiv_eq_addHaar volume hm.nullMeasurableSet
    (fun s _ => (hder s).hasFDerivWithinAt) hinj, ← Measure.map_smul, unif2_eq]
  congr 1
  rw [← withDensity_const]
  refine withDensity_congr_ae (Eventually.of_forall fun s => ?_)
  simp only [det_lin2]
  rw [abs_of_pos (by nlinarith)]
  congr 1
  ring

section
variable {N p : ℤ} (hN : 1 ≤ N) (hp : ValidPix N p) {c : ℝ × ℝ} (hc : pix2xy p N = .ok c)
include hN hp hc

theorem map_dia_ac : Measure.map (dia N c) unif2 ≪ volume.restrict {v : ℝ × ℝ | InDiamond N c v.1 v.2} := by
  have hd := halfDiag_pos hN
  rw [← map_dia hN c]
  refine Measure.absolutelyContinuous_smul ?_
  simp only [ne_eq, ENNReal.ofReal_eq_zero, not_le]
  positivity

/-- Almost every point of the square is mapped to a point of the plane where the projection is smooth. -/
theorem ae_good : ∀ᵐ s ∂unif2, dia N c s ∈ Good N c := by
  have h1 : ∀ᵐ v ∂(volume.restrict {v : ℝ × ℝ | InDiamond N c v.1 v.2}), v ∈ Good N c := by
    rw [← Measure.restrict_congr_set (Good.ae c)]
    exact ae_restrict_mem₀ (Good.measurable c)
  exact ae_of_ae_map (continuous_dia N c).measurable.aemeasurable ((map_dia_ac hN hp hc).ae_le h1)

/-- The directions of the points of the square: a measurable version and their law. -/
theorem sky_law : ∃ M : ℝ × ℝ → ℝ × ℝ, Measurable M ∧ (∀ᵐ s ∂unif2, M s = wrapSky (dia N c s)) ∧
    Measure.map M unif2 = uniformOn (SkyPixel N c) := by
  have hd := halfDiag_pos hN
  have hpi := pi_pos
  obtain ⟨hae, hmap⟩ := map_wrapSky hN hp hc
  have hae' : AEMeasurable wrapSky (Measure.map (dia N c) unif2) := hae.mono_ac (map_dia_ac hN hp hc)
  have hW : AEMeasurable (wrapSky ∘ dia N c) unif2 := hae'.comp_measurable (continuous_dia N c).measurable
  refine ⟨hW.mk _, hW.measurable_mk, ?_, ?_⟩
  · filter_upwards [hW.ae_eq_mk] with s hs using hs.symm
  · rw [← Measure.map_congr hW.ae_eq_mk, ← AEMeasurable.map_map_of_aemeasurable hae'
      (continuous_dia N c).measurable.aemeasurable]
    have h1 : Measure.map (dia N c) unif2
        = (ENNReal.ofReal (2*halfDiag N^2))⁻¹ • volume.restrict {v : ℝ × ℝ | InDiamond N c v.1 v.2} := by
      rw [← map_dia hN c, smul_smul, ENNReal.inv_mul_cancel (by
        simp only [ne_eq, ENNReal.ofReal_eq_zero, not_le]; positivity) ENNReal.ofReal_ne_top, one_smul]
    obtain ⟨c', hc', hv⟩ := Props.C88_pix N p hN hp
    rw [hc, Except.ok.injEq] at hc'
    rw [← hc'] at hv
    unfold uniformOn
    rw [h1, Measure.map_smul, ← hmap, hv, smul_smul]
    congr 1
    rw [← (Props.C11_pixel_area N hN).1, ← ENNReal.ofReal_inv_of_pos (by positivity),
      ← ENNReal.ofReal_inv_of_pos (by positivity), ← ENNReal.ofReal_mul (by positivity)]
    congr 1
    field_simp

end

/-! ## The dense points -/

theorem isDir_sky {d v : ℝ × ℝ} (h : IsDir d v) : ∃ t : ℤ, wrapSky v = (d.2 + 2*π*t, cos d.1) := by
  have hpi := pi_pos
  obtain ⟨h0, h1, t, e⟩ := h
  have e1 := xy2ang_ang2xy (phi := d.2) h0 h1
  rw [ang2xy_project, e] at e1
  simp only at e1
  have hz1 : -1 < cos d.1 := by
    have := cos_lt_cos_of_nonneg_of_le_pi h0.le le_rfl h1
    rwa [cos_pi] at this
  have hz2 : cos d.1 < 1 := by
    have := cos_lt_cos_of_nonneg_of_le_pi le_rfl h1.le h0
    rwa [cos_zero] at this
  have hy : |v.2| < π/2 := by
    have e2 : v.2 = (project d.2 (cos d.1)).2 := by rw [e]
    rw [e2]
    have hlt : |cos d.1| < 1 := abs_lt.mpr ⟨hz1, hz2⟩
    unfold project
    by_cases hb : |cos d.1| ≤ 2/3
    · rw [if_pos hb]
      simp only
      rw [abs_mul, abs_of_pos (by positivity)]
      nlinarith
    · rw [if_neg hb]
      simp only
      have hpos : 0 < √(3*(1 - |cos d.1|)) := sqrt_pos.mpr (by linarith)
      have hle : √(3*(1 - |cos d.1|)) < 2 := by
        rw [sqrt_lt' (by norm_num)]
        have := abs_nonneg (cos d.1)
        linarith
      have hs : |(if cos d.1 < 0 then (-1:ℝ) else 1)| = 1 := by split_ifs <;> simp
      rw [abs_mul, hs, one_mul, abs_of_pos (by
        have : 0 < 2 - √(3*(1 - |cos d.1|)) := by linarith
        positivity)]
      nlinarith
  refine ⟨-⌊v.1/(2*π)⌋ - t, ?_⟩
  unfold wrapSky skyOf
  simp only
  rw [fmod_eq_turn]
  have e3 : v.1 + 2*π*((-⌊v.1/(2*π)⌋ : ℤ) : ℝ) = (v.1 + 2*π*t) + 2*π*((-⌊v.1/(2*π)⌋ - t : ℤ) : ℝ) := by
    push_cast; ring
  rw [e3, xy2ang_turn _ _ _ hy, e1]

theorem dia_sub (N : ℤ) {m : ℕ} (hm : 0 < m) (c : ℝ × ℝ) (a b : ℕ) :
    dia N c ((a + 1/2)/m, (b + 1/2)/m) = subCentre N m c a b := by
  have : (m:ℝ) ≠ 0 := by positivity
  unfold dia subCentre
  refine Prod.ext ?_ ?_ <;> simp only <;> field_simp <;> ring

/-- The centre of the shells. -/
noncomputable def ShellArgs.mid (A : ShellArgs) : ℝ × ℝ × ℝ :=
  (A.center.getD 0 0, A.center.getD 1 0, A.center.getD 2 0)

theorem densePoint_eq (hp : Hp) (A : ShellArgs) (k q : ℕ) {v : ℝ × ℝ}
    (h : IsDir (hp.pix2ang (A.nside*A.rebinShell) q) v) :
    densePoint hp A k q = Shell3.sph A.mid (midAt A.rmin A.rmax (denseNum A) k, wrapSky v) := by
  obtain ⟨t, e⟩ := isDir_sky h
  rw [e]
  unfold densePoint Shell3.sph ShellArgs.mid
  generalize hp.pix2ang (A.nside*A.rebinShell) q = d at *
  have hs : √(1 - cos d.1^2) = sin d.1 := by
    rw [← abs_sin_eq_sqrt_one_sub_cos_sq, abs_of_nonneg (sin_nonneg_of_nonneg_of_le_pi h.1.le h.2.1.le)]
  have ht : d.2 + 2*π*t = d.2 + t*(2*π) := by ring
  simp only [hs, ht, cos_add_int_mul_two_pi, sin_add_int_mul_two_pi]
  refine Prod.ext ?_ (Prod.ext ?_ ?_) <;> simp only <;> ring

theorem sum_list_range (n : ℕ) (f : ℕ → ℝ) : ((List.range n).map f).sum = ∑ k ∈ Finset.range n, f k := by
  induction n with
  | zero => simp
  | succ n ih => rw [List.range_succ, List.map_append, List.sum_append, ih, Finset.sum_range_succ]; simp

section
variable {A : ShellArgs} (hA : ShellOk A) {i p : ℕ} (hi : i < A.numr.toNat) (hpix : p < npixOf A.nside)
include hA

/-- Edge `i` of the shells. -/
theorem edge_bounds (i : ℕ) : 0 ≤ edgeAt A.rmin A.rmax A.numr.toNat i ∧
    edgeAt A.rmin A.rmax A.numr.toNat i < edgeAt A.rmin A.rmax A.numr.toNat (i+1) := by
  have hr : 0 < A.numr.toNat := by have := hA.numr; omega
  refine ⟨?_, edgeAt_strict hA.r hr (Nat.lt_succ_self i)⟩
  have := edgeAt_mono hA.r.le A.numr.toNat (Nat.zero_le i)
  rw [edgeAt_zero] at this
  exact hA.rmin.trans this

include hpix

theorem valid_pix : 1 ≤ A.nside ∧ ValidPix A.nside p := by
  have h := hA.nside
  refine ⟨by omega, by positivity, ?_⟩
  unfold npixOf at hpix
  have : (p:ℤ) < 12*(A.nside.toNat:ℤ)^2 := by exact_mod_cast hpix
  rwa [Int.toNat_of_nonneg (by omega)] at this

theorem pixel_eq {c : ℝ × ℝ} (hc : pix2xy p A.nside = .ok c) : pixel A i p = ShellPart A.mid
    (edgeAt A.rmin A.rmax A.numr.toNat i) (edgeAt A.rmin A.rmax A.numr.toNat (i+1)) (SkyPixel A.nside c) := by
  ext x
  unfold pixel
  constructor
  · rintro ⟨c', hc', hx⟩
    rw [hc, Except.ok.injEq] at hc'
    rw [← hc'] at hx
    exact hx
  · exact fun hx => ⟨c, hc, hx⟩

theorem volume_pixel' : 0 < (volume (pixel A i p)).toReal ∧ volume (pixel A i p) ≠ ⊤ := by
  obtain ⟨hN, hv⟩ := valid_pix hA hpix
  have hNR : (0:ℝ) < A.nside := by exact_mod_cast (by omega : 0 < A.nside)
  have hpos : 0 < pixArea A.nside := by unfold pixArea; have := Real.pi_pos; positivity
  obtain ⟨c, hc, hvol⟩ := Props.C88_pix A.nside p hN hv
  obtain ⟨h0, h1⟩ := edge_bounds hA i
  have hd := Shell3.cube_lt h0 h1
  obtain ⟨-, e⟩ := Shell3.law (c := A.mid) h0 h1 (Shell3.measurableSet_skyPixel A.nside c)
    (fun v hv => ⟨hv.1, hv.2.1⟩) (by rw [hvol]; simpa using hpos) (by rw [hvol]; exact ENNReal.ofReal_ne_top)
  rw [pixel_eq hA hpix hc, e, hvol, ← ENNReal.ofReal_mul (by linarith)]
  have : 0 < ((edgeAt A.rmin A.rmax A.numr.toNat (i+1))^3 - (edgeAt A.rmin A.rmax A.numr.toNat i)^3)/3*pixArea A.nside :=
    mul_pos (by linarith) hpos
  exact ⟨by rw [ENNReal.toReal_ofReal this.le]; exact this, ENNReal.ofReal_ne_top⟩

/-- The sum over the parts of the diamond and the dense shells, of the values at their centres, converges. -/
theorem canon_tendsto {C : CubeArgs} (hC : CubeOk C) (v : ℕ → ℕ → ℕ → ℝ) {F : ℝ × ℝ × ℝ → ℝ}
    (hF : ∀ x, Reads C A v x (F x)) {c : ℝ × ℝ} (hc : pix2xy p A.nside = .ok c) {r0 r1 : ℝ}
    (e0 : edgeAt A.rmin A.rmax A.numr.toNat i = r0) (e1 : edgeAt A.rmin A.rmax A.numr.toNat (i+1) = r1) :
    Tendsto (fun nm : ℕ × ℕ => ∑ l ∈ Finset.range nm.1, ∑ a ∈ Finset.range nm.2, ∑ b ∈ Finset.range nm.2,
      (Riemann.rho r0 r1 nm.1 (l+1)^3 - Riemann.rho r0 r1 nm.1 l^3)/(r1^3 - r0^3)/(nm.2:ℝ)^2*
        F (Shell3.sph A.mid (r0 + (l + 1/2)*((r1 - r0)/nm.1), wrapSky (dia A.nside c ((a + 1/2)/nm.2, (b + 1/2)/nm.2)))))
      atTop (𝓝 ((∫ x in pixel A i p, F x)/(volume (pixel A i p)).toReal)) := by
  obtain ⟨h0, h1⟩ := edge_bounds hA i
  rw [e0] at h0 h1
  rw [e1] at h1
  obtain ⟨hN, hv⟩ := valid_pix hA hpix
  obtain ⟨M, hM, hMW, hMl⟩ := sky_law hN hv hc
  obtain ⟨c', hc', hvol⟩ := Props.C88_pix A.nside p hN hv
  rw [hc, Except.ok.injEq] at hc'
  subst hc'
  have hNR : (0:ℝ) < A.nside := by exact_mod_cast (by omega : 0 < A.nside)
  have hpos : 0 < pixArea A.nside := by unfold pixArea; have := Real.pi_pos; positivity
  obtain ⟨hlaw, -⟩ := Shell3.law (c := A.mid) h0 h1 (Shell3.measurableSet_skyPixel A.nside c)
    (fun v hv => ⟨hv.1, hv.2.1⟩) (by rw [hvol]; simpa using hpos) (by rw [hvol]; exact ENNReal.ofReal_ne_top)
  rw [← e0, ← e1, ← pixel_eq hA hpix hc, e0, e1] at hlaw
  set Q : ℝ × ℝ × ℝ → ℝ × ℝ × ℝ := fun u => Shell3.pt A.mid r0 r1 (u.1, M u.2) with hQ
  have hQm : Measurable Q := Shell3.measurable_pt.comp (measurable_fst.prodMk (hM.comp measurable_snd))
  have hQl : Measure.map Q unif3 = uniformOn3 (pixel A i p) := by
    rw [← hlaw, ← hMl]
    have : unif.prod (Measure.map M unif2) = Measure.map (Prod.map id M) unif3 := by
      unfold unif3
      rw [← Measure.map_prod_map _ _ measurable_id hM, Measure.map_id]
    rw [this, Measure.map_map Shell3.measurable_pt (measurable_id.prodMap hM)]
    rfl
  have hQW : ∀ᵐ u ∂unif3, Q u = Shell3.pt A.mid r0 r1 (u.1, wrapSky (dia A.nside c u.2)) := by
    filter_upwards [unif3_snd hMW] with u hu
    rw [hQ, ← hu]
  have hFm := measurable_reads hC A v hF
  obtain ⟨B, hB⟩ := reads_bdd C A v
  have key := Riemann3.tendsto_sum h0 h1 (fun nm l a b => F (Shell3.sph A.mid (r0 + (l + 1/2)*((r1 - r0)/nm.1),
      wrapSky (dia A.nside c ((a + 1/2)/nm.2, (b + 1/2)/nm.2))))) B (fun nm l a b _ _ _ => hB _ _ (hF _))
    (fun u => F (Shell3.pt A.mid r0 r1 (u.1, wrapSky (dia A.nside c u.2)))) ?_
  · have hint : ∫ u, F (Shell3.pt A.mid r0 r1 (u.1, wrapSky (dia A.nside c u.2))) ∂unif3
        = (∫ x in pixel A i p, F x)/(volume (pixel A i p)).toReal := by
      have : ∫ u, F (Shell3.pt A.mid r0 r1 (u.1, wrapSky (dia A.nside c u.2))) ∂unif3 = ∫ u, F (Q u) ∂unif3 := by
        refine integral_congr_ae ?_
        filter_upwards [hQW] with u hu
        rw [hu]
      rw [this, ← integral_map (φ := Q) hQm.aemeasurable hFm.aestronglyMeasurable, hQl]
      unfold uniformOn3
      rw [integral_smul_measure, ENNReal.toReal_inv, smul_eq_mul]
      ring
    rw [hint] at key
    exact key
  · have hac : uniformOn3 (pixel A i p) ≪ volume :=
      Measure.smul_absolutelyContinuous.trans Measure.restrict_le_self.absolutelyContinuous
    have hoff := hac.ae_le (ae_offPlanes hC)
    rw [← hQl] at hoff
    have hoff := ae_of_ae_map hQm.aemeasurable hoff
    filter_upwards [hoff, hQW, unif3_snd (ae_good hN hv hc)] with u ho hq hg
    rw [hq] at ho
    have hnear := slots_near C ho
    have hcont : ContinuousAt (fun y : ℝ × ℝ × ℝ => Shell3.sph A.mid (y.1, wrapSky (dia A.nside c y.2)))
        (Shell3.rad r0 r1 u.1, u.2.1, u.2.2) := by
      obtain ⟨f', hf', -⟩ := Good.jac hN hv hc hg
      have c1 : ContinuousAt (fun y : ℝ × ℝ × ℝ => wrapSky (dia A.nside c y.2)) (Shell3.rad r0 r1 u.1, u.2.1, u.2.2) :=
        ContinuousAt.comp (f := fun y : ℝ × ℝ × ℝ => dia A.nside c y.2) (g := wrapSky) hf'.continuousAt
          ((continuous_dia _ _).comp continuous_snd).continuousAt
      have c2 : Continuous (Shell3.sph A.mid) := by unfold Shell3.sph; fun_prop
      exact c2.continuousAt.comp (continuous_fst.continuousAt.prodMk c1)
    filter_upwards [hcont.eventually hnear] with y hy nm l a b hl ha hb e
    rw [e] at hy
    exact reads_slots hC A v hy (hF _) (hF _)

include hi

/-- The value of a pixel is that sum. -/
theorem pixelMean_canon (hp : Hp) {n m : ℕ} (hn : 0 < n) (hm : 0 < m) (hs : Subdivides hp A.nside m) {F : ℝ × ℝ × ℝ → ℝ}
    {c : ℝ × ℝ} (hc : pix2xy p A.nside = .ok c) {r0 r1 : ℝ}
    (e0 : edgeAt A.rmin A.rmax A.numr.toNat i = r0) (e1 : edgeAt A.rmin A.rmax A.numr.toNat (i+1) = r1) :
    pixelMean hp (A.rebin n m) (fun k q => F (densePoint hp (A.rebin n m) k q)) i p
      = ∑ l ∈ Finset.range n, ∑ a ∈ Finset.range m, ∑ b ∈ Finset.range m,
      (Riemann.rho r0 r1 n (l+1)^3 - Riemann.rho r0 r1 n l^3)/(r1^3 - r0^3)/(m:ℝ)^2*
        F (Shell3.sph A.mid (r0 + (l + 1/2)*((r1 - r0)/n), wrapSky (dia A.nside c ((a + 1/2)/m, (b + 1/2)/m)))) := by
  have hr : 0 < A.numr.toNat := by omega
  obtain ⟨h0, h1⟩ := edge_bounds hA i
  rw [e0] at h0 h1
  rw [e1] at h1
  have hd := (Shell3.cube_lt h0 h1).ne'
  have hn' : (n:ℝ) ≠ 0 := by positivity
  have hm' : (m:ℝ) ≠ 0 := by positivity
  have hA' : ShellOk (A.rebin n m) := ⟨hA.rmin, hA.r, hA.numr, hA.center, by simp [ShellArgs.rebin]; omega, hA.nside,
    by simp [ShellArgs.rebin]; omega⟩
  have hnum : denseNum (A.rebin n m) = n*A.numr.toNat := by simp [denseNum, ShellArgs.rebin]
  have hR : (A.rebin n m).rebinR.toNat = n := by simp [ShellArgs.rebin]
  have hw : ∀ l, wt (A.rebin n m) (i*n + l) = Riemann.rho r0 r1 n (l+1)^3 - Riemann.rho r0 r1 n l^3 := by
    intro l
    unfold wt
    rw [hnum]
    show edgeAt A.rmin A.rmax (n*A.numr.toNat) (i*n + l + 1)^3 - edgeAt A.rmin A.rmax (n*A.numr.toNat) (i*n + l)^3 = _
    rw [add_assoc, Dg.dense_edge _ _ hn hr, Dg.dense_edge _ _ hn hr, e0, e1]
    rfl
  have hsum : ∑ l ∈ Finset.range n, wt (A.rebin n m) (i*n + l) = r1^3 - r0^3 := by
    simp only [hw]
    rw [Finset.sum_range_sub (fun l => Riemann.rho r0 r1 n l^3)]
    have q0 : Riemann.rho r0 r1 n 0 = r0 := by simp [Riemann.rho]
    have q1 : Riemann.rho r0 r1 n n = r1 := by unfold Riemann.rho; field_simp; ring
    rw [q0, q1]
  obtain ⟨q, hperm, hq⟩ := hs p hpix c hc
  have hpt : ∀ l, ∀ a < m, ∀ b < m, densePoint hp (A.rebin n m) (i*n + l) (q a b)
      = Shell3.sph A.mid (r0 + (l + 1/2)*((r1 - r0)/n), wrapSky (dia A.nside c ((a + 1/2)/m, (b + 1/2)/m))) := by
    intro l a ha b hb
    rw [dia_sub A.nside hm, densePoint_eq hp (A.rebin n m) _ _ (hq a ha b hb).2, hnum]
    show Shell3.sph A.mid (midAt A.rmin A.rmax (n*A.numr.toNat) (i*n + l), _) = _
    rw [Dg.dense_mid _ _ hn hr, e0, e1]
  have hmean : ∀ l, meanAt (subpix hp (A.rebin n m) p) (fun q => F (densePoint hp (A.rebin n m) (i*n + l) q))
      = (∑ a ∈ Finset.range m, ∑ b ∈ Finset.range m, F (Shell3.sph A.mid (r0 + (l + 1/2)*((r1 - r0)/n),
          wrapSky (dia A.nside c ((a + 1/2)/m, (b + 1/2)/m)))))/(m:ℝ)^2 := by
    intro l
    unfold meanAt subpix
    show ((hp.children (A.nside*m) A.nside p).map _).sum/((hp.children (A.nside*m) A.nside p).length : ℝ) = _
    rw [hperm.length_eq, (hperm.map _).sum_eq]
    congr 1
    · rw [List.map_flatMap, List.flatMap, List.sum_flatten, List.map_map]
      rw [sum_list_range]
      refine Finset.sum_congr rfl fun a ha => ?_
      simp only [Function.comp, List.map_map]
      rw [sum_list_range]
      refine Finset.sum_congr rfl fun b hb => ?_
      simp only [Function.comp]
      rw [hpt l a (Finset.mem_range.mp ha) b (Finset.mem_range.mp hb)]
    · simp [List.length_flatMap]
      ring
  rw [pixelMean_eq hp hA', hR, hsum, Finset.sum_div]
  refine Finset.sum_congr rfl fun l hl => ?_
  rw [hw, hmean, Finset.sum_div, Finset.mul_sum, Finset.sum_div]
  refine Finset.sum_congr rfl fun a ha => ?_
  rw [Finset.sum_div, Finset.mul_sum, Finset.sum_div]
  refine Finset.sum_congr rfl fun b hb => ?_
  ring

end

/-! ## The integral of the values -/

theorem measurableSet_cell {C : CubeArgs} (hC : CubeOk C) (n : ℤ × ℤ × ℤ) (a b c : ℕ) :
    MeasurableSet {x | InCell3 C (image C n x) a b c} := by
  have : {x | InCell3 C (image C n x) a b c} = {x | (a < C.numx.toNat ∧ b < C.numy.toNat ∧ c < C.numz.toNat)} ∩
      slots C ⁻¹' {((a:ℤ) - n.1*C.numx.toNat, (b:ℤ) - n.2.1*C.numy.toNat, (c:ℤ) - n.2.2*C.numz.toNat)} := by
    ext x
    simp only [mem_setOf_eq, inCell3_image hC, mem_inter_iff, mem_preimage, mem_singleton_iff]
  rw [this]
  exact (MeasurableSet.const _).inter ((measurable_slots C) (measurableSet_singleton _))

private theorem div_uniq {num : ℕ} {a a' : ℕ} {n n' : ℤ} (h : a < num) (h' : a' < num)
    (e : (a:ℤ) - n*num = a' - n'*num) : n = n' ∧ a = a' := by
  have hn : n = n' := by
    by_contra hne
    rcases lt_or_gt_of_ne hne with c | c
    · have : (1:ℤ)*num ≤ (n' - n)*num := mul_le_mul_of_nonneg_right (by omega) (by positivity)
      have : ((n' - n)*num : ℤ) = n'*num - n*num := by ring
      omega
    · have : (1:ℤ)*num ≤ (n - n')*num := mul_le_mul_of_nonneg_right (by omega) (by positivity)
      have : ((n - n')*num : ℤ) = n*num - n'*num := by ring
      omega
  subst hn
  exact ⟨rfl, by omega⟩

theorem cell_unique {C : CubeArgs} (hC : CubeOk C) {x : ℝ × ℝ × ℝ} {n n' : ℤ × ℤ × ℤ} {a b c a' b' c' : ℕ}
    (h : InCell3 C (image C n x) a b c) (h' : InCell3 C (image C n' x) a' b' c') :
    n = n' ∧ a = a' ∧ b = b' ∧ c = c' := by
  rw [inCell3_image hC] at h h'
  obtain ⟨⟨h1, h2, h3⟩, e⟩ := h
  obtain ⟨⟨h1', h2', h3'⟩, e'⟩ := h'
  rw [e] at e'
  simp only [Prod.mk.injEq] at e'
  obtain ⟨q1, q2⟩ := div_uniq h1 h1' e'.1
  obtain ⟨q3, q4⟩ := div_uniq h2 h2' e'.2.1
  obtain ⟨q5, q6⟩ := div_uniq h3 h3' e'.2.2
  exact ⟨Prod.ext q1 (Prod.ext q3 q5), q2, q4, q6⟩

/-- The images and cells. -/
noncomputable def allCells (C : CubeArgs) (A : ShellArgs) : Finset ((ℤ × ℤ × ℤ) × ℕ × ℕ × ℕ) :=
  (Finset.Icc A.perx.1 A.perx.2 ×ˢ (Finset.Icc A.pery.1 A.pery.2 ×ˢ Finset.Icc A.perz.1 A.perz.2)) ×ˢ
    (Finset.range C.numx.toNat ×ˢ (Finset.range C.numy.toNat ×ˢ Finset.range C.numz.toNat))

theorem reads_sum {C : CubeArgs} (hC : CubeOk C) (A : ShellArgs) (v : ℕ → ℕ → ℕ → ℝ) {x : ℝ × ℝ × ℝ} {g : ℝ}
    (hg : Reads C A v x g) : g = ∑ t ∈ allCells C A,
      indicator {x | InCell3 C (image C t.1 x) t.2.1 t.2.2.1 t.2.2.2} (fun _ => v t.2.1 t.2.2.1 t.2.2.2) x := by
  by_cases hx : ∃ n a b c, InRange A n ∧ InCell3 C (image C n x) a b c
  · obtain ⟨n, a, b, c, hn, hin⟩ := hx
    rw [hg.1 n a b c hn hin, Finset.sum_eq_single (n, a, b, c)]
    · rw [indicator_of_mem]
      exact hin
    · rintro ⟨n', a', b', c'⟩ _ hne
      refine indicator_of_notMem (fun h => hne ?_) _
      obtain ⟨rfl, rfl, rfl, rfl⟩ := cell_unique hC h hin
      rfl
    · intro hno
      exfalso
      apply hno
      unfold allCells
      simp only [Finset.mem_product, Finset.mem_Icc, Finset.mem_range]
      exact ⟨⟨hn.1, hn.2.1, hn.2.2⟩, hin.1.1, hin.2.1.1, hin.2.2.1⟩
  · rw [hg.2 hx, Finset.sum_eq_zero]
    rintro ⟨n, a, b, c⟩ ht
    rw [indicator_of_notMem]
    intro h
    refine hx ⟨n, a, b, c, ?_, h⟩
    unfold allCells at ht
    simp only [Finset.mem_product, Finset.mem_Icc, Finset.mem_range] at ht
    exact ⟨ht.1.1, ht.1.2.1, ht.1.2.2⟩

theorem volMean_eq {C : CubeArgs} (hC : CubeOk C) {A : ShellArgs} (hA : ShellOk A) (v : ℕ → ℕ → ℕ → ℝ) {F : ℝ × ℝ × ℝ → ℝ}
    (hF : ∀ x, Reads C A v x (F x)) {i p : ℕ} (hpix : p < npixOf A.nside) :
    volMean C A v i p = (∫ x in pixel A i p, F x)/(volume (pixel A i p)).toReal := by
  have hfin : IsFiniteMeasure (volume.restrict (pixel A i p)) :=
    ⟨by rw [Measure.restrict_apply_univ]; exact (volume_pixel' hA hpix).2.lt_top⟩
  have : ∫ x in pixel A i p, F x = ∑ t ∈ allCells C A,
      v t.2.1 t.2.2.1 t.2.2.2*commonVol C A i p t.1 t.2.1 t.2.2.1 t.2.2.2 := by
    rw [show F = fun x => ∑ t ∈ allCells C A,
      indicator {x | InCell3 C (image C t.1 x) t.2.1 t.2.2.1 t.2.2.2} (fun _ => v t.2.1 t.2.2.1 t.2.2.2) x from
      funext fun x => reads_sum hC A v (hF x)]
    rw [integral_finset_sum _ fun t _ => (integrable_const _).indicator (measurableSet_cell hC _ _ _ _)]
    refine Finset.sum_congr rfl fun t _ => ?_
    rw [integral_indicator (measurableSet_cell hC _ _ _ _), setIntegral_const, smul_eq_mul, mul_comm]
    congr 1
    unfold commonVol Measure.real
    rw [Measure.restrict_apply (measurableSet_cell hC _ _ _ _), inter_comm]
  rw [this]
  unfold volMean allCells
  simp only [Finset.sum_product]

end Magpie.DgCube
