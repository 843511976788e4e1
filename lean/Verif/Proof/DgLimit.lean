import Verif.Proof.DgRiemann
import Verif.Proof.McLimit
import Verif.Proof.Box2Ring

/-!
# The dense grid means converge to the area means
-/

set_option linter.unusedSimpArgs false
set_option linter.unusedVariables false

namespace Magpie.Dg
open Magpie.Box2Ring Magpie.Spec MeasureTheory Filter Topology Set
open Magpie.Mc (Grid boxVal InPixel)

/-- The point is not on one of the lines of the box grid. -/
def OffLines (B : BoxArgs) (pt : ℝ × ℝ) : Prop :=
  (∀ a : ℕ, pt.1 ≠ edgeAt B.xmin B.xmax B.numx.toNat a) ∧ ∀ b : ℕ, pt.2 ≠ edgeAt B.ymin B.ymax B.numy.toNat b

theorem ae_offLines (B : BoxArgs) : ∀ᵐ pt : ℝ × ℝ, OffLines B pt := by
  have h1 : ∀ c : ℝ, ∀ᵐ pt : ℝ × ℝ, pt.1 ≠ c := by
    intro c
    rw [ae_iff]
    have : {pt : ℝ × ℝ | ¬ pt.1 ≠ c} = {c} ×ˢ univ := by ext; simp
    rw [this, Measure.volume_eq_prod, Measure.prod_prod]
    simp
  have h2 : ∀ c : ℝ, ∀ᵐ pt : ℝ × ℝ, pt.2 ≠ c := by
    intro c
    rw [ae_iff]
    have : {pt : ℝ × ℝ | ¬ pt.2 ≠ c} = univ ×ˢ {c} := by ext; simp
    rw [this, Measure.volume_eq_prod, Measure.prod_prod]
    simp
  filter_upwards [ae_all_iff.mpr fun a : ℕ => h1 (edgeAt B.xmin B.xmax B.numx.toNat a),
    ae_all_iff.mpr fun b : ℕ => h2 (edgeAt B.ymin B.ymax B.numy.toNat b)] with pt a b using ⟨a, b⟩

theorem point_offLines (B : BoxArgs) {G : Grid} (hG : G.Ok) {i j : ℕ} (hi : i < G.nump) (hj : j < G.numr) :
    ∀ᵐ u ∂unif2, OffLines B (G.point i j u.1 u.2) := by
  have hl := (Grid.point_law hG hi hj).1
  have hac : uniformOn (G.pixel i j) ≪ volume :=
    Measure.smul_absolutelyContinuous.trans Measure.restrict_le_self.absolutelyContinuous
  have := hac.ae_le (ae_offLines B)
  rw [← hl] at this
  exact ae_of_ae_map (G.measurable_point i j).aemeasurable this

/-- Near a point off the lines of the grid the value that is read is the value at the point. -/
theorem reads_near {B : BoxArgs} (hB : BoxOk B) (v : ℕ → ℕ → ℝ) {pt : ℝ × ℝ} (h : OffLines B pt) :
    ∀ᶠ y in 𝓝 pt, ∀ g, Reads B v y g → g = boxVal B v pt := by
  have hx : 0 < B.numx.toNat := by have := hB.numx; omega
  have hy : 0 < B.numy.toNat := by have := hB.numy; omega
  have lo1 : ∀ c, c < pt.1 → ∀ᶠ y in 𝓝 pt, c < y.1 := fun c hc => continuousAt_fst.eventually (eventually_gt_nhds hc)
  have hi1 : ∀ c, pt.1 < c → ∀ᶠ y in 𝓝 pt, y.1 < c := fun c hc => continuousAt_fst.eventually (eventually_lt_nhds hc)
  have lo2 : ∀ c, c < pt.2 → ∀ᶠ y in 𝓝 pt, c < y.2 := fun c hc => continuousAt_snd.eventually (eventually_gt_nhds hc)
  have hi2 : ∀ c, pt.2 < c → ∀ᶠ y in 𝓝 pt, y.2 < c := fun c hc => continuousAt_snd.eventually (eventually_lt_nhds hc)
  have e1 : pt.1 ≠ B.xmin := by have := h.1 0; rwa [edgeAt_zero] at this
  have e2 : pt.1 ≠ B.xmax := by have := h.1 B.numx.toNat; rwa [edgeAt_last _ _ _ hx] at this
  have e3 : pt.2 ≠ B.ymin := by have := h.2 0; rwa [edgeAt_zero] at this
  have e4 : pt.2 ≠ B.ymax := by have := h.2 B.numy.toNat; rwa [edgeAt_last _ _ _ hy] at this
  by_cases hin : ∃ a b, InCell B.xmin B.xmax B.numx.toNat a pt.1 ∧ InCell B.ymin B.ymax B.numy.toNat b pt.2
  · obtain ⟨a, b, ⟨a1, a2, a3⟩, b1, b2, b3⟩ := hin
    have hv : boxVal B v pt = v b a := Mc.boxVal_in hB v ⟨⟨a1, a2, Or.inl a3⟩, b1, b2, Or.inl b3⟩
    filter_upwards [lo1 _ (lt_of_le_of_ne a2 (h.1 a).symm), hi1 _ a3, lo2 _ (lt_of_le_of_ne b2 (h.2 b).symm), hi2 _ b3]
      with y c1 c2 c3 c4 g hg
    rw [hv]
    exact hg.1 a b ⟨a1, c1.le, c2⟩ ⟨b1, c3.le, c4⟩
  · have hout : ¬ InBox B pt := fun hc => hin ((inBox_iff hB pt).mpr hc)
    have hv : boxVal B v pt = 0 := by
      apply Mc.boxVal_out
      rintro ⟨a, b, ⟨a1, a2, a3⟩, b1, b2, b3⟩
      rcases a3 with a3 | ⟨-, a3⟩
      · rcases b3 with b3 | ⟨-, b3⟩
        · exact hin ⟨a, b, ⟨a1, a2, a3⟩, b1, b2, b3⟩
        · exact e4 b3
      · exact e2 a3
    have hnear : ∀ᶠ y in 𝓝 pt, ¬ InBox B y := by
      unfold InBox at hout
      by_cases c1 : pt.1 < B.xmin
      · filter_upwards [hi1 _ c1] with y hy hc
        linarith [hc.1]
      by_cases c2 : B.xmax < pt.1
      · filter_upwards [lo1 _ c2] with y hy hc
        linarith [hc.2.1]
      by_cases c3 : pt.2 < B.ymin
      · filter_upwards [hi2 _ c3] with y hy hc
        linarith [hc.2.2.1]
      by_cases c4 : B.ymax < pt.2
      · filter_upwards [lo2 _ c4] with y hy hc
        linarith [hc.2.2.2]
      push Not at c1 c2 c3 c4
      exact absurd ⟨c1, lt_of_le_of_ne c2 e2, c3, lt_of_le_of_ne c4 e4⟩ hout
    filter_upwards [hnear] with y hy g hg
    rw [hv]
    exact hg.2 fun hc => hy ((inBox_iff hB y).mp hc)

theorem reads_bdd {B : BoxArgs} (hB : BoxOk B) (v : ℕ → ℕ → ℝ) : ∃ C, ∀ pt g, Reads B v pt g → |g| ≤ C := by
  obtain ⟨C, hC⟩ := Mc.boxVal_bdd B v
  refine ⟨C, fun pt g hg => ?_⟩
  by_cases hin : ∃ a b, InCell B.xmin B.xmax B.numx.toNat a pt.1 ∧ InCell B.ymin B.ymax B.numy.toNat b pt.2
  · obtain ⟨a, b, ha, hb⟩ := hin
    rw [hg.1 a b ha hb, ← Mc.boxVal_in hB v (pt := pt) ⟨⟨ha.1, ha.2.1, Or.inl ha.2.2⟩, hb.1, hb.2.1, Or.inl hb.2.2⟩]
    exact hC pt
  · rw [hg.2 hin, abs_zero]
    exact (abs_nonneg _).trans (hC pt)

section
variable {A : PolarArgs} {i j m : ℕ}

theorem dense_edge (lo hi : ℝ) {n m : ℕ} (hm : 0 < m) (hn : 0 < n) (j l : ℕ) :
    edgeAt lo hi (m*n) (j*m + l)
      = edgeAt lo hi n j + l*((edgeAt lo hi n (j+1) - edgeAt lo hi n j)/m) := by
  unfold edgeAt
  have : (m:ℝ) ≠ 0 := by positivity
  have : (n:ℝ) ≠ 0 := by positivity
  push_cast
  field_simp
  ring

theorem dense_mid (lo hi : ℝ) {n m : ℕ} (hm : 0 < m) (hn : 0 < n) (j l : ℕ) :
    midAt lo hi (m*n) (j*m + l)
      = edgeAt lo hi n j + (l + 1/2)*((edgeAt lo hi n (j+1) - edgeAt lo hi n j)/m) := by
  unfold midAt
  rw [add_assoc, dense_edge lo hi hm hn, dense_edge lo hi hm hn]
  push_cast
  ring

theorem denseArea_share (hA : PolarOk A) (hm : 0 < m) (k l : ℕ) :
    denseArea A m m (i*m + k) (j*m + l)
      = sectorArea ((Grid.lin A).rEdge j) ((Grid.lin A).rEdge (j+1)) ((Grid.lin A).pEdge i) ((Grid.lin A).pEdge (i+1))*
        ((Riemann.rho ((Grid.lin A).rEdge j) ((Grid.lin A).rEdge (j+1)) m (l+1)^2
          - Riemann.rho ((Grid.lin A).rEdge j) ((Grid.lin A).rEdge (j+1)) m l^2)/
          (((Grid.lin A).rEdge (j+1))^2 - ((Grid.lin A).rEdge j)^2)/m) := by
  have hr : 0 < A.numr.toNat := by have := hA.numr; omega
  have hp : 0 < A.nump.toNat := by have := hA.nump; omega
  have hlt : edgeAt A.rmin A.rmax A.numr.toNat j < edgeAt A.rmin A.rmax A.numr.toNat (j+1) :=
    edgeAt_strict hA.r hr (Nat.lt_succ_self j)
  have h0 : 0 ≤ edgeAt A.rmin A.rmax A.numr.toNat j := by
    have := edgeAt_mono hA.r.le A.numr.toNat (Nat.zero_le j)
    rw [edgeAt_zero] at this
    exact hA.rmin.trans this
  unfold denseArea
  rw [sectorArea_eq, sectorArea_eq, add_assoc (j*m), add_assoc (i*m), dense_edge _ _ hm hr, dense_edge _ _ hm hr,
    dense_edge _ _ hm hp, dense_edge _ _ hm hp]
  simp only [Grid.rEdge, Grid.pEdge, Grid.args, Grid.nump, Riemann.rho]
  generalize edgeAt A.rmin A.rmax A.numr.toNat j = R0 at *
  generalize edgeAt A.rmin A.rmax A.numr.toNat (j+1) = R1 at *
  generalize edgeAt A.pmin A.pmax A.nump.toNat i = P0 at *
  generalize edgeAt A.pmin A.pmax A.nump.toNat (i+1) = P1 at *
  have hd : R1^2 - R0^2 ≠ 0 := by nlinarith
  have hm' : (m:ℝ) ≠ 0 := by positivity
  push_cast
  field_simp
  ring

theorem areaSum_share (hA : PolarOk A) (hm : 0 < m) (g : ℕ → ℕ → ℝ) :
    areaSum A m g i j
      = sectorArea ((Grid.lin A).rEdge j) ((Grid.lin A).rEdge (j+1)) ((Grid.lin A).pEdge i) ((Grid.lin A).pEdge (i+1))*
        ∑ k ∈ Finset.range m, ∑ l ∈ Finset.range m,
        ((Riemann.rho ((Grid.lin A).rEdge j) ((Grid.lin A).rEdge (j+1)) m (l+1)^2
          - Riemann.rho ((Grid.lin A).rEdge j) ((Grid.lin A).rEdge (j+1)) m l^2)/
          (((Grid.lin A).rEdge (j+1))^2 - ((Grid.lin A).rEdge j)^2)/m)*g (i*m + k) (j*m + l) := by
  unfold areaSum
  rw [Finset.mul_sum]
  refine Finset.sum_congr rfl fun k _ => ?_
  rw [Finset.mul_sum]
  refine Finset.sum_congr rfl fun l _ => ?_
  rw [denseArea_share hA hm, mul_assoc]

theorem areaSum_one (hG : (Grid.lin A).Ok) (hj : j < A.numr.toNat) (hm : 0 < m) :
    areaSum A m (fun _ _ => 1) i j
      = sectorArea ((Grid.lin A).rEdge j) ((Grid.lin A).rEdge (j+1)) ((Grid.lin A).pEdge i)
        ((Grid.lin A).pEdge (i+1)) := by
  rw [areaSum_share hG.1 hm]
  have h0 := Grid.rEdge_nonneg hG j
  have h1 := Grid.rEdge_strict hG (j := j) hj
  generalize (Grid.lin A).rEdge j = R0 at *
  generalize (Grid.lin A).rEdge (j+1) = R1 at *
  have hd : R1^2 - R0^2 ≠ 0 := by nlinarith
  have hm' : (m:ℝ) ≠ 0 := by positivity
  have e0 : Riemann.rho R0 R1 m 0 = R0 := by simp [Riemann.rho]
  have e1 : Riemann.rho R0 R1 m m = R1 := by unfold Riemann.rho; field_simp; ring
  have : ∀ k : ℕ, ∑ l ∈ Finset.range m, (Riemann.rho R0 R1 m (l+1)^2 - Riemann.rho R0 R1 m l^2)/(R1^2 - R0^2)/m*(1:ℝ)
      = 1/(m:ℝ) := by
    intro k
    simp only [mul_one]
    rw [← Finset.sum_div, ← Finset.sum_div, Finset.sum_range_sub (fun l => Riemann.rho R0 R1 m l^2), e0, e1, div_self hd]
  rw [Finset.sum_congr rfl fun k _ => this k]
  simp only [Finset.sum_const, Finset.card_range, nsmul_eq_mul]
  field_simp

/-- The sum over the dense cells converges to the sum over the box pixels of the common areas. -/
theorem areaSum_tendsto {B : BoxArgs} (hB : BoxOk B) (hG : (Grid.lin A).Ok) (hi : i < A.nump.toNat)
    (hj : j < A.numr.toNat) (v : ℕ → ℕ → ℝ) (g : ℕ → ℕ → ℕ → ℝ)
    (hg : ∀ m n q, n < m*A.nump.toNat → q < m*A.numr.toNat → Reads B v (densePoint A m m n q) (g m n q)) :
    Tendsto (fun m => areaSum A m (g m) i j) atTop (𝓝 (Mc.areaSum B (Grid.lin A) v i j)) := by
  have hA : PolarOk A := hG.1
  have hr : 0 < A.numr.toNat := by omega
  have hp : 0 < A.nump.toNat := by omega
  have h0 := Grid.rEdge_nonneg hG j
  have h1 := Grid.rEdge_strict hG (j := j) hj
  obtain ⟨p1, p2⟩ := Grid.pEdge_bounds hG (i := i) hi
  have hS := Mc.sector_pos h0 h1 p1
  obtain ⟨C, hC⟩ := reads_bdd hB v
  have hidx : ∀ {a m k n : ℕ}, a < n → k < m → a*m + k < m*n := by
    intro a m k n ha hk
    calc a*m + k < a*m + m := by omega
      _ = (a+1)*m := by ring
      _ ≤ n*m := Nat.mul_le_mul_right m ha
      _ = m*n := mul_comm n m
  have key := Riemann.tendsto_sum h0 h1 (fun m k l => g m (i*m + k) (j*m + l)) C
    (fun m k l hk hl => hC _ _ (hg m _ _ (hidx hi hk) (hidx hj hl)))
    (fun u => boxVal B v ((Grid.lin A).point i j u.1 u.2)) ?_
  · have hint : (∫ u, boxVal B v ((Grid.lin A).point i j u.1 u.2) ∂unif2)
        = Mc.areaSum B (Grid.lin A) v i j/(volume ((Grid.lin A).pixel i j)).toReal := by
      obtain ⟨hl, hv⟩ := Grid.point_law hG (i := i) (j := j) hi hj
      rw [← Mc.integral_boxVal v (by rw [hv]; simpa using hS) (by rw [hv]; exact ENNReal.ofReal_ne_top), ← hl,
        integral_map ((Grid.lin A).measurable_point i j).aemeasurable (Mc.measurable_boxVal B v).aestronglyMeasurable]
    have hvol : (volume ((Grid.lin A).pixel i j)).toReal = sectorArea ((Grid.lin A).rEdge j) ((Grid.lin A).rEdge (j+1))
        ((Grid.lin A).pEdge i) ((Grid.lin A).pEdge (i+1)) := by
      rw [(Grid.point_law hG (i := i) (j := j) hi hj).2, ENNReal.toReal_ofReal hS.le]
    rw [hint, hvol] at key
    have := key.const_mul (sectorArea ((Grid.lin A).rEdge j) ((Grid.lin A).rEdge (j+1))
        ((Grid.lin A).pEdge i) ((Grid.lin A).pEdge (i+1)))
    rw [mul_div_cancel₀ _ hS.ne'] at this
    refine this.congr' ?_
    filter_upwards [eventually_gt_atTop 0] with m hm
    rw [areaSum_share hA hm]
  · filter_upwards [point_offLines B hG hi hj] with u hu
    have hnear := reads_near hB v hu
    have hcont : ContinuousAt (fun y : ℝ × ℝ =>
        (y.1*Real.cos ((Grid.lin A).pEdge i + y.2*((Grid.lin A).pEdge (i+1) - (Grid.lin A).pEdge i) + A.phiShift)
          + A.center.getD 0 0,
         y.1*Real.sin ((Grid.lin A).pEdge i + y.2*((Grid.lin A).pEdge (i+1) - (Grid.lin A).pEdge i) + A.phiShift)
          + A.center.getD 1 0))
        (Riemann.rad ((Grid.lin A).rEdge j) ((Grid.lin A).rEdge (j+1)) u.1, u.2) := by fun_prop
    filter_upwards [hcont.eventually hnear] with y hy m k l hk hl e
    have hm : 0 < m := by omega
    apply hy
    have := hg m _ _ (hidx (n := A.nump.toNat) hi hk) (hidx (n := A.numr.toNat) hj hl)
    convert this using 1
    unfold densePoint
    rw [dense_mid _ _ hm hr, dense_mid _ _ hm hp, e]
    simp only [Grid.rEdge, Grid.pEdge, Grid.args, Grid.nump]
    have hm' : (m:ℝ) ≠ 0 := by positivity
    have e2 : ((k:ℝ) + 1/2)/m*(edgeAt A.pmin A.pmax A.nump.toNat (i+1) - edgeAt A.pmin A.pmax A.nump.toNat i)
        = (k + 1/2)*((edgeAt A.pmin A.pmax A.nump.toNat (i+1) - edgeAt A.pmin A.pmax A.nump.toNat i)/m) := by
      field_simp
    rw [e2]

end

end Magpie.Dg
