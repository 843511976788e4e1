import Verif.Proof.Crossing
import Verif.Proof.DgLimit
import Verif.Spec.DgRate

/-!
# The error of the dense grid means
-/

set_option linter.unusedSimpArgs false
set_option linter.unusedVariables false

namespace Magpie.Dg
open Magpie.Box2Ring Magpie.Spec MeasureTheory Filter Topology Set
open Magpie.Mc (Grid boxVal InPixel)

/-- Two points with no line of the box grid between them have the same value. -/
theorem reads_same {B : BoxArgs} (hB : BoxOk B) (v : ℕ → ℕ → ℝ) {pt y : ℝ × ℝ} (h : OffLines B pt) {g : ℝ}
    (hg : Reads B v y g)
    (h1 : ∀ a ≤ B.numx.toNat, edgeAt B.xmin B.xmax B.numx.toNat a ∉ uIcc pt.1 y.1)
    (h2 : ∀ b ≤ B.numy.toNat, edgeAt B.ymin B.ymax B.numy.toNat b ∉ uIcc pt.2 y.2) : g = boxVal B v pt := by
  have hx : 0 < B.numx.toNat := by have := hB.numx; omega
  have hy : 0 < B.numy.toNat := by have := hB.numy; omega
  have sep : ∀ {s t e : ℝ}, e ∉ uIcc s t → (s < e → t < e) ∧ (e < s → e < t) := by
    intro s t e he
    rw [mem_uIcc] at he
    push Not at he
    constructor
    · intro hs; by_contra hn; push Not at hn; exact absurd (he.1 hs.le) (not_lt.mpr hn)
    · intro hs; by_contra hn; push Not at hn; exact absurd (he.2 hn) (not_lt.mpr hs.le)
  have x0 := edgeAt_zero B.xmin B.xmax B.numx.toNat
  have x1 := edgeAt_last B.xmin B.xmax B.numx.toNat hx
  have y0 := edgeAt_zero B.ymin B.ymax B.numy.toNat
  have y1 := edgeAt_last B.ymin B.ymax B.numy.toNat hy
  have e1 : pt.1 ≠ B.xmin := by have := h.1 0; rwa [x0] at this
  have e2 : pt.1 ≠ B.xmax := by have := h.1 B.numx.toNat; rwa [x1] at this
  have e3 : pt.2 ≠ B.ymin := by have := h.2 0; rwa [y0] at this
  have e4 : pt.2 ≠ B.ymax := by have := h.2 B.numy.toNat; rwa [y1] at this
  by_cases hin : ∃ a b, InCell B.xmin B.xmax B.numx.toNat a pt.1 ∧ InCell B.ymin B.ymax B.numy.toNat b pt.2
  · obtain ⟨a, b, ⟨a1, a2, a3⟩, b1, b2, b3⟩ := hin
    rw [Mc.boxVal_in hB v (pt := pt) ⟨⟨a1, a2, Or.inl a3⟩, b1, b2, Or.inl b3⟩]
    exact hg.1 a b ⟨a1, ((sep (h1 a a1.le)).2 (lt_of_le_of_ne a2 (h.1 a).symm)).le, (sep (h1 (a+1) a1)).1 a3⟩
      ⟨b1, ((sep (h2 b b1.le)).2 (lt_of_le_of_ne b2 (h.2 b).symm)).le, (sep (h2 (b+1) b1)).1 b3⟩
  · have hout : ¬ InBox B pt := fun hc => hin ((inBox_iff hB pt).mpr hc)
    have hv : boxVal B v pt = 0 := by
      apply Mc.boxVal_out
      rintro ⟨a, b, ⟨a1, a2, a3⟩, b1, b2, b3⟩
      rcases a3 with a3 | ⟨-, a3⟩
      · rcases b3 with b3 | ⟨-, b3⟩
        · exact hin ⟨a, b, ⟨a1, a2, a3⟩, b1, b2, b3⟩
        · exact e4 b3
      · exact e2 a3
    rw [hv]
    have s1 := sep (h1 0 (Nat.zero_le _))
    have s2 := sep (h1 _ le_rfl)
    have s3 := sep (h2 0 (Nat.zero_le _))
    have s4 := sep (h2 _ le_rfl)
    rw [x0] at s1
    rw [x1] at s2
    rw [y0] at s3
    rw [y1] at s4
    refine hg.2 fun hc => ?_
    obtain ⟨c1, c2, c3, c4⟩ := (inBox_iff hB y).mp hc
    apply hout
    refine ⟨?_, ?_, ?_, ?_⟩
    · by_contra hn; push Not at hn; linarith [s1.1 hn]
    · by_contra hn; push Not at hn; linarith [s2.2 (lt_of_le_of_ne hn e2.symm)]
    · by_contra hn; push Not at hn; linarith [s3.1 hn]
    · by_contra hn; push Not at hn; linarith [s4.2 (lt_of_le_of_ne hn e4.symm)]

theorem reads_le {B : BoxArgs} {v : ℕ → ℕ → ℝ} {C : ℝ} (hC0 : 0 ≤ C)
    (hC : ∀ a < B.numx.toNat, ∀ b < B.numy.toNat, |v b a| ≤ C) {pt : ℝ × ℝ} {g : ℝ} (hg : Reads B v pt g) : |g| ≤ C := by
  by_cases hin : ∃ a b, InCell B.xmin B.xmax B.numx.toNat a pt.1 ∧ InCell B.ymin B.ymax B.numy.toNat b pt.2
  · obtain ⟨a, b, ha, hb⟩ := hin
    rw [hg.1 a b ha hb]
    exact hC a ha.1 b hb.1
  · rw [hg.2 hin, abs_zero]
    exact hC0

theorem boxVal_le {B : BoxArgs} (hB : BoxOk B) {v : ℕ → ℕ → ℝ} {C : ℝ} (hC0 : 0 ≤ C)
    (hC : ∀ a < B.numx.toNat, ∀ b < B.numy.toNat, |v b a| ≤ C) (pt : ℝ × ℝ) : |boxVal B v pt| ≤ C := by
  by_cases hin : ∃ a b, InPixel B pt a b
  · obtain ⟨a, b, hab⟩ := hin
    rw [Mc.boxVal_in hB v hab]
    exact hC a hab.1.1 b hab.2.1
  · rw [Mc.boxVal_out v hin, abs_zero]
    exact hC0

section
variable {A : PolarArgs} {i j : ℕ}

theorem pEdge_half (hG : (Grid.lin A).Ok) (hi : i < A.nump.toNat) :
    (Grid.lin A).pEdge (i+1) - (Grid.lin A).pEdge i ≤ Real.pi := by
  obtain ⟨hA, -, hp⟩ := hG
  have hp' : (2:ℝ) ≤ A.nump.toNat := by
    have : 2 ≤ A.nump.toNat := by omega
    exact_mod_cast this
  have h1 := hA.pmin
  have h2 := hA.pmax2
  simp only [Grid.pEdge, Grid.args, Grid.nump, edgeAt]
  push_cast
  have e : A.pmin + ((i:ℝ) + 1)*((A.pmax - A.pmin)/A.nump.toNat) - (A.pmin + i*((A.pmax - A.pmin)/A.nump.toNat))
      = (A.pmax - A.pmin)/A.nump.toNat := by ring
  rw [e, div_le_iff₀ (by linarith)]
  have := Real.pi_pos
  nlinarith

/-- The point of the plane with coordinates `(r, v)` in polar pixel `(i, j)`. -/
noncomputable def polPt (A : PolarArgs) (i : ℕ) (y : ℝ × ℝ) : ℝ × ℝ :=
  (y.1*Real.cos ((Grid.lin A).pEdge i + y.2*((Grid.lin A).pEdge (i+1) - (Grid.lin A).pEdge i) + A.phiShift)
      + A.center.getD 0 0,
   y.1*Real.sin ((Grid.lin A).pEdge i + y.2*((Grid.lin A).pEdge (i+1) - (Grid.lin A).pEdge i) + A.phiShift)
      + A.center.getD 1 0)

theorem continuous_polPt : Continuous (polPt A i) := by unfold polPt; fun_prop

theorem polPt_mem (hG : (Grid.lin A).Ok) (hi : i < A.nump.toNat) (hj : j < A.numr.toNat) {m k l : ℕ} (hk : k < m)
    (hl : l < m) {y : ℝ × ℝ}
    (hy : y ∈ Riemann.polCell ((Grid.lin A).rEdge j) ((Grid.lin A).rEdge (j+1)) m k l) :
    polPt A i y ∈ (Grid.lin A).pixel i j := by
  obtain ⟨⟨y1, y2⟩, y3, y4⟩ := hy
  have hm : 0 < m := by omega
  have hm' : (0:ℝ) < m := by exact_mod_cast hm
  have h1 := Grid.rEdge_strict hG (j := j) hj
  obtain ⟨p1, p2⟩ := Grid.pEdge_bounds hG (i := i) hi
  have a1 := Riemann.rho_mono h1 m (Nat.zero_le l)
  have e0 : Riemann.rho ((Grid.lin A).rEdge j) ((Grid.lin A).rEdge (j+1)) m 0 = (Grid.lin A).rEdge j := by
    simp [Riemann.rho]
  rw [e0] at a1
  have a2 := Riemann.rho_le h1 hm (show l + 1 ≤ m by omega)
  have b0 : 0 ≤ y.2 := le_trans (by positivity) y3
  have b1 : y.2 < 1 := by
    refine lt_of_lt_of_le y4 ?_
    rw [div_le_one hm']
    exact_mod_cast hk
  refine ⟨y.1, (Grid.lin A).pEdge i + y.2*((Grid.lin A).pEdge (i+1) - (Grid.lin A).pEdge i) + A.phiShift,
    ⟨a1.trans y1, y2.le.trans a2⟩, ⟨?_, ?_⟩, ?_⟩
  · show _ + A.phiShift ≤ _
    nlinarith
  · show _ ≤ _ + A.phiShift
    nlinarith
  · show polPt A i y = _
    unfold polPt
    simp only [Grid.args]
    rw [add_comm (_*_), add_comm (_*_)]

open Classical in
/-- The cells that a line of the box grid crosses. -/
noncomputable def badCells (B : BoxArgs) (A : PolarArgs) (i j m : ℕ) : Finset (ℕ × ℕ) :=
  ((Finset.range (B.numx.toNat + 1)).filter fun a => ∃ pt ∈ (Grid.lin A).pixel i j,
    pt.1 = edgeAt B.xmin B.xmax B.numx.toNat a).biUnion (fun a =>
      Riemann.crossed ((Grid.lin A).rEdge j) ((Grid.lin A).rEdge (j+1)) m ((Grid.lin A).pEdge i + A.phiShift)
        ((Grid.lin A).pEdge (i+1) - (Grid.lin A).pEdge i)
        (edgeAt B.xmin B.xmax B.numx.toNat a - A.center.getD 0 0)) ∪
  ((Finset.range (B.numy.toNat + 1)).filter fun b => ∃ pt ∈ (Grid.lin A).pixel i j,
    pt.2 = edgeAt B.ymin B.ymax B.numy.toNat b).biUnion (fun b =>
      Riemann.crossed ((Grid.lin A).rEdge j) ((Grid.lin A).rEdge (j+1)) m
        ((Grid.lin A).pEdge i + A.phiShift - Real.pi/2)
        ((Grid.lin A).pEdge (i+1) - (Grid.lin A).pEdge i)
        (edgeAt B.ymin B.ymax B.numy.toNat b - A.center.getD 1 0))

theorem badCells_card (B : BoxArgs) (hG : (Grid.lin A).Ok) (hi : i < A.nump.toNat) (hj : j < A.numr.toNat) {m : ℕ}
    (hm : 0 < m) : (badCells B A i j m).card ≤ lines B A i j*(6*m) := by
  classical
  have h0 := Grid.rEdge_nonneg hG j
  have h1 := Grid.rEdge_strict hG (j := j) hj
  obtain ⟨p1, p2⟩ := Grid.pEdge_bounds hG (i := i) hi
  have hd : 0 < (Grid.lin A).pEdge (i+1) - (Grid.lin A).pEdge i := by linarith
  have hd' := pEdge_half hG hi
  unfold badCells
  refine (Finset.card_union_le _ _).trans ?_
  refine (Nat.add_le_add (Finset.card_biUnion_le_card_mul _ _ (6*m) fun a _ =>
      Riemann.crossed_card h0 h1 hm hd hd' _) (Finset.card_biUnion_le_card_mul _ _ (6*m) fun b _ =>
      Riemann.crossed_card h0 h1 hm hd hd' _)).trans ?_
  rw [← Nat.add_mul]
  refine Nat.mul_le_mul_right _ (le_of_eq ?_)
  unfold lines
  congr 1
  · rw [← Set.ncard_coe_finset]
    congr 1
    ext a
    simp [Nat.lt_succ_iff]
  · rw [← Set.ncard_coe_finset]
    congr 1
    ext a
    simp [Nat.lt_succ_iff]

theorem preconnected_polCell (r0 r1 : ℝ) (m k l : ℕ) : IsPreconnected (Riemann.polCell r0 r1 m k l) :=
  ((convex_Ico _ _).prod (convex_Ico _ _)).isPreconnected

theorem good_cell {B : BoxArgs} (hG : (Grid.lin A).Ok) (hi : i < A.nump.toNat) (hj : j < A.numr.toNat) {m k l : ℕ}
    (hk : k < m) (hl : l < m) (hgood : (k, l) ∉ badCells B A i j m) {y z : ℝ × ℝ}
    (hy : y ∈ Riemann.polCell ((Grid.lin A).rEdge j) ((Grid.lin A).rEdge (j+1)) m k l)
    (hz : z ∈ Riemann.polCell ((Grid.lin A).rEdge j) ((Grid.lin A).rEdge (j+1)) m k l) :
    (∀ a ≤ B.numx.toNat, edgeAt B.xmin B.xmax B.numx.toNat a ∉ uIcc (polPt A i y).1 (polPt A i z).1) ∧
    ∀ b ≤ B.numy.toNat, edgeAt B.ymin B.ymax B.numy.toNat b ∉ uIcc (polPt A i y).2 (polPt A i z).2 := by
  classical
  have hpre := preconnected_polCell ((Grid.lin A).rEdge j) ((Grid.lin A).rEdge (j+1)) m k l
  have ivt : ∀ (F : ℝ × ℝ → ℝ) (hF : Continuous F) (e : ℝ), e ∈ uIcc (F y) (F z) →
      ∃ t ∈ Riemann.polCell ((Grid.lin A).rEdge j) ((Grid.lin A).rEdge (j+1)) m k l, F t = e := by
    intro F hF e he
    rcases mem_uIcc.mp he with he | he
    · exact hpre.intermediate_value hy hz hF.continuousOn he
    · exact hpre.intermediate_value hz hy hF.continuousOn he
  unfold badCells at hgood
  rw [Finset.mem_union, not_or] at hgood
  constructor
  · intro a ha he
    obtain ⟨t, ht, hte⟩ := ivt (fun y => (polPt A i y).1) (continuous_fst.comp continuous_polPt) _ he
    apply hgood.1
    rw [Finset.mem_biUnion]
    refine ⟨a, ?_, ?_⟩
    · rw [Finset.mem_filter, Finset.mem_range]
      exact ⟨by omega, _, polPt_mem hG hi hj hk hl ht, hte⟩
    · unfold Riemann.crossed
      rw [Finset.mem_filter, Finset.mem_product, Finset.mem_range, Finset.mem_range]
      refine ⟨⟨hk, hl⟩, t, ht, ?_⟩
      rw [← hte]
      simp only [polPt]
      rw [add_sub_cancel_right]
      congr 2
      ring
  · intro a ha he
    obtain ⟨t, ht, hte⟩ := ivt (fun y => (polPt A i y).2) (continuous_snd.comp continuous_polPt) _ he
    apply hgood.2
    rw [Finset.mem_biUnion]
    refine ⟨a, ?_, ?_⟩
    · rw [Finset.mem_filter, Finset.mem_range]
      exact ⟨by omega, _, polPt_mem hG hi hj hk hl ht, hte⟩
    · unfold Riemann.crossed
      rw [Finset.mem_filter, Finset.mem_product, Finset.mem_range, Finset.mem_range]
      refine ⟨⟨hk, hl⟩, t, ht, ?_⟩
      rw [← hte]
      simp only [polPt]
      rw [add_sub_cancel_right, ← Real.cos_sub_pi_div_two]
      congr 2
      ring

/-- The error of the sum over the dense cells. -/
theorem areaSum_error {B : BoxArgs} (hB : BoxOk B) (hG : (Grid.lin A).Ok) (hi : i < A.nump.toNat)
    (hj : j < A.numr.toNat) {v : ℕ → ℕ → ℝ} {C : ℝ} (hC0 : 0 ≤ C)
    (hC : ∀ a < B.numx.toNat, ∀ b < B.numy.toNat, |v b a| ≤ C) {m : ℕ} (hm : 0 < m) (g : ℕ → ℕ → ℝ)
    (hg : ∀ n q, n < m*A.nump.toNat → q < m*A.numr.toNat → Reads B v (densePoint A m m n q) (g n q)) :
    |areaSum A m g i j - Mc.areaSum B (Grid.lin A) v i j|
      ≤ (volume ((Grid.lin A).pixel i j)).toReal*(24*C*lines B A i j/m) := by
  have hA : PolarOk A := hG.1
  have hr : 0 < A.numr.toNat := by omega
  have hp : 0 < A.nump.toNat := by omega
  have hm' : (0:ℝ) < m := by exact_mod_cast hm
  have h0 := Grid.rEdge_nonneg hG j
  have h1 := Grid.rEdge_strict hG (j := j) hj
  obtain ⟨p1, p2⟩ := Grid.pEdge_bounds hG (i := i) hi
  have hS := Mc.sector_pos h0 h1 p1
  have hidx : ∀ {a k n : ℕ}, a < n → k < m → a*m + k < m*n := by
    intro a k n ha hk
    calc a*m + k < a*m + m := by omega
      _ = (a+1)*m := by ring
      _ ≤ n*m := Nat.mul_le_mul_right m ha
      _ = m*n := mul_comm n m
  have key := Riemann.sum_error h0 h1 hm (fun k l => g (i*m + k) (j*m + l))
    (fun u => boxVal B v ((Grid.lin A).point i j u.1 u.2))
    ((Mc.measurable_boxVal B v).comp ((Grid.lin A).measurable_point i j)) (C := C) (D := 2*C)
    (fun x => boxVal_le hB hC0 hC _) (by positivity) (badCells B A i j m) ?_
  · have hint : (∫ u, boxVal B v ((Grid.lin A).point i j u.1 u.2) ∂unif2)
        = Mc.areaSum B (Grid.lin A) v i j/(volume ((Grid.lin A).pixel i j)).toReal := by
      obtain ⟨hl, hv⟩ := Grid.point_law hG (i := i) (j := j) hi hj
      rw [← Mc.integral_boxVal v (by rw [hv]; simpa using hS) (by rw [hv]; exact ENNReal.ofReal_ne_top), ← hl,
        integral_map ((Grid.lin A).measurable_point i j).aemeasurable (Mc.measurable_boxVal B v).aestronglyMeasurable]
    have hvol : (volume ((Grid.lin A).pixel i j)).toReal = sectorArea ((Grid.lin A).rEdge j) ((Grid.lin A).rEdge (j+1))
        ((Grid.lin A).pEdge i) ((Grid.lin A).pEdge (i+1)) := by
      rw [(Grid.point_law hG (i := i) (j := j) hi hj).2, ENNReal.toReal_ofReal hS.le]
    rw [hint, hvol] at key
    rw [areaSum_share hA hm, hvol]
    generalize (∑ k ∈ Finset.range m, ∑ l ∈ Finset.range m, _ : ℝ) = X at *
    generalize Mc.areaSum B (Grid.lin A) v i j = Y at *
    generalize sectorArea _ _ _ _ = S at *
    have e : S*X - Y = S*(X - Y/S) := by field_simp
    rw [e, abs_mul, abs_of_pos hS]
    refine mul_le_mul_of_nonneg_left (key.trans ?_) hS.le
    have hc : ((badCells B A i j m).card:ℝ) ≤ lines B A i j*(6*m) := by exact_mod_cast badCells_card B hG hi hj hm
    rw [div_le_div_iff₀ (by positivity) hm']
    have : 2*(2*C)*((badCells B A i j m).card:ℝ) ≤ 2*(2*C)*(lines B A i j*(6*m)) :=
      mul_le_mul_of_nonneg_left hc (by positivity)
    nlinarith
  · filter_upwards [point_offLines B hG hi hj] with u hu k l hk hl hmem
    have hrd := hg _ _ (hidx (n := A.nump.toNat) hi hk) (hidx (n := A.numr.toNat) hj hl)
    have hpt : (Grid.lin A).point i j u.1 u.2
        = polPt A i (Riemann.rad ((Grid.lin A).rEdge j) ((Grid.lin A).rEdge (j+1)) u.1, u.2) := rfl
    have hdp : densePoint A m m (i*m + k) (j*m + l) = polPt A i ((Grid.lin A).rEdge j + (l + 1/2)*
        (((Grid.lin A).rEdge (j+1) - (Grid.lin A).rEdge j)/m), ((k + 1/2)/m : ℝ)) := by
      unfold densePoint polPt
      rw [dense_mid _ _ hm hr, dense_mid _ _ hm hp]
      simp only [Grid.rEdge, Grid.pEdge, Grid.args, Grid.nump]
      have e2 : ((k:ℝ) + 1/2)/m*(edgeAt A.pmin A.pmax A.nump.toNat (i+1) - edgeAt A.pmin A.pmax A.nump.toNat i)
          = (k + 1/2)*((edgeAt A.pmin A.pmax A.nump.toNat (i+1) - edgeAt A.pmin A.pmax A.nump.toNat i)/m) := by
        field_simp
      rw [e2]
    constructor
    · have a1 := reads_le hC0 hC hrd
      have a2 := boxVal_le hB hC0 hC ((Grid.lin A).point i j u.1 u.2)
      rw [abs_le] at *
      constructor <;> linarith
    · intro hgood
      have hz : ((Grid.lin A).rEdge j + (l + 1/2)*(((Grid.lin A).rEdge (j+1) - (Grid.lin A).rEdge j)/m),
          ((k + 1/2)/m : ℝ)) ∈ Riemann.polCell ((Grid.lin A).rEdge j) ((Grid.lin A).rEdge (j+1)) m k l := by
        have hδ : 0 < ((Grid.lin A).rEdge (j+1) - (Grid.lin A).rEdge j)/m := div_pos (by linarith) hm'
        refine ⟨⟨?_, ?_⟩, ?_, ?_⟩
        · unfold Riemann.rho; nlinarith
        · unfold Riemann.rho; push_cast; nlinarith
        · simp only; gcongr; linarith
        · simp only; gcongr; linarith
      rw [hdp] at hrd
      rw [hpt] at hu ⊢
      obtain ⟨g1, g2⟩ := good_cell hG hi hj hk hl hgood hmem hz
      exact reads_same hB v hu hrd g1 g2

end

end Magpie.Dg
