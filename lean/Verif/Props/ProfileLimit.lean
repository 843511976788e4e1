import Verif.Proof.ProfileLimit
import Verif.Props.DgLimit
import Verif.Props.Box2RingMask

/-!
# Property C121: ring profiles of remapped maps converge to means over the rings
-/

set_option linter.unusedSimpArgs false
set_option linter.unusedVariables false

namespace Magpie.Props
open Magpie Magpie.Box2Ring Magpie.Spec Magpie.Radial MeasureTheory Filter Topology
open Magpie.Mc (Grid wOf areaMean commonArea InPixel ringMean)

/-- The profile if no entry of the mask is zero. -/
private theorem profile_of {X : Type} {getMask : Meth (Box2Ring.State X) Unit} {G : Box2Ring.State X → Py (Arr2 ℝ)}
    (hG : MaskBy getMask G) (s s' : Box2Ring.State X) (f : Arr2 (Option ℝ)) (out : Box2Ring.Radial)
    (ho : Box2Ring.polar2radial getMask f none none s = (.ok out, s')) (M : Arr2 ℝ) (hM : maskOf G s = .ok M)
    (h0 : ∀ i j, i < M.rows → j < M.cols → M.val i j ≠ 0) (v : ℕ → ℕ → ℝ)
    (hv : ∀ i j, i < f.rows → j < f.cols → f.val i j = some (v i j)) :
    out.f = (List.range f.cols).map fun j => fdiv (∑ i ∈ Finset.range f.rows, v i j) (f.rows : ℝ) := by
  obtain ⟨a, px, p, M', h1, h2, h3, h4, h5, h6, h7⟩ := polar2radial_ok hG f none none s out (by rw [ho])
  rw [hM] at h5
  simp only [Except.ok.injEq] at h5
  subst h5
  unfold radialOf at h6
  rw [applyMask_all h0] at h6
  simp only [Bind.bind, Except.bind, Pure.pure, Except.pure, radial_none f v hv, Except.ok.injEq] at h6
  rw [← h6]

private theorem mean_near {n : ℕ} (hn : 0 < n) {x y : ℕ → ℝ} {ε : ℝ} (h : ∀ i < n, |x i - y i| < ε) :
    |(∑ i ∈ Finset.range n, x i)/n - (∑ i ∈ Finset.range n, y i)/n| < ε := by
  have hn' : (0:ℝ) < n := by exact_mod_cast hn
  rw [← sub_div, ← Finset.sum_sub_distrib, abs_div, abs_of_pos hn', div_lt_iff₀ hn']
  calc |∑ i ∈ Finset.range n, (x i - y i)| ≤ ∑ i ∈ Finset.range n, |x i - y i| := Finset.abs_sum_le_sum_abs _ _
    _ < ∑ i ∈ Finset.range n, ε := Finset.sum_lt_sum_of_nonempty ⟨0, by simpa using hn⟩ fun i hi =>
        h i (Finset.mem_range.mp hi)
    _ = ε*n := by simp [mul_comm]

private theorem areaSum_one_pos {B : BoxArgs} {G : Grid} {i j a b : ℕ} (h : 0 < commonArea B G i j a b) :
    0 < Mc.areaSum B G (fun _ _ => 1) i j := by
  obtain ⟨ha, hb⟩ := Mc.commonArea_range h
  unfold Mc.areaSum
  have nn : ∀ c d, 0 ≤ 1*commonArea B G i j c d := fun c d => by rw [one_mul]; exact ENNReal.toReal_nonneg
  refine Finset.sum_pos' (fun c _ => Finset.sum_nonneg fun d _ => nn c d) ⟨a, Finset.mem_range.mpr ha, ?_⟩
  exact Finset.sum_pos' (fun d _ => nn a d) ⟨b, Finset.mem_range.mpr hb, by rw [one_mul]; exact h⟩

/-- C121 for the dense grid class: on a new object, if every polar pixel has an area in common with the box, the
profile that `polar2radial` makes of the remapped map converges in every ring, as the dense grid is refined, to the
integral of the map over the ring divided by the area of the ring. The map is zero outside the box. -/
theorem C121_profile (B : BoxArgs) (A : PolarArgs) (hB : BoxOk B) (hA : PolarOk A) (hr : 2 ≤ A.numr) (hp : 2 ≤ A.nump)
    (f : Arr2 (Option ℝ)) (v : ℕ → ℕ → ℝ) (hfr : f.rows = B.numy.toNat) (hfc : f.cols = B.numx.toNat)
    (hv : ∀ i j, i < f.rows → j < f.cols → f.val i j = some (v i j))
    (hover : ∀ i < A.nump.toNat, ∀ j < A.numr.toNat, ∃ a b, 0 < commonArea B (.lin A) i j a b)
    (ε : ℝ) (hε : 0 < ε) : ∃ M, ∀ m ≥ M, ∃ out s',
    (do
      setupBox B
      Dg.setupPolar A m m
      let fp ← Dg.remap f none
      Dg.polar2radial fp none none : Meth Dg.State _) init = (.ok out, s') ∧
    out.sigma = none ∧ out.f.length = A.numr.toNat ∧
    ∀ j < A.numr.toNat, ∃ x, out.f[j]? = some (some x) ∧ |x - ringMean B (.lin A) v j| < ε := by
  have hG : (Grid.lin A).Ok := ⟨hA, hr, hp⟩
  obtain ⟨M1, hM1⟩ := C97_limit B A hB hA hr hp f v hfr hfc hv ε hε
  let one : Arr2 (Option ℝ) := ⟨B.numy.toNat, B.numx.toNat, fun _ _ => some 1⟩
  have hmask : ∀ᶠ m : ℕ in atTop, ∀ i < A.nump.toNat, ∀ j < A.numr.toNat, ∀ (g : ℕ → ℕ → ℝ),
      (∀ n q, Dg.Reads B (fun _ _ => 1) (Dg.densePoint A m m n q) (g n q)) → 0 < Dg.areaSum A m g i j := by
    choose g hg using fun m n q => Dg.exists_reads B hB (fun _ _ => 1) (Dg.densePoint A m m n q)
    have h1 : ∀ i ∈ Set.Iio A.nump.toNat, ∀ᶠ m : ℕ in atTop, ∀ j ∈ Set.Iio A.numr.toNat, ∀ (g : ℕ → ℕ → ℝ),
        (∀ n q, Dg.Reads B (fun _ _ => 1) (Dg.densePoint A m m n q) (g n q)) → 0 < Dg.areaSum A m g i j := by
      intro i hi
      rw [eventually_all_finite (Set.finite_Iio _)]
      intro j hj
      have t := Dg.areaSum_tendsto hB hG hi hj (fun _ _ => 1) g fun m n q _ _ => hg m n q
      obtain ⟨a, b, hab⟩ := hover i hi j hj
      filter_upwards [t.eventually (lt_mem_nhds (areaSum_one_pos hab))] with m hm g' hg'
      have : g' = g m := by
        funext n q
        obtain ⟨a1, a2⟩ := hg' n q
        obtain ⟨b1, b2⟩ := hg m n q
        by_cases hc : ∃ a b, InCell B.xmin B.xmax B.numx.toNat a (Dg.densePoint A m m n q).1 ∧
            InCell B.ymin B.ymax B.numy.toNat b (Dg.densePoint A m m n q).2
        · obtain ⟨a, b, c1, c2⟩ := hc
          rw [a1 a b c1 c2, b1 a b c1 c2]
        · rw [a2 hc, b2 hc]
      rw [this]
      exact hm
    have h2 : ∀ᶠ m : ℕ in atTop, ∀ i ∈ Set.Iio A.nump.toNat, ∀ j ∈ Set.Iio A.numr.toNat, ∀ (g : ℕ → ℕ → ℝ),
        (∀ n q, Dg.Reads B (fun _ _ => 1) (Dg.densePoint A m m n q) (g n q)) → 0 < Dg.areaSum A m g i j := by
      rw [eventually_all_finite (Set.finite_Iio _)]
      exact h1
    exact h2
  obtain ⟨M2, hM2⟩ := eventually_atTop.mp hmask
  refine ⟨max (max M1 M2) 1, fun m hm => ?_⟩
  have hm1 : 1 ≤ m := le_of_max_le_right hm
  have hmM1 : M1 ≤ m := le_of_max_le_left (le_of_max_le_left hm)
  have hmM2 : M2 ≤ m := le_of_max_le_right (le_of_max_le_left hm)
  obtain ⟨fp, s1, e1, k1, k2, k3⟩ := hM1 m hmM1 init
  obtain ⟨s, e, hs, c1, c2, c3⟩ := Dg.setup_run hB.numx hB.numy hA hr hp m m init
  have es : s1 = s ∧ Dg.remap f none s = (.ok fp, s) := by
    simp only [Meth.bind_apply] at e e1
    rw [setupBox_ok hB.numx hB.numy] at e e1
    simp only at e e1
    rw [e] at e1
    simp only at e1
    have := (Dg.remap_readOnly f none s).1
    rw [e1] at this
    simp only at this
    subst this
    exact ⟨rfl, e1⟩
  obtain ⟨g, hg⟩ : ∃ g : ℕ → ℕ → ℝ, ∀ n q, Dg.Reads B (fun _ _ => 1) (Dg.densePoint A m m n q) (g n q) := by
    choose g hg using fun n q => Dg.exists_reads B hB (fun _ _ => 1) (Dg.densePoint A m m n q)
    exact ⟨g, hg⟩
  obtain ⟨mo, m1, m2, m3, m4⟩ := Dg.remap1_mean hB hA hm1 hs one (fun _ _ => 1) rfl rfl (fun _ _ _ _ => rfl) g
    (fun n q _ _ => hg n q)
  have em : maskOf Dg.maskG s = .ok ⟨mo.rows, mo.cols, fun i j => (mo.val i j).getD 0⟩ := by
    unfold maskOf
    rw [c3]
    show Dg.maskG s = _
    unfold Dg.maskG
    rw [hs.box, hs.polar]
    simp only
    have er : B.box.x2d.rows = B.numy.toNat := length_mids_linspace _ _ _
    have ec : B.box.x2d.cols = B.numx.toNat := length_mids_linspace _ _ _
    rw [er, ec]
    show ((do
      let m ← (Dg.remap1 one s).1
      return (⟨m.rows, m.cols, fun i j => (m.val i j).getD 0⟩ : Arr2 ℝ)) : Py (Arr2 ℝ)) = _
    rw [m1]
    rfl
  have hne : ∀ i j, i < mo.rows → j < mo.cols → (mo.val i j).getD 0 ≠ 0 := by
    intro i j hi hj
    rw [m2] at hi
    rw [m3] at hj
    rw [m4 i j hi hj, Option.getD_some]
    exact (div_pos (hM2 m hmM2 i hi j hj g hg) (Dg.areaSum_pos hA hm1 i j)).ne'
  choose! x hx hx' using k3
  have hfv : ∀ i j, i < fp.rows → j < fp.cols → fp.val i j = some (x i j) := fun i j hi hj =>
    hx i (k1 ▸ hi) j (k2 ▸ hj)
  obtain ⟨a, ha, -⟩ := area_ok A hA
  obtain ⟨px, hpx, -⟩ := pix_ok B hB
  have run : Dg.polar2radial fp none none s =
      (.ok ⟨(List.range fp.cols).map fun j => fdiv (∑ i ∈ Finset.range fp.rows, x i j) (fp.rows : ℝ), none, none⟩,
        { s with area2d := some a, pixarea := some px,
                 maskInBound := some ⟨mo.rows, mo.cols, fun i j => (mo.val i j).getD 0⟩ }) := by
    have hsh : fp.sameShape (mkPolar (linEdges A) A).p2d :=
      ⟨k1.trans (Dg.linEdges_pmid_length A).symm, k2.trans (Dg.linEdges_rmid_length A).symm⟩
    unfold Dg.polar2radial
    rw [polar2radial_steps Dg.maskBy]
    unfold p2rSteps
    have ea : areaOf s = .ok a := by
      unfold areaOf; rw [c1, hs.edges]; exact ha
    have ep : pixOf s = .ok px := by
      unfold pixOf; rw [c2, hs.box]; exact hpx
    rw [ea, ep, hs.polar]
    simp only
    rw [if_pos hsh, em]
    simp only
    unfold radialOf
    rw [applyMask_all hne]
    simp only [Bind.bind, Except.bind, Pure.pure, Except.pure]
    rw [radial_none _ x hfv]
  have all : ∀ R, Dg.polar2radial fp none none s = R → (do
      setupBox B
      Dg.setupPolar A m m
      let fp ← Dg.remap f none
      Dg.polar2radial fp none none : Meth Dg.State _) init = R := by
    intro R hR
    simp only [Meth.bind_apply] at e ⊢
    rw [setupBox_ok hB.numx hB.numy] at e ⊢
    simp only at e ⊢
    rw [e]
    simp only
    rw [es.2]
    exact hR
  refine ⟨_, _, all _ run, rfl, ?_, fun j hj => ?_⟩
  · simp [k2]
  · have hn : 0 < A.nump.toNat := by omega
    have hn' : (A.nump.toNat : ℝ) ≠ 0 := by exact_mod_cast hn.ne'
    refine ⟨(∑ i ∈ Finset.range A.nump.toNat, x i j)/(A.nump.toNat : ℝ), ?_, ?_⟩
    · rw [List.getElem?_map, List.getElem?_range (by rw [k2]; exact hj), k1]
      simp only [Option.map_some, fdiv, if_neg hn']
    · rw [Mc.ringMean_eq hG (j := j) hj]
      exact mean_near hn fun i hi => hx' i hi j hj

/-- What the limit of `C121_profile` is for a ring inside the box: the mean over the box pixels that the ring overlaps,
weighted by the common area. -/
theorem C121_inside (B : BoxArgs) (G : Grid) (hB : BoxOk B) (hG : G.Ok) (v : ℕ → ℕ → ℝ) {j : ℕ} (hj : j < G.numr)
    (hin : ∀ pt ∈ G.ring j, ∃ a b, InPixel B pt a b) :
    ringMean B G v j = (∑ a ∈ Finset.range B.numx.toNat, ∑ b ∈ Finset.range B.numy.toNat,
        v b a*(volume (G.ring j ∩ {pt | InPixel B pt a b})).toReal)/
      (∑ a ∈ Finset.range B.numx.toNat, ∑ b ∈ Finset.range B.numy.toNat,
        (volume (G.ring j ∩ {pt | InPixel B pt a b})).toReal) ∧
    0 < (volume (G.ring j)).toReal := by
  have hn : 0 < G.nump := by have := hG.polar.nump; unfold Grid.nump; omega
  have e1 := Grid.volume_ring hG hj (MeasurableSet.univ (α := ℝ × ℝ))
  simp only [Set.inter_univ] at e1
  have hpos : 0 < (volume (G.ring j)).toReal := by
    rw [e1]
    refine Finset.sum_pos (fun i hi => ?_) ⟨0, by simpa using hn⟩
    obtain ⟨h0, ht⟩ := Mc.volume_pixel hG (Finset.mem_range.mp hi) hj
    exact ENNReal.toReal_pos h0 ht
  refine ⟨?_, hpos⟩
  unfold ringMean
  congr 1
  rw [← Mc.volume_ring_box hB hG hj hin]

/-- Non-vacuity and sanity: the limit for the constant map 1 is 1 on a ring inside the box. -/
theorem C121_one (B : BoxArgs) (G : Grid) (hB : BoxOk B) (hG : G.Ok) {j : ℕ} (hj : j < G.numr)
    (hin : ∀ pt ∈ G.ring j, ∃ a b, InPixel B pt a b) : ringMean B G (fun _ _ => 1) j = 1 := by
  obtain ⟨e, hpos⟩ := C121_inside B G hB hG (fun _ _ => 1) hj hin
  rw [e, ← Mc.volume_ring_box hB hG hj hin]
  simp only [one_mul]
  rw [← Mc.volume_ring_box hB hG hj hin, div_self hpos.ne']

/-- C121 for the Monte Carlo class: on a new object, if every polar pixel has an area in common with the box, almost
surely whatever profile is returned converges in every ring, as the number of random points grows, to the mean over the
pixels of the ring of the area weighted means of the map. Missing: calls that raise an exception, see C80. -/
theorem C121_mc_partial {Ω : Type} [MeasurableSpace Ω] (P : Measure Ω) [IsProbabilityMeasure P]
    (U : Ω → ℕ → ℕ → ℕ → ℝ × ℝ) (hU : Mc.Random P U) (B : BoxArgs) (G : Grid) (hB : BoxOk B) (hG : G.Ok)
    (f : Arr2 (Option ℝ)) (v : ℕ → ℕ → ℝ) (hf : f.rows = B.numy.toNat ∧ f.cols = B.numx.toNat)
    (hv : ∀ i j, i < f.rows → j < f.cols → f.val i j = some (v i j))
    (hover : ∀ i < G.nump, ∀ j < G.numr, ∃ a b, 0 < commonArea B G i j a b) :
    ∀ᵐ ω ∂P, ∀ ε > 0, ∃ N, ∀ n ≥ N, ∀ out s',
      (do
        let fp ← Mc.mcRemap B G n (Mc.drawsOf (U ω) n) f none
        Mc.polar2radial fp none none : Meth Mc.State _) init = (.ok out, s') →
      out.f.length = G.numr ∧ ∀ j < G.numr, ∃ x, out.f[j]? = some (some x) ∧
        |x - (∑ i ∈ Finset.range G.nump, areaMean B G none v i j)/G.nump| < ε := by
  have hone : ∀ i < G.nump, ∀ j < G.numr, Mc.areaSum B G (wOf none) i j ≠ 0 := by
    intro i hi j hj
    obtain ⟨a, b, hab⟩ := hover i hi j hj
    exact (areaSum_one_pos hab).ne'
  filter_upwards [Mc.random_unit hU, C96_limit_partial P U hU B G hB hG f v hf hv none (by simp),
    C96_limit_partial P U hU B G hB hG ⟨B.numy.toNat, B.numx.toNat, fun _ _ => some 1⟩ (fun _ _ => 1) ⟨rfl, rfl⟩
      (fun _ _ _ _ => rfl) none (by simp)] with ω hu h1 h2 ε hε
  have hev : ∀ᶠ n : ℕ in atTop, ∀ i ∈ Set.Iio G.nump, ∀ j ∈ Set.Iio G.numr, ∀ s fp s' one s'',
      Mc.mcRemap B G n (Mc.drawsOf (U ω) n) f none s = (.ok fp, s') →
      Mc.mcRemap B G n (Mc.drawsOf (U ω) n) ⟨B.numy.toNat, B.numx.toNat, fun _ _ => some 1⟩ none s = (.ok one, s'') →
      (∃ x, fp.val i j = some x ∧ |x - areaMean B G none v i j| < ε) ∧ ∃ y, one.val i j = some y ∧ y ≠ 0 := by
    rw [eventually_all_finite (Set.finite_Iio _)]
    intro i hi
    rw [eventually_all_finite (Set.finite_Iio _)]
    intro j hj
    obtain ⟨N1, hN1⟩ := h1 i j hi hj (hone i hi j hj) ε hε
    obtain ⟨N2, hN2⟩ := h2 i j hi hj (hone i hi j hj) 1 one_pos
    filter_upwards [eventually_ge_atTop (max N1 N2)] with n hn s fp s' one s'' e1 e2
    refine ⟨hN1 n (le_of_max_le_left hn) s fp s' e1, ?_⟩
    obtain ⟨y, hy, hy'⟩ := hN2 n (le_of_max_le_right hn) s one s'' e2
    refine ⟨y, hy, ?_⟩
    rintro rfl
    have : areaMean B G none (fun _ _ => 1) i j = 1 := by
      unfold areaMean
      simp only [mul_one]
      exact div_self (hone i hi j hj)
    rw [this] at hy'
    norm_num at hy'
  obtain ⟨N, hN⟩ := eventually_atTop.mp hev
  refine ⟨max N 2, fun n hn out s' ho => ?_⟩
  have hn2 : 1 < n := le_of_max_le_right hn
  have hN := hN n (le_of_max_le_left hn)
  simp only [Meth.bind_apply] at ho
  cases hr : Mc.mcRemap B G n (Mc.drawsOf (U ω) n) f none init with
  | mk r s1 =>
    rw [hr] at ho
    cases r with
    | error e => simp at ho
    | ok fp =>
      simp only at ho
      obtain ⟨b1, b2, b3, b4, b5, b6⟩ := Mc.mcRemap_split hB hG hn2 _ (fun i j _ _ => Mc.draws_drawsOf hu n i j) f none hf
        (by simp) hr
      obtain ⟨-, -, -, M, -, -, -, -, hM, -⟩ := polar2radial_ok Mc.maskBy fp none none s1 out (by
        unfold Mc.polar2radial at ho; rw [ho])
      have hM' := hM
      unfold maskOf at hM'
      rw [b3] at hM'
      change Mc.maskG s1 = _ at hM'
      unfold Mc.maskG at hM'
      rw [b1, b2] at hM'
      simp only [(Mc.x2d_shape B).1, (Mc.x2d_shape B).2] at hM'
      rw [← b6] at hM'
      cases hr2 : Mc.mcRemap B G n (Mc.drawsOf (U ω) n) ⟨B.numy.toNat, B.numx.toNat, fun _ _ => some 1⟩ none init with
      | mk r2 s2 =>
        rw [hr2] at hM'
        cases r2 with
        | error e => simp [Bind.bind, Except.bind] at hM'
        | ok one =>
          simp only [Bind.bind, Except.bind, Pure.pure, Except.pure, Except.ok.injEq] at hM'
          obtain ⟨-, -, -, c4, c5, -⟩ := Mc.mcRemap_split hB hG hn2 _ (fun i j _ _ => Mc.draws_drawsOf hu n i j) _ none
            ⟨rfl, rfl⟩ (by simp) hr2
          have key : ∀ i < G.nump, ∀ j < G.numr,
              (∃ x, fp.val i j = some x ∧ |x - areaMean B G none v i j| < ε) ∧ ∃ y, one.val i j = some y ∧ y ≠ 0 :=
            fun i hi j hj => hN i hi j hj init fp s1 one s2 hr hr2
          choose! x hx hx' using fun i hi j hj => (key i hi j hj).1
          have hfin := profile_of Mc.maskBy s1 s' fp out ho M hM (by
            rw [← hM']
            intro i j hi hj
            obtain ⟨y, hy, hy'⟩ := (key i (c4 ▸ hi) j (c5 ▸ hj)).2
            simp only [hy, Option.getD_some]
            exact hy') x (fun i j hi hj => hx i (b4 ▸ hi) j (b5 ▸ hj))
          rw [b4, b5] at hfin
          have hp2 := Grid.nump_two hG
          have hn' : (G.nump : ℝ) ≠ 0 := by positivity
          refine ⟨by rw [hfin]; simp, fun j hj => ⟨(∑ i ∈ Finset.range G.nump, x i j)/(G.nump : ℝ), ?_, ?_⟩⟩
          · rw [hfin, List.getElem?_map, List.getElem?_range hj]
            simp only [Option.map_some, fdiv, if_neg hn']
          · exact mean_near (by omega) fun i hi => hx' i hi j hj

/-- What the limit of `C121_mc_partial` is for a ring inside the box: the mean over the ring. -/
theorem C121_mc_inside (B : BoxArgs) (G : Grid) (hB : BoxOk B) (hG : G.Ok) (v : ℕ → ℕ → ℝ) {j : ℕ} (hj : j < G.numr)
    (hin : ∀ pt ∈ G.ring j, ∃ a b, InPixel B pt a b) :
    (∑ i ∈ Finset.range G.nump, areaMean B G none v i j)/G.nump = ringMean B G v j := by
  rw [Mc.ringMean_eq hG hj]
  congr 1
  refine Finset.sum_congr rfl fun i hi => Mc.areaMean_inside hB hG (Finset.mem_range.mp hi) hj (fun pt hpt => hin pt ?_) v
  rw [Grid.ring_eq hG]
  exact Set.mem_biUnion (Finset.mem_coe.mpr hi) hpt

/-- The hypotheses are met: two rings of two sectors inside a box of two pixels. -/
example : BoxOk exBoxTwo ∧ PolarOk exHalf ∧ 2 ≤ exHalf.numr ∧ 2 ≤ exHalf.nump ∧
    (∀ j < exHalf.numr.toNat, ∀ pt ∈ (Grid.lin exHalf).ring j, ∃ a b, InPixel exBoxTwo pt a b) ∧
    ∀ i < exHalf.nump.toNat, ∀ j < exHalf.numr.toNat, ∃ a b, 0 < commonArea exBoxTwo (.lin exHalf) i j a b := by
  have hin : ∀ j < exHalf.numr.toNat, ∀ pt ∈ (Grid.lin exHalf).ring j, ∃ a b, InPixel exBoxTwo pt a b := by
    rintro j hj pt ⟨r, t, hr, -, rfl⟩
    have hj' : j < 2 := by simpa [exHalf] using hj
    rw [(exHalf_edges 0 _).1, (exHalf_edges 0 _).1] at hr
    have h0 : 0 ≤ r := le_trans (by positivity) hr.1
    have h1 : r ≤ 1 := by
      refine hr.2.trans ?_
      have : ((j+1:ℕ):ℝ) ≤ 2 := by exact_mod_cast hj'
      linarith
    simp only [Grid.args, exHalf, List.getD_cons_zero, List.getD_cons_succ, zero_add]
    by_cases hc : 0 ≤ Real.cos t
    · exact ⟨1, 0, (exBoxTwo_pixel h0 h1).1 hc⟩
    · rcases h0.eq_or_lt with rfl | h0'
      · exact ⟨1, 0, by simpa using (exBoxTwo_pixel (t := 0) le_rfl h1).1 (by simp)⟩
      · exact ⟨0, 0, (exBoxTwo_pixel h0 h1).2 h0' (not_le.mp hc)⟩
  refine ⟨exBoxTwo_ok, exHalf_ok.1, exHalf_ok.2.1, exHalf_ok.2.2, hin, fun i hi j hj => ?_⟩
  by_contra hcon
  push Not at hcon
  have hz : (volume ((Grid.lin exHalf).pixel i j)).toReal = 0 := by
    rw [Mc.volume_box exBoxTwo_ok ((Grid.lin exHalf).measurableSet_pixel i j)
      (Mc.volume_pixel exHalf_ok (G := .lin exHalf) hi hj).2 (fun pt hpt => hin j hj pt (by
        rw [Grid.ring_eq exHalf_ok]
        exact Set.mem_biUnion (Finset.mem_coe.mpr (Finset.mem_range.mpr hi)) hpt))]
    exact Finset.sum_eq_zero fun a _ => Finset.sum_eq_zero fun b _ => le_antisymm (hcon a b) ENNReal.toReal_nonneg
  obtain ⟨h0, ht⟩ := Mc.volume_pixel exHalf_ok (G := .lin exHalf) hi hj
  exact (ENNReal.toReal_pos h0 ht).ne' hz

end Magpie.Props
