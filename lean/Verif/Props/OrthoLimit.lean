import Verif.Proof.OrthoLimit
import Verif.Props.Heal2Ortho

/-!
# Property C122: orthographic views converge to means over the pixels of the view
-/

set_option linter.unusedSimpArgs false
set_option linter.unusedVariables false

namespace Magpie.Props
open Real Magpie Magpie.Ortho Magpie.Spec MeasureTheory Filter Topology

/-- There is an `ang2pix` as assumed below, for every `nside`. -/
theorem exists_locates (N : ℤ) (hN : 1 ≤ N) :
    ∃ a : ℤ → ℝ → ℝ → ℕ, Locates a N ∧ ∀ t p, a N t p < 12*N.toNat^2 := by
  classical
  let P : ℝ → ℝ → ℕ → Prop := fun theta phi p => p < 12*N.toNat^2 ∧ ∃ c, Healpix.pix2xy p N = .ok c ∧
    ∃ t : ℤ, (phi + 2*π*t, cos theta) ∈ SkyPixel N c
  have hpos : 0 < 12*N.toNat^2 := by have : 0 < N.toNat := by omega
                                     positivity
  refine ⟨fun _ theta phi => if h : ∃ p, P theta phi p then h.choose else 0, ?_, ?_⟩
  · intro theta phi p c _ _ hp hc ⟨t, ht⟩
    have h : ∃ p, P theta phi p := ⟨p, hp, c, hc, t, ht⟩
    simp only [dif_pos h]
    obtain ⟨hq, d, hd, s, hs⟩ := h.choose_spec
    have hpi := pi_pos
    have hts : s = t := by
      have a1 := hs.1
      have a2 := ht.1
      simp only at a1 a2
      have b1 : (s:ℝ) - t < 1 := by nlinarith
      have b2 : (t:ℝ) - s < 1 := by nlinarith
      have c1 : s - t < 1 := by exact_mod_cast b1
      have c2 : t - s < 1 := by exact_mod_cast b2
      omega
    subst hts
    by_contra hne
    have hne' : ((h.choose : ℕ) : ℤ) ≠ p := by exact_mod_cast hne
    exact Set.disjoint_left.mp (C88_disjoint N _ p hN (valid_of_lt hN hq) (valid_of_lt hN hp) hne' d c hd hc) hs ht
  · intro theta phi
    simp only
    split_ifs with h
    · exact h.choose_spec.1
    · exact hpos

/-- C122, what the mean is taken over: the areas that show the HEALPix pixels add up to the area of the part of the
output pixel that is on the sphere, which is positive if the centre of the output pixel is on the sphere. -/
theorem C122_area (A : BoxArgs) (c : ℝ × ℝ) (N : ℤ) (hN : 1 ≤ N) (hA : Valid A c) (hX : 0 < A.xLength)
    (hY : 0 < A.yLength.getD A.xLength) (i j : ℕ) (hi : i < ny A) (hj : j < nx A) :
    ∑ p ∈ Finset.range (12*N.toNat^2), shownArea A N c i j p = (volume (part A i j)).toReal ∧
      (OnSphere A.radius (point A 1 1 i j) → 0 < (volume (part A i j)).toReal) := by
  have hR := hA.radius
  have hnx : (0:ℝ) < nx A := by exact_mod_cast (by omega : 0 < nx A)
  have hny : (0:ℝ) < ny A := by exact_mod_cast (by omega : 0 < ny A)
  have hpart : part A i j = rect A i j ∩ {x | OnSphere A.radius x} := rfl
  constructor
  · obtain ⟨a, hL, hpix⟩ := exists_locates N hN
    have h1 := tendsto_discSum a hN hL hpix hR c hX hY hi hj
      (fun m k l => ((skyOf A.radius c (point A m m k l)).1, arccos (dz A.radius c (point A m m k l))))
      (fun m _ k l _ _ hon => ⟨(seen_skyOf hR hon).1, arccos_nonneg _, arccos_le_pi _⟩) (fun _ => 1)
    have h2 := Plane.tendsto_area (x0 := edgeAt (-A.xLength/2) (A.xLength/2) (nx A) j) (a := A.xLength/nx A)
      (y0 := edgeAt (-yLen A/2) (yLen A/2) (ny A) i) (b := yLen A/ny A) (by positivity)
      (div_pos hY hny)
      (fun m k l => if OnSphere A.radius (point A m m (i*m + k) (j*m + l)) then 1 else 0)
      (by intro m k l; split_ifs <;> simp) {x | OnSphere A.radius x} ?_
    · rw [← rect_eq hi hj, ← hpart] at h2
      have h3 := tendsto_nhds_unique h1 (h2.congr fun m => by rw [discSum_mul]; rfl)
      rw [← h3]
      unfold viewSum
      simp
    · filter_upwards [near a hN hL hR c] with x hx
      rcases hx with ⟨g1, g2⟩ | ⟨q, hq, hon, hsh, hev⟩
      · filter_upwards [g2] with y hy m k l hk hl e
        rw [← point_eq (by omega : 0 < m)] at e
        rw [e] at hy
        rw [if_neg hy, Set.indicator_of_notMem]
        exact g1
      · filter_upwards [hev] with y hy m k l hk hl e
        rw [← point_eq (by omega : 0 < m)] at e
        rw [e] at hy
        rw [if_pos hy.1, Set.indicator_of_mem]
        exact hon
  · intro hon
    have e1 := point_eq (A := A) (i := i) (j := j) one_pos 0 0
    simp only [mul_one, add_zero, Nat.cast_zero, zero_add, Nat.cast_one, div_one] at e1
    set P := point A 1 1 i j with hP
    have hopen : IsOpen ({x : ℝ × ℝ | (edgeAt (-A.xLength/2) (A.xLength/2) (nx A) j < x.1 ∧
        x.1 < edgeAt (-A.xLength/2) (A.xLength/2) (nx A) j + A.xLength/nx A) ∧
        (edgeAt (-yLen A/2) (yLen A/2) (ny A) i < x.2 ∧ x.2 < edgeAt (-yLen A/2) (yLen A/2) (ny A) i + yLen A/ny A) ∧
        x.1^2 + x.2^2 < A.radius^2}) := by
      refine IsOpen.inter (IsOpen.inter ?_ ?_) (IsOpen.inter (IsOpen.inter ?_ ?_) ?_) <;>
        first
        | exact isOpen_lt continuous_const continuous_fst
        | exact isOpen_lt continuous_fst continuous_const
        | exact isOpen_lt continuous_const continuous_snd
        | exact isOpen_lt continuous_snd continuous_const
        | exact isOpen_lt ((continuous_fst.pow 2).add (continuous_snd.pow 2)) continuous_const
    have hax : 0 < A.xLength/nx A := by positivity
    have hay : 0 < yLen A/ny A := div_pos hY hny
    have hpos := hopen.measure_pos volume ⟨P, by
      simp only [Set.mem_setOf_eq]
      refine ⟨⟨?_, ?_⟩, ⟨?_, ?_⟩, hon⟩ <;> rw [e1] <;> simp only <;> linarith⟩
    have hbox : volume (rect A i j) ≠ ⊤ := by
      rw [rect_eq hi hj]
      unfold Plane.box
      rw [Measure.volume_eq_prod, Measure.prod_prod, Real.volume_Ico, Real.volume_Ico]
      exact ENNReal.mul_ne_top ENNReal.ofReal_ne_top ENNReal.ofReal_ne_top
    refine ENNReal.toReal_pos (lt_of_lt_of_le hpos (measure_mono ?_)).ne' (ne_top_of_le_ne_top hbox
      (measure_mono fun x hx => hx.1))
    rintro x ⟨h1, h2, h3⟩
    refine ⟨?_, h3⟩
    rw [rect_eq hi hj]
    exact ⟨⟨h1.1.le, h1.2⟩, h2.1.le, h2.2⟩

theorem Valid.rebin {A : BoxArgs} {c : ℝ × ℝ} (h : Valid A c) (m : ℕ) : Valid (A.rebin m) c :=
  ⟨h.xGrid, h.yGrid, h.center, h.radius, h.phi, h.theta⟩

theorem cellArea_pos {A : BoxArgs} {c : ℝ × ℝ} (h : Valid A c) (hX : 0 < A.xLength) (hY : 0 < yLen A) {m : ℕ} (hm : 0 < m) :
    0 < cellArea A m := by
  have hx := h.xGrid
  have hy := h.yGrid
  have h1 : 0 < nx A := by unfold nx; omega
  have h2 : 0 < ny A := by unfold ny; omega
  unfold cellArea
  positivity

/-- A limit that holds for every choice of what the runs depend on holds uniformly in the state. -/
theorem uniform_choice {S K : Type} [Inhabited S] (Ok Good : ℕ → K → Prop) (Q : ℕ → S → Prop)
    (hrun : ∀ m ≥ 1, ∀ s, ∃ k, Ok m k ∧ (Good m k → Q m s))
    (hlim : ∀ k : ℕ → K, (∀ m ≥ 1, Ok m (k m)) → ∀ᶠ m in atTop, Good m (k m)) : ∃ M ≥ 1, ∀ m ≥ M, ∀ s, Q m s := by
  have key : ∀ m : ℕ, ∃ k, 1 ≤ m → Ok m k ∧ (Good m k → ∀ s, Q m s) := by
    intro m
    by_cases hm : 1 ≤ m
    · by_cases hall : ∀ s, Q m s
      · obtain ⟨k, h1, -⟩ := hrun m hm default
        exact ⟨k, fun _ => ⟨h1, fun _ => hall⟩⟩
      · push Not at hall
        obtain ⟨s, hs⟩ := hall
        obtain ⟨k, h1, h2⟩ := hrun m hm s
        exact ⟨k, fun _ => ⟨h1, fun hg => absurd (h2 hg) hs⟩⟩
    · obtain ⟨k, -, -⟩ := hrun 1 le_rfl default
      exact ⟨k, fun h => absurd h hm⟩
  choose k hk using key
  obtain ⟨M, hM⟩ := eventually_atTop.mp (hlim k fun m hm => (hk m hm).1)
  exact ⟨max M 1, le_max_right _ _, fun m hm => (hk m (le_of_max_le_right hm)).2 (hM m (le_of_max_le_left hm))⟩

instance : Inhabited Ortho.State := ⟨Ortho.init⟩

/-- The directions read at the dense points are the ones seen there. -/
def SkyOk (A : BoxArgs) (c : ℝ × ℝ) (m : ℕ) (sky : ℕ → ℕ → ℝ × ℝ) : Prop :=
  ∀ k l, k < m*ny A → l < m*nx A → OnSphere A.radius (point A m m k l) →
    SeenAt A.radius c (point A m m k l) (sky k l) ∧ 0 ≤ (sky k l).2 ∧ (sky k l).2 ≤ π

/-- C122 with weights, for `rebin_x = rebin_y = m`: `remap` returns, and as `m` grows the value of every output pixel
with its centre on the sphere converges to the mean of the map over the part of the pixel that is on the sphere, weighted
by the weights of the HEALPix pixels. Missing: other rebin factors (`C77_violated_shape`). -/
theorem C122_weighted_partial (ang2pix : ℤ → ℝ → ℝ → ℕ) (A : BoxArgs) (c : ℝ × ℝ) (N : ℤ) (hA : Valid A c)
    (hX : 0 < A.xLength) (hY : 0 < A.yLength.getD A.xLength) (hN : 0 < N) (hL : Locates ang2pix N)
    (hpix : ∀ t p, ang2pix N t p < 12*N.toNat^2) (f w : List ℝ) (hf : f.length = 12*N.toNat^2)
    (hw : w.length = 12*N.toNat^2) (ε : ℝ) (hε : 0 < ε) :
    ∃ M ≥ 1, ∀ m ≥ M, ∀ s, ∃ out s',
      (do setupMap N; setupBox ang2pix (A.rebin m); remap (f.map some) (some w) : Meth Ortho.State _) s = (.ok out, s') ∧
      out.rows = ny A ∧ out.cols = nx A ∧
      ∀ i j, i < ny A → j < nx A → OnSphere A.radius (point A 1 1 i j) →
        viewSum A N c (fun p => w.getD p 0) i j ≠ 0 → ∃ x : ℝ, out.val i j = some x ∧
        |x - viewSum A N c (fun p => w.getD p 0*f.getD p 0) i j/viewSum A N c (fun p => w.getD p 0) i j| < ε := by
  have hN1 : 1 ≤ N := hN
  refine uniform_choice (S := Ortho.State) (SkyOk A c) (fun m sky =>
    ∀ i ∈ Set.Iio (ny A), ∀ j ∈ Set.Iio (nx A), viewSum A N c (fun p => w.getD p 0) i j ≠ 0 →
      discSum A m (fun k l => w.getD (ang2pix N (sky k l).2 (sky k l).1) 0) i j ≠ 0 ∧
      |discSum A m (fun k l => w.getD (ang2pix N (sky k l).2 (sky k l).1) 0
          *f.getD (ang2pix N (sky k l).2 (sky k l).1) 0) i j/
        discSum A m (fun k l => w.getD (ang2pix N (sky k l).2 (sky k l).1) 0) i j
        - viewSum A N c (fun p => w.getD p 0*f.getD p 0) i j/viewSum A N c (fun p => w.getD p 0) i j| < ε) _ ?_ ?_
  · intro m hm s
    obtain ⟨out, s', sky, e, h1, h2, h3, h4⟩ :=
      C77_weighted_partial ang2pix (A.rebin m) c N m (Valid.rebin hA m) hN hm rfl rfl f w hf hw hpix s
    refine ⟨sky, h3, fun hgood => ⟨out, s', e, h1, h2, fun i j hi hj hon hne => ?_⟩⟩
    obtain ⟨g1, g2⟩ := hgood i hi j hj hne
    exact ⟨_, (h4 i j hi hj hon _ rfl).trans (if_neg g1), g2⟩
  · intro sky hsky
    rw [eventually_all_finite (Set.finite_Iio _)]
    intro i hi
    rw [eventually_all_finite (Set.finite_Iio _)]
    intro j hj
    rw [eventually_imp_distrib_left]
    intro hne
    have t1 := tendsto_discSum ang2pix hN1 hL hpix hA.radius c hX hY hi hj sky hsky (fun p => w.getD p 0*f.getD p 0)
    have t2 := tendsto_discSum ang2pix hN1 hL hpix hA.radius c hX hY hi hj sky hsky (fun p => w.getD p 0)
    have t3 := t1.div t2 hne
    rw [Metric.tendsto_nhds] at t3
    filter_upwards [t3 ε hε, t2.eventually_ne hne, eventually_gt_atTop 0] with m g1 g2 hm
    have hc := cellArea_pos hA hX hY hm
    refine ⟨fun h0 => g2 (by rw [h0, mul_zero]), ?_⟩
    rw [Real.dist_eq] at g1
    simp only [Pi.div_apply] at g1
    rw [mul_div_mul_left _ _ hc.ne'] at g1
    exact g1

/-- C122 without weights, for `rebin_x = rebin_y = m`: `remap` returns `m` times a value that converges to the mean of the
map over the part of the output pixel that is on the sphere. Missing: the factor `m` must not be there
(`C122_violated`). -/
theorem C122_remap_partial (ang2pix : ℤ → ℝ → ℝ → ℕ) (A : BoxArgs) (c : ℝ × ℝ) (N : ℤ) (hA : Valid A c)
    (hX : 0 < A.xLength) (hY : 0 < A.yLength.getD A.xLength) (hN : 0 < N) (hL : Locates ang2pix N)
    (hpix : ∀ t p, ang2pix N t p < 12*N.toNat^2) (f : List ℝ) (hf : f.length = 12*N.toNat^2) (ε : ℝ) (hε : 0 < ε) :
    ∃ M ≥ 1, ∀ m ≥ M, ∀ s, ∃ out s',
      (do setupMap N; setupBox ang2pix (A.rebin m); remap (f.map some) none : Meth Ortho.State _) s = (.ok out, s') ∧
      out.rows = ny A ∧ out.cols = nx A ∧
      ∀ i j, i < ny A → j < nx A → OnSphere A.radius (point A 1 1 i j) → ∃ x : ℝ, out.val i j = some (m*x) ∧
        |x - viewSum A N c (fun p => f.getD p 0) i j/(volume (part A i j)).toReal| < ε := by
  have hN1 : 1 ≤ N := hN
  have harea : ∀ i j, i < ny A → j < nx A → viewSum A N c (fun _ => 1) i j = (volume (part A i j)).toReal := by
    intro i j hi hj
    rw [← (C122_area A c N hN1 hA hX hY i j hi hj).1]
    unfold viewSum
    simp
  refine uniform_choice (S := Ortho.State) (SkyOk A c) (fun m sky =>
    ∀ i ∈ Set.Iio (ny A), ∀ j ∈ Set.Iio (nx A), OnSphere A.radius (point A 1 1 i j) →
      |discSum A m (fun k l => f.getD (ang2pix N (sky k l).2 (sky k l).1) 0) i j/discSum A m (fun _ _ => 1) i j
        - viewSum A N c (fun p => f.getD p 0) i j/(volume (part A i j)).toReal| < ε) _ ?_ ?_
  · intro m hm s
    obtain ⟨out, s', sky, e, h1, h2, h3, h4⟩ :=
      C77_remap_partial ang2pix (A.rebin m) c N m (Valid.rebin hA m) hN hm rfl rfl f hf hpix s
    refine ⟨sky, h3, fun hgood => ⟨out, s', e, h1, h2, fun i j hi hj hon => ?_⟩⟩
    exact ⟨_, (h4 i j hi hj).trans (if_pos hon), hgood i hi j hj hon⟩
  · intro sky hsky
    rw [eventually_all_finite (Set.finite_Iio _)]
    intro i hi
    rw [eventually_all_finite (Set.finite_Iio _)]
    intro j hj
    rw [eventually_imp_distrib_left]
    intro hon
    have hne : (volume (part A i j)).toReal ≠ 0 := ((C122_area A c N hN1 hA hX hY i j hi hj).2 hon).ne'
    have t1 := tendsto_discSum ang2pix hN1 hL hpix hA.radius c hX hY hi hj sky hsky (fun p => f.getD p 0)
    have t2 := tendsto_discSum ang2pix hN1 hL hpix hA.radius c hX hY hi hj sky hsky (fun _ => 1)
    rw [harea i j hi hj] at t2
    have t3 := t1.div t2 hne
    rw [Metric.tendsto_nhds] at t3
    filter_upwards [t3 ε hε, eventually_gt_atTop 0] with m g1 hm
    have hc := cellArea_pos hA hX hY hm
    rw [Real.dist_eq] at g1
    simp only [Pi.div_apply] at g1
    rw [mul_div_mul_left _ _ hc.ne'] at g1
    exact g1

/-- C122 does not hold without weights: the values of a positive map grow beyond all bounds, in every output pixel with
its centre on the sphere, as the rebin factors grow. -/
theorem C122_violated (ang2pix : ℤ → ℝ → ℝ → ℕ) (A : BoxArgs) (c : ℝ × ℝ) (N : ℤ) (hA : Valid A c)
    (hX : 0 < A.xLength) (hY : 0 < A.yLength.getD A.xLength) (hN : 0 < N) (hL : Locates ang2pix N)
    (hpix : ∀ t p, ang2pix N t p < 12*N.toNat^2) (f : List ℝ) (hf : f.length = 12*N.toNat^2) (b : ℝ) (hb : 0 < b)
    (hfb : ∀ x ∈ f, b ≤ x) (K : ℝ) :
    ∃ M, ∀ m ≥ M, ∀ s, ∃ out s',
      (do setupMap N; setupBox ang2pix (A.rebin m); remap (f.map some) none : Meth Ortho.State _) s = (.ok out, s') ∧
      ∀ i j, i < ny A → j < nx A → OnSphere A.radius (point A 1 1 i j) → ∃ y : ℝ, out.val i j = some y ∧ K < y := by
  obtain ⟨M, hM1, hM⟩ := C122_remap_partial ang2pix A c N hA hX hY hN hL hpix f hf (b/2) (by linarith)
  obtain ⟨L, hL'⟩ := exists_nat_gt (K/(b/2))
  refine ⟨max M L, fun m hm s => ?_⟩
  obtain ⟨out, s', e, -, -, h⟩ := hM m (le_of_max_le_left hm) s
  refine ⟨out, s', e, fun i j hi hj hon => ?_⟩
  obtain ⟨x, hx, hd⟩ := h i j hi hj hon
  refine ⟨_, hx, ?_⟩
  obtain ⟨ha, hp⟩ := C122_area A c N hN hA hX hY i j hi hj
  have hpos := hp hon
  have hmean : b ≤ viewSum A N c (fun p => f.getD p 0) i j/(volume (part A i j)).toReal := by
    rw [le_div_iff₀ hpos, ← ha, Finset.mul_sum]
    unfold viewSum
    refine Finset.sum_le_sum fun p hp => mul_le_mul_of_nonneg_right ?_ ENNReal.toReal_nonneg
    have hp' : p < f.length := by rw [hf]; exact Finset.mem_range.mp hp
    simp only [List.getD_eq_getElem?_getD, List.getElem?_eq_getElem hp', Option.getD_some]
    exact hfb _ (List.getElem_mem hp')
  have hx2 : b/2 < x := by have := (abs_lt.mp hd).1; linarith
  have hm2 : (L:ℝ) ≤ m := by exact_mod_cast le_of_max_le_right hm
  have hm1 : (1:ℝ) ≤ m := by exact_mod_cast hM1.trans (le_of_max_le_left hm)
  rw [div_lt_iff₀ (by linarith)] at hL'
  nlinarith

/-- The hypotheses of the theorems are met: a view of which every output pixel has its centre on the sphere, and a map
and weights that are not constant. -/
example : ∃ a : ℤ → ℝ → ℝ → ℕ, Valid exOrtho (1, 1) ∧ 0 < exOrtho.xLength ∧ 0 < exOrtho.yLength.getD exOrtho.xLength ∧
    Locates a 1 ∧ (∀ t p, a 1 t p < 12*(1:ℤ).toNat^2) ∧
    ((List.range 12).map fun (k : ℕ) => (k:ℝ) + 1).length = 12*(1:ℤ).toNat^2 ∧
    (∀ x ∈ ((List.range 12).map fun (k : ℕ) => (k:ℝ) + 1), (1:ℝ) ≤ x) ∧
    (∀ i j, i < ny exOrtho → j < nx exOrtho → OnSphere exOrtho.radius (point exOrtho 1 1 i j)) ∧
    ∀ i j, i < ny exOrtho → j < nx exOrtho →
      viewSum exOrtho 1 (1, 1) (fun p => ((List.range 12).map fun (k : ℕ) => (k:ℝ) + 1).getD p 0) i j ≠ 0 := by
  have hpi := two_le_pi
  obtain ⟨a, h1, h2⟩ := exists_locates 1 le_rfl
  have hV : Valid exOrtho (1, 1) := ⟨by simp [exOrtho], by simp [exOrtho], rfl, by simp [exOrtho],
    ⟨by norm_num, by simp only; linarith⟩, ⟨by norm_num, by simp only; linarith⟩⟩
  have hX : 0 < exOrtho.xLength := by simp [exOrtho]
  have hY : 0 < exOrtho.yLength.getD exOrtho.xLength := by simp [exOrtho]
  have hon : ∀ i j, i < ny exOrtho → j < nx exOrtho → OnSphere exOrtho.radius (point exOrtho 1 1 i j) := by
    intro i j hi hj
    have hn : nx exOrtho = 2 := rfl
    have hn' : ny exOrtho = 3 := rfl
    rw [hn] at hj
    rw [hn'] at hi
    interval_cases i <;> interval_cases j <;>
      simp only [OnSphere, point, hn, hn', midAt, edgeAt] <;> simp [exOrtho] <;> norm_num
  have hge : ∀ x ∈ ((List.range 12).map fun (k : ℕ) => (k:ℝ) + 1), (1:ℝ) ≤ x := by
    intro x hx
    obtain ⟨k, -, rfl⟩ := List.mem_map.mp hx
    have : (0:ℝ) ≤ k := by positivity
    linarith
  have hlen : ((List.range 12).map fun (k : ℕ) => (k:ℝ) + 1).length = 12*(1:ℤ).toNat^2 := by simp
  refine ⟨a, hV, hX, hY, h1, h2, hlen, hge, hon, fun i j hi hj => ?_⟩
  obtain ⟨ha, hp⟩ := C122_area exOrtho (1, 1) 1 le_rfl hV hX hY i j hi hj
  have hpos := hp (hon i j hi hj)
  refine ne_of_gt (lt_of_lt_of_le hpos ?_)
  rw [← ha]
  unfold viewSum
  refine Finset.sum_le_sum fun p hp => le_mul_of_one_le_left ENNReal.toReal_nonneg ?_
  have hp' : p < ((List.range 12).map fun (k : ℕ) => (k:ℝ) + 1).length := by rw [hlen]; exact Finset.mem_range.mp hp
  simp only [List.getD_eq_getElem?_getD, List.getElem?_eq_getElem hp', Option.getD_some]
  exact hge _ (List.getElem_mem hp')

end Magpie.Props
