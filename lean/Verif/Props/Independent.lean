import Verif.Proof.Independent
import Verif.Props.Randoms
import Verif.Props.Subsample
import Verif.Props.HealpixSky
import Verif.Props.Draws
import Mathlib.MeasureTheory.Constructions.BorelSpace.Order
import Mathlib.MeasureTheory.Function.SpecialFunctions.Basic
import Mathlib.MeasureTheory.Function.SpecialFunctions.Inner

/-!
# C116: the random points of one call are independent of one another
-/

set_option linter.unusedSimpArgs false
set_option linter.unusedVariables false
set_option linter.unusedSectionVars false

namespace Magpie.Props
open Magpie Magpie.OneD Magpie.Randoms Magpie.Spec Magpie.Draws MeasureTheory
open ProbabilityTheory hiding uniformOn

theorem unif_measure_compl {F : ℝ} (h0 : 0 ≤ F) (h1 : F ≤ 1) :
    unif {u | ¬ u < F} = ENNReal.ofReal (1 - F) := by
  have : {u : ℝ | ¬ u < F} = {u | u < F}ᶜ := rfl
  rw [this, prob_compl_eq_one_sub (s := {u : ℝ | u < F}) measurableSet_Iio, unif_cdf_lt h0 h1 fun _ _ _ => Iff.rfl, ← ENNReal.ofReal_one,
    ENNReal.ofReal_sub _ h0]

theorem stochInt_law (w : ℝ) (m : ℤ) : NullMeasurableSet {u | stochInt u w = m} unif ∧
    unif {u | stochInt u w = m} = ENNReal.ofReal (max 0 (1 - |w - m|)) := by
  have hf := Int.floor_le w
  have hf' := Int.lt_floor_add_one w
  have hc := Int.le_ceil w
  have hc' := Int.ceil_lt_add_one w
  by_cases hw : (⌈w⌉ : ℤ) = ⌊w⌋
  · have hwf : (⌊w⌋ : ℝ) = w := le_antisymm hf (by rw [← hw]; exact hc)
    have hs : ∀ u, stochInt u w = w := fun u => by unfold stochInt; rw [hw, hwf]; simp
    simp only [hs]
    by_cases hm : w = m
    · simp [hm]
    · simp only [hm, Set.setOf_false, measure_empty]
      refine ⟨nullMeasurableSet_empty, ?_⟩
      rw [max_eq_left, ENNReal.ofReal_zero]
      have : (1:ℝ) ≤ |((⌊w⌋ - m : ℤ) : ℝ)| := by
        rw [← Int.cast_abs]
        have : ⌊w⌋ ≠ m := fun h => hm (by rw [← h, hwf])
        exact_mod_cast Int.one_le_abs (sub_ne_zero.mpr this)
      push_cast at this
      rw [hwf] at this
      linarith
  · have hlt : ⌈w⌉ = ⌊w⌋ + 1 := by
      have h1 : (⌈w⌉ : ℝ) < ((⌊w⌋ + 2 : ℤ) : ℝ) := by push_cast; linarith
      have h2 : (⌊w⌋ : ℝ) ≤ (⌈w⌉ : ℝ) := by linarith
      have h1' : ⌈w⌉ < ⌊w⌋ + 2 := by exact_mod_cast h1
      have h2' : ⌊w⌋ ≤ ⌈w⌉ := by exact_mod_cast h2
      omega
    have hcw : (⌈w⌉ : ℝ) = ⌊w⌋ + 1 := by rw [hlt]; push_cast; ring
    have hwne : (⌊w⌋ : ℝ) < w := by
      rcases hf.lt_or_eq with h | h
      · exact h
      · exact absurd (by rw [← h]; simp) hw
    by_cases hm : m = ⌊w⌋
    · have e : {u | stochInt u w = m} = {u | u < (⌈w⌉:ℝ) - w} := by
        ext u
        simp only [stochInt, Set.mem_setOf_eq, hm]
        split_ifs with h
        · simpa using h
        · simp only [h, iff_false]
          rw [hcw]; linarith
      rw [e, unif_cdf_lt (F := (⌈w⌉:ℝ) - w) (by linarith) (by linarith) fun _ _ _ => Iff.rfl, hm, abs_of_nonneg (by linarith),
        max_eq_right (by linarith), hcw]
      exact ⟨measurableSet_Iio.nullMeasurableSet, by congr 1; ring⟩
    · by_cases hm' : m = ⌈w⌉
      · have e : {u | stochInt u w = m} = {u | ¬ u < (⌈w⌉:ℝ) - w} := by
          ext u
          simp only [stochInt, Set.mem_setOf_eq, hm']
          split_ifs with h
          · simp only [h, not_true_eq_false, iff_false]
            rw [hcw]; linarith
          · simp [h]
        rw [e, unif_measure_compl (by linarith) (by linarith), hm', abs_of_nonpos (by linarith),
          max_eq_right (by linarith), hcw]
        exact ⟨measurableSet_Iio.compl.nullMeasurableSet, by congr 1; ring⟩
      · have e : {u | stochInt u w = m} = ∅ := by
          ext u
          simp only [stochInt, Set.mem_setOf_eq, Set.mem_empty_iff_false, iff_false]
          split_ifs with h
          · exact fun h => hm (by exact_mod_cast h.symm)
          · exact fun h => hm' (by exact_mod_cast h.symm)
        rw [e, measure_empty, max_eq_left, ENNReal.ofReal_zero]
        · exact ⟨nullMeasurableSet_empty, rfl⟩
        · rcases lt_or_gt_of_ne hm with h | h
          · have : (m:ℝ) ≤ ⌊w⌋ - 1 := by exact_mod_cast (by omega : m ≤ ⌊w⌋ - 1)
            rw [abs_of_nonneg (by linarith)]; linarith
          · have : (⌊w⌋:ℝ) + 2 ≤ m := by exact_mod_cast (by omega : ⌊w⌋ + 2 ≤ m)
            rw [abs_of_nonpos (by linarith)]; linarith

theorem stochBin_law (w : ℝ) (hw : 0 ≤ w) (b : Bool) :
    NullMeasurableSet {u | stochBin u w = if b then 1 else 0} unif ∧
    unif {u | stochBin u w = if b then 1 else 0} = ENNReal.ofReal (if b then min w 1 else 1 - min w 1) := by
  rcases lt_or_ge w 1 with h | h
  · have e : ∀ u, stochBin u w = stochInt u w := by
      intro u
      unfold stochBin
      simp only
      rw [if_neg]
      unfold stochInt
      have h1 : ⌊w⌋ ≤ ⌈w⌉ := Int.floor_le_ceil w
      have h2 : ⌈w⌉ ≤ 1 := Int.ceil_le.mpr (by simpa using h.le)
      have h3 : (⌈w⌉:ℝ) ≤ 1 := by exact_mod_cast h2
      have h4 : (⌊w⌋:ℝ) ≤ 1 := by exact_mod_cast h1.trans h2
      split_ifs <;> linarith
    simp only [e]
    cases b with
    | true =>
      have := stochInt_law w 1
      simp only [Int.cast_one] at this
      simp only [if_true]
      rw [min_eq_left h.le]
      rw [abs_of_nonpos (by linarith), max_eq_right (by linarith), show 1 - -(w - 1) = w by ring] at this
      exact this
    | false =>
      have := stochInt_law w 0
      simp only [Int.cast_zero, sub_zero] at this
      simp only [Bool.false_eq_true, if_false]
      rw [min_eq_left h.le]
      rw [abs_of_nonneg hw, max_eq_right (by linarith)] at this
      exact this
  · have e : ∀ u, stochBin u w = 1 := by
      intro u
      unfold stochBin
      simp only
      have h1 : 1 ≤ ⌊w⌋ := Int.le_floor.mpr (by simpa using h)
      have h2 : 1 ≤ ⌈w⌉ := h1.trans (Int.floor_le_ceil w)
      have h3 : (1:ℝ) ≤ ⌊w⌋ := by exact_mod_cast h1
      have h4 : (1:ℝ) ≤ ⌈w⌉ := by exact_mod_cast h2
      unfold stochInt
      split_ifs <;> linarith
    simp only [e, min_eq_right h]
    cases b <;> simp

theorem pyMap_ofFn {α β : Type} {f : α → Py β} {m : ℕ} {u : Fin m → α} {d : Fin m → β} :
    pyMap f (List.ofFn u) = .ok (List.ofFn d) ↔ ∀ i, f (u i) = .ok (d i) := by
  induction m with
  | zero => simp [pyMap]
  | succ m ih =>
    rw [List.ofFn_succ, List.ofFn_succ, Fin.forall_fin_succ, ← ih]
    simp only [pyMap, bind, Except.bind, pure, Except.pure]
    cases h0 : f (u 0) with
    | error e => simp
    | ok b =>
      cases h1 : pyMap f (List.ofFn fun i => u i.succ) with
      | error e => simp
      | ok r => simp

section
variable {Ω : Type} [MeasurableSpace Ω] {P : Measure Ω} {U : ℕ → Ω → ℝ} (hU : Stream P U)
include hU

/-- C116: the points of a call of `randoms_polar` are independent, each uniform in area: the probability that
`r i ≤ ρ i` and `phi i ≤ ψ i` for all points `i` is the product of the fractions of the area. -/
theorem C116_polar (r0 r1 p0 p1 : ℝ) (h0 : 0 ≤ r0) (hr : r0 < r1) (hp : p0 < p1) (k n : ℕ) (ρ ψ : Fin n → ℝ)
    (hρ : ∀ i, r0 ≤ ρ i ∧ ρ i ≤ r1) (hψ : ∀ i, p0 ≤ ψ i ∧ ψ i ≤ p1) :
    P {ω | ∃ r phi : Fin n → ℝ, randomsPolar (next U k n ω) (next U (k + n) n ω) r0 r1 p0 p1
        = (List.ofFn fun i => some (r i), List.ofFn phi) ∧ ∀ i, r i ≤ ρ i ∧ phi i ≤ ψ i}
      = ∏ i, ENNReal.ofReal (sectorArea r0 (ρ i) p0 (ψ i)/sectorArea r0 r1 p0 p1) := by
  have hS := all_prob (measurable_pairs hU k n) (map_pairs hU k n) (fun i => {x | ∃ r phi,
    randomsPolar [x.1] [x.2] r0 r1 p0 p1 = ([some r], [phi]) ∧ r ≤ ρ i ∧ phi ≤ ψ i}) ?_
  · rw [← Finset.prod_congr rfl fun i _ => C56_law r0 r1 p0 p1 h0 hr hp (ρ i) (ψ i) (hρ i).1 (hρ i).2 (hψ i).1
      (hψ i).2, ← hS]
    congr 1
    ext ω
    simp only [Set.mem_setOf_eq, randomsPolar, next_eq, List.map_ofFn, List.map_cons, List.map_nil, Prod.mk.injEq,
      List.ofFn_inj, List.cons.injEq, and_true, funext_iff, Function.comp_apply, pairs, vec]
    constructor
    · rintro ⟨r, phi, ⟨h1, h2⟩, h⟩ i
      exact ⟨r i, phi i, ⟨h1 i, h2 i⟩, h i⟩
    · intro h
      choose r phi h1 h2 using h
      exact ⟨r, phi, ⟨fun i => (h1 i).1, fun i => (h1 i).2⟩, h2⟩
  · intro i
    refine MeasurableSet.nullMeasurableSet ?_
    have : {x : ℝ × ℝ | ∃ r phi, randomsPolar [x.1] [x.2] r0 r1 p0 p1 = ([some r], [phi]) ∧ r ≤ ρ i ∧ phi ≤ ψ i}
        = {x | 0 ≤ (r1^2 - r0^2)*x.1 + r0^2} ∩ ({x | √((r1^2 - r0^2)*x.1 + r0^2) ≤ ρ i} ∩
          {x | (p1 - p0)*x.2 + p0 ≤ ψ i}) := by
      ext x
      simp only [randomsPolar, npSqrt, List.map_cons, List.map_nil, Prod.mk.injEq, List.cons.injEq, and_true,
        Set.mem_setOf_eq, Set.mem_inter_iff]
      by_cases h : 0 ≤ (r1^2 - r0^2)*x.1 + r0^2 <;> simp [h]
    rw [this]
    refine .inter (measurableSet_le ?_ ?_) (.inter (measurableSet_le ?_ ?_) (measurableSet_le ?_ ?_)) <;> fun_prop

/-- C116: the points of a call of `randoms_usphere` are independent, each uniform in solid angle. -/
theorem C116_usphere (p0 p1 t0 t1 : ℝ) (hp : p0 < p1) (h0 : 0 ≤ t0) (ht : t0 < t1) (h1 : t1 ≤ Real.pi) (k n : ℕ)
    (ψ t : Fin n → ℝ) (hψ : ∀ i, p0 ≤ ψ i ∧ ψ i ≤ p1) (hT : ∀ i, t0 ≤ t i ∧ t i ≤ t1) :
    P {ω | ∃ phi theta : Fin n → ℝ, randomsUsphere (next U k n ω) (next U (k + n) n ω) p0 p1 t0 t1
        = (List.ofFn phi, List.ofFn fun i => some (theta i)) ∧ ∀ i, phi i ≤ ψ i ∧ theta i ≤ t i}
      = ∏ i, ENNReal.ofReal (solidAngle p0 (ψ i) t0 (t i)/solidAngle p0 p1 t0 t1) := by
  have hS := all_prob (measurable_pairs hU k n) (map_pairs hU k n) (fun i => {x | ∃ phi theta,
    randomsUsphere [x.1] [x.2] p0 p1 t0 t1 = ([phi], [some theta]) ∧ phi ≤ ψ i ∧ theta ≤ t i}) ?_
  · rw [← Finset.prod_congr rfl fun i _ => C57_law p0 p1 t0 t1 hp h0 ht h1 (ψ i) (t i) (hψ i).1 (hψ i).2 (hT i).1
      (hT i).2, ← hS]
    congr 1
    ext ω
    simp only [Set.mem_setOf_eq, randomsUsphere, next_eq, List.map_ofFn, List.map_cons, List.map_nil, Prod.mk.injEq,
      List.ofFn_inj, List.cons.injEq, and_true, funext_iff, Function.comp_apply, pairs, vec]
    constructor
    · rintro ⟨phi, th, ⟨h1, h2⟩, h⟩ i
      exact ⟨phi i, th i, ⟨h1 i, h2 i⟩, h i⟩
    · intro h
      choose phi th h1 h2 using h
      exact ⟨phi, th, ⟨fun i => (h1 i).1, fun i => (h1 i).2⟩, h2⟩
  · intro i
    refine MeasurableSet.nullMeasurableSet ?_
    have : {x : ℝ × ℝ | ∃ phi theta, randomsUsphere [x.1] [x.2] p0 p1 t0 t1 = ([phi], [some theta]) ∧
          phi ≤ ψ i ∧ theta ≤ t i}
        = {x | -1 ≤ Real.cos t0 - (Real.cos t0 - Real.cos t1)*x.2} ∩
          ({x | Real.cos t0 - (Real.cos t0 - Real.cos t1)*x.2 ≤ 1} ∩
          ({x | p0 + (p1 - p0)*x.1 ≤ ψ i} ∩
          {x | Real.arccos (Real.cos t0 - (Real.cos t0 - Real.cos t1)*x.2) ≤ t i})) := by
      ext x
      simp only [randomsUsphere, Healpix.npArccos, List.map_cons, List.map_nil, Prod.mk.injEq, List.cons.injEq, and_true,
        Set.mem_setOf_eq, Set.mem_inter_iff]
      by_cases h : -1 ≤ Real.cos t0 - (Real.cos t0 - Real.cos t1)*x.2 ∧
        Real.cos t0 - (Real.cos t0 - Real.cos t1)*x.2 ≤ 1
      · simp only [h, and_self, if_true, true_and, Option.some.injEq]
        constructor
        · rintro ⟨_, _, ⟨rfl, rfl⟩, h⟩; exact h
        · intro h; exact ⟨_, _, ⟨rfl, rfl⟩, h⟩
      · simp only [if_neg h, reduceCtorEq, and_false, false_and, exists_false, false_iff]
        tauto
    rw [this]
    have hm : Measurable Real.arccos := Real.continuous_arccos.measurable
    refine .inter (measurableSet_le ?_ ?_) (.inter (measurableSet_le ?_ ?_) (.inter (measurableSet_le ?_ ?_)
      (measurableSet_le (hm.comp ?_) ?_))) <;> fun_prop

/-- C116: the points of a call of `randoms_sphere` are independent, each uniform in volume. -/
theorem C116_sphere (r0 r1 p0 p1 t0 t1 : ℝ) (hr0 : 0 ≤ r0) (hr : r0 < r1) (hp : p0 < p1) (h0 : 0 ≤ t0)
    (ht : t0 < t1) (h1 : t1 ≤ Real.pi) (k n : ℕ) (ρ ψ t : Fin n → ℝ) (hρ : ∀ i, r0 ≤ ρ i ∧ ρ i ≤ r1)
    (hψ : ∀ i, p0 ≤ ψ i ∧ ψ i ≤ p1) (hT : ∀ i, t0 ≤ t i ∧ t i ≤ t1) :
    P {ω | ∃ r phi theta : Fin n → ℝ,
        randomsSphere (next U k n ω) (next U (k + n) n ω) (next U (k + n + n) n ω) r0 r1 p0 p1 t0 t1
          = (List.ofFn fun i => some (r i), List.ofFn phi, List.ofFn fun i => some (theta i)) ∧
        ∀ i, r i ≤ ρ i ∧ phi i ≤ ψ i ∧ theta i ≤ t i}
      = ∏ i, ENNReal.ofReal (shellVolume r0 (ρ i) p0 (ψ i) t0 (t i)/shellVolume r0 r1 p0 p1 t0 t1) := by
  have hS := all_prob (measurable_triples hU k n) (map_triples hU k n) (fun i => {x | ∃ r phi theta,
    randomsSphere [x.1] [x.2.1] [x.2.2] r0 r1 p0 p1 t0 t1 = ([some r], [phi], [some theta]) ∧
      r ≤ ρ i ∧ phi ≤ ψ i ∧ theta ≤ t i}) ?_
  · rw [← Finset.prod_congr rfl fun i _ => C58_law r0 r1 p0 p1 t0 t1 hr0 hr hp h0 ht h1 (ρ i) (ψ i) (t i) (hρ i).1
      (hρ i).2 (hψ i).1 (hψ i).2 (hT i).1 (hT i).2, ← hS]
    congr 1
    ext ω
    simp only [Set.mem_setOf_eq, randomsSphere, randomsSphereR, randomsUsphere, next_eq, List.map_ofFn,
      List.map_cons, List.map_nil, Prod.mk.injEq, List.ofFn_inj, List.cons.injEq, and_true, funext_iff,
      Function.comp_apply, triples, vec]
    constructor
    · rintro ⟨r, phi, th, ⟨h1, h2, h3⟩, h⟩ i
      exact ⟨r i, phi i, th i, ⟨h1 i, h2 i, h3 i⟩, h i⟩
    · intro h
      choose r phi th h1 h2 using h
      exact ⟨r, phi, th, ⟨fun i => (h1 i).1, fun i => (h1 i).2.1, fun i => (h1 i).2.2⟩, h2⟩
  · intro i
    refine MeasurableSet.nullMeasurableSet ?_
    have : {x : ℝ × ℝ × ℝ | ∃ r phi theta, randomsSphere [x.1] [x.2.1] [x.2.2] r0 r1 p0 p1 t0 t1
          = ([some r], [phi], [some theta]) ∧ r ≤ ρ i ∧ phi ≤ ψ i ∧ theta ≤ t i}
        = {x | 0 ≤ (r1^3 - r0^3)*x.1 + r0^3} ∩ ({x | -1 ≤ Real.cos t0 - (Real.cos t0 - Real.cos t1)*x.2.2} ∩
          ({x | Real.cos t0 - (Real.cos t0 - Real.cos t1)*x.2.2 ≤ 1} ∩
          ({x | ((r1^3 - r0^3)*x.1 + r0^3) ^ ((1:ℝ)/3) ≤ ρ i} ∩ ({x | p0 + (p1 - p0)*x.2.1 ≤ ψ i} ∩
          {x | Real.arccos (Real.cos t0 - (Real.cos t0 - Real.cos t1)*x.2.2) ≤ t i})))) := by
      ext x
      simp only [randomsSphere, randomsSphereR, randomsUsphere, npCbrt, Healpix.npArccos, List.map_cons, List.map_nil,
        Prod.mk.injEq, List.cons.injEq, and_true, Set.mem_setOf_eq, Set.mem_inter_iff]
      by_cases h : -1 ≤ Real.cos t0 - (Real.cos t0 - Real.cos t1)*x.2.2 ∧
        Real.cos t0 - (Real.cos t0 - Real.cos t1)*x.2.2 ≤ 1
      · by_cases h' : 0 ≤ (r1^3 - r0^3)*x.1 + r0^3
        · simp only [h, h', and_self, if_true, true_and, Option.some.injEq]
          constructor
          · rintro ⟨_, _, _, ⟨rfl, rfl, rfl⟩, h⟩; exact h
          · intro h; exact ⟨_, _, _, ⟨rfl, rfl, rfl⟩, h⟩
        · simp only [h', if_false, reduceCtorEq, false_and, exists_false]
      · simp only [if_neg h, reduceCtorEq, and_false, false_and, exists_false, false_iff]
        tauto
    rw [this]
    have hm : Measurable Real.arccos := Real.continuous_arccos.measurable
    refine .inter (measurableSet_le ?_ ?_) (.inter (measurableSet_le ?_ ?_) (.inter (measurableSet_le ?_ ?_)
      (.inter (measurableSet_le ?_ ?_) (.inter (measurableSet_le ?_ ?_) (measurableSet_le (hm.comp ?_) ?_)))))
      <;> fun_prop

/-- C116: the points of a call of `randoms_healpix_pixel` are independent, each uniform in solid angle on the sky
region of the pixel. -/
theorem C116_healpix (N p : ℤ) (hN : 1 ≤ N) (hp : ValidPix N p) (c : ℝ × ℝ) (hc : Healpix.pix2xy p N = .ok c)
    (k n : ℕ) (A : Fin n → Set (ℝ × ℝ)) (hA : ∀ i, MeasurableSet (A i)) :
    P {ω | ∃ phi theta : Fin n → ℝ, randomsHealpixPixel (next U k n ω) (next U (k + n) n ω) p N
        = .ok (List.ofFn fun i => some (phi i), List.ofFn fun i => some (theta i)) ∧
        ∀ i, (phi i, Real.cos (theta i)) ∈ A i}
      = ∏ i, uniformOn (SkyPixel N c) (A i) := by
  obtain ⟨c', F, hc', hF, hlaw, hvol⟩ := C89_uniform N p hN hp
  obtain rfl : c = c' := by rw [hc] at hc'; exact Except.ok.inj hc'
  have hnz : Measure.map (fun r => ((F r).1, Real.cos (F r).2)) unif2 ≠ 0 := by
    rw [hlaw]
    intro h
    have := congrArg (fun m : Measure (ℝ × ℝ) => m Set.univ) h
    have hpos : 0 < pixArea N := by
      rw [← (C11_pixel_area N hN).1]
      have := halfDiag_pos hN
      positivity
    simp only [uniformOn, Measure.smul_apply, Measure.restrict_apply_univ, smul_eq_mul, hvol, Measure.coe_zero,
      Pi.zero_apply] at this
    rw [ENNReal.inv_mul_cancel (by simpa using hpos) ENNReal.ofReal_ne_top] at this
    exact one_ne_zero this
  have hae : AEMeasurable (fun r => ((F r).1, Real.cos (F r).2)) unif2 := by
    by_contra h
    exact hnz (Measure.map_of_not_aemeasurable h)
  have hS := all_prob (measurable_pairs hU k n) (map_pairs hU k n)
    (fun i => (fun r => ((F r).1, Real.cos (F r).2)) ⁻¹' A i) fun i => hae.nullMeasurableSet_preimage (hA i)
  rw [← hlaw]
  rw [Finset.prod_congr rfl fun i _ => Measure.map_apply_of_aemeasurable hae (hA i), ← hS]
  apply measure_congr
  filter_upwards [unit_ae hU] with ω hω
  have := hF (List.ofFn (pairs U k n ω)) (by
    intro r hr
    rw [List.mem_ofFn] at hr
    obtain ⟨i, rfl⟩ := hr
    exact ⟨hω _, hω _⟩)
  simp only [List.map_ofFn] at this
  apply propext
  change (∃ phi theta : Fin n → ℝ, _) ↔ ∀ i, _
  have e1 : next U k n ω = List.ofFn (Prod.fst ∘ pairs U k n ω) := next_eq k n ω
  have e2 : next U (k + n) n ω = List.ofFn (Prod.snd ∘ pairs U k n ω) := next_eq (k + n) n ω
  rw [e1, e2, this]
  simp only [Except.ok.injEq, Prod.mk.injEq, List.ofFn_inj, funext_iff, Function.comp_apply, Option.some.injEq,
    Set.mem_preimage]
  constructor
  · rintro ⟨phi, th, ⟨h1, h2⟩, h⟩ i
    rw [h1 i, h2 i]; exact h i
  · intro h
    exact ⟨fun i => (F (pairs U k n ω i)).1, fun i => (F (pairs U k n ω i)).2, ⟨fun _ => rfl, fun _ => rfl⟩, h⟩

/-- C116: the values of a call of `randoms_cdf` are independent, each with the tabulated CDF. -/
theorem C116_cdf (x cdf : List ℝ) (n : ℕ) (hc : cdf.length = n + 1) (hx : x.length = n + 1)
    (h0 : cdf.getD 0 0 = 0) (h1 : cdf.getD n 0 = 1)
    (hmono : ∀ i j, i ≤ j → j ≤ n → cdf.getD i 0 ≤ cdf.getD j 0)
    (hinc : ∀ i j, i < j → j ≤ n → x.getD i 0 < x.getD j 0) (k m : ℕ) (b : Fin m → ℕ) (hb : ∀ i, b i < n)
    (y : Fin m → ℝ) (hy : ∀ i, x.getD (b i) 0 ≤ y i ∧ y i ≤ x.getD (b i + 1) 0) :
    P {ω | ∃ d : Fin m → ℝ, randomsCdfLinear x cdf (next U k m ω) = .ok (List.ofFn d) ∧ ∀ i, d i ≤ y i}
      = ∏ i, ENNReal.ofReal (cdf.getD (b i) 0 + (cdf.getD (b i + 1) 0 - cdf.getD (b i) 0)
          *((y i - x.getD (b i) 0)/(x.getD (b i + 1) 0 - x.getD (b i) 0))) := by
  have hS := all_prob (measurable_vec hU k m) (map_vec hU k m)
    (fun i => {u | ∃ d, randomsCdfLinear x cdf [u] = .ok [d] ∧ d ≤ y i}) fun i =>
    let h := cdf_draw x cdf n hc hx h0 h1 hmono hinc (b i) (hb i) (y i) (hy i).1 (hy i).2
    sandwich_null h.2.1 h.2.2
  rw [← Finset.prod_congr rfl fun i _ => C82_law x cdf n hc hx h0 h1 hmono hinc (b i) (hb i) (y i) (hy i).1
    (hy i).2, ← hS]
  congr 1
  ext ω
  have hassert := cdfAssert_ok cdf n hc h0 h1
  have h1' : ∀ (u d : ℝ), pyMap (interpLinear cdf x) [u] = .ok [d] ↔ interpLinear cdf x u = .ok d := by
    intro u d
    have := pyMap_ofFn (f := interpLinear cdf x) (m := 1) (u := fun _ => u) (d := fun _ => d)
    simpa using this
  simp only [Set.mem_setOf_eq, randomsCdfLinear, next_eq, hassert, bind, Except.bind, pyMap_ofFn, h1']
  constructor
  · rintro ⟨d, h1, h2⟩ i
    exact ⟨d i, h1 i, h2 i⟩
  · intro h
    choose d h1 h2 using h
    exact ⟨d, h1, h2⟩

/-- C116: the values of a call of `randoms_pdf` are independent, each with the tabulated PDF. -/
theorem C116_pdf (xmid pdf : List ℝ) (n : ℕ) (hn : 2 ≤ n) (hx : xmid.length = n)
    (hp : pdf.length = n) (x0 dx : ℝ) (hdx : 0 < dx) (huni : ∀ k, k < n → xmid.getD k 0 = x0 + k*dx)
    (hpos : ∀ p ∈ pdf, 0 ≤ p) (hsum : 0 < ∑ i ∈ Finset.range n, pdf.getD i 0)
    (k m : ℕ) (b : Fin m → ℕ) (hb : ∀ i, b i < n) (y : Fin m → ℝ)
    (hy : ∀ i, x0 - dx/2 + b i*dx ≤ y i ∧ y i ≤ x0 - dx/2 + (b i + 1)*dx) :
    P {ω | ∃ d : Fin m → ℝ, randomsPdfLinear xmid pdf (next U k m ω) = .ok (List.ofFn d) ∧ ∀ i, d i ≤ y i}
      = ∏ i, ENNReal.ofReal (((∑ j ∈ Finset.range (b i), pdf.getD j 0*dx)
          + pdf.getD (b i) 0*(y i - (x0 - dx/2 + b i*dx)))/∑ j ∈ Finset.range n, pdf.getD j 0*dx) := by
  obtain ⟨x, cdf, norm, e, lx, lc, ln, gx, gn, c0, c1, cinc, cmono, cass⟩ :=
    C60_cdf xmid pdf n hn hx hp x0 dx hdx huni hpos hsum
  have hmap : (cdf.map some).mapM id = some cdf := by
    have : ∀ l : List ℝ, (l.map some).mapM id = some l := by
      intro l
      induction l with
      | nil => rfl
      | cons a l ih => simp [List.mapM_cons, ih]
    exact this cdf
  have hrun : ∀ u, randomsPdfLinear xmid pdf u = randomsCdfLinear x cdf u := by
    intro u
    unfold randomsPdfLinear
    rw [e]
    simp only [bind, Except.bind, cass, hmap]
  have hinc : ∀ i j, i < j → j ≤ n → x.getD i 0 < x.getD j 0 := fun i j hij hj => by
    rw [gx i (by omega), gx j hj]
    have : (i:ℝ) < j := by exact_mod_cast hij
    nlinarith
  have hy' : ∀ i, x.getD (b i) 0 ≤ y i ∧ y i ≤ x.getD (b i + 1) 0 := by
    intro i
    have := hb i
    rw [gx (b i) (by omega), gx (b i + 1) (by omega)]
    push_cast
    exact hy i
  simp only [hrun]
  rw [C116_cdf hU x cdf n lc lx c0 c1 cmono hinc k m b hb y hy']
  refine Finset.prod_congr rfl fun i _ => ?_
  rw [← C82_law x cdf n lc lx c0 c1 cmono hinc (b i) (hb i) (y i) (hy' i).1 (hy' i).2,
    ← C82_pdf_law xmid pdf n hn hx hp x0 dx hdx huni hpos hsum (b i) (hb i) (y i) (hy i).1 (hy i).2]
  simp only [hrun]

/-- C116: the weights that `stochastic_integer_weights` returns are independent; weight `i` is the integer `m` with
probability `1 - |w i - m|`, and 0 when that is negative. -/
theorem C116_integer (k n : ℕ) (w : Fin n → ℝ) (m : Fin n → ℤ) :
    P {ω | stochIntArr (next U k n ω) (List.ofFn w) = .ok (List.ofFn fun i => (m i : ℝ))}
      = ∏ i, ENNReal.ofReal (max 0 (1 - |w i - m i|)) := by
  have hS := all_prob (measurable_vec hU k n) (map_vec hU k n) (fun i => {u | stochInt u (w i) = m i}) fun i =>
    (stochInt_law (w i) (m i)).1
  rw [← Finset.prod_congr rfl fun i _ => (stochInt_law (w i) (m i)).2, ← hS]
  congr 1
  ext ω
  have h := C64_array (List.ofFn fun i => (vec U k n ω i, w i))
  simp only [List.map_ofFn, Function.comp_def] at h
  simp only [Set.mem_setOf_eq, next_eq]
  rw [h]
  simp only [Except.ok.injEq, List.ofFn_inj, funext_iff]

/-- C116: the weights that `stochastic_binary_weights` returns are independent; weight `i` is 1 with probability
`w i`, or certainly when `w i` is above 1, else 0. -/
theorem C116_binary (k n : ℕ) (w : Fin n → ℝ) (hw : ∀ i, 0 ≤ w i) (b : Fin n → Bool) :
    P {ω | stochBinArr (next U k n ω) (List.ofFn w) = .ok (List.ofFn fun i => if b i then 1 else 0)}
      = ∏ i, ENNReal.ofReal (if b i then min (w i) 1 else 1 - min (w i) 1) := by
  have hS := all_prob (measurable_vec hU k n) (map_vec hU k n)
    (fun i => {u | stochBin u (w i) = if b i then 1 else 0}) fun i => (stochBin_law (w i) (hw i) (b i)).1
  rw [← Finset.prod_congr rfl fun i _ => (stochBin_law (w i) (hw i) (b i)).2, ← hS]
  congr 1
  ext ω
  have h := C65_array (List.ofFn fun i => (vec U k n ω i, w i))
  simp only [List.map_ofFn, Function.comp_def] at h
  simp only [Set.mem_setOf_eq, next_eq]
  rw [h]
  simp only [Except.ok.injEq, List.ofFn_inj, funext_iff]

/-- C116: the numbers that the Monte Carlo remapping of `Box2Ring` uses for a polar pixel, when it starts at position
`a i j` of the stream, are as the theorems on its estimate assume (`Random`). -/
theorem C116_ring_draws (a : ℕ → ℕ → ℕ) (n : ℕ) : ∃ V : Ω → ℕ → ℕ → ℕ → ℝ × ℝ, Mc.Random P V ∧
    ∀ ω i j, Mc.drawsOf (V ω) n i j = (next U (a i j) n ω, next U (a i j + n) n ω) := by
  refine ⟨fun ω i j k => (U (pos 2 (a i j) n k 0) ω, U (pos 2 (a i j) n k 1) ω), ⟨?_, ?_, ?_⟩, ?_⟩
  · intro i j k
    exact (hU.meas _).prodMk (hU.meas _)
  · intro i j k
    exact pair_law hU fun h => absurd (pos_inj (by omega) (by omega) h).2 (by omega)
  · intro i j k l hkl
    apply hU.indep.indepFun_prodMk_prodMk hU.meas <;>
      exact fun h => hkl (pos_inj (by omega) (by omega) h).1
  · intro ω i j
    simp only [Mc.drawsOf, next, Prod.mk.injEq]
    constructor <;>
    · apply List.map_congr_left
      intro k hk
      rw [List.mem_range] at hk
      simp [pos, hk]

/-- C116: the numbers that the Monte Carlo remapping of `Cube2Shell` uses for a pixel of a shell, when it starts at
position `a i j` of the stream, are as the theorems on its estimate assume (`Random`). -/
theorem C116_shell_draws (a : ℕ → ℕ → ℕ) (n : ℕ) : ∃ V : Ω → ℕ → ℕ → ℕ → ℝ × ℝ × ℝ, McCube.Random P V ∧
    ∀ ω i j, McCube.drawsOf (V ω) n i j
      = ⟨next U (a i j) n ω, next U (a i j + n) n ω, next U (a i j + 2*n) n ω⟩ := by
  refine ⟨fun ω i j k => (U (pos 3 (a i j) n k 2) ω, U (pos 3 (a i j) n k 0) ω, U (pos 3 (a i j) n k 1) ω),
    ⟨?_, ?_, ?_⟩, ?_⟩
  · intro i j k
    exact (hU.meas _).prodMk ((hU.meas _).prodMk (hU.meas _))
  · intro i j k
    apply triple_law hU <;> exact fun h => absurd (pos_inj (by omega) (by omega) h).2 (by omega)
  · intro i j k l hkl
    apply triple_indep hU
    rw [Finset.disjoint_left]
    intro q h1 h2
    simp only [Finset.mem_insert, Finset.mem_singleton] at h1 h2
    rcases h1 with rfl | rfl | rfl <;> rcases h2 with h | h | h <;>
      exact hkl (pos_inj (by omega) (by omega) h).1
  · intro ω i j
    simp only [McCube.drawsOf, next, McCube.Draw.mk.injEq]
    refine ⟨?_, ?_, ?_⟩ <;>
    · apply List.map_congr_left
      intro k hk
      rw [List.mem_range] at hk
      simp [pos, hk]

end

/-- All three points of a call of `randoms_polar` fall within half the radius with probability `(1/4)^3`. -/
example : (Measure.infinitePi fun _ : ℕ => unif) {ω | ∃ r phi : Fin 3 → ℝ,
    randomsPolar (next (fun k x => x k) 7 3 ω) (next (fun k x => x k) (7 + 3) 3 ω) 0 1 0 (2*Real.pi)
      = (List.ofFn fun i => some (r i), List.ofFn phi) ∧ ∀ i, r i ≤ 1/2 ∧ phi i ≤ 2*Real.pi}
    = ENNReal.ofReal (1/4)^3 := by
  have hpi := Real.pi_pos
  rw [C116_polar stream_exists 0 1 0 (2*Real.pi) le_rfl one_pos (by positivity) 7 3 (fun _ => 1/2)
    (fun _ => 2*Real.pi) (fun _ => by norm_num) (fun _ => ⟨by positivity, le_rfl⟩), Finset.prod_const,
    sectorArea_eq, sectorArea_eq]
  simp only [Finset.card_univ, Fintype.card_fin]
  congr 2
  have := hpi.ne'
  field_simp
  norm_num

/-- The weights 0.5 and 1.25 become 1 and 2 with probability `1/2*1/4`. -/
example : (Measure.infinitePi fun _ : ℕ => unif)
    {ω | stochIntArr (next (fun k x => x k) 0 2 ω) [1/2, 5/4] = .ok [1, 2]} = ENNReal.ofReal (1/2)*ENNReal.ofReal (1/4) := by
  have := C116_integer stream_exists 0 2 ![1/2, 5/4] ![1, 2]
  simp only [List.ofFn_succ, Fin.prod_univ_two] at this
  norm_num [abs_of_nonpos] at this
  rw [this]

end Magpie.Props
