import Verif.Model.RandomsBasic
import Verif.Spec.Prob
import Mathlib.MeasureTheory.Constructions.Pi
import Mathlib.MeasureTheory.Measure.Lebesgue.Basic
import Mathlib.MeasureTheory.Measure.Haar.OfBasis
import Mathlib.MeasureTheory.Measure.Lebesgue.EqHaar
import Mathlib.GroupTheory.GroupAction.MultipleTransitivity
import Mathlib.Data.Fintype.CardEmbedding
import Mathlib.Data.Fin.Tuple.Sort

/-!
# The order of independent uniform numbers
-/

set_option linter.unusedSimpArgs false
set_option linter.unusedVariables false
set_option linter.unusedSectionVars false

namespace Magpie.Draws
open MeasureTheory Magpie.Spec

/-- The law of `n` independent uniform numbers. -/
noncomputable def cube (n : ℕ) : Measure (Fin n → ℝ) := Measure.pi fun _ => unif

instance (n : ℕ) : IsProbabilityMeasure (cube n) := by unfold cube; infer_instance

theorem cube_ac (n : ℕ) : cube n ≪ (volume : Measure (Fin n → ℝ)) := by
  unfold cube unif
  rw [← Measure.restrict_pi_pi]
  exact Measure.absolutelyContinuous_of_le Measure.restrict_le_self

theorem tie_null {n : ℕ} {i j : Fin n} (h : i ≠ j) : cube n {u | u i = u j} = 0 := by
  apply cube_ac
  have : {u : Fin n → ℝ | u i = u j}
      = (LinearMap.ker ((LinearMap.proj i : (Fin n → ℝ) →ₗ[ℝ] ℝ) - LinearMap.proj j) : Set (Fin n → ℝ)) := by
    ext u
    simp [sub_eq_zero]
  rw [this]
  apply Measure.addHaar_submodule
  intro ht
  have : Pi.single (M := fun _ => ℝ) i 1 ∈ LinearMap.ker ((LinearMap.proj i : (Fin n → ℝ) →ₗ[ℝ] ℝ) - LinearMap.proj j) := by
    rw [ht]; trivial
  simp [h, h.symm, Pi.single_apply] at this

theorem injective_ae (n : ℕ) : ∀ᵐ u ∂cube n, Function.Injective u := by
  have : ∀ᵐ u ∂cube n, ∀ i j : Fin n, i ≠ j → u i ≠ u j := by
    rw [ae_all_iff]; intro i
    rw [ae_all_iff]; intro j
    by_cases h : i = j
    · simp [h]
    · have := tie_null h
      rw [ae_iff]
      simpa [h] using this
  filter_upwards [this] with u hu i j hij
  by_contra h
  exact hu i j h hij

/-- The entries at `e 0, e 1, …` are, in this order, the smallest. -/
def First {n k : ℕ} (e : Fin k ↪ Fin n) : Set (Fin n → ℝ) :=
  {u | (∀ i j, i < j → u (e i) < u (e j)) ∧ ∀ i, ∀ j, j ∉ Set.range e → u (e i) < u j}

theorem measurableSet_first {n k : ℕ} (e : Fin k ↪ Fin n) : MeasurableSet (First e) := by
  have : First e = (⋂ i, ⋂ j, ⋂ (_ : i < j), {u : Fin n → ℝ | u (e i) < u (e j)}) ∩
      ⋂ i, ⋂ j, ⋂ (_ : j ∉ Set.range e), {u : Fin n → ℝ | u (e i) < u j} := by
    ext u
    simp [First, Set.mem_inter_iff, Set.mem_iInter]
  rw [this]
  refine MeasurableSet.inter ?_ ?_
  · exact MeasurableSet.iInter fun i => MeasurableSet.iInter fun j => MeasurableSet.iInter fun _ =>
      measurableSet_lt (measurable_pi_apply _) (measurable_pi_apply _)
  · exact MeasurableSet.iInter fun i => MeasurableSet.iInter fun j => MeasurableSet.iInter fun _ =>
      measurableSet_lt (measurable_pi_apply _) (measurable_pi_apply _)

theorem first_rank {n k : ℕ} {e : Fin k ↪ Fin n} {u : Fin n → ℝ} (h : u ∈ First e) (i : Fin k) :
    (Finset.univ.filter fun j => u j < u (e i)).card = i := by
  have : (Finset.univ.filter fun j => u j < u (e i)) = (Finset.univ.filter fun l => l < i).map e := by
    ext j
    simp only [Finset.mem_filter, Finset.mem_univ, true_and, Finset.mem_map]
    constructor
    · intro hj
      by_cases hr : j ∈ Set.range e
      · obtain ⟨l, rfl⟩ := hr
        refine ⟨l, ?_, rfl⟩
        rcases lt_trichotomy l i with h1 | h1 | h1
        · exact h1
        · subst h1; exact absurd hj (lt_irrefl _)
        · exact absurd (h.1 _ _ h1) (not_lt.mpr hj.le)
      · exact absurd (h.2 i j hr) (not_lt.mpr hj.le)
    · rintro ⟨l, hl, rfl⟩
      exact h.1 _ _ hl
  rw [this, Finset.card_map]
  have : (Finset.univ.filter fun l : Fin k => l < i) = Finset.Iio i := by ext; simp
  rw [this, Fin.card_Iio]

theorem first_unique {n k : ℕ} {e e' : Fin k ↪ Fin n} {u : Fin n → ℝ} (hu : Function.Injective u)
    (h : u ∈ First e) (h' : u ∈ First e') : e = e' := by
  ext1 i
  have key : ∀ a b : Fin n, u a < u b → (Finset.univ.filter fun j => u j < u a).card
      < (Finset.univ.filter fun j => u j < u b).card := by
    intro a b hab
    apply Finset.card_lt_card
    rw [Finset.ssubset_iff_of_subset]
    · exact ⟨a, by simpa using hab, by simp⟩
    · intro j hj
      simp only [Finset.mem_filter, Finset.mem_univ, true_and] at hj ⊢
      exact hj.trans hab
  have r1 := first_rank h i
  have r2 := first_rank h' i
  rcases lt_trichotomy (u (e i)) (u (e' i)) with h1 | h1 | h1
  · have := key _ _ h1; omega
  · exact hu h1
  · have := key _ _ h1; omega

theorem first_perm {n k : ℕ} (e : Fin k ↪ Fin n) (σ : Equiv.Perm (Fin n)) :
    cube n (First (e.trans σ.toEmbedding)) = cube n (First e) := by
  have hm : MeasurePreserving (MeasurableEquiv.piCongrLeft (fun _ : Fin n => ℝ) σ) (cube n) (cube n) :=
    measurePreserving_piCongrLeft (fun _ => unif) σ
  rw [← hm.measure_preimage_equiv]
  congr 1
  ext u
  have hv : ∀ i, (MeasurableEquiv.piCongrLeft (fun _ : Fin n => ℝ) σ) u (σ i) = u i := fun i =>
    Equiv.piCongrLeft_apply_apply (fun _ : Fin n => ℝ) σ u i
  simp only [First, Set.mem_preimage, Set.mem_setOf_eq, Function.Embedding.trans_apply,
    Equiv.coe_toEmbedding, hv]
  refine and_congr Iff.rfl (forall_congr' fun i => ?_)
  constructor
  · intro h j hj
    have := h (σ j) (by
      rintro ⟨l, hl⟩
      exact hj ⟨l, σ.injective (by simpa using hl)⟩)
    rwa [hv] at this
  · intro h j hj
    obtain ⟨j, rfl⟩ := σ.surjective j
    rw [hv]
    refine h j ?_
    rintro ⟨l, rfl⟩
    exact hj ⟨l, rfl⟩

theorem first_exists {n k : ℕ} (hk : k ≤ n) {u : Fin n → ℝ} (hu : Function.Injective u) :
    ∃ e : Fin k ↪ Fin n, u ∈ First e := by
  have hm : StrictMono (u ∘ Tuple.sort u) :=
    (Tuple.monotone_sort u).strictMono_of_injective (hu.comp (Tuple.sort u).injective)
  refine ⟨(Fin.castLEEmb hk).trans (Tuple.sort u).toEmbedding, ?_, ?_⟩
  · intro i j hij
    exact hm (by simpa using hij)
  · intro i j hj
    obtain ⟨j, rfl⟩ := (Tuple.sort u).surjective j
    refine hm ?_
    rw [Fin.lt_def]
    by_contra hlt
    refine hj ⟨⟨j, lt_of_le_of_lt (by simpa using hlt) i.isLt⟩, ?_⟩
    rfl

/-- Every ordered choice of `k` positions is the `k` smallest numbers with the same probability. -/
theorem first_prob {n k : ℕ} (hk : k ≤ n) (e : Fin k ↪ Fin n) :
    cube n (First e) = (n.descFactorial k : ENNReal)⁻¹ := by
  have hsame : ∀ e' : Fin k ↪ Fin n, cube n (First e') = cube n (First e) := by
    intro e'
    obtain ⟨σ, hσ⟩ := (Equiv.Perm.isMultiplyPretransitive (Fin n) k).exists_smul_eq e e'
    rw [← first_perm e σ]
    congr 2
    rw [← hσ]; rfl
  have hd : Pairwise (Function.onFun (AEDisjoint (cube n)) fun e : Fin k ↪ Fin n => First e) := by
    intro e e' hne
    have := injective_ae n
    rw [ae_iff] at this
    refine measure_mono_null ?_ this
    intro u hu hi
    exact hne (first_unique hi hu.1 hu.2)
  have hU : cube n (⋃ e : Fin k ↪ Fin n, First e) = 1 := by
    rw [← measure_univ (μ := cube n)]
    refine measure_congr ?_
    filter_upwards [injective_ae n] with u hu
    obtain ⟨e, he⟩ := first_exists hk hu
    simp only [eq_iff_iff]
    exact ⟨fun _ => trivial, fun _ => Set.mem_iUnion.mpr ⟨e, he⟩⟩
  rw [measure_iUnion₀ hd fun e => (measurableSet_first e).nullMeasurableSet, tsum_fintype] at hU
  simp only [hsame] at hU
  rw [Finset.sum_const, Finset.card_univ, Fintype.card_embedding_eq, Fintype.card_fin, Fintype.card_fin,
    nsmul_eq_mul] at hU
  exact ENNReal.eq_inv_of_mul_eq_one_left (by rw [mul_comm]; exact hU)

theorem first_of_argsort {argsort : List ℝ → List ℕ} (hs : Randoms.IsArgsort argsort) {n k : ℕ} (hk : k ≤ n)
    {u : Fin n → ℝ} (hu : Function.Injective u) :
    ∃ e : Fin k ↪ Fin n, u ∈ First e ∧
      (argsort (List.ofFn u)).take k = List.ofFn fun i : Fin k => (e i : ℕ) := by
  obtain ⟨hp, hw⟩ := hs (List.ofFn u)
  rw [List.length_ofFn] at hp
  set S := argsort (List.ofFn u) with hS
  have hl : S.length = n := by rw [hp.length_eq, List.length_range]
  have hnd : S.Nodup := hp.nodup_iff.mpr List.nodup_range
  have hlt : ∀ i (h : i < S.length), S[i] < n := fun i h =>
    List.mem_range.mp (hp.mem_iff.mp (List.getElem_mem h))
  have hle : ∀ i j (hi : i < S.length) (hj : j < S.length), i < j →
      u ⟨S[i], hlt i hi⟩ < u ⟨S[j], hlt j hj⟩ := by
    intro i j hi hj hij
    have h1 := (List.pairwise_iff_getElem.mp hw) i j hi hj hij (u ⟨S[i], hlt i hi⟩) (u ⟨S[j], hlt j hj⟩)
      (by simp [List.getElem?_ofFn, hlt i hi]) (by simp [List.getElem?_ofFn, hlt j hj])
    refine lt_of_le_of_ne h1 fun he => ?_
    have := hu he
    rw [Fin.mk.injEq] at this
    exact hij.ne ((List.Nodup.getElem_inj_iff hnd).mp this)
  refine ⟨⟨fun i => ⟨S[i.val]'(by omega), hlt _ _⟩, ?_⟩, ⟨?_, ?_⟩, ?_⟩
  · intro i j hij
    rw [Fin.mk.injEq] at hij
    exact Fin.ext ((List.Nodup.getElem_inj_iff hnd).mp hij)
  · intro i j hij
    exact hle _ _ _ _ hij
  · intro i j hj
    have hm : j.val ∈ S := hp.mem_iff.mpr (List.mem_range.mpr j.isLt)
    obtain ⟨m, hm1, hm2⟩ := List.getElem_of_mem hm
    have hkm : k ≤ m := by
      by_contra hc
      exact hj ⟨⟨m, by omega⟩, Fin.ext hm2⟩
    have := hle i.val m (by omega) hm1 (by omega)
    have h3 : u ⟨S[m], hlt m hm1⟩ = u j := congrArg u (Fin.ext hm2)
    rw [h3] at this
    exact this
  · apply List.ext_getElem
    · simp [hl, hk]
    · intro m h1 h2
      simp
      rfl

/-- What `np.argsort` puts first, for numbers that are all different. -/
theorem take_argsort_iff {argsort : List ℝ → List ℕ} (hs : Randoms.IsArgsort argsort) {n k : ℕ} (hk : k ≤ n)
    {u : Fin n → ℝ} (hu : Function.Injective u) (e : Fin k ↪ Fin n) :
    (argsort (List.ofFn u)).take k = (List.ofFn fun i : Fin k => (e i : ℕ)) ↔ u ∈ First e := by
  obtain ⟨e', h1, h2⟩ := first_of_argsort hs hk hu
  constructor
  · intro h
    rw [h2] at h
    have := List.ofFn_injective h
    have : e' = e := by
      ext i
      exact congrFun this i
    rwa [← this]
  · intro h
    rw [first_unique hu h h1, h2]

end Magpie.Draws
