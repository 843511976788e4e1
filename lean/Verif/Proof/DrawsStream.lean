import Verif.Proof.Draws
import Verif.Proof.RandomsBasic
import Verif.Spec.Draws
import Verif.Proof.Unif
import Mathlib.Analysis.SpecialFunctions.Integrals.Basic
import Mathlib.Probability.Independence.InfinitePi

/-!
# Orders of the random numbers of a stream
-/

set_option linter.unusedSimpArgs false
set_option linter.unusedVariables false
set_option linter.unusedSectionVars false

namespace Magpie.Draws
open MeasureTheory ProbabilityTheory Magpie.Spec

section
variable {Ω : Type} [MeasurableSpace Ω] {P : Measure Ω} {U : ℕ → Ω → ℝ}

theorem stream_prob (hU : Stream P U) : IsProbabilityMeasure P := by
  have h := hU.law 0
  have : P Set.univ = 1 := by
    have h1 : (Measure.map (U 0) P) Set.univ = 1 := by rw [h]; exact measure_univ
    rwa [Measure.map_apply (hU.meas 0) MeasurableSet.univ, Set.preimage_univ] at h1
  exact ⟨this⟩

/-- `n` numbers of the stream as a vector. -/
def vec (U : ℕ → Ω → ℝ) (k n : ℕ) (ω : Ω) : Fin n → ℝ := fun i => U (k + i) ω

theorem next_eq (k n : ℕ) (ω : Ω) : next U k n ω = List.ofFn (vec U k n ω) := by
  apply List.ext_getElem
  · simp [next]
  · intro m h1 h2
    simp [next, vec]

theorem next_length (k n : ℕ) (ω : Ω) : (next U k n ω).length = n := by simp [next]

theorem measurable_vec (hU : Stream P U) (k n : ℕ) : Measurable (vec U k n) :=
  measurable_pi_lambda _ fun i => hU.meas _

theorem map_vec (hU : Stream P U) (k n : ℕ) : Measure.map (vec U k n) P = cube n := by
  haveI := stream_prob hU
  have hi : iIndepFun (fun i : Fin n => U (k + i)) P :=
    hU.indep.precomp (g := fun i : Fin n => k + i.val) fun i j hij => Fin.ext (Nat.add_left_cancel hij)
  have := (iIndepFun_iff_map_fun_eq_pi_map fun i : Fin n => (hU.meas (k + i)).aemeasurable).mp hi
  unfold cube
  simp only [hU.law] at this
  exact this

theorem vec_injective (hU : Stream P U) (k n : ℕ) : ∀ᵐ ω ∂P, Function.Injective (vec U k n ω) := by
  have h := injective_ae n
  rw [← map_vec hU k n] at h
  exact ae_of_ae_map (measurable_vec hU k n).aemeasurable h

/-- The event that `np.argsort` of the next `n` numbers begins with `e`. -/
theorem argsort_event (hU : Stream P U) {argsort : List ℝ → List ℕ} (hs : Randoms.IsArgsort argsort)
    {n m : ℕ} (hm : m ≤ n) (k : ℕ) (e : Fin m ↪ Fin n) :
    {ω | (argsort (next U k n ω)).take m = List.ofFn fun i : Fin m => (e i : ℕ)} =ᵐ[P] vec U k n ⁻¹' First e := by
  filter_upwards [vec_injective hU k n] with ω hω
  simp only [eq_iff_iff]
  show (argsort (next U k n ω)).take m = _ ↔ vec U k n ω ∈ First e
  rw [next_eq]
  exact take_argsort_iff hs hm hω e

theorem argsort_prob (hU : Stream P U) {argsort : List ℝ → List ℕ} (hs : Randoms.IsArgsort argsort)
    {n m : ℕ} (hm : m ≤ n) (k : ℕ) (e : Fin m ↪ Fin n) :
    P {ω | (argsort (next U k n ω)).take m = List.ofFn fun i : Fin m => (e i : ℕ)}
      = (n.descFactorial m : ENNReal)⁻¹ := by
  rw [measure_congr (argsort_event hU hs hm k e), ← first_prob hm e, ← map_vec hU k n,
    Measure.map_apply (measurable_vec hU k n) (measurableSet_first e)]

end

/-! ## Independence and inclusion -/

section
variable {Ω : Type} [MeasurableSpace Ω] {P : Measure Ω} {U : ℕ → Ω → ℝ}

theorem indep_vec (hU : Stream P U) (k n m : ℕ) : IndepFun (vec U k n) (vec U (k + n) m) P := by
  have h := hU.indep.indepFun_finset (Finset.Ico k (k + n)) (Finset.Ico (k + n) (k + n + m))
    (Finset.Ico_disjoint_Ico_consecutive _ _ _) hU.meas
  have g1 : vec U k n = (fun (v : Finset.Ico k (k + n) → ℝ) (i : Fin n) =>
      v ⟨k + i, Finset.mem_Ico.mpr ⟨by omega, by omega⟩⟩) ∘ fun ω i => U i ω := rfl
  have g2 : vec U (k + n) m = (fun (v : Finset.Ico (k + n) (k + n + m) → ℝ) (i : Fin m) =>
      v ⟨k + n + i, Finset.mem_Ico.mpr ⟨by omega, by omega⟩⟩) ∘ fun ω i => U i ω := rfl
  rw [g1, g2]
  refine h.comp ?_ ?_
  · exact measurable_pi_lambda _ fun i => measurable_pi_apply _
  · exact measurable_pi_lambda _ fun i => measurable_pi_apply _

/-- The number of ordered choices that contain a given position. -/
theorem card_contains {n k : ℕ} (j : Fin n) :
    (Finset.univ.filter fun e : Fin k ↪ Fin n => j ∈ Set.range e).card * n = k * n.descFactorial k := by
  classical
  have hsame : ∀ j' : Fin n, (Finset.univ.filter fun e : Fin k ↪ Fin n => j' ∈ Set.range e).card
      = (Finset.univ.filter fun e : Fin k ↪ Fin n => j ∈ Set.range e).card := by
    intro j'
    refine Finset.card_bij' (fun e _ => e.trans (Equiv.swap j j').toEmbedding)
      (fun e _ => e.trans (Equiv.swap j j').toEmbedding) ?_ ?_ ?_ ?_
    · intro e he
      simp only [Finset.mem_filter, Finset.mem_univ, true_and] at he ⊢
      obtain ⟨i, rfl⟩ := he
      exact ⟨i, by simp⟩
    · intro e he
      simp only [Finset.mem_filter, Finset.mem_univ, true_and] at he ⊢
      obtain ⟨i, rfl⟩ := he
      exact ⟨i, by simp⟩
    · intro e he; ext i; simp
    · intro e he; ext i; simp
  have h1 : ∑ j' : Fin n, (Finset.univ.filter fun e : Fin k ↪ Fin n => j' ∈ Set.range e).card
      = (Finset.univ.filter fun e : Fin k ↪ Fin n => j ∈ Set.range e).card * n := by
    rw [Finset.sum_congr rfl fun j' _ => hsame j', Finset.sum_const, Finset.card_univ, Fintype.card_fin,
      smul_eq_mul, mul_comm]
  rw [← h1]
  simp only [Finset.card_filter]
  rw [Finset.sum_comm]
  have h2 : ∀ e : Fin k ↪ Fin n, ∑ j' : Fin n, (if j' ∈ Set.range e then 1 else 0) = k := by
    intro e
    rw [← Finset.card_filter]
    have : (Finset.univ.filter fun j' => j' ∈ Set.range e) = Finset.univ.map e := by
      ext j'; simp
    rw [this, Finset.card_map, Finset.card_univ, Fintype.card_fin]
  rw [Finset.sum_congr rfl fun e _ => h2 e, Finset.sum_const, Finset.card_univ, Fintype.card_embedding_eq,
    Fintype.card_fin, Fintype.card_fin, smul_eq_mul, mul_comm]

/-- Every position is among the first `m` with probability `m/n`. -/
theorem contains_prob (hU : Stream P U) {argsort : List ℝ → List ℕ} (hs : Randoms.IsArgsort argsort)
    {n m : ℕ} (hm : m ≤ n) (k : ℕ) (j : Fin n) :
    P {ω | (j : ℕ) ∈ (argsort (next U k n ω)).take m} = (m : ENNReal)/n := by
  classical
  haveI := stream_prob hU
  have he : {ω | (j : ℕ) ∈ (argsort (next U k n ω)).take m}
      =ᵐ[P] ⋃ e ∈ Finset.univ.filter (fun e : Fin m ↪ Fin n => j ∈ Set.range e), vec U k n ⁻¹' First e := by
    filter_upwards [vec_injective hU k n] with ω hω
    obtain ⟨e, h1, h2⟩ := first_of_argsort hs hm hω
    simp only [eq_iff_iff]
    show (j : ℕ) ∈ (argsort (next U k n ω)).take m ↔ _
    rw [next_eq, h2, List.mem_ofFn]
    show _ ↔ ω ∈ ⋃ e ∈ _, _
    simp only [Set.mem_iUnion, Finset.mem_filter, Finset.mem_univ, true_and, Set.mem_preimage]
    constructor
    · rintro ⟨i, hi⟩
      exact ⟨e, ⟨i, Fin.ext hi⟩, h1⟩
    · rintro ⟨e', ⟨i, hi⟩, h3⟩
      rw [first_unique hω h3 h1] at hi
      exact ⟨i, congrArg Fin.val hi⟩
  rw [measure_congr he, measure_biUnion_finset₀]
  · have hp : ∀ e : Fin m ↪ Fin n, P (vec U k n ⁻¹' First e) = (n.descFactorial m : ENNReal)⁻¹ := by
      intro e
      rw [← first_prob hm e, ← map_vec hU k n, Measure.map_apply (measurable_vec hU k n) (measurableSet_first e)]
    rw [Finset.sum_congr rfl fun e _ => hp e, Finset.sum_const, nsmul_eq_mul]
    have hc := card_contains (k := m) j
    have hn : 0 < n := j.pos
    have hd : n.descFactorial m ≠ 0 := by
      rw [Ne, Nat.descFactorial_eq_zero_iff_lt]; omega
    rw [← div_eq_mul_inv, ENNReal.div_eq_div_iff (by exact_mod_cast hn.ne') (by simp) (by exact_mod_cast hd) (by simp)]
    rw [mul_comm, mul_comm (_ : ENNReal) (m : ENNReal)]
    exact_mod_cast hc
  · intro e _ e' _ hne
    have := vec_injective hU k n
    rw [ae_iff] at this
    refine measure_mono_null ?_ this
    intro ω hω hi
    exact hne (first_unique hi hω.1 hω.2)
  · intro e _
    exact ((measurable_vec hU k n) (measurableSet_first e)).nullMeasurableSet

end

/-! ## Lists of distinct elements -/

section
variable {α : Type}

theorem gather_iff (sample l : List α) (idx : List ℕ) :
    gather sample idx = .ok l ↔ l.map some = idx.map fun (i : ℕ) => sample[i]? := by
  induction idx generalizing l with
  | nil => cases l <;> simp [gather]
  | cons i idx ih =>
    cases h : sample[i]? with
    | none =>
      simp only [gather, h, List.map_cons]
      cases l <;> simp
    | some a =>
      simp only [gather, h, List.map_cons]
      cases hg : gather sample idx with
      | error e =>
        simp only [reduceCtorEq, false_iff]
        intro hl
        cases l with
        | nil => simp at hl
        | cons b l =>
          simp only [List.map_cons, List.cons.injEq] at hl
          have := (ih l).mpr hl.2
          rw [hg] at this
          cases this
      | ok r =>
        cases l with
        | nil => simp
        | cons b l =>
          have := ih l
          rw [hg] at this
          simp only [Except.ok.injEq, List.cons.injEq, List.map_cons, Option.some.injEq] at this ⊢
          rw [← this]
          constructor
          · rintro ⟨rfl, rfl⟩; exact ⟨rfl, rfl⟩
          · rintro ⟨rfl, rfl⟩; exact ⟨rfl, rfl⟩

theorem sublist_perm_eq {l a b : List α} (hn : l.Nodup) (ha : a.Sublist l) (hb : b.Sublist l) (h : a.Perm b) :
    a = b := by
  classical
  have key : ∀ c : List α, c.Sublist l → c = l.filter fun x => decide (x ∈ c) := by
    intro c hc
    exact (List.Sublist.eq_of_length_le (by
      have h1 := hc.filter fun x => decide (x ∈ c)
      rwa [List.filter_eq_self.mpr (by simp)] at h1) (by
      have : (l.filter fun x => decide (x ∈ c)).Perm c := by
        rw [List.perm_ext_iff_of_nodup (hn.filter _) (hc.nodup hn)]
        intro x
        simp only [List.mem_filter, decide_eq_true_eq]
        exact ⟨fun h => h.2, fun h => ⟨hc.subset h, h⟩⟩
      rw [this.length_eq]))
  rw [key a ha, key b hb]
  congr 1
  ext x
  simp [h.mem_iff]

/-- The positions of the elements of `l` in `sample`. -/
theorem positions {sample l : List α} (hn : sample.Nodup) (hl : l.Nodup) (hs : l ⊆ sample) :
    ∃ e : Fin l.length ↪ Fin sample.length, ∀ i, sample[(e i : ℕ)]? = some l[i] := by
  have h : ∀ i : Fin l.length, ∃ j : Fin sample.length, sample[j] = l[i] := by
    intro i
    obtain ⟨j, h1, h2⟩ := List.getElem_of_mem (hs (List.getElem_mem i.isLt))
    exact ⟨⟨j, h1⟩, h2⟩
  choose f hf using h
  refine ⟨⟨f, ?_⟩, ?_⟩
  · intro i j hij
    have : l[i] = l[j] := by rw [← hf i, ← hf j, hij]
    exact Fin.ext ((List.Nodup.getElem_inj_iff hl).mp this)
  · intro i
    show sample[(f i : ℕ)]? = some l[i]
    rw [List.getElem?_eq_getElem (f i).isLt]
    exact congrArg some (hf i)

theorem gather_positions {sample l : List α} (hn : sample.Nodup) (e : Fin l.length ↪ Fin sample.length)
    (he : ∀ i, sample[(e i : ℕ)]? = some l[i]) (idx : List ℕ) :
    gather sample idx = .ok l ↔ idx = List.ofFn fun i => (e i : ℕ) := by
  rw [gather_iff]
  constructor
  · intro h
    have hlen := congrArg List.length h
    simp only [List.length_map] at hlen
    apply List.ext_getElem
    · simp [hlen]
    · intro m h1 h2
      have hm : m < l.length := by omega
      have h3 := congrArg (fun q => q[m]?) h
      simp only [List.getElem?_map, List.getElem?_eq_getElem h1, List.getElem?_eq_getElem hm,
        Option.map_some, Option.some.injEq] at h3
      have h4 := he ⟨m, hm⟩
      have h5 : sample[idx[m]]? = sample[(e ⟨m, hm⟩ : ℕ)]? := by rw [h4, ← h3]; rfl
      rw [List.getElem_ofFn]
      have h6 := (List.getElem?_eq_some_iff.mp h3.symm).1
      rw [List.getElem?_eq_getElem h6, List.getElem?_eq_getElem (e ⟨m, hm⟩).isLt, Option.some.injEq] at h5
      exact (List.Nodup.getElem_inj_iff hn).mp h5
  · rintro rfl
    apply List.ext_getElem
    · simp
    · intro m h1 h2
      simp only [List.getElem_map, List.getElem_ofFn]
      exact (he ⟨m, by simpa using h1⟩).symm

end

section
variable {Ω : Type} [MeasurableSpace Ω] {P : Measure Ω} {U : ℕ → Ω → ℝ} {α : Type}

/-- `shuffle` returns a given order: the event, up to ties, in terms of the numbers drawn. -/
theorem shuffle_event (hU : Stream P U) {argsort : List ℝ → List ℕ} (hs : Randoms.IsArgsort argsort) (k : ℕ)
    {sample l : List α} (hn : sample.Nodup) (hl : l.Perm sample) :
    ∃ e : Fin l.length ↪ Fin sample.length,
      {ω | Randoms.shuffle argsort (next U k sample.length ω) sample = .ok l}
        =ᵐ[P] vec U k sample.length ⁻¹' First e := by
  obtain ⟨e, he⟩ := positions hn (hl.nodup_iff.mpr hn) hl.subset
  refine ⟨e, ?_⟩
  have hlen := hl.length_eq
  have : {ω | Randoms.shuffle argsort (next U k sample.length ω) sample = .ok l}
      = {ω | (argsort (next U k sample.length ω)).take l.length
        = List.ofFn fun i : Fin l.length => (e i : ℕ)} := by
    ext ω
    show gather sample (argsort (next U k sample.length ω)) = .ok l ↔ _
    rw [gather_positions hn e he, Set.mem_setOf_eq, List.take_of_length_le]
    have := (hs (next U k sample.length ω)).1.length_eq
    rw [this, List.length_range, next_length, hlen]
  rw [this]
  exact argsort_event hU hs hlen.le k e

theorem first_vec_prob (hU : Stream P U) (k : ℕ) {n m : ℕ} (hm : m ≤ n) (e : Fin m ↪ Fin n) :
    P (vec U k n ⁻¹' First e) = (n.descFactorial m : ENNReal)⁻¹ := by
  rw [← first_prob hm e, ← map_vec hU k n, Measure.map_apply (measurable_vec hU k n) (measurableSet_first e)]

theorem shuffle_prob (hU : Stream P U) {argsort : List ℝ → List ℕ} (hs : Randoms.IsArgsort argsort) (k : ℕ)
    {sample l : List α} (hn : sample.Nodup) (hl : l.Perm sample) :
    P {ω | Randoms.shuffle argsort (next U k sample.length ω) sample = .ok l}
      = (sample.length.factorial : ENNReal)⁻¹ := by
  obtain ⟨e, he⟩ := shuffle_event hU hs k hn hl
  rw [measure_congr he, first_vec_prob hU k hl.length_eq.le, hl.length_eq, Nat.descFactorial_self]

/-- An event of the first numbers and the order in which the next ones shuffle a sample are independent. -/
theorem indep_shuffle (hU : Stream P U) {argsort : List ℝ → List ℕ} (hs : Randoms.IsArgsort argsort) (k n : ℕ)
    {sample l : List α} (hn : sample.Nodup) (hl : l.Perm sample) {A : Set Ω} {B : Set (Fin n → ℝ)}
    (hB : MeasurableSet B) (hA : A =ᵐ[P] vec U k n ⁻¹' B) :
    P (A ∩ {ω | Randoms.shuffle argsort (next U (k + n) sample.length ω) sample = .ok l})
      = P A * (sample.length.factorial : ENNReal)⁻¹ := by
  rw [← shuffle_prob hU hs (k + n) hn hl]
  obtain ⟨e, he⟩ := shuffle_event hU hs (k + n) hn hl
  rw [measure_congr (hA.inter he), measure_congr hA, measure_congr he]
  exact (indep_vec hU k n sample.length).measure_inter_preimage_eq_mul _ _ hB (measurableSet_first e)

/-- The quotients of the numbers and the probabilities at `e 0, e 1, …` are, in this order, the smallest. -/
def Scaled {n m : ℕ} (prob : List ℝ) (hp : prob.length = n) (e : Fin m ↪ Fin n) : Set (Fin n → ℝ) :=
  {u | (fun i : Fin n => u i/prob[i.val]'(by omega)) ∈ First e}

theorem measurableSet_scaled {n m : ℕ} (prob : List ℝ) (hp : prob.length = n) (e : Fin m ↪ Fin n) :
    MeasurableSet (Scaled prob hp e) := by
  have : Measurable fun (u : Fin n → ℝ) (i : Fin n) => u i/prob[i.val]'(by omega) :=
    measurable_pi_lambda _ fun i => (measurable_pi_apply i).div_const _
  exact this (measurableSet_first e)

theorem tie_scaled {n : ℕ} {i j : Fin n} (h : i ≠ j) {a b : ℝ} (ha : 0 < a) (hb : 0 < b) :
    cube n {u | u i/a = u j/b} = 0 := by
  apply cube_ac
  have : {u : Fin n → ℝ | u i/a = u j/b}
      = (LinearMap.ker (b • (LinearMap.proj i : (Fin n → ℝ) →ₗ[ℝ] ℝ) - a • LinearMap.proj j)
          : Set (Fin n → ℝ)) := by
    ext u
    simp only [Set.mem_setOf_eq, SetLike.mem_coe, LinearMap.mem_ker, LinearMap.sub_apply,
      LinearMap.smul_apply, LinearMap.proj_apply, smul_eq_mul, sub_eq_zero]
    rw [div_eq_div_iff ha.ne' hb.ne', mul_comm (u i), mul_comm (u j)]
  rw [this]
  apply Measure.addHaar_submodule
  intro ht
  have : Pi.single (M := fun _ => ℝ) i 1
      ∈ LinearMap.ker (b • (LinearMap.proj i : (Fin n → ℝ) →ₗ[ℝ] ℝ) - a • LinearMap.proj j) := by
    rw [ht]; trivial
  simp [h, h.symm, Pi.single_apply, hb.ne'] at this

theorem scaled_injective (hU : Stream P U) (k n : ℕ) (prob : List ℝ) (hp : prob.length = n)
    (hpos : ∀ p ∈ prob, 0 < p) :
    ∀ᵐ ω ∂P, Function.Injective fun i : Fin n => vec U k n ω i/prob[i.val]'(by omega) := by
  have h : ∀ᵐ u ∂cube n, ∀ i j : Fin n, i ≠ j → u i/prob[i.val]'(by omega) ≠ u j/prob[j.val]'(by omega) := by
    rw [ae_all_iff]; intro i
    rw [ae_all_iff]; intro j
    by_cases h : i = j
    · simp [h]
    · have := tie_scaled h (hpos (prob[i.val]'(by omega)) (List.getElem_mem _))
        (hpos (prob[j.val]'(by omega)) (List.getElem_mem _))
      rw [ae_iff]
      simpa [h] using this
  rw [← map_vec hU k n] at h
  filter_upwards [ae_of_ae_map (measurable_vec hU k n).aemeasurable h] with ω hω i j hij
  by_contra hne
  exact hω i j hne hij

theorem zipWith_next (k n : ℕ) (ω : Ω) (prob : List ℝ) (hp : prob.length = n) :
    List.zipWith (· / ·) (next U k n ω) prob
      = List.ofFn fun i : Fin n => vec U k n ω i/prob[i.val]'(by omega) := by
  apply List.ext_getElem
  · simp [next, hp]
  · intro m h1 h2
    simp [next, vec]

/-- The law of `random_prob_draw` with `size`. -/
theorem sized_prob [DecidableEq α] (hU : Stream P U) {argsort : List ℝ → List ℕ}
    (hs : Randoms.IsArgsort argsort) (k : ℕ) {sample : List α} {prob : List ℝ} (hn : sample.Nodup)
    (hp : prob.length = sample.length) (hpos : ∀ p ∈ prob, 0 < p) {m : ℕ} (hlt : m < sample.length)
    (l : List α) (hm : l.length = m) :
    P {ω | Randoms.randomProbDraw argsort (next U k sample.length ω)
        (fun m => next U (k + sample.length) m ω) sample prob (some m) = .ok l}
      = (∑ e ∈ Finset.univ.filter (fun e : Fin m ↪ Fin sample.length =>
          (List.ofFn fun i => sample[(e i).val]).Perm l),
          P (vec U k sample.length ⁻¹' Scaled prob hp e)) * (m.factorial : ENNReal)⁻¹ := by
  haveI := stream_prob hU
  set n := sample.length with hnn
  let pick : (Fin m ↪ Fin n) → List α := fun e => List.ofFn fun i => sample[(e i).val]
  have hpn : ∀ e, (pick e).Nodup := by
    intro e
    refine List.nodup_ofFn.mpr fun i j hij => ?_
    exact e.injective (Fin.ext ((List.Nodup.getElem_inj_iff hn).mp hij))
  have hpl : ∀ e, (pick e).length = m := fun e => by simp [pick]
  have hrun : ∀ᵐ ω ∂P, ∀ e : Fin m ↪ Fin n, vec U k n ω ∈ Scaled prob hp e →
      Randoms.randomProbDraw argsort (next U k n ω) (fun m => next U (k + n) m ω) sample prob (some m)
        = Randoms.shuffle argsort (next U (k + n) (pick e).length ω) (pick e) := by
    filter_upwards [scaled_injective hU k n prob hp hpos] with ω hω e he
    have ht := (take_argsort_iff hs hlt.le hω e).mpr he
    rw [← zipWith_next k n ω prob hp] at ht
    have hlen := (hs (List.zipWith (· / ·) (next U k n ω) prob)).1.length_eq
    rw [List.length_range, zipWith_next k n ω prob hp, List.length_ofFn, ← zipWith_next k n ω prob hp] at hlen
    have hg : gather sample (Polar.sliceTo (argsort (List.zipWith (· / ·) (next U k n ω) prob)) m)
        = .ok (pick e) := by
      unfold Polar.sliceTo Polar.sliceBound
      rw [if_neg (by omega), hlen, Int.toNat_natCast, min_eq_left hlt.le, ht, gather_iff]
      apply List.ext_getElem
      · simp [pick]
      · intro q h1 h2
        simp [pick]
    have hany : (prob.any fun p => decide (p ≤ 0)) = false := by
      rw [List.any_eq_false]
      intro p hp'
      simpa using hpos p hp'
    unfold Randoms.randomProbDraw pyAssert
    simp only []
    rw [if_pos (by exact_mod_cast hlt), if_pos hany]
    simp only [bind, Except.bind]
    rw [if_neg (by rw [next_length]; omega), hg]
  have hev : {ω | Randoms.randomProbDraw argsort (next U k n ω) (fun m => next U (k + n) m ω) sample prob
        (some m) = .ok l}
      =ᵐ[P] ⋃ e ∈ Finset.univ.filter (fun e : Fin m ↪ Fin n => (pick e).Perm l),
        (vec U k n ⁻¹' Scaled prob hp e ∩
          {ω | Randoms.shuffle argsort (next U (k + n) (pick e).length ω) (pick e) = .ok l}) := by
    filter_upwards [hrun, scaled_injective hU k n prob hp hpos] with ω hr hω
    obtain ⟨e, he⟩ := first_exists hlt.le hω
    simp only [eq_iff_iff]
    show Randoms.randomProbDraw argsort (next U k n ω) (fun m => next U (k + n) m ω) sample prob (some m)
      = .ok l ↔ ω ∈ ⋃ e ∈ _, _
    simp only [Set.mem_iUnion, Finset.mem_filter, Finset.mem_univ, true_and, Set.mem_inter_iff,
      Set.mem_preimage, Set.mem_setOf_eq, exists_prop]
    constructor
    · intro h
      rw [hr e he] at h
      refine ⟨e, ?_, he, h⟩
      obtain ⟨out, g1, g2⟩ := Randoms.gather_perm_range (pick e) (argsort (next U (k + n) (pick e).length ω)) (by
        have := (hs (next U (k + n) (pick e).length ω)).1
        rwa [next_length] at this)
      have : Randoms.shuffle argsort (next U (k + n) (pick e).length ω) (pick e) = .ok out := g1
      rw [this] at h
      rw [← Except.ok.inj h]
      exact g2.symm
    · rintro ⟨e', -, h1, h2⟩
      rw [hr e' h1, h2]
  have hnull : ∀ e : Fin m ↪ Fin n, (pick e).Perm l → NullMeasurableSet (vec U k n ⁻¹' Scaled prob hp e ∩
      {ω | Randoms.shuffle argsort (next U (k + n) (pick e).length ω) (pick e) = .ok l}) P := by
    intro e he
    obtain ⟨e', h⟩ := shuffle_event hU hs (k + n) (hpn e) he.symm
    refine NullMeasurableSet.inter ?_ ?_
    · exact ((measurable_vec hU k n) (measurableSet_scaled prob hp e)).nullMeasurableSet
    · exact ⟨_, (measurable_vec hU _ _) (measurableSet_first e'), h⟩
  rw [measure_congr hev, measure_biUnion_finset₀, Finset.sum_mul]
  · refine Finset.sum_congr rfl fun e he => ?_
    have he' : (pick e).Perm l := (Finset.mem_filter.mp he).2
    have := indep_shuffle hU hs k n (hpn e) he'.symm (measurableSet_scaled prob hp e)
      (Filter.EventuallyEq.refl _ _)
    rw [this, hpl e]
  · intro e _ e' _ hne
    have := scaled_injective hU k n prob hp hpos
    rw [ae_iff] at this
    refine measure_mono_null ?_ this
    intro ω hω hi
    exact hne (first_unique hi hω.1.1 hω.2.1)
  · intro e he
    exact hnull e (Finset.mem_filter.mp he).2

/-- `l.length!` ordered choices have the same elements as `l`. -/
theorem card_rearrange [DecidableEq α] {sample l : List α} (hn : sample.Nodup) (hl : l.Nodup) (hsub : l ⊆ sample) :
    (Finset.univ.filter fun e : Fin l.length ↪ Fin sample.length =>
      (List.ofFn fun i => sample[(e i).val]).Perm l).card = l.length.factorial := by
  obtain ⟨e0, he0⟩ := positions hn hl hsub
  have hv : ∀ i, sample[(e0 i).val] = l[i] := by
    intro i
    have := he0 i
    rw [List.getElem?_eq_getElem (e0 i).isLt, Option.some.injEq] at this
    exact this
  have himg : (Finset.univ.filter fun e : Fin l.length ↪ Fin sample.length =>
      (List.ofFn fun i => sample[(e i).val]).Perm l)
      = Finset.univ.image fun σ : Equiv.Perm (Fin l.length) => σ.toEmbedding.trans e0 := by
    ext e
    simp only [Finset.mem_filter, Finset.mem_univ, true_and, Finset.mem_image]
    constructor
    · intro h
      have hr : ∀ i, ∃ j, e0 j = e i := by
        intro i
        have : sample[(e i).val] ∈ l := h.subset (List.mem_ofFn.mpr ⟨i, rfl⟩)
        obtain ⟨j, hj, hj'⟩ := List.getElem_of_mem this
        refine ⟨⟨j, hj⟩, Fin.ext ?_⟩
        have hq : sample[(e0 ⟨j, hj⟩).val] = sample[(e i).val] := (hv _).trans hj'
        exact (List.Nodup.getElem_inj_iff hn).mp hq
      choose f hf using hr
      have hfi : Function.Injective f := by
        intro i j hij
        apply e.injective
        rw [← hf i, ← hf j, hij]
      refine ⟨Equiv.ofBijective f (Finite.injective_iff_bijective.mp hfi), ?_⟩
      ext i
      simp [hf]
    · rintro ⟨σ, rfl⟩
      have : (List.ofFn fun i => sample[((σ.toEmbedding.trans e0) i).val]) = List.ofFn (l.get ∘ σ) := by
        congr 1
        funext i
        exact hv _
      rw [this]
      have h2 := Equiv.Perm.ofFn_comp_perm σ l.get
      rw [List.ofFn_get] at h2
      exact h2
  rw [himg, Finset.card_image_of_injective, Finset.card_univ, Fintype.card_perm, Fintype.card_fin]
  intro σ τ h
  ext i
  have := DFunLike.congr_fun h i
  exact congrArg Fin.val (e0.injective this)

/-- The probability that one uniform number divided by `p` is below another divided by `q`. -/
theorem ratio_prob {p q : ℝ} (hq : 0 < q) (hqp : q ≤ p) :
    unif2 {x | x.1/p < x.2/q} = ENNReal.ofReal (1 - q/(2*p)) := by
  have hp : 0 < p := hq.trans_le hqp
  have hm : MeasurableSet {x : ℝ × ℝ | x.1/p < x.2/q} :=
    measurableSet_lt (measurable_fst.div_const _) (measurable_snd.div_const _)
  unfold unif2
  rw [Measure.prod_apply hm]
  have h1 : ∀ x ∈ Set.Ico (0:ℝ) 1, unif (Prod.mk x ⁻¹' {x : ℝ × ℝ | x.1/p < x.2/q})
      = ENNReal.ofReal (1 - x*(q/p)) := by
    intro x hx
    have hr0 : 0 ≤ x*(q/p) := mul_nonneg hx.1 (by positivity)
    have hr1 : x*(q/p) ≤ 1 := by
      have : q/p ≤ 1 := (div_le_one hp).mpr hqp
      nlinarith [hx.1, hx.2]
    have e : Prod.mk x ⁻¹' {x : ℝ × ℝ | x.1/p < x.2/q} = (Set.Iic (x*(q/p)))ᶜ := by
      ext y
      simp only [Set.mem_preimage, Set.mem_setOf_eq, Set.mem_compl_iff, Set.mem_Iic, not_le]
      rw [lt_div_iff₀ hq]
      have : x/p*q = x*(q/p) := by ring
      rw [this]
    rw [e, prob_compl_eq_one_sub measurableSet_Iic, show unif (Set.Iic (x*(q/p))) = ENNReal.ofReal (x*(q/p)) from
      unif_cdf hr0 hr1 fun u _ _ => Iff.rfl, ENNReal.ofReal_sub _ hr0, ENNReal.ofReal_one]
  have h2 : ∫⁻ x, unif (Prod.mk x ⁻¹' {x : ℝ × ℝ | x.1/p < x.2/q}) ∂unif
      = ∫⁻ x in Set.Ico (0:ℝ) 1, ENNReal.ofReal (1 - x*(q/p)) := by
    unfold unif
    exact setLIntegral_congr_fun measurableSet_Ico h1
  rw [h2, ← ofReal_integral_eq_lintegral_ofReal]
  · congr 1
    rw [integral_Ico_eq_integral_Ioc, ← intervalIntegral.integral_of_le (by norm_num)]
    rw [intervalIntegral.integral_sub (by simp) (by
      apply Continuous.intervalIntegrable; fun_prop), intervalIntegral.integral_const,
      intervalIntegral.integral_mul_const, integral_id]
    simp only [sub_zero, one_smul]
    field_simp
    ring
  · have : IntegrableOn (fun x : ℝ => 1 - x*(q/p)) (Set.Icc 0 1) :=
      (by fun_prop : Continuous fun x : ℝ => 1 - x*(q/p)).continuousOn.integrableOn_Icc
    exact this.mono_set Set.Ico_subset_Icc_self
  · refine (ae_restrict_iff' measurableSet_Ico).mpr (Filter.Eventually.of_forall fun x hx => ?_)
    have : q/p ≤ 1 := (div_le_one hp).mpr hqp
    have : 0 ≤ q/p := by positivity
    show 0 ≤ 1 - x*(q/p)
    nlinarith [hx.1, hx.2]

theorem map_pair (hU : Stream P U) {k l : ℕ} (h : k ≠ l) :
    Measure.map (fun ω => (U k ω, U l ω)) P = unif2 := by
  haveI := stream_prob hU
  have := (indepFun_iff_map_prod_eq_prod_map_map (hU.meas k).aemeasurable (hU.meas l).aemeasurable).mp
    (hU.indep.indepFun h)
  rw [this, hU.law, hU.law]; rfl

end

end Magpie.Draws
