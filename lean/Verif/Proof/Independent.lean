import Verif.Proof.DrawsStream
import Verif.Spec.Volumes
import Verif.Spec.McLimit
import Verif.Spec.McCubeLimit

/-!
# Blocks of a stream of random numbers, one point from each
-/

set_option linter.unusedSimpArgs false
set_option linter.unusedVariables false
set_option linter.unusedSectionVars false

namespace Magpie.Draws
open MeasureTheory ProbabilityTheory Magpie.Spec

instance : IsProbabilityMeasure unif2 := by unfold unif2; infer_instance
instance : IsProbabilityMeasure unif3 := by unfold unif3; infer_instance

section
variable {Ω : Type} [MeasurableSpace Ω] {P : Measure Ω} {U : ℕ → Ω → ℝ}

theorem unit_ae (hU : Stream P U) : ∀ᵐ ω ∂P, ∀ k, 0 ≤ U k ω ∧ U k ω < 1 := by
  rw [ae_all_iff]
  intro k
  have h : ∀ᵐ u ∂unif, 0 ≤ u ∧ u < 1 := by
    unfold unif
    exact (ae_restrict_iff' measurableSet_Ico).mpr (Filter.Eventually.of_forall fun u hu => hu)
  rw [← hU.law k] at h
  exact ae_of_ae_map (hU.meas k).aemeasurable h

/-- `n` pairs of numbers: the first of each from one call, the second from the next. -/
def pairs (U : ℕ → Ω → ℝ) (k n : ℕ) (ω : Ω) (i : Fin n) : ℝ × ℝ := (U (k + i) ω, U (k + n + i) ω)

theorem measurable_pairs (hU : Stream P U) (k n : ℕ) : Measurable (pairs U k n) :=
  measurable_pi_lambda _ fun i => (hU.meas _).prodMk (hU.meas _)

theorem zip_law {α β : Type} [MeasurableSpace α] [MeasurableSpace β] {n : ℕ} (μ : Measure α) (ν : Measure β)
    [IsProbabilityMeasure μ] [IsProbabilityMeasure ν] [IsProbabilityMeasure P] {V : Ω → Fin n → α}
    {W : Ω → Fin n → β} (hV : Measurable V) (hW : Measurable W)
    (lV : Measure.map V P = Measure.pi fun _ => μ) (lW : Measure.map W P = Measure.pi fun _ => ν)
    (hi : IndepFun V W P) :
    Measure.map (fun ω (i : Fin n) => (V ω i, W ω i)) P = Measure.pi fun _ => μ.prod ν := by
  have h := (indepFun_iff_map_prod_eq_prod_map_map hV.aemeasurable hW.aemeasurable).mp hi
  rw [lV, lW] at h
  have hm := (measurePreserving_arrowProdEquivProdArrow α β (Fin n) (fun _ => μ) (fun _ => ν)).symm
  rw [← hm.map_eq, ← h, Measure.map_map hm.measurable (hV.prodMk hW)]
  rfl

theorem map_pairs (hU : Stream P U) (k n : ℕ) : Measure.map (pairs U k n) P = Measure.pi fun _ => unif2 := by
  haveI := stream_prob hU
  exact zip_law unif unif (measurable_vec hU k n) (measurable_vec hU (k + n) n) (map_vec hU k n)
    (map_vec hU (k + n) n) (indep_vec hU k n n)

/-- `n` triples of numbers, from three calls. -/
def triples (U : ℕ → Ω → ℝ) (k n : ℕ) (ω : Ω) (i : Fin n) : ℝ × ℝ × ℝ :=
  (U (k + i) ω, U (k + n + i) ω, U (k + n + n + i) ω)

theorem measurable_triples (hU : Stream P U) (k n : ℕ) : Measurable (triples U k n) :=
  measurable_pi_lambda _ fun i => (hU.meas _).prodMk ((hU.meas _).prodMk (hU.meas _))

theorem map_triples (hU : Stream P U) (k n : ℕ) : Measure.map (triples U k n) P = Measure.pi fun _ => unif3 := by
  haveI := stream_prob hU
  refine zip_law unif unif2 (measurable_vec hU k n) (measurable_pairs hU (k + n) n) (map_vec hU k n)
    (map_pairs hU (k + n) n) ?_
  have h := indep_vec hU k n (n + n)
  have e : pairs U (k + n) n = (fun (v : Fin (n + n) → ℝ) (i : Fin n) =>
      (v ⟨i, by omega⟩, v ⟨n + i, by omega⟩)) ∘ vec U (k + n) (n + n) := by
    funext ω i
    simp [pairs, vec, add_assoc]
  change IndepFun (vec U k n) (pairs U (k + n) n) P
  rw [e]
  exact h.comp measurable_id (measurable_pi_lambda _ fun i =>
    (measurable_pi_apply _).prodMk (measurable_pi_apply _))

/-- The probability that every point of a sample with independent points lies in its set. -/
theorem all_prob {β : Type} [MeasurableSpace β] {n : ℕ} {μ : Measure β} [IsProbabilityMeasure μ]
    {V : Ω → Fin n → β} (hV : Measurable V) (lV : Measure.map V P = Measure.pi fun _ => μ)
    (S : Fin n → Set β) (hS : ∀ i, NullMeasurableSet (S i) μ) :
    P {ω | ∀ i, V ω i ∈ S i} = ∏ i, μ (S i) := by
  have hn : NullMeasurableSet (Set.univ.pi S) (Measure.pi fun _ : Fin n => μ) := by
    choose T hT hST using hS
    exact ⟨Set.univ.pi T, MeasurableSet.univ_pi hT, Measure.ae_eq_set_pi fun i _ => hST i⟩
  have := Measure.map_apply₀ (μ := P) (f := V) (s := Set.univ.pi S) hV.aemeasurable (by rw [lV]; exact hn)
  rw [lV, Measure.pi_pi] at this
  rw [this]
  congr 1
  ext ω
  simp

theorem sandwich_null {Q : ℝ → Prop} {F : ℝ} (ha : ∀ u, 0 ≤ u → u < 1 → u < F → Q u)
    (hb : ∀ u, 0 ≤ u → u < 1 → Q u → u ≤ F) : NullMeasurableSet {u | Q u} unif := by
  refine ⟨Set.Iio F, measurableSet_Iio, ?_⟩
  have h1 : ∀ᵐ u ∂unif, 0 ≤ u ∧ u < 1 := by
    unfold unif
    exact (ae_restrict_iff' measurableSet_Ico).mpr (Filter.Eventually.of_forall fun u hu => hu)
  have h2 : ∀ᵐ u ∂unif, u ≠ F := by
    unfold unif
    exact ae_restrict_of_ae (Measure.ae_ne volume F)
  filter_upwards [h1, h2] with u hu hne
  apply propext
  exact ⟨fun h => lt_of_le_of_ne (hb u hu.1 hu.2 h) hne, fun h => ha u hu.1 hu.2 h⟩

theorem pair_law (hU : Stream P U) {i j : ℕ} (hij : i ≠ j) :
    Measure.map (fun ω => (U i ω, U j ω)) P = unif2 := by
  haveI := stream_prob hU
  have h := (indepFun_iff_map_prod_eq_prod_map_map (hU.meas i).aemeasurable (hU.meas j).aemeasurable).mp
    (hU.indep.indepFun hij)
  rw [hU.law, hU.law] at h
  exact h

theorem triple_law (hU : Stream P U) {i j l : ℕ} (hij : i ≠ j) (hil : i ≠ l) (hjl : j ≠ l) :
    Measure.map (fun ω => (U i ω, U j ω, U l ω)) P = unif3 := by
  haveI := stream_prob hU
  have hi : IndepFun (U i) (fun ω => (U j ω, U l ω)) P :=
    (hU.indep.indepFun_prodMk hU.meas j l i hij.symm hil.symm).symm
  have h := (indepFun_iff_map_prod_eq_prod_map_map (hU.meas i).aemeasurable
    ((hU.meas j).prodMk (hU.meas l)).aemeasurable).mp hi
  rw [hU.law, pair_law hU hjl] at h
  exact h

theorem triple_indep (hU : Stream P U) {a b c d e f : ℕ} (h : Disjoint ({a, b, c} : Finset ℕ) {d, e, f}) :
    IndepFun (fun ω => (U a ω, U b ω, U c ω)) (fun ω => (U d ω, U e ω, U f ω)) P := by
  have := hU.indep.indepFun_finset _ _ h hU.meas
  have m1 : Measurable fun v : ({a, b, c} : Finset ℕ) → ℝ => (v ⟨a, by simp⟩, v ⟨b, by simp⟩, v ⟨c, by simp⟩) := by
    fun_prop
  have m2 : Measurable fun v : ({d, e, f} : Finset ℕ) → ℝ => (v ⟨d, by simp⟩, v ⟨e, by simp⟩, v ⟨f, by simp⟩) := by
    fun_prop
  exact this.comp m1 m2

/-- The position in the stream of the numbers of point `k` of `n`, from position `a` on: component `m` of `d`. For
`k ≥ n` numbers that the call does not use. -/
def pos (d a n k m : ℕ) : ℕ := if k < n then a + m*n + k else a + d*k + m

theorem pos_inj {d a n k k' m m' : ℕ} (hm : m < d) (hm' : m' < d) (h : pos d a n k m = pos d a n k' m') :
    k = k' ∧ m = m' := by
  unfold pos at h
  have key : ∀ {k k' m m' : ℕ}, m < d → m' < d → k < n → ¬ k' < n → a + m*n + k ≠ a + d*k' + m' := by
    intro k k' m m' hm hm' h1 h2 h
    have e1 : (m+1)*n ≤ d*n := Nat.mul_le_mul_right n hm
    have e2 : d*n ≤ d*k' := Nat.mul_le_mul_left d (by omega)
    have : (m+1)*n = m*n + n := by ring
    omega
  have eq1 : ∀ {b x y x' y' : ℕ}, y < b → y' < b → x*b + y = x'*b + y' → y = y' ∧ x = x' := by
    intro b x y x' y' hy hy' h
    have e1 : (x*b + y) % b = (x'*b + y') % b := by rw [h]
    have hb : 0 < b := by omega
    rw [Nat.mul_comm, Nat.mul_add_mod, Nat.mul_comm x' b, Nat.mul_add_mod, Nat.mod_eq_of_lt hy,
      Nat.mod_eq_of_lt hy'] at e1
    subst e1
    exact ⟨rfl, Nat.eq_of_mul_eq_mul_right hb (by omega)⟩
  split_ifs at h with h1 h2 h2
  · exact eq1 h1 h2 (by omega)
  · exact absurd h (key hm hm' h1 h2)
  · exact absurd h.symm (key hm' hm h2 h1)
  · have := eq1 (b := d) (x := k) (x' := k') hm hm' (by rw [Nat.mul_comm k, Nat.mul_comm k']; omega)
    exact ⟨this.2, this.1⟩

end

end Magpie.Draws
