import Verif.Proof.DrawsStream
import Mathlib.Probability.ProductMeasure
import Mathlib.Data.List.Sort
import Verif.Proof.Unif

/-!
# Property C115: the law of random draws

`Stream` and `next` are in `Verif/Spec/Draws.lean`.
-/

set_option linter.unusedSimpArgs false
set_option linter.unusedVariables false
set_option linter.unusedSectionVars false

namespace Magpie.Props
open ProbabilityTheory hiding uniformOn
open Magpie Magpie.Polar Magpie.Spec Magpie.Randoms Magpie.Draws MeasureTheory

section
variable {Ω : Type} [MeasurableSpace Ω] (P : Measure Ω) (U : ℕ → Ω → ℝ) (hU : Stream P U)
  (argsort : List ℝ → List ℕ) (hs : IsArgsort argsort) {α : Type}
include hU hs

/-- C115: `shuffle` of `n` different elements returns each of their `n!` orders with the same probability,
whatever was drawn before. -/
theorem C115_shuffle (k : ℕ) (sample l : List α) (hn : sample.Nodup) (hl : l.Perm sample) :
    P {ω | shuffle argsort (next U k sample.length ω) sample = .ok l} = (sample.length.factorial : ENNReal)⁻¹ :=
  shuffle_prob hU hs k hn hl

/-- C115: `random_draw` of `size` out of `n` different elements returns each ordered choice with the same
probability, `1/(n (n-1) … (n-size+1))`. -/
theorem C115_draw (k : ℕ) (sample l : List α) (hn : sample.Nodup) (hl : l.Nodup) (hsub : l ⊆ sample)
    (hlt : l.length < sample.length) :
    P {ω | randomDraw argsort (next U k sample.length ω) sample l.length = .ok l}
      = (sample.length.descFactorial l.length : ENNReal)⁻¹ := by
  obtain ⟨e, he⟩ := positions hn hl hsub
  rw [← argsort_prob hU hs hlt.le k e]
  congr 1
  ext ω
  show randomDraw argsort (next U k sample.length ω) sample l.length = .ok l ↔ _
  have hlen := (hs (next U k sample.length ω)).1.length_eq
  rw [List.length_range, next_length] at hlen
  unfold randomDraw pyAssert
  rw [if_pos (by exact_mod_cast hlt)]
  show gather sample (sliceTo (argsort (next U k sample.length ω)) l.length) = .ok l ↔ _
  rw [gather_positions hn e he, Set.mem_setOf_eq]
  unfold sliceTo sliceBound
  rw [if_neg (by omega), hlen, Int.toNat_natCast, min_eq_left hlt.le]

/-- C115: each element is among the `size` that `random_draw` returns with probability `size/n`. -/
theorem C115_draw_contains (k : ℕ) (sample : List α) (hn : sample.Nodup) (a : α) (ha : a ∈ sample)
    (size : ℕ) (hlt : size < sample.length) :
    P {ω | ∃ out, randomDraw argsort (next U k sample.length ω) sample size = .ok out ∧ a ∈ out}
      = (size : ENNReal)/sample.length := by
  obtain ⟨j, hj, hja⟩ := List.getElem_of_mem ha
  rw [← contains_prob hU hs hlt.le k ⟨j, hj⟩]
  congr 1
  ext ω
  show (∃ out, randomDraw argsort (next U k sample.length ω) sample size = .ok out ∧ a ∈ out) ↔
    j ∈ (argsort (next U k sample.length ω)).take size
  have hp := (hs (next U k sample.length ω)).1
  rw [next_length] at hp
  have hlen := hp.length_eq
  rw [List.length_range] at hlen
  have hb : ∀ i ∈ (argsort (next U k sample.length ω)).take size, i < sample.length := fun i hi =>
    List.mem_range.mp (hp.mem_iff.mp (List.mem_of_mem_take hi))
  obtain ⟨out, e1, e2⟩ := gather_ok sample _ hb
  have hr : randomDraw argsort (next U k sample.length ω) sample size = .ok out := by
    unfold randomDraw pyAssert
    rw [if_pos (by exact_mod_cast hlt)]
    show gather sample (sliceTo (argsort (next U k sample.length ω)) size) = .ok out
    unfold sliceTo sliceBound
    rw [if_neg (by omega), hlen, Int.toNat_natCast, min_eq_left hlt.le, e1]
  rw [hr]
  simp only [Except.ok.injEq, exists_eq_left']
  have h1 : a ∈ out ↔ some a ∈ out.map some := by simp
  rw [h1, e2, List.mem_map]
  constructor
  · rintro ⟨i, hi, h⟩
    have hi' := hb i hi
    rw [List.getElem?_eq_getElem hi', Option.some.injEq, ← hja] at h
    rwa [← (List.Nodup.getElem_inj_iff hn).mp h]
  · intro h
    exact ⟨j, h, by rw [List.getElem?_eq_getElem hj, hja]⟩

/-- C115: `random_prob_draw` without `size` keeps each of the different elements with its probability,
independently of the others, and returns those it keeps in each order with the same probability. -/
theorem C115_prob_draw [DecidableEq α] (k : ℕ) (sample l : List α) (prob : List ℝ) (hn : sample.Nodup)
    (hp : prob.length = sample.length) (h01 : ∀ p ∈ prob, 0 ≤ p ∧ p ≤ 1) (hl : l.Nodup) (hsub : l ⊆ sample) :
    P {ω | randomProbDraw argsort (next U k sample.length ω)
        (fun m => next U (k + sample.length) m ω) sample prob none = .ok l}
      = ENNReal.ofReal (List.zipWith (fun a p => if a ∈ l then p else 1 - p) sample prob).prod
        * (l.length.factorial : ENNReal)⁻¹ := by
  haveI := stream_prob hU
  set n := sample.length with hnn
  set kept := sample.filter fun a => decide (a ∈ l) with hk
  have hkn : kept.Nodup := hn.filter _
  have hlk : l.Perm kept := by
    rw [List.perm_ext_iff_of_nodup hl hkn]
    intro a
    simp only [hk, List.mem_filter, decide_eq_true_eq]
    exact ⟨fun h => ⟨hsub h, h⟩, fun h => h.2⟩
  let S : Fin n → Set ℝ := fun i => {x | x ≤ prob[i.val]'(by omega) ↔ sample[i.val]'(by omega) ∈ l}
  have hS : ∀ i, MeasurableSet (S i) := by
    intro i
    by_cases h : sample[i.val]'(by omega) ∈ l
    · have : S i = Set.Iic (prob[i.val]'(by omega)) := by ext x; simp [S, h]
      rw [this]; exact measurableSet_Iic
    · have : S i = Set.Ioi (prob[i.val]'(by omega)) := by ext x; simp [S, h]
      rw [this]; exact measurableSet_Ioi
  have hB : MeasurableSet (Set.univ.pi S) := MeasurableSet.univ_pi hS
  have hsel : ∀ ω, ∃ sel : List α, (∀ i (hi : i < n), sample[i] ∈ sel ↔ U (k + i) ω ≤ prob[i]'(by omega)) ∧
      sel.Sublist sample ∧
      randomProbDraw argsort (next U k n ω) (fun m => next U (k + n) m ω) sample prob none
        = shuffle argsort (next U (k + n) sel.length ω) sel := by
    intro ω
    have hlen : (next U k n ω).length = n := next_length _ _ _
    have hz : ((next U k n ω).zip prob).length = n := by simp [hlen, hp]
    refine ⟨((sample.zip ((next U k n ω).zip prob)).filter fun x => decide (x.2.1 ≤ x.2.2)).map Prod.fst,
      ?_, ?_, ?_⟩
    · intro i hi
      simp only [List.mem_map, List.mem_filter, decide_eq_true_eq, Prod.exists, exists_and_right,
        exists_eq_right]
      have hui : (next U k n ω)[i]'(by omega) = U (k + i) ω := by simp [next]
      constructor
      · rintro ⟨a, b, h1, h2⟩
        obtain ⟨j, hj, hj'⟩ := List.getElem_of_mem h1
        simp only [List.length_zip, hz] at hj
        simp only [List.getElem_zip, Prod.mk.injEq] at hj'
        obtain ⟨g1, g2, g3⟩ := hj'
        have : j = i := (List.Nodup.getElem_inj_iff hn).mp g1
        subst this
        rw [← hui, g2, g3]; exact h2
      · intro h
        refine ⟨U (k + i) ω, prob[i]'(by omega), ?_, h⟩
        have hi2 : i < (sample.zip ((next U k n ω).zip prob)).length := by
          simp only [List.length_zip, hz]; omega
        have := List.getElem_mem hi2
        simpa only [List.getElem_zip, hui] using this
    · have : (sample.zip ((next U k n ω).zip prob)).map Prod.fst = sample :=
        List.map_fst_zip (by omega)
      conv_rhs => rw [← this]
      exact List.filter_sublist.map _
    · have hg : gather sample (whereIdx (fun x : ℝ × ℝ => decide (x.1 ≤ x.2)) ((next U k n ω).zip prob))
          = .ok (((sample.zip ((next U k n ω).zip prob)).filter fun x => decide (x.2.1 ≤ x.2.2)).map
            Prod.fst) := by
        have h1 : (sample.zip ((next U k n ω).zip prob)).map Prod.fst = sample :=
          List.map_fst_zip (by omega)
        have h2 : (sample.zip ((next U k n ω).zip prob)).map Prod.snd = (next U k n ω).zip prob :=
          List.map_snd_zip (by omega)
        have h3 := gather_whereIdx (fun x : α × ℝ × ℝ => decide (x.2.1 ≤ x.2.2)) Prod.fst
          (sample.zip ((next U k n ω).zip prob))
        rw [h1] at h3
        rw [← h3]
        congr 1
        conv_lhs => rw [← h2]
        unfold whereIdx
        rw [whereFrom_map]
      unfold randomProbDraw
      simp only []
      rw [if_neg (by omega), hg]
      rfl
  have hev : {ω | randomProbDraw argsort (next U k n ω) (fun m => next U (k + n) m ω) sample prob none = .ok l}
      = vec U k n ⁻¹' (Set.univ.pi S)
        ∩ {ω | shuffle argsort (next U (k + n) kept.length ω) kept = .ok l} := by
    ext ω
    obtain ⟨sel, h1, h2, h3⟩ := hsel ω
    simp only [Set.mem_inter_iff, Set.mem_setOf_eq, Set.mem_preimage, Set.mem_univ_pi, h3]
    have hA : (∀ i : Fin n, vec U k n ω i ∈ S i) ↔ sel = kept := by
      constructor
      · intro h
        have hsn : sel.Nodup := h2.nodup hn
        have hpm : sel.Perm kept := by
          rw [List.perm_ext_iff_of_nodup hsn hkn]
          intro a
          simp only [hk, List.mem_filter, decide_eq_true_eq]
          constructor
          · intro ha
            have has := h2.subset ha
            obtain ⟨i, hi, rfl⟩ := List.getElem_of_mem has
            exact ⟨has, (h ⟨i, hi⟩).mp ((h1 i hi).mp ha)⟩
          · rintro ⟨has, ha⟩
            obtain ⟨i, hi, rfl⟩ := List.getElem_of_mem has
            exact (h1 i hi).mpr ((h ⟨i, hi⟩).mpr ha)
        have h4 : kept.Sublist sample := List.filter_sublist
        exact sublist_perm_eq hn h2 h4 hpm
      · rintro h ⟨i, hi⟩
        show U (k + i) ω ≤ _ ↔ sample[i] ∈ l
        rw [← h1 i hi, h, hk, List.mem_filter]
        simp
    rw [hA]
    constructor
    · intro h
      have hs' : sel = kept := by
        obtain ⟨out, g1, g2⟩ := gather_perm_range sel (argsort (next U (k + n) sel.length ω)) (by
          have := (hs (next U (k + n) sel.length ω)).1
          rwa [next_length] at this)
        have : out = l := by
          have : shuffle argsort (next U (k + n) sel.length ω) sel = .ok out := g1
          rw [this] at h
          exact Except.ok.inj h
        subst this
        exact sublist_perm_eq hn h2 List.filter_sublist (g2.symm.trans hlk)
      exact ⟨hs', hs' ▸ h⟩
    · rintro ⟨rfl, h⟩; exact h
  rw [hev, indep_shuffle hU hs k n hkn hlk hB (Filter.EventuallyEq.refl _ _), hlk.length_eq]
  congr 1
  rw [← Measure.map_apply (measurable_vec hU k n) hB, map_vec hU k n]
  unfold cube
  rw [Measure.pi_pi]
  have hval : ∀ i : Fin n, unif (S i)
      = ENNReal.ofReal (if sample[i.val]'(by omega) ∈ l then prob[i.val]'(by omega)
        else 1 - prob[i.val]'(by omega)) := by
    intro i
    obtain ⟨g0, g1⟩ := h01 (prob[i.val]'(by omega)) (List.getElem_mem _)
    have hc : unif (Set.Iic (prob[i.val]'(by omega))) = ENNReal.ofReal (prob[i.val]'(by omega)) :=
      unif_cdf g0 g1 fun u _ _ => Iff.rfl
    by_cases h : sample[i.val]'(by omega) ∈ l
    · rw [if_pos h]
      have : S i = Set.Iic (prob[i.val]'(by omega)) := by ext x; simp [S, h]
      rw [this, hc]
    · rw [if_neg h]
      have : S i = (Set.Iic (prob[i.val]'(by omega)))ᶜ := by ext x; simp [S, h]
      rw [this, prob_compl_eq_one_sub measurableSet_Iic, hc, ENNReal.ofReal_sub _ g0, ENNReal.ofReal_one]
  rw [Finset.prod_congr rfl fun i _ => hval i, ← ENNReal.ofReal_prod_of_nonneg]
  · congr 1
    rw [← List.prod_ofFn]
    congr 1
    apply List.ext_getElem
    · simp [hp, hnn]
    · intro m h1 h2
      simp
  · intro i _
    obtain ⟨g0, g1⟩ := h01 (prob[i.val]'(by omega)) (List.getElem_mem _)
    split_ifs <;> linarith

/-- C115: the order in which `random_prob_draw` with `size` returns the elements it draws is any with the same
probability. -/
theorem C115_sized_order (k : ℕ) (sample l l' : List α) (prob : List ℝ) (hn : sample.Nodup)
    (hp : prob.length = sample.length) (hpos : ∀ p ∈ prob, 0 < p) (hl : l.Nodup) (hsub : l ⊆ sample)
    (hlt : l.length < sample.length) (hll : l.Perm l') :
    P {ω | randomProbDraw argsort (next U k sample.length ω)
        (fun m => next U (k + sample.length) m ω) sample prob (some l.length) = .ok l}
      = P {ω | randomProbDraw argsort (next U k sample.length ω)
        (fun m => next U (k + sample.length) m ω) sample prob (some l.length) = .ok l'} := by
  classical
  rw [sized_prob hU hs k hn hp hpos hlt l rfl, sized_prob hU hs k hn hp hpos hlt l' hll.length_eq.symm]
  congr 2
  ext e
  simp only [Finset.mem_filter, Finset.mem_univ, true_and]
  exact ⟨fun h => h.trans hll, fun h => h.trans hll.symm⟩

/-- C115: with equal probabilities `random_prob_draw` with `size` returns each ordered choice of `size` out of the
`n` different elements with the same probability. -/
theorem C115_sized_equal (k : ℕ) (sample l : List α) (p : ℝ) (h0 : 0 < p) (hn : sample.Nodup)
    (hl : l.Nodup) (hsub : l ⊆ sample) (hlt : l.length < sample.length) :
    P {ω | randomProbDraw argsort (next U k sample.length ω)
        (fun m => next U (k + sample.length) m ω) sample (List.replicate sample.length p) (some l.length) = .ok l}
      = (sample.length.descFactorial l.length : ENNReal)⁻¹ := by
  classical
  have hp : (List.replicate sample.length p).length = sample.length := by simp
  rw [sized_prob hU hs k hn hp (by simp [h0]) hlt l rfl]
  have hA : ∀ e : Fin l.length ↪ Fin sample.length,
      P (vec U k sample.length ⁻¹' Scaled (List.replicate sample.length p) hp e)
        = (sample.length.descFactorial l.length : ENNReal)⁻¹ := by
    intro e
    rw [← first_vec_prob hU k hlt.le e]
    congr 2
    ext u
    simp only [Scaled, First, Set.mem_setOf_eq, List.getElem_replicate]
    simp only [div_lt_div_iff_of_pos_right h0]
  rw [Finset.sum_congr rfl fun e _ => hA e, Finset.sum_const, nsmul_eq_mul, card_rearrange hn hl hsub]
  have hf : (l.length.factorial : ENNReal) ≠ 0 := by exact_mod_cast l.length.factorial_ne_zero
  rw [mul_comm (l.length.factorial : ENNReal), mul_assoc, ENNReal.mul_inv_cancel hf (by simp), mul_one]

/-- C115 is violated by `random_prob_draw` with `size`: of two elements with probabilities `p > q` it draws the first
with probability `1 - q/(2p)`, which is never `p/(p + q)`. -/
theorem C115_sized_violated (k : ℕ) (a b : α) (hab : a ≠ b) (p q : ℝ) (hq : 0 < q) (hqp : q < p) :
    P {ω | randomProbDraw argsort (next U k 2 ω) (fun m => next U (k + 2) m ω) [a, b] [p, q] (some 1) = .ok [a]}
      = ENNReal.ofReal (1 - q/(2*p)) ∧
    ENNReal.ofReal (1 - q/(2*p)) ≠ ENNReal.ofReal (p/(p + q)) := by
  classical
  have hp : 0 < p := hq.trans hqp
  constructor
  · have h := sized_prob hU hs k (sample := [a, b]) (prob := [p, q]) (by simp [hab]) rfl
      (by intro r hr; simp only [List.mem_cons, List.not_mem_nil, or_false] at hr; rcases hr with rfl | rfl <;> assumption)
      (m := 1) (by simp) [a] rfl
    rw [show ((1:ℕ):ℤ) = 1 from rfl] at h
    refine h.trans ?_
    let e0 : Fin 1 ↪ Fin [a, b].length := ⟨fun _ => ⟨0, by simp⟩, fun i j _ => Subsingleton.elim i j⟩
    have hf : (Finset.univ.filter fun e : Fin 1 ↪ Fin [a, b].length =>
        (List.ofFn fun i => [a, b][(e i).val]).Perm [a]) = {e0} := by
      ext e
      simp only [Finset.mem_filter, Finset.mem_univ, true_and, Finset.mem_singleton, List.ofFn_succ,
        List.ofFn_zero, List.perm_singleton, List.cons.injEq, and_true]
      constructor
      · intro he
        ext i
        have hi : i = 0 := Subsingleton.elim _ _
        subst hi
        show (e 0).val = 0
        by_contra hne
        have h1 : (e 0).val = 1 := by have := (e 0).isLt; simp only [List.length_cons, List.length_nil] at this; omega
        simp only [h1] at he
        exact hab (by simpa using he.symm)
      · rintro rfl; rfl
    rw [hf, Finset.sum_singleton]
    simp only [Nat.factorial_one, Nat.cast_one, inv_one, mul_one]
    rw [← ratio_prob hq hqp.le, ← map_pair hU (k := k) (l := k + 1) (by omega),
      Measure.map_apply ((hU.meas _).prodMk (hU.meas _))
        (measurableSet_lt (measurable_fst.div_const _) (measurable_snd.div_const _))]
    congr 1
    ext ω
    show vec U k 2 ω ∈ Scaled [p, q] rfl e0 ↔ U k ω/p < U (k + 1) ω/q
    constructor
    · intro h
      exact h.2 0 ⟨1, by simp⟩ (by rintro ⟨i, hi⟩; simp [e0] at hi)
    · intro h
      refine ⟨fun i j hij => absurd hij (by rw [Subsingleton.elim i j]; exact lt_irrefl _), ?_⟩
      intro i j hj
      have h1 : j = ⟨1, by simp⟩ := by
        have h0 : j.val ≠ 0 := fun h0 => hj ⟨0, Fin.ext h0.symm⟩
        have := j.isLt
        simp only [List.length_cons, List.length_nil] at this
        exact Fin.ext (by show j.val = 1; omega)
      subst h1
      exact h
  · intro h
    have h1 : 0 ≤ 1 - q/(2*p) := by
      rw [sub_nonneg, div_le_one (by positivity)]; linarith
    rw [ENNReal.ofReal_eq_ofReal_iff h1 (by positivity)] at h
    field_simp at h
    nlinarith

end

/-- There is such a stream: the coordinates of a sequence of independent uniform numbers. -/
theorem stream_exists : Stream (Measure.infinitePi fun _ : ℕ => unif) fun (k : ℕ) (x : ℕ → ℝ) => x k where
  meas k := measurable_pi_apply k
  law k := (measurePreserving_eval_infinitePi (fun _ : ℕ => unif) k).map_eq
  indep := iIndepFun_infinitePi (P := fun _ : ℕ => unif) (X := fun _ => id) fun _ => measurable_id

/-- There is such a function for sorting. -/
noncomputable def realArgsort (u : List ℝ) : List ℕ :=
  (List.range u.length).insertionSort fun i j => u.getD i 0 ≤ u.getD j 0

theorem realArgsort_ok : IsArgsort realArgsort := by
  intro u
  refine ⟨List.perm_insertionSort _ _, ?_⟩
  have t1 : Std.Total fun i j : ℕ => u.getD i 0 ≤ u.getD j 0 := ⟨fun a b => le_total _ _⟩
  have t2 : IsTrans ℕ fun i j : ℕ => u.getD i 0 ≤ u.getD j 0 := ⟨fun a b c h1 h2 => le_trans h1 h2⟩
  have h := List.pairwise_insertionSort (fun i j : ℕ => u.getD i 0 ≤ u.getD j 0) (List.range u.length)
  refine h.imp ?_
  intro i j hij a b ha hb
  simpa [List.getD_eq_getElem?_getD, ha, hb] using hij

/-- Three letters are returned in one of the six orders with probability 1/6, and a given pair of them, drawn
after five other numbers, with probability 1/6 as well. -/
example : (Measure.infinitePi fun _ : ℕ => unif)
      {x | shuffle realArgsort (next (fun k (x : ℕ → ℝ) => x k) 0 3 x) ['a', 'b', 'c'] = .ok ['c', 'a', 'b']} = 6⁻¹
    ∧ (Measure.infinitePi fun _ : ℕ => unif)
      {x | randomDraw realArgsort (next (fun k (x : ℕ → ℝ) => x k) 5 3 x) ['a', 'b', 'c'] 2 = .ok ['c', 'a']} = 6⁻¹ := by
  refine ⟨?_, ?_⟩
  · have := C115_shuffle _ _ stream_exists realArgsort realArgsort_ok 0 ['a', 'b', 'c'] ['c', 'a', 'b'] (by decide)
      (by decide)
    exact this.trans (by norm_num [Nat.factorial])
  · have := C115_draw _ _ stream_exists realArgsort realArgsort_ok 5 ['a', 'b', 'c'] ['c', 'a'] (by decide)
      (by decide) (by decide) (by decide)
    exact this.trans (by norm_num [Nat.descFactorial])

end Magpie.Props
