import Verif.Model.RandomsCubic
import Verif.Proof.Spline
import Verif.Proof.Box2Ring
import Verif.Props.Subsample
import Mathlib.Data.List.GetD
import Mathlib.Tactic.ComputeDegree

/-!
# Property C124: draws from a table with the default cubic interpolation
-/

set_option linter.unusedSimpArgs false
set_option linter.unusedVariables false
set_option linter.unusedSectionVars false

namespace Magpie.Props
open Magpie Magpie.OneD Magpie.Polar Magpie.Radial Magpie.Randoms Magpie.Spec
open Polynomial (natDegree)

private theorem getD_lt {xs : List ℝ} (h : xs.Pairwise (· < ·)) {i j : ℕ} (hij : i < j) (hj : j < xs.length) :
    xs.getD i 0 < xs.getD j 0 := by
  rw [List.getD_eq_getElem _ _ hj, List.getD_eq_getElem _ _ (by omega : i < xs.length)]
  exact List.pairwise_iff_getElem.mp h i j _ _ hij

/-- C124: through four or more points there is exactly one cubic spline with not-a-knot ends, so the parameter of the
model exists and the draws do not depend on it. -/
theorem C124_unique : (∃ spline, IsCubicSpline spline) ∧ ∀ (xs ys : List ℝ), 4 ≤ xs.length → xs.Pairwise (· < ·) →
    ∀ s s' : ℝ → ℝ, NotAKnot xs.length (fun i => xs.getD i 0) (fun i => ys.getD i 0) s →
      NotAKnot xs.length (fun i => xs.getD i 0) (fun i => ys.getD i 0) s' →
      ∀ u, xs.getD 0 0 ≤ u → u ≤ xs.getD (xs.length - 1) 0 → s u = s' u := by
  classical
  refine ⟨⟨fun xs ys => if h : 4 ≤ xs.length ∧ xs.Pairwise (· < ·) then
    (Spline.exists_spline h.1 (t := fun i => xs.getD i 0) (fun i hi => getD_lt h.2 (Nat.lt_succ_self i) hi)
      (fun i => ys.getD i 0)).choose else 0, ?_⟩, ?_⟩
  · intro xs ys h1 h2 h3
    beta_reduce
    rw [dif_pos ⟨h1, h3⟩]
    exact (Spline.exists_spline h1 (t := fun i => xs.getD i 0) (fun i hi => getD_lt h3 (Nat.lt_succ_self i) hi)
      (fun i => ys.getD i 0)).choose_spec
  · intro xs ys h1 h2 s s' h h'
    exact Spline.unique h1 (fun i hi => getD_lt h2 (Nat.lt_succ_self i) hi) h h'

section
variable (spline : List ℝ → List ℝ → ℝ → ℝ)

private theorem assert_ends {cdf : List ℝ} (h0 : cdf.head? = some 0) (h1 : cdf.getLast? = some 1) :
    cdfAssert (cdf.map some) = .ok () := by
  unfold cdfAssert pyGet pyLast
  rw [List.getElem?_map, ← List.head?_eq_getElem?, h0, List.getLast?_map, h1]
  simp [bind, Except.bind, pyAssert]

/-- C124: which tables are accepted. A table from 0 to 1 is accepted if it has as many abscissas as entries, at least
four, and no entry twice; everything else is a `ValueError`. -/
theorem C124_accepts (x cdf u : List ℝ) (h0 : cdf.head? = some 0) (h1 : cdf.getLast? = some 1)
    (hu : ∀ v ∈ u, 0 ≤ v ∧ v < 1) :
    (x.length = cdf.length ∧ 4 ≤ cdf.length ∧ cdf.Nodup →
      ∃ out, randomsCdfCubic spline x cdf u = .ok out ∧ out.length = u.length) ∧
    (¬ (x.length = cdf.length ∧ 4 ≤ cdf.length ∧ cdf.Nodup) →
      randomsCdfCubic spline x cdf u = .error .valueError) := by
  classical
  set z := (cdf.zip x).mergeSort fun a b => decide (a.1 ≤ b.1) with hz
  have hsort : (z.map Prod.fst).Pairwise (· ≤ ·) := by
    have := List.pairwise_mergeSort (le := fun a b : ℝ × ℝ => decide (a.1 ≤ b.1))
      (fun a b c h1 h2 => by simp only [decide_eq_true_eq] at *; exact h1.trans h2)
      (fun a b => by simp only [Bool.or_eq_true, decide_eq_true_eq]; exact le_total _ _) (cdf.zip x)
    rw [List.pairwise_map]
    exact this.imp fun h => by simpa using h
  have hperm : x.length = cdf.length → (z.map Prod.fst).Perm cdf := by
    intro hl
    have := (List.mergeSort_perm (cdf.zip x) fun a b => decide (a.1 ≤ b.1)).map Prod.fst
    rwa [List.map_fst_zip (by omega)] at this
  have hnd : x.length = cdf.length → ((z.map Prod.fst).Pairwise (· < ·) ↔ cdf.Nodup) := by
    intro hl
    rw [← (hperm hl).nodup_iff]
    constructor
    · exact fun h => h.imp fun h => ne_of_lt h
    · intro h
      exact (hsort.and h).imp fun h => lt_of_le_of_ne h.1 h.2
  constructor
  · rintro ⟨hl, h4, hn⟩
    have hlen : (z.map Prod.fst).length = cdf.length := (hperm hl).length_eq
    have hm0 : (0:ℝ) ∈ z.map Prod.fst := (hperm hl).mem_iff.mpr (List.mem_of_head? h0)
    have hm1 : (1:ℝ) ∈ z.map Prod.fst := (hperm hl).mem_iff.mpr (List.mem_of_getLast? h1)
    obtain ⟨lo, rest, hlo⟩ := List.exists_cons_of_ne_nil (List.ne_nil_of_mem hm0)
    have hlo0 : lo ≤ 0 := by
      rw [hlo] at hsort hm0
      rcases List.mem_cons.mp hm0 with h | h
      · exact h.symm.le
      · exact (List.pairwise_cons.mp hsort).1 _ h
    obtain ⟨init, hi, hhi⟩ : ∃ init hi, z.map Prod.fst = init ++ [hi] :=
      ⟨_, _, (List.dropLast_append_getLast (List.ne_nil_of_mem hm0)).symm⟩
    have hhi1 : 1 ≤ hi := by
      have hs := hsort
      rw [hhi] at hs hm1
      rcases List.mem_append.mp hm1 with h | h
      · exact (List.pairwise_append.mp hs).2.2 _ h _ (List.mem_singleton.mpr rfl)
      · rw [List.mem_singleton] at h; exact h.le
    have e0 : pyGet (z.map Prod.fst) 0 = .ok lo := by rw [hlo]; rfl
    have e1 : pyLast (z.map Prod.fst) = .ok hi := by
      rw [hhi]; unfold pyLast; rw [List.getLast?_append]; rfl
    have hf : interp1dCubic spline cdf x = .ok fun v =>
        if v < lo ∨ hi < v then .error .valueError else .ok (spline (z.map Prod.fst) (z.map Prod.snd) v) := by
      unfold interp1dCubic
      rw [if_neg (by simpa using hl.symm), if_neg (by omega), ← hz, if_pos ((hnd hl).mpr hn), e0, e1]
      rfl
    refine ⟨u.map (spline (z.map Prod.fst) (z.map Prod.snd)), ?_, List.length_map _⟩
    unfold randomsCdfCubic
    rw [assert_ends h0 h1, hf]
    refine Box2Ring.pyMap_ok _ _ _ fun v hv => ?_
    have := hu v hv
    rw [if_neg (by push Not; constructor <;> linarith)]
  · intro hno
    have hf : interp1dCubic spline cdf x = .error .valueError := by
      unfold interp1dCubic
      by_cases hl : cdf.length = x.length
      · rw [if_neg (by simpa using hl)]
        by_cases h4 : cdf.length < 4
        · rw [if_pos h4]
        · rw [if_neg h4, ← hz, if_neg]
          intro hp
          exact hno ⟨hl.symm, by omega, (hnd hl.symm).mp hp⟩
      · rw [if_pos hl]
    unfold randomsCdfCubic
    rw [assert_ends h0 h1, hf]
    rfl

/-- For an increasing table the draws are the values of the spline. -/
theorem cubic_run {x cdf u : List ℝ} (h0 : cdf.head? = some 0) (h1 : cdf.getLast? = some 1)
    (hu : ∀ v ∈ u, 0 ≤ v ∧ v < 1) (hl : x.length = cdf.length) (h4 : 4 ≤ cdf.length) (hinc : cdf.Pairwise (· < ·)) :
    randomsCdfCubic spline x cdf u = .ok (u.map (spline cdf x)) := by
  classical
  have hz : ((cdf.zip x).mergeSort fun a b => decide (a.1 ≤ b.1)) = cdf.zip x := by
    apply List.mergeSort_of_pairwise
    have : ((cdf.zip x).map Prod.fst).Pairwise (· < ·) := by rwa [List.map_fst_zip (by omega)]
    rw [List.pairwise_map] at this
    exact this.imp fun h => by simpa using h.le
  have e0 : pyGet cdf 0 = .ok 0 := by unfold pyGet; rw [← List.head?_eq_getElem?, h0]
  have e1 : pyLast cdf = .ok 1 := by unfold pyLast; rw [h1]
  have hf : interp1dCubic spline cdf x = .ok fun v =>
      if v < 0 ∨ 1 < v then .error .valueError else .ok (spline cdf x v) := by
    unfold interp1dCubic
    rw [if_neg (by simpa using hl.symm), if_neg (by omega), hz]
    simp only [List.map_fst_zip (show cdf.length ≤ x.length by omega),
      List.map_snd_zip (show x.length ≤ cdf.length by omega)]
    rw [if_pos hinc, e0, e1]
    rfl
  unfold randomsCdfCubic
  rw [assert_ends h0 h1, hf]
  refine Box2Ring.pyMap_ok _ _ _ fun v hv => ?_
  have := hu v hv
  rw [if_neg (by push Not; constructor <;> linarith)]

variable (hs : IsCubicSpline spline) (x cdf u : List ℝ) (n : ℕ) (hn : 3 ≤ n) (hc : cdf.length = n + 1)
  (hx : x.length = n + 1) (h0 : cdf.getD 0 0 = 0) (h1 : cdf.getD n 0 = 1)
  (hinc : ∀ i j, i < j → j ≤ n → cdf.getD i 0 < cdf.getD j 0)

section
include hn hc hx h0 h1 hinc

private theorem table : cdf.head? = some 0 ∧ cdf.getLast? = some 1 ∧ x.length = cdf.length ∧ 4 ≤ cdf.length ∧
    cdf.Pairwise (· < ·) := by
  have g : ∀ k, k ≤ n → cdf[k]? = some (cdf.getD k 0) := by
    intro k hk
    rw [List.getD_eq_getElem?_getD, List.getElem?_eq_getElem (by omega)]; rfl
  refine ⟨?_, ?_, by omega, by omega, ?_⟩
  · rw [List.head?_eq_getElem?, g 0 (by omega), h0]
  · rw [List.getLast?_eq_getElem?, hc, Nat.add_sub_cancel, g n le_rfl, h1]
  · rw [List.pairwise_iff_getElem]
    intro i j hi hj hij
    have := hinc i j hij (by omega)
    rwa [List.getD_eq_getElem _ _ hj, List.getD_eq_getElem _ _ hi] at this

include hs

/-- C124: the draws of an increasing table are the values of the cubic spline through the points of the table, one for
each variate. -/
theorem C124_spline (hu : ∀ v ∈ u, 0 ≤ v ∧ v < 1) (s : ℝ → ℝ)
    (hS : NotAKnot (n+1) (fun i => cdf.getD i 0) (fun i => x.getD i 0) s) :
    randomsCdfCubic spline x cdf u = .ok (u.map s) := by
  obtain ⟨a, b, c, d, e⟩ := table x cdf n hn hc hx h0 h1 hinc
  rw [cubic_run spline a b hu c d e]
  congr 1
  refine List.map_congr_left fun v hv => ?_
  have hh := hs cdf x d c e
  rw [hc] at hh
  refine Spline.unique (by omega) (fun i hi => hinc i (i+1) (Nat.lt_succ_self i) (by omega)) hh hS v ?_ ?_
  · show cdf.getD 0 0 ≤ v; rw [h0]; exact (hu v hv).1
  · show v ≤ cdf.getD (n + 1 - 1) 0; rw [Nat.add_sub_cancel, h1]; exact (hu v hv).2.le

/-- C124: a variate that is in the table gives its abscissa. -/
theorem C124_table (k : ℕ) (hk : k < n) : randomsCdfCubic spline x cdf [cdf.getD k 0] = .ok [x.getD k 0] := by
  obtain ⟨a, b, c, d, e⟩ := table x cdf n hn hc hx h0 h1 hinc
  rw [cubic_run spline a b ?_ c d e]
  · obtain ⟨P, -, -, p3, -⟩ := hs cdf x d c e
    have := p3 k (by omega)
    beta_reduce at this
    rw [List.map_cons, List.map_nil, this]
  · intro v hv
    rw [List.mem_singleton] at hv
    subst hv
    refine ⟨?_, ?_⟩
    · rcases Nat.eq_zero_or_pos k with rfl | hp
      · exact h0.ge
      · exact h0.symm.le.trans (hinc 0 k hp hk.le).le
    · rw [← h1]; exact hinc k n hk le_rfl

/-- C124: a table that is a polynomial of degree at most three of the variate is drawn from without error. -/
theorem C124_cubic (hu : ∀ v ∈ u, 0 ≤ v ∧ v < 1) (p : Polynomial ℝ) (hp : p.natDegree ≤ 3)
    (hxp : ∀ k ≤ n, x.getD k 0 = p.eval (cdf.getD k 0)) :
    randomsCdfCubic spline x cdf u = .ok (u.map fun v => p.eval v) := by
  refine C124_spline spline hs x cdf u n hn hc hx h0 h1 hinc hu _ ⟨fun _ => p, fun _ => hp, fun _ _ _ _ _ => rfl,
    fun i hi => (hxp i (by omega)).symm, fun _ _ => ⟨rfl, rfl⟩, rfl, rfl⟩

/-- C124 (partial: if the spline increases): the draws are in the range of the abscissas and the probability of a draw
of at most the abscissa `x[k]` is the table entry `cdf[k]`. -/
theorem C124_law_partial (s : ℝ → ℝ) (hS : NotAKnot (n+1) (fun i => cdf.getD i 0) (fun i => x.getD i 0) s)
    (hmono : StrictMonoOn s (Set.Icc 0 1)) :
    (∀ v, 0 ≤ v → v < 1 → ∃ d, randomsCdfCubic spline x cdf [v] = .ok [d] ∧ x.getD 0 0 ≤ d ∧ d < x.getD n 0) ∧
    ∀ k ≤ n, unif {v | ∃ d, randomsCdfCubic spline x cdf [v] = .ok [d] ∧ d ≤ x.getD k 0}
      = ENNReal.ofReal (cdf.getD k 0) := by
  have hrun : ∀ v, 0 ≤ v → v < 1 → randomsCdfCubic spline x cdf [v] = .ok [s v] := by
    intro v hv hv'
    exact C124_spline spline hs x cdf [v] n hn hc hx h0 h1 hinc (by simpa using ⟨hv, hv'⟩) s hS
  have hval : ∀ k ≤ n, s (cdf.getD k 0) = x.getD k 0 := by
    obtain ⟨P, -, -, p3, -⟩ := hS
    exact fun k hk => p3 k (by omega)
  have hin : ∀ k ≤ n, 0 ≤ cdf.getD k 0 ∧ cdf.getD k 0 ≤ 1 := by
    intro k hk
    constructor
    · rcases Nat.eq_zero_or_pos k with rfl | hp
      · exact h0.ge
      · exact h0.symm.le.trans (hinc 0 k hp hk).le
    · rcases hk.eq_or_lt with rfl | hp
      · exact h1.le
      · rw [← h1]; exact (hinc k n hp le_rfl).le
  constructor
  · intro v hv hv'
    refine ⟨s v, hrun v hv hv', ?_, ?_⟩
    · rw [← hval 0 (by omega), h0]
      exact hmono.monotoneOn ⟨le_rfl, zero_le_one⟩ ⟨hv, hv'.le⟩ hv
    · rw [← hval n le_rfl, h1]
      exact hmono ⟨hv, hv'.le⟩ ⟨zero_le_one, le_rfl⟩ hv'
  · intro k hk
    obtain ⟨c0, c1⟩ := hin k hk
    have hset : {v | ∃ d, randomsCdfCubic spline x cdf [v] = .ok [d] ∧ d ≤ x.getD k 0} ∩ Set.Ico 0 1
        = Set.Icc 0 (cdf.getD k 0) ∩ Set.Ico 0 1 := by
      ext v
      simp only [Set.mem_inter_iff, Set.mem_setOf_eq, Set.mem_Ico, Set.mem_Icc]
      constructor
      · rintro ⟨⟨d, e, hd⟩, hv, hv'⟩
        rw [hrun v hv hv'] at e
        simp only [Except.ok.injEq, List.cons.injEq, and_true] at e
        subst e
        refine ⟨⟨hv, ?_⟩, hv, hv'⟩
        by_contra hlt
        push Not at hlt
        have := hmono ⟨c0, c1⟩ ⟨hv, hv'.le⟩ hlt
        rw [hval k hk] at this
        linarith
      · rintro ⟨⟨-, hle⟩, hv, hv'⟩
        refine ⟨⟨_, hrun v hv hv', ?_⟩, hv, hv'⟩
        rw [← hval k hk]
        exact hmono.monotoneOn ⟨hv, hv'.le⟩ ⟨c0, c1⟩ hle
    unfold unif
    rw [MeasureTheory.Measure.restrict_apply' measurableSet_Ico, hset]
    refine le_antisymm ?_ ?_
    · refine (MeasureTheory.measure_mono Set.inter_subset_left).trans ?_
      rw [Real.volume_Icc, sub_zero]
    · have : Set.Ico 0 (cdf.getD k 0) ⊆ Set.Icc 0 (cdf.getD k 0) ∩ Set.Ico 0 1 :=
        fun v hv => ⟨⟨hv.1, hv.2.le⟩, hv.1, hv.2.trans_le c1⟩
      refine le_trans ?_ (MeasureTheory.measure_mono this)
      rw [Real.volume_Ico, sub_zero]

end

/-! ## randoms_pdf -/

private theorem pdf_run {xmid pdf u x cdf norm : List ℝ} (e : pdf2cdf xmid pdf = .ok (x, cdf.map some, norm.map some))
    (cass : cdfAssert (cdf.map some) = .ok ()) : randomsPdfCubic spline xmid pdf u = randomsCdfCubic spline x cdf u := by
  have hmap : (cdf.map some).mapM id = some cdf := by
    have : ∀ l : List ℝ, (l.map some).mapM id = some l := by
      intro l
      induction l with
      | nil => rfl
      | cons a l ih => simp [List.mapM_cons, ih]
    exact this cdf
  unfold randomsPdfCubic
  rw [e]
  simp only [bind, Except.bind, cass, hmap]

section
variable (xmid pdf v : List ℝ) (N : ℕ) (hN : 2 ≤ N) (hxm : xmid.length = N)
  (hp : pdf.length = N) (x0 dx : ℝ) (hdx : 0 < dx) (huni : ∀ k, k < N → xmid.getD k 0 = x0 + k*dx)
include hN hxm hp hdx huni

/-- C124: `randoms_pdf` with the default interpolation raises `ValueError` for two bins and for every PDF with an
empty bin. -/
theorem C124_pdf_rejects (hpos : ∀ p ∈ pdf, 0 ≤ p) (hsum : 0 < ∑ i ∈ Finset.range N, pdf.getD i 0)
    (hv : ∀ w ∈ v, 0 ≤ w ∧ w < 1) (h : N = 2 ∨ 0 ∈ pdf) : randomsPdfCubic spline xmid pdf v = .error .valueError := by
  obtain ⟨x, cdf, norm, e, lx, lc, ln, gx, gn, c0, c1, cinc, cmono, cass⟩ :=
    C60_cdf xmid pdf N hN hxm hp x0 dx hdx huni hpos hsum
  rw [pdf_run spline e cass]
  have g : ∀ k, k ≤ N → cdf[k]? = some (cdf.getD k 0) := by
    intro k hk
    rw [List.getD_eq_getElem?_getD, List.getElem?_eq_getElem (by omega)]; rfl
  refine (C124_accepts spline x cdf v (by rw [List.head?_eq_getElem?, g 0 (by omega), c0])
    (by rw [List.getLast?_eq_getElem?, lc, Nat.add_sub_cancel, g N le_rfl, c1]) hv).2 ?_
  rintro ⟨-, h4, hnd⟩
  rcases h with h | h
  · omega
  · obtain ⟨k, hk, hk0⟩ := List.getElem_of_mem h
    have hkN : k < N := by omega
    have h1 := cinc k hkN
    rw [gn k hkN, List.getD_eq_getElem _ _ hk, hk0, zero_div, zero_mul, add_zero] at h1
    rw [List.getD_eq_getElem _ _ (by omega : k + 1 < cdf.length), List.getD_eq_getElem _ _ (by omega : k < cdf.length)]
      at h1
    have := (hnd.getElem_inj_iff).mp h1
    omega

include hs

/-- C124: a constant PDF of three or more bins gives uniform draws on the range of the bins. -/
theorem C124_uniform (hN3 : 3 ≤ N) (c : ℝ) (hcpos : 0 < c) (hconst : ∀ p ∈ pdf, p = c) (hv : ∀ w ∈ v, 0 ≤ w ∧ w < 1) :
    randomsPdfCubic spline xmid pdf v = .ok (v.map fun w => x0 - dx/2 + w*(N*dx)) := by
  have hpk : ∀ k < N, pdf.getD k 0 = c := by
    intro k hk
    rw [List.getD_eq_getElem _ _ (by omega : k < pdf.length)]
    exact hconst _ (List.getElem_mem _)
  have hsum : ∑ i ∈ Finset.range N, pdf.getD i 0 = N*c := by
    rw [Finset.sum_congr rfl fun k hk => hpk k (Finset.mem_range.mp hk)]
    simp
  have hN0 : (0:ℝ) < N := by exact_mod_cast (by omega : 0 < N)
  obtain ⟨x, cdf, norm, e, lx, lc, ln, gx, gn, c0, c1, cinc, cmono, cass⟩ :=
    C60_cdf xmid pdf N hN hxm hp x0 dx hdx huni (fun p h => by rw [hconst p h]; exact hcpos.le) (by rw [hsum]; positivity)
  have hck : ∀ k, k ≤ N → cdf.getD k 0 = k/N := by
    intro k
    induction k with
    | zero => intro _; rw [c0]; simp
    | succ k ih =>
      intro hk
      rw [cinc k (by omega), ih (by omega), gn k (by omega), hpk k (by omega), hsum]
      push_cast
      field_simp
  rw [pdf_run spline e cass, C124_cubic spline hs x cdf v N hN3 lc lx c0 c1 (by
    intro i j hij hj
    rw [hck i (by omega), hck j hj]
    have : (i:ℝ) < j := by exact_mod_cast hij
    exact div_lt_div_of_pos_right this hN0) hv
    (Polynomial.C (x0 - dx/2) + Polynomial.C (N*dx)*Polynomial.X) (by compute_degree <;> norm_num) (by
      intro k hk
      rw [gx k hk, hck k hk]
      simp
      field_simp)]
  congr 1
  refine List.map_congr_left fun w _ => ?_
  simp
  ring

end

include hs in
/-- C124, violated: for the PDF `8, 1, 1` on bins with centres 0, 1, 2, so abscissas from -1/2 to 5/2, every variate
between 0 and 2/3 gives a number below -1/2: two draws out of three are outside of the bins. -/
theorem C124_violated :
    (∀ w : ℝ, 0 < w → w ≤ 2/3 → ∃ d, randomsPdfCubic spline [0, 1, 2] [8, 1, 1] [w] = .ok [d] ∧ d < -1/2) ∧
    ENNReal.ofReal (2/3) ≤ unif {w | ∃ d, randomsPdfCubic spline [0, 1, 2] [8, 1, 1] [w] = .ok [d] ∧ d < -1/2} := by
  have key : ∀ w : ℝ, 0 < w → w ≤ 2/3 →
      ∃ d, randomsPdfCubic spline [0, 1, 2] [8, 1, 1] [w] = .ok [d] ∧ d < -1/2 := by
    intro w hw hw'
    obtain ⟨x, cdf, norm, e, lx, lc, ln, gx, gn, c0, c1, cinc, cmono, cass⟩ :=
      C60_cdf (K := ℝ) [0, 1, 2] [8, 1, 1] 3 (by norm_num) rfl rfl 0 1 one_pos (by
        intro k hk
        interval_cases k <;> norm_num) (by norm_num) (by norm_num [Finset.sum_range_succ])
    have hsum : ∑ i ∈ Finset.range 3, ([8, 1, 1] : List ℝ).getD i 0 = 10 := by norm_num [Finset.sum_range_succ]
    have k1 : cdf.getD 1 0 = 8/10 := by
      rw [cinc 0 (by norm_num), gn 0 (by norm_num), hsum, c0]; norm_num
    have k2 : cdf.getD 2 0 = 9/10 := by
      rw [cinc 1 (by norm_num), gn 1 (by norm_num), hsum, k1]; norm_num
    have hx : ∀ k ≤ 3, x.getD k 0 = -1/2 + k := by
      intro k hk
      rw [gx k hk]; ring
    rw [pdf_run spline e cass, C124_cubic spline hs x cdf [w] 3 le_rfl lc lx c0 c1 ?_ ?_
      (Polynomial.C (-1/2) + Polynomial.C (-487/36)*Polynomial.X + Polynomial.C (105/4)*Polynomial.X^2
        + Polynomial.C (-175/18)*Polynomial.X^3) (by compute_degree) ?_]
    · refine ⟨_, rfl, ?_⟩
      simp only [Polynomial.eval_add, Polynomial.eval_mul, Polynomial.eval_C, Polynomial.eval_X, Polynomial.eval_pow]
      have : -487/36 + 105/4*w - 175/18*w^2 < 0 := by nlinarith
      nlinarith [mul_pos_of_neg_of_neg this (neg_neg_of_pos hw)]
    · intro i j hij hj
      interval_cases j <;> interval_cases i <;> simp only [c0, c1, k1, k2] <;> norm_num
    · intro v hv
      rw [List.mem_singleton] at hv
      subst hv
      exact ⟨hw.le, by linarith⟩
    · intro k hk
      rw [hx k hk]
      interval_cases k <;> simp only [c0, c1, k1, k2] <;> norm_num
  refine ⟨key, ?_⟩
  unfold unif
  rw [MeasureTheory.Measure.restrict_apply' measurableSet_Ico]
  have : Set.Ioc (0:ℝ) (2/3) ⊆ {w | ∃ d, randomsPdfCubic spline [0, 1, 2] [8, 1, 1] [w] = .ok [d] ∧ d < -1/2}
      ∩ Set.Ico 0 1 := fun w hw => ⟨key w hw.1 hw.2, hw.1.le, by linarith [hw.2]⟩
  refine le_trans ?_ (MeasureTheory.measure_mono this)
  rw [Real.volume_Ioc, sub_zero]

end

/-! ## The hypotheses are met -/

/-- A table of five entries from 0 to 1, in increasing order, that is a square of the variate. -/
private noncomputable def exCdf : List ℝ := [0, 1/4, 1/2, 3/4, 1]
private noncomputable def exX : List ℝ := [0, 1/16, 1/4, 9/16, 1]

example : 3 ≤ 4 ∧ exCdf.length = 4 + 1 ∧ exX.length = 4 + 1 ∧ exCdf.getD 0 0 = 0 ∧ exCdf.getD 4 0 = 1 ∧
    (∀ i j, i < j → j ≤ 4 → exCdf.getD i 0 < exCdf.getD j 0) ∧
    ∀ k ≤ 4, exX.getD k 0 = (Polynomial.X^2 : Polynomial ℝ).eval (exCdf.getD k 0) := by
  refine ⟨by norm_num, rfl, rfl, rfl, rfl, ?_, ?_⟩
  · intro i j hij hj
    interval_cases j <;> interval_cases i <;> norm_num [exCdf]
  · intro k hk
    interval_cases k <;> norm_num [exCdf, exX]

/-- The spline of this table increases on the variates: the hypotheses of `C124_law_partial` are met. -/
example : NotAKnot 5 (fun i => exCdf.getD i 0) (fun i => exX.getD i 0) (fun v => v^2) ∧
    StrictMonoOn (fun v : ℝ => v^2) (Set.Icc 0 1) := by
  refine ⟨⟨fun _ => Polynomial.X^2, fun _ => by simp, fun _ _ _ _ _ => by simp, ?_, fun _ _ => ⟨rfl, rfl⟩, rfl, rfl⟩, ?_⟩
  · intro k hk
    interval_cases k <;> norm_num [exCdf, exX]
  · intro a ha b hb hab
    exact pow_lt_pow_left₀ hab ha.1 (by norm_num)

/-- Tables with and without repeated entries. -/
example : exCdf.head? = some 0 ∧ exCdf.getLast? = some 1 ∧ exX.length = exCdf.length ∧ 4 ≤ exCdf.length ∧ exCdf.Nodup ∧
    ¬ ([0, 1/2, 1/2, 1] : List ℝ).Nodup := by
  refine ⟨rfl, rfl, rfl, by norm_num [exCdf], by norm_num [exCdf], by norm_num⟩

/-- A PDF with an empty bin, and a constant one. -/
example : (∀ p ∈ ([1, 0, 2] : List ℝ), 0 ≤ p) ∧ 0 < ∑ i ∈ Finset.range 3, ([1, 0, 2] : List ℝ).getD i 0 ∧
    (0:ℝ) ∈ ([1, 0, 2] : List ℝ) ∧ (∀ p ∈ ([2, 2, 2] : List ℝ), p = 2) ∧
    ∀ k, k < 3 → ([0, 1, 2] : List ℝ).getD k 0 = 0 + k*1 := by
  refine ⟨by norm_num, by norm_num [Finset.sum_range_succ], by norm_num, by norm_num, ?_⟩
  intro k hk
  interval_cases k <;> norm_num

end Magpie.Props
