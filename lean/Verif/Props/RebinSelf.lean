import Verif.Proof.RebinSelf

/-!
# Property C112: rebinning onto the same bins, linearity, order and scaling

`Increasing` and `linComb` are in `Verif/Spec/OneD.lean`.
-/

set_option linter.unusedSimpArgs false
set_option linter.unusedVariables false
set_option linter.unusedSectionVars false

namespace Magpie.Props
open Magpie Magpie.OneD Magpie.Spec Finset

section
variable {K : Type} [Field K] [LinearOrder K] [IsStrictOrderedRing K]

theorem increasing_getD {edges : List K} (hinc : Increasing edges) {n : ℕ}
    (hlen : edges.length = n + 1) : ∀ i j, i < j → j ≤ n → edges.getD i 0 < edges.getD j 0 := by
  intro i j hij hj
  have := hinc i j (by omega) (by omega) hij
  simpa [show i < edges.length by omega, show j < edges.length by omega] using this

theorem increasing_mono {edges : List K} (hinc : Increasing edges) : isPosMonotonic edges = true := by
  rw [isPosMonotonic_iff]
  intro i j hi hj hij
  rcases Nat.lt_or_ge i j with h | h
  · exact (hinc i j hi hj h).le
  · have : i = j := by omega
    subst this; exact le_refl _

/-- `newBins edges` as a table. -/
theorem newBins_self (edges : List K) (n : ℕ) (hlen : edges.length = n + 1) :
    newBins edges = tab n fun j => (edges.getD j 0, edges.getD (j+1) 0) := by
  apply List.ext_getElem?
  intro i
  rcases Nat.lt_or_ge i n with h | h
  · rw [tab_getElem? n _ i h]
    apply newBins_get
    · simp [show i < edges.length by omega]
    · simp [show i + 1 < edges.length by omega]
  · rw [List.getElem?_eq_none (by rw [newBins_length]; omega), List.getElem?_eq_none (by simpa using h)]

theorem pyMap_tab {α β : Type} (n : ℕ) (f : ℕ → α) (g : α → Py β) (r : ℕ → β)
    (h : ∀ k, k < n → g (f k) = .ok (r k)) : pyMap g (tab n f) = .ok (tab n r) := by
  rw [pyMap_ok_iff]
  unfold tab
  rw [List.forall₂_map_left_iff, List.forall₂_map_right_iff, List.forall₂_same]
  intro k hk
  exact h k (List.mem_range.mp hk)

theorem self_values (edges v : List K) (hlen : edges.length = v.length + 1) (hinc : Increasing edges) :
    pyMap (fun b => rebinSingleBin edges v b.1 b.2) (newBins edges) = .ok (v.map some) := by
  rw [newBins_self edges v.length hlen]
  have hv : v.map some = tab v.length fun k => some (v.getD k 0) := by
    conv_lhs => rw [list_tab v]
    simp [tab]
  rw [hv]
  apply pyMap_tab
  intro k hk
  have he := increasing_getD hinc hlen
  have := single_self (e := fun k => edges.getD k 0) he hk (fun k => v.getD k 0)
  have ht := list_tab edges
  rw [hlen] at ht
  rw [← ht, ← list_tab v] at this
  exact this

/-! ## C112 -/

/-- C112: rebinning onto the old edges returns the data, for strictly increasing edges (equal or not). -/
theorem C112_same_edges (edges data : List K) (hlen : edges.length = data.length + 1)
    (hinc : Increasing edges) : rebin1d edges data edges none = .ok (data.map some) := by
  unfold rebin1d pyAssert
  have hm := increasing_mono hinc
  rw [if_pos (by omega), if_pos hm]
  exact self_values edges data hlen hinc

/-- C112: with weights the data come back wherever the weight is not 0, and NaN where it is. -/
theorem C112_same_edges_weights (edges data w : List K) (hlen : edges.length = data.length + 1)
    (hw : w.length = data.length) (hinc : Increasing edges) :
    rebin1d edges data edges (some w)
      = .ok (List.zipWith (fun d w => if w = 0 then none else some d) data w) := by
  unfold rebin1d pyAssert
  have hm := increasing_mono hinc
  rw [if_pos (by omega), if_pos hm]
  simp only [bind, Except.bind]
  rw [if_pos hw.symm]
  simp only
  rw [self_values edges (List.zipWith (· * ·) data w) (by simp; omega) hinc,
    self_values edges w (by omega) hinc]
  simp only [pure, Except.pure, Except.ok.injEq]
  rw [List.zipWith_map]
  clear hlen hm hinc
  induction data generalizing w with
  | nil => simp
  | cons d ds ih =>
    cases w with
    | nil => simp
    | cons w ws =>
      simp only [List.length_cons, Nat.add_right_cancel_iff] at hw
      simp only [List.zipWith_cons_cons, List.cons.injEq]
      refine ⟨?_, ih ws hw⟩
      unfold odiv fdiv
      by_cases h : w = 0
      · simp [h]
      · simp [h]

/-- Three bins of lengths 1, 2 and 3. -/
example : Increasing (K := ℚ) [0, 1, 3, 6] ∧
    rebin1d (K := ℚ) [0, 1, 3, 6] [5, -1, 2] [0, 1, 3, 6] none = .ok [some 5, some (-1), some 2] ∧
    rebin1d (K := ℚ) [0, 1, 3, 6] [5, -1, 2] [0, 1, 3, 6] (some [2, 0, -1])
      = .ok [some 5, none, some 2] := by
  refine ⟨?_, by decide +kernel, by decide +kernel⟩
  intro i j hi hj hij
  simp only [List.length_cons, List.length_nil] at hi hj
  have : (i = 0 ∧ (j = 1 ∨ j = 2 ∨ j = 3)) ∨ (i = 1 ∧ (j = 2 ∨ j = 3)) ∨ (i = 2 ∧ j = 3) := by omega
  rcases this with ⟨rfl, rfl | rfl | rfl⟩ | ⟨rfl, rfl | rfl⟩ | ⟨rfl, rfl⟩ <;> norm_num

theorem forall₂_zip3 {α β γ δ : Type} {P : α → β → Prop} {Q : α → γ → Prop} {R : α → δ → Prop}
    (f : β → γ → δ) (h : ∀ a b c, P a b → Q a c → R a (f b c)) {l : List α} {r : List β}
    {s : List γ} (h1 : List.Forall₂ P l r) (h2 : List.Forall₂ Q l s) :
    List.Forall₂ R l (List.zipWith f r s) := by
  induction h1 generalizing s with
  | nil => cases h2; exact .nil
  | cons p1 p2 ih =>
    cases h2 with
    | cons q1 q2 => exact .cons (h _ _ _ p1 q1) (ih q2)

/-- One new bin of a linear combination. -/
theorem single_linear (edges d1 d2 : List K) (a b : K) (hlen : edges.length = d1.length + 1)
    (hl2 : d2.length = d1.length) (he : isPosMonotonic edges = true) (lo hi : K) (hb : lo ≤ hi)
    (x y : Option K) (hx : rebinSingleBin edges d1 lo hi = .ok x)
    (hy : rebinSingleBin edges d2 lo hi = .ok y) :
    rebinSingleBin edges (List.zipWith (fun x y => a*x + b*y) d1 d2) lo hi = .ok (linComb a b x y) ∧
      (x = none ↔ y = none) := by
  have hl3 : (List.zipWith (fun x y => a*x + b*y) d1 d2).length = d1.length := by simp; omega
  rcases Nat.eq_zero_or_pos d1.length with hz | hn
  · have e1 : d1 = [] := List.eq_nil_of_length_eq_zero hz
    have e2 : d2 = [] := List.eq_nil_of_length_eq_zero (by omega)
    subst e1 e2
    obtain ⟨z, rfl⟩ : ∃ z, edges = [z] := List.length_eq_one_iff.mp (by simpa using hlen)
    have hxn := single_empty z lo hi x hx
    have hyn := single_empty z lo hi y hy
    subst hxn hyn
    exact ⟨hx, by simp⟩
  · rcases single_list edges d1 hlen hn he lo hi hb with ⟨ω, _, hpos, hval, _⟩ | ⟨hval, _⟩
    · rw [hval d1 rfl] at hx
      rw [hval d2 hl2] at hy
      cases hx; cases hy
      rw [hval _ hl3]
      refine ⟨?_, by simp⟩
      simp only [linComb, Except.ok.injEq, Option.some.injEq]
      rw [← mul_div_assoc, ← mul_div_assoc, ← add_div, Finset.mul_sum, Finset.mul_sum,
        ← Finset.sum_add_distrib]
      congr 1
      apply Finset.sum_congr rfl
      intro k hk
      rw [Finset.mem_range] at hk
      simp only [List.getD_eq_getElem?_getD, List.getElem?_zipWith]
      rw [List.getElem?_eq_getElem hk, List.getElem?_eq_getElem (show k < d2.length by omega)]
      simp only [Option.getD_some]
      ring
    · rw [hval d1 rfl] at hx
      rw [hval d2 hl2] at hy
      cases hx; cases hy
      rw [hval _ hl3]
      exact ⟨rfl, by simp⟩

/-- The call made by `rebin_1d` when the checks pass. -/
theorem rebin1d_none {edges data newEdges : List K} (hlen : edges.length = data.length + 1)
    (h1 : isPosMonotonic edges = true) (h2 : isPosMonotonic newEdges = true) :
    rebin1d edges data newEdges none
      = pyMap (fun b => rebinSingleBin edges data b.1 b.2) (newBins newEdges) := by
  unfold rebin1d pyAssert
  rw [if_pos (by omega), if_pos h1, if_pos h2]
  rfl

theorem rebin1d_some {edges data newEdges w : List K} (hlen : edges.length = data.length + 1)
    (h1 : isPosMonotonic edges = true) (h2 : isPosMonotonic newEdges = true)
    (hw : w.length = data.length) {num den : List (Option K)}
    (hnum : List.Forall₂ (fun b o =>
      rebinSingleBin edges (List.zipWith (· * ·) data w) b.1 b.2 = .ok o) (newBins newEdges) num)
    (hden : List.Forall₂ (fun b o => rebinSingleBin edges w b.1 b.2 = .ok o) (newBins newEdges) den) :
    rebin1d edges data newEdges (some w) = .ok (List.zipWith odiv num den) := by
  unfold rebin1d pyAssert
  rw [if_pos (by omega), if_pos h1, if_pos h2]
  simp only [bind, Except.bind]
  rw [if_pos hw.symm]
  simp only
  rw [(pyMap_ok_iff _ _ _).mpr hnum, (pyMap_ok_iff _ _ _).mpr hden]
  rfl

theorem forall₂_attach {α β : Type} {P : α → β → Prop} {l : List α} {r : List β}
    (h : List.Forall₂ P l r) : List.Forall₂ (fun a b => a ∈ l ∧ P a b) l r := by
  induction h with
  | nil => exact .nil
  | cons h1 h2 ih =>
    refine .cons ⟨by simp, h1⟩ (ih.imp ?_)
    intro a b hab
    exact ⟨by simp [hab.1], hab.2⟩

theorem odiv_linComb (a b : K) (x y z : Option K) :
    odiv (linComb a b x y) z = linComb a b (odiv x z) (odiv y z) := by
  cases x with
  | none => rfl
  | some x =>
    cases y with
    | none => cases z <;> simp [linComb, odiv]
    | some y =>
      cases z with
      | none => rfl
      | some z =>
        simp only [linComb, odiv, fdiv]
        split_ifs with h
        · rfl
        · simp only [Option.some.injEq]; ring

theorem zipWith_linComb (a b : K) : ∀ (n1 n2 d : List (Option K)),
    List.zipWith odiv (List.zipWith (linComb a b) n1 n2) d
      = List.zipWith (linComb a b) (List.zipWith odiv n1 d) (List.zipWith odiv n2 d)
  | [], _, _ => by simp
  | _ :: _, [], _ => by simp
  | _ :: _, _ :: _, [] => by simp
  | x :: xs, y :: ys, z :: zs => by
    simp only [List.zipWith_cons_cons, odiv_linComb, zipWith_linComb a b xs ys zs]

theorem zipWith_mul_linComb (a b : K) : ∀ (d1 d2 w : List K),
    List.zipWith (· * ·) (List.zipWith (fun x y => a*x + b*y) d1 d2) w
      = List.zipWith (fun x y => a*x + b*y) (List.zipWith (· * ·) d1 w) (List.zipWith (· * ·) d2 w)
  | [], _, _ => by simp
  | _ :: _, [], _ => by simp
  | _ :: _, _ :: _, [] => by simp
  | x :: xs, y :: ys, z :: zs => by
    simp only [List.zipWith_cons_cons, zipWith_mul_linComb a b xs ys zs, List.cons.injEq, and_true]
    ring

/-- C112: rebinning is linear in the data, for all edges, new edges and weights. -/
theorem C112_linear (edges d1 d2 newEdges : List K) (w : Option (List K)) (r1 r2 : List (Option K))
    (a b : K) (h1 : rebin1d edges d1 newEdges w = .ok r1) (h2 : rebin1d edges d2 newEdges w = .ok r2) :
    rebin1d edges (List.zipWith (fun x y => a*x + b*y) d1 d2) newEdges w
      = .ok (List.zipWith (linComb a b) r1 r2) := by
  obtain ⟨hlen, hm, hm', h1⟩ := rebin1d_ok h1
  obtain ⟨hlen2, -, -, h2⟩ := rebin1d_ok h2
  have hl2 : d2.length = d1.length := by omega
  have hl3 : (List.zipWith (fun x y => a*x + b*y) d1 d2).length = d1.length := by simp; omega
  cases w with
  | none =>
    simp only at h1 h2
    rw [rebin1d_none (by omega) hm hm', pyMap_ok_iff]
    refine forall₂_zip3 (linComb a b) ?_ (forall₂_attach h1) h2
    intro bb x y hx hy
    exact (single_linear edges d1 d2 a b hlen hl2 hm bb.1 bb.2 (newBins_mem hm' hx.1) x y hx.2 hy).1
  | some w =>
    obtain ⟨hw, n1, dn1, hn1, hdn1, rfl⟩ := h1
    obtain ⟨-, n2, dn2, hn2, hdn2, rfl⟩ := h2
    have hdd : dn2 = dn1 := by
      have e1 := (pyMap_ok_iff _ _ _).mpr hdn1
      have e2 := (pyMap_ok_iff _ _ _).mpr hdn2
      rw [e1] at e2
      exact (Except.ok.inj e2).symm
    subst hdd
    rw [← zipWith_linComb]
    refine rebin1d_some (by omega) hm hm' (by omega) ?_ hdn1
    rw [zipWith_mul_linComb]
    refine forall₂_zip3 (linComb a b) ?_ (forall₂_attach hn1) hn2
    intro bb x y hx hy
    exact (single_linear edges _ _ a b (by simp; omega) (by simp; omega) hm bb.1 bb.2
      (newBins_mem hm' hx.1) x y hx.2 hy).1

/-- C112: without weights, which new bins are NaN does not depend on the data. -/
theorem C112_nan_edges_only (edges d1 d2 newEdges : List K) (r1 r2 : List (Option K))
    (h1 : rebin1d edges d1 newEdges none = .ok r1) (h2 : rebin1d edges d2 newEdges none = .ok r2)
    (i : ℕ) : r1[i]? = some none ↔ r2[i]? = some none := by
  obtain ⟨hlen, hm, hm', h1⟩ := rebin1d_ok h1
  obtain ⟨hlen2, -, -, h2⟩ := rebin1d_ok h2
  simp only at h1 h2
  have l1 := h1.length_eq
  have l2 := h2.length_eq
  rcases Nat.lt_or_ge i (newBins newEdges).length with hi | hi
  · have hg := List.getElem?_eq_getElem hi
    obtain ⟨x, hx, hx'⟩ := forall₂_get h1 i _ hg
    obtain ⟨y, hy, hy'⟩ := forall₂_get h2 i _ hg
    rw [hx, hy]
    have := (single_linear edges d1 d2 1 1 hlen (by omega) hm _ _
      (newBins_mem hm' (List.getElem_mem hi)) x y hx' hy').2
    simpa using this
  · rw [List.getElem?_eq_none (by omega), List.getElem?_eq_none (by omega)]

/-- C112: larger data give larger values, for weights that are not negative. -/
theorem C112_monotone (edges d1 d2 newEdges : List K) (w : Option (List K)) (r1 r2 : List (Option K))
    (h1 : rebin1d edges d1 newEdges w = .ok r1) (h2 : rebin1d edges d2 newEdges w = .ok r2)
    (hw : ∀ ww, w = some ww → ∀ x ∈ ww, 0 ≤ x)
    (hle : ∀ (k : ℕ) x y, d1[k]? = some x → d2[k]? = some y → x ≤ y) (i : ℕ) (u v : K)
    (hu : r1[i]? = some (some u)) (hv : r2[i]? = some (some v)) : u ≤ v := by
  have h := C112_linear edges d2 d1 newEdges w r2 r1 1 (-1) h2 h1
  have hmem : some (v - u) ∈ List.zipWith (linComb 1 (-1)) r2 r1 := by
    apply List.mem_of_getElem? (i := i)
    rw [List.getElem?_zipWith, hu, hv]
    simp [linComb, sub_eq_add_neg]
  obtain ⟨ω, hω, hne, hval⟩ := rebin1d_mean h (v - u) hmem
  have hω := hω hw
  have hnn : 0 ≤ v - u := by
    rw [hval]
    refine div_nonneg (Finset.sum_nonneg fun k hk => ?_) (Finset.sum_nonneg fun k hk =>
      hω k (Finset.mem_range.mp hk))
    rw [Finset.mem_range] at hk
    refine mul_nonneg (hω k hk) ?_
    simp only [List.length_zipWith] at hk
    simp only [List.getD_eq_getElem?_getD, List.getElem?_zipWith]
    have g1 := List.getElem?_eq_getElem (show k < d1.length by omega)
    have g2 := List.getElem?_eq_getElem (show k < d2.length by omega)
    have := hle k _ _ g1 g2
    rw [g1, g2]
    simp only [Option.getD_some]
    linarith
  linarith

/-- C112: multiplying all weights by a number other than 0 changes nothing. -/
theorem C112_weights_scale (edges data newEdges w : List K) (c : K) (hc : c ≠ 0)
    (r : List (Option K)) (h : rebin1d edges data newEdges (some w) = .ok r) :
    rebin1d edges data newEdges (some (w.map (c * ·))) = .ok r := by
  obtain ⟨hlen, hm, hm', hw, num, den, hnum, hden, rfl⟩ := rebin1d_ok h
  have key : ∀ (v : List K), v.length = data.length → ∀ o : List (Option K),
      List.Forall₂ (fun b o => rebinSingleBin edges v b.1 b.2 = .ok o) (newBins newEdges) o →
      List.Forall₂ (fun b o => rebinSingleBin edges (v.map (c * ·)) b.1 b.2 = .ok o)
        (newBins newEdges) (o.map (Option.map (c * ·))) := by
    intro v hv o ho
    rw [List.forall₂_map_right_iff]
    refine (forall₂_attach ho).imp ?_
    intro b x hx
    have := (single_linear edges v v c 0 (by omega) rfl hm b.1 b.2 (newBins_mem hm' hx.1) x x
      hx.2 hx.2).1
    have e1 : List.zipWith (fun x y => c*x + 0*y) v v = v.map (c * ·) := by
      rw [List.zipWith_self]; simp
    have e2 : linComb c 0 x x = x.map (c * ·) := by cases x <;> simp [linComb]
    rw [e1, e2] at this
    exact this
  have e : List.zipWith (· * ·) data (w.map (c * ·)) = (List.zipWith (· * ·) data w).map (c * ·) := by
    rw [List.zipWith_map_right, List.map_zipWith]
    congr 1
    funext x y
    ring
  have := rebin1d_some hlen hm hm' (w := w.map (c * ·)) (by simpa using hw)
    (num := num.map (Option.map (c * ·))) (den := den.map (Option.map (c * ·)))
    (by rw [e]; exact key _ (by simp; omega) _ hnum) (key _ hw _ hden)
  rw [this, List.zipWith_map]
  congr 2
  funext x y
  cases x with
  | none => rfl
  | some x =>
    cases y with
    | none => rfl
    | some y =>
      simp only [odiv, fdiv, Option.map_some, mul_eq_zero, hc, false_or]
      split_ifs
      · rfl
      · rw [mul_div_mul_left _ _ hc]

/-- Two data sets on unequal bins, a weight of 0 and a new bin outside. -/
example : rebin1d (K := ℚ) [0, 1, 3, 6] [5, -1, 2] [0, 2, 7, 8] (some [1, 0, 3])
      = .ok [some 5, some 2, none] ∧
    rebin1d (K := ℚ) [0, 1, 3, 6] [6, 0, 4] [0, 2, 7, 8] (some [1, 0, 3])
      = .ok [some 6, some 4, none] ∧
    rebin1d (K := ℚ) [0, 1, 3, 6] [2*5-6, 2*(-1)-0, 2*2-4] [0, 2, 7, 8] (some [1, 0, 3])
      = .ok [some 4, some 0, none] := by decide +kernel

end

/-! ### Errors -/

theorem pyMap_scale (edges sigma : List ℝ) (c : ℝ) (hc : c ≠ 0) (bs : List (ℝ × ℝ)) :
    pyMap (fun b => rebinSingleBinSigma edges (sigma.map (c * ·)) b.1 b.2) bs
      = (pyMap (fun b => rebinSingleBinSigma edges sigma b.1 b.2) bs).map
          (List.map (Option.map (|c| * ·))) := by
  induction bs with
  | nil => rfl
  | cons b bs ih =>
    simp only [pyMap, sigma_scale edges sigma b.1 b.2 c hc, ih, bind, Except.bind]
    cases rebinSingleBinSigma edges sigma b.1 b.2 with
    | error e => rfl
    | ok x =>
      cases pyMap (fun b => rebinSingleBinSigma edges sigma b.1 b.2) bs <;> rfl

/-- C112: multiplying the errors of the data by `c ≠ 0` multiplies all returned errors by `|c|` and
leaves the values alone, for all edges and weights, whether or not the call raises. -/
theorem C112_errors_scale (edges data newEdges sigma : List ℝ) (w : Option (List ℝ)) (c : ℝ)
    (hc : c ≠ 0) :
    rebin1dSigma edges data newEdges w (sigma.map (c * ·))
      = (rebin1dSigma edges data newEdges w sigma).map fun r =>
          (r.1, r.2.map (Option.map (|c| * ·))) := by
  unfold rebin1dSigma
  simp only [List.length_map, bind, Except.bind]
  cases pyAssert ((edges.length : ℤ) - 1 = data.length) with
  | error e => rfl
  | ok _ =>
  cases pyAssert (isPosMonotonic edges = true) with
  | error e => rfl
  | ok _ =>
  cases pyAssert (isPosMonotonic newEdges = true) with
  | error e => rfl
  | ok _ =>
  simp only
  cases w with
  | none =>
    simp only
    cases pyAssert (data.length = sigma.length) with
    | error e => rfl
    | ok _ =>
    cases rebin1d edges data newEdges none with
    | error e => rfl
    | ok v =>
    simp only [pyMap_scale edges sigma c hc]
    cases pyMap (fun b => rebinSingleBinSigma edges sigma b.1 b.2) (newBins newEdges) <;> rfl
  | some w =>
    simp only
    cases pyAssert (data.length = w.length) with
    | error e => rfl
    | ok _ =>
    cases pyAssert (data.length = sigma.length) with
    | error e => rfl
    | ok _ =>
    cases rebin1d edges data newEdges (some w) with
    | error e => rfl
    | ok v =>
    have e : List.zipWith (· * ·) (sigma.map (c * ·)) w = (List.zipWith (· * ·) sigma w).map (c * ·) := by
      rw [List.zipWith_map_left, List.map_zipWith]
      congr 1
      funext x y
      ring
    simp only [e, pyMap_scale edges _ c hc]
    cases pyMap (fun b => rebinSingleBinSigma edges (List.zipWith (· * ·) sigma w) b.1 b.2)
      (newBins newEdges) with
    | error e => rfl
    | ok num =>
    simp only [Except.map]
    cases pyMap (fun b => rebinSingleBinSigma edges w b.1 b.2) (newBins newEdges) with
    | error e => rfl
    | ok den =>
    simp only [pure, Except.pure]
    rw [List.zipWith_map_left, List.map_zipWith]
    congr 3
    funext x y
    exact odiv_scale |c| x y

/-- The errors on the old edges, as computed. -/
noncomputable def selfErrors (edges s : List ℝ) (k : ℕ) : Option ℝ :=
  if s.length = 1 then none
  else if k ≠ 1 then some |s.getD k 0|
  else if s.length = 2 then
    some (Real.sqrt (s.getD 0 0^2 + ((edges.getD 2 0 - edges.getD 1 0)
        / (edges.getD 1 0 - edges.getD 0 0) * s.getD 1 0)^2)
      / (1 + (edges.getD 2 0 - edges.getD 1 0)/(edges.getD 1 0 - edges.getD 0 0)))
  else some (Real.sqrt (s.getD 0 0^2 + s.getD 1 0^2) / 2)

theorem self_errors (edges data s : List ℝ) (hlen : edges.length = data.length + 1)
    (hs : s.length = data.length) (hinc : Increasing edges) :
    rebin1dSigma edges data edges none s
      = .ok (data.map some, tab s.length (selfErrors edges s)) := by
  have hm := increasing_mono hinc
  have hv := C112_same_edges edges data hlen hinc
  have he := increasing_getD hinc (n := s.length) (by omega)
  have ht := list_tab edges
  rw [hlen, ← hs] at ht
  have hts := list_tab s
  unfold rebin1dSigma pyAssert
  rw [if_pos (by omega), if_pos hm, if_pos hs.symm, hv]
  simp only [bind, Except.bind]
  rw [newBins_self edges s.length (by omega), pyMap_tab s.length _ _ (selfErrors edges s)]
  · rfl
  · intro k hk
    simp only
    by_cases h1 : s.length = 1
    · obtain rfl : k = 0 := by omega
      obtain ⟨x, rfl⟩ := List.length_eq_one_iff.mp h1
      obtain ⟨a, b, rfl⟩ := List.length_eq_two.mp (show edges.length = 2 by simp at hs; omega)
      simp only [selfErrors, List.length_singleton, if_true]
      exact sigma_self_one a b x (by simpa using he 0 1 (by omega) (by simp))
    · unfold selfErrors
      rw [if_neg h1]
      rcases k with _ | _ | k
      · rw [if_pos (by omega)]
        have := sigma_self_first (e := fun k => edges.getD k 0) he (by omega) (fun k => s.getD k 0)
        rw [← ht, ← hts] at this
        exact this
      · rw [if_neg (by omega)]
        by_cases h2 : s.length = 2
        · rw [if_pos h2]
          rw [h2] at ht hts he
          have := sigma_self_two (fun k => edges.getD k 0) he (fun k => s.getD k 0)
          rw [← ht, ← hts] at this
          exact this
        · rw [if_neg h2]
          have := sigma_self_mid (e := fun k => edges.getD k 0) he 0 (by omega) (fun k => s.getD k 0)
          rw [← ht, ← hts] at this
          exact this
      · rw [if_pos (by omega)]
        by_cases hl : k + 3 = s.length
        · have := sigma_self_last (e := fun k => edges.getD k 0) he (k+1) (by omega) hl
            (fun k => s.getD k 0)
          rw [← ht, ← hts] at this
          exact this
        · have := sigma_self_mid (e := fun k => edges.getD k 0) he (k+1) (by omega)
            (fun k => s.getD k 0)
          rw [← ht, ← hts, if_neg (by omega)] at this
          exact this

/-- C112: the errors come back too (as absolute values). Missing: the second bin, and the only bin of a
single one, where this is false, see `C112_errors_violated` and `C112_errors_single_violated`. -/
theorem C112_errors_partial (edges data s : List ℝ) (hlen : edges.length = data.length + 1)
    (hs : s.length = data.length) (hinc : Increasing edges) (hn : 2 ≤ data.length) :
    ∃ errs, rebin1dSigma edges data edges none s = .ok (data.map some, errs) ∧
      errs.length = data.length ∧
      ∀ k, k < data.length → k ≠ 1 → errs[k]? = some (some |s.getD k 0|) := by
  refine ⟨_, self_errors edges data s hlen hs hinc, by simpa using hs, ?_⟩
  intro k hk h1
  rw [tab_getElem? _ _ _ (by omega)]
  unfold selfErrors
  rw [if_neg (by omega), if_pos h1]

/-- The error of the second of three or more bins is half the root of the summed squares of the first
two errors, whatever the lengths of the bins. -/
theorem C112_errors_violated (edges data s : List ℝ) (hlen : edges.length = data.length + 1)
    (hs : s.length = data.length) (hinc : Increasing edges) (hn : 3 ≤ data.length) :
    ∃ errs, rebin1dSigma edges data edges none s = .ok (data.map some, errs) ∧
      errs[1]? = some (some (Real.sqrt (s.getD 0 0^2 + s.getD 1 0^2) / 2)) := by
  refine ⟨_, self_errors edges data s hlen hs hinc, ?_⟩
  rw [tab_getElem? _ _ _ (by omega)]
  unfold selfErrors
  rw [if_neg (by omega), if_neg (by omega), if_neg (by omega)]

/-- The error of a single bin is NaN. -/
theorem C112_errors_single_violated (a b x s : ℝ) (h : a < b) :
    rebin1dSigma [a, b] [x] [a, b] none [s] = .ok ([some x], [none]) := by
  have hinc : Increasing [a, b] := by
    intro i j hi hj hij
    simp only [List.length_cons, List.length_nil] at hi hj
    obtain ⟨rfl, rfl⟩ : i = 0 ∧ j = 1 := by omega
    simpa using h
  have := self_errors [a, b] [x] [s] rfl rfl hinc
  simpa [tab, selfErrors] using this

/-- Four unequal bins meet the hypotheses; with errors 6, 8, 1, 1 the second comes back as 5. -/
example : Increasing (K := ℝ) [0, 1, 3, 4, 6] ∧ Real.sqrt ((6:ℝ)^2 + 8^2) / 2 = 5 := by
  refine ⟨?_, ?_⟩
  · intro i j hi hj hij
    simp only [List.length_cons, List.length_nil] at hi hj
    have : (i = 0 ∧ (j = 1 ∨ j = 2 ∨ j = 3 ∨ j = 4)) ∨ (i = 1 ∧ (j = 2 ∨ j = 3 ∨ j = 4))
        ∨ (i = 2 ∧ (j = 3 ∨ j = 4)) ∨ (i = 3 ∧ j = 4) := by omega
    rcases this with ⟨rfl, rfl | rfl | rfl | rfl⟩ | ⟨rfl, rfl | rfl | rfl⟩ | ⟨rfl, rfl | rfl⟩ |
      ⟨rfl, rfl⟩ <;> norm_num
  · rw [show (6:ℝ)^2 + 8^2 = 10^2 by norm_num, Real.sqrt_sq (by norm_num)]; norm_num

end Magpie.Props
