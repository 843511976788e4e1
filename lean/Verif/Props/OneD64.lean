import Verif.Proof.OneD64
import Verif.Proof.Float64Q

/-!
# Property C131: `rebin_1d` in double precision

`Apart`, `Sized`, `BothNear` and `CallsNear` are in `Verif/Spec/OneD64.lean`, `IsDouble` in `Verif/Spec/Float64.lean`.
A summation order is a `SumTree` (`Verif/Model/Means64.lean`).
-/

set_option linter.unusedSimpArgs false
set_option linter.unusedVariables false
set_option linter.unusedSectionVars false

namespace Magpie.OneD64
open Magpie Magpie.F64 Magpie.Spec Magpie.OneD Magpie.Means64

theorem getD_get (l : List ℝ) (k : ℕ) (h : k < l.length) : l.getD k default = l[k] := by
  simp [List.getD_eq_getElem?_getD, h]

theorem pyMap_ok_map {α β : Type} {f : α → Py β} {g : α → β} {l : List α} (h : ∀ a ∈ l, f a = .ok (g a)) :
    pyMap f l = .ok (l.map g) := by
  induction l with
  | nil => rfl
  | cons a l ih =>
    simp only [pyMap, h a (by simp), ih fun b hb => h b (by simp [hb])]
    rfl

theorem zip_tail {l : List ℝ} (hm : isPosMonotonic l = true) : ∀ b ∈ newBins l, b.1 ∈ l ∧ b.2 ∈ l ∧ b.1 ≤ b.2 := by
  intro b hb
  unfold newBins at hb
  obtain ⟨i, hi, rfl⟩ := List.mem_iff_getElem.mp hb
  simp only [List.length_zip, List.length_tail] at hi
  simp only [List.getElem_zip, List.getElem_tail]
  exact ⟨List.getElem_mem _, List.getElem_mem _, (isPosMonotonic_iff l).mp hm i (i+1) (by omega) (by omega) (by omega)⟩

/-- The bins of a call, with the edges and data as functions of the position. -/
theorem bin_plan (ord : ℕ → SumTree) (hord : ∀ m, 0 < m → (ord m).leaves.Perm (List.range m)) {edges newEdges : List ℝ}
    {n : ℕ} (hn : 0 < n) (hn2 : n + 1 ≤ 2^38) (hl : edges.length = n + 1) (hd : ∀ x ∈ edges ++ newEdges, IsDouble x)
    (ha : Apart (edges ++ newEdges)) (hm : isPosMonotonic edges = true) (hm' : isPosMonotonic newEdges = true)
    {b : ℝ × ℝ} (hb : b ∈ newBins newEdges) :
    (∀ d, rebinSingleBin edges (tab n d) b.1 b.2 = .ok none ∧
      rebinSingleBin64 ord edges (tab n d) b.1 b.2 = .ok none) ∨
    (∃ i < n, ∀ d, rebinSingleBin edges (tab n d) b.1 b.2 = .ok (some (d i)) ∧
      rebinSingleBin64 ord edges (tab n d) b.1 b.2 = .ok (some (d i))) ∨
    (∃ m ≤ n + 1, ∃ t : SumTree, t.leaves.Perm (List.range m) ∧ ∃ w w' : ℕ → ℝ, ∃ idx : ℕ → ℕ,
      (∀ i < m, WRel (w' i) (w i) ∧ idx i < n) ∧ 0 < ∑ i ∈ Finset.range m, w i ∧
      ∀ d, rebinSingleBin edges (tab n d) b.1 b.2
          = .ok (some ((∑ i ∈ Finset.range m, w i*d (idx i))/∑ i ∈ Finset.range m, w i)) ∧
        rebinSingleBin64 ord edges (tab n d) b.1 b.2
          = .ok (some (F64.div (t.sum fun i => F64.mul (w' i) (d (idx i))) (t.sum w')))) := by
  obtain ⟨b1, b2, b3⟩ := zip_tail hm' b hb
  have hE : edges = tab (n+1) fun k => edges.getD k default := by rw [← hl]; exact eq_tab edges
  have hget : ∀ k ≤ n, edges.getD k default ∈ edges := by
    intro k hk
    rw [getD_get _ _ (by omega)]
    exact List.getElem_mem _
  have hpair : ∀ x ∈ edges ++ newEdges, ∀ y ∈ edges ++ newEdges, Pair x y := fun x hx y hy =>
    ⟨grid_double (hd x hx), grid_double (hd y hy), ha x hx y hy⟩
  have mono : ∀ i j, i ≤ j → j ≤ n → edges.getD i default ≤ edges.getD j default := by
    intro i j hij hj
    rw [getD_get _ _ (by omega), getD_get _ _ (by omega)]
    exact (isPosMonotonic_iff edges).mp hm i j (by omega) (by omega) hij
  have me : ∀ k ≤ n, edges.getD k default ∈ edges ++ newEdges := fun k hk => List.mem_append_left _ (hget k hk)
  obtain ⟨L, R, W⟩ := exists_window (fun k => edges.getD k default) n mono b3
  have := single_plan ord hord hn (by omega) mono (fun i hi j hj => hpair _ (me i hi) _ (me j hj))
    (fun i hi => hpair _ (me i hi) _ (List.mem_append_right _ b1))
    (fun i hi => hpair _ (List.mem_append_right _ b2) _ (me i hi)) W
  rw [← hE] at this
  exact this

end Magpie.OneD64

namespace Magpie.Props
open Magpie Magpie.F64 Magpie.Spec Magpie.OneD Magpie.OneD64 Magpie.Means64

theorem forall₂_maps {α : Type} {l : List α} {f g : α → Option ℝ} {δ : ℝ} (h : ∀ a ∈ l, BothNear δ (f a) (g a)) :
    List.Forall₂ (BothNear δ) (l.map f) (l.map g) := by
  induction l with
  | nil => exact .nil
  | cons a l ih => exact .cons (h a (by simp)) (ih fun b hb => h b (by simp [hb]))

theorem zipWith_maps {α : Type} (op : Option ℝ → Option ℝ → Option ℝ) (f g : α → Option ℝ) (l : List α) :
    List.zipWith op (l.map f) (l.map g) = l.map fun a => op (f a) (g a) := by
  induction l with
  | nil => rfl
  | cons a l ih => simp [ih]

/-! ## C131 -/

variable (ord : ℕ → SumTree) (hord : ∀ m, 0 < m → (ord m).leaves.Perm (List.range m))
  (edges data newEdges : List ℝ) (hne : data ≠ []) (hn : data.length + 1 ≤ 2^38)
  (hed : ∀ x ∈ edges ++ newEdges, IsDouble x) (ha : Apart (edges ++ newEdges)) (hsd : ∀ d ∈ data, Sized d)
  (F : ℝ) (hF : ∀ d ∈ data, |d| ≤ F)

include hord hne hn hed ha hsd hF

/-- C131: `rebin_1d` in doubles raises what the exact `rebin_1d` raises, returns NaN for the same new bins, and
otherwise numbers that differ from the exact ones by at most a relative `(2n+12)/2^52` of the largest datum, in
whatever order `np.sum` adds. -/
theorem C131_rebin :
    CallsNear ((2*data.length + 12)/2^52*F + (2:ℝ)^(-1075 : ℤ)) (rebin1d64 ord edges data newEdges none)
      (rebin1d edges data newEdges none) := by
  have hn0 : 0 < data.length := List.length_pos_iff.mpr hne
  unfold rebin1d64 rebin1d
  by_cases h1 : ((edges.length : ℤ) - 1 = data.length)
  swap
  · simp [pyAssert, h1, bind, Except.bind, CallsNear]
  by_cases h2 : isPosMonotonic edges = true
  swap
  · simp [pyAssert, h1, h2, bind, Except.bind, CallsNear]
  by_cases h3 : isPosMonotonic newEdges = true
  swap
  · simp [pyAssert, h1, h2, h3, bind, Except.bind, CallsNear]
  simp only [pyAssert, h1, h2, h3, if_true, bind, Except.bind]
  have hl : edges.length = data.length + 1 := by omega
  obtain ⟨d0, hd0⟩ := List.exists_mem_of_ne_nil _ hne
  have hF0 : 0 ≤ F := (abs_nonneg _).trans (hF d0 hd0)
  have hmem : ∀ k < data.length, data.getD k default ∈ data := fun k hk => by
    rw [getD_get _ _ hk]; exact List.getElem_mem _
  have hD : data = tab data.length fun k => data.getD k default := eq_tab data
  have hδ : 0 ≤ (2*(data.length:ℝ) + 12)/2^52*F + (2:ℝ)^(-1075 : ℤ) := by positivity
  have key : ∀ b ∈ newBins newEdges, ∃ x x', rebinSingleBin edges data b.1 b.2 = .ok x ∧
      rebinSingleBin64 ord edges data b.1 b.2 = .ok x' ∧
      BothNear ((2*data.length + 12)/2^52*F + (2:ℝ)^(-1075 : ℤ)) x' x := by
    intro b hb
    rcases bin_plan ord hord hn0 hn hl hed ha h2 h3 hb with h | ⟨i, hi, h⟩ | ⟨m, hm, t, ht, w, w', idx, hw, hW, h⟩
    · have := h fun k => data.getD k default
      rw [← hD] at this
      exact ⟨_, _, this.1, this.2, trivial⟩
    · have := h fun k => data.getD k default
      rw [← hD] at this
      refine ⟨_, _, this.1, this.2, ?_⟩
      simpa [BothNear] using hδ
    · have := h fun k => data.getD k default
      rw [← hD] at this
      refine ⟨_, _, this.1, this.2, ?_⟩
      have hx : ∀ i < m, data.getD (idx i) default ∈ data := fun i hi => hmem _ (hw i hi).2
      have e := mean_err (a := 0) (by omega) (by norm_num) ht (d := fun i => data.getD (idx i) default)
        (d' := fun i => data.getD (idx i) default) (fun i hi => (hw i hi).1) hW (fun i hi => Rel.refl _)
        (fun i hi => by
          rcases (hsd _ (hx i hi)).2 with h | h
          · exact .inl h
          · exact .inr ((zpow_le_zpow_right₀ (by norm_num) (by norm_num)).trans h.1))
      refine e.trans ?_
      have hF' := mean_le (fun i hi => (hw i hi).1.nonneg) hW (fun i hi => hF _ (hx i hi))
      have hA0 : 0 ≤ (∑ i ∈ Finset.range m, w i * |data.getD (idx i) default|)/∑ i ∈ Finset.range m, w i :=
        div_nonneg (Finset.sum_nonneg fun i hi => mul_nonneg (hw i (Finset.mem_range.mp hi)).1.nonneg (abs_nonneg _)) hW.le
      have hmR : (m:ℝ) ≤ data.length + 1 := by exact_mod_cast hm
      refine add_le_add (mul_le_mul ?_ hF' hA0 (by positivity)) le_rfl
      exact div_le_div_of_nonneg_right (by push_cast; linarith) (by norm_num)
  choose! x x' k1 k2 k3 using key
  rw [pyMap_ok_map k1, pyMap_ok_map k2]
  exact forall₂_maps k3

/-- C131: the same with weights, for positive weights. -/
theorem C131_weighted (w : List ℝ) (hsw : ∀ x ∈ w, Sized x ∧ 0 < x) :
    CallsNear ((8*data.length + 55)/2^52*(F + (2:ℝ)^(-800 : ℤ)) + (2:ℝ)^(-1075 : ℤ))
      (rebin1d64 ord edges data newEdges (some w)) (rebin1d edges data newEdges (some w)) := by
  have hn0 : 0 < data.length := List.length_pos_iff.mpr hne
  unfold rebin1d64 rebin1d
  by_cases h1 : ((edges.length : ℤ) - 1 = data.length)
  swap
  · simp [pyAssert, h1, bind, Except.bind, CallsNear]
  by_cases h2 : isPosMonotonic edges = true
  swap
  · simp [pyAssert, h1, h2, bind, Except.bind, CallsNear]
  by_cases h3 : isPosMonotonic newEdges = true
  swap
  · simp [pyAssert, h1, h2, h3, bind, Except.bind, CallsNear]
  by_cases h4 : data.length = w.length
  swap
  · simp [pyAssert, h1, h2, h3, h4, bind, Except.bind, CallsNear]
  simp only [pyAssert, h1, h2, h3, if_pos h4, if_true, bind, Except.bind]
  have hl : edges.length = data.length + 1 := by omega
  have hmem : ∀ k < data.length, data.getD k default ∈ data := fun k hk => by
    rw [getD_get _ _ hk]; exact List.getElem_mem _
  have hmemw : ∀ k < data.length, w.getD k default ∈ w := fun k hk => by
    rw [getD_get _ _ (by omega)]; exact List.getElem_mem _
  set n := data.length with hnn
  set f : ℕ → ℝ := fun k => data.getD k default with hf
  set v : ℕ → ℝ := fun k => w.getD k default with hv
  have hD : data = tab n f := eq_tab data
  have hWt : w = tab n v := by rw [h4]; exact eq_tab w
  have hz : ∀ op : ℝ → ℝ → ℝ, List.zipWith op data w = tab n fun k => op (f k) (v k) := by
    intro op
    rw [hD, hWt]
    unfold tab
    rw [List.zipWith_map, List.zipWith_self]
  have hv0 : ∀ k < n, (2:ℝ)^(-200 : ℤ) ≤ v k := by
    intro k hk
    obtain ⟨a1, a2⟩ := hsw _ (hmemw k hk)
    rcases a1.2 with h | h
    · exact absurd h a2.ne'
    · have := h.1; rwa [abs_of_pos a2] at this
  have hpos : ∀ k < n, 0 < v k := fun k hk => (hsw _ (hmemw k hk)).2
  have hprod : ∀ k < n, Rel 1 (F64.mul (f k) (v k)) (f k*v k) ∧
      (F64.mul (f k) (v k) = 0 ∨ (2:ℝ)^(-600 : ℤ) ≤ |F64.mul (f k) (v k)|) := by
    intro k hk
    rcases (hsd _ (hmem k hk)).2 with h | h
    · have h0 : f k = 0 := h
      unfold F64.mul
      rw [h0, zero_mul, fl_zero]
      exact ⟨(Rel.refl 0).mono (by norm_num), .inl rfl⟩
    · have h5 : (2:ℝ)^(-400 : ℤ) ≤ |f k*v k| := by
        rw [abs_mul, abs_of_pos (hpos k hk)]
        calc (2:ℝ)^(-400 : ℤ) = (2:ℝ)^(-200 : ℤ)*(2:ℝ)^(-200 : ℤ) := by rw [← zpow_add₀ (by norm_num)]; norm_num
          _ ≤ _ := mul_le_mul h.1 (hv0 k hk) (by positivity) (abs_nonneg _)
      have h6 := rel_fl (.inr ((zpow_le_zpow_right₀ (by norm_num) (by norm_num)).trans h5) : Normal (f k*v k))
      refine ⟨h6, .inr ?_⟩
      have h7 := rel_ge_half (by norm_num) h6
      have h8 : (2:ℝ)^(-600 : ℤ) ≤ (2:ℝ)^(-400 : ℤ)/2 := by
        rw [le_div_iff₀ (by norm_num)]
        calc (2:ℝ)^(-600 : ℤ)*2 = (2:ℝ)^(-600 + 1 : ℤ) := by rw [zpow_add₀ (by norm_num)]; norm_num
          _ ≤ _ := zpow_le_zpow_right₀ (by norm_num) (by norm_num)
      unfold F64.mul
      linarith
  have key : ∀ b ∈ newBins newEdges, ∃ x x' y y',
      rebinSingleBin edges (List.zipWith (· * ·) data w) b.1 b.2 = .ok x ∧
      rebinSingleBin64 ord edges (List.zipWith F64.mul data w) b.1 b.2 = .ok x' ∧
      rebinSingleBin edges w b.1 b.2 = .ok y ∧ rebinSingleBin64 ord edges w b.1 b.2 = .ok y' ∧
      BothNear ((8*n + 55)/2^52*(F + (2:ℝ)^(-800 : ℤ)) + (2:ℝ)^(-1075 : ℤ)) (odiv64 x' y') (odiv x y) := by
    intro b hb
    have hw1 : rebinSingleBin edges w b.1 b.2 = rebinSingleBin edges (tab n v) b.1 b.2 := by rw [← hWt]
    have hw2 : rebinSingleBin64 ord edges w b.1 b.2 = rebinSingleBin64 ord edges (tab n v) b.1 b.2 := by rw [← hWt]
    rw [hz, hz, hw1, hw2]
    have fin : ∀ {N N' D D' M : ℝ}, |N| ≤ M → M ≤ F*D → (2:ℝ)^(-200 : ℤ) ≤ D →
        |N' - N| ≤ (2*n + 13)/2^52*M + (2:ℝ)^(-1075 : ℤ) → |D' - D| ≤ (2*n + 12)/2^52*D + (2:ℝ)^(-1075 : ℤ) →
        BothNear ((8*n + 55)/2^52*(F + (2:ℝ)^(-800 : ℤ)) + (2:ℝ)^(-1075 : ℤ)) (odiv64 (some N') (some D'))
          (odiv (some N) (some D)) := by
      intro N N' D D' M a1 a2 a3 a4 a5
      obtain ⟨r1, r2⟩ := quot_means hn a1 a2 a3 a4 a5
      have hD0 : 0 < D := lt_of_lt_of_le (by positivity) a3
      simp only [odiv64, odiv, fdiv, if_neg r1.ne', if_neg hD0.ne', BothNear]
      exact r2
    have hnR : (0:ℝ) ≤ n := Nat.cast_nonneg n
    rcases bin_plan ord hord hn0 hn hl hed ha h2 h3 hb with h | ⟨i, hi, h⟩ | ⟨m, hm, t, ht, u, u', idx, hu, hU, h⟩
    · exact ⟨_, _, _, _, (h _).1, (h _).2, (h _).1, (h _).2, trivial⟩
    · refine ⟨_, _, _, _, (h _).1, (h _).2, (h _).1, (h _).2, fin (M := |f i*v i|) le_rfl ?_ (hv0 i hi) ?_ ?_⟩
      · rw [abs_mul, abs_of_pos (hpos i hi)]
        exact mul_le_mul_of_nonneg_right (hF _ (hmem i hi)) (hpos i hi).le
      · have := (hprod i hi).1
        unfold Means64.Rel at this
        rw [gam_one] at this
        refine this.trans ?_
        have h6 : (1:ℝ)/2^53*|f i*v i| ≤ (2*n + 13)/2^52*|f i*v i| := by
          refine mul_le_mul_of_nonneg_right ?_ (abs_nonneg _)
          rw [div_le_div_iff₀ (by norm_num) (by norm_num)]
          nlinarith
        have : (0:ℝ) < (2:ℝ)^(-1075 : ℤ) := by positivity
        linarith
      · rw [sub_self, abs_zero]
        have := hpos i hi
        positivity
    · have hmR : (m:ℝ) ≤ n + 1 := by exact_mod_cast hm
      have hI : ∀ i < m, idx i < n := fun i hi => (hu i hi).2
      have hm2 : m ≤ 2^40 := by omega
      have eN := mean_err (a := 1) hm2 (by norm_num) ht (d := fun i => f (idx i)*v (idx i))
        (d' := fun i => F64.mul (f (idx i)) (v (idx i))) (fun i hi => (hu i hi).1) hU
        (fun i hi => (hprod _ (hI i hi)).1) (fun i hi => (hprod _ (hI i hi)).2)
      have eD := mean_err (a := 0) hm2 (by norm_num) ht (d := fun i => v (idx i))
        (d' := fun i => v (idx i)) (fun i hi => (hu i hi).1) hU
        (fun i hi => Rel.refl _) (fun i hi => .inr (by
          rw [abs_of_pos (hpos _ (hI i hi))]
          exact (zpow_le_zpow_right₀ (by norm_num) (by norm_num)).trans (hv0 _ (hI i hi))))
      have hvabs : ∑ i ∈ Finset.range m, u i * |v (idx i)| = ∑ i ∈ Finset.range m, u i * v (idx i) :=
        Finset.sum_congr rfl fun i hi => by rw [abs_of_pos (hpos _ (hI i (Finset.mem_range.mp hi)))]
      rw [hvabs] at eD
      have hDlow := le_mean (fun i hi => (hu i hi).1.nonneg) hU (fun i hi => hv0 _ (hI i hi))
      have hM0 : 0 ≤ (∑ i ∈ Finset.range m, u i * |f (idx i)*v (idx i)|)/∑ i ∈ Finset.range m, u i :=
        div_nonneg (Finset.sum_nonneg fun i hi => mul_nonneg (hu i (Finset.mem_range.mp hi)).1.nonneg (abs_nonneg _)) hU.le
      have hD0 : 0 ≤ (∑ i ∈ Finset.range m, u i * v (idx i))/∑ i ∈ Finset.range m, u i :=
        le_trans (by positivity) hDlow
      refine ⟨_, _, _, _, (h _).1, (h _).2, (h _).1, (h _).2,
        fin (M := (∑ i ∈ Finset.range m, u i * |f (idx i)*v (idx i)|)/∑ i ∈ Finset.range m, u i) ?_ ?_ hDlow ?_ ?_⟩
      · rw [abs_div, abs_of_pos hU]
        refine div_le_div_of_nonneg_right ?_ hU.le
        refine (Finset.abs_sum_le_sum_abs _ _).trans (Finset.sum_le_sum fun i hi => ?_)
        rw [abs_mul, abs_of_nonneg (hu i (Finset.mem_range.mp hi)).1.nonneg]
      · rw [← mul_div_assoc]
        refine div_le_div_of_nonneg_right ?_ hU.le
        rw [Finset.mul_sum]
        refine Finset.sum_le_sum fun i hi => ?_
        have hi' := Finset.mem_range.mp hi
        have p0 := (hpos _ (hI i hi')).le
        rw [abs_mul, abs_of_nonneg p0]
        have := mul_le_mul_of_nonneg_right (hF _ (hmem _ (hI i hi'))) p0
        have := mul_le_mul_of_nonneg_left this (hu i hi').1.nonneg
        linarith
      · refine eN.trans (add_le_add (mul_le_mul_of_nonneg_right ?_ hM0) le_rfl)
        exact div_le_div_of_nonneg_right (by push_cast; linarith) (by norm_num)
      · refine eD.trans (add_le_add (mul_le_mul_of_nonneg_right ?_ hD0) le_rfl)
        exact div_le_div_of_nonneg_right (by push_cast; linarith) (by norm_num)
  choose! x x' y y' k1 k2 k3 k4 k5 using key
  rw [pyMap_ok_map k1, pyMap_ok_map k2, pyMap_ok_map k3, pyMap_ok_map k4]
  simp only [pure, Except.pure, zipWith_maps, CallsNear]
  exact forall₂_maps k5

omit hord hne hn hed ha hsd hF in
/-- C131: a new bin inside one old bin gets the value of that bin, without any rounding. -/
theorem C131_inside (hl : edges.length = data.length + 1) (hm : isPosMonotonic edges = true) (i : ℕ)
    (hi : i < data.length) (a b : ℝ) (h1 : edges.getD i 0 < a) (h2 : a ≤ b) (h3 : b < edges.getD (i+1) 0) :
    rebin1d64 ord edges data [a, b] none = .ok [some (data.getD i 0)] := by
  have hE : edges = tab (data.length+1) fun k => edges.getD k default := by rw [← hl]; exact eq_tab edges
  have hD : data = tab data.length fun k => data.getD k default := eq_tab data
  have hm2 : isPosMonotonic [a, b] = true := by simp [isPosMonotonic, h2]
  have mono : ∀ i j, i ≤ j → j ≤ data.length → edges.getD i default ≤ edges.getD j default := by
    intro i j hij hj
    rw [getD_get _ _ (by omega), getD_get _ _ (by omega)]
    exact (isPosMonotonic_iff edges).mp hm i j (by omega) (by omega) hij
  have W : Window (fun k => edges.getD k default) data.length a b (i+1) (i+1) := by
    refine ⟨by omega, by omega, le_rfl, fun k hk => ⟨fun h => ?_, fun h => ?_⟩, fun k hk => ⟨fun h => ?_, fun h => ?_⟩⟩
    · by_contra hc
      have := mono (i+1) k (by omega) hk
      have h3' : b < edges.getD (i+1) default := h3
      linarith
    · have := mono k i (by omega) (by omega)
      have h1' : edges.getD i default < a := h1
      linarith
    · by_contra hc
      have := mono (i+1) k (by omega) hk
      have h3' : b < edges.getD (i+1) default := h3
      linarith
    · have := mono k i (by omega) (by omega)
      have h1' : edges.getD i default < a := h1
      linarith
  have hcond := condition_eq W
  have hc1 := condition1_eq W
  rw [← hE] at hcond hc1
  rw [Nat.sub_self, List.range'_zero] at hcond
  rw [show data.length + 1 - (i+1) = (data.length - i - 1) + 1 by omega, List.range'_succ] at hc1
  have hs : rebinSingleBin64 ord edges data a b = .ok (some (data.getD i 0)) := by
    unfold rebinSingleBin64
    rw [hcond]
    simp only [hc1]
    rw [if_pos (by simp; omega)]
    have := getZ_tab' data.length (fun k => data.getD k default) (((i+1 : ℕ):ℤ) - 1) i (by omega) hi
    rw [← hD] at this
    rw [this]
    rfl
  unfold rebin1d64
  simp only [pyAssert, hm, hm2, if_true, bind, Except.bind]
  rw [if_pos (by omega)]
  simp only [newBins, List.tail_cons, List.zip_cons_cons, List.zip_nil_right, pyMap, hs]
  rfl

omit hord hne hn hed ha hsd hF

/-! ## Non-vacuity -/

/-- One entry after the other. -/
def inOrder : ℕ → SumTree
  | 0 => .leaf 0
  | m+1 => .node (inOrder m) (.leaf (m+1))

theorem inOrder_perm (m : ℕ) (hm : 0 < m) : (inOrder (m-1)).leaves.Perm (List.range m) := by
  obtain ⟨k, rfl⟩ : ∃ k, m = k + 1 := ⟨m-1, by omega⟩
  rw [Nat.add_sub_cancel]
  clear hm
  induction k with
  | zero => exact .refl _
  | succ k ih =>
    rw [List.range_succ]
    exact ih.append_right _

theorem half_double (k : ℤ) (h : |k| < 2^53) : IsDouble (k/2) :=
  ⟨k, -1, h, by norm_num, by norm_num, by norm_num [zpow_neg]; ring⟩

theorem half_sized (k : ℤ) (h : |k| < 2^53) : Sized (k/2) := by
  refine ⟨half_double k h, ?_⟩
  rcases eq_or_ne k 0 with rfl | hk
  · left; simp
  · right
    have h1 : (1:ℝ) ≤ |(k:ℝ)| := by exact_mod_cast Int.one_le_abs hk
    have h2 : |(k:ℝ)| < 2^53 := by exact_mod_cast h
    rw [abs_div, abs_of_pos (by norm_num : (0:ℝ) < 2)]
    constructor
    · calc (2:ℝ)^(-200 : ℤ) ≤ (2:ℝ)^(-1 : ℤ) := zpow_le_zpow_right₀ (by norm_num) (by norm_num)
        _ = 1/2 := by norm_num
        _ ≤ _ := by linarith
    · calc |(k:ℝ)|/2 ≤ (2:ℝ)^(52 : ℤ) := by norm_num at h2 ⊢; linarith
        _ ≤ _ := zpow_le_zpow_right₀ (by norm_num) (by norm_num)

/-- Edges and data that are small multiples of one half. -/
theorem halves (l : List ℤ) (h : ∀ k ∈ l, |k| < 2^50) :
    (∀ x ∈ l.map fun k : ℤ => (k:ℝ)/2, Sized x) ∧ Apart (l.map fun k : ℤ => (k:ℝ)/2) := by
  constructor
  · intro x hx
    obtain ⟨k, hk, rfl⟩ := List.mem_map.mp hx
    exact half_sized k ((h k hk).trans (by norm_num))
  · intro a ha b hb
    obtain ⟨k, hk, rfl⟩ := List.mem_map.mp ha
    obtain ⟨l, hl, rfl⟩ := List.mem_map.mp hb
    have hkl : |k - l| < 2^53 := by
      have h1 := h k hk
      have h2 := h l hl
      rw [abs_lt] at *
      constructor <;> norm_num at * <;> omega
    have := (half_sized (k - l) hkl).2
    have e : (((k - l : ℤ)):ℝ)/2 = (k:ℝ)/2 - l/2 := by push_cast; ring
    rw [e] at this
    rcases this with h | h
    · left; linarith
    · exact .inr h

/-- Three bins with the edges 0, 1, 5/2 and 4 put into two new bins with the edges 1/2, 3 and 7/2: no datum exceeds 7,
and the numbers returned differ from the exact ones by less than `2^-44`. -/
example : ∃ v v' : List (Option ℝ),
    rebin1d64 (fun m => inOrder (m-1)) [0, 1, 5/2, 4] [7, -3, 1/2] [1/2, 3, 7/2] none = .ok v ∧
    rebin1d [0, 1, 5/2, 4] [7, -3, 1/2] [1/2, 3, 7/2] none = .ok v' ∧
    List.Forall₂ (BothNear (1/2^44)) v v' ∧ v'.length = 2 := by
  obtain ⟨hs, ha⟩ := halves [0, 2, 5, 8, 1, 6, 7] (by decide)
  have hd : ∀ x ∈ ([7, -3, 1/2] : List ℝ), Sized x := by
    have := (halves [14, -6, 1] (by decide)).1
    norm_num at this ⊢
    exact this
  have h := C131_rebin (fun m => inOrder (m-1)) (fun m hm => inOrder_perm m hm) [0, 1, 5/2, 4] [7, -3, 1/2] [1/2, 3, 7/2]
    (by simp) (by norm_num) (by
      have h1 : ∀ x ∈ [0, 2, 5, 8, 1, 6, 7].map fun k : ℤ => (k:ℝ)/2, IsDouble x := fun x hx => (hs x hx).1
      norm_num at h1 ⊢; exact h1) (by
      have e : ([0, 1, 5/2, 4] ++ [1/2, 3, 7/2] : List ℝ) = [0, 2, 5, 8, 1, 6, 7].map fun k : ℤ => (k:ℝ)/2 := by
        norm_num
      rw [e]; exact ha) hd 7 (by
      intro d hd
      simp only [List.mem_cons, List.not_mem_nil, or_false] at hd
      rcases hd with rfl | rfl | rfl <;> norm_num [abs_le])
  have e2 : ∃ v', rebin1d ([0, 1, 5/2, 4] : List ℝ) [7, -3, 1/2] [1/2, 3, 7/2] none = .ok v' ∧ v'.length = 2 := by
    norm_num [rebin1d, pyAssert, isPosMonotonic, List.range_succ, newBins, pyMap, rebinSingleBin, condition, condition1,
      whereIdx, whereFrom, generalWeights, startIndex, getZ, gatherZ, bind, Except.bind, pure, Except.pure, List.getLastD]
  obtain ⟨v', e3, e4⟩ := e2
  rw [e3] at h
  cases hv : rebin1d64 (fun m => inOrder (m-1)) [0, 1, 5/2, 4] [7, -3, 1/2] [1/2, 3, 7/2] none with
  | error x => rw [hv] at h; exact h.elim
  | ok v =>
    rw [hv] at h
    refine ⟨v, v', rfl, e3, ?_, e4⟩
    refine List.Forall₂.imp (fun a b hab => ?_) h
    have hb : (2*(([7, -3, 1/2] : List ℝ).length:ℝ) + 12)/2^52*7 + (2:ℝ)^(-1075 : ℤ) ≤ 1/2^44 := by
      have : (2:ℝ)^(-1075 : ℤ) ≤ (2:ℝ)^(-52 : ℤ) := zpow_le_zpow_right₀ (by norm_num) (by norm_num)
      norm_num at this ⊢
      linarith
    cases a <;> cases b <;> simp only [BothNear] at hab ⊢
    exact hab.trans hb

/-- A new bin inside the middle bin. -/
example : rebin1d64 (fun m => inOrder (m-1)) [0, 1, 5/2, 4] [7, -3, 1/2] [5/4, 2] none = .ok [some (-3)] := by
  have := C131_inside (fun m => inOrder (m-1)) [0, 1, 5/2, 4] [7, -3, 1/2] rfl
    (by norm_num [isPosMonotonic, List.range_succ]) 1 (by norm_num) (5/4) 2 (by norm_num) (by norm_num) (by norm_num)
  simpa using this

/-- With weights. -/
example : CallsNear (1/2^42) (rebin1d64 (fun m => inOrder (m-1)) [0, 1, 5/2, 4] [7, -3, 1/2] [1/2, 3, 7/2] (some [1, 1/2, 4]))
    (rebin1d [0, 1, 5/2, 4] [7, -3, 1/2] [1/2, 3, 7/2] (some [1, 1/2, 4])) := by
  obtain ⟨hs, ha⟩ := halves [0, 2, 5, 8, 1, 6, 7] (by decide)
  have hd : ∀ x ∈ ([7, -3, 1/2] : List ℝ), Sized x := by
    have := (halves [14, -6, 1] (by decide)).1
    norm_num at this ⊢
    exact this
  have hw : ∀ x ∈ ([1, 1/2, 4] : List ℝ), Sized x ∧ 0 < x := by
    have := (halves [2, 1, 8] (by decide)).1
    norm_num at this ⊢
    exact this
  have h := C131_weighted (fun m => inOrder (m-1)) (fun m hm => inOrder_perm m hm) [0, 1, 5/2, 4] [7, -3, 1/2] [1/2, 3, 7/2]
    (by simp) (by norm_num) (by
      have h1 : ∀ x ∈ [0, 2, 5, 8, 1, 6, 7].map fun k : ℤ => (k:ℝ)/2, IsDouble x := fun x hx => (hs x hx).1
      norm_num at h1 ⊢; exact h1) (by
      have e : ([0, 1, 5/2, 4] ++ [1/2, 3, 7/2] : List ℝ) = [0, 2, 5, 8, 1, 6, 7].map fun k : ℤ => (k:ℝ)/2 := by
        norm_num
      rw [e]; exact ha) hd 7 (by
      intro d hd
      simp only [List.mem_cons, List.not_mem_nil, or_false] at hd
      rcases hd with rfl | rfl | rfl <;> norm_num [abs_le]) [1, 1/2, 4] hw
  have hb : (8*(([7, -3, 1/2] : List ℝ).length:ℝ) + 55)/2^52*(7 + (2:ℝ)^(-800 : ℤ)) + (2:ℝ)^(-1075 : ℤ) ≤ 1/2^42 := by
    have h1 : (2:ℝ)^(-1075 : ℤ) ≤ (2:ℝ)^(-52 : ℤ) := zpow_le_zpow_right₀ (by norm_num) (by norm_num)
    have h2 : (2:ℝ)^(-800 : ℤ) ≤ (2:ℝ)^(-52 : ℤ) := zpow_le_zpow_right₀ (by norm_num) (by norm_num)
    generalize (2:ℝ)^(-1075 : ℤ) = p at *
    generalize (2:ℝ)^(-800 : ℤ) = q at *
    norm_num at h1 h2 ⊢
    linarith
  unfold CallsNear at h ⊢
  split at h
  · refine List.Forall₂.imp (fun a b hab => ?_) h
    cases a <;> cases b <;> simp only [BothNear] at hab ⊢
    exact hab.trans hb
  · exact h
  · exact h.elim

end Magpie.Props
