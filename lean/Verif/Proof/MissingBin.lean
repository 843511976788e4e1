import Verif.Model.OneDNan
import Verif.Proof.OneDWeights
import Verif.Proof.OneDList
import Verif.Spec.MissingBin

/-!
# `rebin_1d` of data with missing values
-/

set_option linter.unusedSimpArgs false
set_option linter.unusedVariables false
set_option linter.unusedSectionVars false

namespace Magpie.OneD
variable {K : Type} [Field K] [LinearOrder K] [IsStrictOrderedRing K]
variable {e : ℕ → K} {n : ℕ} {bmin bmax : K} {L R : ℕ}

theorem omulN_none (x : Option K) : omulN x none = none := rfl
theorem omulN_some (x : Option K) (y : K) : omulN x (some y) = omul x y := rfl

/-- The bins that are read. -/
def Hole (o : ℕ → Option K) (n L R : ℕ) : Prop := ∃ k, k < n ∧ k < R ∧ L ≤ k + 1 ∧ o k = none

theorem fill_of {o : ℕ → Option K} {k : ℕ} (h : o k ≠ none) : o k = some ((o k).getD 0) := by
  cases e : o k with
  | none => exact absurd e h
  | some x => rfl

theorem cover_weights (p : ℕ) (e : ℕ → K) (bmin bmax : K) :
    generalWeights (tab (p+1+1) e) bmin bmax (List.range' 0 (p+2))
      = .ok (((-1 : ℤ)) :: (List.range' 0 (p+1)).map (fun (k : ℕ) => (k:ℤ)), List.replicate (p+2) (some 1)) := by
  have hlast : (List.range' 0 (p+2)).getLastD 0 = p + 1 := by
    have hr : List.range' 0 (p+2) = List.range' 0 (p+1) ++ [p+1] := by
      rw [List.range'_concat]; simp
    rw [hr]; simp [List.getLastD_eq_getLast?]
  have hh : (List.range' 0 (p+2)).headD 0 = 0 := by simp [List.range'_succ]
  unfold generalWeights startIndex
  simp only [hlast, hh, tab_length, Nat.add_sub_cancel, if_true, List.dropLast_concat, ne_eq,
    not_true, if_false, List.length_range']
  show Except.ok _ = _
  congr 2
  · rw [show p + 2 = (p+1)+1 by omega, List.range'_succ, List.map_cons]
    congr 1
    rw [List.range'_eq_map_range, List.range'_eq_map_range, List.map_map, List.map_map]
    apply List.map_congr_left
    intro a _
    simp only [Function.comp]; push_cast; ring
  · rw [List.replicate_succ', List.dropLast_concat]

/-- One new bin: missing if a bin that is read is missing, and otherwise the value without missing values. -/
theorem single_opt (hn : 0 < n) (W : Window e n bmin bmax L R) (o : ℕ → Option K) :
    ∃ x y, rebinSingleBin (tab (n+1) e) (tab n fun k => (o k).getD 0) bmin bmax = .ok x ∧
      rebinSingleBinN (tab (n+1) e) (tab n o) bmin bmax = .ok y ∧
      (Hole o n L R → y = none) ∧ (¬ Hole o n L R → y = x) := by
  have hL := W.hL
  have hR := W.hR
  have hLR := W.le
  rcases Nat.lt_or_ge (L+1) R with hbig | hsmall
  · have hr : List.range' L (R-L) = L :: (L+1) :: List.range' (L+2) (R-L-2) := by
      rw [show R - L = (R-L-2) + 1 + 1 by omega, List.range'_succ, List.range'_succ]
      simp
    by_cases hc : L = 0 ∧ R = n + 1
    · obtain ⟨rfl, rfl⟩ := hc
      obtain ⟨p, rfl⟩ : ∃ p, n = p + 1 := ⟨n-1, by omega⟩
      have hg : ∀ {α : Type} (f : ℕ → α), gatherZ (tab (p+1) f) (((-1 : ℤ)) :: (List.range' 0 (p+1)).map fun (k : ℕ) => (k:ℤ))
          = .ok (f p :: (List.range' 0 (p+1)).map f) := by
        intro α f
        simp only [gatherZ, bind, Except.bind]
        rw [getZ_tab_last (p+1) f (by omega),
          gatherZ_tab (p+1) f _ (by intro k hk; simp only [List.mem_range'_1] at hk; omega)]
        rfl
      have hr' : List.range' 0 (p+2) = 0 :: 1 :: List.range' 2 p := by
        rw [show p + 2 = p + 1 + 1 by omega, List.range'_succ, List.range'_succ]
      have hz : ∀ {β : Type} (m : Option K → β → Option K) (f : ℕ → β),
          List.zipWith m (List.replicate (p+2) (some (1:K))) (f p :: (List.range' 0 (p+1)).map f)
            = m (some 1) (f p) :: (List.range' 0 (p+1)).map fun k => m (some 1) (f k) := by
        intro β m f
        apply List.ext_getElem
        · simp
        · intro i h1 h2
          rw [List.getElem_zipWith]
          cases i <;> simp
      refine ⟨odiv (npSum (omul (some 1) ((o p).getD 0) :: (List.range' 0 (p+1)).map fun k => omul (some 1) ((o k).getD 0))) (npSum (List.replicate (p+2) (some (1:K)))),
      odiv (npSum (omulN (some 1) (o p) :: (List.range' 0 (p+1)).map fun k => omulN (some 1) (o k))) (npSum (List.replicate (p+2) (some (1:K)))), ?_, ?_, ?_, ?_⟩
      · unfold rebinSingleBin
        rw [condition_eq W, show p + 1 + 1 - 0 = p + 2 by omega, hr']
        simp only
        rw [← hr', cover_weights]
        simp only [bind, Except.bind, hg, pure, Except.pure]
        rw [hz omul (fun k => (o k).getD 0)]
      · unfold rebinSingleBinN
        rw [condition_eq W, show p + 1 + 1 - 0 = p + 2 by omega, hr']
        simp only
        rw [← hr', cover_weights]
        simp only [bind, Except.bind, hg, pure, Except.pure]
        rw [hz omulN o]
      · rintro ⟨k, h1, h2, h3, h4⟩
        rw [npSum_none _ ?_]
        · rfl
        · refine List.mem_cons_of_mem _ (List.mem_map.mpr ⟨k, ?_, by rw [h4]; rfl⟩)
          simp [List.mem_range'_1]; omega
      · intro hh
        have hf : ∀ k, k < p + 1 → omulN (some (1:K)) (o k) = omul (some 1) ((o k).getD 0) := by
          intro k hk
          have h := fill_of (o := o) (k := k) fun h => hh ⟨k, hk, by omega, by omega, h⟩
          conv_lhs => rw [h]
          rfl
        rw [hf p (by omega)]
        congr 3
        apply List.map_congr_left
        intro k hk
        simp only [List.mem_range'_1] at hk
        exact hf k (by omega)
    · refine ⟨_, odiv (npSum ((List.range' (L-1) (min R n - (L-1))).map fun k => omulN (wgt e n bmin bmax L R k) (o k))) (npSum ((List.range' (L-1) (min R n - (L-1))).map (wgt e n bmin bmax L R))),
      single_general W hbig hc _, ?_, ?_, ?_⟩
      · unfold rebinSingleBinN
        rw [condition_eq W, hr]
        simp only
        rw [← hr, generalWeights_eq W hbig hc]
        simp only [bind, Except.bind]
        rw [gatherZ_tab n o _ (by intro k hk; simp only [List.mem_range'_1] at hk; omega)]
        simp only [pure, Except.pure]
        rw [zipWith_map_same]
      · rintro ⟨k, h1, h2, h3, h4⟩
        rw [npSum_none _ ?_]
        · rfl
        · refine List.mem_map.mpr ⟨k, ?_, by rw [h4]; rfl⟩
          simp only [List.mem_range'_1]; omega
      · intro hh
        congr 2
        apply List.map_congr_left
        intro k hk
        simp only [List.mem_range'_1] at hk
        have h := fill_of (o := o) (k := k) fun h => hh ⟨k, by omega, by omega, by omega, h⟩
        conv_lhs => rw [h]
        rfl
  · rcases Nat.lt_or_ge L R with h1 | h1
    · obtain rfl : R = L + 1 := by omega
      have hr : List.range' L (L + 1 - L) = [L] := by
        rw [show L + 1 - L = 1 by omega]; rfl
      by_cases hm : 0 < L ∧ L < n
      · have hg : ∀ {α : Type} (f : ℕ → α), getZ (tab n f) ((L:ℤ) - 1) = .ok (f (L-1)) ∧ getZ (tab n f) (L:ℤ) = .ok (f L) :=
          fun f => ⟨getZ_tab' n f _ (L-1) (by omega) (by omega), getZ_tab n f L hm.2⟩
        have he : getZ (tab (n+1) e) (L:ℤ) = .ok (e L) ∧ getZ (tab (n+1) e) ((L:ℤ) - 1) = .ok (e (L-1)) ∧
            getZ (tab (n+1) e) ((L:ℤ) + 1) = .ok (e (L+1)) :=
          ⟨getZ_tab _ e L (by omega), getZ_tab' _ e _ (L-1) (by omega) (by omega),
            getZ_tab' _ e _ (L+1) (by push_cast; ring) (by omega)⟩
        refine ⟨odiv (npSum [omul (fdiv (e L - bmin) (e L - e (L-1))) ((o (L-1)).getD 0), omul (fdiv (bmax - e L) (e (L+1) - e L)) ((o L).getD 0)]) (npSum [fdiv (e L - bmin) (e L - e (L-1)), fdiv (bmax - e L) (e (L+1) - e L)]),
      odiv (npSum [omulN (fdiv (e L - bmin) (e L - e (L-1))) (o (L-1)), omulN (fdiv (bmax - e L) (e (L+1) - e L)) (o L)]) (npSum [fdiv (e L - bmin) (e L - e (L-1)), fdiv (bmax - e L) (e (L+1) - e L)]), ?_, ?_, ?_, ?_⟩
        · unfold rebinSingleBin
          rw [condition_eq W, hr]
          simp only [tab_length, Nat.add_sub_cancel]
          rw [if_pos hm]
          simp only [bind, Except.bind, he.1, he.2.1, he.2.2, (hg _).1, (hg _).2, pure, Except.pure]
        · unfold rebinSingleBinN
          rw [condition_eq W, hr]
          simp only [tab_length, Nat.add_sub_cancel]
          rw [if_pos hm]
          simp only [bind, Except.bind, he.1, he.2.1, he.2.2, (hg _).1, (hg _).2, pure, Except.pure]
        · rintro ⟨k, h1, h2, h3, h4⟩
          rw [npSum_none _ ?_]
          · rfl
          · rcases (show k = L - 1 ∨ k = L by omega) with rfl | rfl
            · rw [h4]; simp [omulN_none]
            · rw [h4]; simp [omulN_none]
        · intro hh
          have f1 := fill_of (o := o) (k := L - 1) fun h => hh ⟨L-1, by omega, by omega, by omega, h⟩
          have f2 := fill_of (o := o) (k := L) fun h => hh ⟨L, by omega, by omega, by omega, h⟩
          conv_lhs => rw [f1, f2]
          rfl
      · -- the first or the last edge
        have hk : ∃ k, k < n ∧ k < L + 1 ∧ L ≤ k + 1 ∧ (∀ j, j < n → j < L + 1 → L ≤ j + 1 → j = k) ∧
            ∀ {α : Type} (f : ℕ → α), (if L = 0 then getZ (tab n f) 0 else getZ (tab n f) (-1)) = .ok (f k) := by
          by_cases h0 : L = 0
          · refine ⟨0, hn, by omega, by omega, by omega, fun f => ?_⟩
            rw [if_pos h0]
            exact getZ_tab n f 0 hn
          · refine ⟨n-1, by omega, by omega, by omega, by omega, fun f => ?_⟩
            rw [if_neg h0]
            exact getZ_tab_last n f hn
        obtain ⟨k, k1, k2, k3, k4, k5⟩ := hk
        refine ⟨some ((o k).getD 0), o k, ?_, ?_, ?_, ?_⟩
        · unfold rebinSingleBin
          rw [condition_eq W, hr]
          simp only [tab_length, Nat.add_sub_cancel]
          rw [if_neg hm]
          have := k5 fun k => (o k).getD 0
          by_cases h0 : L = 0
          · rw [if_pos h0] at this ⊢
            rw [this]; rfl
          · rw [if_neg h0] at this ⊢
            rw [this]; rfl
        · unfold rebinSingleBinN
          rw [condition_eq W, hr]
          simp only [tab_length, Nat.add_sub_cancel]
          rw [if_neg hm]
          exact k5 o
        · rintro ⟨j, h1, h2, h3, h4⟩
          rw [← k4 j h1 h2 h3]
          exact h4
        · intro hh
          exact fill_of fun h => hh ⟨k, k1, k2, k3, h⟩
    · obtain rfl : R = L := by omega
      have hr : List.range' R (R - R) = [] := by rw [Nat.sub_self]; rfl
      by_cases hend : R = n + 1
      · refine ⟨none, none, ?_, ?_, fun _ => rfl, fun _ => rfl⟩
        · unfold rebinSingleBin
          rw [condition_eq W, hr, condition1_eq W, show n + 1 - R = 0 by omega]
          rfl
        · unfold rebinSingleBinN
          rw [condition_eq W, hr, condition1_eq W, show n + 1 - R = 0 by omega]
          rfl
      · have hr1 : List.range' R (n + 1 - R) = R :: List.range' (R+1) (n - R) := by
          rw [show n + 1 - R = (n - R) + 1 by omega, List.range'_succ]
        have hlen : (R :: List.range' (R+1) (n - R)).length = n + 1 - R := by simp; omega
        by_cases h0 : R = 0
        · refine ⟨none, none, ?_, ?_, fun _ => rfl, fun _ => rfl⟩
          · unfold rebinSingleBin
            rw [condition_eq W, hr, condition1_eq W, hr1]
            simp only [hlen, tab_length]
            rw [if_neg (by omega)]
          · unfold rebinSingleBinN
            rw [condition_eq W, hr, condition1_eq W, hr1]
            simp only [hlen, tab_length]
            rw [if_neg (by omega)]
        · have hg : ∀ {α : Type} (f : ℕ → α), getZ (tab n f) ((R:ℤ) - 1) = .ok (f (R-1)) :=
            fun f => getZ_tab' n f _ (R-1) (by omega) (by omega)
          refine ⟨some ((o (R-1)).getD 0), o (R-1), ?_, ?_, ?_, ?_⟩
          · unfold rebinSingleBin
            rw [condition_eq W, hr, condition1_eq W, hr1]
            simp only [hlen, tab_length]
            rw [if_pos (by omega), hg]
            rfl
          · unfold rebinSingleBinN
            rw [condition_eq W, hr, condition1_eq W, hr1]
            simp only [hlen, tab_length]
            rw [if_pos (by omega), hg]
          · rintro ⟨j, h1, h2, h3, h4⟩
            rw [show R - 1 = j by omega]
            exact h4
          · intro hh
            exact fill_of fun h => hh ⟨R-1, by omega, by omega, by omega, h⟩

open Magpie.Spec

theorem single_gap {edges : List K} {data : List (Option K)} (hlen : edges.length = data.length + 1) (hd : data ≠ [])
    (hm : isPosMonotonic edges = true) {lo hi : K} (hle : lo ≤ hi) :
    ∃ x y, rebinSingleBin edges (data.map (·.getD 0)) lo hi = .ok x ∧ rebinSingleBinN edges data lo hi = .ok y ∧
      (Gap edges data lo hi → y = none) ∧ (¬ Gap edges data lo hi → y = x) := by
  have hn : 0 < data.length := List.length_pos_iff.mpr hd
  have he : edges = tab (data.length + 1) fun k => edges.getD k 0 := by
    have := list_tab edges
    rwa [hlen] at this
  have hdt : data = tab data.length fun k => data.getD k none := eq_tab data
  have hft : data.map (·.getD 0) = tab data.length fun k => (data.getD k none).getD 0 := by
    conv_lhs => rw [hdt]
    unfold tab
    rw [List.map_map]
    rfl
  have hmono := mono_getD hm
  rw [hlen, Nat.add_sub_cancel] at hmono
  obtain ⟨L, R, W⟩ := exists_window (fun k => edges.getD k 0) data.length hmono hle
  obtain ⟨x, y, h1, h2, h3, h4⟩ := single_opt hn W fun k => data.getD k none
  rw [← he] at h1 h2
  rw [← hft] at h1
  rw [← hdt] at h2
  have hg : Gap edges data lo hi ↔ Hole (fun k => data.getD k none) data.length L R := by
    constructor
    · rintro ⟨k, hk, t1, t2⟩
      obtain ⟨hk1, hk2⟩ := List.getElem?_eq_some_iff.mp hk
      refine ⟨k, hk1, (W.le_max k hk1.le).mp t1, ?_, by simp [hk]⟩
      have := (W.lt_min (k+1) hk1).not.mp (not_lt.mpr t2)
      omega
    · rintro ⟨k, hk1, hk2, hk3, hk4⟩
      refine ⟨k, ?_, (W.le_max k hk1.le).mpr hk2, not_lt.mp fun h => ?_⟩
      · simp only [List.getD_eq_getElem?_getD, List.getElem?_eq_getElem hk1, Option.getD_some] at hk4
        rw [List.getElem?_eq_getElem hk1, hk4]
      · have := (W.lt_min (k+1) hk1).mp h
        omega
  exact ⟨x, y, h1, h2, fun h => h3 (hg.mp h), fun h => h4 fun k => h (hg.mpr k)⟩

/-- The rows of two comprehensions over the same list. -/
theorem pyMap_pair {α β : Type} {f g : α → Py β} {P : α → β → β → Prop} (l : List α)
    (h : ∀ a ∈ l, ∃ x y, f a = .ok x ∧ g a = .ok y ∧ P a x y) {r : List β} (hr : pyMap f l = .ok r) :
    ∃ r', pyMap g l = .ok r' ∧ r'.length = r.length ∧ r.length = l.length ∧
      ∀ (i : ℕ) (a : α), l[i]? = some a → ∃ x y, r[i]? = some x ∧ r'[i]? = some y ∧ P a x y := by
  induction l generalizing r with
  | nil =>
    simp only [pyMap, Except.ok.injEq] at hr
    subst hr
    exact ⟨[], rfl, rfl, rfl, by simp⟩
  | cons a l ih =>
    obtain ⟨x, y, h1, h2, h3⟩ := h a (by simp)
    simp only [pyMap, bind, Except.bind, pure, Except.pure, h1] at hr
    cases hl : pyMap f l with
    | error e => simp [hl] at hr
    | ok q =>
      simp only [hl, Except.ok.injEq] at hr
      subst hr
      obtain ⟨q', k1, k2, k4, k3⟩ := ih (fun b hb => h b (by simp [hb])) hl
      refine ⟨y :: q', by simp only [pyMap, bind, Except.bind, pure, Except.pure, h2, k1], by simp [k2], by simp [k4], ?_⟩
      intro i b hb
      cases i with
      | zero => simp at hb; subst hb; exact ⟨x, y, by simp, by simp, h3⟩
      | succ i => simpa using k3 i b (by simpa using hb)

theorem rebin_opt {edges : List K} {data : List (Option K)} {newEdges : List K} {w : Option (List K)}
    {r₀ : List (Option K)} (hd : data ≠ [])
    (h : rebin1d edges (data.map (·.getD 0)) newEdges w = .ok r₀) :
    ∃ r, rebin1dN edges data newEdges w = .ok r ∧ r.length = r₀.length ∧ r₀.length = newEdges.length - 1 ∧
      ∀ i lo hi, newEdges[i]? = some lo → newEdges[i+1]? = some hi →
        (Gap edges data lo hi → r[i]? = some none) ∧ (¬ Gap edges data lo hi → r[i]? = r₀[i]?) := by
  obtain ⟨hlen, hm, hm', hb⟩ := rebin1d_ok h
  rw [List.length_map] at hlen
  unfold rebin1d pyAssert at h
  unfold rebin1dN pyAssert
  rw [List.length_map, if_pos (by omega), if_pos hm, if_pos hm'] at h
  rw [if_pos (by omega), if_pos hm, if_pos hm']
  simp only [bind, Except.bind] at h ⊢
  cases w with
  | none =>
    simp only at h ⊢
    obtain ⟨r, h1, h2, h4, h3⟩ := pyMap_pair (g := fun b => rebinSingleBinN edges data b.1 b.2)
      (P := fun b x y => (Gap edges data b.1 b.2 → y = none) ∧ (¬ Gap edges data b.1 b.2 → y = x)) _
      (fun b hb => single_gap hlen hd hm (newBins_mem hm' hb)) h
    refine ⟨r, h1, h2, by rw [h4, newBins_length], fun i lo hi hlo hhi => ?_⟩
    obtain ⟨x, y, a1, a2, a3, a4⟩ := h3 i _ (newBins_get hlo hhi)
    rw [a1, a2]
    exact ⟨fun h => by rw [a3 h], fun h => by rw [a4 h]⟩
  | some w =>
    obtain ⟨hw, -⟩ := hb
    rw [List.length_map] at hw
    simp only [List.length_map, if_pos hw.symm] at h ⊢
    have hz : List.zipWith (· * ·) (data.map (·.getD 0)) w = (List.zipWith omul data w).map (·.getD 0) := by
      apply List.ext_getElem
      · simp
      · intro i h1 h2
        simp only [List.getElem_zipWith, List.getElem_map]
        have hi : i < data.length := by simp at h1; omega
        cases e : data[i] <;> simp [omul]
    rw [hz] at h
    have hzl : (List.zipWith omul data w).length = data.length := by simp [hw]
    have hzd : List.zipWith omul data w ≠ [] := fun k => hd (List.eq_nil_of_length_eq_zero (by rw [← hzl, k]; rfl))
    have hgap : ∀ lo hi, Gap edges (List.zipWith omul data w) lo hi ↔ Gap edges data lo hi := by
      intro lo hi
      refine exists_congr fun k => and_congr_left fun _ => ?_
      rw [List.getElem?_zipWith]
      rcases Nat.lt_or_ge k data.length with hk | hk
      · rw [List.getElem?_eq_getElem hk, List.getElem?_eq_getElem (hw ▸ hk)]
        cases e : data[k] <;> simp [omul]
      · rw [List.getElem?_eq_none hk]
    cases hnum : pyMap (fun b => rebinSingleBin edges ((List.zipWith omul data w).map (·.getD 0)) b.1 b.2)
        (newBins newEdges) with
    | error e => simp only [hnum] at h; cases h
    | ok num =>
      cases hden : pyMap (fun b => rebinSingleBin edges w b.1 b.2) (newBins newEdges) with
      | error e => simp only [hnum, hden] at h; cases h
      | ok den =>
        simp only [hnum, hden, pure, Except.pure, Except.ok.injEq] at h
        obtain ⟨r, h1, h2, h4, h3⟩ := pyMap_pair (g := fun b => rebinSingleBinN edges (List.zipWith omul data w) b.1 b.2)
          (P := fun b x y => (Gap edges data b.1 b.2 → y = none) ∧ (¬ Gap edges data b.1 b.2 → y = x)) _
          (fun b hb => by
            have := single_gap (hzl.symm ▸ hlen) hzd hm (newBins_mem hm' hb)
            simpa only [hgap] using this) hnum
        have hdl : den.length = (newBins newEdges).length := ((pyMap_ok_iff _ _ _).mp hden).length_eq.symm
        refine ⟨List.zipWith odiv r den, by simp only [h1, hden, pure, Except.pure], ?_, ?_, fun i lo hi hlo hhi => ?_⟩
        · rw [← h]; simp [h2]
        · rw [← h]; simp [h4, hdl, newBins_length]
        · have hbin := newBins_get hlo hhi
          obtain ⟨x, y, a1, a2, a3, a4⟩ := h3 i _ hbin
          have hi' : i < den.length := by
            rw [hdl]
            exact (List.getElem?_eq_some_iff.mp hbin).1
          rw [← h, List.getElem?_zipWith, List.getElem?_zipWith, a1, a2, List.getElem?_eq_getElem hi']
          exact ⟨fun h => by rw [a3 h]; rfl, fun h => by rw [a4 h]⟩

end Magpie.OneD
