import Verif.Proof.OneDList

/-!
# A new bin depends only on the old bins it overlaps
-/

set_option linter.unusedSimpArgs false
set_option linter.unusedVariables false

namespace Magpie.OneD
open Magpie.Spec
variable {K : Type} [Field K] [LinearOrder K] [IsStrictOrderedRing K]
variable {e : ℕ → K} {n : ℕ} {bmin bmax : K} {L R : ℕ}

theorem tab_congr {n : ℕ} {f g : ℕ → K} (h : ∀ k, k < n → f k = g k) : tab n f = tab n g := by
  unfold tab
  exact List.map_congr_left fun k hk => h k (List.mem_range.mp hk)

theorem single_local (hn : 0 < n) (he : ∀ i j, i < j → j ≤ n → e i < e j) (hb : bmin < bmax)
    (W : Window e n bmin bmax L R) (d d' : ℕ → K) (hex : ∃ k, k < n ∧ 0 < overlap (e k) (e (k+1)) bmin bmax)
    (hc : ∀ k, k < n → 0 < overlap (e k) (e (k+1)) bmin bmax → d k = d' k) :
    rebinSingleBin (tab (n+1) e) (tab n d) bmin bmax = rebinSingleBin (tab (n+1) e) (tab n d') bmin bmax := by
  have hL := W.hL
  have hR := W.hR
  have hLR := W.le
  have hw := fun k hk => overlap_window W k hk
  rcases Nat.lt_or_ge (L+1) R with hbig | hsmall
  · by_cases hcv : L = 0 ∧ R = n + 1
    · obtain ⟨rfl, rfl⟩ := hcv
      rw [tab_congr fun k hk => hc k hk (by
        rw [hw k hk, if_pos (by omega), if_neg (by omega)]
        exact lt_max_of_lt_right (sub_pos.mpr (he k (k+1) (by omega) (by omega))))]
    · have h2 : L + 2 ≤ R := hbig
      rw [single_general W h2 hcv d, single_general W h2 hcv d']
      congr 3
      apply List.map_congr_left
      intro k hk
      simp only [List.mem_range'_1] at hk
      have hkn : k < n := by omega
      by_cases hov : 0 < overlap (e k) (e (k+1)) bmin bmax
      · rw [hc k hkn hov]
      · have hz : wgt e n bmin bmax L R k = some 0 := by
          rw [hw k hkn] at hov
          have hov' : _ := not_lt.mp fun h => hov (lt_max_of_lt_right h)
          unfold wgt
          by_cases c1 : k + 1 = L
          · rw [if_pos (by omega), if_pos (by omega)] at hov'
            have h4 : bmin ≤ e L := not_lt.mp fun h => by
              have := (W.lt_min L (by omega)).mp h; omega
            have h5 : e (L-1) < e L := he _ _ (by omega) (by omega)
            rw [c1] at hov'
            have h6 : e L - bmin = 0 := le_antisymm hov' (sub_nonneg.mpr h4)
            rw [if_pos c1, h6]
            simp [fdiv, (sub_pos.mpr h5).ne']
          · rw [if_neg c1]
            rw [if_neg (show ¬ k < L by omega)] at hov'
            by_cases c2 : k + 1 = R
            · rw [if_neg (by omega)] at hov'
              have h4 : e k ≤ bmax := (W.le_max k (by omega)).mpr (by omega)
              have h5 : e (k-1) < e k := he _ _ (by omega) (by omega)
              have h6 : bmax - e k = 0 := le_antisymm hov' (sub_nonneg.mpr h4)
              rw [if_pos ⟨c2, hkn⟩, h6]
              simp [fdiv, (sub_pos.mpr h5).ne']
            · rw [if_pos (by omega)] at hov'
              exact absurd (sub_pos.mpr (he k (k+1) (by omega) (by omega))) (not_lt.mpr hov')
        rw [hz]
        simp [omul]
  · rcases Nat.lt_or_ge L R with h1 | h1
    · have hRL : R = L + 1 := by omega
      subst hRL
      have hcond : condition (tab (n+1) e) bmin bmax = [L] := by
        rw [condition_eq W]; simp
      have eL1 : bmin ≤ e L := not_lt.mp fun h => by
        have := (W.lt_min L (by omega)).mp h; omega
      have eL2 : e L ≤ bmax := (W.le_max L (by omega)).mpr (by omega)
      -- the bins other than the two next to the edge do not overlap
      have hfar : ∀ k, k < n → k + 1 ≠ L → k ≠ L → ¬ 0 < overlap (e k) (e (k+1)) bmin bmax := by
        intro k hk c1 c2 h
        rw [hw k hk] at h
        have h' := (lt_max_iff.mp h).resolve_left (lt_irrefl _)
        rcases Nat.lt_or_ge k L with c3 | c3
        · rw [if_pos (by omega), if_pos c3] at h'
          have := (W.lt_min (k+1) (by omega)).mpr (by omega)
          linarith
        · rw [if_neg (by omega), if_neg (by omega)] at h'
          have : bmax < e k := not_le.mp fun h => by
            have := (W.le_max k (by omega)).mp h; omega
          linarith
      by_cases hin : 0 < L ∧ L < n
      · have h3 : e (L-1) < bmin := (W.lt_min (L-1) (by omega)).mpr (by omega)
        have h4 : bmax < e (L+1) := not_le.mp fun h => by
          have := (W.le_max (L+1) (by omega)).mp h; omega
        have d1 : 0 < e L - e (L-1) := by linarith
        have d2 : 0 < e (L+1) - e L := by linarith
        have hval : ∀ d : ℕ → K, rebinSingleBin (tab (n+1) e) (tab n d) bmin bmax
            = .ok (odiv (some ((e L - bmin)/(e L - e (L-1)) * d (L-1)
                + (bmax - e L)/(e (L+1) - e L) * d L))
              (some ((e L - bmin)/(e L - e (L-1)) + (bmax - e L)/(e (L+1) - e L)))) := by
          intro d
          unfold rebinSingleBin
          rw [hcond]
          simp only [tab_length, Nat.add_sub_cancel]
          rw [if_pos hin, getZ_tab (n+1) e L (by omega),
            getZ_tab' (n+1) e _ (L-1) (by omega) (by omega),
            getZ_tab' (n+1) e _ (L+1) (by push_cast; ring) (by omega),
            getZ_tab' n d _ (L-1) (by omega) (by omega), getZ_tab n d L (by omega)]
          simp [bind, Except.bind, pure, Except.pure, fdiv, d1.ne', d2.ne', omul, npSum]
        have o1 : 0 < e L - bmin → d (L-1) = d' (L-1) := by
          intro h
          apply hc (L-1) (by omega)
          rw [hw _ (by omega), if_pos (by omega), if_pos (by omega), show L - 1 + 1 = L by omega]
          exact lt_max_of_lt_right h
        have o2 : 0 < bmax - e L → d L = d' L := by
          intro h
          apply hc L (by omega)
          rw [hw _ (by omega), if_neg (by omega), if_neg (by omega)]
          exact lt_max_of_lt_right h
        rw [hval d, hval d']
        have t1 : (e L - bmin)/(e L - e (L-1)) * d (L-1) = (e L - bmin)/(e L - e (L-1)) * d' (L-1) := by
          rcases (sub_nonneg.mpr eL1).eq_or_lt with h | h
          · rw [← h]; simp
          · rw [o1 h]
        have t2 : (bmax - e L)/(e (L+1) - e L) * d L = (bmax - e L)/(e (L+1) - e L) * d' L := by
          rcases (sub_nonneg.mpr eL2).eq_or_lt with h | h
          · rw [← h]; simp
          · rw [o2 h]
        rw [t1, t2]
      · obtain ⟨k, hk, hko⟩ := hex
        have hkL : k + 1 = L ∨ k = L := by
          by_contra h
          exact hfar k hk (fun h' => h (.inl h')) (fun h' => h (.inr h')) hko
        have hd := hc k hk hko
        by_cases hL0 : L = 0
        · obtain rfl : k = 0 := by omega
          have hval : ∀ d : ℕ → K, rebinSingleBin (tab (n+1) e) (tab n d) bmin bmax = .ok (some (d 0)) := by
            intro d
            unfold rebinSingleBin
            rw [hcond]
            simp only [tab_length, Nat.add_sub_cancel]
            rw [if_neg hin, if_pos hL0, getZ_tab' n d 0 0 rfl hn]
            rfl
          rw [hval, hval, hd]
        · have hLn : L = n := by omega
          obtain rfl : k = n - 1 := by omega
          have hval : ∀ d : ℕ → K, rebinSingleBin (tab (n+1) e) (tab n d) bmin bmax = .ok (some (d (n-1))) := by
            intro d
            unfold rebinSingleBin
            rw [hcond]
            simp only [tab_length, Nat.add_sub_cancel]
            rw [if_neg hin, if_neg hL0, getZ_tab_last n d hn]
            rfl
          rw [hval, hval, hd]
    · have hRL : R = L := by omega
      subst hRL
      obtain ⟨k, hk, hko⟩ := hex
      rcases Nat.lt_or_ge k R with c | c
      · by_cases c' : k + 1 = R
        · have hd := hc k hk hko
          have hcond : condition (tab (n+1) e) bmin bmax = [] := by rw [condition_eq W]; simp
          unfold rebinSingleBin
          rw [hcond, condition1_eq W]
          simp only
          obtain ⟨p, hp⟩ : ∃ p, n + 1 - R = p + 1 := ⟨n - R, by omega⟩
          rw [hp, List.range'_succ]
          simp only [tab_length]
          rw [getZ_tab' n d _ k (by omega) hk, getZ_tab' n d' _ k (by omega) hk, hd]
        · exfalso
          rw [hw k hk, if_pos (by omega), if_pos c] at hko
          have h' := (lt_max_iff.mp hko).resolve_left (lt_irrefl _)
          have := (W.lt_min (k+1) (by omega)).mpr (by omega)
          linarith
      · exfalso
        rw [hw k hk, if_neg (by omega), if_neg (by omega)] at hko
        have h' := (lt_max_iff.mp hko).resolve_left (lt_irrefl _)
        have : bmax < e k := not_le.mp fun h => by
          have := (W.le_max k (by omega)).mp h; omega
        linarith

end Magpie.OneD
