import Verif.Model.HealpixIndex
import Verif.Spec.Healpix

set_option linter.unusedSimpArgs false

namespace Magpie.Healpix
open Spec

theorem exists_ring (q : ℕ) : ∃ i : ℤ, 1 ≤ i ∧ 2*i*(i-1) ≤ q ∧ (q : ℤ) < 2*i*(i+1) := by
  induction q with
  | zero => exact ⟨1, by norm_num⟩
  | succ q ih =>
    obtain ⟨i, h1, h2, h3⟩ := ih
    by_cases h : (q : ℤ) + 1 < 2*i*(i+1)
    · exact ⟨i, h1, by push_cast; omega, by push_cast; exact h⟩
    · refine ⟨i+1, by omega, ?_, ?_⟩
      · push_cast; nlinarith
      · push_cast; nlinarith

theorem trunc_intCast (n : ℤ) : trunc (n : ℝ) = n := by
  unfold trunc; split <;> simp

/-- The double-square-root formula finds the ring. -/
theorem capRing_eq {q i : ℤ} (hi : 1 ≤ i) (h1 : 2*i*(i-1) ≤ q) (h2 : q < 2*i*(i+1)) :
    capRing (((q : ℝ)+1)/2) = some (i : ℝ) := by
  have hq : 0 ≤ q := le_trans (by nlinarith) h1
  -- m = floor ph
  obtain ⟨m, hm⟩ : ∃ m : ℤ, q + 1 = 2*m ∨ q + 1 = 2*m + 1 := ⟨(q+1)/2, by omega⟩
  have hm0 : 0 ≤ m := by omega
  have hfl : ⌊((q : ℝ)+1)/2⌋ = m := by
    rw [Int.floor_eq_iff]
    rcases hm with hm | hm
    · have : ((q : ℝ)+1) = 2*m := by exact_mod_cast hm
      rw [this]; constructor <;> linarith
    · have : ((q : ℝ)+1) = 2*m+1 := by exact_mod_cast hm
      rw [this]; constructor <;> linarith
  have hmR : (0:ℝ) ≤ m := by exact_mod_cast hm0
  have hiR : (1:ℝ) ≤ i := by exact_mod_cast hi
  have hs0 := Real.sqrt_nonneg (m : ℝ)
  have hss := Real.sq_sqrt hmR
  -- lower bound
  have hlow : ((i:ℝ)-1)^2 ≤ ((q : ℝ)+1)/2 - Real.sqrt m := by
    rw [le_sub_comm]
    apply Real.sqrt_le_iff.mpr
    rcases hm with hm | hm
    · have e : ((q : ℝ)+1) = 2*m := by exact_mod_cast hm
      have hmi : i*(i-1)+1 ≤ m := by
        have : 2*(i*(i-1)) + 1 ≤ 2*m := by linarith
        omega
      have hmiR : (i:ℝ)*(i-1)+1 ≤ m := by exact_mod_cast hmi
      rw [e]
      constructor
      · nlinarith
      · have ht : (i:ℝ) ≤ m - (i-1)^2 := by nlinarith
        nlinarith
    · have e : ((q : ℝ)+1) = 2*m+1 := by exact_mod_cast hm
      have hmi : i*(i-1) ≤ m := by
        have : 2*(i*(i-1)) ≤ 2*m := by linarith
        omega
      have hmiR : (i:ℝ)*(i-1) ≤ m := by exact_mod_cast hmi
      rw [e]
      constructor
      · nlinarith
      · have ht : (i:ℝ)-1/2 ≤ (2*m+1)/2 - (i-1)^2 := by nlinarith
        nlinarith
  have hup : ((q : ℝ)+1)/2 - Real.sqrt m < (i:ℝ)^2 := by
    rw [sub_lt_comm]
    by_cases hneg : ((q : ℝ)+1)/2 - (i:ℝ)^2 < 0
    · linarith
    · push Not at hneg
      apply Real.lt_sqrt_of_sq_lt
      rcases hm with hm | hm
      · have e : ((q : ℝ)+1) = 2*m := by exact_mod_cast hm
        have hmi : m ≤ i*(i+1) := by
          have : 2*m ≤ 2*(i*(i+1)) := by linarith
          omega
        rw [e] at hneg ⊢
        have e2 : (2*(m:ℝ))/2 - i^2 = ((m - i^2 : ℤ) : ℝ) := by push_cast; ring
        rw [e2] at hneg ⊢
        have hneg' : 0 ≤ m - i^2 := by exact_mod_cast hneg
        have : (m - i^2)^2 < m := by
          have ht : m - i^2 ≤ i := by nlinarith
          rcases eq_or_lt_of_le hneg' with h | h
          · rw [← h]; nlinarith
          · nlinarith
        exact_mod_cast this
      · have e : ((q : ℝ)+1) = 2*m+1 := by exact_mod_cast hm
        have hmi : m ≤ i*(i+1) - 1 := by
          have : 2*m + 1 ≤ 2*(i*(i+1)) := by linarith
          omega
        rw [e] at hneg ⊢
        have e2 : (2*(m:ℝ)+1)/2 - i^2 = ((m - i^2 : ℤ) : ℝ) + 1/2 := by push_cast; ring
        rw [e2] at hneg ⊢
        have hneg' : 0 ≤ m - i^2 := by
          by_contra hc
          have : m - i^2 ≤ -1 := by omega
          have : ((m - i^2 : ℤ) : ℝ) ≤ -1 := by exact_mod_cast this
          linarith
        have ht : m - i^2 ≤ i - 1 := by nlinarith
        have : (m - i^2)^2 + 1 ≤ i^2 := by nlinarith
        have hR : ((m - i^2 : ℤ) : ℝ)^2 + 1 ≤ (i:ℝ)^2 := by exact_mod_cast this
        have hme : (m:ℝ) = ((m - i^2 : ℤ) : ℝ) + (i:ℝ)^2 := by push_cast; ring
        rw [hme]
        nlinarith
  have hnn : 0 ≤ ((q : ℝ)+1)/2 - Real.sqrt m := le_trans (sq_nonneg _) hlow
  have hfloor : ⌊Real.sqrt (((q : ℝ)+1)/2 - Real.sqrt m)⌋ = i - 1 := by
    rw [Int.floor_eq_iff]
    constructor
    · push_cast; exact Real.le_sqrt_of_sq_le hlow
    · push_cast
      have : Real.sqrt (((q : ℝ)+1)/2 - Real.sqrt m) < i := by
        rw [Real.sqrt_lt' (by linarith)]; exact hup
      linarith
  unfold capRing npSqrt
  rw [hfl, if_pos hmR, Option.bind_eq_bind, Option.bind_some, if_pos hnn]
  simp [hfloor]

theorem ringLen_pos {N i : ℤ} (h1 : 1 ≤ i) (h2 : i ≤ 4*N-1) : 0 < ringLen N i := by
  unfold ringLen; split
  · omega
  · split <;> omega

/-- Ring pairs name pixels of the map. -/
theorem ij2pix_valid {N i j : ℤ} (h : ValidRing N i j) : ValidPix N (ij2pix i j N) := by
  obtain ⟨h1, h2, h3, h4⟩ := h
  unfold ringLen at h4
  unfold ij2pix ValidPix
  have hN : 1 ≤ N := by omega
  split
  · rw [if_pos (by assumption)] at h4
    constructor <;> nlinarith
  · rw [if_neg (by assumption)] at h4
    split
    · rw [if_pos (by omega)] at h4
      constructor <;> nlinarith
    · rw [if_neg (by omega)] at h4
      obtain ⟨r, hr⟩ : ∃ r, r = 4*N - i := ⟨_, rfl⟩
      rw [← hr] at h4 ⊢
      have hr1 : 1 ≤ r := by omega
      have hrN : r ≤ N := by omega
      simp only []
      constructor <;> nlinarith

/-- `pix2ij` inverts `ij2pix` on ring pairs. -/
theorem pix2ij_ij2pix {N i j : ℤ} (h : ValidRing N i j) :
    pix2ij (ij2pix i j N) N = .ok (i, j) := by
  obtain ⟨h1, h2, h3, h4⟩ := h
  unfold ringLen at h4
  have hN : 1 ≤ N := by omega
  have hNR : (1:ℝ) ≤ N := by exact_mod_cast hN
  unfold ij2pix
  split
  case isTrue hi =>
    rw [if_pos hi] at h4
    have hp : 2*i*(i - 1) + j - 1 ≤ 2*N*(N+1) := by nlinarith
    have hc := capRing_eq (q := 2*i*(i - 1) + j - 1) h1 (by omega) (by nlinarith)
    unfold pix2ij
    rw [if_pos hp]
    simp only [hc, Option.map_some, pyInt, trunc_intCast]
    have e : ((2*i*(i - 1) + j - 1 : ℤ) : ℝ) + 1 - 2*i*((i:ℝ)-1) = (j : ℝ) := by push_cast; ring
    rw [e, trunc_intCast]; rfl
  case isFalse hi =>
    rw [if_neg hi] at h4
    split
    case isTrue hb =>
      rw [if_pos hb.2] at h4
      by_cases hedge : 4*N*(i - N) + j - 1 + 2*N*(N - 1) ≤ 2*N*(N+1)
      · -- first pixel of ring N+1 is handled by the cap formula
        have hij : i = N + 1 ∧ j = 1 := by
          have : 4*N*(i-N) + j ≤ 4*N + 1 := by nlinarith
          have hi1 : i = N+1 := by
            by_contra hne
            have : 2 ≤ i - N := by omega
            nlinarith
          subst hi1
          constructor
          · rfl
          · have : 4*N*(N+1-N) = 4*N := by ring
            omega
        obtain ⟨rfl, rfl⟩ := hij
        have hc := capRing_eq (q := 4*N*(N + 1 - N) + 1 - 1 + 2*N*(N - 1)) h1
          (by nlinarith) (by nlinarith)
        unfold pix2ij
        rw [if_pos hedge]
        simp only [hc, Option.map_some, pyInt, trunc_intCast]
        have e : ((4*N*(N + 1 - N) + 1 - 1 + 2*N*(N - 1) : ℤ) : ℝ) + 1
            - 2*((N+1:ℤ):ℝ)*(((N+1:ℤ):ℝ)-1) = ((1:ℤ) : ℝ) := by push_cast; ring
        rw [e, trunc_intCast]; rfl
      · have hlt : 4*N*(i - N) + j - 1 + 2*N*(N - 1) < 2*N*(5*N-1) := by nlinarith
        unfold pix2ij
        rw [if_neg hedge, if_pos ⟨by omega, hlt⟩]
        have epd : 4*N*(i - N) + j - 1 + 2*N*(N - 1) - 2*N*(N-1) = (j - 1) + 4*N*(i-N) := by ring
        have hdiv : ((j - 1) + 4*N*(i-N)) / (4*N) = i - N := by
          rw [Int.add_mul_ediv_left _ _ (by omega), Int.ediv_eq_zero_of_lt (by omega) (by omega)]
          omega
        have hmod : ((j - 1) + 4*N*(i-N)) % (4*N) = j - 1 := by
          rw [Int.add_mul_emod_self_left, Int.emod_eq_of_lt (by omega) (by omega)]
        have hfl : ⌊(((j - 1) + 4*N*(i-N) : ℤ) : ℝ) / (4*N)⌋ = i - N := by
          rw [Int.floor_eq_iff]
          have hjR : (1:ℝ) ≤ j := by exact_mod_cast h3
          have hjR2 : (j:ℝ) ≤ 4*N := by exact_mod_cast h4
          constructor
          · rw [le_div_iff₀ (by positivity)]; push_cast; nlinarith
          · rw [div_lt_iff₀ (by positivity)]; push_cast; nlinarith
        simp only [epd, hfl, hmod, pyInt]
        have e : ((i - N : ℤ) : ℝ) + N = (i : ℤ) := by push_cast; ring
        rw [e, trunc_intCast]
        simp [bind, Except.bind, pure, Except.pure]
    case isFalse hb =>
      have hi3 : 3*N ≤ i := by omega
      rw [if_neg (by omega)] at h4
      set r := 4*N - i with hr
      have hr1 : 1 ≤ r := by omega
      have hrN : r ≤ N := by omega
      simp only []
      have hc := capRing_eq (q := 12*N^2 - 1 - (12*N^2 + j - 2*r*(r + 1) - 1)) (i := r) hr1
        (by nlinarith) (by nlinarith)
      have eph : (12*(N : ℝ)^2 - ((12*N^2 + j - 2*r*(r + 1) - 1 : ℤ) : ℝ))/2
          = (((12*N^2 - 1 - (12*N^2 + j - 2*r*(r + 1) - 1) : ℤ) : ℝ) + 1)/2 := by
        push_cast; ring
      have hge : 2*N*(5*N-1) ≤ 12*N^2 + j - 2*r*(r + 1) - 1 := by nlinarith
      have hgt : ¬ (12*N^2 + j - 2*r*(r + 1) - 1 ≤ 2*N*(N+1)) := by
        push Not
        nlinarith
      unfold pix2ij
      rw [if_neg hgt, if_neg (by omega), if_pos ⟨hge, by nlinarith⟩]
      simp only [eph, hc, Option.map_some, pyInt]
      have e1 : 4*(N:ℝ) - (r:ℝ) = ((i:ℤ):ℝ) := by rw [hr]; push_cast; ring
      have e2 : ((12*N^2 + j - 2*r*(r + 1) - 1 : ℤ) : ℝ) + 2*(r:ℝ)*((r:ℝ) + 1) + 1 - 12*(N : ℝ)^2
          = ((j:ℤ):ℝ) := by push_cast; ring
      rw [e1, e2, trunc_intCast, trunc_intCast]
      rfl

/-- Every pixel of the map is named by a ring pair. -/
theorem exists_ij {N p : ℤ} (hN : 1 ≤ N) (h : ValidPix N p) :
    ∃ i j, ValidRing N i j ∧ ij2pix i j N = p := by
  obtain ⟨h0, h1⟩ := h
  by_cases hA : p < 2*N*(N+1)
  · obtain ⟨i, hi, hl, hu⟩ := exists_ring p.toNat
    rw [Int.toNat_of_nonneg h0] at hl hu
    have hiN : i ≤ N := by
      by_contra hc
      have : N + 1 ≤ i := by omega
      nlinarith
    refine ⟨i, p + 1 - 2*i*(i-1), ⟨hi, by omega, by omega, ?_⟩, ?_⟩
    · unfold ringLen; rw [if_pos hiN]; nlinarith
    · unfold ij2pix; rw [if_pos hiN]; ring
  · by_cases hB : p < 2*N*(5*N-1)
    · set d := p - 2*N*(N-1) with hd
      have hdm := Int.emod_add_mul_ediv d (4*N)
      have hm0 := Int.emod_nonneg d (show 4*N ≠ 0 by omega)
      have hm1 := Int.emod_lt_of_pos d (show 0 < 4*N by omega)
      have hq1 : 1 ≤ d / (4*N) := by
        rw [Int.le_ediv_iff_mul_le (by omega)]; nlinarith
      have hq2 : d / (4*N) < 2*N := by
        rw [Int.ediv_lt_iff_lt_mul (by omega)]; nlinarith
      refine ⟨d / (4*N) + N, d % (4*N) + 1, ⟨by omega, by omega, by omega, ?_⟩, ?_⟩
      · unfold ringLen; rw [if_neg (by omega), if_pos (by omega)]; omega
      · unfold ij2pix; rw [if_neg (by omega), if_pos (by omega)]; linarith
    · obtain ⟨r, hr, hl, hu⟩ := exists_ring (12*N^2 - 1 - p).toNat
      rw [Int.toNat_of_nonneg (by omega)] at hl hu
      have hrN : r ≤ N := by
        by_contra hc
        have : N + 1 ≤ r := by omega
        nlinarith
      refine ⟨4*N - r, p + 2*r*(r+1) + 1 - 12*N^2, ⟨by omega, by omega, by linarith, ?_⟩, ?_⟩
      · unfold ringLen
        by_cases hN1 : 4*N - r ≤ N
        · omega
        · rw [if_neg hN1, if_neg (by omega)]
          have : 4*(4*N - (4*N - r)) = 4*r := by ring
          rw [this]; nlinarith
      · unfold ij2pix
        rw [if_neg (by omega), if_neg (by omega)]
        have : 4*N - (4*N - r) = r := by ring
        simp only [this]; ring

end Magpie.Healpix

namespace Magpie.Healpix
open Spec

/-- First pixel of ring `i+1` follows the last pixel of ring `i`. -/
theorem ringStart_succ {N i : ℤ} (h1 : 1 ≤ i) (h2 : i + 1 ≤ 4*N - 1) :
    ij2pix (i+1) 1 N = ij2pix i 1 N + ringLen N i := by
  unfold ij2pix ringLen
  have hN : 1 ≤ N := by omega
  by_cases a : i + 1 ≤ N
  · rw [if_pos a, if_pos (by omega), if_pos (by omega)]; ring
  · by_cases b : i ≤ N
    · have : i = N := by omega
      subst this
      rw [if_neg a, if_pos (by omega), if_pos (by omega), if_pos le_rfl]; ring
    · rw [if_neg a, if_neg b, if_neg b]
      by_cases c : i + 1 < 3*N
      · rw [if_pos (by omega), if_pos (by omega), if_pos (by omega)]; ring
      · by_cases d : i < 3*N
        · have : i = 3*N - 1 := by omega
          subst this
          rw [if_neg (by omega), if_pos (by omega), if_pos (by omega)]
          simp only []; ring
        · rw [if_neg (by omega), if_neg (by omega), if_neg (by omega)]
          simp only []; ring

theorem ij2pix_eq_start (N i j : ℤ) : ij2pix i j N = ij2pix i 1 N + (j - 1) := by
  unfold ij2pix; split
  · ring
  · split
    · ring
    · simp only []; ring

theorem ringStart_le {N i : ℤ} (h1 : 1 ≤ i) (k : ℕ) (hk : i + k + 1 ≤ 4*N - 1) :
    ij2pix i 1 N + ringLen N i ≤ ij2pix (i + k + 1) 1 N := by
  induction k with
  | zero => simp [ringStart_succ h1 (by simpa using hk)]
  | succ k ih =>
    have ih := ih (by push_cast at hk; omega)
    have hs := ringStart_succ (N := N) (i := i + k + 1) (by omega) (by push_cast at hk; omega)
    have hp := ringLen_pos (N := N) (i := i + k + 1) (by omega) (by push_cast at hk; omega)
    push_cast
    have e : i + ((k:ℤ) + 1) + 1 = i + k + 1 + 1 := by ring
    rw [e, hs]; omega

theorem ij2pix_lt {N i j i' j' : ℤ} (h : ValidRing N i j) (h' : ValidRing N i' j')
    (hl : lexLt (i, j) (i', j')) : ij2pix i j N < ij2pix i' j' N := by
  rw [ij2pix_eq_start N i j, ij2pix_eq_start N i' j']
  obtain ⟨a1, a2, a3, a4⟩ := h
  obtain ⟨b1, b2, b3, b4⟩ := h'
  rcases hl with hl | ⟨hl, hj⟩
  · simp only at hl
    have := ringStart_le (N := N) a1 (i' - i - 1).toNat (by omega)
    have e : i + ((i' - i - 1).toNat : ℤ) + 1 = i' := by omega
    rw [e] at this
    omega
  · simp only at hl hj
    subst hl; omega

theorem ij2pix_lt_iff {N i j i' j' : ℤ} (h : ValidRing N i j) (h' : ValidRing N i' j') :
    ij2pix i j N < ij2pix i' j' N ↔ lexLt (i, j) (i', j') := by
  refine ⟨fun hlt => ?_, ij2pix_lt h h'⟩
  by_contra hc
  have : (i', j') = (i, j) ∨ lexLt (i', j') (i, j) := by
    unfold lexLt at *
    simp only [Prod.mk.injEq] at *
    omega
  rcases this with e | hl
  · simp only [Prod.mk.injEq] at e
    obtain ⟨rfl, rfl⟩ := e
    exact lt_irrefl _ hlt
  · exact lt_asymm hlt (ij2pix_lt h' h hl)

/-! ### Array branches -/

theorem pyInt_ok {x : Option ℝ} {n : ℤ} : pyInt x = .ok n ↔ x.map trunc = some n := by
  cases x <;> simp [pyInt]

theorem pix2ijArr_eq_map {N : ℤ} (hN : 1 ≤ N) (ps : List ℤ) (f : ℤ → ℤ × ℤ)
    (h : ∀ p ∈ ps, pix2ij p N = .ok (f p)) :
    pix2ijArr ps N = .ok (ps.map fun p => some (f p).1, ps.map fun p => some (f p).2) := by
  unfold pix2ijArr
  simp only [replicate_length_map, bind, Except.bind, gather_self, List.map_map, scatter_whereIdx,
    Function.comp_def, gather_whereIdx, zipWith_same_map, pure, Except.pure,
    astypeInt, decide_eq_true_eq]
  congr 1
  rw [Prod.mk.injEq]
  have hpt : ∀ p ∈ ps,
      (p ≤ 2*N*(N+1) ∧ ¬ (p > 2*N*(N+1) ∧ p < 2*N*(5*N-1)) ∧
          ¬ (p ≥ 2*N*(5*N-1) ∧ p ≤ 12*N^2) ∧ ∃ i, capRing (((p:ℝ)+1)/2) = some i ∧
          trunc i = (f p).1 ∧ trunc ((p : ℝ) + 1 - 2*i*(i-1)) = (f p).2) ∨
      (¬ p ≤ 2*N*(N+1) ∧ (p > 2*N*(N+1) ∧ p < 2*N*(5*N-1)) ∧
          ¬ (p ≥ 2*N*(5*N-1) ∧ p ≤ 12*N^2) ∧
          trunc ((⌊((p - 2*N*(N-1) : ℤ) : ℝ)/(4*N)⌋ : ℝ) + N) = (f p).1 ∧
          (p - 2*N*(N-1)) % (4*N) + 1 = (f p).2) ∨
      (¬ p ≤ 2*N*(N+1) ∧ ¬ (p > 2*N*(N+1) ∧ p < 2*N*(5*N-1)) ∧
          (p ≥ 2*N*(5*N-1) ∧ p ≤ 12*N^2) ∧ ∃ i, capRing ((12*(N : ℝ)^2 - p)/2) = some i ∧
          trunc (4*(N:ℝ) - i) = (f p).1 ∧
          trunc ((p : ℝ) + 2*i*(i+1) + 1 - 12*(N : ℝ)^2) = (f p).2) := by
    intro p hp
    have hq := h p hp
    have hgap : 2*N*(N+1) < 2*N*(5*N-1) := by nlinarith
    unfold pix2ij at hq
    by_cases a : p ≤ 2*N*(N+1)
    · left
      refine ⟨a, by omega, by omega, ?_⟩
      rw [if_pos a] at hq
      rcases hc : capRing (((p:ℝ)+1)/2) with _ | i
      · simp [hc, pyInt, bind, Except.bind] at hq
      · simp [hc, pyInt, bind, Except.bind, pure, Except.pure] at hq
        exact ⟨i, rfl, by rw [← hq], by rw [← hq]⟩
    · right
      rw [if_neg a] at hq
      by_cases b : p > 2*N*(N+1) ∧ p < 2*N*(5*N-1)
      · left
        refine ⟨a, b, by omega, ?_⟩
        rw [if_pos b] at hq
        simp [pyInt, bind, Except.bind, pure, Except.pure] at hq
        constructor
        · rw [← hq]; push_cast; rfl
        · rw [← hq]
      · right
        rw [if_neg b] at hq
        by_cases c : p ≥ 2*N*(5*N-1) ∧ p ≤ 12*N^2
        · refine ⟨a, b, c, ?_⟩
          rw [if_pos c] at hq
          rcases hc : capRing ((12*(N : ℝ)^2 - p)/2) with _ | i
          · simp [hc, pyInt, bind, Except.bind] at hq
          · simp [hc, pyInt, bind, Except.bind, pure, Except.pure] at hq
            exact ⟨i, rfl, by rw [← hq], by rw [← hq]⟩
        · rw [if_neg c] at hq
          cases hq
  constructor <;> apply List.map_congr_left <;> intro p hp <;>
    rcases hpt p hp with ⟨a, b, c, i, e1, e2, e3⟩ | ⟨a, b, c, e2, e3⟩ | ⟨a, b, c, i, e1, e2, e3⟩
  · rw [if_neg c, if_neg c, if_neg b, if_pos a, e1, ← e2]; rfl
  · rw [if_neg c, if_neg c, if_pos b, ← e2]; rfl
  · rw [if_pos c, if_pos c, e1, ← e2]; rfl
  · rw [if_neg c, if_neg b, if_pos a, if_pos a, e1, ← e3]; rfl
  · rw [if_neg c, if_pos b, ← e3, Option.map_some, trunc_intCast]
  · rw [if_pos c, if_pos c, e1, ← e3]; rfl

theorem ij2pixArr_eq_map {N : ℤ} (hN : 1 ≤ N) (rows : List (ℤ × ℤ)) :
    ij2pixArr (rows.map Prod.fst) (rows.map Prod.snd) N
      = .ok (rows.map fun r => ij2pix r.1 r.2 N) := by
  unfold ij2pixArr
  simp only [List.length_map, replicate_length_map, whereIdx_map, bind, Except.bind,
    gather_whereIdx, zipWith_map_same, scatter_whereIdx, List.map_map, Function.comp_def, pure,
    Except.pure, decide_eq_true_eq]
  congr 1
  apply List.map_congr_left
  intro r _
  unfold ij2pix
  by_cases a : r.1 ≤ N
  · rw [if_neg (by omega), if_neg (by omega), if_pos a, if_pos a]
  · by_cases b : r.1 > N ∧ r.1 < 3*N
    · rw [if_neg (by omega), if_pos b, if_neg a, if_pos b]
    · rw [if_pos (by omega), if_neg a, if_neg b]

theorem capJd_ok {r j N : ℤ} {x : ℝ} : capJd r j N = .ok x ↔ capJdElem r j N = some x := by
  unfold capJd capJdElem fdiv
  by_cases h : (4*(r:ℝ)) = 0
  · simp [h]
  · simp [h]

theorem j2jdArr_eq_map {N : ℤ} (hN : 1 ≤ N) (rows : List (ℤ × ℤ)) (f : ℤ × ℤ → ℝ)
    (h : ∀ r ∈ rows, j2jd r.1 r.2 N = .ok (f r)) :
    j2jdArr (rows.map Prod.fst) (rows.map Prod.snd) N = .ok (rows.map fun r => some (f r)) := by
  unfold j2jdArr
  have hx : ∀ (l : List (ℤ × ℤ)), (if N % 2 = 0
      then l.map fun r => (1/2)*(((r.1+1) % 2 : ℤ) : ℝ)
      else l.map fun r => (1/2)*((r.1 % 2 : ℤ) : ℝ))
      = l.map fun r => if N % 2 = 0 then (1/2)*(((r.1+1) % 2 : ℤ) : ℝ)
          else (1/2)*((r.1 % 2 : ℤ) : ℝ) := by
    intro l; split <;> simp
  simp only [List.length_map, replicate_length_map, whereIdx_map, bind, Except.bind,
    gather_whereIdx, hx, zipWith_map_same, scatter_whereIdx, List.map_map, Function.comp_def, pure,
    Except.pure, decide_eq_true_eq]
  congr 1
  apply List.map_congr_left
  intro r hr
  have hq := h r hr
  unfold j2jd at hq
  by_cases a : r.1 ≤ N
  · rw [if_pos a] at hq
    rw [if_neg (by omega), if_neg (by omega), if_pos a]
    exact capJd_ok.mp hq
  · rw [if_neg a] at hq
    by_cases b : r.1 > N ∧ r.1 < 3*N
    · rw [if_pos b] at hq
      rw [if_neg (by omega), if_pos b]
      simpa [eqJd] using hq
    · rw [if_neg b] at hq
      rw [if_pos (by omega)]
      exact capJd_ok.mp hq

end Magpie.Healpix
