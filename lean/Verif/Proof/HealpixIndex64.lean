import Verif.Model.HealpixIndex64
import Verif.Proof.HealpixIndex
import Verif.Proof.Float64

set_option linter.unusedSimpArgs false
set_option linter.unusedVariables false

namespace Magpie.Healpix
open Spec Magpie.F64

theorem fl_int_eq {x : ℝ} (n : ℤ) (hx : x = (n:ℝ)) (h0 : -2^53 ≤ n) (h1 : n ≤ 2^53) :
    fl x = (n:ℝ) := by
  rw [hx]; exact fl_int (abs_le.mpr ⟨h0, h1⟩)

/-- In binary64 the double-square-root formula still finds the ring: every
comparison with a ring boundary is decided by monotonicity of rounding. -/
theorem capRing64_eq {q i : ℤ} (hi : 1 ≤ i) (hb : i ≤ 2^25) (h1 : 2*i*(i-1) ≤ q)
    (h2 : q < 2*i*(i+1)) : capRing64 (((q : ℝ)+1)/2) = some (i : ℝ) := by
  have hq : 0 ≤ q := le_trans (by nlinarith) h1
  obtain ⟨m, hm⟩ : ∃ m : ℤ, q + 1 = 2*m ∨ q + 1 = 2*m + 1 := ⟨(q+1)/2, by omega⟩
  have hm0 : 0 ≤ m := by omega
  set ph : ℝ := ((q : ℝ)+1)/2 with hph
  have hphm : ph = m ∨ ph = (m:ℝ) + 1/2 := by
    rcases hm with h | h
    · left
      have : (q:ℝ) + 1 = 2*m := by exact_mod_cast h
      rw [hph, this]; ring
    · right
      have : (q:ℝ) + 1 = 2*m + 1 := by exact_mod_cast h
      rw [hph, this]; ring
  have hfl : ⌊ph⌋ = m := by
    rw [Int.floor_eq_iff]
    rcases hphm with h | h <;> rw [h] <;> constructor <;> linarith
  have hmR : (0:ℝ) ≤ m := by exact_mod_cast hm0
  have hiR : (1:ℝ) ≤ i := by exact_mod_cast hi
  have hbR : (i:ℝ) ≤ 2^25 := by exact_mod_cast hb
  set s := fl (Real.sqrt m) with hs
  -- bounds for the first root
  have up : ∀ (a : ℤ) (k : ℕ), |a| ≤ 2^53 → k ≤ 1074 → (0:ℝ) ≤ (a:ℝ)/2^k →
      (m:ℝ) ≤ ((a:ℝ)/2^k)^2 → s ≤ (a:ℝ)/2^k := by
    intro a k ha hk h0 h
    rw [hs, ← fl_dyadic k ha hk]
    exact fl_mono (Real.sqrt_le_iff.mpr ⟨h0, h⟩)
  have lo : ∀ (a : ℤ) (k : ℕ), |a| ≤ 2^53 → k ≤ 1074 →
      ((a:ℝ)/2^k)^2 ≤ (m:ℝ) → (a:ℝ)/2^k ≤ s := by
    intro a k ha hk h
    rw [hs, ← fl_dyadic k ha hk]
    exact fl_mono (Real.le_sqrt_of_sq_le h)
  have mlow : i^2 - i ≤ m := by
    rcases hm with h | h <;> nlinarith
  have mhigh : m ≤ i^2 + i := by
    rcases hm with h | h <;> nlinarith
  have hlow : ((i:ℝ) - 1)^2 ≤ ph - s := by
    rcases lt_or_ge m (i^2 - i + 1) with h | h
    · -- first pixel of the ring
      have hmi : m = i^2 - i := by omega
      have hph2 : ph = (m:ℝ) + 1/2 := by
        rcases hm with h' | h'
        · exfalso; rw [hmi] at h'; nlinarith
        · have : (q:ℝ) + 1 = 2*m + 1 := by exact_mod_cast h'
          rw [hph, this]; ring
      have hmR' : (m:ℝ) = (i:ℝ)^2 - i := by exact_mod_cast hmi
      have := up (2*i - 1) 1 (abs_le.mpr ⟨by omega, by omega⟩) (by norm_num)
        (by push_cast; linarith) (by push_cast; rw [hmR']; nlinarith)
      push_cast at this
      rw [hph2, hmR']; linarith
    · have hge : (i:ℝ)^2 - i + 1 ≤ m := by exact_mod_cast h
      have hphm' : (m:ℝ) ≤ ph := by rcases hphm with h | h <;> rw [h]; linarith
      rcases le_or_gt m (i^2) with h3 | h3
      · have h3R : (m:ℝ) ≤ (i:ℝ)^2 := by exact_mod_cast h3
        have := up i 0 (abs_le.mpr ⟨by omega, by omega⟩) (by norm_num)
          (by simp; linarith) (by simpa using h3R)
        simp at this
        nlinarith
      · have h3R : (i:ℝ)^2 + 1 ≤ m := by exact_mod_cast h3
        have h4R : (m:ℝ) ≤ (i:ℝ)^2 + i := by exact_mod_cast mhigh
        have := up (i+1) 0 (abs_le.mpr ⟨by omega, by omega⟩) (by norm_num)
          (by push_cast; simp; linarith) (by push_cast; simp; nlinarith)
        push_cast at this; simp at this
        nlinarith
  have hhigh : ph - s ≤ (i:ℝ)^2 - 1/4 := by
    have hphm' : ph ≤ (m:ℝ) + 1/2 := by rcases hphm with h | h <;> rw [h]; linarith
    rcases lt_or_ge m (i^2 + i) with h | h
    · rcases lt_or_ge m (i^2) with h3 | h3
      · have h3R : (m:ℝ) + 1 ≤ (i:ℝ)^2 := by exact_mod_cast h3
        have := lo 0 0 (by norm_num) (by norm_num) (by simpa using hmR)
        simp at this
        linarith
      · have h3R : (i:ℝ)^2 ≤ m := by exact_mod_cast h3
        have hR : (m:ℝ) + 1 ≤ (i:ℝ)^2 + i := by exact_mod_cast h
        have := lo i 0 (abs_le.mpr ⟨by omega, by omega⟩) (by norm_num) (by simpa using h3R)
        simp at this
        linarith
    · have hmi : m = i^2 + i := by omega
      have hmR' : (m:ℝ) = (i:ℝ)^2 + i := by exact_mod_cast hmi
      have hph2 : ph = m := by
        rcases hm with h' | h'
        · have : (q:ℝ) + 1 = 2*m := by exact_mod_cast h'
          rw [hph, this]; ring
        · exfalso; rw [hmi] at h'; nlinarith
      have := lo (4*i + 1) 2 (abs_le.mpr ⟨by omega, by omega⟩) (by norm_num)
        (by push_cast; rw [hmR']; nlinarith)
      push_cast at this
      rw [hph2, hmR']; linarith
  -- the difference
  have i2 : i^2 ≤ 2^50 := by
    calc i^2 ≤ (2^25)^2 := by apply pow_le_pow_left₀ (by omega) hb
      _ = 2^50 := by norm_num
  have hd1 : ((i:ℝ) - 1)^2 ≤ fl (ph - s) := by
    have e : fl (((i:ℝ) - 1)^2) = ((i:ℝ) - 1)^2 := by
      have := fl_int (n := (i-1)^2) (by rw [abs_of_nonneg (sq_nonneg _)]; nlinarith)
      push_cast at this; exact this
    rw [← e]; exact fl_mono hlow
  have hd2 : fl (ph - s) ≤ (i:ℝ)^2 - 1/4 := by
    have e : fl ((i:ℝ)^2 - 1/4) = (i:ℝ)^2 - 1/4 := by
      have := fl_dyadic (n := 4*i^2 - 1) 2 (by rw [abs_of_nonneg (by nlinarith)]; omega)
        (by norm_num)
      push_cast at this
      have e2 : (i:ℝ)^2 - 1/4 = (4*(i:ℝ)^2 - 1)/2^2 := by ring
      rw [e2]; exact this
    rw [← e]; exact fl_mono hhigh
  have hd0 : 0 ≤ fl (ph - s) := le_trans (sq_nonneg _) hd1
  -- the second root
  have hr1 : (i:ℝ) - 1 ≤ fl (Real.sqrt (fl (ph - s))) := by
    have e : fl ((i:ℝ) - 1) = (i:ℝ) - 1 := by
      have := fl_int (n := i - 1) (abs_le.mpr ⟨by omega, by omega⟩)
      push_cast at this; exact this
    rw [← e]
    exact fl_mono (Real.le_sqrt_of_sq_le hd1)
  have hr2 : fl (Real.sqrt (fl (ph - s))) < i := by
    have e : fl ((2^28*(i:ℝ) - 1)/2^28) = (2^28*(i:ℝ) - 1)/2^28 := by
      have := fl_dyadic (n := 2^28*i - 1) 28 (abs_le.mpr ⟨by omega, by omega⟩) (by norm_num)
      push_cast at this
      norm_num at this ⊢
      exact this
    have h3 : fl (Real.sqrt (fl (ph - s))) ≤ (2^28*(i:ℝ) - 1)/2^28 := by
      rw [← e]
      apply fl_mono
      rw [Real.sqrt_le_iff]
      constructor
      · apply div_nonneg _ (by norm_num); linarith
      · refine hd2.trans ?_
        have : ((2^28*(i:ℝ) - 1)/2^28)^2 = (i:ℝ)^2 - 2*i/2^28 + 1/2^56 := by ring
        rw [this]
        have : 2*(i:ℝ)/2^28 ≤ 1/4 := by
          rw [div_le_iff₀ (by norm_num)]; linarith
        have : (0:ℝ) < 1/2^56 := by norm_num
        linarith
    refine h3.trans_lt ?_
    rw [div_lt_iff₀ (by norm_num)]; linarith
  have hfr : ⌊fl (Real.sqrt (fl (ph - s)))⌋ = i - 1 := by
    rw [Int.floor_eq_iff]; push_cast
    constructor <;> linarith
  have e1 : F64.sqrt (m:ℝ) = some s := by unfold F64.sqrt; rw [if_pos hmR]
  have e2 : F64.sqrt (F64.sub ph s) = some (fl (Real.sqrt (fl (ph - s)))) := by
    unfold F64.sqrt F64.sub; rw [if_pos hd0]
  have e3 : F64.add (((i - 1 : ℤ)) : ℝ) 1 = i :=
    fl_int_eq i (by push_cast; ring) (by omega) (by omega)
  unfold capRing64
  rw [hfl, e1]
  show (F64.sqrt (F64.sub ph s)).bind _ = _
  rw [e2]
  show some _ = _
  rw [hfr, e3]

theorem sq_le_of {N b : ℤ} (h0 : 0 ≤ N) (h : N ≤ b) : N^2 ≤ b^2 := pow_le_pow_left₀ h0 h 2

/-- Top polar cap. -/
theorem top64 {N p : ℤ} (hN : 1 ≤ N) (hb : N ≤ 2^24) (hp : 0 ≤ p) (h : p ≤ 2*N*(N+1)) :
    ∃ i : ℤ, capRing (((p : ℝ)+1)/2) = some (i:ℝ) ∧
      capRing64 (F64.div (F64.ofInt (p+1)) 2) = some (i:ℝ) ∧
      F64.sub (F64.ofInt (p+1)) (F64.mul (F64.mul 2 i) (F64.sub i 1))
        = (p : ℝ) + 1 - 2*(i:ℝ)*((i:ℝ)-1) := by
  obtain ⟨i, h1, h2, h3⟩ := exists_ring p.toNat
  rw [Int.toNat_of_nonneg hp] at h2 h3
  have hiN : i ≤ N + 1 := by
    by_contra hc
    have : N + 2 ≤ i := by omega
    nlinarith
  have hN2 := sq_le_of (by omega) hb
  have hpb : p + 1 ≤ 2^53 := by nlinarith
  refine ⟨i, capRing_eq h1 h2 h3, ?_, ?_⟩
  · have e : F64.div (F64.ofInt (p+1)) 2 = ((p:ℝ) + 1)/2 := by
      unfold F64.div F64.ofInt
      rw [fl_int (abs_le.mpr ⟨by omega, hpb⟩)]
      have := fl_dyadic (n := p + 1) 1 (abs_le.mpr ⟨by omega, hpb⟩) (by norm_num)
      push_cast at this ⊢
      rw [pow_one] at this; exact this
    rw [e]; exact capRing64_eq h1 (by omega) h2 h3
  · have i2 : i^2 ≤ (2^24+1)^2 := sq_le_of (by omega) (by omega)
    have e1 : F64.ofInt (p+1) = ((p+1 : ℤ):ℝ) := fl_int (abs_le.mpr ⟨by omega, hpb⟩)
    have e2 : F64.mul 2 (i:ℝ) = ((2*i : ℤ):ℝ) :=
      fl_int_eq (2*i) (by push_cast; ring) (by omega) (by omega)
    have e3 : F64.sub (i:ℝ) 1 = ((i - 1 : ℤ):ℝ) :=
      fl_int_eq (i-1) (by push_cast; ring) (by omega) (by omega)
    have e4 : F64.mul ((2*i : ℤ):ℝ) ((i - 1 : ℤ):ℝ) = ((2*i*(i-1) : ℤ):ℝ) :=
      fl_int_eq (2*i*(i-1)) (by push_cast; ring) (by nlinarith) (by nlinarith)
    have e5 : F64.sub ((p+1 : ℤ):ℝ) ((2*i*(i-1) : ℤ):ℝ) = ((p + 1 - 2*i*(i-1) : ℤ):ℝ) :=
      fl_int_eq (p + 1 - 2*i*(i-1)) (by push_cast; ring) (by nlinarith) (by nlinarith)
    rw [e1, e2, e3, e4, e5]; push_cast; ring

/-- Equatorial belt. -/
theorem belt64 {N p : ℤ} (hN : 1 ≤ N) (hb : N ≤ 2^24) (h1 : 2*N*(N+1) < p)
    (h2 : p < 2*N*(5*N-1)) :
    F64.add (⌊F64.div (F64.ofInt (p - 2*N*(N-1))) (F64.ofInt (4*N))⌋ : ℝ) (F64.ofInt N)
      = (⌊((p - 2*N*(N-1) : ℤ) : ℝ)/(4*N)⌋ : ℝ) + N ∧
    F64.ofInt ((p - 2*N*(N-1)) % (4*N) + 1) = (((p - 2*N*(N-1)) % (4*N) + 1 : ℤ) : ℝ) := by
  have hN2 := sq_le_of (by omega) hb
  set pd := p - 2*N*(N-1) with hpd
  have hpd0 : 0 ≤ pd := by rw [hpd]; nlinarith
  have hpd1 : pd < 8*N^2 := by rw [hpd]; nlinarith
  have hNR : (1:ℝ) ≤ N := by exact_mod_cast hN
  have hbR : (N:ℝ) ≤ 2^24 := by exact_mod_cast hb
  have e1 : F64.ofInt pd = (pd:ℝ) := fl_int (abs_le.mpr ⟨by omega, by omega⟩)
  have e2 : F64.ofInt (4*N) = ((4*N : ℤ):ℝ) := fl_int (abs_le.mpr ⟨by omega, by omega⟩)
  have e3 : F64.ofInt N = (N:ℝ) := fl_int (abs_le.mpr ⟨by omega, by omega⟩)
  have hm0 := Int.emod_nonneg pd (by omega : 4*N ≠ 0)
  have hm1 := Int.emod_lt_of_pos pd (by omega : 0 < 4*N)
  have hdm := Int.mul_ediv_add_emod pd (4*N)
  set k := pd / (4*N) with hk
  set r := pd % (4*N) with hr
  have hk0 : 0 ≤ k := Int.ediv_nonneg hpd0 (by omega)
  have hk1 : k < 2*N := by
    by_contra hc
    have : 2*N ≤ k := by omega
    nlinarith
  have hdmR : (pd:ℝ) = 4*N*k + r := by exact_mod_cast hdm.symm
  have hr0 : (0:ℝ) ≤ r := by exact_mod_cast hm0
  have hr1 : (r:ℝ) + 1 ≤ 4*N := by exact_mod_cast hm1
  have hlo : (k:ℝ) ≤ (pd:ℝ)/(4*N) := by
    rw [le_div_iff₀ (by positivity), hdmR]; linarith
  have hhi : (pd:ℝ)/(4*N) ≤ (2^26*((k:ℝ)+1) - 1)/2^26 := by
    rw [div_le_div_iff₀ (by positivity) (by norm_num), hdmR]
    nlinarith
  have ffl : ⌊fl ((pd:ℝ)/(4*N))⌋ = k := by
    rw [Int.floor_eq_iff]
    constructor
    · rw [← fl_int (n := k) (abs_le.mpr ⟨by omega, by omega⟩)]; exact fl_mono hlo
    · have e : fl ((2^26*((k:ℝ)+1) - 1)/2^26) = (2^26*((k:ℝ)+1) - 1)/2^26 := by
        have := fl_dyadic (n := 2^26*(k+1) - 1) 26 (abs_le.mpr ⟨by omega, by omega⟩) (by norm_num)
        push_cast at this
        norm_num at this ⊢
        exact this
      refine (fl_mono hhi).trans_lt ?_
      rw [e, div_lt_iff₀ (by norm_num)]; linarith
  have xfl : ⌊(pd:ℝ)/(4*N)⌋ = k := by
    rw [Int.floor_eq_iff]
    refine ⟨hlo, hhi.trans_lt ?_⟩
    rw [div_lt_iff₀ (by norm_num)]; linarith
  constructor
  · rw [e1, e2, e3]
    unfold F64.div
    push_cast
    rw [ffl, xfl]
    have : F64.add (k:ℝ) (N:ℝ) = ((k + N : ℤ):ℝ) :=
      fl_int_eq (k+N) (by push_cast; ring) (by omega) (by omega)
    rw [this]; push_cast; ring
  · exact fl_int (abs_le.mpr ⟨by omega, by omega⟩)

/-- Bottom polar cap. -/
theorem bottom64 {N p : ℤ} (hN : 1 ≤ N) (hb : N ≤ 2^24) (h : 2*N*(5*N-1) ≤ p)
    (hp : p < 12*N^2) :
    ∃ i : ℤ, capRing ((12*(N : ℝ)^2 - p)/2) = some (i:ℝ) ∧
      capRing64 (F64.div (F64.ofInt (12*N^2 - p)) 2) = some (i:ℝ) ∧
      F64.sub (F64.ofInt (4*N)) i = 4*(N:ℝ) - i ∧
      F64.sub (F64.add (F64.add (F64.ofInt p) (F64.mul (F64.mul 2 i) (F64.add i 1))) 1)
        (F64.ofInt (12*N^2)) = (p : ℝ) + 2*i*((i:ℝ)+1) + 1 - 12*(N : ℝ)^2 := by
  obtain ⟨i, h1, h2, h3⟩ := exists_ring (12*N^2 - 1 - p).toNat
  rw [Int.toNat_of_nonneg (by omega)] at h2 h3
  have hiN : i ≤ N := by
    by_contra hc
    have : N + 1 ≤ i := by omega
    nlinarith
  have hN2 := sq_le_of (by omega) hb
  have i2 : i^2 ≤ (2^24)^2 := sq_le_of (by omega) (by omega)
  have hp0 : 0 ≤ p := by nlinarith
  have eph : (12*(N : ℝ)^2 - p)/2 = (((12*N^2 - 1 - p : ℤ) : ℝ) + 1)/2 := by push_cast; ring
  refine ⟨i, by rw [eph]; exact capRing_eq h1 h2 h3, ?_, ?_, ?_⟩
  · have e : F64.div (F64.ofInt (12*N^2 - p)) 2 = (((12*N^2 - 1 - p : ℤ) : ℝ) + 1)/2 := by
      rw [← eph]
      unfold F64.div F64.ofInt
      rw [fl_int (abs_le.mpr ⟨by omega, by omega⟩)]
      have := fl_dyadic (n := 12*N^2 - p) 1 (abs_le.mpr ⟨by omega, by omega⟩) (by norm_num)
      push_cast at this ⊢
      rw [pow_one] at this; exact this
    rw [e]; exact capRing64_eq h1 (by omega) h2 h3
  · have e1 : F64.ofInt (4*N) = ((4*N : ℤ):ℝ) := fl_int (abs_le.mpr ⟨by omega, by omega⟩)
    have e2 : F64.sub ((4*N : ℤ):ℝ) (i:ℝ) = ((4*N - i : ℤ):ℝ) :=
      fl_int_eq (4*N - i) (by push_cast; ring) (by omega) (by omega)
    rw [e1, e2]; push_cast; ring
  · have e1 : F64.ofInt p = (p:ℝ) := fl_int (abs_le.mpr ⟨by omega, by omega⟩)
    have e2 : F64.mul 2 (i:ℝ) = ((2*i : ℤ):ℝ) :=
      fl_int_eq (2*i) (by push_cast; ring) (by omega) (by omega)
    have e3 : F64.add (i:ℝ) 1 = ((i + 1 : ℤ):ℝ) :=
      fl_int_eq (i+1) (by push_cast; ring) (by omega) (by omega)
    have e4 : F64.mul ((2*i : ℤ):ℝ) ((i + 1 : ℤ):ℝ) = ((2*i*(i+1) : ℤ):ℝ) :=
      fl_int_eq (2*i*(i+1)) (by push_cast; ring) (by nlinarith) (by nlinarith)
    have e5 : F64.add (p:ℝ) ((2*i*(i+1) : ℤ):ℝ) = ((p + 2*i*(i+1) : ℤ):ℝ) :=
      fl_int_eq (p + 2*i*(i+1)) (by push_cast; ring) (by nlinarith) (by nlinarith)
    have e6 : F64.add ((p + 2*i*(i+1) : ℤ):ℝ) 1 = ((p + 2*i*(i+1) + 1 : ℤ):ℝ) :=
      fl_int_eq (p + 2*i*(i+1) + 1) (by push_cast; ring) (by nlinarith) (by nlinarith)
    have e7 : F64.ofInt (12*N^2) = ((12*N^2 : ℤ):ℝ) := fl_int (abs_le.mpr ⟨by nlinarith, by nlinarith⟩)
    have e8 : F64.sub ((p + 2*i*(i+1) + 1 : ℤ):ℝ) ((12*N^2 : ℤ):ℝ)
        = ((p + 2*i*(i+1) + 1 - 12*N^2 : ℤ):ℝ) :=
      fl_int_eq (p + 2*i*(i+1) + 1 - 12*N^2) (by push_cast; ring) (by nlinarith) (by nlinarith)
    rw [e1, e2, e3, e4, e5, e6, e7, e8]; push_cast; ring

/-- Up to `nside = 2^24` rounding does not change the result. -/
theorem pix2ij64_eq {N p : ℤ} (hN : 1 ≤ N) (hb : N ≤ 2^24) (hp : ValidPix N p) :
    pix2ij64 p N = pix2ij p N := by
  obtain ⟨hp0, hp1⟩ := hp
  unfold pix2ij64 pix2ij
  by_cases a : p ≤ 2*N*(N+1)
  · rw [if_pos a, if_pos a]
    obtain ⟨i, c1, c2, c3⟩ := top64 hN hb hp0 a
    simp only [c1, c2, Option.map_some, c3]
  · rw [if_neg a, if_neg a]
    by_cases b : p > 2*N*(N+1) ∧ p < 2*N*(5*N-1)
    · rw [if_pos b, if_pos b]
      simp only [(belt64 hN hb b.1 b.2).1]
    · rw [if_neg b, if_neg b]
      by_cases c : p ≥ 2*N*(5*N-1) ∧ p ≤ 12*N^2
      · rw [if_pos c, if_pos c]
        obtain ⟨i, c1, c2, c3, c4⟩ := bottom64 hN hb c.1 hp1
        simp only [c1, c2, Option.map_some, c3, c4]
      · rw [if_neg c, if_neg c]

theorem pix2ijArr64_eq {N : ℤ} (hN : 1 ≤ N) (hb : N ≤ 2^24) (ps : List ℤ)
    (hp : ∀ p ∈ ps, ValidPix N p) : pix2ijArr64 ps N = pix2ijArr ps N := by
  unfold pix2ijArr64 pix2ijArr
  simp only [replicate_length_map, bind, Except.bind, gather_self, List.map_map, scatter_whereIdx,
    Function.comp_def, gather_whereIdx, zipWith_same_map, pure, Except.pure,
    astypeInt, decide_eq_true_eq]
  congr 1
  rw [Prod.mk.injEq]
  constructor <;> apply List.map_congr_left <;> intro p hmem <;>
    obtain ⟨hp0, hp1⟩ := hp p hmem <;>
    by_cases c : p ≥ 2*N*(5*N-1) ∧ p ≤ 12*N^2
  · obtain ⟨i, c1, c2, c3, c4⟩ := bottom64 hN hb c.1 hp1
    simp only [if_pos c, c1, c2, c3, c4, Option.map_some]
  · simp only [if_neg c]
    by_cases b : p > 2*N*(N+1) ∧ p < 2*N*(5*N-1)
    · simp only [if_pos b, (belt64 hN hb b.1 b.2).1]
    · simp only [if_neg b]
      by_cases a : p ≤ 2*N*(N+1)
      · obtain ⟨i, c1, c2, c3⟩ := top64 hN hb hp0 a
        simp only [if_pos a, c1, c2, c3, Option.map_some]
      · simp only [if_neg a]
  · obtain ⟨i, c1, c2, c3, c4⟩ := bottom64 hN hb c.1 hp1
    simp only [if_pos c, c1, c2, c3, c4, Option.map_some]
  · simp only [if_neg c]
    by_cases b : p > 2*N*(N+1) ∧ p < 2*N*(5*N-1)
    · simp only [if_pos b, (belt64 hN hb b.1 b.2).2]
    · simp only [if_neg b]
      by_cases a : p ≤ 2*N*(N+1)
      · obtain ⟨i, c1, c2, c3⟩ := top64 hN hb hp0 a
        simp only [if_pos a, c1, c2, c3, Option.map_some]
      · simp only [if_neg a]

theorem ij2pixArr64_eq_map {N : ℤ} (hN : 1 ≤ N) (rows : List (ℤ × ℤ)) :
    ij2pixArr64 (rows.map Prod.fst) (rows.map Prod.snd) N
      = .ok (rows.map fun r => trunc (F64.ofInt (ij2pix r.1 r.2 N))) := by
  unfold ij2pixArr64
  simp only [List.length_map, replicate_length_map, whereIdx_map, bind, Except.bind,
    gather_whereIdx, zipWith_map_same, scatter_whereIdx, List.map_map, Function.comp_def, pure,
    Except.pure, decide_eq_true_eq]
  congr 1
  apply List.map_congr_left
  intro r _
  congr 1
  unfold ij2pix
  by_cases a : r.1 ≤ N
  · rw [if_neg (by omega), if_neg (by omega), if_pos a, if_pos a]
  · by_cases b : r.1 > N ∧ r.1 < 3*N
    · rw [if_neg (by omega), if_pos b, if_neg a, if_pos b]
    · rw [if_pos (by omega), if_neg a, if_neg b]

theorem ij2pixArr64_eq {N : ℤ} (hN : 1 ≤ N) (hb : N ≤ 2^24) (rows : List (ℤ × ℤ))
    (hv : ∀ r ∈ rows, ValidRing N r.1 r.2) :
    ij2pixArr64 (rows.map Prod.fst) (rows.map Prod.snd) N
      = .ok (rows.map fun r => ij2pix r.1 r.2 N) := by
  rw [ij2pixArr64_eq_map hN]
  congr 1
  apply List.map_congr_left
  intro r hr
  have h := ij2pix_valid (hv r hr)
  have hN2 := sq_le_of (by omega) hb
  have : F64.ofInt (ij2pix r.1 r.2 N) = (ij2pix r.1 r.2 N : ℝ) :=
    fl_int (abs_le.mpr ⟨by have := h.1; omega, by have := h.2; omega⟩)
  rw [this, trunc_intCast]

/-- An odd integer between `2^53` and `2^54` is half way between two floats. -/
theorem ofInt_odd {k : ℤ} (h0 : 2^52 ≤ k) (h1 : k < 2^53) :
    fl ((2*k + 1 : ℤ):ℝ) = if Even k then ((2*k : ℤ):ℝ) else ((2*k + 2 : ℤ):ℝ) := by
  have h0R : (2:ℝ)^52 ≤ k := by exact_mod_cast h0
  have h1R : (k:ℝ) + 1 ≤ (2:ℝ)^53 := by exact_mod_cast h1
  have hu : ulpExp ((2*k + 1 : ℤ):ℝ) = 1 := by
    apply ulpExp_eq (by norm_num)
    · rw [abs_of_nonneg (by push_cast; linarith)]; push_cast; norm_num at h0R ⊢; linarith
    · rw [abs_of_nonneg (by push_cast; linarith)]; push_cast; norm_num at h1R ⊢; linarith
  have hd : ((2*k + 1 : ℤ):ℝ) / (2:ℝ)^(1:ℤ) = (k:ℝ) + 1/2 := by push_cast; rw [zpow_one]; ring
  split
  case isTrue h =>
    rw [fl_of_ulp hu (n := k) (by rw [hd]; exact rne_half_even h)]; push_cast; rw [zpow_one]; ring
  case isFalse h =>
    rw [fl_of_ulp hu (n := k + 1) (by rw [hd]; exact rne_half_odd h)]; push_cast; rw [zpow_one]; ring

/-- An even integer up to `2^54` is a float. -/
theorem ofInt_even {k : ℤ} (h0 : -2^53 ≤ k) (h1 : k ≤ 2^53) {x : ℝ} (hx : x = ((2*k : ℤ):ℝ)) :
    fl x = ((2*k : ℤ):ℝ) := by
  have := fl_exact (m := k) (e := 1) (abs_le.mpr ⟨h0, h1⟩) (by norm_num)
  rw [zpow_one] at this
  rw [hx]; push_cast; rw [mul_comm]; exact this

/-- `nside = 2^25`: the last but two pixel is given the place `0` of its ring. -/
theorem pix2ij64_bad : pix2ij64 (12*(2^25)^2 - 3) (2^25) = .ok (4*2^25 - 1, 0) := by
  unfold pix2ij64
  rw [if_neg (by norm_num), if_neg (by norm_num), if_pos (by norm_num)]
  have c : capRing64 (F64.div (F64.ofInt (12*(2^25)^2 - (12*(2^25)^2 - 3))) 2) = some ((1:ℤ):ℝ) := by
    have e : F64.div (F64.ofInt (12*(2^25)^2 - (12*(2^25)^2 - 3))) 2 = (((2:ℤ):ℝ)+1)/2 := by
      unfold F64.div F64.ofInt
      rw [fl_int (by norm_num)]
      have := fl_dyadic (n := 3) 1 (by norm_num) (by norm_num)
      norm_num at this ⊢; exact this
    rw [e]; exact capRing64_eq (by norm_num) (by norm_num) (by norm_num) (by norm_num)
  have e1 : F64.ofInt (12*(2^25)^2 - 3) = ((2*(3*2^51 - 2) : ℤ):ℝ) := by
    have := ofInt_odd (k := 3*2^51 - 2) (by norm_num) (by norm_num)
    rw [if_pos (by decide)] at this
    rw [← this]; unfold F64.ofInt; norm_num
  have e2 : F64.mul (F64.mul 2 ((1:ℤ):ℝ)) (F64.add ((1:ℤ):ℝ) 1) = ((4:ℤ):ℝ) := by
    have a : F64.mul 2 ((1:ℤ):ℝ) = ((2:ℤ):ℝ) := fl_int_eq 2 (by norm_num) (by norm_num) (by norm_num)
    have b : F64.add ((1:ℤ):ℝ) 1 = ((2:ℤ):ℝ) := fl_int_eq 2 (by norm_num) (by norm_num) (by norm_num)
    rw [a, b]; exact fl_int_eq 4 (by norm_num) (by norm_num) (by norm_num)
  have e3 : F64.add ((2*(3*2^51 - 2) : ℤ):ℝ) ((4:ℤ):ℝ) = ((2*(3*2^51) : ℤ):ℝ) :=
    ofInt_even (by norm_num) (by norm_num) (by norm_num)
  have e4 : F64.add ((2*(3*2^51) : ℤ):ℝ) 1 = ((2*(3*2^51) : ℤ):ℝ) := by
    have := ofInt_odd (k := 3*2^51) (by norm_num) (by norm_num)
    rw [if_pos (by decide)] at this
    unfold F64.add
    refine Eq.trans ?_ this
    congr 1; norm_num
  have e5 : F64.ofInt (12*(2^25)^2) = ((2*(3*2^51) : ℤ):ℝ) :=
    ofInt_even (by norm_num) (by norm_num) (by norm_num)
  have e6 : F64.sub ((2*(3*2^51) : ℤ):ℝ) ((2*(3*2^51) : ℤ):ℝ) = ((0:ℤ):ℝ) :=
    fl_int_eq 0 (by norm_num) (by norm_num) (by norm_num)
  have e7 : F64.sub (F64.ofInt (4*2^25)) ((1:ℤ):ℝ) = ((4*2^25 - 1 : ℤ):ℝ) := by
    have a : F64.ofInt (4*2^25) = ((4*2^25 : ℤ):ℝ) := fl_int (by norm_num)
    rw [a]; exact fl_int_eq _ (by norm_num) (by norm_num) (by norm_num)
  simp only [c, Option.map_some, e1, e2, e3, e4, e5, e6, e7, pyInt, trunc_intCast]
  rfl

/-- `nside = 2^25`: the array call sends the last pixel's ring pair off the map. -/
theorem ij2pixArr64_bad :
    ij2pixArr64 [4*2^25 - 1] [4] (2^25) = .ok [12*(2^25)^2] := by
  have h := ij2pixArr64_eq_map (N := 2^25) (by norm_num) [(4*2^25 - 1, 4)]
  simp only [List.map_cons, List.map_nil] at h
  rw [h]
  have e : ij2pix (4*2^25 - 1) 4 (2^25) = 2*(3*2^51 - 1) + 1 := by
    unfold ij2pix; norm_num
  have := ofInt_odd (k := 3*2^51 - 1) (by norm_num) (by norm_num)
  rw [if_neg (by decide)] at this
  rw [e]; unfold F64.ofInt; rw [this, trunc_intCast]; norm_num

/-- `nside = 2^27`: the last pixel of ring `2^26 + 2` is put in the next ring. -/
theorem pix2ij64_bad_ring :
    pix2ij64 (2*(2^26 + 2)*(2^26 + 3) - 1) (2^27) = .ok (2^26 + 3, 0) := by
  have c : capRing64 (((2^26 + 2)*(2^26 + 3) : ℤ) : ℝ) = some ((2^26 + 3 : ℤ):ℝ) := by
    have hs : fl (Real.sqrt (((2^26 + 2)*(2^26 + 3) : ℤ) : ℝ)) = 2^26 + 2 + 1/2 := by
      have hlo : (2:ℝ)^26 + 2 + 1/2 - 1/2^28 ≤ Real.sqrt (((2^26 + 2)*(2^26 + 3) : ℤ) : ℝ) := by
        apply Real.le_sqrt_of_sq_le; norm_num
      have hhi : Real.sqrt (((2^26 + 2)*(2^26 + 3) : ℤ) : ℝ) ≤ (2:ℝ)^26 + 2 + 1/2 := by
        rw [Real.sqrt_le_iff]; norm_num
      set r := Real.sqrt (((2^26 + 2)*(2^26 + 3) : ℤ) : ℝ)
      norm_num at hlo hhi
      have hu : ulpExp r = -26 := by
        apply ulpExp_eq (by norm_num)
        · rw [abs_of_nonneg (by linarith)]; norm_num; linarith
        · rw [abs_of_nonneg (by linarith)]; norm_num; linarith
      rw [fl_of_ulp (n := 2^52 + 2*2^26 + 2^25) hu (rne_near _)]
      · norm_num
      · rw [zpow_neg, div_inv_eq_mul]
        rw [abs_lt]; push_cast; norm_num; constructor <;> linarith
    have hd : F64.sub (((2^26 + 2)*(2^26 + 3) : ℤ) : ℝ) (2^26 + 2 + 1/2)
        = (((2^26 + 2)^2 : ℤ):ℝ) := by
      unfold F64.sub
      have hx : (((2^26 + 2)*(2^26 + 3) : ℤ) : ℝ) - (2^26 + 2 + 1/2)
          = (((2^26 + 2)^2 - 1 : ℤ):ℝ) + 1/2 := by push_cast; norm_num
      have hu : ulpExp ((((2^26 + 2)^2 - 1 : ℤ):ℝ) + 1/2) = 0 := by
        apply ulpExp_eq (by norm_num)
        · rw [abs_of_nonneg (by norm_num)]; norm_num
        · rw [abs_of_nonneg (by norm_num)]; norm_num
      rw [hx, fl_of_ulp hu (n := (2^26 + 2)^2)]
      · rw [zpow_zero, mul_one]
      · rw [zpow_zero, div_one, rne_half_odd (by decide)]; norm_num
    have e1 : F64.sqrt (((2^26 + 2)*(2^26 + 3) : ℤ) : ℝ) = some (2^26 + 2 + 1/2) := by
      unfold F64.sqrt; rw [if_pos (by norm_num), hs]
    have e2 : F64.sqrt ((((2^26 + 2)^2 : ℤ)):ℝ) = some ((2^26 + 2 : ℤ):ℝ) := by
      unfold F64.sqrt
      rw [if_pos (by norm_num)]
      rw [Int.cast_pow, Real.sqrt_sq (by norm_num)]
      exact congrArg some (fl_int (n := 2^26 + 2) (by norm_num))
    have e3 : F64.add ((2^26 + 2 : ℤ):ℝ) 1 = ((2^26 + 3 : ℤ):ℝ) :=
      fl_int_eq _ (by norm_num) (by norm_num) (by norm_num)
    unfold capRing64
    rw [Int.floor_intCast, e1]
    show (F64.sqrt (F64.sub _ _)).bind _ = _
    rw [hd, e2]
    show some _ = _
    rw [Int.floor_intCast, e3]
  have e1 : F64.ofInt (2*(2^26 + 2)*(2^26 + 3) - 1 + 1)
      = ((2*((2^26 + 2)*(2^26 + 3)) : ℤ):ℝ) :=
    ofInt_even (by norm_num) (by norm_num) (by norm_num)
  have e2 : F64.div ((2*((2^26 + 2)*(2^26 + 3)) : ℤ):ℝ) 2
      = (((2^26 + 2)*(2^26 + 3) : ℤ) : ℝ) :=
    fl_int_eq _ (by push_cast; ring) (by norm_num) (by norm_num)
  have e3 : F64.mul (F64.mul 2 ((2^26 + 3 : ℤ):ℝ)) (F64.sub ((2^26 + 3 : ℤ):ℝ) 1)
      = ((2*((2^26 + 2)*(2^26 + 3)) : ℤ):ℝ) := by
    have a : F64.mul 2 ((2^26 + 3 : ℤ):ℝ) = ((2*(2^26 + 3) : ℤ):ℝ) :=
      fl_int_eq _ (by push_cast; ring) (by norm_num) (by norm_num)
    have b : F64.sub ((2^26 + 3 : ℤ):ℝ) 1 = ((2^26 + 2 : ℤ):ℝ) :=
      fl_int_eq _ (by norm_num) (by norm_num) (by norm_num)
    rw [a, b]
    exact ofInt_even (by norm_num) (by norm_num) (by push_cast; ring)
  have e4 : F64.sub ((2*((2^26 + 2)*(2^26 + 3)) : ℤ):ℝ) ((2*((2^26 + 2)*(2^26 + 3)) : ℤ):ℝ)
      = ((0:ℤ):ℝ) := fl_int_eq 0 (by push_cast; ring) (by norm_num) (by norm_num)
  unfold pix2ij64
  rw [if_pos (by norm_num)]
  simp only [e1, e2, c, Option.map_some, e3, e4, pyInt, trunc_intCast]
  rfl

end Magpie.Healpix
