import Verif.Model.Progress
import Verif.Proof.Float64Q
import Mathlib.Data.Nat.Count
import Mathlib.Data.Nat.Factorization.Basic
import Mathlib.Data.Rat.Floor
import Mathlib.Tactic.Linarith
import Mathlib.Tactic.Positivity
import Mathlib.Tactic.FieldSimp
import Mathlib.Tactic.Ring

/-!
# The progress bar (C69, C70)
-/

namespace Magpie.Props

open Magpie Magpie.Progress

set_option linter.unusedSimpArgs false
set_option linter.unusedVariables false

/-- The line shown when `c` of `L` marks are done: the explanation, the bar with `c` done and `L - c`
undone marks between its edges, the percentage `p` padded to constant width, and the index. -/
def barLine (o : Opts) (c L p : ℕ) (index length : ℕ) : String :=
  "\r" ++ (match o.explanation with | some e => e ++ " : " | none => "")
    ++ o.barEdgeLeft.getD o.barEdges
    ++ String.join (List.replicate c o.markerDone)
    ++ String.join (List.replicate (L - c) o.markerUndone)
    ++ o.barEdgeRight.getD o.barEdges
    ++ (if p < 10 then "   " else if p < 100 then "  " else " ") ++ toString p ++ "% "
    ++ (if o.indexing = true then "[" ++ toString (index + 1) ++ "/" ++ toString length ++ "]" else "")

private theorem trunc_div_nat (a b : ℕ) : trunc ((a:ℚ)/(b:ℚ)) = ((a/b : ℕ) : ℤ) := by
  unfold trunc
  rw [if_pos (by positivity), Rat.floor_natCast_div_natCast]
  simp

private theorem toString_natCast (n : ℕ) : toString ((n:ℕ):ℤ) = toString n := rfl

private theorem strRep_nat (s : String) (n : ℕ) : strRep s (n:ℤ) = String.join (List.replicate n s) := by
  simp [strRep]

private theorem theBar_eq (o : Opts) (c L : ℕ) (hL : o.barLength = L) (hc : c ≤ L) (hpos : 1 ≤ L) :
    theBar o (c:ℤ) = o.barEdgeLeft.getD o.barEdges ++ String.join (List.replicate c o.markerDone)
      ++ String.join (List.replicate (L - c) o.markerUndone) ++ o.barEdgeRight.getD o.barEdges := by
  unfold theBar
  simp only
  rw [hL]
  split_ifs with h1 h2
  · have : (L:ℤ) - (c:ℤ) = ((L - c : ℕ) : ℤ) := by omega
    rw [this, strRep_nat, strRep_nat]
  · have : c = 0 := by exact_mod_cast h2
    subst this
    rw [strRep_nat]
    simp [String.join, String.append_assoc]
  · have : c = L := by
      by_contra hne
      exact h1 ⟨h2, by exact_mod_cast hne⟩
    subst this
    rw [strRep_nat]
    simp [String.join, String.append_assoc]

private theorem pct_eq (p : ℕ) (q : ℚ) (h0 : 0 ≤ q) (hp : trunc q = (p:ℤ)) (hq : q ≤ 100) :
    percentageString q = (if p < 10 then "   " else if p < 100 then "  " else " ") ++ toString p ++ "% " := by
  have hfmt : fmtD q = toString p := by
    unfold fmtD
    rw [hp, toString_natCast]
  have hf : ⌊q⌋ = (p:ℤ) := by rw [← hp]; unfold trunc; rw [if_pos h0]
  have e10 : q < 10 ↔ p < 10 := by
    have : q < ((10:ℤ):ℚ) ↔ ⌊q⌋ < 10 := Int.floor_lt.symm
    rw [hf] at this
    push_cast at this
    rw [this]; norm_cast
  have e100 : q < 100 ↔ p < 100 := by
    have : q < ((100:ℤ):ℚ) ↔ ⌊q⌋ < 100 := Int.floor_lt.symm
    rw [hf] at this
    push_cast at this
    rw [this]; norm_cast
  have ene : q ≠ 100 ↔ p < 100 := by
    rw [← e100]
    exact ⟨fun hne => lt_of_le_of_ne hq hne, fun hlt => hlt.ne⟩
  unfold percentageString
  rw [hfmt]
  split_ifs <;> first | rfl | (exfalso; tauto)

/-- What a call writes, for any rounding that gives `c` done marks, `p` percent and the refresh step. -/
private theorem writes_of (rd : ℚ → ℚ) (o : Opts) (index length L n c p : ℕ) (h : index < length)
    (hL : o.barLength = L) (hL1 : 1 ≤ L) (hn : o.numRefresh = n) (hn1 : 1 ≤ n)
    (hlz : rd ((length:ℤ):ℚ) ≠ 0) (q : ℚ)
    (hq : q = rd (rd (rd (((index:ℤ) + 1 : ℤ):ℚ) / rd ((length:ℤ):ℚ)) * 100))
    (h0 : 0 ≤ q) (h100 : q ≤ 100)
    (hc : barCounts rd q o.barLength = (c:ℤ)) (hcl : c ≤ L) (hp : trunc q = (p:ℤ))
    (hmq : rd (((min n length : ℕ) : ℤ) : ℚ) ≠ 0)
    (htr : trunc (rd (rd ((length:ℤ):ℚ) / rd (((min n length : ℕ) : ℤ) : ℚ))) = ((length / min n length : ℕ):ℤ)) :
    progressBarIn rd index length o = .ok (
      let line := barLine o c L p index length
      if index + 1 = length then [line, line ++ "\n"]
      else if (index + 1) % (length / min n length) = 0 then [line] else []) := by
  have hl0 : 0 < length := by omega
  have hm : 0 < min n length := by omega
  have hd : 0 < length / min n length := Nat.div_pos (min_le_right _ _) hm
  have hnum : (if o.numRefresh ≥ (length:ℤ) then (length:ℤ) else o.numRefresh) = ((min n length : ℕ):ℤ) := by
    rw [hn]
    split_ifs with hh <;> omega
  have hidx : indexString o index length = if o.indexing = true then
      "[" ++ toString (index + 1) ++ "/" ++ toString length ++ "]" else "" := by
    unfold indexString
    rfl
  have hmod : ((index:ℤ)+1).fmod ((length / min n length : ℕ):ℤ) = (((index+1) % (length / min n length) : ℕ):ℤ) := by
    rw [Int.fmod_eq_emod_of_nonneg _ (by positivity)]
    push_cast; rfl
  have hlast : ((index:ℤ) + 1 = (length:ℤ)) ↔ index + 1 = length := by omega
  have hmz : ((((index+1) % (length / min n length) : ℕ):ℤ) = 0) ↔ (index+1) % (length / min n length) = 0 := by
    omega
  have hdz : ((length / min n length : ℕ):ℤ) ≠ 0 := by exact_mod_cast hd.ne'
  unfold progressBarIn pyFloatDiv
  simp only [bind, Except.bind, pure, Except.pure, hnum]
  rw [if_neg hlz]
  simp only
  rw [if_neg hmq]
  simp only
  unfold pyIntMod
  rw [htr, if_neg hdz, ← hq]
  simp only [hmod, hlast, hmz, hc, hidx]
  rw [theBar_eq o _ L hL hcl hL1, pct_eq p q h0 hp h100]
  unfold barLine
  cases o.explanation with
  | none =>
    by_cases h1 : index + 1 = length
    · simp [h1, String.append_assoc]
    · by_cases h2 : (index + 1) % (length / min n length) = 0
      · simp [h1, h2, String.append_assoc]
      · simp [h1, h2]
  | some e =>
    by_cases h1 : index + 1 = length
    · simp [h1, String.append_assoc]
    · by_cases h2 : (index + 1) % (length / min n length) = 0
      · simp [h1, h2, String.append_assoc]
      · simp [h1, h2]

/-- C69: what each call writes. With `c = ⌊(index+1)·bar_length/length⌋` done marks (out of
`bar_length`), the line is written at every call whose 1-based number is a multiple of
`⌊length / min(num_refresh, length)⌋` and at the last call, which also writes it again with a line
feed. -/
theorem C69_writes (o : Opts) (index length L n : ℕ) (h : index < length) (hL : o.barLength = L)
    (hL1 : 1 ≤ L) (hn : o.numRefresh = n) (hn1 : 1 ≤ n) :
    progressBar index length o = .ok (
      let line := barLine o ((index+1)*L/length) L (100*(index+1)/length) index length
      if index + 1 = length then [line, line ++ "\n"]
      else if (index + 1) % (length / min n length) = 0 then [line] else []) := by
  have hl0 : 0 < length := by omega
  have hm : 0 < min n length := by omega
  have hlq : (0:ℚ) < length := by exact_mod_cast hl0
  have hlz : ((length:ℤ):ℚ) ≠ 0 := by exact_mod_cast hl0.ne'
  have hq : (((((index:ℤ) + 1 : ℤ)):ℚ)/((length:ℤ):ℚ)*100) = ((100*(index+1) : ℕ):ℚ)/(length:ℚ) := by
    push_cast; field_simp
  unfold progressBar
  refine writes_of id o index length L n _ _ h hL hL1 hn hn1 hlz _ rfl ?_ ?_ ?_ ?_ ?_ ?_ ?_
  · simp only [id]; rw [hq]; positivity
  · simp only [id]; rw [hq, div_le_iff₀ hlq]; exact_mod_cast (by omega : 100*(index+1) ≤ 100*length)
  · unfold barCounts
    rw [← trunc_div_nat, hL]
    simp only [id]
    congr 1
    push_cast
    field_simp
  · apply Nat.div_le_of_le_mul
    exact Nat.mul_le_mul_right _ (by omega)
  · simp only [id]; rw [hq, trunc_div_nat]
  · simp only [id]; exact_mod_cast hm.ne'
  · simp only [id]; rw [← trunc_div_nat]; push_cast; rfl

/-- C69: the number of done marks is at most `bar_length`, grows with the index, and the bar is full
exactly at the last call. -/
theorem C69_marks (index index' length L : ℕ) (h : index ≤ index') (h' : index' < length) (hL : 1 ≤ L) :
    (index'+1)*L/length ≤ L ∧ (index+1)*L/length ≤ (index'+1)*L/length ∧
    ((index'+1)*L/length = L ↔ index' + 1 = length) := by
  have hl : 0 < length := by omega
  have hle : (index'+1)*L/length ≤ L := by
    apply Nat.div_le_of_le_mul
    exact Nat.mul_le_mul_right _ (by omega)
  refine ⟨hle, Nat.div_le_div_right (Nat.mul_le_mul_right _ (by omega)), ?_, ?_⟩
  · intro he
    by_contra hne
    have : (index'+1)*L/length < L := by
      rw [Nat.div_lt_iff_lt_mul hl, mul_comm]
      exact Nat.mul_lt_mul_of_pos_left (by omega) (by omega)
    omega
  · intro he
    rw [he]
    exact Nat.mul_div_cancel_left _ hl

example : progressBar 4 10 { barLength := 4 } = .ok ["\r|##__|  50% "] ∧
    progressBar 9 10 { barLength := 4 } = .ok ["\r|####| 100% ", "\r|####| 100% \n"] := by
  constructor
  · exact (C69_writes { barLength := 4 } 4 10 4 50 (by norm_num) rfl (by norm_num) rfl (by norm_num)).trans
      (by decide +kernel)
  · exact (C69_writes { barLength := 4 } 9 10 4 50 (by norm_num) rfl (by norm_num) rfl (by norm_num)).trans
      (by decide +kernel)

/-! ### In double precision -/

private theorem floor_near (a b : ℕ) (hb : 0 < b) (v : ℚ) (ha : 5*a < 2^53)
    (h1 : (a:ℚ)/b*(1 - 5/2^53) ≤ v) (h2 : v ≤ (a:ℚ)/b*(1 + 5/2^53)) :
    ⌊v⌋ = ((a/b : ℕ):ℤ) ∨ b ∣ a ∧ ⌊v⌋ + 1 = ((a/b : ℕ):ℤ) := by
  have hbq : (0:ℚ) < b := by exact_mod_cast hb
  have hb1 : (1:ℚ) ≤ b := by exact_mod_cast hb
  have haq : (5:ℚ)*a < 2^53 := by exact_mod_cast ha
  have hv : (a:ℚ)/b*b = a := div_mul_cancel₀ _ hbq.ne'
  have e : (a:ℚ) = b*((a/b : ℕ):ℚ) + ((a%b : ℕ):ℚ) := by exact_mod_cast (Nat.div_add_mod a b).symm
  have hr : ((a%b : ℕ):ℚ) + 1 ≤ b := by exact_mod_cast Nat.mod_lt a hb
  have hr0 : (0:ℚ) ≤ ((a%b : ℕ):ℚ) := by positivity
  set k := a/b with hk
  set r := a%b with hrr
  have he : (a:ℚ)*(5/2^53) < 1 := by rw [mul_div_assoc', div_lt_one (by positivity)]; linarith
  -- bounds multiplied by `b`
  have g1 : (a:ℚ) - 1 < v*b := by
    have := mul_le_mul_of_nonneg_right h1 hbq.le
    have e2 : (a:ℚ)/b*(1 - 5/2^53)*b = a - a*(5/2^53) := by field_simp
    linarith
  have g2 : v*b < (a:ℚ) + 1 := by
    have := mul_le_mul_of_nonneg_right h2 hbq.le
    have e2 : (a:ℚ)/b*(1 + 5/2^53)*b = a + a*(5/2^53) := by field_simp
    linarith
  have up : v < k + 1 := by
    by_contra hh
    push Not at hh
    have := mul_le_mul_of_nonneg_right hh hbq.le
    nlinarith
  by_cases hz : r = 0
  · have hz' : ((r:ℕ):ℚ) = 0 := by exact_mod_cast hz
    have lo : (k:ℚ) - 1 < v := by
      by_contra hh
      push Not at hh
      have := mul_le_mul_of_nonneg_right hh hbq.le
      nlinarith
    by_cases hkv : (k:ℚ) ≤ v
    · left
      rw [Int.floor_eq_iff]
      exact ⟨by exact_mod_cast hkv, by exact_mod_cast up⟩
    · right
      push Not at hkv
      refine ⟨Nat.dvd_of_mod_eq_zero hz, ?_⟩
      have : ⌊v⌋ = (k:ℤ) - 1 := by
        rw [Int.floor_eq_iff]
        push_cast
        exact ⟨lo.le, by linarith⟩
      rw [this]; ring
  · have hz1 : (1:ℚ) ≤ ((r:ℕ):ℚ) := by exact_mod_cast Nat.one_le_iff_ne_zero.mpr hz
    have lo : (k:ℚ) ≤ v := by
      by_contra hh
      push Not at hh
      have := mul_lt_mul_of_pos_right hh hbq
      nlinarith
    left
    rw [Int.floor_eq_iff]
    exact ⟨by exact_mod_cast lo, by exact_mod_cast up⟩

private theorem flQ_nonneg {x : ℚ} (h : 0 ≤ x) : 0 ≤ F64.flQ x := by
  have := F64.flQ_mono h
  have z : F64.flQ ((0:ℤ):ℚ) = ((0:ℤ):ℚ) := F64.flQ_int (by norm_num)
  push_cast at z
  rwa [z] at this

/-- `_percentage` in double precision. -/
private def pct64 (length index : ℕ) : ℚ :=
  F64.flQ (F64.flQ (F64.flQ (((index:ℤ) + 1 : ℤ):ℚ) / F64.flQ ((length:ℤ):ℚ)) * 100)

private theorem pct64_nonneg (length index : ℕ) : 0 ≤ pct64 length index := by
  unfold pct64
  apply flQ_nonneg
  apply mul_nonneg _ (by norm_num)
  apply flQ_nonneg
  apply div_nonneg <;> apply flQ_nonneg
  · exact_mod_cast (by positivity : (0:ℚ) ≤ (index:ℚ) + 1)
  · exact_mod_cast (by positivity : (0:ℚ) ≤ (length:ℚ))

private theorem pct64_mono (length : ℕ) {i j : ℕ} (h : i ≤ j) : pct64 length i ≤ pct64 length j := by
  unfold pct64
  apply F64.flQ_mono
  apply mul_le_mul_of_nonneg_right _ (by norm_num)
  apply F64.flQ_mono
  apply div_le_div_of_nonneg_right
  · apply F64.flQ_mono; exact_mod_cast Nat.succ_le_succ h
  · apply flQ_nonneg; exact_mod_cast (by positivity : (0:ℚ) ≤ (length:ℚ))

private theorem trunc_floor {x : ℚ} (h : 0 ≤ x) : trunc x = ⌊x⌋ := by unfold trunc; rw [if_pos h]

private theorem barCounts_nonneg {q : ℚ} (h : 0 ≤ q) {L : ℤ} (hL : 0 ≤ L) :
    0 ≤ F64.flQ (F64.flQ (q/100) * F64.flQ (L:ℚ)) := by
  apply flQ_nonneg
  apply mul_nonneg <;> apply flQ_nonneg
  · positivity
  · exact_mod_cast hL

private theorem barCounts_mono {q q' : ℚ} (h0 : 0 ≤ q) (h : q ≤ q') {L : ℤ} (hL : 0 ≤ L) :
    barCounts F64.flQ q L ≤ barCounts F64.flQ q' L := by
  unfold barCounts
  rw [trunc_floor (barCounts_nonneg h0 hL), trunc_floor (barCounts_nonneg (h0.trans h) hL)]
  apply Int.floor_le_floor
  apply F64.flQ_mono
  apply mul_le_mul_of_nonneg_right
  · apply F64.flQ_mono; linarith
  · apply flQ_nonneg; exact_mod_cast hL

private theorem lo_step {x y z a : ℚ} (hx : 0 ≤ x) (h1 : x*(1 - a/2^53) ≤ y) (ha : 0 ≤ a)
    (h2 : y*(1 - 1/2^53) ≤ z) : x*(1 - (a+1)/2^53) ≤ z := by
  have e : (0:ℚ) ≤ 1 - 1/2^53 := by norm_num
  have m := mul_le_mul_of_nonneg_right h1 e
  have : x*(1 - (a+1)/2^53) ≤ x*(1 - a/2^53)*(1 - 1/2^53) := by
    have t : x*(1 - a/2^53)*(1 - 1/2^53) - x*(1 - (a+1)/2^53) = x*a/2^106 := by ring
    have : 0 ≤ x*a/2^106 := by positivity
    linarith
  linarith

private theorem hi_step {x y z : ℚ} (k : ℕ) (h1 : y ≤ x*(1 + 1/2^53)^k) (h2 : z ≤ y*(1 + 1/2^53)) :
    z ≤ x*(1 + 1/2^53)^(k+1) := by
  have m := mul_le_mul_of_nonneg_right h1 (show (0:ℚ) ≤ 1 + 1/2^53 by norm_num)
  rw [pow_succ, ← mul_assoc]
  linarith

private theorem chain64 {x L : ℚ} (hx : 1/2^43 ≤ x) (hL : 1 ≤ L) :
    let z := F64.flQ (F64.flQ x*100)
    let u := F64.flQ (F64.flQ (z/100)*L)
    (x*100*(1 - 5/2^53) ≤ z ∧ z ≤ x*100*(1 + 5/2^53)) ∧ 0 < z ∧
    (x*L*(1 - 5/2^53) ≤ u ∧ u ≤ x*L*(1 + 5/2^53)) ∧ 0 < u := by
  have hx0 : 0 < x := lt_of_lt_of_le (by positivity) hx
  have hL0 : 0 < L := by linarith
  have a1 := F64.flQ_err (x := x) (le_trans (by norm_num) hx)
  have c5 : ∀ k : ℕ, k ≤ 4 → (1 + 1/2^53 : ℚ)^k ≤ 1 + 5/2^53 := by
    intro k hk
    refine le_trans (pow_le_pow_right₀ (by norm_num) hk) ?_
    norm_num
  have half : ∀ {a b : ℚ}, 0 ≤ a → a*(1 - 1/2^53) ≤ b → a/2 ≤ b := by
    intro a b ha h
    refine le_trans ?_ h
    rw [div_eq_mul_inv]
    exact mul_le_mul_of_nonneg_left (by norm_num) ha
  generalize hy : F64.flQ x = y at *
  have hyl : 1/2^44 ≤ y := le_trans (by linarith) (half hx0.le a1.1)
  have a2 := F64.flQ_err (x := y*100) (by linarith)
  simp only
  generalize hz : F64.flQ (y*100) = z at *
  have hy0 : 0 < y := lt_of_lt_of_le (by positivity) hyl
  have hzl : 1/2^45 ≤ z := le_trans (by linarith) (half (by positivity) a2.1)
  have hz0 : 0 < z := lt_of_lt_of_le (by positivity) hzl
  have a3 := F64.flQ_err (x := z/100) (by linarith)
  generalize hw : F64.flQ (z/100) = w at *
  have hwl : 1/2^60 ≤ w := le_trans (by linarith) (half (by positivity) a3.1)
  have hw0 : 0 < w := lt_of_lt_of_le (by positivity) hwl
  have hwL : w ≤ w*L := le_mul_of_one_le_right hw0.le hL
  have a4 := F64.flQ_err (x := w*L) (by linarith)
  generalize hu : F64.flQ (w*L) = u at *
  have b1 : x*(1 - 1/2^53) ≤ y := a1.1
  have b1' : y ≤ x*(1+1/2^53)^1 := by rw [pow_one]; exact a1.2
  have b2 : (x*100)*(1 - (1+1)/2^53) ≤ z := by
    refine lo_step (by positivity) (y := y*100) (by linarith) (by norm_num) a2.1
  have b2' : z ≤ (x*100)*(1+1/2^53)^(1+1) := hi_step 1 (y := y*100) (by linarith) a2.2
  have b3 : x*(1 - ((1+1)+1)/2^53) ≤ w :=
    lo_step (by positivity) (y := z/100) (by linarith) (by norm_num) a3.1
  have b3' : w ≤ x*(1+1/2^53)^(2+1) := hi_step 2 (y := z/100) (by linarith) a3.2
  have b4 : (x*L)*(1 - ((1+1+1)+1)/2^53) ≤ u := by
    refine lo_step (by positivity) (y := w*L) ?_ (by norm_num) a4.1
    have := mul_le_mul_of_nonneg_right b3 hL0.le
    linarith
  have b4' : u ≤ (x*L)*(1+1/2^53)^(3+1) := by
    refine hi_step 3 (y := w*L) ?_ a4.2
    have := mul_le_mul_of_nonneg_right b3' hL0.le
    linarith
  have hxL : 0 < x*L := by positivity
  refine ⟨⟨?_, ?_⟩, hz0, ⟨?_, ?_⟩, ?_⟩
  · refine le_trans (mul_le_mul_of_nonneg_left ?_ (by positivity)) b2; norm_num
  · exact le_trans b2' (mul_le_mul_of_nonneg_left (c5 2 (by norm_num)) (by positivity))
  · refine le_trans (mul_le_mul_of_nonneg_left ?_ (by positivity)) b4; norm_num
  · exact le_trans b4' (mul_le_mul_of_nonneg_left (c5 4 (by norm_num)) (by positivity))
  · exact lt_of_lt_of_le (by positivity) (half (by positivity) a4.1)

/-- C69 in double precision, as the program runs: in a loop of at most `2^43` steps with
`length·bar_length ≤ 2^50` the calls write lines with `c index` done marks and the percentage
`p index`. Neither ever decreases, the bar always has `bar_length` marks, it is full and shows 100%
exactly at the last call, and only the last call writes a line feed. Each number is the integer part
of the exact one, or one less where the exact one is an integer. -/
theorem C69_double (o : Opts) (length L n : ℕ) (hlen : length ≤ 2^43) (hL : o.barLength = L)
    (hL1 : 1 ≤ L) (hLb : length*L ≤ 2^50) (hn : o.numRefresh = n) (hn1 : 1 ≤ n) :
    ∃ c p : ℕ → ℕ, (∀ i j, i ≤ j → c i ≤ c j ∧ p i ≤ p j) ∧
      ∀ index < length,
        progressBar64 index length o = .ok (
          let line := barLine o (c index) L (p index) index length
          if index + 1 = length then [line, line ++ "\n"]
          else if (index + 1) % (length / min n length) = 0 then [line] else []) ∧
        (c index ≤ L ∧ (c index = L ↔ index + 1 = length)) ∧
        (p index ≤ 100 ∧ (p index = 100 ↔ index + 1 = length)) ∧
        (c index = (index+1)*L/length ∨
          length ∣ (index+1)*L ∧ c index + 1 = (index+1)*L/length) ∧
        (p index = 100*(index+1)/length ∨
          length ∣ 100*(index+1) ∧ p index + 1 = 100*(index+1)/length) := by
  refine ⟨fun i => (barCounts F64.flQ (pct64 length i) L).toNat, fun i => (trunc (pct64 length i)).toNat,
    ?_, ?_⟩
  · intro i j hij
    have m := pct64_mono length hij
    refine ⟨Int.toNat_le_toNat (barCounts_mono (pct64_nonneg _ _) m (by positivity)), Int.toNat_le_toNat ?_⟩
    rw [trunc_floor (pct64_nonneg _ _), trunc_floor (pct64_nonneg _ _)]
    exact Int.floor_le_floor m
  intro index h
  have hl0 : 0 < length := by omega
  have hlq : (0:ℚ) < length := by exact_mod_cast hl0
  have hLb' : L ≤ 2^50 := le_trans (Nat.le_mul_of_pos_left L hl0) hLb
  have eI : F64.flQ (((index:ℤ) + 1 : ℤ):ℚ) = ((index + 1 : ℕ):ℚ) := by
    rw [F64.flQ_int (by rw [abs_of_nonneg (by positivity)]; omega)]; push_cast; rfl
  have eL : F64.flQ ((length:ℤ):ℚ) = (length:ℚ) := by
    rw [F64.flQ_int (by rw [abs_of_nonneg (by positivity)]; omega)]; push_cast; rfl
  have eB : F64.flQ (((L:ℕ):ℤ):ℚ) = (L:ℚ) := by
    rw [F64.flQ_int (by rw [abs_of_nonneg (by positivity)]; omega)]; push_cast; rfl
  have one : F64.flQ 1 = 1 := by
    have := F64.flQ_int (n := 1) (by norm_num); push_cast at this; exact this
  have hund : F64.flQ 100 = 100 := by
    have := F64.flQ_int (n := 100) (by norm_num); push_cast at this; exact this
  -- the first quotient
  set x : ℚ := ((index + 1 : ℕ):ℚ)/(length:ℚ) with hx
  have hxl : 1/2^43 ≤ x := by
    rw [hx, div_le_div_iff₀ (by positivity) hlq, one_mul]
    have h1 : (length:ℚ) ≤ 2^43 := by exact_mod_cast hlen
    have h2 : (1:ℚ) ≤ ((index + 1 : ℕ):ℚ) := by exact_mod_cast Nat.succ_le_succ (Nat.zero_le _)
    nlinarith
  have hx1 : x ≤ 1 := by
    rw [hx, div_le_one hlq]; exact_mod_cast h
  have hx0 : 0 < x := lt_of_lt_of_le (by positivity) hxl
  have hLq : (1:ℚ) ≤ L := by exact_mod_cast hL1
  obtain ⟨zb, hz00, ub, hu00⟩ := chain64 hxl hLq
  set y := F64.flQ x with hy
  have hpct : pct64 length index = F64.flQ (y*100) := by
    unfold pct64; rw [eI, eL]
  set z := F64.flQ (y*100) with hz
  set w := F64.flQ (z/100) with hw
  set u := F64.flQ (w*L) with hu
  have hy1 : y ≤ 1 := by rw [← one]; exact F64.flQ_mono hx1
  have hz1 : z ≤ 100 := by rw [← hund]; exact F64.flQ_mono (by linarith)
  have hz0 : 0 ≤ z := hz00.le
  have hu0 : 0 ≤ u := hu00.le
  have hcnt : barCounts F64.flQ z L = ⌊u⌋ := by
    unfold barCounts
    rw [trunc_floor (barCounts_nonneg hz0 (by positivity)), eB]
  have e100 : ((100*(index+1) : ℕ):ℚ)/(length:ℚ) = x*100 := by rw [hx]; push_cast; ring
  have eLL : (((index+1)*L : ℕ):ℚ)/(length:ℚ) = x*L := by rw [hx]; push_cast; ring
  have hle : (index+1)*L ≤ length*L := Nat.mul_le_mul_right _ (by omega)
  have pz := floor_near (100*(index+1)) length hl0 z (by omega) (by rw [e100]; exact zb.1)
    (by rw [e100]; exact zb.2)
  have pu := floor_near ((index+1)*L) length hl0 u (by omega) (by rw [eLL]; exact ub.1)
    (by rw [eLL]; exact ub.2)
  have hfz : 0 ≤ ⌊z⌋ := Int.floor_nonneg.mpr hz0
  have hfu : 0 ≤ ⌊u⌋ := Int.floor_nonneg.mpr hu0
  obtain ⟨p, hp⟩ := Int.eq_ofNat_of_zero_le hfz
  obtain ⟨c, hc⟩ := Int.eq_ofNat_of_zero_le hfu
  have ep : (trunc (pct64 length index)).toNat = p := by
    rw [hpct, trunc_floor hz0, hp]; rfl
  have ec : (barCounts F64.flQ (pct64 length index) L).toNat = c := by
    rw [hpct, hcnt, hc]; rfl
  simp only
  rw [ep, ec]
  rw [hp] at pz
  rw [hc] at pu
  have pu' : c = (index+1)*L/length ∨ length ∣ (index+1)*L ∧ c + 1 = (index+1)*L/length := by
    rcases pu with g | ⟨g, g'⟩
    · exact Or.inl (by exact_mod_cast g)
    · exact Or.inr ⟨g, by exact_mod_cast g'⟩
  have pz' : p = 100*(index+1)/length ∨ length ∣ 100*(index+1) ∧ p + 1 = 100*(index+1)/length := by
    rcases pz with g | ⟨g, g'⟩
    · exact Or.inl (by exact_mod_cast g)
    · exact Or.inr ⟨g, by exact_mod_cast g'⟩
  have mk := C69_marks index index length L le_rfl h hL1
  have mp := C69_marks index index length 100 le_rfl h (by norm_num)
  rw [mul_comm (index+1) 100] at mp
  have last : index + 1 = length → c = L ∧ p = 100 := by
    intro e
    have hx' : x = 1 := by rw [hx, e]; exact div_self hlq.ne'
    have hy' : y = 1 := by rw [hy, hx', one]
    have hz' : z = 100 := by rw [hz, hy', one_mul, hund]
    have hw' : w = 1 := by rw [hw, hz', div_self (by norm_num), one]
    have hu' : u = L := by
      rw [hu, hw', one_mul]
      have := eB
      push_cast at this
      exact this
    rw [hu', Int.floor_natCast] at hc
    rw [hz'] at hp
    have : ⌊(100:ℚ)⌋ = 100 := by
      have := Int.floor_natCast (R := ℚ) 100
      push_cast at this; exact this
    rw [this] at hp
    exact ⟨by exact_mod_cast hc.symm, by exact_mod_cast hp.symm⟩
  have cl : c ≤ L ∧ (c = L ↔ index + 1 = length) := by
    refine ⟨by rcases pu' with g | ⟨_, g⟩ <;> omega, fun g => ?_, fun g => (last g).1⟩
    rw [← mk.2.2]
    rcases pu' with g' | ⟨_, g'⟩ <;> omega
  have pl : p ≤ 100 ∧ (p = 100 ↔ index + 1 = length) := by
    refine ⟨by rcases pz' with g | ⟨_, g⟩ <;> omega, fun g => ?_, fun g => (last g).2⟩
    rw [← mp.2.2]
    rcases pz' with g' | ⟨_, g'⟩ <;> omega
  refine ⟨?_, cl, pl, pu', pz'⟩
  have hm : 0 < min n length := by omega
  have hmle : min n length ≤ length := min_le_right _ _
  have eM : F64.flQ (((min n length : ℕ):ℤ):ℚ) = ((min n length : ℕ):ℚ) := by
    rw [F64.flQ_int (by rw [abs_of_nonneg (by positivity)]; omega)]; push_cast; rfl
  unfold progressBar64
  refine writes_of F64.flQ o index length L n c p h hL hL1 hn hn1 (by rw [eL]; exact hlq.ne') z ?_ hz0 hz1
    ?_ cl.1 ?_ ?_ ?_
  · rw [eI, eL]
  · rw [hL, hcnt, hc]
  · rw [trunc_floor hz0, hp]
  · rw [eM]; exact_mod_cast hm.ne'
  · rw [eL, eM]
    have hmq : (0:ℚ) < ((min n length : ℕ):ℚ) := by exact_mod_cast hm
    have hge : (1:ℚ) ≤ (length:ℚ)/((min n length : ℕ):ℚ) := by
      rw [le_div_iff₀ hmq, one_mul]; exact_mod_cast hmle
    have a5 := F64.flQ_err (x := (length:ℚ)/((min n length : ℕ):ℚ)) (le_trans (by norm_num) hge)
    rw [trunc_floor (flQ_nonneg (by linarith))]
    rcases floor_near length (min n length) hm (F64.flQ ((length:ℚ)/((min n length : ℕ):ℚ))) (by omega)
      (by nlinarith [a5.1]) (by nlinarith [a5.2]) with g | ⟨⟨t, g⟩, g'⟩
    · exact g
    · exfalso
      have ht : (length:ℚ)/((min n length : ℕ):ℚ) = ((t:ℤ):ℚ) := by
        rw [div_eq_iff hmq.ne', mul_comm]; exact_mod_cast g
      have htl : t ≤ length := by
        rw [g]; exact Nat.le_mul_of_pos_left t hm
      rw [ht, F64.flQ_int (by rw [abs_of_nonneg (by positivity)]; omega), Int.floor_intCast] at g'
      have : length / min n length = t := by
        conv_lhs => rw [g]
        rw [← g]
        exact Nat.div_eq_of_eq_mul_right hm g
      rw [this] at g'
      omega

/-- Step 29 of 50 shows 28 marks of 50 and 57% although 29/50 is 58%. -/
theorem C69_double_example :
    progressBar64 28 50 { barLength := 50 } = .ok ["\r|############################______________________|  57% "] ∧
    progressBar 28 50 { barLength := 50 } = .ok ["\r|#############################_____________________|  58% "] := by
  constructor <;> decide +kernel

/-- The calls of a loop of `length` steps that write something. -/
def printingCalls (o : Opts) (length : ℕ) : Finset ℕ :=
  (Finset.range length).filter fun index => progressBar index length o ≠ .ok []

/-- How many calls of a loop write something. -/
theorem C70_count_partial (o : Opts) (length L n : ℕ) (hlen : 1 ≤ length) (hL : o.barLength = L)
    (hL1 : 1 ≤ L) (hn : o.numRefresh = n) (hn1 : 1 ≤ n) :
    (printingCalls o length).card = length / (length / min n length)
      + (if length / min n length ∣ length then 0 else 1) := by
  set d := length / min n length with hd
  have hdp : 0 < d := Nat.div_pos (min_le_right _ _) (by omega)
  have e : printingCalls o length = (Finset.range length).filter fun i => d ∣ i + 1 ∨ i + 1 = length := by
    unfold printingCalls
    apply Finset.filter_congr
    intro i hi
    rw [C69_writes o i length L n (Finset.mem_range.mp hi) hL hL1 hn hn1]
    simp only
    rw [← hd]
    by_cases h1 : i + 1 = length
    · simp [h1]
    · by_cases h2 : (i+1) % d = 0
      · simp [h1, h2, Nat.dvd_iff_mod_eq_zero]
      · simp [h1, h2, Nat.dvd_iff_mod_eq_zero]
  rw [e, Finset.filter_or]
  have hs : (Finset.range length).filter (fun i => i + 1 = length) = {length - 1} := by
    ext i
    simp only [Finset.mem_filter, Finset.mem_range, Finset.mem_singleton]
    omega
  rw [hs]
  split_ifs with hdv
  · rw [Finset.union_eq_left.mpr]
    · rw [Nat.card_multiples]; simp
    · intro i hi
      rw [Finset.mem_singleton] at hi
      rw [Finset.mem_filter, Finset.mem_range]
      refine ⟨by omega, ?_⟩
      have : i + 1 = length := by omega
      rwa [this]
  · rw [Finset.card_union_of_disjoint, Nat.card_multiples]
    · simp
    · rw [Finset.disjoint_singleton_right, Finset.mem_filter]
      rintro ⟨_, h⟩
      have : length - 1 + 1 = length := by omega
      rw [this] at h
      exact hdv h

/-- Part of C70: never more than twice `num_refresh` calls write. -/
theorem C70_twice_partial (o : Opts) (length L n : ℕ) (hlen : 1 ≤ length) (hL : o.barLength = L)
    (hL1 : 1 ≤ L) (hn : o.numRefresh = n) (hn1 : 1 ≤ n) :
    (printingCalls o length).card ≤ 2*n := by
  rw [C70_count_partial o length L n hlen hL hL1 hn hn1]
  set m := min n length with hm
  have hm1 : 1 ≤ m := by omega
  set d := length / m with hd
  have hdp : 0 < d := Nat.div_pos (min_le_right _ _) hm1
  have hlt : length < d*m + m := by
    have := Nat.div_add_mod length m
    have h2 := Nat.mod_lt length hm1
    rw [← hd] at this
    nlinarith
  have hlt2 : length < 2*m*d := by nlinarith
  have hdiv : length / d < 2*m := by rw [Nat.div_lt_iff_lt_mul hdp]; exact hlt2
  have hmn : m ≤ n := min_le_left _ _
  split_ifs <;> omega

/-- Part of C70: if `length % num_refresh < length / num_refresh`, in particular if `length ≥
num_refresh²` or `num_refresh` divides `length`, at most `num_refresh` calls and the final one write. -/
theorem C70_long_partial (o : Opts) (length L n : ℕ) (hlen : 1 ≤ length) (hL : o.barLength = L)
    (hL1 : 1 ≤ L) (hn : o.numRefresh = n) (hn1 : 1 ≤ n) (h : length % n < length / n) :
    (printingCalls o length).card ≤ n + 1 ∧ (n ∣ length → (printingCalls o length).card = n) := by
  rw [C70_count_partial o length L n hlen hL hL1 hn hn1]
  have hnl : n ≤ length := by
    by_contra hh
    rw [Nat.div_eq_of_lt (by omega)] at h
    omega
  rw [min_eq_left hnl]
  set d := length / n with hd
  have hdp : 0 < d := by omega
  have e := Nat.div_add_mod length n
  rw [← hd] at e
  have hdiv : length / d = n := by
    rw [Nat.div_eq_iff hdp]
    constructor
    · generalize length % n = r at e; omega
    · generalize length % n = r at e h; omega
  rw [hdiv]
  constructor
  · split_ifs <;> omega
  · intro hdv
    have hz : length % n = 0 := Nat.mod_eq_zero_of_dvd hdv
    rw [hz, add_zero] at e
    have hdd : d ∣ length := ⟨n, by rw [mul_comm]; exact e.symm⟩
    rw [if_pos hdd, add_zero]

example : (1000:ℕ) % 30 < 1000 / 30 := by norm_num

/-- Part of C70: a loop not longer than `num_refresh` writes at every step. -/
theorem C70_short_partial (o : Opts) (length L n : ℕ) (hlen : 1 ≤ length) (hL : o.barLength = L)
    (hL1 : 1 ≤ L) (hn : o.numRefresh = n) (hn1 : 1 ≤ n) (h : length ≤ n) :
    (printingCalls o length).card = length := by
  rw [C70_count_partial o length L n hlen hL hL1 hn hn1, min_eq_right h, Nat.div_self (by omega)]
  simp

/-- C70 fails: a loop of `2n - 1` steps refreshes `2n - 1` times with `num_refresh = n`. -/
theorem C70_violated (o : Opts) (L n : ℕ) (hL : o.barLength = L) (hL1 : 1 ≤ L) (hn : o.numRefresh = n)
    (hn1 : 3 ≤ n) : (printingCalls o (2*n - 1)).card = 2*n - 1 ∧ n + 1 < 2*n - 1 := by
  rw [C70_count_partial o (2*n-1) L n (by omega) hL hL1 hn (by omega), min_eq_left (by omega)]
  have : (2*n - 1)/n = 1 := by
    rw [Nat.div_eq_iff (by omega)]; omega
  rw [this]
  simp; omega

/-- For example the default 50 refreshes and 99 steps. -/
example : (printingCalls {} 99).card = 99 := (C70_violated {} 50 50 rfl (by norm_num) rfl (by norm_num)).1

/-- C70 in double precision: rounding changes no decision to write, so the counts above are those of
the program as it runs. -/
theorem C70_double (o : Opts) (length L n : ℕ) (hlen : length ≤ 2^43) (hL : o.barLength = L)
    (hL1 : 1 ≤ L) (hLb : length*L ≤ 2^50) (hn : o.numRefresh = n) (hn1 : 1 ≤ n) :
    ((Finset.range length).filter fun (index : ℕ) => progressBar64 index length o ≠ .ok []) =
      printingCalls o length := by
  obtain ⟨c, p, -, h⟩ := C69_double o length L n hlen hL hL1 hLb hn hn1
  unfold printingCalls
  apply Finset.filter_congr
  intro i hi
  rw [(h i (Finset.mem_range.mp hi)).1, C69_writes o i length L n (Finset.mem_range.mp hi) hL hL1 hn hn1]
  simp only
  split_ifs <;> simp

/-- The default options for a loop of ten million steps. -/
example : ((Finset.range 10000000).filter fun (index : ℕ) => progressBar64 index 10000000 {} ≠ .ok []).card = 50 := by
  have := C70_double {} 10000000 50 50 (by norm_num) rfl (by norm_num) (by norm_num) rfl (by norm_num)
  rw [show ((10000000:ℕ):ℤ) = 10000000 from rfl] at this
  rw [this]
  exact (C70_long_partial {} 10000000 50 50 (by norm_num) rfl (by norm_num) rfl (by norm_num) (by norm_num)).2
    (by norm_num)

end Magpie.Props
