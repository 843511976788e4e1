import Verif.Model.RemapNan
import Verif.Proof.Remap
import Verif.Proof.RemapExact

set_option linter.unusedSimpArgs false
set_option linter.unusedVariables false
set_option linter.unusedSectionVars false

namespace Magpie.Remap
open Magpie.Spec Finset

variable {K : Type} [Field K] [LinearOrder K] [IsStrictOrderedRing K] [FloorRing K]

/-- The work array names cell `k`. -/
def Names (b : Buf K) (k : ℤ) : Prop := ∃ e ∈ b, e.1 = k

/-- Values of a source array with NaN read as zero. -/
def val0 (f1 : List (Option K)) (p : ℤ) : K := (f1.getD p.toNat none).getD 0

theorem accumN_none (f1 : List (Option K)) (b : Buf K) (h : InR f1.length b) :
    accumN f1 none b = some none := by
  induction b with
  | nil => rfl
  | cons e b ih =>
    obtain ⟨p, w⟩ := e
    have hb : InR f1.length b := fun e he => h e (List.mem_cons_of_mem _ he)
    have he := h (p, w) List.mem_cons_self
    simp only [] at he
    unfold accumN
    by_cases hp : p = -1
    · rw [if_neg (by simpa using hp), ih hb]
    · obtain ⟨h0, h1⟩ := he.resolve_left hp
      rw [if_pos hp, if_pos h0, List.getElem?_eq_getElem (by omega)]
      simp only [fmaN]
      exact ih hb

open Classical in
theorem accumN_eq (f1 : List (Option K)) (b : Buf K) (h : InR f1.length b) (acc : K) :
    accumN f1 (some acc) b =
      some (if ∃ k : ℤ, k ≠ -1 ∧ Names b k ∧ f1.getD k.toNat none = none then none
        else some (acc + bufSum b (val0 f1))) := by
  induction b generalizing acc with
  | nil => simp [accumN, bufSum, Names]
  | cons e b ih =>
    obtain ⟨p, w⟩ := e
    have hb : InR f1.length b := fun e he => h e (List.mem_cons_of_mem _ he)
    have he := h (p, w) List.mem_cons_self
    simp only [] at he
    rw [bufSum_cons]
    have hN : ∀ k : ℤ, Names ((p, w) :: b) k ↔ p = k ∨ Names b k := by
      intro k; unfold Names; simp
    unfold accumN
    by_cases hp : p = -1
    · rw [if_neg (by simpa using hp), ih hb]
      congr 1
      have : (∃ k : ℤ, k ≠ -1 ∧ Names ((p, w) :: b) k ∧ f1.getD k.toNat none = none) ↔
          (∃ k : ℤ, k ≠ -1 ∧ Names b k ∧ f1.getD k.toNat none = none) := by
        constructor
        · rintro ⟨k, a, b, c⟩
          exact ⟨k, a, ((hN k).mp b).resolve_left (by rintro rfl; exact a hp), c⟩
        · rintro ⟨k, a, b, c⟩; exact ⟨k, a, (hN k).mpr (Or.inr b), c⟩
      rw [if_pos hp, zero_add]
      simp only [this]
    · obtain ⟨h0, h1⟩ := he.resolve_left hp
      have hlen : p.toNat < f1.length := by omega
      rw [if_pos hp, if_pos h0, List.getElem?_eq_getElem hlen]
      have hd : f1.getD p.toNat none = f1[p.toNat] := by
        rw [List.getD_eq_getElem?_getD, List.getElem?_eq_getElem hlen, Option.getD_some]
      simp only []
      rcases hv : f1[p.toNat] with _ | v
      · simp only [fmaN]
        rw [accumN_none f1 b hb, if_pos ⟨p, hp, (hN p).mpr (Or.inl rfl), hd.trans hv⟩]
      · simp only [fmaN]
        rw [ih hb]
        congr 1
        have : (∃ k : ℤ, k ≠ -1 ∧ Names ((p, w) :: b) k ∧ f1.getD k.toNat none = none) ↔
            (∃ k : ℤ, k ≠ -1 ∧ Names b k ∧ f1.getD k.toNat none = none) := by
          constructor
          · rintro ⟨k, a, b, c⟩
            refine ⟨k, a, ((hN k).mp b).resolve_left ?_, c⟩
            rintro rfl
            rw [hd, hv] at c; cases c
          · rintro ⟨k, a, b, c⟩; exact ⟨k, a, (hN k).mpr (Or.inr b), c⟩
        have hval : val0 f1 p = v := by unfold val0; rw [hd, hv]; rfl
        simp only [this, if_neg hp, hval]
        congr 2; ring

section axis
variable {A B : Axis K}

theorem cellOverlap_pos (hA : A.Valid) (hB : B.Valid) (k j : ℕ) :
    0 < cellOverlap A B k j ↔ A.edge k < B.edge (j+1) ∧ B.edge j < A.edge (k+1) := by
  unfold cellOverlap overlap
  have h1 := edge_lt hA k
  have h2 := edge_lt hB j
  rw [lt_max_iff]
  simp only [lt_irrefl, false_or, sub_pos, lt_min_iff, max_lt_iff]
  constructor
  · rintro ⟨⟨a, b⟩, c, d⟩; exact ⟨c, b⟩
  · rintro ⟨a, b⟩; exact ⟨⟨h1, b⟩, a, h2⟩

/-- A work array that describes output cell `j` and names exactly the cells it reads. -/
def GoodN (A B : Axis K) (j : ℕ) (b : Buf K) : Prop :=
  Good A B j b ∧ ∀ k : ℕ, k < A.n → (Names b k ↔ Reads A B j k)

theorem entryAcross_fst {lo dx e1 e2 : K} (n : ℕ) (h : e1 < e2) (hdx : 0 < dx) (p : ℤ)
    (k : ℕ) (hk : k < n) :
    (entryAcross lo dx n e1 e2 p).1 = k ↔
      p = k ∧ lo + dx*k < e2 ∧ e1 < lo + dx*((k:K)+1) := by
  unfold entryAcross
  by_cases hp : 0 ≤ p ∧ p < n
  · rw [if_pos hp]
    simp only []
    have hlt : lo + dx*(p:K) < lo + dx*((p:K)+1) := by nlinarith
    have aux : p = (k:ℤ) → (p:K) = (k:K) := by rintro rfl; simp
    have hk1 : ¬ ((-1:ℤ) = k) := by omega
    split_ifs with c1 c2 c3 c4
    · simp only
      refine ⟨fun hpk => ⟨hpk, ?_, ?_⟩, fun h => h.1⟩ <;> rw [← aux hpk]
      · linarith [c1.1]
      · linarith [c1.2]
    · simp only
      refine ⟨fun hpk => ⟨hpk, ?_, ?_⟩, fun h => h.1⟩ <;> rw [← aux hpk]
      · exact c2.2.2
      · linarith [c2.1]
    · simp only
      refine ⟨fun hpk => ⟨hpk, ?_, ?_⟩, fun h => h.1⟩ <;> rw [← aux hpk]
      · linarith [c3.2.2]
      · exact c3.2.1
    · simp only
      refine ⟨fun hpk => ⟨hpk, ?_, ?_⟩, fun h => h.1⟩ <;> rw [← aux hpk]
      · linarith [c4.2]
      · linarith [c4.1]
    · simp only
      refine ⟨fun hc => absurd hc hk1, ?_⟩
      rintro ⟨hpk, a, b⟩
      exfalso
      rw [← aux hpk] at a b
      rcases lt_or_ge e1 (lo + dx*(p:K)) with u | u
      · rcases le_or_gt e2 (lo + dx*((p:K)+1)) with v | v
        · exact c2 ⟨u, v, a⟩
        · exact c4 ⟨u, v⟩
      · rcases le_or_gt e2 (lo + dx*((p:K)+1)) with v | v
        · exact c1 ⟨u, v⟩
        · exact c3 ⟨u, b, v⟩
  · rw [if_neg hp]
    simp only
    constructor
    · intro hc; omega
    · rintro ⟨rfl, -, -⟩; exact absurd ⟨by omega, by omega⟩ hp

theorem edge_natCast (A : Axis K) (k : ℕ) : A.edge (k+1) = A.lo + A.dx*((k:K)+1) := by
  unfold Axis.edge; push_cast; ring

theorem pixel_goodN (hA : A.Valid) (hB : B.Valid) (j : ℕ) (hs : ¬ Stale A B j) (buf : Buf K) :
    GoodN A B j ((axisOf A B).pixel j buf) := by
  refine ⟨pixel_good hA hB j hs buf, ?_⟩
  intro k hk
  have hdA := dx_pos hA
  have hdB := dx_pos hB
  have hlt := edge_lt hB j
  have s1 := whichPix_spec (lo := A.lo) (x := B.edge j) hdA
  have s2 := whichPix_spec (lo := A.lo) (x := B.edge (j+1)) hdA
  have hfl : 0 ≤ ⌊B.dx/A.dx⌋ := Int.floor_nonneg.mpr (by positivity)
  have hq := Int.lt_floor_add_one (B.dx/A.dx)
  rw [div_lt_iff₀ hdA] at hq
  rw [pixel_unfold]
  unfold Reads
  rw [cellOverlap_pos hA hB, edge_natCast A k]
  have ek : A.edge k = A.lo + A.dx*(k:K) := rfl
  rw [ek]
  by_cases h : p1 A B j ≠ p2 A B j
  · rw [if_pos h]
    have hno : ¬ ∃ c, k = c + 1 ∧ InsideCell A B j c := by
      rintro ⟨c, rfl, c1, c2⟩
      apply h
      rw [edge_natCast A c] at c2
      have ec : A.edge c = A.lo + A.dx*(c:K) := rfl
      rw [ec] at c1
      have e1 : p1 A B j = c := by
        unfold p1 whichPix
        rw [Int.floor_eq_iff, le_div_iff₀ hdA, div_lt_iff₀ hdA]
        push_cast; constructor <;> linarith
      have e2 : p2 A B j = c := by
        unfold p2 whichPix
        rw [Int.floor_eq_iff, le_div_iff₀ hdA, div_lt_iff₀ hdA]
        push_cast; constructor <;> linarith
      rw [e1, e2]
    simp only [hno, or_false]
    constructor
    · rintro ⟨e, he, hek⟩
      rw [List.mem_map] at he
      obtain ⟨i, _, rfl⟩ := he
      exact ((entryAcross_fst A.n hlt hdA _ k hk).mp hek).2
    · rintro ⟨a, b⟩
      have l1 : p1 A B j ≤ k := by
        by_contra hc
        have : (k:K) + 1 ≤ p1 A B j := by exact_mod_cast not_le.mp hc
        unfold p1 at this
        nlinarith [s1.1]
      have l2 : (k:ℤ) < p1 A B j + (⌊B.dx/A.dx⌋ + 2) := by
        by_contra hc
        have : (p1 A B j : K) + ((⌊B.dx/A.dx⌋ : K) + 2) ≤ k := by exact_mod_cast not_lt.mp hc
        unfold p1 at this
        rw [edge_succ] at a
        nlinarith [s1.2]
      refine ⟨_, List.mem_map.mpr ⟨((k:ℤ) - p1 A B j).toNat, List.mem_range.mpr (by omega), rfl⟩, ?_⟩
      rw [entryAcross_fst A.n hlt hdA _ k hk]
      exact ⟨by omega, a, b⟩
  · rw [if_neg h]
    push Not at h
    have hne : p1 A B j ≠ -1 := fun hc => hs ⟨hc, h ▸ hc⟩
    rw [if_pos hne]
    have h2 : whichPix A.lo A.dx (B.edge (j+1)) = whichPix A.lo A.dx (B.edge j) := h.symm
    rw [h2] at s2
    have hp : whichPix A.lo A.dx (B.edge j) = p1 A B j := rfl
    rw [hp] at s1 s2
    have hfl0 : ⌊B.dx/A.dx⌋ = 0 := by
      have : B.dx < A.dx := by rw [edge_succ] at s2; nlinarith [s1.1, s2.2]
      rw [Int.floor_eq_zero_iff]
      exact ⟨by positivity, by rwa [div_lt_one hdA]⟩
    rw [hfl0]
    have key : Names ((List.range ((0:ℤ) + 2).toNat).map fun (i : ℕ) =>
        (entrySame A.n (p1 A B j) i : ℤ × K)) k ↔ (p1 A B j = k ∨ p1 A B j + 1 = k) := by
      unfold Names
      have : ((0:ℤ) + 2).toNat = 2 := rfl
      rw [this]
      have hr : List.range 2 = [0, 1] := rfl
      rw [hr]
      simp only [List.map_cons, List.map_nil, List.mem_cons, List.not_mem_nil, or_false,
        exists_eq_or_imp, exists_eq_left]
      have aux : ∀ i : ℕ, (entrySame A.n (p1 A B j) i : ℤ × K).1 = k ↔ p1 A B j + i = k := by
        intro i
        unfold entrySame
        by_cases hp : 0 ≤ p1 A B j + i ∧ p1 A B j + i < A.n
        · simp only [if_pos hp]
        · simp only [if_neg hp]
          constructor <;> intro hc <;> omega
      rw [aux 0, aux 1]; simp
    rw [key]
    constructor
    · rintro (hk1 | hk1)
      · left
        have : (p1 A B j : K) = k := by rw [hk1]; simp
        rw [this] at s1 s2
        constructor <;> linarith [s1.1, s1.2, s2.2]
      · right
        have h0 : 0 ≤ p1 A B j := by omega
        refine ⟨(p1 A B j).toNat, by omega, ?_⟩
        have hc : (((p1 A B j).toNat : ℕ) : K) = (p1 A B j : K) := by
          have : (((p1 A B j).toNat : ℕ) : ℤ) = p1 A B j := Int.toNat_of_nonneg h0
          exact_mod_cast congrArg (Int.cast : ℤ → K) this
        unfold InsideCell
        rw [edge_natCast A]
        have ec : A.edge (p1 A B j).toNat = A.lo + A.dx*(((p1 A B j).toNat : ℕ) : K) := rfl
        rw [ec, hc]
        exact ⟨s1.1, s2.2⟩
    · rintro (⟨a, b⟩ | ⟨c, rfl, c1, c2⟩)
      · left
        have l1 : p1 A B j ≤ k := by
          by_contra hc
          have : (k:K) + 1 ≤ p1 A B j := by exact_mod_cast not_le.mp hc
          nlinarith [s1.1]
        have l2 : (k:ℤ) ≤ p1 A B j := by
          by_contra hc
          have : (p1 A B j : K) + 1 ≤ k := by exact_mod_cast not_le.mp hc
          nlinarith [s2.2]
        omega
      · right
        rw [edge_natCast A c] at c2
        have ec : A.edge c = A.lo + A.dx*(c:K) := rfl
        rw [ec] at c1
        have e1 : p1 A B j = c := by
          unfold p1 whichPix
          rw [Int.floor_eq_iff, le_div_iff₀ hdA, div_lt_iff₀ hdA]
          push_cast; constructor <;> linarith
        rw [e1]; push_cast; ring

theorem reads_left (hA : A.Valid) (hB : B.Valid) {j : ℕ} (h : B.edge (j+1) ≤ A.lo) (k : ℕ) :
    ¬ Reads A B j k := by
  have hd := dx_pos hA
  have hlt := edge_lt hB j
  have e : ∀ c : ℕ, A.lo ≤ A.edge c := by
    intro c
    unfold Axis.edge
    have : (0:K) ≤ c := Nat.cast_nonneg _
    nlinarith
  rintro (hr | ⟨c, -, c1, c2⟩)
  · have := ((cellOverlap_pos hA hB k j).mp hr).1
    linarith [e k]
  · linarith [e c]

theorem good_stepN (hA : A.Valid) (hB : B.Valid) (j : ℕ) (buf : Buf K) (h : GoodN A B j buf) :
    GoodN A B (j+1) ((axisOf A B).pixel (j+1) buf) := by
  by_cases hs : Stale A B (j+1)
  · refine ⟨good_step hA hB j buf h.1, ?_⟩
    rw [pixel_stale _ hs]
    have h1 := stale_right hA _ hs
    have h2 : B.edge (j+1) ≤ A.lo := by
      have := edge_lt hB (j+1); linarith
    intro k hk
    rw [h.2 k hk]
    exact ⟨fun hc => absurd hc (reads_left hA hB h2 k), fun hc => absurd hc (reads_left hA hB h1.le k)⟩
  · exact pixel_goodN hA hB _ hs _

theorem good_firstN (hA : A.Valid) (hB : B.Valid) (h0 : FirstCellClear A B) (j : ℕ) (buf : Buf K)
    (h : j = 0 ∨ GoodN A B (j-1) buf) : GoodN A B j ((axisOf A B).pixel j buf) := by
  cases j with
  | zero => exact pixel_goodN hA hB 0 ((stale_iff hA hB).2 h0) buf
  | succ j => exact good_stepN hA hB j buf (h.resolve_left (by omega))

end axis


open Classical in
/-- A value, or NaN when the condition holds. -/
noncomputable def nanIf (c : Prop) (v : K) : Option K := if c then none else some v

theorem nanIf_none {c : Prop} {v : K} : nanIf c v = none ↔ c := by
  unfold nanIf; split_ifs with h <;> simp [h]

theorem nanIf_neg {c : Prop} {v : K} (h : ¬ c) : nanIf c v = some v := if_neg h

theorem nanIf_congr {c d : Prop} (v : K) (h : c ↔ d) : nanIf c v = nanIf d v := by
  rw [propext h]

theorem accumN_nanIf (f1 : List (Option K)) (b : Buf K) (h : InR f1.length b) :
    accumN f1 (some 0) b =
      some (nanIf (∃ k : ℤ, k ≠ -1 ∧ Names b k ∧ f1.getD k.toNat none = none)
        (bufSum b (val0 f1))) := by
  rw [accumN_eq f1 b h, zero_add]; rfl

theorem names_nat {n : ℕ} {b : Buf K} (h : InR n b) (P : ℤ → Prop) :
    (∃ z : ℤ, z ≠ -1 ∧ Names b z ∧ P z) ↔ ∃ k : ℕ, k < n ∧ Names b k ∧ P k := by
  constructor
  · rintro ⟨z, h1, ⟨e, he, rfl⟩, h3⟩
    obtain ⟨a, c⟩ := (h e he).resolve_left h1
    obtain ⟨k, hk⟩ := Int.eq_ofNat_of_zero_le a
    refine ⟨k, by omega, ⟨e, he, hk⟩, by rwa [← hk]⟩
  · rintro ⟨k, h1, h2, h3⟩
    exact ⟨k, by omega, h2, h3⟩

theorem names_prod2 {n m : ℕ} {xb yb : Buf K} (hx : InR n xb) (hy : InR m yb) (P : ℤ → Prop) :
    (∃ z : ℤ, z ≠ -1 ∧ Names (prod2 m xb yb) z ∧ P z) ↔
      ∃ p : ℤ, p ≠ -1 ∧ Names xb p ∧ ∃ q : ℤ, q ≠ -1 ∧ Names yb q ∧ P (q + m*p) := by
  constructor
  · rintro ⟨z, h1, ⟨e, he, rfl⟩, h3⟩
    unfold prod2 at he
    rw [List.mem_flatMap] at he
    obtain ⟨x, hxm, he⟩ := he
    rw [List.mem_map] at he
    obtain ⟨y, hym, rfl⟩ := he
    simp only [] at h1 h3
    by_cases c : x.1 ≠ -1 ∧ y.1 ≠ -1
    · rw [if_pos c] at h3
      exact ⟨x.1, c.1, ⟨x, hxm, rfl⟩, y.1, c.2, ⟨y, hym, rfl⟩, h3⟩
    · rw [if_neg c] at h1; exact absurd rfl h1
  · rintro ⟨p, p1, ⟨x, hxm, rfl⟩, q, q1, ⟨y, hym, rfl⟩, h3⟩
    obtain ⟨a, b⟩ := (hx x hxm).resolve_left p1
    obtain ⟨a', b'⟩ := (hy y hym).resolve_left q1
    have h0 : 0 ≤ y.1 + m*x.1 := by positivity
    refine ⟨y.1 + m*x.1, by omega, ⟨(y.1 + m*x.1, x.2*y.2), ?_, rfl⟩, h3⟩
    unfold prod2
    rw [List.mem_flatMap]
    refine ⟨x, hxm, List.mem_map.mpr ⟨y, hym, ?_⟩⟩
    rw [if_pos ⟨p1, q1⟩]

theorem names_goodN {A B : Axis K} {j : ℕ} {b : Buf K} (h : GoodN A B j b) (P : ℤ → Prop) :
    (∃ z : ℤ, z ≠ -1 ∧ Names b z ∧ P z) ↔ ∃ k : ℕ, k < A.n ∧ Reads A B j k ∧ P k := by
  rw [names_nat h.1.1]
  constructor
  · rintro ⟨k, h1, h2, h3⟩; exact ⟨k, h1, (h.2 k h1).mp h2, h3⟩
  · rintro ⟨k, h1, h2, h3⟩; exact ⟨k, h1, (h.2 k h1).mpr h2, h3⟩

/-! ## Results -/

/-- The value of one output cell in one dimension. -/
noncomputable def cellN1 (A B : Axis K) (f1 : List (Option K)) (j : ℕ) : Option K :=
  nanIf (∃ k < A.n, Reads A B j k ∧ f1.getD k none = none)
    (exact1 A B (fun k => (f1.getD k none).getD 0) j)

theorem remap1dN_eq {A B : Axis K} (hA : A.Valid) (hB : B.Valid) (h0 : FirstCellClear A B)
    (f1 : List (Option K)) (hf : f1.length = A.n) (buf0 : Buf K) :
    remap1dN (axisOf A B) f1 buf0 = some ((List.range B.n).map fun (j : ℕ) => cellN1 A B f1 j) := by
  unfold remap1dN
  obtain ⟨s', h⟩ := sweep_ok (fun buf i =>
    let buf := (axisOf A B).pixel i buf
    (accumN f1 (some 0) buf).map fun v => (buf, v)) (GoodN A B)
    (fun j => cellN1 A B f1 j) (by
        intro j s hs
        have hG := good_firstN hA hB h0 j s hs
        refine ⟨(axisOf A B).pixel j s, ?_, hG⟩
        simp only []
        rw [accumN_nanIf f1 _ (by rw [hf]; exact hG.1.1), hG.1.2]
        simp only [Option.map_some]
        congr 2
        unfold cellN1
        rw [nanIf_congr _ (names_goodN hG _)]
        congr 1
        unfold exact1
        apply sum_congr rfl
        intro k _
        simp [mul_comm, val0]) B.n buf0
  have hg : (axisOf A B).grid2 = B.n := rfl
  rw [hg, h]; rfl

/-- The value of one output cell in two dimensions. -/
noncomputable def cellN2 (Ax Ay Bx By : Axis K) (f1 : List (Option K)) (i j : ℕ) : Option K :=
  nanIf (∃ k < Ax.n, Reads Ax Bx i k ∧ ∃ l < Ay.n, Reads Ay By j l ∧
      f1.getD (k*Ay.n + l) none = none)
    (exact2 Ax Ay Bx By (fun k l => (f1.getD (k*Ay.n + l) none).getD 0) i j)

theorem idx2 (k l n : ℕ) : ((l:ℤ) + n*(k:ℤ)).toNat = k*n + l := by
  have e : ((l:ℤ) + n*(k:ℤ)) = ((k*n + l : ℕ) : ℤ) := by push_cast; ring
  rw [e, Int.toNat_natCast]

theorem remap2dN_eq {Ax Bx Ay By : Axis K} (hAx : Ax.Valid) (hBx : Bx.Valid) (hAy : Ay.Valid)
    (hBy : By.Valid) (hx0 : FirstCellClear Ax Bx) (hy0 : FirstCellClear Ay By)
    (f1 : List (Option K)) (hf : f1.length = Ax.n*Ay.n) (xb0 yb0 : Buf K) :
    remap2dN (axisOf Ax Bx) (axisOf Ay By) f1 xb0 yb0
      = some ((List.range Bx.n).flatMap fun (i : ℕ) => (List.range By.n).map fun (j : ℕ) =>
          cellN2 Ax Ay Bx By f1 i j) := by
  unfold remap2dN
  have row : ∀ i (xb : Buf K), GoodN Ax Bx i xb → ∀ yb0, ∃ yb', sweep (fun yb j =>
      let yb := (axisOf Ay By).pixel j yb
      let pix := pix2d Ay.n xb yb
      let w := xb.flatMap fun (x : ℤ × K) => yb.map fun (y : ℤ × K) => x.2*y.2
      (accumN f1 (some 0) (pix.zip w)).map fun v => (yb, v)) yb0 (List.range By.n)
      = some (yb', (List.range By.n).map fun (j : ℕ) => cellN2 Ax Ay Bx By f1 i j) := by
    intro i xb hxb yb0
    apply sweep_ok _ (GoodN Ay By)
    intro j s hs
    have hG := good_firstN hAy hBy hy0 j s hs
    refine ⟨(axisOf Ay By).pixel j s, ?_, hG⟩
    simp only []
    rw [zip_prod2, accumN_nanIf f1 _ (by rw [hf]; exact prod2_InR hxb.1.1 hG.1.1),
      prod2_sum hxb.1.1 hG.1.1, hxb.1.2]
    simp only [Option.map_some]
    congr 2
    unfold cellN2
    rw [nanIf_congr (d := ∃ k < Ax.n, Reads Ax Bx i k ∧ ∃ l < Ay.n, Reads Ay By j l ∧
      f1.getD (k*Ay.n + l) none = none)]
    · congr 1
      unfold exact2
      apply sum_congr rfl
      intro k _
      rw [hG.1.2, mul_sum]
      apply sum_congr rfl
      intro l _
      unfold val0
      rw [idx2]; ring
    · rw [names_prod2 hxb.1.1 hG.1.1]
      simp only [names_goodN hG, names_goodN hxb (fun p => ∃ l : ℕ, l < Ay.n ∧ Reads Ay By j l ∧
        f1.getD ((l:ℤ) + Ay.n*p).toNat none = none), idx2]
  obtain ⟨s', h⟩ := sweep_ok (fun (s : Buf K × Buf K) i =>
    let xb := (axisOf Ax Bx).pixel i s.1
    (sweep (fun yb j =>
      let yb := (axisOf Ay By).pixel j yb
      let pix := pix2d Ay.n xb yb
      let w := xb.flatMap fun (x : ℤ × K) => yb.map fun (y : ℤ × K) => x.2*y.2
      (accumN f1 (some 0) (pix.zip w)).map fun v => (yb, v)) s.2 (List.range By.n)).map
        fun r => ((xb, r.1), r.2)) (fun i s => GoodN Ax Bx i s.1)
    (fun i => (List.range By.n).map fun (j : ℕ) => cellN2 Ax Ay Bx By f1 i j) (by
        intro i s hs
        have hG := good_firstN hAx hBx hx0 i s.1 hs
        obtain ⟨yb', hr⟩ := row i _ hG s.2
        refine ⟨((axisOf Ax Bx).pixel i s.1, yb'), ?_, hG⟩
        simp only []
        rw [hr]; rfl) Bx.n (xb0, yb0)
  have hg : (axisOf Ax Bx).grid2 = Bx.n := rfl
  have hg' : (axisOf Ay By).grid2 = By.n := rfl
  have hg'' : (axisOf Ay By).grid1 = Ay.n := rfl
  rw [hg, hg', hg'', h]
  simp [List.flatMap]

/-- The value of one output cell in three dimensions. -/
noncomputable def cellN3 (Ax Ay Az Bx By Bz : Axis K) (f1 : List (Option K)) (i j h : ℕ) :
    Option K :=
  nanIf (∃ k < Ax.n, Reads Ax Bx i k ∧ ∃ l < Ay.n, Reads Ay By j l ∧ ∃ o < Az.n, Reads Az Bz h o ∧
      f1.getD ((k*Ay.n + l)*Az.n + o) none = none)
    (exact3 Ax Ay Az Bx By Bz (fun k l o => (f1.getD ((k*Ay.n + l)*Az.n + o) none).getD 0) i j h)

theorem idx3 (k l o n m : ℕ) : ((o:ℤ) + m*((l:ℤ) + n*(k:ℤ))).toNat = (k*n + l)*m + o := by
  have e : ((o:ℤ) + m*((l:ℤ) + n*(k:ℤ))) = (((k*n + l)*m + o : ℕ) : ℤ) := by push_cast; ring
  rw [e, Int.toNat_natCast]

theorem remap3dN_eq {Ax Bx Ay By Az Bz : Axis K} (hAx : Ax.Valid) (hBx : Bx.Valid) (hAy : Ay.Valid)
    (hBy : By.Valid) (hAz : Az.Valid) (hBz : Bz.Valid)
    (hx0 : FirstCellClear Ax Bx) (hy0 : FirstCellClear Ay By) (hz0 : FirstCellClear Az Bz)
    (f1 : List (Option K)) (hf : f1.length = Ax.n*Ay.n*Az.n) (xb0 yb0 zb0 : Buf K) :
    remap3dN (axisOf Ax Bx) (axisOf Ay By) (axisOf Az Bz) f1 xb0 yb0 zb0
      = some ((List.range Bx.n).flatMap fun (i : ℕ) => (List.range By.n).flatMap fun (j : ℕ) =>
          (List.range Bz.n).map fun (h : ℕ) => cellN3 Ax Ay Az Bx By Bz f1 i j h) := by
  unfold remap3dN
  have hgx : (axisOf Ax Bx).grid2 = Bx.n := rfl
  have hgy : (axisOf Ay By).grid2 = By.n := rfl
  have hgz : (axisOf Az Bz).grid2 = Bz.n := rfl
  have hg1 : (axisOf Ay By).grid1 = Ay.n := rfl
  have hg2 : (axisOf Az Bz).grid1 = Az.n := rfl
  rw [hgx, hgy, hgz, hg1, hg2]
  have inner : ∀ i j (xb yb : Buf K), GoodN Ax Bx i xb → GoodN Ay By j yb → ∀ zb,
      ∃ zb', sweep (fun zb k =>
        let zb := (axisOf Az Bz).pixel k zb
        let pix := pix3d Ay.n Az.n xb yb zb
        let w := xb.flatMap fun (x : ℤ × K) => yb.flatMap fun (y : ℤ × K) =>
          zb.map fun (z : ℤ × K) => x.2*y.2*z.2
        (accumN f1 (some 0) (pix.zip w)).map fun v => (zb, v)) zb (List.range Bz.n)
        = some (zb', (List.range Bz.n).map fun (h : ℕ) => cellN3 Ax Ay Az Bx By Bz f1 i j h) := by
    intro i j xb yb hx hy zb
    apply sweep_ok _ (GoodN Az Bz)
    intro h s hs
    have hG := good_firstN hAz hBz hz0 h s hs
    refine ⟨(axisOf Az Bz).pixel h s, ?_, hG⟩
    simp only []
    have hp := prod2_InR hx.1.1 hy.1.1
    rw [zip_prod3, prod3_eq Az.n _ hx.1.1 hy.1.1,
      accumN_nanIf f1 _ (by rw [hf]; exact prod2_InR hp hG.1.1),
      prod2_sum hp hG.1.1, prod2_sum hx.1.1 hy.1.1, hx.1.2]
    simp only [Option.map_some]
    congr 2
    unfold cellN3
    rw [nanIf_congr (d := ∃ k < Ax.n, Reads Ax Bx i k ∧ ∃ l < Ay.n, Reads Ay By j l ∧
      ∃ o < Az.n, Reads Az Bz h o ∧ f1.getD ((k*Ay.n + l)*Az.n + o) none = none)]
    · congr 1
      unfold exact3
      apply sum_congr rfl
      intro k _
      rw [hy.1.2, mul_sum]
      apply sum_congr rfl
      intro l _
      rw [hG.1.2, mul_sum, mul_sum]
      apply sum_congr rfl
      intro o _
      unfold val0
      rw [idx3]; ring
    · rw [names_prod2 hp hG.1.1, names_prod2 hx.1.1 hy.1.1]
      simp only [names_goodN hG]
      rw [names_goodN hx]
      simp only [names_goodN hy, idx3]
  have middle : ∀ i (xb : Buf K), GoodN Ax Bx i xb → ∀ s0 : Buf K × Buf K,
      ∃ s', sweep (fun (s : Buf K × Buf K) j =>
      let yb := (axisOf Ay By).pixel j s.1
      (sweep (fun zb k =>
        let zb := (axisOf Az Bz).pixel k zb
        let pix := pix3d Ay.n Az.n xb yb zb
        let w := xb.flatMap fun (x : ℤ × K) => yb.flatMap fun (y : ℤ × K) =>
          zb.map fun (z : ℤ × K) => x.2*y.2*z.2
        (accumN f1 (some 0) (pix.zip w)).map fun v => (zb, v)) s.2 (List.range Bz.n)).map
          fun r => ((yb, r.1), r.2)) s0 (List.range By.n)
        = some (s', (List.range By.n).map fun (j : ℕ) => (List.range Bz.n).map fun (h : ℕ) =>
          cellN3 Ax Ay Az Bx By Bz f1 i j h) := by
    intro i xb hx s0
    apply sweep_ok _ (fun j s => GoodN Ay By j s.1)
    intro j s hs
    have hG := good_firstN hAy hBy hy0 j s.1 hs
    obtain ⟨zb', hr⟩ := inner i j xb _ hx hG s.2
    refine ⟨((axisOf Ay By).pixel j s.1, zb'), ?_, hG⟩
    simp only []
    rw [hr]; rfl
  obtain ⟨s', h⟩ := sweep_ok (fun (s : Buf K × Buf K × Buf K) i =>
    let xb := (axisOf Ax Bx).pixel i s.1
    (sweep (fun (s : Buf K × Buf K) j =>
      let yb := (axisOf Ay By).pixel j s.1
      (sweep (fun zb k =>
        let zb := (axisOf Az Bz).pixel k zb
        let pix := pix3d Ay.n Az.n xb yb zb
        let w := xb.flatMap fun (x : ℤ × K) => yb.flatMap fun (y : ℤ × K) =>
          zb.map fun (z : ℤ × K) => x.2*y.2*z.2
        (accumN f1 (some 0) (pix.zip w)).map fun v => (zb, v)) s.2 (List.range Bz.n)).map
          fun r => ((yb, r.1), r.2)) s.2 (List.range By.n)).map
        fun r => ((xb, r.1), r.2.flatten)) (fun i s => GoodN Ax Bx i s.1)
    (fun i => (List.range By.n).flatMap fun (j : ℕ) => (List.range Bz.n).map fun (h : ℕ) =>
          cellN3 Ax Ay Az Bx By Bz f1 i j h) (by
        intro i s hs
        have hG := good_firstN hAx hBx hx0 i s.1 hs
        obtain ⟨s', hr⟩ := middle i _ hG s.2
        refine ⟨((axisOf Ax Bx).pixel i s.1, s'), ?_, hG⟩
        simp only []
        rw [hr]
        simp [List.flatMap]) Bx.n (xb0, yb0, zb0)
  rw [h]
  simp [List.flatMap]

end Magpie.Remap
