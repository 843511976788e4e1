import Verif.Proof.Grids64
import Verif.Spec.Grids64
import Verif.Model.OneD
import Verif.Proof.OneD
import Verif.Props.Conversions64

/-!
# Edges and mid points of grids, and the cell of a point, in binary64

`Divisible`, `exactEdge` and `cellMargin` are in `Verif/Spec/Grids64.lean`, `IsDouble` in `Verif/Spec/Float64.lean`.
-/

set_option linter.unusedSimpArgs false
set_option linter.unusedVariables false

namespace Magpie.Props
open Magpie.Spec Magpie.F64 Magpie.Grids64 Magpie.Remap64

theorem divisible_cases {lo hi : ℝ} {n : ℕ} (h : Divisible lo hi n) : lo = hi ∨ Ok lo hi n := by
  rcases h.cell with e | e
  · exact .inl e
  · refine .inr ⟨isDouble_fl h.dlo, isDouble_fl h.dhi, h.pos, h.few, ?_⟩
    have : (0:ℝ) < n := by exact_mod_cast h.pos
    rwa [le_div_iff₀ this, mul_comm] at e

theorem edge64_mono' {lo hi : ℝ} {n : ℕ} (h : Divisible lo hi n) {k l : ℕ} (hkl : k ≤ l) (hl : l ≤ n) :
    edge64 lo hi n k ≤ edge64 lo hi n l := by
  rcases divisible_cases h with rfl | h'
  · rw [edge64_degenerate (isDouble_fl h.dlo) h.pos, edge64_degenerate (isDouble_fl h.dlo) h.pos]
  · exact edge64_mono h' hkl hl

theorem edge64_zero' {lo hi : ℝ} {n : ℕ} (h : Divisible lo hi n) : edge64 lo hi n 0 = lo := by
  rcases divisible_cases h with rfl | h'
  · exact edge64_degenerate (isDouble_fl h.dlo) h.pos
  · exact edge64_zero h'

theorem edge64_between {lo hi : ℝ} {n : ℕ} (h : Divisible lo hi n) {k : ℕ} (hk : k ≤ n) :
    lo ≤ edge64 lo hi n k ∧ edge64 lo hi n k ≤ hi := by
  have h1 := edge64_mono' h (Nat.zero_le k) hk
  have h2 := edge64_mono' h hk (le_refl n)
  have e : edge64 lo hi n n = hi := by unfold edge64; simp
  rw [edge64_zero' h] at h1
  rw [e] at h2
  exact ⟨h1, h2⟩

theorem edge64_isDouble {lo hi : ℝ} {n : ℕ} (h : Divisible lo hi n) {k : ℕ} (hk : k ≤ n) :
    IsDouble (edge64 lo hi n k) := by
  obtain ⟨h1, h2⟩ := edge64_between h hk
  have hf : fl (edge64 lo hi n k) = edge64 lo hi n k := by
    unfold edge64
    split_ifs
    · exact isDouble_fl h.dhi
    · unfold low F64.add; exact fl_fl _
  rw [← hf]
  apply fl_isDouble
  have a1 := h.small_lo
  have a2 := h.small_hi
  have : 0 ≤ maxDouble := by linarith [abs_nonneg lo]
  rw [abs_le] at *
  constructor <;> linarith

/-- The edges along one axis, as the set-up methods and `get_xedges` compute them in double precision: there is one
more than cells, the first is `xmin`, the last `xmax`, every one is a finite double, they never decrease, and each is
within `(|xmin| + 6 (xmax - xmin)) / 2^53` of where it should be. -/
theorem C108_edges (xmin xmax : ℝ) (num : ℕ) (h : Divisible xmin xmax num) :
    (setupEdges64 xmin xmax num).length = num + 1
      ∧ (setupEdges64 xmin xmax num)[0]? = some xmin
      ∧ (setupEdges64 xmin xmax num)[num]? = some xmax
      ∧ (∀ e ∈ setupEdges64 xmin xmax num, IsDouble e)
      ∧ (setupEdges64 xmin xmax num).Pairwise (· ≤ ·)
      ∧ ∀ k ≤ num, ∃ e, (setupEdges64 xmin xmax num)[k]? = some e
          ∧ |e - exactEdge xmin xmax num k| ≤ (|xmin| + 6*(xmax - xmin))/2^53 := by
  unfold setupEdges64
  rw [linspace64_eq xmin xmax h.pos]
  have get : ∀ k ≤ num, ((List.range (num+1)).map (edge64 xmin xmax num))[k]? = some (edge64 xmin xmax num k) := by
    intro k hk
    rw [List.getElem?_map, List.getElem?_range (by omega)]; rfl
  refine ⟨by simp, ?_, ?_, ?_, ?_, ?_⟩
  · rw [get 0 (Nat.zero_le _), edge64_zero' h]
  · rw [get num le_rfl]; unfold edge64; simp
  · intro e he
    obtain ⟨k, hk, rfl⟩ := List.mem_map.mp he
    exact edge64_isDouble h (by have := List.mem_range.mp hk; omega)
  · rw [List.pairwise_map]
    refine List.Pairwise.imp_of_mem ?_ (List.pairwise_lt_range (n := num+1))
    intro k l hk hl hkl
    exact edge64_mono' h hkl.le (by have := List.mem_range.mp hl; omega)
  · intro k hk
    refine ⟨_, get k hk, ?_⟩
    unfold exactEdge
    rcases divisible_cases h with rfl | h'
    · rw [edge64_degenerate (isDouble_fl h.dlo) h.pos]
      simp; positivity
    · exact edge64_err h' hk

/-- If moreover the cells are wider than the errors, the edges strictly increase, so that no cell is empty. -/
theorem C108_strict (xmin xmax : ℝ) (num : ℕ) (h : Divisible xmin xmax num)
    (hw : |xmin| + 6*(xmax - xmin) < 2^52*((xmax - xmin)/num)) :
    (setupEdges64 xmin xmax num).Pairwise (· < ·) := by
  unfold setupEdges64
  rw [linspace64_eq xmin xmax h.pos]
  have hn : (0:ℝ) < num := by exact_mod_cast h.pos
  rcases divisible_cases h with rfl | h'
  · simp at hw; linarith [abs_nonneg xmin]
  rw [List.pairwise_map]
  refine List.Pairwise.imp_of_mem ?_ (List.pairwise_lt_range (n := num+1))
  intro k l hk hl hkl
  refine edge64_lt h' ?_ hkl (by have := List.mem_range.mp hl; omega)
  have : (num:ℝ)*(|xmin| + 6*(xmax - xmin)) < num*(2^52*((xmax - xmin)/num)) := by gcongr
  refine this.trans_le (le_of_eq ?_)
  field_simp

/-- `get_xedges(length, ngrid, xmin)` gives these edges, with `xmin + length`, rounded, for `xmax`; by default
`xmin` is `0`. -/
theorem C108_get_xedges (length : ℝ) (ngrid : ℕ) (xmin : ℝ) :
    getXedges64 length ngrid (some xmin) = setupEdges64 xmin (F64.add xmin length) ngrid
      ∧ (IsDouble length → getXedges64 length ngrid none = setupEdges64 0 length ngrid) := by
  refine ⟨rfl, fun hl => ?_⟩
  unfold getXedges64 setupEdges64 F64.add
  simp [isDouble_fl hl]

/-- The mid points of a list of doubles in non-decreasing order: one fewer, each a double not below the edge on its
left nor above the edge on its right. `xedges2mid` and the set-up methods agree. -/
theorem C108_mids (edges : List ℝ) (hd : ∀ e ∈ edges, IsDouble e ∧ |e| ≤ maxDouble/2)
    (hs : edges.Pairwise (· ≤ ·)) :
    xedges2mid64 edges = setupMids64 edges
      ∧ (setupMids64 edges).length = edges.length - 1
      ∧ ∀ (k : ℕ) (e e' : ℝ), edges[k]? = some e → edges[k+1]? = some e' →
          ∃ m, (setupMids64 edges)[k]? = some m ∧ IsDouble m ∧ e ≤ m ∧ m ≤ e'
            ∧ |m - (e + e')/2| ≤ 2*(|e| + |e'|)/2^53 + (2:ℝ)^(-1074 : ℤ) := by
  have hcomm : xedges2mid64 edges = setupMids64 edges := by
    unfold xedges2mid64 setupMids64
    rw [List.zipWith_comm]
    congr 1
    funext b a
    unfold F64.add; rw [add_comm]
  refine ⟨hcomm, by unfold setupMids64; simp, ?_⟩
  intro k e e' he he'
  have hk' : k + 1 < edges.length := (List.getElem?_eq_some_iff.mp he').1
  obtain ⟨d1, b1⟩ := hd e (List.mem_of_getElem? he)
  obtain ⟨d2, b2⟩ := hd e' (List.mem_of_getElem? he')
  have hle : e ≤ e' := by
    rw [List.getElem?_eq_some_iff] at he he'
    obtain ⟨p, rfl⟩ := he
    obtain ⟨q, rfl⟩ := he'
    exact List.pairwise_iff_getElem.mp hs k (k+1) p q (by omega)
  obtain ⟨m1, m2⟩ := mid_between (isDouble_fl d1) (isDouble_fl d2) hle
  refine ⟨F64.mul (1/2) (F64.add e e'), ?_, ?_, m1, m2, mid_err⟩
  · rw [← hcomm]
    unfold xedges2mid64
    rw [List.getElem?_zipWith, List.getElem?_tail, he', List.getElem?_dropLast, if_pos (by omega), he]
  · have hf : fl (F64.mul (1/2) (F64.add e e')) = F64.mul (1/2) (F64.add e e') := by
      unfold F64.mul; exact fl_fl _
    rw [← hf]
    apply fl_isDouble
    have : 0 ≤ maxDouble := by linarith [abs_nonneg e]
    rw [abs_le] at *
    constructor <;> linarith

/-- So the grids that `grid1d` returns: every point lies in its cell. -/
theorem C108_grid1d (length : ℝ) (ngrid : ℕ) (xmin : ℝ) (h : Divisible xmin (F64.add xmin length) ngrid)
    (k : ℕ) (hk : k < ngrid) :
    ∃ x e e', (grid1d64 length ngrid (some xmin)).1[k]? = some x
      ∧ (grid1d64 length ngrid (some xmin)).2[k]? = some e
      ∧ (grid1d64 length ngrid (some xmin)).2[k+1]? = some e' ∧ e ≤ x ∧ x ≤ e' := by
  unfold grid1d64
  simp only
  rw [(C108_get_xedges length ngrid xmin).1]
  obtain ⟨hl, h0, h1, hd, hs, he⟩ := C108_edges _ _ _ h
  have hb : ∀ e ∈ setupEdges64 xmin (F64.add xmin length) ngrid, IsDouble e ∧ |e| ≤ maxDouble/2 := by
    intro e he
    refine ⟨hd e he, ?_⟩
    unfold setupEdges64 at he
    rw [linspace64_eq _ _ h.pos] at he
    obtain ⟨j, hj, rfl⟩ := List.mem_map.mp he
    obtain ⟨b1, b2⟩ := edge64_between h (k := j) (by have := List.mem_range.mp hj; omega)
    have a1 := h.small_lo
    have a2 := h.small_hi
    rw [abs_le] at *
    constructor <;> linarith
  obtain ⟨hm, -, hmid⟩ := C108_mids _ hb hs
  obtain ⟨e, e1, -⟩ := he k (by omega)
  obtain ⟨e', e2, -⟩ := he (k+1) (by omega)
  obtain ⟨m, m1, -, m2, m3, -⟩ := hmid k e e' e1 e2
  exact ⟨m, e, e', by rw [hm]; exact m1, e1, e2, m2, m3⟩

/-- The edges pass the check of `rebin_1d` that edges are in increasing order. -/
theorem C108_rebin_accepts (xmin xmax : ℝ) (num : ℕ) (h : Divisible xmin xmax num) :
    OneD.isPosMonotonic (setupEdges64 xmin xmax num) = true := by
  obtain ⟨-, -, -, -, hs, -⟩ := C108_edges _ _ _ h
  rw [OneD.isPosMonotonic_iff]
  intro i j hi hj hij
  rcases Nat.lt_or_eq_of_le hij with hlt | rfl
  · exact List.pairwise_iff_getElem.mp hs i j hi hj hlt
  · exact le_rfl

/-- The hypotheses are met by the box `[-250, 750]` of 1000 cells. -/
theorem divisible_box : Divisible (-250) 750 1000 := by
  have hM : (1000:ℝ) ≤ maxDouble/2 := by
    unfold maxDouble
    have : (1:ℝ) ≤ (2:ℝ)^(971 : ℤ) := one_le_zpow₀ (by norm_num) (by norm_num)
    generalize (2:ℝ)^(971 : ℤ) = t at *
    norm_num; linarith
  refine ⟨⟨-250, 0, by norm_num, by norm_num, by norm_num, by norm_num⟩,
    ⟨750, 0, by norm_num, by norm_num, by norm_num, by norm_num⟩, by norm_num, ?_, ?_, by norm_num, by norm_num,
    .inr ?_⟩
  · rw [abs_of_neg (by norm_num)]; linarith
  · rw [abs_of_pos (by norm_num)]; linarith
  · have : (2:ℝ)^(-1022 : ℤ) ≤ 1 := zpow_le_one_of_nonpos₀ (by norm_num) (by norm_num)
    norm_num at this ⊢
    linarith

example : (setupEdges64 (-250) 750 1000).Pairwise (· < ·) :=
  C108_strict _ _ _ divisible_box (by norm_num)

example : Divisible (-250) (F64.add (-250) 1000) 1000 := by
  have : F64.add (-250) 1000 = 750 := by
    unfold F64.add
    have := fl_int (n := 750) (by norm_num)
    norm_num at this ⊢; exact this
  rw [this]; exact divisible_box

/-- The condition on the size of the cells cannot be dropped: with 9 cells between `0` and `14 * 2^-1074` the last
edge but one is `16 * 2^-1074`, above the last. -/
theorem C108_underflow :
    IsDouble (14*(2:ℝ)^(-1074 : ℤ))
      ∧ (setupEdges64 0 (14*(2:ℝ)^(-1074 : ℤ)) 9)[8]? = some (16*(2:ℝ)^(-1074 : ℤ))
      ∧ (setupEdges64 0 (14*(2:ℝ)^(-1074 : ℤ)) 9)[9]? = some (14*(2:ℝ)^(-1074 : ℤ))
      ∧ OneD.isPosMonotonic (setupEdges64 0 (14*(2:ℝ)^(-1074 : ℤ)) 9) = false := by
  have hp := two_zpow_pos (-1074)
  have h14 : fl (14*(2:ℝ)^(-1074 : ℤ)) = 14*(2:ℝ)^(-1074 : ℤ) := by
    simpa using fl_exact (m := 14) (e := -1074) (by norm_num) (by norm_num)
  have h16 : fl (16*(2:ℝ)^(-1074 : ℤ)) = 16*(2:ℝ)^(-1074 : ℤ) := by
    simpa using fl_exact (m := 16) (e := -1074) (by norm_num) (by norm_num)
  have hs : fl (14*(2:ℝ)^(-1074 : ℤ)/9) = 2*(2:ℝ)^(-1074 : ℤ) := by
    have := fl_subnormal (x := 14*(2:ℝ)^(-1074 : ℤ)/9) (n := 2) (by positivity) ?_ ?_
    · rw [this]; norm_num
    · calc 14*(2:ℝ)^(-1074 : ℤ)/9 = 14/9*(2:ℝ)^(-1074 : ℤ) := by ring
        _ < (2:ℝ)^(52:ℤ) * (2:ℝ)^(-1074 : ℤ) := mul_lt_mul_of_pos_right (by norm_num) hp
        _ = _ := by rw [← zpow_add₀ (by norm_num)]; norm_num
    · have : 14*(2:ℝ)^(-1074 : ℤ)/9/(2:ℝ)^(-1074 : ℤ) = 14/9 := by
        generalize (2:ℝ)^(-1074 : ℤ) = t at *
        field_simp
      rw [this]; norm_num [abs_lt]
  have e9 : F64.ofInt ((9:ℕ):ℤ) = 9 := by
    have := ofInt_k (k := 9) (by norm_num); simpa using this
  have e8 : F64.ofInt ((8:ℕ):ℤ) = 8 := by
    have := ofInt_k (k := 8) (by norm_num); simpa using this
  have hlow : edge64 0 (14*(2:ℝ)^(-1074 : ℤ)) 9 8 = 16*(2:ℝ)^(-1074 : ℤ) := by
    unfold edge64
    rw [if_neg (by norm_num)]
    unfold low F64.sub F64.div F64.add F64.mul
    simp only [sub_zero, h14, e9, e8, hs, add_zero]
    rw [if_neg (by positivity)]
    have : 8*(2*(2:ℝ)^(-1074 : ℤ)) = 16*(2:ℝ)^(-1074 : ℤ) := by ring
    rw [this, h16, h16]
  have g8 : (setupEdges64 0 (14*(2:ℝ)^(-1074 : ℤ)) 9)[8]? = some (16*(2:ℝ)^(-1074 : ℤ)) := by
    unfold setupEdges64
    rw [linspace64_eq _ _ (by norm_num), List.getElem?_map, List.getElem?_range (by norm_num), Option.map_some, hlow]
  have g9 : (setupEdges64 0 (14*(2:ℝ)^(-1074 : ℤ)) 9)[9]? = some (14*(2:ℝ)^(-1074 : ℤ)) := by
    unfold setupEdges64
    rw [linspace64_eq _ _ (by norm_num), List.getElem?_map, List.getElem?_range (by norm_num), Option.map_some]
    unfold edge64; simp
  refine ⟨⟨14, -1074, by norm_num, by norm_num, by norm_num, by norm_num⟩, g8, g9, ?_⟩
  rw [Bool.eq_false_iff]
  intro hm
  rw [OneD.isPosMonotonic_iff] at hm
  rw [List.getElem?_eq_some_iff] at g8 g9
  obtain ⟨p8, q8⟩ := g8
  obtain ⟨p9, q9⟩ := g9
  have := hm 8 9 p8 p9 (by norm_num)
  rw [q8, q9] at this
  linarith

/-! ## The cell of a point -/

/-- The dense grid methods in double precision: for a point inside cell `i`, farther than the margin from its
boundaries, cell `i` is read. -/
theorem C109_inside (xmin xmax : ℝ) (num : ℕ) (h : Divisible xmin xmax num) (hlt : xmin < xmax) (i : ℕ)
    (hi : i < num) (x : ℝ)
    (h1 : exactEdge xmin xmax num i + cellMargin xmin xmax num ≤ x)
    (h2 : x ≤ exactEdge xmin xmax num (i+1) - cellMargin xmin xmax num) :
    boxCell64 xmin xmax num x = some i := by
  unfold exactEdge cellMargin at h1 h2
  rcases divisible_cases h with e | h'
  · exact absurd e hlt.ne
  · push_cast at h2
    exact boxCell64_inside h' hi h1 h2

/-- Conversely, if a cell is read at all and the cells are at least 2 margins wide, then it exists and the point is in it or
within the margin of it; so points farther outside the box get no value from it. -/
theorem C109_near (xmin xmax : ℝ) (num : ℕ) (h : Divisible xmin xmax num) (hlt : xmin < xmax)
    (hw : 2*cellMargin xmin xmax num ≤ (xmax - xmin)/num) (x : ℝ) (i : ℕ)
    (hx : boxCell64 xmin xmax num x = some i) :
    i < num ∧ exactEdge xmin xmax num i - cellMargin xmin xmax num ≤ x
      ∧ x ≤ exactEdge xmin xmax num (i+1) + cellMargin xmin xmax num := by
  unfold exactEdge cellMargin at *
  rcases divisible_cases h with e | h'
  · exact absurd e hlt.ne
  · push_cast
    refine boxCell64_near h' ?_ hx
    have e : 2*(4*(num:ℝ)*(|xmin| + 8*(xmax - xmin))/2^53) = num*(|xmin| + 8*(xmax - xmin))/2^50 := by ring
    rw [e, div_le_iff₀ (by norm_num)] at hw
    linarith

/-- Points outside the box by more than the margin read no cell: the remapped value there is `0`. -/
theorem C109_outside (xmin xmax : ℝ) (num : ℕ) (h : Divisible xmin xmax num) (hlt : xmin < xmax)
    (hw : 2*cellMargin xmin xmax num ≤ (xmax - xmin)/num) (x : ℝ)
    (hx : x < xmin - cellMargin xmin xmax num ∨ xmax + cellMargin xmin xmax num < x) :
    boxCell64 xmin xmax num x = none := by
  cases hc : boxCell64 xmin xmax num x with
  | none => rfl
  | some i =>
    exfalso
    obtain ⟨hi, h1, h2⟩ := C109_near xmin xmax num h hlt hw x i hc
    have hn : (0:ℝ) < num := by exact_mod_cast h.pos
    have hD : 0 < xmax - xmin := by linarith
    unfold exactEdge at h1 h2
    have a1 : 0 ≤ (i:ℝ)*((xmax - xmin)/num) := by positivity
    have a2 : ((i+1 : ℕ):ℝ)*((xmax - xmin)/num) ≤ num*((xmax - xmin)/num) := by
      have : ((i+1 : ℕ):ℝ) ≤ num := by exact_mod_cast hi
      gcongr
    have a3 : (num:ℝ)*((xmax - xmin)/num) = xmax - xmin := by field_simp
    rcases hx with hx | hx <;> linarith

/-- In the box `[-250, 750]` of 1000 cells, whose margin is less than `10^-8` of a cell, the point `0.5` is in cell
250 and `750.5` is in none. -/
example : cellMargin (-250) 750 1000 ≤ 1/10^8 ∧ boxCell64 (-250) 750 1000 (1/2) = some 250
    ∧ boxCell64 (-250) 750 1000 (1501/2) = none := by
  have hm : cellMargin (-250) 750 1000 ≤ 1/10^8 := by
    unfold cellMargin; rw [abs_of_neg (by norm_num)]; norm_num
  have h0 : 0 ≤ cellMargin (-250) 750 1000 := by
    unfold cellMargin; rw [abs_of_neg (by norm_num)]; norm_num
  refine ⟨hm, C109_inside _ _ _ divisible_box (by norm_num) 250 (by norm_num) _ ?_ ?_,
    C109_outside _ _ _ divisible_box (by norm_num) ?_ _ (.inr ?_)⟩
  · unfold exactEdge; norm_num at hm ⊢; linarith
  · unfold exactEdge; norm_num at hm ⊢; linarith
  · norm_num at hm ⊢; linarith
  · norm_num at hm ⊢; linarith

end Magpie.Props
