import Verif.Proof.RemapRound

/-!
# Property C105: accuracy of grid to grid remapping in double precision

`Resolved` is in `Verif/Spec/Remap64.lean`, `gridCond`, `perCell` and `FirstCellClearly` in
`Verif/Spec/RemapRound.lean`, the exact averages `exact1`, `exact2`, `exact3` in `Verif/Spec/Remap.lean`.
-/

set_option linter.unusedSimpArgs false
set_option linter.unusedVariables false
set_option linter.unusedSectionVars false

namespace Magpie.Props
open Magpie Magpie.Remap Magpie.Remap64 Magpie.F64 Magpie.Spec Finset

/-- A loop whose passes succeed with values that satisfy `Q`. -/
theorem sweep_rel {S T : Type} (step : S → ℕ → Option (S × T)) (P : ℕ → S → Prop) (Q : ℕ → T → Prop) (n : ℕ)
    (hstep : ∀ j < n, ∀ s, (j = 0 ∨ P (j-1) s) → ∃ s' v, step s j = some (s', v) ∧ P j s' ∧ Q j v) (s0 : S) :
    ∃ s' out, sweep step s0 (List.range n) = some (s', out) ∧ out.length = n ∧
      ∀ j < n, ∃ v, out[j]? = some v ∧ Q j v := by
  have main : ∀ m a s, a + m = n → (a = 0 ∨ P (a-1) s) →
      ∃ s' out, sweep step s (List.range' a m) = some (s', out) ∧ out.length = m ∧
        ∀ j < m, ∃ v, out[j]? = some v ∧ Q (a + j) v := by
    intro m
    induction m with
    | zero => intro a s _ _; exact ⟨s, [], rfl, rfl, fun j hj => absurd hj (by omega)⟩
    | succ m ih =>
      intro a s ham hs
      obtain ⟨s1, v, e1, p1, q1⟩ := hstep a (by omega) s hs
      obtain ⟨s2, out, e2, hl, hq⟩ := ih (a+1) s1 (by omega) (Or.inr p1)
      refine ⟨s2, v :: out, ?_, by simp [hl], ?_⟩
      · rw [List.range'_succ]
        simp only [sweep, e1, e2]
      · intro j hj
        cases j with
        | zero => exact ⟨v, rfl, q1⟩
        | succ j =>
          obtain ⟨w, h1, h2⟩ := hq j (by omega)
          refine ⟨w, by simpa using h1, ?_⟩
          rw [show a + (j+1) = a + 1 + j by omega]
          exact h2
  obtain ⟨s', out, h1, h2, h3⟩ := main n 0 s0 (by omega) (Or.inl rfl)
  rw [← List.range_eq_range'] at h1
  exact ⟨s', out, h1, h2, fun j hj => by simpa using h3 j hj⟩

theorem flatten_get {α : Type} {m : ℕ} (rows : List (List α)) (h : ∀ i < rows.length, ∃ r, rows[i]? = some r ∧ r.length = m) :
    rows.flatten.length = rows.length*m ∧
    ∀ i < rows.length, ∀ j < m, rows.flatten[i*m + j]? = rows[i]?.bind (·[j]?) := by
  induction rows with
  | nil => simp
  | cons r rows ih =>
    obtain ⟨r', e, hr⟩ := h 0 (by simp)
    rw [List.getElem?_cons_zero, Option.some.injEq] at e
    subst e
    obtain ⟨h1, h2⟩ := ih (by
      intro i hi
      obtain ⟨r', e, hr⟩ := h (i+1) (by simpa using hi)
      exact ⟨r', by simpa using e, hr⟩)
    constructor
    · rw [List.flatten_cons, List.length_append, h1, hr, List.length_cons]; ring
    · intro i hi j hj
      rw [List.flatten_cons]
      cases i with
      | zero =>
        rw [Nat.zero_mul, Nat.zero_add, List.getElem?_append_left (by omega)]
        simp
      | succ i =>
        rw [List.getElem?_append_right (by rw [hr]; nlinarith), hr,
          show (i+1)*m + j - m = i*m + j by rw [Nat.succ_mul]; omega, h2 i (by simpa using hi) j hj]
        simp

theorem block_sum {n m : ℕ} (cx cy g : ℕ → ℝ) : ∑ q ∈ range (n*m), cx (q/m)*cy (q%m)*g q
    = ∑ k ∈ range n, ∑ l ∈ range m, cx k*cy l*g (k*m + l) := by
  rw [sum_mul_block]
  apply sum_congr rfl
  intro k _
  apply sum_congr rfl
  intro l hl
  rw [mem_range] at hl
  have hm : 0 < m := by omega
  rw [show (k*m + l)/m = k by
      rw [Nat.mul_comm, Nat.mul_add_div hm, Nat.div_eq_of_lt hl, Nat.add_zero],
    show (k*m + l)%m = l by rw [Nat.mul_comm, Nat.mul_add_mod, Nat.mod_eq_of_lt hl]]

/-- Sizes of the work arrays. -/
theorem len_facts {A B : Axis ℝ} (hA : Resolved A.lo A.size A.n) (hB : Resolved B.lo B.size B.n)
    (hc : gridCond A B ≤ 2^39) : 0 ≤ gridCond A B ∧ 1 ≤ perCell A B ∧ perCell A B ≤ gridCond A B ∧
      (((len64 A B).toNat : ℕ) : ℝ) ≤ 3*perCell A B := by
  obtain ⟨s1, sA, sB, dA, dB, dA0, dB0, vA, vB⟩ := scale_facts hA hB
  have h1 := len_toNat hA hB (hc.trans (by norm_num))
  have hρ : 0 < B.dx/A.dx := by positivity
  have hp : perCell A B = B.dx*(1/A.dx + 1/B.dx) := by unfold perCell; field_simp
  refine ⟨by unfold gridCond; positivity, by unfold perCell; linarith, ?_, by unfold perCell; linarith⟩
  rw [hp]
  unfold gridCond
  gcongr

/-- C105, one dimension: in double precision every output value is the exact overlap average up to `2^-42` times
the condition number of the two grids, relative to the largest input value (plus `2^-1000` for underflow).  `F ≤ 2^1000`
excludes overflow, which is not modelled.  Missing: grids that are not `Resolved`, see `C104_violated` and
`C104_far_violated`, and first cells that are not clear, see `C31_violated`. -/
theorem C105_accuracy_partial (fused : Bool) (A B : Axis ℝ) (hA : Resolved A.lo A.size A.n)
    (hB : Resolved B.lo B.size B.n) (hc : gridCond A B ≤ 2^39) (h0 : FirstCellClearly A B)
    (dA : IsDouble A.lo) (dB : IsDouble B.lo) (f1 : List ℝ) (hn : f1.length = A.n) (F : ℝ) (hf : ∀ v ∈ f1, |v| ≤ F)
    (hF : F ≤ 2^1000) (buf0 : Buf ℝ) :
    ∃ out, grid2grid1D64 fused f1 A.size B.n A.lo B.lo (some B.size) buf0 = .ok (some out) ∧
      out.length = B.n ∧
      ∀ j < B.n, ∃ v, out[j]? = some v ∧
        |v - exact1 A B (fun k => f1.getD k 0) j| ≤ gridCond A B/2^42*F + (2:ℝ)^(-1000 : ℤ) := by
  have hc' : gridCond A B ≤ 2^41 := hc.trans (by norm_num)
  obtain ⟨c0, p1, pc, hl⟩ := len_facts hA hB hc
  have hF0 : 0 ≤ F := by
    have : 0 < f1.length := by rw [hn]; exact hA.pos
    exact (abs_nonneg _).trans (hf _ (List.getElem_mem this))
  unfold grid2grid1D64 remap1d64
  simp only []
  rw [hn]
  obtain ⟨s', out, e, h1, h2⟩ := sweep_rel (fun buf i =>
    let buf := pixel64 fused (mkAxis64 A.lo A.size A.n B.lo B.size B.n) i buf
    (accum64 fused f1 0 buf).map fun v => (buf, v)) (fun j buf => After fused A B j buf)
    (fun j v => |v - exact1 A B (fun k => f1.getD k 0) j| ≤ gridCond A B/2^42*F + (2:ℝ)^(-1000 : ℤ)) B.n (by
      intro j hj s hs
      have ha := after_all hA hB hc' (isDouble_fl dA) (isDouble_fl dB) fused h0 hj s hs
      obtain ⟨v, e1, e2⟩ := near_value fused f1 hf hF0 (hn ▸ ha.1) (by linarith) (by
        have : (((len64 A B).toNat : ℕ) : ℝ) ≤ ((2^46 : ℕ) : ℝ) := by
          refine hl.trans ?_
          push_cast
          linarith
        exact_mod_cast this)
      refine ⟨_, v, ?_, ha, ?_⟩
      · change (accum64 fused f1 0 (pixel64 fused (axis64 A B) j s)).map _ = _
        rw [e1]
        rfl
      · have e3 : exact1 A B (fun k => f1.getD k 0) j = ∑ k ∈ range f1.length, cellFrac A B k j*f1.getD k 0 := by
          unfold exact1
          rw [hn]
          exact sum_congr rfl fun k _ => mul_comm _ _
        rw [e3]
        refine e2.trans ?_
        gcongr
        linarith) buf0
  have hg : (mkAxis64 A.lo A.size A.n B.lo B.size B.n).grid2 = B.n := rfl
  rw [hg, e]
  exact ⟨out, rfl, h1, h2⟩

/-- C105 for constant fields: cells inside the input box keep the constant up to rounding. -/
theorem C105_constant_partial (fused : Bool) (A B : Axis ℝ) (hA : Resolved A.lo A.size A.n)
    (hB : Resolved B.lo B.size B.n) (hc : gridCond A B ≤ 2^39) (h0 : FirstCellClearly A B)
    (dA : IsDouble A.lo) (dB : IsDouble B.lo) (c : ℝ) (hF : |c| ≤ 2^1000) (buf0 : Buf ℝ) :
    ∃ out, grid2grid1D64 fused (List.replicate A.n c) A.size B.n A.lo B.lo (some B.size) buf0 = .ok (some out) ∧
      ∀ j < B.n, A.lo ≤ B.edge j → B.edge (j+1) ≤ A.lo + A.size →
        ∃ v, out[j]? = some v ∧ |v - c| ≤ gridCond A B/2^42*|c| + (2:ℝ)^(-1000 : ℤ) := by
  obtain ⟨-, -, -, -, -, -, -, vA, vB⟩ := scale_facts hA hB
  obtain ⟨out, h1, -, h2⟩ := C105_accuracy_partial fused A B hA hB hc h0 dA dB (List.replicate A.n c) (by simp) |c|
    (by intro v hv; rw [List.eq_of_mem_replicate hv]) hF buf0
  refine ⟨out, h1, fun j hj g1 g2 => ?_⟩
  obtain ⟨v, e1, e2⟩ := h2 j hj
  refine ⟨v, e1, ?_⟩
  rw [exact1_const vA vB g1 g2 _ c] at e2
  · exact e2
  · intro k hk
    simp [List.getD_eq_getElem?_getD, List.getElem?_replicate, hk]

/-- C105, two dimensions: the naive sum adds an error in proportion to the number of input cells that meet an output
cell.  Missing: as in one dimension. -/
theorem C105_accuracy_2d_partial (fused : Bool) (Ax Ay Bx By : Axis ℝ) (hAx : Resolved Ax.lo Ax.size Ax.n)
    (hAy : Resolved Ay.lo Ay.size Ay.n) (hBx : Resolved Bx.lo Bx.size Bx.n) (hBy : Resolved By.lo By.size By.n)
    (hcx : gridCond Ax Bx ≤ 2^39) (hcy : gridCond Ay By ≤ 2^39) (hp : perCell Ax Bx*perCell Ay By ≤ 2^40)
    (hx0 : FirstCellClearly Ax Bx) (hy0 : FirstCellClearly Ay By)
    (dAx : IsDouble Ax.lo) (dAy : IsDouble Ay.lo) (dBx : IsDouble Bx.lo) (dBy : IsDouble By.lo)
    (f1 : List ℝ) (hn : f1.length = Ax.n*Ay.n) (F : ℝ) (hf : ∀ v ∈ f1, |v| ≤ F)
    (hF : F ≤ 2^1000) (xb0 yb0 : Buf ℝ) :
    ∃ out, grid2grid2D64 fused Ax.n Ay.n f1 (.list [Ax.size, Ay.size]) (.list [Bx.n, By.n]) (.list [Ax.lo, Ay.lo])
        (.list [Bx.lo, By.lo]) (some (.list [Bx.size, By.size])) xb0 yb0 = .ok (some ⟨out, [Bx.n, By.n]⟩) ∧
      out.length = Bx.n*By.n ∧
      ∀ i < Bx.n, ∀ j < By.n, ∃ v, out[i*By.n + j]? = some v ∧
        |v - exact2 Ax Ay Bx By (fun k l => f1.getD (k*Ay.n + l) 0) i j|
          ≤ ((gridCond Ax Bx + gridCond Ay By)/2^42 + perCell Ax Bx*perCell Ay By/2^46)*F + (2:ℝ)^(-1000 : ℤ) := by
  have hcx' : gridCond Ax Bx ≤ 2^41 := hcx.trans (by norm_num)
  have hcy' : gridCond Ay By ≤ 2^41 := hcy.trans (by norm_num)
  obtain ⟨cx0, px1, pcx, hlx⟩ := len_facts hAx hBx hcx
  obtain ⟨cy0, py1, pcy, hly⟩ := len_facts hAy hBy hcy
  have hF0 : 0 ≤ F := by
    have : 0 < f1.length := by rw [hn]; exact Nat.mul_pos hAx.pos hAy.pos
    exact (abs_nonneg _).trans (hf _ (List.getElem_mem this))
  have hN : (((len64 Ax Bx).toNat*(len64 Ay By).toNat : ℕ) : ℝ) ≤ 9*(perCell Ax Bx*perCell Ay By) := by
    push_cast
    calc _ ≤ 3*perCell Ax Bx*(3*perCell Ay By) := by gcongr
      _ = _ := by ring
  have hN' : (len64 Ax Bx).toNat*(len64 Ay By).toNat ≤ 2^46 := by
    have : (((len64 Ax Bx).toNat*(len64 Ay By).toNat : ℕ) : ℝ) ≤ ((2^46 : ℕ) : ℝ) := by
      refine hN.trans ?_
      push_cast
      linarith
    exact_mod_cast this
  unfold grid2grid2D64
  simp only [Arg.two, bind, Except.bind, pure, Except.pure]
  have key : ∃ out, remap2d64 fused (mkAxis64 Ax.lo Ax.size Ax.n Bx.lo Bx.size Bx.n)
      (mkAxis64 Ay.lo Ay.size Ay.n By.lo By.size By.n) f1 xb0 yb0 = some out ∧
      out.length = Bx.n*By.n ∧
      ∀ i < Bx.n, ∀ j < By.n, ∃ v, out[i*By.n + j]? = some v ∧
        |v - exact2 Ax Ay Bx By (fun k l => f1.getD (k*Ay.n + l) 0) i j|
          ≤ ((gridCond Ax Bx + gridCond Ay By)/2^42 + perCell Ax Bx*perCell Ay By/2^46)*F + (2:ℝ)^(-1000 : ℤ) := by
    unfold remap2d64
    obtain ⟨s', rows, e, h1, h2⟩ := sweep_rel (fun (s : Buf ℝ × Buf ℝ) i =>
      let xb := pixel64 fused (mkAxis64 Ax.lo Ax.size Ax.n Bx.lo Bx.size Bx.n) i s.1
      (sweep (fun yb j =>
        let yb := pixel64 fused (mkAxis64 Ay.lo Ay.size Ay.n By.lo By.size By.n) j yb
        let pix := pix2d Ay.n xb yb
        let w := xb.flatMap fun (x : ℤ × ℝ) => yb.map fun (y : ℤ × ℝ) => F64.mul x.2 y.2
        (accum64 fused f1 0 (pix.zip w)).map fun v => (yb, v)) s.2 (List.range By.n)).map
          fun r => ((xb, r.1), r.2)) (fun i s => After fused Ax Bx i s.1)
      (fun i row => row.length = By.n ∧ ∀ j < By.n, ∃ v, row[j]? = some v ∧
        |v - exact2 Ax Ay Bx By (fun k l => f1.getD (k*Ay.n + l) 0) i j|
          ≤ ((gridCond Ax Bx + gridCond Ay By)/2^42 + perCell Ax Bx*perCell Ay By/2^46)*F + (2:ℝ)^(-1000 : ℤ))
      Bx.n (by
        intro i hi s hs
        have hX := after_all hAx hBx hcx' (isDouble_fl dAx) (isDouble_fl dBx) fused hx0 hi s.1 hs
        set xb := pixel64 fused (axis64 Ax Bx) i s.1 with hxb
        obtain ⟨t, row, e, h1, h2⟩ := sweep_rel (fun yb j =>
          let yb := pixel64 fused (mkAxis64 Ay.lo Ay.size Ay.n By.lo By.size By.n) j yb
          let pix := pix2d Ay.n xb yb
          let w := xb.flatMap fun (x : ℤ × ℝ) => yb.map fun (y : ℤ × ℝ) => F64.mul x.2 y.2
          (accum64 fused f1 0 (pix.zip w)).map fun v => (yb, v)) (fun j yb => After fused Ay By j yb)
          (fun j v => |v - exact2 Ax Ay Bx By (fun k l => f1.getD (k*Ay.n + l) 0) i j|
            ≤ ((gridCond Ax Bx + gridCond Ay By)/2^42 + perCell Ax Bx*perCell Ay By/2^46)*F + (2:ℝ)^(-1000 : ℤ))
          By.n (by
            intro j hj yb hyb
            have hY := after_all hAy hBy hcy' (isDouble_fl dAy) (isDouble_fl dBy) fused hy0 hj yb hyb
            have hP := near_prod hX.1 hY.1 (by linarith) (by linarith) (by positivity) (by positivity) hN'
            rw [← hn] at hP
            obtain ⟨v, e1, e2⟩ := near_value fused f1 hf hF0 hP (by linarith) hN'
            refine ⟨_, v, ?_, hY, ?_⟩
            · change (accum64 fused f1 0 ((pix2d Ay.n xb (pixel64 fused (axis64 Ay By) j yb)).zip
                (xb.flatMap fun (x : ℤ × ℝ) => (pixel64 fused (axis64 Ay By) j yb).map fun (y : ℤ × ℝ) =>
                  F64.mul x.2 y.2))).map _ = _
              rw [zip_prod64, e1]
              rfl
            · have e3 : exact2 Ax Ay Bx By (fun k l => f1.getD (k*Ay.n + l) 0) i j
                  = ∑ q ∈ range f1.length, cellFrac Ax Bx (q/Ay.n) i*cellFrac Ay By (q%Ay.n) j*f1.getD q 0 := by
                rw [hn, block_sum (fun k => cellFrac Ax Bx k i) (fun l => cellFrac Ay By l j) fun q => f1.getD q 0]
                unfold exact2
                exact sum_congr rfl fun k _ => sum_congr rfl fun l _ => by ring
              rw [e3]
              refine e2.trans (add_le_add (mul_le_mul_of_nonneg_right ?_ hF0) le_rfl)
              have : 1 ≤ perCell Ax Bx*perCell Ay By := one_le_mul_of_one_le_of_one_le px1 py1
              linarith) s.2
        refine ⟨(xb, t), row, ?_, hX, h1, h2⟩
        change (sweep (fun yb j =>
          let yb := pixel64 fused (mkAxis64 Ay.lo Ay.size Ay.n By.lo By.size By.n) j yb
          let pix := pix2d Ay.n xb yb
          let w := xb.flatMap fun (x : ℤ × ℝ) => yb.map fun (y : ℤ × ℝ) => F64.mul x.2 y.2
          (accum64 fused f1 0 (pix.zip w)).map fun v => (yb, v)) s.2 (List.range By.n)).map _ = _
        rw [e]
        rfl) (xb0, yb0)
    have hgx : (mkAxis64 Ax.lo Ax.size Ax.n Bx.lo Bx.size Bx.n).grid2 = Bx.n := rfl
    have hgy : (mkAxis64 Ay.lo Ay.size Ay.n By.lo By.size By.n).grid2 = By.n := rfl
    have hgy' : (mkAxis64 Ay.lo Ay.size Ay.n By.lo By.size By.n).grid1 = Ay.n := rfl
    rw [hgx, hgy, hgy', e]
    obtain ⟨f1', f2'⟩ := flatten_get (m := By.n) rows (by
      intro i hi
      obtain ⟨r, hr, hr2, -⟩ := h2 i (by omega)
      exact ⟨r, hr, hr2⟩)
    refine ⟨rows.flatten, rfl, by rw [f1', h1], ?_⟩
    intro i hi j hj
    obtain ⟨r, hr, -, hr2⟩ := h2 i hi
    obtain ⟨v, hv, hv2⟩ := hr2 j hj
    exact ⟨v, by rw [f2' i (by omega) j hj, hr]; exact hv, hv2⟩
  obtain ⟨out, e, h⟩ := key
  exact ⟨out, by rw [e]; rfl, h⟩

/-- C105, three dimensions; the output sizes have to be given as one number (see C39).  Missing: as in one
dimension. -/
theorem C105_accuracy_3d_partial (fused : Bool) (n : ℕ) (Ax Ay Az Bx By Bz : Axis ℝ)
    (hAx : Resolved Ax.lo Ax.size Ax.n) (hAy : Resolved Ay.lo Ay.size Ay.n) (hAz : Resolved Az.lo Az.size Az.n)
    (hBx : Resolved Bx.lo Bx.size Bx.n) (hBy : Resolved By.lo By.size By.n) (hBz : Resolved Bz.lo Bz.size Bz.n)
    (nx : Bx.n = n) (ny : By.n = n) (nz : Bz.n = n)
    (hcx : gridCond Ax Bx ≤ 2^39) (hcy : gridCond Ay By ≤ 2^39) (hcz : gridCond Az Bz ≤ 2^39)
    (hp : perCell Ax Bx*perCell Ay By*perCell Az Bz ≤ 2^40)
    (hx0 : FirstCellClearly Ax Bx) (hy0 : FirstCellClearly Ay By) (hz0 : FirstCellClearly Az Bz)
    (dAx : IsDouble Ax.lo) (dAy : IsDouble Ay.lo) (dAz : IsDouble Az.lo) (dBx : IsDouble Bx.lo) (dBy : IsDouble By.lo)
    (dBz : IsDouble Bz.lo)
    (f1 : List ℝ) (hn : f1.length = Ax.n*Ay.n*Az.n) (F : ℝ) (hf : ∀ v ∈ f1, |v| ≤ F)
    (hF : F ≤ 2^1000) (xb0 yb0 zb0 : Buf ℝ) :
    ∃ out, grid2grid3D64 fused Ax.n Ay.n Az.n f1 (.list [Ax.size, Ay.size, Az.size]) (.scalar n)
        (.list [Ax.lo, Ay.lo, Az.lo]) (.list [Bx.lo, By.lo, Bz.lo]) (some (.list [Bx.size, By.size, Bz.size]))
        xb0 yb0 zb0 = .ok (some ⟨out, [n, n, n]⟩) ∧
      out.length = n*(n*n) ∧
      ∀ i < n, ∀ j < n, ∀ h < n, ∃ v, out[i*(n*n) + (j*n + h)]? = some v ∧
        |v - exact3 Ax Ay Az Bx By Bz (fun k l m => f1.getD ((k*Ay.n + l)*Az.n + m) 0) i j h|
          ≤ ((gridCond Ax Bx + gridCond Ay By + gridCond Az Bz)/2^41
              + perCell Ax Bx*perCell Ay By*perCell Az Bz/2^45)*F + (2:ℝ)^(-1000 : ℤ) := by
  have hcx' : gridCond Ax Bx ≤ 2^41 := hcx.trans (by norm_num)
  have hcy' : gridCond Ay By ≤ 2^41 := hcy.trans (by norm_num)
  have hcz' : gridCond Az Bz ≤ 2^41 := hcz.trans (by norm_num)
  obtain ⟨cx0, px1, pcx, hlx⟩ := len_facts hAx hBx hcx
  obtain ⟨cy0, py1, pcy, hly⟩ := len_facts hAy hBy hcy
  obtain ⟨cz0, pz1, pcz, hlz⟩ := len_facts hAz hBz hcz
  have hF0 : 0 ≤ F := by
    have : 0 < f1.length := by rw [hn]; exact Nat.mul_pos (Nat.mul_pos hAx.pos hAy.pos) hAz.pos
    exact (abs_nonneg _).trans (hf _ (List.getElem_mem this))
  have hpxy : 1 ≤ perCell Ax Bx*perCell Ay By := one_le_mul_of_one_le_of_one_le px1 py1
  have hpxyz : 1 ≤ perCell Ax Bx*perCell Ay By*perCell Az Bz := one_le_mul_of_one_le_of_one_le hpxy pz1
  have hNxy : (((len64 Ax Bx).toNat*(len64 Ay By).toNat : ℕ) : ℝ) ≤ 9*(perCell Ax Bx*perCell Ay By) := by
    push_cast
    calc _ ≤ 3*perCell Ax Bx*(3*perCell Ay By) := by gcongr
      _ = _ := by ring
  have hNxy' : (len64 Ax Bx).toNat*(len64 Ay By).toNat ≤ 2^46 := by
    have : (((len64 Ax Bx).toNat*(len64 Ay By).toNat : ℕ) : ℝ) ≤ ((2^46 : ℕ) : ℝ) := by
      refine hNxy.trans ?_
      have : perCell Ax Bx*perCell Ay By ≤ perCell Ax Bx*perCell Ay By*perCell Az Bz :=
        le_mul_of_one_le_right (by linarith) pz1
      push_cast
      linarith
    exact_mod_cast this
  have hN : (((len64 Ax Bx).toNat*(len64 Ay By).toNat*(len64 Az Bz).toNat : ℕ) : ℝ)
      ≤ 27*(perCell Ax Bx*perCell Ay By*perCell Az Bz) := by
    rw [Nat.cast_mul]
    calc _ ≤ 9*(perCell Ax Bx*perCell Ay By)*(3*perCell Az Bz) := by gcongr
      _ = _ := by ring
  have hN' : (len64 Ax Bx).toNat*(len64 Ay By).toNat*(len64 Az Bz).toNat ≤ 2^46 := by
    have : (((len64 Ax Bx).toNat*(len64 Ay By).toNat*(len64 Az Bz).toNat : ℕ) : ℝ) ≤ ((2^46 : ℕ) : ℝ) := by
      refine hN.trans ?_
      push_cast
      linarith
    exact_mod_cast this
  unfold grid2grid3D64
  simp only [Arg.three, bind, Except.bind, pure, Except.pure]
  set bound := ((gridCond Ax Bx + gridCond Ay By + gridCond Az Bz)/2^41
              + perCell Ax Bx*perCell Ay By*perCell Az Bz/2^45)*F + (2:ℝ)^(-1000 : ℤ) with hbound
  have key : ∃ out, remap3d64 fused (mkAxis64 Ax.lo Ax.size Ax.n Bx.lo Bx.size n)
      (mkAxis64 Ay.lo Ay.size Ay.n By.lo By.size n) (mkAxis64 Az.lo Az.size Az.n Bz.lo Bz.size n) f1 xb0 yb0 zb0
        = some out ∧
      out.length = n*(n*n) ∧
      ∀ i < n, ∀ j < n, ∀ h < n, ∃ v, out[i*(n*n) + (j*n + h)]? = some v ∧
        |v - exact3 Ax Ay Az Bx By Bz (fun k l m => f1.getD ((k*Ay.n + l)*Az.n + m) 0) i j h| ≤ bound := by
    have hax : mkAxis64 Ax.lo Ax.size Ax.n Bx.lo Bx.size n = axis64 Ax Bx := by rw [← nx]; rfl
    have hay : mkAxis64 Ay.lo Ay.size Ay.n By.lo By.size n = axis64 Ay By := by rw [← ny]; rfl
    have haz : mkAxis64 Az.lo Az.size Az.n Bz.lo Bz.size n = axis64 Az Bz := by rw [← nz]; rfl
    rw [hax, hay, haz]
    unfold remap3d64
    have hgx : (axis64 Ax Bx).grid2 = n := nx
    have hgy : (axis64 Ay By).grid2 = n := ny
    have hgy' : (axis64 Ay By).grid1 = Ay.n := rfl
    have hgz : (axis64 Az Bz).grid2 = n := nz
    have hgz' : (axis64 Az Bz).grid1 = Az.n := rfl
    rw [hgx, hgy, hgy', hgz, hgz']
    have inner : ∀ i j, i < n → j < n → ∀ xb yb zb0 : Buf ℝ, After fused Ax Bx i xb → After fused Ay By j yb →
        ∃ t row, sweep (fun zb k =>
          let zb := pixel64 fused (axis64 Az Bz) k zb
          let pix := pix3d Ay.n Az.n xb yb zb
          let w := xb.flatMap fun (x : ℤ × ℝ) => yb.flatMap fun (y : ℤ × ℝ) =>
            zb.map fun (z : ℤ × ℝ) => F64.mul (F64.mul x.2 y.2) z.2
          (accum64 fused f1 0 (pix.zip w)).map fun v => (zb, v)) zb0 (List.range n) = some (t, row) ∧
          row.length = n ∧ ∀ h < n, ∃ v, row[h]? = some v ∧
            |v - exact3 Ax Ay Az Bx By Bz (fun k l m => f1.getD ((k*Ay.n + l)*Az.n + m) 0) i j h| ≤ bound := by
      intro i j hi hj xb yb zb0 hX hY
      refine sweep_rel _ (fun h zb => After fused Az Bz h zb) _ n ?_ zb0
      intro h hh zb hzb
      have hZ := after_all hAz hBz hcz' (isDouble_fl dAz) (isDouble_fl dBz) fused hz0 (by omega) zb hzb
      have hXY := near_prod hX.1 hY.1 (by linarith) (by linarith) (by positivity) (by positivity) hNxy'
      have hP := near_prod hXY hZ.1 (by linarith) (by linarith) (by positivity) (by positivity) hN'
      rw [← hn] at hP
      obtain ⟨v, e1, e2⟩ := near_value fused f1 hf hF0 hP (by linarith) hN'
      refine ⟨_, v, ?_, hZ, ?_⟩
      · simp only []
        rw [zip_prod64_3 Az.n _ hX.1.inR hY.1.inR, e1]
        rfl
      · have e3 : exact3 Ax Ay Az Bx By Bz (fun k l m => f1.getD ((k*Ay.n + l)*Az.n + m) 0) i j h
            = ∑ q ∈ range f1.length, (cellFrac Ax Bx (q/Az.n/Ay.n) i*cellFrac Ay By (q/Az.n%Ay.n) j)
                *cellFrac Az Bz (q%Az.n) h*f1.getD q 0 := by
          rw [hn, block_sum (fun k => cellFrac Ax Bx (k/Ay.n) i*cellFrac Ay By (k%Ay.n) j)
            (fun l => cellFrac Az Bz l h) fun q => f1.getD q 0]
          have := block_sum (n := Ax.n) (m := Ay.n) (fun k => cellFrac Ax Bx k i) (fun l => cellFrac Ay By l j)
            (fun q => ∑ m ∈ range Az.n, cellFrac Az Bz m h*f1.getD (q*Az.n + m) 0)
          simp_rw [mul_sum] at this
          simp_rw [← mul_assoc] at this
          rw [this]
          unfold exact3
          exact sum_congr rfl fun k _ => sum_congr rfl fun l _ => sum_congr rfl fun m _ => by ring
        rw [e3]
        refine e2.trans (add_le_add (mul_le_mul_of_nonneg_right ?_ hF0) le_rfl)
        linarith
    have middle : ∀ i, i < n → ∀ (xb : Buf ℝ) (s0 : Buf ℝ × Buf ℝ), After fused Ax Bx i xb →
        ∃ t rows, sweep (fun (s : Buf ℝ × Buf ℝ) j =>
          let yb := pixel64 fused (axis64 Ay By) j s.1
          (sweep (fun zb k =>
            let zb := pixel64 fused (axis64 Az Bz) k zb
            let pix := pix3d Ay.n Az.n xb yb zb
            let w := xb.flatMap fun (x : ℤ × ℝ) => yb.flatMap fun (y : ℤ × ℝ) =>
              zb.map fun (z : ℤ × ℝ) => F64.mul (F64.mul x.2 y.2) z.2
            (accum64 fused f1 0 (pix.zip w)).map fun v => (zb, v)) s.2 (List.range n)).map
              fun r => ((yb, r.1), r.2)) s0 (List.range n) = some (t, rows) ∧
          rows.length = n ∧ ∀ j < n, ∃ row, rows[j]? = some row ∧ row.length = n ∧
            ∀ h < n, ∃ v, row[h]? = some v ∧
            |v - exact3 Ax Ay Az Bx By Bz (fun k l m => f1.getD ((k*Ay.n + l)*Az.n + m) 0) i j h| ≤ bound := by
      intro i hi xb s0 hX
      refine sweep_rel _ (fun j s => After fused Ay By j s.1) (fun j (row : List ℝ) => row.length = n ∧
        ∀ h < n, ∃ v, row[h]? = some v ∧
            |v - exact3 Ax Ay Az Bx By Bz (fun k l m => f1.getD ((k*Ay.n + l)*Az.n + m) 0) i j h| ≤ bound) n ?_ s0
      intro j hj s hs
      have hY := after_all hAy hBy hcy' (isDouble_fl dAy) (isDouble_fl dBy) fused hy0 (by omega) s.1 hs
      obtain ⟨t, row, e, h1, h2⟩ := inner i j hi hj xb _ s.2 hX hY
      simp only [e, Option.map_some]
      exact ⟨_, row, rfl, hY, h1, h2⟩
    obtain ⟨s', planes, e, h1, h2⟩ := sweep_rel (fun (s : Buf ℝ × Buf ℝ × Buf ℝ) i =>
      let xb := pixel64 fused (axis64 Ax Bx) i s.1
      (sweep (fun (s : Buf ℝ × Buf ℝ) j =>
        let yb := pixel64 fused (axis64 Ay By) j s.1
        (sweep (fun zb k =>
          let zb := pixel64 fused (axis64 Az Bz) k zb
          let pix := pix3d Ay.n Az.n xb yb zb
          let w := xb.flatMap fun (x : ℤ × ℝ) => yb.flatMap fun (y : ℤ × ℝ) =>
            zb.map fun (z : ℤ × ℝ) => F64.mul (F64.mul x.2 y.2) z.2
          (accum64 fused f1 0 (pix.zip w)).map fun v => (zb, v)) s.2 (List.range n)).map
            fun r => ((yb, r.1), r.2)) s.2 (List.range n)).map
          fun r => ((xb, r.1), r.2.flatten)) (fun i s => After fused Ax Bx i s.1)
      (fun i plane => plane.length = n*n ∧ ∀ j < n, ∀ h < n, ∃ v, plane[j*n + h]? = some v ∧
        |v - exact3 Ax Ay Az Bx By Bz (fun k l m => f1.getD ((k*Ay.n + l)*Az.n + m) 0) i j h| ≤ bound) n (by
        intro i hi s hs
        have hX := after_all hAx hBx hcx' (isDouble_fl dAx) (isDouble_fl dBx) fused hx0 (by omega) s.1 hs
        obtain ⟨t, rows, e, h1, h2⟩ := middle i hi _ s.2 hX
        simp only [e, Option.map_some]
        obtain ⟨f1', f2'⟩ := flatten_get (m := n) rows (by
          intro j hj
          obtain ⟨r, hr, hr2, -⟩ := h2 j (by omega)
          exact ⟨r, hr, hr2⟩)
        refine ⟨_, rows.flatten, rfl, hX, by rw [f1', h1], ?_⟩
        intro j hj h hh
        obtain ⟨r, hr, -, hr2⟩ := h2 j hj
        obtain ⟨v, hv, hv2⟩ := hr2 h hh
        exact ⟨v, by rw [f2' j (by omega) h hh, hr]; exact hv, hv2⟩) (xb0, yb0, zb0)
    rw [e]
    obtain ⟨f1', f2'⟩ := flatten_get (m := n*n) planes (by
      intro i hi
      obtain ⟨r, hr, hr2, -⟩ := h2 i (by omega)
      exact ⟨r, hr, hr2⟩)
    refine ⟨planes.flatten, rfl, by rw [f1', h1], ?_⟩
    intro i hi j hj h hh
    obtain ⟨r, hr, -, hr2⟩ := h2 i hi
    obtain ⟨v, hv, hv2⟩ := hr2 j hj h hh
    have hjh : j*n + h < n*n := by nlinarith
    exact ⟨v, by rw [f2' i (by omega) _ hjh, hr]; exact hv, hv2⟩
  obtain ⟨out, e, h⟩ := key
  simp only [nx, ny, nz] at *
  exact ⟨out, by rw [e]; rfl, h⟩

/-- A survey box of 1000 cells of width 2, remapped to 700 cells of another box inside. -/
example : Resolved (-1000) 2000 1000 ∧ Resolved (-500) 1400 700 ∧
    gridCond ⟨-1000, 2000, 1000⟩ ⟨-500, 1400, 700⟩ ≤ 2^39 ∧
    FirstCellClearly ⟨-1000, 2000, 1000⟩ ⟨-500, 1400, 700⟩ ∧
    perCell ⟨-1000, 2000, 1000⟩ ⟨-500, 1400, 700⟩ ≤ 2^13 ∧ IsDouble (-1000) ∧ IsDouble (-500) := by
  refine ⟨⟨by norm_num, by norm_num, ?_, ?_, ?_⟩, ⟨by norm_num, by norm_num, ?_, ?_, ?_⟩, ?_, ?_, ?_, ?_, ?_⟩
  · exact le_trans (zpow_le_one_of_nonpos₀ (by norm_num) (by norm_num)) (by norm_num)
  · have : (2:ℝ)^(11:ℤ) ≤ (2:ℝ)^(900:ℤ) := zpow_le_zpow_right₀ (by norm_num) (by norm_num)
    refine le_trans (by norm_num) this
  · rw [abs_of_neg (by norm_num)]; norm_num
  · exact le_trans (zpow_le_one_of_nonpos₀ (by norm_num) (by norm_num)) (by norm_num)
  · have : (2:ℝ)^(11:ℤ) ≤ (2:ℝ)^(900:ℤ) := zpow_le_zpow_right₀ (by norm_num) (by norm_num)
    refine le_trans (by norm_num) this
  · rw [abs_of_neg (by norm_num)]; norm_num
  · unfold gridCond gridScale Axis.dx
    rw [abs_of_neg (by norm_num), abs_of_neg (by norm_num)]
    norm_num
  · left; norm_num
  · unfold perCell Axis.dx; norm_num
  · exact ⟨-1000, 0, by norm_num, by norm_num, by norm_num, by norm_num⟩
  · exact ⟨-500, 0, by norm_num, by norm_num, by norm_num, by norm_num⟩

/-! ## Exceptions -/

/-- C105: in double precision the wrappers raise an exception for the same arguments as in exact arithmetic, and the
same one. -/
theorem C105_exceptions (fused : Bool) (e : PyErr) :
    (∀ (f1 : List ℝ) (boxsize : ℝ) (n : ℕ) (origin originout : ℝ) (bo : Option ℝ) (buf : Buf ℝ),
      grid2grid1D64 fused f1 boxsize n origin originout bo buf = .error e ↔
        grid2grid1D f1 boxsize n origin originout bo buf = .error e) ∧
    (∀ (nx ny : ℕ) (f1 : List ℝ) (boxsize : Arg ℝ) (n : Arg ℕ) (origin originout : Arg ℝ) (bo : Option (Arg ℝ))
      (xb yb : Buf ℝ), grid2grid2D64 fused nx ny f1 boxsize n origin originout bo xb yb = .error e ↔
        grid2grid2D nx ny f1 boxsize n origin originout bo xb yb = .error e) ∧
    (∀ (nx ny nz : ℕ) (f1 : List ℝ) (boxsize : Arg ℝ) (n : Arg ℕ) (origin originout : Arg ℝ) (bo : Option (Arg ℝ))
      (xb yb zb : Buf ℝ), grid2grid3D64 fused nx ny nz f1 boxsize n origin originout bo xb yb zb = .error e ↔
        grid2grid3D nx ny nz f1 boxsize n origin originout bo xb yb zb = .error e) := by
  refine ⟨?_, ?_, ?_⟩
  · intro f1 boxsize n origin originout bo buf
    unfold grid2grid1D64 grid2grid1D
    cases bo <;> simp
  · intro nx ny f1 boxsize n origin originout bo xb yb
    unfold grid2grid2D64 grid2grid2D
    simp only [bind, Except.bind, pure, Except.pure]
    cases boxsize.two with
    | error e => rfl
    | ok b =>
      cases bo with
      | none =>
        cases origin.two with
        | error e => rfl
        | ok o =>
          cases originout.two with
          | error e => rfl
          | ok oo =>
            cases n.two with
            | error e => rfl
            | ok k => simp
      | some bo =>
        simp only
        cases bo.two with
        | error e => rfl
        | ok b' =>
          cases origin.two with
          | error e => rfl
          | ok o =>
            cases originout.two with
            | error e => rfl
            | ok oo =>
              cases n.two with
              | error e => rfl
              | ok k => simp
  · intro nx ny nz f1 boxsize n origin originout bo xb yb zb
    unfold grid2grid3D64 grid2grid3D
    simp only [bind, Except.bind, pure, Except.pure]
    cases boxsize.three with
    | error e => rfl
    | ok b =>
      cases bo with
      | none =>
        cases origin.three with
        | error e => rfl
        | ok o =>
          cases originout.three with
          | error e => rfl
          | ok oo =>
            rcases n with n | _ | ⟨a, _ | ⟨b, _ | ⟨c, l⟩⟩⟩ <;> simp
      | some bo =>
        simp only
        cases bo.three with
        | error e => rfl
        | ok b' =>
          cases origin.three with
          | error e => rfl
          | ok o =>
            cases originout.three with
            | error e => rfl
            | ok oo =>
              rcases n with n | _ | ⟨a, _ | ⟨b, _ | ⟨c, l⟩⟩⟩ <;> simp

/-- Both sides of `C105_exceptions` for a missing `boxsizeout`. -/
example (fused : Bool) (f1 : List ℝ) (buf : Buf ℝ) :
    grid2grid1D64 fused f1 1 2 0 0 none buf = .error .typeError := rfl

end Magpie.Props
