import Verif.Proof.RemapExact

/-!
# Properties C31-C39: remapping between cartesian grids

`Axis`, `exact1`, `exact2`, `exact3` and `FirstCellClear` are in `Verif/Spec/Remap.lean`.  Every theorem
quantifies over the initial content `buf0` of the Fortran work arrays.
-/

set_option linter.unusedSimpArgs false
set_option linter.unusedVariables false
set_option linter.unusedSectionVars false

namespace Magpie.Props
open Magpie Magpie.Remap Magpie.Spec Finset

variable {K : Type} [Field K] [LinearOrder K] [IsStrictOrderedRing K] [FloorRing K]

/-! ## When is the first cell clear? -/

/-- `FirstCellClear` holds when the output starts inside the input box, when its first cell reaches
the input box, when the output cells are at least as wide as the input cells, and when the
output starts more than an input cell to the left. -/
theorem first_cell_clear {A B : Axis K} (hA : A.Valid)
    (h : A.lo ≤ B.lo ∨ A.lo ≤ B.lo + B.dx ∨ A.dx ≤ B.dx ∨ B.lo < A.lo - A.dx)
    (hB : B.Valid) : FirstCellClear A B := by
  have := dx_pos hA
  have := dx_pos hB
  rintro ⟨h1, h2⟩
  rcases h with h | h | h | h <;> linarith

/-! ## C31 -/

/-- C31: every output cell of `grid2grid1D` is the exact overlap average, whatever the memory held.
Missing: output grids whose first cell lies in the one cell width left of the input box, see
`C31_violated`. -/
theorem C31_exact_partial (f1 : List K) (boxsize origin originout bo : K) (ngridout : ℕ)
    (hA : (⟨origin, boxsize, f1.length⟩ : Axis K).Valid)
    (hB : (⟨originout, bo, ngridout⟩ : Axis K).Valid)
    (hc : FirstCellClear (⟨origin, boxsize, f1.length⟩ : Axis K) ⟨originout, bo, ngridout⟩)
    (buf0 : Buf K) :
    ∃ out, grid2grid1D f1 boxsize ngridout origin originout (some bo) buf0 = .ok (some out) ∧
      out.length = ngridout ∧ ∀ j < ngridout, out[j]? = some
        (exact1 ⟨origin, boxsize, f1.length⟩ ⟨originout, bo, ngridout⟩ (fun k => f1.getD k 0) j) := by
  have := remap1d_eq hA hB hc f1 rfl buf0
  unfold axisOf at this
  refine ⟨_, by unfold grid2grid1D; simp only []; rw [this], by simp, ?_⟩
  intro j hj
  rw [List.getElem?_map, List.getElem?_range hj]; rfl

theorem sweep_some {S T : Type} (step : S → ℕ → Option (S × T)) (P : S → Prop)
    (hstep : ∀ j s, P s → ∃ s' v, step s j = some (s', v) ∧ P s') (l : List ℕ) (s : S) (hs : P s) :
    ∃ s' vs, sweep step s l = some (s', vs) ∧ P s' := by
  induction l generalizing s with
  | nil => exact ⟨s, [], rfl, hs⟩
  | cons j l ih =>
    obtain ⟨s1, v, e1, h1⟩ := hstep j s hs
    obtain ⟨s2, vs, e2, h2⟩ := ih s1 h1
    exact ⟨s2, v :: vs, by simp only [sweep, e1, e2], h2⟩

theorem pixel_InR {A B : Axis K} (hA : A.Valid) (hB : B.Valid) (j : ℕ) (buf : Buf K)
    (h : InR A.n buf) : InR A.n ((axisOf A B).pixel j buf) := by
  by_cases hs : Stale A B j
  · rw [pixel_stale j hs]; exact h
  · exact (pixel_good hA hB j hs buf).1

/-- C31 is violated (and so is C35): when the first output cell lies in the one cell width left of
the input box, its value is whatever the work memory makes it; any number can come out,
although the cell does not meet the input box and its overlap average is zero. -/
theorem C31_violated (f1 : List K) (boxsize origin originout bo : K) (ngridout : ℕ)
    (hA : (⟨origin, boxsize, f1.length⟩ : Axis K).Valid)
    (hB : (⟨originout, bo, ngridout⟩ : Axis K).Valid)
    (hc : ¬ FirstCellClear (⟨origin, boxsize, f1.length⟩ : Axis K) ⟨originout, bo, ngridout⟩)
    (hf : f1.getD 0 0 ≠ 0) (v : K) :
    exact1 ⟨origin, boxsize, f1.length⟩ ⟨originout, bo, ngridout⟩ (fun k => f1.getD k 0) 0 = 0 ∧
    ∃ buf0 out, grid2grid1D f1 boxsize ngridout origin originout (some bo) buf0 = .ok (some out) ∧
      out[0]? = some v := by
  set A : Axis K := ⟨origin, boxsize, f1.length⟩
  set B : Axis K := ⟨originout, bo, ngridout⟩
  have hs : Stale A B 0 := by
    by_contra h; exact hc ((stale_iff hA hB).1 h)
  refine ⟨exact1_outside hA (Or.inl (stale_right hA 0 hs).le) _, ?_⟩
  have hn : 0 < f1.length := hA.2
  have hbuf : InR f1.length ([(0, v/f1.getD 0 0)] : Buf K) := by
    intro e he
    rw [List.mem_singleton] at he
    subst he
    right; simp only []; omega
  obtain ⟨m, hm⟩ : ∃ m, ngridout = m + 1 := ⟨ngridout - 1, by have := hB.2; simp only [B] at this; omega⟩
  have step0 : ∀ s j, InR A.n s → ∃ s' w, (let buf := (axisOf A B).pixel j s
    (accum f1 0 buf).map fun v => (buf, v)) = some (s', w) ∧ InR A.n s' := by
    intro s j h
    have h1 := pixel_InR hA hB j s h
    exact ⟨_, _, by simp only []; rw [accum_eq f1 _ h1]; rfl, h1⟩
  obtain ⟨s', vs, e, _⟩ := sweep_some (fun buf i =>
    let buf := (axisOf A B).pixel i buf
    (accum f1 0 buf).map fun v => (buf, v)) (InR A.n) (fun j s h => step0 s j h)
    (List.range' 1 m) [(0, v/f1.getD 0 0)] hbuf
  refine ⟨[(0, v/f1.getD 0 0)], v :: vs, ?_, rfl⟩
  unfold grid2grid1D
  simp only []
  congr 1
  unfold remap1d
  have hg : (mkAxis origin boxsize f1.length originout bo ngridout).grid2 = m + 1 := hm
  have hax : mkAxis origin boxsize f1.length originout bo ngridout = axisOf A B := rfl
  rw [hg, List.range_eq_range', List.range'_succ]
  rw [hax]
  simp only [sweep, pixel_stale 0 hs]
  rw [accum_eq f1 _ hbuf]
  simp only [Option.map_some, zero_add]
  have e' := e
  simp only [] at e'
  rw [e']
  simp only [Option.map_some]
  congr 2
  simp only [bufSum, List.map_cons, List.map_nil, List.sum_cons, List.sum_nil, add_zero]
  rw [if_neg (by norm_num)]
  simp only [Int.toNat_zero]
  rw [div_mul_cancel₀ _ hf]

/-- Both situations occur: an output grid that starts with the input, and one that starts
half an input cell to the left with cells of a quarter. -/
example : FirstCellClear (⟨0, 1, 1⟩ : Axis ℚ) ⟨0, 1, 3⟩ ∧
    ¬ FirstCellClear (⟨0, 1, 1⟩ : Axis ℚ) ⟨-1/2, 1, 4⟩ := by
  constructor <;> norm_num [FirstCellClear, Axis.dx]

/-! ## C32 -/

/-- C32: conservation in one dimension. Missing: as for C31. -/
theorem C32_conservation_partial (f1 : List K) (boxsize origin originout bo : K) (ngridout : ℕ)
    (hA : (⟨origin, boxsize, f1.length⟩ : Axis K).Valid)
    (hB : (⟨originout, bo, ngridout⟩ : Axis K).Valid)
    (hc : FirstCellClear (⟨origin, boxsize, f1.length⟩ : Axis K) ⟨originout, bo, ngridout⟩)
    (h1 : originout ≤ origin) (h2 : origin + boxsize ≤ originout + bo) (buf0 : Buf K) :
    ∃ out, grid2grid1D f1 boxsize ngridout origin originout (some bo) buf0 = .ok (some out) ∧
      out.sum * (bo/ngridout) = f1.sum * (boxsize/f1.length) := by
  have := remap1d_eq hA hB hc f1 rfl buf0
  unfold axisOf at this
  refine ⟨_, by unfold grid2grid1D; simp only []; rw [this], ?_⟩
  rw [sum_range_map, sum_getD f1]
  exact exact1_total hA hB h1 h2 fun k => f1.getD k 0

/-- C32 is violated: an input cell of value 1 on [0, 1], remapped onto eight cells on [-1/2, 3/2], has total 5/4
with one content of the work memory and 1 with another. -/
theorem C32_violated :
    grid2grid1D [(1:ℚ)] 1 8 0 (-1/2) (some 2) [(0, 1)] = .ok (some [1, 0, 1, 1, 1, 1, 0, 0]) ∧
    ([1, 0, 1, 1, 1, 1, 0, 0] : List ℚ).sum*(2/8) ≠ [(1:ℚ)].sum*(1/1) ∧
    grid2grid1D [(1:ℚ)] 1 8 0 (-1/2) (some 2) [(-1, 0)] = .ok (some [0, 0, 1, 1, 1, 1, 0, 0]) := by
  refine ⟨?_, by norm_num, ?_⟩
  · have : remap1d (mkAxis (0:ℚ) 1 1 (-1/2) 2 8) [1] [(0, 1)] = some [1, 0, 1, 1, 1, 1, 0, 0] := by
      decide +kernel
    unfold grid2grid1D
    simpa using this
  · have : remap1d (mkAxis (0:ℚ) 1 1 (-1/2) 2 8) [1] [(-1, 0)] = some [0, 0, 1, 1, 1, 1, 0, 0] := by
      decide +kernel
    unfold grid2grid1D
    simpa using this

example : FirstCellClear (⟨0, 1, 4⟩ : Axis ℚ) ⟨-1, 3, 5⟩ ∧ (-1:ℚ) ≤ 0 ∧ (0:ℚ) + 1 ≤ -1 + 3 := by
  refine ⟨?_, by norm_num, by norm_num⟩
  norm_num [FirstCellClear, Axis.dx]

/-! ## C33 -/

/-- C33: two dimensions, exact averages.  Missing: as for C31, on either axis. -/
theorem C33_exact_partial (Ax Ay Bx By : Axis K) (hAx : Ax.Valid) (hAy : Ay.Valid) (hBx : Bx.Valid)
    (hBy : By.Valid) (hx : FirstCellClear Ax Bx) (hy : FirstCellClear Ay By)
    (f1 : List K) (hf : f1.length = Ax.n*Ay.n)
    (boxsize origin originout : Arg K) (bo : Arg K) (ngridout : Arg ℕ)
    (e1 : boxsize.two = .ok (Ax.size, Ay.size)) (e2 : bo.two = .ok (Bx.size, By.size))
    (e3 : origin.two = .ok (Ax.lo, Ay.lo)) (e4 : originout.two = .ok (Bx.lo, By.lo))
    (e5 : ngridout.two = .ok (Bx.n, By.n)) (xb0 yb0 : Buf K) :
    ∃ out, grid2grid2D Ax.n Ay.n f1 boxsize ngridout origin originout (some bo) xb0 yb0
        = .ok (some ⟨out, [Bx.n, By.n]⟩) ∧
      out.length = Bx.n*By.n ∧
      (∀ i < Bx.n, ∀ j < By.n, out[i*By.n + j]? =
        some (exact2 Ax Ay Bx By (fun k l => f1.getD (k*Ay.n + l) 0) i j)) ∧
      (Bx.lo ≤ Ax.lo → Ax.lo + Ax.size ≤ Bx.lo + Bx.size →
       By.lo ≤ Ay.lo → Ay.lo + Ay.size ≤ By.lo + By.size →
        out.sum * (Bx.dx*By.dx) = f1.sum * (Ax.dx*Ay.dx)) := by
  have := remap2d_eq hAx hBx hAy hBy hx hy f1 hf xb0 yb0
  unfold axisOf at this
  refine ⟨(List.range Bx.n).flatMap fun (i : ℕ) => (List.range By.n).map fun (j : ℕ) =>
    exact2 Ax Ay Bx By (fun k l => f1.getD (k*Ay.n + l) 0) i j, ?_, ?_, ?_, ?_⟩
  rotate_left
  · exact length_flat Bx.n By.n _ (fun i => by simp)
  · intro i hi j hj
    rw [getElem?_flat Bx.n By.n _ (fun i => by simp) i j hi hj, List.getElem?_map,
      List.getElem?_range hj]
    rfl
  · intro x1 x2 y1 y2
    rw [sum_flat]
    simp_rw [sum_range_map]
    rw [exact2_total hAx hBx hAy hBy x1 x2 y1 y2, sum_getD f1, hf, sum_mul_block]
  · unfold grid2grid2D
    simp only [e1, e2, e3, e4, e5, bind, Except.bind, this, pure, Except.pure, Option.map_some]

/-- C33 (and C35) is violated: here the first two output columns do not meet the input box, but in
the second row the first column gets the value left over from the last column of the first
row.  The work arrays are clean on entry. -/
theorem C33_violated :
    ∃ out, grid2grid2D 1 1 [(1:ℚ)] (.scalar 1) (.list [2, 4]) (.scalar 0) (.list [0, -1/2])
        (some (.scalar 1)) [(-1, 0)] [(-1, 0)] = .ok (some ⟨out, [2, 4]⟩) ∧
      out[1*4 + 0]? = some 1 ∧
      exact2 ⟨0, 1, 1⟩ ⟨0, 1, 1⟩ ⟨0, 1, 2⟩ ⟨-1/2, 1, 4⟩ (fun _ _ => (1:ℚ)) 1 0 = 0 := by
  refine ⟨[0, 0, 1, 1, 1, 0, 1, 1], ?_, rfl, ?_⟩
  · have : remap2d (mkAxis (0:ℚ) 1 1 0 1 2) (mkAxis 0 1 1 (-1/2) 1 4) [1] [(-1, 0)] [(-1, 0)]
        = some [0, 0, 1, 1, 1, 0, 1, 1] := by decide +kernel
    unfold grid2grid2D
    simp only [Arg.two, bind, Except.bind, pure, Except.pure, this, Option.map_some]
  · rw [exact2_nested]
    have : exact1 (⟨0, 1, 1⟩ : Axis ℚ) ⟨-1/2, 1, 4⟩ (fun _ => (1:ℚ)) 0 = 0 := by
      apply exact1_outside ⟨by norm_num, by norm_num⟩
      left
      norm_num [Axis.edge, Axis.dx]
    simp only [this]
    simp [exact1]

/-! ## C34 -/

/-- C34: three dimensions.  Missing: as for C31, on any axis. -/
theorem C34_exact_partial (Ax Ay Az Bx By Bz : Axis K) (hAx : Ax.Valid) (hAy : Ay.Valid)
    (hAz : Az.Valid) (hBx : Bx.Valid) (hBy : By.Valid) (hBz : Bz.Valid)
    (hx : FirstCellClear Ax Bx) (hy : FirstCellClear Ay By) (hz : FirstCellClear Az Bz)
    (f1 : List K) (hf : f1.length = Ax.n*Ay.n*Az.n)
    (boxsize origin originout : Arg K) (bo : Arg K) (n : ℕ)
    (e1 : boxsize.three = .ok (Ax.size, Ay.size, Az.size))
    (e2 : bo.three = .ok (Bx.size, By.size, Bz.size))
    (e3 : origin.three = .ok (Ax.lo, Ay.lo, Az.lo)) (e4 : originout.three = .ok (Bx.lo, By.lo, Bz.lo))
    (nx : Bx.n = n) (ny : By.n = n) (nz : Bz.n = n) (xb0 yb0 zb0 : Buf K) :
    ∃ out, grid2grid3D Ax.n Ay.n Az.n f1 boxsize (.scalar n) origin originout (some bo) xb0 yb0 zb0
        = .ok (some ⟨out, [n, n, n]⟩) ∧
      out.length = n*(n*n) ∧
      (∀ i < n, ∀ j < n, ∀ h < n, out[i*(n*n) + (j*n + h)]? =
        some (exact3 Ax Ay Az Bx By Bz (fun k l m => f1.getD ((k*Ay.n + l)*Az.n + m) 0) i j h)) ∧
      (Bx.lo ≤ Ax.lo → Ax.lo + Ax.size ≤ Bx.lo + Bx.size →
       By.lo ≤ Ay.lo → Ay.lo + Ay.size ≤ By.lo + By.size →
       Bz.lo ≤ Az.lo → Az.lo + Az.size ≤ Bz.lo + Bz.size →
        out.sum * (Bx.dx*By.dx*Bz.dx) = f1.sum * (Ax.dx*Ay.dx*Az.dx)) := by
  have := remap3d_eq hAx hBx hAy hBy hAz hBz hx hy hz f1 hf xb0 yb0 zb0
  unfold axisOf at this
  rw [nx, ny, nz] at this
  have hl : ∀ i, ((List.range n).flatMap fun (j : ℕ) => (List.range n).map fun (h : ℕ) =>
      exact3 Ax Ay Az Bx By Bz (fun k l o => f1.getD ((k*Ay.n + l)*Az.n + o) 0) i j h).length
        = n*n := fun i => length_flat n n _ (fun i => by simp)
  refine ⟨(List.range n).flatMap fun (i : ℕ) => (List.range n).flatMap fun (j : ℕ) =>
    (List.range n).map fun (h : ℕ) =>
    exact3 Ax Ay Az Bx By Bz (fun k l o => f1.getD ((k*Ay.n + l)*Az.n + o) 0) i j h, ?_, ?_, ?_, ?_⟩
  rotate_left
  · exact length_flat n (n*n) _ hl
  · intro i hi j hj h hh
    have hjh : j*n + h < n*n := by nlinarith
    rw [getElem?_flat n (n*n) _ hl i (j*n+h) hi hjh,
      getElem?_flat n n _ (fun i => by simp) j h hj hh, List.getElem?_map, List.getElem?_range hh]
    rfl
  · intro x1 x2 y1 y2 z1 z2
    have := exact3_total hAx hBx hAy hBy hAz hBz x1 x2 y1 y2 z1 z2
      (fun k l m => f1.getD ((k*Ay.n + l)*Az.n + m) 0)
    rw [nx, ny, nz] at this
    rw [sum_flat]
    simp_rw [sum_flat, sum_range_map]
    rw [this, sum_getD f1, hf, sum_mul_block, sum_mul_block]
  · unfold grid2grid3D
    simp only [e1, e2, e3, e4, bind, Except.bind, this, pure, Except.pure, Option.map_some]

example : (Arg.scalar (2:ℚ)).three = .ok (2, 2, 2) ∧
    (Arg.list [(1:ℚ), 2, 3]).three = .ok (1, 2, 3) ∧
    FirstCellClear (⟨0, 1, 2⟩ : Axis ℚ) ⟨0, 1, 3⟩ := by
  refine ⟨rfl, rfl, ?_⟩
  norm_num [FirstCellClear, Axis.dx]

/-- C34 is violated when the first cell of an axis is not clear: here output cell (0, 1, 0) does not meet the input
box but gets the value of the output cell computed before it. -/
theorem C34_violated :
    ∃ out, grid2grid3D 1 1 1 [(1:ℚ)] (.scalar 1) (.scalar 4) (.scalar 0) (.list [0, 0, -1/2])
        (some (.scalar 1)) [(-1, 0)] [(-1, 0)] [(-1, 0)] = .ok (some ⟨out, [4, 4, 4]⟩) ∧
      out[0*(4*4) + (1*4 + 0)]? = some 1 ∧
      exact3 ⟨0, 1, 1⟩ ⟨0, 1, 1⟩ ⟨0, 1, 1⟩ ⟨0, 1, 4⟩ ⟨0, 1, 4⟩ ⟨-1/2, 1, 4⟩ (fun _ _ _ => (1:ℚ)) 0 1 0 = 0 := by
  refine ⟨[0, 0, 1, 1] ++ (List.replicate 15 [1, 0, 1, 1]).flatten, ?_, rfl, ?_⟩
  · have : remap3d (mkAxis (0:ℚ) 1 1 0 1 4) (mkAxis 0 1 1 0 1 4) (mkAxis 0 1 1 (-1/2) 1 4) [1] [(-1, 0)] [(-1, 0)]
        [(-1, 0)] = some ([0, 0, 1, 1] ++ (List.replicate 15 [1, 0, 1, 1]).flatten) := by decide +kernel
    unfold grid2grid3D
    simp only [Arg.three, bind, Except.bind, pure, Except.pure, this, Option.map_some]
  · unfold exact3
    decide +kernel

/-! ## C35 -/

/-- C35: an output cell that does not meet the input box is zero (in three dimensions: when it
does not meet it along some axis). Missing: as for C31, see `C31_violated` and
`C33_violated`. -/
theorem C35_outside_partial :
    (∀ (A B : Axis K), A.Valid → B.Valid → FirstCellClear A B → ∀ (f1 : List K), f1.length = A.n →
      ∀ (buf0 : Buf K), ∃ out,
        grid2grid1D f1 A.size B.n A.lo B.lo (some B.size) buf0 = .ok (some out) ∧
        ∀ j < B.n, (B.edge (j+1) ≤ A.lo ∨ A.lo + A.size ≤ B.edge j) → out[j]? = some 0) ∧
    (∀ (Ax Ay Bx By : Axis K) (f : ℕ → ℕ → K) (i j : ℕ), Ax.Valid → Ay.Valid →
      (Bx.edge (i+1) ≤ Ax.lo ∨ Ax.lo + Ax.size ≤ Bx.edge i ∨
       By.edge (j+1) ≤ Ay.lo ∨ Ay.lo + Ay.size ≤ By.edge j) →
      exact2 Ax Ay Bx By f i j = 0) ∧
    (∀ (Ax Ay Az Bx By Bz : Axis K) (f : ℕ → ℕ → ℕ → K) (i j h : ℕ), Ax.Valid → Ay.Valid → Az.Valid →
      (Bx.edge (i+1) ≤ Ax.lo ∨ Ax.lo + Ax.size ≤ Bx.edge i ∨
       By.edge (j+1) ≤ Ay.lo ∨ Ay.lo + Ay.size ≤ By.edge j ∨
       Bz.edge (h+1) ≤ Az.lo ∨ Az.lo + Az.size ≤ Bz.edge h) →
      exact3 Ax Ay Az Bx By Bz f i j h = 0) := by
  have ez : ∀ (A B : Axis K) (j : ℕ), exact1 A B (fun _ => (0:K)) j = 0 := by
    intro A B j; simp [exact1]
  refine ⟨?_, ?_, ?_⟩
  · intro A B hA hB hc f1 hf buf0
    obtain ⟨lo, size, n⟩ := A
    simp only [] at hf
    subst hf
    obtain ⟨out, h1, h2, h3⟩ := C31_exact_partial f1 size lo B.lo B.size B.n hA hB hc buf0
    refine ⟨out, h1, fun j hj h => ?_⟩
    rw [h3 j hj, exact1_outside hA h]
  · intro Ax Ay Bx By f i j hAx hAy h
    rw [exact2_nested]
    rcases h with h | h | h
    · exact exact1_outside hAx (Or.inl h) _
    · exact exact1_outside hAx (Or.inr h) _
    · simp_rw [exact1_outside hAy h, ez]
  · intro Ax Ay Az Bx By Bz f i j h hAx hAy hAz hh
    rw [exact3_nested]
    rcases hh with hh | hh | hh | hh | hh
    · exact exact1_outside hAx (Or.inl hh) _
    · exact exact1_outside hAx (Or.inr hh) _
    · simp_rw [exact1_outside hAy (Or.inl hh), ez]
    · simp_rw [exact1_outside hAy (Or.inr hh), ez]
    · simp_rw [exact1_outside hAz hh, ez]

/-! ## C36 -/

/-- C36: with clear first cells no read is out of bounds, whatever the memory held (`some`), in
one, two and three dimensions.  Without clear first cells this still holds when the work
arrays hold valid entries on entry (one dimension).  Missing: other initial contents, see
`C36_violated`. -/
theorem C36_reads_partial :
    (∀ (A B : Axis K), A.Valid → B.Valid → ∀ (f1 : List K), f1.length = A.n → ∀ (buf0 : Buf K),
      (FirstCellClear A B ∨ ∀ e ∈ buf0, e.1 = -1 ∨ (0 ≤ e.1 ∧ e.1 < A.n)) →
      ∃ out, grid2grid1D f1 A.size B.n A.lo B.lo (some B.size) buf0 = .ok (some out)) ∧
    (∀ (Ax Ay Bx By : Axis K), Ax.Valid → Ay.Valid → Bx.Valid → By.Valid →
      FirstCellClear Ax Bx → FirstCellClear Ay By →
      ∀ (f1 : List K), f1.length = Ax.n*Ay.n → ∀ (xb0 yb0 : Buf K),
      ∃ out, remap2d (mkAxis Ax.lo Ax.size Ax.n Bx.lo Bx.size Bx.n)
        (mkAxis Ay.lo Ay.size Ay.n By.lo By.size By.n) f1 xb0 yb0 = some out) ∧
    (∀ (Ax Ay Az Bx By Bz : Axis K), Ax.Valid → Ay.Valid → Az.Valid → Bx.Valid → By.Valid → Bz.Valid →
      FirstCellClear Ax Bx → FirstCellClear Ay By → FirstCellClear Az Bz →
      ∀ (f1 : List K), f1.length = Ax.n*Ay.n*Az.n → ∀ (xb0 yb0 zb0 : Buf K),
      ∃ out, remap3d (mkAxis Ax.lo Ax.size Ax.n Bx.lo Bx.size Bx.n)
        (mkAxis Ay.lo Ay.size Ay.n By.lo By.size By.n)
        (mkAxis Az.lo Az.size Az.n Bz.lo Bz.size Bz.n) f1 xb0 yb0 zb0 = some out) := by
  refine ⟨?_, ?_, ?_⟩
  · intro A B hA hB f1 hf buf0 h
    unfold grid2grid1D
    rw [hf]
    rcases h with h | h
    · exact ⟨_, by simp only []; rw [show mkAxis A.lo A.size A.n B.lo B.size B.n = axisOf A B from rfl,
        remap1d_eq hA hB h f1 hf buf0]⟩
    · obtain ⟨s', vs, e, _⟩ := sweep_some (fun buf i =>
        let buf := (axisOf A B).pixel i buf
        (accum f1 0 buf).map fun v => (buf, v)) (InR A.n) (fun j s h => by
          have h1 := pixel_InR hA hB j s h
          exact ⟨_, _, by simp only []; rw [accum_eq f1 _ (by rw [hf]; exact h1)]; rfl, h1⟩)
        (List.range B.n) buf0 h
      refine ⟨vs, ?_⟩
      simp only []
      congr 1
      unfold remap1d
      have : (mkAxis A.lo A.size A.n B.lo B.size B.n).grid2 = B.n := rfl
      rw [this, show mkAxis A.lo A.size A.n B.lo B.size B.n = axisOf A B from rfl, e]; rfl
  · intro Ax Ay Bx By hAx hAy hBx hBy hx hy f1 hf xb0 yb0
    exact ⟨_, remap2d_eq hAx hBx hAy hBy hx hy f1 hf xb0 yb0⟩
  · intro Ax Ay Az Bx By Bz hAx hAy hAz hBx hBy hBz hx hy hz f1 hf xb0 yb0 zb0
    exact ⟨_, remap3d_eq hAx hBx hAy hBy hAz hBz hx hy hz f1 hf xb0 yb0 zb0⟩

/-- C36 is violated: with a first cell that is not clear and work memory that happens to hold an
index past the end, the kernel reads out of bounds. -/
theorem C36_violated (A B : Axis K) (hA : A.Valid) (hB : B.Valid) (hc : ¬ FirstCellClear A B)
    (f1 : List K) (hf : f1.length = A.n) :
    grid2grid1D f1 A.size B.n A.lo B.lo (some B.size) [((A.n : ℤ), 1)] = .ok none := by
  have hs : Stale A B 0 := by
    by_contra h; exact hc ((stale_iff hA hB).1 h)
  obtain ⟨m, hm⟩ : ∃ m, B.n = m + 1 := ⟨B.n - 1, by have := hB.2; omega⟩
  unfold grid2grid1D
  rw [hf]
  simp only []
  congr 1
  unfold remap1d
  have hg : (mkAxis A.lo A.size A.n B.lo B.size B.n).grid2 = m + 1 := hm
  rw [hg, List.range_eq_range', List.range'_succ,
    show mkAxis A.lo A.size A.n B.lo B.size B.n = axisOf A B from rfl]
  simp only [sweep, pixel_stale 0 hs]
  have : accum f1 0 [((A.n : ℤ), (1:K))] = none := by
    unfold accum
    rw [if_pos (by omega)]
    have : readAt f1 (A.n : ℤ) = none := by
      unfold readAt
      rw [if_pos (by omega)]
      simp [hf]
    rw [this]
  rw [this]; rfl

/-! ## C37 -/

/-- C37: the one-dimensional remapping is linear, keeps constants and bounds in the cells inside
the input box. -/
theorem C37_linear_bounded (A B : Axis K) (hA : A.Valid) (hB : B.Valid) (hc : FirstCellClear A B)
    (f g : List K) (hf : f.length = A.n) (hg : g.length = A.n) (a b : K) (buf1 buf2 buf3 : Buf K) :
    ∃ F G H, grid2grid1D f A.size B.n A.lo B.lo (some B.size) buf1 = .ok (some F) ∧
      grid2grid1D g A.size B.n A.lo B.lo (some B.size) buf2 = .ok (some G) ∧
      grid2grid1D (List.zipWith (fun x y => a*x + b*y) f g) A.size B.n A.lo B.lo (some B.size) buf3
        = .ok (some H) ∧
      H = List.zipWith (fun x y => a*x + b*y) F G ∧
      (∀ j < B.n, A.lo ≤ B.edge j → B.edge (j+1) ≤ A.lo + A.size →
        ∀ lo hi, (∀ x ∈ f, lo ≤ x ∧ x ≤ hi) → ∃ v, F[j]? = some v ∧ lo ≤ v ∧ v ≤ hi) := by
  have key : ∀ (l : List K), l.length = A.n → ∀ buf,
      grid2grid1D l A.size B.n A.lo B.lo (some B.size) buf
        = .ok (some ((List.range B.n).map fun (j : ℕ) => exact1 A B (fun k => l.getD k 0) j)) := by
    intro l hl buf
    unfold grid2grid1D
    rw [hl]
    simp only []
    rw [show mkAxis A.lo A.size A.n B.lo B.size B.n = axisOf A B from rfl,
      remap1d_eq hA hB hc l hl buf]
  refine ⟨_, _, _, key f hf _, key g hg _, key _ (by simp [hf, hg]) _, ?_, ?_⟩
  · rw [zipWith_map_same]
    apply List.map_congr_left
    intro j _
    rw [← exact1_linear]
    unfold exact1
    apply sum_congr rfl
    intro k hk
    rw [mem_range] at hk
    congr 1
    simp only [List.getD_eq_getElem?_getD, List.getElem?_zipWith]
    rw [List.getElem?_eq_getElem (by omega), List.getElem?_eq_getElem (by omega)]
    simp
  · intro j hj h1 h2 lo hi hb
    refine ⟨_, by rw [List.getElem?_map, List.getElem?_range hj]; rfl, ?_⟩
    apply exact1_bounds hA hB h1 h2
    intro k hk
    apply hb
    rw [List.getD_eq_getElem?_getD, List.getElem?_eq_getElem (by omega), Option.getD_some]
    exact List.getElem_mem _

/-- C37 in two and three dimensions, for the exact averages that C33 and C34 prove the code
computes: linear, and bounded by the data (so constants are kept) in cells inside the input
box. -/
theorem C37_linear_bounded_nd (Ax Ay Az Bx By Bz : Axis K) (hAx : Ax.Valid) (hAy : Ay.Valid)
    (hAz : Az.Valid) (hBx : Bx.Valid) (hBy : By.Valid) (hBz : Bz.Valid) (i j h : ℕ) :
    (∀ (f g : ℕ → ℕ → K) (a b : K), exact2 Ax Ay Bx By (fun k l => a*f k l + b*g k l) i j
      = a*exact2 Ax Ay Bx By f i j + b*exact2 Ax Ay Bx By g i j) ∧
    (∀ (f g : ℕ → ℕ → ℕ → K) (a b : K),
      exact3 Ax Ay Az Bx By Bz (fun k l m => a*f k l m + b*g k l m) i j h
      = a*exact3 Ax Ay Az Bx By Bz f i j h + b*exact3 Ax Ay Az Bx By Bz g i j h) ∧
    (Ax.lo ≤ Bx.edge i → Bx.edge (i+1) ≤ Ax.lo + Ax.size →
     Ay.lo ≤ By.edge j → By.edge (j+1) ≤ Ay.lo + Ay.size →
      (∀ (f : ℕ → ℕ → K) lo hi, (∀ k < Ax.n, ∀ l < Ay.n, lo ≤ f k l ∧ f k l ≤ hi) →
        lo ≤ exact2 Ax Ay Bx By f i j ∧ exact2 Ax Ay Bx By f i j ≤ hi) ∧
      (Az.lo ≤ Bz.edge h → Bz.edge (h+1) ≤ Az.lo + Az.size →
       ∀ (f : ℕ → ℕ → ℕ → K) lo hi, (∀ k < Ax.n, ∀ l < Ay.n, ∀ m < Az.n, lo ≤ f k l m ∧ f k l m ≤ hi) →
        lo ≤ exact3 Ax Ay Az Bx By Bz f i j h ∧ exact3 Ax Ay Az Bx By Bz f i j h ≤ hi)) := by
  refine ⟨?_, ?_, ?_⟩
  · intro f g a b
    simp_rw [exact2_nested, exact1_linear]
  · intro f g a b
    simp_rw [exact3_nested, exact1_linear]
  · intro x1 x2 y1 y2
    refine ⟨?_, ?_⟩
    · intro f lo hi hb
      rw [exact2_nested]
      exact exact1_bounds hAx hBx x1 x2 _ _ _ fun k hk =>
        exact1_bounds hAy hBy y1 y2 _ _ _ fun l hl => hb k hk l hl
    · intro z1 z2 f lo hi hb
      rw [exact3_nested]
      exact exact1_bounds hAx hBx x1 x2 _ _ _ fun k hk =>
        exact1_bounds hAy hBy y1 y2 _ _ _ fun l hl =>
          exact1_bounds hAz hBz z1 z2 _ _ _ fun m hm => hb k hk l hl m hm

/-! ## C38 -/

/-- C38: remapping onto the same grid returns the field. -/
theorem C38_identity (f1 : List K) (boxsize origin : K) (hb : 0 < boxsize) (hf : f1 ≠ [])
    (buf0 : Buf K) :
    grid2grid1D f1 boxsize f1.length origin origin (some boxsize) buf0 = .ok (some f1) := by
  have hA : (⟨origin, boxsize, f1.length⟩ : Axis K).Valid := ⟨hb, List.length_pos_of_ne_nil hf⟩
  obtain ⟨out, h1, h2, h3⟩ := C31_exact_partial f1 boxsize origin origin boxsize f1.length hA hA
    (first_cell_clear hA (Or.inl le_rfl) hA) buf0
  rw [h1]
  congr 2
  apply List.ext_getElem?
  intro j
  by_cases hj : j < f1.length
  · rw [h3 j hj, exact1_same hA _ hj, List.getElem?_eq_getElem hj, List.getD_eq_getElem?_getD,
      List.getElem?_eq_getElem hj, Option.getD_some]
  · rw [List.getElem?_eq_none (by omega), List.getElem?_eq_none (by omega)]

/-! ## C39 -/

/-- What holds of C39: in two and three dimensions a missing `boxsizeout` means the input box
size, scalars are the same as lists of equal entries, and in two dimensions the output has the
sizes in the list `ngridout`.  Missing: see `C39_violated`. -/
theorem C39_defaults_partial (f1 : List K) (xb yb zb : Buf K) (nx ny nz : ℕ) (b o oo : Arg K)
    (n : Arg ℕ) (s t : K) (m : ℕ) :
    grid2grid2D nx ny f1 b n o oo none xb yb = grid2grid2D nx ny f1 b n o oo (some b) xb yb ∧
    grid2grid3D nx ny nz f1 b n o oo none xb yb zb
      = grid2grid3D nx ny nz f1 b n o oo (some b) xb yb zb ∧
    grid2grid2D nx ny f1 (.scalar s) (.scalar m) (.scalar t) oo none xb yb
      = grid2grid2D nx ny f1 (.list [s, s]) (.list [m, m]) (.list [t, t]) oo none xb yb ∧
    (∀ n1 n2 g, grid2grid2D nx ny f1 b (.list [n1, n2]) o oo none xb yb = .ok (some g) →
      g.shape = [n1, n2]) := by
  refine ⟨?_, ?_, rfl, ?_⟩
  · unfold grid2grid2D
    cases hb : b.two with
    | error e => rfl
    | ok v => simp only [hb, bind, Except.bind]
  · unfold grid2grid3D
    cases hb : b.three with
    | error e => rfl
    | ok v => simp only [hb, bind, Except.bind]
  · intro n1 n2 g h
    unfold grid2grid2D at h
    cases hb : b.two with
    | error e => rw [hb] at h; cases h
    | ok v =>
      cases ho : o.two with
      | error e => rw [hb, ho] at h; cases h
      | ok v' =>
        cases hoo : oo.two with
        | error e => rw [hb, ho, hoo] at h; cases h
        | ok v'' =>
          rw [hb, ho, hoo] at h
          simp only [bind, Except.bind, Arg.two, pure, Except.pure, Except.ok.injEq] at h
          rw [Option.map_eq_some_iff] at h
          obtain ⟨d, _, rfl⟩ := h
          rfl

/-- C38 in two dimensions. -/
theorem C38_identity_2d (nx ny : ℕ) (f1 : List K) (hl : f1.length = nx*ny) (hnx : 0 < nx) (hny : 0 < ny)
    (bx by' ox oy : K) (hbx : 0 < bx) (hby : 0 < by') (xb0 yb0 : Buf K) :
    grid2grid2D nx ny f1 (.list [bx, by']) (.list [nx, ny]) (.list [ox, oy]) (.list [ox, oy]) none xb0 yb0
      = .ok (some ⟨f1, [nx, ny]⟩) := by
  have hX : (⟨ox, bx, nx⟩ : Axis K).Valid := ⟨hbx, hnx⟩
  have hY : (⟨oy, by', ny⟩ : Axis K).Valid := ⟨hby, hny⟩
  obtain ⟨out, h1, h2, h3, -⟩ := C33_exact_partial _ _ _ _ hX hY hX hY
    (first_cell_clear hX (Or.inl le_rfl) hX) (first_cell_clear hY (Or.inl le_rfl) hY) f1 hl
    (.list [bx, by']) (.list [ox, oy]) (.list [ox, oy]) (.list [bx, by']) (.list [nx, ny])
    rfl rfl rfl rfl rfl xb0 yb0
  refine Eq.trans (rfl) (h1.trans ?_)
  simp only at h2 h3
  congr 3
  apply List.ext_getElem?
  intro m
  by_cases hm : m < nx*ny
  · have e := Nat.div_add_mod' m ny
    have a1 : m / ny < nx := Nat.div_lt_of_lt_mul (by rw [mul_comm]; exact hm)
    have a2 : m % ny < ny := Nat.mod_lt _ hny
    have := h3 _ a1 _ a2
    rw [exact2_nested] at this
    rw [exact1_same hX _ a1, exact1_same hY _ a2, e] at this
    rw [this, List.getD_eq_getElem?_getD, List.getElem?_eq_getElem (by omega), Option.getD_some]
  · rw [List.getElem?_eq_none (by omega), List.getElem?_eq_none (by omega)]

/-- C38 in three dimensions; the output sizes have to be given as one number (see C39). -/
theorem C38_identity_3d (n : ℕ) (f1 : List K) (hl : f1.length = n*n*n) (hn : 0 < n)
    (bx by' bz ox oy oz : K) (hbx : 0 < bx) (hby : 0 < by') (hbz : 0 < bz) (xb0 yb0 zb0 : Buf K) :
    grid2grid3D n n n f1 (.list [bx, by', bz]) (.scalar n) (.list [ox, oy, oz]) (.list [ox, oy, oz]) none
      xb0 yb0 zb0 = .ok (some ⟨f1, [n, n, n]⟩) := by
  have hX : (⟨ox, bx, n⟩ : Axis K).Valid := ⟨hbx, hn⟩
  have hY : (⟨oy, by', n⟩ : Axis K).Valid := ⟨hby, hn⟩
  have hZ : (⟨oz, bz, n⟩ : Axis K).Valid := ⟨hbz, hn⟩
  obtain ⟨out, h1, h2, h3, -⟩ := C34_exact_partial _ _ _ _ _ _ hX hY hZ hX hY hZ
    (first_cell_clear hX (Or.inl le_rfl) hX) (first_cell_clear hY (Or.inl le_rfl) hY)
    (first_cell_clear hZ (Or.inl le_rfl) hZ) f1 hl
    (.list [bx, by', bz]) (.list [ox, oy, oz]) (.list [ox, oy, oz]) (.list [bx, by', bz]) n
    rfl rfl rfl rfl rfl rfl rfl xb0 yb0 zb0
  rw [(C39_defaults_partial f1 xb0 yb0 zb0 n n n (.list [bx, by', bz]) (.list [ox, oy, oz]) (.list [ox, oy, oz])
    (.scalar n) 0 0 0).2.1]
  refine h1.trans ?_
  simp only at h2 h3
  suffices h : out = f1 by rw [h]
  apply List.ext_getElem?
  intro m
  by_cases hm : m < n*n*n
  · have e := Nat.div_add_mod' m (n*n)
    have e' := Nat.div_add_mod' (m % (n*n)) n
    have hnn : 0 < n*n := Nat.mul_pos hn hn
    have a1 : m / (n*n) < n := Nat.div_lt_of_lt_mul hm
    have a0 : m % (n*n) < n*n := Nat.mod_lt _ hnn
    have a2 : m % (n*n) / n < n := Nat.div_lt_of_lt_mul a0
    have a3 : m % (n*n) % n < n := Nat.mod_lt _ hn
    have := h3 _ a1 _ a2 _ a3
    rw [exact3_nested] at this
    rw [exact1_same hX _ a1, exact1_same hY _ a2, exact1_same hZ _ a3, e', e] at this
    have e2 : (m / (n*n) * n + m % (n*n) / n) * n + m % (n*n) % n = m := by
      rw [add_mul, mul_assoc, add_assoc, e', e]
    rw [e2] at this
    rw [this, List.getD_eq_getElem?_getD, List.getElem?_eq_getElem (by omega), Option.getD_some]
  · have : n*(n*n) = n*n*n := by ring
    rw [List.getElem?_eq_none (by omega), List.getElem?_eq_none (by omega)]

/-- C39 is violated: `grid2grid1D` without `boxsizeout` always raises `TypeError`, and `grid2grid3D`
with a list of three sizes always raises (`ValueError` when the other arguments are well
formed). -/
theorem C39_violated (f1 : List K) (boxsize : K) (n : ℕ) (origin originout : K) (buf0 : Buf K)
    (nx ny nz n1 n2 n3 : ℕ) (s o oo : K) (yb zb : Buf K) :
    grid2grid1D f1 boxsize n origin originout none buf0 = .error .typeError ∧
    grid2grid3D nx ny nz f1 (.scalar s) (.list [n1, n2, n3]) (.scalar o) (.scalar oo) none buf0 yb zb
      = .error .valueError ∧
    (∀ (b o' oo' : Arg K) bo g, grid2grid3D nx ny nz f1 b (.list [n1, n2, n3]) o' oo' bo buf0 yb zb
      ≠ .ok g) := by
  refine ⟨rfl, rfl, ?_⟩
  intro b o' oo' bo g h
  unfold grid2grid3D at h
  cases hb : b.three with
  | error e => rw [hb] at h; cases h
  | ok v =>
    cases bo with
    | none =>
      cases ho : o'.three with
      | error e => rw [hb, ho] at h; cases h
      | ok v' =>
        cases hoo : oo'.three with
        | error e => rw [hb, ho, hoo] at h; cases h
        | ok v'' => rw [hb, ho, hoo] at h; cases h
    | some bo =>
      cases hbo : bo.three with
      | error e => rw [hb] at h; simp only [bind, Except.bind, hbo] at h; cases h
      | ok w =>
        cases ho : o'.three with
        | error e => rw [hb, ho] at h; simp only [bind, Except.bind, hbo] at h; cases h
        | ok v' =>
          cases hoo : oo'.three with
          | error e => rw [hb, ho, hoo] at h; simp only [bind, Except.bind, hbo] at h; cases h
          | ok v'' => rw [hb, ho, hoo] at h; simp only [bind, Except.bind, hbo] at h; cases h

end Magpie.Props
