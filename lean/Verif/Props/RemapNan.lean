import Verif.Proof.RemapNan
import Verif.Props.Remap

/-!
# Property C99: NaN values in grid to grid remapping

`cellOverlap`, `InsideCell` and `Reads` are in `Verif/Spec/Remap.lean`.
-/

set_option linter.unusedSimpArgs false
set_option linter.unusedVariables false
set_option linter.unusedSectionVars false

namespace Magpie.Props
open Magpie Magpie.Remap Magpie.Spec Finset

variable {K : Type} [Field K] [LinearOrder K] [IsStrictOrderedRing K] [FloorRing K]

theorem getD_none_iff (f1 : List (Option K)) {k : ℕ} (hk : k < f1.length) :
    f1.getD k none = none ↔ f1[k]? = some none := by
  rw [List.getD_eq_getElem?_getD, List.getElem?_eq_getElem hk]; simp

/-- C99, one dimension.  Output cell `j` is NaN exactly when one of the input cells that the program
reads for it is; every input cell that overlaps it is among them.  Otherwise it is the overlap
average of the finite values.
Missing: the full property asks for "overlaps" instead of `Reads`, see `C99_violated`; and the first
output cell as in C31. -/
theorem C99_nan_partial (f1 : List (Option K)) (boxsize origin originout bo : K) (ngridout : ℕ)
    (A B : Axis K) (eA : A = ⟨origin, boxsize, f1.length⟩) (eB : B = ⟨originout, bo, ngridout⟩)
    (hA : A.Valid) (hB : B.Valid) (hc : FirstCellClear A B) (buf0 : Buf K) :
    ∃ out, grid2grid1DN f1 boxsize ngridout origin originout (some bo) buf0 = .ok (some out) ∧
      out.length = ngridout ∧ ∀ j < ngridout,
        (out[j]? = some none ↔ ∃ k, f1[k]? = some none ∧ Reads A B j k) ∧
        ((∀ k, f1[k]? = some none → ¬ Reads A B j k) →
          out[j]? = some (some (exact1 A B (fun k => (f1.getD k none).getD 0) j))) := by
  subst eA eB
  have := remap1dN_eq hA hB hc f1 rfl buf0
  unfold axisOf at this
  refine ⟨_, by unfold grid2grid1DN; simp only []; rw [this], by simp, ?_⟩
  intro j hj
  rw [List.getElem?_map, List.getElem?_range hj]
  have e : (∃ k, f1[k]? = some none ∧ Reads (⟨origin, boxsize, f1.length⟩ : Axis K)
      ⟨originout, bo, ngridout⟩ j k) ↔ (∃ k < f1.length, Reads (⟨origin, boxsize, f1.length⟩ : Axis K)
      ⟨originout, bo, ngridout⟩ j k ∧ f1.getD k none = none) := by
    constructor
    · rintro ⟨k, h1, h2⟩
      have hk : k < f1.length := by
        by_contra hn
        rw [List.getElem?_eq_none (by omega)] at h1; cases h1
      exact ⟨k, hk, h2, (getD_none_iff f1 hk).mpr h1⟩
    · rintro ⟨k, hk, h2, h1⟩
      exact ⟨k, (getD_none_iff f1 hk).mp h1, h2⟩
  constructor
  · rw [e]
    simp only [Option.map_some, Option.some.injEq]
    exact nanIf_none
  · intro hn
    have hn' : ¬ ∃ k, f1[k]? = some none ∧ Reads (⟨origin, boxsize, f1.length⟩ : Axis K)
      ⟨originout, bo, ngridout⟩ j k := by rintro ⟨k, a, b⟩; exact hn k a b
    rw [e] at hn'
    simp only [Option.map_some, Option.some.injEq]
    exact nanIf_neg hn'

example : (⟨0, 1, 2⟩ : Axis ℚ).Valid ∧ (⟨0, 1, 3⟩ : Axis ℚ).Valid ∧
    FirstCellClear (⟨0, 1, 2⟩ : Axis ℚ) ⟨0, 1, 3⟩ ∧ Reads (⟨0, 1, 2⟩ : Axis ℚ) ⟨0, 1, 3⟩ 1 0 ∧
    ¬ Reads (⟨0, 1, 2⟩ : Axis ℚ) ⟨0, 1, 3⟩ 2 0 := by
  refine ⟨by norm_num [Axis.Valid], by norm_num [Axis.Valid], by norm_num [FirstCellClear, Axis.dx],
    Or.inl ?_, ?_⟩
  · norm_num [cellOverlap, overlap, Axis.edge, Axis.dx]
  · rintro (h | ⟨c, h, -⟩)
    · norm_num [cellOverlap, overlap, Axis.edge, Axis.dx] at h
    · omega

/-- A cell that is not inside one input cell reads only cells it overlaps; so for such cells
`C99_nan_partial` and its two and three dimensional forms are the full property. -/
theorem C99_reads_overlap {A B : Axis K} {j : ℕ} (h : ∀ c, ¬ InsideCell A B j c) (k : ℕ) :
    Reads A B j k ↔ 0 < cellOverlap A B k j := by
  constructor
  · rintro (h1 | ⟨c, -, h2⟩)
    · exact h1
    · exact absurd h2 (h c)
  · exact Or.inl

/-- Output cells at least as wide as the input cells are never inside one. -/
theorem C99_reads_wide {A B : Axis K} (hw : A.dx ≤ B.dx) (j k : ℕ) :
    Reads A B j k ↔ 0 < cellOverlap A B k j := by
  apply C99_reads_overlap
  rintro c ⟨h1, h2⟩
  rw [edge_succ] at h2
  rw [edge_succ] at h2
  linarith

example : (⟨0, 1, 4⟩ : Axis ℚ).dx ≤ (⟨0, 1, 3⟩ : Axis ℚ).dx := by norm_num [Axis.dx]

/-- C99, two dimensions.  Missing: as in one dimension, on each axis. -/
theorem C99_nan_2d_partial (Ax Ay Bx By : Axis K) (hAx : Ax.Valid) (hAy : Ay.Valid) (hBx : Bx.Valid)
    (hBy : By.Valid) (hx : FirstCellClear Ax Bx) (hy : FirstCellClear Ay By)
    (f1 : List (Option K)) (hf : f1.length = Ax.n*Ay.n)
    (boxsize origin originout : Arg K) (bo : Arg K) (ngridout : Arg ℕ)
    (e1 : boxsize.two = .ok (Ax.size, Ay.size)) (e2 : bo.two = .ok (Bx.size, By.size))
    (e3 : origin.two = .ok (Ax.lo, Ay.lo)) (e4 : originout.two = .ok (Bx.lo, By.lo))
    (e5 : ngridout.two = .ok (Bx.n, By.n)) (xb0 yb0 : Buf K) :
    ∃ out, grid2grid2DN Ax.n Ay.n f1 boxsize ngridout origin originout (some bo) xb0 yb0
        = .ok (some ⟨out, [Bx.n, By.n]⟩) ∧
      out.length = Bx.n*By.n ∧ ∀ i < Bx.n, ∀ j < By.n,
        (out[i*By.n + j]? = some none ↔ ∃ k < Ax.n, ∃ l < Ay.n,
          f1[k*Ay.n + l]? = some none ∧ Reads Ax Bx i k ∧ Reads Ay By j l) ∧
        ((∀ k < Ax.n, ∀ l < Ay.n, f1[k*Ay.n + l]? = some none →
            ¬ (Reads Ax Bx i k ∧ Reads Ay By j l)) →
          out[i*By.n + j]? = some (some
            (exact2 Ax Ay Bx By (fun k l => (f1.getD (k*Ay.n + l) none).getD 0) i j))) := by
  have := remap2dN_eq hAx hBx hAy hBy hx hy f1 hf xb0 yb0
  unfold axisOf at this
  refine ⟨(List.range Bx.n).flatMap fun (i : ℕ) => (List.range By.n).map fun (j : ℕ) =>
    cellN2 Ax Ay Bx By f1 i j, ?_, length_flat Bx.n By.n _ (fun i => by simp), ?_⟩
  · unfold grid2grid2DN
    simp only [e1, e2, e3, e4, e5, bind, Except.bind, pure, Except.pure, this, Option.map_some]
  intro i hi j hj
  rw [getElem?_flat Bx.n By.n _ (fun i => by simp) i j hi hj, List.getElem?_map,
    List.getElem?_range hj]
  have e : (∃ k < Ax.n, ∃ l < Ay.n, f1[k*Ay.n + l]? = some none ∧ Reads Ax Bx i k ∧ Reads Ay By j l) ↔
      (∃ k < Ax.n, Reads Ax Bx i k ∧ ∃ l < Ay.n, Reads Ay By j l ∧
        f1.getD (k*Ay.n + l) none = none) := by
    have hb : ∀ k l, k < Ax.n → l < Ay.n → k*Ay.n + l < f1.length := by
      intro k l hk hl
      rw [hf]
      nlinarith [Nat.mul_le_mul_right Ay.n (Nat.succ_le_of_lt hk)]
    constructor
    · rintro ⟨k, hk, l, hl, h1, h2, h3⟩
      exact ⟨k, hk, h2, l, hl, h3, (getD_none_iff f1 (hb k l hk hl)).mpr h1⟩
    · rintro ⟨k, hk, h2, l, hl, h3, h1⟩
      exact ⟨k, hk, l, hl, (getD_none_iff f1 (hb k l hk hl)).mp h1, h2, h3⟩
  simp only [Option.map_some, Option.some.injEq]
  constructor
  · rw [e]; exact nanIf_none
  · intro hn
    refine nanIf_neg ?_
    rw [← e]
    rintro ⟨k, hk, l, hl, h1, h2⟩
    exact hn k hk l hl h1 h2

example : (Arg.scalar (1:ℚ)).two = .ok (1, 1) ∧ (Arg.list [2, 3]).two = .ok (2, 3) := ⟨rfl, rfl⟩

/-- C99, three dimensions.  Missing: as in one dimension, on each axis. -/
theorem C99_nan_3d_partial (Ax Ay Az Bx By Bz : Axis K) (hAx : Ax.Valid) (hAy : Ay.Valid)
    (hAz : Az.Valid) (hBx : Bx.Valid) (hBy : By.Valid) (hBz : Bz.Valid)
    (hx : FirstCellClear Ax Bx) (hy : FirstCellClear Ay By) (hz : FirstCellClear Az Bz)
    (f1 : List (Option K)) (hf : f1.length = Ax.n*Ay.n*Az.n)
    (boxsize origin originout : Arg K) (bo : Arg K) (n : ℕ)
    (e1 : boxsize.three = .ok (Ax.size, Ay.size, Az.size))
    (e2 : bo.three = .ok (Bx.size, By.size, Bz.size))
    (e3 : origin.three = .ok (Ax.lo, Ay.lo, Az.lo)) (e4 : originout.three = .ok (Bx.lo, By.lo, Bz.lo))
    (nx : Bx.n = n) (ny : By.n = n) (nz : Bz.n = n) (xb0 yb0 zb0 : Buf K) :
    ∃ out, grid2grid3DN Ax.n Ay.n Az.n f1 boxsize (.scalar n) origin originout (some bo) xb0 yb0 zb0
        = .ok (some ⟨out, [n, n, n]⟩) ∧
      out.length = n*(n*n) ∧ ∀ i < n, ∀ j < n, ∀ h < n,
        (out[i*(n*n) + (j*n + h)]? = some none ↔ ∃ k < Ax.n, ∃ l < Ay.n, ∃ m < Az.n,
          f1[(k*Ay.n + l)*Az.n + m]? = some none ∧
            Reads Ax Bx i k ∧ Reads Ay By j l ∧ Reads Az Bz h m) ∧
        ((∀ k < Ax.n, ∀ l < Ay.n, ∀ m < Az.n, f1[(k*Ay.n + l)*Az.n + m]? = some none →
            ¬ (Reads Ax Bx i k ∧ Reads Ay By j l ∧ Reads Az Bz h m)) →
          out[i*(n*n) + (j*n + h)]? = some (some (exact3 Ax Ay Az Bx By Bz
            (fun k l m => (f1.getD ((k*Ay.n + l)*Az.n + m) none).getD 0) i j h))) := by
  have := remap3dN_eq hAx hBx hAy hBy hAz hBz hx hy hz f1 hf xb0 yb0 zb0
  unfold axisOf at this
  rw [nx, ny, nz] at this
  have hl : ∀ i, ((List.range n).flatMap fun (j : ℕ) => (List.range n).map fun (h : ℕ) =>
      cellN3 Ax Ay Az Bx By Bz f1 i j h).length = n*n :=
    fun i => length_flat n n _ (fun j => by simp)
  refine ⟨(List.range n).flatMap fun (i : ℕ) => (List.range n).flatMap fun (j : ℕ) =>
    (List.range n).map fun (h : ℕ) => cellN3 Ax Ay Az Bx By Bz f1 i j h, ?_,
    length_flat n (n*n) _ hl, ?_⟩
  · unfold grid2grid3DN
    simp only [e1, e2, e3, e4, bind, Except.bind, pure, Except.pure, this, Option.map_some]
  intro i hi j hj h hh
  have hjh : j*n + h < n*n := by nlinarith [Nat.mul_le_mul_right n (Nat.succ_le_of_lt hj)]
  rw [getElem?_flat n (n*n) _ hl i (j*n + h) hi hjh,
    getElem?_flat n n _ (fun j => by simp) j h hj hh, List.getElem?_map, List.getElem?_range hh]
  have e : (∃ k < Ax.n, ∃ l < Ay.n, ∃ m < Az.n, f1[(k*Ay.n + l)*Az.n + m]? = some none ∧
        Reads Ax Bx i k ∧ Reads Ay By j l ∧ Reads Az Bz h m) ↔
      (∃ k < Ax.n, Reads Ax Bx i k ∧ ∃ l < Ay.n, Reads Ay By j l ∧ ∃ m < Az.n, Reads Az Bz h m ∧
        f1.getD ((k*Ay.n + l)*Az.n + m) none = none) := by
    have hb : ∀ k l m, k < Ax.n → l < Ay.n → m < Az.n → (k*Ay.n + l)*Az.n + m < f1.length := by
      intro k l m hk hl hm
      rw [hf]
      have : k*Ay.n + l + 1 ≤ Ax.n*Ay.n := by
        nlinarith [Nat.mul_le_mul_right Ay.n (Nat.succ_le_of_lt hk)]
      nlinarith [Nat.mul_le_mul_right Az.n this]
    constructor
    · rintro ⟨k, hk, l, hl, m, hm, h1, h2, h3, h4⟩
      exact ⟨k, hk, h2, l, hl, h3, m, hm, h4, (getD_none_iff f1 (hb k l m hk hl hm)).mpr h1⟩
    · rintro ⟨k, hk, h2, l, hl, h3, m, hm, h4, h1⟩
      exact ⟨k, hk, l, hl, m, hm, (getD_none_iff f1 (hb k l m hk hl hm)).mp h1, h2, h3, h4⟩
  simp only [Option.map_some, Option.some.injEq]
  constructor
  · rw [e]; exact nanIf_none
  · intro hn
    refine nanIf_neg ?_
    rw [← e]
    rintro ⟨k, hk, l, hl, m, hm, h1, h2⟩
    exact hn k hk l hl m hm h1 h2

/-- C99 is violated: halving two cells of which the second is NaN makes the first output cell NaN,
although it does not meet the NaN cell; the second output cell, which is nearer, stays finite. -/
theorem C99_violated (buf0 : Buf ℚ) :
    ∃ out, grid2grid1DN [some (5:ℚ), none] 1 4 0 0 (some 1) buf0 = .ok (some out) ∧
      out[0]? = some none ∧ out[1]? = some (some 5) ∧
      cellOverlap (⟨0, 1, 2⟩ : Axis ℚ) ⟨0, 1, 4⟩ 1 0 = 0 := by
  have hA : (⟨0, 1, 2⟩ : Axis ℚ).Valid := by norm_num [Axis.Valid]
  have hB : (⟨0, 1, 4⟩ : Axis ℚ).Valid := by norm_num [Axis.Valid]
  obtain ⟨out, h1, h2, h3⟩ := C99_nan_partial [some (5:ℚ), none] 1 0 0 1 4 ⟨0, 1, 2⟩ ⟨0, 1, 4⟩ rfl rfl
    hA hB (by norm_num [FirstCellClear, Axis.dx]) buf0
  refine ⟨out, h1, ?_, ?_, ?_⟩
  · rw [(h3 0 (by norm_num)).1]
    exact ⟨1, rfl, Or.inr ⟨0, rfl, by norm_num [Axis.edge, Axis.dx], by norm_num [Axis.edge, Axis.dx]⟩⟩
  · rw [(h3 1 (by norm_num)).2]
    · norm_num [exact1, Finset.sum_range_succ, cellFrac, cellOverlap, overlap, Axis.edge, Axis.dx]
    · intro k hk
      have : k = 1 := by
        rcases k with _ | _ | k
        · simp at hk
        · rfl
        · simp at hk
      subst this
      rintro (h | ⟨c, hc, -, h⟩)
      · norm_num [cellOverlap, overlap, Axis.edge, Axis.dx] at h
      · have : c = 0 := by omega
        subst this
        norm_num [Axis.edge, Axis.dx] at h
  · norm_num [cellOverlap, overlap, Axis.edge, Axis.dx]

/-- On finite input the program with NaN is the program without. -/
theorem C99_finite (f1 : List K) (boxsize origin originout : K) (bo : Option K) (ngridout : ℕ)
    (buf0 : Buf K) :
    grid2grid1DN (f1.map some) boxsize ngridout origin originout bo buf0
      = (grid2grid1D f1 boxsize ngridout origin originout bo buf0).map
          (Option.map (List.map some)) := by
  have acc : ∀ (b : Buf K) (a : K), accumN (f1.map some) (some a) b = (accum f1 a b).map some := by
    intro b
    induction b with
    | nil => intro a; rfl
    | cons e b ih =>
      intro a
      obtain ⟨p, w⟩ := e
      unfold accumN accum
      by_cases hp : p ≠ -1
      · rw [if_pos hp, if_pos hp]
        unfold readAt
        by_cases h0 : 0 ≤ p
        · rw [if_pos h0, if_pos h0, List.getElem?_map]
          rcases f1[p.toNat]? with _ | v
          · rfl
          · simp only [Option.map_some, fmaN]; exact ih _
        · rw [if_neg h0, if_neg h0]; rfl
      · rw [if_neg hp, if_neg hp]; exact ih a
  have sw : ∀ (l : List ℕ) (a : AxisArgs K) (s : Buf K), sweep (fun buf i =>
      let buf := a.pixel i buf
      (accumN (f1.map some) (some 0) buf).map fun v => (buf, v)) s l
      = (sweep (fun buf i =>
      let buf := a.pixel i buf
      (accum f1 0 buf).map fun v => (buf, v)) s l).map fun r => (r.1, r.2.map some) := by
    intro l a
    induction l with
    | nil => intro s; rfl
    | cons i l ih =>
      intro s
      simp only [sweep]
      rw [acc]
      rcases accum f1 0 (a.pixel i s) with _ | v
      · rfl
      · simp only [Option.map_some]
        rw [ih]
        rcases sweep _ (a.pixel i s) l with _ | r <;> rfl
  unfold grid2grid1DN grid2grid1D
  rcases bo with _ | bo
  · rfl
  · simp only [List.length_map]
    unfold remap1dN remap1d
    rw [sw]
    simp only [Except.map, Option.map_map]
    rfl

end Magpie.Props
