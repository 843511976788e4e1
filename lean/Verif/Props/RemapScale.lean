import Verif.Proof.RemapScale
import Verif.Props.Remap

/-!
# Remapping between grids that fit into each other, and symmetries of the remapping
-/

set_option linter.unusedSimpArgs false
set_option linter.unusedVariables false
set_option linter.unusedSectionVars false

namespace Magpie.Props
open Magpie Magpie.Remap Magpie.Spec Finset

variable {K : Type} [Field K] [LinearOrder K] [IsStrictOrderedRing K] [FloorRing K]

theorem remap1_list {A B : Axis K} (hA : A.Valid) (hB : B.Valid) (hc : FirstCellClear A B) (f1 : List K)
    (hl : f1.length = A.n) (buf0 : Buf K) :
    grid2grid1D f1 A.size B.n A.lo B.lo (some B.size) buf0
      = .ok (some ((List.range B.n).map fun (j : ℕ) => exact1 A B (fun k => f1.getD k 0) j)) := by
  unfold grid2grid1D
  rw [hl]
  simp only []
  rw [show mkAxis A.lo A.size A.n B.lo B.size B.n = axisOf A B from rfl, remap1d_eq hA hB hc f1 hl]

/-! ## Coarsening and refining -/

/-- `grid2grid1D` onto `r` times fewer cells of the same box: the means of `r` consecutive values. -/
theorem C110_coarsen (f1 : List K) (n r : ℕ) (hn : 0 < n) (hr : 0 < r) (hl : f1.length = n*r) (boxsize origin : K)
    (hb : 0 < boxsize) (buf0 : Buf K) :
    grid2grid1D f1 boxsize n origin origin (some boxsize) buf0
      = .ok (some ((List.range n).map fun (j : ℕ) => (∑ i ∈ range r, f1.getD (j*r + i) 0)/(r:K))) := by
  have hA : (⟨origin, boxsize, n*r⟩ : Axis K).Valid := ⟨hb, Nat.mul_pos hn hr⟩
  have hB : (⟨origin, boxsize, n⟩ : Axis K).Valid := ⟨hb, hn⟩
  refine (remap1_list hA hB (first_cell_clear hA (.inl le_rfl) hB) f1 hl buf0).trans ?_
  congr 2
  refine List.map_congr_left fun j hj => ?_
  exact exact1_coarsen hb hn hr _ (List.mem_range.mp hj)

example : grid2grid1D [(1:ℚ), 3, 5, 11, 0, 2] 6 3 (-2) (-2) (some 6) [] = .ok (some [2, 8, 1]) := by
  rw [C110_coarsen _ 3 2 (by norm_num) (by norm_num) rfl _ _ (by norm_num)]
  norm_num [List.range_succ, Finset.sum_range_succ]

/-- Onto `r` times more cells of the same box: output value `j` is input value `j / r` (whole division). -/
theorem C110_refine (f1 : List K) (r : ℕ) (hf : f1 ≠ []) (hr : 0 < r) (boxsize origin : K) (hb : 0 < boxsize)
    (buf0 : Buf K) :
    grid2grid1D f1 boxsize (f1.length*r) origin origin (some boxsize) buf0
      = .ok (some ((List.range (f1.length*r)).map fun (j : ℕ) => f1.getD (j / r) 0)) := by
  have hn : 0 < f1.length := List.length_pos_of_ne_nil hf
  have hA : (⟨origin, boxsize, f1.length⟩ : Axis K).Valid := ⟨hb, hn⟩
  have hB : (⟨origin, boxsize, f1.length*r⟩ : Axis K).Valid := ⟨hb, Nat.mul_pos hn hr⟩
  refine (remap1_list hA hB (first_cell_clear hA (.inl le_rfl) hB) f1 rfl buf0).trans ?_
  congr 2
  refine List.map_congr_left fun j hj => ?_
  exact exact1_refine hb hn hr _ (List.mem_range.mp hj)

example : grid2grid1D [(1:ℚ), 3, 5] 6 6 (-2) (-2) (some 6) [] = .ok (some [1, 1, 3, 3, 5, 5]) :=
  (C110_refine [(1:ℚ), 3, 5] 2 (by simp) (by norm_num) 6 (-2) (by norm_num) []).trans (by
    norm_num [List.range_succ])

/-- Refining and coarsening back loses nothing. -/
theorem C110_roundtrip (f1 : List K) (r : ℕ) (hf : f1 ≠ []) (hr : 0 < r) (boxsize origin : K) (hb : 0 < boxsize)
    (buf0 buf1 : Buf K) :
    ∃ fine, grid2grid1D f1 boxsize (f1.length*r) origin origin (some boxsize) buf0 = .ok (some fine)
      ∧ grid2grid1D fine boxsize f1.length origin origin (some boxsize) buf1 = .ok (some f1) := by
  have hn : 0 < f1.length := List.length_pos_of_ne_nil hf
  have hr' : (r:K) ≠ 0 := by positivity
  refine ⟨_, C110_refine f1 r hf hr boxsize origin hb buf0, ?_⟩
  rw [C110_coarsen _ f1.length r hn hr (by simp) boxsize origin hb]
  congr 2
  apply List.ext_getElem?
  intro j
  by_cases hj : j < f1.length
  · rw [List.getElem?_map, List.getElem?_range hj, Option.map_some, List.getElem?_eq_getElem hj]
    congr 1
    rw [sum_congr rfl (g := fun _ => f1[j])]
    · rw [sum_const, card_range, nsmul_eq_mul, mul_comm, mul_div_assoc, div_self hr', mul_one]
    · intro i hi
      have hi := mem_range.mp hi
      have : j*r + i < f1.length*r := by
        have : (j+1)*r ≤ f1.length*r := Nat.mul_le_mul_right r hj
        rw [add_mul, one_mul] at this; omega
      rw [List.getD_eq_getElem?_getD, List.getElem?_map, List.getElem?_range this, Option.map_some, Option.getD_some]
      have e : (j*r + i)/r = j := by
        rw [mul_comm, Nat.mul_add_div hr, Nat.div_eq_of_lt hi, add_zero]
      rw [e, List.getD_eq_getElem?_getD, List.getElem?_eq_getElem hj, Option.getD_some]
  · rw [List.getElem?_eq_none (by simp; omega), List.getElem?_eq_none (by omega)]

/-- Coarsening in two dimensions, by a factor per axis: means over blocks. -/
theorem C110_coarsen_2d (nx ny rx ry : ℕ) (hnx : 0 < nx) (hny : 0 < ny) (hrx : 0 < rx) (hry : 0 < ry) (f1 : List K)
    (hl : f1.length = (nx*rx)*(ny*ry)) (bx by' ox oy : K) (hbx : 0 < bx) (hby : 0 < by') (xb0 yb0 : Buf K) :
    ∃ out, grid2grid2D (nx*rx) (ny*ry) f1 (.list [bx, by']) (.list [nx, ny]) (.list [ox, oy]) (.list [ox, oy])
        (some (.list [bx, by'])) xb0 yb0 = .ok (some ⟨out, [nx, ny]⟩)
      ∧ ∀ i < nx, ∀ j < ny, out[i*ny + j]? = some
          ((∑ a ∈ range rx, ∑ b ∈ range ry, f1.getD ((i*rx + a)*(ny*ry) + (j*ry + b)) 0)/((rx:K)*ry)) := by
  have hX : (⟨ox, bx, nx*rx⟩ : Axis K).Valid := ⟨hbx, Nat.mul_pos hnx hrx⟩
  have hY : (⟨oy, by', ny*ry⟩ : Axis K).Valid := ⟨hby, Nat.mul_pos hny hry⟩
  have gX : (⟨ox, bx, nx⟩ : Axis K).Valid := ⟨hbx, hnx⟩
  have gY : (⟨oy, by', ny⟩ : Axis K).Valid := ⟨hby, hny⟩
  obtain ⟨out, h1, h2, h3, -⟩ := C33_exact_partial _ _ _ _ hX hY gX gY
    (first_cell_clear hX (.inl le_rfl) gX) (first_cell_clear hY (.inl le_rfl) gY) f1 hl
    (.list [bx, by']) (.list [ox, oy]) (.list [ox, oy]) (.list [bx, by']) (.list [nx, ny])
    rfl rfl rfl rfl rfl xb0 yb0
  refine ⟨out, h1, fun i hi j hj => ?_⟩
  rw [h3 i hi j hj, exact2_nested, exact1_coarsen hbx hnx hrx _ hi]
  congr 1
  simp only [exact1_coarsen hby hny hry _ hj]
  rw [← sum_div, div_div, mul_comm (ry:K)]

/-- Refining in two dimensions. -/
theorem C110_refine_2d (nx ny rx ry : ℕ) (hnx : 0 < nx) (hny : 0 < ny) (hrx : 0 < rx) (hry : 0 < ry) (f1 : List K)
    (hl : f1.length = nx*ny) (bx by' ox oy : K) (hbx : 0 < bx) (hby : 0 < by') (xb0 yb0 : Buf K) :
    ∃ out, grid2grid2D nx ny f1 (.list [bx, by']) (.list [nx*rx, ny*ry]) (.list [ox, oy]) (.list [ox, oy])
        (some (.list [bx, by'])) xb0 yb0 = .ok (some ⟨out, [nx*rx, ny*ry]⟩)
      ∧ ∀ i < nx*rx, ∀ j < ny*ry, out[i*(ny*ry) + j]? = some (f1.getD (i/rx*ny + j/ry) 0) := by
  have gX : (⟨ox, bx, nx*rx⟩ : Axis K).Valid := ⟨hbx, Nat.mul_pos hnx hrx⟩
  have gY : (⟨oy, by', ny*ry⟩ : Axis K).Valid := ⟨hby, Nat.mul_pos hny hry⟩
  have hX : (⟨ox, bx, nx⟩ : Axis K).Valid := ⟨hbx, hnx⟩
  have hY : (⟨oy, by', ny⟩ : Axis K).Valid := ⟨hby, hny⟩
  obtain ⟨out, h1, h2, h3, -⟩ := C33_exact_partial _ _ _ _ hX hY gX gY
    (first_cell_clear hX (.inl le_rfl) gX) (first_cell_clear hY (.inl le_rfl) gY) f1 hl
    (.list [bx, by']) (.list [ox, oy]) (.list [ox, oy]) (.list [bx, by']) (.list [nx*rx, ny*ry])
    rfl rfl rfl rfl rfl xb0 yb0
  refine ⟨out, h1, fun i hi j hj => ?_⟩
  rw [h3 i hi j hj, exact2_nested, exact1_refine hbx hnx hrx _ hi, exact1_refine hby hny hry _ hj]

/-- Coarsening in three dimensions (the number of output cells is the same for all axes, see C39). -/
theorem C110_coarsen_3d (n rx ry rz : ℕ) (hn : 0 < n) (hrx : 0 < rx) (hry : 0 < ry) (hrz : 0 < rz) (f1 : List K)
    (hl : f1.length = (n*rx)*(n*ry)*(n*rz)) (bx by' bz ox oy oz : K) (hbx : 0 < bx) (hby : 0 < by') (hbz : 0 < bz)
    (xb0 yb0 zb0 : Buf K) :
    ∃ out, grid2grid3D (n*rx) (n*ry) (n*rz) f1 (.list [bx, by', bz]) (.scalar n) (.list [ox, oy, oz])
        (.list [ox, oy, oz]) (some (.list [bx, by', bz])) xb0 yb0 zb0 = .ok (some ⟨out, [n, n, n]⟩)
      ∧ ∀ i < n, ∀ j < n, ∀ h < n, out[i*(n*n) + (j*n + h)]? = some
          ((∑ a ∈ range rx, ∑ b ∈ range ry, ∑ c ∈ range rz,
            f1.getD (((i*rx + a)*(n*ry) + (j*ry + b))*(n*rz) + (h*rz + c)) 0)/((rx:K)*ry*rz)) := by
  have hX : (⟨ox, bx, n*rx⟩ : Axis K).Valid := ⟨hbx, Nat.mul_pos hn hrx⟩
  have hY : (⟨oy, by', n*ry⟩ : Axis K).Valid := ⟨hby, Nat.mul_pos hn hry⟩
  have hZ : (⟨oz, bz, n*rz⟩ : Axis K).Valid := ⟨hbz, Nat.mul_pos hn hrz⟩
  have gX : (⟨ox, bx, n⟩ : Axis K).Valid := ⟨hbx, hn⟩
  have gY : (⟨oy, by', n⟩ : Axis K).Valid := ⟨hby, hn⟩
  have gZ : (⟨oz, bz, n⟩ : Axis K).Valid := ⟨hbz, hn⟩
  obtain ⟨out, h1, h2, h3, -⟩ := C34_exact_partial _ _ _ _ _ _ hX hY hZ gX gY gZ
    (first_cell_clear hX (.inl le_rfl) gX) (first_cell_clear hY (.inl le_rfl) gY)
    (first_cell_clear hZ (.inl le_rfl) gZ) f1 hl
    (.list [bx, by', bz]) (.list [ox, oy, oz]) (.list [ox, oy, oz]) (.list [bx, by', bz]) n
    rfl rfl rfl rfl rfl rfl rfl xb0 yb0 zb0
  refine ⟨out, h1, fun i hi j hj h hh => ?_⟩
  rw [h3 i hi j hj h hh, exact3_nested, exact1_coarsen hbx hn hrx _ hi]
  congr 1
  simp only [exact1_coarsen hby hn hry _ hj, exact1_coarsen hbz hn hrz _ hh, ← sum_div]
  rw [div_div, div_div]
  congr 1; ring

/-- Refining in three dimensions a cube of `n^3` cells. -/
theorem C110_refine_3d (n r : ℕ) (hn : 0 < n) (hr : 0 < r) (f1 : List K) (hl : f1.length = n*n*n)
    (bx by' bz ox oy oz : K) (hbx : 0 < bx) (hby : 0 < by') (hbz : 0 < bz) (xb0 yb0 zb0 : Buf K) :
    ∃ out, grid2grid3D n n n f1 (.list [bx, by', bz]) (.scalar (n*r)) (.list [ox, oy, oz])
        (.list [ox, oy, oz]) (some (.list [bx, by', bz])) xb0 yb0 zb0 = .ok (some ⟨out, [n*r, n*r, n*r]⟩)
      ∧ ∀ i < n*r, ∀ j < n*r, ∀ h < n*r, out[i*((n*r)*(n*r)) + (j*(n*r) + h)]? = some
          (f1.getD ((i/r*n + j/r)*n + h/r) 0) := by
  have gX : (⟨ox, bx, n*r⟩ : Axis K).Valid := ⟨hbx, Nat.mul_pos hn hr⟩
  have gY : (⟨oy, by', n*r⟩ : Axis K).Valid := ⟨hby, Nat.mul_pos hn hr⟩
  have gZ : (⟨oz, bz, n*r⟩ : Axis K).Valid := ⟨hbz, Nat.mul_pos hn hr⟩
  have hX : (⟨ox, bx, n⟩ : Axis K).Valid := ⟨hbx, hn⟩
  have hY : (⟨oy, by', n⟩ : Axis K).Valid := ⟨hby, hn⟩
  have hZ : (⟨oz, bz, n⟩ : Axis K).Valid := ⟨hbz, hn⟩
  obtain ⟨out, h1, h2, h3, -⟩ := C34_exact_partial _ _ _ _ _ _ hX hY hZ gX gY gZ
    (first_cell_clear hX (.inl le_rfl) gX) (first_cell_clear hY (.inl le_rfl) gY)
    (first_cell_clear hZ (.inl le_rfl) gZ) f1 hl
    (.list [bx, by', bz]) (.list [ox, oy, oz]) (.list [ox, oy, oz]) (.list [bx, by', bz]) (n*r)
    rfl rfl rfl rfl rfl rfl rfl xb0 yb0 zb0
  refine ⟨out, h1, fun i hi j hj h hh => ?_⟩
  rw [h3 i hi j hj h hh, exact3_nested, exact1_refine hbx hn hr _ hi, exact1_refine hby hn hr _ hj,
    exact1_refine hbz hn hr _ hh]

/-- Cutting out a part of the box, or padding it, by whole cells: output cell `j` is input cell `j + s` if there is
one and `0` if not. -/
theorem C110_crop (f1 : List K) (hf : f1 ≠ []) (boxsize origin : K) (hb : 0 < boxsize) (n : ℕ) (hn : 0 < n) (s : ℤ)
    (buf0 : Buf K) :
    grid2grid1D f1 boxsize n origin (origin + s*(boxsize/f1.length)) (some (n*(boxsize/f1.length))) buf0
      = .ok (some ((List.range n).map fun (j : ℕ) =>
          if 0 ≤ (j:ℤ) + s ∧ (j:ℤ) + s < f1.length then f1.getD ((j:ℤ) + s).toNat 0 else 0)) := by
  have hl : 0 < f1.length := List.length_pos_of_ne_nil hf
  have hl' : (0:K) < f1.length := by exact_mod_cast hl
  have hn' : (0:K) < n := by exact_mod_cast hn
  have hA : (⟨origin, boxsize, f1.length⟩ : Axis K).Valid := ⟨hb, hl⟩
  have hB : (⟨origin + s*(boxsize/f1.length), n*(boxsize/f1.length), n⟩ : Axis K).Valid :=
    ⟨by positivity, hn⟩
  have hdx : Axis.dx (⟨origin + s*(boxsize/f1.length), n*(boxsize/f1.length), n⟩ : Axis K)
      = Axis.dx (⟨origin, boxsize, f1.length⟩ : Axis K) := by
    unfold Axis.dx; simp only; field_simp
  refine (remap1_list hA hB (first_cell_clear hA (.inr (.inr (.inl hdx.ge))) hB) f1 rfl buf0).trans ?_
  congr 2
  refine List.map_congr_left fun j hj => ?_
  exact exact1_crop hA hdx s rfl _ j

example : grid2grid1D [(1:ℚ), 3, 5] 3 4 0 (-1) (some 4) [] = .ok (some [0, 1, 3, 5]) := by
  have := C110_crop [(1:ℚ), 3, 5] (by simp) 3 0 (by norm_num) 4 (by norm_num) (-1) []
  norm_num [List.range_succ] at this
  exact this

/-! ## Symmetries -/

/-- The result does not depend on the unit of length or on where the origin is. -/
theorem C111_affine (f1 : List K) (A B : Axis K) (hA : A.Valid) (hB : B.Valid) (hl : f1.length = A.n)
    (hc : FirstCellClear A B) (s c : K) (hs : 0 < s) (buf0 buf1 : Buf K) :
    grid2grid1D f1 (s*A.size) B.n (c + s*A.lo) (c + s*B.lo) (some (s*B.size)) buf0
      = grid2grid1D f1 A.size B.n A.lo B.lo (some B.size) buf1 := by
  have hA' : (⟨c + s*A.lo, s*A.size, A.n⟩ : Axis K).Valid := ⟨mul_pos hs hA.1, hA.2⟩
  have hB' : (⟨c + s*B.lo, s*B.size, B.n⟩ : Axis K).Valid := ⟨mul_pos hs hB.1, hB.2⟩
  rw [remap1_list hA hB hc f1 hl buf1]
  refine (remap1_list hA' hB' ((clear_affine hs c).mpr hc) f1 hl buf0).trans ?_
  congr 2
  refine List.map_congr_left fun j hj => ?_
  unfold exact1
  exact sum_congr rfl fun k _ => by rw [cellFrac_affine hs c]

/-- Reversing the field and both boxes reverses the result. -/
theorem C111_mirror (f1 : List K) (A B : Axis K) (hA : A.Valid) (hB : B.Valid) (hl : f1.length = A.n)
    (hc : FirstCellClear A B)
    (hc' : FirstCellClear (⟨-(A.lo + A.size), A.size, A.n⟩ : Axis K) ⟨-(B.lo + B.size), B.size, B.n⟩)
    (buf0 buf1 : Buf K) :
    ∃ out, grid2grid1D f1 A.size B.n A.lo B.lo (some B.size) buf0 = .ok (some out)
      ∧ grid2grid1D f1.reverse A.size B.n (-(A.lo + A.size)) (-(B.lo + B.size)) (some B.size) buf1
          = .ok (some out.reverse) := by
  have hA' : (⟨-(A.lo + A.size), A.size, A.n⟩ : Axis K).Valid := ⟨hA.1, hA.2⟩
  have hB' : (⟨-(B.lo + B.size), B.size, B.n⟩ : Axis K).Valid := ⟨hB.1, hB.2⟩
  refine ⟨_, remap1_list hA hB hc f1 hl buf0, ?_⟩
  refine (remap1_list hA' hB' hc' f1.reverse (by simpa using hl) buf1).trans ?_
  congr 2
  apply List.ext_getElem?
  intro j
  by_cases hj : j < B.n
  · rw [List.getElem?_reverse (by simpa using hj)]
    simp only [List.length_map, List.length_range]
    rw [List.getElem?_map, List.getElem?_map, List.getElem?_range hj, List.getElem?_range (by omega), Option.map_some,
      Option.map_some]
    congr 1
    rw [← exact1_mirror hA hB _ (show B.n - 1 - j < B.n by omega)]
    have : B.n - 1 - (B.n - 1 - j) = j := by omega
    rw [this]
    unfold exact1
    refine sum_congr rfl fun k hk => ?_
    have hk := mem_range.mp hk
    simp only at hk
    congr 1
    beta_reduce
    rw [List.getD_eq_getElem?_getD, List.getElem?_reverse (by omega), List.getD_eq_getElem?_getD, hl]
  · rw [List.getElem?_eq_none (by simp; omega), List.getElem?_eq_none (by simp; omega)]

/-- The hypotheses of the symmetries: grids of 4 and 3 cells that overlap partly. -/
example : FirstCellClear (⟨0, 4, 4⟩ : Axis ℚ) ⟨1/2, 5, 3⟩
    ∧ FirstCellClear (⟨-(0 + 4), 4, 4⟩ : Axis ℚ) ⟨-(1/2 + 5), 5, 3⟩ := by
  constructor
  · rintro ⟨-, h⟩; norm_num [Axis.dx] at h
  · rintro ⟨h, -⟩; norm_num [Axis.dx] at h

/-- Swapping the axes of the field and of both boxes swaps the axes of the result. -/
theorem C111_transpose (Ax Ay Bx By : Axis K) (hAx : Ax.Valid) (hAy : Ay.Valid) (hBx : Bx.Valid) (hBy : By.Valid)
    (hx : FirstCellClear Ax Bx) (hy : FirstCellClear Ay By) (f1 f1t : List K) (hf : f1.length = Ax.n*Ay.n)
    (hft : f1t.length = Ay.n*Ax.n) (ht : ∀ k < Ax.n, ∀ l < Ay.n, f1t[l*Ax.n + k]? = f1[k*Ay.n + l]?)
    (xb0 yb0 xb1 yb1 : Buf K) :
    ∃ out outt, grid2grid2D Ax.n Ay.n f1 (.list [Ax.size, Ay.size]) (.list [Bx.n, By.n]) (.list [Ax.lo, Ay.lo])
        (.list [Bx.lo, By.lo]) (some (.list [Bx.size, By.size])) xb0 yb0 = .ok (some ⟨out, [Bx.n, By.n]⟩)
      ∧ grid2grid2D Ay.n Ax.n f1t (.list [Ay.size, Ax.size]) (.list [By.n, Bx.n]) (.list [Ay.lo, Ax.lo])
        (.list [By.lo, Bx.lo]) (some (.list [By.size, Bx.size])) xb1 yb1 = .ok (some ⟨outt, [By.n, Bx.n]⟩)
      ∧ ∀ i < Bx.n, ∀ j < By.n, ∃ v, out[i*By.n + j]? = some v ∧ outt[j*Bx.n + i]? = some v := by
  obtain ⟨out, h1, h2, h3, -⟩ := C33_exact_partial _ _ _ _ hAx hAy hBx hBy hx hy f1 hf
    (.list [Ax.size, Ay.size]) (.list [Ax.lo, Ay.lo]) (.list [Bx.lo, By.lo]) (.list [Bx.size, By.size])
    (.list [Bx.n, By.n]) rfl rfl rfl rfl rfl xb0 yb0
  obtain ⟨outt, t1, t2, t3, -⟩ := C33_exact_partial _ _ _ _ hAy hAx hBy hBx hy hx f1t hft
    (.list [Ay.size, Ax.size]) (.list [Ay.lo, Ax.lo]) (.list [By.lo, Bx.lo]) (.list [By.size, Bx.size])
    (.list [By.n, Bx.n]) rfl rfl rfl rfl rfl xb1 yb1
  refine ⟨out, outt, h1, t1, fun i hi j hj => ⟨_, h3 i hi j hj, ?_⟩⟩
  rw [t3 j hj i hi]
  congr 1
  unfold exact2
  rw [sum_comm]
  refine sum_congr rfl fun k hk => sum_congr rfl fun l hl => ?_
  beta_reduce
  rw [List.getD_eq_getElem?_getD, List.getD_eq_getElem?_getD, ht k (mem_range.mp hk) l (mem_range.mp hl)]
  ring

example : ∀ k < 2, ∀ l < 3, ([1, 4, 2, 5, 3, 6] : List ℚ)[l*2 + k]? = ([1, 2, 3, 4, 5, 6] : List ℚ)[k*3 + l]? := by
  decide +kernel

end Magpie.Props
