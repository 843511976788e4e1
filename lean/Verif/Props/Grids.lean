import Verif.Proof.Grids

/-!
# Properties C48-C55: grids, polar areas, radial profiles

`sectorArea` is in `Verif/Spec/Grids.lean`.
-/

set_option linter.unusedSimpArgs false
set_option linter.unusedVariables false
set_option linter.unusedSectionVars false

namespace Magpie.Props
open Magpie Magpie.Remap Magpie.OneD Magpie.Grids Magpie.Radial Magpie.Spec Finset

section
variable {K : Type} [Field K] [LinearOrder K] [IsStrictOrderedRing K]

/-! ## C48 -/

/-- C48: `grid1d` returns `ngrid + 1` equally spaced edges from `xmin` (default 0) to
`xmin + length` and the mid point of every cell; for a positive length both increase. -/
theorem C48_grid1d (length : K) (ngrid : ℕ) (hn : 1 ≤ ngrid) (xmin : Option K) (x0 : K)
    (hx : xmin = some x0 ∨ xmin = none ∧ x0 = 0) :
    (grid1d length ngrid xmin).2 = getXedges length ngrid xmin ∧
    (grid1d length ngrid xmin).2.length = ngrid + 1 ∧
    (grid1d length ngrid xmin).1.length = ngrid ∧
    ∃ edge : ℕ → K, (∀ k, k ≤ ngrid → (grid1d length ngrid xmin).2[k]? = some (edge k)) ∧
      edge 0 = x0 ∧ edge ngrid = x0 + length ∧
      (∀ k, k < ngrid → edge (k+1) - edge k = length/ngrid) ∧
      (∀ k, k < ngrid → (grid1d length ngrid xmin).1[k]? = some ((edge k + edge (k+1))/2)) ∧
      (0 < length → ∀ i j, i < j → edge i < edge j) := by
  have hn' : (0:K) < ngrid := by exact_mod_cast hn
  have h0 : xmin.getD 0 = x0 := by rcases hx with rfl | ⟨rfl, rfl⟩ <;> rfl
  refine ⟨rfl, getXedges_length _ _ _, mid_length _ _ _, fun k => x0 + k*(length/ngrid),
    ?_, by simp, ?_, ?_, ?_, ?_⟩
  · intro k hk
    rw [← h0]; exact getXedges_get _ _ _ k hk
  · simp only; field_simp
  · intro k _; simp only; push_cast; ring
  · intro k hk
    have := mid_get length ngrid xmin k hk
    unfold grid1d
    simp only [this, h0]
    congr 1
    push_cast; ring
  · intro hl i j hij
    have : (i:K) < j := by exact_mod_cast hij
    have h2 : 0 < length/ngrid := div_pos hl hn'
    have := mul_lt_mul_of_pos_right this h2
    simp only; linarith

example : grid1d (K := ℚ) 6 3 (some 1) = ([2, 4, 6], [1, 3, 5, 7]) := by decide +kernel

/-! ## C49 -/

/-- What `xmid2edges` returns on the mid points of a uniform grid: every edge is half a cell too far
out, the last one to the right and all others to the left. -/
theorem C49_shift_partial (length : K) (ngrid : ℕ) (hn : 2 ≤ ngrid) (xmin : Option K) :
    ∃ out, xmid2edges (xedges2mid (getXedges length ngrid xmin)) = .ok out ∧
      out.length = ngrid + 1 ∧
      (∀ k, k < ngrid → out[k]? = some (xmin.getD 0 + k*(length/ngrid) - length/ngrid/2)) ∧
      out[ngrid]? = some (xmin.getD 0 + ngrid*(length/ngrid) + length/ngrid/2) := by
  obtain ⟨n, rfl⟩ : ∃ n, ngrid = n + 2 := ⟨ngrid - 2, by omega⟩
  set q := length/((n+2 : ℕ) : K) with hq
  set x0 := xmin.getD 0 with hx0
  have hmid : xedges2mid (getXedges length (n+2) xmin)
      = (x0 + ((0:ℕ):K)*q + q/2) :: (x0 + ((1:ℕ):K)*q + q/2)
        :: (List.range n).map fun (k : ℕ) => x0 + ((k+2 : ℕ):K)*q + q/2 := by
    rw [mid_eq, List.range_succ_eq_map, List.map_cons, List.map_map, List.range_succ_eq_map,
      List.map_cons, List.map_map]
    congr 1
    · rw [← hq, ← hx0]; push_cast; ring
    · congr 1
      · simp only [Function.comp]; rw [← hq, ← hx0]; push_cast; ring
      · apply List.map_congr_left
        intro k _
        simp only [Function.comp]; rw [← hq, ← hx0]; push_cast; ring
  have hlast : (xedges2mid (getXedges length (n+2) xmin)).getLastD 0
      = x0 + ((n+1 : ℕ):K)*q + q/2 := by
    rw [mid_eq, List.range_succ, List.map_append]
    simp only [List.map_cons, List.map_nil, List.getLastD_concat]
    rw [← hq, ← hx0]; push_cast; ring
  have hl := mid_length length (n+2) xmin
  have hget := mid_get length (n+2) xmin
  generalize hM : xedges2mid (getXedges length (n+2) xmin) = M at *
  refine ⟨M.map (· - q) ++ [M.getLastD 0 + q], ?_, by simp [hl], ?_, ?_⟩
  · rw [hmid]
    simp only [xmid2edges]
    have : x0 + ((1:ℕ):K)*q + q/2 - (x0 + ((0:ℕ):K)*q + q/2) = q := by push_cast; ring
    rw [this]
  · intro k hk
    rw [List.getElem?_append_left (by simp [hl]; exact hk), List.getElem?_map, hget k hk]
    simp only [Option.map_some, Option.some.injEq]
    ring
  · rw [List.getElem?_append_right (by simp [hl])]
    simp only [List.length_map, hl, Nat.sub_self, List.getElem?_cons_zero, hlast]
    congr 1
    push_cast; ring

/-- C49 fails on every uniform grid: `xmid2edges` never returns the edges, and with one cell it raises
IndexError. -/
theorem C49_violated (length : K) (ngrid : ℕ) (hn : 1 ≤ ngrid) (hl : length ≠ 0) (xmin : Option K) :
    xmid2edges (xedges2mid (getXedges length ngrid xmin)) ≠ .ok (getXedges length ngrid xmin) ∧
      (ngrid = 1 → xmid2edges (xedges2mid (getXedges length ngrid xmin)) = .error .indexError) := by
  rcases Nat.lt_or_ge 1 ngrid with h | h
  · refine ⟨?_, fun h1 => by omega⟩
    obtain ⟨out, h1, h2, h3, _⟩ := C49_shift_partial length ngrid h xmin
    rw [h1]
    intro heq
    simp only [Except.ok.injEq] at heq
    have h4 := h3 0 (by omega)
    rw [heq, getXedges_get length ngrid xmin 0 (by omega)] at h4
    simp only [Option.some.injEq] at h4
    have hz : length/ngrid/2 = 0 := by linarith
    have hn' : (ngrid:K) ≠ 0 := by
      have : (0:K) < ngrid := by exact_mod_cast hn
      exact this.ne'
    apply hl
    field_simp at hz
    simpa using hz
  · have h1 : ngrid = 1 := by omega
    subst h1
    have : xmid2edges (xedges2mid (getXedges length 1 xmin)) = .error .indexError := by
      rw [mid_eq]; rfl
    rw [this]
    exact ⟨by simp, fun _ => rfl⟩

example : xmid2edges (K := ℚ) [1/2, 3/2, 5/2] = .ok [-1/2, 1/2, 3/2, 7/2] := by decide +kernel

/-! ## C50 -/

/-- C50 for `grid2d`: with one size for both axes or a list of two. -/
theorem C50_grid2d (lengths : Arg K) (ngrids : Arg ℕ) (lx ly : K) (nx ny : ℕ) (mx my : Option K)
    (hl : lengths = .list [lx, ly] ∨ lengths = .scalar lx ∧ ly = lx)
    (hn : ngrids = .list [nx, ny] ∨ ngrids = .scalar nx ∧ ny = nx) :
    ∃ g, grid2d lengths ngrids [mx, my] = .ok g ∧
      g.xmid = (grid1d lx nx mx).1 ∧ g.ymid = (grid1d ly ny my).1 ∧
      g.x2d.length = nx ∧ g.y2d.length = nx ∧
      (∀ row ∈ g.x2d, row.length = ny) ∧ (∀ row ∈ g.y2d, row.length = ny) ∧
      ∀ i j, i < nx → j < ny →
        ((g.x2d[i]?).bind (·[j]?)) = g.xmid[i]? ∧ ((g.y2d[i]?).bind (·[j]?)) = g.ymid[j]? := by
  have h1 : lengths.two = .ok (lx, ly) := by rcases hl with rfl | ⟨rfl, rfl⟩ <;> rfl
  have h2 : ngrids.two = .ok (nx, ny) := by rcases hn with rfl | ⟨rfl, rfl⟩ <;> rfl
  refine ⟨⟨_, _, _, _⟩, by unfold grid2d; rw [h1, h2]; rfl, rfl, rfl, ?_, ?_, ?_, ?_, ?_⟩
  · simp [meshgrid2, mid_length]
  · simp [meshgrid2, mid_length]
  · intro row h; simp only [meshgrid2, List.mem_map] at h
    obtain ⟨a, _, rfl⟩ := h; simp [mid_length]
  · intro row h; simp only [meshgrid2, List.mem_map] at h
    obtain ⟨a, _, rfl⟩ := h; simp [mid_length]
  · intro i j hi hj
    simp only [meshgrid2, List.getElem?_map, mid_get lx nx mx i hi, Option.map_some,
      Option.bind_some, mid_get ly ny my j hj]
    exact ⟨(mid_get lx nx mx i hi).symm, (mid_get ly ny my j hj).symm⟩

/-- C50: `polargrid` returns `nr` rows of `nphi` pixels; row `i` has the radius of the centre of ring `i` of
`[rmin, rmax]`, column `j` the angle of the centre of sector `j` of `[phimin, phimax]`. -/
theorem C50_polargrid (nr nphi : ℕ) (rmin rmax phimin phimax : K) :
    ∃ g, polargrid nr nphi rmin rmax phimin phimax = .ok g ∧ g.x2d.length = nr ∧ g.y2d.length = nr ∧
      (∀ row ∈ g.x2d, row.length = nphi) ∧ (∀ row ∈ g.y2d, row.length = nphi) ∧
      ∀ i j, i < nr → j < nphi →
        ((g.x2d[i]?).bind (·[j]?)) = some (rmin + ((i:K) + 1/2)*((rmax - rmin)/nr)) ∧
        ((g.y2d[i]?).bind (·[j]?)) = some (phimin + ((j:K) + 1/2)*((phimax - phimin)/nphi)) := by
  obtain ⟨g, h1, h2, h3, h4, h5, h6, h7, h8⟩ := C50_grid2d (.list [rmax - rmin, phimax - phimin])
    (.list [nr, nphi]) (rmax - rmin) (phimax - phimin) nr nphi (some rmin) (some phimin) (.inl rfl) (.inl rfl)
  refine ⟨g, h1, h4, h5, h6, h7, fun i j hi hj => ?_⟩
  rw [(h8 i j hi hj).1, (h8 i j hi hj).2, h2, h3]
  exact ⟨mid_get _ _ _ i hi, mid_get _ _ _ j hj⟩

/-- C50 for `grid3d`. -/
theorem C50_grid3d (lengths : Arg K) (ngrids : Arg ℕ) (lx ly lz : K) (nx ny nz : ℕ)
    (mx my mz : Option K)
    (hl : lengths = .list [lx, ly, lz] ∨ lengths = .scalar lx ∧ ly = lx ∧ lz = lx)
    (hn : ngrids = .list [nx, ny, nz] ∨ ngrids = .scalar nx ∧ ny = nx ∧ nz = nx) :
    ∃ g, grid3d lengths ngrids [mx, my, mz] = .ok g ∧
      g.xmid = (grid1d lx nx mx).1 ∧ g.ymid = (grid1d ly ny my).1 ∧ g.zmid = (grid1d lz nz mz).1 ∧
      (∀ a, a = g.x3d ∨ a = g.y3d ∨ a = g.z3d → a.length = nx ∧ ∀ plane ∈ a,
        plane.length = ny ∧ ∀ row ∈ plane, row.length = nz) ∧
      ∀ i j k, i < nx → j < ny → k < nz →
        (((g.x3d[i]?).bind (·[j]?)).bind (·[k]?)) = g.xmid[i]? ∧
        (((g.y3d[i]?).bind (·[j]?)).bind (·[k]?)) = g.ymid[j]? ∧
        (((g.z3d[i]?).bind (·[j]?)).bind (·[k]?)) = g.zmid[k]? := by
  have h1 : lengths.three = .ok (lx, ly, lz) := by rcases hl with rfl | ⟨rfl, rfl, rfl⟩ <;> rfl
  have h2 : ngrids.three = .ok (nx, ny, nz) := by rcases hn with rfl | ⟨rfl, rfl, rfl⟩ <;> rfl
  refine ⟨⟨_, _, _, _, _, _⟩, by unfold grid3d; rw [h1, h2]; rfl, rfl, rfl, rfl, ?_, ?_⟩
  · rintro a (rfl | rfl | rfl)
    all_goals
      refine ⟨by simp [mid_length], ?_⟩
      intro plane hp
      simp only [List.mem_map] at hp
      obtain ⟨x, _, rfl⟩ := hp
      refine ⟨by simp [mid_length], ?_⟩
      intro row hr
      simp only [List.mem_map] at hr
      obtain ⟨y, _, rfl⟩ := hr
      simp [mid_length]
  · intro i j k hi hj hk
    simp only [List.getElem?_map, mid_get lx nx mx i hi, Option.map_some,
      Option.bind_some, mid_get ly ny my j hj, mid_get lz nz mz k hk]
    exact ⟨(mid_get lx nx mx i hi).symm, (mid_get ly ny my j hj).symm, (mid_get lz nz mz k hk).symm⟩

example : (grid2d (K := ℚ) (.scalar 2) (.list [2, 1]) [none, some 1]).map (fun g => (g.x2d, g.y2d))
    = .ok ([[1/2], [3/2]], [[2], [2]]) := by decide +kernel

end

/-! ## C51 -/

/-- C51: the equal-area polar grid. Pixel `j` of ring `i` is
`[i rmax/nr, (i+1) rmax/nr] × [2πj/n, 2π(j+1)/n]` with `n = base_nphi (2i+1)`; it is listed at
position `base_nphi i² + j` with its mid point, and its area is `polarEA_area`. There are
`polarEA_npix` pixels and together they have the area of the disc. -/
theorem C51_equal_area (nr base : ℕ) (hnr : 1 ≤ nr) (hb : 1 ≤ base) (rmax : ℝ) :
    ∃ r p area, polarEAGrid nr rmax base = .ok (r, p) ∧ polarEAArea nr rmax base = .ok area ∧
      r.length = polarEANpix nr base ∧ p.length = polarEANpix nr base ∧
      polarEANpix nr base = ∑ i ∈ range nr, base*(2*i+1) ∧
      (polarEANpix nr base : ℝ) * area = Real.pi * rmax^2 ∧
      ∀ i, i < nr → ∀ j, j < base*(2*i+1) →
        r[base*i^2 + j]? = some ((i*(rmax/nr) + (i+1)*(rmax/nr))/2) ∧
        p[base*i^2 + j]? = some ((j*(2*Real.pi/(base*(2*i+1))) + (j+1)*(2*Real.pi/(base*(2*i+1))))/2) ∧
        sectorArea (i*(rmax/nr)) ((i+1)*(rmax/nr)) (j*(2*Real.pi/(base*(2*i+1))))
          ((j+1)*(2*Real.pi/(base*(2*i+1)))) = area := by
  obtain ⟨m, rfl⟩ : ∃ m, nr = m + 1 := ⟨nr - 1, by omega⟩
  have hn0 : ((m+1 : ℕ):ℝ) ≠ 0 := by positivity
  have hb0 : (base:ℝ) ≠ 0 := by
    have : (0:ℝ) < base := by exact_mod_cast hb
    exact this.ne'
  have hc : ∀ l : List (List ℝ), l ≠ [] → concatenate l = .ok l.flatten := by
    intro l hl; cases l with
    | nil => exact absurd rfl hl
    | cons a l => rfl
  have hrng : (List.range (m+1)) ≠ [] := by simp
  set vr : ℕ → List ℝ := fun i => (List.range (base*(2*i+1))).map fun _ =>
    (xedges2mid (getXedges rmax (m+1) none)).getD i 0 with hvr
  set vp : ℕ → List ℝ := fun i => xedges2mid (getXedges (2*Real.pi) (base*(2*i+1)) none) with hvp
  have lr : ∀ i, (vr i).length = base*(2*i+1) := fun i => by simp [hvr]
  have lp : ∀ i, (vp i).length = base*(2*i+1) := fun i => by simp [hvp, mid_length]
  refine ⟨((List.range (m+1)).map vr).flatten, ((List.range (m+1)).map vp).flatten,
    Real.pi*(rmax/((m+1 : ℕ):ℝ))^2/base, ?_, ?_, ?_, ?_, ?_, ?_, ?_⟩
  · unfold polarEAGrid
    simp only []
    rw [hc _ (by simp), hc _ (by simp)]
    rfl
  · unfold polarEAArea
    rw [if_neg (by omega), if_neg (by omega)]
    rfl
  · rw [length_ragged, Finset.sum_congr rfl (fun i _ => lr i), sum_odd]; rfl
  · rw [length_ragged, Finset.sum_congr rfl (fun i _ => lp i), sum_odd]; rfl
  · rw [sum_odd]; rfl
  · unfold polarEANpix
    push_cast
    have h1 : (m:ℝ) + 1 ≠ 0 := by positivity
    field_simp
  · intro i hi j hj
    have o1 : base*i^2 + j = (∑ k ∈ range i, (vr k).length) + j := by
      rw [Finset.sum_congr rfl (fun i _ => lr i), sum_odd]
    have o2 : base*i^2 + j = (∑ k ∈ range i, (vp k).length) + j := by
      rw [Finset.sum_congr rfl (fun i _ => lp i), sum_odd]
    have hd : ((base*(2*i+1) : ℕ):ℝ) = base*(2*i+1) := by push_cast; ring
    refine ⟨?_, ?_, ?_⟩
    · rw [o1, getElem?_ragged vr (m+1) i j hi (by rw [lr]; exact hj)]
      simp only [hvr, List.getElem?_map, List.getElem?_range hj, Option.map_some, Option.some.injEq]
      rw [List.getD_eq_getElem?_getD, mid_get rmax (m+1) none i hi]
      simp only [Option.getD_some, Option.getD_none]
      ring
    · rw [o2, getElem?_ragged vp (m+1) i j hi (by rw [lp]; exact hj)]
      simp only [hvp]
      rw [mid_get _ _ none j hj, hd]
      simp only [Option.getD_none]
      congr 1; ring
    · rw [sectorArea_eq]
      have h1 : ((m+1 : ℕ):ℝ) ≠ 0 := hn0
      have h2 : (2*(i:ℝ)+1) ≠ 0 := by positivity
      field_simp
      ring

/-- The first ring of the default grid has four pixels of area `π/4` for `nr = 1`. -/
example : polarEAArea 1 1 4 = .ok (Real.pi/4) ∧ polarEANpix 1 4 = 4 := by
  constructor
  · simp [polarEAArea, bind, Except.bind, pure, Except.pure]
  · rfl

/-! ## C52 -/

/-- C52: every entry of `get_polar_area2d` is the area of its pixel, it is positive, and the entries
add up to the area of the annular sector. -/
theorem C52_areas (redges pedges : List ℝ) (N M : ℕ) (hr : redges.length = N + 1)
    (hp : pedges.length = M + 2) (dp : ℝ) (hdp : 0 < dp)
    (huni : ∀ i, i ≤ M + 1 → pedges.getD i 0 = pedges.getD 0 0 + i*dp)
    (hpos : 0 ≤ redges.getD 0 0) (hinc : ∀ i j, i < j → j ≤ N → redges.getD i 0 < redges.getD j 0) :
    ∃ a, getPolarArea2d redges pedges = .ok a ∧ a.rows = M + 1 ∧ a.cols = N ∧
      (∀ i, i < M + 1 → ∀ j, j < N → a.val i j = sectorArea (redges.getD j 0) (redges.getD (j+1) 0)
          (pedges.getD i 0) (pedges.getD (i+1) 0) ∧ 0 < a.val i j) ∧
      ∑ i ∈ range a.rows, ∑ j ∈ range a.cols, a.val i j
        = sectorArea (redges.getD 0 0) (redges.getD N 0) (pedges.getD 0 0) (pedges.getD (M+1) 0) := by
  match pedges, hp, huni with
  | [], hp, _ => simp at hp
  | [x], hp, _ => simp at hp
  | p0 :: p1 :: ps, hp, huni =>
  have hdp' : p1 - p0 = dp := by
    have := huni 1 (by omega)
    simp at this; linarith
  have hlen : (List.zipWith (fun a b => Real.pi*(b^2 - a^2)*dp/(2*Real.pi)) redges.dropLast
      redges.tail).length = N := by simp [hr]
  have hget : ∀ j, j < N → (List.zipWith (fun a b => Real.pi*(b^2 - a^2)*dp/(2*Real.pi))
      redges.dropLast redges.tail).getD j 0
      = dp*(((redges.getD (j+1) 0)^2 - (redges.getD j 0)^2)/2) := by
    intro j hj
    rw [List.getD_eq_getElem?_getD, List.getElem?_zipWith, List.getElem?_dropLast,
      List.getElem?_tail, hr, if_pos (by omega), List.getD_eq_getElem?_getD,
      List.getD_eq_getElem?_getD, List.getElem?_eq_getElem (by omega : j < redges.length),
      List.getElem?_eq_getElem (by omega : j+1 < redges.length)]
    simp only [Option.getD_some]
    have := Real.pi_ne_zero
    field_simp
  refine ⟨_, rfl, by simpa using hp, by simp only [hdp']; exact hlen, ?_, ?_⟩
  · intro i hi j hj
    simp only [hdp', hget j hj]
    refine ⟨?_, ?_⟩
    · rw [sectorArea_eq, huni i (by omega), huni (i+1) (by omega)]
      push_cast; ring
    · have h1 := hinc j (j+1) (by omega) (by omega)
      have h2 : 0 ≤ redges.getD j 0 := by
        rcases Nat.eq_zero_or_pos j with h | h
        · rw [h]; exact hpos
        · exact le_trans hpos (hinc 0 j h (by omega)).le
      have : 0 < (redges.getD (j+1) 0)^2 - (redges.getD j 0)^2 := by nlinarith
      positivity
  · simp only [hdp', hlen]
    have hrow : ∑ j ∈ range N, (List.zipWith (fun a b => Real.pi*(b^2 - a^2)*dp/(2*Real.pi))
        redges.dropLast redges.tail).getD j 0
        = dp*(((redges.getD N 0)^2 - (redges.getD 0 0)^2)/2) := by
      rw [Finset.sum_congr rfl fun j hj => hget j (Finset.mem_range.mp hj), ← Finset.mul_sum,
        ← Finset.sum_div, Finset.sum_range_sub (fun j => (redges.getD j 0)^2)]
    rw [Finset.sum_congr rfl fun i _ => hrow, Finset.sum_const, Finset.card_range, sectorArea_eq,
      huni (M+1) (by omega)]
    simp only [List.length_cons] at hp ⊢
    have : ps.length = M := by omega
    simp only [this, nsmul_eq_mul, Nat.add_sub_cancel]
    push_cast
    ring

/-- Two rings and three phi bins satisfy the hypotheses. -/
example : ([0, 1, 3] : List ℝ).length = 2 + 1 ∧ ([1, 2, 3] : List ℝ).length = 1 + 2 ∧
    (∀ i, i ≤ 1 + 1 → ([1, 2, 3] : List ℝ).getD i 0 = ([1, 2, 3] : List ℝ).getD 0 0 + i*1) := by
  refine ⟨rfl, rfl, ?_⟩
  intro i hi
  have : i = 0 ∨ i = 1 ∨ i = 2 := by omega
  rcases this with rfl | rfl | rfl <;> norm_num

/-! ## C53 -/

section
variable {K : Type} [Field K] [LinearOrder K] [IsStrictOrderedRing K]

/-- C53: without weights every radial value is the mean over phi. -/
theorem C53_mean (f : Arr2 (Option K)) (v : ℕ → ℕ → K) (hr : 0 < f.rows)
    (hv : ∀ i j, i < f.rows → j < f.cols → f.val i j = some (v i j)) :
    ∃ out, polar2radial f none = .ok out ∧ out.length = f.cols ∧
      ∀ j, j < f.cols → out[j]? = some (some ((∑ i ∈ range f.rows, v i j) / f.rows)) := by
  have hr' : ((f.rows:ℕ):K) ≠ 0 := by
    have : (0:K) < f.rows := by exact_mod_cast hr
    exact this.ne'
  refine ⟨_, rfl, by simp [Arr2.sum0], ?_⟩
  intro j hj
  simp only [Arr2.sum0, List.map_map, List.getElem?_map, List.getElem?_range hj, Option.map_some,
    Function.comp]
  rw [npSum_range_congr f.rows _ (fun i => v i j) fun i hi => hv i j hi hj]
  simp [odiv, fdiv, hr']

/-- C53: with weights every radial value is the weighted mean over phi, and a ring of total weight
zero does not get a number. -/
theorem C53_weighted (f : Arr2 (Option K)) (w : Arr2 K) (v : ℕ → ℕ → K)
    (h1 : w.rows = f.rows) (h2 : w.cols = f.cols)
    (hv : ∀ i j, i < f.rows → j < f.cols → f.val i j = some (v i j)) :
    ∃ out, polar2radial f (some w) = .ok out ∧ out.length = f.cols ∧
      ∀ j, j < f.cols →
        (∑ i ∈ range f.rows, w.val i j ≠ 0 → out[j]? = some (some
          ((∑ i ∈ range f.rows, w.val i j * v i j) / ∑ i ∈ range f.rows, w.val i j))) ∧
        (∑ i ∈ range f.rows, w.val i j = 0 → out[j]? = some none) := by
  refine ⟨_, by unfold polar2radial Arr2.zip; simp only; rw [if_pos ⟨h1.symm, h2.symm⟩]; rfl,
    by simp [Arr2.sum0, h2], ?_⟩
  intro j hj
  simp only [List.getElem?_zipWith, Arr2.sum0, List.getElem?_map, List.getElem?_range hj,
    h2, Option.map_some, h1]
  rw [npSum_range_congr f.rows _ (fun i => w.val i j * v i j) (fun i hi => by
      rw [hv i j hi hj]; simp [omul, mul_comm]),
    npSum_range_congr f.rows _ (fun i => w.val i j) (fun i hi => rfl)]
  constructor
  · intro h; simp [odiv, fdiv, h]
  · intro h; simp [odiv, fdiv, h]

/-- C53: constants are preserved and, for non-negative weights, values stay within the range of
their ring. -/
theorem C53_bounds (f : Arr2 (Option K)) (w : Option (Arr2 K)) (v : ℕ → ℕ → K) (hr : 0 < f.rows)
    (hw : ∀ ww, w = some ww → ww.rows = f.rows ∧ ww.cols = f.cols ∧
      ∀ i j, i < f.rows → j < f.cols → 0 ≤ ww.val i j)
    (hv : ∀ i j, i < f.rows → j < f.cols → f.val i j = some (v i j)) (j : ℕ) (hj : j < f.cols)
    (lo hi : K) (hb : ∀ i, i < f.rows → lo ≤ v i j ∧ v i j ≤ hi) :
    ∃ out, polar2radial f w = .ok out ∧ ∀ x, out[j]? = some (some x) → lo ≤ x ∧ x ≤ hi := by
  have key : ∀ ω : ℕ → K, (∀ i, i < f.rows → 0 ≤ ω i) → ∑ i ∈ range f.rows, ω i ≠ 0 →
      lo ≤ (∑ i ∈ range f.rows, ω i * v i j) / ∑ i ∈ range f.rows, ω i ∧
      (∑ i ∈ range f.rows, ω i * v i j) / ∑ i ∈ range f.rows, ω i ≤ hi := by
    intro ω h0 hne
    have hpos : 0 < ∑ i ∈ range f.rows, ω i :=
      lt_of_le_of_ne (Finset.sum_nonneg fun i hi => h0 i (Finset.mem_range.mp hi)) (Ne.symm hne)
    rw [le_div_iff₀ hpos, div_le_iff₀ hpos, Finset.mul_sum, Finset.mul_sum]
    constructor
    · apply Finset.sum_le_sum
      intro i hi'
      rw [mul_comm]
      exact mul_le_mul_of_nonneg_left (hb i (Finset.mem_range.mp hi')).1 (h0 i (Finset.mem_range.mp hi'))
    · apply Finset.sum_le_sum
      intro i hi'
      rw [mul_comm hi]
      exact mul_le_mul_of_nonneg_left (hb i (Finset.mem_range.mp hi')).2 (h0 i (Finset.mem_range.mp hi'))
  cases w with
  | none =>
    obtain ⟨out, h1, _, h3⟩ := C53_mean f v hr hv
    refine ⟨out, h1, ?_⟩
    intro x hx
    rw [h3 j hj] at hx
    simp only [Option.some.injEq] at hx
    have hr' : ((f.rows:ℕ):K) ≠ 0 := by
      have : (0:K) < f.rows := by exact_mod_cast hr
      exact this.ne'
    have := key (fun _ => 1) (fun _ _ => zero_le_one) (by simpa using hr')
    simp only [one_mul, Finset.sum_const, Finset.card_range, nsmul_eq_mul, mul_one] at this
    rw [← hx]; exact this
  | some w =>
    obtain ⟨g1, g2, g3⟩ := hw w rfl
    obtain ⟨out, h1, _, h3⟩ := C53_weighted f w v g1 g2 hv
    refine ⟨out, h1, ?_⟩
    intro x hx
    by_cases hz : ∑ i ∈ range f.rows, w.val i j = 0
    · rw [(h3 j hj).2 hz] at hx; simp at hx
    · rw [(h3 j hj).1 hz] at hx
      simp only [Option.some.injEq] at hx
      rw [← hx]
      exact key (fun i => w.val i j) (fun i hi => g3 i j hi hj) hz

/-- C53: data under a weight of zero do not matter, as long as they are numbers. Missing: NaN data,
see `C53_violated`. -/
theorem C53_zero_weight_partial (f f' : Arr2 (Option K)) (w : Arr2 K)
    (h1 : f'.rows = f.rows) (h2 : f'.cols = f.cols) (h3 : w.rows = f.rows) (h4 : w.cols = f.cols)
    (hnum : ∀ i j, i < f.rows → j < f.cols → f.val i j ≠ none ∧ f'.val i j ≠ none)
    (hz : ∀ i j, i < f.rows → j < f.cols → w.val i j ≠ 0 → f'.val i j = f.val i j) :
    polar2radial f (some w) = polar2radial f' (some w) := by
  unfold polar2radial Arr2.zip
  simp only
  rw [if_pos ⟨h3.symm, h4.symm⟩, if_pos ⟨by omega, by omega⟩]
  simp only [bind, Except.bind, pure, Except.pure]
  congr 2
  simp only [Arr2.sum0, h1, h2]
  apply List.map_congr_left
  intro j hj
  congr 1
  apply List.map_congr_left
  intro i hi
  simp only [List.mem_range] at hi hj
  by_cases hw : w.val i j = 0
  · obtain ⟨n1, n2⟩ := hnum i j hi hj
    cases ha : f.val i j with
    | none => exact absurd ha n1
    | some a =>
      cases hb : f'.val i j with
      | none => exact absurd hb n2
      | some b => simp [omul, hw]
  · rw [hz i j hi hj hw]

/-- A masked NaN still spoils its ring: `0*NaN` is NaN. -/
theorem C53_violated :
    polar2radial (K := ℚ) ⟨2, 1, fun i _ => if i = 0 then none else some 3⟩
      (some ⟨2, 1, fun i _ => if i = 0 then 0 else 1⟩) = .ok [none] := by decide +kernel

example : polar2radial (K := ℚ) ⟨3, 2, fun i j => some (i + 10*j)⟩
    (some ⟨3, 2, fun i j => if j = 0 then 0 else i⟩) = .ok [none, some (35/3)] := by decide +kernel

end

/-! ## C54 -/

/-- C54: the radial error is `sqrt(Σ (pixarea/area)(wσ)²)/|Σ w|`, with `w = 1` when no weights are
given; so it is non-negative. -/
theorem C54_formula (f : Arr2 (Option ℝ)) (area sigma : Arr2 ℝ) (pixarea : ℝ) (w : Option (Arr2 ℝ))
    (ω : ℕ → ℕ → ℝ) (hw : (w = none ∧ ∀ i j, ω i j = 1) ∨
      ∃ ww, w = some ww ∧ ww.rows = f.rows ∧ ww.cols = f.cols ∧ ww.val = ω)
    (h1 : area.rows = f.rows) (h2 : area.cols = f.cols) (h3 : sigma.rows = f.rows)
    (h4 : sigma.cols = f.cols) (hpix : 0 ≤ pixarea)
    (harea : ∀ i j, i < f.rows → j < f.cols → 0 < area.val i j) :
    ∃ out, polar2radialSigma f area pixarea sigma w = .ok out ∧ out.length = f.cols ∧
      ∀ j, j < f.cols → ∑ i ∈ range f.rows, ω i j ≠ 0 → out[j]? = some (some
        (Real.sqrt (∑ i ∈ range f.rows, pixarea/area.val i j * (ω i j * sigma.val i j)^2)
          / |∑ i ∈ range f.rows, ω i j|)) := by
  have hnn : ∀ j, j < f.cols →
      0 ≤ ∑ i ∈ range f.rows, pixarea/area.val i j * (ω i j * sigma.val i j)^2 := by
    intro j hj
    apply Finset.sum_nonneg
    intro i hi
    exact mul_nonneg (div_nonneg hpix (harea i j (Finset.mem_range.mp hi) hj).le) (sq_nonneg _)
  rcases hw with ⟨rfl, hω⟩ | ⟨ww, rfl, g1, g2, g3⟩
  · refine ⟨_, by unfold polar2radialSigma Arr2.zip; simp only; rw [if_pos ⟨by omega, by omega⟩]; rfl,
      by simp [Arr2.sum0, h2], ?_⟩
    intro j hj hne
    simp only [Arr2.sum0, List.map_map, List.getElem?_map, h2, List.getElem?_range hj,
      Option.map_some, Function.comp, h1]
    rw [npSum_range_congr f.rows _ (fun i => pixarea/area.val i j * (ω i j * sigma.val i j)^2)
      (fun i hi => by simp [fdiv, (harea i j hi hj).ne', hω])]
    have hs : ∑ i ∈ range f.rows, ω i j = f.rows := by simp [hω]
    rw [hs] at hne ⊢
    simp only [odiv, fdiv]
    rw [if_neg (pow_ne_zero 2 hne)]
    simp only [osqrt, Option.bind_some, npSqrt]
    rw [if_pos (div_nonneg (hnn j hj) (sq_nonneg _)), Real.sqrt_div (hnn j hj), Real.sqrt_sq_eq_abs]
  · refine ⟨_, by
      unfold polar2radialSigma Arr2.zip
      simp only
      rw [if_pos ⟨by omega, by omega⟩]
      simp only [bind, Except.bind]
      rw [if_pos ⟨by omega, by omega⟩]
      rfl, by simp [Arr2.sum0, h2, g2], ?_⟩
    intro j hj hne
    simp only [Arr2.sum0, List.getElem?_zipWith, List.getElem?_map, h2, g2, h1, g1,
      List.getElem?_range hj, Option.map_some, g3]
    rw [npSum_range_congr f.rows _ (fun i => pixarea/area.val i j * (ω i j * sigma.val i j)^2)
      (fun i hi => by simp [fdiv, (harea i j hi hj).ne']),
      npSum_range_congr f.rows _ (fun i => ω i j) (fun i hi => rfl)]
    simp only [odiv, fdiv, Option.map_some]
    rw [if_neg (pow_ne_zero 2 hne)]
    simp only [osqrt, Option.bind_some, npSqrt]
    rw [if_pos (div_nonneg (hnn j hj) (sq_nonneg _)), Real.sqrt_div (hnn j hj), Real.sqrt_sq_eq_abs]

/-- C54: multiplying the errors of the pixels by `c` multiplies the radial errors by `|c|`. -/
theorem C54_scales (f : Arr2 (Option ℝ)) (area sigma : Arr2 ℝ) (pixarea c : ℝ) (w : Option (Arr2 ℝ))
    (hw : ∀ ww, w = some ww → ww.rows = f.rows ∧ ww.cols = f.cols)
    (h1 : area.rows = f.rows) (h2 : area.cols = f.cols) (h3 : sigma.rows = f.rows)
    (h4 : sigma.cols = f.cols) (hpix : 0 ≤ pixarea)
    (harea : ∀ i j, i < f.rows → j < f.cols → 0 < area.val i j)
    (hpos : ∀ j, j < f.cols → match w with
      | none => f.rows ≠ 0
      | some ww => ∑ i ∈ range f.rows, ww.val i j ≠ 0) :
    ∃ out out', polar2radialSigma f area pixarea sigma w = .ok out ∧
      polar2radialSigma f area pixarea ⟨sigma.rows, sigma.cols, fun i j => c * sigma.val i j⟩ w
        = .ok out' ∧
      ∀ j, j < f.cols → ∃ x, 0 ≤ x ∧ out[j]? = some (some x) ∧ out'[j]? = some (some (|c| * x)) := by
  obtain ⟨ω, hω, hne⟩ : ∃ ω : ℕ → ℕ → ℝ, ((w = none ∧ ∀ i j, ω i j = 1) ∨
      ∃ ww, w = some ww ∧ ww.rows = f.rows ∧ ww.cols = f.cols ∧ ww.val = ω) ∧
      ∀ j, j < f.cols → ∑ i ∈ range f.rows, ω i j ≠ 0 := by
    cases w with
    | none => exact ⟨fun _ _ => 1, .inl ⟨rfl, fun _ _ => rfl⟩, fun j hj => by
        have := hpos j hj
        simpa using this⟩
    | some w => exact ⟨w.val, .inr ⟨w, rfl, (hw w rfl).1, (hw w rfl).2, rfl⟩, hpos⟩
  obtain ⟨out, e1, _, g1⟩ := C54_formula f area sigma pixarea w ω hω h1 h2 h3 h4 hpix harea
  obtain ⟨out', e2, _, g2⟩ := C54_formula f area ⟨sigma.rows, sigma.cols, fun i j => c * sigma.val i j⟩
    pixarea w ω hω h1 h2 h3 h4 hpix harea
  refine ⟨out, out', e1, e2, ?_⟩
  intro j hj
  refine ⟨_, div_nonneg (Real.sqrt_nonneg _) (abs_nonneg _), g1 j hj (hne j hj), ?_⟩
  rw [g2 j hj (hne j hj)]
  congr 2
  have : ∑ i ∈ range f.rows, pixarea/area.val i j * (ω i j * (c * sigma.val i j))^2
      = c^2 * ∑ i ∈ range f.rows, pixarea/area.val i j * (ω i j * sigma.val i j)^2 := by
    rw [Finset.mul_sum]
    exact Finset.sum_congr rfl fun i _ => by ring
  simp only [this]
  rw [Real.sqrt_mul (sq_nonneg c), Real.sqrt_sq_eq_abs, mul_div_assoc]

/-- One ring of two pixels: `σ = 3, 4` and unit areas give `5/2`. -/
example : ∃ out, polar2radialSigma ⟨2, 1, fun _ _ => some 0⟩ ⟨2, 1, fun _ _ => 1⟩ 1
    ⟨2, 1, fun i _ => if i = 0 then 3 else 4⟩ none = .ok out ∧ out[0]? = some (some (5/2)) := by
  obtain ⟨out, h, _, h2⟩ := C54_formula ⟨2, 1, fun _ _ => some 0⟩ ⟨2, 1, fun _ _ => 1⟩
    ⟨2, 1, fun i _ => if i = 0 then 3 else 4⟩ 1 none (fun _ _ => 1) (.inl ⟨rfl, fun _ _ => rfl⟩)
    rfl rfl rfl rfl (by norm_num) (by intros; norm_num)
  refine ⟨out, h, ?_⟩
  rw [h2 0 (by simp) (by simp)]
  have h25 : Real.sqrt 25 = 5 := by rw [show (25:ℝ) = 5^2 by norm_num]; exact Real.sqrt_sq (by norm_num)
  norm_num [Finset.sum_range_succ, h25]

/-! ## C55 -/

/-- C55: `cumulative_radial` starts at zero and grows by `π(r_{i+1}² - r_i²) f_i`; the errors are the
root of the sum of the squared ring errors. -/
theorem C55_running (redges f : List ℝ) (sigma : Option (List ℝ)) (N : ℕ)
    (hr : redges.length = N + 1) (hf : f.length = N) (hs : ∀ s, sigma = some s → s.length = N) :
    ∃ c e, cumulativeRadial redges f sigma = .ok (c, e) ∧ c.length = N + 1 ∧
      (∀ k, k ≤ N → c[k]? = some (∑ i ∈ range k,
        Real.pi*((redges.getD (i+1) 0)^2 - (redges.getD i 0)^2) * f.getD i 0)) ∧
      (sigma = none → e = none) ∧
      ∀ s, sigma = some s → ∃ es, e = some es ∧ es.length = N + 1 ∧ ∀ k, k ≤ N →
        es[k]? = some (some (Real.sqrt (∑ i ∈ range k,
          (Real.pi*((redges.getD (i+1) 0)^2 - (redges.getD i 0)^2) * s.getD i 0)^2))) := by
  have hal : (ringArea redges).length = N := by simp [ringArea, hr]
  have hag : ∀ i, i < N → (ringArea redges)[i]?
      = some (Real.pi*((redges.getD (i+1) 0)^2 - (redges.getD i 0)^2)) := by
    intro i hi
    unfold ringArea
    rw [List.getElem?_zipWith, List.getElem?_dropLast, List.getElem?_tail, hr, if_pos (by omega),
      List.getD_eq_getElem?_getD, List.getD_eq_getElem?_getD,
      List.getElem?_eq_getElem (by omega : i < redges.length),
      List.getElem?_eq_getElem (by omega : i+1 < redges.length)]
    simp only [Option.getD_some]
  have hm : ∀ x : List ℝ, x.length = N → ∀ i, i < N →
      (List.zipWith (· * ·) (ringArea redges) x)[i]?
        = some (Real.pi*((redges.getD (i+1) 0)^2 - (redges.getD i 0)^2) * x.getD i 0) := by
    intro x hx i hi
    have hx' : x[i]? = some (x.getD i 0) := by
      rw [List.getD_eq_getElem?_getD, List.getElem?_eq_getElem (by omega : i < x.length)]; rfl
    rw [List.getElem?_zipWith, hag i hi, hx']
  have hrun : ∀ (x : List ℝ) (g : ℕ → ℝ), x.length = N → (∀ i, i < N → x[i]? = some (g i)) →
      (runningSum redges x).length = N + 1 ∧
      ∀ k, k ≤ N → (runningSum redges x)[k]? = some (∑ i ∈ range k, g i) := by
    intro x g hx hg
    unfold runningSum
    rw [if_neg (by omega)]
    refine ⟨by simp [cumsum_length, hx], ?_⟩
    intro k hk
    cases k with
    | zero => simp
    | succ k =>
      rw [List.getElem?_cons_succ, cumsum_get 0 x k (by omega), zero_add]
      congr 1
      apply Finset.sum_congr rfl
      intro i hi
      simp only [Finset.mem_range] at hi
      rw [List.getD_eq_getElem?_getD, hg i (by omega)]; rfl
  have h1 := hrun (List.zipWith (· * ·) (ringArea redges) f) _ (by simp [hal, hf]) (hm f hf)
  unfold cumulativeRadial vmul
  simp only []
  rw [if_pos (by omega)]
  simp only [bind, Except.bind]
  cases sigma with
  | none =>
    exact ⟨_, none, rfl, h1.1, h1.2, fun _ => rfl, fun s h => by simp at h⟩
  | some s =>
    have hsl := hs s rfl
    have h2 := hrun ((List.zipWith (· * ·) (ringArea redges) s).map (·^2))
      (fun i => (Real.pi*((redges.getD (i+1) 0)^2 - (redges.getD i 0)^2) * s.getD i 0)^2)
      (by simp [hal, hsl]) (fun i hi => by rw [List.getElem?_map, hm s hsl i hi]; rfl)
    refine ⟨_, some _, by simp only []; rw [if_pos (by omega)]; rfl, h1.1, h1.2,
      fun h => by simp at h, ?_⟩
    intro s' h
    simp only [Option.some.injEq] at h
    subst h
    refine ⟨_, rfl, by rw [List.length_map]; exact h2.1, ?_⟩
    intro k hk
    rw [List.getElem?_map, h2.2 k hk]
    simp only [Option.map_some, npSqrt]
    rw [if_pos (Finset.sum_nonneg fun i _ => sq_nonneg _)]

/-- C55: the running integral starts at 0, a constant profile `c` gives `cπ(r² - r0²)`, a
non-negative profile on increasing radii gives a non-decreasing result, and the errors never
decrease. -/
theorem C55_consequences (redges f : List ℝ) (sigma : Option (List ℝ)) (N : ℕ)
    (hr : redges.length = N + 1) (hf : f.length = N) (hs : ∀ s, sigma = some s → s.length = N) :
    ∃ c e, cumulativeRadial redges f sigma = .ok (c, e) ∧ c[0]? = some 0 ∧
      (∀ x, (∀ i, i < N → f.getD i 0 = x) → ∀ k, k ≤ N →
        c[k]? = some (x * Real.pi * ((redges.getD k 0)^2 - (redges.getD 0 0)^2))) ∧
      ((∀ i, i < N → 0 ≤ f.getD i 0) → 0 ≤ redges.getD 0 0 →
        (∀ i j, i ≤ j → j ≤ N → redges.getD i 0 ≤ redges.getD j 0) →
        ∀ i j, i ≤ j → j ≤ N → ∃ a b, c[i]? = some a ∧ c[j]? = some b ∧ a ≤ b) ∧
      ∀ es, e = some es → ∀ i j, i ≤ j → j ≤ N →
        ∃ a b, es[i]? = some (some a) ∧ es[j]? = some (some b) ∧ 0 ≤ a ∧ a ≤ b := by
  obtain ⟨c, e, h1, _, h3, h4, h5⟩ := C55_running redges f sigma N hr hf hs
  refine ⟨c, e, h1, by simpa using h3 0 (by omega), ?_, ?_, ?_⟩
  · intro x hx k hk
    rw [h3 k hk]
    congr 1
    have : ∀ i ∈ range k, Real.pi*((redges.getD (i+1) 0)^2 - (redges.getD i 0)^2) * f.getD i 0
        = (x*Real.pi) * ((redges.getD (i+1) 0)^2 - (redges.getD i 0)^2) := by
      intro i hi
      simp only [Finset.mem_range] at hi
      rw [hx i (by omega)]; ring
    rw [Finset.sum_congr rfl this, ← Finset.mul_sum,
      Finset.sum_range_sub (fun i => (redges.getD i 0)^2)]
  · intro hpos h0 hinc i j hij hj
    refine ⟨_, _, h3 i (by omega), h3 j hj, ?_⟩
    apply Finset.sum_le_sum_of_subset_of_nonneg
    · intro a ha; simp only [Finset.mem_range] at ha ⊢; omega
    · intro a ha _
      simp only [Finset.mem_range] at ha
      have g1 := hinc 0 a (by omega) (by omega)
      have g2 := hinc a (a+1) (by omega) (by omega)
      have : 0 ≤ (redges.getD (a+1) 0)^2 - (redges.getD a 0)^2 := by nlinarith
      exact mul_nonneg (mul_nonneg Real.pi_pos.le this) (hpos a (by omega))
  · intro es hes i j hij hj
    cases sigma with
    | none => rw [h4 rfl] at hes; simp at hes
    | some s =>
      obtain ⟨es', he, _, h6⟩ := h5 s rfl
      rw [he] at hes
      simp only [Option.some.injEq] at hes
      subst hes
      refine ⟨_, _, h6 i (by omega), h6 j hj, Real.sqrt_nonneg _, Real.sqrt_le_sqrt ?_⟩
      apply Finset.sum_le_sum_of_subset_of_nonneg
      · intro a ha; simp only [Finset.mem_range] at ha ⊢; omega
      · intro a _ _; exact sq_nonneg _

/-- The hypotheses hold for two rings with profile `1, 2`, and the last value is `13π`. -/
example : ∃ c e, cumulativeRadial [0, 1, 3] [1, 3/2] (some [1, 1]) = .ok (c, e) ∧
    c[2]? = some (13*Real.pi) := by
  obtain ⟨c, e, h1, _, h3, _⟩ := C55_running [0, 1, 3] [1, 3/2] (some [1, 1]) 2 rfl rfl
    (by intro s hs; simp only [Option.some.injEq] at hs; subst hs; rfl)
  refine ⟨c, e, h1, ?_⟩
  rw [h3 2 (le_refl _)]
  norm_num [Finset.sum_range_succ]
  ring

end Magpie.Props
