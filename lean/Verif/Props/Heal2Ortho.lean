import Verif.Proof.Heal2Ortho

/-!
# `Heal2Ortho`
-/

set_option linter.unusedSimpArgs false
set_option linter.unusedVariables false
set_option linter.unusedSectionVars false

namespace Magpie.Props
open Magpie Magpie.Radial Magpie.OneD Magpie.Coords Magpie.Spec Magpie.Ortho Matrix Real

/-- C77, what `remap` computes, for `rebin_x = rebin_y = m`: there are sky directions, one for each dense
point, such that each dense point on the sphere shows its direction, and the value of an output pixel
with its centre on the sphere is `m` times the mean of the map at the directions of its dense points on the
sphere (`0` if there is none). Other pixels are NaN. `ang2pix` is the pixelisation; `f` has one value for
each pixel. Missing for C77: the factor `m`, and `rebin_x ≠ rebin_y`, see below. -/
theorem C77_remap_partial (ang2pix : ℤ → ℝ → ℝ → ℕ) (A : BoxArgs) (c : ℝ × ℝ) (n : ℤ) (m : ℕ) (hA : Valid A c)
    (hn : 0 < n) (hm : 1 ≤ m) (hx : A.rebinX = m) (hy : A.rebinY = m) (f : List ℝ)
    (hf : f.length = 12*n.toNat^2) (hpix : ∀ t p, ang2pix n t p < 12*n.toNat^2) (s : Ortho.State) :
    ∃ (out : Arr2 (Option ℝ)) (s' : Ortho.State) (sky : ℕ → ℕ → ℝ × ℝ),
      (do setupMap n; setupBox ang2pix A; remap (f.map some) none : Meth Ortho.State _) s
        = (.ok out, s') ∧ out.rows = ny A ∧ out.cols = nx A ∧
      (∀ k l, k < m*ny A → l < m*nx A → OnSphere A.radius (point A m m k l) →
        SeenAt A.radius c (point A m m k l) (sky k l) ∧ 0 ≤ (sky k l).2 ∧ (sky k l).2 ≤ Real.pi) ∧
      ∀ i j, i < ny A → j < nx A → out.val i j =
        if OnSphere A.radius (point A 1 1 i j) then
          some (m*(discSum A m (fun k l => f.getD (ang2pix n (sky k l).2 (sky k l).1) 0) i j
            /discSum A m (fun _ _ => 1) i j))
        else none := by
  obtain ⟨sky, s', e, hs⟩ := setup_run ang2pix hA (by omega) (by omega) hn s
  obtain ⟨out, h1, h2, h3, h4⟩ := remap1_ok ang2pix hA hm hx hy hs (f.map some)
    (fun k l => f.getD (ang2pix n (sky k l).2 (sky k l).1) 0) (by
      intro i j _ _
      have := hpix (sky i j).2 (sky i j).1
      rw [← hf] at this
      simp [List.getD_eq_getElem?_getD, List.getElem?_eq_getElem this])
  refine ⟨out, s', sky, ?_, h2, h3, ?_, h4⟩
  · simp only [Meth.bind_apply] at e ⊢
    unfold setupMap at e ⊢
    simp only [Meth.bind_apply, Meth.lift_apply, Meth.assign_apply, pyAssert, if_pos (show Cube.isNsideOk n from hn)]
      at e ⊢
    rw [e]
    exact h1
  · have h1 := hs.seen
    have h2 := hs.range
    rw [hx, hy] at h1 h2
    exact fun k l hk hl hon => ⟨h1 k l hk hl hon, h2 k l hk hl⟩

/-- C77 for `rebin_x = rebin_y = 1`: a constant map gives the same constant in every output pixel with its
point on the sphere. -/
theorem C77_constant_partial (ang2pix : ℤ → ℝ → ℝ → ℕ) (A : BoxArgs) (c : ℝ × ℝ) (n : ℤ) (hA : Valid A c)
    (hn : 0 < n) (hx : A.rebinX = 1) (hy : A.rebinY = 1) (x : ℝ)
    (hpix : ∀ t p, ang2pix n t p < 12*n.toNat^2) (s : Ortho.State) :
    ∃ out s', (do setupMap n; setupBox ang2pix A
                  remap (List.replicate (12*n.toNat^2) (some x)) none : Meth Ortho.State _) s = (.ok out, s') ∧
      ∀ i j, i < ny A → j < nx A → OnSphere A.radius (point A 1 1 i j) → out.val i j = some x := by
  obtain ⟨out, s', sky, e, -, -, -, h⟩ := C77_remap_partial ang2pix A c n 1 hA hn le_rfl hx hy
    (List.replicate (12*n.toNat^2) x) (by simp) hpix s
  rw [List.map_replicate] at e
  refine ⟨out, s', e, fun i j hi hj hon => ?_⟩
  rw [h i j hi hj, if_pos hon]
  have := hpix (sky i j).2 (sky i j).1
  have key : ∀ g : ℕ → ℕ → ℝ, discSum A 1 g i j = g i j := by
    intro g
    unfold discSum
    rw [Finset.sum_range_one, Finset.sum_range_one, mul_one, mul_one, add_zero, add_zero, if_pos hon]
  rw [key, key]
  simp [List.getD_eq_getElem?_getD, this]

theorem discSum_const {A : BoxArgs} {m i j : ℕ}
    (hin : ∀ k l, k < m → l < m → OnSphere A.radius (point A m m (i*m + k) (j*m + l))) (x : ℝ)
    (g : ℕ → ℕ → ℝ) (hg : ∀ k l, g k l = x) : discSum A m g i j = m*m*x := by
  unfold discSum
  rw [Finset.sum_congr rfl fun k hk => Finset.sum_congr rfl fun l hl => by
    rw [if_pos (hin k l (Finset.mem_range.mp hk) (Finset.mem_range.mp hl)), hg]]
  simp
  ring

/-- C77 does not hold for rebin factors above `1` (the default is `2`): a constant `x ≠ 0` becomes `m x` in
every output pixel whose dense points are on the sphere, whatever the grid. -/
theorem C77_violated (ang2pix : ℤ → ℝ → ℝ → ℕ) (A : BoxArgs) (c : ℝ × ℝ) (n : ℤ) (m : ℕ) (hA : Valid A c)
    (hn : 0 < n) (hm : 2 ≤ m) (hx : A.rebinX = m) (hy : A.rebinY = m) (x : ℝ) (hx0 : x ≠ 0)
    (hpix : ∀ t p, ang2pix n t p < 12*n.toNat^2) (s : Ortho.State) :
    ∃ out s', (do setupMap n; setupBox ang2pix A
                  remap (List.replicate (12*n.toNat^2) (some x)) none : Meth Ortho.State _) s = (.ok out, s') ∧
      ∀ i j, i < ny A → j < nx A →
        (∀ k l, k < m → l < m → OnSphere A.radius (point A m m (i*m + k) (j*m + l))) →
        out.val i j = some (m*x) ∧ out.val i j ≠ some x := by
  have hX := hA.xGrid
  have hY := hA.yGrid
  obtain ⟨out, s', sky, e, -, -, -, h⟩ := C77_remap_partial ang2pix A c n m hA hn (by omega) hx hy
    (List.replicate (12*n.toNat^2) x) (by simp) hpix s
  rw [List.map_replicate] at e
  refine ⟨out, s', e, fun i j hi hj hin => ?_⟩
  have hm0 : (m:ℝ) ≠ 0 := by positivity
  have hm2 : (2:ℝ) ≤ m := by exact_mod_cast hm
  have hon := center_on (by omega) (by unfold nx; omega) (by unfold ny; omega) hin
  have hv : out.val i j = some (m*x) := by
    rw [h i j hi hj, if_pos hon, discSum_const hin x _ (by
      intro k l
      have := hpix (sky k l).2 (sky k l).1
      simp [List.getD_eq_getElem?_getD, this]), discSum_const hin 1 _ fun _ _ => rfl]
    congr 1
    field_simp
  refine ⟨hv, ?_⟩
  rw [hv]
  intro h0
  rw [Option.some.injEq] at h0
  have : ((m:ℝ) - 1)*x = 0 := by linarith
  rcases mul_eq_zero.mp this with h1 | h1
  · linarith
  · exact hx0 h1

/-- C77 does not hold for `rebin_x ≠ rebin_y`: `remap` raises `ValueError` for every map. -/
theorem C77_violated_shape (ang2pix : ℤ → ℝ → ℝ → ℕ) (A : BoxArgs) (c : ℝ × ℝ) (n : ℤ) (hA : Valid A c)
    (hn : 0 < n) (h1 : 1 ≤ A.rebinX) (h2 : 1 ≤ A.rebinY) (hne : A.rebinX ≠ A.rebinY) (f : List (Option ℝ))
    (hf : f.length = 12*n.toNat^2) (hpix : ∀ t p, ang2pix n t p < 12*n.toNat^2) (s : Ortho.State) :
    ∃ s', (do setupMap n; setupBox ang2pix A; remap f none : Meth Ortho.State _) s = (.error .valueError, s') := by
  obtain ⟨sky, s', e, hs⟩ := setup_run ang2pix hA h1 h2 hn s
  refine ⟨s', ?_⟩
  simp only [Meth.bind_apply] at e ⊢
  unfold setupMap at e ⊢
  simp only [Meth.bind_apply, Meth.lift_apply, Meth.assign_apply, pyAssert, if_pos (show Cube.isNsideOk n from hn)]
    at e ⊢
  rw [e]
  exact remap1_error ang2pix hA h1 h2 hne hs f (by rw [hf]; exact hpix)

/-- C77 with weights, for `rebin_x = rebin_y = m`: the value is the weighted mean of the map over the dense
points on the sphere (NaN if the weights add up to zero); the factor `m` cancels. Missing:
`rebin_x ≠ rebin_y`. -/
theorem C77_weighted_partial (ang2pix : ℤ → ℝ → ℝ → ℕ) (A : BoxArgs) (c : ℝ × ℝ) (n : ℤ) (m : ℕ)
    (hA : Valid A c) (hn : 0 < n) (hm : 1 ≤ m) (hx : A.rebinX = m) (hy : A.rebinY = m) (f w : List ℝ)
    (hf : f.length = 12*n.toNat^2) (hw : w.length = 12*n.toNat^2)
    (hpix : ∀ t p, ang2pix n t p < 12*n.toNat^2) (s : Ortho.State) :
    ∃ (out : Arr2 (Option ℝ)) (s' : Ortho.State) (sky : ℕ → ℕ → ℝ × ℝ),
      (do setupMap n; setupBox ang2pix A; remap (f.map some) (some w) : Meth Ortho.State _) s
        = (.ok out, s') ∧ out.rows = ny A ∧ out.cols = nx A ∧
      (∀ k l, k < m*ny A → l < m*nx A → OnSphere A.radius (point A m m k l) →
        SeenAt A.radius c (point A m m k l) (sky k l) ∧ 0 ≤ (sky k l).2 ∧ (sky k l).2 ≤ Real.pi) ∧
      ∀ i j, i < ny A → j < nx A → OnSphere A.radius (point A 1 1 i j) →
        ∀ W, W = discSum A m (fun k l => w.getD (ang2pix n (sky k l).2 (sky k l).1) 0) i j →
        out.val i j = if W = 0 then none else
          some (discSum A m (fun k l => w.getD (ang2pix n (sky k l).2 (sky k l).1) 0
            * f.getD (ang2pix n (sky k l).2 (sky k l).1) 0) i j/W) := by
  obtain ⟨sky, s', e, hs⟩ := setup_run ang2pix hA (by omega) (by omega) hn s
  have hfw : f.length = w.length := hf.trans hw.symm
  have hz : vzip omul (f.map some) w = .ok (List.zipWith (fun a b => some (a*b)) f w) := by
    unfold vzip
    rw [if_pos (by simpa using hfw), List.zipWith_map_left]
    rfl
  obtain ⟨o1, a1, a2, a3, a4⟩ := remap1_ok ang2pix hA hm hx hy hs (List.zipWith (fun a b => some (a*b)) f w)
    (fun k l => w.getD (ang2pix n (sky k l).2 (sky k l).1) 0 * f.getD (ang2pix n (sky k l).2 (sky k l).1) 0) (by
      intro i j _ _
      have h1 := hpix (sky i j).2 (sky i j).1
      have h2 := h1
      rw [← hf] at h1
      rw [← hw] at h2
      simp [List.getD_eq_getElem?_getD, List.getElem?_eq_getElem h1, List.getElem?_eq_getElem h2,
        List.getElem?_zipWith, mul_comm])
  obtain ⟨o2, b1, b2, b3, b4⟩ := remap1_ok ang2pix hA hm hx hy hs (w.map some)
    (fun k l => w.getD (ang2pix n (sky k l).2 (sky k l).1) 0) (by
      intro i j _ _
      have := hpix (sky i j).2 (sky i j).1
      rw [← hw] at this
      simp [List.getD_eq_getElem?_getD, List.getElem?_eq_getElem this])
  refine ⟨⟨o1.rows, o1.cols, fun i j => odiv (o1.val i j) (o2.val i j)⟩, s', sky, ?_, a2, a3, ?_, ?_⟩
  · simp only [Meth.bind_apply] at e ⊢
    unfold setupMap at e ⊢
    simp only [Meth.bind_apply, Meth.lift_apply, Meth.assign_apply, pyAssert, if_pos (show Cube.isNsideOk n from hn)]
      at e ⊢
    rw [e]
    unfold remap
    simp only [Meth.bind_apply, Meth.lift_apply, hz, a1, b1]
    unfold Arr2.zip
    rw [if_pos ⟨a2.trans b2.symm, a3.trans b3.symm⟩]
  · have h1 := hs.seen
    have h2 := hs.range
    rw [hx, hy] at h1 h2
    exact fun k l hk hl hon => ⟨h1 k l hk hl hon, h2 k l hk hl⟩
  · intro i j hi hj hon W hW
    show odiv (o1.val i j) (o2.val i j) = _
    rw [a4 i j hi hj, b4 i j hi hj]
    unfold pixVal
    rw [if_pos hon, if_pos hon, ← hW]
    have hm0 : (m:ℝ) ≠ 0 := by positivity
    unfold odiv fdiv
    simp only
    by_cases h1 : discSum A m (fun _ _ => 1) i j = 0
    · have : W = 0 := by rw [hW, discSum_zero h1]
      simp [this]
    · by_cases h0 : W = 0
      · simp [h0]
      · rw [if_neg (mul_ne_zero hm0 (div_ne_zero h0 h1)), if_neg h0]
        congr 1
        field_simp

/-- C77 with weights, consequence for every `m`: if the map is constant and the weights are positive, the
constant is preserved in every output pixel whose dense points are on the sphere. -/
theorem C77_weighted_constant_partial (ang2pix : ℤ → ℝ → ℝ → ℕ) (A : BoxArgs) (c : ℝ × ℝ) (n : ℤ) (m : ℕ)
    (hA : Valid A c) (hn : 0 < n) (hm : 1 ≤ m) (hx : A.rebinX = m) (hy : A.rebinY = m) (x : ℝ) (w : List ℝ)
    (hw : w.length = 12*n.toNat^2) (hpos : ∀ a ∈ w, 0 < a)
    (hpix : ∀ t p, ang2pix n t p < 12*n.toNat^2) (s : Ortho.State) :
    ∃ out s', (do setupMap n; setupBox ang2pix A
                  remap (List.replicate (12*n.toNat^2) (some x)) (some w) : Meth Ortho.State _) s = (.ok out, s') ∧
      ∀ i j, i < ny A → j < nx A →
        (∀ k l, k < m → l < m → OnSphere A.radius (point A m m (i*m + k) (j*m + l))) →
        out.val i j = some x := by
  have hX := hA.xGrid
  have hY := hA.yGrid
  obtain ⟨out, s', sky, e, -, -, -, h⟩ := C77_weighted_partial ang2pix A c n m hA hn hm hx hy
    (List.replicate (12*n.toNat^2) x) w (by simp) hw hpix s
  rw [List.map_replicate] at e
  refine ⟨out, s', e, fun i j hi hj hin => ?_⟩
  have hon := center_on hm (by unfold nx; omega) (by unfold ny; omega) hin
  have hg : ∀ k l, 0 < w.getD (ang2pix n (sky k l).2 (sky k l).1) 0 := by
    intro k l
    have := hpix (sky k l).2 (sky k l).1
    rw [← hw] at this
    rw [List.getD_eq_getElem?_getD, List.getElem?_eq_getElem this]
    exact hpos _ (List.getElem_mem this)
  have hxk : ∀ k l, (List.replicate (12*n.toNat^2) x).getD (ang2pix n (sky k l).2 (sky k l).1) 0 = x := by
    intro k l
    have := hpix (sky k l).2 (sky k l).1
    simp [List.getD_eq_getElem?_getD, this]
  have hW : 0 < discSum A m (fun k l => w.getD (ang2pix n (sky k l).2 (sky k l).1) 0) i j := by
    unfold discSum
    refine Finset.sum_pos (fun k hk => Finset.sum_pos (fun l hl => ?_) ⟨0, Finset.mem_range.mpr hm⟩) ⟨0, Finset.mem_range.mpr hm⟩
    rw [if_pos (hin k l (Finset.mem_range.mp hk) (Finset.mem_range.mp hl))]
    exact hg _ _
  rw [h i j hi hj hon _ rfl, if_neg hW.ne']
  congr 1
  rw [div_eq_iff hW.ne']
  unfold discSum
  rw [Finset.mul_sum]
  refine Finset.sum_congr rfl fun k _ => ?_
  rw [Finset.mul_sum]
  refine Finset.sum_congr rfl fun l _ => ?_
  split_ifs
  · simp only [hxk]; ring
  · simp

/-- The attributes used by `transform`. -/
theorem center_run (ang2pix : ℤ → ℝ → ℝ → ℕ) {A : BoxArgs} {c : ℝ × ℝ} {n : ℤ} {sky : ℕ → ℕ → ℝ × ℝ}
    {s : Ortho.State} (h : Valid A c) (hs : Ready ang2pix n A c sky s) :
    ∃ g, s.grid = some g ∧ g.center = c := ⟨_, hs.grid, (mkGrid_facts h).center⟩

theorem front_dir {p t a b d : ℝ} (h : dir p t = ![a, b, d]) :
    front (sphere2cart 1 p t (0, 0, 0)) = if d < 0 then none else some (a, b) := by
  have h0 := congrFun h 0
  have h1 := congrFun h 1
  have h2 := congrFun h 2
  simp [dir] at h0 h1 h2
  unfold front sphere2cart
  simp [h0, h1, h2]

/-- C86: after a valid set-up, `transform` of every direction, in any representation, is its offset to
the east and north of the centre; it is NaN for directions in the opposite hemisphere. -/
theorem C86_transform (ang2pix : ℤ → ℝ → ℝ → ℕ) (A : BoxArgs) (c : ℝ × ℝ) (n : ℤ) (hA : Valid A c)
    (hn : 0 < n) (h1 : 1 ≤ A.rebinX) (h2 : 1 ≤ A.rebinY) (phi theta : ℝ) (s : Ortho.State) :
    ∃ s', (do setupMap n; setupBox ang2pix A; transform phi theta : Meth Ortho.State _) s
      = (.ok (if dir phi theta ⬝ᵥ dir c.1 c.2 < 0 then none
          else some (dir phi theta ⬝ᵥ east c.1, dir phi theta ⬝ᵥ north c.1 c.2)), s') := by
  obtain ⟨sky, s', e, hs⟩ := setup_run ang2pix hA h1 h2 hn s
  obtain ⟨g, hg, hc⟩ := center_run ang2pix hA hs
  refine ⟨s', ?_⟩
  simp only [Meth.bind_apply] at e ⊢
  unfold setupMap at e ⊢
  simp only [Meth.bind_apply, Meth.lift_apply, Meth.assign_apply, pyAssert, if_pos (show Cube.isNsideOk n from hn)]
    at e ⊢
  rw [e]
  obtain ⟨p', t', er, hd⟩ := (shift_from hA.phi hA.theta).2 phi theta
  unfold transform
  simp only [Meth.bind_apply, Meth.self_apply, Meth.lift_apply, hg, need_some, hc, er, Option.bind_some,
    Meth.pure_apply]
  rw [front_dir hd]

/-- C86 for arrays, in part: `transform` of arrays agrees with `transform` of their elements. Missing:
empty arrays, see `C86_violated`. -/
theorem C86_array_partial (ang2pix : ℤ → ℝ → ℝ → ℕ) (A : BoxArgs) (c : ℝ × ℝ) (n : ℤ) (hA : Valid A c)
    (hn : 0 < n) (h1 : 1 ≤ A.rebinX) (h2 : 1 ≤ A.rebinY) (rows : List (ℝ × ℝ)) (hne : rows ≠ []) (s : Ortho.State) :
    ∃ s' caller, (do setupMap n; setupBox ang2pix A
                     transformArr (rows.map fun q => q.1) (rows.map fun q => q.2) : Meth Ortho.State _) s
      = (.ok (rows.map fun q => if dir q.1 q.2 ⬝ᵥ dir c.1 c.2 < 0 then none
          else some (dir q.1 q.2 ⬝ᵥ east c.1, dir q.1 q.2 ⬝ᵥ north c.1 c.2), caller), s') := by
  obtain ⟨sky, s', e, hs⟩ := setup_run ang2pix hA h1 h2 hn s
  obtain ⟨g, hg, hc⟩ := center_run ang2pix hA hs
  obtain ⟨p', t', cp, er, hd⟩ := (shift_from hA.phi hA.theta).1 rows hne (fun q => q.1) (fun q => q.2)
  refine ⟨s', cp, ?_⟩
  simp only [Meth.bind_apply] at e ⊢
  unfold setupMap at e ⊢
  simp only [Meth.bind_apply, Meth.lift_apply, Meth.assign_apply, pyAssert, if_pos (show Cube.isNsideOk n from hn)]
    at e ⊢
  rw [e]
  unfold transformArr
  simp only [Meth.bind_apply, Meth.self_apply, Meth.lift_apply, hg, need_some, hc, er, vzip_map_same,
    Option.bind_some, Meth.pure_apply]
  congr 3
  apply List.map_congr_left
  intro q _
  rw [front_dir (hd q)]

theorem frame_dots (c : ℝ × ℝ) : east c.1 ⬝ᵥ east c.1 = 1 ∧ north c.1 c.2 ⬝ᵥ north c.1 c.2 = 1 ∧
    dir c.1 c.2 ⬝ᵥ dir c.1 c.2 = 1 ∧ east c.1 ⬝ᵥ north c.1 c.2 = 0 ∧ east c.1 ⬝ᵥ dir c.1 c.2 = 0 ∧
    north c.1 c.2 ⬝ᵥ dir c.1 c.2 = 0 := by
  have h1 := sin_sq_add_cos_sq c.1
  have h2 := sin_sq_add_cos_sq c.2
  refine ⟨?_, ?_, dir_dot_self _ _, ?_, ?_, ?_⟩ <;> rw [dot3] <;> simp [east, north, dir]
  · linear_combination h1
  · linear_combination h2 + (cos c.2)^2*h1
  · ring
  · ring
  · linear_combination -(sin c.2*cos c.2)*h1

/-- C86, round trip: `transform` of a direction seen at the point `(x, y)` of the disc of radius `R` (such as
the directions read by `remap`, see `C77_remap_partial`) is `(x/R, y/R)`; for the default radius it is
`(x, y)`. -/
theorem C86_roundtrip (ang2pix : ℤ → ℝ → ℝ → ℕ) (A : BoxArgs) (c : ℝ × ℝ) (n : ℤ) (hA : Valid A c)
    (hn : 0 < n) (h1 : 1 ≤ A.rebinX) (h2 : 1 ≤ A.rebinY) (p d : ℝ × ℝ) (hp : OnSphere A.radius p)
    (hd : SeenAt A.radius c p d) (s : Ortho.State) :
    ∃ s', (do setupMap n; setupBox ang2pix A; transform d.1 d.2 : Meth Ortho.State _) s
      = (.ok (some (p.1/A.radius, p.2/A.radius)), s') := by
  obtain ⟨s', e⟩ := C86_transform ang2pix A c n hA hn h1 h2 d.1 d.2 s
  refine ⟨s', ?_⟩
  rw [e]
  obtain ⟨ee, nn, dd, en, ed, nd⟩ := frame_dots c
  have hR := hA.radius
  have key : ∀ v : Fin 3 → ℝ, A.radius*(dir d.1 d.2 ⬝ᵥ v) = p.1*(east c.1 ⬝ᵥ v) + p.2*(north c.1 c.2 ⬝ᵥ v)
      + √(A.radius^2 - p.1^2 - p.2^2)*(dir c.1 c.2 ⬝ᵥ v) := by
    intro v
    have := congrArg (fun u => u ⬝ᵥ v) hd
    simpa [add_dotProduct, smul_dotProduct] using this
  have k1 := key (east c.1)
  have k2 := key (north c.1 c.2)
  have k3 := key (dir c.1 c.2)
  rw [ee, dotProduct_comm (north c.1 c.2), en, dotProduct_comm (dir c.1 c.2), ed] at k1
  rw [en, nn, dotProduct_comm (dir c.1 c.2), nd] at k2
  rw [ed, nd, dd] at k3
  have e1 : dir d.1 d.2 ⬝ᵥ east c.1 = p.1/A.radius := by rw [eq_div_iff hR.ne']; linarith
  have e2 : dir d.1 d.2 ⬝ᵥ north c.1 c.2 = p.2/A.radius := by rw [eq_div_iff hR.ne']; linarith
  have e3 : ¬ dir d.1 d.2 ⬝ᵥ dir c.1 c.2 < 0 := by
    intro hneg
    have := sqrt_nonneg (A.radius^2 - p.1^2 - p.2^2)
    have := mul_neg_of_pos_of_neg hR hneg
    linarith
  rw [if_neg e3, e1, e2]

/-- Every centre that `setup_box` accepts is covered by `Valid`: its colatitude is a floating-point number, so it is
not the real number π. -/
theorem C86_accepted (A : BoxArgs) (c : ℝ × ℝ) (h1 : 2 ≤ A.xGrid) (h2 : 2 ≤ A.yGrid.getD A.xGrid)
    (h3 : A.center = [c.1, c.2]) (h4 : 0 < A.radius) (h5 : 0 ≤ c.1 ∧ c.1 ≤ 2*π) (h6 : 0 ≤ c.2 ∧ c.2 ≤ π)
    (hr : IsRat c.2) : Valid A c :=
  ⟨h1, h2, h3, h4, h5, below_pi h6 hr⟩

/-- C86 does not hold for empty arrays: `transform` raises `IndexError` for every centre but the north pole. -/
theorem C86_violated (ang2pix : ℤ → ℝ → ℝ → ℕ) (A : BoxArgs) (c : ℝ × ℝ) (n : ℤ) (hA : Valid A c)
    (hn : 0 < n) (h1 : 1 ≤ A.rebinX) (h2 : 1 ≤ A.rebinY) (hc : c.2 ≠ 0) (s : Ortho.State) :
    ∃ s', (do setupMap n; setupBox ang2pix A; transformArr [] [] : Meth Ortho.State _) s
      = (.error .indexError, s') := by
  have hpi := pi_pos
  obtain ⟨sky, s', e, hs⟩ := setup_run ang2pix hA h1 h2 hn s
  obtain ⟨g, hg, hcc⟩ := center_run ang2pix hA hs
  refine ⟨s', ?_⟩
  simp only [Meth.bind_apply] at e ⊢
  unfold setupMap at e ⊢
  simp only [Meth.bind_apply, Meth.lift_apply, Meth.assign_apply, pyAssert, if_pos (show Cube.isNsideOk n from hn)]
    at e ⊢
  rw [e]
  unfold transformArr
  simp only [Meth.bind_apply, Meth.self_apply, Meth.lift_apply, hg, need_some, hcc]
  have hq : phiShiftArr [] (endCenter.1 - c.1) = .ok [] := by
    unfold phiShiftArr pyAssert
    rw [if_pos (by unfold endCenter; simp only; constructor <;> linarith [hA.phi.1, hA.phi.2])]
    rfl
  have hE : 0 ≤ endCenter.1 ∧ endCenter.1 ≤ 2*π := by unfold endCenter; constructor <;> simp only <;> linarith
  have hZ : 0 ≤ endCenter.2 ∧ endCenter.2 ≤ π := ⟨le_rfl, hpi.le⟩
  have hne : c.2 ≠ endCenter.2 := hc
  have hsh : shiftArr [] [] c.1 c.2 endCenter.1 endCenter.2 = .error .indexError := by
    unfold shiftArr
    rw [shiftChecks_ok hA.phi hE ⟨hA.theta.1, hA.theta.2.le⟩ hZ]
    simp only [bind, Except.bind, hq]
    rw [if_pos hne]
    unfold rotateArr
    rw [rotateChecks_ok (Or.inr hne) hE hE ⟨hA.theta.1, hA.theta.2.le⟩ hZ]
    rfl
  rw [hsh]

/-- A 2 × 3 grid with the default rebin factors. -/
noncomputable def exOrtho : BoxArgs := ⟨1, 2, [1, 1], none, some 3, 2, 2, 1⟩

/-- The hypotheses can be met, and output pixel `(1, 0)` has all its dense points on the sphere. -/
example : Valid exOrtho (1, 1) ∧ (∀ t p, (fun (_ : ℤ) (t _ : ℝ) => if t < 1 then 0 else 5) 1 t p < 12*(1:ℤ).toNat^2) ∧
    ∀ k l, k < 2 → l < 2 → OnSphere exOrtho.radius (point exOrtho 2 2 (1*2 + k) (0*2 + l)) := by
  have hpi := two_le_pi
  refine ⟨⟨by simp [exOrtho], by simp [exOrtho], rfl, by simp [exOrtho], ⟨by norm_num, by simp only; linarith⟩,
    ⟨by norm_num, by simp only; linarith⟩⟩, ?_, ?_⟩
  · intro t p
    simp only
    split_ifs <;> simp
  · intro k l hk hl
    have hn : nx exOrtho = 2 := rfl
    have hn' : ny exOrtho = 3 := rfl
    interval_cases k <;> interval_cases l <;>
      simp only [OnSphere, point, hn, hn', midAt, edgeAt] <;> simp [exOrtho] <;> norm_num

/-- A direction seen at a point: the centre of the view. -/
example : OnSphere 1 (0, 0) ∧ SeenAt 1 (1, 1) (0, 0) (1, 1) := by
  constructor
  · unfold OnSphere; norm_num
  · unfold SeenAt; simp

end Magpie.Props
