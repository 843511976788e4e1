import Verif.Proof.MissingSky
import Verif.Props.Heal2Ortho

/-!
# Property C138: a missing map pixel spoils only the view pixels that show it

The definitions are in `Verif/Spec/Heal2Ortho.lean`: `point` (the sample points of a view pixel), `OnSphere`, `SeenAt` (the
direction that a point of the disc shows), `OnRim` (the direction on the rim of the disc towards a point outside) and
`discSum`. A missing value (NaN) is `none`.
-/

set_option linter.unusedSimpArgs false
set_option linter.unusedVariables false
set_option linter.unusedSectionVars false

namespace Magpie.Props
open Magpie Magpie.Radial Magpie.OneD Magpie.Coords Magpie.Spec Magpie.Ortho Matrix

section
variable (ang2pix : ℤ → ℝ → ℝ → ℕ) (A : BoxArgs) (c : ℝ × ℝ) (n : ℤ) (m : ℕ) (hA : Valid A c) (hn : 0 < n)
  (hm : 1 ≤ m) (hx : A.rebinX = m) (hy : A.rebinY = m) (hpix : ∀ t p, ang2pix n t p < 12*n.toNat^2)
include hA hn hm hx hy hpix

/-- C138: with any missing values in the map `remap` returns, on an object with any history. There are directions, one for
each sample point, such that a sample point on the sphere shows its direction, and one outside has the direction on
the rim towards it. A view pixel is missing if and only if its centre is not on the sphere or one of its sample points
has a direction in a missing map pixel; otherwise it is `m` times the mean over the sample points on the sphere (see C77 for
the factor).

Partial: sample points that are not on the sphere should not matter (see `C138_violated`). -/
theorem C138_remap_partial (f : List (Option ℝ)) (hf : f.length = 12*n.toNat^2) (s : Ortho.State) :
    ∃ (out : Arr2 (Option ℝ)) (s' : Ortho.State) (sky : ℕ → ℕ → ℝ × ℝ),
      (do setupMap n; setupBox ang2pix A; remap f none : Meth Ortho.State _) s = (.ok out, s') ∧
      out.rows = ny A ∧ out.cols = nx A ∧
      (∀ k l, k < m*ny A → l < m*nx A → (0 ≤ (sky k l).2 ∧ (sky k l).2 ≤ Real.pi) ∧
        (OnSphere A.radius (point A m m k l) → SeenAt A.radius c (point A m m k l) (sky k l)) ∧
        (¬ OnSphere A.radius (point A m m k l) → OnRim c (point A m m k l) (sky k l))) ∧
      ∀ i j, i < ny A → j < nx A →
        (out.val i j = none ↔ ¬ OnSphere A.radius (point A 1 1 i j) ∨
          ∃ k l, k < m ∧ l < m ∧
            f.getD (ang2pix n (sky (i*m + k) (j*m + l)).2 (sky (i*m + k) (j*m + l)).1) none = none) ∧
        (out.val i j ≠ none → out.val i j =
          some (m*(discSum A m (fun k l => (f.getD (ang2pix n (sky k l).2 (sky k l).1) none).getD 0) i j
            /discSum A m (fun _ _ => 1) i j))) := by
  obtain ⟨sky, s', e, hs⟩ := setup_run ang2pix hA (by omega) (by omega) hn s
  obtain ⟨out, h1, h2, h3, h4⟩ := remap1_opt ang2pix hA hm hx hy hs f
    (fun k l => f.getD (ang2pix n (sky k l).2 (sky k l).1) none) (by
      intro i j _ _
      have := hpix (sky i j).2 (sky i j).1
      rw [← hf] at this
      simp [List.getD_eq_getElem?_getD, List.getElem?_eq_getElem this])
  refine ⟨out, s', sky, ?_, h2, h3, ?_, ?_⟩
  · simp only [Meth.bind_apply] at e ⊢
    unfold setupMap at e ⊢
    simp only [Meth.bind_apply, Meth.lift_apply, Meth.assign_apply, pyAssert, if_pos (show Cube.isNsideOk n from hn)]
      at e ⊢
    rw [e]
    exact h1
  · have h1 := hs.seen
    have h2 := hs.range
    have h3 := hs.rim
    rw [hx, hy] at h1 h2 h3
    exact fun k l hk hl => ⟨h2 k l hk hl, h1 k l hk hl, h3 k l hk hl⟩
  · intro i j hi hj
    obtain ⟨ha, hb⟩ := h4 i j hi hj
    by_cases hh : ∃ k l, k < m ∧ l < m ∧
        f.getD (ang2pix n (sky (i*m + k) (j*m + l)).2 (sky (i*m + k) (j*m + l)).1) none = none
    · exact ⟨⟨fun _ => Or.inr hh, fun _ => ha hh⟩, fun h => absurd (ha hh) h⟩
    · have hv := hb (fun k l => (f.getD (ang2pix n (sky k l).2 (sky k l).1) none).getD 0) (by
        intro k l hk hl
        cases e : f.getD (ang2pix n (sky (i*m + k) (j*m + l)).2 (sky (i*m + k) (j*m + l)).1) none with
        | none => exact absurd ⟨k, l, hk, hl, e⟩ hh
        | some x => rfl)
      rw [hv]
      unfold pixVal
      by_cases hon : OnSphere A.radius (point A 1 1 i j)
      · rw [if_pos hon]
        refine ⟨⟨fun h => absurd h (by simp), fun h => ?_⟩, fun _ => rfl⟩
        rcases h with h | h
        · exact absurd hon h
        · exact absurd h hh
      · rw [if_neg hon]
        exact ⟨⟨fun _ => Or.inl hon, fun _ => rfl⟩, fun h => absurd rfl h⟩

/-- C138 for the view pixels inside the disc: a view pixel with all its sample points on the sphere is missing if and only if
one of them shows a missing map pixel. -/
theorem C138_inner (f : List (Option ℝ)) (hf : f.length = 12*n.toNat^2) (s : Ortho.State) :
    ∃ (out : Arr2 (Option ℝ)) (s' : Ortho.State) (sky : ℕ → ℕ → ℝ × ℝ),
      (do setupMap n; setupBox ang2pix A; remap f none : Meth Ortho.State _) s = (.ok out, s') ∧
      ∀ i j, i < ny A → j < nx A →
        (∀ k l, k < m → l < m → OnSphere A.radius (point A m m (i*m + k) (j*m + l))) →
        (∀ k l, k < m → l < m → SeenAt A.radius c (point A m m (i*m + k) (j*m + l)) (sky (i*m + k) (j*m + l)) ∧
          0 ≤ (sky (i*m + k) (j*m + l)).2 ∧ (sky (i*m + k) (j*m + l)).2 ≤ Real.pi) ∧
        (out.val i j = none ↔ ∃ k l, k < m ∧ l < m ∧
          f.getD (ang2pix n (sky (i*m + k) (j*m + l)).2 (sky (i*m + k) (j*m + l)).1) none = none) := by
  obtain ⟨out, s', sky, e, -, -, hsky, h⟩ := C138_remap_partial ang2pix A c n m hA hn hm hx hy hpix f hf s
  have hx' : 0 < nx A := by have := hA.xGrid; unfold nx; omega
  have hy' : 0 < ny A := by have := hA.yGrid; unfold ny; omega
  refine ⟨out, s', sky, e, fun i j hi hj hall => ⟨fun k l hk hl => ?_, ?_⟩⟩
  · obtain ⟨r, a, -⟩ := hsky (i*m + k) (j*m + l) (sub_lt hk hi) (sub_lt hl hj)
    exact ⟨a (hall k l hk hl), r⟩
  · rw [(h i j hi hj).1]
    have := center_on hm hx' hy' hall
    tauto

/-- C138 with weights: a view pixel is missing if one of its sample points has a direction in a missing map pixel, whatever
the weight of that map pixel. -/
theorem C138_weighted (f : List (Option ℝ)) (hf : f.length = 12*n.toNat^2) (w : List ℝ) (hw : w.length = 12*n.toNat^2)
    (s : Ortho.State) :
    ∃ (out : Arr2 (Option ℝ)) (s' : Ortho.State) (sky : ℕ → ℕ → ℝ × ℝ),
      (do setupMap n; setupBox ang2pix A; remap f (some w) : Meth Ortho.State _) s = (.ok out, s') ∧
      out.rows = ny A ∧ out.cols = nx A ∧
      (∀ k l, k < m*ny A → l < m*nx A → (0 ≤ (sky k l).2 ∧ (sky k l).2 ≤ Real.pi) ∧
        (OnSphere A.radius (point A m m k l) → SeenAt A.radius c (point A m m k l) (sky k l)) ∧
        (¬ OnSphere A.radius (point A m m k l) → OnRim c (point A m m k l) (sky k l))) ∧
      ∀ i j, i < ny A → j < nx A →
        ((∃ k l, k < m ∧ l < m ∧
            f.getD (ang2pix n (sky (i*m + k) (j*m + l)).2 (sky (i*m + k) (j*m + l)).1) none = none) →
          out.val i j = none) ∧
        ((∀ k l, k < m → l < m →
            f.getD (ang2pix n (sky (i*m + k) (j*m + l)).2 (sky (i*m + k) (j*m + l)).1) none ≠ none) →
          OnSphere A.radius (point A 1 1 i j) →
          ∀ W, W = discSum A m (fun k l => w.getD (ang2pix n (sky k l).2 (sky k l).1) 0) i j →
          out.val i j = if W = 0 then none else
            some (discSum A m (fun k l => w.getD (ang2pix n (sky k l).2 (sky k l).1) 0
              * (f.getD (ang2pix n (sky k l).2 (sky k l).1) none).getD 0) i j/W)) := by
  obtain ⟨sky, s', e, hs⟩ := setup_run ang2pix hA (by omega) (by omega) hn s
  have hfw : f.length = w.length := hf.trans hw.symm
  have hz : vzip omul f w = .ok (List.zipWith omul f w) := by
    unfold vzip
    rw [if_pos hfw]
  obtain ⟨o1, a1, a2, a3, a4⟩ := remap1_opt ang2pix hA hm hx hy hs (List.zipWith omul f w)
    (fun k l => omul (f.getD (ang2pix n (sky k l).2 (sky k l).1) none) (w.getD (ang2pix n (sky k l).2 (sky k l).1) 0)) (by
      intro i j _ _
      have h1 := hpix (sky i j).2 (sky i j).1
      have h2 := h1
      rw [← hf] at h1
      rw [← hw] at h2
      simp [List.getD_eq_getElem?_getD, List.getElem?_eq_getElem h1, List.getElem?_eq_getElem h2,
        List.getElem?_zipWith])
  obtain ⟨o2, b1, b2, b3, b4⟩ := remap1_ok ang2pix hA hm hx hy hs (w.map some)
    (fun k l => w.getD (ang2pix n (sky k l).2 (sky k l).1) 0) (by
      intro i j _ _
      have := hpix (sky i j).2 (sky i j).1
      rw [← hw] at this
      simp [List.getD_eq_getElem?_getD, List.getElem?_eq_getElem this])
  refine ⟨⟨o1.rows, o1.cols, fun i j => odiv (o1.val i j) (o2.val i j)⟩, s', sky, ?_, a2, a3, ?_, ?_⟩
  · simp only [Meth.bind_apply] at e ⊢
    unfold setupMap at e ⊢
    simp only [Meth.bind_apply, Meth.lift_apply, Meth.assign_apply, pyAssert, if_pos (show Cube.isNsideOk n from hn)]
      at e ⊢
    rw [e]
    unfold remap
    simp only [Meth.bind_apply, Meth.lift_apply, hz, a1, b1]
    unfold Arr2.zip
    rw [if_pos ⟨a2.trans b2.symm, a3.trans b3.symm⟩]
  · have h1 := hs.seen
    have h2 := hs.range
    have h3 := hs.rim
    rw [hx, hy] at h1 h2 h3
    exact fun k l hk hl => ⟨h2 k l hk hl, h1 k l hk hl, h3 k l hk hl⟩
  · intro i j hi hj
    obtain ⟨ha, hb⟩ := a4 i j hi hj
    show (_ → odiv (o1.val i j) (o2.val i j) = none) ∧ (_ → _ → ∀ W, _ → odiv (o1.val i j) (o2.val i j) = _)
    refine ⟨?_, ?_⟩
    · rintro ⟨k, l, hk, hl, e⟩
      rw [ha ⟨k, l, hk, hl, by rw [e]; rfl⟩]
      rfl
    · intro hno hon W hW
      rw [hb (fun k l => w.getD (ang2pix n (sky k l).2 (sky k l).1) 0
        * (f.getD (ang2pix n (sky k l).2 (sky k l).1) none).getD 0) ?_, b4 i j hi hj]
      · unfold pixVal
        rw [if_pos hon, if_pos hon, ← hW]
        have hm0 : (m:ℝ) ≠ 0 := by positivity
        unfold odiv fdiv
        simp only
        by_cases h1 : discSum A m (fun _ _ => 1) i j = 0
        · have : W = 0 := by rw [hW, discSum_zero h1]
          simp [this]
        · by_cases h0 : W = 0
          · simp [h0]
          · rw [if_neg (mul_ne_zero hm0 (div_ne_zero h0 h1)), if_neg h0]
            congr 1
            field_simp
      · intro k l hk hl
        cases e : f.getD (ang2pix n (sky (i*m + k) (j*m + l)).2 (sky (i*m + k) (j*m + l)).1) none with
        | none => exact absurd e (hno k l hk hl)
        | some x => simp [omul, mul_comm]

/-- C138 does not hold for view pixels at the rim: let the centre of a view pixel be on the sphere, and one of its sample points
outside. If the map pixel at the rim towards that point is shown by no sample point of the view pixel that is on the
sphere, then there is a map, with just one missing value, such that all map pixels that the view pixel shows have a value,
and the view pixel is missing nevertheless. -/
theorem C138_violated (i j k l : ℕ) (hi : i < ny A) (hj : j < nx A) (hk : k < m) (hl : l < m)
    (hon : OnSphere A.radius (point A 1 1 i j)) (hoff : ¬ OnSphere A.radius (point A m m (i*m + k) (j*m + l)))
    (hsep : ∀ d d' k' l', k' < m → l' < m → (0 ≤ d.2 ∧ d.2 ≤ Real.pi) → (0 ≤ d'.2 ∧ d'.2 ≤ Real.pi) →
      OnRim c (point A m m (i*m + k) (j*m + l)) d → OnSphere A.radius (point A m m (i*m + k') (j*m + l')) →
      SeenAt A.radius c (point A m m (i*m + k') (j*m + l')) d' → ang2pix n d'.2 d'.1 ≠ ang2pix n d.2 d.1)
    (s : Ortho.State) :
    ∃ (f : List (Option ℝ)) (p : ℕ) (out : Arr2 (Option ℝ)) (s' : Ortho.State), f.length = 12*n.toNat^2 ∧
      (∀ q, q < 12*n.toNat^2 → (f.getD q none = none ↔ q = p)) ∧
      (∀ k' l' d', k' < m → l' < m → OnSphere A.radius (point A m m (i*m + k') (j*m + l')) →
        SeenAt A.radius c (point A m m (i*m + k') (j*m + l')) d' → (0 ≤ d'.2 ∧ d'.2 ≤ Real.pi) →
        f.getD (ang2pix n d'.2 d'.1) none ≠ none) ∧
      (do setupMap n; setupBox ang2pix A; remap f none : Meth Ortho.State _) s = (.ok out, s') ∧
      out.val i j = none := by
  -- the directions do not depend on the map
  obtain ⟨sky, s', e, hs⟩ := setup_run ang2pix hA (by omega) (by omega) hn s
  have hkl : i*m + k < m*ny A ∧ j*m + l < m*nx A := ⟨sub_lt hk hi, sub_lt hl hj⟩
  have h2 := hs.range
  have h3 := hs.rim
  rw [hx, hy] at h2 h3
  set d := sky (i*m + k) (j*m + l) with hd
  set p := ang2pix n d.2 d.1 with hp
  have hval : ∀ q, q < 12*n.toNat^2 →
      ((List.range (12*n.toNat^2)).map fun q => if q = p then none else some (0:ℝ)).getD q none
        = if q = p then none else some 0 := by
    intro q hq
    simp [List.getD_eq_getElem?_getD, List.getElem?_map, List.getElem?_range hq]
  obtain ⟨out, o1, -, -, o4⟩ := remap1_opt ang2pix hA hm hx hy hs
    ((List.range (12*n.toNat^2)).map fun q => if q = p then none else some (0:ℝ))
    (fun k l => ((List.range (12*n.toNat^2)).map fun q => if q = p then none else some (0:ℝ)).getD
      (ang2pix n (sky k l).2 (sky k l).1) none) (by
      intro i j _ _
      have := hpix (sky i j).2 (sky i j).1
      simp [List.getD_eq_getElem?_getD, List.getElem?_map, List.getElem?_range this])
  refine ⟨(List.range (12*n.toNat^2)).map fun q => if q = p then none else some (0:ℝ), p, out, s', by simp, ?_, ?_, ?_,
    ?_⟩
  · intro q hq
    rw [hval q hq]
    split_ifs with h <;> simp [h]
  · intro k' l' d' hk' hl' hon' hseen hr'
    rw [hval _ (hpix _ _), if_neg]
    · simp
    · exact hsep d d' k' l' hk' hl' (h2 _ _ hkl.1 hkl.2) hr' (h3 _ _ hkl.1 hkl.2 hoff) hon' hseen
  · simp only [Meth.bind_apply] at e ⊢
    unfold setupMap at e ⊢
    simp only [Meth.bind_apply, Meth.lift_apply, Meth.assign_apply, pyAssert, if_pos (show Cube.isNsideOk n from hn)]
      at e ⊢
    rw [e]
    exact o1
  · refine (o4 i j hi hj).1 ⟨k, l, hk, hl, ?_⟩
    show List.getD _ (ang2pix n d.2 d.1) none = none
    rw [hval _ (hpix _ _), if_pos rfl]

end

/-! ### Examples -/

/-- A view of the disc of radius 1 in four pixels, with `rebin_x = rebin_y = 2`. -/
noncomputable def exRim : BoxArgs := ⟨2, 2, [1, 1], none, none, 2, 2, 1⟩

theorem exRim_ok : Valid exRim (1, 1) := by
  have hpi := Real.two_le_pi
  exact ⟨by simp [exRim], by simp [exRim], rfl, by simp [exRim], ⟨by norm_num, by simp only; linarith⟩,
    ⟨by norm_num, by simp only; linarith⟩⟩

open Classical in
/-- The hypotheses of the theorems are met, those of `C138_violated` in the corner of `exRim`, for two map pixels: the directions on
the rim, and the others. -/
example : Valid exRim (1, 1) ∧ OnSphere exRim.radius (point exRim 1 1 0 0) ∧
    ¬ OnSphere exRim.radius (point exRim 2 2 (0*2 + 0) (0*2 + 0)) ∧
    ∀ d d' : ℝ × ℝ, ∀ k' l', k' < 2 → l' < 2 → OnRim (1, 1) (point exRim 2 2 (0*2 + 0) (0*2 + 0)) d →
      OnSphere exRim.radius (point exRim 2 2 (0*2 + k') (0*2 + l')) →
      SeenAt exRim.radius (1, 1) (point exRim 2 2 (0*2 + k') (0*2 + l')) d' →
      (if dir d'.1 d'.2 ⬝ᵥ dir 1 1 = 0 then 0 else 1) ≠ (if dir d.1 d.2 ⬝ᵥ dir 1 1 = 0 then 0 else 1) := by
  have hn : nx exRim = 2 := rfl
  have hn' : ny exRim = 2 := rfl
  have hoff : ¬ OnSphere exRim.radius (point exRim 2 2 (0*2 + 0) (0*2 + 0)) := by
    simp only [OnSphere, point, hn, hn', midAt, edgeAt]
    norm_num [exRim]
  refine ⟨exRim_ok, ?_, hoff, ?_⟩
  · simp only [OnSphere, point, hn, hn', midAt, edgeAt]
    norm_num [exRim]
  · intro d d' k' l' _ _ hrim hon hseen
    obtain ⟨-, -, d1, -, d2, d3⟩ := frame_dots (1, 1)
    have e1 : dir d.1 d.2 ⬝ᵥ dir 1 1 = 0 := by
      have h := congrArg (· ⬝ᵥ dir 1 1) hrim
      simp only [add_dotProduct, smul_dotProduct, smul_eq_mul] at h d2 d3
      rw [d2, d3] at h
      refine (mul_eq_zero.mp (h.trans (by ring))).resolve_left (ne_of_gt (Real.sqrt_pos.mpr ?_))
      have h0 : exRim.radius = 1 := rfl
      unfold OnSphere at hoff
      rw [h0] at hoff
      linarith
    have e2 : dir d'.1 d'.2 ⬝ᵥ dir 1 1 ≠ 0 := by
      have h := congrArg (· ⬝ᵥ dir 1 1) hseen
      simp only [add_dotProduct, smul_dotProduct, smul_eq_mul] at h d1 d2 d3
      rw [d1, d2, d3, mul_zero, mul_zero, add_zero, zero_add, mul_one] at h
      have hp := Real.sqrt_pos.mpr (show 0 < exRim.radius^2 - (point exRim 2 2 (0*2 + k') (0*2 + l')).1^2
        - (point exRim 2 2 (0*2 + k') (0*2 + l')).2^2 by unfold OnSphere at hon; linarith)
      rw [← h] at hp
      exact fun h => by rw [h, mul_zero] at hp; exact lt_irrefl _ hp
    rw [if_pos e1, if_neg e2]
    norm_num

end Magpie.Props
