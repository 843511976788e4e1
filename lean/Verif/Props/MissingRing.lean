import Verif.Props.Box2RingMask
import Verif.Proof.MissingRing

/-!
# Property C140: a missing pixel of a polar map spoils the profile at its radius only

`meanOrMissing` is defined in `Verif/Spec/MissingRing.lean`: the weighted mean, missing if a value is missing or the weights
add up to zero. A missing value (NaN) is `none`.
-/

set_option linter.unusedSimpArgs false
set_option linter.unusedVariables false
set_option linter.unusedSectionVars false

namespace Magpie.Props
open Magpie Magpie.Radial Magpie.OneD Magpie.Spec Magpie.Box2Ring Finset

/-- C140 for the function `polar2radial` without weights: the profile at each radius is the mean over the pixels at this
radius, and missing if and only if one of them is missing (or there are none). -/
theorem C140_profile (f : Arr2 (Option ℝ)) :
    Radial.polar2radial f none
      = .ok ((List.range f.cols).map fun j => meanOrMissing f.rows (fun _ => 1) (fun i => f.val i j)) :=
  radial_none_opt f

/-- C140 with weights: the same with the weighted mean.

Partial: pixels with weight zero should not matter (the documentation recommends weights as a binary mask), but a missing
pixel spoils the profile at its radius even then, see `C140_masked_violated`. -/
theorem C140_weighted_partial (f : Arr2 (Option ℝ)) (w : Arr2 ℝ) (hw : w.sameShape f) :
    Radial.polar2radial f (some w)
      = .ok ((List.range f.cols).map fun j => meanOrMissing f.rows (fun i => w.val i j) (fun i => f.val i j)) :=
  radial_some_opt f w hw

/-- C140 for `polar2radial` of the dense grid class, whatever was called before, if the mask used has only the values `0` and
`1`: pixels with mask `0` do not matter, missing or not, and the profile at each radius is the weighted mean over the others,
missing if one of them is missing.

Partial: masks with other values (see C75), and weights that are zero, as in `C140_weighted_partial`. -/
theorem C140_dense_partial (s : Dg.State) (f : Arr2 (Option ℝ)) (sigma w : Option (Arr2 ℝ))
    (out : Box2Ring.Radial) (M : Arr2 ℝ) (ho : (Dg.polar2radial f sigma w s).1 = .ok out)
    (hM : (Dg.polar2radial f sigma w s).2.maskInBound = some M) (h01 : Mask01 M)
    (hf : f.sameShape M) (hs : ∀ t, sigma = some t → t.sameShape M) (hw : ∀ t, w = some t → t.sameShape M) :
    out.f = (List.range f.cols).map fun j => meanOrMissing f.rows (fun i => effW M w i j)
      (fun i => if M.val i j = 1 then f.val i j else some 0) := by
  obtain ⟨a, px, p, M', h1, h2, h3, h4, h5, h6, h7⟩ := polar2radial_ok Dg.maskBy f sigma w s out ho
  obtain rfl : M = M' := Option.some.inj (hM.symm.trans h7)
  exact radialOf_opt p a px M h01 f sigma w hf hs hw out h6

/-- C140 for `polar2radial` of the Monte Carlo class, after any sequence of calls; its masks have only the values `0` and `1`.

Partial: weights that are zero, as in `C140_weighted_partial`. -/
theorem C140_mc_partial (h : List (Call Mc.Setup)) (f : Arr2 (Option ℝ)) (sigma w : Option (Arr2 ℝ))
    (out : Box2Ring.Radial) (M : Arr2 ℝ)
    (ho : (Mc.polar2radial f sigma w (Mc.cls.run h init).2).1 = .ok out)
    (hM : (Mc.polar2radial f sigma w (Mc.cls.run h init).2).2.maskInBound = some M)
    (hf : f.sameShape M) (hs : ∀ t, sigma = some t → t.sameShape M) (hw : ∀ t, w = some t → t.sameShape M) :
    out.f = (List.range f.cols).map fun j => meanOrMissing f.rows (fun i => effW M w i j)
      (fun i => if M.val i j = 1 then f.val i j else some 0) := by
  have h01 : Mask01 M := by
    have e := Mc.run_mask01 (h ++ [.radial f sigma w]) init (by intro M h; cases h) M
    rw [run_append] at e
    exact e hM
  obtain ⟨a, px, p, M', h1, h2, h3, h4, h5, h6, h7⟩ := polar2radial_ok Mc.maskBy f sigma w _ out ho
  obtain rfl : M = M' := Option.some.inj (hM.symm.trans h7)
  exact radialOf_opt p a px M h01 f sigma w hf hs hw out h6

/-- C140 is local: maps that agree at one radius have the same profile there. -/
theorem C140_local (f g : Arr2 (Option ℝ)) (w : Option (Arr2 ℝ)) (j : ℕ) (hj : j < f.cols) (hg : f.sameShape g)
    (hw : ∀ t, w = some t → t.sameShape f) (h : ∀ i, i < f.rows → f.val i j = g.val i j) :
    ∃ a b, Radial.polar2radial f w = .ok a ∧ Radial.polar2radial g w = .ok b ∧ j < a.length ∧ a[j]? = b[j]? := by
  obtain ⟨g1, g2⟩ : f.rows = g.rows ∧ f.cols = g.cols := hg
  cases w with
  | none =>
    refine ⟨_, _, radial_none_opt f, radial_none_opt g, by simpa using hj, ?_⟩
    simp only [List.getElem?_map, List.getElem?_range hj, List.getElem?_range (g2 ▸ hj), Option.map_some, ← g1]
    rw [meanOrMissing_congr (fun _ _ => rfl) h]
  | some w =>
    obtain ⟨w1, w2⟩ : w.rows = f.rows ∧ w.cols = f.cols := hw w rfl
    refine ⟨_, _, radial_some_opt f w ⟨w1, w2⟩, radial_some_opt g w ⟨w1.trans g1, w2.trans g2⟩, by simpa using hj, ?_⟩
    simp only [List.getElem?_map, List.getElem?_range hj, List.getElem?_range (g2 ▸ hj), Option.map_some, ← g1]
    rw [meanOrMissing_congr (fun _ _ => rfl) h]

/-- C140 is violated for missing pixels that are masked by weight zero: wherever they are, and whatever the other pixels and
weights are, the profile at their radius is missing. -/
theorem C140_masked_violated (f : Arr2 (Option ℝ)) (w : Arr2 ℝ) (hw : w.sameShape f) (i j : ℕ) (hi : i < f.rows)
    (hj : j < f.cols) (hf : f.val i j = none) (h0 : w.val i j = 0) :
    ∃ out, Radial.polar2radial f (some w) = .ok out ∧ out[j]? = some none := by
  refine ⟨_, radial_some_opt f w hw, ?_⟩
  simp only [List.getElem?_map, List.getElem?_range hj, Option.map_some, Option.some.injEq]
  unfold meanOrMissing
  rw [if_pos (Or.inl ⟨i, hi, hf⟩)]

/-! ### Examples -/

/-- Three sectors and two radii; one pixel is missing. -/
def exGap : Arr2 (Option ℝ) := ⟨3, 2, fun i j => if i = 1 ∧ j = 0 then none else some (i + 10*j)⟩

/-- The profile of `exGap` is missing at the first radius only. -/
example : Radial.polar2radial exGap none = .ok [none, some 11] := by
  rw [C140_profile]
  congr 1
  simp only [exGap, List.range_succ, List.range_zero, List.nil_append, List.map_append, List.map_cons, List.map_nil,
    List.cons_append, List.cons.injEq, and_true]
  constructor
  · unfold meanOrMissing
    rw [if_pos (Or.inl ⟨1, by norm_num, by simp⟩)]
  · unfold meanOrMissing
    rw [if_neg (by simp)]
    simp [Finset.sum_range_succ]
    norm_num

/-- It is missing there also if the weight of the missing pixel is zero and all others are one: then the mean of the other
pixels is `1`. -/
example : ∃ w : Arr2 ℝ, w.sameShape exGap ∧ w.val 1 0 = 0 ∧ exGap.val 1 0 = none ∧ (∀ i j, (i, j) ≠ (1, 0) → w.val i j = 1) ∧
    exGap.val 0 0 = some 0 ∧ exGap.val 2 0 = some 2 :=
  ⟨⟨3, 2, fun i j => if i = 1 ∧ j = 0 then 0 else 1⟩, ⟨rfl, rfl⟩, by simp, by simp [exGap], by simp, by simp [exGap],
    by simp [exGap]⟩

end Magpie.Props
