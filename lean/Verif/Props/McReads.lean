import Verif.Props.McLimit
import Verif.Props.McCubeLimit

/-!
# Property C72: a Monte Carlo remap reads the pixel that was hit

`Reads`, `mean`, `wmean`, `meanOrUnseen` and `wmeanOrUnseen` are in `Verif/Spec/McBox2Ring.lean` and
`Verif/Spec/McCube2Shell.lean`.
-/

set_option linter.unusedSimpArgs false
set_option linter.unusedVariables false
set_option linter.unusedSectionVars false

namespace Magpie.Props
open Magpie Magpie.Radial Magpie.OneD Magpie.Spec Magpie.Box2Ring Magpie.Mc

/-! ## C72 -/

theorem inBin_mid {lo hi : ℝ} {m k : ℕ} {x : ℝ} (hlt : lo < hi) (hb : InBin lo hi m k x) :
    |x - midAt lo hi m k| ≤ (hi - lo)/m/2 := by
  obtain ⟨hk, h1, h2⟩ := hb
  have hm : 0 < m := by omega
  have h3 : x ≤ edgeAt lo hi m (k+1) := by
    rcases h2 with h2 | ⟨h2, h3⟩
    · exact h2.le
    · rw [h2, edgeAt_last _ _ _ hm, h3]
  have h4 := edgeAt_diff lo hi m k
  unfold midAt
  rw [abs_le]
  constructor <;> linarith

theorem sum_reads {α β : Type} {F : α → ℝ} {R : α → Option β → Prop} {φ : β → ℝ}
    (h0 : ∀ x, R x none → F x = 0) (h1 : ∀ x y, R x (some y) → F x = φ y) {l : List α} {g : List (Option β)}
    (h : List.Forall₂ R l g) : (l.map F).sum = ((g.filterMap id).map φ).sum := by
  induction h with
  | nil => simp
  | @cons x o l g hx hl ih =>
    cases o with
    | none => rw [List.map_cons, List.sum_cons, h0 x hx, ih]; simp
    | some y => rw [List.map_cons, List.sum_cons, h1 x y hx, ih]; simp

section
variable (B : BoxArgs) (G : Grid) (hB : BoxOk B) (hG : G.Ok) (n : ℕ) (hn : 1 < n)
  (draws : ℕ → ℕ → List ℝ × List ℝ) (hd : ∀ i j, i < G.nump → j < G.numr → Draws n (draws i j))
  (f : Arr2 (Option ℝ)) (v : ℕ → ℕ → ℝ) (hf : f.rows = B.numy.toNat ∧ f.cols = B.numx.toNat)
  (hv : ∀ i j, i < f.rows → j < f.cols → f.val i j = some (v i j))
include hB hG hn hd hf hv

theorem reads_box_out {β : Type} {u : ℕ → ℕ → β} (w : ℕ → ℕ → ℝ) (x : ℝ × ℝ) (h : Mc.Reads B u x none) :
    boxVal B w x = 0 := by
  refine boxVal_out _ ?_
  rintro ⟨a, b, hab⟩
  exact absurd (h.1 a b hab) (by simp)

/-- C72 for `Box2Ring`: whenever `remap` returns, on an object with any history, each value is the mean over the
random points of the polar pixel that are in the box, a point in column `a`, row `b` counting with `f[b, a]` (and
with weight `w[b, a]` if there are weights); and `x2d[b, a]`, `y2d[b, a]` is the centre of that box pixel: it is at
most half a pixel away from the point. -/
theorem C72_box2ring (w : Option (Arr2 ℝ)) (hw : ∀ t, w = some t → t.rows = B.numy.toNat ∧ t.cols = B.numx.toNat)
    (s s' : Mc.State) (out : Arr2 (Option ℝ)) (ho : mcRemap B G n draws f w s = (.ok out, s')) :
    (∀ i j, i < G.nump → j < G.numr →
      (∀ g, List.Forall₂ (Mc.Reads B v) (G.points i j (draws i j)) g → w = none →
        out.val i j = mean (g.filterMap id)) ∧
      (∀ g t, List.Forall₂ (Mc.Reads B fun b a => (t.val b a, v b a)) (G.points i j (draws i j)) g → w = some t →
        out.val i j = wmean (g.filterMap id))) ∧
    ∃ bx, (setupBox B s).2.box = some bx ∧ ∀ pt a b, InPixel B pt a b →
      |pt.1 - bx.x2d.val b a| ≤ (B.xmax - B.xmin)/B.numx.toNat/2 ∧
      |pt.2 - bx.y2d.val b a| ≤ (B.ymax - B.ymin)/B.numy.toNat/2 := by
  refine ⟨fun i j hi hj => ?_, B.box, by rw [setupBox_ok hB.numx hB.numy], fun pt a b hab => ?_⟩
  · have key := ok_value hB hG hn draws hd f v hf hv w hw ho hi hj
    have hin : ∀ {β : Type} (u : ℕ → ℕ → β) (x : ℝ × ℝ) (y : β), Mc.Reads B u x (some y) →
        ∃ a b, InPixel B x a b ∧ y = u b a := by
      intro β u x y h
      by_cases hc : ∃ a b, InPixel B x a b
      · obtain ⟨a, b, hab⟩ := hc
        exact ⟨a, b, hab, by simpa using h.1 a b hab⟩
      · exact absurd (h.2 hc) (by simp)
    refine ⟨fun g hg hw0 => ?_, fun g t hg hw1 => ?_⟩
    · subst hw0
      rw [key, sum_reads (fun x h => reads_box_out B G hB hG n hn draws hd f v hf hv _ x h) (φ := id) ?_ hg,
        sum_reads (fun x h => reads_box_out B G hB hG n hn draws hd f v hf hv _ x h) (φ := fun _ => 1) ?_ hg]
      · unfold mean fdiv
        simp only [List.map_id, List.map_const', List.sum_replicate, nsmul_eq_mul, mul_one,
          Nat.cast_eq_zero, List.length_eq_zero_iff]
      · intro x y h
        obtain ⟨a, b, hab, e⟩ := hin _ x y h
        rw [boxVal_in hB _ hab]; rfl
      · intro x y h
        obtain ⟨a, b, hab, e⟩ := hin _ x y h
        rw [boxVal_in hB _ hab, e]
        simp [wOf]
    · subst hw1
      rw [key, sum_reads (fun x h => reads_box_out B G hB hG n hn draws hd f v hf hv _ x h)
          (φ := fun p : ℝ × ℝ => p.1*p.2) ?_ hg,
        sum_reads (fun x h => reads_box_out B G hB hG n hn draws hd f v hf hv _ x h) (φ := Prod.fst) ?_ hg]
      · rfl
      · intro x y h
        obtain ⟨a, b, hab, e⟩ := hin _ x y h
        rw [boxVal_in hB _ hab, e]; rfl
      · intro x y h
        obtain ⟨a, b, hab, e⟩ := hin _ x y h
        rw [boxVal_in hB _ hab, e]; rfl
  · obtain ⟨h1, h2⟩ := hab
    have ex : B.box.x2d.val b a = midAt B.xmin B.xmax B.numx.toNat a := mids_getD _ _ _ _ h1.1
    have ey : B.box.y2d.val b a = midAt B.ymin B.ymax B.numy.toNat b := mids_getD _ _ _ _ h2.1
    rw [ex, ey]
    exact ⟨inBin_mid hB.hx h1, inBin_mid hB.hy h2⟩

end

/-- `remap` does return, on a new object as on a used one, for a half disc in a box of two pixels and suitable
draws. -/
example (x y : ℝ) (s : Mc.State) : ∃ out s', mcRemap exBoxTwo (.lin exHalf) 2 exDraws
    ⟨1, 2, fun _ j => some (if j = 0 then x else y)⟩ none s = (.ok out, s') := by
  obtain ⟨out, s', h, -⟩ := C71_remap_partial exBoxTwo (.lin exHalf) exBoxTwo_ok exHalf_ok 2 (by norm_num) exDraws
    (fun i j _ _ => exDraws_ok i j) ⟨1, 2, fun _ j => some (if j = 0 then x else y)⟩
    (fun _ j => if j = 0 then x else y) (by simp [exBoxTwo]) (fun i j _ _ => rfl) exDraws_differ s
  exact ⟨out, s', h⟩

section
open Magpie.Cube Magpie.McCube Magpie.Healpix

/-- The value of a pixel of `Cube2Shell` in terms of what the data have at its random points. -/
theorem valueAt_reads {C : CubeArgs} (hC : CubeOk C) (w : Option (Arr3 ℝ)) (v : ℕ → ℕ → ℕ → ℝ)
    (pts : List (ℝ × ℝ × ℝ)) :
    (∀ g, List.Forall₂ (McCube.Reads C v) pts g → w = none →
      valueAt C w v pts = some (meanOrUnseen (g.filterMap id))) ∧
    (∀ g t, List.Forall₂ (McCube.Reads C fun b a c => (t.val b a c, v b a c)) pts g → w = some t →
      valueAt C w v pts = wmeanOrUnseen (g.filterMap id)) := by
  have hin : ∀ {β : Type} (u : ℕ → ℕ → ℕ → β) (x : ℝ × ℝ × ℝ) (y : β), McCube.Reads C u x (some y) →
      ∃ a b c, InVoxel C x a b c ∧ y = u b a c := by
    intro β u x y h
    by_cases hc : ∃ a b c, InVoxel C x a b c
    · obtain ⟨a, b, c, hab⟩ := hc
      exact ⟨a, b, c, hab, by simpa using h.1 a b c hab⟩
    · exact absurd (h.2 hc) (by simp)
  have hout : ∀ {β : Type} {u : ℕ → ℕ → ℕ → β} (w : ℕ → ℕ → ℕ → ℝ) (x : ℝ × ℝ × ℝ),
      McCube.Reads C u x none → voxVal C w x = 0 := by
    intro β u w x h
    refine voxVal_out _ ?_
    rintro ⟨a, b, c, hab⟩
    exact absurd (h.1 a b c hab) (by simp)
  have hcount : ∀ {β : Type} (u : ℕ → ℕ → ℕ → β) {l g}, List.Forall₂ (McCube.Reads C u) l g →
      (l.map (voxVal C fun _ _ _ => 1)).sum = (g.filterMap id).length := by
    intro β u l g hg
    rw [sum_reads (fun x h => hout _ x h) (φ := fun _ => 1) ?_ hg]
    · simp
    · intro x y h
      obtain ⟨a, b, c, hab, e⟩ := hin _ x y h
      rw [voxVal_in hC _ hab]
  refine ⟨fun g hg hw0 => ?_, fun g t hg hw1 => ?_⟩
  · subst hw0
    have hsum := sum_reads (F := voxVal C fun b a c => McCube.wOf none b a c*v b a c)
      (fun x h => hout _ x h) (φ := id) (by
        intro x y h
        obtain ⟨a, b, c, hab, e⟩ := hin _ x y h
        rw [voxVal_in hC _ hab, e]
        simp [McCube.wOf]) hg
    have hc := hcount v hg
    unfold valueAt
    have hc' : (pts.map (voxVal C (McCube.wOf none))).sum
      = (g.filterMap id).length := hc
    rw [hsum, hc', hc]
    unfold meanOrUnseen fdiv
    simp only [List.map_id, Nat.cast_eq_zero, List.length_eq_zero_iff]
    split_ifs <;> rfl
  · subst hw1
    have hsum := sum_reads (F := voxVal C fun b a c => McCube.wOf (some t) b a c*v b a c)
      (fun x h => hout _ x h) (φ := fun p : ℝ × ℝ => p.1*p.2) (by
        intro x y h
        obtain ⟨a, b, c, hab, e⟩ := hin _ x y h
        rw [voxVal_in hC _ hab, e]
        rfl) hg
    have hsum' := sum_reads (F := voxVal C (McCube.wOf (some t)))
      (fun x h => hout _ x h) (φ := (Prod.fst : ℝ × ℝ → ℝ)) (by
        intro x y h
        obtain ⟨a, b, c, hab, e⟩ := hin _ x y h
        rw [voxVal_in hC _ hab, e]
        rfl) hg
    have hc := hcount _ hg
    unfold valueAt
    rw [hsum, hsum', hc]
    unfold wmeanOrUnseen
    simp only [Nat.cast_eq_zero, List.length_eq_zero_iff]
    rfl

end

section
open Magpie.Cube Magpie.McCube Magpie.Healpix
variable (C : CubeArgs) (G : Shells) (hC : CubeOk C) (hG : G.Ok) (n : ℕ) (hn : 0 < n)
  (draws : ℕ → ℕ → Draw) (hd : ∀ i j, i < G.numr → j < G.npix → McCube.Draws n (draws i j))
  (dirs : ℕ → ℕ → List (ℝ × ℝ)) (hs : Samples G draws dirs)
  (f : Arr3 (Option ℝ)) (v : ℕ → ℕ → ℕ → ℝ) (hf : Fits C f)
  (hv : ∀ i j k, i < f.n0 → j < f.n1 → k < f.n2 → f.val i j k = some (v i j k))
include hC hG hn hd hs hf hv

/-- C72 for `Cube2Shell`: a random point in the voxel `a` along `x`, `b` along `y`, `c` along `z` counts with
`f[b, a, c]`. -/
theorem C72_cube2shell (w : Option (Arr3 ℝ)) (hw : ∀ t, w = some t → Fits C t)
    (s s' : McCube.State) (out : Arr2 (Option ℝ)) (ho : McCube.mcRemap C G n draws f w s = (.ok out, s')) :
    (∀ i j, i < G.numr → j < G.npix →
      (∀ g, List.Forall₂ (McCube.Reads C v) (G.points i (draws i j).ur (dirs i j)) g → w = none →
        out.val i j = some (meanOrUnseen (g.filterMap id))) ∧
      (∀ g t, List.Forall₂ (McCube.Reads C fun b a c => (t.val b a c, v b a c))
          (G.points i (draws i j).ur (dirs i j)) g → w = some t →
        out.val i j = wmeanOrUnseen (g.filterMap id))) ∧
    ∃ gr, (McCube.setupCube C s).2.cube = some gr ∧ ∀ pt a b c, InVoxel C pt a b c →
      |pt.1 - gr.x3d.val b a c| ≤ (C.xmax - C.xmin)/C.numx.toNat/2 ∧
      |pt.2.1 - gr.y3d.val b a c| ≤ (C.ymax - C.ymin)/C.numy.toNat/2 ∧
      |pt.2.2 - gr.z3d.val b a c| ≤ (C.zmax - C.zmin)/C.numz.toNat/2 := by
  refine ⟨fun i j hi hj => ?_, C.grid, by rw [McCube.setupCube_ok hC], fun pt a b c hab => ?_⟩
  · have key := McCube.ok_value hC hG hn draws hd dirs hs f v hf hv w hw ho hi hj
    rw [key]
    exact valueAt_reads hC w v _
  · obtain ⟨h1, h2, h3⟩ := hab
    have ex : C.grid.x3d.val b a c = midAt C.xmin C.xmax C.numx.toNat a := mids_getD _ _ _ _ h1.1
    have ey : C.grid.y3d.val b a c = midAt C.ymin C.ymax C.numy.toNat b := mids_getD _ _ _ _ h2.1
    have ez : C.grid.z3d.val b a c = midAt C.zmin C.zmax C.numz.toNat c := mids_getD _ _ _ _ h3.1
    rw [ex, ey, ez]
    exact ⟨inBin_mid hC.hx h1, inBin_mid hC.hy h2, inBin_mid hC.hz h3⟩

end

end Magpie.Props
