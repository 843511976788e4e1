import Verif.Proof.Lines

/-!
# Property C139: straight lines look straight

The definitions are in `Verif/Spec/PointOfView.lean` (`rel`, `InFront`) and `Verif/Spec/Lines.lean` (`onLine`, `onLine2`, `steps`).
Each theorem gives the function `out` that `transform` applies to every row of arrays, whatever was called before, and says
what it does.
-/

set_option linter.unusedVariables false

namespace Magpie.Props
open Magpie Magpie.Pov Magpie.Coords Magpie.Spec Magpie.Lines Matrix Real Filter Topology

section
variable (camera point : ℝ × ℝ × ℝ) (hcp : point ≠ camera) (display spin : ℝ) (h0 : 0 ≤ spin) (h1 : spin < 2*π)
include hcp h0 h1

/-- C139: the points of a straight line between two points in front of the camera appear on the straight line between
their images, with the ends at the ends. -/
theorem C139_segment : ∃ out : ℝ × ℝ × ℝ → Option (ℝ × ℝ) × ℝ,
    (∀ (rows : List (ℝ × ℝ × ℝ)) (s : State), rows ≠ [] → ∃ s',
      (setup camera point display spin >>= fun _ =>
        transform (rows.map fun q => q.1) (rows.map fun q => q.2.1) (rows.map fun q => q.2.2)) s
        = (.ok (rows.map out), s')) ∧
    ∀ p q t, InFront camera point p → InFront camera point q → 0 ≤ t ∧ t ≤ 1 →
      ∃ b b' u, (out p).1 = some b ∧ (out q).1 = some b' ∧ (out (onLine p q t)).1 = some (onLine2 b b' u) ∧
        (0 ≤ u ∧ u ≤ 1) ∧ (u = 0 ↔ t = 0) ∧ (u = 1 ↔ t = 1) := by
  obtain ⟨n, h, v, out, hS, ht⟩ := exists_shows camera point hcp display spin h0 h1
  exact ⟨out, ht, fun p q t hp hq h => seg hS hp hq h⟩

/-- C139: three points on a straight line appear on a straight line wherever they are, if they have finite images. -/
theorem C139_line : ∃ out : ℝ × ℝ × ℝ → Option (ℝ × ℝ) × ℝ,
    (∀ (rows : List (ℝ × ℝ × ℝ)) (s : State), rows ≠ [] → ∃ s',
      (setup camera point display spin >>= fun _ =>
        transform (rows.map fun q => q.1) (rows.map fun q => q.2.1) (rows.map fun q => q.2.2)) s
        = (.ok (rows.map out), s')) ∧
    ∀ p q t b b' b'', (out p).1 = some b → (out q).1 = some b' → (out (onLine p q t)).1 = some b'' →
      (b'.1 - b.1)*(b''.2 - b.2) = (b'.2 - b.2)*(b''.1 - b.1) := by
  obtain ⟨n, h, v, out, hS, ht⟩ := exists_shows camera point hcp display spin h0 h1
  exact ⟨out, ht, fun p q t b b' b'' hp hq hr => line hS hp hq hr⟩

/-- C139: two points in front of the camera appear at the same place if and only if they are on the same line of sight; if
their distance is the same too, they are the same point. -/
theorem C139_sight (hd : display ≠ 0) : ∃ out : ℝ × ℝ × ℝ → Option (ℝ × ℝ) × ℝ,
    (∀ (rows : List (ℝ × ℝ × ℝ)) (s : State), rows ≠ [] → ∃ s',
      (setup camera point display spin >>= fun _ =>
        transform (rows.map fun q => q.1) (rows.map fun q => q.2.1) (rows.map fun q => q.2.2)) s
        = (.ok (rows.map out), s')) ∧
    ∀ p q, InFront camera point p → InFront camera point q →
      ((out p).1 = (out q).1 ↔ ∃ t : ℝ, 0 < t ∧ rel camera q = t • rel camera p) ∧ (out p = out q → p = q) := by
  obtain ⟨n, h, v, out, hS, ht⟩ := exists_shows camera point hcp display spin h0 h1
  exact ⟨out, ht, fun p q hp hq => ⟨sight hS hd hp hq, unique hS hd hp hq⟩⟩

/-- C139: parallel lines that lead away from the camera run together in one point of the view, the one where the camera sees
their direction. -/
theorem C139_parallel : ∃ out : ℝ × ℝ × ℝ → Option (ℝ × ℝ) × ℝ,
    (∀ (rows : List (ℝ × ℝ × ℝ)) (s : State), rows ≠ [] → ∃ s',
      (setup camera point display spin >>= fun _ =>
        transform (rows.map fun q => q.1) (rows.map fun q => q.2.1) (rows.map fun q => q.2.2)) s
        = (.ok (rows.map out), s')) ∧
    ∀ w, InFront camera point (steps camera w 1) → ∃ b₁, (out (steps camera w 1)).1 = some b₁ ∧
      ∀ p, ∃ b : ℝ → ℝ × ℝ, (∀ᶠ t in atTop, InFront camera point (steps p w t) ∧ (out (steps p w t)).1 = some (b t)) ∧
        Tendsto b atTop (𝓝 b₁) := by
  obtain ⟨n, h, v, out, hS, ht⟩ := exists_shows camera point hcp display spin h0 h1
  refine ⟨out, ht, fun w hw => ?_⟩
  obtain ⟨b₁, -, e, -⟩ := vanish hS (0, 0, 0) hw
  refine ⟨b₁, e, fun p => ?_⟩
  obtain ⟨b₂, b, e', hb, hl⟩ := vanish hS p hw
  rw [e, Option.some.injEq] at e'
  exact ⟨b, hb, e' ▸ hl⟩

/-- C139 for points behind the camera: each of them is shown at the place and with the distance of its mirror image in front of
it. So `C139_sight` needs its hypotheses: the place and the distance of a point in the view do not say whether it is in front of
the camera or behind it. -/
theorem C139_behind : ∃ out : ℝ × ℝ × ℝ → Option (ℝ × ℝ) × ℝ,
    (∀ (rows : List (ℝ × ℝ × ℝ)) (s : State), rows ≠ [] → ∃ s',
      (setup camera point display spin >>= fun _ =>
        transform (rows.map fun q => q.1) (rows.map fun q => q.2.1) (rows.map fun q => q.2.2)) s
        = (.ok (rows.map out), s')) ∧
    ∀ q, out (onLine camera q (-1)) = out q ∧
      (InFront camera point q → ¬ InFront camera point (onLine camera q (-1)) ∧ (out q).1 ≠ none) := by
  obtain ⟨n, h, v, out, hS, ht⟩ := exists_shows camera point hcp display spin h0 h1
  refine ⟨out, ht, fun q => ⟨mirror hS q, fun hq => ⟨?_, ?_⟩⟩⟩
  · rw [depth_pos hS] at hq ⊢
    have e := rel_onLine camera camera q (-1) n
    have e0 : rel camera camera = 0 := by ext i; fin_cases i <;> simp [rel]
    rw [e0, zero_dotProduct] at e
    linarith
  · rw [depth_pos hS] at hq
    rw [hS.view q hq.ne']
    simp

end

/-- The hypotheses are met: a camera at the origin that looks along the diagonal and is turned, two points in front of it that are
not on the same line of sight, a point halfway, and a direction that leads away. -/
example : ((1, 1, 1) : ℝ × ℝ × ℝ) ≠ (0, 0, 0) ∧ (0:ℝ) ≤ 1 ∧ (1:ℝ) < 2*π ∧ InFront (0, 0, 0) (1, 1, 1) (1, 0, 0) ∧
    InFront (0, 0, 0) (1, 1, 1) (0, 2, 0) ∧ onLine (1, 0, 0) (0, 2, 0) (1/2) = (1/2, 1, 0) ∧
    InFront (0, 0, 0) (1, 1, 1) (steps (0, 0, 0) (3, -1, 0) 1) := by
  refine ⟨by simp, by norm_num, by have := two_le_pi; linarith, ?_, ?_, ?_, ?_⟩ <;>
    simp [InFront, rel, dotProduct, Fin.sum_univ_three, onLine, steps] <;> norm_num

end Magpie.Props
