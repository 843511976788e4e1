import Verif.Model.RandomsUsphere
import Verif.Proof.HealpixCoords

/-!
# Lemmas for the pixel boundary and the pixel sampler
-/

set_option linter.unusedSimpArgs false

namespace Magpie.Healpix
open Spec Real

theorem revIf_false (xy : List ℝ × List ℝ) : revIf false xy = xy := by simp [revIf]

theorem revIf_true (xy : List ℝ × List ℝ) : revIf true xy = (xy.1.reverse, xy.2.reverse) := by
  simp [revIf]

/-- The two half boundaries of a pixel as one list of points. -/
noncomputable def topPts (xp yp d : ℝ) (n : ℕ) : List (ℝ × ℝ) :=
  ((linspace (xp-d) xp (n/2)).map fun x => (x, x - xp + d + yp)) ++
  ((linspace xp (xp+d) (n - n/2)).map fun x => (x, -x + xp + d + yp))

noncomputable def botPts (xp yp d : ℝ) (n : ℕ) : List (ℝ × ℝ) :=
  ((linspace (xp-d) xp (n/2)).map fun x => (x, -x + xp - d + yp)) ++
  ((linspace xp (xp+d) (n - n/2)).map fun x => (x, x - xp - d + yp))

noncomputable def edgePts (xp yp d : ℝ) (n : ℕ) : List (ℝ × ℝ) :=
  topPts xp yp d (n/2) ++ (botPts xp yp d (n - n/2)).reverse

theorem boundaryTop_eq {p N : ℤ} {xp yp : ℝ} (h : pix2xy p N = .ok (xp, yp)) (n : ℕ) :
    boundaryTop p N n false = .ok ((topPts xp yp (getDelta N) n).map Prod.fst,
      (topPts xp yp (getDelta N) n).map Prod.snd) := by
  simp [boundaryTop, topLeft, topRight, h, revIf, topPts, bind, Except.bind, pure, Except.pure,
    Function.comp_def]

theorem boundaryBot_eq {p N : ℤ} {xp yp : ℝ} (h : pix2xy p N = .ok (xp, yp)) (n : ℕ) :
    boundaryBot p N n true = .ok ((botPts xp yp (getDelta N) n).reverse.map Prod.fst,
      (botPts xp yp (getDelta N) n).reverse.map Prod.snd) := by
  simp [boundaryBot, botLeft, botRight, h, revIf, botPts, bind, Except.bind, pure, Except.pure,
    Function.comp_def]

theorem boundary_eq {p N : ℤ} {xp yp : ℝ} (h : pix2xy p N = .ok (xp, yp)) (n : ℕ) (r : Bool) :
    boundary p N n r = .ok (revIf r ((edgePts xp yp (getDelta N) n).map Prod.fst,
      (edgePts xp yp (getDelta N) n).map Prod.snd)) := by
  unfold boundary
  simp only []
  rw [boundaryTop_eq h, boundaryBot_eq h]
  simp [edgePts, bind, Except.bind, pure, Except.pure]

theorem length_edgePts (xp yp d : ℝ) (n : ℕ) : (edgePts xp yp d n).length = n := by
  simp [edgePts, topPts, botPts]; omega

theorem mem_topPts {xp yp d : ℝ} (hd : 0 < d) {n : ℕ} {q : ℝ × ℝ} (h : q ∈ topPts xp yp d n) :
    |q.1 - xp| + |q.2 - yp| = d := by
  unfold topPts at h
  rw [List.mem_append, List.mem_map, List.mem_map] at h
  rcases h with ⟨x, hx, rfl⟩ | ⟨x, hx, rfl⟩
  · obtain ⟨a, b⟩ := mem_linspace_bounds (by linarith) hx
    simp only []
    rw [abs_of_nonpos (by linarith), abs_of_nonneg (by linarith)]; ring
  · obtain ⟨a, b⟩ := mem_linspace_bounds (by linarith) hx
    simp only []
    rw [abs_of_nonneg (by linarith), abs_of_nonneg (by linarith)]; ring

theorem mem_botPts {xp yp d : ℝ} (hd : 0 < d) {n : ℕ} {q : ℝ × ℝ} (h : q ∈ botPts xp yp d n) :
    |q.1 - xp| + |q.2 - yp| = d := by
  unfold botPts at h
  rw [List.mem_append, List.mem_map, List.mem_map] at h
  rcases h with ⟨x, hx, rfl⟩ | ⟨x, hx, rfl⟩
  · obtain ⟨a, b⟩ := mem_linspace_bounds (by linarith) hx
    simp only []
    rw [abs_of_nonpos (by linarith), abs_of_nonpos (by linarith)]; ring
  · obtain ⟨a, b⟩ := mem_linspace_bounds (by linarith) hx
    simp only []
    rw [abs_of_nonneg (by linarith), abs_of_nonpos (by linarith)]; ring

theorem mem_edgePts {xp yp d : ℝ} (hd : 0 < d) {n : ℕ} {q : ℝ × ℝ} (h : q ∈ edgePts xp yp d n) :
    |q.1 - xp| + |q.2 - yp| = d := by
  unfold edgePts at h
  rw [List.mem_append, List.mem_reverse] at h
  rcases h with h | h
  · exact mem_topPts hd h
  · exact mem_botPts hd h

theorem head_append_of_ne {α : Type*} {l m : List α} {a : α} (h : l[0]? = some a) :
    (l ++ m)[0]? = some a := by
  cases l with
  | nil => simp at h
  | cons b l => simpa using h

theorem topPts_head {xp yp d : ℝ} {n : ℕ} (h : 2 ≤ n) :
    (topPts xp yp d n)[0]? = some (xp - d, yp) := by
  unfold topPts
  apply head_append_of_ne
  rw [List.getElem?_map, linspace_head _ _ (by omega)]
  simp

theorem botPts_head {xp yp d : ℝ} {n : ℕ} (h : 2 ≤ n) :
    (botPts xp yp d n)[0]? = some (xp - d, yp) := by
  unfold botPts
  apply head_append_of_ne
  rw [List.getElem?_map, linspace_head _ _ (by omega)]
  simp

theorem edgePts_head {xp yp d : ℝ} {n : ℕ} (h : 4 ≤ n) :
    (edgePts xp yp d n).head? = some (xp - d, yp) := by
  rw [List.head?_eq_getElem?]
  unfold edgePts
  exact head_append_of_ne (topPts_head (by omega))

theorem edgePts_last {xp yp d : ℝ} {n : ℕ} (h : 4 ≤ n) :
    (edgePts xp yp d n).getLast? = some (xp - d, yp) := by
  rw [← List.head?_reverse, List.head?_eq_getElem?]
  unfold edgePts
  rw [List.reverse_append, List.reverse_reverse]
  exact head_append_of_ne (botPts_head (by omega))

theorem mem_linspace_left (a b : ℝ) {n : ℕ} (h : 0 < n) : a ∈ linspace a b n :=
  List.mem_of_getElem? (linspace_head a b h)

theorem mem_linspace_right (a b : ℝ) {n : ℕ} (h : 1 < n) : b ∈ linspace a b n :=
  List.mem_of_getElem? (linspace_last a b h)

/-- From eight points on, all four corners are listed. -/
theorem edgePts_corners {xp yp d : ℝ} {n : ℕ} (h : 8 ≤ n) :
    (xp - d, yp) ∈ edgePts xp yp d n ∧ (xp, yp + d) ∈ edgePts xp yp d n ∧
    (xp + d, yp) ∈ edgePts xp yp d n ∧ (xp, yp - d) ∈ edgePts xp yp d n := by
  unfold edgePts topPts botPts
  simp only [List.mem_append, List.mem_reverse, List.mem_map, Prod.mk.injEq]
  refine ⟨?_, ?_, ?_, ?_⟩
  · exact Or.inl (Or.inl ⟨_, mem_linspace_left _ _ (by omega), rfl, by ring⟩)
  · exact Or.inl (Or.inl ⟨_, mem_linspace_right _ _ (by omega), rfl, by ring⟩)
  · exact Or.inl (Or.inr ⟨_, mem_linspace_right _ _ (by omega), rfl, by ring⟩)
  · exact Or.inr (Or.inl ⟨_, mem_linspace_right _ _ (by omega), rfl, by ring⟩)

/-! ## The sampler -/

/-- Plane point of one pair of variates, before the wrap of `x`. -/
noncomputable def sampleX (xp d u : ℝ) : ℝ :=
  if u ≤ 1/2 then xp + d*(√(2*u) - 1) else xp + d*(1 - √(2*(1-u)))

noncomputable def sampleY (xp yp d u v : ℝ) : ℝ :=
  if u ≤ 1/2 then
    2*(sampleX xp d u - xp + d)*v + (-sampleX xp d u + xp - d + yp)
  else
    2*(-sampleX xp d u + xp + d)*v + (sampleX xp d u - xp - d + yp)

theorem randomsXY_eq {p N : ℤ} {xp yp : ℝ} (h : pix2xy p N = .ok (xp, yp))
    (rows : List (ℝ × ℝ)) :
    Randoms.randomsHealpixXY (rows.map Prod.fst) (rows.map Prod.snd) p N = .ok
      (rows.map fun r => fmod (sampleX xp (getDelta N) r.1) (2*π),
       rows.map fun r => sampleY xp yp (getDelta N) r.1 r.2) := by
  unfold Randoms.randomsHealpixXY
  simp only [h, List.length_map, replicate_length_map, whereIdx_map, bind, Except.bind,
    gather_whereIdx, gather_self, zipWith_map_same, zipWith_same_map, zip_map_same,
    scatter_whereIdx, List.map_map, Function.comp_def, pure, Except.pure, decide_eq_true_eq]
  congr 2
  · apply List.map_congr_left
    intro r _
    unfold sampleX
    by_cases c : r.1 ≤ 1/2
    · rw [if_neg (not_lt.mpr c), if_pos c, if_pos c]
    · rw [if_pos (not_le.mp c), if_neg c]
  · apply List.map_congr_left
    intro r _
    unfold sampleY sampleX
    by_cases c : r.1 ≤ 1/2
    · rw [if_neg (not_lt.mpr c)]; simp only [if_pos c]
    · rw [if_pos (not_le.mp c)]; simp only [if_neg c]; rw [if_pos (not_le.mp c)]

theorem sample_mem {xp yp d u v : ℝ} (hd : 0 < d) (hu0 : 0 ≤ u) (hu1 : u < 1)
    (hv0 : 0 ≤ v) (hv1 : v < 1) :
    |sampleX xp d u - xp| + |sampleY xp yp d u v - yp| ≤ d := by
  unfold sampleY
  by_cases c : u ≤ 1/2
  · simp only [if_pos c]
    have hx : sampleX xp d u = xp + d*(√(2*u) - 1) := by unfold sampleX; rw [if_pos c]
    have s0 := sqrt_nonneg (2*u)
    have s1 : √(2*u) ≤ 1 := by rw [sqrt_le_one]; linarith
    rw [hx]
    generalize √(2*u) = s at s0 s1
    have hds : 0 ≤ d*s := by positivity
    have e1 : xp + d*(s-1) - xp = -(d*(1-s)) := by ring
    have e2 : 2*(xp + d*(s-1) - xp + d)*v + (-(xp + d*(s-1)) + xp - d + yp) - yp
      = d*s*(2*v-1) := by ring
    rw [e2, e1, abs_neg, abs_of_nonneg (by nlinarith), abs_mul, abs_of_nonneg hds]
    have : |2*v-1| ≤ 1 := by rw [abs_le]; constructor <;> linarith
    nlinarith
  · simp only [if_neg c]
    have hx : sampleX xp d u = xp + d*(1 - √(2*(1-u))) := by unfold sampleX; rw [if_neg c]
    have s0 := sqrt_nonneg (2*(1-u))
    have s1 : √(2*(1-u)) ≤ 1 := by rw [sqrt_le_one]; linarith
    rw [hx]
    generalize √(2*(1-u)) = s at s0 s1
    have hds : 0 ≤ d*s := by positivity
    have e1 : xp + d*(1-s) - xp = d*(1-s) := by ring
    have e2 : 2*(-(xp + d*(1-s)) + xp + d)*v + (xp + d*(1-s) - xp - d + yp) - yp
      = d*s*(2*v-1) := by ring
    rw [e2, e1, abs_of_nonneg (by nlinarith), abs_mul, abs_of_nonneg hds]
    have : |2*v-1| ≤ 1 := by rw [abs_le]; constructor <;> linarith
    nlinarith

/-- Moving a plane point by whole turns moves the sky position by whole turns, away
from the poles. -/
theorem xy2ang_turn (x y : ℝ) (t : ℤ) (h : |y| < π/2) :
    xy2ang (x + 2*π*t) y = ((xy2ang x y).1 + 2*π*t, (xy2ang x y).2) := by
  have hpi := pi_pos
  unfold xy2ang
  by_cases c : |y| ≤ π/4
  · simp only [if_pos c]
  · simp only [if_neg c]
    have h4 : |4*y/π| = 4*|y|/π := by
      rw [abs_div, abs_mul, abs_of_pos hpi, abs_of_pos (by norm_num : (0:ℝ) < 4)]
    have hlt : 4*|y|/π < 2 := by rw [div_lt_iff₀ hpi]; linarith
    rw [h4]
    have hf : ⌊2*(x + 2*π*t)/π⌋ = ⌊2*x/π⌋ + 4*t := by
      have : 2*(x + 2*π*t)/π = 2*x/π + ((4*t : ℤ) : ℝ) := by push_cast; field_simp; ring
      rw [this, Int.floor_add_intCast]
    rw [hf, if_neg (by linarith), if_neg (by linarith)]
    congr 1
    have hne : 1 - (4*|y|/π - 1) ≠ 0 := by linarith
    push_cast
    generalize 4*|y|/π - 1 = a at hne
    field_simp
    ring

/-- `xy2ang` is defined on the strip `|y| ≤ π/2`; its edges are the poles. -/
theorem xy2ang_strip (x y : ℝ) (h : |y| ≤ π/2) :
    ∃ theta, (xy2ang x y).2 = some theta ∧ 0 ≤ theta ∧ theta ≤ π ∧
      (0 < theta → theta < π → |y| < π/2) := by
  have hpi := pi_pos
  by_cases c : |y| ≤ π/4
  · rw [xy2ang_belt c]
    exact ⟨_, rfl, arccos_nonneg _, arccos_le_pi _, fun _ _ => by linarith⟩
  · have h4 : |4*y/π| = 4*|y|/π := by
      rw [abs_div, abs_mul, abs_of_pos hpi, abs_of_pos (by norm_num : (0:ℝ) < 4)]
    have hle : 4*|y|/π ≤ 2 := by rw [div_le_iff₀ hpi]; linarith
    have hgt : 1 < 4*|y|/π := by rw [lt_div_iff₀ hpi]; linarith
    have hsgn : npSign (4*y/π) = 1 ∨ npSign (4*y/π) = -1 := by
      have hne : 4*y/π ≠ 0 := by
        intro h0; rw [h0, abs_zero] at h4; linarith
      rcases lt_or_gt_of_ne hne with h | h
      · exact Or.inr (npSign_neg h)
      · exact Or.inl (npSign_pos h)
    set s := 2 - 4*|y|/π with hs
    have hq : (1/3:ℝ)*(2 - |4*y/π|)^2 = (1/3)*s^2 := by rw [h4]
    have hth : (xy2ang x y).2 = npArccos (npSign (4*y/π)*(1-(1/3)*s^2)) := by
      unfold xy2ang
      simp only [if_neg c]
      rw [hq]
    have hs2 : s^2 ≤ 1 := by nlinarith
    have b1 : -1 ≤ npSign (4*y/π)*(1-(1/3)*s^2) := by
      rcases hsgn with h | h <;> rw [h] <;> nlinarith
    have b2 : npSign (4*y/π)*(1-(1/3)*s^2) ≤ 1 := by
      rcases hsgn with h | h <;> rw [h] <;> nlinarith
    rw [hth, npArccos_ok b1 b2]
    refine ⟨_, rfl, arccos_nonneg _, arccos_le_pi _, ?_⟩
    intro t0 t1
    rcases lt_or_eq_of_le h with h | h
    · exact h
    · exfalso
      have hs0 : s = 0 := by rw [hs, h]; field_simp; norm_num
      rw [hs0] at t0 t1
      rcases hsgn with h | h
      · rw [h] at t0; norm_num at t0
      · rw [h] at t1; norm_num at t1

theorem fmod_turn (x : ℝ) : ∃ t : ℤ, fmod x (2*π) = x + 2*π*t := by
  refine ⟨-⌊x/(2*π)⌋, ?_⟩
  unfold fmod; push_cast; ring

end Magpie.Healpix
