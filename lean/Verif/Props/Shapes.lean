import Verif.Model.Shapes
import Verif.Spec.Shapes

/-!
# Properties C66-C68: shapes

`OnRect`, `BoxEdge`, `Hidden` are in `Verif/Spec/Shapes.lean`.
-/

set_option linter.unusedSimpArgs false
set_option linter.unusedVariables false
set_option linter.unusedSectionVars false

namespace Magpie.Props
open Magpie Magpie.Coords Magpie.Shapes Magpie.Spec

/-! ## C66 -/

section
variable {K : Type} [Field K] [LinearOrder K] [IsStrictOrderedRing K]

/-- C66: step counts that are not a positive multiple of 4 are rejected. -/
theorem C66_rejects (xmin xmax ymin ymax : K) (steps : ℕ) (h : ¬ (steps % 4 = 0 ∧ steps > 0)) :
    getSquare xmin xmax ymin ymax steps = .error .assertionError := by
  unfold getSquare pyAssert
  rw [if_neg h]; rfl

/-- C66: the four sides are traced one after the other, `steps/4` evenly spaced points each. -/
theorem C66_traces (xmin xmax ymin ymax : K) (steps m : ℕ) (hm : steps = 4*m) (h0 : 0 < m) :
    ∃ x y, getSquare xmin xmax ymin ymax steps = .ok (x, y) ∧ x.length = steps ∧ y.length = steps ∧
      ∀ k, k < m → ∀ t : K, t = k/((m:K) - 1) →
        (x[k]? = some (xmin + t*(xmax - xmin)) ∧ y[k]? = some ymin) ∧
        (x[m + k]? = some xmax ∧ y[m + k]? = some (ymin + t*(ymax - ymin))) ∧
        (x[2*m + k]? = some (xmax + t*(xmin - xmax)) ∧ y[2*m + k]? = some ymax) ∧
        (x[3*m + k]? = some xmin ∧ y[3*m + k]? = some (ymax + t*(ymin - ymax))) := by
  have hd : steps / 4 = m := by omega
  have hlin : ∀ (a b : K) (k : ℕ), k < m → (linspace a b m)[k]? = some (a + k/((m:K)-1)*(b - a)) := by
    intro a b k hk
    rw [List.getElem?_eq_getElem (by simpa using hk), getElem_linspace]
    congr 1; ring
  have hrep : ∀ (a : K) (k : ℕ), k < m → (List.replicate m a)[k]? = some a := by
    intro a k hk; simp [List.getElem?_replicate, hk]
  have happ : ∀ (a b c d : List K), a.length = m → b.length = m → c.length = m → d.length = m →
      ∀ k, k < m → (a ++ b ++ c ++ d)[k]? = a[k]? ∧ (a ++ b ++ c ++ d)[m + k]? = b[k]? ∧
        (a ++ b ++ c ++ d)[2*m + k]? = c[k]? ∧ (a ++ b ++ c ++ d)[3*m + k]? = d[k]? := by
    intro a b c d ha hb hc hd k hk
    refine ⟨?_, ?_, ?_, ?_⟩
    · rw [List.getElem?_append_left (by simp; omega), List.getElem?_append_left (by simp; omega),
        List.getElem?_append_left (by omega)]
    · rw [List.getElem?_append_left (by simp; omega), List.getElem?_append_left (by simp; omega),
        List.getElem?_append_right (by omega)]
      congr 1; omega
    · rw [List.getElem?_append_left (by simp; omega), List.getElem?_append_right (by simp; omega)]
      congr 1; simp; omega
    · rw [List.getElem?_append_right (by simp; omega)]
      congr 1; simp; omega
  refine ⟨_, _, by
    unfold getSquare pyAssert
    rw [if_pos ⟨by omega, by omega⟩]
    simp only [bind, Except.bind, pure, Except.pure, hd]
    rfl, by simp; omega, by simp; omega, ?_⟩
  rintro k hk t rfl
  obtain ⟨a1, a2, a3, a4⟩ := happ (linspace xmin xmax m) (List.replicate m xmax) (linspace xmax xmin m)
    (List.replicate m xmin) (by simp) (by simp) (by simp) (by simp) k hk
  obtain ⟨b1, b2, b3, b4⟩ := happ (List.replicate m ymin) (linspace ymin ymax m) (List.replicate m ymax)
    (linspace ymax ymin m) (by simp) (by simp) (by simp) (by simp) k hk
  rw [a1, a2, a3, a4, b1, b2, b3, b4]
  simp only [hlin _ _ k hk, hrep _ k hk, true_and, and_self]

/-- C66: every point is on the perimeter, and the four corners are among the points. -/
theorem C66_perimeter (xmin xmax ymin ymax : K) (hx : xmin ≤ xmax) (hy : ymin ≤ ymax)
    (steps : ℕ) (h4 : steps % 4 = 0) (h0 : steps > 0) :
    ∃ x y, getSquare xmin xmax ymin ymax steps = .ok (x, y) ∧ x.length = steps ∧ y.length = steps ∧
      (∀ (k : ℕ) a b, x[k]? = some a → y[k]? = some b → OnRect xmin xmax ymin ymax a b) ∧
      ∀ a b, (a = xmin ∨ a = xmax) → (b = ymin ∨ b = ymax) →
        ∃ k : ℕ, x[k]? = some a ∧ y[k]? = some b := by
  obtain ⟨m, hm⟩ : ∃ m, steps = 4*m := ⟨steps/4, by omega⟩
  obtain ⟨x, y, e, l1, l2, hk⟩ := C66_traces xmin xmax ymin ymax steps m hm (by omega)
  refine ⟨x, y, e, l1, l2, ?_, ?_⟩
  · intro k a b ha hb
    have hlt : k < steps := by rw [← l1]; exact (List.getElem?_eq_some_iff.mp ha).1
    obtain ⟨j, hj, hcase⟩ : ∃ j, j < m ∧ (k = j ∨ k = m + j ∨ k = 2*m + j ∨ k = 3*m + j) := by
      refine ⟨k % m, Nat.mod_lt _ (by omega), ?_⟩
      have h1 := Nat.div_add_mod k m
      have h2 : k / m < 4 := Nat.div_lt_of_lt_mul (by omega)
      generalize k / m = q at *
      have : q = 0 ∨ q = 1 ∨ q = 2 ∨ q = 3 := by omega
      rcases this with rfl | rfl | rfl | rfl <;> omega
    obtain ⟨t, t0, t1, tt⟩ := linspace_frac (K := K) hj
    have ht : ∀ p q : K, p + j/((m:K)-1)*(q - p) = p + t*(q-p) := by
      intro p q
      rw [← tt p q]; ring
    obtain ⟨⟨p1, p2⟩, ⟨p3, p4⟩, ⟨p5, p6⟩, p7, p8⟩ := hk j hj _ rfl
    rw [ht] at p1 p4 p5 p8
    have sx0 : 0 ≤ t*(xmax - xmin) := mul_nonneg t0 (by linarith)
    have sy0 : 0 ≤ t*(ymax - ymin) := mul_nonneg t0 (by linarith)
    have sx1 : t*(xmax - xmin) ≤ xmax - xmin := mul_le_of_le_one_left (by linarith) t1
    have sy1 : t*(ymax - ymin) ≤ ymax - ymin := mul_le_of_le_one_left (by linarith) t1
    rcases hcase with rfl | rfl | rfl | rfl
    · rw [p1] at ha; rw [p2] at hb
      simp only [Option.some.injEq] at ha hb
      subst ha hb
      exact ⟨by linarith, by linarith, le_rfl, hy, .inr (.inr (.inl rfl))⟩
    · rw [p3] at ha; rw [p4] at hb
      simp only [Option.some.injEq] at ha hb
      subst ha hb
      exact ⟨hx, le_rfl, by linarith, by linarith, .inr (.inl rfl)⟩
    · rw [p5] at ha; rw [p6] at hb
      simp only [Option.some.injEq] at ha hb
      subst ha hb
      exact ⟨by linarith, by linarith, hy, le_rfl, .inr (.inr (.inr rfl))⟩
    · rw [p7] at ha; rw [p8] at hb
      simp only [Option.some.injEq] at ha hb
      subst ha hb
      exact ⟨le_rfl, hx, by linarith, by linarith, .inl rfl⟩
  · rintro a b ha hb
    obtain ⟨⟨p1, p2⟩, ⟨p3, p4⟩, ⟨p5, p6⟩, p7, p8⟩ := hk 0 (by omega) 0 (by simp)
    simp only [zero_mul, add_zero] at p1 p4 p5 p8
    rcases ha with rfl | rfl <;> rcases hb with rfl | rfl
    · exact ⟨_, p1, p2⟩
    · exact ⟨_, p7, p8⟩
    · exact ⟨_, p3, p4⟩
    · exact ⟨_, p5, p6⟩

end

example : getSquare (K := ℚ) 0 2 0 4 12 = .ok ([0, 1, 2, 2, 2, 2, 2, 1, 0, 0, 0, 0],
    [0, 0, 0, 0, 2, 4, 4, 4, 4, 4, 2, 0]) := by decide +kernel

/-! ## C67 -/

private theorem dist_polar (r phi : ℝ) (c : ℝ × ℝ) :
    ((polar2cart r phi c).1 - c.1)^2 + ((polar2cart r phi c).2 - c.2)^2 = r^2 := by
  unfold polar2cart
  have := Real.cos_sq_add_sin_sq phi
  simp only [add_sub_cancel_right]
  have e : (r*Real.cos phi)^2 + (r*Real.sin phi)^2 = r^2*(Real.cos phi^2 + Real.sin phi^2) := by ring
  rw [e, this, mul_one]

/-- C67: `get_arc` returns `steps` points at distance `radius` of the centre, at evenly spaced angles
from `phimin` to `phimax`. -/
theorem C67_arc (radius phimin phimax : ℝ) (c : ℝ × ℝ) (steps : ℕ) :
    ∃ x y, getArc radius phimin phimax c steps = .ok (x, y) ∧ x.length = steps ∧ y.length = steps ∧
      ∀ (k : ℕ), k < steps → ∃ a b, x[k]? = some a ∧ y[k]? = some b ∧
        (a - c.1)^2 + (b - c.2)^2 = radius^2 ∧
        ∀ phi, phi = phimin + k/((steps:ℝ) - 1)*(phimax - phimin) →
          a = c.1 + radius*Real.cos phi ∧ b = c.2 + radius*Real.sin phi := by
  refine ⟨_, _, by unfold getArc polar2cartArr vzip; simp [bind, Except.bind, pure, Except.pure]; exact ⟨rfl, rfl⟩,
    by simp, by simp, ?_⟩
  intro k hk
  refine ⟨(polar2cart radius (phimin + k*((phimax - phimin)/((steps:ℝ)-1))) c).1,
    (polar2cart radius (phimin + k*((phimax - phimin)/((steps:ℝ)-1))) c).2, ?_, ?_, dist_polar _ _ _, ?_⟩
  · simp [List.getElem?_zipWith, List.getElem?_replicate, hk, linspace, List.getElem?_range hk]
  · simp [List.getElem?_zipWith, List.getElem?_replicate, hk, linspace, List.getElem?_range hk]
  · rintro phi rfl
    have : phimin + k*((phimax - phimin)/((steps:ℝ)-1)) = phimin + k/((steps:ℝ) - 1)*(phimax - phimin) := by
      ring
    rw [this]
    unfold polar2cart
    constructor <;> simp <;> ring

/-- C67: every point of `get_disc` is at polar coordinates on the boundary of
`[rmin, rmax] × [phimin, phimax]`; other step counts are rejected. -/
theorem C67_disc (rmin rmax phimin phimax : ℝ) (hr : rmin ≤ rmax) (hp : phimin ≤ phimax) (c : ℝ × ℝ)
    (steps : ℕ) :
    (¬ (steps % 4 = 0 ∧ steps > 0) →
      getDisc rmin rmax phimin phimax c steps = .error .assertionError) ∧
    (steps % 4 = 0 ∧ steps > 0 →
      ∃ x y, getDisc rmin rmax phimin phimax c steps = .ok (x, y) ∧ x.length = steps ∧
        y.length = steps ∧ ∀ (k : ℕ), k < steps → ∃ r phi, OnRect rmin rmax phimin phimax r phi ∧
          x[k]? = some (c.1 + r*Real.cos phi) ∧ y[k]? = some (c.2 + r*Real.sin phi)) := by
  constructor
  · intro h
    unfold getDisc
    rw [C66_rejects _ _ _ _ _ h]; rfl
  · rintro ⟨h4, h0⟩
    obtain ⟨r, phi, e, l1, l2, hk, _⟩ := C66_perimeter rmin rmax phimin phimax hr hp steps h4 h0
    refine ⟨_, _, by
      unfold getDisc polar2cartArr vzip
      rw [e]
      simp only [bind, Except.bind, pure, Except.pure, l1, l2, if_true]
      rfl, by simp [l1, l2], by simp [l1, l2], ?_⟩
    intro k hlt
    have g1 : r[k]? = some (r[k]'(by omega)) := List.getElem?_eq_getElem (by omega)
    have g2 : phi[k]? = some (phi[k]'(by omega)) := List.getElem?_eq_getElem (by omega)
    refine ⟨_, _, hk k _ _ g1 g2, ?_, ?_⟩
    · rw [List.getElem?_zipWith, g1, g2]
      simp [polar2cart, add_comm]
    · rw [List.getElem?_zipWith, g1, g2]
      simp [polar2cart, add_comm]

/-- The hypotheses hold for the default arguments of `get_disc`. -/
example : ∃ x y, getDisc 0 1 0 (2*Real.pi) (0, 0) 40 = .ok (x, y) ∧ x.length = 40 := by
  obtain ⟨x, y, e, l, _⟩ := (C67_disc 0 1 0 (2*Real.pi) (by norm_num) (by positivity) (0, 0) 40).2
    (by norm_num)
  exact ⟨x, y, e, l⟩

/-! ## C68 -/

/-- The points drawn for an edge: `m` points from its first to its last corner (only the first
corner for `m = 1`). -/
noncomputable def edgeSeg (b : BoxLim) (m : ℕ) (e : BoxEdge) : Seg :=
  let pt (k : ℕ) := lerp (cornerPos (b.xmin, b.ymin, b.zmin) (b.xmax, b.ymax, b.zmax) (e.corner false))
    (cornerPos (b.xmin, b.ymin, b.zmin) (b.xmax, b.ymax, b.zmax) (e.corner true)) (k/((m:ℝ) - 1))
  ((List.range m).map fun k => (pt k).1, (List.range m).map fun k => (pt k).2.1,
    (List.range m).map fun k => (pt k).2.2)

private theorem rep_eq (a : ℝ) (m : ℕ) (f : ℕ → ℝ) (h : ∀ k, f k = a) :
    List.replicate m a = (List.range m).map f := by
  have : f = fun _ => a := funext h
  rw [this]; simp

private theorem lin_eq (a b : ℝ) (m : ℕ) (f : ℕ → ℝ) (h : ∀ k : ℕ, f k = a + k/((m:ℝ)-1)*(b - a)) :
    linspace a b m = (List.range m).map f := by
  have : f = fun (k : ℕ) => a + k/((m:ℝ)-1)*(b - a) := funext h
  rw [this]
  unfold linspace
  apply List.map_congr_left
  intro k _
  ring

private theorem boxSegs_eq (b : BoxLim) (m : ℕ) : boxSegs b m = allBoxEdges.map (edgeSeg b m) := by
  unfold boxSegs allBoxEdges
  simp only [List.map_cons, List.map_nil, List.cons.injEq, and_true]
  refine ⟨?_, ?_, ?_, ?_, ?_, ?_, ?_, ?_, ?_, ?_, ?_, ?_⟩
  all_goals
    unfold edgeSeg
    simp only [Prod.mk.injEq]
    refine ⟨?_, ?_, ?_⟩
    all_goals first
      | (apply lin_eq; intro k; simp [lerp, cornerPos, BoxEdge.corner])
      | (apply rep_eq; intro k; simp [lerp, cornerPos, BoxEdge.corner])

/-- C68: `get_box` returns the twelve edges, each once, with `steps/12` points each; other step
counts are rejected. -/
theorem C68_edges (b : BoxLim) (steps : ℕ) (center : ℝ × ℝ × ℝ) (nearest : Bool) :
    (¬ (steps % 12 = 0 ∧ steps > 0) → getBox b steps nearest center = .error .assertionError) ∧
    (steps % 12 = 0 ∧ steps > 0 →
      getBox b steps false center = .ok (allBoxEdges.map (edgeSeg b (steps/12)))) := by
  constructor
  · intro h
    unfold getBox pyAssert
    rw [if_neg h]; rfl
  · intro h
    unfold getBox pyAssert
    rw [if_pos h]
    simp only [bind, Except.bind, pure, Except.pure, boxSegs_eq]
    rfl

private theorem argminFrom_spec (l : List ℝ) (pre : List ℝ) (best : ℝ) (ib : ℕ)
    (h1 : (pre ++ l)[ib]? = some best) (h2 : ∀ y ∈ pre, best ≤ y) :
    ∃ v, (pre ++ l)[argminFrom best ib pre.length l]? = some v ∧ ∀ y ∈ pre ++ l, v ≤ y := by
  induction l generalizing pre best ib with
  | nil => exact ⟨best, h1, by simpa using h2⟩
  | cons x l ih =>
    have e : pre ++ x :: l = (pre ++ [x]) ++ l := by simp
    have hl : (pre ++ [x]).length = pre.length + 1 := by simp
    unfold argminFrom
    split_ifs with h
    · rw [e, ← hl]
      apply ih
      · simp
      · intro y hy
        rcases List.mem_append.mp hy with hy | hy
        · exact le_trans h.le (h2 y hy)
        · rw [List.mem_singleton.mp hy]
    · rw [e, ← hl]
      apply ih
      · rw [← e]; exact h1
      · intro y hy
        rcases List.mem_append.mp hy with hy | hy
        · exact h2 y hy
        · rw [List.mem_singleton.mp hy]; exact not_lt.mp h

private theorem argmin_spec (l : List ℝ) (hl : l ≠ []) :
    ∃ v, l[argmin l]? = some v ∧ ∀ y ∈ l, v ≤ y := by
  cases l with
  | nil => exact absurd rfl hl
  | cons x l =>
    have := argminFrom_spec l [x] x 0 (by simp) (by simp)
    simpa [argmin] using this

private theorem removeAt_corner (b : BoxLim) (center p : ℝ × ℝ × ℝ) (hp : p ∈ boxCorners b) :
    removeAt b center p = removeCorner b center p := by
  unfold removeAt
  simp only
  set d : ℝ × ℝ × ℝ → ℝ := fun c =>
    Real.sqrt ((c.1 - p.1)^2 + (c.2.1 - p.2.1)^2 + (c.2.2 - p.2.2)^2) with hd
  obtain ⟨v, hv, hle⟩ := argmin_spec ((boxCorners b).map d) (by simp [boxCorners])
  have h0 : d p = 0 := by simp [hd]
  have hv0 : v ≤ 0 := by rw [← h0]; exact hle _ (List.mem_map_of_mem hp)
  rw [List.getElem?_map] at hv
  rw [List.getD_eq_getElem?_getD, List.getElem?_map]
  cases hc : (boxCorners b)[argmin ((boxCorners b).map d)]? with
  | none => rw [hc] at hv; simp at hv
  | some c =>
    rw [hc] at hv
    simp only [Option.map_some, Option.some.injEq] at hv
    have hz : d c = 0 := le_antisymm (by rw [hv]; exact hv0) (Real.sqrt_nonneg _)
    simp only [hd] at hz
    rw [Real.sqrt_eq_zero (by positivity)] at hz
    have e1 : c.1 = p.1 := by nlinarith [sq_nonneg (c.1 - p.1), sq_nonneg (c.2.1 - p.2.1), sq_nonneg (c.2.2 - p.2.2)]
    have e2 : c.2.1 = p.2.1 := by nlinarith [sq_nonneg (c.1 - p.1), sq_nonneg (c.2.1 - p.2.1), sq_nonneg (c.2.2 - p.2.2)]
    have e3 : c.2.2 = p.2.2 := by nlinarith [sq_nonneg (c.1 - p.1), sq_nonneg (c.2.1 - p.2.1), sq_nonneg (c.2.2 - p.2.2)]
    have : c = p := Prod.ext e1 (Prod.ext e2 e3)
    simp [this]

/-- Opposite corners of a box. -/
def _root_.Magpie.Shapes.BoxLim.lo (b : BoxLim) : ℝ × ℝ × ℝ := (b.xmin, b.ymin, b.zmin)

/-- Opposite corners of a box. -/
def _root_.Magpie.Shapes.BoxLim.hi (b : BoxLim) : ℝ × ℝ × ℝ := (b.xmax, b.ymax, b.zmax)

private theorem coord_mono {lo hi a c t1 t2 : ℝ} (h1 : lo < a + t1*(c - a)) (h2 : a + t1*(c - a) < hi)
    (h3 : lo ≤ c) (h4 : c ≤ hi) (ht : t1 ≤ t2) (ht2 : t2 < 1) :
    lo < a + t2*(c - a) ∧ a + t2*(c - a) < hi := by
  set P := a + t1*(c - a) with hP
  have hd : 0 < 1 - t1 := by linarith
  have e : a + t2*(c - a) = P + (t2 - t1)/(1 - t1)*(c - P) := by
    rw [hP]; field_simp; ring
  have s0 : 0 ≤ (t2 - t1)/(1 - t1) := div_nonneg (by linarith) hd.le
  have s1 : (t2 - t1)/(1 - t1) < 1 := by rw [div_lt_one hd]; linarith
  rw [e]
  constructor <;> nlinarith

/-- Once a line of sight to a point of the closed box is inside, it stays inside. -/
private theorem inside_mono {lo hi center c : ℝ × ℝ × ℝ} {t1 t2 : ℝ}
    (h : Inside lo hi (lerp center c t1)) (ht : t1 ≤ t2) (ht2 : t2 < 1)
    (c1 : lo.1 ≤ c.1 ∧ c.1 ≤ hi.1) (c2 : lo.2.1 ≤ c.2.1 ∧ c.2.1 ≤ hi.2.1)
    (c3 : lo.2.2 ≤ c.2.2 ∧ c.2.2 ≤ hi.2.2) : Inside lo hi (lerp center c t2) := by
  obtain ⟨a1, a2, a3, a4, a5, a6⟩ := h
  have x1 := coord_mono a1 a2 c1.1 c1.2 ht ht2
  have x2 := coord_mono a3 a4 c2.1 c2.2 ht ht2
  have x3 := coord_mono a5 a6 c3.1 c3.2 ht ht2
  exact ⟨x1.1, x1.2, x2.1, x2.2, x3.1, x3.2⟩

private theorem corner_mem (b : BoxLim) (c : Bool × Bool × Bool) :
    cornerPos b.lo b.hi c ∈ boxCorners b := by
  obtain ⟨_|_, _|_, _|_⟩ := c <;> simp [cornerPos, boxCorners, BoxLim.lo, BoxLim.hi]

private theorem whereIdx_length_zero {α : Type} (p : α → Bool) (l : List α) :
    (whereIdx p l).length = 0 ↔ ∀ x ∈ l, p x = false := by
  rw [length_whereIdx, List.length_eq_zero_iff, List.filter_eq_nil_iff]
  simp

/-- What the code decides about a corner: it is dropped iff the point at `98/99` of the line of sight
is inside the box. -/
private theorem removeCorner_iff (b : BoxLim) (hx : b.xmin < b.xmax) (hy : b.ymin < b.ymax)
    (hz : b.zmin < b.zmax) (center : ℝ × ℝ × ℝ) (c : Bool × Bool × Bool) :
    removeCorner b center (cornerPos b.lo b.hi c) = true ↔
      Inside b.lo b.hi (lerp center (cornerPos b.lo b.hi c) (98/99)) := by
  set q := cornerPos b.lo b.hi c with hq
  have c1 : b.lo.1 ≤ q.1 ∧ q.1 ≤ b.hi.1 := by
    rw [hq]; unfold cornerPos BoxLim.lo BoxLim.hi; simp only; split_ifs <;> constructor <;> linarith
  have c2 : b.lo.2.1 ≤ q.2.1 ∧ q.2.1 ≤ b.hi.2.1 := by
    rw [hq]; unfold cornerPos BoxLim.lo BoxLim.hi; simp only; split_ifs <;> constructor <;> linarith
  have c3 : b.lo.2.2 ≤ q.2.2 ∧ q.2.2 ≤ b.hi.2.2 := by
    rw [hq]; unfold cornerPos BoxLim.lo BoxLim.hi; simp only; split_ifs <;> constructor <;> linarith
  have hedge : ¬ Inside b.lo b.hi q := by
    rintro ⟨h1, h2, _⟩
    rw [hq] at h1 h2
    unfold cornerPos at h1 h2
    simp only at h1 h2
    split_ifs at h1 h2 <;> linarith
  have hiff : removeCorner b center q = true ↔ ∃ k : ℕ, k < 100 ∧ Inside b.lo b.hi (lerp center q (k/99)) := by
    unfold removeCorner
    simp only
    split_ifs with h
    · simp only [Bool.false_eq_true, false_iff, not_exists, not_and]
      intro k hk hin
      rw [whereIdx_length_zero] at h
      have := h (k/99*(q.1 - center.1) + center.1, k/99*(q.2.1 - center.2.1) + center.2.1,
        k/99*(q.2.2 - center.2.2) + center.2.2) (by
          simp only [List.mem_map]
          refine ⟨k/99, ?_, rfl⟩
          unfold linspace
          simp only [List.mem_map, List.mem_range]
          exact ⟨k, hk, by norm_num; ring⟩)
      obtain ⟨a1, a2, a3, a4, a5, a6⟩ := hin
      simp only [lerp, BoxLim.lo, BoxLim.hi, add_comm center.1, add_comm center.2.1, add_comm center.2.2] at a1 a2 a3 a4 a5 a6
      simp only [Bool.and_eq_false_iff, decide_eq_false_iff_not, gt_iff_lt] at this
      tauto
    · simp only [true_iff]
      rw [whereIdx_length_zero] at h
      push Not at h
      obtain ⟨p, hp, hpt⟩ := h
      simp only [List.mem_map] at hp
      obtain ⟨t, ht, rfl⟩ := hp
      unfold linspace at ht
      simp only [List.mem_map, List.mem_range] at ht
      obtain ⟨k, hk, rfl⟩ := ht
      refine ⟨k, hk, ?_⟩
      simp only [ne_eq, Bool.not_eq_false, Bool.and_eq_true, decide_eq_true_eq, gt_iff_lt] at hpt
      have ek : (0:ℝ) + k*((1 - 0)/(((100:ℕ):ℝ) - 1)) = k/99 := by norm_num; ring
      rw [ek] at hpt
      obtain ⟨⟨⟨⟨⟨a1, a2⟩, a3⟩, a4⟩, a5⟩, a6⟩ := hpt
      refine ⟨?_, ?_, ?_, ?_, ?_, ?_⟩ <;> simp only [lerp, BoxLim.lo, BoxLim.hi] <;> linarith
  rw [hiff]
  constructor
  · rintro ⟨k, hk, hin⟩
    rcases Nat.lt_or_ge k 99 with h | h
    · refine inside_mono hin ?_ (by norm_num) c1 c2 c3
      have : (k:ℝ) ≤ 98 := by exact_mod_cast Nat.le_of_lt_succ h
      linarith
    · exfalso
      have : k = 99 := by omega
      subst this
      apply hedge
      have e : lerp center q ((99:ℕ)/99) = q := by
        unfold lerp
        refine Prod.ext ?_ (Prod.ext ?_ ?_) <;> norm_num
      rwa [e] at hin
  · intro h
    exact ⟨98, by norm_num, by exact_mod_cast h⟩

private theorem seg_ends (b : BoxLim) (m : ℕ) (hm : 1 ≤ m) (e : BoxEdge) :
    ((edgeSeg b m e).1.headD 0, (edgeSeg b m e).2.1.headD 0, (edgeSeg b m e).2.2.headD 0)
      = cornerPos b.lo b.hi (e.corner false) ∧
    ((edgeSeg b m e).1.getLastD 0, (edgeSeg b m e).2.1.getLastD 0, (edgeSeg b m e).2.2.getLastD 0)
      = cornerPos b.lo b.hi (e.corner (decide (2 ≤ m))) := by
  obtain ⟨n, rfl⟩ : ∃ n, m = n + 1 := ⟨m - 1, by omega⟩
  have hh : ∀ f : ℕ → ℝ, ((List.range (n+1)).map f).headD 0 = f 0 := by
    intro f; rw [List.range_succ_eq_map]; rfl
  have hl : ∀ f : ℕ → ℝ, ((List.range (n+1)).map f).getLastD 0 = f n := by
    intro f
    rw [List.range_succ, List.map_append]
    simp only [List.map_cons, List.map_nil, List.getLastD_concat]
  constructor
  · unfold edgeSeg
    simp only [hh, BoxLim.lo, BoxLim.hi]
    refine Prod.ext ?_ (Prod.ext ?_ ?_) <;> simp [lerp]
  · unfold edgeSeg
    simp only [hl, BoxLim.lo, BoxLim.hi]
    rcases Nat.eq_zero_or_pos n with h | h
    · subst h
      refine Prod.ext ?_ (Prod.ext ?_ ?_) <;> simp [lerp]
    · have hd : decide (2 ≤ n + 1) = true := by simp; omega
      have hn : (n:ℝ) ≠ 0 := by positivity
      have ht : (n:ℝ)/(((n+1:ℕ):ℝ) - 1) = 1 := by
        push_cast; rw [add_sub_cancel_right, div_self hn]
      rw [hd]
      simp only [ht]
      refine Prod.ext ?_ (Prod.ext ?_ ?_) <;> simp [lerp]

/-- What `return_nearest=True` returns: the edges (in the usual order) whose first and last drawn
points are corners that the code does not take for hidden, which it decides by the point at `98/99`
of the line of sight. With one point per edge only the first corner is looked at. -/
theorem C68_nearest_partial (b : BoxLim) (hx : b.xmin < b.xmax) (hy : b.ymin < b.ymax)
    (hz : b.zmin < b.zmax) (steps : ℕ) (h12 : steps % 12 = 0) (h0 : steps > 0) (center : ℝ × ℝ × ℝ) :
    ∃ kept : List BoxEdge, getBox b steps true center = .ok (kept.map (edgeSeg b (steps/12))) ∧
      kept.Sublist allBoxEdges ∧ ∀ e, e ∈ kept ↔
        ¬ Inside b.lo b.hi (lerp center (cornerPos b.lo b.hi (e.corner false)) (98/99)) ∧
        ¬ Inside b.lo b.hi (lerp center (cornerPos b.lo b.hi (e.corner (decide (24 ≤ steps)))) (98/99)) := by
  refine ⟨allBoxEdges.filter fun e => !(removeCorner b center (cornerPos b.lo b.hi (e.corner false)) ||
      removeCorner b center (cornerPos b.lo b.hi (e.corner (decide (24 ≤ steps))))), ?_,
    List.filter_sublist, ?_⟩
  · unfold getBox pyAssert
    rw [if_pos ⟨h12, h0⟩]
    simp only [bind, Except.bind, pure, Except.pure, boxSegs_eq]
    rw [if_pos trivial, List.filter_map]
    congr 2
    apply List.filter_congr
    intro e _
    simp only [Function.comp]
    obtain ⟨s1, s2⟩ := seg_ends b (steps/12) (by omega) e
    rw [s1, s2, removeAt_corner _ _ _ (corner_mem b _), removeAt_corner _ _ _ (corner_mem b _)]
    have : decide (2 ≤ steps/12) = decide (24 ≤ steps) := by
      simp only [decide_eq_decide]; omega
    rw [this]
  · intro e
    rw [List.mem_filter]
    simp only [allBoxEdges_complete.2.2 e, true_and, Bool.not_eq_true', Bool.or_eq_false_iff]
    rw [← removeCorner_iff b hx hy hz, ← removeCorner_iff b hx hy hz]
    simp only [Bool.not_eq_true]

/-- An edge whose two corners are both visible is never dropped. -/
theorem C68_visible_kept_partial (b : BoxLim) (hx : b.xmin < b.xmax) (hy : b.ymin < b.ymax)
    (hz : b.zmin < b.zmax) (steps : ℕ) (h12 : steps % 12 = 0) (h0 : steps > 0) (center : ℝ × ℝ × ℝ) :
    ∃ kept : List BoxEdge, getBox b steps true center = .ok (kept.map (edgeSeg b (steps/12))) ∧
      kept.Sublist allBoxEdges ∧ ∀ e : BoxEdge,
        (∀ end_, ¬ Hidden b.lo b.hi center (cornerPos b.lo b.hi (e.corner end_))) → e ∈ kept := by
  obtain ⟨kept, h1, h2, h3⟩ := C68_nearest_partial b hx hy hz steps h12 h0 center
  refine ⟨kept, h1, h2, fun e he => ?_⟩
  rw [h3]
  exact ⟨fun h => he _ ⟨98/99, by norm_num, by norm_num, h⟩, fun h => he _ ⟨98/99, by norm_num, by norm_num, h⟩⟩

private theorem coord_near {lo hi a c t : ℝ} (hlh : lo < hi) (hc : c = lo ∨ c = hi) (h1 : lo < a + t*(c - a))
    (h2 : a + t*(c - a) < hi) (ht1 : t ≤ 1) (d1 : |a - lo| < 99*(hi - lo)) (d2 : |a - hi| < 99*(hi - lo)) :
    lo < a + 98/99*(c - a) ∧ a + 98/99*(c - a) < hi := by
  rw [abs_lt] at d1 d2
  rcases hc with rfl | rfl
  · have : 0 < a - c := by
      by_contra hcon
      push Not at hcon
      nlinarith
    constructor <;> linarith
  · have : 0 < c - a := by
      by_contra hcon
      push Not at hcon
      nlinarith
    constructor <;> linarith

/-- C68 (nearest edges) for a centre that is, along each axis, less than 99 box lengths away from both
faces, and at least two points per edge: exactly the edges with a hidden corner are dropped. -/
theorem C68_nearest_exact_partial (b : BoxLim) (hx : b.xmin < b.xmax) (hy : b.ymin < b.ymax)
    (hz : b.zmin < b.zmax) (steps : ℕ) (h12 : steps % 12 = 0) (h0 : 24 ≤ steps) (center : ℝ × ℝ × ℝ)
    (dx : |center.1 - b.xmin| < 99*(b.xmax - b.xmin) ∧ |center.1 - b.xmax| < 99*(b.xmax - b.xmin))
    (dy : |center.2.1 - b.ymin| < 99*(b.ymax - b.ymin) ∧ |center.2.1 - b.ymax| < 99*(b.ymax - b.ymin))
    (dz : |center.2.2 - b.zmin| < 99*(b.zmax - b.zmin) ∧ |center.2.2 - b.zmax| < 99*(b.zmax - b.zmin)) :
    ∃ kept : List BoxEdge, getBox b steps true center = .ok (kept.map (edgeSeg b (steps/12))) ∧
      kept.Sublist allBoxEdges ∧ ∀ e : BoxEdge, e ∈ kept ↔
        ∀ end_, ¬ Hidden b.lo b.hi center (cornerPos b.lo b.hi (e.corner end_)) := by
  obtain ⟨kept, h1, h2, h3⟩ := C68_nearest_partial b hx hy hz steps h12 (by omega) center
  refine ⟨kept, h1, h2, fun e => ?_⟩
  have key : ∀ c, Hidden b.lo b.hi center (cornerPos b.lo b.hi c) →
      Inside b.lo b.hi (lerp center (cornerPos b.lo b.hi c) (98/99)) := by
    rintro c ⟨t, ht0, ht1, a1, a2, a3, a4, a5, a6⟩
    have x1 := coord_near (lo := b.xmin) (hi := b.xmax) hx (by
      simp only [cornerPos, BoxLim.lo, BoxLim.hi]; split_ifs <;> simp) a1 a2 ht1 dx.1 dx.2
    have x2 := coord_near (lo := b.ymin) (hi := b.ymax) hy (by
      simp only [cornerPos, BoxLim.lo, BoxLim.hi]; split_ifs <;> simp) a3 a4 ht1 dy.1 dy.2
    have x3 := coord_near (lo := b.zmin) (hi := b.zmax) hz (by
      simp only [cornerPos, BoxLim.lo, BoxLim.hi]; split_ifs <;> simp) a5 a6 ht1 dz.1 dz.2
    exact ⟨x1.1, x1.2, x2.1, x2.2, x3.1, x3.2⟩
  rw [h3]
  have hd : decide (24 ≤ steps) = true := by simpa using h0
  rw [hd]
  constructor
  · rintro ⟨k1, k2⟩ (_|_) h
    · exact k1 (key _ h)
    · exact k2 (key _ h)
  · intro h
    exact ⟨fun k => h false ⟨98/99, by norm_num, by norm_num, k⟩,
      fun k => h true ⟨98/99, by norm_num, by norm_num, k⟩⟩

/-- The conditions hold for the unit cube seen from `(-1, -1, -1)`; an edge at the hidden corner is
dropped and an edge at the near corner is kept. -/
example : ∃ kept : List BoxEdge, getBox ⟨0, 1, 0, 1, 0, 1⟩ 24 true (-1, -1, -1)
      = .ok (kept.map (edgeSeg ⟨0, 1, 0, 1, 0, 1⟩ 2)) ∧
    BoxEdge.alongX true true ∉ kept ∧ BoxEdge.alongX false false ∈ kept := by
  obtain ⟨kept, h1, h2, h3⟩ := C68_nearest_exact_partial ⟨0, 1, 0, 1, 0, 1⟩ (by norm_num) (by norm_num)
    (by norm_num) 24 rfl (by norm_num) (-1, -1, -1) (by norm_num [abs_lt]) (by norm_num [abs_lt])
    (by norm_num [abs_lt])
  refine ⟨kept, h1, ?_, ?_⟩
  · rw [h3]
    push Not
    refine ⟨true, 3/4, by norm_num, by norm_num, ?_⟩
    simp only [lerp, Inside, cornerPos, BoxEdge.corner, BoxLim.lo, BoxLim.hi]; norm_num
  · rw [h3]
    rintro (_|_) ⟨t, t0, t1, a1, a2, a3, a4, a5, a6⟩
    all_goals
      simp [lerp, cornerPos, BoxEdge.corner, BoxLim.lo, BoxLim.hi] at a3
      linarith

/-- Hidden corners are not noticed from far away: seen from `(-1000, 1/2, 1/2)` all corners at the far
side of the unit box are hidden, but no edge is dropped, whatever `steps` is. -/
theorem C68_violated_far (steps : ℕ) (h12 : steps % 12 = 0) (h0 : steps > 0) :
    getBox ⟨0, 1, 0, 1, 0, 1⟩ steps true (-1000, 1/2, 1/2)
      = .ok (allBoxEdges.map (edgeSeg ⟨0, 1, 0, 1, 0, 1⟩ (steps/12))) ∧
    ∀ y z : Bool, Hidden (0, 0, 0) (1, 1, 1) (-1000, 1/2, 1/2)
      (cornerPos (0, 0, 0) (1, 1, 1) (true, y, z)) := by
  constructor
  · obtain ⟨kept, h1, h2, h3⟩ := C68_nearest_partial ⟨0, 1, 0, 1, 0, 1⟩ (by norm_num) (by norm_num)
      (by norm_num) steps h12 h0 (-1000, 1/2, 1/2)
    have : kept = allBoxEdges := by
      apply h2.eq_of_length_le
      apply List.Nodup.length_le_of_subset allBoxEdges_complete.1
      intro e _
      rw [h3]
      have key : ∀ c : Bool × Bool × Bool, ¬ Inside (0, 0, 0) (1, 1, 1)
          (lerp (-1000, 1/2, 1/2) (cornerPos (0, 0, 0) (1, 1, 1) c) (98/99)) := by
        rintro c ⟨h, _⟩
        simp only [lerp, cornerPos] at h
        split_ifs at h <;> norm_num at h
      exact ⟨key _, key _⟩
    rw [h1, this]
  · intro y z
    refine ⟨2001/2002, by norm_num, by norm_num, ?_⟩
    cases y <;> cases z <;>
      (simp only [lerp, cornerPos, Inside]; norm_num)

/-- With `steps = 12` the second corner of an edge is not looked at: seen from `(-1, -1, -1)` the
corner `(1, 1, 1)` is hidden and noticed, but no edge is dropped. -/
theorem C68_violated_short :
    getBox ⟨0, 1, 0, 1, 0, 1⟩ 12 true (-1, -1, -1)
      = .ok (allBoxEdges.map (edgeSeg ⟨0, 1, 0, 1, 0, 1⟩ 1)) ∧
    Hidden (0, 0, 0) (1, 1, 1) (-1, -1, -1) (1, 1, 1) := by
  constructor
  · obtain ⟨kept, h1, h2, h3⟩ := C68_nearest_partial ⟨0, 1, 0, 1, 0, 1⟩ (by norm_num) (by norm_num)
      (by norm_num) 12 rfl (by norm_num) (-1, -1, -1)
    have : kept = allBoxEdges := by
      apply h2.eq_of_length_le
      apply List.Nodup.length_le_of_subset allBoxEdges_complete.1
      intro e _
      rw [h3]
      have key : ∀ e : BoxEdge, ¬ Inside (0, 0, 0) (1, 1, 1)
          (lerp (-1, -1, -1) (cornerPos (0, 0, 0) (1, 1, 1) (e.corner false)) (98/99)) := by
        rintro e ⟨a1, _, a2, _, a3, _⟩
        cases e
        · simp [lerp, cornerPos, BoxEdge.corner] at a1; norm_num at a1
        · simp [lerp, cornerPos, BoxEdge.corner] at a2; norm_num at a2
        · simp [lerp, cornerPos, BoxEdge.corner] at a3; norm_num at a3
      exact ⟨key _, key _⟩
    rw [h1, this]
  · refine ⟨3/4, by norm_num, by norm_num, ?_⟩
    simp only [lerp, Inside]; norm_num

end Magpie.Props
