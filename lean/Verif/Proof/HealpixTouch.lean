import Verif.Spec.HealpixTouch
import Verif.Proof.HealpixCover
import Mathlib.Analysis.SpecialFunctions.Complex.Log

set_option linter.unusedSimpArgs false
set_option linter.unusedVariables false

namespace Magpie.Healpix
open Magpie.Spec Real

/-- The lattice point `c` belongs to the (closed) facet `f` of the map. -/
structure InFacet (N : ℤ) (f c : ℤ × ℤ) : Prop where
  p0 : N*f.1 ≤ c.1
  p1 : c.1 ≤ N*f.1 + N
  q0 : N*f.2 ≤ c.2
  q1 : c.2 ≤ N*f.2 + N
  f0 : f.2 - f.1 ≤ 1
  f1 : f.1 - f.2 ≤ 1

/-- Height of a lattice point. -/
noncomputable def zOf (N t : ℤ) : ℝ :=
  if |t| ≤ N then 2*t/(3*N) else if N < t then 1 - (2*N - t : ℝ)^2/(3*(N:ℝ)^2) else -(1 - (2*N + t : ℝ)^2/(3*(N:ℝ)^2))

/-- Longitude of a lattice point, in units of `π/4`. -/
noncomputable def phOf (N : ℤ) (f c : ℤ × ℤ) : ℝ :=
  if |c.2 - c.1| ≤ N then (c.1 + c.2 - N : ℝ)/N
  else if N < c.2 - c.1 then 2*f.1 + 1 + (c.1 + c.2 - (2*f.1 + 2)*N : ℝ)/(2*N - (c.2 - c.1))
  else 2*f.2 + 1 + (c.1 + c.2 - (2*f.2 + 2)*N : ℝ)/(2*N + (c.2 - c.1))

theorem starDir_eq_dirOf (N : ℤ) (f c : ℤ × ℤ) : starDir N f c = dirOf (π/4*phOf N f c) (zOf N (c.2 - c.1)) := by
  unfold starDir phOf zOf
  simp only
  push_cast
  split_ifs <;> rfl

theorem zOf_strict {N t u : ℤ} (hN : 0 < N) (ht : -(2*N) ≤ t) (hu : u ≤ 2*N) (h : t < u) : zOf N t < zOf N u := by
  have hN' : (0:ℝ) < N := by exact_mod_cast hN
  have ht' : -(2*(N:ℝ)) ≤ t := by exact_mod_cast ht
  have hu' : (u:ℝ) ≤ 2*N := by exact_mod_cast hu
  have h' : (t:ℝ) < u := by exact_mod_cast h
  have e1 : ∀ x : ℝ, 2*x/(3*N) = (2*N*x)/(3*(N:ℝ)^2) := fun x => by field_simp
  have e2 : ∀ x : ℝ, 1 - x/(3*(N:ℝ)^2) = (3*(N:ℝ)^2 - x)/(3*(N:ℝ)^2) := fun x => by field_simp
  have e3 : ∀ x : ℝ, -((3*(N:ℝ)^2 - x)/(3*(N:ℝ)^2)) = (x - 3*(N:ℝ)^2)/(3*(N:ℝ)^2) := fun x => by ring
  have hp : (0:ℝ) < 3*(N:ℝ)^2 := by positivity
  unfold zOf
  simp only [e1, e2, e3]
  by_cases a1 : |t| ≤ N
  · rw [if_pos a1]
    rw [abs_le] at a1
    have b1 : (t:ℝ) ≤ N := by exact_mod_cast a1.2
    by_cases a2 : |u| ≤ N
    · rw [if_pos a2, div_lt_div_iff_of_pos_right hp]
      nlinarith
    · rw [if_neg a2]
      rw [abs_le] at a2
      have a3 : N < u := by omega
      have b3 : (N:ℝ) < u := by exact_mod_cast a3
      rw [if_pos a3, div_lt_div_iff_of_pos_right hp]
      nlinarith
  · rw [if_neg a1]
    rw [abs_le] at a1
    by_cases a4 : N < t
    · have b4 : (N:ℝ) < t := by exact_mod_cast a4
      rw [if_pos a4, if_neg (by rw [abs_le]; omega), if_pos (by omega), div_lt_div_iff_of_pos_right hp]
      nlinarith
    · have a5 : t < -N := by omega
      have b5 : (t:ℝ) < -N := by exact_mod_cast a5
      rw [if_neg a4]
      by_cases a2 : |u| ≤ N
      · rw [if_pos a2, div_lt_div_iff_of_pos_right hp]
        rw [abs_le] at a2
        have b2 : -(N:ℝ) ≤ u := by exact_mod_cast a2.1
        nlinarith
      · rw [if_neg a2]
        rw [abs_le] at a2
        by_cases a3 : N < u
        · have b3 : (N:ℝ) < u := by exact_mod_cast a3
          rw [if_pos a3, div_lt_div_iff_of_pos_right hp]
          nlinarith
        · have a6 : u < -N := by omega
          have b6 : (u:ℝ) < -N := by exact_mod_cast a6
          rw [if_neg a3, div_lt_div_iff_of_pos_right hp]
          nlinarith

theorem zOf_ends {N : ℤ} (hN : 0 < N) : zOf N (2*N) = 1 ∧ zOf N (-(2*N)) = -1 := by
  unfold zOf
  rw [if_neg (by rw [abs_le]; omega), if_pos (by omega), if_neg (by rw [abs_le]; omega), if_neg (by omega)]
  push_cast
  constructor <;> ring

theorem dirOf_inj {p q z w : ℝ} (hz : -1 < z ∧ z < 1) : dirOf p z = dirOf q w ↔ z = w ∧ ∃ n : ℤ, p = q + n*(2*π) := by
  have hs : 0 < √(1 - z^2) := Real.sqrt_pos.mpr (by nlinarith)
  unfold dirOf
  simp only [Prod.mk.injEq]
  constructor
  · rintro ⟨h1, h2, rfl⟩
    refine ⟨rfl, ?_⟩
    have c := mul_left_cancel₀ hs.ne' h1
    have s := mul_left_cancel₀ hs.ne' h2
    have e : Complex.exp (p*Complex.I) = Complex.exp (q*Complex.I) := by
      rw [Complex.exp_mul_I, Complex.exp_mul_I, ← Complex.ofReal_cos, ← Complex.ofReal_sin, ← Complex.ofReal_cos,
        ← Complex.ofReal_sin, c, s]
    obtain ⟨n, hn⟩ := Complex.exp_eq_exp_iff_exists_int.mp e
    refine ⟨n, ?_⟩
    have := congrArg Complex.im hn
    simpa using this
  · rintro ⟨rfl, n, rfl⟩
    rw [Real.cos_add_int_mul_two_pi, Real.sin_add_int_mul_two_pi]
    exact ⟨rfl, rfl, rfl⟩

theorem dirOf_pole (p q z : ℝ) (h : z^2 = 1) : dirOf p z = dirOf q z := by
  unfold dirOf
  rw [h]; simp

/-- Lattice points of two facets that are the same point of the sphere, up to whole turns. -/
def Glue (N : ℤ) (f g c d : ℤ × ℤ) : Prop :=
  c.2 - c.1 = d.2 - d.1 ∧ (c = d ∨
    (N < c.2 - c.1 ∧ (c.2 - c.1 = 2*N ∨ (g.1 = f.1 + 1 ∧ c.2 = N*f.1 + 2*N ∧ d.1 = N*g.1) ∨
      (f.1 = g.1 + 1 ∧ d.2 = N*g.1 + 2*N ∧ c.1 = N*f.1))) ∨
    (c.2 - c.1 < -N ∧ (c.2 - c.1 = -(2*N) ∨ (g.2 = f.2 + 1 ∧ c.1 = N*f.2 + 2*N ∧ d.2 = N*g.2) ∨
      (f.2 = g.2 + 1 ∧ d.1 = N*g.2 + 2*N ∧ c.2 = N*f.2))))

theorem facet_cases {N : ℤ} {f : ℤ × ℤ} (h0 : f.2 - f.1 ≤ 1) (h1 : f.1 - f.2 ≤ 1) :
    (f.2 = f.1 + 1 ∧ N*f.2 = N*f.1 + N) ∨ (f.2 = f.1 ∧ N*f.2 = N*f.1) ∨ (f.2 = f.1 - 1 ∧ N*f.2 = N*f.1 - N) := by
  have : f.2 = f.1 + 1 ∨ f.2 = f.1 ∨ f.2 = f.1 - 1 := by omega
  rcases this with h | h | h <;> rw [h]
  · exact Or.inl ⟨rfl, by ring⟩
  · exact Or.inr (Or.inl ⟨rfl, rfl⟩)
  · exact Or.inr (Or.inr ⟨rfl, by ring⟩)

theorem InFacet.height {N : ℤ} {f c : ℤ × ℤ} (hN : 0 < N) (h : InFacet N f c) :
    -(2*N) ≤ c.2 - c.1 ∧ c.2 - c.1 ≤ 2*N ∧
    (N < c.2 - c.1 → N*f.2 = N*f.1 + N) ∧ (c.2 - c.1 < -N → N*f.1 = N*f.2 + N) := by
  obtain ⟨a, b, c', d, e, g⟩ := h
  rcases facet_cases (N := N) e g with ⟨h, h'⟩ | ⟨h, h'⟩ | ⟨h, h'⟩ <;> refine ⟨?_, ?_, ?_, ?_⟩ <;> omega

theorem InFacet.turn {N : ℤ} {f c : ℤ × ℤ} (h : InFacet N f c) (n : ℤ) :
    InFacet N (f.1 + 4*n, f.2 + 4*n) (c.1 + 4*N*n, c.2 + 4*N*n) := by
  obtain ⟨a, b, c', d, e, g⟩ := h
  have e1 : N*(f.1 + 4*n) = N*f.1 + 4*N*n := by ring
  have e2 : N*(f.2 + 4*n) = N*f.2 + 4*N*n := by ring
  constructor <;> simp only [] <;> (try rw [e1]) <;> (try rw [e2]) <;> omega

theorem phOf_turn {N : ℤ} (hN : 0 < N) (f c : ℤ × ℤ) (n : ℤ) :
    phOf N (f.1 + 4*n, f.2 + 4*n) (c.1 + 4*N*n, c.2 + 4*N*n) = phOf N f c + 8*n := by
  have hN' : (N:ℝ) ≠ 0 := by exact_mod_cast hN.ne'
  have e : c.2 + 4*N*n - (c.1 + 4*N*n) = c.2 - c.1 := by ring
  unfold phOf
  simp only [e]
  split_ifs
  · push_cast; field_simp; ring
  · push_cast
    rw [show (c.1 + 4*N*n + (c.2 + 4*N*n) - (2*(f.1 + 4*n) + 2)*N : ℝ) = c.1 + c.2 - (2*f.1 + 2)*N by ring,
      show (2*N - (c.2 + 4*N*n - (c.1 + 4*N*n)) : ℝ) = 2*N - (c.2 - c.1) by ring]
    ring
  · push_cast
    rw [show (c.1 + 4*N*n + (c.2 + 4*N*n) - (2*(f.2 + 4*n) + 2)*N : ℝ) = c.1 + c.2 - (2*f.2 + 2)*N by ring,
      show (2*N + (c.2 + 4*N*n - (c.1 + 4*N*n)) : ℝ) = 2*N + (c.2 - c.1) by ring]
    ring

/-- In a cap: places `v`, `w` in the facets `a`, `b` with the same longitude. -/
theorem cap_longitude {a b v w s : ℤ} (hs : 0 < s) (hv : -s ≤ v ∧ v ≤ s) (hw : -s ≤ w ∧ w ≤ s) :
    (2*a + 1 + (v:ℝ)/s = 2*b + 1 + (w:ℝ)/s) ↔
      (a = b ∧ v = w) ∨ (b = a + 1 ∧ v = s ∧ w = -s) ∨ (a = b + 1 ∧ v = -s ∧ w = s) := by
  have hs' : (s:ℝ) ≠ 0 := by exact_mod_cast hs.ne'
  have e : (2*a + 1 + (v:ℝ)/s = 2*b + 1 + (w:ℝ)/s) ↔ 2*(a - b)*s = w - v := by
    rw [← @Int.cast_inj ℝ]
    push_cast
    constructor
    · intro h
      have h2 := congrArg (· * (s:ℝ)) h
      simp only [add_mul, div_mul_cancel₀ _ hs'] at h2
      linarith
    · intro h
      have : (2*a - 2*b : ℝ) = (w - v)/s := by
        rw [eq_div_iff hs']; linarith
      rw [sub_div] at this
      linarith
  rw [e]
  constructor
  · intro h
    have h1 : a - b ≤ 1 := by
      by_contra hc
      have : 2 ≤ a - b := by omega
      nlinarith
    have h2 : -1 ≤ a - b := by
      by_contra hc
      have : a - b ≤ -2 := by omega
      nlinarith
    have : a - b = 0 ∨ a - b = 1 ∨ a - b = -1 := by omega
    rcases this with k | k | k <;> rw [k] at h <;> omega
  · rintro (⟨rfl, rfl⟩ | ⟨rfl, rfl, rfl⟩ | ⟨rfl, rfl, rfl⟩) <;> ring

theorem phOf_eq_iff {N : ℤ} (hN : 0 < N) {f g c d : ℤ × ℤ} (hc : InFacet N f c) (hd : InFacet N g d)
    (ht : c.2 - c.1 = d.2 - d.1) (h0 : -(2*N) < c.2 - c.1) (h1 : c.2 - c.1 < 2*N) :
    phOf N f c = phOf N g d ↔ Glue N f g c d := by
  have hN' : (N:ℝ) ≠ 0 := by exact_mod_cast hN.ne'
  obtain ⟨-, -, hcn, hcs⟩ := hc.height hN
  obtain ⟨-, -, hdn, hds⟩ := hd.height hN
  obtain ⟨a1, a2, a3, a4, a5, a6⟩ := hc
  obtain ⟨b1, b2, b3, b4, b5, b6⟩ := hd
  unfold phOf Glue
  rw [← ht]
  by_cases h : |c.2 - c.1| ≤ N
  · rw [if_pos h, if_pos h]
    rw [abs_le] at h
    constructor
    · intro e
      rw [div_left_inj' hN'] at e
      have : c.1 + c.2 - N = d.1 + d.2 - N := by exact_mod_cast e
      exact ⟨rfl, Or.inl (Prod.ext (by omega) (by omega))⟩
    · rintro ⟨-, rfl | h | h⟩
      · rfl
      · omega
      · omega
  · rw [if_neg h, if_neg h]
    rw [abs_le] at h
    by_cases h2 : N < c.2 - c.1
    · rw [if_pos h2, if_pos h2]
      have e1 := hcn h2
      have e2 := hdn (by omega)
      have x1 : N*(f.1*2) = N*f.1*2 := by ring
      have k1 : -(2*N - (c.2 - c.1)) ≤ c.1 + c.2 - (2*f.1 + 2)*N ∧ c.1 + c.2 - (2*f.1 + 2)*N ≤ 2*N - (c.2 - c.1) := by
        rw [show c.1 + c.2 - (2*f.1 + 2)*N = c.1 + c.2 - 2*(N*f.1) - 2*N by ring]; omega
      have k2 : -(2*N - (c.2 - c.1)) ≤ d.1 + d.2 - (2*g.1 + 2)*N ∧ d.1 + d.2 - (2*g.1 + 2)*N ≤ 2*N - (c.2 - c.1) := by
        rw [show d.1 + d.2 - (2*g.1 + 2)*N = d.1 + d.2 - 2*(N*g.1) - 2*N by ring]; omega
      have key := cap_longitude (a := f.1) (b := g.1) (by omega) k1 k2
      push_cast at key
      have ht' : ((d.2:ℝ) - d.1) = c.2 - c.1 := by exact_mod_cast ht.symm
      rw [ht', key, show c.1 + c.2 - (2*f.1 + 2)*N = c.1 + c.2 - 2*(N*f.1) - 2*N by ring,
        show d.1 + d.2 - (2*g.1 + 2)*N = d.1 + d.2 - 2*(N*g.1) - 2*N by ring]
      constructor
      · rintro (⟨u, v⟩ | ⟨u, v, w⟩ | ⟨u, v, w⟩)
        · rw [u] at v
          exact ⟨rfl, Or.inl (Prod.ext (by omega) (by omega))⟩
        · refine ⟨rfl, Or.inr (Or.inl ⟨h2, Or.inr (Or.inl ⟨u, by omega, by omega⟩)⟩)⟩
        · refine ⟨rfl, Or.inr (Or.inl ⟨h2, Or.inr (Or.inr ⟨u, by omega, by omega⟩)⟩)⟩
      · rintro ⟨-, rfl | ⟨-, h | ⟨u, v, w⟩ | ⟨u, v, w⟩⟩ | ⟨h, -⟩⟩
        · left
          have : f.1 = g.1 := by
            have p1 : c.1 < N*f.1 + N := by omega
            have p2 : c.1 < N*g.1 + N := by omega
            have q1 : N*(f.1 - g.1) < N*1 := by nlinarith
            have q2 : N*(g.1 - f.1) < N*1 := by nlinarith
            have := lt_of_mul_lt_mul_left q1 hN.le
            have := lt_of_mul_lt_mul_left q2 hN.le
            omega
          rw [this]; exact ⟨rfl, rfl⟩
        · omega
        · right; left; exact ⟨u, by omega, by omega⟩
        · right; right; exact ⟨u, by omega, by omega⟩
        · omega
    · rw [if_neg h2, if_neg h2]
      have e1 := hcs (by omega)
      have e2 := hds (by omega)
      have k1 : -(2*N + (c.2 - c.1)) ≤ c.1 + c.2 - (2*f.2 + 2)*N ∧ c.1 + c.2 - (2*f.2 + 2)*N ≤ 2*N + (c.2 - c.1) := by
        rw [show c.1 + c.2 - (2*f.2 + 2)*N = c.1 + c.2 - 2*(N*f.2) - 2*N by ring]; omega
      have k2 : -(2*N + (c.2 - c.1)) ≤ d.1 + d.2 - (2*g.2 + 2)*N ∧ d.1 + d.2 - (2*g.2 + 2)*N ≤ 2*N + (c.2 - c.1) := by
        rw [show d.1 + d.2 - (2*g.2 + 2)*N = d.1 + d.2 - 2*(N*g.2) - 2*N by ring]; omega
      have key := cap_longitude (a := f.2) (b := g.2) (by omega) k1 k2
      push_cast at key
      have ht' : ((d.2:ℝ) - d.1) = c.2 - c.1 := by exact_mod_cast ht.symm
      rw [ht', key, show c.1 + c.2 - (2*f.2 + 2)*N = c.1 + c.2 - 2*(N*f.2) - 2*N by ring,
        show d.1 + d.2 - (2*g.2 + 2)*N = d.1 + d.2 - 2*(N*g.2) - 2*N by ring]
      constructor
      · rintro (⟨u, v⟩ | ⟨u, v, w⟩ | ⟨u, v, w⟩)
        · rw [u] at v
          exact ⟨rfl, Or.inl (Prod.ext (by omega) (by omega))⟩
        · refine ⟨rfl, Or.inr (Or.inr ⟨by omega, Or.inr (Or.inl ⟨u, by omega, by omega⟩)⟩)⟩
        · refine ⟨rfl, Or.inr (Or.inr ⟨by omega, Or.inr (Or.inr ⟨u, by omega, by omega⟩)⟩)⟩
      · rintro ⟨-, rfl | ⟨h, -⟩ | ⟨-, h | ⟨u, v, w⟩ | ⟨u, v, w⟩⟩⟩
        · left
          have : f.2 = g.2 := by
            have p1 : c.2 < N*f.2 + N := by omega
            have p2 : c.2 < N*g.2 + N := by omega
            have q1 : N*(f.2 - g.2) < N*1 := by nlinarith
            have q2 : N*(g.2 - f.2) < N*1 := by nlinarith
            have := lt_of_mul_lt_mul_left q1 hN.le
            have := lt_of_mul_lt_mul_left q2 hN.le
            omega
          rw [this]; exact ⟨rfl, rfl⟩
        · omega
        · omega
        · right; left; exact ⟨u, by omega, by omega⟩
        · right; right; exact ⟨u, by omega, by omega⟩

/-- When lattice points of two facets are the same point of the sphere. -/
theorem starDir_eq_iff {N : ℤ} (hN : 0 < N) {f g c d : ℤ × ℤ} (hc : InFacet N f c) (hd : InFacet N g d) :
    starDir N f c = starDir N g d ↔
      ∃ n : ℤ, Glue N f (g.1 + 4*n, g.2 + 4*n) c (d.1 + 4*N*n, d.2 + 4*N*n) := by
  obtain ⟨c0, c1, -, -⟩ := hc.height hN
  obtain ⟨d0, d1, -, -⟩ := hd.height hN
  rw [starDir_eq_dirOf, starDir_eq_dirOf]
  have hz : dirOf (π/4*phOf N f c) (zOf N (c.2 - c.1)) = dirOf (π/4*phOf N g d) (zOf N (d.2 - d.1)) →
      c.2 - c.1 = d.2 - d.1 := by
    intro h
    have hz : zOf N (c.2 - c.1) = zOf N (d.2 - d.1) := congrArg (fun x : ℝ × ℝ × ℝ => x.2.2) h
    rcases lt_trichotomy (c.2 - c.1) (d.2 - d.1) with h | h | h
    · exact absurd hz (zOf_strict hN c0 d1 h).ne
    · exact h
    · exact absurd hz (zOf_strict hN d0 c1 h).ne'
  by_cases hp : c.2 - c.1 = 2*N ∨ c.2 - c.1 = -(2*N)
  · constructor
    · intro h
      refine ⟨0, ?_⟩
      have ht := hz h
      unfold Glue
      simp only [mul_zero, add_zero]
      refine ⟨ht, Or.inr ?_⟩
      rcases hp with hp | hp
      · exact Or.inl ⟨by omega, Or.inl hp⟩
      · exact Or.inr ⟨by omega, Or.inl hp⟩
    · rintro ⟨n, ht, -⟩
      simp only at ht
      have ht : d.2 - d.1 = c.2 - c.1 := by omega
      rw [ht]
      refine dirOf_pole _ _ _ ?_
      rcases hp with hp | hp <;> rw [hp]
      · rw [(zOf_ends hN).1]; norm_num
      · rw [(zOf_ends hN).2]; norm_num
  · push Not at hp
    have h0 : -(2*N) < c.2 - c.1 := by have := hp.2; omega
    have h1 : c.2 - c.1 < 2*N := by have := hp.1; omega
    have hz1 : -1 < zOf N (c.2 - c.1) ∧ zOf N (c.2 - c.1) < 1 := by
      constructor
      · have := zOf_strict hN le_rfl c1 h0
        rwa [(zOf_ends hN).2] at this
      · have := zOf_strict hN c0 le_rfl h1
        rwa [(zOf_ends hN).1] at this
    have hph : ∀ n : ℤ, (π/4*phOf N f c = π/4*phOf N g d + n*(2*π)) ↔
        phOf N f c = phOf N (g.1 + 4*n, g.2 + 4*n) (d.1 + 4*N*n, d.2 + 4*N*n) := by
      intro n
      rw [phOf_turn hN]
      have := pi_pos
      constructor
      · intro h
        have h2 : π*(phOf N f c - phOf N g d - 8*n) = 0 := by linarith
        rcases mul_eq_zero.mp h2 with h | h <;> linarith
      · intro h; rw [h]; ring
    constructor
    · intro h
      have ht := hz h
      obtain ⟨-, n, hn⟩ := (dirOf_inj hz1).mp h
      refine ⟨n, (phOf_eq_iff hN hc (hd.turn n) (by simp only; omega) h0 h1).mp ((hph n).mp hn)⟩
    · rintro ⟨n, hn⟩
      have ht := hn.1
      simp only at ht
      have hh := (hph n).mpr ((phOf_eq_iff hN hc (hd.turn n) (by simp only; omega) h0 h1).mpr hn)
      exact (dirOf_inj hz1).mpr ⟨by rw [show c.2 - c.1 = d.2 - d.1 by omega], n, hh⟩

/-! ## Touching pixels -/

/-- What it means for a pixel to be on the map, in linear form. -/
theorem onMap_cases {N : ℤ} (hN : 0 < N) {a : ℤ × ℤ} (h : OnMap N a) :
    N*(a.1/N) ≤ a.1 ∧ a.1 < N*(a.1/N) + N ∧ N*(a.2/N) ≤ a.2 ∧ a.2 < N*(a.2/N) + N ∧
    ((a.2/N = a.1/N + 1 ∧ N*(a.2/N) = N*(a.1/N) + N) ∨ (a.2/N = a.1/N ∧ N*(a.2/N) = N*(a.1/N)) ∨
      (a.2/N = a.1/N - 1 ∧ N*(a.2/N) = N*(a.1/N) - N)) := by
  have a1 := Int.mul_ediv_add_emod a.1 N
  have a2 := Int.emod_nonneg a.1 hN.ne'
  have a3 := Int.emod_lt_of_pos a.1 hN
  have b1 := Int.mul_ediv_add_emod a.2 N
  have b2 := Int.emod_nonneg a.2 hN.ne'
  have b3 := Int.emod_lt_of_pos a.2 hN
  unfold OnMap facet at h
  rw [abs_le] at h
  simp only at h
  refine ⟨by omega, by omega, by omega, by omega, ?_⟩
  exact facet_cases (f := (a.1/N, a.2/N)) (by simp only; omega) (by simp only; omega)

theorem corner_inFacet {N : ℤ} (hN : 0 < N) {a c : ℤ × ℤ} (h : OnMap N a) (hc : Corner a c) :
    InFacet N (facet N a) c := by
  obtain ⟨h1, h2, h3, h4, h5⟩ := onMap_cases hN h
  obtain ⟨c1, c2⟩ := hc
  unfold facet
  constructor <;> simp only [] <;> omega

theorem facet_turn {N : ℤ} (hN : 0 < N) (b : ℤ × ℤ) (n : ℤ) :
    facet N (b.1 + 4*N*n, b.2 + 4*N*n) = ((facet N b).1 + 4*n, (facet N b).2 + 4*n) := by
  unfold facet
  simp only
  rw [show 4*N*n = N*(4*n) by ring, Int.add_mul_ediv_left _ _ hN.ne', Int.add_mul_ediv_left _ _ hN.ne']

theorem onMap_turn {N : ℤ} (hN : 0 < N) {b : ℤ × ℤ} (h : OnMap N b) (n : ℤ) :
    OnMap N (b.1 + 4*N*n, b.2 + 4*N*n) := by
  unfold OnMap at h ⊢
  rw [facet_turn hN]
  simpa using h

/-- Pixels with a common corner, in the plane, over a seam between two facets of a cap, or at a pole. -/
def Adj (N : ℤ) (a b : ℤ × ℤ) : Prop :=
  (|a.1 - b.1| ≤ 1 ∧ |a.2 - b.2| ≤ 1) ∨
  (a.2/N = a.1/N + 1 ∧ b.2/N = b.1/N + 1 ∧
    ((b.1/N = a.1/N + 1 ∧ a.2 = N*(a.1/N) + 2*N - 1 ∧ b.1 = N*(b.1/N) ∧ |b.2 - (a.2 - a.1 + N*(a.1/N) + N)| ≤ 1) ∨
     (a.1/N = b.1/N + 1 ∧ b.2 = N*(b.1/N) + 2*N - 1 ∧ a.1 = N*(a.1/N) ∧ |a.2 - (b.2 - b.1 + N*(b.1/N) + N)| ≤ 1) ∨
     (a.2 - a.1 = 2*N - 1 ∧ b.2 - b.1 = 2*N - 1))) ∨
  (a.1/N = a.2/N + 1 ∧ b.1/N = b.2/N + 1 ∧
    ((b.2/N = a.2/N + 1 ∧ a.1 = N*(a.2/N) + 2*N - 1 ∧ b.2 = N*(b.2/N) ∧ |b.1 - (a.1 - a.2 + N*(a.2/N) + N)| ≤ 1) ∨
     (a.2/N = b.2/N + 1 ∧ b.1 = N*(b.2/N) + 2*N - 1 ∧ a.2 = N*(a.2/N) ∧ |a.1 - (b.1 - b.2 + N*(b.2/N) + N)| ≤ 1) ∨
     (a.1 - a.2 = 2*N - 1 ∧ b.1 - b.2 = 2*N - 1)))

set_option maxHeartbeats 1000000 in
theorem adj_glue {N : ℤ} (hN : 0 < N) {a b : ℤ × ℤ} (ha : OnMap N a) (hb : OnMap N b) :
    Adj N a b → ∃ c d, Corner a c ∧ Corner b d ∧ Glue N (facet N a) (facet N b) c d := by
  obtain ⟨a1, a2, a3, a4, a5⟩ := onMap_cases hN ha
  obtain ⟨b1, b2, b3, b4, b5⟩ := onMap_cases hN hb
  unfold Adj
  simp only [abs_le]
  rintro (h | ⟨e1, e2, h | h | h⟩ | ⟨e1, e2, h | h | h⟩)
  · refine ⟨(max a.1 b.1, max a.2 b.2), (max a.1 b.1, max a.2 b.2), ⟨by simp only; omega, by simp only; omega⟩,
      ⟨by simp only; omega, by simp only; omega⟩, rfl, Or.inl rfl⟩
  · obtain ⟨k, h1, h2, h3⟩ := h
    have e : N*(b.1/N) = N*(a.1/N) + N := by rw [k]; ring
    have : ∃ x y : ℤ, (x = 0 ∨ x = 1) ∧ (y = 0 ∨ y = 1) ∧ a.2 + 1 - a.1 - x = b.2 + y - b.1 := by
      have : b.2 = a.2 - a.1 + N*(a.1/N) + N + 1 ∨ b.2 = a.2 - a.1 + N*(a.1/N) + N ∨
        b.2 = a.2 - a.1 + N*(a.1/N) + N - 1 := by omega
      rcases this with h | h | h
      · exact ⟨0, 0, by omega, by omega, by omega⟩
      · exact ⟨0, 1, by omega, by omega, by omega⟩
      · exact ⟨1, 1, by omega, by omega, by omega⟩
    obtain ⟨x, y, hx, hy, hxy⟩ := this
    refine ⟨(a.1 + x, a.2 + 1), (b.1, b.2 + y), ⟨by simp only; omega, by simp⟩, ⟨by simp, by simp only; omega⟩,
      by simp only; omega, ?_⟩
    unfold facet
    simp only [Prod.mk.injEq]
    omega
  · obtain ⟨k, h1, h2, h3⟩ := h
    have e : N*(a.1/N) = N*(b.1/N) + N := by rw [k]; ring
    have : ∃ x y : ℤ, (x = 0 ∨ x = 1) ∧ (y = 0 ∨ y = 1) ∧ a.2 + x - a.1 = b.2 + 1 - b.1 - y := by
      have : a.2 = b.2 - b.1 + N*(b.1/N) + N + 1 ∨ a.2 = b.2 - b.1 + N*(b.1/N) + N ∨
        a.2 = b.2 - b.1 + N*(b.1/N) + N - 1 := by omega
      rcases this with h | h | h
      · exact ⟨0, 0, by omega, by omega, by omega⟩
      · exact ⟨0, 1, by omega, by omega, by omega⟩
      · exact ⟨1, 1, by omega, by omega, by omega⟩
    obtain ⟨x, y, hx, hy, hxy⟩ := this
    refine ⟨(a.1, a.2 + x), (b.1 + y, b.2 + 1), ⟨by simp, by simp only; omega⟩, ⟨by simp only; omega, by simp⟩,
      by simp only; omega, ?_⟩
    unfold facet
    simp only [Prod.mk.injEq]
    omega
  · refine ⟨(a.1, a.2 + 1), (b.1, b.2 + 1), ⟨by simp, by simp⟩, ⟨by simp, by simp⟩, by simp only; omega, ?_⟩
    unfold facet
    simp only [Prod.mk.injEq]
    omega
  · obtain ⟨k, h1, h2, h3⟩ := h
    have e : N*(b.2/N) = N*(a.2/N) + N := by rw [k]; ring
    have : ∃ x y : ℤ, (x = 0 ∨ x = 1) ∧ (y = 0 ∨ y = 1) ∧ a.1 + 1 - a.2 - x = b.1 + y - b.2 := by
      have : b.1 = a.1 - a.2 + N*(a.2/N) + N + 1 ∨ b.1 = a.1 - a.2 + N*(a.2/N) + N ∨
        b.1 = a.1 - a.2 + N*(a.2/N) + N - 1 := by omega
      rcases this with h | h | h
      · exact ⟨0, 0, by omega, by omega, by omega⟩
      · exact ⟨0, 1, by omega, by omega, by omega⟩
      · exact ⟨1, 1, by omega, by omega, by omega⟩
    obtain ⟨x, y, hx, hy, hxy⟩ := this
    refine ⟨(a.1 + 1, a.2 + x), (b.1 + y, b.2), ⟨by simp, by simp only; omega⟩, ⟨by simp only; omega, by simp⟩,
      by simp only; omega, ?_⟩
    unfold facet
    simp only [Prod.mk.injEq]
    omega
  · obtain ⟨k, h1, h2, h3⟩ := h
    have e : N*(a.2/N) = N*(b.2/N) + N := by rw [k]; ring
    have : ∃ x y : ℤ, (x = 0 ∨ x = 1) ∧ (y = 0 ∨ y = 1) ∧ a.1 + x - a.2 = b.1 + 1 - b.2 - y := by
      have : a.1 = b.1 - b.2 + N*(b.2/N) + N + 1 ∨ a.1 = b.1 - b.2 + N*(b.2/N) + N ∨
        a.1 = b.1 - b.2 + N*(b.2/N) + N - 1 := by omega
      rcases this with h | h | h
      · exact ⟨0, 0, by omega, by omega, by omega⟩
      · exact ⟨0, 1, by omega, by omega, by omega⟩
      · exact ⟨1, 1, by omega, by omega, by omega⟩
    obtain ⟨x, y, hx, hy, hxy⟩ := this
    refine ⟨(a.1 + x, a.2), (b.1 + 1, b.2 + y), ⟨by simp only; omega, by simp⟩, ⟨by simp, by simp only; omega⟩,
      by simp only; omega, ?_⟩
    unfold facet
    simp only [Prod.mk.injEq]
    omega
  · refine ⟨(a.1 + 1, a.2), (b.1 + 1, b.2), ⟨by simp, by simp⟩, ⟨by simp, by simp⟩, by simp only; omega, ?_⟩
    unfold facet
    simp only [Prod.mk.injEq]
    omega

set_option maxHeartbeats 1000000 in
theorem glue_adj {N : ℤ} (hN : 0 < N) {a b : ℤ × ℤ} (ha : OnMap N a) (hb : OnMap N b) :
    (∃ c d, Corner a c ∧ Corner b d ∧ Glue N (facet N a) (facet N b) c d) ↔ Adj N a b := by
  obtain ⟨a1, a2, a3, a4, a5⟩ := onMap_cases hN ha
  obtain ⟨b1, b2, b3, b4, b5⟩ := onMap_cases hN hb
  constructor
  · rintro ⟨c, d, ⟨c1, c2⟩, ⟨d1, d2⟩, ht, hg⟩
    unfold Adj
    simp only [abs_le]
    unfold facet at hg
    simp only at hg
    rcases hg with rfl | ⟨hn, hg⟩ | ⟨hn, hg⟩
    · left; omega
    · right; left
      rcases hg with hg | hg | hg
      · refine ⟨by omega, by omega, ?_⟩
        right; right; omega
      · have e : N*(b.1/N) = N*(a.1/N) + N := by rw [hg.1]; ring
        refine ⟨by omega, by omega, ?_⟩
        left; omega
      · have e : N*(a.1/N) = N*(b.1/N) + N := by rw [hg.1]; ring
        refine ⟨by omega, by omega, ?_⟩
        right; left; omega
    · right; right
      rcases hg with hg | hg | hg
      · refine ⟨by omega, by omega, ?_⟩
        right; right; omega
      · have e : N*(b.2/N) = N*(a.2/N) + N := by rw [hg.1]; ring
        refine ⟨by omega, by omega, ?_⟩
        left; omega
      · have e : N*(a.2/N) = N*(b.2/N) + N := by rw [hg.1]; ring
        refine ⟨by omega, by omega, ?_⟩
        right; left; omega
  · exact adj_glue hN ha hb

/-- Touching on the sphere in terms of the indices. -/
theorem skyTouch_iff {N : ℤ} (hN : 0 < N) {a b : ℤ × ℤ} (ha : OnMap N a) (hb : OnMap N b) :
    SkyTouch N a b ↔ ¬ SamePix N a b ∧ ∃ n : ℤ, Adj N a (b.1 + 4*N*n, b.2 + 4*N*n) := by
  unfold SkyTouch
  refine and_congr_right fun _ => ?_
  constructor
  · rintro ⟨c, d, hc, hd, h⟩
    obtain ⟨n, hn⟩ := (starDir_eq_iff hN (corner_inFacet hN ha hc) (corner_inFacet hN hb hd)).mp h
    refine ⟨n, (glue_adj hN ha (onMap_turn hN hb n)).mp ⟨c, _, hc, ?_, by rw [facet_turn hN]; exact hn⟩⟩
    obtain ⟨d1, d2⟩ := hd
    exact ⟨by simp only; omega, by simp only; omega⟩
  · rintro ⟨n, h⟩
    obtain ⟨c, d, hc, ⟨d1, d2⟩, hg⟩ := (glue_adj hN ha (onMap_turn hN hb n)).mpr h
    simp only at d1 d2
    have hd : Corner b (d.1 - 4*N*n, d.2 - 4*N*n) := ⟨by simp only; omega, by simp only; omega⟩
    refine ⟨c, _, hc, hd, (starDir_eq_iff hN (corner_inFacet hN ha hc) (corner_inFacet hN hb hd)).mpr ⟨n, ?_⟩⟩
    rw [facet_turn hN] at hg
    simpa using hg

end Magpie.Healpix
