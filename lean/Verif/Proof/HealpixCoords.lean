import Verif.Model.HealpixCoords
import Verif.Proof.HealpixIndex

set_option linter.unusedSimpArgs false

namespace Magpie.Healpix
open Spec

/-! ### Closed forms of `jdash` -/

theorem floor_half (N : ℤ) (hN : 0 ≤ N) : (trunc ((N:ℝ)/2) : ℤ) = N / 2 := by
  have h0 : (0:ℝ) ≤ (N:ℝ)/2 := by
    have : (0:ℝ) ≤ N := by exact_mod_cast hN
    linarith
  unfold trunc
  rw [if_pos h0, Int.floor_eq_iff]
  have h := Int.emod_add_mul_ediv N 2
  have h1 := Int.emod_nonneg N (show (2:ℤ) ≠ 0 by norm_num)
  have h2 := Int.emod_lt_of_pos N (show (0:ℤ) < 2 by norm_num)
  have hR : ((N % 2 : ℤ) : ℝ) + 2 * ((N / 2 : ℤ) : ℝ) = N := by exact_mod_cast h
  have h1R : (0:ℝ) ≤ ((N % 2 : ℤ) : ℝ) := by exact_mod_cast h1
  have h2R : ((N % 2 : ℤ) : ℝ) < 2 := by exact_mod_cast h2
  constructor <;> linarith

theorem floor_intdiv (a r : ℤ) (hr : 0 < r) : ⌊(a:ℝ)/(r:ℝ)⌋ = a / r := by
  rw [Int.floor_eq_iff]
  have h := Int.emod_add_mul_ediv a r
  have h1 := Int.emod_nonneg a (show r ≠ 0 by omega)
  have h2 := Int.emod_lt_of_pos a hr
  have hR : ((a % r : ℤ) : ℝ) + r * ((a / r : ℤ) : ℝ) = a := by exact_mod_cast h
  have h1R : (0:ℝ) ≤ ((a % r : ℤ) : ℝ) := by exact_mod_cast h1
  have h2R : ((a % r : ℤ) : ℝ) < r := by exact_mod_cast h2
  have hrR : (0:ℝ) < r := by exact_mod_cast hr
  constructor
  · rw [le_div_iff₀ hrR]; linarith
  · rw [div_lt_iff₀ hrR]; linarith

/-- In a cap, `jdash = N/2 + N k - (r-1)/2 + m` with `j - 1 = r k + m`. -/
theorem capJd_eq {N r j : ℤ} (hN : 1 ≤ N) (hr : 1 ≤ r) :
    capJd r j N = .ok ((N:ℝ)/2 + N*(((j-1)/r : ℤ) : ℝ) - ((r:ℝ)-1)/2 + (((j-1)%r : ℤ) : ℝ)) := by
  have hrR : (0:ℝ) < r := by exact_mod_cast (by omega : 0 < r)
  have hk : ⌊4*((j : ℝ)-1)/(4*r)⌋ = (j-1)/r := by
    rw [← floor_intdiv (j-1) r (by omega)]
    congr 1
    push_cast
    rw [mul_div_mul_left _ _ (by norm_num)]
  have hm : fmod ((j:ℝ)-1) (4*r/4) = (((j-1)%r : ℤ) : ℝ) := by
    have e : (4*(r:ℝ)/4) = r := by ring
    rw [e]
    unfold fmod
    have := floor_intdiv (j-1) r (by omega)
    push_cast at this
    rw [this]
    have h := Int.emod_add_mul_ediv (j-1) r
    have hR : (((j-1) % r : ℤ) : ℝ) + r * (((j-1) / r : ℤ) : ℝ) = (j:ℝ) - 1 := by exact_mod_cast h
    linarith
  unfold capJd
  simp only []
  rw [if_neg (by positivity), hk, hm, floor_half N (by omega)]
  congr 1
  have h := Int.emod_add_mul_ediv N 2
  split
  case isTrue he =>
    rw [he] at h
    have hR : (0:ℝ) + 2 * ((N / 2 : ℤ) : ℝ) = N := by exact_mod_cast h
    linarith
  case isFalse he =>
    have he : N % 2 = 1 := by omega
    rw [he] at h
    have hR : (1:ℝ) + 2 * ((N / 2 : ℤ) : ℝ) = N := by exact_mod_cast h
    linarith

theorem eqJd_eq (N i j : ℤ) :
    eqJd i j N = (j:ℝ) - (if (i - N) % 2 = 0 then 1/2 else 1) := by
  unfold eqJd
  simp only []
  by_cases a : N % 2 = 0
  · rw [if_pos a]
    by_cases b : (i - N) % 2 = 0
    · have : (i+1) % 2 = 1 := by omega
      rw [if_pos b, this]; push_cast; ring
    · have : (i+1) % 2 = 0 := by omega
      rw [if_neg b, this]; push_cast; ring
  · rw [if_neg a]
    by_cases b : (i - N) % 2 = 0
    · have : i % 2 = 1 := by omega
      rw [if_pos b, this]; push_cast; ring
    · have : i % 2 = 0 := by omega
      rw [if_neg b, this]; push_cast; ring

/-- The star index pair of a ring pair, in closed form. -/
def starOf (N i j : ℤ) : ℤ × ℤ :=
  if i ≤ N then (N*((j-1)/i) + (j-1)%i, N*((j-1)/i+2) - i + (j-1)%i)
  else if i < 3*N then (j - 1 + (i-N)/2, j - 1 + (3*N-i)/2)
  else (N*((j-1)/(4*N-i)+2) - (4*N-i) + (j-1)%(4*N-i), N*((j-1)/(4*N-i)) + (j-1)%(4*N-i))

theorem j2jd_star {N i j : ℤ} (h : ValidRing N i j) : ∃ d : ℝ, j2jd i j N = .ok d ∧
    d - i2id i N + (N:ℝ)/2 - 1/2 = (starOf N i j).1 ∧
    d + i2id i N + (N:ℝ)/2 - 1/2 = (starOf N i j).2 := by
  obtain ⟨h1, h2, h3, h4⟩ := h
  have hN : 1 ≤ N := by omega
  unfold j2jd starOf i2id
  by_cases a : i ≤ N
  · rw [if_pos a, if_pos a, capJd_eq hN h1]
    refine ⟨_, rfl, ?_, ?_⟩ <;> push_cast <;> ring
  · rw [if_neg a, if_neg a]
    by_cases b : i < 3*N
    · rw [if_pos ⟨by omega, b⟩, if_pos b, eqJd_eq]
      refine ⟨_, rfl, ?_, ?_⟩
      · by_cases c : (i-N) % 2 = 0
        · rw [if_pos c]
          have e : 2*((i-N)/2) = i - N := by omega
          have eR : 2*(((i-N)/2 : ℤ) : ℝ) = (i:ℝ) - N := by exact_mod_cast e
          push_cast; linarith
        · rw [if_neg c]
          have e : 2*((i-N)/2) = i - N - 1 := by omega
          have eR : 2*(((i-N)/2 : ℤ) : ℝ) = (i:ℝ) - N - 1 := by exact_mod_cast e
          push_cast; linarith
      · by_cases c : (i-N) % 2 = 0
        · rw [if_pos c]
          have e : 2*((3*N-i)/2) = 3*N - i := by omega
          have eR : 2*(((3*N-i)/2 : ℤ) : ℝ) = 3*(N:ℝ) - i := by exact_mod_cast e
          push_cast; linarith
        · rw [if_neg c]
          have e : 2*((3*N-i)/2) = 3*N - i - 1 := by omega
          have eR : 2*(((3*N-i)/2 : ℤ) : ℝ) = 3*(N:ℝ) - i - 1 := by exact_mod_cast e
          push_cast; linarith
    · rw [if_neg (by omega), if_neg b, capJd_eq hN (by omega)]
      refine ⟨_, rfl, ?_, ?_⟩ <;> push_cast <;> ring

theorem starOf_nonneg {N i j : ℤ} (h : ValidRing N i j) :
    0 ≤ (starOf N i j).1 ∧ 0 ≤ (starOf N i j).2 := by
  obtain ⟨h1, h2, h3, h4⟩ := h
  have hN : 1 ≤ N := by omega
  unfold starOf
  by_cases a : i ≤ N
  · rw [if_pos a]
    have hk := Int.ediv_nonneg (show 0 ≤ j-1 by omega) (show 0 ≤ i by omega)
    have hm := Int.emod_nonneg (j-1) (show i ≠ 0 by omega)
    constructor <;> simp only [] <;> nlinarith
  · rw [if_neg a]
    by_cases b : i < 3*N
    · rw [if_pos b]; constructor <;> simp only [] <;> omega
    · rw [if_neg b]
      have hk := Int.ediv_nonneg (show 0 ≤ j-1 by omega) (show 0 ≤ 4*N-i by omega)
      have hm := Int.emod_nonneg (j-1) (show 4*N-i ≠ 0 by omega)
      constructor <;> simp only [] <;> nlinarith

theorem trunc_intCast_real (n : ℤ) : trunc (n : ℝ) = n := trunc_intCast n

/-- Distinct ring pairs have distinct star indices, also modulo a full turn. -/
theorem starOf_inj {N i j i' j' t : ℤ} (h : ValidRing N i j) (h' : ValidRing N i' j')
    (e1 : (starOf N i j).1 = (starOf N i' j').1 + 4*N*t)
    (e2 : (starOf N i j).2 = (starOf N i' j').2 + 4*N*t) : i = i' ∧ j = j' ∧ t = 0 := by
  obtain ⟨h1, h2, h3, h4⟩ := h
  obtain ⟨g1, g2, g3, g4⟩ := h'
  have hN : 1 ≤ N := by omega
  have hdiff : ∀ i j, (starOf N i j).2 - (starOf N i j).1 = 2*N - i := by
    intro i j
    unfold starOf
    split
    · simp only []; ring
    · split
      · simp only []; omega
      · simp only []; ring
  have hi : i = i' := by have := hdiff i j; have := hdiff i' j'; omega
  subst hi
  refine ⟨rfl, ?_⟩
  -- within one ring
  have cap : ∀ r : ℤ, 1 ≤ r → r ≤ N → j ≤ 4*r → j' ≤ 4*r →
      N*((j-1)/r) + (j-1)%r = N*((j'-1)/r) + (j'-1)%r + 4*N*t → j = j' ∧ t = 0 := by
    intro r hr hrN hj hj' e
    have a0 := Int.emod_add_mul_ediv (j-1) r
    have b0 := Int.emod_add_mul_ediv (j'-1) r
    have a1 := Int.emod_nonneg (j-1) (show r ≠ 0 by omega)
    have a2 := Int.emod_lt_of_pos (j-1) (show 0 < r by omega)
    have b1 := Int.emod_nonneg (j'-1) (show r ≠ 0 by omega)
    have b2 := Int.emod_lt_of_pos (j'-1) (show 0 < r by omega)
    have k0 : 0 ≤ (j-1)/r := Int.ediv_nonneg (by omega) (by omega)
    have k0' : 0 ≤ (j'-1)/r := Int.ediv_nonneg (by omega) (by omega)
    have k4 : (j-1)/r < 4 := Int.ediv_lt_of_lt_mul (by omega) (by omega)
    have k4' : (j'-1)/r < 4 := Int.ediv_lt_of_lt_mul (by omega) (by omega)
    generalize (j-1)/r = k at *
    generalize (j'-1)/r = k' at *
    generalize (j-1)%r = m at *
    generalize (j'-1)%r = m' at *
    have hs : N*(k - k' - 4*t) = m' - m := by linarith
    have hz : k - k' - 4*t = 0 := by
      by_contra hne
      rcases lt_or_gt_of_ne hne with hlt | hgt
      · have : k - k' - 4*t ≤ -1 := by omega
        nlinarith
      · have : 1 ≤ k - k' - 4*t := by omega
        nlinarith
    rw [hz] at hs
    have ht : t = 0 := by omega
    subst ht
    have hk : k = k' := by omega
    subst hk
    constructor
    · have : m = m' := by linarith
      omega
    · rfl
  unfold starOf at e1 e2
  unfold ringLen at h4 g4
  by_cases a : i ≤ N
  · rw [if_pos a] at e1 e2 h4 g4
    rw [if_pos a] at e1
    exact cap i h1 a h4 g4 e1
  · rw [if_neg a] at e1 e2 h4 g4
    rw [if_neg a] at e1
    by_cases b : i < 3*N
    · rw [if_pos b] at e1 e2 h4 g4
      rw [if_pos b] at e1
      simp only [] at e1
      have hj : j - j' = 4*N*t := by linarith
      have ht : t = 0 := by
        by_contra hne
        rcases lt_or_gt_of_ne hne with hlt | hgt
        · have : t ≤ -1 := by omega
          nlinarith
        · have : 1 ≤ t := by omega
          nlinarith
      subst ht
      constructor
      · omega
      · rfl
    · rw [if_neg b] at e1 e2 h4 g4
      rw [if_neg a, if_neg b] at e2
      exact cap (4*N-i) (by omega) (by omega) h4 g4 e2

end Magpie.Healpix

namespace Magpie.Healpix
open Spec Real

theorem npSign_pos {x : ℝ} (h : 0 < x) : npSign x = 1 := by
  unfold npSign; rw [if_neg (by linarith), if_neg (by linarith)]

theorem npSign_neg {x : ℝ} (h : x < 0) : npSign x = -1 := by
  unfold npSign; rw [if_pos h]

theorem npArccos_ok {z : ℝ} (h1 : -1 ≤ z) (h2 : z ≤ 1) : npArccos z = some (arccos z) := by
  unfold npArccos; rw [if_pos ⟨h1, h2⟩]

/-! ### Array branches -/

theorem xy2angArr_eq_map (rows : List (ℝ × ℝ)) :
    xy2angArr (rows.map Prod.fst) (rows.map Prod.snd)
      = .ok (rows.map fun r => some (xy2ang r.1 r.2).1, rows.map fun r => (xy2ang r.1 r.2).2) := by
  have key : ∀ r : ℝ × ℝ, ¬ |r.2| ≤ π/4 → ¬ (|4*r.2/π| - 1 = 1) →
      fdiv (r.1 - (π/4)*(|4*r.2/π| - 1)*(2*(⌊2*r.1/π⌋:ℝ)+1)) (1 - (|4*r.2/π| - 1))
        = some (xy2ang r.1 r.2).1 := by
    intro r h1 h2
    unfold fdiv xy2ang
    rw [if_neg h1, if_neg (by intro h; apply h2; linarith)]
    simp only []
    rw [if_neg h2]
  have hA : ∀ r : ℝ × ℝ, |r.2| ≤ π/4 →
      xy2ang r.1 r.2 = (r.1, npArccos (8*r.2/(3*π))) := by
    intro r h; unfold xy2ang; rw [if_pos h]
  have hB : ∀ r : ℝ × ℝ, ¬ |r.2| ≤ π/4 →
      (xy2ang r.1 r.2).2 = npArccos (npSign (4*r.2/π)*(1-(1/3)*(2-|4*r.2/π|)^2)) := by
    intro r h; unfold xy2ang; rw [if_neg h]
  have hP : ∀ r : ℝ × ℝ, ¬ |r.2| ≤ π/4 → |4*r.2/π| - 1 = 1 → (xy2ang r.1 r.2).1 = 0 := by
    intro r h h'; unfold xy2ang; rw [if_neg h]; simp only []; rw [if_pos h']
  have ht : ∀ r : ℝ × ℝ,
      (if |r.2| > π/4 then npArccos (npSign (4*r.2/π)*(1-(1/3)*(2-|4*r.2/π|)^2))
        else if |r.2| ≤ π/4 then npArccos (8*r.2/(3*π)) else some 0) = (xy2ang r.1 r.2).2 := by
    intro r
    by_cases h : |r.2| ≤ π/4
    · rw [if_neg (by linarith), if_pos h, hA r h]
    · rw [if_pos (by linarith), hB r h]
  unfold xy2angArr
  simp only [List.length_map, replicate_length_map, whereIdx_map, bind, Except.bind,
    gather_whereIdx, zipWith_map_same, zip_map_same, scatter_whereIdx, List.map_map,
    Function.comp_def, pure, Except.pure, decide_eq_true_eq, gather_whereIdx_whereIdx, ht]
  split
  case isTrue hany =>
    have hany' : ∀ r ∈ rows, |r.2| > π/4 → ¬ (|4*r.2/π| - 1 = 1) := by
      intro r hr h
      have := List.any_eq_false.mp hany (|4*r.2/π| - 1)
        (List.mem_map.mpr ⟨r, List.mem_filter.mpr ⟨hr, by simpa using h⟩, rfl⟩)
      simpa using this
    congr 1
    rw [Prod.mk.injEq]
    refine ⟨List.map_congr_left ?_, rfl⟩
    intro r hr
    by_cases h : |r.2| ≤ π/4
    · rw [if_neg (by linarith), if_pos h, hA r h]
    · rw [if_pos (by linarith)]
      exact key r h (hany' r hr (by linarith))
  case isFalse hany =>
    have hz : ∀ c : ℝ × ℝ → Bool, (whereIdx c rows).map (fun _ => (some 0 : Option ℝ))
        = (rows.filter c).map fun _ => some 0 := by
      intro c
      rw [← replicate_length_map, ← replicate_length_map, length_whereIdx]
    simp only [hz, scatter_whereIdx, gather_whereIdx, List.filter_filter, zipWith_map_same,
      zip_map_same, Bool.and_eq_true, decide_eq_true_eq]
    congr 1
    rw [Prod.mk.injEq]
    refine ⟨List.map_congr_left ?_, rfl⟩
    intro r hr
    by_cases h : |r.2| ≤ π/4
    · rw [if_neg (by push Not; intro _; linarith), if_neg (by push Not; intro _; linarith),
        if_pos h, hA r h]
    · by_cases h1 : |4*r.2/π| - 1 = 1
      · rw [if_neg (by tauto), if_pos ⟨h1, by linarith⟩, hP r h h1]
      · rw [if_pos ⟨h1, by linarith⟩]
        exact key r h h1

theorem ang2xyArr_eq_map (rows : List (ℝ × ℝ)) :
    ang2xyArr (rows.map Prod.fst) (rows.map Prod.snd)
      = .ok (rows.map fun r => (ang2xy r.1 r.2).1, rows.map fun r => (ang2xy r.1 r.2).2) := by
  unfold ang2xyArr
  simp only [List.length_map, replicate_length_map, whereIdx_map, bind, Except.bind,
    gather_whereIdx, zipWith_map_same, zip_map_same, scatter_whereIdx, List.map_map,
    Function.comp_def, pure, Except.pure, decide_eq_true_eq]
  congr 1
  rw [Prod.mk.injEq]
  constructor <;> apply List.map_congr_left <;> intro r _ <;> unfold ang2xy <;>
    by_cases h : |cos r.2| ≤ 2/3
  · rw [if_neg (by linarith), if_pos h]; simp only []; rw [if_pos h]
  · rw [if_pos (by linarith)]; simp only []; rw [if_neg h]
  · rw [if_neg (by linarith), if_pos h]; simp only []; rw [if_pos h]
  · rw [if_pos (by linarith)]; simp only []; rw [if_neg h]

/-! ### Pixel centres -/

theorem xy2ang_belt {x y : ℝ} (h : |y| ≤ π/4) :
    xy2ang x y = (x, some (arccos (8*y/(3*π)))) := by
  have hpi := pi_pos
  unfold xy2ang
  rw [if_pos h]
  simp only []
  rw [npArccos_ok]
  · have := (abs_le.mp h).1
    rw [le_div_iff₀ (by positivity)]; nlinarith
  · have := (abs_le.mp h).2
    rw [div_le_iff₀ (by positivity)]; nlinarith

/-- The caps of `xy2ang`, written with `s = 2 - |4y/π|` (distance to the pole)
and `e = ±1` the hemisphere. -/
theorem xy2ang_cap {x e s : ℝ} (he : e = 1 ∨ e = -1) (hs0 : 0 < s) (hs1 : s < 1) :
    xy2ang x (e*(2-s)*π/4) =
      ((x - (π/4)*(1-s)*(2*(⌊2*x/π⌋ : ℝ)+1))/s, some (arccos (e*(1-s^2/3)))) := by
  have hpi := pi_pos
  have habs : |e*(2-s)| = 2 - s := by
    rcases he with rfl | rfl
    · rw [one_mul, abs_of_pos (by linarith)]
    · rw [neg_one_mul, abs_neg, abs_of_pos (by linarith)]
  have h4 : 4*(e*(2-s)*π/4)/π = e*(2-s) := by field_simp
  have hy : ¬ |e*(2-s)*π/4| ≤ π/4 := by
    rw [abs_div, abs_mul, habs, abs_of_pos hpi, abs_of_pos (by norm_num : (0:ℝ) < 4)]
    push Not
    nlinarith
  have hsign : npSign (e*(2-s)) = e := by
    rcases he with rfl | rfl
    · exact npSign_pos (by linarith)
    · exact npSign_neg (by linarith)
  unfold xy2ang
  rw [if_neg hy]
  simp only [h4, habs, hsign]
  rw [if_neg (by linarith)]
  have e1 : (2 - s - 1) = 1 - s := by ring
  have e2 : e*(1 - 1/3*(2-(2-s))^2) = e*(1-s^2/3) := by ring
  have e3 : 1 - (1 - s) = s := by ring
  rw [e1, e2, e3, npArccos_ok]
  · rcases he with rfl | rfl <;> nlinarith
  · rcases he with rfl | rfl <;> nlinarith

theorem pix2xy_ok {N p : ℤ} (hN : 1 ≤ N) (hp : ValidPix N p) :
    ∃ i j d, ValidRing N i j ∧ ij2pix i j N = p ∧ pix2ij p N = .ok (i, j) ∧
      j2jd i j N = .ok d ∧ pix2xy p N = .ok (d*π/(2*N), i2id i N*π/(2*N)) := by
  obtain ⟨i, j, hv, he⟩ := exists_ij hN hp
  obtain ⟨d, hd, _, _⟩ := j2jd_star hv
  have hpq : pix2ij p N = .ok (i, j) := by rw [← he]; exact pix2ij_ij2pix hv
  refine ⟨i, j, d, hv, he, hpq, hd, ?_⟩
  unfold pix2xy ij2xy
  rw [hpq]
  simp [bind, Except.bind, hd, pure, Except.pure]

/-- Cap computation shared by north (`e = 1`) and south (`e = -1`). -/
theorem cap_centre {N r j : ℤ} {e : ℝ} (he : e = 1 ∨ e = -1) (hr : 1 ≤ r) (hrN : r < N)
    : xy2ang (((N:ℝ)/2 + N*(((j-1)/r : ℤ) : ℝ) - ((r:ℝ)-1)/2 + (((j-1)%r : ℤ) : ℝ))*π/(2*N))
        (e*(2-(r:ℝ)/N)*π/4)
      = (((j:ℝ)-1/2)*π/(2*r), some (arccos (e*(1-(r:ℝ)^2/(3*(N:ℝ)^2))))) := by
  have hpi := pi_pos
  have hNR : (0:ℝ) < N := by exact_mod_cast (by omega : 0 < N)
  have hrR : (0:ℝ) < r := by exact_mod_cast (by omega : 0 < r)
  have hrNR : (r:ℝ) < N := by exact_mod_cast hrN
  have hr1R : (1:ℝ) ≤ r := by exact_mod_cast hr
  have hs0 : 0 < (r:ℝ)/N := by positivity
  have hs1 : (r:ℝ)/N < 1 := by rw [div_lt_one hNR]; exact hrNR
  rw [xy2ang_cap he hs0 hs1]
  have h0 := Int.emod_add_mul_ediv (j-1) r
  have h1 := Int.emod_nonneg (j-1) (show r ≠ 0 by omega)
  have h2 := Int.emod_lt_of_pos (j-1) (show 0 < r by omega)
  generalize (j-1)/r = k at *
  generalize (j-1)%r = m at *
  have h0R : (m:ℝ) + r*k = j - 1 := by exact_mod_cast h0
  have h1R : (0:ℝ) ≤ m := by exact_mod_cast h1
  have h2R : (m:ℝ) ≤ r - 1 := by exact_mod_cast (by omega : m ≤ r - 1)
  have hfl : ⌊2*(((N:ℝ)/2 + N*(k:ℝ) - ((r:ℝ)-1)/2 + (m:ℝ))*π/(2*N))/π⌋ = k := by
    have e1 : 2*(((N:ℝ)/2 + N*(k:ℝ) - ((r:ℝ)-1)/2 + (m:ℝ))*π/(2*N))/π
        = ((N:ℝ)/2 + N*(k:ℝ) - ((r:ℝ)-1)/2 + (m:ℝ))/N := by field_simp
    rw [e1, Int.floor_eq_iff]
    constructor
    · rw [le_div_iff₀ hNR]; nlinarith
    · rw [div_lt_iff₀ hNR]; nlinarith
  rw [hfl]
  congr 1
  · have hj : (j:ℝ) = m + r*k + 1 := by linarith
    rw [hj]
    field_simp
    ring
  · congr 2
    field_simp

/-- `xy2ang ∘ pix2xy` gives the published pixel centre. -/
theorem pix_centre {N p i j : ℤ} (hN : 1 ≤ N) (hp : ValidPix N p) (hij : pix2ij p N = .ok (i, j)) :
    ∃ x y, pix2xy p N = .ok (x, y) ∧
      xy2ang x y = (centrePhi N i j, some (arccos (centreZ N i))) := by
  obtain ⟨i', j', d, hv, he, hpq, hd, hxy⟩ := pix2xy_ok hN hp
  rw [hij] at hpq
  obtain ⟨rfl, rfl⟩ : i = i' ∧ j = j' := by simpa using hpq
  refine ⟨_, _, hxy, ?_⟩
  obtain ⟨h1, h2, h3, h4⟩ := hv
  have hpi := pi_pos
  have hNR : (0:ℝ) < N := by exact_mod_cast (by omega : 0 < N)
  unfold ringLen at h4
  unfold centrePhi centreZ
  by_cases a : i < N
  · rw [if_pos a, if_pos a]
    unfold j2jd at hd
    rw [if_pos (by omega), capJd_eq hN h1] at hd
    have hd' : d = _ := (Except.ok.inj hd).symm
    have hy : i2id i N*π/(2*N) = 1*(2-(i:ℝ)/N)*π/4 := by unfold i2id; field_simp; ring
    rw [hd', hy, cap_centre (Or.inl rfl) h1 a, one_mul]
  · rw [if_neg a, if_neg a]
    by_cases b : i ≤ 3*N
    · rw [if_pos b, if_pos b]
      have hlo : (N:ℝ) ≤ i := by exact_mod_cast (by omega : N ≤ i)
      have hhi : (i:ℝ) ≤ 3*N := by exact_mod_cast b
      have hy : |i2id i N*π/(2*N)| ≤ π/4 := by
        unfold i2id
        rw [abs_le]
        constructor
        · rw [le_div_iff₀ (by positivity)]; nlinarith
        · rw [div_le_iff₀ (by positivity)]; nlinarith
      rw [xy2ang_belt hy]
      have hdd : d = (j:ℝ) - (if (i - N) % 2 = 0 then 1/2 else 1) := by
        unfold j2jd at hd
        by_cases c : i ≤ N
        · have : i = N := by omega
          subst this
          rw [if_pos le_rfl, capJd_eq hN h1] at hd
          have hd' := (Except.ok.inj hd).symm
          rw [hd']
          have h0 := Int.emod_add_mul_ediv (j-1) i
          have h0R : (((j-1)%i : ℤ):ℝ) + i*(((j-1)/i : ℤ):ℝ) = j - 1 := by exact_mod_cast h0
          simp only [sub_self, Int.zero_emod, if_true]
          linarith
        · rw [if_neg c] at hd
          by_cases c' : i < 3*N
          · rw [if_pos ⟨by omega, c'⟩, eqJd_eq] at hd
            exact (Except.ok.inj hd).symm
          · have : i = 3*N := by omega
            subst this
            have e4 : 4*N - 3*N = N := by ring
            rw [if_neg (by omega), e4, capJd_eq hN hN] at hd
            have hd' := (Except.ok.inj hd).symm
            rw [hd']
            have h0 := Int.emod_add_mul_ediv (j-1) N
            have h0R : (((j-1)%N : ℤ):ℝ) + N*(((j-1)/N : ℤ):ℝ) = j - 1 := by exact_mod_cast h0
            rw [if_pos (by omega)]
            linarith
      rw [hdd]
      congr 3
      unfold i2id
      field_simp
      ring
    · rw [if_neg b, if_neg b]
      unfold j2jd at hd
      rw [if_neg (by omega), if_neg (by omega), capJd_eq hN (by omega)] at hd
      have hd' : d = _ := (Except.ok.inj hd).symm
      have hy : i2id i N*π/(2*N) = (-1)*(2-((4*N-i : ℤ):ℝ)/N)*π/4 := by
        unfold i2id; push_cast; field_simp; ring
      rw [hd', hy, cap_centre (Or.inr rfl) (by omega) (by omega)]
      congr 3
      ring

end Magpie.Healpix

namespace Magpie.Healpix
open Spec Real

/-- In the caps `ang2xy` in terms of the distance `s` to the pole. -/
theorem ang2xy_cap {phi e s : ℝ} (he : e = 1 ∨ e = -1) (hs0 : 0 ≤ s) (hs1 : s < 1) :
    ang2xy phi (arccos (e*(1-s^2/3)))
      = (phi - (1-s)*(fmod phi (π/2) - π/4), e*(2-s)*π/4) := by
  have hpi := pi_pos
  have hz : cos (arccos (e*(1-s^2/3))) = e*(1-s^2/3) := by
    apply cos_arccos
    · rcases he with rfl | rfl <;> nlinarith
    · rcases he with rfl | rfl <;> nlinarith
  have habs : |e*(1-s^2/3)| = 1 - s^2/3 := by
    rcases he with rfl | rfl
    · rw [one_mul, abs_of_pos (by nlinarith)]
    · rw [neg_one_mul, abs_neg, abs_of_pos (by nlinarith)]
  have hsign : npSign (e*(1-s^2/3)) = e := by
    rcases he with rfl | rfl
    · exact npSign_pos (by nlinarith)
    · exact npSign_neg (by nlinarith)
  have hsq : sqrt (3*(1-(1-s^2/3))) = s := by
    have : 3*(1-(1-s^2/3)) = s^2 := by ring
    rw [this, sqrt_sq hs0]
  have habs2 : |e*(2-s)| = 2 - s := by
    rcases he with rfl | rfl
    · rw [one_mul, abs_of_pos (by linarith)]
    · rw [neg_one_mul, abs_neg, abs_of_pos (by linarith)]
  unfold ang2xy
  simp only [hz, habs, hsign, hsq, habs2]
  rw [if_neg (by nlinarith)]
  congr 1
  · ring
  · ring

/-- Every colatitude is in the belt or in a cap at distance `s` from a pole. -/
theorem theta_cases {theta : ℝ} (h0 : 0 ≤ theta) (h1 : theta ≤ π) :
    |cos theta| ≤ 2/3 ∨ ∃ e s : ℝ, (e = 1 ∨ e = -1) ∧ 0 ≤ s ∧ s < 1 ∧
      cos theta = e*(1-s^2/3) ∧ theta = arccos (e*(1-s^2/3)) := by
  by_cases hb : |cos theta| ≤ 2/3
  · exact Or.inl hb
  right
  push Not at hb
  have hle := cos_le_one theta
  have hge := neg_one_le_cos theta
  have hac := (arccos_cos h0 h1).symm
  rcases lt_or_ge (cos theta) 0 with hneg | hpos
  · rw [abs_of_neg hneg] at hb
    have hn : 0 ≤ 3*(1+cos theta) := by linarith
    have hsq := sq_sqrt hn
    have hc : cos theta = -1*(1-(sqrt (3*(1+cos theta)))^2/3) := by rw [hsq]; ring
    refine ⟨-1, sqrt (3*(1+cos theta)), Or.inr rfl, sqrt_nonneg _, ?_, hc, ?_⟩
    · rw [sqrt_lt' one_pos]; linarith
    · rw [← hc]; exact hac
  · rw [abs_of_nonneg hpos] at hb
    have hn : 0 ≤ 3*(1-cos theta) := by linarith
    have hsq := sq_sqrt hn
    have hc : cos theta = 1*(1-(sqrt (3*(1-cos theta)))^2/3) := by rw [hsq]; ring
    refine ⟨1, sqrt (3*(1-cos theta)), Or.inl rfl, sqrt_nonneg _, ?_, hc, ?_⟩
    · rw [sqrt_lt' one_pos]; linarith
    · rw [← hc]; exact hac

theorem fmod_bounds {x m : ℝ} (hm : 0 < m) : 0 ≤ fmod x m ∧ fmod x m < m := by
  unfold fmod
  have h1 := Int.floor_le (x/m)
  have h2 := Int.lt_floor_add_one (x/m)
  rw [le_div_iff₀ hm] at h1
  rw [div_lt_iff₀ hm] at h2
  constructor <;> nlinarith

/-- The squeezed longitude stays in its facet. -/
theorem squeeze_floor {phi s : ℝ} (hs0 : 0 < s) (hs1 : s ≤ 1) :
    ⌊2*(phi - (1-s)*(fmod phi (π/2) - π/4))/π⌋ = ⌊phi/(π/2)⌋ := by
  have hpi := pi_pos
  obtain ⟨hf0, hf1⟩ := fmod_bounds (x := phi) (m := π/2) (by positivity)
  have hphi : phi = fmod phi (π/2) + π/2*⌊phi/(π/2)⌋ := by unfold fmod; ring
  generalize fmod phi (π/2) = f at *
  generalize ⌊phi/(π/2)⌋ = k at *
  rw [Int.floor_eq_iff, hphi]
  constructor
  · rw [le_div_iff₀ hpi]; nlinarith
  · rw [div_lt_iff₀ hpi]; nlinarith

theorem xy2ang_ang2xy {phi theta : ℝ} (h0 : 0 < theta) (h1 : theta < π) :
    xy2ang (ang2xy phi theta).1 (ang2xy phi theta).2 = (phi, some theta) := by
  have hpi := pi_pos
  rcases theta_cases h0.le h1.le with hb | ⟨e, s, he, hs0, hs1, hc, ht⟩
  · have e1 : ang2xy phi theta = (phi, (3*π/8)*cos theta) := by
      unfold ang2xy; simp only []; rw [if_pos hb]
    rw [e1]
    simp only []
    rw [xy2ang_belt]
    · have : 8*(3*π/8*cos theta)/(3*π) = cos theta := by field_simp
      rw [this, arccos_cos h0.le h1.le]
    · rw [abs_mul, abs_of_pos (by positivity)]; nlinarith
  · have hspos : 0 < s := by
      rcases eq_or_lt_of_le hs0 with h | h
      · exfalso
        rw [← h] at ht
        rcases he with rfl | rfl
        · norm_num at ht; linarith
        · norm_num at ht; linarith
      · exact h
    have e1 := ang2xy_cap (phi := phi) he hs0 hs1
    rw [← ht] at e1
    rw [e1]
    simp only []
    rw [xy2ang_cap he hspos hs1, squeeze_floor hspos hs1.le, ← ht]
    congr 1
    rw [div_eq_iff hspos.ne']
    unfold fmod
    ring

/-- At the poles the colatitude is recovered. -/
theorem xy2ang_ang2xy_pole (phi : ℝ) {theta : ℝ} (h : theta = 0 ∨ theta = π) :
    xy2ang (ang2xy phi theta).1 (ang2xy phi theta).2 = (0, some theta) := by
  have hpi := pi_pos
  obtain ⟨e, he, ht, hth⟩ : ∃ e : ℝ, (e = 1 ∨ e = -1) ∧ theta = arccos (e*(1-0^2/3)) ∧
      theta = arccos e := by
    rcases h with rfl | rfl
    · exact ⟨1, Or.inl rfl, by norm_num, by norm_num⟩
    · exact ⟨-1, Or.inr rfl, by norm_num, by norm_num⟩
  have e1 := ang2xy_cap (phi := phi) he le_rfl one_pos
  rw [← ht] at e1
  rw [e1]
  simp only []
  have h4 : 4*(e*(2-0)*π/4)/π = e*2 := by field_simp; ring
  have habs : |e*2| = 2 := by rcases he with rfl | rfl <;> norm_num
  have hy : ¬ |e*(2-0)*π/4| ≤ π/4 := by
    have : e*(2-0)*π/4 = (e*2)*(π/4) := by ring
    rw [this, abs_mul, habs, abs_of_pos (by positivity)]
    linarith
  have hsign : npSign (e*2) = e := by
    rcases he with rfl | rfl
    · exact npSign_pos (by norm_num)
    · exact npSign_neg (by norm_num)
  unfold xy2ang
  rw [if_neg hy]
  simp only [h4, habs, hsign]
  have : e*(1-1/3*(2-2)^2) = e := by ring
  rw [if_pos (by norm_num), this, npArccos_ok, ← hth]
  · rcases he with rfl | rfl <;> norm_num
  · rcases he with rfl | rfl <;> norm_num

/-- Plane to sky to plane, in the belt. -/
theorem ang2xy_xy2ang_belt {x y : ℝ} (h : |y| ≤ π/4) :
    ∃ theta, xy2ang x y = (x, some theta) ∧ 0 ≤ theta ∧ theta ≤ π ∧ ang2xy x theta = (x, y) := by
  have hpi := pi_pos
  have hy := abs_le.mp h
  refine ⟨arccos (8*y/(3*π)), xy2ang_belt h, arccos_nonneg _, arccos_le_pi _, ?_⟩
  have hz : cos (arccos (8*y/(3*π))) = 8*y/(3*π) := by
    apply cos_arccos
    · rw [le_div_iff₀ (by positivity)]; nlinarith
    · rw [div_le_iff₀ (by positivity)]; nlinarith
  unfold ang2xy
  simp only [hz]
  rw [if_pos]
  · congr 1; field_simp
  · rw [abs_le]
    constructor
    · rw [le_div_iff₀ (by positivity)]; nlinarith
    · rw [div_le_iff₀ (by positivity)]; nlinarith

/-- Plane to sky to plane, in a cap: `x` within its facet triangle
`|x - (2k+1)π/4| < s π/4` at height `y = ±(2-s)π/4`. -/
theorem ang2xy_xy2ang_cap {x e s : ℝ} (he : e = 1 ∨ e = -1) (hs0 : 0 < s) (hs1 : s < 1)
    {k : ℤ} (hx1 : -(s*π/4) ≤ x - (2*k+1)*π/4) (hx2 : x - (2*k+1)*π/4 < s*π/4) :
    ∃ phi theta, xy2ang x (e*(2-s)*π/4) = (phi, some theta) ∧
      ang2xy phi theta = (x, e*(2-s)*π/4) := by
  have hpi := pi_pos
  have hfl : ⌊2*x/π⌋ = k := by
    rw [Int.floor_eq_iff]
    constructor
    · rw [le_div_iff₀ hpi]; nlinarith
    · rw [div_lt_iff₀ hpi]; nlinarith
  refine ⟨_, _, xy2ang_cap he hs0 hs1, ?_⟩
  rw [ang2xy_cap he hs0.le hs1, hfl]
  congr 1
  set phi := (x - π/4*(1-s)*(2*(k:ℝ)+1))/s with hphi
  have hps : phi*s = x - π/4*(1-s)*(2*(k:ℝ)+1) := by rw [hphi]; field_simp
  have hfl2 : ⌊phi/(π/2)⌋ = k := by
    rw [Int.floor_eq_iff]
    constructor
    · rw [le_div_iff₀ (by positivity)]
      by_contra hc
      push Not at hc
      nlinarith
    · rw [div_lt_iff₀ (by positivity)]
      by_contra hc
      push Not at hc
      nlinarith
  unfold fmod
  rw [hfl2]
  nlinarith

end Magpie.Healpix
