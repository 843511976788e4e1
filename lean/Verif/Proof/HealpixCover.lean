import Verif.Proof.HealpixCoords

/-!
# The pixels cover the sky
-/

set_option linter.unusedSimpArgs false
set_option linter.unusedVariables false

namespace Magpie.Healpix
open Spec Real

/-- Every unit square of the star-index plane that meets the belt or a cap facet is a pixel, up to whole
turns. -/
theorem cell_exists {N a b : ℤ} (hN : 1 ≤ N)
    (h : |b - a| < N ∨ (∃ k, N*k ≤ a ∧ b < N*k + 2*N ∧ N ≤ b - a) ∨
      (∃ k, N*k ≤ b ∧ a < N*k + 2*N ∧ N ≤ a - b)) :
    ∃ i j t, ValidRing N i j ∧ starOf N i j = (a + 4*N*t, b + 4*N*t) := by
  rcases h with h | ⟨k, h1, h2, h3⟩ | ⟨k, h1, h2, h3⟩
  · rw [abs_lt] at h
    obtain ⟨ha, hb⟩ := h
    set i := 2*N - (b - a) with hi
    set m := a - (i - N)/2 with hm
    have hq := Int.mul_ediv_add_emod m (4*N)
    have hr0 := Int.emod_nonneg m (show 4*N ≠ 0 by omega)
    have hr1 := Int.emod_lt_of_pos m (show 0 < 4*N by omega)
    refine ⟨i, m % (4*N) + 1, -(m / (4*N)), ⟨by omega, by omega, by omega, ?_⟩, ?_⟩
    · unfold ringLen
      rw [if_neg (by omega), if_pos (by omega)]
      omega
    · unfold starOf
      rw [if_neg (by omega), if_pos (by omega)]
      have e : 4*N*(-(m/(4*N))) = -(4*N*(m/(4*N))) := by ring
      rw [e]
      generalize 4*N*(m/(4*N)) = z at *
      ext
      · show _ = a + _
        simp only
        omega
      · show _ = b + _
        simp only
        omega
  · set i := 2*N - (b - a) with hi
    have hq := Int.mul_ediv_add_emod k 4
    have hr0 := Int.emod_nonneg k (show (4:ℤ) ≠ 0 by omega)
    have hr1 := Int.emod_lt_of_pos k (show (0:ℤ) < 4 by omega)
    set r := k % 4
    set q := k / 4
    set m := a - N*k with hm
    have hm0 : 0 ≤ m := by omega
    have hmi : m < i := by omega
    have e1 : (r*i + m)/i = r := by
      rw [Int.add_ediv_of_dvd_left (Dvd.intro_left r rfl), Int.mul_ediv_cancel _ (by omega),
        Int.ediv_eq_zero_of_lt hm0 hmi, add_zero]
    have e2 : (r*i + m) % i = m := by
      rw [Int.add_emod, Int.mul_emod_left, zero_add, Int.emod_emod, Int.emod_eq_of_lt hm0 hmi]
    have hk : N*k = 4*N*q + N*r := by rw [← hq]; ring
    refine ⟨i, r*i + m + 1, -q, ⟨by omega, by omega, by nlinarith, ?_⟩, ?_⟩
    · unfold ringLen
      rw [if_pos (by omega)]
      nlinarith
    · unfold starOf
      rw [if_pos (by omega), add_sub_cancel_right, e1, e2]
      ext
      · simp only; linarith
      · simp only; linarith
  · set i := 2*N - (a - b) with hi
    have hq := Int.mul_ediv_add_emod k 4
    have hr0 := Int.emod_nonneg k (show (4:ℤ) ≠ 0 by omega)
    have hr1 := Int.emod_lt_of_pos k (show (0:ℤ) < 4 by omega)
    set r := k % 4
    set q := k / 4
    set m := b - N*k with hm
    have hm0 : 0 ≤ m := by omega
    have hmi : m < i := by omega
    have e1 : (r*i + m)/i = r := by
      rw [Int.add_ediv_of_dvd_left (Dvd.intro_left r rfl), Int.mul_ediv_cancel _ (by omega),
        Int.ediv_eq_zero_of_lt hm0 hmi, add_zero]
    have e2 : (r*i + m) % i = m := by
      rw [Int.add_emod, Int.mul_emod_left, zero_add, Int.emod_emod, Int.emod_eq_of_lt hm0 hmi]
    have hk : N*k = 4*N*q + N*r := by rw [← hq]; ring
    have hi4 : 4*N - (4*N - i) = i := by ring
    refine ⟨4*N - i, r*i + m + 1, -q, ⟨by omega, by omega, by nlinarith, ?_⟩, ?_⟩
    · unfold ringLen
      by_cases hc : N = 1
      · subst hc
        rw [if_neg (by omega), if_neg (by omega), hi4]; nlinarith
      · rw [if_neg (by omega), if_neg (by omega), hi4]; nlinarith
    · unfold starOf
      rw [if_neg (by omega), if_neg (by omega), hi4, add_sub_cancel_right, e1, e2]
      ext
      · simp only; linarith
      · simp only; linarith

/-- A point of a unit square of the star-index plane is in the diamond of the pixel. -/
theorem cover_of_cell {N a b : ℤ} (hN : 1 ≤ N) {x y : ℝ}
    (h : |b - a| < N ∨ (∃ k, N*k ≤ a ∧ b < N*k + 2*N ∧ N ≤ b - a) ∨
      (∃ k, N*k ≤ b ∧ a < N*k + 2*N ∧ N ≤ a - b))
    (ha : (a:ℝ) ≤ (x - y)/(π/(2*N)) + N/2 ∧ (x - y)/(π/(2*N)) + N/2 ≤ a + 1)
    (hb : (b:ℝ) ≤ (x + y)/(π/(2*N)) + N/2 ∧ (x + y)/(π/(2*N)) + N/2 ≤ b + 1) :
    ∃ (p t : ℤ) (c : ℝ × ℝ), ValidPix N p ∧ pix2xy p N = .ok c ∧
      |x + 2*π*t - c.1| + |y - c.2| ≤ halfDiag N := by
  obtain ⟨i, j, t, hv, hs⟩ := cell_exists hN h
  have hNR : (0:ℝ) < N := by exact_mod_cast (by omega : 0 < N)
  have hpi := pi_pos
  set U := π/(2*(N:ℝ)) with hU
  have hUp : 0 < U := by positivity
  obtain ⟨d, hd, s1, s2⟩ := j2jd_star hv
  rw [hs] at s1 s2
  push_cast at s1 s2
  have hxy : pix2xy (ij2pix i j N) N = .ok (d*π/(2*N), i2id i N*π/(2*N)) := by
    unfold pix2xy ij2xy
    rw [pix2ij_ij2pix hv]
    simp [bind, Except.bind, hd, pure, Except.pure]
  refine ⟨ij2pix i j N, t, _, ij2pix_valid hv, hxy, ?_⟩
  have h2 : 2*π = 4*N*U := by rw [hU]; field_simp; ring
  have h4 : halfDiag N = U/2 := by unfold halfDiag; rw [hU]; field_simp; ring
  rw [h4, h2]
  simp only [mul_div_assoc, ← hU]
  generalize i2id i N = e at *
  obtain ⟨ha1, ha2⟩ := ha
  obtain ⟨hb1, hb2⟩ := hb
  rw [← sub_le_iff_le_add, le_div_iff₀ hUp] at ha1
  rw [← le_sub_iff_add_le, div_le_iff₀ hUp] at ha2
  rw [← sub_le_iff_le_add, le_div_iff₀ hUp] at hb1
  rw [← le_sub_iff_add_le, div_le_iff₀ hUp] at hb2
  have ea : (a:ℝ) = d - e + N/2 - 1/2 - 4*N*t := by linarith
  have eb : (b:ℝ) = d + e + N/2 - 1/2 - 4*N*t := by linarith
  rw [ea] at ha1 ha2
  rw [eb] at hb1 hb2
  rcases abs_cases (x + 4*N*U*t - d*U) with ⟨q1, -⟩ | ⟨q1, -⟩ <;>
    rcases abs_cases (y - e*U) with ⟨q2, -⟩ | ⟨q2, -⟩ <;> rw [q1, q2] <;> nlinarith

/-- The squares of a cap facet. -/
theorem facet_cell {N k : ℤ} (hN : 1 ≤ N) {u v : ℝ} (hu : (N:ℝ)*k ≤ u) (hu' : u < N*k + N) (hv : (N:ℝ)*k + N ≤ v)
    (hv' : v ≤ N*k + 2*N) : ∃ a b : ℤ, (|b - a| < N ∨ (N*k ≤ a ∧ b < N*k + 2*N ∧ N ≤ b - a)) ∧
      (a:ℝ) ≤ u ∧ u ≤ a + 1 ∧ (b:ℝ) ≤ v ∧ v ≤ b + 1 := by
  have a1 : N*k ≤ ⌊u⌋ := Int.le_floor.mpr (by push_cast; exact hu)
  have a2 : ⌊u⌋ < N*k + N := Int.floor_lt.mpr (by push_cast; exact hu')
  have f1 := Int.floor_le u
  have f2 := Int.lt_floor_add_one u
  have g1 := Int.floor_le v
  have g2 := Int.lt_floor_add_one v
  have b1 : N*k + N ≤ ⌊v⌋ := Int.le_floor.mpr (by push_cast; exact hv)
  rcases lt_or_ge ⌊v⌋ (N*k + 2*N) with hb | hb
  · refine ⟨⌊u⌋, ⌊v⌋, ?_, f1, f2.le, g1, g2.le⟩
    by_cases hc : N ≤ ⌊v⌋ - ⌊u⌋
    · exact Or.inr ⟨a1, hb, hc⟩
    · left; rw [abs_lt]; constructor <;> omega
  · have hb' : ((N*k + 2*N : ℤ):ℝ) ≤ v := Int.le_floor.mp hb
    push_cast at hb'
    refine ⟨⌊u⌋, N*k + 2*N - 1, ?_, f1, f2.le, by push_cast; linarith, by push_cast; linarith⟩
    by_cases hc : N ≤ N*k + 2*N - 1 - ⌊u⌋
    · exact Or.inr ⟨a1, by omega, hc⟩
    · left; rw [abs_lt]; constructor <;> omega

/-- Every direction is in the closed diamond of a pixel. -/
theorem cover {N : ℤ} (hN : 1 ≤ N) (phi : ℝ) {theta : ℝ} (h0 : 0 ≤ theta) (h1 : theta ≤ π) :
    ∃ (p t : ℤ) (c : ℝ × ℝ), ValidPix N p ∧ pix2xy p N = .ok c ∧
      |(ang2xy phi theta).1 + 2*π*t - c.1| + |(ang2xy phi theta).2 - c.2| ≤ halfDiag N := by
  have hNR : (0:ℝ) < N := by exact_mod_cast (by omega : 0 < N)
  have hpi := pi_pos
  rcases theta_cases h0 h1 with hb | ⟨e, s, he, hs0, hs1, -, ht⟩
  · have hxy : ang2xy phi theta = (phi, (3*π/8)*cos theta) := by
      unfold ang2xy; simp only [if_pos hb]
    rw [hxy]
    simp only
    set y := (3*π/8)*cos theta with hy
    rw [abs_le] at hb
    have y1 : -(π/4) ≤ y := by rw [hy]; nlinarith
    have y2 : y ≤ π/4 := by rw [hy]; nlinarith
    set u := (phi - y)/(π/(2*N)) + N/2 with hu
    set v := (phi + y)/(π/(2*N)) + N/2 with hv
    have hd : v - u = 4*N*y/π := by rw [hu, hv]; field_simp; ring
    have d1 : v - u ≤ N := by rw [hd, div_le_iff₀ hpi]; nlinarith
    have d2 : -(N:ℝ) ≤ v - u := by rw [hd, le_div_iff₀ hpi]; nlinarith
    have f1 := Int.floor_le u
    have f2 := Int.lt_floor_add_one u
    have g1 := Int.floor_le v
    have g2 := Int.lt_floor_add_one v
    have c1 : ⌊v⌋ - ⌊u⌋ < N + 1 := by
      have : (⌊v⌋:ℝ) - ⌊u⌋ < N + 1 := by linarith
      exact_mod_cast this
    have c2 : -(N + 1) < ⌊v⌋ - ⌊u⌋ := by
      have : -((N:ℝ) + 1) < ⌊v⌋ - ⌊u⌋ := by linarith
      exact_mod_cast this
    refine cover_of_cell (a := ⌊u⌋) (b := ⌊v⌋) hN ?_ ⟨f1, f2.le⟩ ⟨g1, g2.le⟩
    by_cases e1 : ⌊v⌋ - ⌊u⌋ = N
    · refine Or.inr (Or.inl ⟨⌊u⌋/N, ?_, ?_, e1.ge⟩)
      · exact Int.mul_ediv_self_le (by omega)
      · have := Int.lt_mul_ediv_self_add (x := ⌊u⌋) (k := N) (by omega); omega
    · by_cases e2 : ⌊u⌋ - ⌊v⌋ = N
      · refine Or.inr (Or.inr ⟨⌊v⌋/N, ?_, ?_, e2.ge⟩)
        · exact Int.mul_ediv_self_le (by omega)
        · have := Int.lt_mul_ediv_self_add (x := ⌊v⌋) (k := N) (by omega); omega
      · left; rw [abs_lt]; constructor <;> omega
  · rw [ht, ang2xy_cap he hs0 hs1]
    simp only
    obtain ⟨hf0, hf1⟩ := fmod_bounds (x := phi) (m := π/2) (by positivity)
    have hphi : phi = fmod phi (π/2) + π/2*⌊phi/(π/2)⌋ := by unfold fmod; ring
    generalize fmod phi (π/2) = f at *
    generalize ⌊phi/(π/2)⌋ = k at *
    have hF : ∃ F, f = F*(π/(2*N)) ∧ 0 ≤ F ∧ F < N := by
      refine ⟨f/(π/(2*N)), by field_simp, by positivity, ?_⟩
      rw [div_lt_iff₀ (by positivity)]
      have : (N:ℝ)*(π/(2*N)) = π/2 := by field_simp
      linarith
    obtain ⟨F, hFe, hF0, hF1⟩ := hF
    obtain ⟨a, b, hc, ha1, ha2, hb1, hb2⟩ := facet_cell (N := N) (k := k) hN (u := N*k + s*F)
      (v := N*k + 2*N - s*(N - F)) (by nlinarith) (by nlinarith) (by nlinarith) (by nlinarith)
    have eu : (phi - (1-s)*(f - π/4) - (2-s)*π/4)/(π/(2*N)) + N/2 = N*k + s*F := by
      rw [hphi, hFe]; field_simp; ring
    have ev : (phi - (1-s)*(f - π/4) + (2-s)*π/4)/(π/(2*N)) + N/2 = N*k + 2*N - s*(N - F) := by
      rw [hphi, hFe]; field_simp; ring
    rcases he with rfl | rfl
    · refine cover_of_cell (a := a) (b := b) hN (hc.imp id fun h => Or.inl ⟨k, h⟩) ?_ ?_
      · rw [one_mul, eu]; exact ⟨ha1, ha2⟩
      · rw [one_mul, ev]; exact ⟨hb1, hb2⟩
    · refine cover_of_cell (a := b) (b := a) hN (hc.imp (fun h => by rw [abs_sub_comm]; exact h) fun h => Or.inr ⟨k, h⟩) ?_ ?_
      · rw [neg_one_mul, show phi - (1-s)*(f - π/4) - -(2-s)*π/4 = phi - (1-s)*(f - π/4) + (2-s)*π/4 by ring, ev]
        exact ⟨hb1, hb2⟩
      · rw [neg_one_mul, show phi - (1-s)*(f - π/4) + -(2-s)*π/4 = phi - (1-s)*(f - π/4) - (2-s)*π/4 by ring, eu]
        exact ⟨ha1, ha2⟩

end Magpie.Healpix
