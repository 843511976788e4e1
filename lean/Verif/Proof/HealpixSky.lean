import Verif.Spec.HealpixSky
import Verif.Spec.Prob
import Verif.Proof.HealpixJac
import Verif.Proof.DiamondLaw
import Verif.Props.Healpix
import Mathlib.MeasureTheory.Function.Jacobian
import Mathlib.LinearAlgebra.Matrix.ToLin

/-!
# The pixel sampler on the sky
-/

set_option linter.unusedSimpArgs false
set_option linter.unusedVariables false

namespace Magpie.Healpix
open Spec Real MeasureTheory Set Filter Topology

theorem ang2xy_project (phi theta : ℝ) : ang2xy phi theta = project phi (cos theta) := by
  unfold ang2xy project
  simp only
  split_ifs with h
  · rfl
  · have hz : 0 ≤ 2 - √(3*(1-|cos theta|)) := by
      have : √(3*(1-|cos theta|)) ≤ 2 := by
        rw [sqrt_le_left (by norm_num)]; push Not at h; linarith
      linarith
    push Not at h
    rename_i h0
    have hs : npSign (cos theta) = -1 := by unfold npSign; rw [if_pos h0]
    rw [hs]
    unfold fmod
    rw [neg_one_mul, abs_neg, abs_of_nonneg hz]
    ext <;> simp only
    · ring
  · have hz : 0 ≤ 2 - √(3*(1-|cos theta|)) := by
      have : √(3*(1-|cos theta|)) ≤ 2 := by
        rw [sqrt_le_left (by norm_num)]; push Not at h; linarith
      linarith
    push Not at h
    rename_i h0
    have hs : npSign (cos theta) = 1 := by
      apply npSign_pos
      rcases (not_lt.mp h0).eq_or_lt with h1 | h1
      · rw [← h1, abs_zero] at h; norm_num at h
      · exact h1
    rw [hs]
    unfold fmod
    rw [one_mul, abs_of_nonneg hz]
    ext <;> simp only
    · ring

/-- The open regions of the plane that correspond to the sky. -/
def Dom (v : ℝ × ℝ) : Prop :=
  |v.2| < π/4 ∨ (π/4 < |v.2| ∧ |v.2| < π/2 ∧
    ∃ k : ℤ, -(π/2 - |v.2|) < v.1 - (2*k+1)*π/4 ∧ v.1 - (2*k+1)*π/4 < π/2 - |v.2|)

theorem Dom.turn {x y : ℝ} (h : Dom (x, y)) (t : ℤ) : Dom (x + 2*π*t, y) := by
  rcases h with h | ⟨h1, h2, k, h3, h4⟩
  · exact Or.inl h
  · refine Or.inr ⟨h1, h2, k + 4*t, ?_, ?_⟩
    · push_cast; simp only at *; linarith
    · push_cast; simp only at *; linarith

theorem Dom.notInt {v : ℝ × ℝ} (h : π/4 < |v.2|) {k : ℤ} (h1 : -(π/2 - |v.2|) < v.1 - (2*k+1)*π/4)
    (h2 : v.1 - (2*k+1)*π/4 < π/2 - |v.2|) : (k:ℝ) < 2*v.1/π ∧ 2*v.1/π < k + 1 := by
  have hpi := pi_pos
  constructor
  · rw [lt_div_iff₀ hpi]; linarith
  · rw [div_lt_iff₀ hpi]; linarith

theorem Dom.jac {v : ℝ × ℝ} (h : Dom v) :
    ∃ a b c d, HasFDerivAt skyOf (lin2 a b c d) v ∧ a*d - b*c = 8/(3*π) := by
  apply Props.C11_equal_area v.1 v.2
  rcases h with h | ⟨h1, h2, k, h3, h4⟩
  · exact Or.inl h
  · refine Or.inr ⟨h1, h2, fun n hn => ?_⟩
    obtain ⟨a, b⟩ := Dom.notInt h1 h3 h4
    rw [hn] at a b
    have a' : k < n := by exact_mod_cast a
    have b' : n < k + 1 := by exact_mod_cast b
    omega

/-- `xy2ang` inverts the projection. -/
theorem Dom.project {v : ℝ × ℝ} (h : Dom v) : project (skyOf v).1 (skyOf v).2 = v := by
  obtain ⟨phi, theta, e, ea⟩ := Props.C10_plane_sky_plane v.1 v.2 (by
    rcases h with h | ⟨h1, h2, k, h3, h4⟩
    · exact Or.inl h.le
    · exact Or.inr ⟨h1, h2, k, h3.le, h4⟩)
  have : skyOf v = (phi, cos theta) := by unfold skyOf; rw [e]
  rw [this]
  simp only
  rw [← ang2xy_project, ea]

theorem Dom.range {v : ℝ × ℝ} (h : Dom v) (h0 : 0 ≤ v.1) (h1 : v.1 < 2*π) :
    (0 ≤ (skyOf v).1 ∧ (skyOf v).1 < 2*π) ∧ (-1 < (skyOf v).2 ∧ (skyOf v).2 < 1) := by
  have hpi := pi_pos
  rcases h with h | ⟨c1, c2, k, c3, c4⟩
  · rw [skyOf_belt h.le]
    rw [abs_lt] at h
    refine ⟨⟨h0, h1⟩, ?_, ?_⟩ <;> simp only
    · rw [lt_div_iff₀ (by positivity)]; linarith
    · rw [div_lt_iff₀ (by positivity)]; linarith
  · obtain ⟨e, he, hy⟩ : ∃ e : ℝ, (e = 1 ∨ e = -1) ∧ e*v.2 = |v.2| := by
      rcases lt_or_ge v.2 0 with hn | hn
      · exact ⟨-1, Or.inr rfl, by rw [abs_of_neg hn]; ring⟩
      · exact ⟨1, Or.inl rfl, by rw [abs_of_nonneg hn]; ring⟩
    obtain ⟨k1, k2⟩ := Dom.notInt c1 c3 c4
    have hk : ⌊2*v.1/π⌋ = k := Int.floor_eq_iff.mpr ⟨k1.le, k2⟩
    rw [skyOf_cap he (by rw [hy]; exact c1) (by rw [hy]; exact c2), hy, hk]
    set s := 2 - 4*|v.2|/π with hs
    have hs0 : 0 < s := by
      have : 4*|v.2|/π < 2 := by rw [div_lt_iff₀ hpi]; linarith
      linarith
    have hs1 : s < 1 := by
      have : 1 < 4*|v.2|/π := by rw [lt_div_iff₀ hpi]; linarith
      linarith
    have hse : s*π/4 = π/2 - |v.2| := by rw [hs]; field_simp; ring
    have hk0 : 0 ≤ k := by
      have : (-1:ℝ) < k := by
        have : 0 ≤ 2*v.1/π := by positivity
        linarith
      have : (-1:ℤ) < k := by exact_mod_cast this
      omega
    have hk3 : k ≤ 3 := by
      have : (k:ℝ) < 4 := by
        have : 2*v.1/π < 4 := by rw [div_lt_iff₀ hpi]; linarith
        linarith
      have : k < 4 := by exact_mod_cast this
      omega
    have hk0' : (0:ℝ) ≤ k := by exact_mod_cast hk0
    have hk3' : (k:ℝ) ≤ 3 := by exact_mod_cast hk3
    rw [← hse] at c3 c4
    have m1 : -(π/4) < (v.1 - (π/4)*(2*(k:ℝ)+1))*s⁻¹ := by
      rw [← div_eq_mul_inv, lt_div_iff₀ hs0]; linarith
    have m2 : (v.1 - (π/4)*(2*(k:ℝ)+1))*s⁻¹ < π/4 := by
      rw [← div_eq_mul_inv, div_lt_iff₀ hs0]; linarith
    refine ⟨⟨?_, ?_⟩, ?_, ?_⟩ <;> simp only
    · nlinarith
    · nlinarith
    · rcases he with rfl | rfl <;> nlinarith
    · rcases he with rfl | rfl <;> nlinarith

/-- The open diamond of a pixel is in these regions, up to the two lines `|y| = pi/4`. -/
theorem diamond_dom {N p : ℤ} (hN : 1 ≤ N) (hp : ValidPix N p) {c : ℝ × ℝ} (hc : pix2xy p N = .ok c) {x y : ℝ}
    (h : InDiamond N c x y) (hy : |y| ≠ π/4) : Dom (x, y) := by
  obtain ⟨i, j, d, hv, he, -, hd, hxy⟩ := pix2xy_ok hN hp
  rw [hxy] at hc
  have hc := (Except.ok.inj hc).symm
  subst hc
  obtain ⟨f, hf, s1, s2⟩ := j2jd_star hv
  rw [hd] at hf
  have hf := Except.ok.inj hf
  subst hf
  have hpi := pi_pos
  have hNR : (0:ℝ) < N := by exact_mod_cast (by omega : 0 < N)
  set U := π/(2*(N:ℝ)) with hU
  have hUp : 0 < U := by positivity
  have h4 : halfDiag N = U/2 := by unfold halfDiag; rw [hU]; field_simp; ring
  have hq : π/4 = N*U/2 := by rw [hU]; field_simp; ring
  unfold InDiamond at h
  rw [h4] at h
  simp only [mul_div_assoc, ← hU] at h
  obtain ⟨hv1, hv2, hv3, hv4⟩ := hv
  have hi1 : (1:ℝ) ≤ i := by exact_mod_cast hv1
  have hi2 : (i:ℝ) ≤ 4*N - 1 := by exact_mod_cast hv2
  have a1 := neg_abs_le (x - d*U); have a2 := le_abs_self (x - d*U)
  have a3 := neg_abs_le (y - i2id i N*U); have a4 := le_abs_self (y - i2id i N*U)
  have hid : i2id i N = N - (i:ℝ)/2 := rfl
  rcases lt_or_gt_of_ne hy with hb | hb
  · exact Or.inl hb
  right
  have hlt : |y| < π/2 := by
    rw [hid] at a3 a4
    rw [show π/2 = N*U by rw [hU]; field_simp, abs_lt]
    have := abs_nonneg (x - d*U)
    have := abs_nonneg (y - i2id i N*U)
    rw [hid] at this h
    constructor <;> nlinarith
  refine ⟨hb, hlt, ?_⟩
  simp only
  rcases lt_or_ge y 0 with hn | hn
  · -- south
    rw [abs_of_neg hn] at hb hlt ⊢
    have hi3 : 3*N ≤ i := by
      by_contra hcon
      have : i ≤ 3*N - 1 := by omega
      have : (i:ℝ) ≤ 3*N - 1 := by exact_mod_cast this
      rw [hid] at a3 a4 h
      have := abs_nonneg (x - d*U)
      nlinarith
    by_cases hiN : i ≤ N
    · omega
    have e : starOf N i j = (N*((j-1)/(4*N-i)+2) - (4*N-i) + (j-1)%(4*N-i), N*((j-1)/(4*N-i)) + (j-1)%(4*N-i)) := by
      unfold starOf
      rw [if_neg hiN, if_neg (by omega)]
    rw [e] at s1 s2
    have m0 := Int.emod_nonneg (j-1) (show 4*N-i ≠ 0 by omega)
    have m1 := Int.emod_lt_of_pos (j-1) (show 0 < 4*N-i by omega)
    generalize (j-1)%(4*N-i) = m at *
    generalize (j-1)/(4*N-i) = k at *
    have m0' : (0:ℝ) ≤ m := by exact_mod_cast m0
    have m1' : (m:ℝ) + 1 ≤ 4*N - i := by exact_mod_cast m1
    push_cast at s1 s2
    refine ⟨k, ?_, ?_⟩
    · rw [show π/2 = N*U by rw [hU]; field_simp, show (2*(k:ℝ)+1)*π/4 = (2*k+1)*(N*U/2) by rw [← hq]; ring]
      nlinarith
    · rw [show π/2 = N*U by rw [hU]; field_simp, show (2*(k:ℝ)+1)*π/4 = (2*k+1)*(N*U/2) by rw [← hq]; ring]
      nlinarith
  · rw [abs_of_nonneg hn] at hb hlt ⊢
    have hi3 : i ≤ N := by
      by_contra hcon
      have : N + 1 ≤ i := by omega
      have : (N:ℝ) + 1 ≤ i := by exact_mod_cast this
      rw [hid] at a3 a4 h
      have := abs_nonneg (x - d*U)
      nlinarith
    have e : starOf N i j = (N*((j-1)/i) + (j-1)%i, N*((j-1)/i+2) - i + (j-1)%i) := by
      unfold starOf
      rw [if_pos hi3]
    rw [e] at s1 s2
    have m0 := Int.emod_nonneg (j-1) (show i ≠ 0 by omega)
    have m1 := Int.emod_lt_of_pos (j-1) (show 0 < i by omega)
    generalize (j-1)%i = m at *
    generalize (j-1)/i = k at *
    have m0' : (0:ℝ) ≤ m := by exact_mod_cast m0
    have m1' : (m:ℝ) + 1 ≤ i := by exact_mod_cast m1
    push_cast at s1 s2
    refine ⟨k, ?_, ?_⟩
    · rw [show π/2 = N*U by rw [hU]; field_simp, show (2*(k:ℝ)+1)*π/4 = (2*k+1)*(N*U/2) by rw [← hq]; ring]
      nlinarith
    · rw [show π/2 = N*U by rw [hU]; field_simp, show (2*(k:ℝ)+1)*π/4 = (2*k+1)*(N*U/2) by rw [← hq]; ring]
      nlinarith

/-- `xy2ang` of the wrapped point. -/
noncomputable def wrapSky (v : ℝ × ℝ) : ℝ × ℝ := skyOf (fmod v.1 (2*π), v.2)

/-- The diamond without some lines. -/
def Good (N : ℤ) (c : ℝ × ℝ) : Set (ℝ × ℝ) :=
  {v | InDiamond N c v.1 v.2 ∧ |v.2| ≠ π/4 ∧ fmod v.1 (2*π) ≠ 0}

theorem fmod_eq_turn (x : ℝ) : fmod x (2*π) = x + 2*π*((-⌊x/(2*π)⌋ : ℤ) : ℝ) := by
  unfold fmod; push_cast; ring

theorem Good.dom {N p : ℤ} (hN : 1 ≤ N) (hp : ValidPix N p) {c : ℝ × ℝ} (hc : pix2xy p N = .ok c) {v : ℝ × ℝ}
    (h : v ∈ Good N c) : Dom (fmod v.1 (2*π), v.2) := by
  rw [fmod_eq_turn]
  exact (diamond_dom hN hp hc h.1 h.2.1).turn _

theorem det_lin2 (a b c d : ℝ) : (lin2 a b c d).det = a*d - b*c := by
  unfold ContinuousLinearMap.det
  rw [← LinearMap.det_toMatrix (Module.Basis.finTwoProd ℝ), Matrix.det_fin_two]
  simp [LinearMap.toMatrix_apply, lin2_apply]

theorem Good.jac {N p : ℤ} (hN : 1 ≤ N) (hp : ValidPix N p) {c : ℝ × ℝ} (hc : pix2xy p N = .ok c) {v : ℝ × ℝ}
    (h : v ∈ Good N c) : ∃ f', HasFDerivAt wrapSky f' v ∧ f'.det = 8/(3*π) := by
  have hpi := pi_pos
  obtain ⟨a, b, c', d, hd, hdet⟩ := (Good.dom hN hp hc h).jac
  refine ⟨lin2 a b c' d, ?_, by rw [det_lin2, hdet]⟩
  set n := ⌊v.1/(2*π)⌋ with hn
  have hev : wrapSky =ᶠ[𝓝 v] fun w => skyOf (w - (2*π*n, 0)) := by
    have hcont : ContinuousAt (fun w : ℝ × ℝ => w.1/(2*π)) v := by fun_prop
    have hne : (n:ℝ) ≠ v.1/(2*π) := by
      intro h0
      apply h.2.2
      unfold fmod
      rw [← hn, h0]
      field_simp
      ring
    have o3 : ∀ᶠ w : ℝ × ℝ in 𝓝 v, (n:ℝ) < w.1/(2*π) :=
      continuousAt_const.eventually_lt hcont (lt_of_le_of_ne (Int.floor_le _) hne)
    have o4 : ∀ᶠ w : ℝ × ℝ in 𝓝 v, w.1/(2*π) < (n:ℝ) + 1 :=
      hcont.eventually_lt continuousAt_const (Int.lt_floor_add_one _)
    filter_upwards [o3, o4] with w w3 w4
    unfold wrapSky fmod
    rw [Int.floor_eq_iff.mpr ⟨w3.le, w4⟩]
    congr 1
    ext <;> simp
  refine HasFDerivAt.congr_of_eventuallyEq ?_ hev
  have e : (fmod v.1 (2*π), v.2) = v - (2*π*n, 0) := by ext <;> simp [fmod, hn]
  rw [e] at hd
  have := hd.comp v ((hasFDerivAt_id v).sub_const (2*π*(n:ℝ), (0:ℝ)))
  simpa [Function.comp_def] using this

theorem Good.inj {N p : ℤ} (hN : 1 ≤ N) (hp : ValidPix N p) {c : ℝ × ℝ} (hc : pix2xy p N = .ok c) :
    InjOn wrapSky (Good N c) := by
  intro v hv w hw h
  have hpi := pi_pos
  have e1 := (Good.dom hN hp hc hv).project
  have e2 := (Good.dom hN hp hc hw).project
  unfold wrapSky at h
  rw [h] at e1
  rw [e1] at e2
  obtain ⟨ex, ey⟩ := Prod.mk.inj e2
  rw [fmod_eq_turn, fmod_eq_turn] at ex
  set m := -⌊v.1/(2*π)⌋
  set n := -⌊w.1/(2*π)⌋
  have hx : v.1 = w.1 + 2*π*((n - m : ℤ):ℝ) := by push_cast; linarith
  have hv' := hv.1
  rw [hx, ey] at hv'
  obtain ⟨-, ht⟩ := Props.C05_disjoint N p p (n - m) hN hp hp c c hc hc w.1 w.2 hw.1 hv'
  rw [ht] at hx
  ext
  · rw [hx]; simp
  · exact ey

/-- The image of the diamond is the sky region of the pixel, up to some lines. -/
theorem Good.image {N p : ℤ} (hN : 1 ≤ N) (hp : ValidPix N p) {c : ℝ × ℝ} (hc : pix2xy p N = .ok c) :
    wrapSky '' Good N c ⊆ SkyPixel N c ∧
      SkyPixel N c \ {v | v.1 = 0 ∨ v.2 = 2/3 ∨ v.2 = -2/3} ⊆ wrapSky '' Good N c := by
  have hpi := pi_pos
  constructor
  · rintro _ ⟨v, hv, rfl⟩
    have hd := Good.dom hN hp hc hv
    have hb := fmod_bounds (x := v.1) (m := 2*π) (by positivity)
    obtain ⟨r1, r2⟩ := hd.range hb.1 hb.2
    refine ⟨r1, r2, ⌊v.1/(2*π)⌋, ?_⟩
    have e := hd.project
    unfold wrapSky
    rw [e]
    have : fmod v.1 (2*π) + 2*π*(⌊v.1/(2*π)⌋:ℝ) = v.1 := by unfold fmod; ring
    simp only [this]
    exact hv.1
  · rintro ⟨phi, z⟩ ⟨⟨⟨p0, p1⟩, ⟨z0, z1⟩, t, ht⟩, hne⟩
    simp only [mem_ofPred_eq, not_or] at hne p0 p1 z0 z1 ht
    obtain ⟨n0, n1, n2⟩ := hne
    have pp : 0 < phi := lt_of_le_of_ne p0 (Ne.symm n0)
    have ht0 : 0 < arccos z := arccos_pos.mpr z1
    have ht1 : arccos z < π := by
      rw [← arccos_neg_one]; exact arccos_lt_arccos (by norm_num) z0 z1.le
    have hcz : cos (arccos z) = z := cos_arccos z0.le z1.le
    have hrt := Props.C10_sky_plane_sky phi (arccos z) ht0 ht1
    rw [ang2xy_project, hcz] at hrt
    have hsky : skyOf (project phi z) = (phi, z) := by
      unfold skyOf; rw [hrt]; simp only [hcz]
    have hxr : 0 < (project phi z).1 ∧ (project phi z).1 < 2*π ∧ |(project phi z).2| ≠ π/4 := by
      rcases theta_cases ht0.le ht1.le with hb | ⟨e, s, he, hs0, hs1, hcs, hth⟩
      · rw [hcz] at hb
        have hb' : |z| < 2/3 := by
          refine lt_of_le_of_ne hb fun h => ?_
          rcases abs_cases z with ⟨q, -⟩ | ⟨q, -⟩
          · exact n1 (by rw [← q, h])
          · exact n2 (by linarith)
        unfold project
        rw [if_pos hb]
        refine ⟨pp, p1, ?_⟩
        simp only
        rw [abs_mul, abs_of_pos (by positivity)]
        nlinarith
      · have hq := ang2xy_cap (phi := phi) he hs0 hs1
        rw [← hth, ang2xy_project, hcz] at hq
        rw [hq]
        simp only
        obtain ⟨hf0, hf1⟩ := fmod_bounds (x := phi) (m := π/2) (by positivity)
        have hphi : phi = fmod phi (π/2) + π/2*⌊phi/(π/2)⌋ := by unfold fmod; ring
        have k0 : (0:ℝ) ≤ ⌊phi/(π/2)⌋ := by
          have : 0 ≤ ⌊phi/(π/2)⌋ := Int.floor_nonneg.mpr (by positivity)
          exact_mod_cast this
        have k1 : (⌊phi/(π/2)⌋:ℝ) ≤ 3 := by
          have : ⌊phi/(π/2)⌋ < 4 := by
            rw [Int.floor_lt, div_lt_iff₀ (by positivity)]; push_cast; linarith
          have : ⌊phi/(π/2)⌋ ≤ 3 := by omega
          exact_mod_cast this
        generalize fmod phi (π/2) = f at *
        generalize (⌊phi/(π/2)⌋:ℝ) = k at *
        refine ⟨by nlinarith, by nlinarith, ?_⟩
        rw [show e*(2-s)*π/4 = e*((2-s)*π/4) by ring, abs_mul,
          show |e| = 1 by rcases he with rfl | rfl <;> norm_num, one_mul, abs_of_pos (by nlinarith)]
        intro h
        nlinarith
    obtain ⟨x0, x1, hy⟩ := hxr
    have hfm : fmod ((project phi z).1 + 2*π*t) (2*π) = (project phi z).1 := by
      unfold fmod
      have : ⌊((project phi z).1 + 2*π*t)/(2*π)⌋ = t := by
        rw [Int.floor_eq_iff]
        constructor
        · rw [le_div_iff₀ (by positivity)]; nlinarith
        · rw [div_lt_iff₀ (by positivity)]; nlinarith
      rw [this]; ring
    refine ⟨((project phi z).1 + 2*π*t, (project phi z).2), ⟨ht, hy, ?_⟩, ?_⟩
    · simp only [hfm]; exact x0.ne'
    · unfold wrapSky
      simp only [hfm]
      exact hsky

theorem null_fst (a : ℝ) : volume {v : ℝ × ℝ | v.1 = a} = 0 := by
  have : {v : ℝ × ℝ | v.1 = a} = {a} ×ˢ univ := by ext v; simp
  rw [this, Measure.volume_eq_prod, Measure.prod_prod]; simp

theorem null_snd (a : ℝ) : volume {v : ℝ × ℝ | v.2 = a} = 0 := by
  have : {v : ℝ × ℝ | v.2 = a} = univ ×ˢ {a} := by ext v; simp
  rw [this, Measure.volume_eq_prod, Measure.prod_prod]; simp

theorem Good.ae {N : ℤ} (c : ℝ × ℝ) : Good N c =ᵐ[volume] {v : ℝ × ℝ | InDiamond N c v.1 v.2} := by
  have hpi := pi_pos
  have hsub : Good N c ⊆ {v : ℝ × ℝ | InDiamond N c v.1 v.2} := fun v hv => hv.1
  refine Filter.EventuallyLE.antisymm (HasSubset.Subset.eventuallyLE hsub) ?_
  rw [ae_le_set]
  refine measure_mono_null (t := {v : ℝ × ℝ | v.2 = π/4} ∪ {v | v.2 = -(π/4)} ∪
    ⋃ n : ℤ, {v : ℝ × ℝ | v.1 = 2*π*n}) ?_ ?_
  · rintro v ⟨hv, hn⟩
    by_contra hcon
    simp only [mem_union, mem_iUnion, mem_ofPred_eq, not_or, not_exists] at hcon
    obtain ⟨⟨c1, c2⟩, c3⟩ := hcon
    apply hn
    refine ⟨hv, ?_, ?_⟩
    · intro h
      rcases abs_cases v.2 with ⟨q, -⟩ | ⟨q, -⟩
      · exact c1 (by rw [← q, h])
      · exact c2 (by linarith)
    · intro h
      apply c3 ⌊v.1/(2*π)⌋
      unfold fmod at h
      linarith
  · rw [measure_union_null_iff, measure_union_null_iff, measure_iUnion_null_iff]
    exact ⟨⟨null_snd _, null_snd _⟩, fun n => null_fst _⟩

theorem SkyPixel.ae {N p : ℤ} (hN : 1 ≤ N) (hp : ValidPix N p) {c : ℝ × ℝ} (hc : pix2xy p N = .ok c) :
    wrapSky '' Good N c =ᵐ[volume] SkyPixel N c := by
  obtain ⟨h1, h2⟩ := Good.image hN hp hc
  refine Filter.EventuallyLE.antisymm (HasSubset.Subset.eventuallyLE h1) ?_
  rw [ae_le_set]
  refine measure_mono_null (t := {v : ℝ × ℝ | v.1 = 0} ∪ {v | v.2 = 2/3} ∪ {v | v.2 = -2/3}) ?_ ?_
  · rintro v ⟨hv, hn⟩
    by_contra hcon
    apply hn
    apply h2
    refine ⟨hv, fun h => hcon ?_⟩
    rcases h with h | h | h
    · exact Or.inl (Or.inl h)
    · exact Or.inl (Or.inr h)
    · exact Or.inr h
  · rw [measure_union_null_iff, measure_union_null_iff]
    exact ⟨⟨null_fst _, null_snd _⟩, null_snd _⟩

theorem Good.measurable {N : ℤ} (c : ℝ × ℝ) : NullMeasurableSet (Good N c) volume :=
  (measurableSet_diamond c.1 c.2 (halfDiag N)).nullMeasurableSet.congr (Good.ae c).symm

/-- The projection of the diamond to the sky carries areas to solid angles. -/
theorem map_wrapSky {N p : ℤ} (hN : 1 ≤ N) (hp : ValidPix N p) {c : ℝ × ℝ} (hc : pix2xy p N = .ok c) :
    AEMeasurable wrapSky (volume.restrict {v : ℝ × ℝ | InDiamond N c v.1 v.2}) ∧
    ENNReal.ofReal (8/(3*π)) • Measure.map wrapSky (volume.restrict {v : ℝ × ℝ | InDiamond N c v.1 v.2})
      = volume.restrict (SkyPixel N c) := by
  have hpi := pi_pos
  classical
  have hex : ∀ v : ℝ × ℝ, ∃ f' : ℝ × ℝ →L[ℝ] ℝ × ℝ, v ∈ Good N c → HasFDerivAt wrapSky f' v ∧ f'.det = 8/(3*π) := by
    intro v
    by_cases h : v ∈ Good N c
    · obtain ⟨f', h'⟩ := Good.jac hN hp hc h
      exact ⟨f', fun _ => h'⟩
    · exact ⟨0, fun h' => absurd h' h⟩
  choose f' hf' using hex
  have hmeas := Good.measurable (N := N) c
  have hd : ∀ v ∈ Good N c, HasFDerivWithinAt wrapSky (f' v) (Good N c) v :=
    fun v hv => (hf' v hv).1.hasFDerivWithinAt
  have hco : ContinuousOn wrapSky (Good N c) := fun v hv => (hd v hv).continuousWithinAt
  have h := map_withDensity_abs_det_fderiv_eq_addHaar volume hmeas hd (Good.inj hN hp hc)
  have hden : (volume.restrict (Good N c)).withDensity (fun x => ENNReal.ofReal |(f' x).det|)
      = ENNReal.ofReal (8/(3*π)) • volume.restrict (Good N c) := by
    rw [← withDensity_const]
    apply withDensity_congr_ae
    rw [Filter.EventuallyEq, ae_restrict_iff'₀ hmeas]
    refine Filter.Eventually.of_forall fun v hv => ?_
    rw [(hf' v hv).2, abs_of_pos (by positivity)]
  rw [hden, Measure.map_smul, Measure.restrict_congr_set (Good.ae c),
    Measure.restrict_congr_set (SkyPixel.ae hN hp hc)] at h
  refine ⟨?_, h⟩
  rw [← Measure.restrict_congr_set (Good.ae c)]
  exact hco.aemeasurable₀ hmeas

end Magpie.Healpix
