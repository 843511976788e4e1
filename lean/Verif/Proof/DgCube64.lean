import Verif.Spec.DgCube64
import Verif.Proof.DgRemap64
import Verif.Proof.DgCube2Shell

/-!
# The dense grid `Cube2Shell.remap` in binary64
-/

set_option linter.unusedSimpArgs false
set_option linter.unusedVariables false
set_option linter.unusedSectionVars false

namespace Magpie.DgCube64
open Magpie Magpie.Radial Magpie.Box2Ring Magpie.Cube Magpie.DgCube Magpie.Grids64 Magpie.Means64 Magpie.Spec Magpie.F64
open Magpie.Props Magpie.Dg64 Finset
open Magpie.McCube (CubeOk)

/-! ## Coordinates -/

theorem tiny_R {R : ℝ} (hR : (2:ℝ)^(-100 : ℤ) ≤ R) {e : ℤ} (he : e ≤ -1074) : (2:ℝ)^e ≤ R/2^60 := by
  rw [le_div_iff₀ (by norm_num)]
  refine le_trans ?_ hR
  rw [← zpow_natCast (2:ℝ) 60, ← zpow_add₀ (by norm_num)]
  exact zpow_le_zpow_right₀ (by norm_num) (by push_cast; omega)

/-- A product with a cosine or sine. -/
theorem mul_near {R x x' c c' a : ℝ} (hR : (2:ℝ)^(-100 : ℤ) ≤ R) (ha0 : 0 ≤ a) (ha : a ≤ 50) (hx : |x| ≤ R)
    (hx' : |x' - x| ≤ a*(R/2^53)) (hc : |c| ≤ 1) (hc' : |c' - c| ≤ 1/2^52) :
    |F64.mul x' c' - x*c| ≤ (1.1*a + 4)*(R/2^53) ∧ |x*c| ≤ R := by
  have hR0 : 0 < R := (two_zpow_pos _).trans_le hR
  have ht := tiny_R hR (show (-1075:ℤ) ≤ -1074 by norm_num)
  have hf := fl_err_abs (x'*c')
  generalize (2:ℝ)^(-1075 : ℤ) = η at *
  have e0 : |x*c| ≤ R := by
    rw [abs_mul]
    exact (mul_le_mul hx hc (abs_nonneg _) hR0.le).trans (by rw [mul_one])
  refine ⟨?_, e0⟩
  set Q := R/2^53 with hQ
  have hQ0 : 0 < Q := by positivity
  have hRQ : R = Q*2^53 := by rw [hQ]; field_simp
  have hx1 : |x'| ≤ R + 50*Q := by
    have := abs_sub_abs_le_abs_sub x' x
    nlinarith
  have e1 : |x'*c' - x*c| ≤ a*Q + (R + 50*Q)*(1/2^52) := by
    rw [show x'*c' - x*c = (x' - x)*c + x'*(c' - c) by ring]
    refine (abs_add_le _ _).trans ?_
    rw [abs_mul, abs_mul]
    refine add_le_add ?_ (mul_le_mul hx1 hc' (abs_nonneg _) (by positivity))
    exact (mul_le_mul hx' hc (abs_nonneg _) (by positivity)).trans (by rw [mul_one])
  have e2 := abs_sub_abs_le_abs_sub (x'*c') (x*c)
  have e3 := abs_sub_le (fl (x'*c')) (x'*c') (x*c)
  rw [abs_sub_comm (fl (x'*c')) (x'*c')] at e3
  have e4 : |x'*c'|/2^53 ≤ (R + a*Q + (R + 50*Q)*(1/2^52))/2^53 :=
    div_le_div_of_nonneg_right (by linarith) (by norm_num)
  unfold F64.mul
  rw [hRQ] at e1 e4 ht
  have haQ : a*Q ≤ 50*Q := mul_le_mul_of_nonneg_right ha hQ0.le
  have haQ0 : 0 ≤ a*Q := mul_nonneg ha0 hQ0.le
  have : |fl (x'*c') - x*c| ≤ (Q*2^53 + a*Q + (Q*2^53 + 50*Q)*(1/2^52))/2^53 + Q*2^53/2^60 + (a*Q + (Q*2^53 + 50*Q)*(1/2^52)) := by
    linarith
  refine this.trans ?_
  norm_num at *
  linarith

/-- One Cartesian coordinate. -/
theorem add_near {R X u u' x0 x0' : ℝ} (hR : (2:ℝ)^(-100 : ℤ) ≤ R) (hu : |u| ≤ R) (hu' : |u' - u| ≤ 30*(R/2^53))
    (hX : 0 ≤ X) (hx : |x0| ≤ X) (hx' : |x0' - x0| ≤ 10*X/2^53 + R/2^53) :
    |F64.add u' x0' - (u + x0)| ≤ (R + X)/2^44 := by
  have hR0 : 0 < R := (two_zpow_pos _).trans_le hR
  have ht := tiny_R hR (show (-1075:ℤ) ≤ -1074 by norm_num)
  have hf := fl_err_abs (u' + x0')
  generalize (2:ℝ)^(-1075 : ℤ) = η at *
  have e1 : |u' + x0' - (u + x0)| ≤ 31*R/2^53 + 10*X/2^53 := by
    rw [show u' + x0' - (u + x0) = (u' - u) + (x0' - x0) by ring]
    refine (abs_add_le _ _).trans ?_
    have : 31*R/2^53 = 30*(R/2^53) + R/2^53 := by ring
    linarith
  have e0 : |u + x0| ≤ R + X := (abs_add_le _ _).trans (by linarith)
  have e2 := abs_sub_abs_le_abs_sub (u' + x0') (u + x0)
  have e3 := abs_sub_le (fl (u' + x0')) (u' + x0') (u + x0)
  rw [abs_sub_comm (fl (u' + x0')) (u' + x0')] at e3
  have e4 : |u' + x0'|/2^53 ≤ (R + X + (31*R/2^53 + 10*X/2^53))/2^53 :=
    div_le_div_of_nonneg_right (by linarith) (by norm_num)
  unfold F64.add
  norm_num at *
  linarith

theorem rel_fl_grid {x : ℝ} (h : Means64.Grid x) : Means64.Rel 1 (fl x) x := by
  have := rel_add h ⟨0, by simp⟩ (b := 0)
  unfold F64.add at this
  rwa [add_zero] at this

theorem rel_ofInt (n : ℤ) : |fl (n:ℝ) - n| ≤ |(n:ℝ)|/2^53 := by
  rw [abs_sub_comm]
  rcases eq_or_ne n 0 with rfl | h
  · simp [fl_zero]
  · refine fl_err ?_
    have h1 : (1:ℝ) ≤ |(n:ℝ)| := by
      rw [← Int.cast_abs]; exact_mod_cast Int.one_le_abs h
    exact (zpow_le_one_of_nonpos₀ (by norm_num) (by norm_num)).trans h1

theorem grid_sub {a b : ℝ} (ha : IsDouble a) (hb : IsDouble b) : Means64.Grid (a - b) := by
  obtain ⟨m, rfl⟩ := grid_double ha
  obtain ⟨n, rfl⟩ := grid_double hb
  exact ⟨m - n, by push_cast; ring⟩

theorem ends64 {lo hi : ℝ} {num : ℕ} (h : Divisible lo hi num) :
    (setupEdges64 lo hi num).getLastD 0 = hi ∧ (setupEdges64 lo hi num).getD 0 0 = lo := by
  unfold setupEdges64
  rw [linspace64_eq lo hi h.pos]
  refine ⟨?_, ?_⟩
  · rw [List.range_succ, List.map_append]
    simp [List.getLastD_eq_getLast?, edge64]
  · rw [getD_range_map _ _ _ (by omega), edge64_zero' h]

/-- The centre moved by `n` sides. -/
theorem centre_near {lo hi : ℝ} {num : ℕ} (h : Divisible lo hi num) (c : ℝ) (n : ℤ) {R : ℝ} (hR : (2:ℝ)^(-100 : ℤ) ≤ R) :
    |centre64 c n (setupEdges64 lo hi num) - (c + n*(hi - lo))| ≤ 10*(|c| + |(n:ℝ)| * (hi - lo))/2^53 + R/2^53 := by
  have hR0 : 0 < R := (two_zpow_pos _).trans_le hR
  have ht := tiny_R hR (show (-1075:ℤ) ≤ -1074 by norm_num)
  unfold centre64 F64.add F64.mul F64.sub F64.ofInt
  rw [(ends64 h).1, (ends64 h).2]
  set N : ℝ := |(n:ℝ)| with hN
  have hN0 : 0 ≤ N := abs_nonneg _
  set W := hi - lo with hW
  have hW0 : 0 ≤ W := by linarith [h.le]
  have r1 : |fl W - W| ≤ W/2^53 := by
    have := rel_fl_grid (grid_sub h.dhi h.dlo)
    unfold Means64.Rel at this
    rw [gam_one, ← hW, abs_of_nonneg hW0] at this
    linarith
  have r2 := rel_ofInt n
  rw [← hN] at r2
  have a1 : |fl W| ≤ W*(1 + 1/2^53) := by
    have := abs_sub_abs_le_abs_sub (fl W) W
    rw [abs_of_nonneg hW0] at this
    linarith
  have a2 : |fl (n:ℝ) * fl W - n*W| ≤ 2.01*(N*W)/2^53 := by
    rw [show fl (n:ℝ) * fl W - n*W = (fl (n:ℝ) - n)*fl W + n*(fl W - W) by ring]
    refine (abs_add_le _ _).trans ?_
    rw [abs_mul, abs_mul, ← hN]
    have b1 := mul_le_mul r2 a1 (abs_nonneg _) (by positivity)
    have b2 := mul_le_mul_of_nonneg_left r1 hN0
    have : 0 ≤ N*W := by positivity
    norm_num at *
    nlinarith
  have hNW : |(n:ℝ)*W| = N*W := by rw [abs_mul, abs_of_nonneg hW0]
  have f1 := fl_err_abs (fl (n:ℝ) * fl W)
  set P := fl (n:ℝ) * fl W with hP
  have f2 := fl_err_abs (c + fl P)
  generalize (2:ℝ)^(-1075 : ℤ) = η at *
  have c1 := abs_sub_abs_le_abs_sub P (n*W)
  rw [hNW] at c1
  have c2 : |fl P - n*W| ≤ 3.02*(N*W)/2^53 + η := by
    have d1 := abs_sub_le (fl P) P (n*W)
    rw [abs_sub_comm (fl P) P] at d1
    have d2 : |P|/2^53 ≤ (N*W + 2.01*(N*W)/2^53)/2^53 := div_le_div_of_nonneg_right (by linarith) (by norm_num)
    have : 0 ≤ N*W := by positivity
    norm_num at *
    linarith
  have c3 : |c + fl P| ≤ |c| + (N*W + 3.02*(N*W)/2^53 + η) := by
    refine (abs_add_le _ _).trans ?_
    have := abs_sub_abs_le_abs_sub (fl P) (n*W)
    rw [hNW] at this
    linarith
  have c4 := abs_sub_le (fl (c + fl P)) (c + fl P) (c + n*W)
  rw [abs_sub_comm (fl (c + fl P)) (c + fl P), show c + fl P - (c + n*W) = fl P - n*W by ring] at c4
  have c5 : |c + fl P|/2^53 ≤ (|c| + (N*W + 3.02*(N*W)/2^53 + η))/2^53 := div_le_div_of_nonneg_right c3 (by norm_num)
  have : 0 ≤ N*W := by positivity
  norm_num at *
  linarith [abs_nonneg c]

/-! ## Cells -/

theorem cell3_near (L : Lib) {C : CubeArgs} {A : ShellArgs} (h : Fits C A) (r : ℝ) (ang : ℝ × ℝ) (c : ℝ × ℝ × ℝ) :
    ∃ pt : ℝ × ℝ × ℝ, |pt.1 - (sphere2cart64 L r ang.2 ang.1 c).1| ≤ 2*cellMargin C.xmin C.xmax C.numx.toNat ∧
      |pt.2.1 - (sphere2cart64 L r ang.2 ang.1 c).2.1| ≤ 2*cellMargin C.ymin C.ymax C.numy.toNat ∧
      |pt.2.2 - (sphere2cart64 L r ang.2 ang.1 c).2.2| ≤ 2*cellMargin C.zmin C.zmax C.numz.toNat ∧
      ∀ i j k, InCell3 C pt i j k ↔ cellOf64 L C r ang c = some (i, j, k) := by
  obtain ⟨x', ex, ix⟩ := cell_near h.x h.cube.hx h.xwide (sphere2cart64 L r ang.2 ang.1 c).1
  obtain ⟨y', ey, iy⟩ := cell_near h.y h.cube.hy h.ywide (sphere2cart64 L r ang.2 ang.1 c).2.1
  obtain ⟨z', ez, iz⟩ := cell_near h.z h.cube.hz h.zwide (sphere2cart64 L r ang.2 ang.1 c).2.2
  refine ⟨(x', y', z'), ex, ey, ez, fun i j k => ?_⟩
  unfold InCell3 cellOf64
  dsimp only
  rw [ix, iy, iz]
  cases boxCell64 C.xmin C.xmax C.numx.toNat (sphere2cart64 L r ang.2 ang.1 c).1 <;>
  cases boxCell64 C.ymin C.ymax C.numy.toNat (sphere2cart64 L r ang.2 ang.1 c).2.1 <;>
  cases boxCell64 C.zmin C.zmax C.numz.toNat (sphere2cart64 L r ang.2 ang.1 c).2.2 <;> simp

theorem mem_centres {C : CubeArgs} {A : ShellArgs} (c : ℝ × ℝ × ℝ) : c ∈ centres64 C A ↔ ∃ n, InRange A n ∧
    c = (centre64 (A.center.getD 0 0) n.1 (setupEdges64 C.xmin C.xmax C.numx.toNat),
      centre64 (A.center.getD 1 0) n.2.1 (setupEdges64 C.ymin C.ymax C.numy.toNat),
      centre64 (A.center.getD 2 0) n.2.2 (setupEdges64 C.zmin C.zmax C.numz.toNat)) := by
  unfold centres64 InRange
  simp only [List.mem_map, List.mem_flatMap, mem_perRange]
  constructor
  · rintro ⟨n, ⟨i, hi, j, hj, k, hk, rfl⟩, rfl⟩
    exact ⟨(i, j, k), ⟨hi, hj, hk⟩, rfl⟩
  · rintro ⟨n, ⟨hi, hj, hk⟩, rfl⟩
    exact ⟨n, ⟨n.1, hi, n.2.1, hj, n.2.2, hk, rfl⟩, rfl⟩

/-- The point that the code computes from a centre is near the image of the dense point. -/
theorem point_near {L : Lib} (hL : LibOk L) {hp : Hp} {C : CubeArgs} {A : ShellArgs} (h : Fits C A) (hpx : Pixels hp A)
    {k q : ℕ} (hk : k < denseNum A) (hq : q < npixOf (A.nside*A.rebinShell)) (n : ℤ × ℤ × ℤ) :
    ∃ pt, Near C A n (densePoint hp A k q) pt ∧ ∀ i j l, InCell3 C pt i j l ↔
      cellOf64 L C (mid64 A.rmin A.rmax (denseNum A) k) (hp.pix2ang (A.nside*A.rebinShell) q)
        (centre64 (A.center.getD 0 0) n.1 (setupEdges64 C.xmin C.xmax C.numx.toNat),
          centre64 (A.center.getD 1 0) n.2.1 (setupEdges64 C.ymin C.ymax C.numy.toNat),
          centre64 (A.center.getD 2 0) n.2.2 (setupEdges64 C.zmin C.zmax C.numz.toNat)) = some (i, j, l) := by
  have hR := h.large
  have hR0 : 0 < A.rmax := (two_zpow_pos _).trans_le hR
  set c := ((centre64 (A.center.getD 0 0) n.1 (setupEdges64 C.xmin C.xmax C.numx.toNat),
          centre64 (A.center.getD 1 0) n.2.1 (setupEdges64 C.ymin C.ymax C.numy.toNat),
          centre64 (A.center.getD 2 0) n.2.2 (setupEdges64 C.zmin C.zmax C.numz.toNat)) : ℝ × ℝ × ℝ) with hc
  set r' := mid64 A.rmin A.rmax (denseNum A) k with hr'
  set ang := hp.pix2ang (A.nside*A.rebinShell) q with hang
  set r := midAt A.rmin A.rmax (denseNum A) k with hr
  obtain ⟨pt, e1, e2, e3, e4⟩ := cell3_near L h r' ang c
  refine ⟨pt, ?_, e4⟩
  have r2 := mid64_near h.r h.shell.rmin hk
  have r3 : 0 ≤ r ∧ r ≤ A.rmax := by
    have f1 := edgeAt_range h.shell.r.le (n := denseNum A) (k := k) (by omega) hk.le
    have f2 := edgeAt_range h.shell.r.le (n := denseNum A) (k := k+1) (by omega) hk
    have := h.shell.rmin
    rw [hr]; unfold midAt
    constructor <;> linarith
  have rn : |r' - r| ≤ 11*(A.rmax/2^53) := by
    refine r2.trans ?_
    have := tiny_R hR (le_refl (-1074))
    have : A.rmax/2^60 ≤ A.rmax/2^53 := div_le_div_of_nonneg_left hR0.le (by norm_num) (by norm_num)
    rw [show 11*(A.rmax/2^53) = 10*A.rmax/2^53 + A.rmax/2^53 by ring]
    linarith
  have ra : |r| ≤ A.rmax := by rw [abs_of_nonneg r3.1]; exact r3.2
  have ct := hL.trig.cos _ (hpx.theta q hq).1 (hpx.theta q hq).2
  have st := hL.trig.sin _ (hpx.theta q hq).1 (hpx.theta q hq).2
  have cp := hL.trig.cos _ (hpx.phi q hq).1 (hpx.phi q hq).2
  have sp := hL.trig.sin _ (hpx.phi q hq).1 (hpx.phi q hq).2
  rw [← hang] at ct st cp sp
  obtain ⟨u1, u1'⟩ := mul_near hR (by norm_num) (by norm_num) ra rn (Real.abs_cos_le_one ang.2) cp
  obtain ⟨v1, v1'⟩ := mul_near hR (by norm_num) (by norm_num) ra rn (Real.abs_sin_le_one ang.2) sp
  obtain ⟨w1, w1'⟩ := mul_near hR (by norm_num) (by norm_num) ra rn (Real.abs_cos_le_one ang.1) ct
  obtain ⟨u2, u2'⟩ := mul_near hR (by norm_num) (by norm_num) u1' u1 (Real.abs_sin_le_one ang.1) st
  obtain ⟨v2, v2'⟩ := mul_near hR (by norm_num) (by norm_num) v1' v1 (Real.abs_sin_le_one ang.1) st
  have hQ : 0 < A.rmax/2^53 := by positivity
  have wid : ∀ {lo hi : ℝ} {num : ℕ} (d : Divisible lo hi num) (c : ℝ) (n : ℤ),
      0 ≤ |c| + |(n:ℝ)| * (hi - lo) ∧ |c + n*(hi - lo)| ≤ |c| + |(n:ℝ)| * (hi - lo) := by
    intro lo hi num d c n
    have hw : 0 ≤ hi - lo := by linarith [d.le]
    refine ⟨by positivity, (abs_add_le _ _).trans (le_of_eq ?_)⟩
    rw [abs_mul, abs_of_nonneg hw]
  have x1 := add_near hR u2' (u2.trans (mul_le_mul_of_nonneg_right (by norm_num) hQ.le)) (wid h.x (A.center.getD 0 0) n.1).1
    (wid h.x _ _).2 (centre_near h.x (A.center.getD 0 0) n.1 hR)
  have x2 := add_near hR v2' (v2.trans (mul_le_mul_of_nonneg_right (by norm_num) hQ.le)) (wid h.y (A.center.getD 1 0) n.2.1).1
    (wid h.y _ _).2 (centre_near h.y (A.center.getD 1 0) n.2.1 hR)
  have x3 := add_near hR w1' (w1.trans (mul_le_mul_of_nonneg_right (by norm_num) hQ.le)) (wid h.z (A.center.getD 2 0) n.2.2).1
    (wid h.z _ _).2 (centre_near h.z (A.center.getD 2 0) n.2.2 hR)
  unfold Near reach
  refine ⟨?_, ?_, ?_⟩
  · have a := abs_sub_le pt.1 (sphere2cart64 L r' ang.2 ang.1 c).1 (image C n (densePoint hp A k q)).1
    have b : |(sphere2cart64 L r' ang.2 ang.1 c).1 - (image C n (densePoint hp A k q)).1|
        ≤ (A.rmax + (|A.center.getD 0 0| + |(n.1:ℝ)| * (C.xmax - C.xmin)))/2^44 := by
      refine le_trans (le_of_eq ?_) x1
      congr 1
      show _ - (A.center.getD 0 0 + r*Real.sin ang.1*Real.cos ang.2 + n.1*(C.xmax - C.xmin)) = _
      congr 1
      ring
    rw [← add_assoc] at b
    linarith
  · have a := abs_sub_le pt.2.1 (sphere2cart64 L r' ang.2 ang.1 c).2.1 (image C n (densePoint hp A k q)).2.1
    have b : |(sphere2cart64 L r' ang.2 ang.1 c).2.1 - (image C n (densePoint hp A k q)).2.1|
        ≤ (A.rmax + (|A.center.getD 1 0| + |(n.2.1:ℝ)| * (C.ymax - C.ymin)))/2^44 := by
      refine le_trans (le_of_eq ?_) x2
      congr 1
      show _ - (A.center.getD 1 0 + r*Real.sin ang.1*Real.sin ang.2 + n.2.1*(C.ymax - C.ymin)) = _
      congr 1
      ring
    rw [← add_assoc] at b
    linarith
  · have a := abs_sub_le pt.2.2 (sphere2cart64 L r' ang.2 ang.1 c).2.2 (image C n (densePoint hp A k q)).2.2
    have b : |(sphere2cart64 L r' ang.2 ang.1 c).2.2 - (image C n (densePoint hp A k q)).2.2|
        ≤ (A.rmax + (|A.center.getD 2 0| + |(n.2.2:ℝ)| * (C.zmax - C.zmin)))/2^44 := by
      refine le_trans (le_of_eq ?_) x3
      congr 1
      show _ - (A.center.getD 2 0 + r*Real.cos ang.1 + n.2.2*(C.zmax - C.zmin)) = _
      congr 1
      ring
    rw [← add_assoc] at b
    linarith

theorem highres64_ok (L : Lib) (C : CubeArgs) {f : Arr3 ℝ} (r : ℝ) (ang : ℝ × ℝ)
    (hb : ∀ c a b d, cellOf64 L C r ang c = some (a, b, d) → a < f.n0 ∧ b < f.n1 ∧ d < f.n2) :
    ∀ (cs : List (ℝ × ℝ × ℝ)) (v : ℝ), ∃ g, highres64 L C f r ang cs v = .ok g ∧
      ((∃ c ∈ cs, ∃ a b d, cellOf64 L C r ang c = some (a, b, d) ∧ g = f.val a b d) ∨
        (g = v ∧ ∀ c ∈ cs, cellOf64 L C r ang c = none))
  | [], v => ⟨v, rfl, .inr ⟨rfl, by simp⟩⟩
  | c :: cs, v => by
    unfold highres64
    cases e : cellOf64 L C r ang c with
    | none =>
      obtain ⟨g, h1, h2⟩ := highres64_ok L C r ang hb cs v
      refine ⟨g, h1, ?_⟩
      rcases h2 with ⟨c', m, h⟩ | ⟨h, h'⟩
      · exact .inl ⟨c', List.mem_cons_of_mem _ m, h⟩
      · refine .inr ⟨h, ?_⟩
        intro c' hc'
        rcases List.mem_cons.mp hc' with rfl | hc'
        · exact e
        · exact h' c' hc'
    | some t =>
      obtain ⟨a, b, d⟩ := t
      obtain ⟨g, h1, h2⟩ := highres64_ok L C r ang hb cs (f.val a b d)
      refine ⟨g, ?_, ?_⟩
      · have hget : f.get a b d = .ok (f.val a b d) := by
          unfold Arr3.get; rw [if_pos (hb c a b d e)]
        simp only [hget, bind, Except.bind]
        exact h1
      · rcases h2 with ⟨c', m, h⟩ | ⟨h, h'⟩
        · exact .inl ⟨c', List.mem_cons_of_mem _ m, h⟩
        · exact .inl ⟨c, List.mem_cons_self, a, b, d, e, h⟩

/-- A sample of the cube. -/
theorem sample3_ok {L : Lib} (hL : LibOk L) {hp : Hp} {C : CubeArgs} {A : ShellArgs} (h : Fits C A) (hpx : Pixels hp A)
    {f : Arr3 ℝ} {F : ℝ} (hf : Data C f F) {k q : ℕ} (hk : k < denseNum A) (hq : q < npixOf (A.nside*A.rebinShell)) :
    ∃ g, highres64 L C f (mid64 A.rmin A.rmax (denseNum A) k) (hp.pix2ang (A.nside*A.rebinShell) q) (centres64 C A) 0 = .ok g ∧
      ReadsNear C A f.val (densePoint hp A k q) g ∧ (g = 0 ∨ (IsDouble g ∧ |g| ≤ F)) := by
  obtain ⟨g, e, hg⟩ := highres64_ok L C (f := f) (mid64 A.rmin A.rmax (denseNum A) k) (hp.pix2ang (A.nside*A.rebinShell) q) (by
    intro c a b d hc
    obtain ⟨pt, -, -, -, e4⟩ := cell3_near L h (mid64 A.rmin A.rmax (denseNum A) k) (hp.pix2ang (A.nside*A.rebinShell) q) c
    obtain ⟨i1, i2, i3⟩ := (e4 a b d).mpr hc
    rw [hf.n0, hf.n1, hf.n2]
    exact ⟨i1.1, i2.1, i3.1⟩) (centres64 C A) 0
  refine ⟨g, e, ?_, ?_⟩
  · rcases hg with ⟨c, hc, a, b, d, hcell, hv⟩ | ⟨hv, hno⟩
    · obtain ⟨n, hn, rfl⟩ := (mem_centres c).mp hc
      obtain ⟨pt, hpt, hiff⟩ := point_near hL h hpx hk hq n
      exact .inl ⟨n, pt, a, b, d, hn, hpt, (hiff a b d).mpr hcell, hv⟩
    · refine .inr ⟨hv, fun n hn => ?_⟩
      obtain ⟨pt, hpt, hiff⟩ := point_near hL h hpx hk hq n
      refine ⟨pt, hpt, ?_⟩
      rintro ⟨a, b, c, habc⟩
      have := (hiff a b c).mp habc
      rw [hno _ ((mem_centres _).mpr ⟨n, hn, rfl⟩)] at this
      cases this
  · rcases hg with ⟨c, hc, a, b, d, hcell, hv⟩ | ⟨hv, -⟩
    · obtain ⟨pt, -, -, -, e4⟩ := cell3_near L h (mid64 A.rmin A.rmax (denseNum A) k) (hp.pix2ang (A.nside*A.rebinShell) q) c
      obtain ⟨i1, i2, i3⟩ := (e4 a b d).mpr hcell
      rw [hv]
      exact .inr (hf.val a b d (by rw [hf.n0]; exact i1.1) (by rw [hf.n1]; exact i2.1) (by rw [hf.n2]; exact i3.1))
    · exact .inl hv

/-! ## Weights -/

theorem pow3 (x : ℝ) : x^(3:ℝ) = x^3 := by
  rw [show (3:ℝ) = ((3:ℕ):ℝ) by norm_num, Real.rpow_natCast]

theorem cube_diff {R E e : ℝ} (hR : 0 ≤ R) (hE : 0 ≤ E ∧ E ≤ R) (he : 0 ≤ e ∧ e ≤ R) (h : |E - e| ≤ 6*R/2^53) :
    |E^3 - e^3| ≤ 18*(R^3/2^53) := by
  rw [show E^3 - e^3 = (E - e)*(E^2 + E*e + e^2) by ring, abs_mul]
  have h2 : |E^2 + E*e + e^2| ≤ 3*R^2 := by
    rw [abs_of_nonneg (by nlinarith [mul_nonneg hE.1 he.1])]
    have a := mul_le_mul hE.2 hE.2 hE.1 hR
    have b := mul_le_mul hE.2 he.2 he.1 hR
    have c := mul_le_mul he.2 he.2 he.1 hR
    nlinarith
  refine (mul_le_mul h h2 (abs_nonneg _) (by positivity)).trans (le_of_eq ?_)
  ring

theorem tiny_R3 {G R : ℝ} (hG : (2:ℝ)^(-600 : ℤ) ≤ G) (hR : (2:ℝ)^(-100 : ℤ) ≤ R) {e : ℤ} (he : e ≤ -1074) :
    (2:ℝ)^e ≤ G*R^3/2^75 := by
  have h0 := two_zpow_pos (-100)
  have h1 : (2:ℝ)^(-300 : ℤ) ≤ R^3 := by
    refine le_trans (le_of_eq ?_) (pow_le_pow_left₀ h0.le hR 3)
    rw [← zpow_natCast, ← zpow_mul]; norm_num
  have h2 : (2:ℝ)^(-600 : ℤ)*(2:ℝ)^(-300 : ℤ) ≤ G*R^3 :=
    mul_le_mul hG h1 (two_zpow_pos _).le ((two_zpow_pos _).le.trans hG)
  rw [le_div_iff₀ (by norm_num)]
  refine le_trans ?_ h2
  rw [← zpow_natCast (2:ℝ) 75, ← zpow_add₀ (by norm_num), ← zpow_add₀ (by norm_num)]
  exact zpow_le_zpow_right₀ (by norm_num) (by push_cast; omega)

theorem weight3_near {pow : ℝ → ℝ → ℝ} (hp : PowClose pow) {R E E' e e' : ℝ} (hR : (2:ℝ)^(-100 : ℤ) ≤ R) (hE : 0 ≤ E ∧ E ≤ R)
    (hE' : 0 ≤ E' ∧ E' ≤ R) (he : 0 ≤ e ∧ e ≤ R) (he' : 0 ≤ e' ∧ e' ≤ R) (h : |E - e| ≤ 6*R/2^53) (h' : |E' - e'| ≤ 6*R/2^53) :
    |F64.sub (pow E' 3) (pow E 3) - (e'^3 - e^3)| ≤ 42*(R^3/2^53) := by
  have hR0 : 0 < R := (two_zpow_pos _).trans_le hR
  have t := tiny_R3 (le_of_eq_of_le rfl (zpow_le_one_of_nonpos₀ (by norm_num) (by norm_num) : (2:ℝ)^(-600 : ℤ) ≤ 1)) hR
    (le_refl (-1074))
  have t' := tiny_R3 (le_of_eq_of_le rfl (zpow_le_one_of_nonpos₀ (by norm_num) (by norm_num) : (2:ℝ)^(-600 : ℤ) ≤ 1)) hR
    (show (-1075:ℤ) ≤ -1074 by norm_num)
  have c := hp.close E 3 hE.1 (by norm_num)
  have c' := hp.close E' 3 hE'.1 (by norm_num)
  rw [pow3] at c c'
  have d := cube_diff hR0.le hE he h
  have d' := cube_diff hR0.le hE' he' h'
  have f := fl_err_abs (pow E' 3 - pow E 3)
  have b : E^3 ≤ R^3 := pow_le_pow_left₀ hE.1 hE.2 3
  have b' : E'^3 ≤ R^3 := pow_le_pow_left₀ hE'.1 hE'.2 3
  have g : e^3 ≤ R^3 := pow_le_pow_left₀ he.1 he.2 3
  have g' : e'^3 ≤ R^3 := pow_le_pow_left₀ he'.1 he'.2 3
  have g0 : 0 ≤ e^3 := pow_nonneg he.1 3
  have g0' : 0 ≤ e'^3 := pow_nonneg he'.1 3
  have hR3 : 0 < R^3 := by positivity
  unfold F64.sub
  generalize (2:ℝ)^(-1074 : ℤ) = η at *
  generalize (2:ℝ)^(-1075 : ℤ) = η' at *
  generalize R^3 = V at *
  have s1 : |pow E' 3 - pow E 3 - (e'^3 - e^3)| ≤ 40.01*(V/2^53) := by
    rw [abs_le] at *
    norm_num at *
    constructor <;> linarith
  have s2 : |pow E' 3 - pow E 3| ≤ V + 40.01*(V/2^53) := by
    have := abs_sub_abs_le_abs_sub (pow E' 3 - pow E 3) (e'^3 - e^3)
    have : |e'^3 - e^3| ≤ V := by rw [abs_le]; constructor <;> linarith
    linarith
  have s3 := abs_sub_le (fl (pow E' 3 - pow E 3)) (pow E' 3 - pow E 3) (e'^3 - e^3)
  rw [abs_sub_comm (fl (pow E' 3 - pow E 3)) (pow E' 3 - pow E 3)] at s3
  have s4 : |pow E' 3 - pow E 3|/2^53 ≤ (V + 40.01*(V/2^53))/2^53 := div_le_div_of_nonneg_right s2 (by norm_num)
  norm_num at *
  linarith

/-! ## `ud_grade` -/

theorem fl_two {k : ℤ} (h : -1074 ≤ k) : fl ((2:ℝ)^k) = (2:ℝ)^k := by
  have := fl_exact (m := 1) (e := k) (by norm_num) h
  simpa using this

theorem not_bad {x : ℝ} (h : |x| ≤ 2^90) : ¬ isBad64 x := by
  unfold isBad64
  have u1 : unseen64 ≤ -(2:ℝ)^(100:ℤ) := by
    have := fl_mono (show unseen ≤ -(2:ℝ)^(100:ℤ) by unfold unseen; norm_num)
    rwa [fl_neg_exact (fl_two (by norm_num))] at this
  have u2 : -(2:ℝ)^(101:ℤ) ≤ unseen64 := by
    have := fl_mono (show -(2:ℝ)^(101:ℤ) ≤ unseen by unfold unseen; norm_num)
    rwa [fl_neg_exact (fl_two (by norm_num))] at this
  have a1 : (2:ℝ)^(99:ℤ) ≤ F64.sub x unseen64 := by
    unfold F64.sub
    rw [← fl_two (k := 99) (by norm_num)]
    refine fl_mono ?_
    rw [abs_le] at h
    norm_num at *
    linarith [h.1]
  have b1 : fl (1e-5:ℝ) ≤ (2:ℝ)^(-16:ℤ) := by
    rw [← fl_two (k := -16) (by norm_num)]
    exact fl_mono (by norm_num)
  have b2 : fl (1e-8:ℝ) ≤ (2:ℝ)^(0:ℤ) := by
    rw [← fl_two (k := 0) (by norm_num)]
    exact fl_mono (by norm_num)
  have hU : |unseen64| ≤ (2:ℝ)^(101:ℤ) := by
    rw [abs_le]; norm_num at *; constructor <;> linarith
  have b3 : F64.mul (fl 1e-5) |unseen64| ≤ (2:ℝ)^(85:ℤ) := by
    unfold F64.mul
    rw [← fl_two (k := 85) (by norm_num)]
    refine fl_mono ?_
    refine (mul_le_mul b1 hU (abs_nonneg _) (by norm_num)).trans ?_
    norm_num
  have b4 : F64.add (fl 1e-8) (F64.mul (fl 1e-5) |unseen64|) ≤ (2:ℝ)^(86:ℤ) := by
    unfold F64.add
    rw [← fl_two (k := 86) (by norm_num)]
    refine fl_mono ?_
    norm_num at *
    linarith
  have := le_abs_self (F64.sub x unseen64)
  intro hc
  have : (2:ℝ)^(99:ℤ) ≤ (2:ℝ)^(86:ℤ) := by linarith
  norm_num at this

theorem tree_ones : ∀ t : SumTree, t.leaves.length ≤ 2^53 → t.sum (fun _ => 1) = t.leaves.length
  | .leaf k, _ => by simp [SumTree.leaves, SumTree.sum]
  | .node l r, h => by
    simp only [SumTree.leaves, List.length_append] at h ⊢
    simp only [SumTree.sum]
    rw [tree_ones l (by omega), tree_ones r (by omega)]
    unfold F64.add
    have := fl_int (n := (l.leaves.length + r.leaves.length : ℤ)) (by
      rw [abs_of_nonneg (by positivity)]
      exact_mod_cast h)
    push_cast at this ⊢
    exact this

theorem tree_zeros : ∀ t : SumTree, t.sum (fun _ => 0) = 0
  | .leaf k => rfl
  | .node l r => by
    simp only [SumTree.sum]
    rw [tree_zeros l, tree_zeros r]
    unfold F64.add
    rw [add_zero, fl_zero]

open Classical in
/-- What the code computes for one pixel of the coarse map. -/
theorem grade_eq {t : SumTree} {n : ℕ} (ht : t.leaves.Perm (List.range n)) (hn2 : n ≤ 2^40) {vals : List ℝ}
    (hl : vals.length = n) (hb : ∀ v ∈ vals, fl v = v ∧ |v| ≤ 2^90) :
    udGrade64 t vals = F64.div (t.sum fun k => vals.getD k 0) n := by
  have hn : 1 ≤ n := perm_pos ht
  have key : (vals.filter fun x => decide (¬ isBad64 x)) = vals := by
    rw [List.filter_eq_self]
    intro a ha
    simpa using not_bad (hb a ha).2
  have hsum : (t.sum fun k => F64.mul (vals.getD k 0) (if isBad64 (vals.getD k 0) then (0:ℝ) else 1)) =
      t.sum fun k => vals.getD k 0 := by
    refine tree_congr fun k hk => ?_
    have hk' : k < vals.length := by rw [hl]; exact perm_mem ht hk
    have e : vals.getD k 0 = vals[k] := by simp [List.getD_eq_getElem?_getD, hk']
    obtain ⟨f1, f2⟩ := hb _ (List.getElem_mem hk')
    rw [e, if_neg (not_bad f2)]
    unfold F64.mul
    rw [mul_one, f1]
  have hN : F64.ofInt n = n := by
    unfold F64.ofInt
    exact fl_int (n := (n:ℤ)) (by rw [abs_of_nonneg (by positivity)]; exact_mod_cast (by omega : n ≤ 2^53))
  rcases vals with _ | ⟨v, _ | ⟨w, l⟩⟩
  · simp at hl; omega
  · have h1 : n = 1 := by simpa using hl.symm
    subst h1
    unfold udGrade64
    dsimp only
    have : t.sum (fun k => [v].getD k 0) = v := by
      rw [tree_congr (y := fun _ => v) (fun k hk => ?_)]
      · cases t with
        | leaf k => rfl
        | node a b =>
          exfalso
          have := ht.length_eq
          simp only [SumTree.leaves, List.length_append, List.length_range] at this
          have la : 1 ≤ a.leaves.length := by have := depth_lt a; omega
          have lb : 1 ≤ b.leaves.length := by have := depth_lt b; omega
          omega
      · have := perm_mem ht hk
        have : k = 0 := by omega
        subst this; rfl
    rw [this]
    unfold F64.div
    push_cast
    rw [div_one, (hb v (by simp)).1]
  · unfold udGrade64
    dsimp only
    rw [key, hl, if_neg (by omega), hN]
    simp only [apply_ite] at hsum ⊢
    rw [← hsum]

theorem grade_near {t : SumTree} {n : ℕ} (ht : t.leaves.Perm (List.range n)) (hn2 : n ≤ 2^40) {l : List ℕ} {g : ℕ → ℝ} {G : ℝ}
    (hl : l.length = n) (hG : (2:ℝ)^(-600 : ℤ) ≤ G) (hg : ∀ q ∈ l, IsDouble (g q) ∧ |g q| ≤ 2^90 ∧ |g q| ≤ G) :
    |udGrade64 t (l.map g) - meanAt l g| ≤ 3*n/2^53*G ∧ |meanAt l g| ≤ G := by
  have hn : 1 ≤ n := perm_pos ht
  have hG0 : 0 < G := (two_zpow_pos _).trans_le hG
  rw [grade_eq ht hn2 (by rw [List.length_map, hl]) (by
    intro v hv
    obtain ⟨q, hq, rfl⟩ := List.mem_map.mp hv
    exact ⟨Remap64.isDouble_fl (hg q hq).1, (hg q hq).2.1⟩)]
  have hv : ∀ k < n, Means64.Grid ((l.map g).getD k 0) ∧ |(l.map g).getD k 0| ≤ G := by
    intro k hk
    have hk' : k < l.length := by omega
    have e : (l.map g).getD k 0 = g l[k] := by simp [List.getD_eq_getElem?_getD, hk']
    rw [e]
    exact ⟨grid_double (hg _ (List.getElem_mem hk')).1, (hg _ (List.getElem_mem hk')).2.2⟩
  have hsum : (l.map g).sum = ∑ k ∈ range n, (l.map g).getD k 0 := by
    rw [← hl, ← List.length_map (f := g)]
    generalize l.map g = vals
    induction vals with
    | nil => simp
    | cons a vals ih =>
      rw [List.sum_cons, ih, List.length_cons, Finset.sum_range_succ', add_comm]
      simp
  have T := tree_er (a := 0) ht hn2 (x := fun k => (l.map g).getD k 0) (y := fun k => (l.map g).getD k 0) (A := fun _ => G)
    (δ := fun _ => 0) (fun i hi => (hv i hi).1) (fun i hi => (hv i hi).2) (fun _ _ => le_refl _)
    (fun i hi => by rw [sub_self, abs_zero, gam_zero, zero_mul, add_zero])
  rw [← hsum] at T
  simp only [sum_const, card_range, nsmul_eq_mul, mul_zero, add_zero, zero_add] at T
  have hS : |(l.map g).sum| ≤ n*G := by
    rw [hsum]
    refine (abs_sum_le_sum_abs _ _).trans ?_
    refine (sum_le_sum fun k hk => (hv k (mem_range.mp hk)).2).trans (le_of_eq ?_)
    simp
  have hnr : (0:ℝ) < n := by exact_mod_cast hn
  have hn1 : (1:ℝ) ≤ n := by exact_mod_cast hn
  have hn40 : (n:ℝ) ≤ 2^40 := by exact_mod_cast hn2
  have gl := gam_le (k := n) (by omega)
  have m1 : |meanAt l g| ≤ G := by
    unfold meanAt
    rw [hl, abs_div, abs_of_pos hnr, div_le_iff₀ hnr, mul_comm]
    exact hS
  refine ⟨?_, m1⟩
  unfold meanAt at m1 ⊢
  rw [hl] at m1 ⊢
  unfold F64.div
  generalize t.sum (fun k => (l.map g).getD k 0) = P at *
  generalize (l.map g).sum = S at *
  have e1 : |P/n - S/n| ≤ 1.001*n/2^53*G := by
    rw [← sub_div, abs_div, abs_of_pos hnr, div_le_iff₀ hnr]
    refine T.trans ?_
    have := mul_le_mul_of_nonneg_right gl (show 0 ≤ n*G by positivity)
    have h0 : 0 ≤ (n:ℝ)*(n*G) := by positivity
    norm_num at *
    nlinarith
  have f := fl_err_abs (P/n)
  have e2 := abs_sub_abs_le_abs_sub (P/n) (S/n)
  have e3 := abs_sub_le (fl (P/n)) (P/n) (S/n)
  rw [abs_sub_comm (fl (P/n)) (P/n)] at e3
  have t : (2:ℝ)^(-1075:ℤ) ≤ G/2^75 := by
    rw [le_div_iff₀ (by norm_num)]
    refine le_trans ?_ hG
    rw [← zpow_natCast (2:ℝ) 75, ← zpow_add₀ (by norm_num)]
    exact zpow_le_zpow_right₀ (by norm_num) (by norm_num)
  have e4 : |P/n|/2^53 ≤ (G + 1.001*n/2^53*G)/2^53 := div_le_div_of_nonneg_right (by linarith) (by norm_num)
  have e5 : G ≤ n*G := le_mul_of_one_le_left hG0.le hn1
  generalize (2:ℝ)^(-1075:ℤ) = η at *
  have r1 : 1.001*(n:ℝ)/2^53*G = 1.001/2^53*(n*G) := by ring
  have r2 : 3*(n:ℝ)/2^53*G = 3/2^53*(n*G) := by ring
  rw [r1] at e1 e4
  rw [r2]
  generalize (n:ℝ)*G = M at *
  norm_num at *
  linarith

/-- One weighted entry. -/
theorem entry3_near {R G w W s s' : ℝ} {n : ℕ} (hn : 1 ≤ n) (hn2 : n ≤ 2^40) (hR : (2:ℝ)^(-100 : ℤ) ≤ R)
    (hG : (2:ℝ)^(-600 : ℤ) ≤ G) (hw : 0 ≤ w ∧ w ≤ R^3) (hW : |W - w| ≤ 42*(R^3/2^53)) (hs : |s| ≤ G)
    (hs' : |s' - s| ≤ 3*n/2^53*G) : |F64.mul s' W - w*s| ≤ n*47/2^53*(G*R^3) := by
  have hG0 : 0 < G := (two_zpow_pos _).trans_le hG
  have hR0 : 0 < R := (two_zpow_pos _).trans_le hR
  have hn1 : (1:ℝ) ≤ n := by exact_mod_cast hn
  have hn40 : (n:ℝ) ≤ 2^40 := by exact_mod_cast hn2
  have t := tiny_R3 hG hR (show (-1075:ℤ) ≤ -1074 by norm_num)
  have f := fl_err_abs (s'*W)
  have hV : 0 < R^3 := by positivity
  generalize (2:ℝ)^(-1075:ℤ) = η at *
  generalize R^3 = V at *
  have b1 : 3*(n:ℝ)/2^53*G ≤ 0.001*G := by
    refine mul_le_mul_of_nonneg_right ?_ hG0.le
    rw [div_le_iff₀ (by norm_num)]
    refine (mul_le_mul_of_nonneg_left hn40 (by norm_num)).trans ?_
    norm_num
  have a1 : |s'| ≤ 1.001*G := by
    have := abs_sub_abs_le_abs_sub s' s
    linarith
  have e1 : |s'*W - w*s| ≤ 1.001*G*(42*(V/2^53)) + V*(3*n/2^53*G) := by
    rw [show s'*W - w*s = s'*(W - w) + w*(s' - s) by ring]
    refine (abs_add_le _ _).trans ?_
    rw [abs_mul, abs_mul, abs_of_nonneg hw.1]
    exact add_le_add (mul_le_mul a1 hW (abs_nonneg _) (by positivity)) (mul_le_mul hw.2 hs' (abs_nonneg _) hV.le)
  have e0 : |w*s| ≤ G*V := by
    rw [abs_mul, abs_of_nonneg hw.1, mul_comm]
    exact mul_le_mul hs hw.2 hw.1 hG0.le
  have hM : 0 < G*V := by positivity
  have e5 : G*V ≤ n*(G*V) := le_mul_of_one_le_left hM.le hn1
  have hM2 : (n:ℝ)*(G*V) ≤ 2^40*(G*V) := mul_le_mul_of_nonneg_right hn40 hM.le
  have r1 : 1.001*G*(42*(V/2^53)) + V*(3*n/2^53*G) = 42.042/2^53*(G*V) + 3/2^53*(n*(G*V)) := by ring
  have r2 : (n:ℝ)*47/2^53*(G*V) = 47/2^53*(n*(G*V)) := by ring
  rw [r1] at e1
  rw [r2]
  have e2 := abs_sub_abs_le_abs_sub (s'*W) (w*s)
  have e3 := abs_sub_le (fl (s'*W)) (s'*W) (w*s)
  rw [abs_sub_comm (fl (s'*W)) (s'*W)] at e3
  unfold F64.mul
  generalize (n:ℝ)*(G*V) = M at *
  generalize G*V = M0 at *
  have e4 : |s'*W|/2^53 ≤ (M0 + (42.042/2^53*M0 + 3/2^53*M))/2^53 := div_le_div_of_nonneg_right (by linarith) (by norm_num)
  norm_num at *
  linarith

/-! ## The map -/

theorem shell_sum {A : ShellArgs} (h : ShellOk A) (i : ℕ) :
    ∑ k ∈ range A.rebinR.toNat, wt A (i*A.rebinR.toNat + k) = shellSize A i := by
  have hm : 1 ≤ A.rebinR.toNat := by have := h.rebinR; omega
  unfold wt denseNum shellSize
  have := Finset.sum_range_sub (fun l => edgeAt A.rmin A.rmax (A.rebinR.toNat*A.numr.toNat) (i*A.rebinR.toNat + l)^3) A.rebinR.toNat
  simp only [← add_assoc] at this
  rw [this, add_zero, edgeAt_mul _ _ hm, ← edgeAt_mul A.rmin A.rmax hm (i+1)]
  congr 3
  ring

theorem shellWeights_eq (L : Lib) {lo hi : ℝ} {num m : ℕ} (h : Divisible lo hi (m*num)) :
    shellWeights64 L (denseEdges64 lo hi num m) = (List.range (m*num)).map fun k =>
      F64.sub (L.pow (edge64 lo hi (m*num) (k+1)) 3) (L.pow (edge64 lo hi (m*num) k) 3) := by
  rw [denseEdges64_eq h]
  unfold shellWeights64
  rw [zip_range]

theorem remap64_ok {L : Lib} (hL : LibOk L) {O : Sums} {hp : Hp} {C : CubeArgs} {A : ShellArgs} (h : Fits C A) (hpx : Pixels hp A)
    (hO : O.For (A.rebinShell.toNat^2) A.rebinR.toNat) {f : Arr3 ℝ} {F : ℝ} (hf : Data C f F) (hF0 : 0 ≤ F) (hF : F ≤ 2^90) :
    ∃ out g, remap64 L O hp C A f = .ok out ∧ out.rows = A.numr.toNat ∧ out.cols = npixOf A.nside ∧
      (∀ k < denseNum A, ∀ q < npixOf (A.nside*A.rebinShell), ReadsNear C A f.val (densePoint hp A k q) (g k q)) ∧
      ∀ i < A.numr.toNat, ∀ p < npixOf A.nside, ∃ d, out.val i p = some d ∧
        |d - pixelMean hp A g i p| ≤ A.rmax^3/shellSize A i*samples A/2^45*(F + (2:ℝ)^(-600 : ℤ)) ∧
        (O.data = O.weights → (∀ k < A.rebinR.toNat, ∀ q ∈ subpix hp A p, g (i*A.rebinR.toNat + k) q = 1) → d = 1) ∧
        ((∀ k < A.rebinR.toNat, ∀ q ∈ subpix hp A p, g (i*A.rebinR.toNat + k) q = 0) → d = 0) := by
  have hA := h.shell
  have hns : 0 < A.nside*A.rebinShell := mul_pos hA.nside (by have := hA.rebinShell; omega)
  have hex : ∀ k q, ∃ g, (k < denseNum A → q < npixOf (A.nside*A.rebinShell) →
      highres64 L C f (mid64 A.rmin A.rmax (denseNum A) k) (hp.pix2ang (A.nside*A.rebinShell) q) (centres64 C A) 0 = .ok g ∧
      ReadsNear C A f.val (densePoint hp A k q) g ∧ (g = 0 ∨ (IsDouble g ∧ |g| ≤ F))) := by
    intro k q
    by_cases hk : k < denseNum A
    · by_cases hq : q < npixOf (A.nside*A.rebinShell)
      · obtain ⟨g, hg⟩ := sample3_ok hL h hpx hf hk hq
        exact ⟨g, fun _ _ => hg⟩
      · exact ⟨0, fun _ h => absurd h hq⟩
    · exact ⟨0, fun h => absurd h hk⟩
  choose g hg using hex
  set N := denseNum A with hN
  set m := A.rebinR.toNat with hm
  set n := A.rebinShell.toNat^2 with hn
  have hm1 : 1 ≤ m := by have := hA.rebinR; omega
  have hn1 : 1 ≤ n := by
    have := hA.rebinShell
    exact Nat.one_le_pow _ _ (by omega)
  have hr := h.r
  rw [show A.rebinR.toNat*A.numr.toNat = N from rfl] at hr
  obtain ⟨hi, ehi, hir, hic, hiv⟩ := tabulate_ok N (npixOf (A.nside*A.rebinShell))
    (fun i q => highres64 L C f (((List.range N).map (mid64 A.rmin A.rmax N)).getD i 0)
      (hp.pix2ang (A.nside*A.rebinShell) q) (centres64 C A) 0) g 0 (by
      intro i j hi hj
      rw [getD_range_map _ _ _ hi]
      exact (hg i j hi hj).1)
  set W : ℕ → ℝ := fun k => F64.sub (L.pow (edge64 A.rmin A.rmax N (k+1)) 3) (L.pow (edge64 A.rmin A.rmax N k) 3) with hW
  set rwA : Arr2 ℝ := ⟨N, 1, fun i _ => ((List.range N).map W).getD i 0⟩ with hrwA
  set sph : Arr2 ℝ := ⟨N, npixOf A.nside, fun i p =>
    F64.mul (udGrade64 O.sub ((hp.children (A.nside*A.rebinShell) A.nside p).map (hi.val i)))
      (((List.range N).map W).getD i 0)⟩ with hsph
  obtain ⟨t1, et1, vt1⟩ := reshape3_rows rwA A.numr.toNat m (show N = _ by rw [hN, denseNum, mul_comm]) (by norm_num [hrwA])
  obtain ⟨t2, et2, vt2⟩ := reshape3_rows sph A.numr.toNat m (show N = _ by rw [hN, denseNum, mul_comm]) (npix_pos hA.nside)
  refine ⟨⟨A.numr.toNat, npixOf A.nside, fun i p =>
    if (O.weights.sum fun k => t1 i k 0) = 0 then none
      else some (F64.div (O.data.sum fun k => t2 i k p) (O.weights.sum fun k => t1 i k 0))⟩, g, ?_, rfl, rfl,
    fun k hk q hq => (hg k q hk hq).2.1, ?_⟩
  · have h1 := denseMids_eq (num := A.numr.toNat) (m := A.rebinR.toNat) h.r
    have h2 := shellWeights_eq L (num := A.numr.toNat) (m := A.rebinR.toNat) h.r
    rw [show A.rebinR.toNat*A.numr.toNat = N from rfl] at h1 h2
    unfold remap64
    simp only [h1, h2, List.length_map, List.length_range, npix_ok hA.nside, npix_ok hns, ehi, bind, Except.bind]
    rw [show (⟨N, 1, fun i _ => ((List.range N).map fun k => F64.sub (L.pow (edge64 A.rmin A.rmax N (k+1)) 3)
      (L.pow (edge64 A.rmin A.rmax N k) 3)).getD i 0⟩ : Arr2 ℝ) = rwA from rfl]
    have et1' : rwA.reshape3 A.numr.toNat A.rebinR.toNat 1 = .ok t1 := et1
    have et2' : sph.reshape3 A.numr.toNat A.rebinR.toNat (npixOf A.nside) = .ok t2 := et2
    simp only [et1', ← hW, ← hsph, et2']
    rfl
  · intro i hi' p hp'
    have hc1 := hpx.num p hp'
    have hc2 := hpx.lt p hp'
    set G := F + (2:ℝ)^(-600 : ℤ) with hG
    have hz := two_zpow_pos (-600)
    have hG1 : (2:ℝ)^(-600 : ℤ) ≤ G := by linarith
    have hG0 : 0 < G := by linarith
    have hR := h.large
    have hR0 : 0 < A.rmax := (two_zpow_pos _).trans_le hR
    set w : ℕ → ℝ := fun k => wt A (i*m + k) with hw
    set Ω := shellSize A i with hΩd
    have hΩ : ∑ k ∈ range m, w k = Ω := shell_sum hA i
    have hw0 : ∀ k, 0 < w k := fun k => wt_pos hA _
    have hΩ0 : 0 < Ω := by rw [← hΩ]; exact sum_pos (fun l _ => hw0 l) ⟨0, mem_range.mpr hm1⟩
    have hrm := hA.rmin
    have hcu : ∀ e : ℝ, 0 ≤ e → e ≤ A.rmax → e^3 ≤ A.rmax^3 := fun e h1 h2 => pow_le_pow_left₀ h1 h2 3
    have hnr : 1 ≤ A.numr.toNat := by have := hA.numr; omega
    have hΩR : Ω ≤ A.rmax^3 := by
      obtain ⟨u1, u2⟩ := edgeAt_range hA.r.le (n := A.numr.toNat) (k := i+1) hnr hi'
      obtain ⟨u3, u4⟩ := edgeAt_range hA.r.le (n := A.numr.toNat) (k := i) hnr hi'.le
      have := hcu _ (hrm.trans u1) u2
      have := pow_nonneg (hrm.trans u3) 3
      rw [hΩd]; unfold shellSize
      linarith
    have hR3 : 0 < A.rmax^3 := by positivity
    have hK := h.shells i hi'
    have hmn : samples A = m*n := rfl
    rw [hmn] at hK ⊢
    have hmn40 : m*n ≤ 2^40 := by
      have h2 : ((m*n:ℕ):ℝ)*A.rmax^3 ≤ 2^40*A.rmax^3 := hK.trans (by
        refine mul_le_mul_of_nonneg_left hΩR (by norm_num))
      have h3 : ((m*n:ℕ):ℝ) ≤ 2^40 := le_of_mul_le_mul_right h2 hR3
      exact_mod_cast h3
    have hm40 : m ≤ 2^40 := (Nat.le_mul_of_pos_right m hn1).trans hmn40
    have hn40 : n ≤ 2^40 := (Nat.le_mul_of_pos_left n hm1).trans hmn40
    have hlt : ∀ k < m, i*m + k < N := fun k hk => by
      rw [hN, denseNum, ← hm]; nlinarith
    have hWn : ∀ k < m, |W (i*m + k) - w k| ≤ 42*(A.rmax^3/2^53) := by
      intro k hk
      have l1 := hlt k hk
      have b1 := edge64_between hr (show i*m + k ≤ N by omega)
      have b2 := edge64_between hr (show i*m + k + 1 ≤ N by omega)
      have b3 := edgeAt_range hA.r.le (n := N) (k := i*m + k) (by omega) (by omega)
      have b4 := edgeAt_range hA.r.le (n := N) (k := i*m + k + 1) (by omega) (by omega)
      exact weight3_near hL.pow hR ⟨hrm.trans b1.1, b1.2⟩ ⟨hrm.trans b2.1, b2.2⟩ ⟨hrm.trans b3.1, b3.2⟩ ⟨hrm.trans b4.1, b4.2⟩
        (edge_near hr hrm (by omega)) (edge_near hr hrm (by omega))
    have hwR : ∀ k < m, w k ≤ A.rmax^3 := by
      intro k hk
      have l1 := hlt k hk
      obtain ⟨u1, u2⟩ := edgeAt_range hA.r.le (n := N) (k := i*m + k + 1) (by omega) (by omega)
      obtain ⟨u3, u4⟩ := edgeAt_range hA.r.le (n := N) (k := i*m + k) (by omega) (by omega)
      have := hcu _ (hrm.trans u1) u2
      have := pow_nonneg (hrm.trans u3) 3
      show edgeAt A.rmin A.rmax N (i*m + k + 1)^3 - _ ≤ _
      linarith
    have hgv : ∀ k < m, ∀ q ∈ subpix hp A p, IsDouble (g (i*m + k) q) ∧ |g (i*m + k) q| ≤ 2^90 ∧ |g (i*m + k) q| ≤ G := by
      intro k hk q hq
      rcases (hg (i*m + k) q (hlt k hk) (hc2 q hq)).2.2 with e | ⟨e1, e2⟩
      · rw [e, abs_zero]
        refine ⟨?_, by norm_num, hG0.le⟩
        exact ⟨0, 0, by norm_num, by norm_num, by norm_num⟩
      · exact ⟨e1, e2.trans hF, e2.trans (by linarith)⟩
    set s : ℕ → ℝ := fun k => meanAt (subpix hp A p) (g (i*m + k)) with hs
    set s' : ℕ → ℝ := fun k => udGrade64 O.sub ((subpix hp A p).map (g (i*m + k))) with hs'
    have hsn : ∀ k < m, |s' k - s k| ≤ 3*n/2^53*G ∧ |s k| ≤ G := fun k hk => grade_near hO.sub hn40 hc1 hG1 (hgv k hk)
    have dat : O.data.sum (fun k => t2 i k p) = O.data.sum fun k => F64.mul (s' k) (W (i*m + k)) := by
      refine tree_congr fun k hk => ?_
      have hk' := perm_mem hO.data hk
      rw [vt2 i k p hp']
      show F64.mul (udGrade64 O.sub ((subpix hp A p).map (hi.val (i*m + k)))) _ = _
      rw [getD_range_map _ _ _ (hlt k hk')]
      congr 2
      refine List.map_congr_left fun q hq => ?_
      exact hiv _ _ (hlt k hk') (hc2 q hq)
    have wts : O.weights.sum (fun k => t1 i k 0) = O.weights.sum fun k => W (i*m + k) := by
      refine tree_congr fun k hk => ?_
      have hk' := perm_mem hO.weights hk
      rw [vt1 i k 0 (by norm_num [hrwA])]
      show ((List.range N).map W).getD _ 0 = _
      rw [getD_range_map _ _ _ (hlt k hk')]
    have P1 := tree_er (a := 0) hO.data hm40 (x := fun k => w k*s k) (y := fun k => F64.mul (s' k) (W (i*m + k)))
      (A := fun k => G*w k) (δ := fun _ => n*47/2^53*(G*A.rmax^3)) (fun _ _ => grid_fl _)
      (fun k hk => by
        rw [abs_mul, abs_of_pos (hw0 k), mul_comm]
        exact mul_le_mul_of_nonneg_right (hsn k hk).2 (hw0 k).le)
      (fun _ _ => by positivity)
      (fun k hk => by
        rw [gam_zero, zero_mul, zero_add]
        exact entry3_near hn1 hn40 hR hG1 ⟨(hw0 k).le, hwR k hk⟩ (hWn k hk) (hsn k hk).2 (hsn k hk).1)
    have Q1 := tree_er (a := 0) hO.weights hm40 (x := w) (y := fun k => W (i*m + k))
      (A := w) (δ := fun _ => 42*(A.rmax^3/2^53)) (fun _ _ => grid_fl _)
      (fun k hk => by rw [abs_of_pos (hw0 k)]) (fun _ _ => by positivity)
      (fun k hk => by rw [gam_zero, zero_mul, zero_add]; exact hWn k hk)
    rw [← Finset.mul_sum, hΩ] at P1
    rw [hΩ] at Q1
    simp only [sum_const, card_range, nsmul_eq_mul, zero_add] at P1 Q1
    set P := O.data.sum fun k => F64.mul (s' k) (W (i*m + k)) with hP
    set Q := O.weights.sum fun k => W (i*m + k) with hQ
    set X := ∑ k ∈ range m, w k*s k with hX
    have gl := gam_le (k := m) (by omega)
    have hmr : (1:ℝ) ≤ m := by exact_mod_cast hm1
    have hnr' : (1:ℝ) ≤ n := by exact_mod_cast hn1
    have hmmn : (m:ℝ) ≤ m*n := le_mul_of_one_le_right (by linarith) hnr'
    have hXb : |X| ≤ G*Ω := by
      rw [hX, ← hΩ, Finset.mul_sum]
      refine (abs_sum_le_sum_abs _ _).trans (sum_le_sum fun k hk => ?_)
      rw [abs_mul, abs_of_pos (hw0 k), mul_comm]
      exact mul_le_mul_of_nonneg_right (hsn k (mem_range.mp hk)).2 (hw0 k).le
    have hroot : (Real.sqrt (A.rmax^3))^2 = A.rmax^3 := Real.sq_sqrt hR3.le
    have hgm : gam m ≤ 1.01*(m*n)/2^53 := by
      refine gl.trans ?_
      norm_num
      linarith
    have hPf : |P - X| ≤ ((m*n:ℕ):ℝ)*60/2^53*(G*A.rmax^3) := by
      refine P1.trans ?_
      push_cast
      have h1 : gam m*(G*Ω) ≤ 1.01*(m*n)/2^53*(G*A.rmax^3) :=
        mul_le_mul hgm (mul_le_mul_of_nonneg_left hΩR hG0.le) (by positivity) (by positivity)
      have h2 : 5/4*((m:ℝ)*(n*47/2^53*(G*A.rmax^3))) = 58.75*(m*n)/2^53*(G*A.rmax^3) := by ring
      rw [h2]
      have h3 : (0:ℝ) ≤ m*n/2^53*(G*A.rmax^3) := by positivity
      have e1 : 1.01*((m:ℝ)*n)/2^53*(G*A.rmax^3) = 1.01*(m*n/2^53*(G*A.rmax^3)) := by ring
      have e2 : 58.75*((m:ℝ)*n)/2^53*(G*A.rmax^3) = 58.75*(m*n/2^53*(G*A.rmax^3)) := by ring
      have e3 : ((m:ℝ)*n)*60/2^53*(G*A.rmax^3) = 60*(m*n/2^53*(G*A.rmax^3)) := by ring
      rw [e1] at h1
      rw [e2, e3]
      linarith
    have hQf : |Q - Ω| ≤ ((m*n:ℕ):ℝ)*60/2^53*A.rmax^3 := by
      refine Q1.trans ?_
      push_cast
      have h1 : gam m*Ω ≤ 1.01*(m*n)/2^53*A.rmax^3 := mul_le_mul hgm hΩR hΩ0.le (by positivity)
      have h2 : 5/4*((m:ℝ)*(42*(A.rmax^3/2^53))) ≤ 5/4*((m*n)*(42*(A.rmax^3/2^53))) := by
        refine mul_le_mul_of_nonneg_left (mul_le_mul_of_nonneg_right hmmn (by positivity)) (by norm_num)
      have h3 : (0:ℝ) ≤ m*n/2^53*A.rmax^3 := by positivity
      have e1 : 1.01*((m:ℝ)*n)/2^53*A.rmax^3 = 1.01*(m*n/2^53*A.rmax^3) := by ring
      have e2 : 5/4*(((m:ℝ)*n)*(42*(A.rmax^3/2^53))) = 52.5*(m*n/2^53*A.rmax^3) := by ring
      have e3 : ((m:ℝ)*n)*60/2^53*A.rmax^3 = 60*(m*n/2^53*A.rmax^3) := by ring
      rw [e1] at h1
      rw [e2] at h2
      rw [e3]
      linarith
    obtain ⟨q1, q2⟩ := quot2 (m := m*n) (R := Real.sqrt (A.rmax^3)) (Nat.mul_pos hm1 hn1) hG1 hΩ0 (by rw [hroot]; exact hΩR)
      (by rw [hroot]; exact hK) hXb (by rw [hroot]; exact hPf) (by rw [hroot]; exact hQf)
    rw [hroot] at q2
    refine ⟨F64.div P Q, ?_, ?_, ?_, ?_⟩
    · simp only [dat, wts]
      rw [if_neg q1.ne']
    · rw [pixelMean_eq hp hA]
      show |_ - (∑ k ∈ range m, w k*s k)/(∑ k ∈ range m, w k)| ≤ _
      rw [hΩ]
      exact q2
    · intro ho h1
      have : P = Q := by
        rw [hP, hQ, ho]
        refine tree_congr fun k hk => ?_
        have hk' := perm_mem hO.weights hk
        have hv : (subpix hp A p).map (g (i*m + k)) = List.replicate n 1 := by
          rw [List.eq_replicate_iff]
          refine ⟨by rw [List.length_map, hc1], ?_⟩
          intro v hv
          obtain ⟨q, hq, rfl⟩ := List.mem_map.mp hv
          exact h1 k hk' q hq
        have : s' k = 1 := by
          show udGrade64 O.sub ((subpix hp A p).map (g (i*m + k))) = 1
          rw [hv, grade_eq hO.sub hn40 (by simp) (by
            intro v hv
            rw [List.eq_of_mem_replicate hv]
            refine ⟨?_, by norm_num⟩
            have := fl_int (n := 1) (by norm_num)
            simpa using this)]
          rw [tree_congr (y := fun _ => 1) (fun k hk => by
            have := perm_mem hO.sub hk
            simp [List.getD_eq_getElem?_getD, this])]
          have hlen := hO.sub.length_eq
          rw [List.length_range] at hlen
          rw [tree_ones _ (by rw [hlen]; omega), hlen]
          unfold F64.div
          rw [div_self (by positivity)]
          have := fl_int (n := 1) (by norm_num)
          simpa using this
        rw [this]
        unfold F64.mul
        rw [one_mul]
        exact fl_fl _
      rw [this]
      unfold F64.div
      rw [div_self q1.ne']
      have := fl_int (n := 1) (by norm_num)
      simpa using this
    · intro h0
      have : P = 0 := by
        rw [hP]
        rw [tree_congr (y := fun _ => 0) (fun k hk => ?_)]
        · exact tree_zeros _
        · have hk' := perm_mem hO.data hk
          have hv : (subpix hp A p).map (g (i*m + k)) = List.replicate n 0 := by
            rw [List.eq_replicate_iff]
            refine ⟨by rw [List.length_map, hc1], ?_⟩
            intro v hv
            obtain ⟨q, hq, rfl⟩ := List.mem_map.mp hv
            exact h0 k hk' q hq
          have : s' k = 0 := by
            show udGrade64 O.sub ((subpix hp A p).map (g (i*m + k))) = 0
            rw [hv, grade_eq hO.sub hn40 (by simp) (by
              intro v hv
              rw [List.eq_of_mem_replicate hv]
              exact ⟨fl_zero, by norm_num⟩)]
            rw [tree_congr (y := fun _ => 0) (fun k hk => by
              have := perm_mem hO.sub hk
              simp [List.getD_eq_getElem?_getD, this]), tree_zeros]
            unfold F64.div
            rw [zero_div, fl_zero]
          rw [this]
          unfold F64.mul
          rw [zero_mul, fl_zero]
      rw [this]
      unfold F64.div
      rw [zero_div, fl_zero]

/-! ## Points far from the boundaries -/

theorem near_cell {C : CubeArgs} {A : ShellArgs} {n : ℤ × ℤ × ℤ} {pt pt' : ℝ × ℝ × ℝ} (hn : InRange A n)
    (hfar : FarFromEdges C A pt) (h : Near C A n pt pt') (a b c : ℕ) : InCell3 C pt' a b c ↔ InCell3 C (image C n pt) a b c := by
  obtain ⟨f1, f2, f3⟩ := hfar n hn
  unfold InCell3
  rw [inCell_far h.1 f1 a, inCell_far h.2.1 f2 b, inCell_far h.2.2 f3 c]

theorem reads_far {C : CubeArgs} (hC : CubeOk C) {A : ShellArgs} {v : ℕ → ℕ → ℕ → ℝ} {pt : ℝ × ℝ × ℝ} {g : ℝ}
    (hfar : FarFromEdges C A pt) (h : ReadsNear C A v pt g) : Reads C A v pt g := by
  rcases h with ⟨n, pt', a, b, c, hn, hnear, hin, hg⟩ | ⟨hg, hno⟩
  · obtain ⟨g', hg'⟩ := exists_reads hC A v pt
    have := hg'.1 n a b c hn ((near_cell hn hfar hnear a b c).mp hin)
    rw [hg, ← this]
    exact hg'
  · refine ⟨fun n a b c hn hin => ?_, fun _ => hg⟩
    obtain ⟨pt', hnear, hno'⟩ := hno n hn
    exact absurd ⟨a, b, c, (near_cell hn hfar hnear a b c).mpr hin⟩ hno'

theorem good90 {x : ℝ} (h : |x| ≤ 2^90) : ¬ isBad x := by
  unfold isBad unseen
  rw [not_le, abs_of_neg (by norm_num : (-1.6375e30:ℝ) < 0), lt_abs]
  left
  rw [abs_le] at h
  norm_num at *
  linarith [h.1]

theorem hpOk_of {hp : Hp} {A : ShellArgs} (hA : ShellOk A) (h : Pixels hp A) : HpOk hp A := by
  intro p hp'
  refine ⟨fun e => ?_, h.lt p hp'⟩
  have h1 := h.num p hp'
  unfold subpix at h1
  rw [e] at h1
  have := hA.rebinShell
  have : 0 < A.rebinShell.toNat^2 := by
    have : 0 < A.rebinShell.toNat := by omega
    positivity
  simp at h1
  omega

end Magpie.DgCube64
