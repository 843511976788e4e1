import Verif.Proof.DgCube64
import Verif.Props.DgRemap64
import Verif.Props.Randoms64
import Verif.Props.DgCube2Shell

/-!
# Property C130: dense grid remapping of a cube in double precision

`LibOk`, `Sums.For`, `Fits`, `Pixels`, `Data`, `ReadsNear`, `FarFromEdges`, `reach`, `shellSize` and `samples` are in
`Verif/Spec/DgCube64.lean`; `densePoint`, `pixelMean`, `Reads`, `image` and `InCell3` in `Verif/Spec/DgCube2Shell.lean`.
-/

set_option linter.unusedSimpArgs false
set_option linter.unusedVariables false

namespace Magpie.Props
open Magpie Magpie.Radial Magpie.Spec Magpie.Cube Magpie.DgCube64
open Magpie.McCube (CubeOk)
open Magpie.DgCube (Hp ShellArgs ShellOk npixOf denseNum densePoint pixelMean subpix InRange InCell3 image Reads dgRemap)

/-- The dense grid `Cube2Shell.remap(f)` in double precision, with an array in the order `x`, `y`, `z` and any order of the
sums: each value is the mean of values `g` over the dense points of the pixel, weighted with the volumes of the dense shells, up
to an error of `2^-45` of the largest value times the number of samples and the ratio of the ball to the shell. Each of the `g`
is what the cube has within `reach` of one of the images of the dense point, or `0` if near each of them is a point outside. -/
theorem C130_remap (L : Lib) (hL : LibOk L) (hp : Hp) (C : CubeArgs) (A : ShellArgs) (h : Fits C A) (hpx : Pixels hp A)
    (O : Sums) (hO : O.For (A.rebinShell.toNat^2) A.rebinR.toNat) (f : Arr3 ℝ) (F : ℝ) (hf : Data C f F) (hF0 : 0 ≤ F)
    (hF : F ≤ 2^90) :
    ∃ (out : Arr2 (Option ℝ)) (g : ℕ → ℕ → ℝ), remap64 L O hp C A f = .ok out ∧ out.rows = A.numr.toNat ∧
      out.cols = npixOf A.nside ∧
      (∀ k < denseNum A, ∀ q < npixOf (A.nside*A.rebinShell), ReadsNear C A f.val (densePoint hp A k q) (g k q)) ∧
      ∀ i < A.numr.toNat, ∀ p < npixOf A.nside, ∃ d : ℝ, out.val i p = some d ∧
        |d - pixelMean hp A g i p| ≤ A.rmax^3/shellSize A i*samples A/2^45*(F + (2:ℝ)^(-600 : ℤ)) := by
  obtain ⟨out, g, h1, h2, h3, h4, h5⟩ := remap64_ok hL h hpx hO hf hF0 hF
  refine ⟨out, g, h1, h2, h3, h4, fun i hi p hp' => ?_⟩
  obtain ⟨d, d1, d2, -⟩ := h5 i hi p hp'
  exact ⟨d, d1, d2⟩

/-- Where no image of a dense point is within `reach` of a boundary between cells, the result in double precision and the
result with exact arithmetic differ by no more than that error. -/
theorem C130_exact (L : Lib) (hL : LibOk L) (hp : Hp) (C : CubeArgs) (A : ShellArgs) (h : Fits C A) (hpx : Pixels hp A)
    (O : Sums) (hO : O.For (A.rebinShell.toNat^2) A.rebinR.toNat) (f : Arr3 ℝ) (F : ℝ) (hf : Data C f F) (hF0 : 0 ≤ F)
    (hF : F ≤ 2^90)
    (hfar : ∀ k < denseNum A, ∀ q < npixOf (A.nside*A.rebinShell), FarFromEdges C A (densePoint hp A k q))
    (s : DgCube.State) :
    ∃ (out out' : Arr2 (Option ℝ)) (s' : DgCube.State), remap64 L O hp C A f = .ok out ∧
      dgRemap hp C A ⟨f.n0, f.n1, f.n2, fun a b c => some (f.val a b c)⟩ s = (.ok out', s') ∧
      ∀ i < A.numr.toNat, ∀ p < npixOf A.nside, ∃ d e : ℝ, out.val i p = some d ∧ out'.val i p = some e ∧
        |d - e| ≤ A.rmax^3/shellSize A i*samples A/2^45*(F + (2:ℝ)^(-600 : ℤ)) := by
  obtain ⟨out, g, e1, -, -, hg, hv⟩ := C130_remap L hL hp C A h hpx O hO f F hf hF0 hF
  obtain ⟨out', s', e2, -, -, hv'⟩ := C80_remap_partial hp C A h.cube h.shell (hpOk_of h.shell hpx)
    ⟨f.n0, f.n1, f.n2, fun a b c => some (f.val a b c)⟩ f.val ⟨hf.n0, hf.n1, hf.n2, fun a b c ha hb hc =>
      ⟨rfl, good90 ((hf.val a b c (by rw [hf.n0]; exact ha) (by rw [hf.n1]; exact hb) (by rw [hf.n2]; exact hc)).2.trans hF)⟩⟩ s
  refine ⟨out, out', s', e1, e2, fun i hi p hp' => ?_⟩
  obtain ⟨d, d1, d2⟩ := hv i hi p hp'
  refine ⟨d, _, d1, hv' i p hi hp' g (fun k q hk hq => ?_), d2⟩
  have hlt : i*A.rebinR.toNat + k < denseNum A := by
    unfold denseNum; nlinarith
  have hq' := hpx.lt p hp' q hq
  exact reads_far h.cube (hfar _ hlt q hq') (hg _ hlt q hq')

/-- An array of ones: if data and weights are added in the same order, then a pixel all of whose dense points have an image more
than `reach` inside the cube has exactly the value `1`, if all images asked for are far from the boundaries. -/
theorem C130_ones (L : Lib) (hL : LibOk L) (hp : Hp) (C : CubeArgs) (A : ShellArgs) (h : Fits C A) (hpx : Pixels hp A)
    (O : Sums) (hO : O.For (A.rebinShell.toNat^2) A.rebinR.toNat) (ho : O.data = O.weights) (f : Arr3 ℝ) (hf : Data C f 1)
    (h1 : ∀ a b c, a < f.n0 → b < f.n1 → c < f.n2 → f.val a b c = 1) :
    ∃ out : Arr2 (Option ℝ), remap64 L O hp C A f = .ok out ∧ ∀ i < A.numr.toNat, ∀ p < npixOf A.nside,
      (∀ k < A.rebinR.toNat, ∀ q ∈ subpix hp A p, let pt := densePoint hp A (i*A.rebinR.toNat + k) q
        FarFromEdges C A pt ∧ ∃ n a b c, InRange A n ∧ InCell3 C (image C n pt) a b c) →
      out.val i p = some 1 := by
  obtain ⟨out, g, e1, -, -, e4, e5⟩ := remap64_ok hL h hpx hO hf (by norm_num) (by norm_num)
  refine ⟨out, e1, fun i hi p hp' hin => ?_⟩
  obtain ⟨d, d1, -, d3, -⟩ := e5 i hi p hp'
  rw [d1, d3 ho]
  intro k hk q hq
  have hlt : i*A.rebinR.toNat + k < denseNum A := by
    unfold denseNum; nlinarith
  obtain ⟨hfar, n, a, b, c, hn, hc⟩ := hin k hk q hq
  have := (reads_far h.cube hfar (e4 _ hlt q (hpx.lt p hp' q hq))).1 n a b c hn hc
  rw [this]
  exact h1 a b c (by rw [hf.n0]; exact hc.1.1) (by rw [hf.n1]; exact hc.2.1.1) (by rw [hf.n2]; exact hc.2.2.1)

/-- A pixel none of whose dense points has an image in the cube has exactly the value `0`, whatever the data, if the images
asked for are far from the boundaries. -/
theorem C130_outside (L : Lib) (hL : LibOk L) (hp : Hp) (C : CubeArgs) (A : ShellArgs) (h : Fits C A) (hpx : Pixels hp A)
    (O : Sums) (hO : O.For (A.rebinShell.toNat^2) A.rebinR.toNat) (f : Arr3 ℝ) (F : ℝ) (hf : Data C f F) (hF0 : 0 ≤ F)
    (hF : F ≤ 2^90) :
    ∃ out : Arr2 (Option ℝ), remap64 L O hp C A f = .ok out ∧ ∀ i < A.numr.toNat, ∀ p < npixOf A.nside,
      (∀ k < A.rebinR.toNat, ∀ q ∈ subpix hp A p, let pt := densePoint hp A (i*A.rebinR.toNat + k) q
        FarFromEdges C A pt ∧ ¬ ∃ n a b c, InRange A n ∧ InCell3 C (image C n pt) a b c) →
      out.val i p = some 0 := by
  obtain ⟨out, g, e1, -, -, e4, e5⟩ := remap64_ok hL h hpx hO hf hF0 hF
  refine ⟨out, e1, fun i hi p hp' hin => ?_⟩
  obtain ⟨d, d1, -, -, d3⟩ := e5 i hi p hp'
  rw [d1, d3]
  intro k hk q hq
  have hlt : i*A.rebinR.toNat + k < denseNum A := by
    unfold denseNum; nlinarith
  obtain ⟨hfar, hno⟩ := hin k hk q hq
  exact (reads_far h.cube hfar (e4 _ hlt q (hpx.lt p hp' q hq))).2 hno

/-! ## The hypotheses can be met -/

/-- A cube of 27 cells, repeated along `x`. -/
def ex64Cube : CubeArgs := ⟨-12, 12, 3, -12, 12, 3, -12, 12, 3⟩

/-- A ball of two shells around the origin. -/
def ex64Shell : ShellArgs := { rmin := 0, rmax := 2, numr := 2, nside := 1, perx := (-1, 1) }

/-- Subpixels `4p`, ..., `4p+3`; all angles are `1`. -/
def ex64Hp : Hp := ⟨fun _ _ => (1, 1), fun _ _ p => [4*p, 4*p+1, 4*p+2, 4*p+3]⟩

theorem ex64_fits : Fits ex64Cube ex64Shell := by
  have dx : Divisible (-12) 12 3 := by
    have := divisible_small (a := -12) (b := 12) (n := 3) (by norm_num) (by norm_num) (by norm_num) (by norm_num) (by norm_num)
    norm_num at this; exact this
  have dr : Divisible 0 2 4 := by
    have := divisible_small (a := 0) (b := 2) (n := 4) (by norm_num) (by norm_num) (by norm_num) (by norm_num) (by norm_num)
    norm_num at this; exact this
  have hm : 2*cellMargin (-12) 12 3 ≤ (12 - (-12))/((3:ℕ):ℝ) := by unfold cellMargin; norm_num
  refine ⟨by constructor <;> norm_num [ex64Cube], by constructor <;> norm_num [ex64Shell], dx, hm, dx, hm, dx, hm, dr, ?_, ?_⟩
  · show (2:ℝ)^(-100 : ℤ) ≤ 2
    exact (zpow_le_one_of_nonpos₀ (by norm_num) (by norm_num)).trans (by norm_num)
  · intro i hi
    have hi' : i < 2 := hi
    have h2 : (2:ℤ).toNat = 2 := rfl
    interval_cases i <;> simp only [shellSize, samples, ex64Shell, edgeAt, h2] <;> norm_num

theorem ex64_pixels : Pixels ex64Hp ex64Shell := by
  have h1 : IsDouble 1 := ⟨1, 0, by norm_num, by norm_num, by norm_num, by norm_num⟩
  refine ⟨fun p _ => rfl, fun p hp q hq => ?_, fun q _ => ⟨h1, by norm_num [ex64Hp]⟩, fun q _ => ⟨h1, by norm_num [ex64Hp]⟩⟩
  have hp' : p < 12 := hp
  show q < 48
  simp only [subpix, ex64Hp, List.mem_cons, List.not_mem_nil, or_false] at hq
  omega

/-- The images of the dense points are far from the boundaries of the cells, those not shifted are in the middle one. -/
theorem ex64_far {k : ℕ} (hk : k < 4) (q : ℕ) : FarFromEdges ex64Cube ex64Shell (densePoint ex64Hp ex64Shell k q) ∧
    InCell3 ex64Cube (image ex64Cube (0, 0, 0) (densePoint ex64Hp ex64Shell k q)) 1 1 1 := by
  have hmid : 0 ≤ midAt (0:ℝ) 2 4 k ∧ midAt (0:ℝ) 2 4 k ≤ 2 := by
    interval_cases k <;> simp only [midAt, edgeAt] <;> norm_num
  have hcs : ∀ c d : ℝ, |c| ≤ 1 → |d| ≤ 1 → |0 + midAt (0:ℝ) 2 4 k*c*d| ≤ 2 := by
    intro c d hc hd
    rw [zero_add, mul_assoc, abs_mul, abs_of_nonneg hmid.1, abs_mul]
    have := mul_le_mul hc hd (abs_nonneg _) (by norm_num)
    nlinarith [abs_nonneg c, abs_nonneg d, mul_nonneg (abs_nonneg c) (abs_nonneg d), hmid.1, hmid.2]
  have px : |(densePoint ex64Hp ex64Shell k q).1| ≤ 2 := hcs _ _ (Real.abs_sin_le_one _) (Real.abs_cos_le_one _)
  have py : |(densePoint ex64Hp ex64Shell k q).2.1| ≤ 2 := hcs _ _ (Real.abs_sin_le_one _) (Real.abs_sin_le_one _)
  have pz : |(densePoint ex64Hp ex64Shell k q).2.2| ≤ 2 := by
    have := hcs (Real.cos 1) 1 (Real.abs_cos_le_one _) (by norm_num)
    rw [mul_one] at this
    exact this
  generalize densePoint ex64Hp ex64Shell k q = pt at *
  have hreach : ∀ n : ℤ, -1 ≤ n → n ≤ 1 → reach 2 0 (-12) 12 3 n < 1 := by
    intro n h1 h2
    have : |(n:ℝ)| ≤ 1 := by rw [← Int.cast_abs]; exact_mod_cast abs_le.mpr ⟨h1, h2⟩
    unfold reach cellMargin
    norm_num
    linarith
  have hline : ∀ (x : ℝ) (n : ℤ), |x| ≤ 2 → -1 ≤ n → n ≤ 1 → ∀ k ≤ 3,
      reach 2 0 (-12) 12 3 n < |x + n*(12 - (-12)) - edgeAt (-12) 12 3 k| := by
    intro x n hx h1 h2 k hk
    refine (hreach n h1 h2).trans_le ?_
    rw [abs_le] at hx
    rw [le_abs]
    interval_cases n <;> interval_cases k <;> simp only [edgeAt] <;> norm_num <;>
      first
        | (left; linarith)
        | (right; linarith)
  refine ⟨fun n hn => ?_, ?_⟩
  · obtain ⟨⟨h1, h2⟩, ⟨h3, h4⟩, h5, h6⟩ := hn
    have h3' : (0:ℤ) ≤ n.2.1 := h3
    have h4' : n.2.1 ≤ 0 := h4
    have h5' : (0:ℤ) ≤ n.2.2 := h5
    have h6' : n.2.2 ≤ 0 := h6
    exact ⟨hline _ _ px h1 h2, hline _ _ py (by omega) (by omega), hline _ _ pz (by omega) (by omega)⟩
  · have cell : ∀ x : ℝ, |x| ≤ 2 → InCell (-12) 12 3 1 (x + ((0:ℤ):ℝ)*(12 - (-12))) := by
      intro x hx
      rw [abs_le] at hx
      unfold InCell edgeAt
      norm_num
      constructor <;> linarith
    exact ⟨cell _ px, cell _ py, cell _ pz⟩

/-- Data up to 5 give the same map as exact arithmetic, up to `2^-35`. -/
example (L : Lib) (hL : LibOk L) (O : Sums) (hO : O.For 4 2) (f : Arr3 ℝ) (hf : Data ex64Cube f 5) :
    ∃ (out out' : Arr2 (Option ℝ)) (s' : DgCube.State), remap64 L O ex64Hp ex64Cube ex64Shell f = .ok out ∧
      dgRemap ex64Hp ex64Cube ex64Shell ⟨f.n0, f.n1, f.n2, fun a b c => some (f.val a b c)⟩ DgCube.init = (.ok out', s') ∧
      ∀ i < 2, ∀ p < 12, ∃ d e : ℝ, out.val i p = some d ∧ out'.val i p = some e ∧ |d - e| ≤ 1/2^35 := by
  obtain ⟨out, out', s', h1, h2, h3⟩ := C130_exact L hL _ _ _ ex64_fits ex64_pixels O hO f 5 hf (by norm_num) (by norm_num)
    (fun k hk q _ => (ex64_far hk q).1) DgCube.init
  refine ⟨out, out', s', h1, h2, fun i hi p hp => ?_⟩
  obtain ⟨d, e, e1, e2, e3⟩ := h3 i hi p hp
  refine ⟨d, e, e1, e2, e3.trans ?_⟩
  have ht : (2:ℝ)^(-600 : ℤ) ≤ 1 := zpow_le_one_of_nonpos₀ (by norm_num) (by norm_num)
  have hs : 1 ≤ shellSize ex64Shell i := by
    have h2 : (2:ℤ).toNat = 2 := rfl
    interval_cases i <;> simp only [shellSize, ex64Shell, edgeAt, h2] <;> norm_num
  have hq : (2:ℝ)^3/shellSize ex64Shell i ≤ 8 := by
    rw [div_le_iff₀ (by linarith)]; linarith
  show (2:ℝ)^3/shellSize ex64Shell i*((8:ℕ):ℝ)/2^45*(5 + (2:ℝ)^(-600 : ℤ)) ≤ 1/2^35
  calc _ ≤ 8*((8:ℕ):ℝ)/2^45*(5 + 1) := by gcongr
    _ ≤ 1/2^35 := by norm_num

/-- An array of ones gives ones. -/
example (L : Lib) (hL : LibOk L) : ∃ out : Arr2 (Option ℝ),
    remap64 L ⟨.node (.node (.leaf 0) (.leaf 1)) (.node (.leaf 2) (.leaf 3)), .node (.leaf 0) (.leaf 1),
      .node (.leaf 0) (.leaf 1)⟩ ex64Hp ex64Cube ex64Shell ⟨3, 3, 3, fun _ _ _ => 1⟩ = .ok out ∧
    ∀ i < 2, ∀ p < 12, out.val i p = some 1 := by
  obtain ⟨out, h1, h2⟩ := C130_ones L hL _ _ _ ex64_fits ex64_pixels
    ⟨.node (.node (.leaf 0) (.leaf 1)) (.node (.leaf 2) (.leaf 3)), .node (.leaf 0) (.leaf 1), .node (.leaf 0) (.leaf 1)⟩
    ⟨by decide, by decide, by decide⟩ rfl ⟨3, 3, 3, fun _ _ _ => 1⟩
    ⟨rfl, rfl, rfl, fun _ _ _ _ _ _ => ⟨⟨1, 0, by norm_num, by norm_num, by norm_num, by norm_num⟩, by norm_num⟩⟩
    (fun _ _ _ _ _ _ => rfl)
  refine ⟨out, h1, fun i hi p hp => h2 i hi p hp fun k hk q hq => ?_⟩
  have hk' : k < 2 := hk
  have hlt : i*2 + k < 4 := by omega
  exact ⟨(ex64_far hlt q).1, (0, 0, 0), 1, 1, 1, by simp [InRange, ex64Shell], (ex64_far hlt q).2⟩

/-- The same ball `40` away along `x`. -/
def ex64Away : ShellArgs := { rmin := 0, rmax := 2, numr := 2, nside := 1, center := [40, 0, 0], perx := (-1, 1) }

/-- Outside the cube and its images asked for there are zeros. -/
example (L : Lib) (hL : LibOk L) (O : Sums) (hO : O.For 4 2) (f : Arr3 ℝ) (hf : Data ex64Cube f 5) :
    ∃ out : Arr2 (Option ℝ), remap64 L O ex64Hp ex64Cube ex64Away f = .ok out ∧
      ∀ i < 2, ∀ p < 12, out.val i p = some 0 := by
  have hfits : Fits ex64Cube ex64Away :=
    ⟨ex64_fits.cube, by constructor <;> norm_num [ex64Away], ex64_fits.x, ex64_fits.xwide, ex64_fits.y, ex64_fits.ywide,
      ex64_fits.z, ex64_fits.zwide, ex64_fits.r, ex64_fits.large, ex64_fits.shells⟩
  have hpix : Pixels ex64Hp ex64Away := ⟨ex64_pixels.num, ex64_pixels.lt, ex64_pixels.theta, ex64_pixels.phi⟩
  obtain ⟨out, h1, h2⟩ := C130_outside L hL _ _ _ hfits hpix O hO f 5 hf (by norm_num) (by norm_num)
  refine ⟨out, h1, fun i hi p hp => h2 i hi p hp fun k hk q hq => ?_⟩
  have hk' : k < 2 := hk
  have hlt : i*2 + k < 4 := by omega
  show FarFromEdges ex64Cube ex64Away (densePoint ex64Hp ex64Away (i*2 + k) q) ∧ ¬ ∃ n a b c, InRange ex64Away n ∧
    InCell3 ex64Cube (image ex64Cube n (densePoint ex64Hp ex64Away (i*2 + k) q)) a b c
  generalize i*2 + k = j at *
  have hmid : 0 ≤ midAt (0:ℝ) 2 4 j ∧ midAt (0:ℝ) 2 4 j ≤ 2 := by
    interval_cases j <;> simp only [midAt, edgeAt] <;> norm_num
  have hcs : ∀ c d : ℝ, |c| ≤ 1 → |d| ≤ 1 → |midAt (0:ℝ) 2 4 j*c*d| ≤ 2 := by
    intro c d hc hd
    rw [mul_assoc, abs_mul, abs_of_nonneg hmid.1, abs_mul]
    have := mul_le_mul hc hd (abs_nonneg _) (by norm_num)
    nlinarith [abs_nonneg c, abs_nonneg d, mul_nonneg (abs_nonneg c) (abs_nonneg d), hmid.1, hmid.2]
  have px : |(densePoint ex64Hp ex64Away j q).1 - 40| ≤ 2 := by
    show |40 + midAt (0:ℝ) 2 4 j*Real.sin 1*Real.cos 1 - 40| ≤ 2
    rw [add_sub_cancel_left]
    exact hcs _ _ (Real.abs_sin_le_one _) (Real.abs_cos_le_one _)
  have py : |(densePoint ex64Hp ex64Away j q).2.1| ≤ 2 := by
    show |0 + midAt (0:ℝ) 2 4 j*Real.sin 1*Real.sin 1| ≤ 2
    rw [zero_add]
    exact hcs _ _ (Real.abs_sin_le_one _) (Real.abs_sin_le_one _)
  have pz : |(densePoint ex64Hp ex64Away j q).2.2| ≤ 2 := by
    have := hcs (Real.cos 1) 1 (Real.abs_cos_le_one _) (by norm_num)
    show |0 + midAt (0:ℝ) 2 4 j*Real.cos 1| ≤ 2
    rw [zero_add]
    rwa [mul_one] at this
  generalize densePoint ex64Hp ex64Away j q = pt at *
  rw [abs_le] at px py pz
  have hreach : ∀ (c : ℝ) (n : ℤ), |c| ≤ 40 → -1 ≤ n → n ≤ 1 → reach 2 c (-12) 12 3 n < 1 := by
    intro c n hc h1 h2
    have : |(n:ℝ)| ≤ 1 := by rw [← Int.cast_abs]; exact_mod_cast abs_le.mpr ⟨h1, h2⟩
    unfold reach cellMargin
    norm_num
    linarith
  refine ⟨fun n hn => ?_, ?_⟩
  · obtain ⟨⟨h1, h2⟩, ⟨h3, h4⟩, h5, h6⟩ := hn
    have h1' : (-1:ℤ) ≤ n.1 := h1
    have h2' : n.1 ≤ 1 := h2
    have h3' : n.2.1 = 0 := le_antisymm h4 h3
    have h5' : n.2.2 = 0 := le_antisymm h6 h5
    have hz : ∀ x : ℝ, -2 ≤ x ∧ x ≤ 2 → ∀ k ≤ 3, reach 2 0 (-12) 12 3 0 < |x + ((0:ℤ):ℝ)*(12 - (-12)) - edgeAt (-12) 12 3 k| := by
      intro x hx k hk
      refine (hreach 0 0 (by norm_num) (by norm_num) (by norm_num)).trans_le ?_
      rw [le_abs]
      interval_cases k <;> simp only [edgeAt] <;> norm_num <;>
        first
          | (left; linarith)
          | (right; linarith)
    refine ⟨?_, ?_, ?_⟩
    · intro k hk
      have hk' : k ≤ 3 := hk
      show reach 2 40 (-12) 12 3 n.1 < |pt.1 + n.1*(12 - (-12)) - edgeAt (-12) 12 3 k|
      refine (hreach 40 n.1 (by norm_num) h1' h2').trans_le ?_
      rw [le_abs]
      left
      have hn' : (-1:ℝ) ≤ n.1 := by exact_mod_cast h1'
      interval_cases k <;> simp only [edgeAt] <;> norm_num <;> linarith
    · show ∀ k ≤ 3, reach 2 0 (-12) 12 3 n.2.1 < |pt.2.1 + n.2.1*(12 - (-12)) - edgeAt (-12) 12 3 k|
      rw [h3']
      exact hz _ py
    · show ∀ k ≤ 3, reach 2 0 (-12) 12 3 n.2.2 < |pt.2.2 + n.2.2*(12 - (-12)) - edgeAt (-12) 12 3 k|
      rw [h5']
      exact hz _ pz
  · rintro ⟨n, a, b, c, hn, hc⟩
    have h1' : (-1:ℝ) ≤ n.1 := by exact_mod_cast (show (-1:ℤ) ≤ n.1 from hn.1.1)
    have := (DgCube.inCell_range (lo := -12) (hi := 12) (by norm_num) (n := 3) (by norm_num) hc.1).2
    change pt.1 + n.1*(12 - (-12)) < 12 at this
    linarith

/-- Correctly rounded functions meet `LibOk`. -/
example : LibOk ⟨⟨fun p => F64.fl (Real.cos p), fun p => F64.fl (Real.sin p)⟩, fun x y => F64.fl (x^y)⟩ :=
  ⟨trigNear_fl, powClose_fl⟩

end Magpie.Props
