import Verif.Proof.Radial64
import Verif.Proof.Float64Q
import Verif.Props.Spline

/-!
# Properties C125 and C126: tabulated distributions and running integrals in double precision

`IsDouble` and `maxDouble` are in `Verif/Spec/Float64.lean`.
-/

set_option linter.unusedSimpArgs false
set_option linter.unusedVariables false
set_option linter.unusedSectionVars false

namespace Magpie.Props
open Magpie Magpie.F64 Magpie.Spec Magpie.Cumul64 Magpie.Randoms
open Magpie.OneD Magpie.Polar Magpie.Means64
open Finset (range)

/-! ## C125: the table -/

section
variable (xmid pdf : List ℝ) (n : ℕ) (hn : 2 ≤ n) (hn' : n ≤ 2^40) (hx : xmid.length = n) (hp : pdf.length = n)
  (hd : ∀ q ∈ pdf, IsDouble q) (hpos : ∀ q ∈ pdf, 0 ≤ q) (hd0 : IsDouble (xmid.getD 0 0)) (hd1 : IsDouble (xmid.getD 1 0))
  (hlt : xmid.getD 0 0 < xmid.getD 1 0)
include hn hn' hx hp hd hpos hd0 hd1 hlt

private theorem dx_pos' : 0 < F64.sub (xmid.getD 1 0) (xmid.getD 0 0) := by
  have := (sub_pos64 hd0 hd1 hlt).1
  linarith

private theorem getD_mem' : (∀ i < n, IsDouble (pdf.getD i 0)) ∧ ∀ i < n, 0 ≤ pdf.getD i 0 := by
  have : ∀ i < n, pdf.getD i 0 ∈ pdf := by
    intro i hi
    rw [List.getD_eq_getElem _ _ (by omega : i < pdf.length)]
    exact List.getElem_mem _
  exact ⟨fun i hi => hd _ (this i hi), fun i hi => hpos _ (this i hi)⟩

section
variable (hbig : (2:ℝ)^(-1000 : ℤ) ≤ (∑ i ∈ range n, pdf.getD i 0)*(xmid.getD 1 0 - xmid.getD 0 0))
include hbig

private theorem weight : (2:ℝ)^(-1010 : ℤ)
    ≤ (∑ i ∈ range n, pdf.getD i 0)*F64.sub (xmid.getD 1 0) (xmid.getD 0 0) := by
  obtain ⟨-, h0⟩ := getD_mem' xmid pdf n hn hn' hx hp hd hpos hd0 hd1 hlt
  have hs : 0 ≤ ∑ i ∈ range n, pdf.getD i 0 := Finset.sum_nonneg fun i hi => h0 i (Finset.mem_range.mp hi)
  have h := mul_le_mul_of_nonneg_left (sub_pos64 hd0 hd1 hlt).1 hs
  have e : (2:ℝ)^(-1010 : ℤ) = (2:ℝ)^(-1000 : ℤ)/2^10 := by
    rw [eq_div_iff (by norm_num), ← zpow_natCast, ← zpow_add₀ (by norm_num)]; norm_num
  have := two_zpow_pos (-1000)
  rw [e]
  linarith

/-- C125: for doubles the CDF of a non-negative PDF starts at 0, ends at exactly 1 and never decreases, so
`randoms_cdf` accepts it. Every entry is the exact one up to `(n+3)*2^-51`. -/
theorem C125_cdf : ∃ x cdf norm : List ℝ, pdf2cdf64 xmid pdf = .ok (x, cdf.map some, norm.map some) ∧
    x.length = n + 1 ∧ cdf.length = n + 1 ∧ norm.length = n ∧ cdf.getD 0 0 = 0 ∧ cdf.getD n 0 = 1 ∧
    (∀ j k, j ≤ k → k ≤ n → cdf.getD j 0 ≤ cdf.getD k 0) ∧ cdfAssert (cdf.map some) = .ok () ∧
    ∀ k ≤ n, |cdf.getD k 0 - (∑ i ∈ range k, pdf.getD i 0)/(∑ i ∈ range n, pdf.getD i 0)| ≤ (n + 3)/2^51 := by
  obtain ⟨g1, g2⟩ := getD_mem' xmid pdf n hn hn' hx hp hd hpos hd0 hd1 hlt
  have hdx := dx_pos' xmid pdf n hn hn' hx hp hd hpos hd0 hd1 hlt
  have hW := weight xmid pdf n hn hn' hx hp hd hpos hd0 hd1 hlt hbig
  obtain ⟨x, lx, e⟩ := pdf2cdf64_run xmid pdf n hn hx hp hd hpos _ hdx rfl
  set p : ℕ → ℝ := fun i => pdf.getD i 0 with hpd
  set dx := F64.sub (xmid.getD 1 0) (xmid.getD 0 0) with hdxd
  have hm : 0 < tab p dx n := tab_pos g1 g2 hdx hn' hW
  have gget : ∀ k ≤ n, ((List.range (n+1)).map fun (k : ℕ) => F64.div (tab p dx k) (tab p dx n)).getD k 0
      = F64.div (tab p dx k) (tab p dx n) := by
    intro k hk
    rw [List.getD_eq_getElem?_getD, List.getElem?_map, List.getElem?_range (by omega)]
    rfl
  have c0 : F64.div (tab p dx 0) (tab p dx n) = 0 := by
    unfold F64.div
    simp [Cumul64.tab, fl_zero]
  have c1 : F64.div (tab p dx n) (tab p dx n) = 1 := by
    unfold F64.div
    rw [div_self hm.ne']
    have := fl_int (n := 1) (by norm_num)
    simpa using this
  refine ⟨x, (List.range (n+1)).map fun (k : ℕ) => F64.div (tab p dx k) (tab p dx n),
    pdf.map fun q => F64.div q (tab p dx n), ?_, lx, by simp, by simp [hp], ?_, ?_, ?_, ?_, ?_⟩
  · rw [e]
    simp only [fdiv64, if_neg hm.ne', List.map_map, Function.comp_def]
  · rw [gget 0 (by omega), c0]
  · rw [gget n le_rfl, c1]
  · intro j k hjk hk
    rw [gget j (by omega), gget k hk]
    exact fl_mono (div_le_div_of_nonneg_right (tab_mono g1 g2 hdx hjk hk) hm.le)
  · exact cdfAssert_ok _ n (by simp) (by rw [gget 0 (by omega), c0]) (by rw [gget n le_rfl, c1])
  · intro k hk
    rw [gget k hk]
    exact cdf_err g1 g2 hdx hn' hW hk

/-- C125, violated: with the default interpolation a bin that holds less than `2^-55` of the weight of the bins before
it, for example in the tail of a Gaussian, makes `randoms_pdf` raise `ValueError`, although the PDF is positive: two
entries of the CDF are rounded to the same double. -/
theorem C125_default_violated (spline : List ℝ → List ℝ → ℝ → ℝ) (k : ℕ) (hk : k + 1 < n)
    (hsmall : pdf.getD (k+1) 0*2^55 ≤ ∑ i ∈ range (k+1), pdf.getD i 0)
    (hnorm : (2:ℝ)^(-1000 : ℤ) ≤ ∑ i ∈ range (k+1), pdf.getD i 0) (u : List ℝ) (hu : ∀ v ∈ u, 0 ≤ v ∧ v < 1) :
    randomsPdfCubic64 spline xmid pdf u = .error .valueError := by
  obtain ⟨g1, g2⟩ := getD_mem' xmid pdf n hn hn' hx hp hd hpos hd0 hd1 hlt
  have hdx := dx_pos' xmid pdf n hn hn' hx hp hd hpos hd0 hd1 hlt
  have hW := weight xmid pdf n hn hn' hx hp hd hpos hd0 hd1 hlt hbig
  obtain ⟨x, lx, e⟩ := pdf2cdf64_run xmid pdf n hn hx hp hd hpos _ hdx rfl
  set p : ℕ → ℝ := fun i => pdf.getD i 0 with hpd
  set dx := F64.sub (xmid.getD 1 0) (xmid.getD 0 0) with hdxd
  have hm : 0 < tab p dx n := tab_pos g1 g2 hdx hn' hW
  obtain ⟨x', cdf, norm, e', lx', lc, ln, c0, c1, cm, ca, -⟩ :=
    C125_cdf xmid pdf n hn hn' hx hp hd hpos hd0 hd1 hlt hbig
  -- the addition changes nothing
  have hacc := acc_bounds g1 g2 hdx (k := k) (by omega)
  have hg : gam k ≤ 1/4 := by
    refine (gam_le (by omega)).trans ?_
    have : (k:ℝ) ≤ 2^40 := by exact_mod_cast (by omega : k ≤ 2^40)
    rw [div_mul_eq_mul_div, div_le_iff₀ (by norm_num)]
    nlinarith
  have hS0 : 0 < ∑ i ∈ range (k+1), p i := (two_zpow_pos _).trans_le hnorm
  have hA : (∑ i ∈ range (k+1), p i)*(3/4) ≤ acc p k := by
    have := (abs_le.mp hacc).1
    nlinarith
  have habs : acc p (k+1) = acc p k := by
    refine absorb (acc_fl (Remap64.isDouble_fl (g1 0 (by omega))) k) (g2 (k+1) hk) ?_ ?_
    · have e : (2:ℝ)^(-1020 : ℤ) = (2:ℝ)^(-1000 : ℤ)/2^20 := by
        rw [eq_div_iff (by norm_num), ← zpow_natCast, ← zpow_add₀ (by norm_num)]; norm_num
      have := two_zpow_pos (-1000)
      rw [e]
      linarith
    · have : p (k+1)*2^55 ≤ ∑ i ∈ range (k+1), p i := hsmall
      linarith
  have hcdf : cdf = (List.range (n+1)).map fun (k : ℕ) => F64.div (tab p dx k) (tab p dx n) := by
    have := e'.symm.trans e
    simp only [Except.ok.injEq, Prod.mk.injEq] at this
    have h2 := this.2.1
    simp only [fdiv64, if_neg hm.ne'] at h2
    have h3 := congrArg (List.filterMap id) h2
    simpa [List.filterMap_map, Function.comp_def] using h3
  have hrun : randomsPdfCubic64 spline xmid pdf u = randomsCdfCubic spline x' cdf u := by
    have hmap : (cdf.map some).mapM id = some cdf := by
      have : ∀ l : List ℝ, (l.map some).mapM id = some l := by
        intro l
        induction l with
        | nil => rfl
        | cons a l ih => simp [List.mapM_cons, ih]
      exact this cdf
    unfold randomsPdfCubic64
    rw [e']
    simp only [bind, Except.bind, ca, hmap]
  have g : ∀ k, k ≤ n → cdf[k]? = some (cdf.getD k 0) := by
    intro k hk
    rw [List.getD_eq_getElem?_getD, List.getElem?_eq_getElem (by omega)]; rfl
  rw [hrun]
  refine (C124_accepts spline x' cdf u (by rw [List.head?_eq_getElem?, g 0 (by omega), c0])
    (by rw [List.getLast?_eq_getElem?, lc, Nat.add_sub_cancel, g n le_rfl, c1]) hu).2 ?_
  rintro ⟨-, -, hnd⟩
  have h1 : cdf[k+1]'(by omega) = cdf[k+2]'(by omega) := by
    simp only [hcdf, List.getElem_map, List.getElem_range, Cumul64.tab, habs]
  have := (hnd.getElem_inj_iff).mp h1
  omega

/-- C125: no number on the way overflows if neither the sum of the PDF nor the integral is near the largest double. -/
theorem C125_no_overflow (hs : 2*∑ i ∈ range n, pdf.getD i 0 ≤ maxDouble)
    (hs' : 8*((∑ i ∈ range n, pdf.getD i 0)*(xmid.getD 1 0 - xmid.getD 0 0)) ≤ maxDouble) (k : ℕ) (hk : k < n) :
    IsDouble (acc (fun i => pdf.getD i 0) k) ∧
    IsDouble (F64.mul (acc (fun i => pdf.getD i 0) k) (F64.sub (xmid.getD 1 0) (xmid.getD 0 0))) := by
  obtain ⟨g1, g2⟩ := getD_mem' xmid pdf n hn hn' hx hp hd hpos hd0 hd1 hlt
  have hdx := dx_pos' xmid pdf n hn hn' hx hp hd hpos hd0 hd1 hlt
  have hacc := acc_bounds g1 g2 hdx hk
  have hmono := sum_mono g1 g2 hdx (j := k+1) (k := n) (by omega) le_rfl
  set p : ℕ → ℝ := fun i => pdf.getD i 0 with hpd
  have hg : gam k ≤ 1/4 := by
    refine (gam_le (by omega)).trans ?_
    have : (k:ℝ) ≤ 2^40 := by exact_mod_cast (by omega : k ≤ 2^40)
    rw [div_mul_eq_mul_div, div_le_iff₀ (by norm_num)]
    nlinarith
  have hS0 : 0 ≤ ∑ i ∈ range (k+1), p i :=
    Finset.sum_nonneg fun i hi => g2 i (by have := Finset.mem_range.mp hi; omega)
  have hle : acc p k ≤ 5/4*∑ i ∈ range (k+1), p i := by
    have := (abs_le.mp hacc).2
    nlinarith
  have hS : ∑ i ∈ range (k+1), p i ≤ ∑ i ∈ range n, p i := hmono
  have h0 : 0 ≤ acc p k := acc_nonneg fun i hi => g2 i (by omega)
  constructor
  · cases k with
    | zero => exact g1 0 (by omega)
    | succ k =>
      have e : acc p (k+1) = fl (acc p k + p (k+1)) := rfl
      rw [e]
      refine fl_isDouble ?_
      have b := acc_bounds g1 g2 hdx (k := k) (by omega)
      have gg : gam k ≤ 1/4 := (gam_mono (by omega)).trans hg
      have s1 : 0 ≤ ∑ i ∈ range (k+1), p i :=
        Finset.sum_nonneg fun i hi => g2 i (by have := Finset.mem_range.mp hi; omega)
      have b1 : acc p k ≤ 5/4*∑ i ∈ range (k+1), p i := by
        have := (abs_le.mp b).2
        nlinarith
      have s2 := Finset.sum_range_succ p (k+1)
      have q := g2 (k+1) (by omega)
      have q' : 0 ≤ p (k+1) := q
      rw [abs_of_nonneg (add_nonneg (acc_nonneg fun i hi => g2 i (by omega)) q')]
      linarith
  · refine fl_isDouble ?_
    rw [abs_of_nonneg (mul_nonneg h0 hdx.le)]
    have h1 := (sub_pos64 hd0 hd1 hlt).2
    have h2 : acc p k ≤ 2*∑ i ∈ range n, p i := by linarith
    have h3 := mul_le_mul h2 h1 hdx.le (by linarith)
    linarith

end

/-- C125: a PDF whose integral is below the range of the doubles gives a CDF of NaN, and `randoms_pdf` raises
`AssertionError`. -/
theorem C125_underflow_violated (spline : List ℝ → List ℝ → ℝ → ℝ)
    (htiny : (∑ i ∈ range n, pdf.getD i 0)*(xmid.getD 1 0 - xmid.getD 0 0) ≤ (2:ℝ)^(-1078 : ℤ)) (u : List ℝ) :
    randomsPdfCubic64 spline xmid pdf u = .error .assertionError := by
  obtain ⟨g1, g2⟩ := getD_mem' xmid pdf n hn hn' hx hp hd hpos hd0 hd1 hlt
  have hdx := dx_pos' xmid pdf n hn hn' hx hp hd hpos hd0 hd1 hlt
  obtain ⟨x, lx, e⟩ := pdf2cdf64_run xmid pdf n hn hx hp hd hpos _ hdx rfl
  set p : ℕ → ℝ := fun i => pdf.getD i 0 with hpd
  set dx := F64.sub (xmid.getD 1 0) (xmid.getD 0 0) with hdxd
  have hz : tab p dx n = 0 := by
    obtain ⟨m, rfl⟩ : ∃ m, n = m + 1 := ⟨n - 1, by omega⟩
    have hacc := acc_bounds g1 g2 hdx (k := m) (by omega)
    have hg : gam m ≤ 1/4 := by
      refine (gam_le (by omega)).trans ?_
      have : (m:ℝ) ≤ 2^40 := by exact_mod_cast (by omega : m ≤ 2^40)
      rw [div_mul_eq_mul_div, div_le_iff₀ (by norm_num)]
      nlinarith
    have hS0 : 0 ≤ ∑ i ∈ range (m+1), p i :=
      Finset.sum_nonneg fun i hi => g2 i (Finset.mem_range.mp hi)
    have hle : acc p m ≤ 5/4*∑ i ∈ range (m+1), p i := by
      have := (abs_le.mp hacc).2
      nlinarith
    have h0 : 0 ≤ acc p m := acc_nonneg fun i hi => g2 i (by omega)
    have h1 := (sub_pos64 hd0 hd1 hlt).2
    have h3 := mul_le_mul hle h1 hdx.le (by linarith)
    have h4 : acc p m*dx ≤ (2:ℝ)^(-1076 : ℤ) := by
      have e : (2:ℝ)^(-1076 : ℤ) = 4*(2:ℝ)^(-1078 : ℤ) := by
        rw [show (4:ℝ) = (2:ℝ)^(2:ℤ) by norm_num, ← zpow_add₀ (by norm_num)]; norm_num
      rw [e]
      have h5 : (∑ i ∈ range (m+1), p i)*(xmid.getD 1 0 - xmid.getD 0 0) ≤ (2:ℝ)^(-1078 : ℤ) := htiny
      linarith [two_zpow_pos (-1078)]
    show fl (acc p m*dx) = 0
    have h6 := fl_mono h4
    have h7 := fl_nonneg (mul_nonneg h0 hdx.le)
    have h8 : fl ((2:ℝ)^(-1076 : ℤ)) = 0 := by
      have hu : ulpExp ((2:ℝ)^(-1076 : ℤ)) = -1074 := by
        unfold ulpExp
        rw [abs_of_pos (two_zpow_pos _), show ((2:ℝ)^(-1076 : ℤ)) = ((2:ℕ):ℝ)^(-1076 : ℤ) by norm_num,
          Int.log_zpow (by norm_num)]
        norm_num
      rw [fl_of_ulp hu (rne_near (n := 0) ?_)]
      · simp
      · rw [← zpow_sub₀ (by norm_num)]
        norm_num
    rw [h8] at h6
    exact le_antisymm h6 h7
  unfold randomsPdfCubic64
  rw [e]
  simp only [hz, bind, Except.bind]
  unfold cdfAssert pyGet
  rw [List.getElem?_map, List.getElem?_range (by omega)]
  have hl : pyLast ((List.range (n+1)).map fun (k : ℕ) => fdiv64 (tab p dx k) 0) = .ok none := by
    unfold pyLast
    rw [List.getLast?_map, List.range_succ, List.getLast?_append]
    simp [fdiv64]
  simp only [Option.map_some, bind, Except.bind, hl, pyAssert]
  rw [if_neg (by simp)]

end

/-! ## C125: linear interpolation -/

/-- C125: with linear interpolation a draw is the exact one up to `2^-48` of the largest abscissa, and is not below the
first abscissa; both with and without fused multiply-add. -/
theorem C125_linear (fused : Bool) (x cdf : List ℝ) (n : ℕ) (hc : cdf.length = n + 1) (hx : x.length = n + 1)
    (hdc : ∀ k ≤ n, IsDouble (cdf.getD k 0)) (hdx : ∀ k ≤ n, IsDouble (x.getD k 0))
    (h0 : cdf.getD 0 0 = 0) (h1 : cdf.getD n 0 = 1)
    (hmono : ∀ i j, i ≤ j → j ≤ n → cdf.getD i 0 ≤ cdf.getD j 0)
    (hinc : ∀ i j, i ≤ j → j ≤ n → x.getD i 0 ≤ x.getD j 0) (M : ℝ) (hM : ∀ k ≤ n, |x.getD k 0| ≤ M)
    (u : ℝ) (hu : IsDouble u) (hu0 : 0 ≤ u) (hu1 : u < 1) :
    ∃ d d', randomsCdfLinear64 fused x cdf [u] = .ok [d] ∧ randomsCdfLinear x cdf [u] = .ok [d'] ∧
      |d - d'| ≤ M/2^48 + (2:ℝ)^(-1072 : ℤ) ∧ x.getD 0 0 ≤ d := by
  have hassert := cdfAssert_ok cdf n hc h0 h1
  have hfx : ∀ k ≤ n, fl (x.getD k 0) = x.getD k 0 := fun k hk => Remap64.isDouble_fl (hdx k hk)
  obtain ⟨j, hj, hle, hlt, e, e64⟩ := interp_eq64 fused cdf x n hc hx h0 h1 hfx u hu0 hu1
  refine ⟨Remap64.madd fused (x.getD j 0) (F64.div (F64.sub (x.getD (j+1) 0) (x.getD j 0))
      (F64.sub (cdf.getD (j+1) 0) (cdf.getD j 0))) (F64.sub u (cdf.getD j 0)),
    (x.getD (j+1) 0 - x.getD j 0)/(cdf.getD (j+1) 0 - cdf.getD j 0)*(u - cdf.getD j 0) + x.getD j 0, ?_, ?_, ?_, ?_⟩
  · unfold randomsCdfLinear64
    rw [hassert]
    simp only [bind, Except.bind, pyMap, e64, pure, Except.pure]
  · unfold randomsCdfLinear
    rw [hassert]
    simp only [bind, Except.bind, pyMap, e, pure, Except.pure]
  · have h := lerp_err fused (hdx j (by omega)) (hdx (j+1) (by omega)) (hdc j (by omega)) (hdc (j+1) (by omega)) hu hle hlt
      (by rw [← h1]; exact hmono (j+1) n (by omega) le_rfl)
      (h0.symm.le.trans (hmono 0 j (by omega) (by omega))) (hM j (by omega)) (hM (j+1) (by omega))
    refine h.trans (le_of_eq ?_)
    rw [show (2:ℝ)^(-1072 : ℤ) = 8*(2:ℝ)^(-1075 : ℤ) by
      rw [show (8:ℝ) = (2:ℝ)^(3:ℤ) by norm_num, ← zpow_add₀ (by norm_num)]; norm_num]
    ring
  · refine (hinc 0 j (by omega) (by omega)).trans ?_
    have p1 : 0 ≤ F64.div (F64.sub (x.getD (j+1) 0) (x.getD j 0)) (F64.sub (cdf.getD (j+1) 0) (cdf.getD j 0)) :=
      fl_nonneg (div_nonneg (fl_nonneg (by linarith [hinc j (j+1) (by omega) (by omega)])) (fl_nonneg (by linarith)))
    have p2 : 0 ≤ F64.sub u (cdf.getD j 0) := fl_nonneg (by linarith)
    have hf := hfx j (by omega)
    unfold Remap64.madd
    split_ifs
    · have := fl_mono (show x.getD j 0 ≤ x.getD j 0 + _ from le_add_of_nonneg_right (mul_nonneg p1 p2))
      rwa [hf] at this
    · have := fl_mono (show x.getD j 0 ≤ x.getD j 0 + _ from le_add_of_nonneg_right (fl_nonneg (mul_nonneg p1 p2)))
      rwa [hf] at this

/-- C125, violated: the last variate below 1 gives a draw above the last abscissa. The table has the entries 0, 0.29
and 1 (as doubles), the abscissas -4, -1 and 2. -/
theorem C125_range_violated (fused : Bool) :
    randomsCdfLinear64 fused [-4, -1, 2] [0, 5224175567749775/2^54, 1] [1 - 1/2^53]
      = .ok [2 + 1/2^51] := by
  have hassert := cdfAssert_ok [0, 5224175567749775/2^54, 1] 2 rfl rfl rfl
  have q1 : F64.sub 2 (-1) = ((3:ℚ):ℝ) := by
    unfold F64.sub
    have := fl_int (n := 3) (by norm_num)
    norm_num at this ⊢
    exact this
  have q2 : F64.sub 1 (5224175567749775/2^54) = ((799388933858263/2^50 : ℚ):ℝ) := by
    unfold F64.sub
    rw [show (1:ℝ) - 5224175567749775/2^54 = ((1 - 5224175567749775/2^54 : ℚ):ℝ) by push_cast; norm_num, ← flQ_cast]
    exact congrArg _ (by decide +kernel)
  have q3 : F64.sub (1 - 1/2^53) (5224175567749775/2^54) = ((799388933858263/2^50 : ℚ):ℝ) := by
    unfold F64.sub
    rw [show (1:ℝ) - 1/2^53 - 5224175567749775/2^54 = ((1 - 1/2^53 - 5224175567749775/2^54 : ℚ):ℝ) by
      push_cast; norm_num, ← flQ_cast]
    exact congrArg _ (by decide +kernel)
  have q4 : F64.div ((3:ℚ):ℝ) ((799388933858263/2^50 : ℚ):ℝ) = ((4757323550039257/2^50 : ℚ):ℝ) := by
    unfold F64.div
    rw [← Rat.cast_div, ← flQ_cast]
    exact congrArg _ (by decide +kernel)
  have q5 : Remap64.madd fused (-1) ((4757323550039257/2^50 : ℚ):ℝ) ((799388933858263/2^50 : ℚ):ℝ) = 2 + 1/2^51 := by
    have e1 : (2:ℝ) + 1/2^51 = ((2 + 1/2^51 : ℚ):ℝ) := by push_cast; norm_num
    have e2 : (-1:ℝ) = ((-1:ℚ):ℝ) := by norm_num
    have z1 : flQ (-1 + flQ (4757323550039257/2^50*(799388933858263/2^50))) = 2 + 1/2^51 := by decide +kernel
    have z2 : flQ (-1 + 4757323550039257/2^50*(799388933858263/2^50)) = 2 + 1/2^51 := by decide +kernel
    unfold Remap64.madd F64.add F64.mul
    rw [e1, e2]
    cases fused
    · rw [if_neg (by simp), ← z1, flQ_cast, Rat.cast_add, flQ_cast, Rat.cast_mul]
    · rw [if_pos rfl, ← z2, flQ_cast, Rat.cast_add, Rat.cast_mul]
  have hint : interpLinear64 fused [0, 5224175567749775/2^54, 1] [-4, -1, 2] (1 - 1/2^53) = .ok (2 + 1/2^51) := by
    have htw : (([0, 5224175567749775/2^54, 1] : List ℝ).takeWhile fun x => decide (x ≤ 1 - 1/2^53))
        = [0, 5224175567749775/2^54] := by
      rw [List.takeWhile_cons_of_pos (by norm_num), List.takeWhile_cons_of_pos (by norm_num),
        List.takeWhile_cons_of_neg (by norm_num)]
    unfold interpLinear64
    simp only [pyGet, pyLast, List.getElem?_cons_zero, List.getLast?_cons_cons, List.getLast?_singleton, bind,
      Except.bind]
    rw [if_neg (by norm_num), htw]
    simp only [List.length_cons, List.length_nil, List.getElem?_cons_zero, List.getElem?_cons_succ, zero_add,
      Nat.add_sub_cancel, Nat.reduceAdd]
    rw [if_neg (by norm_num)]
    simp only [pure, Except.pure]
    rw [q1, q2, q3, q4, q5]
  unfold randomsCdfLinear64
  rw [hassert]
  simp only [bind, Except.bind, pyMap, hint, pure, Except.pure]

/-! ## C126: integrals over discs -/

section
variable (redges f : List ℝ) (N : ℕ) (hr : redges.length = N + 1) (hf : f.length = N) (hN : N ≤ 2^40)
include hr hf hN

private theorem ring_get {i : ℕ} (hi : i < N) : (ringArea64 redges)[i]? = some (F64.mul Coords64.pi
    (F64.sub (F64.mul (redges.getD (i+1) 0) (redges.getD (i+1) 0)) (F64.mul (redges.getD i 0) (redges.getD i 0)))) := by
  have h1 : redges.dropLast[i]? = some (redges.getD i 0) := by
    rw [List.getElem?_dropLast, if_pos (by omega), List.getD_eq_getElem?_getD, List.getElem?_eq_getElem (by omega)]; rfl
  have h2 : redges.tail[i]? = some (redges.getD (i+1) 0) := by
    rw [List.getElem?_tail, List.getD_eq_getElem?_getD, List.getElem?_eq_getElem (by omega)]; rfl
  unfold ringArea64
  rw [List.getElem?_zipWith, h1, h2]

private theorem ring_length : (ringArea64 redges).length = N := by
  unfold ringArea64
  simp [hr]

/-- The rounded integrals over the rings. -/
private noncomputable def ringTerm (redges f : List ℝ) (i : ℕ) : ℝ :=
  F64.mul (F64.mul Coords64.pi (F64.sub (F64.mul (redges.getD (i+1) 0) (redges.getD (i+1) 0))
    (F64.mul (redges.getD i 0) (redges.getD i 0)))) (f.getD i 0)

private theorem vmul_run : ∃ l, vmul64 (ringArea64 redges) f = .ok l ∧ l.length = N ∧
    ∀ i < N, l.getD i 0 = ringTerm redges f i := by
  have hl := ring_length redges f N hr hf hN
  refine ⟨List.zipWith F64.mul (ringArea64 redges) f, ?_, ?_, ?_⟩
  · unfold vmul64
    rw [if_pos (by omega)]
  · simp [hl, hf]
  · intro i hi
    rw [List.getD_eq_getElem?_getD, List.getElem?_zipWith, ring_get redges f N hr hf hN hi,
      List.getElem?_eq_getElem (by omega : i < f.length)]
    simp only [Option.getD_some, ringTerm]
    rw [List.getD_eq_getElem _ _ (by omega : i < f.length)]

private theorem runsum_get {l : List ℝ} (hl : l.length = N) :
    (runningSum64 redges l).length = N + 1 ∧ (runningSum64 redges l).getD 0 0 = 0 ∧
    ∀ k < N, (runningSum64 redges l).getD (k+1) 0 = acc (fun i => l.getD i 0) k := by
  unfold runningSum64
  rw [if_neg (by omega)]
  refine ⟨by simp [cumsum64_length, hl], rfl, fun k hk => ?_⟩
  rw [List.getD_cons_succ, List.getD_eq_getElem?_getD, cumsum64_get l (by omega)]
  rfl

private theorem acc_congr {x y : ℕ → ℝ} {k : ℕ} (h : ∀ i ≤ k, x i = y i) : acc x k = acc y k := by
  induction k with
  | zero => exact h 0 le_rfl
  | succ k ih => unfold acc; rw [ih fun i hi => h i (by omega), h _ le_rfl]

/-- C126: the running integral of a radial profile is computed up to `(k+5)*2^-52` of the integral of `|f|` against the
sum (instead of the difference) of the squared radii, and the smallest double. It starts at exactly 0 and never decreases
for a profile that is not negative. -/
theorem C126_values : ∃ c, cumulativeRadial64 redges f none = .ok (c, none) ∧ c.length = N + 1 ∧ c.getD 0 0 = 0 ∧
    (∀ k ≤ N, |c.getD k 0 - ∑ i ∈ range k, Real.pi*(redges.getD (i+1) 0^2 - redges.getD i 0^2)*f.getD i 0|
      ≤ (k + 5)/2^52*∑ i ∈ range k, Real.pi*(redges.getD (i+1) 0^2 + redges.getD i 0^2) * |f.getD i 0|
        + (2:ℝ)^(-1071 : ℤ)*∑ i ∈ range k, (1 + |f.getD i 0|)) ∧
    ((∀ i < N, 0 ≤ redges.getD i 0 ∧ redges.getD i 0 ≤ redges.getD (i+1) 0) → (∀ i < N, 0 ≤ f.getD i 0) →
      ∀ k < N, c.getD k 0 ≤ c.getD (k+1) 0) := by
  obtain ⟨l, el, ll, lg⟩ := vmul_run redges f N hr hf hN
  obtain ⟨r1, r2, r3⟩ := runsum_get redges f N hr hf hN ll
  refine ⟨runningSum64 redges l, ?_, r1, r2, ?_, ?_⟩
  · unfold cumulativeRadial64
    simp only [el, bind, Except.bind, pure, Except.pure]
  · intro k hk
    cases k with
    | zero => rw [r2]; simp
    | succ k =>
      rw [r3 k (by omega), acc_congr redges f N hr hf hN (fun i hi => lg i (by omega))]
      have hη := two_zpow_pos (-1075)
      have h := acc_er (y := ringTerm redges f) (a := 5) (k := k) (by omega) (fun i hi => grid_fl _)
        (fun i _ => (ringf_err (redges.getD i 0) (redges.getD (i+1) 0) (f.getD i 0)).1)
        (fun i _ => mul_nonneg (by linarith) (by positivity))
        (fun i _ => (ringf_err (redges.getD i 0) (redges.getD (i+1) 0) (f.getD i 0)).2)
      refine h.trans ?_
      rw [← Finset.mul_sum]
      have hA : 0 ≤ ∑ i ∈ range (k+1), Real.pi*(redges.getD (i+1) 0^2 + redges.getD i 0^2) * |f.getD i 0| :=
        Finset.sum_nonneg fun i _ => by have := Real.pi_pos; positivity
      have hD : 0 ≤ ∑ i ∈ range (k+1), (1 + |f.getD i 0|) := Finset.sum_nonneg fun i _ => by positivity
      have hg : gam (5 + k) ≤ ((k+1 : ℕ) + 5)/2^52 := by
        refine (gam_le (by omega)).trans ?_
        rw [div_mul_eq_mul_div, div_le_div_iff₀ (by norm_num) (by norm_num)]
        push_cast
        have : (0:ℝ) ≤ k := by positivity
        nlinarith
      have e : (2:ℝ)^(-1071 : ℤ) = 16*(2:ℝ)^(-1075 : ℤ) := by
        rw [show (16:ℝ) = (2:ℝ)^(4:ℤ) by norm_num, ← zpow_add₀ (by norm_num)]; norm_num
      rw [e]
      have h1 := mul_le_mul_of_nonneg_right hg hA
      have h2 := mul_nonneg hη.le hD
      nlinarith
  · intro hrad hpos k hk
    have ht : ∀ i < N, 0 ≤ ringTerm redges f i := by
      intro i hi
      obtain ⟨a0, ab⟩ := hrad i hi
      refine fl_nonneg (mul_nonneg (fl_nonneg (mul_nonneg (fl_nonneg Real.pi_pos.le) (fl_nonneg ?_))) (hpos i hi))
      have := fl_mono (mul_self_le_mul_self a0 ab)
      unfold F64.mul
      linarith
    have hl : ∀ i < N, 0 ≤ l.getD i 0 := fun i hi => by rw [lg i hi]; exact ht i hi
    cases k with
    | zero =>
      rw [r2, r3 0 hk]
      exact hl 0 hk
    | succ k =>
      rw [r3 k (by omega), r3 (k+1) hk]
      exact acc_step (by rw [lg 0 (by omega)]; exact fl_fl _) (hl _ hk)

/-- C126: the errors of the running integral are numbers, not negative, never decrease, and are the errors added in
quadrature up to the relative error `(k+8)*2^-52` (again with the sum of the squared radii) and underflow. -/
theorem C126_errors (sigma : List ℝ) (hs : sigma.length = N) :
    ∃ c e : List ℝ, cumulativeRadial64 redges f (some sigma) = .ok (c, some (e.map some)) ∧
    cumulativeRadial64 redges f none = .ok (c, none) ∧ e.length = N + 1 ∧ e.getD 0 0 = 0 ∧
    (∀ k < N, e.getD k 0 ≤ e.getD (k+1) 0) ∧
    ∀ k ≤ N, |e.getD k 0 - Real.sqrt (∑ i ∈ range k, (Real.pi*(redges.getD (i+1) 0^2 - redges.getD i 0^2)*sigma.getD i 0)^2)|
      ≤ (k + 8)/2^52*Real.sqrt (∑ i ∈ range k, (Real.pi*(redges.getD (i+1) 0^2 + redges.getD i 0^2) * |sigma.getD i 0|)^2)
        + ((2:ℝ)^(-536 : ℤ)*Real.sqrt k
          + (2:ℝ)^(-1071 : ℤ)*Real.sqrt (∑ i ∈ range k, (1 + |sigma.getD i 0|)^2)) := by
  obtain ⟨l, el, ll, lg⟩ := vmul_run redges f N hr hf hN
  obtain ⟨m, em, lm, mg⟩ := vmul_run redges sigma N hr hs hN
  set q := m.map fun t => F64.mul t t with hq
  have lq : q.length = N := by simp [hq, lm]
  have qg : ∀ i < N, q.getD i 0 = F64.mul (ringTerm redges sigma i) (ringTerm redges sigma i) := by
    intro i hi
    rw [← mg i hi, List.getD_eq_getElem _ _ (by omega), List.getD_eq_getElem _ _ (by omega)]
    simp [hq]
  obtain ⟨r1, r2, r3⟩ := runsum_get redges f N hr hf hN lq
  set cv := runningSum64 redges q with hcv
  have hacc : ∀ k < N, cv.getD (k+1) 0
      = acc (fun i => F64.mul (ringTerm redges sigma i) (ringTerm redges sigma i)) k := fun k hk => by
    rw [r3 k hk]
    exact acc_congr redges f N hr hf hN (fun i hi => qg i (by omega))
  have hcv0 : ∀ k ≤ N, 0 ≤ cv.getD k 0 := by
    intro k hk
    cases k with
    | zero => rw [r2]
    | succ k =>
      rw [hacc k hk]
      exact acc_nonneg fun i _ => fl_nonneg (mul_self_nonneg _)
  have hmem : ∀ v ∈ cv, 0 ≤ v := by
    intro v hv
    obtain ⟨i, hi, rfl⟩ := List.getElem_of_mem hv
    rw [← List.getD_eq_getElem _ 0 hi]
    exact hcv0 i (by omega)
  have hget : ∀ k ≤ N, (cv.map fun v => fl (Real.sqrt v)).getD k 0 = fl (Real.sqrt (cv.getD k 0)) := by
    intro k hk
    rw [List.getD_eq_getElem _ _ (by simp; omega), List.getD_eq_getElem _ _ (by omega)]
    simp
  refine ⟨runningSum64 redges l, cv.map fun v => fl (Real.sqrt v), ?_, ?_, by simp [r1], ?_, ?_, ?_⟩
  · unfold cumulativeRadial64
    simp only [el, em, bind, Except.bind, pure, Except.pure, ← hq, ← hcv, List.map_map]
    congr 3
    refine List.map_congr_left fun v hv => ?_
    unfold F64.sqrt
    rw [if_pos (hmem v hv)]
    rfl
  · unfold cumulativeRadial64
    simp only [el, bind, Except.bind, pure, Except.pure]
  · rw [hget 0 (by omega), r2, Real.sqrt_zero, fl_zero]
  · intro k hk
    rw [hget k (by omega), hget (k+1) hk]
    refine fl_mono (Real.sqrt_le_sqrt ?_)
    cases k with
    | zero => rw [r2]; exact hcv0 1 hk
    | succ k =>
      rw [hacc k (by omega), hacc (k+1) hk]
      exact acc_step (x := fun i => F64.mul (ringTerm redges sigma i) (ringTerm redges sigma i))
        (by unfold F64.mul; rw [fl_fl]) (fl_nonneg (mul_self_nonneg _))
  · intro k hk
    rw [hget k hk]
    cases k with
    | zero => rw [r2]; simp [fl_zero]
    | succ k =>
      rw [hacc k hk]
      have hη := two_zpow_pos (-1075)
      have h := quad_err (t := ringTerm redges sigma) (k := k) (by omega)
        (fun i _ => (ringf_err (redges.getD i 0) (redges.getD (i+1) 0) (sigma.getD i 0)).1)
        (fun i _ => mul_nonneg (by linarith) (by positivity))
        (fun i _ => (ringf_err (redges.getD i 0) (redges.getD (i+1) 0) (sigma.getD i 0)).2)
      refine h.trans ?_
      rw [norm_scale (by linarith)]
      have hg : gam (k + 7) ≤ ((k+1 : ℕ) + 8)/2^52 := by
        refine (gam_le (by omega)).trans ?_
        rw [div_mul_eq_mul_div, div_le_div_iff₀ (by norm_num) (by norm_num)]
        push_cast
        have : (0:ℝ) ≤ k := by positivity
        nlinarith
      have e : (2:ℝ)^(-1071 : ℤ) = 16*(2:ℝ)^(-1075 : ℤ) := by
        rw [show (16:ℝ) = (2:ℝ)^(4:ℤ) by norm_num, ← zpow_add₀ (by norm_num)]; norm_num
      have e' : (2:ℝ)^(-536 : ℤ) = 2*(2:ℝ)^(-537 : ℤ) := by
        rw [show (2:ℝ)*(2:ℝ)^(-537 : ℤ) = (2:ℝ)^(1:ℤ)*(2:ℝ)^(-537 : ℤ) by norm_num, ← zpow_add₀ (by norm_num)]; norm_num
      rw [e, e']
      have h1 := mul_le_mul_of_nonneg_right hg (Real.sqrt_nonneg
        (∑ i ∈ range (k+1), (Real.pi*(redges.getD (i+1) 0^2 + redges.getD i 0^2) * |sigma.getD i 0|)^2))
      have h2 := mul_nonneg hη.le (Real.sqrt_nonneg (∑ i ∈ range (k+1), (1 + |sigma.getD i 0|)^2))
      have h3 := mul_nonneg (two_zpow_pos (-537)).le (Real.sqrt_nonneg ((k:ℝ)+1))
      push_cast at h1 ⊢
      nlinarith

end

/-! ## The hypotheses are met -/

private theorem dbl_int (n : ℤ) (h : |n| < 2^53) : IsDouble (n:ℝ) := ⟨n, 0, h, by norm_num, by norm_num, by simp⟩

private theorem dbl_small : IsDouble (1/2^60 : ℝ) :=
  ⟨1, -60, by norm_num, by norm_num, by norm_num, by norm_num [zpow_neg]⟩

private theorem two_small : (2:ℝ)^(-1000 : ℤ) ≤ 1 := by
  rw [show (1:ℝ) = (2:ℝ)^(0:ℤ) by norm_num]
  exact zpow_le_zpow_right₀ (by norm_num) (by norm_num)

/-- Three bins of weights 1, 1 and `2^-60` meet the hypotheses of `C125_cdf` and of `C125_default_violated`, with `k = 1`. -/
example (spline : List ℝ → List ℝ → ℝ → ℝ) :
    randomsPdfCubic64 spline [0, 1, 2] [1, 1, 1/2^60] [0] = .error .valueError := by
  have i0 : IsDouble (0:ℝ) := by simpa using dbl_int 0 (by norm_num)
  have i1 : IsDouble (1:ℝ) := by simpa using dbl_int 1 (by norm_num)
  refine C125_default_violated [0, 1, 2] [1, 1, 1/2^60] 3 (by norm_num) (by norm_num) rfl rfl ?_ ?_ i0 i1
    (by norm_num [List.getD]) ?_ spline 1 (by norm_num) ?_ ?_ [0] (by simp)
  · intro q hq
    simp only [List.mem_cons, List.not_mem_nil, or_false] at hq
    rcases hq with rfl | rfl | rfl
    exacts [i1, i1, dbl_small]
  · intro q hq
    simp only [List.mem_cons, List.not_mem_nil, or_false] at hq
    rcases hq with rfl | rfl | rfl <;> norm_num
  · refine two_small.trans ?_
    norm_num [Finset.sum_range_succ]
  · norm_num [Finset.sum_range_succ]
  · refine two_small.trans ?_
    norm_num [Finset.sum_range_succ]

/-- Two rings, of radii 1 and 2, with the values 3 and 5: the hypotheses of `C126_values` hold, and the integral is
`3π + 15π` up to the stated error. -/
example : ∃ c, cumulativeRadial64 [0, 1, 2] [3, 5] none = .ok (c, none) ∧
    |c.getD 2 0 - 18*Real.pi| ≤ 7/2^52*(28*Real.pi) + (2:ℝ)^(-1071 : ℤ)*10 := by
  obtain ⟨c, e, -, -, h, -⟩ := C126_values [0, 1, 2] [3, 5] 2 rfl rfl (by norm_num)
  refine ⟨c, e, ?_⟩
  have := h 2 le_rfl
  norm_num [Finset.sum_range_succ] at this ⊢
  ring_nf at this ⊢
  exact this

/-- A PDF of one value `2^-1070` on bins of width `2^-10`: the hypotheses of `C125_underflow_violated` hold. -/
example (spline : List ℝ → List ℝ → ℝ → ℝ) :
    randomsPdfCubic64 spline [0, (2:ℝ)^(-10 : ℤ)] [(2:ℝ)^(-1070 : ℤ), 0] [0] = .error .assertionError := by
  have i0 : IsDouble (0:ℝ) := by simpa using dbl_int 0 (by norm_num)
  have i1 : IsDouble ((2:ℝ)^(-10 : ℤ)) := ⟨1, -10, by norm_num, by norm_num, by norm_num, by simp⟩
  have i2 : IsDouble ((2:ℝ)^(-1070 : ℤ)) := ⟨1, -1070, by norm_num, by norm_num, by norm_num, by simp⟩
  refine C125_underflow_violated [0, (2:ℝ)^(-10 : ℤ)] [(2:ℝ)^(-1070 : ℤ), 0] 2 le_rfl (by norm_num) rfl rfl ?_ ?_ i0 i1 (two_zpow_pos _) spline ?_ [0]
  · intro q hq
    simp only [List.mem_cons, List.not_mem_nil, or_false] at hq
    rcases hq with rfl | rfl
    exacts [i2, i0]
  · intro q hq
    simp only [List.mem_cons, List.not_mem_nil, or_false] at hq
    rcases hq with rfl | rfl
    exacts [(two_zpow_pos _).le, le_rfl]
  · simp only [Finset.sum_range_succ, Finset.sum_range_zero, List.getD_cons_zero, List.getD_cons_succ, zero_add, add_zero,
      sub_zero]
    rw [← zpow_add₀ (by norm_num)]
    exact zpow_le_zpow_right₀ (by norm_num) (by norm_num)

/-- The table of `C125_range_violated` meets the hypotheses of `C125_linear`. -/
example (fused : Bool) : ∃ d d' : ℝ,
    randomsCdfLinear64 fused [-4, -1, 2] [0, 5224175567749775/2^54, 1] [1 - 1/2^53] = .ok [d] ∧
    randomsCdfLinear [-4, -1, 2] [0, 5224175567749775/2^54, 1] [1 - 1/2^53] = .ok [d'] ∧
    |d - d'| ≤ 4/2^48 + (2:ℝ)^(-1072 : ℤ) ∧ -4 ≤ d := by
  have i0 : IsDouble (0:ℝ) := by simpa using dbl_int 0 (by norm_num)
  have i1 : IsDouble (1:ℝ) := by simpa using dbl_int 1 (by norm_num)
  have i2 : IsDouble (2:ℝ) := by simpa using dbl_int 2 (by norm_num)
  have j1 : IsDouble (-1:ℝ) := by simpa using dbl_int (-1) (by norm_num)
  have j4 : IsDouble (-4:ℝ) := by simpa using dbl_int (-4) (by norm_num)
  have ic : IsDouble (5224175567749775/2^54 : ℝ) :=
    ⟨5224175567749775, -54, by norm_num, by norm_num, by norm_num, by norm_num [zpow_neg]⟩
  have iu : IsDouble (1 - 1/2^53 : ℝ) :=
    ⟨9007199254740991, -53, by norm_num, by norm_num, by norm_num, by norm_num [zpow_neg]⟩
  refine C125_linear fused [-4, -1, 2] [0, 5224175567749775/2^54, 1] 2 rfl rfl ?_ ?_ rfl rfl ?_ ?_ 4 ?_ _ iu
    (by norm_num) (by norm_num)
  · intro k hk
    interval_cases k
    exacts [i0, ic, i1]
  · intro k hk
    interval_cases k
    exacts [j4, j1, i2]
  · intro i j hij hj
    interval_cases j <;> interval_cases i <;> norm_num
  · intro i j hij hj
    interval_cases j <;> interval_cases i <;> norm_num
  · intro k hk
    interval_cases k <;> norm_num [abs_le]

end Magpie.Props
