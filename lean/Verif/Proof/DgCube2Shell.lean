import Verif.Spec.DgCube2Shell
import Verif.Proof.Box2Ring

set_option linter.unusedSimpArgs false
set_option linter.unusedVariables false
set_option linter.unusedSectionVars false

namespace Magpie.DgCube
open Magpie Magpie.Radial Magpie.OneD Magpie.Remap Magpie.Spec Magpie.Box2Ring Magpie.Cube Magpie.McCube
open Magpie.Coords

/-! ## Cells and images -/

theorem inCell_unique {lo hi : ℝ} (h : lo < hi) {n : ℕ} (hn : 0 < n) {x : ℝ} {a b : ℕ} (ha : InCell lo hi n a x)
    (hb : InCell lo hi n b x) : a = b := by
  rw [← Dg.cellIdx_eq h hn] at ha hb
  rw [ha] at hb
  exact Option.some.inj hb

theorem inCell_range {lo hi : ℝ} (h : lo < hi) {n : ℕ} (hn : 0 < n) {x : ℝ} {a : ℕ} (ha : InCell lo hi n a x) :
    lo ≤ x ∧ x < hi := (Dg.exists_inCell h hn x).mp ⟨a, ha⟩

/-- At most one image of a point is in the interval. -/
theorem image_unique {lo hi : ℝ} (h : lo < hi) {x : ℝ} {n m : ℤ} (h1 : lo ≤ x + n*(hi - lo) ∧ x + n*(hi - lo) < hi)
    (h2 : lo ≤ x + m*(hi - lo) ∧ x + m*(hi - lo) < hi) : n = m := by
  have hl : 0 < hi - lo := by linarith
  have a : ((n:ℝ) - m)*(hi - lo) < 1*(hi - lo) := by linarith
  have b : ((m:ℝ) - n)*(hi - lo) < 1*(hi - lo) := by linarith
  have a' := lt_of_mul_lt_mul_right a hl.le
  have b' := lt_of_mul_lt_mul_right b hl.le
  have a2 : n - m < 1 := by exact_mod_cast a'
  have b2 : m - n < 1 := by exact_mod_cast b'
  omega

theorem exists_reads {C : CubeArgs} (hC : CubeOk C) (A : ShellArgs) (v : ℕ → ℕ → ℕ → ℝ) (pt : ℝ × ℝ × ℝ) :
    ∃ g, Reads C A v pt g := by
  have nx : 0 < C.numx.toNat := by have := hC.numx; omega
  have ny : 0 < C.numy.toNat := by have := hC.numy; omega
  have nz : 0 < C.numz.toNat := by have := hC.numz; omega
  by_cases h : ∃ n a b c, InRange A n ∧ InCell3 C (image C n pt) a b c
  · obtain ⟨n, a, b, c, hn, hin⟩ := h
    refine ⟨v a b c, ?_, fun hno => absurd ⟨n, a, b, c, hn, hin⟩ hno⟩
    intro n' a' b' c' hn' hin'
    have e1 := image_unique hC.hx (inCell_range hC.hx nx hin.1) (inCell_range hC.hx nx hin'.1)
    have e2 := image_unique hC.hy (inCell_range hC.hy ny hin.2.1) (inCell_range hC.hy ny hin'.2.1)
    have e3 := image_unique hC.hz (inCell_range hC.hz nz hin.2.2) (inCell_range hC.hz nz hin'.2.2)
    have e : n = n' := Prod.ext e1 (Prod.ext e2 e3)
    subst e
    rw [inCell_unique hC.hx nx hin.1 hin'.1, inCell_unique hC.hy ny hin.2.1 hin'.2.1,
      inCell_unique hC.hz nz hin.2.2 hin'.2.2]
  · exact ⟨0, fun n a b c hn hin => absurd ⟨n, a, b, c, hn, hin⟩ h, fun _ => rfl⟩

theorem step_eq (lo hi : ℝ) {n : ℕ} (hn : 0 < n) :
    (linspace lo hi (n + 1)).getD 1 0 - (linspace lo hi (n + 1)).getD 0 0 = (hi - lo)/n := by
  rw [linspace_getD _ _ _ _ (by omega), linspace_getD _ _ _ _ (by omega)]
  exact edgeAt_diff _ _ _ 0

theorem axis_eq {lo hi : ℝ} (h : lo < hi) {n : ℕ} (hn : 0 < n) (x : ℝ) (k : ℕ) :
    Dg.cellIdx x ((linspace lo hi (n + 1)).getD 0 0)
      ((linspace lo hi (n + 1)).getD 1 0 - (linspace lo hi (n + 1)).getD 0 0)
      (mids (linspace lo hi (n + 1))).length = some k ↔ InCell lo hi n k x := by
  rw [step_eq _ _ hn, length_mids_linspace, linspace_getD _ _ _ _ (by omega), edgeAt_zero]
  exact Dg.cellIdx_eq h hn x k

theorem cellOf_iff {C : CubeArgs} (hC : CubeOk C) (r : ℝ) (ang : ℝ × ℝ) (c : ℝ × ℝ × ℝ) (a b d : ℕ) :
    cellOf C.grid r ang c = some (a, b, d) ↔ InCell3 C (sphere2cart r ang.2 ang.1 c) a b d := by
  have nx : 0 < C.numx.toNat := by have := hC.numx; omega
  have ny : 0 < C.numy.toNat := by have := hC.numy; omega
  have nz : 0 < C.numz.toNat := by have := hC.numz; omega
  unfold InCell3
  rw [← axis_eq hC.hx nx, ← axis_eq hC.hy ny, ← axis_eq hC.hz nz]
  unfold cellOf
  simp only [CubeArgs.grid]
  split
  · rename_i h1 h2 h3
    rw [h1, h2, h3]
    simp
  · rename_i hno
    simp only [reduceCtorEq, false_iff]
    rintro ⟨h1, h2, h3⟩
    exact hno _ _ _ h1 h2 h3

/-! ## The dense values -/

/-- All centres for which the point is in the cube give the value `g`. -/
theorem highres_ok (G : Grid3) (f : Arr3 (Option ℝ)) (r : ℝ) (ang : ℝ × ℝ) (g : Option ℝ) :
    ∀ (cs : List (ℝ × ℝ × ℝ)) (v : Option ℝ),
      (∀ c ∈ cs, ∀ a b d, cellOf G r ang c = some (a, b, d) → f.get a b d = .ok g) →
      (((∀ c ∈ cs, cellOf G r ang c = none) → v = g) → highres G f r ang cs v = .ok g)
  | [], v, _, h => by
    unfold highres
    rw [h (by simp)]
  | c :: cs, v, hc, h => by
    unfold highres
    cases e : cellOf G r ang c with
    | none =>
      simp only
      refine highres_ok G f r ang g cs v (fun c' hc' => hc c' (by simp [hc'])) fun hno => h ?_
      intro c' hc'
      rcases List.mem_cons.mp hc' with rfl | hc'
      · exact e
      · exact hno c' hc'
    | some t =>
      obtain ⟨a, b, d⟩ := t
      simp only
      rw [hc c (by simp) a b d e]
      exact highres_ok G f r ang g cs g (fun c' hc' => hc c' (by simp [hc'])) fun _ => rfl

theorem highres_cases (G : Grid3) (f : Arr3 (Option ℝ)) (r : ℝ) (ang : ℝ × ℝ) :
    ∀ (cs : List (ℝ × ℝ × ℝ)) (v : Option ℝ),
      (∃ x, highres G f r ang cs v = .ok x) ∨ highres G f r ang cs v = .error .indexError
  | [], v => .inl ⟨v, rfl⟩
  | c :: cs, v => by
    unfold highres
    cases e : cellOf G r ang c with
    | none => exact highres_cases G f r ang cs v
    | some t =>
      obtain ⟨a, b, d⟩ := t
      simp only
      unfold Arr3.get
      split_ifs
      · exact highres_cases G f r ang cs _
      · exact .inr rfl

theorem highres_error (G : Grid3) (f : Arr3 (Option ℝ)) (r : ℝ) (ang : ℝ × ℝ) :
    ∀ (cs : List (ℝ × ℝ × ℝ)) (v : Option ℝ),
      (∃ c ∈ cs, ∃ a b d, cellOf G r ang c = some (a, b, d) ∧ f.get a b d = .error .indexError) →
      highres G f r ang cs v = .error .indexError
  | [], v, ⟨c, hc, _⟩ => by cases hc
  | c :: cs, v, ⟨c', hc', a, b, d, h1, h2⟩ => by
    unfold highres
    rcases List.mem_cons.mp hc' with rfl | hc'
    · rw [h1]
      simp only
      rw [h2]
      rfl
    · cases e : cellOf G r ang c with
      | none => exact highres_error G f r ang cs v ⟨c', hc', a, b, d, h1, h2⟩
      | some t =>
        obtain ⟨a', b', d'⟩ := t
        simp only
        unfold Arr3.get
        split_ifs
        · exact highres_error G f r ang cs _ ⟨c', hc', a, b, d, h1, h2⟩
        · rfl

/-! ## `setup_polar` -/

theorem mem_perRange (p : ℤ × ℤ) (n : ℤ) : n ∈ perRange p ↔ p.1 ≤ n ∧ n ≤ p.2 := by
  unfold perRange
  simp only [List.mem_map, List.mem_range]
  constructor
  · rintro ⟨k, h1, h2⟩
    omega
  · rintro ⟨h1, h2⟩
    exact ⟨(n - p.1).toNat, by omega, by omega⟩

theorem mkCenters_nums {C : CubeArgs} (nx : 0 < C.numx) (ny : 0 < C.numy) (nz : 0 < C.numz) (A : ShellArgs) :
    ∃ cs, mkCenters (some C.grid) A = .ok cs ∧
    ∀ c, c ∈ cs ↔ ∃ n, InRange A n ∧ c = image C n (center3 A.center) := by
  have sx : side C.grid.xedges = C.xmax - C.xmin := by
    show (linspace C.xmin C.xmax (C.numx.toNat + 1)).getLastD 0 - (linspace C.xmin C.xmax (C.numx.toNat + 1)).getD 0 0 = _
    rw [linspace_getLastD _ _ _ (by omega), linspace_getD _ _ _ _ (by omega), edgeAt_zero]
  have sy : side C.grid.yedges = C.ymax - C.ymin := by
    show (linspace C.ymin C.ymax (C.numy.toNat + 1)).getLastD 0 - (linspace C.ymin C.ymax (C.numy.toNat + 1)).getD 0 0 = _
    rw [linspace_getLastD _ _ _ (by omega), linspace_getD _ _ _ _ (by omega), edgeAt_zero]
  have sz : side C.grid.zedges = C.zmax - C.zmin := by
    show (linspace C.zmin C.zmax (C.numz.toNat + 1)).getLastD 0 - (linspace C.zmin C.zmax (C.numz.toNat + 1)).getD 0 0 = _
    rw [linspace_getLastD _ _ _ (by omega), linspace_getD _ _ _ _ (by omega), edgeAt_zero]
  set idx := (perRange A.perx).flatMap fun i => (perRange A.pery).flatMap fun j =>
    (perRange A.perz).map fun k => (i, j, k) with hidx
  have hmem : ∀ n, n ∈ idx ↔ InRange A n := by
    intro n
    obtain ⟨i, j, k⟩ := n
    unfold InRange
    simp only [hidx, List.mem_flatMap, List.mem_map, mem_perRange, Prod.mk.injEq]
    constructor
    · rintro ⟨i', hi, j', hj, k', hk, rfl, rfl, rfl⟩
      exact ⟨hi, hj, hk⟩
    · rintro ⟨hi, hj, hk⟩
      exact ⟨i, hi, j, hj, k, hk, rfl, rfl, rfl⟩
  unfold mkCenters
  simp only [← hidx]
  by_cases h : idx = []
  · rw [if_pos h]
    refine ⟨[], rfl, fun c => ⟨fun hc => absurd hc List.not_mem_nil, ?_⟩⟩
    rintro ⟨n, hn, -⟩
    rw [← hmem, h] at hn
    cases hn
  · rw [if_neg h]
    simp only [need_some, bind, Except.bind, pure, Except.pure, sx, sy, sz]
    refine ⟨_, rfl, fun c => ?_⟩
    simp only [List.mem_map, hmem, image]
    constructor
    · rintro ⟨n, hn, rfl⟩
      exact ⟨n, hn, rfl⟩
    · rintro ⟨n, hn, rfl⟩
      exact ⟨n, hn, rfl⟩

theorem mkCenters_ok {C : CubeArgs} (hC : CubeOk C) (A : ShellArgs) : ∃ cs, mkCenters (some C.grid) A = .ok cs ∧
    ∀ c, c ∈ cs ↔ ∃ n, InRange A n ∧ c = image C n (center3 A.center) :=
  mkCenters_nums hC.numx hC.numy hC.numz A

theorem setupCube_nums {C : CubeArgs} (a : 0 < C.numx) (b : 0 < C.numy) (c : 0 < C.numz) (s : State) :
    setupCube C s = (.ok (), { s with cube := some C.grid }) := by
  unfold setupCube Cube.setupCube
  simp only [Meth.bind_apply, Meth.lift_apply, Meth.assign_apply, bind, Except.bind, pyAssert, gt_iff_lt, a, b, if_true]
  rw [if_neg (by omega), if_neg (by omega)]
  rfl

theorem setupCube_ok {C : CubeArgs} (h : CubeOk C) (s : State) :
    setupCube C s = (.ok (), { s with cube := some C.grid }) := setupCube_nums h.numx h.numy h.numz s

theorem shellChecks_ok {A : ShellArgs} (h1 : 0 ≤ A.rmin) (h2 : A.rmin < A.rmax) (h3 : 0 < A.numr)
    (h4 : A.center.length = 3) (h5 : 1 ≤ A.rebinShell) (h6 : 0 < A.nside) (h7 : 1 ≤ A.rebinR) :
    shellChecks A = .ok () := by
  have h8 : 0 < A.nside*A.rebinShell := by positivity
  unfold shellChecks
  simp only [bind, Except.bind, pyAssert, ge_iff_le, gt_iff_lt, isNsideOk, h1, h2, h3, h4, h5, h6, h7, h8, if_true]

theorem shellChecks_iff (A : ShellArgs) : shellChecks A = .ok () ↔
    0 ≤ A.rmin ∧ A.rmin < A.rmax ∧ 0 < A.numr ∧ A.center.length = 3 ∧ 1 ≤ A.rebinShell ∧ 0 < A.nside ∧ 1 ≤ A.rebinR := by
  constructor
  · intro h
    unfold shellChecks pyAssert at h
    simp only [bind, Except.bind, ge_iff_le, gt_iff_lt] at h
    by_contra hc
    have : ∀ (p : Prop) [Decidable p] (x : Py Unit), (if p then (Except.ok () : Py Unit) else .error .assertionError) = .ok () ↔ p := by
      intro p _ x
      by_cases hp : p <;> simp [hp]
    by_cases h1 : 0 ≤ A.rmin
    · by_cases h2 : A.rmin < A.rmax
      · by_cases h3 : 0 < A.numr
        · by_cases h4 : A.center.length = 3
          · by_cases h5 : 1 ≤ A.rebinShell
            · by_cases h6 : 0 < A.nside
              · by_cases h7 : 1 ≤ A.rebinR
                · exact hc ⟨h1, h2, h3, h4, h5, h6, h7⟩
                · have h8 : 0 < A.nside*A.rebinShell := by positivity
                  simp [isNsideOk, h1, h2, h3, h4, h5, h6, h7, h8] at h
              · simp [isNsideOk, h1, h2, h3, h4, h5, h6] at h
            · simp [h1, h2, h3, h4, h5] at h
          · simp [h1, h2, h3, h4] at h
        · simp [h1, h2, h3] at h
      · simp [h1, h2] at h
    · simp [h1] at h
  · rintro ⟨h1, h2, h3, h4, h5, h6, h7⟩
    exact shellChecks_ok h1 h2 h3 h4 h5 h6 h7

theorem shell_pos {A : ShellArgs} (h : ShellOk A) : 0 < A.nside*A.rebinShell := by
  have := h.nside
  have := h.rebinShell
  positivity

/-- The object after `setup_cube` and `setup_polar`. -/
structure IsSetup (C : CubeArgs) (A : ShellArgs) (cs : List (ℝ × ℝ × ℝ)) (s : State) : Prop where
  cube : s.cube = some C.grid
  edges : s.edges = some (linspace A.rmin A.rmax (A.numr.toNat + 1), mids (linspace A.rmin A.rmax (A.numr.toNat + 1)))
  shell : s.shell = some ⟨A.nside, center3 A.center, A.rebinShell, A.rebinR.toNat, cs,
    linspace A.rmin A.rmax (denseNum A + 1), mids (linspace A.rmin A.rmax (denseNum A + 1))⟩
  mem : ∀ c, c ∈ cs ↔ ∃ n, InRange A n ∧ c = image C n (center3 A.center)

theorem setup_run_nums {C : CubeArgs} {A : ShellArgs} (nx : 0 < C.numx) (ny : 0 < C.numy) (nz : 0 < C.numz)
    (hA : ShellOk A) (s : State) :
    ∃ cs s', (do setupCube C; setupPolar A : Meth State Unit) s = (.ok (), s') ∧ IsSetup C A cs s' := by
  obtain ⟨cs, ecs, hcs⟩ := mkCenters_nums nx ny nz A
  have h3 := hA.numr
  have e1 : firstDiff (mids (linspace A.rmin A.rmax (A.numr.toNat + 1))) = _ :=
    firstDiff_mids A.rmin A.rmax A.numr.toNat (by omega)
  have e2 := shellChecks_ok hA.rmin hA.r (by omega) hA.center hA.rebinShell hA.nside hA.rebinR
  have e3 : (linspace A.rmin A.rmax (A.numr.toNat + 1)).getD 0 0 = A.rmin := by
    rw [linspace_getD _ _ _ _ (by omega), edgeAt_zero]
  have e4 : (linspace A.rmin A.rmax (A.numr.toNat + 1)).getLastD 0 = A.rmax := linspace_getLastD _ _ _ (by omega)
  unfold setupPolar
  simp only [Meth.bind_apply, Meth.lift_apply, Meth.assign_apply, Meth.self_apply, setupCube_nums nx ny nz, e1, e2, ecs,
    e3, e4, length_mids_linspace]
  exact ⟨cs, _, rfl, ⟨rfl, rfl, rfl, hcs⟩⟩

theorem setup_run {C : CubeArgs} {A : ShellArgs} (hC : CubeOk C) (hA : ShellOk A) (s : State) :
    ∃ cs s', (do setupCube C; setupPolar A : Meth State Unit) s = (.ok (), s') ∧ IsSetup C A cs s' :=
  setup_run_nums hC.numx hC.numy hC.numz hA s

/-! ## `hp.ud_grade` -/

theorem zero_good : ¬ isBad 0 := by
  unfold isBad unseen
  rw [zero_sub, abs_neg, not_le, abs_of_neg (by norm_num : (-1.6375e30:ℝ) < 0)]
  norm_num

theorem udGrade_ok (l : List ℕ) (hl : l ≠ []) (g : ℕ → ℝ) (h : ∀ q ∈ l, ¬ isBad (g q)) :
    udGrade (l.map fun q => some (g q)) = some (meanAt l g) := by
  unfold udGrade meanAt
  have e1 : (l.map fun q => some (g q)).filterMap id = l.map g := by
    rw [List.filterMap_map]
    show l.filterMap (fun q => some (g q)) = _
    exact congrFun List.filterMap_eq_map' l
  have e2 : (open Classical in (l.map g).filter fun x => decide (¬ isBad x)) = l.map g := by
    rw [List.filter_eq_self]
    intro x hx
    obtain ⟨q, hq, rfl⟩ := List.mem_map.mp hx
    simpa using h q hq
  split
  · rename_i v hv
    obtain ⟨q, rfl, rfl⟩ : ∃ q, l = [q] ∧ v = some (g q) := by
      match l, hv with
      | [q], hv => exact ⟨q, rfl, by simpa using hv.symm⟩
    simp
  · simp only [e1, e2]
    rw [if_neg (by simpa using hl), if_neg (by simp), List.length_map]

/-! ## `remap` -/

theorem reshape3_rows {α : Type} (a : Arr2 α) (n m : ℕ) (hr : a.rows = n*m) (hc : 0 < a.cols) :
    ∃ t, a.reshape3 n m a.cols = .ok t ∧ ∀ i k p, p < a.cols → t i k p = a.val (i*m + k) p := by
  unfold Arr2.reshape3
  rw [if_pos (by rw [hr])]
  refine ⟨_, rfl, fun i k p hp => ?_⟩
  simp only
  rw [add_comm, Nat.add_mul_div_right _ _ hc, Nat.div_eq_of_lt hp, Nat.add_mul_mod_self_right, Nat.mod_eq_of_lt hp,
    Nat.zero_add]

/-- The weight of dense shell `k`. -/
noncomputable def wt (A : ShellArgs) (k : ℕ) : ℝ :=
  edgeAt A.rmin A.rmax (denseNum A) (k+1)^3 - edgeAt A.rmin A.rmax (denseNum A) k^3

theorem denseVol_eq (A : ShellArgs) (k : ℕ) : denseVol A k = 4/3*Real.pi*wt A k := rfl

theorem rw_getD (A : ShellArgs) (k : ℕ) (h : k < denseNum A) :
    (List.zipWith (fun b a => b^3 - a^3) (linspace A.rmin A.rmax (denseNum A + 1)).tail
      (linspace A.rmin A.rmax (denseNum A + 1)).dropLast).getD k 0 = wt A k := by
  rw [tail_linspace, dropLast_linspace, List.zipWith_map, List.zipWith_self, getD_range_map _ _ _ h]
  rfl

theorem rw_length (A : ShellArgs) :
    (List.zipWith (fun b a => b^3 - a^3) (linspace A.rmin A.rmax (denseNum A + 1)).tail
      (linspace A.rmin A.rmax (denseNum A + 1)).dropLast).length = denseNum A := by
  rw [tail_linspace, dropLast_linspace, List.length_zipWith]; simp

theorem denseNum_pos {A : ShellArgs} (h : ShellOk A) : 0 < denseNum A := by
  have a := h.numr
  have b := h.rebinR
  exact Nat.mul_pos (by omega) (by omega)

theorem wt_pos {A : ShellArgs} (h : ShellOk A) (k : ℕ) : 0 < wt A k := by
  have h1 := edgeAt_strict h.r (denseNum_pos h) (Nat.lt_succ_self k)
  have h0 : 0 ≤ edgeAt A.rmin A.rmax (denseNum A) k := by
    have := edgeAt_mono h.r.le (denseNum A) (Nat.zero_le k)
    rw [edgeAt_zero] at this
    exact h.rmin.trans this
  unfold wt
  have := pow_lt_pow_left₀ h1 h0 (by norm_num : (3:ℕ) ≠ 0)
  simp only [Nat.succ_eq_add_one] at this
  linarith

theorem pixelMean_eq (hp : Hp) {A : ShellArgs} (h : ShellOk A) (g : ℕ → ℕ → ℝ) (i p : ℕ) :
    pixelMean hp A g i p = (∑ k ∈ Finset.range A.rebinR.toNat, wt A (i*A.rebinR.toNat + k)*
        meanAt (subpix hp A p) (g (i*A.rebinR.toNat + k))) /
      ∑ k ∈ Finset.range A.rebinR.toNat, wt A (i*A.rebinR.toNat + k) := by
  unfold pixelMean
  simp only [denseVol_eq, mul_assoc]
  rw [← Finset.mul_sum, ← Finset.mul_sum, ← Finset.mul_sum, ← Finset.mul_sum, mul_div_mul_left _ _ (by norm_num),
    mul_div_mul_left _ _ Real.pi_ne_zero]

theorem npix_ok {n : ℤ} (h : 0 < n) : nside2npix n = .ok (npixOf n) := by
  unfold nside2npix
  rw [if_pos (show isNsideOk n from h)]
  rfl

/-- The point the code computes from a centre is the image of the dense point. -/
theorem point_image (hp : Hp) (C : CubeArgs) (A : ShellArgs) (n : ℤ × ℤ × ℤ) {k : ℕ} (hk : k < denseNum A) (q : ℕ) :
    sphere2cart ((mids (linspace A.rmin A.rmax (denseNum A + 1))).getD k 0)
      (hp.pix2ang (A.nside*A.rebinShell) q).2 (hp.pix2ang (A.nside*A.rebinShell) q).1
      (image C n (center3 A.center)) = image C n (densePoint hp A k q) := by
  rw [mids_getD _ _ _ _ hk]
  unfold sphere2cart image densePoint center3
  simp only [Prod.mk.injEq]
  refine ⟨by ring, by ring, by ring⟩

/-- `remap` without its last lines: the table of the dense values. -/
theorem remap_run (hp : Hp) {C : CubeArgs} {A : ShellArgs} (hA : ShellOk A) {cs : List (ℝ × ℝ × ℝ)} {s : State}
    (hs : IsSetup C A cs s) (f : Arr3 (Option ℝ)) (t : Py (Arr2 (Option ℝ)))
    (ht : Box2Ring.tabulate (denseNum A) (npixOf (A.nside*A.rebinShell)) (fun i q =>
      highres C.grid f ((mids (linspace A.rmin A.rmax (denseNum A + 1))).getD i 0)
        (hp.pix2ang (A.nside*A.rebinShell) q) cs (some 0)) none = t) :
    remap hp f s = match t with
      | .error e => (.error e, s)
      | .ok hi => (((do
        let rw3 ← (⟨denseNum A, 1, fun i _ => some ((List.zipWith (fun b a => b^3 - a^3)
          (linspace A.rmin A.rmax (denseNum A + 1)).tail
          (linspace A.rmin A.rmax (denseNum A + 1)).dropLast).getD i 0)⟩ : Arr2 (Option ℝ)).reshape3
            A.numr.toNat A.rebinR.toNat 1
        let s3 ← (⟨denseNum A, npixOf A.nside, fun i p => omul (udGrade ((subpix hp A p).map (hi.val i)))
          ((List.zipWith (fun b a => b^3 - a^3) (linspace A.rmin A.rmax (denseNum A + 1)).tail
            (linspace A.rmin A.rmax (denseNum A + 1)).dropLast).getD i 0)⟩ : Arr2 (Option ℝ)).reshape3
              A.numr.toNat A.rebinR.toNat (npixOf A.nside)
        return ⟨A.numr.toNat, npixOf A.nside, fun i p =>
          odiv (npSum ((List.range A.rebinR.toNat).map fun k => s3 i k p))
            (npSum ((List.range A.rebinR.toNat).map fun k => rw3 i k 0))⟩) : Py (Arr2 (Option ℝ))), s) := by
  have hne : mids (linspace A.rmin A.rmax (denseNum A + 1)) ≠ [] := by
    have : (mids (linspace A.rmin A.rmax (denseNum A + 1))).length = denseNum A := length_mids_linspace _ _ _
    intro h
    rw [h] at this
    have := denseNum_pos hA
    simp at *
    omega
  have hcase : Box2Ring.tabulate (denseNum A) (npixOf (A.nside*A.rebinShell)) (fun i q =>
      entry (if cs = [] then (none : Option Grid3) else some C.grid) f
        ((mids (linspace A.rmin A.rmax (denseNum A + 1))).getD i 0)
        (hp.pix2ang (A.nside*A.rebinShell) q) cs) none = t := by
    rw [← ht]
    by_cases h : cs = []
    · subst h
      simp [highres, entry]
    · simp [h, entry]
  have hg : (if mids (linspace A.rmin A.rmax (denseNum A + 1)) = [] ∨ cs = [] then
      (.ok none : Py (Option Grid3)) else (need s.cube).map some)
      = .ok (if cs = [] then none else some C.grid) := by
    rw [hs.cube, need_some]
    by_cases h : cs = [] <;> simp [h, hne, Except.map]
  unfold remap
  simp only [Meth.bind_apply, Meth.self_apply, Meth.lift_apply, hs.shell, hs.edges, need_some, npix_ok hA.nside,
    npix_ok (shell_pos hA), hg, length_mids_linspace, rw_length]
  rw [hcase]
  cases t with
  | error e => rfl
  | ok hi =>
    simp only [bind, Except.bind, pure, Except.pure, Meth.pure_apply, subpix]
    cases (⟨denseNum A, 1, fun i _ => some ((List.zipWith (fun b a => b^3 - a^3)
          (linspace A.rmin A.rmax (denseNum A + 1)).tail
          (linspace A.rmin A.rmax (denseNum A + 1)).dropLast).getD i 0)⟩ : Arr2 (Option ℝ)).reshape3
            A.numr.toNat A.rebinR.toNat 1 with
    | error e => rfl
    | ok r3 =>
      simp only
      cases (⟨denseNum A, npixOf A.nside, fun i p => omul (udGrade ((hp.children (A.nside*A.rebinShell) A.nside p).map (hi.val i)))
          ((List.zipWith (fun b a => b^3 - a^3) (linspace A.rmin A.rmax (denseNum A + 1)).tail
            (linspace A.rmin A.rmax (denseNum A + 1)).dropLast).getD i 0)⟩ : Arr2 (Option ℝ)).reshape3
              A.numr.toNat A.rebinR.toNat (npixOf A.nside) <;> rfl

theorem npix_pos {n : ℤ} (h : 0 < n) : 0 < npixOf n := by
  unfold npixOf
  have : 0 < n.toNat := by omega
  positivity

theorem reads_good {C : CubeArgs} {A : ShellArgs} {f : Arr3 (Option ℝ)} {v : ℕ → ℕ → ℕ → ℝ} (hf : Holds C f v)
    {pt : ℝ × ℝ × ℝ} {g : ℝ} (hg : Reads C A v pt g) : ¬ isBad g := by
  by_cases h : ∃ n a b c, InRange A n ∧ InCell3 C (image C n pt) a b c
  · obtain ⟨n, a, b, c, hn, hin⟩ := h
    rw [hg.1 n a b c hn hin]
    exact (hf.val a b c hin.1.1 hin.2.1.1 hin.2.2.1).2
  · rw [hg.2 h]
    exact zero_good

theorem highres_reads (hp : Hp) {C : CubeArgs} {A : ShellArgs} (hC : CubeOk C) {cs : List (ℝ × ℝ × ℝ)}
    (hcs : ∀ c, c ∈ cs ↔ ∃ n, InRange A n ∧ c = image C n (center3 A.center))
    {f : Arr3 (Option ℝ)} {v : ℕ → ℕ → ℕ → ℝ} (hf : Holds C f v) {k q : ℕ} (hk : k < denseNum A) {g : ℝ}
    (hg : Reads C A v (densePoint hp A k q) g) :
    highres C.grid f ((mids (linspace A.rmin A.rmax (denseNum A + 1))).getD k 0)
      (hp.pix2ang (A.nside*A.rebinShell) q) cs (some 0) = .ok (some g) := by
  apply highres_ok
  · intro c hc a b d h
    obtain ⟨n, hn, rfl⟩ := (hcs c).mp hc
    rw [cellOf_iff hC, point_image hp C A n hk] at h
    have := hf.n0; have := hf.n1; have := hf.n2
    have h0 := h.1.1; have h1 := h.2.1.1; have h2 := h.2.2.1
    unfold Arr3.get
    rw [if_pos ⟨by omega, by omega, by omega⟩, (hf.val a b d h0 h1 h2).1, hg.1 n a b d hn h]
  · intro hno
    rw [hg.2]
    rintro ⟨n, a, b, d, hn, h⟩
    rw [← point_image hp C A n hk, ← cellOf_iff hC] at h
    rw [hno _ ((hcs _).mpr ⟨n, hn, rfl⟩)] at h
    cases h

theorem remap_ok (hp : Hp) {C : CubeArgs} {A : ShellArgs} (hC : CubeOk C) (hA : ShellOk A) (hhp : HpOk hp A)
    (f : Arr3 (Option ℝ)) (v : ℕ → ℕ → ℕ → ℝ) (hf : Holds C f v) (s : State) :
    ∃ out s', dgRemap hp C A f s = (.ok out, s') ∧ out.rows = A.numr.toNat ∧ out.cols = npixOf A.nside ∧
      ∀ i p, i < A.numr.toNat → p < npixOf A.nside → ∀ g : ℕ → ℕ → ℝ,
        (∀ k q, k < A.rebinR.toNat → q ∈ subpix hp A p →
          Reads C A v (densePoint hp A (i*A.rebinR.toNat + k) q) (g (i*A.rebinR.toNat + k) q)) →
        out.val i p = some (pixelMean hp A g i p) := by
  obtain ⟨cs, s', e, hs⟩ := setup_run hC hA s
  choose g hg using fun k q => exists_reads hC A v (densePoint hp A k q)
  obtain ⟨hi, ehi, hir, hic, hiv⟩ := tabulate_ok (denseNum A) (npixOf (A.nside*A.rebinShell)) (fun i q =>
      highres C.grid f ((mids (linspace A.rmin A.rmax (denseNum A + 1))).getD i 0)
        (hp.pix2ang (A.nside*A.rebinShell) q) cs (some 0)) (fun k q => some (g k q)) none
    (fun k q hk _ => highres_reads hp hC hs.mem hf hk (hg k q))
  have hrun := remap_run hp hA hs f _ ehi
  simp only at hrun
  have hnp := npix_pos hA.nside
  have hnum : denseNum A = A.numr.toNat*A.rebinR.toNat := Nat.mul_comm _ _
  obtain ⟨r3, er3, hr3⟩ := reshape3_rows (⟨denseNum A, 1, fun i _ => some ((List.zipWith (fun b a => b^3 - a^3)
          (linspace A.rmin A.rmax (denseNum A + 1)).tail
          (linspace A.rmin A.rmax (denseNum A + 1)).dropLast).getD i 0)⟩ : Arr2 (Option ℝ)) A.numr.toNat
            A.rebinR.toNat hnum (by simp)
  obtain ⟨s3, es3, hs3⟩ := reshape3_rows (⟨denseNum A, npixOf A.nside, fun i p =>
        omul (udGrade ((subpix hp A p).map (hi.val i)))
          ((List.zipWith (fun b a => b^3 - a^3) (linspace A.rmin A.rmax (denseNum A + 1)).tail
            (linspace A.rmin A.rmax (denseNum A + 1)).dropLast).getD i 0)⟩ : Arr2 (Option ℝ)) A.numr.toNat
            A.rebinR.toNat hnum hnp
  simp only at er3 es3
  rw [er3] at hrun
  simp only [bind, Except.bind] at hrun
  rw [es3] at hrun
  simp only [pure, Except.pure] at hrun
  have erun : dgRemap hp C A f s = remap hp f s' := by
    have e' := e
    unfold dgRemap
    simp only [Meth.bind_apply] at e' ⊢
    cases h1 : setupCube C s with
    | mk a b =>
      rw [h1] at e'
      cases a with
      | error _ => simp at e'
      | ok _ =>
        simp only at e' ⊢
        rw [e']
  refine ⟨_, s', by rw [erun, hrun], rfl, rfl, ?_⟩
  intro i p hi' hp' g' hg'
  have hm : 0 < A.rebinR.toNat := by have := hA.rebinR; omega
  have hlt : ∀ k, k < A.rebinR.toNat → i*A.rebinR.toNat + k < denseNum A := by
    intro k hk
    rw [hnum]
    have : (i+1)*A.rebinR.toNat ≤ A.numr.toNat*A.rebinR.toNat := Nat.mul_le_mul_right _ hi'
    rw [Nat.succ_mul] at this
    omega
  have hgg : ∀ k q, k < A.rebinR.toNat → q ∈ subpix hp A p →
      g' (i*A.rebinR.toNat + k) q = g (i*A.rebinR.toNat + k) q := by
    intro k q hk hq
    have a := highres_reads hp hC hs.mem hf (hlt k hk) (hg' k q hk hq)
    have b := highres_reads hp hC hs.mem hf (hlt k hk) (hg (i*A.rebinR.toNat + k) q)
    rw [a] at b
    simpa using b
  have hud : ∀ k, k < A.rebinR.toNat → udGrade ((subpix hp A p).map (hi.val (i*A.rebinR.toNat + k)))
      = some (meanAt (subpix hp A p) (g' (i*A.rebinR.toNat + k))) := by
    intro k hk
    rw [← udGrade_ok (subpix hp A p) (hhp p hp').1 _ fun q hq => reads_good hf (hg' k q hk hq)]
    congr 1
    apply List.map_congr_left
    intro q hq
    rw [hiv _ _ (hlt k hk) ((hhp p hp').2 q hq), hgg k q hk hq]
  have hsum : 0 < ∑ k ∈ Finset.range A.rebinR.toNat, wt A (i*A.rebinR.toNat + k) :=
    Finset.sum_pos (fun k _ => wt_pos hA _) ⟨0, by simpa using hm⟩
  simp only
  rw [npSum_range_congr _ _ fun k => wt A (i*A.rebinR.toNat + k)*
        meanAt (subpix hp A p) (g' (i*A.rebinR.toNat + k)),
    npSum_range_congr _ _ fun k => wt A (i*A.rebinR.toNat + k), pixelMean_eq hp hA]
  · unfold odiv fdiv
    simp only
    rw [if_neg hsum.ne']
  · intro k hk
    rw [hr3 i k 0 (by simp)]
    simp only
    rw [rw_getD A _ (hlt k hk)]
  · intro k hk
    rw [hs3 i k p hp']
    simp only
    rw [rw_getD A _ (hlt k hk), hud k hk]
    simp [omul, mul_comm]

theorem remap_error (hp : Hp) {C : CubeArgs} {A : ShellArgs} (hC : CubeOk C) (hA : ShellOk A)
    (f : Arr3 (Option ℝ)) (s : State) {k q : ℕ} (hk : k < denseNum A) (hq : q < npixOf (A.nside*A.rebinShell))
    {n : ℤ × ℤ × ℤ} {a b c : ℕ} (hn : InRange A n) (hin : InCell3 C (image C n (densePoint hp A k q)) a b c)
    (hout : f.n0 ≤ a ∨ f.n1 ≤ b ∨ f.n2 ≤ c) : ∃ s', dgRemap hp C A f s = (.error .indexError, s') := by
  obtain ⟨cs, s', e, hs⟩ := setup_run hC hA s
  have ht : Box2Ring.tabulate (denseNum A) (npixOf (A.nside*A.rebinShell)) (fun i q =>
      highres C.grid f ((mids (linspace A.rmin A.rmax (denseNum A + 1))).getD i 0)
        (hp.pix2ang (A.nside*A.rebinShell) q) cs (some 0)) none = .error .indexError := by
    have key : ∀ {α β : Type} (F : α → Py β) (l : List α), (∀ x ∈ l, (∃ y, F x = .ok y) ∨ F x = .error .indexError) →
        ((∃ y, pyMap F l = .ok y) ∨ pyMap F l = .error .indexError) ∧
        ((∃ x ∈ l, F x = .error .indexError) → pyMap F l = .error .indexError) := by
      intro α β F l
      induction l with
      | nil => exact fun _ => ⟨.inl ⟨[], rfl⟩, fun ⟨x, hx, _⟩ => by cases hx⟩
      | cons x l ih =>
        intro h
        obtain ⟨i1, i2⟩ := ih fun y hy => h y (by simp [hy])
        unfold pyMap
        rcases h x (by simp) with ⟨y, hy⟩ | hy
        · rw [hy]
          simp only [bind, Except.bind]
          constructor
          · rcases i1 with ⟨z, hz⟩ | hz
            · rw [hz]; exact .inl ⟨_, rfl⟩
            · rw [hz]; exact .inr rfl
          · rintro ⟨w, hw, hwe⟩
            rcases List.mem_cons.mp hw with rfl | hw
            · rw [hy] at hwe; cases hwe
            · rw [i2 ⟨w, hw, hwe⟩]
        · rw [hy]
          exact ⟨.inr rfl, fun _ => rfl⟩
    have hrow : ∀ i, (∃ y, pyMap (fun q => highres C.grid f ((mids (linspace A.rmin A.rmax (denseNum A + 1))).getD i 0)
        (hp.pix2ang (A.nside*A.rebinShell) q) cs (some 0)) (List.range (npixOf (A.nside*A.rebinShell))) = .ok y) ∨ _ :=
      fun i => (key _ _ fun q _ => highres_cases ..).1
    unfold tabulate
    rw [(key _ (List.range (denseNum A)) fun i _ => hrow i).2 ⟨k, List.mem_range.mpr hk, ?_⟩]
    · rfl
    · refine (key _ _ fun q _ => highres_cases ..).2 ⟨q, List.mem_range.mpr hq, ?_⟩
      apply highres_error
      refine ⟨_, (hs.mem _).mpr ⟨n, hn, rfl⟩, a, b, c, ?_, ?_⟩
      · rw [cellOf_iff hC, point_image hp C A n hk]
        exact hin
      · unfold Arr3.get
        rw [if_neg (by omega)]
  have hrun : remap hp f s' = (.error .indexError, s') := remap_run hp hA hs f _ ht
  refine ⟨s', ?_⟩
  rw [← hrun]
  have e' := e
  unfold dgRemap
  simp only [Meth.bind_apply] at e' ⊢
  cases h1 : setupCube C s with
  | mk a b =>
    rw [h1] at e'
    cases a with
    | error _ => simp at e'
    | ok _ =>
      simp only at e' ⊢
      rw [e']

end Magpie.DgCube
