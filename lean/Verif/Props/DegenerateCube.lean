import Verif.Spec.DegenerateCube
import Verif.Props.Degenerate
import Verif.Props.DgCube2Shell

/-!
# Property C119 for the dense grid `Cube2Shell`

`exchangeCubeX`, `flip0`, `oppRange` and so on are in `Verif/Spec/DegenerateCube.lean`.
-/

set_option linter.unusedSimpArgs false
set_option linter.unusedVariables false
set_option linter.unusedSectionVars false

namespace Magpie.Props
open Magpie Magpie.Radial Magpie.OneD Magpie.Remap Magpie.Spec Magpie.Box2Ring Magpie.Cube Magpie.Coords
open Magpie.DgCube (Hp ShellOk HpOk densePoint denseNum npixOf image InRange dgRemap)

namespace Degenerate

/-- The cell along all three axes. -/
noncomputable def cell3 (C : CubeArgs) (p : ℝ × ℝ × ℝ) : Option (ℕ × ℕ × ℕ) :=
  match axis C.xmin C.xmax C.numx.toNat p.1, axis C.ymin C.ymax C.numy.toNat p.2.1,
      axis C.zmin C.zmax C.numz.toNat p.2.2 with
  | some a, some b, some d => some (a, b, d)
  | _, _, _ => none

theorem cell3_some {C : CubeArgs} {p : ℝ × ℝ × ℝ} {a b d : ℕ} : cell3 C p = some (a, b, d) ↔
    axis C.xmin C.xmax C.numx.toNat p.1 = some a ∧ axis C.ymin C.ymax C.numy.toNat p.2.1 = some b ∧
      axis C.zmin C.zmax C.numz.toNat p.2.2 = some d := by
  unfold cell3
  cases axis C.xmin C.xmax C.numx.toNat p.1 <;> cases axis C.ymin C.ymax C.numy.toNat p.2.1 <;>
    cases axis C.zmin C.zmax C.numz.toNat p.2.2 <;> simp

theorem cellOf_cell3 {C : CubeArgs} (nx : 0 < C.numx) (ny : 0 < C.numy) (nz : 0 < C.numz) (r : ℝ) (ang : ℝ × ℝ)
    (c : ℝ × ℝ × ℝ) : DgCube.cellOf C.grid r ang c = cell3 C (sphere2cart r ang.2 ang.1 c) := by
  obtain ⟨a1, a2, a3⟩ := cell_args C.xmin C.xmax (n := C.numx.toNat) (by omega)
  obtain ⟨b1, b2, b3⟩ := cell_args C.ymin C.ymax (n := C.numy.toNat) (by omega)
  obtain ⟨c1, c2, c3⟩ := cell_args C.zmin C.zmax (n := C.numz.toNat) (by omega)
  unfold DgCube.cellOf cell3 axis CubeArgs.grid
  simp only [a2, a3, b2, b3, c2, c3]
  rw [a1, b1, c1]
  rfl

theorem highres_none (G : Grid3) (f : Arr3 (Option ℝ)) (r : ℝ) (ang : ℝ × ℝ) (cs : List (ℝ × ℝ × ℝ)) (v : Option ℝ)
    (h : ∀ c ∈ cs, DgCube.cellOf G r ang c = none) : DgCube.highres G f r ang cs v = .ok v :=
  DgCube.highres_ok G f r ang v cs v (fun c hc a b d e => by rw [h c hc] at e; cases e) fun _ => rfl

theorem highres_some (G : Grid3) (f : Arr3 (Option ℝ)) (r : ℝ) (ang : ℝ × ℝ) (cs : List (ℝ × ℝ × ℝ)) (v : Option ℝ)
    (a b d : ℕ) (h1 : ∃ c ∈ cs, DgCube.cellOf G r ang c = some (a, b, d))
    (h2 : ∀ c ∈ cs, ∀ t, DgCube.cellOf G r ang c = some t → t = (a, b, d)) :
    DgCube.highres G f r ang cs v = f.get a b d := by
  obtain ⟨c0, hc0, e0⟩ := h1
  by_cases hin : a < f.n0 ∧ b < f.n1 ∧ d < f.n2
  · have hg : f.get a b d = .ok (f.val a b d) := by unfold Arr3.get; rw [if_pos hin]
    rw [hg]
    refine DgCube.highres_ok G f r ang _ cs v (fun c hc a' b' d' e => ?_) fun h => ?_
    · have := h2 c hc _ e
      simp only [Prod.mk.injEq] at this
      obtain ⟨rfl, rfl, rfl⟩ := this
      exact hg
    · rw [h c0 hc0] at e0; cases e0
  · have hg : f.get a b d = .error .indexError := by unfold Arr3.get; rw [if_neg hin]
    rw [hg]
    exact DgCube.highres_error G f r ang cs v ⟨c0, hc0, a, b, d, e0, hg⟩

theorem axis_image_unique {lo hi : ℝ} {N : ℕ} (hN : 0 < N) {x : ℝ} {i j : ℤ} {k l : ℕ}
    (h1 : axis lo hi N (x + i*(hi - lo)) = some k) (h2 : axis lo hi N (x + j*(hi - lo)) = some l) : i = j := by
  have hN' : (0:ℝ) < N := by exact_mod_cast hN
  have key : ∀ {y : ℝ} {k : ℕ}, axis lo hi N y = some k → hi - lo ≠ 0 ∧ 0 ≤ (y - lo)/(hi - lo) ∧ (y - lo)/(hi - lo) < 1 := by
    intro y k h
    unfold axis Dg.cellIdx at h
    simp only at h
    split_ifs at h with h0 h1
    have hne : hi - lo ≠ 0 := by
      intro e
      exact h0 (by rw [e, zero_div])
    have e : (y - lo)/((hi - lo)/N) = (y - lo)/(hi - lo)*N := by field_simp
    rw [e] at h1
    have ha := Int.floor_nonneg.mp h1.1
    have hb := Int.floor_lt.mp h1.2
    push_cast at hb
    refine ⟨hne, ?_, ?_⟩
    · exact nonneg_of_mul_nonneg_left ha hN'
    · by_contra hc
      push Not at hc
      have := mul_le_mul_of_nonneg_right hc hN'.le
      linarith
  obtain ⟨hne, a1, a2⟩ := key h1
  obtain ⟨-, b1, b2⟩ := key h2
  have e : ∀ m : ℤ, (x + m*(hi - lo) - lo)/(hi - lo) = (x - lo)/(hi - lo) + m := by
    intro m; field_simp; ring
  rw [e] at a1 a2 b1 b2
  have c1 : ((i:ℝ) - j) < 1 := by linarith
  have c2 : ((j:ℝ) - i) < 1 := by linarith
  have c1' : i - j < 1 := by exact_mod_cast c1
  have c2' : j - i < 1 := by exact_mod_cast c2
  omega

theorem cell3_image_unique {C : CubeArgs} (nx : 0 < C.numx) (ny : 0 < C.numy) (nz : 0 < C.numz) {p : ℝ × ℝ × ℝ}
    {n m : ℤ × ℤ × ℤ} {t u : ℕ × ℕ × ℕ} (h1 : cell3 C (image C n p) = some t) (h2 : cell3 C (image C m p) = some u) :
    n = m := by
  obtain ⟨a, b, d⟩ := t
  obtain ⟨a', b', d'⟩ := u
  rw [cell3_some] at h1 h2
  simp only [image] at h1 h2
  have e1 := axis_image_unique (by omega) h1.1 h2.1
  have e2 := axis_image_unique (by omega) h1.2.1 h2.2.1
  have e3 := axis_image_unique (by omega) h1.2.2 h2.2.2
  exact Prod.ext e1 (Prod.ext e2 e3)

/-- The arguments with other ranges of the images. -/
def withPer (A : DgCube.ShellArgs) (px py pz : ℤ × ℤ) : DgCube.ShellArgs := { A with perx := px, pery := py, perz := pz }

theorem withPer_ok {A : DgCube.ShellArgs} (h : ShellOk A) (px py pz : ℤ × ℤ) : ShellOk (withPer A px py pz) :=
  ⟨h.rmin, h.r, h.numr, h.center, h.rebinShell, h.nside, h.rebinR⟩

theorem dgRemap_eq (hp : Hp) {C : CubeArgs} {A : DgCube.ShellArgs} (nx : 0 < C.numx) (ny : 0 < C.numy) (nz : 0 < C.numz)
    (hA : ShellOk A) (s : DgCube.State) : ∃ cs s', DgCube.IsSetup C A cs s' ∧
      ∀ f, dgRemap hp C A f s = DgCube.remap hp f s' := by
  obtain ⟨cs, s', e, hs⟩ := DgCube.setup_run_nums nx ny nz hA s
  refine ⟨cs, s', hs, fun f => ?_⟩
  have e' := e
  unfold DgCube.dgRemap
  simp only [Meth.bind_apply] at e' ⊢
  cases h1 : DgCube.setupCube C s with
  | mk a b =>
    rw [h1] at e'
    cases a with
    | error _ => simp at e'
    | ok _ =>
      simp only at e' ⊢
      rw [e']

/-- `remap` is the same on two cubes if the values read are. -/
theorem dgRemap_congr (hp : Hp) {C C' : CubeArgs} {A : DgCube.ShellArgs} {px py pz : ℤ × ℤ}
    (nx : 0 < C.numx) (ny : 0 < C.numy) (nz : 0 < C.numz) (nx' : 0 < C'.numx) (ny' : 0 < C'.numy) (nz' : 0 < C'.numz)
    (hA : ShellOk A) (f f' : Arr3 (Option ℝ)) (s : DgCube.State)
    (h1 : ∀ k q n t, k < denseNum A → q < npixOf (A.nside*A.rebinShell) → InRange A n →
      cell3 C (image C n (densePoint hp A k q)) = some t → ∃ n' t', InRange (withPer A px py pz) n' ∧
        cell3 C' (image C' n' (densePoint hp A k q)) = some t' ∧ f.get t.1 t.2.1 t.2.2 = f'.get t'.1 t'.2.1 t'.2.2)
    (h2 : ∀ k q n' t', k < denseNum A → q < npixOf (A.nside*A.rebinShell) → InRange (withPer A px py pz) n' →
      cell3 C' (image C' n' (densePoint hp A k q)) = some t' → ∃ n t, InRange A n ∧
        cell3 C (image C n (densePoint hp A k q)) = some t) :
    (dgRemap hp C A f s).1 = (dgRemap hp C' (withPer A px py pz) f' s).1 := by
  obtain ⟨cs, s1, hs1, e1⟩ := dgRemap_eq hp nx ny nz hA s
  obtain ⟨cs', s2, hs2, e2⟩ := dgRemap_eq hp nx' ny' nz' (withPer_ok hA px py pz) s
  rw [e1, e2]
  have key : Box2Ring.tabulate (denseNum A) (npixOf (A.nside*A.rebinShell)) (fun i q =>
      DgCube.highres C.grid f ((mids (linspace A.rmin A.rmax (denseNum A + 1))).getD i 0)
        (hp.pix2ang (A.nside*A.rebinShell) q) cs (some 0)) none
    = Box2Ring.tabulate (denseNum (withPer A px py pz)) (npixOf ((withPer A px py pz).nside*(withPer A px py pz).rebinShell))
      (fun i q => DgCube.highres C'.grid f' ((mids (linspace (withPer A px py pz).rmin (withPer A px py pz).rmax
          (denseNum (withPer A px py pz) + 1))).getD i 0)
        (hp.pix2ang ((withPer A px py pz).nside*(withPer A px py pz).rebinShell) q) cs' (some 0)) none := by
    apply tabulate_congr
    intro k q hk hq
    show DgCube.highres C.grid f ((mids (linspace A.rmin A.rmax (denseNum A + 1))).getD k 0)
        (hp.pix2ang (A.nside*A.rebinShell) q) cs (some 0) = DgCube.highres C'.grid f'
        ((mids (linspace A.rmin A.rmax (denseNum A + 1))).getD k 0) (hp.pix2ang (A.nside*A.rebinShell) q) cs' (some 0)
    have pt : ∀ (D : CubeArgs) n, sphere2cart ((mids (linspace A.rmin A.rmax (denseNum A + 1))).getD k 0)
      (hp.pix2ang (A.nside*A.rebinShell) q).2 (hp.pix2ang (A.nside*A.rebinShell) q).1
      (image D n (center3 A.center)) = image D n (densePoint hp A k q) :=
      fun D n => DgCube.point_image hp D A n hk q
    by_cases hit : ∃ n t, InRange A n ∧ cell3 C (image C n (densePoint hp A k q)) = some t
    · obtain ⟨n, ⟨a, b, d⟩, hn, ht⟩ := hit
      obtain ⟨n', ⟨a', b', d'⟩, hn', ht', hget⟩ := h1 k q n _ hk hq hn ht
      rw [highres_some C.grid f _ _ cs _ a b d ⟨_, (hs1.mem _).mpr ⟨n, hn, rfl⟩, by
          rw [cellOf_cell3 nx ny nz, pt]; exact ht⟩ (by
          intro c hc t e
          obtain ⟨m, hm, rfl⟩ := (hs1.mem _).mp hc
          rw [cellOf_cell3 nx ny nz, pt] at e
          have := cell3_image_unique nx ny nz ht e
          subst this
          rw [ht] at e
          exact (Option.some.inj e).symm),
        highres_some C'.grid f' _ _ cs' _ a' b' d' ⟨_, (hs2.mem _).mpr ⟨n', hn', rfl⟩, by
          rw [cellOf_cell3 nx' ny' nz']
          exact (congrArg (cell3 C') (pt C' n')).trans ht'⟩ (by
          intro c hc t e
          obtain ⟨m, hm, rfl⟩ := (hs2.mem _).mp hc
          rw [cellOf_cell3 nx' ny' nz'] at e
          have e := (congrArg (cell3 C') (pt C' m)).symm.trans e
          have := cell3_image_unique nx' ny' nz' ht' e
          subst this
          rw [ht'] at e
          exact (Option.some.inj e).symm)]
      exact hget
    · have hno : ∀ n, InRange A n → cell3 C (image C n (densePoint hp A k q)) = none := by
        intro n hn
        by_contra h
        obtain ⟨t, ht⟩ := Option.ne_none_iff_exists'.mp h
        exact hit ⟨n, t, hn, ht⟩
      have hno' : ∀ n, InRange (withPer A px py pz) n → cell3 C' (image C' n (densePoint hp A k q)) = none := by
        intro n hn
        by_contra h
        obtain ⟨t, ht⟩ := Option.ne_none_iff_exists'.mp h
        obtain ⟨m, u, hm, hu⟩ := h2 k q n t hk hq hn ht
        exact hit ⟨m, u, hm, hu⟩
      rw [highres_none _ _ _ _ cs, highres_none _ _ _ _ cs']
      · intro c hc
        obtain ⟨m, hm, rfl⟩ := (hs2.mem _).mp hc
        rw [cellOf_cell3 nx' ny' nz']
        exact (congrArg (cell3 C') (pt C' m)).trans (hno' m hm)
      · intro c hc
        obtain ⟨m, hm, rfl⟩ := (hs1.mem _).mp hc
        rw [cellOf_cell3 nx ny nz, pt]
        exact hno m hm
  obtain ⟨t, ht⟩ : ∃ t, Box2Ring.tabulate (denseNum A) (npixOf (A.nside*A.rebinShell)) (fun i q =>
      DgCube.highres C.grid f ((mids (linspace A.rmin A.rmax (denseNum A + 1))).getD i 0)
        (hp.pix2ang (A.nside*A.rebinShell) q) cs (some 0)) none = t := ⟨_, rfl⟩
  rw [DgCube.remap_run hp hA hs1 f t ht, DgCube.remap_run hp (withPer_ok hA px py pz) hs2 f' t (key.symm.trans ht)]
  cases t <;> rfl

end Degenerate

open Degenerate

section DenseCube
variable (hp : Hp) (C : CubeArgs) (A : DgCube.ShellArgs) (nx : 0 < C.numx) (ny : 0 < C.numy) (nz : 0 < C.numz)
  (hA : ShellOk A)
include nx ny nz hA

/-- C119 for the dense grid `Cube2Shell`: with `xmin` and `xmax` exchanged, `remap` returns what it returns for the cube
with ordered limits and the first axis of the array in the opposite order; the images in `x` are counted in the
opposite direction. No image of a dense point may be on an edge. -/
theorem C119_dg_cube_exchanged_x (hx : C.xmax < C.xmin) (f : Arr3 (Option ℝ)) (hf : f.n0 = C.numx.toNat)
    (hoff : ∀ k q (i : ℤ) e, k < denseNum A → q < npixOf (A.nside*A.rebinShell) → A.perx.1 ≤ i → i ≤ A.perx.2 →
      e ≤ C.numx.toNat → (densePoint hp A k q).1 + i*(C.xmax - C.xmin) ≠ edgeAt C.xmin C.xmax C.numx.toNat e)
    (s : DgCube.State) :
    (dgRemap hp C A f s).1
      = (dgRemap hp (exchangeCubeX C) { A with perx := oppRange A.perx } (flip0 f) s).1 := by
  have ex : ∀ k q (i : ℤ), k < denseNum A → q < npixOf (A.nside*A.rebinShell) → A.perx.1 ≤ i → i ≤ A.perx.2 →
      axis C.xmax C.xmin C.numx.toNat ((densePoint hp A k q).1 + i*(C.xmax - C.xmin))
        = (axis C.xmin C.xmax C.numx.toNat ((densePoint hp A k q).1 + i*(C.xmax - C.xmin))).map
          fun l => C.numx.toNat - 1 - l :=
    fun k q i hk hq h1 h2 => axis_exchange hx.ne (by omega) _ fun e he => hoff k q i e hk hq h1 h2 he
  refine dgRemap_congr hp (C' := exchangeCubeX C) (px := oppRange A.perx) (py := A.pery) (pz := A.perz)
    nx ny nz nx ny nz hA f (flip0 f) s ?_ ?_
  · rintro k q ⟨n1, n2, n3⟩ ⟨a, b, d⟩ hk hq ⟨⟨r1, r2⟩, r3, r4⟩ ht
    rw [cell3_some] at ht
    obtain ⟨ha, hb, hd⟩ := ht
    have hlt := axis_lt ha
    refine ⟨(-n1, n2, n3), (C.numx.toNat - 1 - a, b, d), ⟨⟨?_, ?_⟩, r3, r4⟩, cell3_some.mpr ⟨?_, hb, hd⟩, ?_⟩
    · simp only [withPer, oppRange] at *; omega
    · simp only [withPer, oppRange] at *; omega
    · have := ex k q n1 hk hq r1 r2
      simp only [image] at ha
      rw [ha] at this
      show axis C.xmax C.xmin C.numx.toNat ((densePoint hp A k q).1 + ((-n1 : ℤ):ℝ)*(C.xmin - C.xmax)) = _
      rw [show ((-n1 : ℤ):ℝ)*(C.xmin - C.xmax) = n1*(C.xmax - C.xmin) by push_cast; ring]
      exact this
    · simp only [Arr3.get, flip0, hf]
      rw [show C.numx.toNat - 1 - (C.numx.toNat - 1 - a) = a by omega]
      by_cases h : b < f.n1 ∧ d < f.n2
      · rw [if_pos ⟨hlt, h⟩, if_pos ⟨by omega, h⟩]
      · rw [if_neg (fun h' => h h'.2), if_neg (fun h' => h h'.2)]
  · rintro k q ⟨n1, n2, n3⟩ ⟨a, b, d⟩ hk hq ⟨⟨r1, r2⟩, r3, r4⟩ ht
    rw [cell3_some] at ht
    obtain ⟨ha, hb, hd⟩ := ht
    simp only [withPer, oppRange] at r1 r2
    have r1' : A.perx.1 ≤ -n1 := by omega
    have r2' : -n1 ≤ A.perx.2 := by omega
    have := ex k q (-n1) hk hq r1' r2'
    have e : (densePoint hp A k q).1 + ((-n1 : ℤ):ℝ)*(C.xmax - C.xmin)
        = (densePoint hp A k q).1 + n1*(C.xmin - C.xmax) := by push_cast; ring
    have ha' : axis C.xmax C.xmin C.numx.toNat ((densePoint hp A k q).1 + n1*(C.xmin - C.xmax)) = some a := ha
    rw [e, ha'] at this
    obtain ⟨l, hl⟩ := Option.isSome_iff_exists.mp (by rw [← Option.isSome_map, ← this]; rfl)
    exact ⟨(-n1, n2, n3), (l, b, d), ⟨⟨r1', r2'⟩, r3, r4⟩, cell3_some.mpr ⟨by rw [← hl, ← e]; rfl, hb, hd⟩⟩

/-- C119 for the dense grid `Cube2Shell`, with `ymin` and `ymax` exchanged. -/
theorem C119_dg_cube_exchanged_y (hy : C.ymax < C.ymin) (f : Arr3 (Option ℝ)) (hf : f.n1 = C.numy.toNat)
    (hoff : ∀ k q (i : ℤ) e, k < denseNum A → q < npixOf (A.nside*A.rebinShell) → A.pery.1 ≤ i → i ≤ A.pery.2 →
      e ≤ C.numy.toNat → (densePoint hp A k q).2.1 + i*(C.ymax - C.ymin) ≠ edgeAt C.ymin C.ymax C.numy.toNat e)
    (s : DgCube.State) :
    (dgRemap hp C A f s).1
      = (dgRemap hp (exchangeCubeY C) { A with pery := oppRange A.pery } (flip1 f) s).1 := by
  have ex : ∀ k q (i : ℤ), k < denseNum A → q < npixOf (A.nside*A.rebinShell) → A.pery.1 ≤ i → i ≤ A.pery.2 →
      axis C.ymax C.ymin C.numy.toNat ((densePoint hp A k q).2.1 + i*(C.ymax - C.ymin))
        = (axis C.ymin C.ymax C.numy.toNat ((densePoint hp A k q).2.1 + i*(C.ymax - C.ymin))).map
          fun l => C.numy.toNat - 1 - l :=
    fun k q i hk hq h1 h2 => axis_exchange hy.ne (by omega) _ fun e he => hoff k q i e hk hq h1 h2 he
  refine dgRemap_congr hp (C' := exchangeCubeY C) (px := A.perx) (py := oppRange A.pery) (pz := A.perz)
    nx ny nz nx ny nz hA f (flip1 f) s ?_ ?_
  · rintro k q ⟨n1, n2, n3⟩ ⟨a, b, d⟩ hk hq ⟨r3, ⟨r1, r2⟩, r4⟩ ht
    rw [cell3_some] at ht
    obtain ⟨ha, hb, hd⟩ := ht
    have hlt := axis_lt hb
    refine ⟨(n1, -n2, n3), (a, C.numy.toNat - 1 - b, d), ⟨r3, ⟨?_, ?_⟩, r4⟩, cell3_some.mpr ⟨ha, ?_, hd⟩, ?_⟩
    · simp only [withPer, oppRange] at *; omega
    · simp only [withPer, oppRange] at *; omega
    · have := ex k q n2 hk hq r1 r2
      simp only [image] at hb
      rw [hb] at this
      show axis C.ymax C.ymin C.numy.toNat ((densePoint hp A k q).2.1 + ((-n2 : ℤ):ℝ)*(C.ymin - C.ymax)) = _
      rw [show ((-n2 : ℤ):ℝ)*(C.ymin - C.ymax) = n2*(C.ymax - C.ymin) by push_cast; ring]
      exact this
    · simp only [Arr3.get, flip1, hf]
      rw [show C.numy.toNat - 1 - (C.numy.toNat - 1 - b) = b by omega]
      by_cases h : a < f.n0 ∧ d < f.n2
      · rw [if_pos ⟨h.1, hlt, h.2⟩, if_pos ⟨h.1, by omega, h.2⟩]
      · rw [if_neg (fun h' => h ⟨h'.1, h'.2.2⟩), if_neg (fun h' => h ⟨h'.1, h'.2.2⟩)]
  · rintro k q ⟨n1, n2, n3⟩ ⟨a, b, d⟩ hk hq ⟨r3, ⟨r1, r2⟩, r4⟩ ht
    rw [cell3_some] at ht
    obtain ⟨ha, hb, hd⟩ := ht
    simp only [withPer, oppRange] at r1 r2
    have r1' : A.pery.1 ≤ -n2 := by omega
    have r2' : -n2 ≤ A.pery.2 := by omega
    have := ex k q (-n2) hk hq r1' r2'
    have e : (densePoint hp A k q).2.1 + ((-n2 : ℤ):ℝ)*(C.ymax - C.ymin)
        = (densePoint hp A k q).2.1 + n2*(C.ymin - C.ymax) := by push_cast; ring
    have hb' : axis C.ymax C.ymin C.numy.toNat ((densePoint hp A k q).2.1 + n2*(C.ymin - C.ymax)) = some b := hb
    rw [e, hb'] at this
    obtain ⟨l, hl⟩ := Option.isSome_iff_exists.mp (by rw [← Option.isSome_map, ← this]; rfl)
    exact ⟨(n1, -n2, n3), (a, l, d), ⟨r3, ⟨r1', r2'⟩, r4⟩, cell3_some.mpr ⟨ha, by rw [← hl, ← e]; rfl, hd⟩⟩

/-- C119 for the dense grid `Cube2Shell`, with `zmin` and `zmax` exchanged. -/
theorem C119_dg_cube_exchanged_z (hz : C.zmax < C.zmin) (f : Arr3 (Option ℝ)) (hf : f.n2 = C.numz.toNat)
    (hoff : ∀ k q (i : ℤ) e, k < denseNum A → q < npixOf (A.nside*A.rebinShell) → A.perz.1 ≤ i → i ≤ A.perz.2 →
      e ≤ C.numz.toNat → (densePoint hp A k q).2.2 + i*(C.zmax - C.zmin) ≠ edgeAt C.zmin C.zmax C.numz.toNat e)
    (s : DgCube.State) :
    (dgRemap hp C A f s).1
      = (dgRemap hp (exchangeCubeZ C) { A with perz := oppRange A.perz } (flip2 f) s).1 := by
  have ex : ∀ k q (i : ℤ), k < denseNum A → q < npixOf (A.nside*A.rebinShell) → A.perz.1 ≤ i → i ≤ A.perz.2 →
      axis C.zmax C.zmin C.numz.toNat ((densePoint hp A k q).2.2 + i*(C.zmax - C.zmin))
        = (axis C.zmin C.zmax C.numz.toNat ((densePoint hp A k q).2.2 + i*(C.zmax - C.zmin))).map
          fun l => C.numz.toNat - 1 - l :=
    fun k q i hk hq h1 h2 => axis_exchange hz.ne (by omega) _ fun e he => hoff k q i e hk hq h1 h2 he
  refine dgRemap_congr hp (C' := exchangeCubeZ C) (px := A.perx) (py := A.pery) (pz := oppRange A.perz)
    nx ny nz nx ny nz hA f (flip2 f) s ?_ ?_
  · rintro k q ⟨n1, n2, n3⟩ ⟨a, b, d⟩ hk hq ⟨r3, r4, ⟨r1, r2⟩⟩ ht
    rw [cell3_some] at ht
    obtain ⟨ha, hb, hd⟩ := ht
    have hlt := axis_lt hd
    refine ⟨(n1, n2, -n3), (a, b, C.numz.toNat - 1 - d), ⟨r3, r4, ⟨?_, ?_⟩⟩, cell3_some.mpr ⟨ha, hb, ?_⟩, ?_⟩
    · simp only [withPer, oppRange] at *; omega
    · simp only [withPer, oppRange] at *; omega
    · have := ex k q n3 hk hq r1 r2
      simp only [image] at hd
      rw [hd] at this
      show axis C.zmax C.zmin C.numz.toNat ((densePoint hp A k q).2.2 + ((-n3 : ℤ):ℝ)*(C.zmin - C.zmax)) = _
      rw [show ((-n3 : ℤ):ℝ)*(C.zmin - C.zmax) = n3*(C.zmax - C.zmin) by push_cast; ring]
      exact this
    · simp only [Arr3.get, flip2, hf]
      rw [show C.numz.toNat - 1 - (C.numz.toNat - 1 - d) = d by omega]
      by_cases h : a < f.n0 ∧ b < f.n1
      · rw [if_pos ⟨h.1, h.2, hlt⟩, if_pos ⟨h.1, h.2, by omega⟩]
      · rw [if_neg (fun h' => h ⟨h'.1, h'.2.1⟩), if_neg (fun h' => h ⟨h'.1, h'.2.1⟩)]
  · rintro k q ⟨n1, n2, n3⟩ ⟨a, b, d⟩ hk hq ⟨r3, r4, ⟨r1, r2⟩⟩ ht
    rw [cell3_some] at ht
    obtain ⟨ha, hb, hd⟩ := ht
    simp only [withPer, oppRange] at r1 r2
    have r1' : A.perz.1 ≤ -n3 := by omega
    have r2' : -n3 ≤ A.perz.2 := by omega
    have := ex k q (-n3) hk hq r1' r2'
    have e : (densePoint hp A k q).2.2 + ((-n3 : ℤ):ℝ)*(C.zmax - C.zmin)
        = (densePoint hp A k q).2.2 + n3*(C.zmin - C.zmax) := by push_cast; ring
    have hd' : axis C.zmax C.zmin C.numz.toNat ((densePoint hp A k q).2.2 + n3*(C.zmin - C.zmax)) = some d := hd
    rw [e, hd'] at this
    obtain ⟨l, hl⟩ := Option.isSome_iff_exists.mp (by rw [← Option.isSome_map, ← this]; rfl)
    exact ⟨(n1, n2, -n3), (a, b, l), ⟨r3, r4, ⟨r1', r2'⟩⟩, cell3_some.mpr ⟨ha, hb, by rw [← hl, ← e]; rfl⟩⟩

/-- C119 for the dense grid `Cube2Shell`: nothing lies in a cube without a width along one of its axes, `remap` returns
zeros, whatever the array. -/
theorem C119_dg_cube_empty (hhp : HpOk hp A) (h : C.xmin = C.xmax ∨ C.ymin = C.ymax ∨ C.zmin = C.zmax)
    (f : Arr3 (Option ℝ)) (s : DgCube.State) :
    ∃ out, (dgRemap hp C A f s).1 = .ok out ∧ out.rows = A.numr.toNat ∧ out.cols = npixOf A.nside ∧
      ∀ i p, i < A.numr.toNat → p < npixOf A.nside → out.val i p = some 0 := by
  set C' : CubeArgs := ⟨0, 1, 1, 0, 1, 1, 0, 1, 1⟩ with hC'
  have okC' : McCube.CubeOk C' := ⟨by simp [hC'], by simp [hC'], by simp [hC'], by simp [hC'], by simp [hC'], by simp [hC']⟩
  have hA' := withPer_ok hA (1, 0) A.pery A.perz
  have hno : ∀ p, cell3 C p = none := by
    intro p
    by_contra hne
    obtain ⟨⟨a, b, d⟩, ht⟩ := Option.ne_none_iff_exists'.mp hne
    obtain ⟨ha, hb, hd⟩ := cell3_some.mp ht
    rcases h with h | h | h
    · rw [h, axis_empty] at ha; cases ha
    · rw [h, axis_empty] at hb; cases hb
    · rw [h, axis_empty] at hd; cases hd
  obtain ⟨out, s', e, h1, h2, h3⟩ := DgCube.remap_ok hp (C := C') (A := withPer A (1, 0) A.pery A.perz) okC' hA' hhp
    ⟨1, 1, 1, fun _ _ _ => some 0⟩ (fun _ _ _ => 0) ⟨by simp [hC'], by simp [hC'], by simp [hC'], fun a b c _ _ _ => ⟨rfl, DgCube.zero_good⟩⟩ s
  refine ⟨out, ?_, h1, h2, fun i p hi hpx => ?_⟩
  · rw [dgRemap_congr hp (C' := C') (px := (1, 0)) (py := A.pery) (pz := A.perz) nx ny nz (by simp [hC']) (by simp [hC'])
      (by simp [hC']) hA f ⟨1, 1, 1, fun _ _ _ => some 0⟩ s ?_ ?_, e]
    · intro k q n t _ _ _ ht
      rw [hno] at ht; cases ht
    · rintro k q n t _ _ ⟨⟨a, b⟩, -⟩ _
      simp only [withPer] at a b
      omega
  · rw [h3 i p hi hpx (fun _ _ => 0) fun k q _ _ => ⟨fun _ _ _ _ _ _ => rfl, fun _ => rfl⟩]
    simp [DgCube.pixelMean, DgCube.meanAt]

end DenseCube

/-! ## Example -/

/-- A cube with all limits exchanged. -/
def exBack : CubeArgs := ⟨2, 0, 2, 2, 0, 2, 2, 0, 2⟩

/-- Two shells around the point `(1/2, 1/2, 1/2)`, with the images next to the cube. -/
noncomputable def exBackShell : DgCube.ShellArgs :=
  { rmin := 0, rmax := 1/4, numr := 2, nside := 1, center := [1/2, 1/2, 1/2],
    perx := (-1, 1), pery := (-1, 1), perz := (-1, 1) }

theorem exBack_off {t : ℝ} (ht : |t| ≤ 1/4) (i : ℤ) (e : ℕ) :
    1/2 + t + i*((0:ℝ) - 2) ≠ edgeAt (2:ℝ) 0 (2:ℤ).toNat e := by
  intro h
  have e2 : (((2:ℤ).toNat : ℕ) : ℝ) = 2 := by
    rw [show (2:ℤ).toNat = 2 from rfl]; norm_num
  unfold edgeAt at h
  rw [e2] at h
  obtain ⟨h1, h2⟩ := abs_le.mp ht
  have hz : ((2*i + 2 - e : ℤ) : ℝ) = 1/2 + t := by push_cast; linarith
  have a1 : (0:ℝ) < ((2*i + 2 - e : ℤ) : ℝ) := by rw [hz]; linarith
  have a2 : ((2*i + 2 - e : ℤ) : ℝ) < 1 := by rw [hz]; linarith
  have b1 : 0 < 2*i + 2 - (e:ℤ) := by exact_mod_cast a1
  have b2 : 2*i + 2 - (e:ℤ) < 1 := by exact_mod_cast a2
  omega

theorem exBack_radius {k : ℕ} (hk : k < denseNum exBackShell) :
    |midAt exBackShell.rmin exBackShell.rmax (denseNum exBackShell) k| ≤ 1/4 := by
  have hd : denseNum exBackShell = 4 := rfl
  rw [hd] at hk ⊢
  have h : (k:ℝ) ≤ 3 := by exact_mod_cast (by omega : k ≤ 3)
  have h0 : (0:ℝ) ≤ k := by positivity
  simp only [exBackShell, midAt, edgeAt]
  rw [abs_le]
  push_cast
  constructor <;> linarith

theorem abs_trig (r a b : ℝ) (hr : |r| ≤ 1/4) (ha : |a| ≤ 1) (hb : |b| ≤ 1) : |r*a*b| ≤ 1/4 := by
  rw [abs_mul, abs_mul]
  have h1 : |r| * |a| ≤ 1/4*1 := mul_le_mul hr ha (abs_nonneg _) (by norm_num)
  calc |r| * |a| * |b| ≤ (1/4*1)*1 := mul_le_mul h1 hb (abs_nonneg _) (by norm_num)
    _ = 1/4 := by norm_num

/-- The hypotheses of `C119_dg_cube_exchanged_x`, `C119_dg_cube_exchanged_y` and `C119_dg_cube_exchanged_z`, for all
directions of the pixels. -/
example (hp : Hp) : ShellOk exBackShell ∧ exBack.xmax < exBack.xmin ∧ exBack.ymax < exBack.ymin ∧
    exBack.zmax < exBack.zmin ∧
    ∀ k q (i : ℤ) e, k < denseNum exBackShell →
      (densePoint hp exBackShell k q).1 + i*(exBack.xmax - exBack.xmin) ≠ edgeAt exBack.xmin exBack.xmax exBack.numx.toNat e ∧
      (densePoint hp exBackShell k q).2.1 + i*(exBack.ymax - exBack.ymin)
        ≠ edgeAt exBack.ymin exBack.ymax exBack.numy.toNat e ∧
      (densePoint hp exBackShell k q).2.2 + i*(exBack.zmax - exBack.zmin)
        ≠ edgeAt exBack.zmin exBack.zmax exBack.numz.toNat e := by
  refine ⟨by constructor <;> norm_num [exBackShell], by norm_num [exBack], by norm_num [exBack], by norm_num [exBack],
    fun k q i e hk => ?_⟩
  have hr := exBack_radius hk
  refine ⟨?_, ?_, ?_⟩
  · exact exBack_off (abs_trig _ _ _ hr (Real.abs_sin_le_one _) (Real.abs_cos_le_one _)) i e
  · exact exBack_off (abs_trig _ _ _ hr (Real.abs_sin_le_one _) (Real.abs_sin_le_one _)) i e
  · have := exBack_off (abs_trig _ _ 1 hr (Real.abs_cos_le_one
      (hp.pix2ang (exBackShell.nside*exBackShell.rebinShell) q).1) (by norm_num)) i e
    rw [mul_one] at this
    exact this

/-- The hypotheses of `C119_dg_cube_empty`. -/
example (dir : ℕ → ℝ × ℝ) : ∃ C : CubeArgs, 0 < C.numx ∧ 0 < C.numy ∧ 0 < C.numz ∧ C.ymin = C.ymax ∧
    ShellOk exDgShell ∧ HpOk (exHp dir) exDgShell :=
  ⟨⟨0, 2, 2, 1, 1, 1, 0, 1, 1⟩, by norm_num, by norm_num, by norm_num, rfl, exDgShell_ok, exHp_ok dir⟩

end Magpie.Props
