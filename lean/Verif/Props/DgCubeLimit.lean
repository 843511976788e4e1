import Verif.Proof.DgCubeLimit
import Verif.Props.DgCube2Shell
import Verif.Props.McCubeLimit

/-!
# Property C117: dense grid remapping onto shells converges to the volume weighted mean
-/

set_option linter.unusedSimpArgs false
set_option linter.unusedVariables false

namespace Magpie.Props
open Magpie Magpie.Cube Magpie.Spec Magpie.McCube MeasureTheory Filter Topology

/-- The map: the value that the array, with its periodic images, has at a point, and zero elsewhere. It exists and is
unique for every array (`C80_reads`). C117, what the limit is: the integral of the map over the part of space covered by
the pixel, divided by the volume. -/
theorem C117_integral (C : CubeArgs) (hC : CubeOk C) (A : DgCube.ShellArgs) (hA : DgCube.ShellOk A)
    (v : ℕ → ℕ → ℕ → ℝ) (F : ℝ × ℝ × ℝ → ℝ) (hF : ∀ x, DgCube.Reads C A v x (F x)) (i p : ℕ)
    (hp : p < DgCube.npixOf A.nside) :
    DgCube.volMean C A v i p = (∫ x in DgCube.pixel A i p, F x)/(volume (DgCube.pixel A i p)).toReal ∧
      0 < (volume (DgCube.pixel A i p)).toReal ∧ volume (DgCube.pixel A i p) ≠ ⊤ :=
  ⟨DgCube.volMean_eq hC hA v hF hp, DgCube.volume_pixel' hA hp⟩

/-- C117: `remap` returns, and as `rebin_r` and `rebin_shell` grow the value of every pixel of every shell converges to
the mean over the pixel of the map, in volume. For the values of `rebin_shell` at which HEALPix divides the pixels. -/
theorem C117_limit (hp : DgCube.Hp) (C : CubeArgs) (A : DgCube.ShellArgs) (hC : CubeOk C) (hA : DgCube.ShellOk A)
    (f : Arr3 (Option ℝ)) (v : ℕ → ℕ → ℕ → ℝ) (hf : DgCube.Holds C f v) (ε : ℝ) (hε : 0 < ε) :
    ∃ M, ∀ n ≥ M, ∀ m ≥ M, DgCube.Subdivides hp A.nside m → ∀ s, ∃ out s',
      DgCube.dgRemap hp C (A.rebin n m) f s = (.ok out, s') ∧ out.rows = A.numr.toNat ∧
      out.cols = DgCube.npixOf A.nside ∧
      ∀ i < A.numr.toNat, ∀ p < DgCube.npixOf A.nside, ∃ x, out.val i p = some x ∧
        |x - DgCube.volMean C A v i p| < ε := by
  choose F hF using fun x => DgCube.exists_reads hC A v x
  -- the sums over the parts of the diamonds converge
  have hev : ∀ᶠ nm : ℕ × ℕ in atTop, ∀ i ∈ Set.Iio A.numr.toNat, ∀ p ∈ Set.Iio (DgCube.npixOf A.nside),
      0 < nm.1 → 0 < nm.2 → DgCube.Subdivides hp A.nside nm.2 →
      |DgCube.pixelMean hp (A.rebin nm.1 nm.2) (fun k q => F (DgCube.densePoint hp (A.rebin nm.1 nm.2) k q)) i p
        - DgCube.volMean C A v i p| < ε := by
    rw [eventually_all_finite (Set.finite_Iio _)]
    intro i hi
    rw [eventually_all_finite (Set.finite_Iio _)]
    intro p hpix
    obtain ⟨hN, hv⟩ := DgCube.valid_pix hA hpix
    obtain ⟨c, hc, -⟩ := C88_pix A.nside p hN hv
    have t := DgCube.canon_tendsto hA (i := i) hpix hC v hF hc rfl rfl
    rw [← DgCube.volMean_eq hC hA v hF hpix, Metric.tendsto_nhds] at t
    filter_upwards [t ε hε] with nm h h1 h2 hs
    rw [DgCube.pixelMean_canon hA hi hpix hp h1 h2 hs hc rfl rfl]
    exact h
  obtain ⟨⟨M1, M2⟩, hM⟩ := eventually_atTop.mp hev
  refine ⟨max (max M1 M2) 1, fun n hn m hm hs s => ?_⟩
  have hn0 : 0 < n := lt_of_lt_of_le one_pos (le_of_max_le_right hn)
  have hm0 : 0 < m := lt_of_lt_of_le one_pos (le_of_max_le_right hm)
  have hA' : DgCube.ShellOk (A.rebin n m) := ⟨hA.rmin, hA.r, hA.numr, hA.center,
    by simp [DgCube.ShellArgs.rebin]; omega, hA.nside, by simp [DgCube.ShellArgs.rebin]; omega⟩
  have hok : DgCube.HpOk hp (A.rebin n m) := by
    intro p hpix
    have hpix' : p < DgCube.npixOf A.nside := hpix
    obtain ⟨hN, hv⟩ := DgCube.valid_pix hA hpix'
    obtain ⟨c, hc, -⟩ := C88_pix A.nside p hN hv
    obtain ⟨q, hperm, hq⟩ := hs p hpix' c hc
    show hp.children (A.nside*m) A.nside p ≠ [] ∧ ∀ q ∈ hp.children (A.nside*m) A.nside p,
      q < DgCube.npixOf (A.nside*m)
    have hmem : ∀ x, x ∈ hp.children (A.nside*m) A.nside p ↔ ∃ a < m, ∃ b < m, q a b = x := by
      intro x
      rw [hperm.mem_iff]
      simp [List.mem_flatMap]
    refine ⟨List.ne_nil_of_mem ((hmem (q 0 0)).mpr ⟨0, hm0, 0, hm0, rfl⟩), fun x hx => ?_⟩
    obtain ⟨a, ha, b, hb, rfl⟩ := (hmem x).mp hx
    exact (hq a ha b hb).1
  obtain ⟨out, s', e, h1, h2, h3⟩ := C80_remap_partial hp C (A.rebin n m) hC hA' hok f v hf s
  refine ⟨out, s', e, h1, h2, fun i hi p hpix => ⟨_, h3 i p hi hpix
    (fun k q => F (DgCube.densePoint hp (A.rebin n m) k q)) fun k q _ _ => hF _, ?_⟩⟩
  have hle : ((M1, M2) : ℕ × ℕ) ≤ (n, m) :=
    ⟨(le_max_left M1 M2).trans (le_of_max_le_left hn), (le_max_right M1 M2).trans (le_of_max_le_left hm)⟩
  exact hM (n, m) hle i hi p hpix hn0 hm0 hs

/-- C117 and C103: without periodic images the limit is the mean to which the Monte Carlo class converges for a map of
the same values, times the fraction of the pixel that is in the cube. -/
theorem C117_fraction (C : CubeArgs) (hC : CubeOk C) (A : DgCube.ShellArgs)
    (hx : A.perx = (0, 0)) (hy : A.pery = (0, 0)) (hz : A.perz = (0, 0)) (v : ℕ → ℕ → ℕ → ℝ) (i p : ℕ)
    (h : volSum C (.lin ⟨A.rmin, A.rmax, A.numr, A.nside, A.center⟩) (fun _ _ _ => 1) i p ≠ 0) :
    DgCube.volMean C A v i p
      = volMean C (.lin ⟨A.rmin, A.rmax, A.numr, A.nside, A.center⟩) none (fun b a c => v a b c) i p*
        (volSum C (.lin ⟨A.rmin, A.rmax, A.numr, A.nside, A.center⟩) (fun _ _ _ => 1) i p/
          (volume (DgCube.pixel A i p)).toReal) := by
  have hcom : ∀ a b c, DgCube.commonVol C A i p (0, 0, 0) a b c
      = commonVol C (.lin ⟨A.rmin, A.rmax, A.numr, A.nside, A.center⟩) i p a b c := by
    intro a b c
    unfold DgCube.commonVol commonVol
    congr 1
    refine measure_congr ?_
    have hpl : ∀ᵐ x : ℝ × ℝ × ℝ, x.1 ≠ C.xmax ∧ x.2.1 ≠ C.ymax ∧ x.2.2 ≠ C.zmax := by
      filter_upwards [DgCube.ae_offPlanes hC] with x hx
      have lx : C.xmax - C.xmin ≠ 0 := by linarith [hC.hx]
      have ly : C.ymax - C.ymin ≠ 0 := by linarith [hC.hy]
      have lz : C.zmax - C.zmin ≠ 0 := by linarith [hC.hz]
      refine ⟨fun e => hx.1 C.numx.toNat ?_, fun e => hx.2.1 C.numy.toNat ?_, fun e => hx.2.2 C.numz.toNat ?_⟩ <;>
        rw [e] <;> push_cast <;> field_simp
    filter_upwards [hpl] with x hx
    have himg : DgCube.image C (0, 0, 0) x = x := by unfold DgCube.image; simp
    refine propext (and_congr Iff.rfl ?_)
    show DgCube.InCell3 C (DgCube.image C (0, 0, 0) x) a b c ↔ InVoxel C x a b c
    rw [himg]
    unfold DgCube.InCell3 InVoxel InCell InBin
    have key : ∀ (P Q : Prop), ¬ Q → (P ↔ P ∨ Q) := by tauto
    rw [← key _ _ (fun h => hx.1 h.2), ← key _ _ (fun h => hx.2.1 h.2), ← key _ _ (fun h => hx.2.2 h.2)]
  have hsum : DgCube.volMean C A v i p
      = volSum C (.lin ⟨A.rmin, A.rmax, A.numr, A.nside, A.center⟩) (fun b a c => v a b c) i p/
        (volume (DgCube.pixel A i p)).toReal := by
    unfold DgCube.volMean volSum
    rw [hx, hy, hz]
    simp only [Finset.Icc_self, Finset.sum_singleton, hcom]
  rw [hsum]
  unfold volMean
  have e : wOf (none : Option (Arr3 ℝ)) = fun _ _ _ => 1 := rfl
  rw [e]
  simp only [one_mul]
  rw [div_mul_div_cancel₀ h]

/-! ### Examples -/

/-- Subpixels in a nested numbering; the directions are those that `healpix_xy2ang` gives for the centres of the
parts of the diamonds. -/
noncomputable def exNest (N : ℤ) : DgCube.Hp where
  pix2ang n q :=
    let m := (n/N).toNat
    let c := match Healpix.pix2xy ((q/(m*m) : ℕ) : ℤ) N with
      | .ok c => c
      | .error _ => (0, 0)
    let v := DgCube.subCentre N m c (q % (m*m)/m) (q % m)
    ((Healpix.xy2ang v.1 v.2).2.getD 0, (Healpix.xy2ang v.1 v.2).1)
  children n _ p :=
    let m := (n/N).toNat
    (List.range m).flatMap fun (a : ℕ) => (List.range m).map fun (b : ℕ) => p*(m*m) + (a*m + b)

open Real in
theorem exists_dir {N p : ℤ} (hN : 1 ≤ N) (hp : ValidPix N p) {c : ℝ × ℝ} (hc : Healpix.pix2xy p N = .ok c) {x y : ℝ}
    (h : InDiamond N c x y) : DgCube.IsDir ((Healpix.xy2ang x y).2.getD 0, (Healpix.xy2ang x y).1) (x, y) := by
  have hpi := pi_pos
  have hy : |y| < π/2 ∧ ∃ phi theta, Healpix.xy2ang x y = (phi, some theta) ∧ Healpix.ang2xy phi theta = (x, y) := by
    by_cases hq : |y| = π/4
    · exact ⟨by rw [hq]; linarith, C10_plane_sky_plane x y (Or.inl hq.le)⟩
    · have hd := Healpix.diamond_dom hN hp hc h hq
      rcases hd with hd | ⟨h1, h2, k, h3, h4⟩
      · simp only at hd
        exact ⟨by linarith, C10_plane_sky_plane x y (Or.inl hd.le)⟩
      · exact ⟨h2, C10_plane_sky_plane x y (Or.inr ⟨h1, h2, k, h3.le, h4⟩)⟩
  obtain ⟨hy, phi, theta, e, ea⟩ := hy
  obtain ⟨t', et, h0, h1, -⟩ := Healpix.xy2ang_strip x y hy.le
  rw [e] at et
  simp only [Option.some.injEq] at et
  subst et
  rw [Healpix.ang2xy_project] at ea
  rw [e]
  simp only [Option.getD_some]
  have pole : cos theta = 1 ∨ cos theta = -1 → False := by
    intro hcs
    have e2 : |y| = |(project phi (cos theta)).2| := by rw [ea]
    have hab : |cos theta| = 1 := by rcases hcs with h | h <;> rw [h] <;> simp
    unfold project at e2
    rw [if_neg (by rw [hab]; norm_num)] at e2
    simp only [hab] at e2
    rw [abs_mul, show |(if cos theta < 0 then (-1:ℝ) else 1)| = 1 by split_ifs <;> simp] at e2
    simp at e2
    rw [abs_of_pos (by positivity : 0 < π/4)] at e2
    linarith
  refine ⟨lt_of_le_of_ne h0 ?_, lt_of_le_of_ne h1 ?_, 0, by simpa using ea⟩
  · intro h
    simp only at h
    exact pole (Or.inl (by rw [← h, cos_zero]))
  · intro h
    simp only at h
    exact pole (Or.inr (by rw [h, cos_pi]))

/-- The hypothesis of `C117_limit` on HEALPix is met, for every `nside` and every `rebin_shell`. -/
theorem exNest_subdivides (N : ℤ) (hN : 1 ≤ N) (m : ℕ) (hm : 1 ≤ m) : DgCube.Subdivides (exNest N) N m := by
  intro p hp c hc
  have hmm : ((N*m)/N).toNat = m := by rw [Int.mul_ediv_cancel_left _ (by omega)]; simp
  have hpv : ValidPix N p := by
    refine ⟨by positivity, ?_⟩
    unfold DgCube.npixOf at hp
    have : (p:ℤ) < 12*(N.toNat:ℤ)^2 := by exact_mod_cast hp
    rwa [Int.toNat_of_nonneg (by omega)] at this
  refine ⟨fun a b => p*(m*m) + (a*m + b), ?_, fun a ha b hb => ⟨?_, ?_⟩⟩
  · unfold exNest
    simp only [hmm]
    exact List.Perm.refl _
  · have h1 : a*m + b < m*m := by
      calc a*m + b < a*m + m := by omega
        _ = (a+1)*m := by ring
        _ ≤ m*m := Nat.mul_le_mul_right m ha
    unfold DgCube.npixOf at hp ⊢
    have : (N*(m:ℤ)).toNat = N.toNat*m := by
      rw [Int.toNat_mul (by omega) (by positivity)]; simp
    rw [this]
    calc p*(m*m) + (a*m + b) < p*(m*m) + m*m := by omega
      _ = (p+1)*(m*m) := by ring
      _ ≤ (12*N.toNat^2)*(m*m) := Nat.mul_le_mul_right _ hp
      _ = 12*(N.toNat*m)^2 := by ring
  · have h1 : a*m + b < m*m := by
      calc a*m + b < a*m + m := by omega
        _ = (a+1)*m := by ring
        _ ≤ m*m := Nat.mul_le_mul_right m ha
    have q1 : (p*(m*m) + (a*m + b))/(m*m) = p := by
      rw [mul_comm, Nat.mul_add_div (by positivity), Nat.div_eq_of_lt h1, add_zero]
    have q2 : (p*(m*m) + (a*m + b)) % (m*m)/m = a := by
      rw [mul_comm, Nat.mul_add_mod, Nat.mod_eq_of_lt h1, mul_comm a m, Nat.mul_add_div (by omega), Nat.div_eq_of_lt hb,
        add_zero]
    have q3 : (p*(m*m) + (a*m + b)) % m = b := by
      rw [show p*(m*m) + (a*m + b) = m*(p*m + a) + b by ring, Nat.mul_add_mod, Nat.mod_eq_of_lt hb]
    unfold exNest
    simp only [hmm, q1, q2, q3, hc]
    refine exists_dir hN hpv hc ?_
    rw [← DgCube.dia_sub N (by omega), DgCube.dia_mem hN]
    have hm' : (0:ℝ) < m := by exact_mod_cast (by omega : 0 < m)
    have ha' : (a:ℝ) + 1 ≤ m := by exact_mod_cast ha
    have hb' : (b:ℝ) + 1 ≤ m := by exact_mod_cast hb
    refine ⟨⟨by positivity, ?_⟩, by positivity, ?_⟩ <;> rw [div_lt_one hm'] <;> linarith

/-- The hypotheses of `C117_limit` are met. -/
example (m : ℕ) (hm : 1 ≤ m) : CubeOk exDgCube ∧ DgCube.ShellOk exDgShell ∧
    DgCube.Holds exDgCube ⟨2, 2, 2, fun a _ _ => some a⟩ (fun a _ _ => a) ∧
    DgCube.Subdivides (exNest 1) exDgShell.nside m := by
  refine ⟨exDgCube_ok, exDgShell_ok, ⟨rfl, rfl, rfl, fun a _ _ ha _ _ => ⟨rfl, ?_⟩⟩,
    exNest_subdivides 1 le_rfl m hm⟩
  have hab : ¬ DgCube.isBad ((a:ℕ):ℝ) := by
    have h0 : (0:ℝ) ≤ a := by positivity
    unfold DgCube.isBad unseen
    rw [not_le, abs_of_neg (by norm_num : (-1.6375e30:ℝ) < 0), abs_of_pos (by linarith)]
    norm_num
    linarith
  exact hab

end Magpie.Props
