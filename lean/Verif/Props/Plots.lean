import Verif.Proof.Plots

/-!
# C90-C93: plots of the orthographic map
-/

set_option linter.unusedSimpArgs false
set_option linter.unusedVariables false

namespace Magpie.Props
open Magpie Magpie.Radial Magpie.Coords Magpie.Spec Magpie.Ortho Magpie.Plots
open Matrix Real

/-! ## C90: the grid -/

/-- C90: a direction which `remap` reads at the point `p` of the disc has the position `p` on the map. -/
theorem C90_position (R : ℝ) (hR : 0 < R) (c p d : ℝ × ℝ) (hp : OnSphere R p) (hd : SeenAt R c p d) :
    position R c d.1 d.2 = some p := by
  obtain ⟨ee, nn, dd, en, ed, nd⟩ := frame_dots c
  have key : ∀ v : Fin 3 → ℝ, R*(dir d.1 d.2 ⬝ᵥ v) = p.1*(east c.1 ⬝ᵥ v) + p.2*(north c.1 c.2 ⬝ᵥ v)
      + √(R^2 - p.1^2 - p.2^2)*(dir c.1 c.2 ⬝ᵥ v) := by
    intro v
    have := congrArg (fun u => u ⬝ᵥ v) hd
    simpa [add_dotProduct, smul_dotProduct] using this
  have k1 := key (east c.1)
  have k2 := key (north c.1 c.2)
  have k3 := key (dir c.1 c.2)
  rw [ee, dotProduct_comm (north c.1 c.2), en, dotProduct_comm (dir c.1 c.2), ed] at k1
  rw [en, nn, dotProduct_comm (dir c.1 c.2), nd] at k2
  rw [ed, nd, dd] at k3
  have e3 : ¬ dir d.1 d.2 ⬝ᵥ dir c.1 c.2 < 0 := by
    intro hneg
    have h0 := sqrt_nonneg (R^2 - p.1^2 - p.2^2)
    have := mul_neg_of_pos_of_neg hR hneg
    linarith
  unfold position
  rw [if_neg e3]
  congr 1
  exact Prod.ext (by linarith) (by linarith)

/-- C90, in part: on a map of a sphere of radius 1, `plot_grid` draws the meridians of longitude `0, dphi, 2 dphi, ...`
and the parallels of colatitude `0, dtheta, 2 dtheta, ...` (degrees), at the positions where the map shows these
directions, if `dphi` divides 360 and `dtheta` divides 180. Missing for C90: other radii and separations, see
`C90_violated_radius` and `C90_violated_separation`. -/
theorem C90_grid_partial (ang2pix : ℤ → ℝ → ℝ → ℕ) (A : Ortho.BoxArgs) (c : ℝ × ℝ) (nside : ℤ) (hA : Ortho.Valid A c)
    (hn : 0 < nside) (h1 : 1 ≤ A.rebinX) (h2 : 1 ≤ A.rebinY) (hR : A.radius = 1) (o : Ortho.State) :
    ∃ o', (do Ortho.setupMap nside; Ortho.setupBox ang2pix A : Meth Ortho.State Unit) o = (.ok (), o') ∧
      ∀ (dtheta : ℝ) (dphi : Option ℝ) (n m : ℕ) (ax : Target) (drawn : List Cmd), 0 < dtheta →
        0 < dphi.getD dtheta → dphi.getD dtheta * n = 360 → dtheta * m = 180 →
        plotGrid dtheta dphi ax ⟨o', drawn⟩ = (.ok (), ⟨o', drawn
          ++ ((List.range n).map fun (k : ℕ) => Cmd.plot ax (meridian A.radius c (k*dphi.getD dtheta*(π/180))))
          ++ ((List.range m).map fun (k : ℕ) => Cmd.plot ax (parallel A.radius c (k*dtheta*(π/180))))⟩) := by
  obtain ⟨sky, o', e, hs⟩ := setup_run ang2pix hA h1 h2 hn o
  refine ⟨o', e, ?_⟩
  intro dtheta dphi n m ax drawn ht hp en em
  have hn : (360:ℝ)/dphi.getD dtheta = n := by rw [div_eq_iff hp.ne']; linarith
  have hm : (180:ℝ)/dtheta = m := by rw [div_eq_iff ht.ne']; linarith
  rw [(setUp_of hA hs).plotGrid ht hp, hn, hm, Nat.floor_natCast, Nat.floor_natCast, hR]
  have hn0 : (n:ℝ) ≠ 0 := by rintro h; rw [h] at en; norm_num at en
  have hm0 : (m:ℝ) ≠ 0 := by rintro h; rw [h] at em; norm_num at em
  have f1 : ∀ k : ℕ, (k:ℝ)*(2*π)/n = k*dphi.getD dtheta*(π/180) := by
    intro k
    rw [div_eq_iff hn0]
    linear_combination (-(k:ℝ)*π/180)*en
  have f2 : ∀ k : ℕ, (k:ℝ)*π/m = k*dtheta*(π/180) := by
    intro k
    rw [div_eq_iff hm0]
    linear_combination (-(k:ℝ)*π/180)*em
  simp only [f1, f2]

/-- C90, the exact result for every separation and radius: there are `int(360/dphi)` meridians and `int(180/dtheta)`
parallels, equally spaced, at the positions of a map of a sphere of radius 1. -/
theorem C90_exact (ang2pix : ℤ → ℝ → ℝ → ℕ) (A : Ortho.BoxArgs) (c : ℝ × ℝ) (nside : ℤ) (hA : Ortho.Valid A c)
    (hn : 0 < nside) (h1 : 1 ≤ A.rebinX) (h2 : 1 ≤ A.rebinY) (o : Ortho.State) :
    ∃ o', (do Ortho.setupMap nside; Ortho.setupBox ang2pix A : Meth Ortho.State Unit) o = (.ok (), o') ∧
      ∀ (dtheta : ℝ) (dphi : Option ℝ) (ax : Target) (drawn : List Cmd), 0 < dtheta → 0 < dphi.getD dtheta →
        plotGrid dtheta dphi ax ⟨o', drawn⟩ = (.ok (), ⟨o', drawn
          ++ ((List.range ⌊360/dphi.getD dtheta⌋₊).map fun (k : ℕ) =>
                Cmd.plot ax (meridian 1 c (k*(2*π)/(⌊360/dphi.getD dtheta⌋₊ : ℕ))))
          ++ ((List.range ⌊180/dtheta⌋₊).map fun (k : ℕ) =>
                Cmd.plot ax (parallel 1 c (k*π/(⌊180/dtheta⌋₊ : ℕ))))⟩) := by
  obtain ⟨sky, o', e, hs⟩ := setup_run ang2pix hA h1 h2 hn o
  exact ⟨o', e, fun dtheta dphi ax drawn ht hp => (setUp_of hA hs).plotGrid ht hp ax drawn⟩

/-- C90 does not hold for a radius other than 1: on every map with a centre between the pole and the equator the first
line drawn starts at a position where the map does not show the north pole. -/
theorem C90_violated_radius (ang2pix : ℤ → ℝ → ℝ → ℕ) (A : Ortho.BoxArgs) (c : ℝ × ℝ) (nside : ℤ)
    (hA : Ortho.Valid A c) (hn : 0 < nside) (h1 : 1 ≤ A.rebinX) (h2 : 1 ≤ A.rebinY) (hR : A.radius ≠ 1)
    (hc : 0 < c.2 ∧ c.2 ≤ π/2) (o : Ortho.State) :
    ∃ o', (do Ortho.setupMap nside; Ortho.setupBox ang2pix A : Meth Ortho.State Unit) o = (.ok (), o') ∧
      ∀ (dtheta : ℝ) (dphi : Option ℝ) (ax : Target), 0 < dtheta → 0 < dphi.getD dtheta → dphi.getD dtheta ≤ 360 →
        ∃ rows rest, plotGrid dtheta dphi ax ⟨o', []⟩ = (.ok (), ⟨o', Cmd.plot ax rows :: rest⟩) ∧
          ∃ p q, rows[0]? = some (some p) ∧ position A.radius c 0 0 = some q ∧ p ≠ q := by
  obtain ⟨sky, o', e, hs⟩ := setup_run ang2pix hA h1 h2 hn o
  refine ⟨o', e, ?_⟩
  intro dtheta dphi ax ht hp hle
  rw [(setUp_of hA hs).plotGrid ht hp]
  obtain ⟨n, hn'⟩ : ∃ n, ⌊360/dphi.getD dtheta⌋₊ = n + 1 := by
    have : 1 ≤ ⌊360/dphi.getD dtheta⌋₊ := by
      rw [Nat.one_le_floor_iff, le_div_iff₀ hp]
      linarith
    exact ⟨_, (Nat.sub_add_cancel this).symm⟩
  rw [hn', List.range_succ_eq_map, List.map_cons, List.nil_append, List.cons_append]
  refine ⟨_, _, rfl, ?_⟩
  have hcos : 0 ≤ cos c.2 := cos_nonneg_of_mem_Icc ⟨by linarith [hc.1, pi_pos], hc.2⟩
  have hsin : 0 < sin c.2 := sin_pos_of_pos_of_lt_pi hc.1 (by linarith [hc.2, pi_pos])
  have hpos : ∀ R : ℝ, position R c 0 0 = some (0, R*sin c.2) := by
    intro R
    have e1 : dir 0 0 ⬝ᵥ dir c.1 c.2 = cos c.2 := by simp [dir, dotProduct, Fin.sum_univ_three]
    have e2 : dir 0 0 ⬝ᵥ east c.1 = 0 := by simp [dir, east, dotProduct, Fin.sum_univ_three]
    have e3 : dir 0 0 ⬝ᵥ north c.1 c.2 = sin c.2 := by simp [dir, north, dotProduct, Fin.sum_univ_three]
    unfold position
    rw [e1, e2, e3, if_neg (not_lt.mpr hcos), mul_zero]
  refine ⟨(0, 1*sin c.2), (0, A.radius*sin c.2), ?_, hpos _, ?_⟩
  · unfold meridian
    rw [List.getElem?_map, List.getElem?_range (by norm_num)]
    simp only [Option.map_some, Nat.cast_zero, zero_mul, zero_div, hpos]
  · intro h
    have h' := congrArg Prod.snd h
    simp only at h'
    exact hR (mul_right_cancel₀ hsin.ne' h').symm

/-- C90 does not hold for separations that do not divide the circle: for `dphi = 50` the seven meridians are drawn
`360/7` degrees apart, for every object and every radius. -/
theorem C90_violated_separation (ang2pix : ℤ → ℝ → ℝ → ℕ) (A : Ortho.BoxArgs) (c : ℝ × ℝ) (nside : ℤ)
    (hA : Ortho.Valid A c) (hn : 0 < nside) (h1 : 1 ≤ A.rebinX) (h2 : 1 ≤ A.rebinY) (o : Ortho.State) :
    ∃ o', (do Ortho.setupMap nside; Ortho.setupBox ang2pix A : Meth Ortho.State Unit) o = (.ok (), o') ∧
      ∀ (dtheta : ℝ) (ax : Target), 180 < dtheta →
        plotGrid dtheta (some 50) ax ⟨o', []⟩ = (.ok (), ⟨o', (List.range 7).map fun (k : ℕ) =>
          Cmd.plot ax (meridian 1 c (k*(360/7)*(π/180)))⟩) := by
  obtain ⟨o', e, h⟩ := C90_exact ang2pix A c nside hA hn h1 h2 o
  refine ⟨o', e, ?_⟩
  intro dtheta ax ht
  rw [h dtheta (some 50) ax [] (by linarith) (by norm_num)]
  have f1 : ⌊(360:ℝ)/(some (50:ℝ)).getD dtheta⌋₊ = 7 := by
    rw [Option.getD_some, Nat.floor_eq_iff (by norm_num)]; norm_num
  have f2 : ⌊(180:ℝ)/dtheta⌋₊ = 0 := by
    rw [Nat.floor_eq_zero, div_lt_one (by linarith)]; exact ht
  rw [f1, f2]
  simp only [List.range_zero, List.map_nil, List.append_nil, List.nil_append]
  have f3 : ∀ k : ℕ, (k:ℝ)*(2*π)/((7:ℕ):ℝ) = k*(360/7)*(π/180) := by intro k; push_cast; ring
  simp only [f3]

/-- The hypotheses can be met: a map of radius 1 and the default separation, and a map of radius 2. -/
example : (∃ (A : Ortho.BoxArgs) (c : ℝ × ℝ), Ortho.Valid A c ∧ 1 ≤ A.rebinX ∧ 1 ≤ A.rebinY ∧ A.radius = 1 ∧
      (15:ℝ)*(24:ℕ) = 360 ∧ (15:ℝ)*(12:ℕ) = 180) ∧
    ∃ (A : Ortho.BoxArgs) (c : ℝ × ℝ), Ortho.Valid A c ∧ 1 ≤ A.rebinX ∧ 1 ≤ A.rebinY ∧ A.radius ≠ 1 ∧ 0 < c.2 ∧
      c.2 ≤ π/2 := by
  have hpi := two_le_pi
  refine ⟨⟨⟨1, 2, [1, 1], none, some 3, 2, 2, 1⟩, (1, 1), ⟨by norm_num, by norm_num, rfl, by norm_num,
    ⟨by norm_num, by simp only; linarith⟩, ⟨by norm_num, by simp only; linarith⟩⟩, by norm_num, by norm_num, rfl,
    by norm_num, by norm_num⟩,
    ⟨⟨1, 2, [1, 1], none, some 3, 2, 2, 2⟩, (1, 1), ⟨by norm_num, by norm_num, rfl, by norm_num,
    ⟨by norm_num, by simp only; linarith⟩, ⟨by norm_num, by simp only; linarith⟩⟩, by norm_num, by norm_num,
    by norm_num, by norm_num, by simp only; linarith⟩⟩

/-! ## C91: image and limits -/

/-- C91: `imshow` of a map with the shape of the output grid shows every entry in its grid cell, so that the centre of
the rectangle is the point at which `remap` computes the entry. -/
theorem C91_imshow (ang2pix : ℤ → ℝ → ℝ → ℕ) (A : Ortho.BoxArgs) (c : ℝ × ℝ) (nside : ℤ) (hA : Ortho.Valid A c)
    (hn : 0 < nside) (h1 : 1 ≤ A.rebinX) (h2 : 1 ≤ A.rebinY) (o : Ortho.State) :
    ∃ o', (do Ortho.setupMap nside; Ortho.setupBox ang2pix A : Meth Ortho.State Unit) o = (.ok (), o') ∧
      ∀ (dmap : Arr2 (Option ℝ)) (ax : Target) (drawn : List Cmd), ∃ x0 x1 y0 y1,
        imshow dmap ax ⟨o', drawn⟩ = (.ok (), ⟨o', drawn ++ [Cmd.imshow ax dmap x0 x1 y0 y1]⟩) ∧
        ∀ i j, i < Ortho.ny A → j < Ortho.nx A → ∃ l r b t,
          imCell (Ortho.ny A) (Ortho.nx A) x0 x1 y0 y1 i j = (l, r, b, t) ∧
          l = -A.xLength/2 + A.xLength*j/Ortho.nx A ∧ r - l = A.xLength/Ortho.nx A ∧
          b = -A.yLength.getD A.xLength/2 + A.yLength.getD A.xLength*i/Ortho.ny A ∧
          t - b = A.yLength.getD A.xLength/Ortho.ny A ∧
          ((l + r)/2, (b + t)/2) = Ortho.point A 1 1 i j := by
  obtain ⟨sky, o', e, hs⟩ := setup_run ang2pix hA h1 h2 hn o
  refine ⟨o', e, ?_⟩
  intro dmap ax drawn
  refine ⟨-A.xLength/2, A.xLength/2, -A.yLength.getD A.xLength/2, A.yLength.getD A.xLength/2, ?_, ?_⟩
  · unfold Plots.imshow
    simp only [Meth.bind_apply, (setUp_of hA hs).limits, draw, Meth.assign_apply]
  · intro i j hi hj
    have hx : ((Ortho.nx A : ℕ):ℝ) ≠ 0 := by
      have : 0 < Ortho.nx A := by omega
      positivity
    have hy : ((Ortho.ny A : ℕ):ℝ) ≠ 0 := by
      have : 0 < Ortho.ny A := by omega
      positivity
    refine ⟨_, _, _, _, rfl, by ring, by field_simp; ring, by ring, by field_simp; ring, ?_⟩
    unfold Ortho.point midAt edgeAt
    simp only [one_mul]
    refine Prod.ext ?_ ?_
    · simp only
      field_simp
      push_cast
      ring
    · simp only
      field_simp
      push_cast
      ring

/-- C91, in part: `finalize` without the outer circle makes the axes end at the edges of the map, with `x` to the left
if the sky is seen from inside. Missing for C91: the default `outeredge=True`, see `C91_violated`. -/
theorem C91_finalize_partial (ang2pix : ℤ → ℝ → ℝ → ℕ) (A : Ortho.BoxArgs) (c : ℝ × ℝ) (nside : ℤ)
    (hA : Ortho.Valid A c) (hn : 0 < nside) (h1 : 1 ≤ A.rebinX) (h2 : 1 ≤ A.rebinY) (o : Ortho.State) :
    ∃ o', (do Ortho.setupMap nside; Ortho.setupBox ang2pix A : Meth Ortho.State Unit) o = (.ok (), o') ∧
      ∀ (insphere : Bool) (ax : Target) (len : ℕ) (ctr : List ℝ) (drawn : List Cmd),
        finalize insphere ax false len ctr ⟨o', drawn⟩ = (.ok (), ⟨o', drawn ++
          [if insphere then Cmd.xlim ax (A.xLength/2) (-A.xLength/2) else Cmd.xlim ax (-A.xLength/2) (A.xLength/2),
           Cmd.ylim ax (-A.yLength.getD A.xLength/2) (A.yLength.getD A.xLength/2), Cmd.axisOff ax]⟩) := by
  obtain ⟨sky, o', e, hs⟩ := setup_run ang2pix hA h1 h2 hn o
  refine ⟨o', e, ?_⟩
  intro insphere ax len ctr drawn
  unfold Plots.finalize
  cases insphere <;> simp [Meth.bind_apply, (setUp_of hA hs).limits, draw, Meth.assign_apply]

/-- C91 does not hold for the default arguments: with the outer circle `finalize` raises `NameError` for every object
and draws nothing, so the limits are not set. -/
theorem C91_violated (insphere : Bool) (ax : Target) (len : ℕ) (ctr : List ℝ) (s : Plots.State) :
    finalize insphere ax true len ctr s = (.error .nameError, s) := by
  unfold Plots.finalize plotCircle shapesName
  simp [Meth.bind_apply]

/-! ## C92: labels -/

/-- The rotation of a label: the direction from the pole to the label makes the angle `270 - a` degrees with the `x`
axis. -/
theorem rotation_dir (p q : ℝ × ℝ) : ∃ a, rotationAngle p (some q) = some a ∧ (90 ≤ a ∧ a < 450) ∧
    p.1 - q.1 = √((p.1 - q.1)^2 + (p.2 - q.2)^2)*cos ((270 - a)*(π/180)) ∧
    p.2 - q.2 = √((p.1 - q.1)^2 + (p.2 - q.2)^2)*sin ((270 - a)*(π/180)) := by
  have hpi := pi_pos
  refine ⟨_, rfl, ?_⟩
  have e : (270 - (270 - rad2deg (arctan2 (p.2 - q.2) (p.1 - q.1))))*(π/180) = arctan2 (p.2 - q.2) (p.1 - q.1) := by
    unfold rad2deg
    field_simp
    ring
  rw [e]
  set z : ℂ := ⟨p.1 - q.1, p.2 - q.2⟩ with hz
  have hn : √((p.1 - q.1)^2 + (p.2 - q.2)^2) = ‖z‖ := by
    rw [Complex.norm_def, Complex.normSq_apply]
    congr 1
    simp only [hz]
    ring
  rw [hn]
  change (90 ≤ 270 - Complex.arg z*180/π ∧ 270 - Complex.arg z*180/π < 450) ∧ z.re = ‖z‖*cos z.arg ∧ z.im = ‖z‖*sin z.arg
  refine ⟨⟨?_, ?_⟩, (Complex.norm_mul_cos_arg z).symm, (Complex.norm_mul_sin_arg z).symm⟩
  · have h := Complex.arg_le_pi z
    have : Complex.arg z*180/π ≤ 180 := by rw [div_le_iff₀ hpi]; nlinarith
    linarith
  · have h := Complex.neg_pi_lt_arg z
    have : -180 < Complex.arg z*180/π := by rw [lt_div_iff₀ hpi]; nlinarith
    linarith

/-- C92, in part: with `onsphere=True` and no decimals, on a map of radius 1, `plot_labels` writes each grid longitude
(at colatitude `zeropoint[1]`) and colatitude or latitude (at longitude `zeropoint[0]`), rounded to whole degrees (ties
to even), at the position of the direction moved by `shift`, and leaves out those outside the map; with `userotation`
the label is rotated by `270` degrees minus the direction from the north pole to the label. Missing for C92: the
default `onsphere=False` and labels with decimals, see `C92_violated` and `C92_violated_decimals`. -/
theorem C92_labels_partial (ang2pix : ℤ → ℝ → ℝ → ℕ) (A : Ortho.BoxArgs) (c : ℝ × ℝ) (nside : ℤ)
    (hA : Ortho.Valid A c) (hn : 0 < nside) (h1 : 1 ≤ A.rebinX) (h2 : 1 ≤ A.rebinY) (hR : A.radius = 1)
    (o : Ortho.State) :
    ∃ o', (do Ortho.setupMap nside; Ortho.setupBox ang2pix A : Meth Ortho.State Unit) o = (.ok (), o') ∧
      ∀ (lib : EdgeLib) (xt : Py (List ℝ × List ℝ)) (dtheta : ℝ) (dphi : Option ℝ) (n m : ℕ) (lonlat : Bool)
        (zeropoint shift : ℝ × ℝ) (ax : Target) (userotation : Bool) (drawn : List Cmd), 0 < dtheta →
        0 < dphi.getD dtheta → dphi.getD dtheta * n = 360 → dtheta * m = 180 →
        ∃ (text : ℝ → List Char) (rot : ℝ × ℝ → Option (Option ℝ)),
        (∀ x, ∃ k : ℤ, (|(k:ℝ) - x| ≤ 1/2 ∧ (|(k:ℝ) - x| = 1/2 → Even k)) ∧ text x = (toString k).toList) ∧
        (userotation = false → ∀ p, rot p = none) ∧
        (userotation = true → position 1 c 0 0 = none → ∀ p, rot p = some none) ∧
        (userotation = true → ∀ q, position 1 c 0 0 = some q → ∀ p, ∃ a, rot p = some (some a) ∧
          (90 ≤ a ∧ a < 450) ∧ p.1 - q.1 = √((p.1 - q.1)^2 + (p.2 - q.2)^2)*cos ((270 - a)*(π/180)) ∧
          p.2 - q.2 = √((p.1 - q.1)^2 + (p.2 - q.2)^2)*sin ((270 - a)*(π/180))) ∧
        plotLabels lib xt dtheta dphi 0 lonlat zeropoint shift ax true userotation ⟨o', drawn⟩
          = (.ok (), ⟨o', drawn
            ++ labels A c ax rot ((List.range n).map fun (k : ℕ) =>
                (text (k*dphi.getD dtheta), (k*dphi.getD dtheta - shift.1)*(π/180), zeropoint.2))
            ++ labels A c ax rot ((List.range (m - 1)).map fun (k : ℕ) =>
                (text (if lonlat then 90 - (k + 1)*dtheta else (k + 1)*dtheta), zeropoint.1,
                  ((k + 1)*dtheta - shift.2)*(π/180)))⟩) := by
  obtain ⟨sky, o', e, hs⟩ := setup_run ang2pix hA h1 h2 hn o
  refine ⟨o', e, ?_⟩
  intro lib xt dtheta dphi n m lonlat zeropoint shift ax userotation drawn ht hp en em
  refine ⟨fun x => (toString (rint x)).toList,
    fun p => if userotation then some (rotationAngle p (position 1 c 0 0)) else none,
    fun x => ⟨rint x, ⟨rint_near x, rint_even x⟩, rfl⟩, ?_, ?_, ?_, ?_⟩
  · rintro rfl p; rfl
  · rintro rfl h p; rw [h]; rfl
  · rintro rfl q h p
    obtain ⟨a, ha, h1, h2⟩ := rotation_dir p q
    exact ⟨a, by rw [h, ← ha]; rfl, h1, h2⟩
  have hS := setUp_of hA hs
  have hn : (360:ℝ)/dphi.getD dtheta = n := by rw [div_eq_iff hp.ne']; linarith
  have hm : (180:ℝ)/dtheta = m := by rw [div_eq_iff ht.ne']; linarith
  have hn0 : (n:ℝ) ≠ 0 := by rintro h; rw [h] at en; norm_num at en
  have hm0 : (m:ℝ) ≠ 0 := by rintro h; rw [h] at em; norm_num at em
  have hpi := pi_pos
  have f1 : ∀ k : ℕ, (k:ℝ)*(2*π)/n = k*dphi.getD dtheta*(π/180) := by
    intro k
    rw [div_eq_iff hn0]
    linear_combination (-(k:ℝ)*π/180)*en
  have f2 : ∀ k : ℕ, (k:ℝ)*π/m = k*dtheta*(π/180) := by
    intro k
    rw [div_eq_iff hm0]
    linear_combination (-(k:ℝ)*π/180)*em
  have tl : ((List.range m).map fun (k : ℕ) => (k:ℝ)*π/m).tail
      = (List.range (m - 1)).map fun (k : ℕ) => ((k:ℝ) + 1)*dtheta*(π/180) := by
    cases m with
    | zero => simp
    | succ m =>
      simp only [f2]
      rw [List.range_succ_eq_map, List.map_cons, List.tail_cons, List.map_map, Nat.add_sub_cancel]
      apply List.map_congr_left
      intro k _
      simp
  unfold Plots.plotLabels
  simp only [Meth.bind_apply, Meth.lift_apply, intDiv_ok (show (0:ℝ) ≤ 360 by norm_num) hp,
    intDiv_ok (show (0:ℝ) ≤ 180 by norm_num) ht, gridLine_ok, onOrtho, hS.transform, if_true, hn, hm,
    Nat.floor_natCast, linspace_dropLast, hS.phiLabels _ _ _ _ _ _ hR, hS.thetaLabels _ _ _ _ _ _ _ hR, tl, f1,
    labelText_zero, List.map_map, Function.comp_def, if_false, Bool.false_eq_true]
  have r1 : ∀ x : ℝ, rad2deg (x*(π/180)) = x := by intro x; unfold rad2deg; field_simp
  have r2 : ∀ k : ℕ, rad2deg (if lonlat = true then π/2 - ((k:ℝ) + 1)*dtheta*(π/180) else ((k:ℝ) + 1)*dtheta*(π/180))
      = if lonlat = true then 90 - ((k:ℝ) + 1)*dtheta else ((k:ℝ) + 1)*dtheta := by
    intro k
    split_ifs
    · unfold rad2deg; field_simp; ring
    · exact r1 _
  have d1 : ∀ x s : ℝ, x*(π/180) - deg2rad s = (x - s)*(π/180) := by intro x s; unfold deg2rad; ring
  simp only [r1, r2, d1]

/-- C92 does not hold for the default `onsphere=False`: `plot_labels` raises for all arguments, whatever the
libraries return, and draws nothing (`coords.polar2lonlat` does not exist). -/
theorem C92_violated (lib : EdgeLib) (xt : Py (List ℝ × List ℝ)) (dtheta : ℝ) (dphi : Option ℝ) (decimals : ℕ)
    (lonlat : Bool) (zeropoint shift : ℝ × ℝ) (ax : Target) (userotation : Bool) (s : Plots.State) :
    ∃ err s', plotLabels lib xt dtheta dphi decimals lonlat zeropoint shift ax false userotation s = (.error err, s') ∧
      s'.drawn = s.drawn := by
  unfold Plots.plotLabels
  simp only [Meth.bind_apply, Meth.lift_apply]
  cases intDiv 360 (dphi.getD dtheta) with
  | error err => exact ⟨err, s, rfl, rfl⟩
  | ok n =>
    simp only
    cases gridLine (2*π) n with
    | error err => exact ⟨err, s, rfl, rfl⟩
    | ok pg =>
      simp only
      cases intDiv 180 dtheta with
      | error err => exact ⟨err, s, rfl, rfl⟩
      | ok m =>
        simp only
        cases gridLine π m with
        | error err => exact ⟨err, s, rfl, rfl⟩
        | ok tg =>
          simp only [onOrtho]
          cases (transform 0 0 s.ortho).1 with
          | error err => exact ⟨err, _, rfl, rfl⟩
          | ok pole =>
            obtain ⟨err, he⟩ := yTicks_raises lib tg.dropLast.tail
            refine ⟨err, ⟨(transform 0 0 s.ortho).2, s.drawn⟩, ?_, rfl⟩
            simp only [Bool.false_eq_true, if_false, Meth.bind_apply, Meth.lift_apply, he]

/-- C92: the text of a label for any number of decimals. The angle in degrees, rounded (ties to even) to `d` decimals, is
`k/10^d`. Its decimal digits are written without zeros at the end, but with at least one digit after the point; the label
is that without its last two characters. So it is right if and only if there is one digit after the point and it is 0. -/
theorem C92_text (v : ℝ) (d : ℕ) : ∃ (k : ℤ) (f : List ℕ) (a b : Char),
    (|(k:ℝ) - v*180/π*10^d| ≤ 1/2 ∧ (|(k:ℝ) - v*180/π*10^d| = 1/2 → Even k)) ∧
    f ≠ [] ∧ (∀ x ∈ f, x < 10) ∧ f.length ≤ max d 1 ∧ (f.getLast? = some 0 → f = [0]) ∧
    |(k:ℝ)|/10^d = (k.natAbs/10^d : ℕ) + Plots.decVal f ∧
    labelText v d ++ [a, b] = (if k < 0 then ['-'] else []) ++ Nat.toDigits 10 (k.natAbs/10^d) ++ ['.']
      ++ f.map Nat.digitChar := by
  set k := rint (rad2deg v*10^d) with hk
  have hl := fracNums_lt d (k.natAbs % 10^d)
  obtain ⟨s1, s2, s3, s4, s5⟩ := stripNums_spec _ hl
  set f := stripNums (fracNums d (k.natAbs % 10^d)) with hf
  have hdec : decStr k d = (if k < 0 then ['-'] else []) ++ Nat.toDigits 10 (k.natAbs/10^d) ++ ['.']
      ++ f.map Nat.digitChar := by
    unfold decStr
    rw [fracDigits_eq, stripZeros_eq _ hl]
  rw [fracNums_length] at s3
  have hlen : 2 ≤ (decStr k d).length := by
    rw [hdec]
    have := List.length_pos_of_ne_nil s1
    simp only [List.length_append, List.length_map, List.length_cons, List.length_nil]
    omega
  have hne : decStr k d ≠ [] := by rintro h; simp [h] at hlen
  have hne2 : (decStr k d).dropLast ≠ [] := by
    intro h
    have := congrArg List.length h
    simp at this
    omega
  refine ⟨k, f, (decStr k d).dropLast.getLast hne2, (decStr k d).getLast hne, ⟨rint_near _, rint_even _⟩, s1, s2, s3, s4,
    ?_, ?_⟩
  · rw [s5, decVal_fracNums _ _ (Nat.mod_lt _ (by positivity))]
    have e : (k.natAbs:ℝ) = 10^d*(k.natAbs/10^d : ℕ) + (k.natAbs % 10^d : ℕ) := by
      exact_mod_cast (Nat.div_add_mod k.natAbs (10^d)).symm
    have ek : |(k:ℝ)| = (k.natAbs:ℝ) := by rw [Nat.cast_natAbs, Int.cast_abs]
    rw [ek, e, add_div, mul_div_cancel_left₀ _ (by positivity)]
  · rw [← hdec]
    unfold labelText
    rw [← hk]
    calc _ = ((decStr k d).dropLast.dropLast ++ [(decStr k d).dropLast.getLast hne2]) ++ [(decStr k d).getLast hne] := by
            simp
      _ = _ := by rw [List.dropLast_concat_getLast, List.dropLast_concat_getLast]

/-- C92 does not hold with decimals: with one decimal the label of 22.5 degrees is `22`. -/
theorem C92_violated_decimals : labelText (22.5*(π/180)) 1 = ['2', '2'] := by
  have hpi := pi_pos
  have e : rad2deg (22.5*(π/180))*10^1 = ((225:ℤ):ℝ) := by
    unfold rad2deg
    field_simp
    norm_num
  have r : rint ((225:ℤ):ℝ) = 225 := by
    unfold rint
    rw [Int.fract_intCast, if_pos (by norm_num), Int.floor_intCast]
  unfold labelText
  rw [e, r]
  decide +kernel

/-! ## C93: shapes -/

/-- C93 does not hold: `plot_box`, `plot_circle` and `plot_polar_box` raise `NameError` for all arguments and draw
nothing. -/
theorem C93_violated (a b e d : ℝ) (r : Option ℝ) (ctr : List ℝ) (len : ℕ) (lonlat : Bool) (ax : Target)
    (s : Plots.State) :
    plotBox a b e d ax len s = (.error .nameError, s) ∧ plotCircle r ctr len ax s = (.error .nameError, s) ∧
      plotPolarBox a b e d lonlat ax len s = (.error .nameError, s) := by
  refine ⟨rfl, rfl, ?_⟩
  unfold plotPolarBox shapesName
  cases lonlat <;> rfl

end Magpie.Props
