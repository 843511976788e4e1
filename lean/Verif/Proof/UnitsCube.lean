import Verif.Proof.UnitsMc
import Verif.Proof.UnitsDg

/-!
# `Cube2Shell` objects in other units
-/

set_option linter.unusedSimpArgs false
set_option linter.unusedVariables false

namespace Magpie.Units
open Magpie.Radial Magpie.OneD Magpie.Remap Magpie.Coords Magpie.Cube Magpie.Randoms

variable {c tx ty tz : ℝ}

/-- The cube. -/
noncomputable def sGrid (c tx ty tz : ℝ) (g : Grid3) : Grid3 where
  xedges := g.xedges.map fun x => c*x + tx
  yedges := g.yedges.map fun x => c*x + ty
  zedges := g.zedges.map fun x => c*x + tz
  xmid := g.xmid.map fun x => c*x + tx
  ymid := g.ymid.map fun x => c*x + ty
  zmid := g.zmid.map fun x => c*x + tz
  dx := c*g.dx
  dy := c*g.dy
  dz := c*g.dz
  x3d := ⟨g.x3d.n0, g.x3d.n1, g.x3d.n2, fun i j k => if j < g.x3d.n1 then c*g.x3d.val i j k + tx else 0⟩
  y3d := ⟨g.y3d.n0, g.y3d.n1, g.y3d.n2, fun i j k => if i < g.y3d.n0 then c*g.y3d.val i j k + ty else 0⟩
  z3d := ⟨g.z3d.n0, g.z3d.n1, g.z3d.n2, fun i j k => if k < g.z3d.n2 then c*g.z3d.val i j k + tz else 0⟩

/-- A point. -/
def pt3 (c tx ty tz : ℝ) (p : ℝ × ℝ × ℝ) : ℝ × ℝ × ℝ := (c*p.1 + tx, c*p.2.1 + ty, c*p.2.2 + tz)

/-- The cube has edges; `P` holds for the three lists of edges. -/
def Grid3.Inv (P : List ℝ → Prop) (g : Grid3) : Prop :=
  (g.xedges ≠ [] ∧ g.yedges ≠ [] ∧ g.zedges ≠ []) ∧ P g.xedges ∧ P g.yedges ∧ P g.zedges

theorem setupCube_scale (B : CubeArgs) :
    setupCube (Spec.Units.cube c tx ty tz B) = (setupCube B).map (sGrid c tx ty tz) := by
  unfold setupCube pyAssert
  simp only [Spec.Units.cube, bind, Except.bind]
  by_cases hx : B.numx > 0 <;> by_cases hy : B.numy > 0 <;> simp only [hx, hy, if_true, if_false] <;> try rfl
  by_cases h1 : B.numz + 1 < 0
  · simp only [h1, if_true, Except.map]
  by_cases h2 : B.numz < 1
  · simp only [h1, h2, if_true, if_false, Except.map]
  · simp only [h1, h2, if_false, Except.map, pure, Except.pure, Except.ok.injEq]
    have h1 : 1 < (linspace B.xmin B.xmax (B.numx.toNat + 1)).length := by rw [length_linspace]; omega
    have h2 : 1 < (linspace B.ymin B.ymax (B.numy.toNat + 1)).length := by rw [length_linspace]; omega
    have h3 : 1 < (linspace B.zmin B.zmax (B.numz.toNat + 1)).length := by rw [length_linspace]; omega
    unfold CubeArgs.grid sGrid
    simp only [linspace_aff, mids_aff, meshgrid3, List.length_map, getD_aff', if_pos h1, if_pos h2, if_pos h3,
      if_pos (lt_trans one_pos h1), if_pos (lt_trans one_pos h2), if_pos (lt_trans one_pos h3)]
    congr 1 <;> ring

theorem setupCube_inv {P : List ℝ → Prop} {B : CubeArgs} {g : Grid3} (h : setupCube B = .ok g)
    (hP : B.numx > 0 → B.numy > 0 → B.numz > 0 → P B.grid.xedges ∧ P B.grid.yedges ∧ P B.grid.zedges) :
    Grid3.Inv P g := by
  unfold setupCube pyAssert at h
  simp only [bind, Except.bind] at h
  by_cases hx : B.numx > 0 <;> by_cases hy : B.numy > 0 <;> simp only [hx, hy, if_true, if_false] at h <;>
    try (cases h)
  split_ifs at h with h1 h2
  simp only [pure, Except.pure, Except.ok.injEq] at h
  subst h
  refine ⟨⟨?_, ?_, ?_⟩, hP hx hy (by omega)⟩ <;> simp only [CubeArgs.grid] <;>
    rw [← List.length_pos_iff, length_linspace] <;> omega

theorem center3_length (l : List ℝ) : (Spec.Units.center3 c tx ty tz l).length = l.length := by
  unfold Spec.Units.center3
  split <;> rfl

theorem center3_scale {l : List ℝ} (h : l.length = 3) :
    center3 (Spec.Units.center3 c tx ty tz l) = pt3 c tx ty tz (center3 l) := by
  match l, h with
  | [x, y, z], _ => rfl

theorem sphere2cart_scale (r phi theta : ℝ) (z : ℝ × ℝ × ℝ) :
    sphere2cart (c*r) phi theta (pt3 c tx ty tz z) = pt3 c tx ty tz (sphere2cart r phi theta z) := by
  simp only [sphere2cart, pt3]
  ring_nf

/-! ## The dense grid class -/

/-- The shells. -/
noncomputable def sShell (c tx ty tz : ℝ) (h : DgCube.Shell) : DgCube.Shell :=
  { h with center := pt3 c tx ty tz h.center, centers := h.centers.map (pt3 c tx ty tz)
           rredges := h.rredges.map (c * ·), rrmid := h.rrmid.map (c * ·) }

/-- The object. -/
noncomputable def sCube (c tx ty tz : ℝ) (s : DgCube.State) : DgCube.State where
  cube := s.cube.map (sGrid c tx ty tz)
  edges := s.edges.map fun e => (e.1.map (c * ·), e.2.map (c * ·))
  dr := s.dr.map (c * ·)
  shell := s.shell.map (sShell c tx ty tz)

/-- The cube has edges. -/
def CInv (s : DgCube.State) : Prop := ∀ g, s.cube = some g → Grid3.Inv (fun _ => True) g

variable {s : DgCube.State}

theorem dgc_cube_at (hI : CInv s) (B : CubeArgs) :
    At (sCube c tx ty tz) CInv s (DgCube.setupCube B) (DgCube.setupCube (Spec.Units.cube c tx ty tz B)) := by
  unfold DgCube.setupCube
  refine At.liftBind (sGrid c tx ty tz) (setupCube_scale B) hI fun g hg => At.assign (by simp [sCube]) ?_
  intro g' hg'
  simp only [Option.some.injEq] at hg'
  subst hg'
  exact setupCube_inv hg fun _ _ _ => ⟨trivial, trivial, trivial⟩

theorem side_scale (t : ℝ) {l : List ℝ} (h : l ≠ []) :
    DgCube.side (l.map fun x => c*x + t) = c*DgCube.side l := by
  unfold DgCube.side
  rw [getLastD_aff c t h, getD_aff c t (List.length_pos_iff.2 h)]
  ring

theorem mkCenters_scale {o : Option Grid3} (ho : ∀ g, o = some g → Grid3.Inv (fun _ => True) g)
    {A : DgCube.ShellArgs} (h : A.center.length = 3) :
    DgCube.mkCenters (o.map (sGrid c tx ty tz)) (Spec.Units.dgShell c tx ty tz A) =
      (DgCube.mkCenters o A).map fun l => l.map (pt3 c tx ty tz) := by
  unfold DgCube.mkCenters
  simp only [Spec.Units.dgShell, center3_scale h]
  generalize List.flatMap _ _ = idx
  split_ifs with h1
  · rfl
  · cases o with
    | none => rfl
    | some g =>
      obtain ⟨⟨hx, hy, hz⟩, -⟩ := ho g rfl
      simp only [Option.map_some, need_some, bind, Except.bind, pure, Except.pure, Except.map, List.map_map,
        Except.ok.injEq]
      refine List.map_congr_left fun n _ => ?_
      simp only [sGrid, side_scale _ hx, side_scale _ hy, side_scale _ hz, pt3, Function.comp]
      ring_nf

theorem dgc_checks_scale (hc : 0 < c) (A : DgCube.ShellArgs) :
    DgCube.shellChecks (Spec.Units.dgShell c tx ty tz A) = DgCube.shellChecks A := by
  unfold DgCube.shellChecks
  rw [pyAssert_congr (p := (Spec.Units.dgShell c tx ty tz A).rmin ≥ 0) (q := A.rmin ≥ 0)
      (mul_nonneg_iff_of_pos_left hc),
    pyAssert_congr (p := (Spec.Units.dgShell c tx ty tz A).rmin < (Spec.Units.dgShell c tx ty tz A).rmax)
      (q := A.rmin < A.rmax) (mul_lt_mul_iff_right₀ hc),
    pyAssert_congr (p := (Spec.Units.dgShell c tx ty tz A).center.length = 3) (q := A.center.length = 3)
      (by rw [show (Spec.Units.dgShell c tx ty tz A).center = Spec.Units.center3 c tx ty tz A.center from rfl,
        center3_length])]
  rfl

theorem dgc_checks_center {A : DgCube.ShellArgs} {u : Unit} (h : DgCube.shellChecks A = .ok u) :
    A.center.length = 3 := by
  unfold DgCube.shellChecks pyAssert at h
  simp only [bind, Except.bind] at h
  split_ifs at h <;> simp_all

theorem dgc_polar_at (hc : 0 < c) (hI : CInv s) (A : DgCube.ShellArgs) :
    At (sCube c tx ty tz) CInv s (DgCube.setupPolar A) (DgCube.setupPolar (Spec.Units.dgShell c tx ty tz A)) := by
  unfold DgCube.setupPolar
  refine At.liftBind' (dgc_checks_scale hc A) hI fun _ hk => ?_
  have hk := dgc_checks_center hk
  have hl : linspace (Spec.Units.dgShell c tx ty tz A).rmin (Spec.Units.dgShell c tx ty tz A).rmax
      ((Spec.Units.dgShell c tx ty tz A).numr.toNat + 1) =
      (linspace A.rmin A.rmax (A.numr.toNat + 1)).map (c * ·) := linspace_mul _ _ _ _
  rw [hl]
  generalize linspace A.rmin A.rmax (A.numr.toNat + 1) = l
  dsimp only
  rw [mids_mul]
  refine At.assignBind (by simp [sCube]) hI ?_
  refine At.liftBind (c * ·) (firstDiff_mul c _) hI fun dr _ => ?_
  refine At.assignBind (by simp [sCube]) hI ?_
  refine At.self ?_
  refine At.liftBind (fun (l : List (ℝ × ℝ × ℝ)) => l.map (pt3 c tx ty tz)) (mkCenters_scale hI hk) hI
    fun cs _ => ?_
  refine At.assign ?_ hI
  simp only [sCube, Option.map_some, sShell, Spec.Units.dgShell, center3_scale hk, getD_mul, getLastD_mul,
    List.length_map, linspace_mul, mids_mul]

theorem cellOf_scale (hc : 0 < c) {g : Grid3} (hg : Grid3.Inv (fun _ => True) g) (r : ℝ) (ang : ℝ × ℝ)
    (z : ℝ × ℝ × ℝ) :
    DgCube.cellOf (sGrid c tx ty tz g) (c*r) ang (pt3 c tx ty tz z) = DgCube.cellOf g r ang z := by
  obtain ⟨⟨hx, hy, hz⟩, -⟩ := hg
  unfold DgCube.cellOf
  simp only [sphere2cart_scale]
  simp only [sGrid, getD_aff c _ (List.length_pos_iff.2 hx), getD_aff c _ (List.length_pos_iff.2 hy),
    getD_aff c _ (List.length_pos_iff.2 hz), List.length_map, pt3, cellIdx_aff hc]

theorem dgc_highres_scale (hc : 0 < c) {g : Grid3} (hg : Grid3.Inv (fun _ => True) g) (f : Arr3 (Option ℝ)) (r : ℝ)
    (ang : ℝ × ℝ) (cs : List (ℝ × ℝ × ℝ)) (v : Option ℝ) :
    DgCube.highres (sGrid c tx ty tz g) f (c*r) ang (cs.map (pt3 c tx ty tz)) v = DgCube.highres g f r ang cs v := by
  induction cs generalizing v with
  | nil => rfl
  | cons z cs ih => simp only [List.map_cons, DgCube.highres, cellOf_scale hc hg, ih]

theorem entry_scale (hc : 0 < c) {o : Option Grid3} (ho : ∀ g, o = some g → Grid3.Inv (fun _ => True) g)
    (f : Arr3 (Option ℝ)) (r : ℝ) (ang : ℝ × ℝ) (cs : List (ℝ × ℝ × ℝ)) :
    DgCube.entry (o.map (sGrid c tx ty tz)) f (c*r) ang (cs.map (pt3 c tx ty tz)) = DgCube.entry o f r ang cs := by
  cases o with
  | none => rfl
  | some g => simp only [DgCube.entry, Option.map_some, dgc_highres_scale hc (ho g rfl)]

theorem dgc_remap_at (hc : 0 < c) (hI : CInv s) (hp : DgCube.Hp) (f : Arr3 (Option ℝ)) :
    At (sCube c tx ty tz) CInv s (DgCube.remap hp f) (DgCube.remap hp f) := by
  have hk : c^3 ≠ 0 := by positivity
  unfold DgCube.remap
  refine At.self ?_
  refine At.liftBind (sShell c tx ty tz) (need_map _ _) hI fun sh _ => ?_
  refine At.liftBind (fun (e : List ℝ × List ℝ) => (e.1.map (c * ·), e.2.map (c * ·))) (need_map _ _) hI
    fun e _ => ?_
  refine At.liftBind' rfl hI fun npix _ => ?_
  refine At.liftBind' rfl hI fun npixHi _ => ?_
  refine At.liftBind (Option.map (sGrid c tx ty tz)) ?_ hI fun g hg => ?_
  · simp only [sShell, List.map_eq_nil_iff, sCube]
    split_ifs
    · rfl
    · cases s.cube <;> rfl
  have hg' : ∀ g', g = some g' → Grid3.Inv (fun _ => True) g' := by
    rintro g' rfl
    split_ifs at hg
    · simp at hg
    · cases h : s.cube with
      | none => rw [h] at hg; simp [need, Except.map] at hg
      | some b' =>
        rw [h] at hg
        simp only [need_some, Except.map, Except.ok.injEq, Option.some.injEq] at hg
        exact hI g' (by rw [h, hg])
  refine At.liftBind' ?_ hI fun hi _ => ?_
  · simp only [sShell, List.length_map, getD_mul, entry_scale hc hg']
  have hrw : List.zipWith (fun b a => b^3 - a^3) (sShell c tx ty tz sh).rredges.tail
      (sShell c tx ty tz sh).rredges.dropLast =
      (List.zipWith (fun b a => b^3 - a^3) sh.rredges.tail sh.rredges.dropLast).map (c^3 * ·) :=
    zipWith_pow c 3 sh.rredges
  rw [hrw]
  generalize List.zipWith (fun b a => b^3 - a^3) sh.rredges.tail sh.rredges.dropLast = w
  dsimp only
  refine At.liftBind (fun (v : ℕ → ℕ → ℕ → Option ℝ) i j l => oscale (c^3) (v i j l)) ?_ hI fun w3 _ => ?_
  · rw [← reshape3_scale]
    simp only [oarr, List.length_map, getD_mul, oscale, Option.map_some]
    rfl
  refine At.liftBind (fun (v : ℕ → ℕ → ℕ → Option ℝ) i j l => oscale (c^3) (v i j l)) ?_ hI fun s3 _ => ?_
  · rw [← reshape3_scale]
    simp only [oarr, List.length_map, getD_mul, omul_scale, sShell]
  have e : ∀ (g : ℕ → Option ℝ) n, npSum ((List.range n).map fun k => oscale (c^3) (g k)) =
      oscale (c^3) (npSum ((List.range n).map g)) := fun g n => by
    rw [← npSum_scale, List.map_map]; rfl
  simp only [e, odiv_scale hk, List.length_map, sShell]
  exact At.pure hI _

theorem dgc_run (hc : 0 < c) (hp : DgCube.Hp) (l : List DgCube.Call) :
    (runCalls (DgCube.call hp) (l.map (Spec.Units.dgCubeCall c tx ty tz)) DgCube.init).1 =
      (runCalls (DgCube.call hp) l DgCube.init).1 := by
  have h0 : DgCube.init = sCube c tx ty tz DgCube.init := rfl
  conv_lhs => rw [h0]
  have hI : CInv DgCube.init := fun g hg => by simp [DgCube.init] at hg
  clear h0
  revert hI
  generalize DgCube.init = s
  induction l generalizing s with
  | nil => intro _; rfl
  | cons q l ih =>
    intro hI
    have key : DgCube.call hp (Spec.Units.dgCubeCall c tx ty tz q) (sCube c tx ty tz s) =
        ((DgCube.call hp q s).1, sCube c tx ty tz (DgCube.call hp q s).2) ∧ CInv (DgCube.call hp q s).2 := by
      cases q with
      | cube a =>
        obtain ⟨h1, h2⟩ := dgc_cube_at (c := c) (tx := tx) (ty := ty) (tz := tz) hI a
        exact ⟨by simp only [DgCube.call, Spec.Units.dgCubeCall, Meth.call, h1], h2⟩
      | polar a =>
        obtain ⟨h1, h2⟩ := dgc_polar_at (tx := tx) (ty := ty) (tz := tz) hc hI a
        exact ⟨by simp only [DgCube.call, Spec.Units.dgCubeCall, Meth.call, h1], h2⟩
      | remap f =>
        obtain ⟨h1, h2⟩ := dgc_remap_at (tx := tx) (ty := ty) (tz := tz) hc hI hp f
        exact ⟨by simp only [DgCube.call, Spec.Units.dgCubeCall, Meth.call, h1], h2⟩
      | clean => exact ⟨rfl, fun g hg => by simp [DgCube.call, Meth.call, DgCube.clean, DgCube.init] at hg⟩
    simp only [List.map_cons, runCalls]
    rw [key.1]
    simp only [ih _ key.2]

/-! ## The Monte Carlo class -/

/-- The object. -/
noncomputable def sMcCube (c tx ty tz : ℝ) (s : McCube.State) : McCube.State where
  cube := s.cube.map (sGrid c tx ty tz)
  edges := s.edges.map fun e => (e.1.map (c * ·), e.2.map (c * ·))
  dr := s.dr.map (sArg c)
  shell := s.shell.map fun h => (⟨h.nside, pt3 c tx ty tz h.center⟩ : McCube.Shell)
  weights := s.weights

/-- The cube has edges, and widths unless the units are the same. -/
def MInv (c : ℝ) (s : McCube.State) : Prop :=
  ∀ g, s.cube = some g → Grid3.Inv (fun l => c = 1 ∨ l.getD 0 0 ≠ l.getLastD 0) g

section
variable {s : McCube.State}

theorem mcc_cube_at (hI : MInv c s) (B : CubeArgs) (hw : c = 1 ∨ Spec.Units.Wide3 B) :
    At (sMcCube c tx ty tz) (MInv c) s (McCube.setupCube B) (McCube.setupCube (Spec.Units.cube c tx ty tz B)) := by
  unfold McCube.setupCube
  refine At.liftBind (sGrid c tx ty tz) (setupCube_scale B) hI fun g hg => At.assign (by simp [sMcCube]) ?_
  intro g' hg'
  simp only [Option.some.injEq] at hg'
  subst hg'
  refine setupCube_inv hg fun hx hy hz => ?_
  rcases hw with h | ⟨h1, h2, h3⟩
  · exact ⟨.inl h, .inl h, .inl h⟩
  · refine ⟨.inr ?_, .inr ?_, .inr ?_⟩ <;> simp only [CubeArgs.grid] <;>
      rw [linspace_first (by omega), linspace_last' (by omega)] <;> assumption

theorem mcc_checks_scale (hc : 0 < c) (A : McCube.ShellArgs) :
    McCube.shellChecks (Spec.Units.mcShell c tx ty tz A) = McCube.shellChecks A := by
  unfold McCube.shellChecks
  rw [pyAssert_congr (p := (Spec.Units.mcShell c tx ty tz A).rmin < (Spec.Units.mcShell c tx ty tz A).rmax)
      (q := A.rmin < A.rmax) (mul_lt_mul_iff_right₀ hc),
    pyAssert_congr (p := (Spec.Units.mcShell c tx ty tz A).center.length = 3) (q := A.center.length = 3)
      (by rw [show (Spec.Units.mcShell c tx ty tz A).center = Spec.Units.center3 c tx ty tz A.center from rfl,
        center3_length])]
  rfl

theorem mcc_checks_center {A : McCube.ShellArgs} {u : Unit} (h : McCube.shellChecks A = .ok u) :
    A.center.length = 3 ∧ A.rmin < A.rmax := by
  unfold McCube.shellChecks pyAssert at h
  simp only [bind, Except.bind] at h
  split_ifs at h <;> simp_all

theorem mcc_lin_at (hc : 0 < c) (hI : MInv c s) (A : McCube.ShellArgs) :
    At (sMcCube c tx ty tz) (MInv c) s (McCube.setupPolarLin A)
      (McCube.setupPolarLin (Spec.Units.mcShell c tx ty tz A)) := by
  unfold McCube.setupPolarLin
  refine At.liftBind' (pyAssert_congr (mul_nonneg_iff_of_pos_left hc)) hI fun _ _ =>
    At.liftBind' (mcc_checks_scale hc A) hI fun _ hk => ?_
  obtain ⟨hk, -⟩ := mcc_checks_center hk
  have hl : linspace (Spec.Units.mcShell c tx ty tz A).rmin (Spec.Units.mcShell c tx ty tz A).rmax
      ((Spec.Units.mcShell c tx ty tz A).numr.toNat + 1) =
      (linspace A.rmin A.rmax (A.numr.toNat + 1)).map (c * ·) := linspace_mul _ _ _ _
  rw [hl]
  generalize linspace A.rmin A.rmax (A.numr.toNat + 1) = l
  dsimp only
  rw [mids_mul]
  refine At.assignBind (by simp [sMcCube]) hI ?_
  refine At.liftBind (c * ·) (firstDiff_mul c _) hI fun dr _ => At.assign ?_ hI
  simp only [sMcCube, Option.map_some, sArg, Spec.Units.mcShell, center3_scale hk]

theorem mcc_logEdges_scale (hc : 0 < c) {A : McCube.ShellArgs} (h0 : A.rmin > 0) (h1 : A.rmin < A.rmax) (z : Bool) :
    McCube.logEdges (Spec.Units.mcShell c tx ty tz A) z = (McCube.logEdges A z).map (c * ·) := by
  unfold McCube.logEdges
  simp only [Spec.Units.mcShell, logspace_mul hc h0 (lt_trans h0 h1)]
  split_ifs
  · simp
  · rfl

theorem mcc_log_at (hc : 0 < c) (hI : MInv c s) (A : McCube.ShellArgs) (z : Bool) :
    At (sMcCube c tx ty tz) (MInv c) s (McCube.setupPolarLog A z)
      (McCube.setupPolarLog (Spec.Units.mcShell c tx ty tz A) z) := by
  unfold McCube.setupPolarLog
  refine At.liftBind' (pyAssert_congr (mul_pos_iff_of_pos_left hc)) hI fun _ h0 =>
    At.liftBind' (mcc_checks_scale hc A) hI fun _ hk => ?_
  obtain ⟨hk, h1⟩ := mcc_checks_center hk
  have h0 : A.rmin > 0 := by by_contra h; simp [pyAssert, h] at h0
  rw [mcc_logEdges_scale hc h0 h1]
  generalize McCube.logEdges A z = l
  dsimp only
  refine At.assign ?_ hI
  have := zipWith_pow c 1 l
  simp only [pow_one] at this
  simp only [sMcCube, Option.map_some, sArg, Spec.Units.mcShell, center3_scale hk, mids_mul, this]

theorem npCbrt_scale (hc : 0 < c) (x : ℝ) : npCbrt (c^3*x) = oscale c (npCbrt x) := by
  unfold npCbrt oscale
  have : 0 ≤ c^3*x ↔ 0 ≤ x := mul_nonneg_iff_of_pos_left (by positivity)
  by_cases hx : 0 ≤ x
  · rw [if_pos hx, if_pos (this.2 hx), Option.map_some, Real.mul_rpow (by positivity) hx, ← Real.rpow_natCast,
      ← Real.rpow_mul hc.le]
    norm_num
  · rw [if_neg hx, if_neg (fun h => hx (this.1 h)), Option.map_none]

theorem mcc_points_scale (hc : 0 < c) (r0 r1 : ℝ) (pix : ℕ) (sh : McCube.Shell) (ux uy ur : List ℝ) :
    McCube.randomPoints (c*r0) (c*r1) pix ⟨sh.nside, pt3 c tx ty tz sh.center⟩ ux uy ur =
      (McCube.randomPoints r0 r1 pix sh ux uy ur).map fun l => l.map (Option.map (pt3 c tx ty tz)) := by
  unfold McCube.randomPoints
  dsimp only
  cases h : randomsHealpixPixel ux uy pix sh.nside with
  | error e => rfl
  | ok a =>
    obtain ⟨phi, theta⟩ := a
    have e1 : randomsSphereR ur (c*r0) (c*r1) = (randomsSphereR ur r0 r1).map (oscale c) := by
      unfold randomsSphereR
      rw [List.map_map]
      refine List.map_congr_left fun u _ => ?_
      simp only [Function.comp, ← npCbrt_scale hc]
      congr 1
      ring
    simp only [bind, Except.bind, pure, Except.pure, Except.map, e1, Except.ok.injEq]
    rw [List.map_zipWith, List.zipWith_map_left]
    congr 1
    funext a b
    obtain ⟨b1, b2⟩ := b
    cases a with
    | none => rfl
    | some a =>
      cases b1 with
      | none => rfl
      | some b1 =>
        cases b2 with
        | none => rfl
        | some b2 => simp only [oscale, Option.map_some, sphere2cart_scale]

theorem mcc_hits_scale (hc : 0 < c) {hx hy hz : List ℝ} (h1 : hx ≠ []) (h2 : hy ≠ []) (h3 : hz ≠ []) (n : ℕ)
    (l : List (Option (ℝ × ℝ × ℝ))) :
    McCube.pixelHits (hx.map fun x => c*x + tx) (hy.map fun x => c*x + ty) (hz.map fun x => c*x + tz) n
      (l.map (Option.map (pt3 c tx ty tz))) = McCube.pixelHits hx hy hz n l := by
  have e0 : ∀ p, McCube.binOf (hx.map fun x => c*x + tx) (hy.map fun x => c*x + ty) (hz.map fun x => c*x + tz)
      (Option.map (pt3 c tx ty tz) p) = McCube.binOf hx hy hz p := by
    intro p
    cases p with
    | none => rfl
    | some p =>
      simp only [McCube.binOf, Option.map_some, pt3, histBin_aff hc _ h1, histBin_aff hc _ h2, histBin_aff hc _ h3]
  have e : ∀ q, McCube.histCount (hx.map fun x => c*x + tx) (hy.map fun x => c*x + ty) (hz.map fun x => c*x + tz)
      (l.map (Option.map (pt3 c tx ty tz))) q = McCube.histCount hx hy hz l q := by
    intro q
    unfold McCube.histCount
    rw [List.filter_map, List.length_map]
    congr 1
    refine List.filter_congr fun p _ => ?_
    simp only [Function.comp, e0]
  unfold McCube.pixelHits
  simp only [e, List.length_map]

theorem mcc_weights_at (hc : 0 < c) (hI : MInv c s) (n : ℕ) (draws : ℕ → ℕ → McCube.Draw) :
    At (sMcCube c tx ty tz) (MInv c) s (McCube.getWeights n draws) (McCube.getWeights n draws) := by
  unfold McCube.getWeights
  refine At.self ?_
  refine At.liftBind (fun (e : List ℝ × List ℝ) => (e.1.map (c * ·), e.2.map (c * ·))) (need_map _ _) hI
    fun e _ => ?_
  refine At.liftBind (fun (h : McCube.Shell) => (⟨h.nside, pt3 c tx ty tz h.center⟩ : McCube.Shell)) (need_map _ _) hI
    fun sh _ => ?_
  refine At.liftBind' rfl hI fun npix _ => ?_
  refine At.liftBind (sGrid c tx ty tz) (need_map _ _) hI fun g hg => ?_
  have hg : s.cube = some g := by
    cases h : s.cube with
    | none => rw [h] at hg; simp [need] at hg
    | some b' => rw [h] at hg; simpa [need] using hg
  obtain ⟨⟨hx, hy, hz⟩, wx, wy, wz⟩ := hI g hg
  obtain ⟨redges, rmid⟩ := e
  dsimp only
  have key : ∀ i j, (do
      let d := draws i j
      let pts ← McCube.randomPoints ((redges.map (c * ·)).getD i 0) ((redges.map (c * ·)).getD (i+1) 0) j
        ⟨sh.nside, pt3 c tx ty tz sh.center⟩ d.ux d.uy d.ur
      let hx ← Mc.histEdges (sGrid c tx ty tz g).xedges
      let hy ← Mc.histEdges (sGrid c tx ty tz g).yedges
      let hz ← Mc.histEdges (sGrid c tx ty tz g).zedges
      return McCube.pixelHits hx hy hz n pts : Py (List McCube.Hit)) = (do
      let d := draws i j
      let pts ← McCube.randomPoints (redges.getD i 0) (redges.getD (i+1) 0) j sh d.ux d.uy d.ur
      let hx ← Mc.histEdges g.xedges
      let hy ← Mc.histEdges g.yedges
      let hz ← Mc.histEdges g.zedges
      return McCube.pixelHits hx hy hz n pts) := by
    intro i j
    simp only [getD_mul, mcc_points_scale hc, sGrid, histEdges_aff hc tx hx wx, histEdges_aff hc ty hy wy,
      histEdges_aff hc tz hz wz]
    cases h1 : McCube.randomPoints (redges.getD i 0) (redges.getD (i+1) 0) j sh (draws i j).ux (draws i j).uy
      (draws i j).ur with
    | error e => rfl
    | ok pts =>
      cases ex : Mc.histEdges g.xedges with
      | error e => rfl
      | ok lx =>
        cases ey : Mc.histEdges g.yedges with
        | error e => rfl
        | ok ly =>
          cases ez : Mc.histEdges g.zedges with
          | error e => rfl
          | ok lz =>
            simp only [Except.map, bind, Except.bind, pure, Except.pure,
              mcc_hits_scale hc (histEdges_length ex) (histEdges_length ey) (histEdges_length ez)]
  refine At.liftBind' ?_ hI fun hits _ => ?_
  · simp only [key, List.length_map]
  refine At.liftBind' (by simp only [List.length_map]) hI fun o _ => At.assign ?_ hI
  simp only [sMcCube, List.length_map]

theorem mcc_remap_at (hI : MInv c s) (f : Arr3 (Option ℝ)) (w : Option (Arr3 ℝ)) :
    At (sMcCube c tx ty tz) (MInv c) s (McCube.remap f w) (McCube.remap f w) := by
  unfold McCube.remap
  refine At.self ?_
  refine At.liftBind (fun (e : List ℝ × List ℝ) => (e.1.map (c * ·), e.2.map (c * ·))) (need_map _ _) hI
    fun e _ => ?_
  refine At.liftBind (fun (h : McCube.Shell) => (⟨h.nside, pt3 c tx ty tz h.center⟩ : McCube.Shell)) (need_map _ _) hI
    fun sh _ => ?_
  refine At.liftBind' rfl hI fun npix _ => ?_
  refine At.liftBind' rfl hI fun st _ => ?_
  simp only [List.length_map]
  exact At.lift hI _

theorem mcc_run (hc : 0 < c) (l : List McCube.Call)
    (hw : c = 1 ∨ ∀ B, McCube.Call.cube B ∈ l → Spec.Units.Wide3 B) :
    (runCalls McCube.call (l.map (Spec.Units.mcCubeCall c tx ty tz)) McCube.init).1 =
      (runCalls McCube.call l McCube.init).1 := by
  have h0 : McCube.init = sMcCube c tx ty tz McCube.init := rfl
  conv_lhs => rw [h0]
  have hI : MInv c McCube.init := fun g hg => by simp [McCube.init] at hg
  replace hw : ∀ B, McCube.Call.cube B ∈ l → c = 1 ∨ Spec.Units.Wide3 B := fun B hB => hw.imp id fun h => h B hB
  clear h0
  revert hI hw
  generalize McCube.init = s
  induction l generalizing s with
  | nil => intro _ _; rfl
  | cons q l ih =>
    intro hI hw
    have key : McCube.call (Spec.Units.mcCubeCall c tx ty tz q) (sMcCube c tx ty tz s) =
        ((McCube.call q s).1, sMcCube c tx ty tz (McCube.call q s).2) ∧ MInv c (McCube.call q s).2 := by
      cases q with
      | cube a =>
        obtain ⟨h1, h2⟩ := mcc_cube_at (tx := tx) (ty := ty) (tz := tz) hI a (hw a (by simp))
        exact ⟨by simp only [McCube.call, Spec.Units.mcCubeCall, Meth.call, h1], h2⟩
      | lin a =>
        obtain ⟨h1, h2⟩ := mcc_lin_at (tx := tx) (ty := ty) (tz := tz) hc hI a
        exact ⟨by simp only [McCube.call, Spec.Units.mcCubeCall, Meth.call, h1], h2⟩
      | log a z =>
        obtain ⟨h1, h2⟩ := mcc_log_at (tx := tx) (ty := ty) (tz := tz) hc hI a z
        exact ⟨by simp only [McCube.call, Spec.Units.mcCubeCall, Meth.call, h1], h2⟩
      | weights n d =>
        obtain ⟨h1, h2⟩ := mcc_weights_at (tx := tx) (ty := ty) (tz := tz) hc hI n d
        exact ⟨by simp only [McCube.call, Spec.Units.mcCubeCall, Meth.call, h1], h2⟩
      | remap f w =>
        obtain ⟨h1, h2⟩ := mcc_remap_at (tx := tx) (ty := ty) (tz := tz) hI f w
        exact ⟨by simp only [McCube.call, Spec.Units.mcCubeCall, Meth.call, h1], h2⟩
      | clean => exact ⟨rfl, fun g hg => by simp [McCube.call, Meth.call, McCube.clean, McCube.init] at hg⟩
    simp only [List.map_cons, runCalls]
    rw [key.1]
    simp only [ih _ key.2 fun B hB => hw B (by simp [hB])]

end
end Magpie.Units
