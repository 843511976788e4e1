import Verif.Proof.UnitsRing

/-!
# The dense grid `Box2Ring` in other units
-/

set_option linter.unusedSimpArgs false
set_option linter.unusedVariables false

namespace Magpie.Units
open Magpie.Radial Magpie.OneD Magpie.Remap Magpie.Coords Magpie.Box2Ring

/-- The dense grid. -/
noncomputable def sDense (c : ℝ) (d : Dg.Dense) : Dg.Dense :=
  { d with redges := d.redges.map (c * ·), rmid := d.rmid.map (c * ·), r2d := arr c d.r2d }

/-- An array of values times `k`. -/
def oarr (k : ℝ) (a : Arr2 (Option ℝ)) : Arr2 (Option ℝ) := ⟨a.rows, a.cols, fun i j => oscale k (a.val i j)⟩

variable {c tx ty : ℝ} {P : List ℝ → Prop} {s : Dg.State}

theorem reshape3_scale (k : ℝ) (a : Arr2 (Option ℝ)) (n1 n2 n3 : ℕ) : (oarr k a).reshape3 n1 n2 n3 =
    (a.reshape3 n1 n2 n3).map fun v i j l => oscale k (v i j l) := by
  unfold Arr2.reshape3 oarr
  dsimp only
  split_ifs <;> rfl

theorem downgrade_scale (k : ℝ) (a : Arr2 (Option ℝ)) (n1 n2 mr mp l : ℕ) :
    Dg.downgrade (oarr k a) n1 n2 mr mp l = (Dg.downgrade a n1 n2 mr mp l).map (oarr k) := by
  unfold Dg.downgrade
  rw [reshape3_scale]
  cases h : a.reshape3 n1 mr l with
  | error e => rfl
  | ok a3 =>
    simp only [Except.map, bind, Except.bind]
    have e1 : (⟨n1, l, fun i q => npSum ((List.range mr).map fun k' => oscale k (a3 i k' q))⟩ : Arr2 (Option ℝ)) =
        oarr k ⟨n1, l, fun i q => npSum ((List.range mr).map fun k' => a3 i k' q)⟩ := by
      simp only [oarr, ← npSum_scale, List.map_map]
      rfl
    rw [e1, reshape3_scale]
    cases h2 : Arr2.reshape3 (⟨n1, l, fun i q => npSum ((List.range mr).map fun k' => a3 i k' q)⟩ :
      Arr2 (Option ℝ)) n1 n2 mp with
    | error e => rfl
    | ok s3 =>
      simp only [Except.map, pure, Except.pure, oarr, Except.ok.injEq]
      congr 1
      funext i j
      rw [← odiv_num, ← npSum_scale, List.map_map]
      rfl

theorem dg_setupPolar_at (hc : 0 < c) (hI : Inv P s) (A : PolarArgs) (mr mp : ℕ) :
    At (sState c tx ty (sDense c)) (Inv P) s (Dg.setupPolar A mr mp)
      (Dg.setupPolar (Spec.Units.polar c tx ty A) mr mp) := by
  unfold Dg.setupPolar
  refine At.liftBind' (pyAssert_congr (mul_nonneg_iff_of_pos_left hc)) hI fun _ _ =>
    At.liftBind' (polarChecks_scale hc A) hI fun _ hk => ?_
  obtain ⟨hk, -⟩ := polarChecks_center hk
  have he : mkEdges (linspace (Spec.Units.polar c tx ty A).rmin (Spec.Units.polar c tx ty A).rmax
      ((Spec.Units.polar c tx ty A).numr.toNat + 1))
      (linspace (Spec.Units.polar c tx ty A).pmin (Spec.Units.polar c tx ty A).pmax
        ((Spec.Units.polar c tx ty A).nump.toNat + 1)) =
      sEdges c (mkEdges (linspace A.rmin A.rmax (A.numr.toNat + 1)) (linspace A.pmin A.pmax (A.nump.toNat + 1))) := by
    rw [← mkEdges_mul, ← linspace_mul]
    rfl
  rw [he]
  generalize mkEdges (linspace A.rmin A.rmax (A.numr.toNat + 1)) (linspace A.pmin A.pmax (A.nump.toNat + 1)) = e
  dsimp only
  refine At.assignBind (by simp [sState]) hI ?_
  refine At.liftBind (c * ·) (firstDiff_mul c e.rmid) hI fun dr _ => ?_
  refine At.assignBind (by simp [sState, sArg]) hI ?_
  refine At.liftBind' rfl hI fun dp _ => ?_
  refine At.assignBind (by simp [sState]) hI ?_
  refine At.assign ?_ hI
  simp only [sState, Option.map_some, mkPolar_scale hk]
  congr 2
  simp only [Dg.mkDense, sDense, sEdges, List.length_map, getD_mul, getLastD_mul, linspace_mul, mids_mul,
    meshgridXY_mul, Spec.Units.polar]

theorem highres_scale (hc : 0 < c) {b : Box} (hb : b.xedges ≠ [] ∧ b.yedges ≠ []) (z : ℝ × ℝ)
    (f : Arr2 (Option ℝ)) (r phi : ℝ) :
    Dg.highres (sBox c tx ty b) (c*z.1 + tx, c*z.2 + ty) f (c*r) phi = Dg.highres b z f r phi := by
  unfold Dg.highres
  have e1 : polar2cart (c*r) phi (c*z.1 + tx, c*z.2 + ty) =
      (c*(polar2cart r phi z).1 + tx, c*(polar2cart r phi z).2 + ty) := by
    simp only [polar2cart]
    ring_nf
  simp only [e1, sBox, getD_aff c tx (List.length_pos_iff.2 hb.1), getD_aff c ty (List.length_pos_iff.2 hb.2),
    List.length_map, cellIdx_aff hc]

theorem dg_remap1_at (hc : 0 < c) (hI : Inv P s) (f : Arr2 (Option ℝ)) :
    At (sState c tx ty (sDense c)) (Inv P) s (Dg.remap1 f) (Dg.remap1 f) := by
  have hk : c^2 ≠ 0 := by positivity
  unfold Dg.remap1
  refine At.self ?_
  refine At.liftBind (sDense c) (need_map _ _) hI fun d _ => ?_
  refine At.liftBind (sPolar c tx ty) (need_map _ _) hI fun p _ => ?_
  refine At.liftBind (sBox c tx ty) (need_map _ _) hI fun b hb => ?_
  have hb : s.box = some b := by
    cases h : s.box with
    | none => rw [h] at hb; simp [need] at hb
    | some b' => rw [h] at hb; simpa [need] using hb
  have hb := (hI b hb).1
  refine At.liftBind' ?_ hI fun hi _ => ?_
  · simp only [sDense, sPolar, arr, highres_scale hc hb]
  · have hrw : List.zipWith (fun b a => b^2 - a^2) (sDense c d).redges.tail (sDense c d).redges.dropLast =
        (List.zipWith (fun b a => b^2 - a^2) d.redges.tail d.redges.dropLast).map (c^2 * ·) := zipWith_pow c 2 d.redges
    simp only [hrw, show (sDense c d).pmid = d.pmid from rfl, meshgridXY_mul]
    generalize (meshgridXY (List.zipWith (fun b a => b^2 - a^2) d.redges.tail d.redges.dropLast) d.pmid).1 = w
    refine At.liftBind (oarr (c^2)) ?_ hI fun hi2 _ => ?_
    · unfold Arr2.zip
      by_cases hs : hi.rows = w.rows ∧ hi.cols = w.cols
      · simp only [arr, hs, Except.map, oarr, omul_scale, and_self, if_true]
      · simp only [arr, hs, Except.map, if_false]
    · have e2 : (⟨(arr (c^2) w).rows, (arr (c^2) w).cols, fun i j => some ((arr (c^2) w).val i j)⟩ :
          Arr2 (Option ℝ)) = oarr (c^2) ⟨w.rows, w.cols, fun i j => some (w.val i j)⟩ := rfl
      rw [e2]
      refine At.liftBind (oarr (c^2)) (downgrade_scale _ _ _ _ _ _ _) hI fun fp _ => ?_
      refine At.liftBind (oarr (c^2)) (downgrade_scale _ _ _ _ _ _ _) hI fun wp _ => ?_
      have e3 : (oarr (c^2) fp).zip odiv (oarr (c^2) wp) = fp.zip odiv wp := by
        simp only [Arr2.zip, oarr, odiv_scale hk]
      rw [e3]
      exact At.lift hI _

theorem dg_remap_at (hc : 0 < c) (hI : Inv P s) (f : Arr2 (Option ℝ)) (w : Option (Arr2 ℝ)) :
    At (sState c tx ty (sDense c)) (Inv P) s (Dg.remap f w) (Dg.remap f w) := by
  unfold Dg.remap
  cases w with
  | none => exact dg_remap1_at hc hI f
  | some w =>
    exact At.liftBind' rfl hI fun fw _ => At.bind (dg_remap1_at hc hI fw) fun a t _ ht =>
      At.bind (dg_remap1_at hc ht _) fun b u _ hu => At.lift hu _

theorem dg_mask_at (hc : 0 < c) (hI : Inv P s) :
    At (sState c tx ty (sDense c)) (Inv P) s Dg.getMaskInBound Dg.getMaskInBound := by
  unfold Dg.getMaskInBound
  refine At.self ?_
  cases hb : s.box with
  | none => simpa [sState, hb] using At.lift hI _
  | some b =>
    cases hp : s.polar with
    | none => simpa [sState, hb, hp] using At.lift hI _
    | some p =>
      simp only [sState, hb, hp, Option.map_some]
      exact At.bind (dg_remap_at hc hI _ _) fun m t _ ht => At.assign (by simp [sState]) ht

theorem dg_run (hc : 0 < c) (l : List (Call Dg.Setup)) :
    (Dg.cls.run (l.map (Spec.Units.call (Spec.Units.dgSetup c tx ty))) init).1 = (Dg.cls.run l init).1 := by
  have h0 : (init : Dg.State) = sState c tx ty (sDense c) init := rfl
  conv_lhs => rw [h0]
  refine run_at (P := fun _ => True) hc Dg.cls _ (fun _ => True) ?_ ?_ ?_ l init ?_ (fun _ _ => trivial)
  · intro s a hI _
    cases a with
    | box B => exact setupBox_at B hI fun _ _ => ⟨trivial, trivial⟩
    | polar A mr mp => exact dg_setupPolar_at hc hI A mr mp
  · exact fun s g w hI => dg_remap_at hc hI g w
  · exact fun s hI => dg_mask_at hc hI
  · intro b hb
    simp [init] at hb

end Magpie.Units
