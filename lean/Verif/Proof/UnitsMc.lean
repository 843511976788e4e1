import Verif.Proof.UnitsRing

/-!
# The Monte Carlo `Box2Ring` in other units
-/

set_option linter.unusedSimpArgs false
set_option linter.unusedVariables false

namespace Magpie.Units
open Magpie.Radial Magpie.OneD Magpie.Remap Magpie.Coords Magpie.Box2Ring Magpie.Randoms

variable {c tx ty : ℝ} {P : List ℝ → Prop} {s : Mc.State}

theorem mc_lin_at (hc : 0 < c) (hI : Inv P s) (A : PolarArgs) :
    At (sState c tx ty id) (Inv P) s (Mc.setupPolarLin A) (Mc.setupPolarLin (Spec.Units.polar c tx ty A)) := by
  unfold Mc.setupPolarLin
  refine At.liftBind' (pyAssert_congr (mul_nonneg_iff_of_pos_left hc)) hI fun _ _ =>
    At.liftBind' (polarChecks_scale hc A) hI fun _ hk => ?_
  obtain ⟨hk, -⟩ := polarChecks_center hk
  have he : mkEdges (linspace (Spec.Units.polar c tx ty A).rmin (Spec.Units.polar c tx ty A).rmax
      ((Spec.Units.polar c tx ty A).numr.toNat + 1))
      (linspace (Spec.Units.polar c tx ty A).pmin (Spec.Units.polar c tx ty A).pmax
        ((Spec.Units.polar c tx ty A).nump.toNat + 1)) =
      sEdges c (mkEdges (linspace A.rmin A.rmax (A.numr.toNat + 1)) (linspace A.pmin A.pmax (A.nump.toNat + 1))) := by
    rw [← mkEdges_mul, ← linspace_mul]
    rfl
  rw [he]
  generalize mkEdges (linspace A.rmin A.rmax (A.numr.toNat + 1)) (linspace A.pmin A.pmax (A.nump.toNat + 1)) = e
  dsimp only
  refine At.assignBind (by simp [sState]) hI ?_
  refine At.liftBind (c * ·) (firstDiff_mul c e.rmid) hI fun dr _ => ?_
  refine At.assignBind (by simp [sState, sArg]) hI ?_
  refine At.liftBind' rfl hI fun dp _ => ?_
  refine At.assignBind (by simp [sState]) hI ?_
  refine At.assign ?_ hI
  simp only [sState, Option.map_some, mkPolar_scale hk]

theorem logEdges_scale (hc : 0 < c) {A : PolarArgs} (h0 : A.rmin > 0) (h1 : A.rmin < A.rmax) (z : Bool) :
    Mc.logEdges (Spec.Units.polar c tx ty A) z = (Mc.logEdges A z).map (c * ·) := by
  unfold Mc.logEdges
  simp only [Spec.Units.polar, logspace_mul hc h0 (lt_trans h0 h1)]
  split_ifs
  · simp
  · rfl

theorem mc_log_at (hc : 0 < c) (hI : Inv P s) (A : PolarArgs) (z : Bool) :
    At (sState c tx ty id) (Inv P) s (Mc.setupPolarLog A z) (Mc.setupPolarLog (Spec.Units.polar c tx ty A) z) := by
  unfold Mc.setupPolarLog
  refine At.liftBind' (pyAssert_congr (mul_pos_iff_of_pos_left hc)) hI fun _ h0 =>
    At.liftBind' (polarChecks_scale hc A) hI fun _ hk => ?_
  obtain ⟨hk, h1⟩ := polarChecks_center hk
  have h0 : A.rmin > 0 := by by_contra h; simp [pyAssert, h] at h0
  rw [logEdges_scale hc h0 h1]
  generalize Mc.logEdges A z = l
  dsimp only
  rw [mkEdges_mul]
  have hp : linspace (Spec.Units.polar c tx ty A).pmin (Spec.Units.polar c tx ty A).pmax
      ((Spec.Units.polar c tx ty A).nump.toNat + 1) = linspace A.pmin A.pmax (A.nump.toNat + 1) := rfl
  rw [hp]
  refine At.assignBind (by simp [sState]) hI ?_
  refine At.assignBind ?_ hI ?_
  · have := zipWith_pow c 1 l
    simp only [pow_one] at this
    simp only [sState, Option.map_some, sArg, this]
  refine At.liftBind' rfl hI fun dp _ => ?_
  refine At.assignBind (by simp [sState]) hI ?_
  refine At.assign ?_ hI
  simp only [sState, Option.map_some, mkPolar_scale hk]

theorem polar2cart_scale (r phi : ℝ) (z : ℝ × ℝ) : polar2cart (c*r) phi (c*z.1 + tx, c*z.2 + ty) =
    (c*(polar2cart r phi z).1 + tx, c*(polar2cart r phi z).2 + ty) := by
  simp only [polar2cart]
  ring_nf

/-- A point. -/
def pt2 (c tx ty : ℝ) (p : ℝ × ℝ) : ℝ × ℝ := (c*p.1 + tx, c*p.2 + ty)

theorem randomPoints_scale (hc : 0 < c) (r0 r1 p0 p1 : ℝ) (p : Polar) (uR uPhi : List ℝ) :
    Mc.randomPoints (c*r0) (c*r1) p0 p1 (sPolar c tx ty p) uR uPhi =
      (Mc.randomPoints r0 r1 p0 p1 p uR uPhi).map (Option.map (pt2 c tx ty)) := by
  unfold Mc.randomPoints randomsPolar
  have e1 : (uR.map fun u => npSqrt (((c*r1)^2 - (c*r0)^2)*u + (c*r0)^2)) =
      (uR.map fun u => npSqrt ((r1^2 - r0^2)*u + r0^2)).map (oscale c) := by
    rw [List.map_map]
    refine List.map_congr_left fun u _ => ?_
    simp only [Function.comp, ← npSqrt_scale hc]
    congr 1
    ring
  simp only [e1, show (sPolar c tx ty p).phiShift = p.phiShift from rfl]
  generalize (if p.phiShift ≠ 0 then _ else _) = q
  generalize (uR.map fun u => npSqrt ((r1^2 - r0^2)*u + r0^2)) = r
  rw [List.map_zipWith, List.zipWith_map_left]
  congr 1
  funext a b
  cases a with
  | none => rfl
  | some a => simp only [oscale, Option.map_some, sPolar, polar2cart_scale, pt2]

theorem binOf_scale (hc : 0 < c) {hx hy : List ℝ} (h1 : hx ≠ []) (h2 : hy ≠ []) (p : Option (ℝ × ℝ)) :
    Mc.binOf (hx.map fun x => c*x + tx) (hy.map fun x => c*x + ty) (p.map (pt2 c tx ty)) = Mc.binOf hx hy p := by
  cases p with
  | none => rfl
  | some p => simp only [Mc.binOf, Option.map_some, pt2, histBin_aff hc _ h1, histBin_aff hc _ h2]

theorem pixelHits_scale (hc : 0 < c) {hx hy : List ℝ} (h1 : hx ≠ []) (h2 : hy ≠ []) (n : ℕ)
    (l : List (Option (ℝ × ℝ))) :
    Mc.pixelHits (hx.map fun x => c*x + tx) (hy.map fun x => c*x + ty) n (l.map (Option.map (pt2 c tx ty))) =
      Mc.pixelHits hx hy n l := by
  have e : ∀ q, Mc.histCount (hx.map fun x => c*x + tx) (hy.map fun x => c*x + ty)
      (l.map (Option.map (pt2 c tx ty))) q = Mc.histCount hx hy l q := by
    intro q
    unfold Mc.histCount
    rw [List.filter_map, List.length_map]
    congr 1
    refine List.filter_congr fun p _ => ?_
    simp only [Function.comp, binOf_scale hc h1 h2]
  unfold Mc.pixelHits
  simp only [e, List.length_map]

theorem mc_weights_at (hc : 0 < c) (hI : Inv (fun l => c = 1 ∨ l.getD 0 0 ≠ l.getLastD 0) s) (n : ℕ)
    (draws : ℕ → ℕ → List ℝ × List ℝ) :
    At (sState c tx ty id) (Inv (fun l => c = 1 ∨ l.getD 0 0 ≠ l.getLastD 0)) s
      (Mc.getWeights n draws) (Mc.getWeights n draws) := by
  unfold Mc.getWeights
  refine At.liftBind' rfl hI fun _ _ => At.self ?_
  refine At.liftBind (sPolar c tx ty) (need_map _ _) hI fun p _ => ?_
  refine At.liftBind (sEdges c) (need_map _ _) hI fun e _ => ?_
  refine At.liftBind (sBox c tx ty) (need_map _ _) hI fun b hb => ?_
  have hb : s.box = some b := by
    cases h : s.box with
    | none => rw [h] at hb; simp [need] at hb
    | some b' => rw [h] at hb; simpa [need] using hb
  obtain ⟨⟨hb1, hb2⟩, hw1, hw2⟩ := hI b hb
  refine At.liftBind (fun (e : List ℝ) => e.map fun x => c*x + tx) (histEdges_aff hc tx hb1 hw1) hI fun hx hx' => ?_
  refine At.liftBind (fun (e : List ℝ) => e.map fun x => c*x + ty) (histEdges_aff hc ty hb2 hw2) hI fun hy hy' => ?_
  have h1 := histEdges_length hx'
  have h2 := histEdges_length hy'
  refine At.liftBind' (by simp only [sPolar, sEdges, arr, List.length_map]) hI fun _ _ => ?_
  have e1 : (fun i j => Mc.pixelHits (hx.map fun x => c*x + tx) (hy.map fun x => c*x + ty) n
      (Mc.randomPoints ((sEdges c e).redges.getD j 0) ((sEdges c e).redges.getD (j+1) 0)
        ((sEdges c e).pedges.getD i 0) ((sEdges c e).pedges.getD (i+1) 0) (sPolar c tx ty p)
        (draws i j).1 (draws i j).2)) =
      fun i j => Mc.pixelHits hx hy n (Mc.randomPoints (e.redges.getD j 0) (e.redges.getD (j+1) 0)
        (e.pedges.getD i 0) (e.pedges.getD (i+1) 0) p (draws i j).1 (draws i j).2) := by
    funext i j
    simp only [sEdges, getD_mul, randomPoints_scale hc, pixelHits_scale hc h1 h2]
  rw [e1]
  refine At.liftBind' rfl hI fun o _ => At.assign ?_ hI
  simp only [sState, Option.map_some, id, sPolar, arr]

theorem mc_remap_at (hI : Inv P s) (f : Arr2 (Option ℝ)) (w : Option (Arr2 ℝ)) :
    At (sState c tx ty id) (Inv P) s (Mc.remap f w) (Mc.remap f w) := by
  unfold Mc.remap
  refine At.self ?_
  cases hb : s.box with
  | none => simpa [sState, hb] using At.lift hI _
  | some b =>
    simp only [sState, hb, Option.map_some]
    refine At.liftBind' rfl hI fun _ _ => ?_
    have key : At (sState c tx ty id) (Inv P) s
        (do let p ← Meth.lift (need s.polar)
            let st ← Meth.lift (need s.extra)
            Meth.lift (tabulate p.r2d.rows p.r2d.cols (Mc.storedPixel st f w) none))
        (do let p ← Meth.lift (need (s.polar.map (sPolar c tx ty)))
            let st ← Meth.lift (need (s.extra.map id))
            Meth.lift (tabulate p.r2d.rows p.r2d.cols (Mc.storedPixel st f w) none)) :=
      At.liftBind (sPolar c tx ty) (need_map _ _) hI fun p _ =>
        At.liftBind id (need_map _ _) hI fun st _ => At.lift hI _
    cases w with
    | none => exact key
    | some w => exact At.liftBind' rfl hI fun _ _ => key

theorem mc_mask_at (hI : Inv P s) :
    At (sState c tx ty id) (Inv P) s Mc.getMaskInBound Mc.getMaskInBound := by
  unfold Mc.getMaskInBound
  refine At.self ?_
  cases hb : s.box with
  | none => simpa [sState, hb] using At.lift hI _
  | some b =>
    cases hp : s.polar with
    | none => simpa [sState, hb, hp] using At.lift hI _
    | some p =>
      simp only [sState, hb, hp, Option.map_some]
      exact At.bind (mc_remap_at hI _ _) fun m t _ ht => At.assign (by simp [sState]) ht

theorem linspace_first {a b : ℝ} {n : ℕ} (hn : n > 0) : (linspace a b (n+1)).getD 0 0 = a := by
  simp [linspace, List.range_succ_eq_map]

theorem linspace_last' {a b : ℝ} {n : ℕ} (hn : n > 0) : (linspace a b (n+1)).getLastD 0 = b := by
  have hn' : (n:ℝ) ≠ 0 := by exact_mod_cast hn.ne'
  simp only [linspace, List.range_succ, List.map_append, List.map_cons, List.map_nil, List.getLastD_concat]
  rw [show ((n+1 : ℕ):ℝ) - 1 = n by push_cast; ring, mul_div_cancel₀ _ hn']
  ring

theorem mc_run (hc : 0 < c) (l : List (Call Mc.Setup))
    (hw : c = 1 ∨ ∀ B, Call.setup (.box B) ∈ l → Spec.Units.Wide B) :
    (Mc.cls.run (l.map (Spec.Units.call (Spec.Units.mcSetup c tx ty))) init).1 = (Mc.cls.run l init).1 := by
  have h0 : (init : Mc.State) = sState c tx ty id init := rfl
  conv_lhs => rw [h0]
  refine run_at (P := fun l => c = 1 ∨ l.getD 0 0 ≠ l.getLastD 0) hc Mc.cls _
    (fun a => ∀ B, a = .box B → c = 1 ∨ Spec.Units.Wide B) ?_ ?_ ?_ l init ?_ ?_
  · intro s a hI hok
    cases a with
    | box B =>
      refine setupBox_at B hI fun hx hy => ?_
      rcases hok B rfl with h | h
      · exact ⟨.inl h, .inl h⟩
      · refine ⟨.inr ?_, .inr ?_⟩
        · simp only [BoxArgs.box]
          rw [linspace_first (by omega), linspace_last' (by omega)]
          exact h.1
        · simp only [BoxArgs.box]
          rw [linspace_first (by omega), linspace_last' (by omega)]
          exact h.2
    | lin A => exact mc_lin_at hc hI A
    | log A z => exact mc_log_at hc hI A z
    | weights n d => exact mc_weights_at hc hI n d
  · exact fun s g w hI => mc_remap_at hI g w
  · exact fun s hI => mc_mask_at hI
  · intro b hb
    simp [init] at hb
  · rintro a ha B rfl
    exact hw.imp id fun h => h B ha

end Magpie.Units
