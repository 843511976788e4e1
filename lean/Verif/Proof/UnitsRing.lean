import Verif.Proof.Units

/-!
# `Box2Ring` objects in other units
-/

set_option linter.unusedSimpArgs false
set_option linter.unusedVariables false

namespace Magpie.Units
open Magpie.Radial Magpie.OneD Magpie.Remap Magpie.Coords Magpie.Box2Ring

/-- An array times `k`. -/
def arr (k : ℝ) (a : Arr2 ℝ) : Arr2 ℝ := ⟨a.rows, a.cols, fun i j => k*a.val i j⟩

/-- The box. -/
noncomputable def sBox (c tx ty : ℝ) (b : Box) : Box where
  xedges := b.xedges.map fun x => c*x + tx
  yedges := b.yedges.map fun x => c*x + ty
  xmid := b.xmid.map fun x => c*x + tx
  ymid := b.ymid.map fun x => c*x + ty
  dx := c*b.dx
  dy := c*b.dy
  x2d := ⟨b.x2d.rows, b.x2d.cols, fun i j => if j < b.x2d.cols then c*b.x2d.val i j + tx else 0⟩
  y2d := ⟨b.y2d.rows, b.y2d.cols, fun i j => if i < b.y2d.rows then c*b.y2d.val i j + ty else 0⟩

/-- The edges. -/
noncomputable def sEdges (c : ℝ) (e : Edges) : Edges :=
  ⟨e.redges.map (c * ·), e.pedges, e.rmid.map (c * ·), e.pmid⟩

/-- The polar grid. -/
noncomputable def sPolar (c tx ty : ℝ) (p : Polar) : Polar :=
  ⟨arr c p.r2d, p.p2d, (c*p.center.1 + tx, c*p.center.2 + ty), p.phiShift⟩

/-- `dr`. -/
noncomputable def sArg (c : ℝ) : Arg ℝ → Arg ℝ
  | .scalar a => .scalar (c*a)
  | .list l => .list (l.map (c * ·))

/-- The object. -/
noncomputable def sState {X : Type} (c tx ty : ℝ) (sx : X → X) (s : Box2Ring.State X) : Box2Ring.State X where
  box := s.box.map (sBox c tx ty)
  edges := s.edges.map (sEdges c)
  dr := s.dr.map (sArg c)
  dp := s.dp
  polar := s.polar.map (sPolar c tx ty)
  extra := s.extra.map sx
  area2d := s.area2d.map (arr (c^2))
  pixarea := s.pixarea.map (c^2 * ·)
  maskInBound := s.maskInBound

/-- The box has edges; `P` holds for both lists of edges. -/
def Inv {X : Type} (P : List ℝ → Prop) (s : Box2Ring.State X) : Prop :=
  ∀ b, s.box = some b → (b.xedges ≠ [] ∧ b.yedges ≠ []) ∧ P b.xedges ∧ P b.yedges

section
variable {X : Type} {c tx ty : ℝ} {sx : X → X} {P : List ℝ → Prop} {s : Box2Ring.State X}

theorem meshgridXY_mul (c : ℝ) (x y : List ℝ) :
    meshgridXY (x.map (c * ·)) y = (arr c (meshgridXY x y).1, (meshgridXY x y).2) := by
  simp only [meshgridXY, arr, List.length_map, getD_mul]

theorem getD_aff' (c t : ℝ) (l : List ℝ) (i : ℕ) :
    (l.map fun x => c*x + t).getD i 0 = if i < l.length then c*l.getD i 0 + t else 0 := by
  split_ifs with h
  · exact getD_aff c t h
  · simp [List.getD_eq_getElem?_getD, List.getElem?_eq_none (not_lt.1 h)]

theorem box_scale (B : BoxArgs) (hx : B.numx > 0) (hy : B.numy > 0) :
    (Spec.Units.box c tx ty B).box = sBox c tx ty B.box := by
  have h1 : 1 < (linspace B.xmin B.xmax (B.numx.toNat + 1)).length := by rw [length_linspace]; omega
  have h2 : 1 < (linspace B.ymin B.ymax (B.numy.toNat + 1)).length := by rw [length_linspace]; omega
  unfold BoxArgs.box Spec.Units.box sBox
  simp only [linspace_aff, mids_aff, meshgridXY, List.length_map, getD_aff', if_pos h1, if_pos h2,
    if_pos (lt_trans one_pos h1), if_pos (lt_trans one_pos h2)]
  congr 1 <;> ring

theorem setupBox_at (B : BoxArgs) (hI : Inv P s)
    (hP : B.numx > 0 → B.numy > 0 → P B.box.xedges ∧ P B.box.yedges) :
    At (sState c tx ty sx) (Inv P) s (setupBox B) (setupBox (Spec.Units.box c tx ty B)) := by
  unfold setupBox
  refine At.liftBind' rfl hI fun _ hx => At.liftBind' rfl hI fun _ hy => At.assign ?_ ?_
  · have hx : B.numx > 0 := by by_contra h; simp [pyAssert, h] at hx
    have hy : B.numy > 0 := by by_contra h; simp [pyAssert, h] at hy
    simp only [sState, Option.map_some, box_scale B hx hy]
  · have hx : B.numx > 0 := by by_contra h; simp [pyAssert, h] at hx
    have hy : B.numy > 0 := by by_contra h; simp [pyAssert, h] at hy
    intro b hb
    simp only [Option.some.injEq] at hb
    subst hb
    refine ⟨⟨?_, ?_⟩, hP hx hy⟩ <;> simp only [BoxArgs.box] <;>
      rw [← List.length_pos_iff, length_linspace] <;> omega

theorem center2_length (l : List ℝ) : (Spec.Units.center2 c tx ty l).length = l.length := by
  unfold Spec.Units.center2
  split <;> rfl

theorem centerOf_scale {l : List ℝ} (h : l.length = 2) :
    centerOf (Spec.Units.center2 c tx ty l) = (c*(centerOf l).1 + tx, c*(centerOf l).2 + ty) := by
  match l, h with
  | [x, y], _ => rfl

theorem pyAssert_congr {p q : Prop} [Decidable p] [Decidable q] (h : p ↔ q) : pyAssert p = pyAssert q := by
  unfold pyAssert; simp only [h]

theorem polarChecks_scale (hc : 0 < c) (A : PolarArgs) :
    polarChecks (Spec.Units.polar c tx ty A) = polarChecks A := by
  unfold polarChecks
  rw [pyAssert_congr (p := (Spec.Units.polar c tx ty A).rmin < (Spec.Units.polar c tx ty A).rmax)
      (q := A.rmin < A.rmax) (mul_lt_mul_iff_right₀ hc),
    pyAssert_congr (p := (Spec.Units.polar c tx ty A).center.length = 2) (q := A.center.length = 2)
      (by rw [show (Spec.Units.polar c tx ty A).center = Spec.Units.center2 c tx ty A.center from rfl,
        center2_length])]
  rfl

theorem polarChecks_center {A : PolarArgs} {u : Unit} (h : polarChecks A = .ok u) :
    A.center.length = 2 ∧ A.rmin < A.rmax := by
  unfold polarChecks pyAssert at h
  simp only [bind, Except.bind] at h
  split_ifs at h <;> simp_all

theorem mkEdges_mul (r p : List ℝ) : mkEdges (r.map (c * ·)) p = sEdges c (mkEdges r p) := by
  simp only [mkEdges, sEdges, mids_mul]

theorem mkPolar_scale {A : PolarArgs} (h : A.center.length = 2) (e : Edges) :
    mkPolar (sEdges c e) (Spec.Units.polar c tx ty A) = sPolar c tx ty (mkPolar e A) := by
  simp only [mkPolar, sPolar, sEdges, Spec.Units.polar, meshgridXY_mul, centerOf_scale h]

theorem rotate_at (hI : Inv P s) (f : Arr2 (Option ℝ)) :
    At (sState c tx ty sx) (Inv P) s (rotatePolar f) (rotatePolar f) := by
  unfold rotatePolar
  refine At.self ?_
  cases h : s.polar with
  | none => simpa [sState, h] using At.lift hI _
  | some p =>
    simp only [sState, h, Option.map_some]
    exact At.liftBind' rfl hI fun _ _ => At.lift hI _

theorem area_scale (r p : List ℝ) :
    getPolarArea2d (r.map (c * ·)) p = (getPolarArea2d r p).map (arr (c^2)) := by
  rcases p with _ | ⟨p0, _ | ⟨p1, ps⟩⟩
  · rfl
  · rfl
  · simp only [getPolarArea2d, Except.map, arr]
    have : List.zipWith (fun a b => Real.pi*(b^2 - a^2)*(p1 - p0)/(2*Real.pi)) (r.map (c * ·)).dropLast
        (r.map (c * ·)).tail = (List.zipWith (fun a b => Real.pi*(b^2 - a^2)*(p1 - p0)/(2*Real.pi))
          r.dropLast r.tail).map (c^2 * ·) := by
      rw [← List.map_tail, ← List.map_dropLast, List.zipWith_map, List.map_zipWith]
      congr 1
      funext a b
      ring
    simp only [this, List.length_map, getD_mul]

theorem pixarea_scale (x y : List ℝ) : getPixarea (x.map fun a => c*a + tx) (y.map fun a => c*a + ty) =
    (getPixarea x y).map (c^2 * ·) := by
  rcases x with _ | ⟨x0, _ | ⟨x1, x⟩⟩ <;> rcases y with _ | ⟨y0, _ | ⟨y1, y⟩⟩ <;>
    simp [getPixarea, Except.map]
  ring

theorem storeArea_at (hI : Inv P s) : At (sState c tx ty sx) (Inv P) s storeArea storeArea := by
  unfold storeArea
  refine At.self ?_
  cases h : s.area2d with
  | some a => simpa [sState, h] using At.pure hI ()
  | none =>
    simp only [sState, h, Option.map_none]
    refine At.liftBind (sEdges c) (need_map _ _) hI fun e _ => ?_
    refine At.liftBind (arr (c^2)) (area_scale _ _) hI fun a _ => At.assign ?_ ?_
    · simp [sState]
    · exact hI

theorem storePix_at (hI : Inv P s) : At (sState c tx ty sx) (Inv P) s storePix storePix := by
  unfold storePix
  refine At.self ?_
  cases h : s.pixarea with
  | some a => simpa [sState, h] using At.pure hI ()
  | none =>
    simp only [sState, h, Option.map_none]
    refine At.liftBind (sBox c tx ty) (need_map _ _) hI fun e _ => ?_
    refine At.liftBind (c^2 * ·) (pixarea_scale _ _) hI fun a _ => At.assign ?_ ?_
    · simp [sState]
    · exact hI

theorem sigma_scale (hc : 0 < c) (f : Arr2 (Option ℝ)) (a : Arr2 ℝ) (x : ℝ) (sg : Arr2 ℝ) (w : Option (Arr2 ℝ)) :
    polar2radialSigma f (arr (c^2) a) (c^2*x) sg w = polar2radialSigma f a x sg w := by
  have hk : c^2 ≠ 0 := by positivity
  unfold polar2radialSigma
  cases w <;> simp only [arr, Arr2.zip, fdiv_scale hk]

theorem radialOf_scale (hc : 0 < c) (p : Polar) (a : Arr2 ℝ) (x : ℝ) (m : Arr2 ℝ) (f : Arr2 (Option ℝ))
    (sg w : Option (Arr2 ℝ)) :
    radialOf (sPolar c tx ty p) (arr (c^2) a) (c^2*x) m f sg w = radialOf p a x m f sg w := by
  unfold radialOf
  simp only [sigma_scale hc]
  rfl

theorem storeMask_at (hI : Inv P s) {gm : Meth (Box2Ring.State X) Unit}
    (h : ∀ t, Inv P t → At (sState c tx ty sx) (Inv P) t gm gm) :
    At (sState c tx ty sx) (Inv P) s (storeMask gm) (storeMask gm) := by
  unfold storeMask
  refine At.self ?_
  cases hm : s.maskInBound with
  | some a => simpa [sState, hm] using At.pure hI ()
  | none => simpa [sState, hm] using h s hI

theorem radial_at (hc : 0 < c) (hI : Inv P s) {gm : Meth (Box2Ring.State X) Unit}
    (h : ∀ t, Inv P t → At (sState c tx ty sx) (Inv P) t gm gm) (f : Arr2 (Option ℝ)) (sg w : Option (Arr2 ℝ)) :
    At (sState c tx ty sx) (Inv P) s (Box2Ring.polar2radial gm f sg w) (Box2Ring.polar2radial gm f sg w) := by
  unfold Box2Ring.polar2radial
  refine At.bind (storeArea_at hI) fun _ s1 _ h1 => At.bind (storePix_at h1) fun _ s2 _ h2 => At.self ?_
  cases hp : s2.polar with
  | none => simpa [sState, hp] using At.lift h2 _
  | some p =>
    simp only [sState, hp, Option.map_some]
    refine At.liftBind' rfl h2 fun _ _ => At.bind (storeMask_at h2 h) fun _ s3 _ h3 => At.self ?_
    refine At.liftBind' rfl h3 fun m _ => At.liftBind (arr (c^2)) (need_map _ _) h3 fun a _ =>
      At.liftBind (c^2 * ·) (need_map _ _) h3 fun x _ => ?_
    rw [radialOf_scale hc]
    exact At.lift h3 _

theorem clean_at : At (sState c tx ty sx) (Inv P) s clean clean :=
  At.assign rfl (by intro b hb; simp [Box2Ring.init] at hb)

/-- A history of calls. -/
theorem run_at {C : Type} (hc : 0 < c) (K : Cls X C) (f : C → C) (ok : C → Prop)
    (hs : ∀ s a, Inv P s → ok a → At (sState c tx ty sx) (Inv P) s (K.setup a) (K.setup (f a)))
    (hr : ∀ s g w, Inv P s → At (sState c tx ty sx) (Inv P) s (K.remap g w) (K.remap g w))
    (hm : ∀ s, Inv P s → At (sState c tx ty sx) (Inv P) s K.getMask K.getMask) :
    ∀ (l : List (Call C)) (s : Box2Ring.State X), Inv P s → (∀ a, Call.setup a ∈ l → ok a) →
      (K.run (l.map (Spec.Units.call f)) (sState c tx ty sx s)).1 = (K.run l s).1 := by
  intro l
  induction l with
  | nil => intro s _ _; rfl
  | cons q l ih =>
    intro s hI hok
    have key : K.call (Spec.Units.call f q) (sState c tx ty sx s) =
        ((K.call q s).1, sState c tx ty sx (K.call q s).2) ∧ Inv P (K.call q s).2 := by
      cases q with
      | setup a =>
        obtain ⟨h1, h2⟩ := hs s a hI (hok a (by simp))
        exact ⟨by simp only [Cls.call, Spec.Units.call, h1], h2⟩
      | remap g w =>
        obtain ⟨h1, h2⟩ := hr s g w hI
        exact ⟨by simp only [Cls.call, Spec.Units.call, h1], h2⟩
      | rotate g =>
        obtain ⟨h1, h2⟩ := rotate_at (c := c) (tx := tx) (ty := ty) (sx := sx) hI g
        exact ⟨by simp only [Cls.call, Spec.Units.call, h1], h2⟩
      | getMask =>
        obtain ⟨h1, h2⟩ := hm s hI
        exact ⟨by simp only [Cls.call, Spec.Units.call, h1], h2⟩
      | radial g sg w =>
        obtain ⟨h1, h2⟩ := radial_at hc hI hm g sg w
        exact ⟨by simp only [Cls.call, Spec.Units.call, h1], h2⟩
      | clean =>
        obtain ⟨h1, h2⟩ := clean_at (c := c) (tx := tx) (ty := ty) (sx := sx) (P := P) (s := s)
        exact ⟨by simp only [Cls.call, Spec.Units.call, h1], h2⟩
    simp only [List.map_cons, Cls.run]
    rw [key.1]
    simp only [ih _ key.2 fun a ha => hok a (by simp [ha])]

end
end Magpie.Units
