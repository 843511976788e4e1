import Verif.Proof.Linear
import Verif.Proof.UnitsMc
import Verif.Proof.HealSky
import Verif.Model.Box2RingCalls
import Verif.Model.ObjectCalls
import Verif.Spec.Mono

/-!
# Remapping preserves the order of the data
-/

set_option linter.unusedSimpArgs false
set_option linter.unusedVariables false
set_option linter.unusedSectionVars false

namespace Magpie.Mono
open Magpie Magpie.Spec Magpie.Radial Magpie.OneD Magpie.Box2Ring Magpie.Coords Magpie.Linear

/-! ## Invariants of objects -/

section
variable {S α β : Type} {I : S → Prop}

/-- A method that keeps an invariant, also when it raises. -/
def Keeps (I : S → Prop) (m : Meth S α) : Prop := ∀ s, I s → I (m s).2

theorem Keeps.bind {m : Meth S α} {k : α → Meth S β} (h : Keeps I m) (hk : ∀ a, Keeps I (k a)) : Keeps I (m >>= k) := by
  intro s hs
  have h1 := h s hs
  rw [Meth.bind_apply]
  cases hm : m s with
  | mk r t =>
    rw [hm] at h1
    cases r with
    | error e => exact h1
    | ok a => exact hk a t h1

theorem Keeps.lift (x : Py α) : Keeps I (Meth.lift x) := fun s hs => hs
theorem Keeps.pure (x : α) : Keeps I (Pure.pure x : Meth S α) := fun s hs => hs
theorem Keeps.self : Keeps I (Meth.self : Meth S S) := fun s hs => hs
theorem Keeps.assign {f : S → S} (h : ∀ s, I s → I (f s)) : Keeps I (Meth.assign f) := fun s hs => h s hs
theorem Keeps.same {m : Meth S α} (h : ∀ s, (m s).2 = s) : Keeps I m := fun s hs => by rw [h]; exact hs

theorem Keeps.bind_ok {x : Py α} {k : α → Meth S β} (hk : ∀ a, x = .ok a → Keeps I (k a)) :
    Keeps I (Meth.lift x >>= k) := by
  cases x with
  | error e => exact fun s hs => hs
  | ok a => exact hk a rfl

end

/-! ## Order of floats -/

/-- Not negative. -/
def Pos (x : Option ℝ) : Prop := ∀ v, x = some v → 0 ≤ v

/-- Relations that remapping preserves. -/
structure Closed (R : Option ℝ → Option ℝ → Option ℝ → Prop) : Prop where
  zero : R (some 0) (some 0) (some 0)
  none : R none none none
  mul : ∀ x y z, R x y z → ∀ c : ℝ, 0 ≤ c → R (omul x c) (omul y c) (omul z c)
  div : ∀ x y z, R x y z → ∀ c, Pos c → R (odiv x c) (odiv y c) (odiv z c)
  sum : ∀ l m n, F3 R l m n → R (npSum l) (npSum m) (npSum n)

theorem pos_closed : Closed fun x _ _ => Pos x where
  zero := by intro v h; simp at h; exact h.le
  none := by intro v h; simp at h
  mul := by
    intro x _ _ h c hc v hv
    cases x with
    | none => simp [omul] at hv
    | some x =>
      simp only [omul, Option.map_some, Option.some.injEq] at hv
      rw [← hv]
      exact mul_nonneg (h x rfl) hc
  div := by
    intro x _ _ h c hc v hv
    cases x with
    | none => cases c <;> simp [odiv] at hv
    | some x =>
      cases c with
      | none => simp [odiv] at hv
      | some c =>
        by_cases h0 : c = 0
        · simp [odiv, fdiv, h0] at hv
        · simp [odiv, fdiv, h0] at hv
          rw [← hv]
          exact div_nonneg (h x rfl) (hc c rfl)
  sum := by
    intro l m n h
    induction h with
    | nil => intro v hv; simp [npSum] at hv; exact hv.le
    | @cons x y z l m n hx _ ih =>
      intro v hv
      rw [npSum_cons] at hv
      cases x with
      | none => simp at hv
      | some x =>
        cases hl : npSum l with
        | none => simp [hl] at hv
        | some t =>
          simp [hl] at hv
          rw [← hv]
          exact add_nonneg (hx x rfl) (ih t hl)

theorem below_closed : Closed fun x y _ => Below x y where
  zero := by simp [Below]
  none := trivial
  mul := by
    intro x y _ h c hc
    cases x <;> cases y <;> simp only [Below, omul, Option.map_some, Option.map_none] at h ⊢
    exact mul_le_mul_of_nonneg_right h hc
  div := by
    intro x y _ h c hc
    cases c with
    | none => cases x <;> cases y <;> simp_all [Below, odiv]
    | some c =>
      have := hc c rfl
      by_cases h0 : c = 0
      · cases x <;> cases y <;> simp_all [Below, odiv, fdiv]
      · cases x <;> cases y <;> simp_all [Below, odiv, fdiv]
        exact div_le_div_of_nonneg_right h this
  sum := by
    intro l m n h
    induction h with
    | nil => simp [npSum, Below]
    | @cons x y z l m n hx _ ih =>
      rw [npSum_cons, npSum_cons]
      generalize npSum l = u at *
      generalize npSum m = v at *
      cases x <;> cases y <;> cases u <;> cases v <;> simp_all [Below]
      linarith

/-! ## Arrays -/

/-- Arrays of one shape that are related entry by entry. -/
def GA (R : Option ℝ → Option ℝ → Option ℝ → Prop) (x y z : Arr2 (Option ℝ)) : Prop :=
  (y.rows = x.rows ∧ y.cols = x.cols ∧ z.rows = x.rows ∧ z.cols = x.cols) ∧
    ∀ i j, R (x.val i j) (y.val i j) (z.val i j)

variable {R : Option ℝ → Option ℝ → Option ℝ → Prop}

/-- Data of one shape that are related entry by entry. -/
def GD (R : Option ℝ → Option ℝ → Option ℝ → Prop) (x y z : Arr2 (Option ℝ)) : Prop :=
  (y.rows = x.rows ∧ y.cols = x.cols ∧ z.rows = x.rows ∧ z.cols = x.cols) ∧
    ∀ i j, i < x.rows → j < x.cols → R (x.val i j) (y.val i j) (z.val i j)

theorem GD.get {f g h : Arr2 (Option ℝ)} (H : GD R f g h) (i j : ℕ) : P3 R (f.get i j) (g.get i j) (h.get i j) := by
  obtain ⟨⟨e1, e2, e3, e4⟩, hv⟩ := H
  unfold Arr2.get
  rw [e1, e2, e3, e4]
  split_ifs with hij
  · exact .ok (hv i j hij.1 hij.2)
  · exact .error _

theorem GD.zip {γ : Type} {f g h : Arr2 (Option ℝ)} (H : GD R f g h) (op : Option ℝ → γ → Option ℝ) (w : Arr2 γ)
    (hop : ∀ x y z i j, i < w.rows → j < w.cols → R x y z → R (op x (w.val i j)) (op y (w.val i j)) (op z (w.val i j))) :
    P3 (GD R) (f.zip op w) (g.zip op w) (h.zip op w) := by
  obtain ⟨⟨e1, e2, e3, e4⟩, hv⟩ := H
  unfold Arr2.zip
  rw [e1, e2, e3, e4]
  split_ifs with hsh
  · refine .ok ⟨⟨rfl, rfl, rfl, rfl⟩, fun i j hi hj => hop _ _ _ _ _ ?_ ?_ (hv i j hi hj)⟩
    · exact hsh.1 ▸ hi
    · exact hsh.2 ▸ hj
  · exact .error _

theorem GA.get {f g h : Arr2 (Option ℝ)} (H : GA R f g h) (i j : ℕ) : P3 R (f.get i j) (g.get i j) (h.get i j) := by
  obtain ⟨⟨e1, e2, e3, e4⟩, hv⟩ := H
  unfold Arr2.get
  rw [e1, e2, e3, e4]
  split_ifs
  · exact .ok (hv i j)
  · exact .error _

theorem GA.zip {γ : Type} {f g h : Arr2 (Option ℝ)} (H : GA R f g h) (op : Option ℝ → γ → Option ℝ) (w : Arr2 γ)
    (hop : ∀ x y z i j, R x y z → R (op x (w.val i j)) (op y (w.val i j)) (op z (w.val i j))) :
    P3 (GA R) (f.zip op w) (g.zip op w) (h.zip op w) := by
  obtain ⟨⟨e1, e2, e3, e4⟩, hv⟩ := H
  unfold Arr2.zip
  rw [e1, e2, e3, e4]
  split_ifs
  · exact .ok ⟨⟨rfl, rfl, rfl, rfl⟩, fun i j => hop _ _ _ _ _ (hv i j)⟩
  · exact .error _

theorem GA.reshape3 {f g h : Arr2 (Option ℝ)} (H : GA R f g h) (n1 n2 n3 : ℕ) :
    P3 (fun x y z => ∀ i j k, R (x i j k) (y i j k) (z i j k)) (f.reshape3 n1 n2 n3) (g.reshape3 n1 n2 n3)
      (h.reshape3 n1 n2 n3) := by
  obtain ⟨⟨e1, e2, e3, e4⟩, hv⟩ := H
  unfold Arr2.reshape3
  rw [e1, e2, e3, e4]
  split_ifs
  · exact .ok fun i j k => hv _ _
  · exact .error _

theorem GA.downsum (hR : Closed R) {f g h : Arr2 (Option ℝ)} (H : GA R f g h) (np nr rr rp cols : ℕ) :
    P3 (GA R) (Ortho.downsum f np nr rr rp cols) (Ortho.downsum g np nr rr rp cols)
      (Ortho.downsum h np nr rr rp cols) := by
  unfold Ortho.downsum
  refine (H.reshape3 np rr cols).bind fun x y z hx => ?_
  have H2 : GA R (⟨np, cols, fun i c => npSum ((List.range rr).map fun k => x i k c)⟩ : Arr2 (Option ℝ))
      (⟨np, cols, fun i c => npSum ((List.range rr).map fun k => y i k c)⟩ : Arr2 (Option ℝ))
      (⟨np, cols, fun i c => npSum ((List.range rr).map fun k => z i k c)⟩ : Arr2 (Option ℝ)) :=
    ⟨⟨rfl, rfl, rfl, rfl⟩, fun i c => hR.sum _ _ _ (F3.map _ fun k => hx i k c)⟩
  refine (H2.reshape3 np nr rp).bind fun x y z hx => .ok ⟨⟨rfl, rfl, rfl, rfl⟩, fun i j => ?_⟩
  exact hR.sum _ _ _ (F3.map _ fun k => hx i j k)

theorem GA.downgrade (hR : Closed R) {f g h : Arr2 (Option ℝ)} (H : GA R f g h) (np nr rr rp cols : ℕ) :
    P3 (GA R) (Dg.downgrade f np nr rr rp cols) (Dg.downgrade g np nr rr rp cols)
      (Dg.downgrade h np nr rr rp cols) := by
  unfold Dg.downgrade
  refine (H.reshape3 np rr cols).bind fun x y z hx => ?_
  have H2 : GA R (⟨np, cols, fun i c => npSum ((List.range rr).map fun k => x i k c)⟩ : Arr2 (Option ℝ))
      (⟨np, cols, fun i c => npSum ((List.range rr).map fun k => y i k c)⟩ : Arr2 (Option ℝ))
      (⟨np, cols, fun i c => npSum ((List.range rr).map fun k => z i k c)⟩ : Arr2 (Option ℝ)) :=
    ⟨⟨rfl, rfl, rfl, rfl⟩, fun i c => hR.sum _ _ _ (F3.map _ fun k => hx i k c)⟩
  refine (H2.reshape3 np nr rp).bind fun x y z hx => .ok ⟨⟨rfl, rfl, rfl, rfl⟩, fun i j => ?_⟩
  refine hR.div _ _ _ (hR.sum _ _ _ (F3.map _ fun k => hx i j k)) _ fun v hv => ?_
  simp only [Option.some.injEq] at hv
  rw [← hv]
  exact Nat.cast_nonneg _

/-- Two facts about one run. -/
theorem P3.and_same {α : Type} {Q : α → α → α → Prop} {x : Py α} (h : P3 Q x x x) :
    P3 (fun a b c => b = a ∧ c = a ∧ Q a a a) x x x := by
  cases x with
  | error e => exact .error e
  | ok a =>
    cases h with
    | ok h => exact .ok ⟨rfl, rfl, h⟩

theorem M3.and_same {S α : Type} {Q : α → α → α → Prop} {x : Meth S α} {s : S} (h : M3 Q x x x s) :
    M3 (fun a b c => b = a ∧ c = a ∧ Q a a a) x x x s := ⟨P3.and_same h.1, h.2⟩

/-- An array of numbers that are not negative. -/
theorem pos_arr {w : Arr2 ℝ} (h : ∀ i j, 0 ≤ w.val i j) :
    GA (fun x _ _ => Pos x) (⟨w.rows, w.cols, fun i j => some (w.val i j)⟩ : Arr2 (Option ℝ))
      ⟨w.rows, w.cols, fun i j => some (w.val i j)⟩ ⟨w.rows, w.cols, fun i j => some (w.val i j)⟩ :=
  ⟨⟨rfl, rfl, rfl, rfl⟩, fun i j v hv => by simp only [Option.some.injEq] at hv; rw [← hv]; exact h i j⟩

theorem pos_data {w : Arr2 ℝ} (h : ∀ i j, i < w.rows → j < w.cols → 0 ≤ w.val i j) :
    GD (fun x _ _ => Pos x) (⟨w.rows, w.cols, fun i j => some (w.val i j)⟩ : Arr2 (Option ℝ))
      ⟨w.rows, w.cols, fun i j => some (w.val i j)⟩ ⟨w.rows, w.cols, fun i j => some (w.val i j)⟩ :=
  ⟨⟨rfl, rfl, rfl, rfl⟩, fun i j hi hj v hv => by simp only [Option.some.injEq] at hv; rw [← hv]; exact h i j hi hj⟩

/-! ## Dense grid Box2Ring -/

/-- The rings of the dense grid have areas that are not negative. -/
def DgInv (s : Dg.State) : Prop :=
  ∀ d, s.extra = some d → ∀ j, 0 ≤ (List.zipWith (fun b a => b^2 - a^2) d.redges.tail d.redges.dropLast).getD j 0

theorem need_ok {α : Type} {x : Option α} {a : α} (h : need x = .ok a) : x = some a := by
  cases x with
  | none => simp [need] at h
  | some b => simp only [need_some, Except.ok.injEq] at h; rw [h]

theorem dg_remap1 (hR : Closed R) {f g h : Arr2 (Option ℝ)} (H : GD R f g h) {s : Dg.State} (hs : DgInv s) :
    M3 (GA R) (Dg.remap1 f) (Dg.remap1 g) (Dg.remap1 h) s := by
  unfold Dg.remap1
  refine M3.self (M3.same_ok _ fun d hd => M3.same _ fun p => M3.same _ fun bx => ?_)
  have hrw := hs d (need_ok hd)
  refine (M3.lift (P3.tabulate' hR.none fun i j => ?_) s).bind fun x y z hx => ?_
  · unfold Dg.highres
    simp only
    split
    · exact H.get _ _
    · exact .ok hR.zero
  have hx : GA R x y z := hx
  refine (M3.lift (hx.zip _ _ fun _ _ _ i j h => hR.mul _ _ _ h _ (hrw j)) s).bind fun x y z hx => ?_
  refine (M3.lift (hx.downgrade hR _ _ _ _ _) s).bind fun x y z hx => ?_
  refine (M3.lift (P3.and_same ((pos_arr (w := (meshgridXY (List.zipWith (fun b a => b^2 - a^2) d.redges.tail
    d.redges.dropLast) d.pmid).1) fun i j => hrw j).downgrade pos_closed _ _ _ _ _)) s).bind fun u v t hu => ?_
  obtain ⟨rfl, rfl, hu⟩ := hu
  exact M3.lift (hx.zip _ _ fun _ _ _ i j h => hR.div _ _ _ h _ (hu.2 i j)) s

theorem dg_remap (hR : Closed R) {f g h : Arr2 (Option ℝ)} (H : GD R f g h) (w : Option (Arr2 ℝ))
    (hw : ∀ w', w = some w' → ∀ i j, i < w'.rows → j < w'.cols → 0 ≤ w'.val i j) {s : Dg.State} (hs : DgInv s) :
    M3 (GA R) (Dg.remap f w) (Dg.remap g w) (Dg.remap h w) s := by
  unfold Dg.remap
  cases w with
  | none => exact dg_remap1 hR H hs
  | some w =>
    have hw := hw w rfl
    refine (M3.lift (H.zip _ _ fun _ _ _ i j hi hj h => hR.mul _ _ _ h _ (hw i j hi hj)) s).bind fun x y z hx => ?_
    refine (dg_remap1 hR hx hs).bind fun x y z hx => ?_
    refine (M3.and_same (dg_remap1 pos_closed (pos_data hw) hs)).bind fun u v t hu => ?_
    obtain ⟨rfl, rfl, hu⟩ := hu
    exact M3.lift (hx.zip _ _ fun _ _ _ i j h => hR.div _ _ _ h _ (hu.2 i j)) s

theorem zip_nonneg (p : ℕ) {l : List ℝ} (h0 : ∀ x ∈ l, 0 ≤ x) (hs : l.Pairwise (· ≤ ·)) :
    ∀ x ∈ List.zipWith (fun b a => b^p - a^p) l.tail l.dropLast, 0 ≤ x := by
  induction l with
  | nil => simp
  | cons a l ih =>
    cases l with
    | nil => simp
    | cons b l =>
      intro x hx
      rw [List.pairwise_cons] at hs
      simp only [List.tail_cons, List.dropLast_cons₂, List.zipWith_cons_cons, List.mem_cons] at hx
      rcases hx with rfl | hx
      · have := pow_le_pow_left₀ (h0 a (by simp)) (hs.1 b (by simp)) p
        linarith
      · exact ih (fun y hy => h0 y (by simp at hy ⊢; tauto)) hs.2 x hx

theorem getD_nonneg {l : List ℝ} (h : ∀ x ∈ l, 0 ≤ x) (j : ℕ) : 0 ≤ l.getD j 0 := by
  rw [List.getD_eq_getElem?_getD]
  by_cases hj : j < l.length
  · rw [List.getElem?_eq_getElem hj]; exact h _ (List.getElem_mem hj)
  · rw [List.getElem?_eq_none (by omega)]; exact le_refl _

theorem rings_nonneg (p : ℕ) {a b : ℝ} (ha : 0 ≤ a) (hab : a ≤ b) (n j : ℕ) :
    0 ≤ (List.zipWith (fun b a => b^p - a^p) (linspace a b (n+1)).tail (linspace a b (n+1)).dropLast).getD j 0 := by
  have hstep : 0 ≤ (b - a)/(((n+1 : ℕ):ℝ) - 1) := by
    apply div_nonneg (by linarith)
    push_cast
    have : (0:ℝ) ≤ n := Nat.cast_nonneg _
    linarith
  refine getD_nonneg (zip_nonneg p ?_ ?_) j
  · intro x hx
    unfold linspace at hx
    obtain ⟨k, _, rfl⟩ := List.mem_map.mp hx
    have : (0:ℝ) ≤ k := Nat.cast_nonneg _
    positivity
  · unfold linspace
    refine List.Pairwise.map _ ?_ List.pairwise_lt_range
    intro k l hkl
    have : (k:ℝ) ≤ l := by exact_mod_cast hkl.le
    have := mul_le_mul_of_nonneg_right this hstep
    linarith

theorem assert_bind {α : Type} {p : Prop} [Decidable p] {k : Unit → Py α} {a : α}
    (h : (pyAssert p >>= k) = .ok a) : p ∧ k () = .ok a := by
  unfold pyAssert at h
  by_cases hp : p
  · rw [if_pos hp] at h; exact ⟨hp, h⟩
  · rw [if_neg hp] at h; simp [bind, Except.bind] at h

theorem setupBox_keeps {X : Type} {I : Box2Ring.State X → Prop} (hI : ∀ s b, I s → I { s with box := b }) (B : BoxArgs) :
    Keeps I (setupBox B) := by
  unfold setupBox
  exact (Keeps.lift _).bind fun _ => (Keeps.lift _).bind fun _ => Keeps.assign fun s hs => hI _ _ hs

theorem radial_keeps {X : Type} {I : Box2Ring.State X → Prop} (h1 : ∀ s a, I s → I { s with area2d := a })
    (h2 : ∀ s a, I s → I { s with pixarea := a }) {gm : Meth (Box2Ring.State X) Unit} (hg : Keeps I gm)
    (f : Arr2 (Option ℝ)) (sigma w : Option (Arr2 ℝ)) : Keeps I (Box2Ring.polar2radial gm f sigma w) := by
  unfold Box2Ring.polar2radial
  refine Keeps.bind ?_ fun _ => Keeps.bind ?_ fun _ => Keeps.self.bind fun s => ?_
  · unfold storeArea
    refine Keeps.self.bind fun s => ?_
    split
    · exact Keeps.pure _
    · exact (Keeps.lift _).bind fun _ => (Keeps.lift _).bind fun _ => Keeps.assign fun s hs => h1 _ _ hs
  · unfold storePix
    refine Keeps.self.bind fun s => ?_
    split
    · exact Keeps.pure _
    · exact (Keeps.lift _).bind fun _ => (Keeps.lift _).bind fun _ => Keeps.assign fun s hs => h2 _ _ hs
  · split
    · exact Keeps.lift _
    · refine (Keeps.lift _).bind fun _ => Keeps.bind ?_ fun _ => Keeps.self.bind fun s => (Keeps.lift _).bind fun _ =>
        (Keeps.lift _).bind fun _ => (Keeps.lift _).bind fun _ => Keeps.lift _
      unfold storeMask
      refine Keeps.self.bind fun s => ?_
      split
      · exact Keeps.pure _
      · exact hg

theorem rotate_keeps {X : Type} {I : Box2Ring.State X → Prop} (f : Arr2 (Option ℝ)) : Keeps I (rotatePolar f) := by
  unfold rotatePolar
  refine Keeps.self.bind fun s => ?_
  split
  · exact Keeps.lift _
  · exact (Keeps.lift _).bind fun _ => Keeps.lift _

theorem refl_RA (f : Arr2 (Option ℝ)) : RA (a := 1) (b := 0) f f f :=
  ⟨⟨rfl, rfl, rfl, rfl⟩, fun i j => by unfold RO; cases f.val i j <;> simp [lin]⟩

/-- The object after a sequence of calls has an invariant that all calls keep. -/
theorem run_inv {X C : Type} (K : Cls X C) {I : Box2Ring.State X → Prop}
    (hc : ∀ c s, I s → I (K.call c s).2) (cs : List (Call C)) {s : Box2Ring.State X} (hs : I s) : I (K.run cs s).2 := by
  induction cs generalizing s with
  | nil => exact hs
  | cons c cs ih => exact ih (hc c s hs)

theorem dg_call (c : Call Dg.Setup) (s : Dg.State) (hs : DgInv s) : DgInv (Dg.cls.call c s).2 := by
  have hrem : ∀ f w, Keeps DgInv (Dg.remap f w) := fun f w => Keeps.same fun s =>
    (Linear.dg_remap (refl_RA f) w s).2.1
  have hmask : Keeps DgInv Dg.getMaskInBound := by
    unfold Dg.getMaskInBound
    refine Keeps.self.bind fun s => ?_
    split
    · exact (hrem _ _).bind fun _ => Keeps.assign fun s hs => hs
    · exact Keeps.lift _
  cases c with
  | setup c =>
    cases c with
    | box B => exact setupBox_keeps (fun s b h => h) B s hs
    | polar A mr mp =>
      have : Keeps DgInv (Dg.setupPolar A mr mp) := by
        unfold Dg.setupPolar
        refine Keeps.bind_ok fun _ h0 => Keeps.bind_ok fun _ hc => ?_
        have h0 := HealSky.pyAssert_ok h0
        unfold polarChecks at hc
        obtain ⟨h1, hc⟩ := assert_bind hc
        obtain ⟨h2, hc⟩ := assert_bind hc
        dsimp only
        refine Keeps.bind (Keeps.assign ?_) fun _ => (Keeps.lift _).bind fun _ => Keeps.bind (Keeps.assign ?_) fun _ =>
          (Keeps.lift _).bind fun _ => Keeps.bind (Keeps.assign ?_) fun _ => Keeps.assign ?_
        · exact fun s hs => hs
        · exact fun s hs => hs
        · exact fun s hs => hs
        intro s hs
        intro d hd j
        simp only [Option.some.injEq] at hd
        rw [← hd]
        have hn : A.numr.toNat > 0 := by omega
        simp only [Dg.mkDense, mkEdges, Units.linspace_first hn, Units.linspace_last' hn]
        exact rings_nonneg 2 h0 h1.le _ _
      exact this s hs
  | remap f w => exact hrem f w s hs
  | rotate f => exact rotate_keeps f s hs
  | getMask => exact hmask s hs
  | radial f sigma w => exact radial_keeps (fun s a h => h) (fun s a h => h) hmask f sigma w s hs
  | clean => intro d hd; exact absurd hd (by simp [Cls.call, clean, Box2Ring.init, Meth.assign])

theorem dg_run (cs : List (Call Dg.Setup)) : DgInv (Dg.cls.run cs Box2Ring.init).2 :=
  run_inv _ dg_call cs fun d hd => absurd hd (by simp [Box2Ring.init])

/-! ## Monte Carlo Box2Ring -/

/-- The stored weights are not negative. -/
def McInv (s : Mc.State) : Prop := ∀ st, s.extra = some st → ∀ i j, ∀ q ∈ st.wt.hits i j, 0 ≤ q.w

theorem F3.zipMul (hR : Closed R) {f g h : List (Option ℝ)} (H : F3 R f g h) (w : List ℝ) (hw : ∀ c ∈ w, 0 ≤ c) :
    F3 R (List.zipWith OneD.omul f w) (List.zipWith OneD.omul g w) (List.zipWith OneD.omul h w) := by
  induction H generalizing w with
  | nil => exact .nil
  | cons hx _ ih =>
    cases w with
    | nil => exact .nil
    | cons c w => exact .cons (hR.mul _ _ _ hx c (hw c (by simp))) (ih w fun c hc => hw c (by simp [hc]))

theorem F3.zipMul' (hR : Closed R) {f g h : List (Option ℝ)} (H : F3 R f g h) (w : List ℝ) (hw : ∀ c ∈ w, 0 ≤ c) :
    F3 R (List.zipWith (fun w f => OneD.omul f w) w f) (List.zipWith (fun w f => OneD.omul f w) w g)
      (List.zipWith (fun w f => OneD.omul f w) w h) := by
  induction H generalizing w with
  | nil => cases w <;> exact .nil
  | cons hx _ ih =>
    cases w with
    | nil => exact .nil
    | cons c w => exact .cons (hR.mul _ _ _ hx c (hw c (by simp))) (ih w fun c hc => hw c (by simp [hc]))

theorem pyMap_mem {α β : Type} {f : α → Py β} {P : β → Prop} (hf : ∀ a b, f a = .ok b → P b) :
    ∀ (l : List α) (m : List β), pyMap f l = .ok m → ∀ b ∈ m, P b := by
  intro l
  induction l with
  | nil => intro m h b hb; simp only [pyMap, Except.ok.injEq] at h; subst h; simp at hb
  | cons a l ih =>
    intro m h b hb
    unfold pyMap at h
    cases hfa : f a with
    | error e => simp [hfa, bind, Except.bind] at h
    | ok c =>
      cases hr : pyMap f l with
      | error e => simp [hfa, hr, bind, Except.bind] at h
      | ok r =>
        simp [hfa, hr, bind, Except.bind, pure, Except.pure] at h
        subst h
        rcases List.mem_cons.mp hb with rfl | hb
        · exact hf a _ hfa
        · exact ih r hr b hb

theorem zip_mul_nonneg {u v : List ℝ} (hu : ∀ x ∈ u, 0 ≤ x) (hv : ∀ x ∈ v, 0 ≤ x) :
    ∀ x ∈ List.zipWith (· * ·) u v, 0 ≤ x := by
  induction u generalizing v with
  | nil => simp
  | cons a u ih =>
    cases v with
    | nil => simp
    | cons b v =>
      intro x hx
      simp only [List.zipWith_cons_cons, List.mem_cons] at hx
      rcases hx with rfl | hx
      · exact mul_nonneg (hu a (by simp)) (hv b (by simp))
      · exact ih (fun y hy => hu y (by simp [hy])) (fun y hy => hv y (by simp [hy])) x hx

theorem pos_some {c : ℝ} (h : 0 ≤ c) : Pos (some c) := fun v hv => by simp only [Option.some.injEq] at hv; exact hv ▸ h

theorem mc_remap (hR : Closed R) {f g h : Arr2 (Option ℝ)} (H : GD R f g h) (w : Option (Arr2 ℝ))
    (hw : ∀ w', w = some w' → ∀ i j, i < w'.rows → j < w'.cols → 0 ≤ w'.val i j) {s : Mc.State} (hs : McInv s) :
    M3 (GA R) (Mc.remap f w) (Mc.remap g w) (Mc.remap h w) s := by
  have hshape : ∀ {β : Type} (c : Arr2 β), (g.sameShape c ↔ f.sameShape c) ∧ (h.sameShape c ↔ f.sameShape c) := by
    intro β c
    obtain ⟨⟨e1, e2, e3, e4⟩, -⟩ := H
    unfold Arr2.sameShape
    rw [e1, e2, e3, e4]
    exact ⟨Iff.rfl, Iff.rfl⟩
  have hpix : ∀ st : Mc.Stored, s.extra = some st → ∀ i j, P3 R (Mc.storedPixel st f w i j) (Mc.storedPixel st g w i j)
      (Mc.storedPixel st h w i j) := by
    intro st hst i j
    have hws : ∀ c ∈ (st.wt.hits i j).map Mc.Hit.w, 0 ≤ c := by
      intro c hc
      obtain ⟨q, hq, rfl⟩ := List.mem_map.mp hc
      exact hs st hst i j q hq
    unfold Mc.storedPixel
    split_ifs
    swap
    · exact .error _
    have hread : P3 (F3 R) (Mc.readHits st.wt.objIdx f (st.wt.hits i j)) (Mc.readHits st.wt.objIdx g (st.wt.hits i j))
        (Mc.readHits st.wt.objIdx h (st.wt.hits i j)) := by
      unfold Mc.readHits
      split_ifs
      · exact .error _
      · exact P3.pyMap _ fun q => H.get _ _
    unfold Mc.remapPixel
    cases w with
    | none =>
      simp only
      split_ifs
      · exact hread.bind fun x y z hx => .ok (hR.div _ _ _ (hR.sum _ _ _ (F3.zipMul' hR hx _ hws)) _
          (pos_some (List.sum_nonneg hws)))
      · exact .ok hR.none
    | some w =>
      simp only
      split_ifs
      · cases hr : Mc.readHits st.wt.objIdx w (st.wt.hits i j) with
        | error e => exact .error _
        | ok w1 =>
          have hw1 : ∀ c ∈ w1, 0 ≤ c := by
            unfold Mc.readHits at hr
            split_ifs at hr
            refine pyMap_mem (fun q c hq => ?_) _ _ hr
            unfold Arr2.get at hq
            split_ifs at hq with hb
            simp only [Except.ok.injEq] at hq
            exact hq ▸ hw w rfl _ _ hb.1 hb.2
          have hz := zip_mul_nonneg hws hw1
          exact hread.bind fun x y z hx => .ok (hR.div _ _ _ (hR.sum _ _ _ (F3.zipMul hR hx _ hz)) _
            (pos_some (List.sum_nonneg hz)))
      · exact .ok hR.none
  unfold Mc.remap
  refine M3.self ?_
  cases hb : s.box with
  | none => exact M3.lift (.error _) s
  | some bx =>
    simp only
    have ha : ∀ (β : Type) (c : Arr2 β), (pyAssert (g.sameShape c) = pyAssert (f.sameShape c)) ∧
        pyAssert (h.sameShape c) = pyAssert (f.sameShape c) := by
      intro β c
      unfold pyAssert
      simp only [(hshape c).1, (hshape c).2, and_self]
    rw [(ha _ bx.x2d).1, (ha _ bx.x2d).2]
    refine M3.same _ fun _ => ?_
    cases w with
    | none =>
      simp only
      exact M3.same _ fun p => M3.same_ok _ fun st hst => M3.lift (P3.tabulate' hR.none (hpix st (need_ok hst))) s
    | some w =>
      simp only
      exact M3.same _ fun _ => M3.same _ fun p => M3.same_ok _ fun st hst =>
        M3.lift (P3.tabulate' hR.none (hpix st (need_ok hst))) s

theorem mc_call (c : Call Mc.Setup) (s : Mc.State) (hs : McInv s) : McInv (Mc.cls.call c s).2 := by
  have hrem : ∀ f w, Keeps McInv (Mc.remap f w) := fun f w => Keeps.same fun s =>
    (Linear.mc_remap (refl_RA f) w s).2.1
  have hmask : Keeps McInv Mc.getMaskInBound := by
    unfold Mc.getMaskInBound
    refine Keeps.self.bind fun s => ?_
    split
    · exact (hrem _ _).bind fun _ => Keeps.assign fun s hs => hs
    · exact Keeps.lift _
  cases c with
  | setup c =>
    cases c with
    | box B => exact setupBox_keeps (fun s b h => h) B s hs
    | lin A =>
      have : Keeps McInv (Mc.setupPolarLin A) := by
        unfold Mc.setupPolarLin
        dsimp only
        refine (Keeps.lift _).bind fun _ => (Keeps.lift _).bind fun _ => Keeps.bind (Keeps.assign ?_) fun _ =>
          (Keeps.lift _).bind fun _ => Keeps.bind (Keeps.assign ?_) fun _ =>
          (Keeps.lift _).bind fun _ => Keeps.bind (Keeps.assign ?_) fun _ => Keeps.assign ?_
        all_goals exact fun s hs => hs
      exact this s hs
    | log A z =>
      have : Keeps McInv (Mc.setupPolarLog A z) := by
        unfold Mc.setupPolarLog
        dsimp only
        refine (Keeps.lift _).bind fun _ => (Keeps.lift _).bind fun _ => Keeps.bind (Keeps.assign ?_) fun _ =>
          Keeps.bind (Keeps.assign ?_) fun _ =>
          (Keeps.lift _).bind fun _ => Keeps.bind (Keeps.assign ?_) fun _ => Keeps.assign ?_
        all_goals exact fun s hs => hs
      exact this s hs
    | weights n draws =>
      have : Keeps McInv (Mc.getWeights n draws) := by
        unfold Mc.getWeights
        dsimp only
        refine (Keeps.lift _).bind fun _ => Keeps.self.bind fun s => (Keeps.lift _).bind fun p => (Keeps.lift _).bind fun e =>
          (Keeps.lift _).bind fun b => (Keeps.lift _).bind fun hx => (Keeps.lift _).bind fun hy => (Keeps.lift _).bind fun _ =>
          (Keeps.lift _).bind fun o => Keeps.assign ?_
        intro s hs st hst i j q hq
        simp only [Option.some.injEq] at hst
        subst hst
        simp only [Mc.pixelHits, List.mem_map] at hq
        obtain ⟨c, -, rfl⟩ := hq
        simp only
        positivity
      exact this s hs
  | remap f w => exact hrem f w s hs
  | rotate f => exact rotate_keeps f s hs
  | getMask => exact hmask s hs
  | radial f sigma w => exact radial_keeps (fun s a h => h) (fun s a h => h) hmask f sigma w s hs
  | clean => intro d hd; exact absurd hd (by simp [Cls.call, clean, Box2Ring.init, Meth.assign])

theorem mc_run (cs : List (Call Mc.Setup)) : McInv (Mc.cls.run cs Box2Ring.init).2 :=
  run_inv _ mc_call cs fun d hd => absurd hd (by simp [Box2Ring.init])

/-! ## Heal2Ortho -/

theorem runCalls_inv {S C O : Type} {call : C → S → O × S} {I : S → Prop} (hc : ∀ c s, I s → I (call c s).2)
    (cs : List C) {s : S} (hs : I s) : I (runCalls call cs s).2 := by
  induction cs generalizing s with
  | nil => exact hs
  | cons c cs ih => exact ih (hc c s hs)

/-- The masks of the sphere hold no negative numbers. -/
def OrthoInv (s : Ortho.State) : Prop :=
  ∀ g, s.grid = some g → (∀ i j, 0 ≤ g.ronsphere.val i j) ∧ ∀ i j, Pos (g.onsphere.val i j)

theorem P3.gather' {f g h : List (Option ℝ)} (H : F3 R f g h) (idx : List ℕ) :
    P3 (F3 R) (gather f idx) (gather g idx) (gather h idx) := by
  have key : ∀ {f g h : List (Option ℝ)}, F3 R f g h → ∀ n : ℕ, (f[n]? = none ∧ g[n]? = none ∧ h[n]? = none) ∨
      ∃ x y z, f[n]? = some x ∧ g[n]? = some y ∧ h[n]? = some z ∧ R x y z := by
    intro f g h H
    induction H with
    | nil => intro n; left; simp
    | cons hx _ ih =>
      intro n
      cases n with
      | zero => right; exact ⟨_, _, _, by simp, by simp, by simp, hx⟩
      | succ n => simpa using ih n
  induction idx with
  | nil => exact .ok .nil
  | cons n ns ih =>
    unfold Magpie.gather
    rcases key H n with ⟨e1, e2, e3⟩ | ⟨x, y, z, e1, e2, e3, hx⟩
    · rw [e1, e2, e3]; exact .error _
    · rw [e1, e2, e3]
      simp only
      generalize Magpie.gather f ns = p at *
      generalize Magpie.gather g ns = q at *
      generalize Magpie.gather h ns = r at *
      cases ih with
      | ok hu => exact .ok (.cons hx hu)
      | error e => exact .error e

theorem P3.put' {l m n : List (Option ℝ)} (H : F3 R l m n) (is js : List ℕ) {f g h : Arr2 (Option ℝ)}
    (HA : GA R f g h) : P3 (GA R) (Ortho.put f is js l) (Ortho.put g is js m) (Ortho.put h is js n) := by
  induction H generalizing is js f g h with
  | nil =>
    cases is <;> cases js <;> simp only [Ortho.put]
    · exact .ok HA
    all_goals exact .error _
  | cons hx _ ih =>
    cases is <;> cases js <;> simp only [Ortho.put]
    · exact .error _
    · exact .error _
    · exact .error _
    · obtain ⟨⟨e1, e2, e3, e4⟩, hv⟩ := HA
      rw [e1, e2, e3, e4]
      split_ifs
      · refine ih _ _ ⟨⟨rfl, rfl, rfl, rfl⟩, fun i j => ?_⟩
        simp only
        split_ifs
        · exact hx
        · exact hv i j
      · exact .error _

theorem ortho_remap1 (hR : Closed R) {f g h : List (Option ℝ)} (H : F3 R f g h) {s : Ortho.State} (hs : OrthoInv s) :
    M3 (GA R) (Ortho.remap1 f) (Ortho.remap1 g) (Ortho.remap1 h) s := by
  unfold Ortho.remap1
  refine M3.self (M3.same_ok _ fun d hd => M3.same _ fun p => ?_)
  obtain ⟨hr, ho⟩ := hs d (need_ok hd)
  refine (M3.lift (P3.gather' H p) s).bind fun x y z hx => ?_
  refine (M3.lift (P3.put' hx _ _ ⟨⟨rfl, rfl, rfl, rfl⟩, fun _ _ => hR.zero⟩) s).bind fun x y z hx => ?_
  refine (M3.lift (hx.zip _ _ fun _ _ _ i j h => hR.mul _ _ _ h _ (hr i j)) s).bind fun x y z hx => ?_
  refine M3.same _ fun _ => ?_
  refine (M3.lift (hx.downsum hR _ _ _ _ _) s).bind fun x y z hx => ?_
  refine (M3.lift (P3.and_same ((pos_arr hr).downgrade pos_closed _ _ _ _ _)) s).bind fun u v t hu => ?_
  obtain ⟨rfl, rfl, hu⟩ := hu
  refine (M3.lift (hx.zip _ _ fun _ _ _ i j h => ?_) s).bind fun x y z hx => ?_
  · unfold Ortho.divNonzero
    split_ifs
    · exact hR.div _ _ _ h _ (hu.2 i j)
    · exact h
  · refine M3.lift (hx.zip _ _ fun _ _ _ i j h => ?_) s
    unfold Ortho.omul2
    have hc := ho i j
    generalize d.onsphere.val i j = c at *
    cases c with
    | none => exact hR.none
    | some c => exact hR.mul _ _ _ h _ (hc c rfl)

theorem ortho_remap (hR : Closed R) {f g h : List (Option ℝ)} (H : F3 R f g h) (w : Option (List ℝ))
    (hw : ∀ w', w = some w' → ∀ c ∈ w', 0 ≤ c) {s : Ortho.State} (hs : OrthoInv s) :
    M3 (GA R) (Ortho.remap f w) (Ortho.remap g w) (Ortho.remap h w) s := by
  unfold Ortho.remap
  cases w with
  | none => exact ortho_remap1 hR H hs
  | some w =>
    have hw := hw w rfl
    have hz : P3 (F3 R) (vzip OneD.omul f w) (vzip OneD.omul g w) (vzip OneD.omul h w) := by
      unfold vzip
      rw [H.length.1, H.length.2]
      split_ifs
      · exact .ok (F3.zipMul hR H w hw)
      · exact .error _
    refine (M3.lift hz s).bind fun x y z hx => ?_
    refine (ortho_remap1 hR hx hs).bind fun x y z hx => ?_
    refine (M3.and_same (ortho_remap1 pos_closed (f := w.map some) (g := w.map some) (h := w.map some)
      (F3.map_mem _ fun c hc => pos_some (hw c hc)) hs)).bind fun u v t hu => ?_
    obtain ⟨rfl, rfl, hu⟩ := hu
    exact M3.lift (hx.zip _ _ fun _ _ _ i j h => hR.div _ _ _ h _ (hu.2 i j)) s

theorem refl_F3 (f : List (Option ℝ)) : F3 (RO 1 0) f f f := by
  induction f with
  | nil => exact .nil
  | cons x f ih => exact .cons (by unfold RO; cases x <;> simp [lin]) ih

theorem ortho_call (ang2pix : ℤ → ℝ → ℝ → ℕ) (c : Ortho.Call) (s : Ortho.State) (hs : OrthoInv s) :
    OrthoInv (Ortho.call ang2pix c s).2 := by
  cases c with
  | map n =>
    have : Keeps OrthoInv (Ortho.setupMap n) := by
      unfold Ortho.setupMap
      refine (Keeps.lift _).bind fun _ => Keeps.assign ?_
      exact fun s hs => hs
    exact this s hs
  | box a =>
    have : Keeps OrthoInv (Ortho.setupBox ang2pix a) := by
      unfold Ortho.setupBox
      dsimp only
      refine (Keeps.lift _).bind fun _ => (Keeps.lift _).bind fun _ => (Keeps.lift _).bind fun _ =>
        Keeps.bind (Keeps.assign ?_) fun _ => (Keeps.lift _).bind fun _ => Keeps.bind (Keeps.assign ?_) fun _ =>
        (Keeps.lift _).bind fun _ => Keeps.bind (Keeps.assign ?_) fun _ => Keeps.bind (Keeps.assign ?_) fun _ =>
        Keeps.self.bind fun _ => (Keeps.lift _).bind fun _ => Keeps.assign ?_
      · exact fun s hs => hs
      · exact fun s hs => hs
      · exact fun s hs => hs
      · intro s hs g hg
        simp only [Option.some.injEq] at hg
        rw [← hg]
        simp only [Ortho.mkGrid]
        refine ⟨fun i j => ?_, fun i j v hv => ?_⟩
        · split_ifs <;> norm_num
        · simp only [Option.map_eq_some_iff] at hv
          obtain ⟨_, -, rfl⟩ := hv
          norm_num
      · exact fun s hs => hs
    exact this s hs
  | remap f w => exact Keeps.same (fun s => (Linear.ortho_remap (refl_F3 f) w s).2.1) s hs
  | transform p t =>
    have : Keeps OrthoInv (Ortho.transform p t) := by
      unfold Ortho.transform
      exact Keeps.self.bind fun _ => (Keeps.lift _).bind fun _ => (Keeps.lift _).bind fun _ => Keeps.pure _
    exact this s hs
  | transformArr p t =>
    have : Keeps OrthoInv (Ortho.transformArr p t) := by
      unfold Ortho.transformArr
      exact Keeps.self.bind fun _ => (Keeps.lift _).bind fun _ => (Keeps.lift _).bind fun _ => (Keeps.lift _).bind fun _ =>
        Keeps.pure _
    exact this s hs
  | clean => intro g hg; exact absurd hg (by simp [Ortho.call, Meth.call, Ortho.clean, Ortho.init, Meth.assign])

theorem ortho_run (ang2pix : ℤ → ℝ → ℝ → ℕ) (cs : List Ortho.Call) :
    OrthoInv (runCalls (Ortho.call ang2pix) cs Ortho.init).2 :=
  runCalls_inv (ortho_call ang2pix) cs fun d hd => absurd hd (by simp [Ortho.init])

/-! ## Monte Carlo Cube2Shell -/

/-- The stored weights are not negative. -/
def CubeInv (s : McCube.State) : Prop := ∀ st, s.weights = some st → ∀ i j, ∀ q ∈ st.wt.hits i j, 0 ≤ q.w

theorem below_get3 {f g : Arr3 (Option ℝ)} (H : BelowArr3 f g) (i j k : ℕ) :
    P3 (fun x y _ => Below x y) (f.get i j k) (g.get i j k) (g.get i j k) := by
  obtain ⟨⟨h0, h1, h2⟩, hv⟩ := H
  unfold Arr3.get
  rw [h0, h1, h2]
  split_ifs with hb
  · exact .ok (hv _ _ _ hb.1 hb.2.1 hb.2.2)
  · exact .error _

theorem cube_remap {f g : Arr3 (Option ℝ)} (H : BelowArr3 f g) (w : Option (Arr3 ℝ))
    (hw : ∀ w', w = some w' → ∀ i j k, i < w'.n0 → j < w'.n1 → k < w'.n2 → 0 ≤ w'.val i j k) {s : McCube.State}
    (hs : CubeInv s) :
    M3 (GA fun x y _ => Below x y) (McCube.remap f w) (McCube.remap g w) (McCube.remap g w) s := by
  have hR := below_closed
  have hpix : ∀ st : McCube.Stored, s.weights = some st → ∀ i j, P3 (fun x y _ => Below x y)
      (McCube.storedPixel st f w i j) (McCube.storedPixel st g w i j) (McCube.storedPixel st g w i j) := by
    intro st hst i j
    have hws : ∀ c ∈ (st.wt.hits i j).map McCube.Hit.w, 0 ≤ c := by
      intro c hc
      obtain ⟨q, hq, rfl⟩ := List.mem_map.mp hc
      exact hs st hst i j q hq
    unfold McCube.storedPixel
    split_ifs
    swap
    · exact .error _
    have hread : P3 (F3 fun x y _ => Below x y) (McCube.readHits st.wt.objIdx f (st.wt.hits i j))
        (McCube.readHits st.wt.objIdx g (st.wt.hits i j)) (McCube.readHits st.wt.objIdx g (st.wt.hits i j)) := by
      unfold McCube.readHits
      split_ifs
      · exact .error _
      · exact P3.pyMap _ fun q => below_get3 H _ _ _
    unfold McCube.remapPixel
    cases w with
    | none =>
      simp only
      split_ifs
      · exact hread.bind fun x y z hx => .ok (hR.div _ _ (some 0) (hR.sum _ _ _ (F3.zipMul' hR hx _ hws)) _
          (pos_some (List.sum_nonneg hws)))
      · exact .ok (le_refl _)
    | some w =>
      simp only
      split_ifs
      · cases hr : McCube.readHits st.wt.objIdx w (st.wt.hits i j) with
        | error e => exact .error _
        | ok w1 =>
          have hw1 : ∀ c ∈ w1, 0 ≤ c := by
            unfold McCube.readHits at hr
            split_ifs at hr
            refine pyMap_mem (fun q c hq => ?_) _ _ hr
            unfold Arr3.get at hq
            split_ifs at hq with hb
            simp only [Except.ok.injEq] at hq
            exact hq ▸ hw w rfl _ _ _ hb.1 hb.2.1 hb.2.2
          have hz := zip_mul_nonneg hws hw1
          exact hread.bind fun x y z hx => .ok (hR.div _ _ (some 0) (hR.sum _ _ _ (F3.zipMul hR hx _ hz)) _
            (pos_some (List.sum_nonneg hz)))
      · exact .ok (le_refl _)
  unfold McCube.remap
  refine M3.self (M3.same _ fun e => M3.same _ fun sh => M3.same _ fun n => M3.same_ok _ fun st hst => ?_)
  exact M3.lift (P3.tabulate' hR.none (hpix st (need_ok hst))) s

theorem tabulate_all {α : Type} {rows cols : ℕ} {f : ℕ → ℕ → Py (List α)} {P : α → Prop}
    (hf : ∀ i j l, f i j = .ok l → ∀ a ∈ l, P a) {x : Arr2 (List α)} (h : tabulate rows cols f [] = .ok x) :
    ∀ i j, ∀ a ∈ x.val i j, P a := by
  unfold tabulate at h
  cases hr : pyMap (fun i => pyMap (f i) (List.range cols)) (List.range rows) with
  | error e => simp [hr, bind, Except.bind] at h
  | ok m =>
    simp [hr, bind, Except.bind, pure, Except.pure] at h
    subst h
    have h1 : ∀ r ∈ m, ∀ l ∈ r, ∀ a ∈ l, P a := pyMap_mem (fun i r hr => pyMap_mem (fun j l hl => hf i j l hl) _ _ hr) _ _ hr
    intro i j a ha
    simp only [List.getD_eq_getElem?_getD] at ha
    by_cases hi : i < m.length
    · rw [List.getElem?_eq_getElem hi, Option.getD_some] at ha
      by_cases hj : j < m[i].length
      · rw [List.getElem?_eq_getElem hj, Option.getD_some] at ha
        exact h1 _ (List.getElem_mem hi) _ (List.getElem_mem hj) a ha
      · rw [List.getElem?_eq_none (by omega)] at ha; simp at ha
    · have hi' : m[i]? = none := List.getElem?_eq_none (by omega)
      rw [hi'] at ha; simp at ha

theorem cube_call (c : McCube.Call) (s : McCube.State) (hs : CubeInv s) : CubeInv (McCube.call c s).2 := by
  cases c with
  | cube a =>
    have : Keeps CubeInv (McCube.setupCube a) := by
      unfold McCube.setupCube
      refine (Keeps.lift _).bind fun _ => Keeps.assign ?_
      exact fun s hs => hs
    exact this s hs
  | lin a =>
    have : Keeps CubeInv (McCube.setupPolarLin a) := by
      unfold McCube.setupPolarLin
      dsimp only
      refine (Keeps.lift _).bind fun _ => (Keeps.lift _).bind fun _ => Keeps.bind (Keeps.assign ?_) fun _ =>
        (Keeps.lift _).bind fun _ => Keeps.assign ?_
      all_goals exact fun s hs => hs
    exact this s hs
  | log a z =>
    have : Keeps CubeInv (McCube.setupPolarLog a z) := by
      unfold McCube.setupPolarLog
      dsimp only
      refine (Keeps.lift _).bind fun _ => (Keeps.lift _).bind fun _ => Keeps.assign ?_
      exact fun s hs => hs
    exact this s hs
  | weights n draws =>
    have : Keeps CubeInv (McCube.getWeights n draws) := by
      unfold McCube.getWeights
      dsimp only
      refine Keeps.self.bind fun s => (Keeps.lift _).bind fun e => (Keeps.lift _).bind fun sh => (Keeps.lift _).bind fun np =>
        (Keeps.lift _).bind fun g => Keeps.bind_ok fun hits hh => (Keeps.lift _).bind fun o => Keeps.assign ?_
      intro s hs st hst i j q hq
      simp only [Option.some.injEq] at hst
      subst hst
      refine tabulate_all (P := fun q => 0 ≤ q.w) (fun i j l hl q hq => ?_) hh i j q hq
      simp only [bind, Except.bind, pure, Except.pure] at hl
      split at hl
      · simp at hl
      split at hl
      · simp at hl
      split at hl
      · simp at hl
      split at hl
      · simp at hl
      simp only [Except.ok.injEq] at hl
      subst hl
      simp only [McCube.pixelHits, List.mem_map] at hq
      obtain ⟨c, -, rfl⟩ := hq
      simp only
      positivity
    exact this s hs
  | remap f w =>
    refine Keeps.same (fun s => ?_) s hs
    exact (Linear.cube_remap (a := 1) (b := 0) (f := f) (g := f) rfl rfl rfl w s).2.1
  | clean => intro g hg; exact absurd hg (by simp [McCube.call, Meth.call, McCube.clean, McCube.init, Meth.assign])

theorem cube_run (cs : List McCube.Call) : CubeInv (runCalls McCube.call cs McCube.init).2 :=
  runCalls_inv cube_call cs fun d hd => absurd hd (by simp [McCube.init])

/-! ## Dense grid Cube2Shell -/

/-- The shells of the dense grid have volumes that are not negative. -/
def DgCubeInv (s : DgCube.State) : Prop :=
  ∀ sh, s.shell = some sh → ∀ j, 0 ≤ (List.zipWith (fun b a => b^3 - a^3) sh.rredges.tail sh.rredges.dropLast).getD j 0

/-- Ordered, and none is taken for a missing value. -/
def BG (x y : Option ℝ) : Prop := ∃ u v, x = some u ∧ y = some v ∧ u ≤ v ∧ ¬ DgCube.isBad u ∧ ¬ DgCube.isBad v

theorem bg_zero : BG (some 0) (some 0) := ⟨0, 0, rfl, rfl, le_refl _, DgCube.zero_good, DgCube.zero_good⟩

theorem bg_get {f g : Arr3 (Option ℝ)} (H : BelowArr3 f g) (hf : Usual f) (hg : Usual g) (i j k : ℕ) :
    P3 (fun x y _ => BG x y) (f.get i j k) (g.get i j k) (g.get i j k) := by
  obtain ⟨⟨h0, h1, h2⟩, hv⟩ := H
  unfold Arr3.get
  rw [h0, h1, h2]
  split_ifs with hb
  · have := hv _ _ _ hb.1 hb.2.1 hb.2.2
    obtain ⟨u, eu, hu⟩ := hf i j k
    obtain ⟨v, ev, hv⟩ := hg i j k
    rw [eu, ev] at this
    exact .ok ⟨u, v, eu, ev, this, good30 hu, good30 hv⟩
  · exact .error _

theorem bg_entry {f g : Arr3 (Option ℝ)} (H : BelowArr3 f g) (hf : Usual f) (hg : Usual g) (C : Option Cube.Grid3)
    (r : ℝ) (ang : ℝ × ℝ) (cs : List (ℝ × ℝ × ℝ)) :
    P3 (fun x y _ => BG x y) (DgCube.entry C f r ang cs) (DgCube.entry C g r ang cs) (DgCube.entry C g r ang cs) := by
  unfold DgCube.entry
  cases C with
  | none => exact .ok bg_zero
  | some C =>
    have : ∀ x y z, BG x y → z = y → P3 (fun x y z => BG x y ∧ z = y) (DgCube.highres C f r ang cs x)
        (DgCube.highres C g r ang cs y) (DgCube.highres C g r ang cs z) := by
      induction cs with
      | nil => exact fun x y z h e => .ok ⟨h, e⟩
      | cons c cs ih =>
        intro x y z h e
        unfold DgCube.highres
        cases DgCube.cellOf C r ang c with
        | none => exact ih _ _ _ h e
        | some q =>
          have hq : P3 (fun x y z => BG x y ∧ z = y) (f.get q.1 q.2.1 q.2.2) (g.get q.1 q.2.1 q.2.2)
              (g.get q.1 q.2.1 q.2.2) := by
            have := bg_get H hf hg q.1 q.2.1 q.2.2
            generalize f.get q.1 q.2.1 q.2.2 = p at *
            generalize g.get q.1 q.2.1 q.2.2 = t at *
            cases this with
            | ok h => exact .ok ⟨h, rfl⟩
            | error e => exact .error e
          exact hq.bind fun x y z h => ih x y z h.1 h.2
    exact (this _ _ _ bg_zero rfl).imp fun _ _ _ h => h.1

theorem bg_udGrade {x y : ℕ → Option ℝ} (l : List ℕ) (hl : l ≠ []) (h : ∀ q ∈ l, BG (x q) (y q)) :
    Below (DgCube.udGrade (l.map x)) (DgCube.udGrade (l.map y)) := by
  have ex : l.map x = l.map fun q => some ((x q).getD 0) := List.map_congr_left fun q hq => by
    obtain ⟨u, v, e1, e2, -⟩ := h q hq
    simp [e1]
  have ey : l.map y = l.map fun q => some ((y q).getD 0) := List.map_congr_left fun q hq => by
    obtain ⟨u, v, e1, e2, -⟩ := h q hq
    simp [e2]
  rw [ex, ey, DgCube.udGrade_ok l hl _ fun q hq => ?_, DgCube.udGrade_ok l hl _ fun q hq => ?_]
  · show DgCube.meanAt _ _ ≤ DgCube.meanAt _ _
    unfold DgCube.meanAt
    refine div_le_div_of_nonneg_right (List.sum_le_sum fun q hq => ?_) (Nat.cast_nonneg _)
    obtain ⟨u, v, e1, e2, e3, -⟩ := h q hq
    simpa [e1, e2] using e3
  all_goals
    obtain ⟨u, v, e1, e2, e3, g1, g2⟩ := h q hq
    simp only [e1, e2, Option.getD_some]
    assumption

theorem dgcube_remap {f g : Arr3 (Option ℝ)} (H : BelowArr3 f g) (hf : Usual f) (hg : Usual g) (hp : DgCube.Hp)
    {s : DgCube.State} (hs : Nested hp s) (hI : DgCubeInv s) :
    M3 (GD fun x y _ => Below x y) (DgCube.remap hp f) (DgCube.remap hp g) (DgCube.remap hp g) s := by
  have hR := below_closed
  unfold DgCube.remap
  refine M3.self (M3.same_ok _ fun sh hsh => M3.same _ fun e => M3.same_ok _ fun npix hn => M3.same_ok _ fun npixHi hN =>
    M3.same _ fun C => ?_)
  have hsh : s.shell = some sh := need_ok hsh
  have hrw := hI sh hsh
  have hpos : 0 < npix ∧ npix = 12*sh.nside.toNat^2 := by
    unfold Cube.nside2npix at hn
    split_ifs at hn with h
    simp only [Except.ok.injEq] at hn
    refine ⟨?_, hn.symm⟩
    unfold Cube.isNsideOk at h
    have : 0 < sh.nside.toNat := by omega
    rw [← hn]
    positivity
  have hHi : npixHi = 12*(sh.nside*sh.rebinShell).toNat^2 := by
    unfold Cube.nside2npix at hN
    split_ifs at hN with h
    simpa using hN.symm
  refine (M3.lift (P3.tabulate_lt fun i q => bg_entry H hf hg _ _ _ _) s).bind fun x y z hx => ?_
  have hW : P3 (fun u v t => v = u ∧ t = u ∧ ∀ i j k, Pos (u i j k))
      ((⟨(List.zipWith (fun b a => b^3 - a^3) sh.rredges.tail sh.rredges.dropLast).length, 1, fun i _ =>
        some ((List.zipWith (fun b a => b^3 - a^3) sh.rredges.tail sh.rredges.dropLast).getD i 0)⟩ : Arr2 (Option ℝ)).reshape3
        e.2.length sh.rebinR 1)
      ((⟨(List.zipWith (fun b a => b^3 - a^3) sh.rredges.tail sh.rredges.dropLast).length, 1, fun i _ =>
        some ((List.zipWith (fun b a => b^3 - a^3) sh.rredges.tail sh.rredges.dropLast).getD i 0)⟩ : Arr2 (Option ℝ)).reshape3
        e.2.length sh.rebinR 1)
      ((⟨(List.zipWith (fun b a => b^3 - a^3) sh.rredges.tail sh.rredges.dropLast).length, 1, fun i _ =>
        some ((List.zipWith (fun b a => b^3 - a^3) sh.rredges.tail sh.rredges.dropLast).getD i 0)⟩ : Arr2 (Option ℝ)).reshape3
        e.2.length sh.rebinR 1) :=
    P3.and_same (GA.reshape3 (R := fun x _ _ => Pos x) ⟨⟨rfl, rfl, rfl, rfl⟩, fun i j => pos_some (hrw i)⟩ _ _ _)
  refine (M3.lift hW s).bind fun rw3 v t hv => ?_
  obtain ⟨rfl, rfl, hv⟩ := hv
  have hgrade : ∀ i p, i < sh.rrmid.length → p < npix →
      Below (DgCube.udGrade ((hp.children (sh.nside*sh.rebinShell) sh.nside p).map (x.val i)))
        (DgCube.udGrade ((hp.children (sh.nside*sh.rebinShell) sh.nside p).map (y.val i))) := by
    intro i p hi hp'
    obtain ⟨n1, n2⟩ := hs sh hsh p (hpos.2 ▸ hp')
    exact bg_udGrade _ n1 fun q hq => hx i q hi (hHi ▸ n2 q hq)
  simp only [Arr2.reshape3]
  by_cases hsize : sh.rrmid.length*npix = e.2.length*sh.rebinR*npix
  swap
  · simp only [if_neg hsize]
    exact ⟨.error _, rfl, rfl, rfl⟩
  simp only [if_pos hsize]
  have hrows : sh.rrmid.length = e.2.length*sh.rebinR := Nat.eq_of_mul_eq_mul_right hpos.1 hsize
  refine ⟨.ok ⟨⟨rfl, rfl, rfl, rfl⟩, fun i p hi hp' => ?_⟩, rfl, rfl, rfl⟩
  have hp' : p < npix := hp'
  have hi : i < e.2.length := hi
  refine hR.div _ _ (some 0) (hR.sum _ _ ((List.range sh.rebinR).map fun _ => some 0) (F3.map_mem _ fun k hk => ?_)) _
    (pos_closed.sum _ ((List.range sh.rebinR).map fun _ => some 0) ((List.range sh.rebinR).map fun _ => some 0)
      (F3.map_mem _ fun k hk => hv _ _ _))
  have hk := List.mem_range.mp hk
  have ediv : ((i*sh.rebinR + k)*npix + p)/npix = i*sh.rebinR + k := by
    rw [mul_comm, Nat.mul_add_div hpos.1, Nat.div_eq_of_lt hp', add_zero]
  have emod : ((i*sh.rebinR + k)*npix + p) % npix = p := by
    rw [mul_comm, Nat.mul_add_mod, Nat.mod_eq_of_lt hp']
  simp only [ediv, emod]
  refine hR.mul _ _ (some 0) (hgrade _ _ ?_ hp') _ (hrw _)
  rw [hrows]
  calc i*sh.rebinR + k < i*sh.rebinR + sh.rebinR := by omega
    _ = (i+1)*sh.rebinR := by ring
    _ ≤ e.2.length*sh.rebinR := Nat.mul_le_mul_right _ hi

theorem dgcube_state (hp : DgCube.Hp) (f : Arr3 (Option ℝ)) (s : DgCube.State) : (DgCube.remap hp f s).2 = s := by
  have h : ∀ {α : Type} (x : Py α) (k : α → Meth DgCube.State (Arr2 (Option ℝ))), (∀ a, (k a s).2 = s) →
      ((Meth.lift x >>= k) s).2 = s := by
    intro α x k hk
    rw [Meth.bind_apply, Meth.lift_apply]
    cases x with
    | error e => rfl
    | ok a => exact hk a
  unfold DgCube.remap
  rw [Meth.bind_apply, Meth.self_apply]
  refine h _ _ fun _ => h _ _ fun _ => h _ _ fun _ => h _ _ fun _ => h _ _ fun _ => h _ _ fun _ => h _ _ fun _ =>
    h _ _ fun _ => rfl

theorem dgcube_call (hp : DgCube.Hp) (c : DgCube.Call) (s : DgCube.State) (hs : DgCubeInv s) :
    DgCubeInv (DgCube.call hp c s).2 := by
  cases c with
  | cube a =>
    have : Keeps DgCubeInv (DgCube.setupCube a) := by
      unfold DgCube.setupCube
      refine (Keeps.lift _).bind fun _ => Keeps.assign ?_
      exact fun s hs => hs
    exact this s hs
  | polar a =>
    have : Keeps DgCubeInv (DgCube.setupPolar a) := by
      unfold DgCube.setupPolar
      dsimp only
      refine Keeps.bind_ok fun _ hc => ?_
      unfold DgCube.shellChecks at hc
      obtain ⟨h0, hc⟩ := assert_bind hc
      obtain ⟨h1, hc⟩ := assert_bind hc
      obtain ⟨h2, hc⟩ := assert_bind hc
      refine Keeps.bind (Keeps.assign ?_) fun _ => (Keeps.lift _).bind fun _ => Keeps.bind (Keeps.assign ?_) fun _ =>
        Keeps.self.bind fun _ => (Keeps.lift _).bind fun _ => Keeps.assign ?_
      · exact fun s hs => hs
      · exact fun s hs => hs
      intro s hs d hd j
      simp only [Option.some.injEq] at hd
      rw [← hd]
      have hn : a.numr.toNat > 0 := by omega
      simp only [Units.linspace_first hn, Units.linspace_last' hn]
      exact rings_nonneg 3 h0 h1.le _ _
    exact this s hs
  | remap f => exact Keeps.same (dgcube_state hp f) s hs
  | clean => intro g hg; exact absurd hg (by simp [DgCube.call, Meth.call, DgCube.clean, DgCube.init, Meth.assign])

theorem dgcube_run (hp : DgCube.Hp) (cs : List DgCube.Call) : DgCubeInv (runCalls (DgCube.call hp) cs DgCube.init).2 :=
  runCalls_inv (dgcube_call hp) cs fun d hd => absurd hd (by simp [DgCube.init])

/-! ## Radial profiles -/

/-- The stored mask holds no negative number. -/
def MaskInv {X : Type} (s : Box2Ring.State X) : Prop := ∀ m, s.maskInBound = some m → ∀ i j, 0 ≤ m.val i j

theorem mask_keeps {X : Type} {I : Box2Ring.State X → Prop} {s : Box2Ring.State X}
    {m : Meth (Box2Ring.State X) (Arr2 (Option ℝ))} (hI : ∀ s a, I s → I { s with maskInBound := a })
    (hm : M3 (GA fun x _ _ => Pos x) m m m s) (hs : I s) :
    I ((m >>= fun m => Meth.assign fun s : Box2Ring.State X => { s with maskInBound := some ⟨m.rows, m.cols, fun i j =>
      (m.val i j).getD 0⟩ }) s).2 ∧ (MaskInv s → MaskInv ((m >>= fun m => Meth.assign fun s : Box2Ring.State X =>
        { s with maskInBound := some ⟨m.rows, m.cols, fun i j => (m.val i j).getD 0⟩ }) s).2) := by
  obtain ⟨h, e, -, -⟩ := hm
  rw [Meth.bind_apply]
  generalize m s = q at *
  obtain ⟨q, t⟩ := q
  simp only at e h
  subst e
  cases h with
  | error e => exact ⟨hs, fun h => h⟩
  | @ok a _ _ h =>
    refine ⟨hI _ _ hs, fun _ n hn i j => ?_⟩
    simp only [Meth.assign, Option.some.injEq] at hn
    rw [← hn]
    simp only
    have := h.2 i j
    generalize a.val i j = v at *
    cases v with
    | none => simp
    | some v => exact this v rfl

theorem ones_pos (r c : ℕ) : GD (fun x _ _ => Pos x) (⟨r, c, fun _ _ => some 1⟩ : Arr2 (Option ℝ)) ⟨r, c, fun _ _ => some 1⟩
    ⟨r, c, fun _ _ => some 1⟩ := ⟨⟨rfl, rfl, rfl, rfl⟩, fun _ _ _ _ => pos_some zero_le_one⟩

theorem dg_mask : Keeps (fun s => DgInv s ∧ MaskInv s) Dg.getMaskInBound := by
  intro s hs
  unfold Dg.getMaskInBound
  rw [Meth.bind_apply, Meth.self_apply]
  simp only
  cases s.box with
  | none => exact hs
  | some b =>
    cases s.polar with
    | none => exact hs
    | some p =>
      have h := mask_keeps (I := DgInv) (fun s a h => h) (dg_remap pos_closed (ones_pos b.x2d.rows b.x2d.cols) none
        (by simp) hs.1) hs.1
      exact ⟨h.1, h.2 hs.2⟩

theorem mc_mask : Keeps (fun s => McInv s ∧ MaskInv s) Mc.getMaskInBound := by
  intro s hs
  unfold Mc.getMaskInBound
  rw [Meth.bind_apply, Meth.self_apply]
  simp only
  cases s.box with
  | none => exact hs
  | some b =>
    cases s.polar with
    | none => exact hs
    | some p =>
      have h := mask_keeps (I := McInv) (fun s a h => h) (mc_remap pos_closed (ones_pos b.x2d.rows b.x2d.cols) none
        (by simp) hs.1) hs.1
      exact ⟨h.1, h.2 hs.2⟩

theorem dg_call' (c : Call Dg.Setup) (s : Dg.State) (hs : DgInv s ∧ MaskInv s) :
    DgInv (Dg.cls.call c s).2 ∧ MaskInv (Dg.cls.call c s).2 := by
  cases c with
  | setup c =>
    refine ⟨dg_call _ s hs.1, ?_⟩
    cases c with
    | box B => exact setupBox_keeps (I := MaskInv) (fun s b h => h) B s hs.2
    | polar A mr mp =>
      have : Keeps MaskInv (Dg.setupPolar A mr mp) := by
        unfold Dg.setupPolar
        dsimp only
        refine (Keeps.lift _).bind fun _ => (Keeps.lift _).bind fun _ => Keeps.bind (Keeps.assign ?_) fun _ =>
          (Keeps.lift _).bind fun _ => Keeps.bind (Keeps.assign ?_) fun _ =>
          (Keeps.lift _).bind fun _ => Keeps.bind (Keeps.assign ?_) fun _ => Keeps.assign ?_
        all_goals exact fun s hs => hs
      exact this s hs.2
  | remap f w =>
    refine ⟨dg_call _ s hs.1, ?_⟩
    exact Keeps.same (fun s => (Linear.dg_remap (refl_RA f) w s).2.1) s hs.2
  | rotate f => exact ⟨dg_call _ s hs.1, rotate_keeps (I := MaskInv) f s hs.2⟩
  | getMask => exact dg_mask s hs
  | radial f sigma w =>
    exact radial_keeps (I := fun s => DgInv s ∧ MaskInv s) (fun s a h => h) (fun s a h => h) dg_mask f sigma w s hs
  | clean =>
    exact ⟨dg_call .clean s hs.1, fun d hd => absurd hd (by simp [Cls.call, clean, Box2Ring.init, Meth.assign])⟩

theorem mc_call' (c : Call Mc.Setup) (s : Mc.State) (hs : McInv s ∧ MaskInv s) :
    McInv (Mc.cls.call c s).2 ∧ MaskInv (Mc.cls.call c s).2 := by
  cases c with
  | setup c =>
    refine ⟨mc_call _ s hs.1, ?_⟩
    cases c with
    | box B => exact setupBox_keeps (I := MaskInv) (fun s b h => h) B s hs.2
    | lin A =>
      have : Keeps MaskInv (Mc.setupPolarLin A) := by
        unfold Mc.setupPolarLin
        dsimp only
        refine (Keeps.lift _).bind fun _ => (Keeps.lift _).bind fun _ => Keeps.bind (Keeps.assign ?_) fun _ =>
          (Keeps.lift _).bind fun _ => Keeps.bind (Keeps.assign ?_) fun _ =>
          (Keeps.lift _).bind fun _ => Keeps.bind (Keeps.assign ?_) fun _ => Keeps.assign ?_
        all_goals exact fun s hs => hs
      exact this s hs.2
    | log A z =>
      have : Keeps MaskInv (Mc.setupPolarLog A z) := by
        unfold Mc.setupPolarLog
        dsimp only
        refine (Keeps.lift _).bind fun _ => (Keeps.lift _).bind fun _ => Keeps.bind (Keeps.assign ?_) fun _ =>
          Keeps.bind (Keeps.assign ?_) fun _ =>
          (Keeps.lift _).bind fun _ => Keeps.bind (Keeps.assign ?_) fun _ => Keeps.assign ?_
        all_goals exact fun s hs => hs
      exact this s hs.2
    | weights n draws =>
      have : Keeps MaskInv (Mc.getWeights n draws) := by
        unfold Mc.getWeights
        dsimp only
        refine (Keeps.lift _).bind fun _ => Keeps.self.bind fun s => (Keeps.lift _).bind fun p => (Keeps.lift _).bind fun e =>
          (Keeps.lift _).bind fun b => (Keeps.lift _).bind fun hx => (Keeps.lift _).bind fun hy => (Keeps.lift _).bind fun _ =>
          (Keeps.lift _).bind fun o => Keeps.assign ?_
        exact fun s hs => hs
      exact this s hs.2
  | remap f w =>
    refine ⟨mc_call _ s hs.1, ?_⟩
    exact Keeps.same (fun s => (Linear.mc_remap (refl_RA f) w s).2.1) s hs.2
  | rotate f => exact ⟨mc_call _ s hs.1, rotate_keeps (I := MaskInv) f s hs.2⟩
  | getMask => exact mc_mask s hs
  | radial f sigma w =>
    exact radial_keeps (I := fun s => McInv s ∧ MaskInv s) (fun s a h => h) (fun s a h => h) mc_mask f sigma w s hs
  | clean =>
    exact ⟨mc_call .clean s hs.1, fun d hd => absurd hd (by simp [Cls.call, clean, Box2Ring.init, Meth.assign])⟩

theorem dg_run' (cs : List (Call Dg.Setup)) : DgInv (Dg.cls.run cs Box2Ring.init).2 ∧ MaskInv (Dg.cls.run cs Box2Ring.init).2 :=
  run_inv (I := fun s => DgInv s ∧ MaskInv s) _ dg_call' cs
    ⟨fun d hd => absurd hd (by simp [Box2Ring.init]), fun d hd => absurd hd (by simp [Box2Ring.init])⟩

theorem mc_run' (cs : List (Call Mc.Setup)) : McInv (Mc.cls.run cs Box2Ring.init).2 ∧ MaskInv (Mc.cls.run cs Box2Ring.init).2 :=
  run_inv (I := fun s => McInv s ∧ MaskInv s) _ mc_call' cs
    ⟨fun d hd => absurd hd (by simp [Box2Ring.init]), fun d hd => absurd hd (by simp [Box2Ring.init])⟩

theorem F3.zipDiv (hR : Closed R) {f g h : List (Option ℝ)} (H : F3 R f g h) (w : List (Option ℝ)) (hw : ∀ c ∈ w, Pos c) :
    F3 R (List.zipWith odiv f w) (List.zipWith odiv g w) (List.zipWith odiv h w) := by
  induction H generalizing w with
  | nil => exact .nil
  | cons hx _ ih =>
    cases w with
    | nil => exact .nil
    | cons c w => exact .cons (hR.div _ _ _ hx c (hw c (by simp))) (ih w fun c hc => hw c (by simp [hc]))

theorem sum0_rel (hR : Closed R) {f g h : Arr2 (Option ℝ)} (H : GD R f g h) : F3 R f.sum0 g.sum0 h.sum0 := by
  obtain ⟨⟨e1, e2, e3, e4⟩, hv⟩ := H
  unfold Arr2.sum0
  rw [e1, e2, e3, e4]
  exact F3.map_mem _ fun j hj => hR.sum _ _ _ (F3.map_mem _ fun i hi =>
    hv i j (List.mem_range.mp hi) (List.mem_range.mp hj))

theorem F3.mapDiv (hR : Closed R) {f g h : List (Option ℝ)} (H : F3 R f g h) {c : Option ℝ} (hc : Pos c) :
    F3 R (f.map fun s => odiv s c) (g.map fun s => odiv s c) (h.map fun s => odiv s c) := by
  induction H with
  | nil => exact .nil
  | cons hx _ ih => exact .cons (hR.div _ _ _ hx c hc) ih

theorem F3.fst {α : Type} {P : α → Prop} {l m n : List α} (h : F3 (fun x _ _ => P x) l m n) : ∀ c ∈ l, P c := by
  induction h with
  | nil => simp
  | cons hx _ ih =>
    intro c hc
    rcases List.mem_cons.mp hc with rfl | hc
    · exact hx
    · exact ih c hc

/-- Weights without negative numbers. -/
def WPos (w : Option (Arr2 ℝ)) : Prop := ∀ w', w = some w' → ∀ i j, i < w'.rows → j < w'.cols → 0 ≤ w'.val i j

theorem radial_mean (hR : Closed R) {f g h : Arr2 (Option ℝ)} (H : GD R f g h) (w : Option (Arr2 ℝ)) (hw : WPos w) :
    P3 (F3 R) (Radial.polar2radial f w) (Radial.polar2radial g w) (Radial.polar2radial h w) := by
  unfold Radial.polar2radial
  cases w with
  | none =>
    simp only
    rw [H.1.1, H.1.2.2.1]
    exact .ok (F3.mapDiv hR (sum0_rel hR H) (pos_some (Nat.cast_nonneg _)))
  | some w =>
    have hw := hw w rfl
    refine (H.zip _ _ fun _ _ _ i j hi hj h => hR.mul _ _ _ h _ (hw i j hi hj)).bind fun x y z hx => .ok ?_
    exact F3.zipDiv hR (sum0_rel hR hx) _ (F3.fst (sum0_rel pos_closed (pos_data hw)))

theorem mask_rel (hR : Closed R) {f g h : Arr2 (Option ℝ)} (H : GD R f g h) {mask : Arr2 ℝ} (hm : ∀ i j, 0 ≤ mask.val i j)
    (sigma w : Option (Arr2 ℝ)) (hw : WPos w) :
    P3 (fun p q r => GD R p.1 q.1 r.1 ∧ q.2 = p.2 ∧ r.2 = p.2 ∧ WPos p.2.2.1) (applyMask mask f sigma w)
      (applyMask mask g sigma w) (applyMask mask h sigma w) := by
  unfold applyMask
  simp only
  split_ifs
  · exact .ok ⟨H, rfl, rfl, hw⟩
  · refine (H.zip _ _ fun x y z i j _ _ hx => ?_).bind fun x y z hx => ?_
    · split_ifs
      · exact hR.zero
      · exact hx
    have hnone : WPos (some mask) := fun w' hw' i j _ _ => by
      simp only [Option.some.injEq] at hw'
      exact hw' ▸ hm i j
    have hsome : ∀ w0 w1 : Arr2 ℝ, w = some w0 → w0.zip (· * ·) mask = .ok w1 → WPos (some w1) := by
      intro w0 w1 e h w' hw' i j hi hj
      simp only [Option.some.injEq] at hw'
      subst hw'
      unfold Arr2.zip at h
      split_ifs at h
      simp only [Except.ok.injEq] at h
      subst h
      exact mul_nonneg (hw w0 e i j hi hj) (hm i j)
    cases sigma with
    | none =>
      cases w with
      | none => exact .ok ⟨hx, rfl, rfl, hnone⟩
      | some w =>
        cases hz : w.zip (· * ·) mask with
        | error e => simp only [pure_bind, hz]; exact .error e
        | ok w1 => simp only [pure_bind, hz]; exact .ok ⟨hx, rfl, rfl, hsome w w1 rfl hz⟩
    | some sg =>
      cases hsg : sg.zip (fun x m => if m ≠ 1 then 0 else x) mask with
      | error e => simp only [hsg]; exact .error e
      | ok sg =>
        cases w with
        | none => simp only [hsg]; exact .ok ⟨hx, rfl, rfl, hnone⟩
        | some w =>
          cases hz : w.zip (· * ·) mask with
          | error e => simp only [hsg, hz]; exact .error e
          | ok w1 => simp only [hsg, hz]; exact .ok ⟨hx, rfl, rfl, hsome w w1 rfl hz⟩

theorem radialOf_rel (hR : Closed R) {f g h : Arr2 (Option ℝ)} (H : GD R f g h) (p : Polar) (area : Arr2 ℝ) (pix : ℝ)
    {mask : Arr2 ℝ} (hm : ∀ i j, 0 ≤ mask.val i j) (sigma w : Option (Arr2 ℝ)) (hw : WPos w) :
    P3 (fun x y z => F3 R x.f y.f z.f ∧ y.sigma = x.sigma ∧ y.callerW = x.callerW)
      (radialOf p area pix mask f sigma w) (radialOf p area pix mask g sigma w) (radialOf p area pix mask h sigma w) := by
  unfold radialOf
  refine (mask_rel hR H hm sigma w hw).bind fun x y z hx => ?_
  obtain ⟨x, sg, ww, cw⟩ := x
  obtain ⟨y, y2⟩ := y
  obtain ⟨z, z2⟩ := z
  obtain ⟨hx, rfl, rfl, hww⟩ := hx
  simp only at hx hww ⊢
  have hmean := radial_mean hR hx ww hww
  cases sg with
  | none => exact hmean.bind fun u v t hu => .ok ⟨hu, rfl, rfl⟩
  | some sg =>
    simp only
    refine (P3.same _).bind fun _ _ _ _ => hmean.bind fun u v t hu => ?_
    have e1 : polar2radialSigma y area pix sg ww = polar2radialSigma x area pix sg ww := by
      unfold polar2radialSigma; rw [hx.1.1]
    have e2 : polar2radialSigma z area pix sg ww = polar2radialSigma x area pix sg ww := by
      unfold polar2radialSigma; rw [hx.1.2.2.1]
    rw [e1, e2]
    refine (P3.same _).bind fun a b c ha => ?_
    obtain ⟨rfl, rfl⟩ := ha
    exact .ok ⟨hu, rfl, rfl⟩

/-- Runs with a common first part. -/
theorem common {S α β : Type} {I : S → Prop} {Q : β → β → β → Prop} {m : Meth S α} {k1 k2 k3 : α → Meth S β} {s : S}
    (hm : Keeps I m) (hs : I s) (hk : ∀ a t, I t → P3 Q (k1 a t).1 (k2 a t).1 (k3 a t).1) :
    P3 Q ((m >>= k1) s).1 ((m >>= k2) s).1 ((m >>= k3) s).1 := by
  have h := hm s hs
  simp only [Meth.bind_apply]
  generalize m s = q at *
  obtain ⟨q, t⟩ := q
  cases q with
  | error e => exact .error e
  | ok a => exact hk a t h

theorem common_self {S β : Type} {I : S → Prop} {Q : β → β → β → Prop} {k1 k2 k3 : S → Meth S β} {s : S}
    (hs : I s) (hk : P3 Q (k1 s s).1 (k2 s s).1 (k3 s s).1) :
    P3 Q ((Meth.self >>= k1) s).1 ((Meth.self >>= k2) s).1 ((Meth.self >>= k3) s).1 := hk

theorem storeArea_keeps {X : Type} {I : Box2Ring.State X → Prop} (h1 : ∀ s a, I s → I { s with area2d := a }) :
    Keeps I storeArea := by
  unfold storeArea
  refine Keeps.self.bind fun s => ?_
  split
  · exact Keeps.pure _
  · exact (Keeps.lift _).bind fun _ => (Keeps.lift _).bind fun _ => Keeps.assign fun s hs => h1 _ _ hs

theorem storePix_keeps {X : Type} {I : Box2Ring.State X → Prop} (h1 : ∀ s a, I s → I { s with pixarea := a }) :
    Keeps I storePix := by
  unfold storePix
  refine Keeps.self.bind fun s => ?_
  split
  · exact Keeps.pure _
  · exact (Keeps.lift _).bind fun _ => (Keeps.lift _).bind fun _ => Keeps.assign fun s hs => h1 _ _ hs

theorem storeMask_keeps {X : Type} {I : Box2Ring.State X → Prop} {gm : Meth (Box2Ring.State X) Unit} (hg : Keeps I gm) :
    Keeps I (storeMask gm) := by
  unfold storeMask
  refine Keeps.self.bind fun s => ?_
  split
  · exact Keeps.pure _
  · exact hg

theorem radial_rel {X : Type} {I : Box2Ring.State X → Prop} (hR : Closed R) (h1 : ∀ s a, I s → I { s with area2d := a })
    (h2 : ∀ s a, I s → I { s with pixarea := a }) (h3 : ∀ s, I s → MaskInv s) {gm : Meth (Box2Ring.State X) Unit}
    (hg : Keeps I gm) {f g h : Arr2 (Option ℝ)} (H : GD R f g h) (sigma w : Option (Arr2 ℝ)) (hw : WPos w)
    {s : Box2Ring.State X} (hs : I s) :
    P3 (fun x y z => F3 R x.f y.f z.f ∧ y.sigma = x.sigma ∧ y.callerW = x.callerW)
      (Box2Ring.polar2radial gm f sigma w s).1 (Box2Ring.polar2radial gm g sigma w s).1
      (Box2Ring.polar2radial gm h sigma w s).1 := by
  unfold Box2Ring.polar2radial
  refine common (storeArea_keeps h1) hs fun _ s hs => common (storePix_keeps h2) hs fun _ s hs => common_self hs ?_
  cases s.polar with
  | none => exact .error _
  | some p =>
    simp only
    have hsh : (pyAssert (g.sameShape p.p2d) = pyAssert (f.sameShape p.p2d)) ∧
        pyAssert (h.sameShape p.p2d) = pyAssert (f.sameShape p.p2d) := by
      obtain ⟨⟨e1, e2, e3, e4⟩, -⟩ := H
      unfold pyAssert Arr2.sameShape
      simp only [e1, e2, e3, e4, and_self]
    rw [hsh.1, hsh.2]
    refine common (Keeps.lift _) hs fun _ s hs => common (storeMask_keeps hg) hs fun _ s hs => common_self hs ?_
    have hm := h3 s hs
    cases hmk : need s.maskInBound with
    | error e => exact .error e
    | ok mask =>
      exact common (m := Meth.lift (need s.area2d)) (Keeps.lift _) hs fun area t ht =>
        common (m := Meth.lift (need s.pixarea)) (Keeps.lift _) ht fun pix t ht =>
          radialOf_rel hR H p area pix (hm mask (need_ok hmk)) sigma w hw

/-! ## The statements of the specification -/

theorem belowCalls {x y z : Py (Arr2 (Option ℝ))} (h : P3 (GD fun x y _ => Below x y) x y z) : BelowCalls x y := by
  cases h with
  | ok h => exact ⟨⟨h.1.1, h.1.2.1⟩, h.2⟩
  | error e => exact rfl

theorem belowCalls' {x y z : Py (Arr2 (Option ℝ))} (h : P3 (GA fun x y _ => Below x y) x y z) : BelowCalls x y :=
  belowCalls (h.imp fun _ _ _ h => ⟨h.1, fun i j _ _ => h.2 i j⟩)

theorem below_data {f g : Arr2 (Option ℝ)} (h : BelowArr f g) : GD (fun x y _ => Below x y) f g g :=
  ⟨⟨h.1.1, h.1.2, h.1.1, h.1.2⟩, h.2⟩

theorem below_list {f g : List (Option ℝ)} (h : List.Forall₂ Below f g) : F3 (fun x y _ => Below x y) f g g := by
  induction h with
  | nil => exact .nil
  | cons hx _ ih => exact .cons hx ih

theorem F3.two {P : Option ℝ → Option ℝ → Prop} {l m n : List (Option ℝ)} (h : F3 (fun x y _ => P x y) l m n) :
    List.Forall₂ P l m := by
  induction h with
  | nil => exact .nil
  | cons hx _ ih => exact .cons hx ih

theorem belowProfiles {x y z : Py Box2Ring.Radial}
    (h : P3 (fun x y z => F3 (fun x y _ => Below x y) x.f y.f z.f ∧ y.sigma = x.sigma ∧ y.callerW = x.callerW) x y z) :
    BelowProfiles x y := by
  cases h with
  | ok h => exact ⟨F3.two h.1, h.2⟩
  | error e => exact rfl

end Magpie.Mono
