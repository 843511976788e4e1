import Verif.Spec.Linear
import Verif.Model.DgBox2Ring
import Verif.Model.McBox2Ring
import Verif.Model.McCube2Shell
import Verif.Model.Heal2Ortho
import Verif.Proof.DgCube2Shell

/-!
# The remapping methods are linear
-/

set_option linter.unusedSimpArgs false
set_option linter.unusedVariables false
set_option linter.unusedSectionVars false

namespace Magpie.Linear
open Magpie Magpie.Spec Magpie.Radial Magpie.OneD Magpie.Box2Ring Magpie.Coords

section
variable {α β : Type}

/-- Three calls that raise the same exception or return related values. -/
inductive P3 (R : α → α → α → Prop) : Py α → Py α → Py α → Prop
  | ok {a b c} : R a b c → P3 R (.ok a) (.ok b) (.ok c)
  | error (e) : P3 R (.error e) (.error e) (.error e)

theorem P3.bind {R : α → α → α → Prop} {R' : β → β → β → Prop} {x y z : Py α} {k1 k2 k3 : α → Py β} (h : P3 R x y z)
    (hk : ∀ a b c, R a b c → P3 R' (k1 a) (k2 b) (k3 c)) : P3 R' (x >>= k1) (y >>= k2) (z >>= k3) := by
  cases h with
  | ok h => exact hk _ _ _ h
  | error e => exact .error e

theorem P3.imp {R R' : α → α → α → Prop} {x y z : Py α} (h : P3 R x y z) (hR : ∀ a b c, R a b c → R' a b c) :
    P3 R' x y z := by
  cases h with
  | ok h => exact .ok (hR _ _ _ h)
  | error e => exact .error e

theorem P3.same (x : Py α) : P3 (fun a b c => b = a ∧ c = a) x x x := by
  cases x with
  | ok a => exact .ok ⟨rfl, rfl⟩
  | error e => exact .error e

/-- Lists related entry by entry. -/
inductive F3 (R : α → α → α → Prop) : List α → List α → List α → Prop
  | nil : F3 R [] [] []
  | cons {a b c l m n} : R a b c → F3 R l m n → F3 R (a :: l) (b :: m) (c :: n)

theorem F3.getD {R : α → α → α → Prop} {d : α} (hd : R d d d) {l m n : List α} (h : F3 R l m n) (i : ℕ) :
    R (l.getD i d) (m.getD i d) (n.getD i d) := by
  induction h generalizing i with
  | nil => simpa using hd
  | cons h _ ih =>
    cases i with
    | zero => simpa using h
    | succ i => simpa using ih i

theorem F3.map {γ : Type} {R : α → α → α → Prop} {f g h : γ → α} (l : List γ) (hl : ∀ a, R (f a) (g a) (h a)) :
    F3 R (l.map f) (l.map g) (l.map h) := by
  induction l with
  | nil => exact .nil
  | cons a l ih => exact .cons (hl a) ih

theorem F3.map_mem {γ : Type} {R : α → α → α → Prop} {f g h : γ → α} (l : List γ) (hl : ∀ a ∈ l, R (f a) (g a) (h a)) :
    F3 R (l.map f) (l.map g) (l.map h) := by
  induction l with
  | nil => exact .nil
  | cons a l ih => exact .cons (hl a (by simp)) (ih fun x hx => hl x (by simp [hx]))

theorem P3.pyMap {γ : Type} {R : α → α → α → Prop} {f g h : γ → Py α} (l : List γ)
    (hl : ∀ a, P3 R (f a) (g a) (h a)) : P3 (F3 R) (OneD.pyMap f l) (OneD.pyMap g l) (OneD.pyMap h l) := by
  induction l with
  | nil => exact .ok .nil
  | cons a l ih =>
    unfold OneD.pyMap
    exact (hl a).bind fun x y z hx => ih.bind fun u v w hu => .ok (.cons hx hu)

/-- Three methods that leave the object alone. -/
def M3 {S : Type} (R : α → α → α → Prop) (x y z : Meth S α) (s : S) : Prop :=
  P3 R (x s).1 (y s).1 (z s).1 ∧ (x s).2 = s ∧ (y s).2 = s ∧ (z s).2 = s

theorem M3.lift {S : Type} {R : α → α → α → Prop} {x y z : Py α} (h : P3 R x y z) (s : S) :
    M3 R (Meth.lift x) (Meth.lift y) (Meth.lift z) s := ⟨h, rfl, rfl, rfl⟩

theorem M3.bind {S : Type} {R : α → α → α → Prop} {R' : β → β → β → Prop} {x y z : Meth S α} {k1 k2 k3 : α → Meth S β}
    {s : S} (h : M3 R x y z s) (hk : ∀ a b c, R a b c → M3 R' (k1 a) (k2 b) (k3 c) s) :
    M3 R' (x >>= k1) (y >>= k2) (z >>= k3) s := by
  obtain ⟨h, e1, e2, e3⟩ := h
  unfold M3
  simp only [Meth.bind_apply]
  generalize hx : x s = p at *
  generalize hy : y s = q at *
  generalize hz : z s = r at *
  obtain ⟨p, sp⟩ := p
  obtain ⟨q, sq⟩ := q
  obtain ⟨r, sr⟩ := r
  simp only at h e1 e2 e3
  subst e1 e2 e3
  cases h with
  | ok h => exact hk _ _ _ h
  | error e => exact ⟨.error e, rfl, rfl, rfl⟩

theorem M3.same {S : Type} {R' : β → β → β → Prop} (x : Py α) {k1 k2 k3 : α → Meth S β} {s : S}
    (hk : ∀ a, M3 R' (k1 a) (k2 a) (k3 a) s) :
    M3 R' (Meth.lift x >>= k1) (Meth.lift x >>= k2) (Meth.lift x >>= k3) s :=
  (M3.lift (P3.same x) s).bind fun a b c h => by obtain ⟨rfl, rfl⟩ := h; exact hk _

theorem M3.same_ok {S : Type} {R' : β → β → β → Prop} (x : Py α) {k1 k2 k3 : α → Meth S β} {s : S}
    (hk : ∀ a, x = .ok a → M3 R' (k1 a) (k2 a) (k3 a) s) :
    M3 R' (Meth.lift x >>= k1) (Meth.lift x >>= k2) (Meth.lift x >>= k3) s := by
  cases x with
  | ok a => exact hk a rfl
  | error e => exact ⟨.error e, rfl, rfl, rfl⟩

theorem M3.self {S : Type} {R' : β → β → β → Prop} {k1 k2 k3 : S → Meth S β} {s : S}
    (hk : M3 R' (k1 s) (k2 s) (k3 s) s) :
    M3 R' (Meth.self >>= k1) (Meth.self >>= k2) (Meth.self >>= k3) s := hk

end

variable (a b : ℝ)

/-- `z = a*x + b*y`. -/
def RO (x y z : Option ℝ) : Prop := z = lin a b x y

variable {a b}

theorem lin_none (x : Option ℝ) : lin a b x none = none := by cases x <;> rfl

theorem RO.zero : RO a b (some 0) (some 0) (some 0) := by simp [RO, lin]
theorem RO.none : RO a b none none none := rfl

theorem RO.omul {x y z : Option ℝ} (h : RO a b x y z) (c : ℝ) : RO a b (omul x c) (omul y c) (omul z c) := by
  unfold RO at *
  subst h
  cases x <;> cases y <;> simp [lin, OneD.omul]
  ring

theorem RO.odiv {x y z : Option ℝ} (h : RO a b x y z) (c : Option ℝ) : RO a b (odiv x c) (odiv y c) (odiv z c) := by
  unfold RO at *
  subst h
  cases c with
  | none => cases x <;> cases y <;> simp [lin, OneD.odiv]
  | some c =>
    by_cases hc : c = 0
    · cases x <;> cases y <;> simp [lin, OneD.odiv, fdiv, hc]
    · cases x <;> cases y <;> simp [lin, OneD.odiv, fdiv, hc]
      ring

theorem npSum_cons (x : Option ℝ) (l : List (Option ℝ)) :
    npSum (x :: l) = x.bind fun u => (npSum l).map (u + ·) := by
  unfold npSum
  cases x with
  | none => simp [List.mapM_cons]
  | some u =>
    simp only [List.mapM_cons, id_eq, Option.bind_eq_bind, Option.bind_some]
    cases h : List.mapM id l <;> simp

theorem RO.npSum {l m n : List (Option ℝ)} (h : F3 (RO a b) l m n) : RO a b (npSum l) (npSum m) (npSum n) := by
  induction h with
  | nil => simp [RO, OneD.npSum, lin]
  | @cons x y z l m n hx _ ih =>
    rw [npSum_cons, npSum_cons, npSum_cons]
    unfold RO at *
    rw [hx, ih]
    generalize OneD.npSum l = u
    generalize OneD.npSum m = v
    cases x <;> cases y <;> cases u <;> cases v <;> simp [lin]
    ring

/-- Arrays of one shape with `c = a*x + b*y` everywhere. -/
def RA (x y z : Arr2 (Option ℝ)) : Prop :=
  (y.rows = x.rows ∧ y.cols = x.cols ∧ z.rows = x.rows ∧ z.cols = x.cols) ∧
    ∀ i j, RO a b (x.val i j) (y.val i j) (z.val i j)

theorem RA.combine {f g : Arr2 (Option ℝ)} (hr : g.rows = f.rows) (hc : g.cols = f.cols) :
    RA (a := a) (b := b) f g (combine a b f g) := ⟨⟨hr, hc, rfl, rfl⟩, fun _ _ => rfl⟩

theorem RA.get {f g h : Arr2 (Option ℝ)} (H : RA (a := a) (b := b) f g h) (i j : ℕ) :
    P3 (RO a b) (f.get i j) (g.get i j) (h.get i j) := by
  obtain ⟨⟨e1, e2, e3, e4⟩, hv⟩ := H
  unfold Arr2.get
  rw [e1, e2, e3, e4]
  split_ifs
  · exact .ok (hv i j)
  · exact .error _

theorem RA.zip {γ : Type} {f g h : Arr2 (Option ℝ)} (H : RA (a := a) (b := b) f g h) (op : Option ℝ → γ → Option ℝ)
    (hop : ∀ x y z c, RO a b x y z → RO a b (op x c) (op y c) (op z c)) (w : Arr2 γ) :
    P3 (RA (a := a) (b := b)) (f.zip op w) (g.zip op w) (h.zip op w) := by
  obtain ⟨⟨e1, e2, e3, e4⟩, hv⟩ := H
  unfold Arr2.zip
  rw [e1, e2, e3, e4]
  split_ifs
  · exact .ok ⟨⟨rfl, rfl, rfl, rfl⟩, fun i j => hop _ _ _ _ (hv i j)⟩
  · exact .error _

theorem RA.reshape3 {f g h : Arr2 (Option ℝ)} (H : RA (a := a) (b := b) f g h) (n1 n2 n3 : ℕ) :
    P3 (fun x y z => ∀ i j k, RO a b (x i j k) (y i j k) (z i j k)) (f.reshape3 n1 n2 n3) (g.reshape3 n1 n2 n3)
      (h.reshape3 n1 n2 n3) := by
  obtain ⟨⟨e1, e2, e3, e4⟩, hv⟩ := H
  unfold Arr2.reshape3
  rw [e1, e2, e3, e4]
  split_ifs
  · exact .ok fun i j k => hv _ _
  · exact .error _

theorem P3.tabulate' {R : Option ℝ → Option ℝ → Option ℝ → Prop} (h0 : R none none none) {rows cols : ℕ}
    {f g h : ℕ → ℕ → Py (Option ℝ)} (H : ∀ i j, P3 R (f i j) (g i j) (h i j)) :
    P3 (fun x y z => (y.rows = x.rows ∧ y.cols = x.cols ∧ z.rows = x.rows ∧ z.cols = x.cols) ∧
      ∀ i j, R (x.val i j) (y.val i j) (z.val i j)) (Box2Ring.tabulate rows cols f none)
      (Box2Ring.tabulate rows cols g none) (Box2Ring.tabulate rows cols h none) := by
  unfold Box2Ring.tabulate
  refine (P3.pyMap _ fun i => P3.pyMap _ fun j => H i j).bind fun x y z hx => .ok ⟨⟨rfl, rfl, rfl, rfl⟩, fun i j => ?_⟩
  exact F3.getD h0 (F3.getD (d := []) .nil hx i) j

theorem P3.tabulate {rows cols : ℕ} {f g h : ℕ → ℕ → Py (Option ℝ)} (H : ∀ i j, P3 (RO a b) (f i j) (g i j) (h i j)) :
    P3 (RA (a := a) (b := b)) (Box2Ring.tabulate rows cols f none) (Box2Ring.tabulate rows cols g none)
      (Box2Ring.tabulate rows cols h none) :=
  P3.tabulate' RO.none H

theorem RA.downgrade {f g h : Arr2 (Option ℝ)} (H : RA (a := a) (b := b) f g h) (np nr rr rp cols : ℕ) :
    P3 (RA (a := a) (b := b)) (Dg.downgrade f np nr rr rp cols) (Dg.downgrade g np nr rr rp cols)
      (Dg.downgrade h np nr rr rp cols) := by
  unfold Dg.downgrade
  refine (H.reshape3 np rr cols).bind fun x y z hx => ?_
  have H2 : RA (a := a) (b := b) (⟨np, cols, fun i c => npSum ((List.range rr).map fun k => x i k c)⟩ : Arr2 (Option ℝ))
      (⟨np, cols, fun i c => npSum ((List.range rr).map fun k => y i k c)⟩ : Arr2 (Option ℝ))
      (⟨np, cols, fun i c => npSum ((List.range rr).map fun k => z i k c)⟩ : Arr2 (Option ℝ)) :=
    ⟨⟨rfl, rfl, rfl, rfl⟩, fun i c => RO.npSum (F3.map _ fun k => hx i k c)⟩
  refine (H2.reshape3 np nr rp).bind fun x y z hx => .ok ⟨⟨rfl, rfl, rfl, rfl⟩, fun i j => ?_⟩
  exact (RO.npSum (F3.map _ fun k => hx i j k)).odiv _

theorem RA.downsum {f g h : Arr2 (Option ℝ)} (H : RA (a := a) (b := b) f g h) (np nr rr rp cols : ℕ) :
    P3 (RA (a := a) (b := b)) (Ortho.downsum f np nr rr rp cols) (Ortho.downsum g np nr rr rp cols)
      (Ortho.downsum h np nr rr rp cols) := by
  unfold Ortho.downsum
  refine (H.reshape3 np rr cols).bind fun x y z hx => ?_
  have H2 : RA (a := a) (b := b) (⟨np, cols, fun i c => npSum ((List.range rr).map fun k => x i k c)⟩ : Arr2 (Option ℝ))
      (⟨np, cols, fun i c => npSum ((List.range rr).map fun k => y i k c)⟩ : Arr2 (Option ℝ))
      (⟨np, cols, fun i c => npSum ((List.range rr).map fun k => z i k c)⟩ : Arr2 (Option ℝ)) :=
    ⟨⟨rfl, rfl, rfl, rfl⟩, fun i c => RO.npSum (F3.map _ fun k => hx i k c)⟩
  refine (H2.reshape3 np nr rp).bind fun x y z hx => .ok ⟨⟨rfl, rfl, rfl, rfl⟩, fun i j => ?_⟩
  exact RO.npSum (F3.map _ fun k => hx i j k)

/-! ## Dense grid Box2Ring -/

theorem dg_remap1 {f g h : Arr2 (Option ℝ)} (H : RA (a := a) (b := b) f g h) (s : Dg.State) :
    M3 (RA (a := a) (b := b)) (Dg.remap1 f) (Dg.remap1 g) (Dg.remap1 h) s := by
  unfold Dg.remap1
  refine M3.self (M3.same _ fun d => M3.same _ fun p => M3.same _ fun bx => ?_)
  refine (M3.lift (P3.tabulate (a := a) (b := b) fun i j => ?_) s).bind fun x y z hx => ?_
  · unfold Dg.highres
    simp only
    split
    · exact H.get _ _
    · exact .ok RO.zero
  refine (M3.lift (hx.zip _ (fun _ _ _ c h => h.omul c) _) s).bind fun x y z hx => ?_
  refine (M3.lift (hx.downgrade _ _ _ _ _) s).bind fun x y z hx => ?_
  refine M3.same _ fun wp => ?_
  exact M3.lift (hx.zip _ (fun _ _ _ c h => h.odiv c) _) s

theorem dg_remap {f g h : Arr2 (Option ℝ)} (H : RA (a := a) (b := b) f g h) (w : Option (Arr2 ℝ)) (s : Dg.State) :
    M3 (RA (a := a) (b := b)) (Dg.remap f w) (Dg.remap g w) (Dg.remap h w) s := by
  unfold Dg.remap
  cases w with
  | none => exact dg_remap1 H s
  | some w =>
    refine (M3.lift (H.zip _ (fun _ _ _ c h => h.omul c) w) s).bind fun x y z hx => ?_
    refine (dg_remap1 hx s).bind fun x y z hx => ?_
    have hw := dg_remap1 (a := 1) (b := 0) (f := ⟨w.rows, w.cols, fun i j => some (w.val i j)⟩)
      (g := ⟨w.rows, w.cols, fun i j => some (w.val i j)⟩) (h := ⟨w.rows, w.cols, fun i j => some (w.val i j)⟩)
      ⟨⟨rfl, rfl, rfl, rfl⟩, fun i j => by simp [RO, lin]⟩ s
    have hw' : M3 (fun x y z => y = x ∧ z = x) (Dg.remap1 ⟨w.rows, w.cols, fun i j => some (w.val i j)⟩)
        (Dg.remap1 ⟨w.rows, w.cols, fun i j => some (w.val i j)⟩)
        (Dg.remap1 ⟨w.rows, w.cols, fun i j => some (w.val i j)⟩) s := ⟨P3.same _, hw.2⟩
    refine hw'.bind fun u v t hu => ?_
    obtain ⟨rfl, rfl⟩ := hu
    exact M3.lift (hx.zip _ (fun _ _ _ c h => h.odiv c) _) s

/-! ## Heal2Ortho -/

theorem P3.gather {f g h : List (Option ℝ)} (H : F3 (RO a b) f g h) (idx : List ℕ) :
    P3 (F3 (RO a b)) (gather f idx) (gather g idx) (gather h idx) := by
  have key : ∀ {f g h : List (Option ℝ)}, F3 (RO a b) f g h → ∀ n : ℕ, (f[n]? = none ∧ g[n]? = none ∧ h[n]? = none) ∨
      ∃ x y z, f[n]? = some x ∧ g[n]? = some y ∧ h[n]? = some z ∧ RO a b x y z := by
    intro f g h H
    induction H with
    | nil => intro n; left; simp
    | cons hx _ ih =>
      intro n
      cases n with
      | zero => right; exact ⟨_, _, _, by simp, by simp, by simp, hx⟩
      | succ n => simpa using ih n
  induction idx with
  | nil => exact .ok .nil
  | cons n ns ih =>
    unfold Magpie.gather
    rcases key H n with ⟨e1, e2, e3⟩ | ⟨x, y, z, e1, e2, e3, hx⟩
    · rw [e1, e2, e3]; exact .error _
    · rw [e1, e2, e3]
      simp only
      generalize Magpie.gather f ns = p at *
      generalize Magpie.gather g ns = q at *
      generalize Magpie.gather h ns = r at *
      cases ih with
      | ok hu => exact .ok (.cons hx hu)
      | error e => exact .error e

theorem P3.put {l m n : List (Option ℝ)} (H : F3 (RO a b) l m n) (is js : List ℕ) {f g h : Arr2 (Option ℝ)}
    (HA : RA (a := a) (b := b) f g h) :
    P3 (RA (a := a) (b := b)) (Ortho.put f is js l) (Ortho.put g is js m) (Ortho.put h is js n) := by
  induction H generalizing is js f g h with
  | nil =>
    cases is <;> cases js <;> simp only [Ortho.put]
    · exact .ok HA
    all_goals exact .error _
  | cons hx _ ih =>
    cases is <;> cases js <;> simp only [Ortho.put]
    · exact .error _
    · exact .error _
    · exact .error _
    · obtain ⟨⟨e1, e2, e3, e4⟩, hv⟩ := HA
      rw [e1, e2, e3, e4]
      split_ifs
      · refine ih _ _ ⟨⟨rfl, rfl, rfl, rfl⟩, fun i j => ?_⟩
        simp only
        split_ifs
        · exact hx
        · exact hv i j
      · exact .error _

theorem ortho_remap1 {f g h : List (Option ℝ)} (H : F3 (RO a b) f g h) (s : Ortho.State) :
    M3 (RA (a := a) (b := b)) (Ortho.remap1 f) (Ortho.remap1 g) (Ortho.remap1 h) s := by
  unfold Ortho.remap1
  refine M3.self (M3.same _ fun d => M3.same _ fun p => ?_)
  refine (M3.lift (P3.gather H p) s).bind fun x y z hx => ?_
  refine (M3.lift (P3.put hx _ _ ⟨⟨rfl, rfl, rfl, rfl⟩, fun _ _ => RO.zero⟩) s).bind fun x y z hx => ?_
  refine (M3.lift (hx.zip _ (fun _ _ _ c h => h.omul c) _) s).bind fun x y z hx => ?_
  refine M3.same _ fun _ => ?_
  refine (M3.lift (hx.downsum _ _ _ _ _) s).bind fun x y z hx => ?_
  refine M3.same _ fun wp => ?_
  refine (M3.lift (hx.zip _ (fun _ _ _ c h => ?_) _) s).bind fun x y z hx => ?_
  · unfold Ortho.divNonzero
    split_ifs
    · exact h.odiv c
    · exact h
  · refine M3.lift (hx.zip _ (fun _ _ _ c h => ?_) _) s
    unfold Ortho.omul2
    cases c with
    | none => rfl
    | some c => exact h.omul c

theorem F3.zipWith_omul {f g h : List (Option ℝ)} (H : F3 (RO a b) f g h) (w : List ℝ) :
    F3 (RO a b) (List.zipWith OneD.omul f w) (List.zipWith OneD.omul g w) (List.zipWith OneD.omul h w) := by
  induction H generalizing w with
  | nil => exact .nil
  | cons hx _ ih =>
    cases w with
    | nil => exact .nil
    | cons c w => exact .cons (hx.omul c) (ih w)

theorem F3.zipWith_omul' {f g h : List (Option ℝ)} (H : F3 (RO a b) f g h) (w : List ℝ) :
    F3 (RO a b) (List.zipWith (fun w f => OneD.omul f w) w f) (List.zipWith (fun w f => OneD.omul f w) w g)
      (List.zipWith (fun w f => OneD.omul f w) w h) := by
  induction H generalizing w with
  | nil => cases w <;> exact .nil
  | cons hx _ ih =>
    cases w with
    | nil => exact .nil
    | cons c w => exact .cons (hx.omul c) (ih w)

theorem F3.length {α : Type} {R : α → α → α → Prop} {l m n : List α} (h : F3 R l m n) :
    m.length = l.length ∧ n.length = l.length := by
  induction h with
  | nil => exact ⟨rfl, rfl⟩
  | cons _ _ ih => simp [ih.1, ih.2]

theorem ortho_remap {f g h : List (Option ℝ)} (H : F3 (RO a b) f g h) (w : Option (List ℝ)) (s : Ortho.State) :
    M3 (RA (a := a) (b := b)) (Ortho.remap f w) (Ortho.remap g w) (Ortho.remap h w) s := by
  unfold Ortho.remap
  cases w with
  | none => exact ortho_remap1 H s
  | some w =>
    have hz : P3 (F3 (RO a b)) (vzip OneD.omul f w) (vzip OneD.omul g w) (vzip OneD.omul h w) := by
      unfold vzip
      rw [H.length.1, H.length.2]
      split_ifs
      · exact .ok (H.zipWith_omul w)
      · exact .error _
    refine (M3.lift hz s).bind fun x y z hx => ?_
    refine (ortho_remap1 hx s).bind fun x y z hx => ?_
    have hw := ortho_remap1 (a := 1) (b := 0) (f := w.map some) (g := w.map some) (h := w.map some)
      (F3.map _ fun c => by simp [RO, lin]) s
    have hw' : M3 (fun x y z => y = x ∧ z = x) (Ortho.remap1 (w.map some)) (Ortho.remap1 (w.map some))
        (Ortho.remap1 (w.map some)) s := ⟨P3.same _, hw.2⟩
    refine hw'.bind fun u v t hu => ?_
    obtain ⟨rfl, rfl⟩ := hu
    exact M3.lift (hx.zip _ (fun _ _ _ c h => h.odiv c) _) s

/-! ## Monte Carlo Box2Ring -/

theorem mc_remap {f g h : Arr2 (Option ℝ)} (H : RA (a := a) (b := b) f g h) (w : Option (Arr2 ℝ)) (s : Mc.State) :
    M3 (RA (a := a) (b := b)) (Mc.remap f w) (Mc.remap g w) (Mc.remap h w) s := by
  have hshape : ∀ {β : Type} (c : Arr2 β), (g.sameShape c ↔ f.sameShape c) ∧ (h.sameShape c ↔ f.sameShape c) := by
    intro β c
    obtain ⟨⟨e1, e2, e3, e4⟩, -⟩ := H
    unfold Arr2.sameShape
    rw [e1, e2, e3, e4]
    exact ⟨Iff.rfl, Iff.rfl⟩
  have hpix : ∀ st : Mc.Stored, ∀ i j, P3 (RO a b) (Mc.storedPixel st f w i j) (Mc.storedPixel st g w i j)
      (Mc.storedPixel st h w i j) := by
    intro st i j
    unfold Mc.storedPixel
    split_ifs
    swap
    · exact .error _
    have hread : P3 (F3 (RO a b)) (Mc.readHits st.wt.objIdx f (st.wt.hits i j)) (Mc.readHits st.wt.objIdx g (st.wt.hits i j))
        (Mc.readHits st.wt.objIdx h (st.wt.hits i j)) := by
      unfold Mc.readHits
      split_ifs
      · exact .error _
      · exact P3.pyMap _ fun q => H.get _ _
    unfold Mc.remapPixel
    cases w with
    | none =>
      simp only
      split_ifs
      · exact hread.bind fun x y z hx => .ok ((RO.npSum (hx.zipWith_omul' _)).odiv _)
      · exact .ok RO.none
    | some w =>
      simp only
      split_ifs
      · refine (P3.same _).bind fun u v t hu => ?_
        obtain ⟨rfl, rfl⟩ := hu
        exact hread.bind fun x y z hx => .ok ((RO.npSum (hx.zipWith_omul _)).odiv _)
      · exact .ok RO.none
  unfold Mc.remap
  refine M3.self ?_
  cases hb : s.box with
  | none => exact M3.lift (.error _) s
  | some bx =>
    simp only
    have ha : ∀ (β : Type) (c : Arr2 β), (pyAssert (g.sameShape c) = pyAssert (f.sameShape c)) ∧
        pyAssert (h.sameShape c) = pyAssert (f.sameShape c) := by
      intro β c
      unfold pyAssert
      simp only [(hshape c).1, (hshape c).2, and_self]
    rw [(ha _ bx.x2d).1, (ha _ bx.x2d).2]
    refine M3.same _ fun _ => ?_
    cases w with
    | none =>
      simp only
      exact M3.same _ fun p => M3.same _ fun st => M3.lift (P3.tabulate (hpix st)) s
    | some w =>
      simp only
      exact M3.same _ fun _ => M3.same _ fun p => M3.same _ fun st => M3.lift (P3.tabulate (hpix st)) s

/-! ## Monte Carlo Cube2Shell -/

/-- `z = a*x + b*y`, or all three are the marker of a missing value. -/
def RU (a b : ℝ) (x y z : Option ℝ) : Prop :=
  RO a b x y z ∨ (x = some Cube.unseen ∧ y = some Cube.unseen ∧ z = some Cube.unseen)

theorem get3 {f g : Arr3 (Option ℝ)} (h0 : g.n0 = f.n0) (h1 : g.n1 = f.n1) (h2 : g.n2 = f.n2) (i j k : ℕ) :
    P3 (RO a b) (f.get i j k) (g.get i j k) ((combine3 a b f g).get i j k) := by
  unfold Arr3.get combine3
  rw [h0, h1, h2]
  split_ifs
  · exact .ok rfl
  · exact .error _

theorem cube_remap {f g : Arr3 (Option ℝ)} (h0 : g.n0 = f.n0) (h1 : g.n1 = f.n1) (h2 : g.n2 = f.n2)
    (w : Option (Arr3 ℝ)) (s : McCube.State) :
    M3 (fun x y z => (y.rows = x.rows ∧ y.cols = x.cols ∧ z.rows = x.rows ∧ z.cols = x.cols) ∧
      ∀ i j, RU a b (x.val i j) (y.val i j) (z.val i j)) (McCube.remap f w) (McCube.remap g w)
      (McCube.remap (combine3 a b f g) w) s := by
  have hpix : ∀ st : McCube.Stored, ∀ i j, P3 (RU a b) (McCube.storedPixel st f w i j)
      (McCube.storedPixel st g w i j) (McCube.storedPixel st (combine3 a b f g) w i j) := by
    intro st i j
    unfold McCube.storedPixel
    split_ifs
    swap
    · exact .error _
    have hread : P3 (F3 (RO a b)) (McCube.readHits st.wt.objIdx f (st.wt.hits i j))
        (McCube.readHits st.wt.objIdx g (st.wt.hits i j))
        (McCube.readHits st.wt.objIdx (combine3 a b f g) (st.wt.hits i j)) := by
      unfold McCube.readHits
      split_ifs
      · exact .error _
      · exact P3.pyMap _ fun q => get3 h0 h1 h2 _ _ _
    unfold McCube.remapPixel
    cases w with
    | none =>
      simp only
      split_ifs
      · exact hread.bind fun x y z hx => .ok (.inl ((RO.npSum (hx.zipWith_omul' _)).odiv _))
      · exact .ok (.inr ⟨rfl, rfl, rfl⟩)
    | some w =>
      simp only
      split_ifs
      · refine (P3.same _).bind fun u v t hu => ?_
        obtain ⟨rfl, rfl⟩ := hu
        exact hread.bind fun x y z hx => .ok (.inl ((RO.npSum (hx.zipWith_omul _)).odiv _))
      · exact .ok (.inr ⟨rfl, rfl, rfl⟩)
  unfold McCube.remap
  refine M3.self (M3.same _ fun e => M3.same _ fun sh => M3.same _ fun n => M3.same _ fun st => ?_)
  exact M3.lift (P3.tabulate' (.inl RO.none) (hpix st)) s

/-! ## Dense grid Cube2Shell -/

theorem P3.pyMap_len {α γ : Type} {R : α → α → α → Prop} {f g h : γ → Py α} (l : List γ)
    (hl : ∀ a, P3 R (f a) (g a) (h a)) :
    P3 (fun x y z => F3 R x y z ∧ x.length = l.length) (OneD.pyMap f l) (OneD.pyMap g l) (OneD.pyMap h l) := by
  induction l with
  | nil => exact .ok ⟨.nil, rfl⟩
  | cons a l ih =>
    unfold OneD.pyMap
    exact (hl a).bind fun x y z hx => ih.bind fun u v w hu => .ok ⟨.cons hx hu.1, by simp [hu.2]⟩

theorem F3.getD_lt {α : Type} {R : α → α → α → Prop} {d : α} {l m n : List α} (h : F3 R l m n) (i : ℕ)
    (hi : i < l.length) : R (l.getD i d) (m.getD i d) (n.getD i d) := by
  induction h generalizing i with
  | nil => simp at hi
  | cons h _ ih =>
    cases i with
    | zero => simpa using h
    | succ i => simpa using ih i (by simpa using hi)

theorem P3.tabulate_lt {R : Option ℝ → Option ℝ → Option ℝ → Prop} {rows cols : ℕ}
    {f g h : ℕ → ℕ → Py (Option ℝ)} (H : ∀ i j, P3 R (f i j) (g i j) (h i j)) :
    P3 (fun x y z => ∀ i j, i < rows → j < cols → R (x.val i j) (y.val i j) (z.val i j))
      (Box2Ring.tabulate rows cols f none) (Box2Ring.tabulate rows cols g none) (Box2Ring.tabulate rows cols h none) := by
  unfold Box2Ring.tabulate
  refine (P3.pyMap_len _ fun i => P3.pyMap_len _ fun j => H i j).bind fun x y z hx => .ok fun i j hi hj => ?_
  have h1 := F3.getD_lt (d := []) hx.1 i (by rw [hx.2, List.length_range]; exact hi)
  exact F3.getD_lt h1.1 j (by rw [h1.2, List.length_range]; exact hj)

/-- `z = a*x + b*y`, and none of them is taken for a missing value. -/
def RG (a b : ℝ) (x y z : Option ℝ) : Prop :=
  ∃ u v, x = some u ∧ y = some v ∧ z = some (a*u + b*v) ∧ ¬ DgCube.isBad u ∧ ¬ DgCube.isBad v ∧ ¬ DgCube.isBad (a*u + b*v)

theorem good30 {x : ℝ} (h : |x| < 10^30) : ¬ DgCube.isBad x := by
  unfold DgCube.isBad Cube.unseen
  rw [not_le, abs_of_neg (by norm_num : (-1.6375e30:ℝ) < 0), lt_abs]
  left
  rw [abs_lt] at h
  norm_num at *
  linarith [h.1]

theorem usual_get {f g : Arr3 (Option ℝ)} (h0 : g.n0 = f.n0) (h1 : g.n1 = f.n1) (h2 : g.n2 = f.n2)
    (hf : Usual f) (hg : Usual g) (hfg : Usual (combine3 a b f g)) (i j k : ℕ) :
    P3 (RG a b) (f.get i j k) (g.get i j k) ((combine3 a b f g).get i j k) := by
  obtain ⟨u, eu, hu⟩ := hf i j k
  obtain ⟨v, ev, hv⟩ := hg i j k
  obtain ⟨w, ew, hw⟩ := hfg i j k
  have e : w = a*u + b*v := by
    simp only [combine3, eu, ev, lin, Option.some.injEq] at ew
    exact ew.symm
  subst e
  unfold Arr3.get
  have e0 : (combine3 a b f g).n0 = f.n0 := rfl
  have e1 : (combine3 a b f g).n1 = f.n1 := rfl
  have e2 : (combine3 a b f g).n2 = f.n2 := rfl
  rw [h0, h1, h2, e0, e1, e2]
  split_ifs
  · exact .ok ⟨u, v, eu, ev, ew, good30 hu, good30 hv, good30 hw⟩
  · exact .error _

theorem RG.zero : RG a b (some 0) (some 0) (some 0) :=
  ⟨0, 0, rfl, rfl, by simp, DgCube.zero_good, DgCube.zero_good, by simpa using DgCube.zero_good⟩

theorem usual_entry {f g : Arr3 (Option ℝ)} (h0 : g.n0 = f.n0) (h1 : g.n1 = f.n1) (h2 : g.n2 = f.n2)
    (hf : Usual f) (hg : Usual g) (hfg : Usual (combine3 a b f g)) (C : Option Cube.Grid3) (r : ℝ) (ang : ℝ × ℝ)
    (cs : List (ℝ × ℝ × ℝ)) :
    P3 (RG a b) (DgCube.entry C f r ang cs) (DgCube.entry C g r ang cs) (DgCube.entry C (combine3 a b f g) r ang cs) := by
  unfold DgCube.entry
  cases C with
  | none => exact .ok RG.zero
  | some C =>
    have : ∀ x y z, RG a b x y z → P3 (RG a b) (DgCube.highres C f r ang cs x) (DgCube.highres C g r ang cs y)
        (DgCube.highres C (combine3 a b f g) r ang cs z) := by
      induction cs with
      | nil => exact fun x y z h => .ok h
      | cons c cs ih =>
        intro x y z h
        unfold DgCube.highres
        cases DgCube.cellOf C r ang c with
        | none => exact ih _ _ _ h
        | some q => exact (usual_get h0 h1 h2 hf hg hfg _ _ _).bind ih
    exact this _ _ _ RG.zero

theorem meanAt_lin (l : List ℕ) (u v : ℕ → ℝ) :
    DgCube.meanAt l (fun q => a*u q + b*v q) = a*DgCube.meanAt l u + b*DgCube.meanAt l v := by
  unfold DgCube.meanAt
  rw [List.sum_map_add, List.sum_map_mul_left, List.sum_map_mul_left]
  ring

theorem RG.udGrade {x y z : ℕ → Option ℝ} (l : List ℕ) (hl : l ≠ []) (h : ∀ q ∈ l, RG a b (x q) (y q) (z q)) :
    RO a b (DgCube.udGrade (l.map x)) (DgCube.udGrade (l.map y)) (DgCube.udGrade (l.map z)) := by
  have ex : l.map x = l.map fun q => some ((x q).getD 0) := List.map_congr_left fun q hq => by
    obtain ⟨u, v, e1, e2, e3, -⟩ := h q hq
    simp [e1]
  have ey : l.map y = l.map fun q => some ((y q).getD 0) := List.map_congr_left fun q hq => by
    obtain ⟨u, v, e1, e2, e3, -⟩ := h q hq
    simp [e2]
  have ez : l.map z = l.map fun q => some (a*(x q).getD 0 + b*(y q).getD 0) := List.map_congr_left fun q hq => by
    obtain ⟨u, v, e1, e2, e3, -⟩ := h q hq
    simp [e1, e2, e3]
  rw [ex, ey, ez, DgCube.udGrade_ok l hl _ fun q hq => ?_, DgCube.udGrade_ok l hl _ fun q hq => ?_,
    DgCube.udGrade_ok l hl _ fun q hq => ?_, meanAt_lin]
  · rfl
  all_goals
    obtain ⟨u, v, e1, e2, e3, g1, g2, g3⟩ := h q hq
    simp only [e1, e2, Option.getD_some]
    assumption

theorem dgcube_remap {f g : Arr3 (Option ℝ)} (h0 : g.n0 = f.n0) (h1 : g.n1 = f.n1) (h2 : g.n2 = f.n2)
    (hf : Usual f) (hg : Usual g) (hfg : Usual (combine3 a b f g)) (hp : DgCube.Hp) (s : DgCube.State)
    (hs : Nested hp s) :
    M3 (fun x y z => (y.rows = x.rows ∧ y.cols = x.cols ∧ z.rows = x.rows ∧ z.cols = x.cols) ∧
      ∀ i j, i < x.rows → j < x.cols → RO a b (x.val i j) (y.val i j) (z.val i j)) (DgCube.remap hp f)
      (DgCube.remap hp g) (DgCube.remap hp (combine3 a b f g)) s := by
  unfold DgCube.remap
  refine M3.self (M3.same_ok _ fun sh hsh => M3.same _ fun e => M3.same_ok _ fun npix hn => M3.same_ok _ fun npixHi hN =>
    M3.same _ fun C => ?_)
  have hsh : s.shell = some sh := by
    cases h : s.shell with
    | none => rw [h] at hsh; simp [need] at hsh
    | some t => rw [h] at hsh; simp only [need_some, Except.ok.injEq] at hsh; rw [hsh]
  have hpos : 0 < npix ∧ npix = 12*sh.nside.toNat^2 := by
    unfold Cube.nside2npix at hn
    split_ifs at hn with h
    simp only [Except.ok.injEq] at hn
    refine ⟨?_, hn.symm⟩
    unfold Cube.isNsideOk at h
    have : 0 < sh.nside.toNat := by omega
    rw [← hn]
    positivity
  have hHi : npixHi = 12*(sh.nside*sh.rebinShell).toNat^2 := by
    unfold Cube.nside2npix at hN
    split_ifs at hN with h
    simpa using hN.symm
  refine (M3.lift (P3.tabulate_lt fun i q => usual_entry h0 h1 h2 hf hg hfg _ _ _ _) s).bind fun x y z hx => ?_
  refine M3.same _ fun rw3 => ?_
  have hgrade : ∀ i p, i < sh.rrmid.length → p < npix →
      RO a b (DgCube.udGrade ((hp.children (sh.nside*sh.rebinShell) sh.nside p).map (x.val i)))
        (DgCube.udGrade ((hp.children (sh.nside*sh.rebinShell) sh.nside p).map (y.val i)))
        (DgCube.udGrade ((hp.children (sh.nside*sh.rebinShell) sh.nside p).map (z.val i))) := by
    intro i p hi hp'
    obtain ⟨n1, n2⟩ := hs sh hsh p (hpos.2 ▸ hp')
    exact RG.udGrade _ n1 fun q hq => hx i q hi (hHi ▸ n2 q hq)
  simp only [Arr2.reshape3]
  by_cases hsize : sh.rrmid.length*npix = e.2.length*sh.rebinR*npix
  swap
  · simp only [if_neg hsize]
    exact ⟨.error _, rfl, rfl, rfl⟩
  simp only [if_pos hsize]
  have hrows : sh.rrmid.length = e.2.length*sh.rebinR := Nat.eq_of_mul_eq_mul_right hpos.1 hsize
  refine ⟨.ok ⟨⟨rfl, rfl, rfl, rfl⟩, fun i p hi hp' => ?_⟩, rfl, rfl, rfl⟩
  refine (RO.npSum (F3.map_mem _ fun k hk => ?_)).odiv _
  have hk := List.mem_range.mp hk
  have hp' : p < npix := hp'
  have hi : i < e.2.length := hi
  have ediv : ((i*sh.rebinR + k)*npix + p)/npix = i*sh.rebinR + k := by
    rw [mul_comm, Nat.mul_add_div hpos.1, Nat.div_eq_of_lt hp', add_zero]
  have emod : ((i*sh.rebinR + k)*npix + p) % npix = p := by
    rw [mul_comm, Nat.mul_add_mod, Nat.mod_eq_of_lt hp']
  simp only [ediv, emod]
  refine (hgrade _ _ ?_ hp').omul _
  rw [hrows]
  calc i*sh.rebinR + k < i*sh.rebinR + sh.rebinR := by omega
    _ = (i+1)*sh.rebinR := by ring
    _ ≤ e.2.length*sh.rebinR := Nat.mul_le_mul_right _ hi

/-! ## The statements of the specification -/

theorem threeCalls {R : Option ℝ → Option ℝ → Option ℝ → Prop} {x y z : Py (Arr2 (Option ℝ))}
    (h : P3 (fun x y z => (y.rows = x.rows ∧ y.cols = x.cols ∧ z.rows = x.rows ∧ z.cols = x.cols) ∧
      ∀ i j, R (x.val i j) (y.val i j) (z.val i j)) x y z) : ThreeCalls R x y z := by
  cases h with
  | ok h => exact ⟨h.1, fun i j _ _ => h.2 i j⟩
  | error e => exact ⟨rfl, rfl⟩

theorem threeCalls_lt {R : Option ℝ → Option ℝ → Option ℝ → Prop} {x y z : Py (Arr2 (Option ℝ))}
    (h : P3 (fun x y z => (y.rows = x.rows ∧ y.cols = x.cols ∧ z.rows = x.rows ∧ z.cols = x.cols) ∧
      ∀ i j, i < x.rows → j < x.cols → R (x.val i j) (y.val i j) (z.val i j)) x y z) : ThreeCalls R x y z := by
  cases h with
  | ok h => exact h
  | error e => exact ⟨rfl, rfl⟩

theorem list_combine {f g : List (Option ℝ)} (h : g.length = f.length) :
    F3 (RO a b) f g (List.zipWith (lin a b) f g) := by
  induction f generalizing g with
  | nil => cases g with
    | nil => exact .nil
    | cons _ _ => simp at h
  | cons x f ih => cases g with
    | nil => simp at h
    | cons y g => exact .cons rfl (ih (by simpa using h))

end Magpie.Linear
