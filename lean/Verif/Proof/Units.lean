import Verif.Spec.Units
import Verif.Proof.Box2Ring

/-!
# Methods of objects in other units

`At σ I s m m'`: the method `m'` on the object in the new units returns what `m` returns on the object in the
old units, and leaves it in the state that corresponds to the old one.
-/

set_option linter.unusedSimpArgs false
set_option linter.unusedVariables false

namespace Magpie.Units
open Magpie.Radial Magpie.OneD Magpie.Remap Magpie.Coords

section Sim
variable {S α β α' : Type} {σ : S → S} {I : S → Prop} {s : S}

/-- See above. -/
def At (σ : S → S) (I : S → Prop) (s : S) (m m' : Meth S α) : Prop :=
  m' (σ s) = ((m s).1, σ (m s).2) ∧ I (m s).2

theorem At.pure (h : I s) (a : α) : At σ I s (Pure.pure a) (Pure.pure a) := ⟨rfl, h⟩

theorem At.lift (h : I s) (p : Py α) : At σ I s (Meth.lift p) (Meth.lift p) := ⟨rfl, h⟩

theorem At.assign {f f' : S → S} (h : f' (σ s) = σ (f s)) (hI : I (f s)) :
    At σ I s (Meth.assign f) (Meth.assign f') := ⟨by simp [h], by simpa using hI⟩

theorem At.bind {m m' : Meth S α} {f f' : α → Meth S β} (hm : At σ I s m m')
    (hf : ∀ a t, m s = (.ok a, t) → I t → At σ I t (f a) (f' a)) : At σ I s (m >>= f) (m' >>= f') := by
  obtain ⟨h1, h2⟩ := hm
  unfold At
  simp only [Meth.bind_apply, h1]
  rcases h : m s with ⟨r, t⟩
  rw [h] at h2
  cases r with
  | error e => exact ⟨rfl, h2⟩
  | ok a => exact hf a t h h2

theorem At.self {f f' : S → Meth S β} (hf : At σ I s (f s) (f' (σ s))) :
    At σ I s (Meth.self >>= f) (Meth.self >>= f') := by
  simpa [At] using hf

theorem At.liftBind (φ : α → α') {p : Py α} {p' : Py α'} {f : α → Meth S β} {f' : α' → Meth S β}
    (h : p' = p.map φ) (hI : I s) (hf : ∀ a, p = .ok a → At σ I s (f a) (f' (φ a))) :
    At σ I s (Meth.lift p >>= f) (Meth.lift p' >>= f') := by
  subst h
  cases p with
  | error e => exact ⟨by simp [Except.map], hI⟩
  | ok a => simpa [At, Except.map] using hf a rfl

theorem At.liftBind' {p p' : Py α} {f f' : α → Meth S β}
    (h : p' = p) (hI : I s) (hf : ∀ a, p = .ok a → At σ I s (f a) (f' a)) :
    At σ I s (Meth.lift p >>= f) (Meth.lift p' >>= f') := by
  subst h
  exact At.bind (At.lift hI _) fun a t h1 h2 => by
    simp only [Meth.lift_apply, Prod.mk.injEq] at h1
    obtain ⟨h1, rfl⟩ := h1
    exact hf a h1

theorem At.assignBind {f f' : S → S} {g g' : Unit → Meth S β} (h : f' (σ s) = σ (f s)) (hI : I (f s))
    (hg : At σ I (f s) (g ()) (g' ())) : At σ I s (Meth.assign f >>= g) (Meth.assign f' >>= g') :=
  At.bind (At.assign h hI) fun a t h1 _ => by
    simp only [Meth.assign_apply, Prod.mk.injEq] at h1
    obtain ⟨-, rfl⟩ := h1
    exact hg

end Sim

/-! ## Lists -/

theorem need_map {α β : Type} (φ : α → β) (o : Option α) : need (o.map φ) = (need o).map φ := by
  cases o <;> rfl

theorem linspace_aff (c t a b : ℝ) (n : ℕ) :
    linspace (c*a + t) (c*b + t) n = (linspace a b n).map (fun x => c*x + t) := by
  unfold linspace
  rw [List.map_map]
  refine List.map_congr_left fun k _ => ?_
  simp only [Function.comp]
  ring

theorem linspace_mul (c a b : ℝ) (n : ℕ) : linspace (c*a) (c*b) n = (linspace a b n).map (c * ·) := by
  have := linspace_aff c 0 a b n
  simpa using this

theorem map_tail_dropLast {γ : Type} (g : ℝ → ℝ) (f : ℝ → ℝ → γ) (l : List ℝ) :
    List.zipWith f (l.map g).tail (l.map g).dropLast = List.zipWith (fun b a => f (g b) (g a)) l.tail l.dropLast := by
  rw [← List.map_tail, ← List.map_dropLast, List.zipWith_map]

theorem mids_aff (c t : ℝ) (l : List ℝ) : mids (l.map fun x => c*x + t) = (mids l).map fun x => c*x + t := by
  unfold mids
  rw [map_tail_dropLast, List.map_zipWith]
  congr 1
  funext b a
  ring

theorem mids_mul (c : ℝ) (l : List ℝ) : mids (l.map (c * ·)) = (mids l).map (c * ·) := by
  have := mids_aff c 0 l
  simpa using this

theorem firstDiff_mul (c : ℝ) (l : List ℝ) : firstDiff (l.map (c * ·)) = (firstDiff l).map (c * ·) := by
  rcases l with _ | ⟨a, _ | ⟨b, l⟩⟩ <;> simp [firstDiff, Except.map]
  ring

theorem getD_aff (c t : ℝ) {l : List ℝ} {i : ℕ} (h : i < l.length) :
    (l.map fun x => c*x + t).getD i 0 = c*l.getD i 0 + t := by
  simp [List.getD_eq_getElem?_getD, h]

theorem getD_mul (c : ℝ) (l : List ℝ) (i : ℕ) : (l.map (c * ·)).getD i 0 = c*l.getD i 0 := by
  simp only [List.getD_eq_getElem?_getD, List.getElem?_map]
  cases l[i]? <;> simp

theorem getLastD_aff (c t : ℝ) {l : List ℝ} (h : l ≠ []) :
    (l.map fun x => c*x + t).getLastD 0 = c*l.getLastD 0 + t := by
  obtain ⟨l', a, rfl⟩ := (List.eq_nil_or_concat l).resolve_left h
  simp

theorem getLastD_mul (c : ℝ) (l : List ℝ) : (l.map (c * ·)).getLastD 0 = c*l.getLastD 0 := by
  rcases List.eq_nil_or_concat l with rfl | ⟨l', a, rfl⟩ <;> simp

theorem zipWith_pow (c : ℝ) (k : ℕ) (l : List ℝ) :
    List.zipWith (fun b a => b^k - a^k) (l.map (c * ·)).tail (l.map (c * ·)).dropLast =
      (List.zipWith (fun b a => b^k - a^k) l.tail l.dropLast).map (c^k * ·) := by
  rw [map_tail_dropLast, List.map_zipWith]
  congr 1
  funext b a
  rw [mul_pow, mul_pow]
  ring

/-! ## Arithmetic with NaN -/

theorem fdiv_scale {k : ℝ} (hk : k ≠ 0) (a b : ℝ) : fdiv (k*a) (k*b) = fdiv a b := by
  unfold fdiv
  by_cases hb : b = 0
  · simp [hb]
  · rw [if_neg hb, if_neg (mul_ne_zero hk hb), mul_div_mul_left _ _ hk]

/-- A value times `k`. -/
def oscale (k : ℝ) (x : Option ℝ) : Option ℝ := x.map (k * ·)

theorem odiv_scale {k : ℝ} (hk : k ≠ 0) (x y : Option ℝ) : odiv (oscale k x) (oscale k y) = odiv x y := by
  cases x <;> cases y <;> simp [odiv, oscale, fdiv_scale hk]

theorem omul_scale (k : ℝ) (x : Option ℝ) (y : ℝ) : omul x (k*y) = oscale k (omul x y) := by
  cases x <;> simp [omul, oscale]
  ring

theorem odiv_num (k : ℝ) (x : Option ℝ) (y : ℝ) : odiv (oscale k x) (some y) = oscale k (odiv x (some y)) := by
  cases x with
  | none => rfl
  | some a =>
    simp only [odiv, oscale, Option.map_some, fdiv]
    by_cases hy : y = 0
    · simp [hy]
    · simp [hy]; ring

theorem npSum_scale (k : ℝ) (l : List (Option ℝ)) : npSum (l.map (oscale k)) = oscale k (npSum l) := by
  induction l with
  | nil => simp [npSum, oscale]
  | cons a l ih =>
    unfold npSum at ih ⊢
    cases a with
    | none => simp [oscale]
    | some a =>
      cases h : l.mapM id with
      | none =>
        have h2 : (l.map (oscale k)).mapM id = none := by
          rw [h] at ih
          cases hh : (l.map (oscale k)).mapM id <;> simp_all [oscale]
        simp [oscale] at h2 ⊢
        simp [h, h2]
      | some r =>
        rw [h] at ih
        cases hh : (l.map (oscale k)).mapM id with
        | none => simp [hh, oscale] at ih
        | some r' =>
          rw [hh] at ih
          simp only [Option.map_some, oscale, Option.some.injEq] at ih
          simp only [List.map_cons, List.mapM_cons, hh, h, oscale, Option.map_some, id]
          simp [ih]
          ring

/-! ## Cells and bins -/

theorem cellIdx_aff {c : ℝ} (hc : 0 < c) (t x e d : ℝ) (n : ℕ) :
    Dg.cellIdx (c*x + t) (c*e + t) (c*d) n = Dg.cellIdx x e d n := by
  unfold Dg.cellIdx
  by_cases hd : d = 0
  · simp [hd]
  · rw [if_neg hd, if_neg (mul_ne_zero hc.ne' hd),
      show (c*x + t - (c*e + t)) / (c*d) = (x - e)/d by
        rw [show c*x + t - (c*e + t) = c*(x - e) by ring, mul_div_mul_left _ _ hc.ne']]

theorem histEdges_aff {c : ℝ} (hc : 0 < c) (t : ℝ) {l : List ℝ} (h : l ≠ [])
    (hw : c = 1 ∨ l.getD 0 0 ≠ l.getLastD 0) :
    Mc.histEdges (l.map fun x => c*x + t) = (Mc.histEdges l).map fun e => e.map fun x => c*x + t := by
  unfold Mc.histEdges
  have h0 : 0 < l.length := List.length_pos_iff.2 h
  simp only [getD_aff c t h0, getLastD_aff c t h, List.length_map]
  generalize l.getD 0 0 = a at *
  generalize l.getLastD 0 = b at *
  have e1 : (c*a + t > c*b + t) ↔ a > b := by
    simp only [gt_iff_lt, add_lt_add_iff_right]
    exact mul_lt_mul_iff_right₀ hc
  have e2 : (c*a + t = c*b + t) ↔ a = b := by
    rw [add_left_inj]
    exact ⟨fun h => mul_left_cancel₀ hc.ne' h, fun h => by rw [h]⟩
  simp only [e1, e2]
  split_ifs with h1 h2
  · rfl
  · have hc1 : c = 1 := hw.resolve_right (fun h => h h2)
    subst hc1
    simp only [Except.map]
    rw [← linspace_aff]
    congr 2 <;> ring
  · simp only [Except.map]
    rw [← linspace_aff]

theorem histBin_aff {c : ℝ} (hc : 0 < c) (t : ℝ) {l : List ℝ} (h : l ≠ []) (x : ℝ) :
    Mc.histBin (l.map fun x => c*x + t) (c*x + t) = Mc.histBin l x := by
  unfold Mc.histBin
  have e1 : ((l.map fun x => c*x + t).filter fun e => decide (e ≤ c*x + t)).length =
      (l.filter fun e => decide (e ≤ x)).length := by
    rw [List.filter_map, List.length_map]
    congr 1
    refine List.filter_congr fun e _ => ?_
    simp only [Function.comp, add_le_add_iff_right, decide_eq_decide]
    exact mul_le_mul_iff_right₀ hc
  have e2 : (c*x + t = c*l.getLastD 0 + t) ↔ x = l.getLastD 0 := by
    rw [add_left_inj]
    exact ⟨fun h => mul_left_cancel₀ hc.ne' h, fun h => by rw [h]⟩
  simp only [e1, getLastD_aff c t h, e2, List.length_map]

theorem histEdges_length {l e : List ℝ} (h : Mc.histEdges l = .ok e) : e ≠ [] := by
  unfold Mc.histEdges at h
  have key : ∀ a b : ℝ, linspace a b (l.length - 1 + 1) ≠ [] := fun a b => by
    rw [← List.length_pos_iff, length_linspace]; omega
  dsimp only at h
  split_ifs at h
  · simp only [Except.ok.injEq] at h; rw [← h]; exact key _ _
  · simp only [Except.ok.injEq] at h; rw [← h]; exact key _ _

theorem logspace_mul {c a b : ℝ} (hc : 0 < c) (ha : 0 < a) (hb : 0 < b) (n : ℕ) :
    Mc.logspace (c*a) (c*b) n = (Mc.logspace a b n).map (c * ·) := by
  unfold Mc.logspace
  rw [Real.logb_mul hc.ne' ha.ne', Real.logb_mul hc.ne' hb.ne']
  have := linspace_aff 1 (Real.logb 10 c) (Real.logb 10 a) (Real.logb 10 b) n
  simp only [one_mul] at this
  rw [add_comm (Real.logb 10 c), add_comm (Real.logb 10 c), this, List.map_map, List.map_map]
  refine List.map_congr_left fun x _ => ?_
  simp only [Function.comp]
  rw [Real.rpow_add (by norm_num), Real.rpow_logb (by norm_num) (by norm_num) hc, mul_comm]

theorem npSqrt_scale {c : ℝ} (hc : 0 < c) (x : ℝ) : npSqrt (c^2*x) = oscale c (npSqrt x) := by
  unfold npSqrt oscale
  have : 0 ≤ c^2*x ↔ 0 ≤ x := mul_nonneg_iff_of_pos_left (by positivity)
  by_cases hx : 0 ≤ x
  · rw [if_pos hx, if_pos (this.2 hx), Option.map_some, Real.sqrt_mul (by positivity), Real.sqrt_sq hc.le]
  · rw [if_neg hx, if_neg (fun h => hx (this.1 h)), Option.map_none]

theorem pyMap_congr {α β : Type} {f g : α → Py β} {l : List α} (h : ∀ a ∈ l, f a = g a) : pyMap f l = pyMap g l := by
  induction l with
  | nil => rfl
  | cons a l ih => simp only [pyMap, h a (by simp), ih fun b hb => h b (by simp [hb])]

end Magpie.Units
