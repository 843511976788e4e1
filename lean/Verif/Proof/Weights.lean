import Verif.Proof.Linear
import Verif.Spec.Weights

/-!
# A common factor of the weights cancels
-/

set_option linter.unusedSimpArgs false
set_option linter.unusedVariables false
set_option linter.unusedSectionVars false

namespace Magpie.Linear
open Magpie Magpie.Spec Magpie.Radial Magpie.OneD Magpie.Box2Ring Magpie.Coords

theorem P3.eq {α : Type} {R : α → α → α → Prop} {x z : Py α} (h : P3 R x x z) :
    P3 (fun a b c => b = a ∧ R a b c) x x z := by
  cases h with
  | ok h => exact .ok ⟨rfl, h⟩
  | error e => exact .error e

theorem M3.eq {S α : Type} {R : α → α → α → Prop} {x z : Meth S α} {s : S} (h : M3 R x x z s) :
    M3 (fun a b c => b = a ∧ R a b c) x x z s := ⟨h.1.eq, h.2⟩

theorem M3.result {S α : Type} {x y z : Meth S α} {s : S} (h : M3 (fun a b c => c = a) x y z s) : z s = x s := by
  obtain ⟨h, e1, e2, e3⟩ := h
  generalize hx : x s = p at *
  generalize hy : y s = q at *
  generalize hz : z s = r at *
  obtain ⟨p, sp⟩ := p
  obtain ⟨q, sq⟩ := q
  obtain ⟨r, sr⟩ := r
  simp only at h e1 e2 e3
  subst e1 e2 e3
  cases h with
  | ok h => rw [h]
  | error e => rfl

variable {k : ℝ}

theorem ro_times (x : ℝ) : RO k 0 (some x) (some x) (some (k*x)) := by simp [RO, lin]

theorem ro_omul (x : Option ℝ) (w : ℝ) : RO k 0 (omul x w) (omul x w) (omul x (k*w)) := by
  cases x <;> simp [RO, lin, OneD.omul]
  ring

theorem ro_cancel (hk : k ≠ 0) {x z u v : Option ℝ} (h : RO k 0 x x z) (h' : RO k 0 u u v) : odiv z v = odiv x u := by
  unfold RO at h h'
  subst h h'
  cases x <;> cases u <;> simp [lin, OneD.odiv, fdiv, hk]
  split_ifs with h
  · rfl
  · rw [mul_div_mul_left _ _ hk]

theorem ra_cancel (hk : k ≠ 0) {x z u v : Arr2 (Option ℝ)} (h : RA (a := k) (b := 0) x x z)
    (h' : RA (a := k) (b := 0) u u v) : z.zip odiv v = x.zip odiv u := by
  obtain ⟨⟨-, -, e1, e2⟩, hv⟩ := h
  obtain ⟨⟨-, -, e3, e4⟩, hv'⟩ := h'
  unfold Arr2.zip
  rw [e1, e2, e3, e4]
  simp only [fun i j => ro_cancel hk (hv i j) (hv' i j)]

theorem zip_times (f : Arr2 (Option ℝ)) (w : Arr2 ℝ) :
    P3 (RA (a := k) (b := 0)) (f.zip omul w) (f.zip omul w) (f.zip omul (times k w)) := by
  unfold Arr2.zip times
  simp only
  split_ifs
  · exact .ok ⟨⟨rfl, rfl, rfl, rfl⟩, fun i j => ro_omul _ _⟩
  · exact .error _

theorem P3.rfl' {α : Type} {x y : Py α} (h : y = x) : P3 (fun a b c => c = a) x x y := by
  subst h
  exact (P3.same _).imp fun _ _ _ h => h.2

theorem dg_weights (hk : k ≠ 0) (f : Arr2 (Option ℝ)) (w : Arr2 ℝ) (s : Dg.State) :
    Dg.remap f (some (times k w)) s = Dg.remap f (some w) s := by
  refine M3.result (y := Dg.remap f (some w)) ?_
  unfold Dg.remap
  refine (M3.lift (zip_times f w).eq s).bind fun x y z hx => ?_
  obtain ⟨rfl, hx⟩ := hx
  refine (dg_remap1 hx s).eq.bind fun x y z hx => ?_
  obtain ⟨rfl, hx⟩ := hx
  have hw : RA (a := k) (b := 0) ⟨w.rows, w.cols, fun i j => some (w.val i j)⟩
      ⟨w.rows, w.cols, fun i j => some (w.val i j)⟩ ⟨w.rows, w.cols, fun i j => some (k*w.val i j)⟩ :=
    ⟨⟨rfl, rfl, rfl, rfl⟩, fun i j => ro_times _⟩
  refine (dg_remap1 hw s).eq.bind fun u v t hu => ?_
  obtain ⟨rfl, hu⟩ := hu
  exact M3.lift (P3.rfl' (ra_cancel hk hx hu)) s

theorem ortho_weights (hk : k ≠ 0) (f : List (Option ℝ)) (w : List ℝ) (s : Ortho.State) :
    Ortho.remap f (some (w.map (k * ·))) s = Ortho.remap f (some w) s := by
  refine M3.result (y := Ortho.remap f (some w)) ?_
  unfold Ortho.remap
  have hz : P3 (F3 (RO k 0)) (vzip OneD.omul f w) (vzip OneD.omul f w) (vzip OneD.omul f (w.map (k * ·))) := by
    unfold vzip
    rw [List.length_map]
    split_ifs with h
    · refine .ok ?_
      clear h
      induction f generalizing w with
      | nil => exact .nil
      | cons x f ih => cases w with
        | nil => exact .nil
        | cons c w => exact .cons (ro_omul _ _) (ih w)
    · exact .error _
  refine (M3.lift hz.eq s).bind fun x y z hx => ?_
  obtain ⟨rfl, hx⟩ := hx
  refine (ortho_remap1 hx s).eq.bind fun x y z hx => ?_
  obtain ⟨rfl, hx⟩ := hx
  have hw : F3 (RO k 0) (w.map some) (w.map some) ((w.map (k * ·)).map some) := by
    rw [List.map_map]
    exact F3.map _ fun c => ro_times c
  refine (ortho_remap1 hw s).eq.bind fun u v t hu => ?_
  obtain ⟨rfl, hu⟩ := hu
  exact M3.lift (P3.rfl' (ra_cancel hk hx hu)) s

theorem mul_scaled (ws w1 : List ℝ) :
    List.zipWith (· * ·) ws (w1.map (k * ·)) = (List.zipWith (· * ·) ws w1).map (k * ·) := by
  induction ws generalizing w1 with
  | nil => rfl
  | cons a ws ih => cases w1 with
    | nil => rfl
    | cons b w1 => simp only [List.map_cons, List.zipWith_cons_cons, ih]; congr 1; ring

theorem pixel_scaled (hk : k ≠ 0) (fs : List (Option ℝ)) (ws w1 : List ℝ) :
    odiv (npSum (List.zipWith omul fs (List.zipWith (· * ·) ws (w1.map (k * ·)))))
        (some (List.zipWith (· * ·) ws (w1.map (k * ·))).sum) =
      odiv (npSum (List.zipWith omul fs (List.zipWith (· * ·) ws w1))) (some (List.zipWith (· * ·) ws w1).sum) := by
  rw [mul_scaled]
  generalize List.zipWith (· * ·) ws w1 = v
  refine ro_cancel hk (RO.npSum ?_) ?_
  · induction fs generalizing v with
    | nil => exact .nil
    | cons x fs ih => cases v with
      | nil => exact .nil
      | cons c v => exact .cons (ro_omul _ _) (ih v)
  · rw [List.sum_map_mul_left]
    simpa using ro_times (k := k) v.sum

theorem pyMap_times {γ : Type} {g h : γ → Py ℝ} (hg : ∀ q, h q = (g q).map (k * ·)) (l : List γ) :
    OneD.pyMap h l = (OneD.pyMap g l).map (List.map (k * ·)) := by
  induction l with
  | nil => rfl
  | cons a l ih =>
    unfold OneD.pyMap
    rw [hg, ih]
    cases g a with
    | error e => rfl
    | ok x => cases OneD.pyMap g l <;> rfl

theorem mc_weights (hk : k ≠ 0) (f : Arr2 (Option ℝ)) (w : Arr2 ℝ) (s : Mc.State) :
    Mc.remap f (some (times k w)) s = Mc.remap f (some w) s := by
  have hpix : ∀ st : Mc.Stored, Mc.storedPixel st f (some (times k w)) = Mc.storedPixel st f (some w) := by
    intro st
    funext i j
    unfold Mc.storedPixel
    split_ifs
    swap
    · rfl
    have hread : Mc.readHits st.wt.objIdx (times k w) (st.wt.hits i j) =
        (Mc.readHits st.wt.objIdx w (st.wt.hits i j)).map (List.map (k * ·)) := by
      unfold Mc.readHits
      split_ifs
      · rfl
      · refine pyMap_times (fun q => ?_) _
        unfold Arr2.get times
        simp only
        split_ifs <;> rfl
    unfold Mc.remapPixel
    simp only
    split_ifs
    · rw [hread]
      cases Mc.readHits st.wt.objIdx w (st.wt.hits i j) with
      | error e => rfl
      | ok w1 =>
        cases Mc.readHits st.wt.objIdx f (st.wt.hits i j) with
        | error e => rfl
        | ok fs =>
          show Except.ok _ = Except.ok _
          rw [pixel_scaled hk]
    · rfl
  unfold Mc.remap
  simp only [hpix]
  rfl

theorem cube_weights (hk : k ≠ 0) (f : Arr3 (Option ℝ)) (w : Arr3 ℝ) (s : McCube.State) :
    McCube.remap f (some (times3 k w)) s = McCube.remap f (some w) s := by
  have hpix : ∀ st : McCube.Stored, McCube.storedPixel st f (some (times3 k w)) = McCube.storedPixel st f (some w) := by
    intro st
    funext i j
    unfold McCube.storedPixel
    split_ifs
    swap
    · rfl
    have hread : McCube.readHits st.wt.objIdx (times3 k w) (st.wt.hits i j) =
        (McCube.readHits st.wt.objIdx w (st.wt.hits i j)).map (List.map (k * ·)) := by
      unfold McCube.readHits
      split_ifs
      · rfl
      · refine pyMap_times (fun q => ?_) _
        unfold Arr3.get times3
        simp only
        split_ifs <;> rfl
    unfold McCube.remapPixel
    simp only
    split_ifs
    · rw [hread]
      cases McCube.readHits st.wt.objIdx w (st.wt.hits i j) with
      | error e => rfl
      | ok w1 =>
        cases McCube.readHits st.wt.objIdx f (st.wt.hits i j) with
        | error e => rfl
        | ok fs =>
          show Except.ok _ = Except.ok _
          rw [pixel_scaled hk]
    · rfl
  unfold McCube.remap
  simp only [hpix]

/-! ## Equal weights -/

theorem pyMap_ones {γ : Type} {α : Type} {g : γ → Py α} {h : γ → Py ℝ} (hg : ∀ q, h q = (g q).map fun _ => 1) (l : List γ) :
    OneD.pyMap h l = (OneD.pyMap g l).map (List.map fun _ => 1) := by
  induction l with
  | nil => rfl
  | cons a l ih =>
    unfold OneD.pyMap
    rw [hg, ih]
    cases g a with
    | error e => rfl
    | ok x => cases OneD.pyMap g l <;> rfl

theorem pyMap_length {γ α : Type} {g : γ → Py α} {l : List γ} {r : List α} (h : OneD.pyMap g l = .ok r) :
    r.length = l.length := by
  have := P3.pyMap_len (R := fun _ _ _ => True) (f := g) (g := g) (h := g) l fun a => (P3.same _).imp fun _ _ _ _ => trivial
  rw [h] at this
  cases this with
  | ok h => exact h.2

theorem mul_ones {α : Type} (ws : List ℝ) (fs : List α) (h : fs.length = ws.length) :
    List.zipWith (· * ·) ws (fs.map fun _ => (1:ℝ)) = ws := by
  induction ws generalizing fs with
  | nil => rfl
  | cons a ws ih => cases fs with
    | nil => simp at h
    | cons b fs =>
      simp only [List.map_cons, List.zipWith_cons_cons, mul_one]
      rw [ih fs (by simpa using h)]

theorem mc_ones (f : Arr2 (Option ℝ)) (s : Mc.State) :
    Mc.remap f (some ⟨f.rows, f.cols, fun _ _ => 1⟩) s = Mc.remap f none s := by
  have hpix : ∀ st : Mc.Stored, Mc.storedPixel st f (some ⟨f.rows, f.cols, fun _ _ => 1⟩) = Mc.storedPixel st f none := by
    intro st
    funext i j
    unfold Mc.storedPixel
    split_ifs
    swap
    · rfl
    have hread : Mc.readHits st.wt.objIdx (⟨f.rows, f.cols, fun _ _ => 1⟩ : Arr2 ℝ) (st.wt.hits i j) =
        (Mc.readHits st.wt.objIdx f (st.wt.hits i j)).map (List.map fun _ => 1) := by
      unfold Mc.readHits
      split_ifs
      · rfl
      · refine pyMap_ones (fun q => ?_) _
        unfold Arr2.get
        simp only
        split_ifs <;> rfl
    unfold Mc.remapPixel
    simp only
    split_ifs
    · rw [hread]
      cases hf : Mc.readHits st.wt.objIdx f (st.wt.hits i j) with
      | error e => rfl
      | ok fs =>
        show Except.ok _ = Except.ok _
        have hl : fs.length = ((st.wt.hits i j).map Mc.Hit.w).length := by
          unfold Mc.readHits at hf
          split_ifs at hf
          rw [pyMap_length hf, List.length_map]
        rw [mul_ones _ _ hl, List.zipWith_comm]
    · rfl
  unfold Mc.remap
  simp only [hpix]
  simp only [Meth.bind_apply, Meth.lift_apply, Meth.self_apply]
  cases s.box with
  | none => rfl
  | some bx =>
    simp only [Meth.bind_apply, Meth.lift_apply]
    have : (⟨f.rows, f.cols, fun _ _ => (1:ℝ)⟩ : Arr2 ℝ).sameShape bx.x2d ↔ f.sameShape bx.x2d := Iff.rfl
    unfold pyAssert
    by_cases h : f.sameShape bx.x2d
    · simp only [this, h, if_true]
    · simp only [this, h, if_false]

theorem cube_ones (f : Arr3 (Option ℝ)) (s : McCube.State) :
    McCube.remap f (some ⟨f.n0, f.n1, f.n2, fun _ _ _ => 1⟩) s = McCube.remap f none s := by
  have hpix : ∀ st : McCube.Stored, McCube.storedPixel st f (some ⟨f.n0, f.n1, f.n2, fun _ _ _ => 1⟩) =
      McCube.storedPixel st f none := by
    intro st
    funext i j
    unfold McCube.storedPixel
    split_ifs
    swap
    · rfl
    have hread : McCube.readHits st.wt.objIdx (⟨f.n0, f.n1, f.n2, fun _ _ _ => 1⟩ : Arr3 ℝ) (st.wt.hits i j) =
        (McCube.readHits st.wt.objIdx f (st.wt.hits i j)).map (List.map fun _ => 1) := by
      unfold McCube.readHits
      split_ifs
      · rfl
      · refine pyMap_ones (fun q => ?_) _
        unfold Arr3.get
        simp only
        split_ifs <;> rfl
    unfold McCube.remapPixel
    simp only
    split_ifs
    · rw [hread]
      cases hf : McCube.readHits st.wt.objIdx f (st.wt.hits i j) with
      | error e => rfl
      | ok fs =>
        show Except.ok _ = Except.ok _
        have hl : fs.length = ((st.wt.hits i j).map McCube.Hit.w).length := by
          unfold McCube.readHits at hf
          split_ifs at hf
          rw [pyMap_length hf, List.length_map]
        rw [mul_ones _ _ hl, List.zipWith_comm]
    · rfl
  unfold McCube.remap
  simp only [hpix]

/-! ## `polar2radial` -/

theorem ra_sum0 {x y z : Arr2 (Option ℝ)} {a b : ℝ} (h : RA (a := a) (b := b) x y z) : F3 (RO a b) x.sum0 y.sum0 z.sum0 := by
  obtain ⟨⟨e1, e2, e3, e4⟩, hv⟩ := h
  unfold Arr2.sum0
  rw [e1, e2, e3, e4]
  exact F3.map _ fun j => RO.npSum (F3.map _ fun i => hv i j)

theorem zip_cancel (hk : k ≠ 0) {l n m p : List (Option ℝ)} (h : F3 (RO k 0) l l n) (h' : F3 (RO k 0) m m p) :
    List.zipWith odiv n p = List.zipWith odiv l m := by
  have : ∀ {l l' n m m' p : List (Option ℝ)}, F3 (RO k 0) l l' n → F3 (RO k 0) m m' p → l = l' → m = m' →
      List.zipWith odiv n p = List.zipWith odiv l m := by
    intro l l' n m m' p h
    induction h generalizing m m' p with
    | nil => intros; rfl
    | cons hx _ ih =>
      intro h' e1 e2
      cases h' with
      | nil => rfl
      | cons hy ht =>
        simp only [List.cons.injEq] at e1 e2
        obtain ⟨rfl, e1⟩ := e1
        obtain ⟨rfl, e2⟩ := e2
        simp only [List.zipWith_cons_cons, ih ht e1 e2, ro_cancel hk hx hy]
  exact this h h' rfl rfl

theorem radial_weights (hk : k ≠ 0) (f : Arr2 (Option ℝ)) (w : Arr2 ℝ) :
    Radial.polar2radial f (some (times k w)) = Radial.polar2radial f (some w) := by
  unfold Radial.polar2radial
  simp only
  have h := (zip_times (k := k) f w).eq
  have hw : RA (a := k) (b := 0) ⟨w.rows, w.cols, fun i j => some (w.val i j)⟩
      ⟨w.rows, w.cols, fun i j => some (w.val i j)⟩ ⟨w.rows, w.cols, fun i j => some (k*w.val i j)⟩ :=
    ⟨⟨rfl, rfl, rfl, rfl⟩, fun i j => ro_times _⟩
  generalize f.zip omul w = x at h ⊢
  generalize f.zip omul (times k w) = z at h ⊢
  cases h with
  | error e => rfl
  | ok h =>
    obtain ⟨-, h⟩ := h
    show Except.ok _ = Except.ok _
    rw [← zip_cancel hk (ra_sum0 h) (ra_sum0 hw)]
    rfl

theorem ro_square {x z : Option ℝ} (h : RO k 0 x x z) :
    RO (k^2) 0 (x.map (·^2)) (x.map (·^2)) (z.map (·^2)) := by
  unfold RO at *
  subst h
  cases x <;> simp [lin]
  ring

theorem zip_cancel_sqrt (hk : k ≠ 0) {l n m p : List (Option ℝ)} (h : F3 (RO (k^2) 0) l l n) (h' : F3 (RO k 0) m m p) :
    List.zipWith (fun s n => osqrt (odiv s (n.map (·^2)))) n p =
      List.zipWith (fun s n => osqrt (odiv s (n.map (·^2)))) l m := by
  have : ∀ {l l' n m m' p : List (Option ℝ)}, F3 (RO (k^2) 0) l l' n → F3 (RO k 0) m m' p → l = l' → m = m' →
      List.zipWith (fun s n => osqrt (odiv s (n.map (·^2)))) n p =
        List.zipWith (fun s n => osqrt (odiv s (n.map (·^2)))) l m := by
    intro l l' n m m' p h
    induction h generalizing m m' p with
    | nil => intros; rfl
    | cons hx _ ih =>
      intro h' e1 e2
      cases h' with
      | nil => rfl
      | cons hy ht =>
        simp only [List.cons.injEq] at e1 e2
        obtain ⟨rfl, e1⟩ := e1
        obtain ⟨rfl, e2⟩ := e2
        simp only [List.zipWith_cons_cons, ih ht e1 e2, ro_cancel (pow_ne_zero 2 hk) hx (ro_square hy)]
  exact this h h' rfl rfl

theorem sigma_weights (hk : k ≠ 0) (f : Arr2 (Option ℝ)) (area2d : Arr2 ℝ) (pixarea : ℝ) (sigma w : Arr2 ℝ) :
    polar2radialSigma f area2d pixarea sigma (some (times k w)) = polar2radialSigma f area2d pixarea sigma (some w) := by
  unfold polar2radialSigma
  simp only
  have hw : RA (a := k) (b := 0) ⟨w.rows, w.cols, fun i j => some (w.val i j)⟩
      ⟨w.rows, w.cols, fun i j => some (w.val i j)⟩ ⟨w.rows, w.cols, fun i j => some (k*w.val i j)⟩ :=
    ⟨⟨rfl, rfl, rfl, rfl⟩, fun i j => ro_times _⟩
  by_cases h1 : w.rows = sigma.rows ∧ w.cols = sigma.cols
  swap
  · unfold Arr2.zip times
    simp only [if_neg h1]
    rfl
  by_cases h2 : area2d.rows = w.rows ∧ area2d.cols = w.cols
  swap
  · unfold Arr2.zip times
    simp only [if_pos h1]
    simp only [bind, Except.bind, if_neg h2]
  unfold Arr2.zip times
  simp only [if_pos h1]
  simp only [bind, Except.bind, if_pos h2]
  show Except.ok _ = Except.ok _
  refine congrArg Except.ok (zip_cancel_sqrt hk (ra_sum0 ⟨⟨rfl, rfl, rfl, rfl⟩, fun i j => ?_⟩) (ra_sum0 hw))
  simp only
  cases fdiv pixarea (area2d.val i j) <;> simp [RO, lin]
  ring

end Magpie.Linear
