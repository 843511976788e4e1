import Verif.Model.DgBox2Ring
import Verif.Spec.Box2Ring
import Verif.Proof.Grids

/-!
# Lemmas on regular grids and on the dense grid `Box2Ring`
-/

set_option linter.unusedSimpArgs false
set_option linter.unusedVariables false
set_option linter.unusedSectionVars false

namespace Magpie.Box2Ring
open Magpie Magpie.Radial Magpie.OneD Magpie.Spec Finset

theorem linspace_getD (a b : ℝ) (n k : ℕ) (h : k ≤ n) :
    (linspace a b (n+1)).getD k 0 = edgeAt a b n k := by
  unfold linspace edgeAt
  rw [List.getD_eq_getElem?_getD, List.getElem?_map, List.getElem?_range (by omega)]
  simp

theorem linspace_getLastD (a b : ℝ) (n : ℕ) (h : 1 ≤ n) : (linspace a b (n+1)).getLastD 0 = b := by
  have hn : (n:ℝ) ≠ 0 := by positivity
  unfold linspace
  rw [List.range_succ, List.map_append]
  simp only [List.map_cons, List.map_nil, List.getLastD_concat]
  push_cast
  rw [add_sub_cancel_right, mul_div_cancel₀ _ hn]
  ring

theorem edgeAt_zero (a b : ℝ) (n : ℕ) : edgeAt a b n 0 = a := by simp [edgeAt]

theorem edgeAt_last (a b : ℝ) (n : ℕ) (h : 1 ≤ n) : edgeAt a b n n = b := by
  have hn : (n:ℝ) ≠ 0 := by positivity
  unfold edgeAt
  rw [mul_div_cancel₀ _ hn]; ring

theorem linspace_eq (a b : ℝ) (n : ℕ) :
    linspace a b (n+1) = (List.range (n+1)).map fun k => edgeAt a b n k := by
  unfold linspace edgeAt
  apply List.map_congr_left
  intro k _
  push_cast
  rw [add_sub_cancel_right]

theorem tail_linspace (a b : ℝ) (n : ℕ) :
    (linspace a b (n+1)).tail = (List.range n).map fun k => edgeAt a b n (k+1) := by
  rw [linspace_eq, List.range_succ_eq_map]
  simp

theorem dropLast_linspace (a b : ℝ) (n : ℕ) :
    (linspace a b (n+1)).dropLast = (List.range n).map fun k => edgeAt a b n k := by
  rw [linspace_eq, List.range_succ, List.map_append]
  simp

theorem mids_linspace (a b : ℝ) (n : ℕ) :
    mids (linspace a b (n+1)) = (List.range n).map fun k => midAt a b n k := by
  unfold mids
  rw [tail_linspace, dropLast_linspace, zipWith_map_same]
  apply List.map_congr_left
  intro k _
  unfold midAt; ring

@[simp] theorem length_mids_linspace (a b : ℝ) (n : ℕ) : (mids (linspace a b (n+1))).length = n := by
  rw [mids_linspace]; simp

theorem getD_range_map (n k : ℕ) (g : ℕ → ℝ) (h : k < n) : ((List.range n).map g).getD k 0 = g k := by
  rw [List.getD_eq_getElem?_getD, List.getElem?_map, List.getElem?_range h]; rfl

theorem mids_getD (a b : ℝ) (n k : ℕ) (h : k < n) :
    (mids (linspace a b (n+1))).getD k 0 = midAt a b n k := by
  rw [mids_linspace, getD_range_map n k _ h]

theorem edgeAt_diff (a b : ℝ) (n k : ℕ) : edgeAt a b n (k+1) - edgeAt a b n k = (b - a)/n := by
  unfold edgeAt; push_cast; ring

theorem edgeAt_mono {a b : ℝ} (h : a ≤ b) (n : ℕ) {k l : ℕ} (hkl : k ≤ l) :
    edgeAt a b n k ≤ edgeAt a b n l := by
  unfold edgeAt
  have : (k:ℝ) ≤ l := by exact_mod_cast hkl
  have h2 : 0 ≤ (b - a)/n := div_nonneg (by linarith) (by positivity)
  nlinarith

theorem edgeAt_strict {a b : ℝ} (h : a < b) {n : ℕ} (hn : 0 < n) {k l : ℕ} (hkl : k < l) :
    edgeAt a b n k < edgeAt a b n l := by
  unfold edgeAt
  have : (k:ℝ) < l := by exact_mod_cast hkl
  have h2 : 0 < (b - a)/n := div_pos (by linarith) (by exact_mod_cast hn)
  nlinarith

theorem pyMap_ok {α β : Type} (f : α → Py β) (g : α → β) (l : List α) (h : ∀ a ∈ l, f a = .ok (g a)) :
    pyMap f l = .ok (l.map g) := by
  induction l with
  | nil => rfl
  | cons a l ih =>
    unfold pyMap
    rw [h a (by simp), ih fun b hb => h b (by simp [hb])]
    rfl

/-- A table whose entries do not raise. -/
theorem tabulate_ok {α : Type} (rows cols : ℕ) (g : ℕ → ℕ → Py α) (v : ℕ → ℕ → α) (d : α)
    (h : ∀ i j, i < rows → j < cols → g i j = .ok (v i j)) :
    ∃ a, tabulate rows cols g d = .ok a ∧ a.rows = rows ∧ a.cols = cols ∧
      ∀ i j, i < rows → j < cols → a.val i j = v i j := by
  have e : pyMap (fun i => pyMap (g i) (List.range cols)) (List.range rows)
      = .ok ((List.range rows).map fun i => (List.range cols).map (v i)) := by
    apply pyMap_ok
    intro i hi
    apply pyMap_ok
    intro j hj
    exact h i j (List.mem_range.mp hi) (List.mem_range.mp hj)
  refine ⟨_, by unfold tabulate; rw [e]; rfl, rfl, rfl, ?_⟩
  intro i j hi hj
  simp [List.getD_eq_getElem?_getD, List.getElem?_map, List.getElem?_range hi, List.getElem?_range hj]

theorem tabulate_congr {α : Type} (rows cols : ℕ) (g g' : ℕ → ℕ → Py α) (d : α)
    (h : ∀ i j, i < rows → j < cols → g i j = g' i j) : tabulate rows cols g d = tabulate rows cols g' d := by
  have key : ∀ {α β : Type} (F F' : α → Py β) (l : List α), (∀ x ∈ l, F x = F' x) → pyMap F l = pyMap F' l := by
    intro α β F F' l
    induction l with
    | nil => intro _; rfl
    | cons a l ih =>
      intro h
      simp only [pyMap, h a (by simp), ih fun x hx => h x (by simp [hx])]
  unfold tabulate
  rw [key _ (fun i => pyMap (g' i) (List.range cols)) _ fun i hi =>
    key _ _ _ fun j hj => h i j (List.mem_range.mp hi) (List.mem_range.mp hj)]

theorem tabulate_error {α : Type} (rows cols : ℕ) (g : ℕ → ℕ → Py α) (d : α) (e : PyErr) (hr : 0 < rows)
    (hc : 0 < cols) (h : g 0 0 = .error e) : tabulate rows cols g d = .error e := by
  obtain ⟨r, rfl⟩ : ∃ r, rows = r + 1 := ⟨rows - 1, by omega⟩
  obtain ⟨c, rfl⟩ : ∃ c, cols = c + 1 := ⟨cols - 1, by omega⟩
  unfold tabulate
  rw [List.range_succ_eq_map, List.range_succ_eq_map]
  simp only [pyMap, h, bind, Except.bind]

end Magpie.Box2Ring

namespace Magpie.Dg
open Magpie Magpie.Radial Magpie.OneD Magpie.Spec Magpie.Box2Ring Finset

/-- `downgrade` on a dense grid of matching size. -/
theorem downgrade_ok (a : Arr2 (Option ℝ)) (u : ℕ → ℕ → ℝ) (nump numr m : ℕ) (hm : 1 ≤ m)
    (hnr : 1 ≤ numr) (hr : a.rows = m*nump) (hc : a.cols = m*numr)
    (hu : ∀ i j, i < a.rows → j < a.cols → a.val i j = some (u i j)) :
    ∃ out, downgrade a nump numr m m (m*numr) = .ok out ∧ out.rows = nump ∧ out.cols = numr ∧
      ∀ i j, i < nump → j < numr → out.val i j
        = some ((∑ l ∈ range m, ∑ k ∈ range m, u (i*m + k) (j*m + l))/m) := by
  have hC : 0 < m*numr := Nat.mul_pos hm hnr
  have h1 : a.rows*a.cols = nump*m*(m*numr) := by rw [hr, hc]; ring
  have h2 : nump*(m*numr) = nump*numr*m := by ring
  refine ⟨_, by
    unfold downgrade Arr2.reshape3
    rw [if_pos h1]
    simp only [bind, Except.bind]
    rw [if_pos h2]
    rfl, rfl, rfl, ?_⟩
  intro i j hi hj
  have hm0 : (m:ℝ) ≠ 0 := by positivity
  dsimp only
  rw [npSum_range_congr m _ fun l => ∑ k ∈ range m, u (i*m + k) (j*m + l)]
  · simp [odiv, fdiv, hm0]
  · intro l hl
    have hlt : j*m + l < m*numr := by nlinarith
    have hflat : (i*numr + j)*m + l = (j*m + l) + i*(m*numr) := by ring
    have hdiv : ((i*numr + j)*m + l)/(m*numr) = i := by
      rw [hflat, Nat.add_mul_div_right _ _ hC, Nat.div_eq_of_lt hlt]; simp
    have hmod : ((i*numr + j)*m + l) % (m*numr) = j*m + l := by
      rw [hflat, Nat.add_mul_mod_self_right, Nat.mod_eq_of_lt hlt]
    simp only [hdiv, hmod]
    apply npSum_range_congr
    intro k hk
    have hd : ((i*m + k)*(m*numr) + (j*m + l))/(m*numr) = i*m + k := by
      rw [add_comm, Nat.add_mul_div_right _ _ hC, Nat.div_eq_of_lt hlt]; simp
    have hmd : ((i*m + k)*(m*numr) + (j*m + l)) % (m*numr) = j*m + l := by
      rw [add_comm, Nat.add_mul_mod_self_right, Nat.mod_eq_of_lt hlt]
    rw [hc]
    simp only [hd, hmd]
    apply hu
    · rw [hr]; nlinarith
    · rw [hc]; exact hlt

/-- `reshape` fails for unequal rebin factors. -/
theorem downgrade_error (a : Arr2 (Option ℝ)) (nump numr mr mp : ℕ) (hne : mr ≠ mp) (hmr : 1 ≤ mr)
    (hnp : 1 ≤ nump) (hnr : 1 ≤ numr) (hr : a.rows = mp*nump) (hc : a.cols = mr*numr) :
    downgrade a nump numr mr mp (mr*numr) = .error .valueError := by
  have h1 : ¬ a.rows*a.cols = nump*mr*(mr*numr) := by
    rw [hr, hc]
    intro h
    have : mp*(nump*(mr*numr)) = mr*(nump*(mr*numr)) := by linarith [h, mul_comm nump mp]
    have hp : 0 < nump*(mr*numr) := by positivity
    exact hne (Nat.eq_of_mul_eq_mul_right hp this).symm
  unfold downgrade Arr2.reshape3
  rw [if_neg h1]; rfl

end Magpie.Dg

namespace Magpie.Box2Ring
open Magpie Magpie.Radial Magpie.OneD Magpie.Spec Finset

theorem polarChecks_ok {A : PolarArgs} (h : PolarOk A) : polarChecks A = .ok () := by
  unfold polarChecks pyAssert
  simp only [if_pos h.r, if_pos h.numr, if_pos h.pmin, if_pos h.pmin2, if_pos h.p, if_pos h.pmax,
    if_pos h.pmax2, if_pos h.nump, if_pos h.center, bind, Except.bind]

theorem setupBox_ok {X : Type} {B : BoxArgs} (h1 : 0 < B.numx) (h2 : 0 < B.numy) (s : State X) :
    setupBox B s = (.ok (), { s with box := some B.box }) := by
  unfold setupBox pyAssert
  simp [h1, h2]

theorem firstDiff_mids (a b : ℝ) (n : ℕ) (h : 2 ≤ n) :
    firstDiff (mids (linspace a b (n+1))) = .ok (midAt a b n 1 - midAt a b n 0) := by
  obtain ⟨m, rfl⟩ : ∃ m, n = m + 2 := ⟨n - 2, by omega⟩
  rw [mids_linspace, List.range_succ_eq_map, List.range_succ_eq_map]
  rfl

theorem firstDiff_mids_one (a b : ℝ) : firstDiff (mids (linspace a b (1+1))) = .error .indexError := by
  rw [mids_linspace]; rfl

/-- The edges computed by `setup_polar` and `setup_polar_lin`. -/
noncomputable def linEdges (A : PolarArgs) : Edges :=
  mkEdges (linspace A.rmin A.rmax (A.numr.toNat + 1)) (linspace A.pmin A.pmax (A.nump.toNat + 1))

end Magpie.Box2Ring

namespace Magpie.Dg
open Magpie Magpie.Radial Magpie.OneD Magpie.Spec Magpie.Box2Ring Magpie.Coords Finset

theorem setupPolar_ok {A : PolarArgs} (h : PolarOk A) (hr : 2 ≤ A.numr) (hp : 2 ≤ A.nump) (mr mp : ℕ)
    (s : State) :
    ∃ dr dp, setupPolar A mr mp s = (.ok (), { s with
      edges := some (linEdges A), dr := some (.scalar dr), dp := some dp
      polar := some (mkPolar (linEdges A) A)
      extra := some (mkDense (linEdges A) A.phiShift mr mp) }) := by
  have e1 := firstDiff_mids A.rmin A.rmax A.numr.toNat (by omega)
  have e2 := firstDiff_mids A.pmin A.pmax A.nump.toNat (by omega)
  refine ⟨midAt A.rmin A.rmax A.numr.toNat 1 - midAt A.rmin A.rmax A.numr.toNat 0,
    midAt A.pmin A.pmax A.nump.toNat 1 - midAt A.pmin A.pmax A.nump.toNat 0, ?_⟩
  unfold setupPolar pyAssert
  rw [if_pos h.rmin]
  simp only [Meth.bind_apply, Meth.lift_apply, Meth.assign_apply, polarChecks_ok h, mkEdges, e1, e2,
    linEdges]

/-- The cell of a point. -/
theorem cellIdx_eq {lo hi : ℝ} (h : lo < hi) {n : ℕ} (hn : 0 < n) (x : ℝ) (k : ℕ) :
    cellIdx x lo ((hi - lo)/n) n = some k ↔ InCell lo hi n k x := by
  have hd : 0 < (hi - lo)/n := div_pos (by linarith) (by exact_mod_cast hn)
  unfold cellIdx InCell edgeAt
  rw [if_neg hd.ne']
  simp only
  set i := ⌊(x - lo)/((hi - lo)/n)⌋ with hi'
  have hfl : ∀ z : ℤ, i = z ↔ lo + z*((hi - lo)/n) ≤ x ∧ x < lo + (z+1)*((hi - lo)/n) := by
    intro z
    rw [hi', Int.floor_eq_iff, le_div_iff₀ hd, div_lt_iff₀ hd]
    constructor <;> rintro ⟨a, b⟩ <;> constructor <;> linarith
  constructor
  · intro hk
    split_ifs at hk with hc
    rw [Option.some.injEq] at hk
    have hz : i = (k:ℤ) := by omega
    have := (hfl k).mp hz
    push_cast at this ⊢
    exact ⟨by omega, this.1, this.2⟩
  · rintro ⟨h1, h2, h3⟩
    have hz : i = (k:ℤ) := (hfl k).mpr (by push_cast at h3 ⊢; exact ⟨h2, h3⟩)
    rw [if_pos (by omega), hz]
    simp

theorem box_dx {B : BoxArgs} (h : BoxOk B) : B.box.dx = (B.xmax - B.xmin)/B.numx.toNat := by
  have := h.numx
  show (linspace B.xmin B.xmax (B.numx.toNat + 1)).getD 1 0 - _ = _
  rw [linspace_getD _ _ _ _ (by omega)]
  show _ - (linspace B.xmin B.xmax (B.numx.toNat + 1)).getD 0 0 = _
  rw [linspace_getD _ _ _ _ (by omega)]
  exact edgeAt_diff _ _ _ 0

theorem box_dy {B : BoxArgs} (h : BoxOk B) : B.box.dy = (B.ymax - B.ymin)/B.numy.toNat := by
  have := h.numy
  show (linspace B.ymin B.ymax (B.numy.toNat + 1)).getD 1 0 - _ = _
  rw [linspace_getD _ _ _ _ (by omega)]
  show _ - (linspace B.ymin B.ymax (B.numy.toNat + 1)).getD 0 0 = _
  rw [linspace_getD _ _ _ _ (by omega)]
  exact edgeAt_diff _ _ _ 0

theorem highres_ok {B : BoxArgs} (h : BoxOk B) (c : ℝ × ℝ) (f : Arr2 (Option ℝ)) (v : ℕ → ℕ → ℝ)
    (hr : f.rows = B.numy.toNat) (hc : f.cols = B.numx.toNat)
    (hv : ∀ i j, i < f.rows → j < f.cols → f.val i j = some (v i j)) (r phi g : ℝ)
    (hg : Reads B v (polar2cart r phi c) g) : highres B.box c f r phi = .ok (some g) := by
  have hnx := h.numx
  have hny := h.numy
  have ex : ∀ x k, cellIdx x (B.box.xedges.getD 0 0) B.box.dx B.box.xmid.length = some k ↔
      InCell B.xmin B.xmax B.numx.toNat k x := by
    intro x k
    rw [box_dx h]
    have e0 : B.box.xedges.getD 0 0 = B.xmin := by
      show (linspace B.xmin B.xmax (B.numx.toNat + 1)).getD 0 0 = _
      rw [linspace_getD _ _ _ _ (by omega), edgeAt_zero]
    have el : B.box.xmid.length = B.numx.toNat := length_mids_linspace _ _ _
    rw [e0, el]
    exact cellIdx_eq h.hx (by omega) x k
  have ey : ∀ x k, cellIdx x (B.box.yedges.getD 0 0) B.box.dy B.box.ymid.length = some k ↔
      InCell B.ymin B.ymax B.numy.toNat k x := by
    intro x k
    rw [box_dy h]
    have e0 : B.box.yedges.getD 0 0 = B.ymin := by
      show (linspace B.ymin B.ymax (B.numy.toNat + 1)).getD 0 0 = _
      rw [linspace_getD _ _ _ _ (by omega), edgeAt_zero]
    have el : B.box.ymid.length = B.numy.toNat := length_mids_linspace _ _ _
    rw [e0, el]
    exact cellIdx_eq h.hy (by omega) x k
  unfold highres
  simp only
  split
  · rename_i ix iy h1 h2
    rw [ex] at h1
    rw [ey] at h2
    have hin : iy < f.rows ∧ ix < f.cols := ⟨by rw [hr]; exact h2.1, by rw [hc]; exact h1.1⟩
    unfold Arr2.get
    rw [if_pos hin, hv _ _ hin.1 hin.2, hg.1 ix iy h1 h2]
  · rename_i hno
    rw [hg.2]
    rintro ⟨a, b, ha, hb⟩
    rw [← ex] at ha
    rw [← ey] at hb
    exact hno a b ha hb

theorem shiftPhi_cos (d p : ℝ) : Real.cos (shiftPhi d p) = Real.cos (p + d) ∧
    Real.sin (shiftPhi d p) = Real.sin (p + d) := by
  unfold shiftPhi
  by_cases h : d = 0
  · simp [h]
  · simp only [ne_eq, h, not_false_eq_true, if_true]
    split_ifs <;> simp [Real.cos_add_two_pi, Real.sin_add_two_pi]

/-- The radial factor of the area of the dense cells. -/
noncomputable def rweight (A : PolarArgs) (mr q : ℕ) : ℝ :=
  edgeAt A.rmin A.rmax (mr*A.numr.toNat) (q+1)^2 - edgeAt A.rmin A.rmax (mr*A.numr.toNat) q^2

theorem rweight_pos {A : PolarArgs} (h : PolarOk A) {mr : ℕ} (hm : 1 ≤ mr) (q : ℕ) : 0 < rweight A mr q := by
  have hn : 0 < mr*A.numr.toNat := Nat.mul_pos hm (by have := h.numr; omega)
  have h1 := edgeAt_strict h.r hn (Nat.lt_succ_self q)
  have h0 : 0 ≤ edgeAt A.rmin A.rmax (mr*A.numr.toNat) q := by
    have := edgeAt_mono h.r.le (mr*A.numr.toNat) (Nat.zero_le q)
    rw [edgeAt_zero] at this
    linarith [h.rmin]
  unfold rweight
  nlinarith

/-- The state after `setup_box(B)` and `setup_polar(A, rebin_r=mr, rebin_p=mp)`. -/
structure IsSetup (B : BoxArgs) (A : PolarArgs) (mr mp : ℕ) (s : State) : Prop where
  box : s.box = some B.box
  edges : s.edges = some (linEdges A)
  polar : s.polar = some (mkPolar (linEdges A) A)
  extra : s.extra = some (mkDense (linEdges A) A.phiShift mr mp)

theorem setup_run {B : BoxArgs} {A : PolarArgs} (hB1 : 0 < B.numx) (hB2 : 0 < B.numy) (hA : PolarOk A)
    (hr : 2 ≤ A.numr) (hp : 2 ≤ A.nump) (mr mp : ℕ) (s : State) :
    ∃ s', (do setupBox B; setupPolar A mr mp : Meth State Unit) s = (.ok (), s') ∧ IsSetup B A mr mp s' ∧
      s'.area2d = s.area2d ∧ s'.pixarea = s.pixarea ∧ s'.maskInBound = s.maskInBound := by
  obtain ⟨dr, dp, e⟩ := setupPolar_ok hA hr hp mr mp { s with box := some B.box }
  refine ⟨{ s with box := some B.box, edges := some (linEdges A), dr := some (.scalar dr), dp := some dp
                   polar := some (mkPolar (linEdges A) A)
                   extra := some (mkDense (linEdges A) A.phiShift mr mp) }, ?_, ⟨rfl, rfl, rfl, rfl⟩,
    rfl, rfl, rfl⟩
  simp only [Meth.bind_apply, setupBox_ok hB1 hB2, e]

theorem linEdges_rmid_length (A : PolarArgs) : (linEdges A).rmid.length = A.numr.toNat :=
  length_mids_linspace _ _ _

theorem linEdges_pmid_length (A : PolarArgs) : (linEdges A).pmid.length = A.nump.toNat :=
  length_mids_linspace _ _ _

theorem mkDense_eq {A : PolarArgs} (h : PolarOk A) (mr mp : ℕ) :
    mkDense (linEdges A) A.phiShift mr mp =
      ⟨mr, mp, linspace A.rmin A.rmax (mr*A.numr.toNat + 1), mids (linspace A.rmin A.rmax (mr*A.numr.toNat + 1)),
        linspace A.pmin A.pmax (mp*A.nump.toNat + 1), mids (linspace A.pmin A.pmax (mp*A.nump.toNat + 1)),
        ⟨mp*A.nump.toNat, mr*A.numr.toNat, fun _ q => (mids (linspace A.rmin A.rmax (mr*A.numr.toNat + 1))).getD q 0⟩,
        ⟨mp*A.nump.toNat, mr*A.numr.toNat, fun n _ =>
          shiftPhi A.phiShift ((mids (linspace A.pmin A.pmax (mp*A.nump.toNat + 1))).getD n 0)⟩⟩ := by
  have hr := h.numr
  have hp := h.nump
  have e1 : (linEdges A).redges.getD 0 0 = A.rmin := by
    show (linspace A.rmin A.rmax (A.numr.toNat + 1)).getD 0 0 = _
    rw [linspace_getD _ _ _ _ (by omega), edgeAt_zero]
  have e2 : (linEdges A).redges.getLastD 0 = A.rmax :=
    linspace_getLastD _ _ _ (by omega)
  have e3 : (linEdges A).pedges.getD 0 0 = A.pmin := by
    show (linspace A.pmin A.pmax (A.nump.toNat + 1)).getD 0 0 = _
    rw [linspace_getD _ _ _ _ (by omega), edgeAt_zero]
  have e4 : (linEdges A).pedges.getLastD 0 = A.pmax :=
    linspace_getLastD _ _ _ (by omega)
  unfold mkDense
  simp only [e1, e2, e3, e4, linEdges_rmid_length, linEdges_pmid_length, meshgridXY, length_mids_linspace]

theorem rw_eq (A : PolarArgs) (mr q : ℕ) (hq : q < mr*A.numr.toNat) :
    (List.zipWith (fun b a => b^2 - a^2) (linspace A.rmin A.rmax (mr*A.numr.toNat + 1)).tail
      (linspace A.rmin A.rmax (mr*A.numr.toNat + 1)).dropLast).getD q 0 = rweight A mr q := by
  rw [tail_linspace, dropLast_linspace, List.zipWith_map, List.zipWith_self, getD_range_map _ _ _ hq]
  rfl

theorem rw_length (A : PolarArgs) (mr : ℕ) :
    (List.zipWith (fun b a => b^2 - a^2) (linspace A.rmin A.rmax (mr*A.numr.toNat + 1)).tail
      (linspace A.rmin A.rmax (mr*A.numr.toNat + 1)).dropLast).length = mr*A.numr.toNat := by
  rw [tail_linspace, dropLast_linspace]
  simp

/-- Area-weighted mean of `g` over the `m × m` dense cells of pixel `(i, j)`. -/
theorem remap1_ok {B : BoxArgs} {A : PolarArgs} {m : ℕ} (hB : BoxOk B) (hA : PolarOk A) (hm : 1 ≤ m)
    {s : State} (hs : IsSetup B A m m s) (f : Arr2 (Option ℝ)) (v : ℕ → ℕ → ℝ)
    (hr : f.rows = B.numy.toNat) (hc : f.cols = B.numx.toNat)
    (hv : ∀ i j, i < f.rows → j < f.cols → f.val i j = some (v i j)) (g : ℕ → ℕ → ℝ)
    (hg : ∀ n q, n < m*A.nump.toNat → q < m*A.numr.toNat → Reads B v (densePoint A m m n q) (g n q)) :
    ∃ out, remap1 f s = (.ok out, s) ∧ out.rows = A.nump.toNat ∧ out.cols = A.numr.toNat ∧
      ∀ i j, i < A.nump.toNat → j < A.numr.toNat →
        out.val i j = some ((∑ l ∈ range m, ∑ k ∈ range m, rweight A m (j*m + l) * g (i*m + k) (j*m + l)) /
          (∑ l ∈ range m, ∑ k ∈ range m, rweight A m (j*m + l))) := by
  have hnr := hA.numr
  have hnp := hA.nump
  have hm0 : 0 < m := hm
  set NR := A.numr.toNat with hNR
  set NP := A.nump.toNat with hNP
  have hNR1 : 1 ≤ NR := by omega
  have hsum : ∀ j, 0 < ∑ l ∈ range m, ∑ k ∈ range m, rweight A m (j*m + l) := by
    intro j
    have hne : (range m).Nonempty := ⟨0, by simpa using hm0⟩
    exact sum_pos (fun l _ => sum_pos (fun k _ => rweight_pos hA hm _) hne) hne
  obtain ⟨hi, ehi, hir, hic, hiv⟩ := tabulate_ok (m*NP) (m*NR)
    (fun i j => highres B.box (centerOf A.center) f
      ((mids (linspace A.rmin A.rmax (m*NR + 1))).getD j 0)
      (shiftPhi A.phiShift ((mids (linspace A.pmin A.pmax (m*NP + 1))).getD i 0)))
    (fun i j => some (g i j)) none (by
      intro i j hi hj
      refine highres_ok hB _ f v hr hc hv _ _ _ ?_
      have := hg i j hi hj
      rw [mids_getD _ _ _ _ hi, mids_getD _ _ _ _ hj]
      unfold polar2cart
      simp only [shiftPhi_cos]
      exact this)
  obtain ⟨fp, efp, fpr, fpc, fpv⟩ := downgrade_ok
    ⟨hi.rows, hi.cols, fun i j => omul (hi.val i j)
      ((List.zipWith (fun b a => b^2 - a^2) (linspace A.rmin A.rmax (m*NR + 1)).tail
        (linspace A.rmin A.rmax (m*NR + 1)).dropLast).getD j 0)⟩
    (fun i j => rweight A m j * g i j) NP NR m hm hNR1 hir hic (by
      intro i j hi' hj'
      have hi'' : i < m*NP := by rw [← hir]; exact hi'
      have hj'' : j < m*NR := by rw [← hic]; exact hj'
      show omul (hi.val i j) _ = _
      rw [hiv i j hi'' hj'', rw_eq A m j hj'']
      simp [omul, mul_comm])
  obtain ⟨wp, ewp, wpr, wpc, wpv⟩ := downgrade_ok
    ⟨m*NP, m*NR, fun i j => some
      ((List.zipWith (fun b a => b^2 - a^2) (linspace A.rmin A.rmax (m*NR + 1)).tail
        (linspace A.rmin A.rmax (m*NR + 1)).dropLast).getD j 0)⟩
    (fun i j => rweight A m j) NP NR m hm hNR1 rfl rfl (by
      intro i j hi' hj'
      show some _ = _
      rw [rw_eq A m j hj'])
  refine ⟨⟨fp.rows, fp.cols, fun i j => odiv (fp.val i j) (wp.val i j)⟩, ?_, fpr, fpc, ?_⟩
  · unfold remap1
    simp only [Meth.bind_apply, Meth.self_apply, Meth.lift_apply, hs.extra, hs.polar, hs.box, need_some,
      mkDense_eq hA, mkPolar, meshgridXY, linEdges_rmid_length, linEdges_pmid_length, ← hNR, ← hNP,
      length_mids_linspace, ehi, rw_length]
    have hz : hi.rows = m*NP ∧ hi.cols = m*NR := ⟨hir, hic⟩
    unfold Arr2.zip
    simp only [hNR, rw_length]
    simp only [← hNR, if_pos hz, efp, ewp, fpr, wpr, fpc, wpc, and_self, if_true]
  · intro i j hi' hj'
    show odiv (fp.val i j) (wp.val i j) = _
    rw [fpv i j hi' hj', wpv i j hi' hj']
    have hs0 := (hsum j).ne'
    have hmr : (m:ℝ) ≠ 0 := by exact_mod_cast hm0.ne'
    unfold odiv fdiv
    simp only
    rw [if_neg (div_ne_zero hs0 hmr)]
    congr 1
    field_simp

theorem denseArea_eq {A : PolarArgs} (h : PolarOk A) {m : ℕ} (hm : 1 ≤ m) (n q : ℕ) :
    denseArea A m m n q = (A.pmax - A.pmin)/(m*A.nump.toNat : ℕ)/2*rweight A m q := by
  unfold denseArea rweight
  rw [sectorArea_eq, edgeAt_diff]
  ring

theorem pstep_pos {A : PolarArgs} (h : PolarOk A) {m : ℕ} (hm : 1 ≤ m) :
    0 < (A.pmax - A.pmin)/(m*A.nump.toNat : ℕ)/2 := by
  have hn : 0 < m*A.nump.toNat := Nat.mul_pos hm (by have := h.nump; omega)
  have := h.p
  have hn' : (0:ℝ) < (m*A.nump.toNat : ℕ) := by exact_mod_cast hn
  exact div_pos (div_pos (by linarith) hn') (by norm_num)

theorem areaSum_eq {A : PolarArgs} (h : PolarOk A) {m : ℕ} (hm : 1 ≤ m) (g : ℕ → ℕ → ℝ) (i j : ℕ) :
    areaSum A m g i j = (A.pmax - A.pmin)/(m*A.nump.toNat : ℕ)/2*
      ∑ l ∈ range m, ∑ k ∈ range m, rweight A m (j*m + l)*g (i*m + k) (j*m + l) := by
  unfold areaSum
  rw [sum_comm, mul_sum]
  refine sum_congr rfl fun l _ => ?_
  rw [mul_sum]
  refine sum_congr rfl fun k _ => ?_
  rw [denseArea_eq h hm]
  ring

theorem denseArea_pos {A : PolarArgs} (h : PolarOk A) {m : ℕ} (hm : 1 ≤ m) (n q : ℕ) :
    0 < denseArea A m m n q := by
  rw [denseArea_eq h hm]
  exact mul_pos (pstep_pos h hm) (rweight_pos h hm q)

theorem areaSum_pos {A : PolarArgs} (h : PolarOk A) {m : ℕ} (hm : 1 ≤ m) (i j : ℕ) :
    0 < areaSum A m (fun _ _ => 1) i j := by
  have hne : (range m).Nonempty := ⟨0, by simp; omega⟩
  exact sum_pos (fun l _ => sum_pos (fun k _ => mul_pos (denseArea_pos h hm _ _) one_pos) hne) hne

theorem mean_eq {A : PolarArgs} (h : PolarOk A) {m : ℕ} (hm : 1 ≤ m) (g : ℕ → ℕ → ℝ) (i j : ℕ) :
    (∑ l ∈ range m, ∑ k ∈ range m, rweight A m (j*m + l) * g (i*m + k) (j*m + l)) /
      (∑ l ∈ range m, ∑ k ∈ range m, rweight A m (j*m + l))
      = areaSum A m g i j/areaSum A m (fun _ _ => 1) i j := by
  rw [areaSum_eq h hm, areaSum_eq h hm]
  simp only [mul_one]
  rw [mul_div_mul_left _ _ (pstep_pos h hm).ne']

theorem remap1_mean {B : BoxArgs} {A : PolarArgs} {m : ℕ} (hB : BoxOk B) (hA : PolarOk A) (hm : 1 ≤ m)
    {s : State} (hs : IsSetup B A m m s) (f : Arr2 (Option ℝ)) (v : ℕ → ℕ → ℝ)
    (hr : f.rows = B.numy.toNat) (hc : f.cols = B.numx.toNat)
    (hv : ∀ i j, i < f.rows → j < f.cols → f.val i j = some (v i j)) (g : ℕ → ℕ → ℝ)
    (hg : ∀ n q, n < m*A.nump.toNat → q < m*A.numr.toNat → Reads B v (densePoint A m m n q) (g n q)) :
    ∃ out, remap1 f s = (.ok out, s) ∧ out.rows = A.nump.toNat ∧ out.cols = A.numr.toNat ∧
      ∀ i j, i < A.nump.toNat → j < A.numr.toNat →
        out.val i j = some (areaSum A m g i j/areaSum A m (fun _ _ => 1) i j) := by
  obtain ⟨out, h1, h2, h3, h4⟩ := remap1_ok hB hA hm hs f v hr hc hv g hg
  refine ⟨out, h1, h2, h3, fun i j hi hj => ?_⟩
  rw [h4 i j hi hj, mean_eq hA hm]

/-- Every point of the plane has a value. -/
theorem exists_reads (B : BoxArgs) (hB : BoxOk B) (v : ℕ → ℕ → ℝ) (pt : ℝ × ℝ) : ∃ g, Reads B v pt g := by
  have hx : 0 < B.numx.toNat := by have := hB.numx; omega
  have hy : 0 < B.numy.toNat := by have := hB.numy; omega
  by_cases h : ∃ a b, InCell B.xmin B.xmax B.numx.toNat a pt.1 ∧ InCell B.ymin B.ymax B.numy.toNat b pt.2
  · obtain ⟨a, b, ha, hb⟩ := h
    refine ⟨v b a, fun a' b' ha' hb' => ?_, fun hn => absurd ⟨a, b, ha, hb⟩ hn⟩
    rw [← cellIdx_eq hB.hx hx] at ha ha'
    rw [← cellIdx_eq hB.hy hy] at hb hb'
    rw [ha] at ha'
    rw [hb] at hb'
    rw [Option.some.inj ha', Option.some.inj hb']
  · exact ⟨0, fun a b ha hb => absurd ⟨a, b, ha, hb⟩ h, fun _ => rfl⟩

theorem remap1_error {B : BoxArgs} {A : PolarArgs} {mr mp : ℕ} (hB : BoxOk B) (hA : PolarOk A)
    (hm1 : 1 ≤ mr) (hm2 : 1 ≤ mp) (hm : mr ≠ mp)
    {s : State} (hs : IsSetup B A mr mp s) (f : Arr2 (Option ℝ)) (v : ℕ → ℕ → ℝ)
    (hr : f.rows = B.numy.toNat) (hc : f.cols = B.numx.toNat)
    (hv : ∀ i j, i < f.rows → j < f.cols → f.val i j = some (v i j)) :
    remap1 f s = (.error .valueError, s) := by
  have hnr := hA.numr
  have hnp := hA.nump
  set NR := A.numr.toNat with hNR
  set NP := A.nump.toNat with hNP
  choose g hg using fun n q => exists_reads B hB v (densePoint A mr mp n q)
  obtain ⟨hi, ehi, hir, hic, hiv⟩ := tabulate_ok (mp*NP) (mr*NR)
    (fun i j => highres B.box (centerOf A.center) f
      ((mids (linspace A.rmin A.rmax (mr*NR + 1))).getD j 0)
      (shiftPhi A.phiShift ((mids (linspace A.pmin A.pmax (mp*NP + 1))).getD i 0)))
    (fun i j => some (g i j)) none (by
      intro i j hi hj
      refine highres_ok hB _ f v hr hc hv _ _ _ ?_
      have := hg i j
      rw [mids_getD _ _ _ _ hi, mids_getD _ _ _ _ hj]
      unfold polar2cart
      simp only [shiftPhi_cos]
      exact this)
  unfold remap1
  simp only [Meth.bind_apply, Meth.self_apply, Meth.lift_apply, hs.extra, hs.polar, hs.box, need_some,
    mkDense_eq hA, mkPolar, meshgridXY, linEdges_rmid_length, linEdges_pmid_length, ← hNR, ← hNP,
    length_mids_linspace, ehi, rw_length]
  have hz : hi.rows = mp*NP ∧ hi.cols = mr*NR := ⟨hir, hic⟩
  unfold Arr2.zip
  simp only [hNR, rw_length]
  simp only [← hNR, if_pos hz]
  rw [downgrade_error] <;> first | exact hir | exact hic | assumption | omega

theorem exists_inCell {lo hi : ℝ} (h : lo < hi) {n : ℕ} (hn : 0 < n) (x : ℝ) :
    (∃ k, InCell lo hi n k x) ↔ lo ≤ x ∧ x < hi := by
  have hd : 0 < (hi - lo)/n := div_pos (by linarith) (by exact_mod_cast hn)
  have hn' : (0:ℝ) < n := by exact_mod_cast hn
  constructor
  · rintro ⟨k, h1, h2, h3⟩
    have e0 := edgeAt_mono h.le n (Nat.zero_le k)
    have e1 := edgeAt_mono h.le n (show k + 1 ≤ n from h1)
    rw [edgeAt_zero] at e0
    rw [edgeAt_last _ _ _ hn] at e1
    exact ⟨by linarith, by linarith⟩
  · rintro ⟨h1, h2⟩
    have h0 : 0 ≤ (x - lo)/((hi - lo)/n) := div_nonneg (by linarith) hd.le
    have hlt : (x - lo)/((hi - lo)/n) < n := by
      rw [div_lt_iff₀ hd, mul_div_cancel₀ _ hn'.ne']
      linarith
    refine ⟨⌊(x - lo)/((hi - lo)/n)⌋.toNat, ?_⟩
    rw [← cellIdx_eq h hn]
    unfold cellIdx
    rw [if_neg hd.ne']
    simp only
    rw [if_pos]
    refine ⟨Int.floor_nonneg.mpr h0, ?_⟩
    rw [Int.floor_lt]
    exact_mod_cast hlt

theorem inBox_iff {B : BoxArgs} (hB : BoxOk B) (pt : ℝ × ℝ) :
    (∃ a b, InCell B.xmin B.xmax B.numx.toNat a pt.1 ∧ InCell B.ymin B.ymax B.numy.toNat b pt.2) ↔
      InBox B pt := by
  have hx : 0 < B.numx.toNat := by have := hB.numx; omega
  have hy : 0 < B.numy.toNat := by have := hB.numy; omega
  unfold InBox
  constructor
  · rintro ⟨a, b, ha, hb⟩
    have h1 := (exists_inCell hB.hx hx _).mp ⟨a, ha⟩
    have h2 := (exists_inCell hB.hy hy _).mp ⟨b, hb⟩
    exact ⟨h1.1, h1.2, h2.1, h2.2⟩
  · rintro ⟨h1, h2, h3, h4⟩
    obtain ⟨a, ha⟩ := (exists_inCell hB.hx hx _).mpr ⟨h1, h2⟩
    obtain ⟨b, hb⟩ := (exists_inCell hB.hy hy _).mpr ⟨h3, h4⟩
    exact ⟨a, b, ha, hb⟩

end Magpie.Dg
