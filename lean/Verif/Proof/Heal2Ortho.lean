import Verif.Spec.Heal2Ortho
import Verif.Proof.PointOfView
import Verif.Proof.Box2Ring

/-!
# Lemmas about `Heal2Ortho`
-/

set_option linter.unusedSimpArgs false
set_option linter.unusedVariables false
set_option linter.unusedSectionVars false

namespace Magpie.Ortho
open Magpie Magpie.Radial Magpie.OneD Magpie.Coords Magpie.Healpix Magpie.Spec Magpie.Pov Magpie.Box2Ring
open Matrix Real

/-- `usphere_shift` acts as a rotation, on arrays and on scalars. -/
theorem shift_matrix {pS tS pE tE : ℝ} (h1 : 0 ≤ pS ∧ pS ≤ 2*π) (h2 : 0 ≤ pE ∧ pE ≤ 2*π)
    (h3 : 0 ≤ tS ∧ tS ≤ π) (h4 : 0 ≤ tE ∧ tE ≤ π) (hp : |pE - pS| < 2*π) (ht : |tS - tE| < π) :
    ∃ M : Matrix (Fin 3) (Fin 3) ℝ, IsRot M ∧ M *ᵥ dir pE tS = dir pE tE ∧ M *ᵥ hor pE = hor pE ∧
      (∀ {ι : Type} (l : List ι), l ≠ [] → ∀ p t : ι → ℝ, ∃ (p' t' : ι → ℝ) (c : List ℝ),
        shiftArr (l.map p) (l.map t) pS tS pE tE
          = .ok ⟨l.map fun i => some (p' i), l.map fun i => some (t' i), c⟩ ∧
        ∀ i, dir (p' i) (t' i) = (M * Rz (pE - pS)) *ᵥ dir (p i) (t i)) ∧
      (∀ p t, ∃ p' t', shift p t pS tS pE tE = .ok (some (p', t')) ∧
        dir p' t' = (M * Rz (pE - pS)) *ᵥ dir p t) := by
  obtain ⟨M, hR, hu, hh, hone, hf, -⟩ := merid h2 h3 h4 ht
  refine ⟨M, hR, hu, hh, ?_, ?_⟩
  · intro ι l hne p t
    obtain ⟨q, hq, hqd⟩ := phiShiftArr_map l p hp
    unfold shiftArr
    rw [shiftChecks_ok h1 h2 h3 h4]
    simp only [bind, Except.bind, hq]
    by_cases c : tS = tE
    · rw [if_neg (by simpa using c)]
      refine ⟨q, t, l.map q, by simp only [List.map_map, Function.comp_def, pure, Except.pure], fun i => ?_⟩
      rw [hone c, Matrix.one_mul, hqd]
    · rw [if_pos c]
      obtain ⟨p', t', hr, hd⟩ := rotateArr_map l hne q t h2 h3 h4 c (hf c)
      rw [hr]
      refine ⟨p', t', _, rfl, fun i => ?_⟩
      rw [hd, hqd, mulVec_mulVec]
  · intro p t
    have hp' := abs_lt.mp hp
    obtain ⟨y, k, e, hy, _⟩ := phiShift_ok (phi := p) (dphi := pE - pS) (by linarith) hp'.2
    have hyd : dir y t = Rz (pE - pS) *ᵥ dir p t := by rw [Rz_dir, hy, dir_turn]
    unfold shift
    rw [shiftChecks_ok h1 h2 h3 h4]
    simp only [bind, Except.bind, e]
    by_cases c : tS = tE
    · rw [if_neg (by simpa using c)]
      exact ⟨y, t, rfl, by rw [hone c, Matrix.one_mul, hyd]⟩
    · rw [if_pos c]
      obtain ⟨p', t', hr, hd⟩ := hf c y t
      exact ⟨p', t', hr, by rw [hd, hyd, mulVec_mulVec]⟩

theorem east_eq (phi : ℝ) : east phi = hor phi := rfl

theorem dir_cross_east (phi theta : ℝ) : dir phi theta ⨯₃ east phi = north phi theta := by
  have h := sin_sq_add_cos_sq phi
  ext i
  fin_cases i <;> simp [dir, east, north, cross_apply]
  · ring
  · ring
  · linear_combination (sin theta)*h

/-- A rotation is determined by the images of the first and third axes. -/
theorem frame_map {F : Matrix (Fin 3) (Fin 3) ℝ} (hR : IsRot F) {phi theta : ℝ}
    (hx : F *ᵥ ![1, 0, 0] = east phi) (hz : F *ᵥ ![0, 0, 1] = dir phi theta) (v : Fin 3 → ℝ) :
    F *ᵥ v = v 0 • east phi + v 1 • north phi theta + v 2 • dir phi theta := by
  have hy : F *ᵥ ![0, 1, 0] = north phi theta := by
    have : (![0, 1, 0] : Fin 3 → ℝ) = ![0, 0, 1] ⨯₃ ![1, 0, 0] := by
      ext i; fin_cases i <;> simp [cross_apply]
    rw [this, hR.cross, hx, hz, dir_cross_east]
  have e : v = v 0 • ![1, 0, 0] + v 1 • ![0, 1, 0] + v 2 • ![0, 0, 1] := by
    ext i; fin_cases i <;> simp
  conv_lhs => rw [e]
  rw [mulVec_add, mulVec_add, mulVec_smul, mulVec_smul, mulVec_smul, hx, hy, hz]

theorem cos_sub_end (a : ℝ) : cos (a - 3*π/2) = -sin a ∧ sin (a - 3*π/2) = cos a := by
  have e : a - 3*π/2 = a + π/2 - 2*π := by ring
  rw [e, cos_sub_two_pi, sin_sub_two_pi, cos_add_pi_div_two, sin_add_pi_div_two]
  exact ⟨rfl, rfl⟩

/-- The shift from the axis of the view to the centre. -/
theorem shift_to {c : ℝ × ℝ} (hp : 0 ≤ c.1 ∧ c.1 ≤ 2*π) (ht : 0 ≤ c.2 ∧ c.2 < π) :
    ∀ {ι : Type} (l : List ι), l ≠ [] → ∀ p t : ι → ℝ, ∃ (p' t' : ι → ℝ) (cp : List ℝ),
        shiftArr (l.map p) (l.map t) endCenter.1 endCenter.2 c.1 c.2
          = .ok ⟨l.map fun i => some (p' i), l.map fun i => some (t' i), cp⟩ ∧
        ∀ i, dir (p' i) (t' i) = dir (p i) (t i) 0 • east c.1 + dir (p i) (t i) 1 • north c.1 c.2
          + dir (p i) (t i) 2 • dir c.1 c.2 := by
  have hpi := pi_pos
  obtain ⟨M, hR, hu, hh, hA, -⟩ := shift_matrix (pS := endCenter.1) (tS := endCenter.2) (pE := c.1)
    (tE := c.2) ⟨by unfold endCenter; positivity, by unfold endCenter; simp only; linarith⟩ hp
    ⟨le_rfl, hpi.le⟩ ⟨ht.1, ht.2.le⟩
    (by unfold endCenter; simp only; rw [abs_lt]; constructor <;> linarith [hp.1, hp.2])
    (by unfold endCenter; simp only; rw [abs_lt]; constructor <;> linarith [ht.1, ht.2])
  intro ι l hne p t
  obtain ⟨p', t', cp, e, hd⟩ := hA l hne p t
  refine ⟨p', t', cp, e, fun i => ?_⟩
  obtain ⟨ec, es⟩ := cos_sub_end c.1
  rw [hd, frame_map (hR.mul (isRot_Rz _)) (phi := c.1) (theta := c.2)]
  · rw [← mulVec_mulVec, Rz_e, east_eq, ← hh]
    congr 1
    ext i
    unfold endCenter hor
    fin_cases i <;> simp [ec, es]
  · rw [← mulVec_mulVec, Rz_e, ← hu]
    congr 1
    ext i
    unfold endCenter dir
    fin_cases i <;> simp

/-- The shift from the centre to the axis of the view. -/
theorem shift_from {c : ℝ × ℝ} (hp : 0 ≤ c.1 ∧ c.1 ≤ 2*π) (ht : 0 ≤ c.2 ∧ c.2 < π) :
    (∀ {ι : Type} (l : List ι), l ≠ [] → ∀ p t : ι → ℝ, ∃ (p' t' : ι → ℝ) (cp : List ℝ),
        shiftArr (l.map p) (l.map t) c.1 c.2 endCenter.1 endCenter.2
          = .ok ⟨l.map fun i => some (p' i), l.map fun i => some (t' i), cp⟩ ∧
        ∀ i, dir (p' i) (t' i) = ![dir (p i) (t i) ⬝ᵥ east c.1, dir (p i) (t i) ⬝ᵥ north c.1 c.2,
          dir (p i) (t i) ⬝ᵥ dir c.1 c.2]) ∧
    (∀ p t, ∃ p' t', shift p t c.1 c.2 endCenter.1 endCenter.2 = .ok (some (p', t')) ∧
        dir p' t' = ![dir p t ⬝ᵥ east c.1, dir p t ⬝ᵥ north c.1 c.2, dir p t ⬝ᵥ dir c.1 c.2]) := by
  have hpi := pi_pos
  obtain ⟨M, hR, hu, hh, hA, hS⟩ := shift_matrix (pS := c.1) (tS := c.2) (pE := endCenter.1)
    (tE := endCenter.2) hp ⟨by unfold endCenter; positivity, by unfold endCenter; simp only; linarith⟩
    ⟨ht.1, ht.2.le⟩ ⟨le_rfl, hpi.le⟩
    (by unfold endCenter; simp only; rw [abs_lt]; constructor <;> linarith [hp.1, hp.2])
    (by unfold endCenter; simp only; rw [abs_lt]; constructor <;> linarith [ht.1, ht.2])
  have hG := hR.mul (isRot_Rz (endCenter.1 - c.1))
  obtain ⟨ec, es⟩ := cos_sub_end c.1
  have ec' : cos (3*π/2 - c.1) = -sin c.1 := by rw [← ec, ← cos_neg]; congr 1; ring
  have es' : sin (3*π/2 - c.1) = -cos c.1 := by rw [← es, ← sin_neg]; congr 1; ring
  have h1 := sin_sq_add_cos_sq c.1
  set G := M * Rz (endCenter.1 - c.1) with hGdef
  have c3 : cos (3*π/2) = 0 := by
    rw [show 3*π/2 = π/2 + π by ring, cos_add_pi, cos_pi_div_two, neg_zero]
  have s3 : sin (3*π/2) = -1 := by
    rw [show 3*π/2 = π/2 + π by ring, sin_add_pi, sin_pi_div_two]
  have hx : G *ᵥ east c.1 = ![1, 0, 0] := by
    have e1 : Rz (endCenter.1 - c.1) *ᵥ east c.1 = hor endCenter.1 := by
      rw [Rz_e]
      ext i
      unfold endCenter east hor
      fin_cases i <;> simp [ec', es', c3, s3] <;> first | linear_combination h1 | ring
    rw [hGdef, ← mulVec_mulVec, e1, hh]
    unfold hor endCenter
    simp [c3, s3]
  have hz : G *ᵥ dir c.1 c.2 = ![0, 0, 1] := by
    rw [hGdef, ← mulVec_mulVec, Rz_dir, add_sub_cancel, hu]
    simp [endCenter, dir]
  have hy : G *ᵥ north c.1 c.2 = ![0, 1, 0] := by
    rw [← dir_cross_east, hG.cross, hx, hz]
    ext i; fin_cases i <;> simp [cross_apply]
  have hd : ∀ v : Fin 3 → ℝ, G *ᵥ v = ![v ⬝ᵥ east c.1, v ⬝ᵥ north c.1 c.2, v ⬝ᵥ dir c.1 c.2] := by
    intro v
    have r := hG.rigid.1
    rw [← r v (east c.1), ← r v (north c.1 c.2), ← r v (dir c.1 c.2), hx, hy, hz]
    ext i
    fin_cases i <;> simp [dot3] <;> rfl
  refine ⟨?_, ?_⟩
  · intro ι l hne p t
    obtain ⟨p', t', cp, e, h⟩ := hA l hne p t
    exact ⟨p', t', cp, e, fun i => by rw [h, hd]⟩
  · intro p t
    obtain ⟨p', t', e, h⟩ := hS p t
    exact ⟨p', t', e, by rw [h, hd]⟩

/-- Index assignment at distinct places. -/
theorem put_ok {α : Type} (l : List ℕ) (fi fj : ℕ → ℕ) (v : ℕ → α) (a : Arr2 α)
    (hb : ∀ k ∈ l, fi k < a.rows ∧ fj k < a.cols) :
    ∃ out, put a (l.map fi) (l.map fj) (l.map v) = .ok out ∧ out.rows = a.rows ∧ out.cols = a.cols ∧
      (∀ p q, (∀ k ∈ l, ¬ (fi k = p ∧ fj k = q)) → out.val p q = a.val p q) ∧
      (∀ k ∈ l, (∀ k' ∈ l, fi k' = fi k → fj k' = fj k → k' = k) → out.val (fi k) (fj k) = v k) := by
  induction l generalizing a with
  | nil => exact ⟨a, rfl, rfl, rfl, fun _ _ _ => rfl, fun k hk => by simp at hk⟩
  | cons k l ih =>
    obtain ⟨out, e, h1, h2, h3, h4⟩ := ih ⟨a.rows, a.cols, fun p q => if p = fi k ∧ q = fj k then v k else a.val p q⟩
      (fun k' hk' => hb k' (by simp [hk']))
    refine ⟨out, ?_, h1, h2, ?_, ?_⟩
    · simp only [List.map_cons, put]
      rw [if_pos (hb k (by simp))]
      exact e
    · intro p q hpq
      rw [h3 p q fun k' hk' => hpq k' (by simp [hk'])]
      show (if _ then _ else _) = _
      rw [if_neg]
      rintro ⟨rfl, rfl⟩
      exact hpq k (by simp) ⟨rfl, rfl⟩
    · intro k' hk' huniq
      by_cases hin : k' ∈ l
      · exact h4 k' hin fun k'' hk'' => huniq k'' (by simp [hk''])
      · have hkk : k' = k := by simpa [hin] using hk'
        subst hkk
        rw [h3 _ _ (by
          rintro k'' hk'' ⟨e1, e2⟩
          exact hin (huniq k'' (by simp [hk'']) e1 e2 ▸ hk''))]
        show (if _ then _ else _) = _
        rw [if_pos ⟨rfl, rfl⟩]

/-- Assignment of a flattened array. -/
theorem put_flat {α : Type} (R C : ℕ) (v : ℕ → α) (z : α) :
    ∃ out, put ⟨R, C, fun _ _ => z⟩ (flatten (⟨R, C, fun i _ => i⟩ : Arr2 ℕ))
        (flatten (⟨R, C, fun _ j => j⟩ : Arr2 ℕ)) ((List.range (R*C)).map v) = .ok out ∧
      out.rows = R ∧ out.cols = C ∧ ∀ i j, i < R → j < C → out.val i j = v (i*C + j) := by
  obtain ⟨out, e, h1, h2, -, h4⟩ := put_ok (List.range (R*C)) (fun k => k / C) (fun k => k % C) v
    ⟨R, C, fun _ _ => z⟩ (by
      intro k hk
      rw [List.mem_range] at hk
      have hC : 0 < C := Nat.pos_of_ne_zero (by rintro rfl; simp at hk)
      exact ⟨Nat.div_lt_of_lt_mul (by rwa [mul_comm]), Nat.mod_lt _ hC⟩)
  refine ⟨out, e, h1, h2, fun i j hi hj => ?_⟩
  have hC : 0 < C := by omega
  have d1 : (i*C + j)/C = i := by
    rw [add_comm, Nat.add_mul_div_right _ _ hC, Nat.div_eq_of_lt hj]; simp
  have d2 : (i*C + j) % C = j := by
    rw [add_comm, Nat.add_mul_mod_self_right, Nat.mod_eq_of_lt hj]
  have := h4 (i*C + j) (List.mem_range.mpr (by nlinarith)) (by
    intro k' _ e1 e2
    rw [← Nat.div_add_mod k' C, ← Nat.div_add_mod (i*C + j) C]
    rw [e1, e2])
  simpa only [d1, d2] using this

/-- `downsum` on a dense grid of matching size. -/
theorem downsum_ok (a : Arr2 (Option ℝ)) (u : ℕ → ℕ → ℝ) (rows cols m : ℕ) (hm : 1 ≤ m)
    (hnr : 1 ≤ cols) (hr : a.rows = m*rows) (hc : a.cols = m*cols)
    (hu : ∀ i j, i < a.rows → j < a.cols → a.val i j = some (u i j)) :
    ∃ out, downsum a rows cols m m (m*cols) = .ok out ∧ out.rows = rows ∧ out.cols = cols ∧
      ∀ i j, i < rows → j < cols → out.val i j
        = some (∑ l ∈ Finset.range m, ∑ k ∈ Finset.range m, u (i*m + k) (j*m + l)) := by
  have hC : 0 < m*cols := Nat.mul_pos hm hnr
  have h1 : a.rows*a.cols = rows*m*(m*cols) := by rw [hr, hc]; ring
  have h2 : rows*(m*cols) = rows*cols*m := by ring
  refine ⟨_, by
    unfold downsum Arr2.reshape3
    rw [if_pos h1]
    simp only [bind, Except.bind]
    rw [if_pos h2]
    rfl, rfl, rfl, ?_⟩
  intro i j hi hj
  dsimp only
  rw [npSum_range_congr m _ fun l => ∑ k ∈ Finset.range m, u (i*m + k) (j*m + l)]
  intro l hl
  have hlt : j*m + l < m*cols := by nlinarith
  have hflat : (i*cols + j)*m + l = (j*m + l) + i*(m*cols) := by ring
  have hdiv : ((i*cols + j)*m + l)/(m*cols) = i := by
    rw [hflat, Nat.add_mul_div_right _ _ hC, Nat.div_eq_of_lt hlt]; simp
  have hmod : ((i*cols + j)*m + l) % (m*cols) = j*m + l := by
    rw [hflat, Nat.add_mul_mod_self_right, Nat.mod_eq_of_lt hlt]
  simp only [hdiv, hmod]
  apply npSum_range_congr
  intro k hk
  have hd : ((i*m + k)*(m*cols) + (j*m + l))/(m*cols) = i*m + k := by
    rw [add_comm, Nat.add_mul_div_right _ _ hC, Nat.div_eq_of_lt hlt]; simp
  have hmd : ((i*m + k)*(m*cols) + (j*m + l)) % (m*cols) = j*m + l := by
    rw [add_comm, Nat.add_mul_mod_self_right, Nat.mod_eq_of_lt hlt]
  rw [hc]
  simp only [hd, hmd]
  apply hu
  · rw [hr]; nlinarith
  · rw [hc]; exact hlt

theorem downsum_error (a : Arr2 (Option ℝ)) (rows cols mx my : ℕ) (hne : mx ≠ my) (hmx : 1 ≤ mx)
    (hnp : 1 ≤ rows) (hnr : 1 ≤ cols) (hr : a.rows = my*rows) (hc : a.cols = mx*cols) :
    downsum a rows cols mx my (mx*cols) = .error .valueError := by
  have h1 : ¬ a.rows*a.cols = rows*mx*(mx*cols) := by
    rw [hr, hc]
    intro h
    have : my*(rows*(mx*cols)) = mx*(rows*(mx*cols)) := by linarith [h, mul_comm rows my]
    have hp : 0 < rows*(mx*cols) := by positivity
    exact hne (Nat.eq_of_mul_eq_mul_right hp this).symm
  unfold downsum Arr2.reshape3
  rw [if_neg h1]; rfl

/-- The edges computed by `setup_box`. -/
noncomputable def edgesOf (A : BoxArgs) : Edges :=
  ⟨linspace (-A.xLength/2) (A.xLength/2) (nx A + 1),
   linspace (-A.yLength.getD A.xLength/2) (A.yLength.getD A.xLength/2) (ny A + 1),
   mids (linspace (-A.xLength/2) (A.xLength/2) (nx A + 1)),
   mids (linspace (-A.yLength.getD A.xLength/2) (A.yLength.getD A.xLength/2) (ny A + 1))⟩

theorem gather_ok {α ι : Type} (f : List α) (l : List ι) (p : ι → ℕ) (v : ι → α)
    (h : ∀ k ∈ l, f[p k]? = some (v k)) : gather f (l.map p) = .ok (l.map v) := by
  induction l with
  | nil => rfl
  | cons a l ih =>
    simp only [List.map_cons, gather, h a (by simp), ih fun k hk => h k (by simp [hk])]

/-- The dense grid. -/
structure GridFacts (A : BoxArgs) (c : ℝ × ℝ) (g : Grid) : Prop where
  xr : g.x2d.rows = ny A
  xc : g.x2d.cols = nx A
  rxr : g.rx2d.rows = A.rebinY*ny A
  rxc : g.rx2d.cols = A.rebinX*nx A
  ryc : g.ry2d.cols = A.rebinX*nx A
  ryr : g.ry2d.rows = A.rebinY*ny A
  rzr : g.rz2d.rows = A.rebinY*ny A
  rzc : g.rz2d.cols = A.rebinX*nx A
  onr : g.onsphere.rows = ny A
  onc : g.onsphere.cols = nx A
  ron : g.ronsphere.rows = A.rebinY*ny A ∧ g.ronsphere.cols = A.rebinX*nx A
  rebin : g.rebinX = A.rebinX ∧ g.rebinY = A.rebinY
  ind : g.rxind = flatten (⟨A.rebinY*ny A, A.rebinX*nx A, fun i _ => i⟩ : Arr2 ℕ) ∧
    g.ryind = flatten (⟨A.rebinY*ny A, A.rebinX*nx A, fun _ j => j⟩ : Arr2 ℕ)
  center : g.center = c
  pt : ∀ i j, i < A.rebinY*ny A → j < A.rebinX*nx A →
    (g.rx2d.val i j, g.ry2d.val i j) = point A A.rebinX A.rebinY i j
  z : ∀ i j, i < A.rebinY*ny A → j < A.rebinX*nx A → OnSphere A.radius (point A A.rebinX A.rebinY i j) →
    g.rz2d.val i j = √(A.radius^2 - (point A A.rebinX A.rebinY i j).1^2 - (point A A.rebinX A.rebinY i j).2^2)
  on : ∀ i j, i < ny A → j < nx A →
    g.onsphere.val i j = if OnSphere A.radius (point A 1 1 i j) then some 1 else none
  on' : ∀ i j, i < A.rebinY*ny A → j < A.rebinX*nx A →
    g.ronsphere.val i j = if OnSphere A.radius (point A A.rebinX A.rebinY i j) then 1 else 0
  z0 : ∀ i j, i < A.rebinY*ny A → j < A.rebinX*nx A → ¬ OnSphere A.radius (point A A.rebinX A.rebinY i j) →
    g.rz2d.val i j = 0

theorem ortho2cart_eq (x y r : ℝ) : ortho2cart x y r none
    = if OnSphere r (x, y) then some (√(r^2 - x^2 - y^2)) else none := by
  unfold ortho2cart
  simp only
  by_cases h : x^2 + y^2 < r^2
  · rw [if_pos h, if_pos (show OnSphere r (x, y) from h)]
    unfold npSqrt
    rw [if_pos (by linarith), sub_sub]
  · rw [if_neg h, if_neg (show ¬ OnSphere r (x, y) from h)]

theorem mkGrid_facts' {A : BoxArgs} {c : ℝ × ℝ} (hxg : 2 ≤ A.xGrid) (hyg : 2 ≤ A.yGrid.getD A.xGrid)
    (hcen : A.center = [c.1, c.2]) : GridFacts A c (mkGrid (edgesOf A) A) := by
  have hx : 2 ≤ nx A := by unfold nx; omega
  have hy : 2 ≤ ny A := by unfold ny; omega
  set xl := A.xLength with hxl
  set yl := A.yLength.getD A.xLength with hyl
  have ex0 : (edgesOf A).xedges.getD 0 0 = -xl/2 := by
    show (linspace _ _ _).getD 0 0 = _
    rw [linspace_getD _ _ _ _ (by omega), edgeAt_zero]
  have ey0 : (edgesOf A).yedges.getD 0 0 = -yl/2 := by
    show (linspace _ _ _).getD 0 0 = _
    rw [linspace_getD _ _ _ _ (by omega), edgeAt_zero]
  have ex1 : (edgesOf A).xedges.getLastD 0 = xl/2 := linspace_getLastD _ _ _ (by omega)
  have ey1 : (edgesOf A).yedges.getLastD 0 = yl/2 := linspace_getLastD _ _ _ (by omega)
  have lx : (edgesOf A).xmid.length = nx A := length_mids_linspace _ _ _
  have ly : (edgesOf A).ymid.length = ny A := length_mids_linspace _ _ _
  have mx : ∀ j, j < nx A → (edgesOf A).xmid.getD j 0 = midAt (-xl/2) (xl/2) (nx A) j :=
    fun j hj => mids_getD _ _ _ _ hj
  have my : ∀ j, j < ny A → (edgesOf A).ymid.getD j 0 = midAt (-yl/2) (yl/2) (ny A) j :=
    fun j hj => mids_getD _ _ _ _ hj
  unfold mkGrid meshgridXY ortho2cart2
  simp only [ex0, ey0, ex1, ey1, lx, ly, length_mids_linspace, ortho2cart_eq]
  refine ⟨rfl, rfl, rfl, rfl, rfl, rfl, rfl, rfl, rfl, rfl, ⟨rfl, rfl⟩, ⟨rfl, rfl⟩, ⟨rfl, rfl⟩, ?_, ?_, ?_, ?_, ?_, ?_⟩
  · rw [hcen]; rfl
  · intro i j hi hj
    show ((mids _).getD j 0, (mids _).getD i 0) = _
    rw [mids_getD _ _ _ _ hi, mids_getD _ _ _ _ hj]
    rfl
  · intro i j hi hj hon
    simp only [mids_getD _ _ _ _ hi, mids_getD _ _ _ _ hj]
    show Option.getD (if OnSphere A.radius (point A A.rebinX A.rebinY i j) then _ else _) 0 = _
    rw [if_pos hon]
    rfl
  · intro i j hi hj
    simp only [mx j hj, my i hi]
    have e : (midAt (-xl/2) (xl/2) (nx A) j, midAt (-yl/2) (yl/2) (ny A) i) = point A 1 1 i j := by
      unfold point; rw [one_mul, one_mul]
    rw [e]
    split_ifs <;> rfl
  · intro i j hi hj
    simp only [mids_getD _ _ _ _ hi, mids_getD _ _ _ _ hj]
    show (if Option.isSome (if OnSphere A.radius (point A A.rebinX A.rebinY i j) then _ else _) = true
      then _ else _) = _
    split_ifs <;> simp_all
  · intro i j hi hj hon
    simp only [mids_getD _ _ _ _ hi, mids_getD _ _ _ _ hj]
    show Option.getD (if OnSphere A.radius (point A A.rebinX A.rebinY i j) then _ else _) 0 = _
    rw [if_neg hon]
    rfl

theorem mkGrid_facts {A : BoxArgs} {c : ℝ × ℝ} (h : Valid A c) : GridFacts A c (mkGrid (edgesOf A) A) :=
  mkGrid_facts' h.xGrid h.yGrid h.center

theorem finiteArr_map {ι : Type} (l : List ι) (f : ι → ℝ) :
    finiteArr (l.map fun i => some (f i)) = .ok (l.map f) := by
  have := finite_map l f
  unfold finite at this
  unfold finiteArr
  rw [this]

theorem ang2pixArr_map (ang2pix : ℤ → ℝ → ℝ → ℕ) {ι : Type} (l : List ι) (p t : ι → ℝ) (n : ℤ)
    (ht : ∀ i ∈ l, 0 ≤ t i ∧ t i ≤ π) :
    ang2pixArr ang2pix (some n) (l.map fun i => some (t i)) (l.map fun i => some (p i))
      = .ok (l.map fun i => ang2pix n (t i) (p i)) := by
  unfold ang2pixArr
  simp only [finiteArr_map, bind, Except.bind, need_some]
  rw [if_pos, vzip_map_same]
  rw [List.all_eq_true]
  intro x hx
  obtain ⟨i, hi, rfl⟩ := List.mem_map.mp hx
  have := ht i hi
  exact decide_eq_true ⟨this.1, by linarith [this.2]⟩

/-- The colatitudes returned by `usphere_rotate`. -/
theorem rotateArr_range {phi theta : List ℝ} {pE tE pS tS : ℝ} {r : List (Option ℝ) × List (Option ℝ)}
    (h : rotateArr phi theta pE tE pS tS = .ok r) (x : ℝ) (hx : some x ∈ r.2) : 0 ≤ x ∧ x ≤ π := by
  unfold rotateArr at h
  cases hc : rotateChecks pE tE pS tS with
  | error e => simp [hc, bind, Except.bind] at h
  | ok u =>
    cases hv : vzip (fun p t => vec3 (sphere2cart 1 p t (0, 0, 0))) phi theta with
    | error e => simp [hc, hv, bind, Except.bind] at h
    | ok pos =>
      simp only [hc, hv, bind, Except.bind] at h
      split_ifs at h with h1
      cases hm : rotateMats pE tE pS tS with
      | none =>
        simp only [hm, pure, Except.pure, Except.ok.injEq] at h
        rw [← h] at hx
        simp only at hx
        have := List.eq_of_mem_replicate hx
        cases this
      | some m =>
        simp only [hm] at h
        have e := cart2sphereArr_eq_map ((pos.map (applyRot m)).map fun q => (q 0, q 1, q 2)) (0, 0, 0)
        simp only [cart2sphere_eq, List.map_map, Function.comp_def] at e h
        rw [e] at h
        simp only [pure, Except.pure, Except.ok.injEq] at h
        rw [← h] at hx
        simp only [List.mem_map, Option.some.injEq] at hx
        obtain ⟨a, -, ha⟩ := hx
        rw [← ha]
        exact colat_range _ _ _

/-- The colatitudes returned by `usphere_shift`. -/
theorem shiftArr_range {phi theta : List ℝ} {pS tS pE tE : ℝ} {r : SkyArr}
    (h : shiftArr phi theta pS tS pE tE = .ok r) (ht : tS ≠ tE ∨ ∀ t ∈ theta, 0 ≤ t ∧ t ≤ π) (x : ℝ)
    (hx : some x ∈ r.theta) : 0 ≤ x ∧ x ≤ π := by
  unfold shiftArr at h
  cases hc : shiftChecks pS tS pE tE with
  | error e => simp [hc, bind, Except.bind] at h
  | ok u =>
    cases hv : phiShiftArr phi (pE - pS) with
    | error e => simp [hc, hv, bind, Except.bind] at h
    | ok q =>
      simp only [hc, hv, bind, Except.bind] at h
      by_cases hne : tS = tE
      · rw [if_neg (by simpa using hne)] at h
        simp only [pure, Except.pure, Except.ok.injEq] at h
        rw [← h] at hx
        simp only [List.mem_map, Option.some.injEq] at hx
        obtain ⟨t, h1, rfl⟩ := hx
        exact ht.resolve_left (by simpa using hne) t h1
      · rw [if_pos hne] at h
        cases hr : rotateArr q theta pE tE pE tS with
        | error e => simp [hr] at h
        | ok z =>
          simp only [hr, pure, Except.pure, Except.ok.injEq] at h
          rw [← h] at hx
          exact rotateArr_range hr x hx

/-- The pixels read after a valid set-up. -/
theorem skyPix_ok (ang2pix : ℤ → ℝ → ℝ → ℕ) {A : BoxArgs} {c : ℝ × ℝ} (h : Valid A c)
    (h1 : 1 ≤ A.rebinX) (h2 : 1 ≤ A.rebinY) (n : ℤ) :
    ∃ sky : ℕ → ℕ → ℝ × ℝ,
      skyPix ang2pix (some n) (mkGrid (edgesOf A) A)
        = .ok ((List.range (A.rebinY*ny A*(A.rebinX*nx A))).map fun k =>
            ang2pix n (sky (k / (A.rebinX*nx A)) (k % (A.rebinX*nx A))).2
              (sky (k / (A.rebinX*nx A)) (k % (A.rebinX*nx A))).1) ∧
      (∀ i j, i < A.rebinY*ny A → j < A.rebinX*nx A → OnSphere A.radius (point A A.rebinX A.rebinY i j) →
        SeenAt A.radius c (point A A.rebinX A.rebinY i j) (sky i j)) ∧
      (∀ i j, i < A.rebinY*ny A → j < A.rebinX*nx A → 0 ≤ (sky i j).2 ∧ (sky i j).2 ≤ π) ∧
      ∀ i j, i < A.rebinY*ny A → j < A.rebinX*nx A → ¬ OnSphere A.radius (point A A.rebinX A.rebinY i j) →
        OnRim c (point A A.rebinX A.rebinY i j) (sky i j) := by
  have hx : 2 ≤ nx A := by have := h.xGrid; unfold nx; omega
  have hy : 2 ≤ ny A := by have := h.yGrid; unfold ny; omega
  have F := mkGrid_facts h
  set g := mkGrid (edgesOf A) A with hg
  set R := A.rebinY*ny A with hR
  set C := A.rebinX*nx A with hC
  have hRpos : 0 < R := Nat.mul_pos h2 (by omega)
  have hCpos : 0 < C := Nat.mul_pos h1 (by omega)
  set q : ℕ × ℕ → ℝ × ℝ × ℝ := fun k => (g.rx2d.val k.1 k.2, g.ry2d.val k.1 k.2, g.rz2d.val k.1 k.2) with hq
  set l : List (ℕ × ℕ) := (List.range (R*C)).map fun k => (k / C, k % C) with hl
  have hne : l ≠ [] := by
    rw [hl]
    intro h0
    have := congrArg List.length h0
    simp at this
    omega
  have f1 : flatten g.rx2d = l.map fun k => (q k).1 := by
    unfold flatten; rw [F.rxr, F.rxc, hl, List.map_map]; rfl
  have f2 : flatten g.ry2d = l.map fun k => (q k).2.1 := by
    unfold flatten; rw [F.ryr, F.ryc, hl, List.map_map]; rfl
  have f3 : flatten g.rz2d = l.map fun k => (q k).2.2 := by
    unfold flatten; rw [F.rzr, F.rzc, hl, List.map_map]; rfl
  have e := cart2sphereArr_eq_map (l.map q) (0, 0, 0)
  simp only [cart2sphere_eq, List.map_map, Function.comp_def] at e
  obtain ⟨p', t', cp, es, hd⟩ := shift_to h.phi h.theta l hne (fun k => azim ((q k).1 - 0) ((q k).2.1 - 0))
    (fun k => colat ((q k).1 - 0) ((q k).2.1 - 0) ((q k).2.2 - 0))
  have hrange : ∀ k ∈ l, 0 ≤ t' k ∧ t' k ≤ π := by
    intro k hk
    refine shiftArr_range es (.inr fun t ht => ?_) _ (List.mem_map_of_mem hk)
    obtain ⟨k', -, rfl⟩ := List.mem_map.mp ht
    exact colat_range _ _ _
  refine ⟨fun i j => (p' (i, j), t' (i, j)), ?_, ?_, fun i j hi hj => hrange (i, j) ?_, ?_⟩
  · unfold skyPix
    simp only [f1, f2, f3, e, bind, Except.bind, finiteArr_map, F.center, es]
    rw [ang2pixArr_map _ _ _ _ _ hrange, hl, List.map_map]
    rfl
  · intro i j hi hj hon
    have hpt := F.pt i j hi hj
    have hz := F.z i j hi hj hon
    set P := point A A.rebinX A.rebinY i j with hP
    have hpx : g.rx2d.val i j = P.1 := congrArg Prod.fst hpt
    have hpy : g.ry2d.val i j = P.2 := congrArg Prod.snd hpt
    have hqv : q (i, j) = (P.1, P.2, √(A.radius^2 - P.1^2 - P.2^2)) := by
      rw [hq]; simp only [hpx, hpy, hz]
    have hrad := radius_dir (0, 0, 0) (q (i, j))
    have hr : √(((q (i, j)).1 - 0)^2 + ((q (i, j)).2.1 - 0)^2 + ((q (i, j)).2.2 - 0)^2) = A.radius := by
      rw [hqv]
      simp only [sub_zero]
      have hon' : P.1^2 + P.2^2 < A.radius^2 := hon
      rw [sq_sqrt (by linarith)]
      rw [show P.1^2 + P.2^2 + (A.radius^2 - P.1^2 - P.2^2) = A.radius^2 by ring, sqrt_sq h.radius.le]
    rw [hr] at hrad
    have hdi := hd (i, j)
    show A.radius • dir (p' (i, j)) (t' (i, j)) = _
    rw [hdi, smul_add, smul_add, smul_smul, smul_smul, smul_smul]
    have c0 := congrFun hrad 0
    have c1 := congrFun hrad 1
    have c2 := congrFun hrad 2
    simp only [Pi.smul_apply, smul_eq_mul] at c0 c1 c2
    rw [c0, c1, c2, hqv]
    simp [from']
  · rw [hl, List.mem_map]
    refine ⟨i*C + j, List.mem_range.mpr ?_, ?_⟩
    · calc i*C + j < i*C + C := by omega
        _ = (i+1)*C := by ring
        _ ≤ R*C := Nat.mul_le_mul_right C hi
    · rw [mul_comm, Nat.mul_add_div hCpos, Nat.mul_add_mod, Nat.div_eq_of_lt hj, Nat.mod_eq_of_lt hj, add_zero]
  · intro i j hi hj hon
    have hpt := F.pt i j hi hj
    have hz := F.z0 i j hi hj hon
    set P := point A A.rebinX A.rebinY i j with hP
    have hpx : g.rx2d.val i j = P.1 := congrArg Prod.fst hpt
    have hpy : g.ry2d.val i j = P.2 := congrArg Prod.snd hpt
    have hqv : q (i, j) = (P.1, P.2, 0) := by
      rw [hq]; simp only [hpx, hpy, hz]
    have hrad := radius_dir (0, 0, 0) (q (i, j))
    have hr : √(((q (i, j)).1 - 0)^2 + ((q (i, j)).2.1 - 0)^2 + ((q (i, j)).2.2 - 0)^2) = √(P.1^2 + P.2^2) := by
      rw [hqv]
      simp
    rw [hr] at hrad
    have hdi := hd (i, j)
    show √(P.1^2 + P.2^2) • dir (p' (i, j)) (t' (i, j)) = _
    rw [hdi, smul_add, smul_add, smul_smul, smul_smul, smul_smul]
    have c0 := congrFun hrad 0
    have c1 := congrFun hrad 1
    have c2 := congrFun hrad 2
    simp only [Pi.smul_apply, smul_eq_mul] at c0 c1 c2
    rw [c0, c1, c2, hqv]
    simp [from']

/-- Attributes after a valid set-up. -/
structure Ready (ang2pix : ℤ → ℝ → ℝ → ℕ) (n : ℤ) (A : BoxArgs) (c : ℝ × ℝ) (sky : ℕ → ℕ → ℝ × ℝ)
    (s : State) : Prop where
  grid : s.grid = some (mkGrid (edgesOf A) A)
  pix : s.pix = some ((List.range (A.rebinY*ny A*(A.rebinX*nx A))).map fun k =>
            ang2pix n (sky (k / (A.rebinX*nx A)) (k % (A.rebinX*nx A))).2
              (sky (k / (A.rebinX*nx A)) (k % (A.rebinX*nx A))).1)
  seen : ∀ i j, i < A.rebinY*ny A → j < A.rebinX*nx A → OnSphere A.radius (point A A.rebinX A.rebinY i j) →
        SeenAt A.radius c (point A A.rebinX A.rebinY i j) (sky i j)
  range : ∀ i j, i < A.rebinY*ny A → j < A.rebinX*nx A → 0 ≤ (sky i j).2 ∧ (sky i j).2 ≤ π
  edges : s.edges = some (edgesOf A)
  rim : ∀ i j, i < A.rebinY*ny A → j < A.rebinX*nx A → ¬ OnSphere A.radius (point A A.rebinX A.rebinY i j) →
        OnRim c (point A A.rebinX A.rebinY i j) (sky i j)

theorem setup_run (ang2pix : ℤ → ℝ → ℝ → ℕ) {A : BoxArgs} {c : ℝ × ℝ} (h : Valid A c)
    (h1 : 1 ≤ A.rebinX) (h2 : 1 ≤ A.rebinY) {n : ℤ} (hn : 0 < n) (s : State) :
    ∃ sky s', (do setupMap n; setupBox ang2pix A : Meth State Unit) s = (.ok (), s') ∧
      Ready ang2pix n A c sky s' := by
  obtain ⟨sky, e, hsky, hrange, hrim⟩ := skyPix_ok ang2pix h h1 h2 n
  have hx := h.xGrid
  have hy := h.yGrid
  have tx : (A.xGrid + 1).toNat = nx A + 1 := by unfold nx; omega
  have ty : (A.yGrid.getD A.xGrid + 1).toNat = ny A + 1 := by unfold ny; omega
  have ex := firstDiff_mids (-A.xLength/2) (A.xLength/2) (nx A) (by unfold nx; omega)
  have ey := firstDiff_mids (-A.yLength.getD A.xLength/2) (A.yLength.getD A.xLength/2) (ny A)
    (by unfold ny; omega)
  refine ⟨sky, ⟨some n, some (edgesOf A),
    some (midAt (-A.xLength/2) (A.xLength/2) (nx A) 1 - midAt (-A.xLength/2) (A.xLength/2) (nx A) 0),
    some (midAt (-A.yLength.getD A.xLength/2) (A.yLength.getD A.xLength/2) (ny A) 1
      - midAt (-A.yLength.getD A.xLength/2) (A.yLength.getD A.xLength/2) (ny A) 0),
    some (mkGrid (edgesOf A) A), some ((List.range (A.rebinY*ny A*(A.rebinX*nx A))).map fun k =>
            ang2pix n (sky (k / (A.rebinX*nx A)) (k % (A.rebinX*nx A))).2
              (sky (k / (A.rebinX*nx A)) (k % (A.rebinX*nx A))).1)⟩, ?_, rfl, rfl, hsky, hrange, rfl, hrim⟩
  · unfold setupMap setupBox pyAssert
    simp only [Meth.bind_apply, Meth.lift_apply, Meth.assign_apply, Meth.self_apply]
    rw [if_pos (show Cube.isNsideOk n from hn)]
    simp only
    rw [if_pos (by omega)]
    simp only
    rw [if_pos (by rw [h.center]; rfl)]
    simp only
    rw [if_neg (by omega)]
    simp only [tx, ty, ex, ey]
    unfold edgesOf at e
    simp only [e]
    rfl

theorem discSum_nonneg (A : BoxArgs) (m i j : ℕ) : 0 ≤ discSum A m (fun _ _ => 1) i j := by
  unfold discSum
  refine Finset.sum_nonneg fun k _ => Finset.sum_nonneg fun l _ => ?_
  split_ifs <;> norm_num

theorem discSum_zero {A : BoxArgs} {m i j : ℕ} (h : discSum A m (fun _ _ => 1) i j = 0) (g : ℕ → ℕ → ℝ) :
    discSum A m g i j = 0 := by
  have nn : ∀ k l : ℕ, (0:ℝ) ≤ if OnSphere A.radius (point A m m (i*m + k) (j*m + l)) then 1 else 0 := by
    intro k l; split_ifs <;> norm_num
  unfold discSum at *
  rw [Finset.sum_eq_zero_iff_of_nonneg fun k _ => Finset.sum_nonneg fun l _ => nn k l] at h
  refine Finset.sum_eq_zero fun k hk => Finset.sum_eq_zero fun l hl => ?_
  have := h k hk
  rw [Finset.sum_eq_zero_iff_of_nonneg fun l _ => nn k l] at this
  have := this l hl
  split_ifs at this ⊢
  · norm_num at this
  · rfl

/-- The value of an output pixel. -/
noncomputable def pixVal (A : BoxArgs) (m : ℕ) (G : ℕ → ℕ → ℝ) (i j : ℕ) : Option ℝ :=
  if OnSphere A.radius (point A 1 1 i j) then some (m*(discSum A m G i j/discSum A m (fun _ _ => 1) i j))
  else none

theorem remap1_ok (ang2pix : ℤ → ℝ → ℝ → ℕ) {A : BoxArgs} {c : ℝ × ℝ} (h : Valid A c) {m : ℕ} (hm : 1 ≤ m)
    (h1 : A.rebinX = m) (h2 : A.rebinY = m) {n : ℤ} {sky : ℕ → ℕ → ℝ × ℝ} {s : State}
    (hs : Ready ang2pix n A c sky s) (f : List (Option ℝ)) (G : ℕ → ℕ → ℝ)
    (hf : ∀ i j, i < m*ny A → j < m*nx A →
      f[ang2pix n (sky i j).2 (sky i j).1]? = some (some (G i j))) :
    ∃ out, remap1 f s = (.ok out, s) ∧ out.rows = ny A ∧ out.cols = nx A ∧
      ∀ i j, i < ny A → j < nx A → out.val i j = pixVal A m G i j := by
  have hx : 2 ≤ nx A := by have := h.xGrid; unfold nx; omega
  have hy : 2 ≤ ny A := by have := h.yGrid; unfold ny; omega
  have F := mkGrid_facts h
  have hg := hs.grid
  have hp := hs.pix
  set g := mkGrid (edgesOf A) A with hgdef
  have hCpos : 0 < m*nx A := by positivity
  have hRpos : 0 < m*ny A := by positivity
  obtain ⟨xr, xc, rxr, rxc, ryc, ryr, rzr, rzc, onr, onc, ⟨ronr, ronc⟩, ⟨rbx, rby⟩, ⟨i1, i2⟩, _, _, _, on, on', _⟩ := F
  rw [h1, h2] at *
  have hga : gather f ((List.range (m*ny A*(m*nx A))).map fun k =>
            ang2pix n (sky (k / (m*nx A)) (k % (m*nx A))).2 (sky (k / (m*nx A)) (k % (m*nx A))).1)
      = .ok ((List.range (m*ny A*(m*nx A))).map fun k => some (G (k / (m*nx A)) (k % (m*nx A)))) := by
    apply gather_ok
    intro k hk
    rw [List.mem_range] at hk
    exact hf _ _ (Nat.div_lt_of_lt_mul (by rwa [mul_comm])) (Nat.mod_lt _ hCpos)
  obtain ⟨hi, e2, hir, hic, hiv⟩ := put_flat (m*ny A) (m*nx A)
    (fun k => some (G (k / (m*nx A)) (k % (m*nx A)))) (some (0:ℝ))
  have hiv' : ∀ i j, i < m*ny A → j < m*nx A → hi.val i j = some (G i j) := by
    intro i j hi' hj'
    rw [hiv i j hi' hj', add_comm, Nat.add_mul_div_right _ _ hCpos, Nat.div_eq_of_lt hj',
      Nat.add_mul_mod_self_right, Nat.mod_eq_of_lt hj', zero_add]
  obtain ⟨fb, e3, fbr, fbc, fbv⟩ := downsum_ok ⟨hi.rows, hi.cols, fun i j => omul (hi.val i j) (g.ronsphere.val i j)⟩
    (fun i j => if OnSphere A.radius (point A m m i j) then G i j else 0) (ny A) (nx A) m hm (by omega) hir hic
    (by
      intro i j hi' hj'
      have hi2 : i < m*ny A := by rw [← hir]; exact hi'
      have hj2 : j < m*nx A := by rw [← hic]; exact hj'
      show omul (hi.val i j) (g.ronsphere.val i j) = _
      rw [hiv' i j hi2 hj2, on' i j hi2 hj2]
      unfold omul
      split_ifs <;> simp)
  obtain ⟨wt, e4, wtr, wtc, wtv⟩ := Dg.downgrade_ok
    ⟨g.ronsphere.rows, g.ronsphere.cols, fun i j => some (g.ronsphere.val i j)⟩
    (fun i j => if OnSphere A.radius (point A m m i j) then 1 else 0) (ny A) (nx A) m hm (by omega) ronr ronc
    (by
      intro i j hi' hj'
      show some (g.ronsphere.val i j) = _
      rw [on' i j (by rw [← ronr]; exact hi') (by rw [← ronc]; exact hj')])
  have z1 : hi.rows = g.ronsphere.rows ∧ hi.cols = g.ronsphere.cols := ⟨hir.trans ronr.symm, hic.trans ronc.symm⟩
  have z2 : fb.rows = wt.rows ∧ fb.cols = wt.cols := ⟨fbr.trans wtr.symm, fbc.trans wtc.symm⟩
  have z3 : fb.rows = g.onsphere.rows ∧ fb.cols = g.onsphere.cols := ⟨fbr.trans onr.symm, fbc.trans onc.symm⟩
  refine ⟨⟨fb.rows, fb.cols, fun i j => omul2 (divNonzero (fb.val i j) (wt.val i j)) (g.onsphere.val i j)⟩,
    ?_, fbr, fbc, ?_⟩
  · unfold remap1
    simp only [Meth.bind_apply, Meth.self_apply, Meth.lift_apply, hg, hp, need_some, hga, i1, i2, rxr, rxc, e2]
    unfold Arr2.zip
    rw [if_pos z1]
    simp only [Meth.lift_apply, xr, xc]
    rw [if_neg (by omega)]
    simp only [rbx, rby, ryc, e3, e4]
    rw [if_pos z2]
    simp only
    rw [if_pos z3]
  · intro i j hi' hj'
    show omul2 (divNonzero (fb.val i j) (wt.val i j)) (g.onsphere.val i j) = _
    rw [fbv i j hi' hj', wtv i j hi' hj', on i j hi' hj']
    have sw : ∀ v : ℕ → ℕ → ℝ, ∑ l ∈ Finset.range m, ∑ k ∈ Finset.range m, (if OnSphere A.radius
        (point A m m (i*m + k) (j*m + l)) then v (i*m + k) (j*m + l) else 0) = discSum A m v i j := by
      intro v; unfold discSum; exact Finset.sum_comm
    rw [sw G, sw fun _ _ => 1]
    unfold pixVal
    have hm0 : (m:ℝ) ≠ 0 := by positivity
    by_cases hon : OnSphere A.radius (point A 1 1 i j)
    · rw [if_pos hon, if_pos hon]
      unfold divNonzero
      by_cases h0 : discSum A m (fun _ _ => 1) i j = 0
      · rw [if_neg (by simp [h0]), discSum_zero h0]
        simp [omul2, omul]
      · rw [if_pos (by simp [h0, hm0])]
        simp only [odiv, fdiv, omul2, omul, Option.bind_some]
        rw [if_neg (div_ne_zero h0 hm0)]
        simp only [Option.map_some, mul_one, Option.some.injEq]
        field_simp
    · rw [if_neg hon, if_neg hon]
      rfl

theorem remap1_error (ang2pix : ℤ → ℝ → ℝ → ℕ) {A : BoxArgs} {c : ℝ × ℝ} (h : Valid A c)
    (h1 : 1 ≤ A.rebinX) (h2 : 1 ≤ A.rebinY) (hne : A.rebinX ≠ A.rebinY) {n : ℤ} {sky : ℕ → ℕ → ℝ × ℝ} {s : State}
    (hs : Ready ang2pix n A c sky s) (f : List (Option ℝ))
    (hf : ∀ t p, ang2pix n t p < f.length) :
    remap1 f s = (.error .valueError, s) := by
  have hx : 2 ≤ nx A := by have := h.xGrid; unfold nx; omega
  have hy : 2 ≤ ny A := by have := h.yGrid; unfold ny; omega
  have F := mkGrid_facts h
  have hg := hs.grid
  have hp := hs.pix
  set g := mkGrid (edgesOf A) A with hgdef
  have hRpos : 0 < A.rebinY*ny A := by positivity
  have hga : gather f ((List.range (A.rebinY*ny A*(A.rebinX*nx A))).map fun k =>
            ang2pix n (sky (k / (A.rebinX*nx A)) (k % (A.rebinX*nx A))).2
              (sky (k / (A.rebinX*nx A)) (k % (A.rebinX*nx A))).1)
      = .ok ((List.range (A.rebinY*ny A*(A.rebinX*nx A))).map fun k =>
        f.getD (ang2pix n (sky (k / (A.rebinX*nx A)) (k % (A.rebinX*nx A))).2
              (sky (k / (A.rebinX*nx A)) (k % (A.rebinX*nx A))).1) none) := by
    apply gather_ok
    intro k hk
    rw [List.getD_eq_getElem?_getD, List.getElem?_eq_getElem (hf _ _)]; rfl
  obtain ⟨hi, e2, hir, hic, -⟩ := put_flat (A.rebinY*ny A) (A.rebinX*nx A)
    (fun k => f.getD (ang2pix n (sky (k / (A.rebinX*nx A)) (k % (A.rebinX*nx A))).2
              (sky (k / (A.rebinX*nx A)) (k % (A.rebinX*nx A))).1) none) (some (0:ℝ))
  have z1 : hi.rows = g.ronsphere.rows ∧ hi.cols = g.ronsphere.cols := ⟨hir.trans F.ron.1.symm, hic.trans F.ron.2.symm⟩
  unfold remap1
  simp only [Meth.bind_apply, Meth.self_apply, Meth.lift_apply, hg, hp, need_some, hga, F.ind.1, F.ind.2, F.rxr,
    F.rxc, e2]
  unfold Arr2.zip
  rw [if_pos z1]
  simp only [Meth.lift_apply, F.xr, F.xc]
  rw [if_neg (by omega)]
  simp only [F.rebin.1, F.rebin.2]
  rw [downsum_error ⟨hi.rows, hi.cols, fun i j => omul (hi.val i j) (g.ronsphere.val i j)⟩ _ _ _ _ hne h1
    (by omega) (by omega) hir hic]

/-- The centre of an output pixel is on the sphere if its dense points are. -/
theorem center_on {A : BoxArgs} {m i j : ℕ} (hm : 1 ≤ m) (hx : 0 < nx A) (hy : 0 < ny A)
    (h : ∀ k l, k < m → l < m → OnSphere A.radius (point A m m (i*m + k) (j*m + l))) :
    OnSphere A.radius (point A 1 1 i j) := by
  have a := h 0 0 hm hm
  have b := h (m-1) (m-1) (by omega) (by omega)
  have hm0 : (m:ℝ) ≠ 0 := by positivity
  have key : ∀ (lo hi : ℝ) (n i : ℕ), 0 < n →
      midAt lo hi (m*n) (i*m + 0) + midAt lo hi (m*n) (i*m + (m-1)) = 2*midAt lo hi (1*n) i := by
    intro lo hi n i hn
    have hn0 : (n:ℝ) ≠ 0 := by positivity
    unfold midAt edgeAt
    rw [one_mul]
    have : ((m - 1 : ℕ):ℝ) = m - 1 := by push_cast [hm]; ring
    push_cast [hm]
    field_simp
    ring
  have k1 := key (-A.xLength/2) (A.xLength/2) (nx A) j hx
  have k2 := key (-A.yLength.getD A.xLength/2) (A.yLength.getD A.xLength/2) (ny A) i hy
  unfold OnSphere point at *
  simp only at *
  set x0 := midAt (-A.xLength/2) (A.xLength/2) (m*nx A) (j*m + 0)
  set x1 := midAt (-A.xLength/2) (A.xLength/2) (m*nx A) (j*m + (m-1))
  set y0 := midAt (-A.yLength.getD A.xLength/2) (A.yLength.getD A.xLength/2) (m*ny A) (i*m + 0)
  set y1 := midAt (-A.yLength.getD A.xLength/2) (A.yLength.getD A.xLength/2) (m*ny A) (i*m + (m-1))
  set x := midAt (-A.xLength/2) (A.xLength/2) (1*nx A) j
  set y := midAt (-A.yLength.getD A.xLength/2) (A.yLength.getD A.xLength/2) (1*ny A) i
  have ex : x = (x0 + x1)/2 := by linarith
  have ey : y = (y0 + y1)/2 := by linarith
  rw [ex, ey]
  nlinarith [sq_nonneg (x0 - x1), sq_nonneg (y0 - y1)]

end Magpie.Ortho
