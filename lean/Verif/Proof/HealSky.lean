import Verif.Spec.HealSky
import Verif.Proof.Heal2Ortho

/-!
# Lemmas about the `Heal2Ring` and `Heal2Polar` classes
-/

set_option linter.unusedSimpArgs false
set_option linter.unusedVariables false
set_option linter.unusedSectionVars false

namespace Magpie.HealSky
open Magpie Magpie.Radial Magpie.OneD Magpie.Coords Magpie.Healpix Magpie.Spec Magpie.Pov Magpie.Box2Ring
open Magpie.Ortho (east north east_eq dir_cross_east shift_matrix finiteArr finiteArr_map flatten
  ang2pixArr_map shiftArr_range)
open Matrix Real

theorem Rz_zero : Rz 0 = 1 := by unfold Rz; rw [cos_zero, sin_zero, neg_zero, one_fin_three]

/-- `usphere_spin` about the pole. -/
theorem spinArr_pole {ι : Type} (l : List ι) (hne : l ≠ []) (p t : ι → ℝ) {s : ℝ} (hs : 0 ≤ s ∧ s < 2*π) :
    ∃ (p' t' : ι → ℝ) (c : List ℝ), spinArr (l.map p) (l.map t) 0 0 s
        = .ok ⟨l.map fun i => some (p' i), l.map fun i => some (t' i), c⟩ ∧
      ∀ i, dir (p' i) (t' i) = Rz s *ᵥ dir (p i) (t i) := by
  have hpi := pi_pos
  have z : (0:ℝ) ≤ 0 ∧ 0 ≤ 2*π := ⟨le_rfl, by linarith⟩
  have h0 : (0:ℝ) ≤ 0 ∧ 0 ≤ π := ⟨le_rfl, hpi.le⟩
  obtain ⟨p1, r1, d1⟩ := phiShiftArr_map l p (dphi := 0) (by rw [abs_zero]; linarith)
  obtain ⟨p2, r2, d2⟩ := phiShiftArr_map l p1 (dphi := s) (by rw [abs_of_nonneg hs.1]; exact hs.2)
  obtain ⟨p3, r3, d3⟩ := phiShiftArr_map l p2 (dphi := 0) (by rw [abs_zero]; linarith)
  have f1 := finite_map l p1
  have f2 := finite_map l t
  unfold finite at f1 f2
  refine ⟨p3, t, l.map p3, ?_, fun i => ?_⟩
  · unfold spinArr pyAssert
    rw [if_pos ⟨z.1, z.2⟩, if_pos ⟨h0.1, h0.2⟩, if_pos ⟨hs.1, hs.2.le⟩]
    unfold shiftArr
    simp only [shiftChecks_ok z z h0 h0, sub_self, bind, Except.bind, r1, r2, r3, pure, Except.pure, ne_eq,
      not_true_eq_false, if_false, List.map_map, Function.comp_def, f1, f2]
  · rw [d3, d2, d1, Rz_zero, one_mulVec, one_mulVec]

/-- `usphere_spin` about the point `(0, pi/2)`. -/
theorem spinArr_equator {ι : Type} (l : List ι) (hne : l ≠ []) (p t : ι → ℝ) {s : ℝ} (hs : 0 ≤ s ∧ s < 2*π)
    (h0 : s ≠ 0) :
    ∃ (p' t' : ι → ℝ) (c : List ℝ), spinArr (l.map p) (l.map t) 0 (π/2) s
        = .ok ⟨l.map fun i => some (p' i), l.map fun i => some (t' i), c⟩ ∧
      ∀ i, dir (p' i) (t' i) = Rx s *ᵥ dir (p i) (t i) := by
  obtain ⟨p', t', e, hd⟩ := turn_map l hne p t hs
  unfold turn at e
  rw [if_pos h0] at e
  cases hsp : spinArr (l.map p) (l.map t) 0 (π/2) s with
  | error x => simp [hsp, bind, Except.bind] at e
  | ok r =>
    simp only [hsp, bind, Except.bind, pure, Except.pure, Except.ok.injEq, Prod.mk.injEq] at e
    refine ⟨p', t', r.callerPhi, ?_, hd⟩
    rw [← e.1, ← e.2]

theorem py_bind {α β : Type} {x : Py α} {f : α → Py β} {r : β} (h : (x >>= f) = .ok r) :
    ∃ a, x = .ok a ∧ f a = .ok r := by
  cases x with
  | error e => cases h
  | ok a => exact ⟨a, rfl, h⟩

theorem finite_eq {l : List (Option ℝ)} {t : List ℝ} (h : l.mapM id = some t) : l = t.map some := by
  induction l generalizing t with
  | nil => simp at h; rw [h]; rfl
  | cons a l ih =>
    rw [List.mapM_cons] at h
    cases a with
    | none => simp at h
    | some a =>
      cases e : l.mapM id with
      | none => simp [e] at h
      | some t' =>
        simp [e] at h
        rw [← h, List.map_cons, ih e]

/-- The colatitudes returned by `usphere_spin`. -/
theorem spinArr_range {phi theta : List ℝ} {pc tc a : ℝ} {r : SkyArr} (h : spinArr phi theta pc tc a = .ok r)
    (ht : ∀ t ∈ theta, 0 ≤ t ∧ t ≤ π) (x : ℝ) (hx : some x ∈ r.theta) : 0 ≤ x ∧ x ≤ π := by
  unfold spinArr at h
  obtain ⟨-, -, h⟩ := py_bind h
  obtain ⟨-, -, h⟩ := py_bind h
  obtain ⟨-, -, h⟩ := py_bind h
  obtain ⟨s1, h1, h⟩ := py_bind h
  split at h
  · rename_i p t ep et
    have ht' : ∀ y ∈ t, 0 ≤ y ∧ y ≤ π := by
      intro y hy
      refine shiftArr_range h1 (.inr ht) y ?_
      rw [finite_eq et]
      exact List.mem_map_of_mem hy
    obtain ⟨p2, h2, h⟩ := py_bind h
    obtain ⟨s2, h3, h⟩ := py_bind h
    cases h
    exact shiftArr_range h3 (.inr ht') x hx
  · obtain ⟨-, -, h⟩ := py_bind h
    cases h
    cases List.eq_of_mem_replicate hx

/-- The pixels read, for points `p, t` turned by the matrix `S`. -/
theorem skyPix_map (ang2pix : ℤ → ℝ → ℝ → ℕ) {ι : Type} (l : List ι) (hne : l ≠ []) (p t : ι → ℝ) (n : ℤ)
    {c2 s : ℝ} {c : ℝ × ℝ} {S : Matrix (Fin 3) (Fin 3) ℝ} (h2 : 0 ≤ c2 ∧ c2 ≤ π)
    (hc1 : 0 ≤ c.1 ∧ c.1 < 2*π) (hc2 : 0 ≤ c.2 ∧ c.2 ≤ π) (hd : |c2 - c.2| < π) (h0 : s = 0 → S = 1)
    (hr : c2 ≠ c.2 ∨ ∀ i ∈ l, 0 ≤ t i ∧ t i ≤ π)
    (hS : s ≠ 0 → ∃ (p' t' : ι → ℝ) (c : List ℝ), spinArr (l.map p) (l.map t) 0 c2 s
        = .ok ⟨l.map fun i => some (p' i), l.map fun i => some (t' i), c⟩ ∧
      ∀ i, dir (p' i) (t' i) = S *ᵥ dir (p i) (t i)) :
    ∃ (G : Matrix (Fin 3) (Fin 3) ℝ) (sky : ι → ℝ × ℝ), IsRot G ∧ G *ᵥ dir 0 c2 = dir c.1 c.2 ∧
      G *ᵥ ![0, 1, 0] = east c.1 ∧
      HealRing.Dg.skyPix ang2pix (some n) (l.map p) (l.map t) 0 c2 s c
        = .ok (l.map fun i => ang2pix n (sky i).2 (sky i).1) ∧
      ∀ i, dir (sky i).1 (sky i).2 = G *ᵥ (S *ᵥ dir (p i) (t i)) := by
  have hpi := pi_pos
  obtain ⟨M, hR, hu, hh, hA, -⟩ := shift_matrix (pS := 0) (tS := c2) (pE := c.1) (tE := c.2)
    ⟨le_rfl, by linarith⟩ ⟨hc1.1, hc1.2.le⟩ h2 hc2 (by rw [sub_zero, abs_of_nonneg hc1.1]; exact hc1.2) hd
  obtain ⟨p1, t1, r1, d1, hr1⟩ : ∃ p1 t1 : ι → ℝ,
      HealRing.Dg.spun (l.map p) (l.map t) 0 c2 s = .ok (l.map p1, l.map t1) ∧
      (∀ i, dir (p1 i) (t1 i) = S *ᵥ dir (p i) (t i)) ∧ (c2 ≠ c.2 ∨ ∀ i ∈ l, 0 ≤ t1 i ∧ t1 i ≤ π) := by
    unfold HealRing.Dg.spun
    by_cases hz : s = 0
    · refine ⟨p, t, ?_, fun i => by rw [h0 hz, one_mulVec], hr⟩
      rw [if_neg (by simpa using hz)]
    · obtain ⟨p', t', cc, e, hd'⟩ := hS hz
      refine ⟨p', t', ?_, hd', hr.imp_right fun ht i hi => spinArr_range e (fun x hx => ?_) _ (List.mem_map_of_mem hi)⟩
      swap
      · obtain ⟨k, hk, rfl⟩ := List.mem_map.mp hx
        exact ht k hk
      rw [if_pos hz]
      simp only [e, bind, Except.bind, finiteArr_map, pure, Except.pure]
  obtain ⟨p', t', cp, e, hd'⟩ := hA l hne p1 t1
  refine ⟨M * Rz (c.1 - 0), fun i => (p' i, t' i), hR.mul (isRot_Rz _), ?_, ?_, ?_, ?_⟩
  · rw [← mulVec_mulVec, Rz_dir, ← hu]
    congr 2
    ring
  · rw [← mulVec_mulVec, Rz_e, east_eq, ← hh]
    congr 1
    ext i
    unfold hor
    fin_cases i <;> simp
  · unfold HealRing.Dg.skyPix
    simp only [r1, bind, Except.bind, e]
    rw [ang2pixArr_map]
    intro i hi
    refine shiftArr_range e (hr1.imp_right fun ht x hx => ?_) _ (List.mem_map_of_mem hi)
    obtain ⟨k, hk, rfl⟩ := List.mem_map.mp hx
    exact ht k hk
  · intro i
    rw [hd', d1]

theorem east_cross_dir (phi theta : ℝ) : east phi ⨯₃ dir phi theta = -north phi theta := by
  rw [← dir_cross_east, ← cross_anticomm]

/-- The frame of the polar cap. -/
theorem cap_frame {F : Matrix (Fin 3) (Fin 3) ℝ} (hR : IsRot F) {phi theta : ℝ}
    (hy : F *ᵥ ![0, 1, 0] = east phi) (hz : F *ᵥ ![0, 0, 1] = dir phi theta) (v : Fin 3 → ℝ) :
    F *ᵥ v = v 0 • (-north phi theta) + v 1 • east phi + v 2 • dir phi theta := by
  have hx : F *ᵥ ![1, 0, 0] = -north phi theta := by
    have : (![1, 0, 0] : Fin 3 → ℝ) = ![0, 1, 0] ⨯₃ ![0, 0, 1] := by
      ext i; fin_cases i <;> simp [cross_apply]
    rw [this, hR.cross, hy, hz, east_cross_dir]
  have e : v = v 0 • ![1, 0, 0] + v 1 • ![0, 1, 0] + v 2 • ![0, 0, 1] := by
    ext i; fin_cases i <;> simp
  conv_lhs => rw [e]
  rw [mulVec_add, mulVec_add, mulVec_smul, mulVec_smul, mulVec_smul, hx, hy, hz]

/-- The frame of the box. -/
theorem box_frame {F : Matrix (Fin 3) (Fin 3) ℝ} (hR : IsRot F) {phi theta : ℝ}
    (hy : F *ᵥ ![0, 1, 0] = east phi) (hx : F *ᵥ ![1, 0, 0] = dir phi theta) (v : Fin 3 → ℝ) :
    F *ᵥ v = v 0 • dir phi theta + v 1 • east phi + v 2 • north phi theta := by
  have hz : F *ᵥ ![0, 0, 1] = north phi theta := by
    have : (![0, 0, 1] : Fin 3 → ℝ) = ![1, 0, 0] ⨯₃ ![0, 1, 0] := by
      ext i; fin_cases i <;> simp [cross_apply]
    rw [this, hR.cross, hy, hx, dir_cross_east]
  have e : v = v 0 • ![1, 0, 0] + v 1 • ![0, 1, 0] + v 2 • ![0, 0, 1] := by
    ext i; fin_cases i <;> simp
  conv_lhs => rw [e]
  rw [mulVec_add, mulVec_add, mulVec_smul, mulVec_smul, mulVec_smul, hx, hy, hz]

/-- Index pairs of a table, row by row. -/
def cells (R C : ℕ) : List (ℕ × ℕ) := (List.range (R*C)).map fun k => (k / C, k % C)

/-- A centre of longitude `2 pi` is rejected. -/
theorem skyPix_turn (ang2pix : ℤ → ℝ → ℝ → ℕ) {ι : Type} (l : List ι) (hne : l ≠ []) (p t : ι → ℝ) (n : Option ℤ)
    {s c2 : ℝ} (hc2 : 0 ≤ c2 ∧ c2 ≤ π) (hs : 0 ≤ s ∧ s < 2*π) :
    HealRing.Dg.skyPix ang2pix n (l.map p) (l.map t) 0 0 s (2*π, c2) = .error .assertionError := by
  have hpi := pi_pos
  obtain ⟨p1, t1, r1⟩ : ∃ p1 t1 : ι → ℝ,
      HealRing.Dg.spun (l.map p) (l.map t) 0 0 s = .ok (l.map p1, l.map t1) := by
    unfold HealRing.Dg.spun
    by_cases hz : s = 0
    · exact ⟨p, t, by rw [if_neg (by simpa using hz)]⟩
    · obtain ⟨p', t', cc, e, -⟩ := spinArr_pole l hne p t hs
      refine ⟨p', t', ?_⟩
      rw [if_pos hz]
      simp only [e, bind, Except.bind, finiteArr_map, pure, Except.pure]
  unfold HealRing.Dg.skyPix
  simp only [r1, bind, Except.bind]
  unfold shiftArr
  rw [shiftChecks_ok ⟨le_rfl, by linarith⟩ ⟨by linarith, le_rfl⟩ ⟨le_rfl, hpi.le⟩ hc2]
  simp only [bind, Except.bind]
  unfold phiShiftArr pyAssert
  rw [if_neg (by simp)]
  rfl

theorem mem_cells {R C : ℕ} {k : ℕ × ℕ} (h : k ∈ cells R C) : k.1 < R ∧ k.2 < C := by
  unfold cells at h
  obtain ⟨m, hm, rfl⟩ := List.mem_map.mp h
  rw [List.mem_range] at hm
  have hC : 0 < C := by
    rcases Nat.eq_zero_or_pos C with h0 | h0
    · rw [h0, Nat.mul_zero] at hm; omega
    · exact h0
  exact ⟨(Nat.div_lt_iff_lt_mul hC).mpr hm, Nat.mod_lt _ hC⟩

theorem midAt_range {lo hi : ℝ} (h : lo ≤ hi) {n j : ℕ} (hj : j < n) : lo ≤ midAt lo hi n j ∧ midAt lo hi n j ≤ hi := by
  have hn : (0:ℝ) < n := by exact_mod_cast (by omega : 0 < n)
  have h1 : (j:ℝ) + 1 ≤ n := by exact_mod_cast hj
  have h0 : (0:ℝ) ≤ j := Nat.cast_nonneg j
  have hd : 0 ≤ (hi - lo)/n := div_nonneg (by linarith) hn.le
  have he : (hi - lo)/n*n = hi - lo := div_mul_cancel₀ _ hn.ne'
  unfold midAt edgeAt
  push_cast
  constructor <;> nlinarith

theorem cells_ne {R C : ℕ} (hR : 0 < R) (hC : 0 < C) : cells R C ≠ [] := by
  intro h0
  have := congrArg List.length h0
  unfold cells at this
  simp at this
  omega

theorem flatten_cells {α : Type} (a : Arr2 α) : flatten a = (cells a.rows a.cols).map fun k => a.val k.1 k.2 := by
  unfold flatten cells
  rw [List.map_map]; rfl

theorem cells_get {α : Type} {R C : ℕ} (g : ℕ → ℕ → α) (h : ℕ × ℕ → α) (hg : ∀ k, h k = g k.1 k.2) {i j : ℕ}
    (hi : i < R) (hj : j < C) : ((cells R C).map h)[i*C + j]? = some (g i j) := by
  have d1 : (i*C + j)/C = i := by
    rw [add_comm, Nat.add_mul_div_right _ _ (by omega), Nat.div_eq_of_lt hj]; simp
  have d2 : (i*C + j) % C = j := by
    rw [add_comm, Nat.add_mul_mod_self_right, Nat.mod_eq_of_lt hj]
  have hlt : i*C + j < R*C := by nlinarith
  unfold cells
  rw [List.map_map, List.getElem?_map, List.getElem?_range hlt, Option.map_some]
  simp only [Function.comp, d1, d2, hg]

theorem areas_error (d : ℝ) (e : List ℝ) (h : 2 ≤ e.length) : HealRing.areas d e = .error .attributeError := by
  obtain ⟨k, hk⟩ : ∃ k, e.length - 1 = k + 1 := ⟨e.length - 2, by omega⟩
  unfold HealRing.areas
  rw [hk, List.range_succ_eq_map]
  rfl

theorem firstDiff_ok (e : List ℝ) (h : 2 ≤ e.length) : ∃ d, firstDiff e = .ok d := by
  match e, h with
  | a :: b :: l, _ => exact ⟨_, rfl⟩

theorem getZ_ok (e : List ℝ) (k : ℕ) (h : k < e.length) : ∃ x, getZ e k = .ok x := by
  unfold getZ
  rw [if_pos (by omega), Int.toNat_natCast, List.getElem?_eq_getElem h]
  exact ⟨_, rfl⟩

theorem pyAssert_ok {p : Prop} [Decidable p] (h : pyAssert p = .ok ()) : p := by
  unfold pyAssert at h
  by_contra hp
  rw [if_neg hp] at h
  cases h

theorem polarChecks_num {a : PolarArgs} (h : polarChecks a = .ok ()) : 0 < a.numr ∧ 0 < a.nump := by
  unfold polarChecks pyAssert at h
  constructor
  · by_contra hp
    rw [if_neg hp] at h
    by_cases h1 : a.rmin < a.rmax
    · rw [if_pos h1] at h; cases h
    · rw [if_neg h1] at h; cases h
  · by_contra hp
    rw [if_neg hp] at h
    simp only [bind, Except.bind] at h
    split_ifs at h

/-- Reading the map at the dense points. -/
theorem read_ok {R C : ℕ} (f : List (Option ℝ)) (q : ℕ × ℕ → ℕ) (h : ∀ k, q k < f.length) :
    ∃ vals hi, gather f ((cells R C).map q) = .ok vals ∧
      Ortho.put (⟨R, C, fun _ _ => some 0⟩ : Arr2 (Option ℝ)) (flatten (⟨R, C, fun i _ => i⟩ : Arr2 ℕ))
        (flatten (⟨R, C, fun _ j => j⟩ : Arr2 ℕ)) vals = .ok hi := by
  refine ⟨(cells R C).map fun k => f.getD (q k) none, ?_⟩
  obtain ⟨hi, e, -⟩ := Ortho.put_flat R C (fun k => f.getD (q (k / C, k % C)) none) (some 0)
  refine ⟨hi, Ortho.gather_ok f _ q _ fun k _ => ?_, ?_⟩
  · rw [List.getElem?_eq_getElem (h k), List.getD_eq_getElem?_getD, List.getElem?_eq_getElem (h k)]; rfl
  · rw [← e]
    unfold cells
    rw [List.map_map]
    rfl

section Ring
open HealRing
variable {X : Type}

/-- What holds of every `Heal2Ring` object. -/
structure RingInv (s : HealRing.State X) : Prop where
  area : s.area2d = none
  edges : ∀ e, s.edges = some e → 2 ≤ e.redges.length ∧ 2 ≤ e.pedges.length
  polar : ∀ p, s.polar = some p → s.edges.isSome ∧ 0 < p.r2d.rows ∧ 0 < p.r2d.cols

theorem RingInv.map {s : HealRing.State X} (h : RingInv s) (n : ℤ) :
    RingInv (HealRing.setupMap n s).2 ∧ (HealRing.setupMap n s).2.extra = s.extra := by
  unfold HealRing.setupMap
  simp only [Meth.bind_apply, Meth.lift_apply, Meth.assign_apply]
  cases pyAssert (Cube.isNsideOk n) with
  | error e => exact ⟨h, rfl⟩
  | ok u => exact ⟨⟨h.area, h.edges, h.polar⟩, rfl⟩

theorem RingInv.cap {s : HealRing.State X} (h : RingInv s) (a : PolarArgs) :
    RingInv (setupCap a s).2 ∧ (setupCap a s).2.extra = s.extra := by
  unfold setupCap
  simp only [Meth.bind_apply, Meth.lift_apply, Meth.assign_apply]
  cases h1 : pyAssert (a.rmin ≥ 0) with
  | error e => exact ⟨h, rfl⟩
  | ok u =>
    cases h2 : polarChecks a with
    | error e => exact ⟨h, rfl⟩
    | ok u =>
      obtain ⟨hr, hp⟩ := polarChecks_num h2
      have lr : 2 ≤ (capEdges a).redges.length := by
        show 2 ≤ (linspace _ _ _).length
        rw [length_linspace]; omega
      have lp : 2 ≤ (capEdges a).pedges.length := by
        show 2 ≤ (linspace _ _ _).length
        rw [length_linspace]; omega
      have ed : ∀ e, some (capEdges a) = some e → 2 ≤ e.redges.length ∧ 2 ≤ e.pedges.length := by
        intro e he
        obtain rfl := Option.some.inj he
        exact ⟨lr, lp⟩
      have pl : ∀ p, s.polar = some p → (some (capEdges a)).isSome ∧ 0 < p.r2d.rows ∧ 0 < p.r2d.cols :=
        fun p hp => ⟨rfl, (h.polar p hp).2⟩
      simp only
      cases h3 : firstDiff (capEdges a).rmid with
      | error e => exact ⟨⟨h.area, ed, pl⟩, rfl⟩
      | ok da =>
        simp only
        cases h4 : firstDiff (capEdges a).pmid with
        | error e => exact ⟨⟨h.area, ed, pl⟩, rfl⟩
        | ok db =>
          refine ⟨⟨h.area, ed, ?_⟩, rfl⟩
          intro p hp'
          obtain rfl := Option.some.inj hp'
          refine ⟨rfl, ?_, ?_⟩
          · show 0 < (mids (linspace _ _ _)).length
            rw [length_mids_linspace]; omega
          · show 0 < (mids (linspace _ _ _)).length
            rw [length_mids_linspace]; omega

/-- `polar2radial` of any reachable object raises, and changes nothing. -/
theorem RingInv.radial {s : HealRing.State X} (h : RingInv s) (f : Arr2 (Option ℝ)) (sg w : Option (Arr2 ℝ)) :
    HealRing.polar2radial f sg w s
      = (.error (if s.edges.isSome then .attributeError else .typeError), s) := by
  unfold HealRing.polar2radial HealRing.storeArea
  simp only [Meth.bind_apply, Meth.self_apply, h.area]
  cases he : s.edges with
  | none => rfl
  | some e =>
    obtain ⟨lr, lp⟩ := h.edges e he
    obtain ⟨d, hd⟩ := firstDiff_ok e.pedges lp
    simp only [Meth.bind_apply, Meth.lift_apply, need_some, hd, areas_error d e.redges lr]
    rfl

theorem rotate_same (f : Arr2 (Option ℝ)) (s : HealRing.State X) :
    (HealRing.rotatePolar f s).2 = s ∧ ¬ Returns (HealRing.rotatePolar f s) := by
  unfold HealRing.rotatePolar Returns
  simp only [Meth.bind_apply, Meth.self_apply]
  cases s.polar with
  | none => exact ⟨rfl, fun ⟨o, h⟩ => by cases h⟩
  | some p =>
    simp only [Meth.bind_apply, Meth.lift_apply]
    cases pyAssert (f.sameShape p.p2d) with
    | error e => exact ⟨rfl, fun ⟨o, h⟩ => by cases h⟩
    | ok u => exact ⟨rfl, fun ⟨o, h⟩ => by cases h⟩

/-- `get_weights` of any reachable object raises, and changes nothing. -/
theorem mcring_weights {s : HealRing.State (Option HealRing.Mc.Weights)} (h : RingInv s) (rest) (n : ℤ) :
    HealRing.Mc.getWeights rest n s = (.error (if 1 < n then
      (if s.polar.isSome then .attributeError else .typeError) else .assertionError), s) := by
  unfold HealRing.Mc.getWeights pyAssert
  simp only [Meth.bind_apply, Meth.self_apply, Meth.lift_apply, Meth.assign_apply]
  by_cases hn : n > 1
  · rw [if_pos hn, if_pos hn]
    simp only
    cases hp : s.polar with
    | none => rfl
    | some p =>
      obtain ⟨h1, h2, h3⟩ := h.polar p hp
      obtain ⟨e, he⟩ := Option.isSome_iff_exists.mp h1
      obtain ⟨lr, lp⟩ := h.edges e he
      obtain ⟨x0, e0⟩ := getZ_ok e.redges 0 (by omega)
      obtain ⟨x1, e1⟩ := getZ_ok e.redges 1 (by omega)
      obtain ⟨y0, e2⟩ := getZ_ok e.pedges 0 (by omega)
      obtain ⟨y1, e3⟩ := getZ_ok e.pedges 1 (by omega)
      simp only [he, need_some]
      rw [tabulate_error _ _ _ _ .attributeError h2 h3]
      · rfl
      · push_cast at e0 e1 e2 e3 ⊢
        simp only [zero_add, e0, e1, e2, e3, bind, Except.bind]
        rfl
  · rw [if_neg hn, if_neg hn]

/-- `remap` without weights raises, and changes nothing. -/
theorem mcring_remap {s : HealRing.State (Option HealRing.Mc.Weights)} (h : RingInv s) (hx : s.extra = none)
    (f : List (Option ℝ)) (w : Option (List ℝ)) :
    (HealRing.Mc.remap f w s).2 = s ∧ ¬ Returns (HealRing.Mc.remap f w s) := by
  unfold HealRing.Mc.remap Returns
  simp only [Meth.bind_apply, Meth.self_apply, Meth.lift_apply]
  cases HealRing.npixOf s.nside with
  | error e => exact ⟨rfl, fun ⟨o, h⟩ => by cases h⟩
  | ok n =>
    simp only
    cases pyAssert (f.length = n) with
    | error e => exact ⟨rfl, fun ⟨o, h⟩ => by cases h⟩
    | ok u =>
      simp only
      cases w with
      | some w =>
        simp only [Meth.bind_apply, Meth.lift_apply, pyAssert]
        rw [if_neg (show ¬ shapeEqNumber [w.length] n from id)]
        exact ⟨rfl, fun ⟨o, h⟩ => by cases h⟩
      | none =>
        simp only [Meth.bind_apply, Meth.lift_apply, Meth.pure_apply]
        cases hp : s.polar with
        | none => exact ⟨rfl, fun ⟨o, h⟩ => by cases h⟩
        | some p =>
          obtain ⟨h1, h2, h3⟩ := h.polar p hp
          simp only [need_some]
          rw [tabulate_error _ _ _ _ .typeError h2 h3 (by rw [hx]; rfl)]
          exact ⟨by trivial, fun ⟨o, h⟩ => by cases h⟩

/-- Every reachable object. -/
theorem mcring_inv (cs : List HealRing.Mc.Call) :
    RingInv (HealRing.Mc.after cs) ∧ (HealRing.Mc.after cs).extra = none := by
  unfold HealRing.Mc.after
  have : ∀ (cs : List HealRing.Mc.Call) (s : HealRing.State (Option HealRing.Mc.Weights)),
      RingInv s ∧ s.extra = none →
      RingInv (cs.foldl (fun s c => c.run s) s) ∧ (cs.foldl (fun s c => c.run s) s).extra = none := by
    intro cs
    induction cs with
    | nil => exact fun s h => h
    | cons c cs ih =>
      intro s ⟨h, hx⟩
      refine ih _ ?_
      cases c with
      | map n => exact ⟨(h.map n).1, ((h.map n).2).trans hx⟩
      | setup a => exact ⟨(h.cap a).1, ((h.cap a).2).trans hx⟩
      | weights rest n => simp only [HealRing.Mc.Call.run, mcring_weights h rest n]; exact ⟨h, hx⟩
      | remap f w => simp only [HealRing.Mc.Call.run, (mcring_remap h hx f w).1]; exact ⟨h, hx⟩
      | rotate f => simp only [HealRing.Mc.Call.run, (rotate_same f s).1]; exact ⟨h, hx⟩
      | radial f sg w => simp only [HealRing.Mc.Call.run, h.radial f sg w]; exact ⟨h, hx⟩
      | clean => exact ⟨⟨rfl, fun _ h => (by cases h), fun _ h => (by cases h)⟩, rfl⟩
  exact this cs _ ⟨⟨rfl, fun _ h => (by cases h), fun _ h => (by cases h)⟩, rfl⟩

/-- The dense edges have at least two entries. -/
def DenseOk (x : HealRing.Dg.Extra) : Prop :=
  ∀ d, x.1 = some d → 2 ≤ d.aedges.length ∧ 2 ≤ d.bedges.length

theorem cap_num {a : PolarArgs} {s : HealRing.State X} {u : Unit} (h : (setupCap a s).1 = .ok u) :
    0 < a.numr ∧ 0 < a.nump := by
  unfold setupCap at h
  simp only [Meth.bind_apply, Meth.lift_apply, Meth.assign_apply] at h
  cases h1 : pyAssert (a.rmin ≥ 0) with
  | error e => rw [h1] at h; cases h
  | ok u =>
    cases h2 : polarChecks a with
    | error e => rw [h1, h2] at h; cases h
    | ok u => exact polarChecks_num h2

theorem mkDense_ok {a : HealRing.Dg.CapArgs} (hr : 0 < a.numr) (hp : 0 < a.nump) (h1 : 1 ≤ a.rebinAlpha)
    (h2 : 1 ≤ a.rebinBeta) :
    2 ≤ (HealRing.Dg.mkDense (capEdges a.toPolarArgs) a).aedges.length ∧
    2 ≤ (HealRing.Dg.mkDense (capEdges a.toPolarArgs) a).bedges.length := by
  have l1 : (capEdges a.toPolarArgs).rmid.length = a.numr.toNat := length_mids_linspace _ _ _
  have l2 : (capEdges a.toPolarArgs).pmid.length = a.nump.toNat := length_mids_linspace _ _ _
  unfold HealRing.Dg.mkDense
  simp only [length_linspace, l1, l2]
  have : 1 ≤ a.rebinAlpha*a.numr.toNat := Nat.mul_pos h1 (by omega)
  have : 1 ≤ a.rebinBeta*a.nump.toNat := Nat.mul_pos h2 (by omega)
  omega

theorem dgring_setup (ang2pix : ℤ → ℝ → ℝ → ℕ) {s : HealRing.State HealRing.Dg.Extra} (h : RingInv s)
    (hx : DenseOk s.extra) (a : HealRing.Dg.CapArgs) (h1 : 1 ≤ a.rebinAlpha) (h2 : 1 ≤ a.rebinBeta) :
    RingInv (HealRing.Dg.setupPolarCap ang2pix a s).2 ∧
      DenseOk (HealRing.Dg.setupPolarCap ang2pix a s).2.extra := by
  obtain ⟨hi, he⟩ := h.cap a.toPolarArgs
  unfold HealRing.Dg.setupPolarCap
  simp only [Meth.bind_apply, Meth.lift_apply, Meth.assign_apply, Meth.self_apply]
  rcases hc : setupCap a.toPolarArgs s with ⟨r, s'⟩
  rw [hc] at hi he
  simp only at hi he
  cases r with
  | error e => exact ⟨hi, by rw [he]; exact hx⟩
  | ok u =>
    obtain ⟨hr, hp⟩ := cap_num (s := s) (a := a.toPolarArgs) (u := u) (by rw [hc])
    obtain ⟨d1, d2⟩ := mkDense_ok hr hp h1 h2
    simp only
    split_ifs with hz
    · exact ⟨hi, by rw [he]; exact hx⟩
    · simp only
      have ok : ∀ o, DenseOk (some (HealRing.Dg.mkDense (capEdges a.toPolarArgs) a), o) := by
        intro o d hd
        obtain rfl := Option.some.inj hd
        exact ⟨d1, d2⟩
      cases HealRing.Dg.skyPix ang2pix s'.nside
          (flatten (HealRing.Dg.mkDense (capEdges a.toPolarArgs) a).b2d)
          (flatten (HealRing.Dg.mkDense (capEdges a.toPolarArgs) a).a2d) 0 0 a.phiShift (centerOf a.center) with
      | error e => exact ⟨⟨hi.area, hi.edges, hi.polar⟩, ok _⟩
      | ok pix => exact ⟨⟨hi.area, hi.edges, hi.polar⟩, ok _⟩

theorem dgring_remap1 {s : HealRing.State HealRing.Dg.Extra} (hx : DenseOk s.extra) (rest)
    (f : List (Option ℝ)) : ∃ e, HealRing.Dg.remap1 rest f s = (.error e, s) := by
  unfold HealRing.Dg.remap1
  simp only [Meth.bind_apply, Meth.self_apply, Meth.lift_apply]
  cases h1 : s.extra.1 with
  | none => exact ⟨_, rfl⟩
  | some d =>
    obtain ⟨l1, l2⟩ := hx d h1
    obtain ⟨db, hd⟩ := firstDiff_ok d.bedges l2
    simp only [need_some]
    cases s.extra.2 with
    | none => exact ⟨_, rfl⟩
    | some pix =>
      simp only [need_some]
      cases gather f pix with
      | error e => exact ⟨_, rfl⟩
      | ok vals =>
        simp only
        cases Ortho.put (⟨d.a2d.rows, d.a2d.cols, fun _ _ => some 0⟩ : Arr2 (Option ℝ)) d.aind d.bind vals with
        | error e => exact ⟨_, rfl⟩
        | ok hi => simp only [hd, areas_error db _ l1]; exact ⟨_, rfl⟩

theorem dgring_remap {s : HealRing.State HealRing.Dg.Extra} (hx : DenseOk s.extra) (rest)
    (f : List (Option ℝ)) (w : Option (List ℝ)) : ∃ e, HealRing.Dg.remap rest f w s = (.error e, s) := by
  unfold HealRing.Dg.remap
  cases w with
  | none => exact dgring_remap1 hx rest f
  | some w =>
    simp only [Meth.bind_apply, Meth.lift_apply]
    cases vzip omul f w with
    | error e => exact ⟨_, rfl⟩
    | ok fw =>
      obtain ⟨e, he⟩ := dgring_remap1 hx rest fw
      simp only [he]
      exact ⟨_, rfl⟩

/-- The rebin factors of a set-up call are positive. -/
def RebinOk : HealRing.Dg.Call → Prop
  | .setup a => 1 ≤ a.rebinAlpha ∧ 1 ≤ a.rebinBeta
  | _ => True

theorem dgring_inv (ang2pix : ℤ → ℝ → ℝ → ℕ) (cs : List HealRing.Dg.Call) (hcs : ∀ c ∈ cs, RebinOk c) :
    RingInv (HealRing.Dg.after ang2pix cs) ∧ DenseOk (HealRing.Dg.after ang2pix cs).extra := by
  unfold HealRing.Dg.after
  have : ∀ (cs : List HealRing.Dg.Call) (s : HealRing.State HealRing.Dg.Extra), (∀ c ∈ cs, RebinOk c) →
      RingInv s ∧ DenseOk s.extra →
      RingInv (cs.foldl (fun s c => c.run ang2pix s) s) ∧
      DenseOk (cs.foldl (fun s c => c.run ang2pix s) s).extra := by
    intro cs
    induction cs with
    | nil => exact fun s _ h => h
    | cons c cs ih =>
      intro s hr ⟨h, hx⟩
      refine ih _ (fun c hc => hr c (by simp [hc])) ?_
      have hc := hr c (by simp)
      cases c with
      | map n => exact ⟨(h.map n).1, by rw [show (HealRing.Dg.Call.run ang2pix (.map n) s).extra = s.extra from (h.map n).2]; exact hx⟩
      | setup a => exact dgring_setup ang2pix h hx a hc.1 hc.2
      | remap rest f w =>
        obtain ⟨e, he⟩ := dgring_remap hx rest f w
        simp only [HealRing.Dg.Call.run, he]
        exact ⟨h, hx⟩
      | rotate f => simp only [HealRing.Dg.Call.run, (rotate_same f s).1]; exact ⟨h, hx⟩
      | radial f sg w => simp only [HealRing.Dg.Call.run, h.radial f sg w]; exact ⟨h, hx⟩
      | clean => exact ⟨⟨rfl, fun _ h => (by cases h), fun _ h => (by cases h)⟩, fun _ h => (by cases h)⟩
  exact this cs _ hcs ⟨⟨rfl, fun _ h => (by cases h), fun _ h => (by cases h)⟩, fun _ h => (by cases h)⟩

/-- A valid set-up of the grid. -/
theorem cap_run {a : PolarArgs} {c : ℝ × ℝ} (h : CapValid a c) (s : HealRing.State X) :
    ∃ da db, setupCap a s = (.ok (), { s with
      edges := some (capEdges a), dalpha := some da, dbeta := some db
      polar := some (mkPolar (capEdges a) a) }) := by
  have hpi := pi_pos
  obtain ⟨a1, a2⟩ := h.alpha
  obtain ⟨b1, b2, b3⟩ := h.beta
  have hr := h.numr
  have hp := h.nump
  have ck : polarChecks a = .ok () := by
    unfold polarChecks pyAssert
    rw [if_pos a2, if_pos (by omega), if_pos b1, if_pos (by linarith), if_pos b2, if_pos (by linarith),
      if_pos b3, if_pos (by omega), if_pos (by rw [h.center]; rfl)]
    rfl
  obtain ⟨da, hda⟩ : ∃ d, firstDiff (capEdges a).rmid = .ok d := ⟨_, firstDiff_mids _ _ _ (by omega)⟩
  obtain ⟨db, hdb⟩ : ∃ d, firstDiff (capEdges a).pmid = .ok d := ⟨_, firstDiff_mids _ _ _ (by omega)⟩
  refine ⟨da, db, ?_⟩
  unfold setupCap
  simp only [Meth.bind_apply, Meth.lift_apply, Meth.assign_apply, ck, hda, hdb]
  unfold pyAssert
  rw [if_pos a1]

/-- The dense grid of a valid set-up. -/
theorem mkDense_facts {a : HealRing.Dg.CapArgs} {c : ℝ × ℝ} (h : CapValid a.toPolarArgs c) :
    ∃ d, HealRing.Dg.mkDense (capEdges a.toPolarArgs) a = d ∧
      d.b2d.rows = a.rebinBeta*a.nump.toNat ∧ d.b2d.cols = a.rebinAlpha*a.numr.toNat ∧
      d.a2d.rows = a.rebinBeta*a.nump.toNat ∧ d.a2d.cols = a.rebinAlpha*a.numr.toNat ∧
      (∀ i j, i < a.rebinBeta*a.nump.toNat → j < a.rebinAlpha*a.numr.toNat →
        d.b2d.val i j = midAt a.pmin a.pmax (a.rebinBeta*a.nump.toNat) i ∧
        d.a2d.val i j = midAt a.rmin a.rmax (a.rebinAlpha*a.numr.toNat) j) ∧
      d.aind = flatten (⟨a.rebinBeta*a.nump.toNat, a.rebinAlpha*a.numr.toNat, fun i _ => i⟩ : Arr2 ℕ) ∧
      d.bind = flatten (⟨a.rebinBeta*a.nump.toNat, a.rebinAlpha*a.numr.toNat, fun _ j => j⟩ : Arr2 ℕ) := by
  have hr := h.numr
  have hp := h.nump
  have ex0 : (capEdges a.toPolarArgs).redges.getD 0 0 = a.rmin := by
    show (linspace _ _ _).getD 0 0 = _
    rw [linspace_getD _ _ _ _ (by omega), edgeAt_zero]
  have ey0 : (capEdges a.toPolarArgs).pedges.getD 0 0 = a.pmin := by
    show (linspace _ _ _).getD 0 0 = _
    rw [linspace_getD _ _ _ _ (by omega), edgeAt_zero]
  have ex1 : (capEdges a.toPolarArgs).redges.getLastD 0 = a.rmax := linspace_getLastD _ _ _ (by omega)
  have ey1 : (capEdges a.toPolarArgs).pedges.getLastD 0 = a.pmax := linspace_getLastD _ _ _ (by omega)
  have lx : (capEdges a.toPolarArgs).rmid.length = a.numr.toNat := length_mids_linspace _ _ _
  have ly : (capEdges a.toPolarArgs).pmid.length = a.nump.toNat := length_mids_linspace _ _ _
  refine ⟨_, rfl, ?_⟩
  unfold HealRing.Dg.mkDense meshgridXY
  simp only [ex0, ey0, ex1, ey1, lx, ly, length_mids_linspace]
  refine ⟨trivial, trivial, trivial, trivial, ?_, trivial, trivial⟩
  intro i j hi hj
  exact ⟨mids_getD _ _ _ _ hi, mids_getD _ _ _ _ hj⟩

/-- A valid set-up of the dense polar cap. -/
theorem dgring_setup_ok (ang2pix : ℤ → ℝ → ℝ → ℕ) {a : HealRing.Dg.CapArgs} {c : ℝ × ℝ}
    (h : CapValid a.toPolarArgs c) (h1 : 1 ≤ a.rebinAlpha) (h2 : 1 ≤ a.rebinBeta)
    (hc1 : 0 ≤ c.1 ∧ c.1 < 2*π) (hc2 : 0 ≤ c.2 ∧ c.2 < π) (hs : 0 ≤ a.phiShift ∧ a.phiShift < 2*π)
    (ha : c.2 ≠ 0 ∨ a.rmax ≤ π) (s : HealRing.State HealRing.Dg.Extra) {n : ℤ} (hn : s.nside = some n) :
    ∃ (s' : HealRing.State HealRing.Dg.Extra) (sky : ℕ → ℕ → ℝ × ℝ),
      HealRing.Dg.setupPolarCap ang2pix a s = (.ok (), s') ∧
      s'.extra = (some (HealRing.Dg.mkDense (capEdges a.toPolarArgs) a),
        some ((cells (a.rebinBeta*a.nump.toNat) (a.rebinAlpha*a.numr.toNat)).map fun k =>
          ang2pix n (sky k.1 k.2).2 (sky k.1 k.2).1)) ∧
      ∀ i j, i < a.rebinBeta*a.nump.toNat → j < a.rebinAlpha*a.numr.toNat →
        CapAt c (midAt a.rmin a.rmax (a.rebinAlpha*a.numr.toNat) j)
          (midAt a.pmin a.pmax (a.rebinBeta*a.nump.toNat) i + a.phiShift) (sky i j) := by
  have hpi := pi_pos
  have hr := h.numr
  have hp := h.nump
  obtain ⟨da, db, ec⟩ := cap_run h s
  obtain ⟨d, ed, br, bc, ar, ac, hv, -, -⟩ := mkDense_facts h
  set R := a.rebinBeta*a.nump.toNat with hR
  set C := a.rebinAlpha*a.numr.toNat with hC
  have hRp : 0 < R := Nat.mul_pos h2 (by omega)
  have hCp : 0 < C := Nat.mul_pos h1 (by omega)
  obtain ⟨G, sky, gR, g1, g2, e, hd⟩ := skyPix_map ang2pix (cells R C) (cells_ne hRp hCp)
    (fun k => d.b2d.val k.1 k.2) (fun k => d.a2d.val k.1 k.2) n (c2 := 0) (s := a.phiShift) (c := c)
    (S := Rz a.phiShift) ⟨le_rfl, hpi.le⟩ hc1 ⟨hc2.1, hc2.2.le⟩
    (by rw [zero_sub, abs_neg, abs_of_nonneg hc2.1]; exact hc2.2) (fun h0 => by rw [h0, Rz_zero])
    (ha.imp Ne.symm fun ha k hk => by
      obtain ⟨k1, k2⟩ := mem_cells hk
      have := midAt_range h.alpha.2.le k2
      rw [(hv k.1 k.2 k1 k2).2]
      exact ⟨h.alpha.1.trans this.1, this.2.trans ha⟩)
    (fun _ => spinArr_pole _ (cells_ne hRp hCp) _ _ hs)
  have f1 : flatten d.b2d = (cells R C).map fun k => d.b2d.val k.1 k.2 := by rw [flatten_cells, br, bc]
  have f2 : flatten d.a2d = (cells R C).map fun k => d.a2d.val k.1 k.2 := by rw [flatten_cells, ar, ac]
  have ecen : centerOf a.center = c := by rw [h.center]; rfl
  refine ⟨{ s with
      edges := some (capEdges a.toPolarArgs), dalpha := some da, dbeta := some db
      polar := some (mkPolar (capEdges a.toPolarArgs) a.toPolarArgs)
      extra := (some d, some ((cells R C).map fun k => ang2pix n (sky k).2 (sky k).1)) },
    fun i j => sky (i, j), ?_, ?_, ?_⟩
  · unfold HealRing.Dg.setupPolarCap
    simp only [Meth.bind_apply, Meth.lift_apply, Meth.assign_apply, Meth.self_apply, ec, ed, br]
    rw [if_neg (by omega)]
    simp only [hn, f1, f2, ecen, e]
  · simp only [ed]
  · intro i j hi hj
    obtain ⟨v1, v2⟩ := hv i j hi hj
    have hz : dir 0 0 = ![0, 0, 1] := by simp [dir]
    rw [hz] at g1
    show dir (sky (i, j)).1 (sky (i, j)).2 = _
    rw [hd, Rz_dir, cap_frame gR g2 g1, v1, v2]
    simp only [dir, cons_val_zero, cons_val_one, cons_val]
    ext k
    simp only [Pi.add_apply, Pi.smul_apply, Pi.neg_apply, smul_eq_mul]
    ring

end Ring

section Box
open HealPolar
variable {X : Type}

theorem checks_num {a : HealPolar.BoxArgs} (h : checks a = .ok ()) : 0 < a.xGrid ∧ 0 < a.yNum := by
  unfold checks pyAssert at h
  simp only [bind, Except.bind] at h
  have hx : 0 < a.xGrid := by
    by_contra hp
    rw [if_neg hp] at h
    split_ifs at h
  refine ⟨hx, ?_⟩
  unfold HealPolar.BoxArgs.yNum
  cases hg : a.yGrid with
  | none => exact hx
  | some n =>
    by_contra hp
    have hp' : ¬ n > 0 := hp
    rw [hg] at h
    simp only [if_neg hp'] at h
    split_ifs at h
    cases hl : a.yLength with
    | none => rw [hl] at h; cases h
    | some l =>
      rw [hl] at h
      simp only at h
      split_ifs at h

theorem boxEdges_len {a : HealPolar.BoxArgs} (hx : 0 < a.xGrid) (hy : 0 < a.yNum) :
    2 ≤ (boxEdges a).xedges.length ∧ 2 ≤ (boxEdges a).yedges.length ∧
    (boxEdges a).xmid.length = a.xGrid.toNat ∧ (boxEdges a).ymid.length = a.yNum.toNat := by
  refine ⟨?_, ?_, length_mids_linspace _ _ _, length_mids_linspace _ _ _⟩
  · show 2 ≤ (linspace _ _ _).length
    rw [length_linspace]; omega
  · show 2 ≤ (linspace _ _ _).length
    rw [length_linspace]; omega

/-- What holds of every `Heal2Polar` object. -/
structure BoxInv (s : HealPolar.State X) : Prop where
  edges : ∀ e, s.edges = some e → 2 ≤ e.xedges.length ∧ 2 ≤ e.yedges.length
  grid : ∀ g, s.grid = some g → s.edges.isSome ∧ 0 < g.x2d.rows ∧ 0 < g.x2d.cols

theorem BoxInv.map {s : HealPolar.State X} (h : BoxInv s) (n : ℤ) :
    BoxInv (HealPolar.setupMap n s).2 ∧ (HealPolar.setupMap n s).2.extra = s.extra := by
  unfold HealPolar.setupMap
  simp only [Meth.bind_apply, Meth.lift_apply, Meth.assign_apply]
  cases pyAssert (Cube.isNsideOk n) with
  | error e => exact ⟨h, rfl⟩
  | ok u => exact ⟨⟨h.edges, h.grid⟩, rfl⟩

theorem BoxInv.box {s : HealPolar.State X} (h : BoxInv s) (a : HealPolar.BoxArgs) :
    BoxInv (setupGrid a s).2 ∧ (setupGrid a s).2.extra = s.extra := by
  unfold setupGrid
  simp only [Meth.bind_apply, Meth.lift_apply, Meth.assign_apply]
  cases h2 : checks a with
  | error e => exact ⟨h, rfl⟩
  | ok u =>
    obtain ⟨hx, hy⟩ := checks_num h2
    obtain ⟨lx, ly, mx, my⟩ := boxEdges_len hx hy
    have ed : ∀ e, some (boxEdges a) = some e → 2 ≤ e.xedges.length ∧ 2 ≤ e.yedges.length := by
      intro e he
      obtain rfl := Option.some.inj he
      exact ⟨lx, ly⟩
    have pl : ∀ g, s.grid = some g → (some (boxEdges a)).isSome ∧ 0 < g.x2d.rows ∧ 0 < g.x2d.cols :=
      fun p hp => ⟨rfl, (h.grid p hp).2⟩
    simp only
    cases h3 : firstDiff (boxEdges a).xmid with
    | error e => exact ⟨⟨ed, pl⟩, rfl⟩
    | ok da =>
      simp only
      cases h4 : firstDiff (boxEdges a).ymid with
      | error e => exact ⟨⟨ed, pl⟩, rfl⟩
      | ok db =>
        refine ⟨⟨ed, ?_⟩, rfl⟩
        intro p hp'
        obtain rfl := Option.some.inj hp'
        refine ⟨rfl, ?_, ?_⟩
        · show 0 < (boxEdges a).ymid.length
          rw [my]; omega
        · show 0 < (boxEdges a).xmid.length
          rw [mx]; omega

theorem mcbox_weights {s : HealPolar.State (Option HealPolar.Mc.Weights)} (h : BoxInv s) (rest) (n : ℤ) :
    HealPolar.Mc.getWeights rest n s = (.error (if 1 < n then
      (if s.grid.isSome then .attributeError else .typeError) else .assertionError), s) := by
  unfold HealPolar.Mc.getWeights pyAssert
  simp only [Meth.bind_apply, Meth.self_apply, Meth.lift_apply, Meth.assign_apply]
  by_cases hn : n > 1
  · rw [if_pos hn, if_pos hn]
    simp only
    cases hp : s.grid with
    | none => rfl
    | some p =>
      obtain ⟨h1, h2, h3⟩ := h.grid p hp
      obtain ⟨e, he⟩ := Option.isSome_iff_exists.mp h1
      obtain ⟨lr, lp⟩ := h.edges e he
      obtain ⟨x0, e0⟩ := getZ_ok e.xedges 0 (by omega)
      obtain ⟨x1, e1⟩ := getZ_ok e.xedges 1 (by omega)
      obtain ⟨y0, e2⟩ := getZ_ok e.yedges 0 (by omega)
      obtain ⟨y1, e3⟩ := getZ_ok e.yedges 1 (by omega)
      simp only [he, need_some]
      rw [tabulate_error _ _ _ _ .attributeError h2 h3]
      · rfl
      · push_cast at e0 e1 e2 e3 ⊢
        simp only [zero_add, e0, e1, e2, e3, bind, Except.bind]
        rfl
  · rw [if_neg hn, if_neg hn]

theorem mcbox_remap {s : HealPolar.State (Option HealPolar.Mc.Weights)} (h : BoxInv s) (hx : s.extra = none)
    (f : List (Option ℝ)) (w : Option (List ℝ)) :
    (HealPolar.Mc.remap f w s).2 = s ∧ ¬ Returns (HealPolar.Mc.remap f w s) := by
  unfold HealPolar.Mc.remap Returns
  simp only [Meth.bind_apply, Meth.self_apply, Meth.lift_apply]
  cases HealRing.npixOf s.nside with
  | error e => exact ⟨rfl, fun ⟨o, h⟩ => by cases h⟩
  | ok n =>
    simp only
    cases pyAssert (f.length = n) with
    | error e => exact ⟨rfl, fun ⟨o, h⟩ => by cases h⟩
    | ok u =>
      simp only
      cases w with
      | some w =>
        simp only [Meth.bind_apply, Meth.lift_apply, pyAssert]
        rw [if_neg (show ¬ HealRing.shapeEqNumber [w.length] n from id)]
        exact ⟨rfl, fun ⟨o, h⟩ => by cases h⟩
      | none =>
        simp only [Meth.bind_apply, Meth.lift_apply, Meth.pure_apply]
        cases hp : s.grid with
        | none => exact ⟨rfl, fun ⟨o, h⟩ => by cases h⟩
        | some p =>
          obtain ⟨h1, h2, h3⟩ := h.grid p hp
          simp only [need_some]
          rw [tabulate_error _ _ _ _ .typeError h2 h3 (by rw [hx]; rfl)]
          exact ⟨by trivial, fun ⟨o, h⟩ => by cases h⟩

theorem mcbox_inv (cs : List HealPolar.Mc.Call) :
    BoxInv (HealPolar.Mc.after cs) ∧ (HealPolar.Mc.after cs).extra = none := by
  unfold HealPolar.Mc.after
  have : ∀ (cs : List HealPolar.Mc.Call) (s : HealPolar.State (Option HealPolar.Mc.Weights)),
      BoxInv s ∧ s.extra = none →
      BoxInv (cs.foldl (fun s c => c.run s) s) ∧ (cs.foldl (fun s c => c.run s) s).extra = none := by
    intro cs
    induction cs with
    | nil => exact fun s h => h
    | cons c cs ih =>
      intro s ⟨h, hx⟩
      refine ih _ ?_
      cases c with
      | map n => exact ⟨(h.map n).1, ((h.map n).2).trans hx⟩
      | setup a => exact ⟨(h.box a).1, ((h.box a).2).trans hx⟩
      | weights rest n => simp only [HealPolar.Mc.Call.run, mcbox_weights h rest n]; exact ⟨h, hx⟩
      | remap f w => simp only [HealPolar.Mc.Call.run, (mcbox_remap h hx f w).1]; exact ⟨h, hx⟩
      | clean => exact ⟨⟨fun _ h => (by cases h), fun _ h => (by cases h)⟩, rfl⟩
  exact this cs _ ⟨⟨fun _ h => (by cases h), fun _ h => (by cases h)⟩, rfl⟩

/-- The dense edges have at least two entries. -/
def BoxDenseOk (x : HealPolar.Dg.Extra) : Prop :=
  ∀ d, x.1 = some d → 2 ≤ d.xedges.length ∧ 2 ≤ d.yedges.length

theorem box_num {a : HealPolar.BoxArgs} {s : HealPolar.State X} {u : Unit} (h : (setupGrid a s).1 = .ok u) :
    0 < a.xGrid ∧ 0 < a.yNum := by
  unfold setupGrid at h
  simp only [Meth.bind_apply, Meth.lift_apply, Meth.assign_apply] at h
  cases h2 : checks a with
  | error e => rw [h2] at h; cases h
  | ok u => exact checks_num h2

theorem boxDense_ok {a : HealPolar.Dg.RebinArgs} (hr : 0 < a.xGrid) (hp : 0 < a.yNum) (h1 : 1 ≤ a.rebinX)
    (h2 : 1 ≤ a.rebinY) :
    2 ≤ (HealPolar.Dg.mkDense (boxEdges a.toBoxArgs) a).xedges.length ∧
    2 ≤ (HealPolar.Dg.mkDense (boxEdges a.toBoxArgs) a).yedges.length := by
  obtain ⟨-, -, l1, l2⟩ := boxEdges_len hr hp
  unfold HealPolar.Dg.mkDense
  simp only [length_linspace, l1, l2]
  have : 1 ≤ a.rebinX*a.xGrid.toNat := Nat.mul_pos h1 (by omega)
  have : 1 ≤ a.rebinY*a.yNum.toNat := Nat.mul_pos h2 (by omega)
  omega

theorem dgbox_setup (ang2pix : ℤ → ℝ → ℝ → ℕ) {s : HealPolar.State HealPolar.Dg.Extra} (h : BoxInv s)
    (hx : BoxDenseOk s.extra) (a : HealPolar.Dg.RebinArgs) (h1 : 1 ≤ a.rebinX) (h2 : 1 ≤ a.rebinY) :
    BoxInv (HealPolar.Dg.setupBox ang2pix a s).2 ∧
      BoxDenseOk (HealPolar.Dg.setupBox ang2pix a s).2.extra := by
  obtain ⟨hi, he⟩ := h.box a.toBoxArgs
  unfold HealPolar.Dg.setupBox
  simp only [Meth.bind_apply, Meth.lift_apply, Meth.assign_apply, Meth.self_apply]
  rcases hc : setupGrid a.toBoxArgs s with ⟨r, s'⟩
  rw [hc] at hi he
  simp only at hi he
  cases r with
  | error e => exact ⟨hi, by rw [he]; exact hx⟩
  | ok u =>
    obtain ⟨hr, hp⟩ := box_num (s := s) (a := a.toBoxArgs) (u := u) (by rw [hc])
    obtain ⟨d1, d2⟩ := boxDense_ok hr hp h1 h2
    simp only
    have ok : ∀ o, BoxDenseOk (some (HealPolar.Dg.mkDense (boxEdges a.toBoxArgs) a), o) := by
      intro o d hd
      obtain rfl := Option.some.inj hd
      exact ⟨d1, d2⟩
    cases HealRing.Dg.skyPix ang2pix s'.nside
        (flatten (HealPolar.Dg.mkDense (boxEdges a.toBoxArgs) a).x2d)
        ((flatten (HealPolar.Dg.mkDense (boxEdges a.toBoxArgs) a).y2d).map fun y => π/2 - y) 0 (π/2) a.alpha
        (centerOf a.center) with
    | error e => exact ⟨⟨hi.edges, hi.grid⟩, ok _⟩
    | ok pix => exact ⟨⟨hi.edges, hi.grid⟩, ok _⟩

theorem dgbox_remap1 {s : HealPolar.State HealPolar.Dg.Extra} (hx : BoxDenseOk s.extra) (rest)
    (f : List (Option ℝ)) : ∃ e, HealPolar.Dg.remap1 rest f s = (.error e, s) := by
  unfold HealPolar.Dg.remap1
  simp only [Meth.bind_apply, Meth.self_apply, Meth.lift_apply]
  cases h1 : s.extra.1 with
  | none => exact ⟨_, rfl⟩
  | some d =>
    obtain ⟨l1, l2⟩ := hx d h1
    obtain ⟨db, hd⟩ := firstDiff_ok d.xedges l1
    simp only [need_some]
    cases s.extra.2 with
    | none => exact ⟨_, rfl⟩
    | some pix =>
      simp only [need_some]
      cases gather f pix with
      | error e => exact ⟨_, rfl⟩
      | ok vals =>
        simp only
        cases Ortho.put (⟨d.x2d.rows, d.x2d.cols, fun _ _ => some 0⟩ : Arr2 (Option ℝ)) d.xind d.yind vals with
        | error e => exact ⟨_, rfl⟩
        | ok hi =>
          simp only [hd, areas_error db (d.yedges.map fun y => y + π/2) (by rw [List.length_map]; exact l2)]
          exact ⟨_, rfl⟩

theorem dgbox_remap {s : HealPolar.State HealPolar.Dg.Extra} (hx : BoxDenseOk s.extra) (rest)
    (f : List (Option ℝ)) (w : Option (List ℝ)) : ∃ e, HealPolar.Dg.remap rest f w s = (.error e, s) := by
  unfold HealPolar.Dg.remap
  cases w with
  | none => exact dgbox_remap1 hx rest f
  | some w =>
    simp only [Meth.bind_apply, Meth.lift_apply]
    cases vzip omul f w with
    | error e => exact ⟨_, rfl⟩
    | ok fw =>
      obtain ⟨e, he⟩ := dgbox_remap1 hx rest fw
      simp only [he]
      exact ⟨_, rfl⟩

/-- The rebin factors of a set-up call are positive. -/
def BoxRebinOk : HealPolar.Dg.Call → Prop
  | .setup a => 1 ≤ a.rebinX ∧ 1 ≤ a.rebinY
  | _ => True

theorem dgbox_inv (ang2pix : ℤ → ℝ → ℝ → ℕ) (cs : List HealPolar.Dg.Call) (hcs : ∀ c ∈ cs, BoxRebinOk c) :
    BoxInv (HealPolar.Dg.after ang2pix cs) ∧ BoxDenseOk (HealPolar.Dg.after ang2pix cs).extra := by
  unfold HealPolar.Dg.after
  have : ∀ (cs : List HealPolar.Dg.Call) (s : HealPolar.State HealPolar.Dg.Extra), (∀ c ∈ cs, BoxRebinOk c) →
      BoxInv s ∧ BoxDenseOk s.extra →
      BoxInv (cs.foldl (fun s c => c.run ang2pix s) s) ∧
      BoxDenseOk (cs.foldl (fun s c => c.run ang2pix s) s).extra := by
    intro cs
    induction cs with
    | nil => exact fun s _ h => h
    | cons c cs ih =>
      intro s hr ⟨h, hx⟩
      refine ih _ (fun c hc => hr c (by simp [hc])) ?_
      have hc := hr c (by simp)
      cases c with
      | map n => exact ⟨(h.map n).1, by rw [show (HealPolar.Dg.Call.run ang2pix (.map n) s).extra = s.extra from (h.map n).2]; exact hx⟩
      | setup a => exact dgbox_setup ang2pix h hx a hc.1 hc.2
      | remap rest f w =>
        obtain ⟨e, he⟩ := dgbox_remap hx rest f w
        simp only [HealPolar.Dg.Call.run, he]
        exact ⟨h, hx⟩
      | clean => exact ⟨⟨fun _ h => (by cases h), fun _ h => (by cases h)⟩, fun _ h => (by cases h)⟩
  exact this cs _ hcs ⟨⟨fun _ h => (by cases h), fun _ h => (by cases h)⟩, fun _ h => (by cases h)⟩

/-- A valid set-up of the grid. -/
theorem box_run {a : HealPolar.BoxArgs} {c : ℝ × ℝ} (h : BoxValid a c) (s : HealPolar.State X) :
    ∃ da db, setupGrid a s = (.ok (), { s with
      edges := some (boxEdges a), dx := some da, dy := some db
      grid := some (HealPolar.mkGrid (boxEdges a) a) }) := by
  have hxg := h.xGrid
  have hyg : 2 ≤ a.yNum := by
    unfold HealPolar.BoxArgs.yNum
    cases hg : a.yGrid with
    | none => exact hxg
    | some n => exact h.yGrid n hg
  have ck : checks a = .ok () := by
    unfold checks pyAssert
    rw [if_pos h.x.1, if_pos h.x.2, if_pos (by omega), if_pos (by rw [h.center]; rfl)]
    cases hl : a.yLength with
    | none =>
      cases hg : a.yGrid with
      | none => rfl
      | some n =>
        have := h.yGrid n hg
        simp only
        rw [if_pos (by omega)]; rfl
    | some l =>
      obtain ⟨l1, l2⟩ := h.y l hl
      simp only
      rw [if_pos l1, if_pos l2]
      cases hg : a.yGrid with
      | none => rfl
      | some n =>
        have := h.yGrid n hg
        simp only
        rw [if_pos (by omega)]; rfl
  obtain ⟨da, hda⟩ : ∃ d, firstDiff (boxEdges a).xmid = .ok d := ⟨_, firstDiff_mids _ _ _ (by omega)⟩
  obtain ⟨db, hdb⟩ : ∃ d, firstDiff (boxEdges a).ymid = .ok d := ⟨_, firstDiff_mids _ _ _ (by omega)⟩
  refine ⟨da, db, ?_⟩
  unfold setupGrid
  simp only [Meth.bind_apply, Meth.lift_apply, Meth.assign_apply, ck, hda, hdb]

/-- The dense grid of a valid set-up. -/
theorem boxDense_facts {a : HealPolar.Dg.RebinArgs} (hx : 0 < a.xGrid) (hy : 0 < a.yNum) :
    ∃ d, HealPolar.Dg.mkDense (boxEdges a.toBoxArgs) a = d ∧
      d.x2d.rows = a.rebinY*a.yNum.toNat ∧ d.x2d.cols = a.rebinX*a.xGrid.toNat ∧
      d.y2d.rows = a.rebinY*a.yNum.toNat ∧ d.y2d.cols = a.rebinX*a.xGrid.toNat ∧
      (∀ i j, i < a.rebinY*a.yNum.toNat → j < a.rebinX*a.xGrid.toNat →
        d.x2d.val i j = midAt (-a.xLength/2) (a.xLength/2) (a.rebinX*a.xGrid.toNat) j ∧
        d.y2d.val i j = midAt (-a.yLen/2) (a.yLen/2) (a.rebinY*a.yNum.toNat) i) ∧
      d.xind = flatten (⟨a.rebinY*a.yNum.toNat, a.rebinX*a.xGrid.toNat, fun i _ => i⟩ : Arr2 ℕ) ∧
      d.yind = flatten (⟨a.rebinY*a.yNum.toNat, a.rebinX*a.xGrid.toNat, fun _ j => j⟩ : Arr2 ℕ) := by
  obtain ⟨-, -, lx, ly⟩ := boxEdges_len hx hy
  have ex0 : (boxEdges a.toBoxArgs).xedges.getD 0 0 = -a.xLength/2 := by
    show (linspace _ _ _).getD 0 0 = _
    rw [linspace_getD _ _ _ _ (by omega), edgeAt_zero]
  have ey0 : (boxEdges a.toBoxArgs).yedges.getD 0 0 = -a.yLen/2 := by
    show (linspace _ _ _).getD 0 0 = _
    rw [linspace_getD _ _ _ _ (by omega), edgeAt_zero]
  have ex1 : (boxEdges a.toBoxArgs).xedges.getLastD 0 = a.xLength/2 := linspace_getLastD _ _ _ (by omega)
  have ey1 : (boxEdges a.toBoxArgs).yedges.getLastD 0 = a.yLen/2 := linspace_getLastD _ _ _ (by omega)
  refine ⟨_, rfl, ?_⟩
  unfold HealPolar.Dg.mkDense meshgridXY
  simp only [ex0, ey0, ex1, ey1, lx, ly, length_mids_linspace, length_linspace, Nat.add_sub_cancel]
  refine ⟨trivial, trivial, trivial, trivial, ?_, trivial, trivial⟩
  intro i j hi hj
  exact ⟨mids_getD _ _ _ _ hj, mids_getD _ _ _ _ hi⟩

theorem Rx_mulVec (s : ℝ) (v : Fin 3 → ℝ) :
    Rx s *ᵥ v = ![v 0, cos s*v 1 - sin s*v 2, sin s*v 1 + cos s*v 2] := by
  ext i
  unfold Rx
  fin_cases i <;> simp [mulVec, dotProduct, Fin.sum_univ_three] <;> ring

/-- A valid set-up of the dense box. -/
theorem yLen_range {a : HealPolar.BoxArgs} {c : ℝ × ℝ} (h : BoxValid a c) : 0 ≤ a.yLen ∧ a.yLen ≤ π := by
  unfold HealPolar.BoxArgs.yLen
  cases hy : a.yLength with
  | some l => exact h.y l hy
  | none =>
    simp only [Option.getD_none]
    split_ifs with hx
    · exact ⟨pi_pos.le, le_rfl⟩
    · exact ⟨h.x.1, not_lt.mp hx⟩

theorem dgbox_setup_ok (ang2pix : ℤ → ℝ → ℝ → ℕ) {a : HealPolar.Dg.RebinArgs} {c : ℝ × ℝ}
    (h : BoxValid a.toBoxArgs c) (h1 : 1 ≤ a.rebinX) (h2 : 1 ≤ a.rebinY)
    (hc1 : 0 ≤ c.1 ∧ c.1 < 2*π) (hc2 : 0 ≤ c.2 ∧ c.2 ≤ π) (hs : 0 ≤ a.alpha ∧ a.alpha < 2*π)
    (s : HealPolar.State HealPolar.Dg.Extra) {n : ℤ} (hn : s.nside = some n) :
    ∃ (s' : HealPolar.State HealPolar.Dg.Extra) (sky : ℕ → ℕ → ℝ × ℝ),
      HealPolar.Dg.setupBox ang2pix a s = (.ok (), s') ∧
      (∃ g, s'.grid = some g ∧ g.center = c ∧ g.alpha = a.alpha) ∧
      s'.extra = (some (HealPolar.Dg.mkDense (boxEdges a.toBoxArgs) a),
        some ((cells (a.rebinY*a.yNum.toNat) (a.rebinX*a.xGrid.toNat)).map fun k =>
          ang2pix n (sky k.1 k.2).2 (sky k.1 k.2).1)) ∧
      ∀ i j, i < a.rebinY*a.yNum.toNat → j < a.rebinX*a.xGrid.toNat →
        BoxAt c a.alpha (midAt (-a.xLength/2) (a.xLength/2) (a.rebinX*a.xGrid.toNat) j)
          (midAt (-a.yLen/2) (a.yLen/2) (a.rebinY*a.yNum.toNat) i) (sky i j) := by
  have hpi := pi_pos
  have hxg := h.xGrid
  have hyg : 2 ≤ a.yNum := by
    unfold HealPolar.BoxArgs.yNum
    cases hg : a.yGrid with
    | none => exact hxg
    | some n => exact h.yGrid n hg
  obtain ⟨da, db, ec⟩ := box_run h s
  obtain ⟨d, ed, xr, xc, yr, yc, hv, -, -⟩ := boxDense_facts (a := a) (by omega) (by omega)
  set R := a.rebinY*a.yNum.toNat with hR
  set C := a.rebinX*a.xGrid.toNat with hC
  have hRp : 0 < R := Nat.mul_pos h2 (by omega)
  have hCp : 0 < C := Nat.mul_pos h1 (by omega)
  obtain ⟨G, sky, gR, g1, g2, e, hd⟩ := skyPix_map ang2pix (cells R C) (cells_ne hRp hCp)
    (fun k => d.x2d.val k.1 k.2) (fun k => π/2 - d.y2d.val k.1 k.2) n (c2 := π/2) (s := a.alpha) (c := c)
    (S := Rx a.alpha) ⟨by linarith, by linarith⟩ hc1 hc2
    (by rw [abs_lt]; constructor <;> linarith [hc2.1, hc2.2])
    (fun h0 => by rw [h0]; unfold Rx; rw [cos_zero, sin_zero, neg_zero, one_fin_three])
    (.inr fun k hk => by
      obtain ⟨k1, k2⟩ := mem_cells hk
      have hy := yLen_range h
      have := midAt_range (lo := -a.yLen/2) (hi := a.yLen/2) (by linarith) k1
      simp only [(hv k.1 k.2 k1 k2).2]
      constructor <;> linarith)
    (fun h0 => spinArr_equator _ (cells_ne hRp hCp) _ _ hs h0)
  have f1 : flatten d.x2d = (cells R C).map fun k => d.x2d.val k.1 k.2 := by rw [flatten_cells, xr, xc]
  have f2 : (flatten d.y2d).map (fun y => π/2 - y) = (cells R C).map fun k => π/2 - d.y2d.val k.1 k.2 := by
    rw [flatten_cells, yr, yc, List.map_map]; rfl
  have ecen : centerOf a.center = c := by rw [h.center]; rfl
  refine ⟨{ s with
      edges := some (boxEdges a.toBoxArgs), dx := some da, dy := some db
      grid := some (HealPolar.mkGrid (boxEdges a.toBoxArgs) a.toBoxArgs)
      extra := (some d, some ((cells R C).map fun k => ang2pix n (sky k).2 (sky k).1)) },
    fun i j => sky (i, j), ?_, ⟨_, rfl, ecen, rfl⟩, ?_, ?_⟩
  · unfold HealPolar.Dg.setupBox
    simp only [Meth.bind_apply, Meth.lift_apply, Meth.assign_apply, Meth.self_apply, ec, ed]
    simp only [hn, f1, f2, ecen, e]
  · simp only [ed]
  · intro i j hi hj
    obtain ⟨v1, v2⟩ := hv i j hi hj
    have hx0 : dir 0 (π/2) = ![1, 0, 0] := by simp [dir]
    rw [hx0] at g1
    show dir (sky (i, j)).1 (sky (i, j)).2 = _
    rw [hd, box_frame gR g2 g1, v1, v2, Rx_mulVec]
    simp only [dir, cons_val_zero, cons_val_one, cons_val, sin_pi_div_two_sub, cos_pi_div_two_sub]
    ext k
    simp only [Pi.add_apply, Pi.smul_apply, smul_eq_mul]
    ring

end Box

end Magpie.HealSky
