import Verif.Proof.PolarRotate
import Verif.Props.Coords
import Mathlib.Algebra.BigOperators.Group.List.Basic
import Mathlib.Algebra.BigOperators.Fin

/-!
# Properties C24, C29, C30: mutation of the caller's arrays, rotations of polar data
-/

set_option linter.unusedSimpArgs false

namespace Magpie.Props
open Magpie Magpie.Coords Magpie.Polar Magpie.Spec Real

/-! ## C24 (violated) -/

/-- What can be said for C24: a zero shift leaves longitudes in `[0, 2π]` unchanged in the caller's
array.  Missing: every nonzero shift, see `C24_violated`. -/
theorem C24_no_mutation_partial (phi : List ℝ) (h : ∀ p ∈ phi, 0 ≤ p ∧ p ≤ 2*π) :
    phiShiftArr phi 0 = .ok phi := by
  have hpi := pi_pos
  have := phiShiftArr_eq_map phi 0 id ?_ (by linarith) (by linarith)
  · simpa using this
  · intro p hp
    unfold phiShift pyAssert
    rw [if_pos ⟨by linarith, by linarith⟩]
    simp only [bind, Except.bind, add_zero, pure, Except.pure, id]
    rw [if_neg (not_lt.mpr (h p hp).2), if_neg (not_lt.mpr (h p hp).1)]

/-- C24 is violated by every nonzero shift of every nonempty array: the array the caller passed to
`usphere_phi_shift` holds other values after the call. -/
theorem C24_violated (phi : List ℝ) (dphi : ℝ) (hne : phi ≠ []) (h0 : dphi ≠ 0) (h : |dphi| < 2*π) :
    ∃ after, phiShiftArr phi dphi = .ok after ∧ after.length = phi.length ∧
      ∀ i (hi : i < phi.length) (hi' : i < after.length), after[i] ≠ phi[i] := by
  obtain ⟨f, hf, hk⟩ := (C23_phi_shift_array phi dphi).1 h
  refine ⟨_, hf, by simp, ?_⟩
  intro i hi hi'
  rw [List.getElem_map]
  obtain ⟨k, e, _, _⟩ := hk phi[i]
  rw [e]
  intro hc
  have hd : dphi = 2*π*(-k : ℤ) := by push_cast; linarith
  rcases lt_trichotomy k 0 with hk | hk | hk
  · have : (1:ℝ) ≤ ((-k : ℤ) : ℝ) := by exact_mod_cast (by omega : (1:ℤ) ≤ -k)
    have hpi := pi_pos
    rw [abs_lt] at h; nlinarith
  · subst hk; simp at hd; exact h0 hd
  · have : ((-k : ℤ) : ℝ) ≤ -1 := by exact_mod_cast (by omega : -k ≤ -1)
    have hpi := pi_pos
    rw [abs_lt] at h; nlinarith

/-- C24 is violated by `usphere_shift` as well: whenever start and end differ in longitude, every
entry of the caller's longitude array is changed by the call. -/
theorem C24_violated_shift (rows : List (ℝ × ℝ)) (pS tS pE tE : ℝ) (hne : rows ≠ [])
    (h1 : 0 ≤ pS ∧ pS ≤ 2*π) (h2 : 0 ≤ pE ∧ pE ≤ 2*π) (h3 : 0 ≤ tS ∧ tS ≤ π) (h4 : 0 ≤ tE ∧ tE ≤ π)
    (h0 : pE ≠ pS) (h : |pE - pS| < 2*π) :
    ∃ s, shiftArr (rows.map Prod.fst) (rows.map Prod.snd) pS tS pE tE = .ok s ∧
      s.callerPhi.length = rows.length ∧
      ∀ i (hi : i < rows.length) (hi' : i < s.callerPhi.length), s.callerPhi[i] ≠ rows[i].1 := by
  obtain ⟨after, ha, hl, hd⟩ := C24_violated (rows.map Prod.fst) (pE - pS) (by simpa using hne)
    (sub_ne_zero.mpr h0) h
  rw [List.length_map] at hl
  have fin : ∀ s : SkyArr, s.callerPhi = after → s.callerPhi.length = rows.length ∧
      ∀ i (hi : i < rows.length) (hi' : i < s.callerPhi.length), s.callerPhi[i] ≠ rows[i].1 := by
    intro s hs
    subst hs
    refine ⟨hl, fun i hi hi' => ?_⟩
    have := hd i (by simpa using hi) hi'
    simpa using this
  unfold shiftArr
  rw [shiftChecks_ok h1 h2 h3 h4, ha]
  simp only [bind, Except.bind]
  by_cases c : tS = tE
  · rw [if_neg (by simpa using c)]
    exact ⟨_, rfl, fin _ rfl⟩
  · rw [if_pos c]
    -- the rotation of the shifted rows succeeds
    have hrows : ∃ rs : List (ℝ × ℝ), rs.map Prod.fst = after ∧ rs.map Prod.snd = rows.map Prod.snd := by
      refine ⟨after.zip (rows.map Prod.snd), ?_, ?_⟩
      · rw [List.map_fst_zip]; simp [hl]
      · rw [List.map_snd_zip]; simp [hl]
    obtain ⟨rs, e1, e2⟩ := hrows
    have hrs : rs ≠ [] := by rintro rfl; exact hne (by simpa using e2.symm)
    have hchk := rotateChecks_ok (phiEnd := pE) (thetaEnd := tE) (phiStart := pE) (thetaStart := tS) (Or.inr c) h2 h2 h3 h4
    have : ∀ r : ℝ × ℝ, ∃ x, rotate r.1 r.2 pE tE pE tS = .ok x := by
      intro r
      unfold rotate
      rw [hchk]
      simp only [bind, Except.bind]
      cases rotateMats pE tE pE tS with
      | none => exact ⟨_, rfl⟩
      | some m => simp only [cart2sphere_eq]; exact ⟨_, rfl⟩
    choose g hg using this
    have := rotateArr_eq_map rs pE tE pE tS g hrs hchk (fun r _ => hg r)
    rw [e1, e2] at this
    rw [this]
    exact ⟨_, rfl, fin _ rfl⟩

private theorem py_ok_bind {α β : Type} {x : Py α} {f : α → Py β} {r : β} (h : (x >>= f) = .ok r) :
    ∃ y, x = .ok y ∧ f y = .ok r := by
  cases x with
  | error e => simp [bind, Except.bind] at h
  | ok y => exact ⟨y, rfl, h⟩

/-- A shift by zero leaves longitudes between 0 and 2π as they are. -/
theorem phiShiftArr_zero {phi : List ℝ} (h : ∀ p ∈ phi, 0 ≤ p ∧ p ≤ 2*π) : phiShiftArr phi 0 = .ok phi := by
  have hpi := pi_pos
  have := phiShiftArr_eq_map phi 0 id (fun p hp => by
    unfold phiShift pyAssert
    rw [if_pos ⟨by linarith, by linarith⟩]
    obtain ⟨h1, h2⟩ := h p hp
    simp only [bind, Except.bind, add_zero, id]
    rw [if_neg (by linarith), if_neg (by linarith)]
    rfl) (by linarith) (by linarith)
  rwa [List.map_id] at this

/-- C24 for `usphere_spin`, in part: about a centre that is not the north pole the caller's longitudes, if they are
between 0 and 2π, are as they were whenever the call returns. Missing: the north pole, see `C24_violated_spin`. -/
theorem C24_spin_partial (phi theta : List ℝ) (pC tC alpha : ℝ) (ht : tC ≠ 0)
    (h : ∀ p ∈ phi, 0 ≤ p ∧ p ≤ 2*π) (s : SkyArr) (hs : spinArr phi theta pC tC alpha = .ok s) :
    s.callerPhi = phi := by
  unfold spinArr at hs
  obtain ⟨_, -, hs⟩ := py_ok_bind hs
  obtain ⟨_, -, hs⟩ := py_ok_bind hs
  obtain ⟨_, -, hs⟩ := py_ok_bind hs
  obtain ⟨s1, h1, hs⟩ := py_ok_bind hs
  have e1 : s1.callerPhi = phi := by
    unfold shiftArr at h1
    obtain ⟨_, -, h1⟩ := py_ok_bind h1
    rw [sub_self] at h1
    obtain ⟨q, hq, h1⟩ := py_ok_bind h1
    rw [phiShiftArr_zero h] at hq
    cases hq
    rw [if_pos ht] at h1
    obtain ⟨r, -, h1⟩ := py_ok_bind h1
    cases h1
    rfl
  split at hs
  · obtain ⟨_, -, hs⟩ := py_ok_bind hs
    obtain ⟨_, -, hs⟩ := py_ok_bind hs
    cases hs
    simp only [if_pos ht]
    exact e1
  · obtain ⟨_, -, hs⟩ := py_ok_bind hs
    cases hs
    exact e1

/-- C24 is violated by `usphere_spin` about the north pole: a spin by an angle between 0 and 2π changes every entry
of the caller's longitude array. -/
theorem C24_violated_spin (rows : List (ℝ × ℝ)) (pC alpha : ℝ) (hne : rows ≠ [])
    (hp : 0 ≤ pC ∧ pC ≤ 2*π) (h : ∀ r ∈ rows, 0 ≤ r.1 ∧ r.1 ≤ 2*π) (ha : 0 < alpha ∧ alpha < 2*π) :
    ∃ s, spinArr (rows.map Prod.fst) (rows.map Prod.snd) pC 0 alpha = .ok s ∧
      s.callerPhi.length = rows.length ∧
      ∀ i (hi : i < rows.length) (hi' : i < s.callerPhi.length), s.callerPhi[i] ≠ rows[i].1 := by
  have hpi := pi_pos
  have h' : ∀ p ∈ rows.map Prod.fst, 0 ≤ p ∧ p ≤ 2*π := by
    intro p hp
    obtain ⟨r, hr, rfl⟩ := List.mem_map.mp hp
    exact h r hr
  obtain ⟨after, h1, hl, hd⟩ := C24_violated (rows.map Prod.fst) alpha (by simpa using hne) ha.1.ne'
    (by rw [abs_of_pos ha.1]; exact ha.2)
  obtain ⟨f, hf, hk⟩ := (C23_phi_shift_array (rows.map Prod.fst) alpha).1 (by rw [abs_of_pos ha.1]; exact ha.2)
  have e : after = (rows.map Prod.fst).map f := by rw [h1] at hf; cases hf; rfl
  have hafter : ∀ p ∈ after, 0 ≤ p ∧ p ≤ 2*π := by
    rw [e]
    intro p hp
    obtain ⟨q, hq, rfl⟩ := List.mem_map.mp hp
    obtain ⟨k, -, -, hk⟩ := hk q
    exact hk (h' q hq).1 (h' q hq).2
  have hid : ∀ l : List ℝ, (l.map some).mapM id = some l := by
    intro l
    induction l with
    | nil => rfl
    | cons a l ih => simp only [List.map_cons, List.mapM_cons, ih]; rfl
  have sh : ∀ l t : List ℝ, (∀ p ∈ l, 0 ≤ p ∧ p ≤ 2*π) →
      shiftArr l t pC 0 pC 0 = .ok ⟨l.map some, t.map some, l⟩ := by
    intro l t hl
    unfold shiftArr
    rw [shiftChecks_ok hp hp ⟨le_rfl, hpi.le⟩ ⟨le_rfl, hpi.le⟩, sub_self, phiShiftArr_zero hl]
    simp only [bind, Except.bind, ne_eq, not_true, if_false]
    rfl
  refine ⟨⟨after.map some, (rows.map Prod.snd).map some, after⟩, ?_, by simpa using hl, fun i hi hi' => ?_⟩
  · unfold spinArr pyAssert
    rw [if_pos ⟨hp.1, hp.2⟩, if_pos ⟨le_rfl, hpi.le⟩, if_pos ⟨ha.1.le, ha.2.le⟩, sh _ _ h']
    simp only [bind, Except.bind, hid, h1]
    rw [sh _ _ hafter]
    simp only [ne_eq, not_true, if_false]
    rfl
  · have := hd i (by simpa using hi) hi'
    simpa using this

/-- Two longitudes for the spin about the pole; a spin that returns about another point is in `HealSky.lean`. -/
example : ([(0, 1), (1, 2)] : List (ℝ × ℝ)) ≠ [] ∧ (∀ r ∈ ([(0, 1), (1, 2)] : List (ℝ × ℝ)), 0 ≤ r.1 ∧ r.1 ≤ 2*π) := by
  have := pi_gt_three
  refine ⟨by simp, ?_⟩
  intro r hr
  simp only [List.mem_cons, List.not_mem_nil, or_false] at hr
  rcases hr with rfl | rfl
  · exact ⟨le_rfl, by positivity⟩
  · exact ⟨zero_le_one, by simp only; linarith⟩

example : ([0, 1] : List ℝ) ≠ [] ∧ (1:ℝ) ≠ 0 ∧ |(1:ℝ)| < 2*π := by
  refine ⟨by simp, by norm_num, ?_⟩
  rw [abs_one]; have := pi_gt_three; linarith

/-! ## C29 (violated) -/

/-- What can be said for C29: angles outside `(0, 2π)` are rejected.  Missing: every accepted angle,
see `C29_violated`. -/
theorem C29_rotate_polar_partial (phi : List ℝ) (rotate : ℝ) (h : ¬ (0 < rotate ∧ rotate < 2*π)) :
    rotatePolar phi rotate = .error .assertionError := by
  unfold rotatePolar pyAssert
  rw [if_neg h]; rfl

/-- C29 is violated by every call: `rotate_polar` never returns. -/
theorem C29_violated (phi : List ℝ) (rotate : ℝ) (r : List ℝ) : rotatePolar phi rotate ≠ .ok r := by
  unfold rotatePolar pyAssert
  split <;> simp [bind, Except.bind]

/-! ## C30 (violated) -/

section
variable {V : Type} [AddCommGroup V] [Module ℝ V]

/-- What holds of C30: on a full-circle grid every accepted shift returns a grid with the same
number of rows, a grid with equal rows is returned unchanged, and the caller's array is left
alone when the shift is at least one pixel.  Missing: that whole-pixel shifts are cyclic shifts
and conserve the sum, see `C30_violated` and `C30_violated_mutation`. -/
theorem C30_rotate_grid_partial (a : ℝ) (f : List V) (s : ℝ) (hs : 0 < s) (hs2 : s < 2*π)
    (hf : 1 ≤ f.length) :
    ∃ r, rotatePolarGrid (circleEdges a f.length) f s = .ok r ∧ r.result.length = f.length ∧
      (∀ v, (∀ x ∈ f, x = v) → ∀ x ∈ r.result, x = v) ∧
      (2*π/f.length ≤ s → r.caller = f) := by
  have hpi := pi_pos
  have hn : (0:ℝ) < f.length := by exact_mod_cast hf
  have hdp : 0 < 2*π/f.length := by positivity
  set q := s/(2*π/f.length) with hq
  have hq0 : 0 ≤ q := by positivity
  have hsk : s = ((⌊q⌋.toNat : ℕ) + Int.fract q)*(2*π/f.length) := by
    have h1 : ((⌊q⌋.toNat : ℕ) : ℝ) = (⌊q⌋ : ℝ) := by
      exact_mod_cast Int.toNat_of_nonneg (Int.floor_nonneg.mpr hq0)
    rw [h1, Int.floor_add_fract, hq]; field_simp
  obtain ⟨r, hr, he, h1, h2⟩ := rotatePolarGrid_eq a f s hs hs2 hf ⌊q⌋.toNat (Int.fract q)
    (Int.fract_nonneg _) (Int.fract_lt_one _) hsk
  refine ⟨_, he, hr, ?_, ?_⟩
  · intro v hv
    have hv' : ∀ i (hi : i < (f.rotate ⌊q⌋.toNat).length), (f.rotate ⌊q⌋.toNat)[i] = v := by
      intro i hi
      apply hv
      rw [← List.mem_rotate (n := ⌊q⌋.toNat)]
      exact List.getElem_mem _
    have hlow : ∀ i (hi : i + 1 < f.length), r[i] = v := by
      intro i hi
      rw [h1 i hi, hv', hv']; module
    intro x hx
    obtain ⟨i, hi, rfl⟩ := List.getElem_of_mem hx
    simp only [] at hi ⊢
    by_cases hc : i + 1 < f.length
    · exact hlow i hc
    · have hi' : i = f.length - 1 := by omega
      subst hi'
      by_cases h : f.length = 1
      · have e : r[0]'(by omega) = r[f.length-1]'(by omega) := by congr 1; omega
        rw [hv', e] at h2
        set X := r[f.length-1]'(by omega)
        -- X = w v + (1-w) X
        have : (Int.fract q) • (X - v) = 0 := by
          have : (Int.fract q) • (X - v) = X - ((Int.fract q) • v + (1 - Int.fract q) • X) := by module
          rw [this, ← h2, sub_self]
        rcases smul_eq_zero.mp this with h0 | h0
        · exfalso
          -- one pixel: 0 < q < 1, so the fraction is not zero
          have hq1 : q < 1 := by
            rw [hq, h]; simp; rw [div_lt_one (by positivity)]; linarith
          have hqp : 0 < q := by positivity
          rw [Int.fract_eq_self.mpr ⟨hq0, hq1⟩] at h0
          linarith
        · exact sub_eq_zero.mp h0
      · rw [h2, hv', hlow 0 (by omega)]; module
  · intro hge
    have : 1 ≤ q := by rw [hq, le_div_iff₀ hdp]; linarith
    have : 1 ≤ ⌊q⌋ := Int.le_floor.mpr (by exact_mod_cast this)
    simp only []
    rw [if_pos (by omega)]

/-- C30 is violated: rotating a full-circle grid of at least two rows by exactly `k` pixels
returns row `k+1+i` in place `i` and row `k+1` again in the last place. Row `k` is lost: unless
all rows are equal the result is not the cyclic shift by `k`, and unless rows `k` and `k+1` agree
the sum over phi changes. -/
theorem C30_violated (a : ℝ) (f : List V) (k : ℕ) (hk : 1 ≤ k) (hkn : k < f.length) :
    ∃ r, rotatePolarGrid (circleEdges a f.length) f (k*(2*π/f.length)) = .ok r ∧
      (∀ i (_ : i + 1 < f.length), r.result[i]? = f[(i+1+k) % f.length]?) ∧
      r.result[f.length-1]? = f[(1+k) % f.length]? ∧
      ((∃ x ∈ f, ∃ y ∈ f, x ≠ y) → r.result ≠ f.rotate k) ∧
      (f[k % f.length]? ≠ f[(1+k) % f.length]? → r.result.sum ≠ f.sum) := by
  have hpi := pi_pos
  have hn : (0:ℝ) < f.length := by exact_mod_cast (by omega : 0 < f.length)
  have hf2 : 2 ≤ f.length := by omega
  have hkr : (k:ℝ) < f.length := by exact_mod_cast hkn
  have hk0 : (0:ℝ) < k := by exact_mod_cast hk
  obtain ⟨r, hr, he, h1, h2⟩ := rotatePolarGrid_eq a f (k*(2*π/f.length)) (by positivity)
    (by rw [← mul_div_assoc, div_lt_iff₀ hn]; nlinarith) (by omega) k 0 le_rfl one_pos (by ring)
  have hr' : ∀ i (hi : i + 1 < f.length), r[i] = (f.rotate k)[i+1]'(by simp; omega) := by
    intro i hi; rw [h1 i hi]; simp
  have hl' : r[f.length-1] = (f.rotate k)[1]'(by simp; omega) := by
    rw [h2, hr' 0 (by omega)]; simp
  refine ⟨_, he, ?_, ?_, ?_, ?_⟩
  · intro i hi
    simp only []
    rw [List.getElem?_eq_getElem (by omega), hr' i hi, List.getElem_rotate,
      List.getElem?_eq_getElem]
  · simp only []
    rw [List.getElem?_eq_getElem (by omega), hl', List.getElem_rotate, List.getElem?_eq_getElem]
  · rintro ⟨x, hx, y, hy, hxy⟩ hc
    simp only [] at hc
    -- all rows of the rotated grid equal its row 0
    have hstep : ∀ i (hi : i < (f.rotate k).length),
        (f.rotate k)[i] = (f.rotate k)[0]'(by simp; omega) := by
      intro i
      induction i with
      | zero => intro _; rfl
      | succ i ih =>
        intro hi
        simp only [List.length_rotate] at hi
        rw [← hr' i hi, ← ih (by simp; omega)]
        simp only [hc]
    have hall : ∀ x ∈ f, x = (f.rotate k)[0]'(by simp; omega) := by
      intro x hx
      rw [← List.mem_rotate (n := k)] at hx
      obtain ⟨i, hi, rfl⟩ := List.getElem_of_mem hx
      exact hstep i hi
    exact hxy ((hall x hx).trans (hall y hy).symm)
  · intro hne hc
    simp only [] at hc
    have hfs : f.sum = (f.rotate k).sum := by
      rw [List.rotate_eq_drop_append_take hkn.le, List.sum_append, add_comm, ← List.sum_append,
        List.take_append_drop]
    have hrg : r = (f.rotate k).tail ++ [(f.rotate k)[1]'(by simp; omega)] := by
      apply List.ext_getElem
      · simp [hr]; omega
      · intro i hi hi'
        by_cases c : i + 1 < f.length
        · rw [hr' i c, List.getElem_append_left (by simp; omega), List.getElem_tail]
        · have : i = f.length - 1 := by omega
          subst this
          rw [hl', List.getElem_append_right (by simp)]; simp
    have hgc : (f.rotate k) = (f.rotate k)[0]'(by simp; omega) :: (f.rotate k).tail := by
      have h0 : 0 < (f.rotate k).length := by simp; omega
      rw [← List.drop_one, ← List.drop_eq_getElem_cons h0, List.drop_zero]
    rw [hfs, hrg, List.sum_append, List.sum_singleton] at hc
    have hs : (f.rotate k).sum = (f.rotate k)[0]'(by simp; omega) + (f.rotate k).tail.sum := by
      rw [← List.sum_cons, ← hgc]
    rw [hs, add_comm, add_left_inj] at hc
    apply hne
    rw [List.getElem_rotate, List.getElem_rotate] at hc
    rw [List.getElem?_eq_getElem (Nat.mod_lt _ (by omega)),
      List.getElem?_eq_getElem (Nat.mod_lt _ (by omega))]
    simp only [zero_add] at hc
    rw [hc]

/-- C30 is violated: a shift by less than one pixel overwrites the caller's grid with the result. -/
theorem C30_violated_mutation (a : ℝ) (f : List V) (s : ℝ) (hs : 0 < s) (hs2 : s < 2*π/f.length)
    (hf : 2 ≤ f.length) :
    ∃ r, rotatePolarGrid (circleEdges a f.length) f s = .ok r ∧ r.caller = r.result ∧
      (f[0]? ≠ f[1]? → r.caller ≠ f) := by
  have hpi := pi_pos
  have hn : (0:ℝ) < f.length := by exact_mod_cast (by omega : 0 < f.length)
  have hn1 : (1:ℝ) ≤ f.length := by exact_mod_cast (by omega : 1 ≤ f.length)
  have hdp : 0 < 2*π/f.length := by positivity
  have hw1 : s/(2*π/f.length) < 1 := by rw [div_lt_one hdp]; exact hs2
  obtain ⟨r, hr, he, h1, h2⟩ := rotatePolarGrid_eq a f s hs
    (lt_of_lt_of_le hs2 (div_le_self (by positivity) hn1)) (by omega) 0 (s/(2*π/f.length))
    (by positivity) hw1 (by field_simp; simp)
  refine ⟨_, he, by simp, ?_⟩
  intro hne hc
  simp only [ne_eq, not_true_eq_false, if_false] at hc
  have h0 := h1 0 (by omega)
  simp only [List.rotate_zero] at h0
  apply hne
  rw [List.getElem?_eq_getElem (by omega), List.getElem?_eq_getElem (by omega)]
  have e0 : r[0]'(by omega) = f[0]'(by omega) := by simp only [hc]
  rw [e0] at h0
  set w := s/(2*π/f.length)
  have : (1 - w) • (f[0]'(by omega) - f[1]'(by omega)) = 0 := by
    have : (1 - w) • (f[0]'(by omega) - f[1]'(by omega))
        = f[0]'(by omega) - (w • f[0]'(by omega) + (1 - w) • f[1]'(by omega)) := by module
    rw [this]; exact sub_eq_zero.mpr h0
  rcases smul_eq_zero.mp this with h | h
  · exfalso; linarith
  · rw [sub_eq_zero.mp h]

end

/-- The hypotheses of the C30 theorems are met, for instance by four different rows and `k = 1`. -/
example : (1:ℕ) ≤ 1 ∧ 1 < ([1, 2, 3, 4] : List ℝ).length ∧
    ∃ x ∈ ([1, 2, 3, 4] : List ℝ), ∃ y ∈ ([1, 2, 3, 4] : List ℝ), x ≠ y :=
  ⟨le_rfl, by simp, 1, by simp, 2, by simp, by norm_num⟩

end Magpie.Props
