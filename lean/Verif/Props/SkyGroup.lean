import Verif.Props.Coords
import Verif.Proof.SkyGroup
import Verif.Proof.Heal2Ortho

/-!
# Property C94: sky shifts, rotations and spins compose
-/

set_option linter.unusedSimpArgs false

namespace Magpie.Props
open Magpie Magpie.Coords Magpie.Spec Real Matrix

/-- C94: moving the sky from `A` to `B` and then from `B` to `C` gives the same direction as moving it
from `A` to `C`, for every direction, whenever each of the three calls is allowed. -/
theorem C94_compose (pA tA pB tB pC tC : ℝ) (a1 : 0 ≤ pA ∧ pA ≤ 2*π) (b1 : 0 ≤ pB ∧ pB ≤ 2*π)
    (c1 : 0 ≤ pC ∧ pC ≤ 2*π) (a2 : 0 ≤ tA ∧ tA ≤ π) (b2 : 0 ≤ tB ∧ tB ≤ π) (c2 : 0 ≤ tC ∧ tC ≤ π)
    (hAB : |pB - pA| < 2*π ∧ |tA - tB| < π) (hBC : |pC - pB| < 2*π ∧ |tB - tC| < π)
    (hAC : |pC - pA| < 2*π ∧ |tA - tC| < π) (phi theta : ℝ) :
    ∃ p1 t1 p2 t2 p3 t3, shift phi theta pA tA pB tB = .ok (some (p1, t1)) ∧
      shift p1 t1 pB tB pC tC = .ok (some (p2, t2)) ∧
      shift phi theta pA tA pC tC = .ok (some (p3, t3)) ∧ dir p2 t2 = dir p3 t3 := by
  obtain ⟨M, mR, mu, mh, -, ms⟩ := Ortho.shift_matrix a1 b1 a2 b2 hAB.1 hAB.2
  obtain ⟨N, nR, nu, nh, -, ns⟩ := Ortho.shift_matrix b1 c1 b2 c2 hBC.1 hBC.2
  obtain ⟨L, lR, lu, lh, -, ls⟩ := Ortho.shift_matrix a1 c1 a2 c2 hAC.1 hAC.2
  obtain ⟨p1, t1, r1, d1⟩ := ms phi theta
  obtain ⟨p2, t2, r2, d2⟩ := ns p1 t1
  obtain ⟨p3, t3, r3, d3⟩ := ls phi theta
  refine ⟨p1, t1, p2, t2, p3, t3, r1, r2, r3, ?_⟩
  rw [d2, d3, d1, mulVec_mulVec]
  obtain ⟨f1, f2⟩ := shift_frame (pS := pA) mu mh
  obtain ⟨g1, g2⟩ := shift_frame (pS := pB) nu nh
  obtain ⟨k1, k2⟩ := shift_frame (pS := pA) lu lh
  apply rot_ext ((nR.mul (isRot_Rz _)).mul (mR.mul (isRot_Rz _))) (lR.mul (isRot_Rz _)) (p := pA) (t := tA)
  · rw [← mulVec_mulVec, f1, g1, k1]
  · rw [← mulVec_mulVec, f2, g2, k2]

/-- Three points to which `C94_compose` applies. -/
example : (|π/2 - 0| < 2*π ∧ |π/2 - π/4| < π) ∧ (|3*π/2 - π/2| < 2*π ∧ |π/4 - π| < π) ∧
    (|3*π/2 - 0| < 2*π ∧ |π/2 - π| < π) := by
  have := pi_pos
  refine ⟨⟨?_, ?_⟩, ⟨?_, ?_⟩, ⟨?_, ?_⟩⟩ <;> rw [abs_lt] <;> constructor <;> linarith

/-- C94: moving the sky from `A` to `B` and then from `B` to `A` gives back every direction, and gives
back the coordinates themselves away from the poles and from the meridian `phi = 0`. -/
theorem C94_inverse (pA tA pB tB : ℝ) (a1 : 0 ≤ pA ∧ pA ≤ 2*π) (b1 : 0 ≤ pB ∧ pB ≤ 2*π)
    (a2 : 0 ≤ tA ∧ tA ≤ π) (b2 : 0 ≤ tB ∧ tB ≤ π)
    (h1 : |pB - pA| < 2*π) (h2 : |tA - tB| < π) (phi theta : ℝ) :
    ∃ p1 t1 p2 t2, shift phi theta pA tA pB tB = .ok (some (p1, t1)) ∧
      shift p1 t1 pB tB pA tA = .ok (some (p2, t2)) ∧ dir p2 t2 = dir phi theta ∧
      (0 < phi → phi < 2*π → 0 < theta → theta < π → p2 = phi ∧ t2 = theta) := by
  have h1' : |pA - pB| < 2*π := by rwa [abs_sub_comm]
  have h2' : |tB - tA| < π := by rwa [abs_sub_comm]
  have z1 : |pA - pA| < 2*π ∧ |tA - tA| < π := by
    have := pi_pos; rw [sub_self, sub_self, abs_zero]; constructor <;> linarith
  obtain ⟨p1, t1, p2, t2, p3, t3, r1, r2, r3, e⟩ :=
    C94_compose pA tA pB tB pA tA a1 b1 a1 a2 b2 a2 ⟨h1, h2⟩ ⟨h1', h2'⟩ z1 phi theta
  have e3 : dir p3 t3 = dir phi theta := by
    obtain ⟨L, lR, lu, lh, -, ls⟩ := Ortho.shift_matrix a1 a1 a2 a2 z1.1 z1.2
    obtain ⟨q, s, r, d⟩ := ls phi theta
    obtain ⟨k1, k2⟩ := shift_frame (pS := pA) lu lh
    rw [r3] at r
    simp only [Except.ok.injEq, Option.some.injEq, Prod.mk.injEq] at r
    rw [r.1, r.2, d]
    have i1 : IsRot (1 : Matrix (Fin 3) (Fin 3) ℝ) := ⟨by simp, by simp⟩
    rw [rot_ext (lR.mul (isRot_Rz _)) i1 (p := pA) (t := tA) (by rw [k1, one_mulVec]) (by rw [k2, one_mulVec]),
      one_mulVec]
  refine ⟨p1, t1, p2, t2, r1, r2, e.trans e3, ?_⟩
  intro x1 x2 y1 y2
  obtain ⟨F, -, -, hF⟩ := C27_shift pA tA pB tB a1 b1 a2 b2 h1 h2
  obtain ⟨G, -, -, hG⟩ := C27_shift pB tB pA tA b1 a1 b2 a2 h1' h2'
  obtain ⟨p, t, r, rp, rt, -⟩ := hF phi theta
  rw [r1] at r
  simp only [Except.ok.injEq, Option.some.injEq, Prod.mk.injEq] at r
  obtain ⟨q1, q2⟩ := rp x1.le x2.le
  obtain ⟨q3, q4⟩ := rt y1.le y2.le
  obtain ⟨p', t', r', rp', rt', -⟩ := hG p1 t1
  rw [r2] at r'
  simp only [Except.ok.injEq, Option.some.injEq, Prod.mk.injEq] at r'
  rw [← r.1] at q1 q2
  rw [← r.2] at q3 q4
  obtain ⟨s1, s2⟩ := rp' q1 q2
  obtain ⟨s3, s4⟩ := rt' q3 q4
  rw [← r'.1] at s1 s2
  rw [← r'.2] at s3 s4
  have ne : p2 ≠ 2*π := by
    intro h
    have hd := e.trans e3
    have d0 : dir p2 t2 = dir 0 t2 := by rw [h]; simp [dir]
    rw [d0] at hd
    have := (dir_inj hd ⟨le_rfl, by have := pi_pos; linarith⟩ ⟨s3, s4⟩ ⟨x1.le, x2⟩ ⟨y1, y2⟩).1
    linarith
  exact dir_inj (e.trans e3) ⟨s1, lt_of_le_of_ne s2 ne⟩ ⟨s3, s4⟩ ⟨x1.le, x2⟩ ⟨y1, y2⟩

/-- C94: `usphere_rotate` from `A` to `B` is undone by `usphere_rotate` from `B` to `A`. -/
theorem C94_rotate_inverse (pA tA pB tB : ℝ) (a1 : 0 ≤ pA ∧ pA ≤ 2*π) (b1 : 0 ≤ pB ∧ pB ≤ 2*π)
    (a2 : 0 ≤ tA ∧ tA ≤ π) (b2 : 0 ≤ tB ∧ tB ≤ π) (hn : NonParallel pA tA pB tB) (phi theta : ℝ) :
    ∃ p1 t1 p2 t2, rotate phi theta pB tB pA tA = .ok (some (p1, t1)) ∧
      rotate p1 t1 pA tA pB tB = .ok (some (p2, t2)) ∧ dir p2 t2 = dir phi theta ∧
      (0 ≤ phi → phi < 2*π → 0 < theta → theta < π → p2 = phi ∧ t2 = theta) := by
  have hn' : NonParallel pB tB pA tA := ⟨hn.1.symm, fun h => hn.2 (by rw [h, neg_neg])⟩
  obtain ⟨m, M, t, n, w, a, hm, hM, hf, ca, sa, hMe⟩ := rotate_matrix hn.dot
  obtain ⟨hR, hu, hnn, -⟩ := frame_rot hf ca sa hMe
  obtain ⟨m', M', t', n', w', a', hm', hM', hf', ca', sa', hMe'⟩ := rotate_matrix hn'.dot
  obtain ⟨hR', hu', hnn', -⟩ := frame_rot hf' ca' sa' hMe'
  obtain ⟨p1, t1, r1, -, -, -, -, d1⟩ :=
    rotate_eq (phi := phi) (theta := theta) (rotateChecks_ok hn.ne a1 b1 a2 b2) hm hM hR
  obtain ⟨p2, t2, r2, s1, s2, s3, s4, d2⟩ :=
    rotate_eq (phi := p1) (theta := t1) (rotateChecks_ok hn'.ne b1 a1 b2 a2) hm' hM' hR'
  have e : dir p2 t2 = dir phi theta := by
    rw [d2, d1, rot_back hf hf' hR hR' hu hnn hu' hnn', hR.cancel']
  exact ⟨p1, t1, p2, t2, r1, r2, e, fun x1 x2 y1 y2 => dir_inj e ⟨s1, s2⟩ ⟨s3, s4⟩ ⟨x1, x2⟩ ⟨y1, y2⟩⟩

/-- C94: spins about the same centre add up: a spin by `alpha` followed by one by `beta` is the spin by `gamma` for the `gamma` that differs
from `alpha + beta` by whole turns. -/
theorem C94_spin_add (pc tc alpha beta gamma : ℝ) (k : ℤ) (h1 : 0 ≤ pc ∧ pc ≤ 2*π) (h2 : 0 ≤ tc ∧ tc ≤ π)
    (hr : IsRat tc) (ha : 0 ≤ alpha ∧ alpha < 2*π) (hb : 0 ≤ beta ∧ beta < 2*π) (hc : 0 ≤ gamma ∧ gamma < 2*π)
    (hk : gamma = alpha + beta + 2*π*k) (phi theta : ℝ) :
    ∃ p1 t1 p2 t2 p3 t3, spin phi theta pc tc alpha = .ok (some (p1, t1)) ∧
      spin p1 t1 pc tc beta = .ok (some (p2, t2)) ∧
      spin phi theta pc tc gamma = .ok (some (p3, t3)) ∧ dir p2 t2 = dir p3 t3 := by
  obtain ⟨F, fR, fc, ft, fs⟩ := C28_spin pc tc alpha h1 h2 hr ha
  obtain ⟨G, gR, gc, gt, gs⟩ := C28_spin pc tc beta h1 h2 hr hb
  obtain ⟨H, kR, kc, kt, ks⟩ := C28_spin pc tc gamma h1 h2 hr hc
  obtain ⟨p1, t1, r1, d1⟩ := fs phi theta
  obtain ⟨p2, t2, r2, d2⟩ := gs p1 t1
  obtain ⟨p3, t3, r3, d3⟩ := ks phi theta
  refine ⟨p1, t1, p2, t2, p3, t3, r1, r2, r3, ?_⟩
  rw [d2, d1, d3]
  refine rodrigues_add (dir_dot_self pc tc) (α := alpha) (β := beta) (γ := gamma) ?_ ?_ ?_ ?_ _
  · rw [hk, mul_comm (2*π)]
    exact ⟨cos_add_int_mul_two_pi _ _, sin_add_int_mul_two_pi _ _⟩
  · exact fun v => rodrigues fR (dir_dot_self _ _) fc ft v
  · exact fun v => rodrigues gR (dir_dot_self _ _) gc gt v
  · exact fun v => rodrigues kR (dir_dot_self _ _) kc kt v

/-- Two spins of three quarters of a turn make one of half a turn. -/
example : (π : ℝ) = 3*π/2 + 3*π/2 + 2*π*((-1 : ℤ) : ℝ) := by push_cast; ring

end Magpie.Props
