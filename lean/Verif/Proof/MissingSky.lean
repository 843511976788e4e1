import Verif.Proof.Heal2Ortho
import Verif.Proof.Missing

/-!
# Lemmas for C138: missing values in a HEALPix map
-/

set_option linter.unusedSimpArgs false
set_option linter.unusedVariables false
set_option linter.unusedSectionVars false

namespace Magpie.Ortho
open Magpie Magpie.Radial Magpie.OneD Magpie.Spec Magpie.Box2Ring Real

theorem sub_lt {i k m n : ℕ} (hk : k < m) (hi : i < n) : i*m + k < m*n := by
  calc i*m + k < i*m + m := by omega
    _ = m*(i+1) := by ring
    _ ≤ m*n := Nat.mul_le_mul_left m hi

theorem downsum_opt (a : Arr2 (Option ℝ)) (rows cols m : ℕ) (hm : 1 ≤ m)
    (hnr : 1 ≤ cols) (hr : a.rows = m*rows) (hc : a.cols = m*cols) :
    ∃ out, downsum a rows cols m m (m*cols) = .ok out ∧ out.rows = rows ∧ out.cols = cols ∧
      ∀ i j, i < rows → j < cols →
        ((∃ k l, k < m ∧ l < m ∧ a.val (i*m + k) (j*m + l) = none) → out.val i j = none) ∧
        ∀ u : ℕ → ℕ → ℝ, (∀ k l, k < m → l < m → a.val (i*m + k) (j*m + l) = some (u (i*m + k) (j*m + l))) →
          out.val i j = some (∑ l ∈ Finset.range m, ∑ k ∈ Finset.range m, u (i*m + k) (j*m + l)) := by
  have hC : 0 < m*cols := Nat.mul_pos hm hnr
  have h1 : a.rows*a.cols = rows*m*(m*cols) := by rw [hr, hc]; ring
  have h2 : rows*(m*cols) = rows*cols*m := by ring
  refine ⟨_, by
    unfold downsum Arr2.reshape3
    rw [if_pos h1]
    simp only [bind, Except.bind]
    rw [if_pos h2]
    rfl, rfl, rfl, ?_⟩
  intro i j hi hj
  dsimp only
  have idx : ∀ l k, l < m → k < m →
      (((i*cols + j)*m + l)/(m*cols) = i ∧ ((i*cols + j)*m + l) % (m*cols) = j*m + l) ∧
      (((i*m + k)*(m*cols) + (j*m + l))/(m*cols) = i*m + k ∧
        ((i*m + k)*(m*cols) + (j*m + l)) % (m*cols) = j*m + l) := by
    intro l k hl hk
    have hlt : j*m + l < m*cols := by nlinarith
    have hflat : (i*cols + j)*m + l = (j*m + l) + i*(m*cols) := by ring
    refine ⟨⟨?_, ?_⟩, ?_, ?_⟩
    · rw [hflat, Nat.add_mul_div_right _ _ hC, Nat.div_eq_of_lt hlt]; simp
    · rw [hflat, Nat.add_mul_mod_self_right, Nat.mod_eq_of_lt hlt]
    · rw [add_comm, Nat.add_mul_div_right _ _ hC, Nat.div_eq_of_lt hlt]; simp
    · rw [add_comm, Nat.add_mul_mod_self_right, Nat.mod_eq_of_lt hlt]
  rw [hc]
  constructor
  · rintro ⟨k, l, hk, hl, e⟩
    apply npSum_none
    refine List.mem_map.mpr ⟨l, List.mem_range.mpr hl, npSum_none _ ?_⟩
    refine List.mem_map.mpr ⟨k, List.mem_range.mpr hk, ?_⟩
    obtain ⟨⟨e1, e2⟩, e3, e4⟩ := idx l k hl hk
    simp only [e1, e2, e3, e4, e]
  · intro u hu
    apply npSum_range_congr
    intro l hl
    apply npSum_range_congr
    intro k hk
    obtain ⟨⟨e1, e2⟩, e3, e4⟩ := idx l k hl hk
    simp only [e1, e2, e3, e4]
    exact hu k l hk hl

theorem remap1_opt (ang2pix : ℤ → ℝ → ℝ → ℕ) {A : BoxArgs} {c : ℝ × ℝ} (h : Valid A c) {m : ℕ} (hm : 1 ≤ m)
    (h1 : A.rebinX = m) (h2 : A.rebinY = m) {n : ℤ} {sky : ℕ → ℕ → ℝ × ℝ} {s : State}
    (hs : Ready ang2pix n A c sky s) (f : List (Option ℝ)) (o : ℕ → ℕ → Option ℝ)
    (hf : ∀ i j, i < m*ny A → j < m*nx A →
      f[ang2pix n (sky i j).2 (sky i j).1]? = some (o i j)) :
    ∃ out, remap1 f s = (.ok out, s) ∧ out.rows = ny A ∧ out.cols = nx A ∧
      ∀ i j, i < ny A → j < nx A →
        ((∃ k l, k < m ∧ l < m ∧ o (i*m + k) (j*m + l) = none) → out.val i j = none) ∧
        ∀ G : ℕ → ℕ → ℝ, (∀ k l, k < m → l < m → o (i*m + k) (j*m + l) = some (G (i*m + k) (j*m + l))) →
          out.val i j = pixVal A m G i j := by
  have hx : 2 ≤ nx A := by have := h.xGrid; unfold nx; omega
  have hy : 2 ≤ ny A := by have := h.yGrid; unfold ny; omega
  have F := mkGrid_facts h
  have hg := hs.grid
  have hp := hs.pix
  set g := mkGrid (edgesOf A) A with hgdef
  have hCpos : 0 < m*nx A := by positivity
  have hRpos : 0 < m*ny A := by positivity
  obtain ⟨xr, xc, rxr, rxc, ryc, ryr, rzr, rzc, onr, onc, ⟨ronr, ronc⟩, ⟨rbx, rby⟩, ⟨i1, i2⟩, _, _, _, on, on', _⟩ := F
  rw [h1, h2] at *
  have hga : gather f ((List.range (m*ny A*(m*nx A))).map fun k =>
            ang2pix n (sky (k / (m*nx A)) (k % (m*nx A))).2 (sky (k / (m*nx A)) (k % (m*nx A))).1)
      = .ok ((List.range (m*ny A*(m*nx A))).map fun k => o (k / (m*nx A)) (k % (m*nx A))) := by
    apply gather_ok
    intro k hk
    rw [List.mem_range] at hk
    exact hf _ _ (Nat.div_lt_of_lt_mul (by rwa [mul_comm])) (Nat.mod_lt _ hCpos)
  obtain ⟨hi, e2, hir, hic, hiv⟩ := put_flat (m*ny A) (m*nx A)
    (fun k => o (k / (m*nx A)) (k % (m*nx A))) (some (0:ℝ))
  have hiv' : ∀ i j, i < m*ny A → j < m*nx A → hi.val i j = o i j := by
    intro i j hi' hj'
    rw [hiv i j hi' hj', add_comm, Nat.add_mul_div_right _ _ hCpos, Nat.div_eq_of_lt hj',
      Nat.add_mul_mod_self_right, Nat.mod_eq_of_lt hj', zero_add]
  obtain ⟨fb, e3, fbr, fbc, fbv⟩ := downsum_opt ⟨hi.rows, hi.cols, fun i j => omul (hi.val i j) (g.ronsphere.val i j)⟩
    (ny A) (nx A) m hm (by omega) hir hic
  obtain ⟨wt, e4, wtr, wtc, wtv⟩ := Dg.downgrade_ok
    ⟨g.ronsphere.rows, g.ronsphere.cols, fun i j => some (g.ronsphere.val i j)⟩
    (fun i j => if OnSphere A.radius (point A m m i j) then 1 else 0) (ny A) (nx A) m hm (by omega) ronr ronc
    (by
      intro i j hi' hj'
      show some (g.ronsphere.val i j) = _
      rw [on' i j (by rw [← ronr]; exact hi') (by rw [← ronc]; exact hj')])
  have z1 : hi.rows = g.ronsphere.rows ∧ hi.cols = g.ronsphere.cols := ⟨hir.trans ronr.symm, hic.trans ronc.symm⟩
  have z2 : fb.rows = wt.rows ∧ fb.cols = wt.cols := ⟨fbr.trans wtr.symm, fbc.trans wtc.symm⟩
  have z3 : fb.rows = g.onsphere.rows ∧ fb.cols = g.onsphere.cols := ⟨fbr.trans onr.symm, fbc.trans onc.symm⟩
  refine ⟨⟨fb.rows, fb.cols, fun i j => omul2 (divNonzero (fb.val i j) (wt.val i j)) (g.onsphere.val i j)⟩,
    ?_, fbr, fbc, ?_⟩
  · unfold remap1
    simp only [Meth.bind_apply, Meth.self_apply, Meth.lift_apply, hg, hp, need_some, hga, i1, i2, rxr, rxc, e2]
    unfold Arr2.zip
    rw [if_pos z1]
    simp only [Meth.lift_apply, xr, xc]
    rw [if_neg (by omega)]
    simp only [rbx, rby, ryc, e3, e4]
    rw [if_pos z2]
    simp only
    rw [if_pos z3]
  · intro i j hi' hj'
    have hlt : ∀ k l, k < m → l < m → i*m + k < m*ny A ∧ j*m + l < m*nx A := by
      intro k l hk hl
      exact ⟨sub_lt hk hi', sub_lt hl hj'⟩
    show (_ → omul2 (divNonzero (fb.val i j) (wt.val i j)) (g.onsphere.val i j) = none) ∧ ∀ G : ℕ → ℕ → ℝ, _ →
      omul2 (divNonzero (fb.val i j) (wt.val i j)) (g.onsphere.val i j) = _
    obtain ⟨hb1, hb2⟩ := fbv i j hi' hj'
    constructor
    · rintro ⟨k, l, hk, hl, e⟩
      rw [hb1 ⟨k, l, hk, hl, ?_⟩]
      · have : divNonzero none (wt.val i j) = none := by
          unfold divNonzero
          split_ifs <;> simp [odiv]
        rw [this]
        unfold omul2 omul
        cases g.onsphere.val i j <;> rfl
      · obtain ⟨h3, h4⟩ := hlt k l hk hl
        show omul (hi.val _ _) _ = none
        rw [hiv' _ _ h3 h4, e]
        rfl
    intro G hG
    rw [hb2 (fun i j => if OnSphere A.radius (point A m m i j) then G i j else 0) ?_, wtv i j hi' hj', on i j hi' hj']
    swap
    · intro k l hk hl
      obtain ⟨h3, h4⟩ := hlt k l hk hl
      show omul (hi.val _ _) (g.ronsphere.val _ _) = _
      rw [hiv' _ _ h3 h4, on' _ _ h3 h4, hG k l hk hl]
      unfold omul
      split_ifs <;> simp
    have sw : ∀ v : ℕ → ℕ → ℝ, ∑ l ∈ Finset.range m, ∑ k ∈ Finset.range m, (if OnSphere A.radius
        (point A m m (i*m + k) (j*m + l)) then v (i*m + k) (j*m + l) else 0) = discSum A m v i j := by
      intro v; unfold discSum; exact Finset.sum_comm
    rw [sw G, sw fun _ _ => 1]
    unfold pixVal
    have hm0 : (m:ℝ) ≠ 0 := by positivity
    by_cases hon : OnSphere A.radius (point A 1 1 i j)
    · rw [if_pos hon, if_pos hon]
      unfold divNonzero
      by_cases h0 : discSum A m (fun _ _ => 1) i j = 0
      · rw [if_neg (by simp [h0]), discSum_zero h0]
        simp [omul2, omul]
      · rw [if_pos (by simp [h0, hm0])]
        simp only [odiv, fdiv, omul2, omul, Option.bind_some]
        rw [if_neg (div_ne_zero h0 hm0)]
        simp only [Option.map_some, mul_one, Option.some.injEq]
        field_simp
    · rw [if_neg hon, if_neg hon]
      rfl

end Magpie.Ortho
