import Verif.Spec.Turned
import Verif.Props.DgBox2Ring
import Verif.Props.McBox2Ring
import Mathlib.Data.Int.ModEq

/-!
# C129: `phi_shift` by whole pixels moves the rows of the remapped map
-/

set_option linter.unusedSimpArgs false
set_option linter.unusedVariables false

namespace Magpie.Props
open Magpie Magpie.Radial Magpie.OneD Magpie.Spec Magpie.Box2Ring Finset

section
variable {A : PolarArgs} {k : ℤ} {i i' : ℕ}

theorem turn_ok (hA : PolarOk A) : PolarOk (turnBy k A) := ⟨hA.1, hA.2, hA.3, hA.4, hA.5, hA.6, hA.7, hA.8, hA.9, hA.10⟩

/-- The same angle but for full turns. -/
theorem turn_angle (hn : 0 < A.nump) (h : SameSector A k i i') (x : ℝ) : ∃ t : ℤ,
    A.pmin + (i + x)*((A.pmax - A.pmin)/A.nump) + (turnBy k A).phiShift + t*(2*Real.pi) =
      A.pmin + (i' + x)*((A.pmax - A.pmin)/A.nump) + A.phiShift := by
  obtain ⟨t, h1, h2⟩ := h
  have hn' : (A.nump:ℝ) ≠ 0 := by exact_mod_cast hn.ne'
  have h1' : (i':ℝ) = i + k + t*A.nump := by exact_mod_cast h1
  refine ⟨t, ?_⟩
  unfold turnBy
  dsimp only
  rcases h2 with rfl | h2
  · rw [h1']; push_cast; ring
  · rw [h1', h2]; field_simp; ring

theorem turn_cos (hn : 0 < A.nump) (h : SameSector A k i i') (x y y' : ℝ)
    (hy : y = A.pmin + (i + x)*((A.pmax - A.pmin)/A.nump) + (turnBy k A).phiShift)
    (hy' : y' = A.pmin + (i' + x)*((A.pmax - A.pmin)/A.nump) + A.phiShift) :
    Real.cos y = Real.cos y' ∧ Real.sin y = Real.sin y' := by
  obtain ⟨t, ht⟩ := turn_angle hn h x
  rw [hy, hy', ← ht, Real.cos_add_int_mul_two_pi, Real.sin_add_int_mul_two_pi]
  exact ⟨rfl, rfl⟩

theorem turn_densePoint (hA : PolarOk A) {m : ℕ} (hm : 1 ≤ m) (h : SameSector A k i i') (a q : ℕ) :
    Dg.densePoint (turnBy k A) m m (i*m + a) q = Dg.densePoint A m m (i'*m + a) q := by
  have hn := hA.nump
  have hm' : (m:ℝ) ≠ 0 := by exact_mod_cast (by omega : m ≠ 0)
  have hn1 : ((A.nump.toNat : ℕ):ℝ) = A.nump := by
    rw [← Int.cast_natCast, Int.toNat_of_nonneg hn.le]
  have hn' : (A.nump:ℝ) ≠ 0 := by exact_mod_cast hn.ne'
  unfold Dg.densePoint
  obtain ⟨h1, h2⟩ := turn_cos hn h ((2*a + 1)/(2*m))
    (midAt A.pmin A.pmax (m*A.nump.toNat) (i*m + a) + (turnBy k A).phiShift)
    (midAt A.pmin A.pmax (m*A.nump.toNat) (i'*m + a) + A.phiShift)
    (by unfold midAt edgeAt; push_cast; rw [hn1]; field_simp; ring)
    (by unfold midAt edgeAt; push_cast; rw [hn1]; field_simp; ring)
  show (_*Real.cos (midAt A.pmin A.pmax (m*A.nump.toNat) (i*m + a) + (turnBy k A).phiShift) + _,
    _*Real.sin (midAt A.pmin A.pmax (m*A.nump.toNat) (i*m + a) + (turnBy k A).phiShift) + _) = _
  rw [h1, h2]
  rfl

theorem turn_area (hA : PolarOk A) {m : ℕ} (hm : 1 ≤ m) (g g' : ℕ → ℕ → ℝ) (j : ℕ)
    (hg : ∀ a b, a < m → g' (i*m + a) b = g (i'*m + a) b) :
    Dg.areaSum (turnBy k A) m g' i j = Dg.areaSum A m g i' j := by
  unfold Dg.areaSum
  refine sum_congr rfl fun a ha => sum_congr rfl fun b _ => ?_
  rw [hg a _ (mem_range.1 ha)]
  congr 1
  have hm' : (m:ℝ) ≠ 0 := by exact_mod_cast (by omega : m ≠ 0)
  have hn1 : ((A.nump.toNat : ℕ):ℝ) = A.nump := by
    rw [← Int.cast_natCast, Int.toNat_of_nonneg hA.nump.le]
  have hn' : (A.nump:ℝ) ≠ 0 := by exact_mod_cast hA.nump.ne'
  have e : ∀ n, edgeAt A.pmin A.pmax (m*A.nump.toNat) (n+1) - edgeAt A.pmin A.pmax (m*A.nump.toNat) n =
      (A.pmax - A.pmin)/((m*A.nump.toNat : ℕ):ℝ) := fun n => by
    unfold edgeAt; push_cast; ring
  simp only [Dg.denseArea, turnBy, sectorArea_eq, e]

theorem turn_lt {m n : ℕ} {a : ℕ} (hi : i < n) (ha : a < m) : i*m + a < m*n := by
  have : (i+1)*m ≤ n*m := Nat.mul_le_mul_right _ hi
  nlinarith

theorem turn_point {G : Mc.Grid} (hG : G.Ok) (h : SameSector G.args k i i') (j : ℕ) (u v : ℝ) :
    (turnGrid k G).point i j u v = G.point i' j u v := by
  have hn := hG.polar.nump
  have hn1 : ((G.args.nump.toNat : ℕ):ℝ) = G.args.nump := by
    rw [← Int.cast_natCast, Int.toNat_of_nonneg hn.le]
  have hn' : (G.args.nump:ℝ) ≠ 0 := by exact_mod_cast hn.ne'
  have ha : (turnGrid k G).args = turnBy k G.args := by cases G <;> rfl
  have hr : ∀ j, (turnGrid k G).rEdge j = G.rEdge j := by
    intro j
    rcases G with A | ⟨A, z⟩
    · rfl
    · cases z <;> cases j <;> rfl
  have hp : ∀ i, (turnGrid k G).pEdge i = G.pEdge i := by
    intro i
    unfold Mc.Grid.pEdge Mc.Grid.nump
    rw [ha]
    rfl
  obtain ⟨h1, h2⟩ := turn_cos hn h v
    (G.pEdge i + v*(G.pEdge (i+1) - G.pEdge i) + (turnBy k G.args).phiShift)
    (G.pEdge i' + v*(G.pEdge (i'+1) - G.pEdge i') + G.args.phiShift)
    (by unfold Mc.Grid.pEdge Mc.Grid.nump edgeAt; rw [hn1]; push_cast; ring)
    (by unfold Mc.Grid.pEdge Mc.Grid.nump edgeAt; rw [hn1]; push_cast; ring)
  unfold Mc.Grid.point
  simp only [hr, hp, ha, h1, h2]
  rfl

end

section Dense
open Magpie.Dg
variable (B : BoxArgs) (A : PolarArgs) (m : ℕ) (hB : BoxOk B) (hA : PolarOk A) (hr : 2 ≤ A.numr) (hp : 2 ≤ A.nump)
  (hm : 1 ≤ m) (f : Arr2 (Option ℝ)) (v : ℕ → ℕ → ℝ) (hfr : f.rows = B.numy.toNat) (hfc : f.cols = B.numx.toNat)
  (hv : ∀ i j, i < f.rows → j < f.cols → f.val i j = some (v i j)) (k : ℤ) (s s' : Dg.State)
include hB hA hr hp hm hfr hfc hv

/-- **C129** (dense grid `Box2Ring`). If `phi_shift` is larger by `k` sectors, `remap` returns for each sector what it
returned for the sector `k` places further on: on a full circle the rows of the map are moved cyclically. -/
theorem C129_dense : ∃ out out' s1 s1',
    (do setupBox B; setupPolar A m m; remap f none : Meth Dg.State _) s = (.ok out, s1) ∧
    (do setupBox B; setupPolar (turnBy k A) m m; remap f none : Meth Dg.State _) s' = (.ok out', s1') ∧
    out.rows = A.nump ∧ out'.rows = A.nump ∧ out.cols = A.numr ∧ out'.cols = A.numr ∧
    ∀ i i' j, i < out.rows → i' < out.rows → j < out.cols → SameSector A k i i' → out'.val i j = out.val i' j := by
  choose G hG using exists_reads B hB v
  obtain ⟨out, s1, e, h1, h2, h3⟩ := C73_remap_partial B A m hB hA hr hp hm f v hfr hfc hv
    (fun n q => G (densePoint A m m n q)) (fun n q _ _ => hG _) s
  obtain ⟨out', s1', e', h1', h2', h3'⟩ := C73_remap_partial B (turnBy k A) m hB (turn_ok hA) hr hp hm f v hfr hfc hv
    (fun n q => G (densePoint (turnBy k A) m m n q)) (fun n q _ _ => hG _) s'
  have hn := hA.nump
  have hn2 := hA.numr
  have t1 : (turnBy k A).nump = A.nump := rfl
  have t2 : (turnBy k A).numr = A.numr := rfl
  rw [t1] at h1'
  rw [t2] at h2'
  refine ⟨out, out', s1, s1', e, e', by rw [h1]; omega, by rw [h1']; omega, by rw [h2]; omega, by rw [h2']; omega,
    fun i i' j hi hi' hj h => ?_⟩
  rw [h1] at hi hi'
  rw [h2] at hj
  rw [h3 i' j hi' hj, h3' i j hi hj]
  rw [turn_area (i' := i') hA hm (fun n q => G (densePoint A m m n q)) _ j fun a b ha => by
      simp only [turn_densePoint hA hm h a b],
    turn_area (i' := i') hA hm (fun _ _ => 1) (fun _ _ => 1) j fun a b ha => rfl]

/-- **C129** (dense grid `Box2Ring`) for `remap` with weights. -/
theorem C129_dense_weighted (w : Arr2 ℝ) (hwr : w.rows = B.numy.toNat) (hwc : w.cols = B.numx.toNat) :
    ∃ out out' s1 s1',
    (do setupBox B; setupPolar A m m; remap f (some w) : Meth Dg.State _) s = (.ok out, s1) ∧
    (do setupBox B; setupPolar (turnBy k A) m m; remap f (some w) : Meth Dg.State _) s' = (.ok out', s1') ∧
    out.rows = A.nump ∧ out'.rows = A.nump ∧ out.cols = A.numr ∧ out'.cols = A.numr ∧
    ∀ i i' j, i < out.rows → i' < out.rows → j < out.cols → SameSector A k i i' → out'.val i j = out.val i' j := by
  choose G hG using exists_reads B hB v
  choose W hW using exists_reads B hB w.val
  obtain ⟨out, s1, e, h1, h2, h3⟩ := C73_weighted_partial B A m hB hA hr hp hm f w v hfr hfc hwr hwc hv
    (fun n q => G (densePoint A m m n q)) (fun n q => W (densePoint A m m n q)) (fun n q _ _ => hG _)
    (fun n q _ _ => hW _) s
  obtain ⟨out', s1', e', h1', h2', h3'⟩ := C73_weighted_partial B (turnBy k A) m hB (turn_ok hA) hr hp hm f w v hfr hfc
    hwr hwc hv (fun n q => G (densePoint (turnBy k A) m m n q)) (fun n q => W (densePoint (turnBy k A) m m n q))
    (fun n q _ _ => hG _) (fun n q _ _ => hW _) s'
  have hn := hA.nump
  have hn2 := hA.numr
  have t1 : (turnBy k A).nump = A.nump := rfl
  have t2 : (turnBy k A).numr = A.numr := rfl
  rw [t1] at h1'
  rw [t2] at h2'
  refine ⟨out, out', s1, s1', e, e', by rw [h1]; omega, by rw [h1']; omega, by rw [h2]; omega, by rw [h2']; omega,
    fun i i' j hi hi' hj h => ?_⟩
  rw [h1] at hi hi'
  rw [h2] at hj
  obtain ⟨a1, a2⟩ := h3 i' j hi' hj
  obtain ⟨b1, b2⟩ := h3' i j hi hj
  have e1 := turn_area (k := k) (i := i) (i' := i') hA hm (fun n q => W (densePoint A m m n q))
    (fun n q => W (densePoint (turnBy k A) m m n q)) j fun a b ha => by
      simp only [turn_densePoint hA hm h a b]
  have e2 := turn_area (k := k) (i := i) (i' := i') hA hm
    (fun n q => W (densePoint A m m n q)*G (densePoint A m m n q))
    (fun n q => W (densePoint (turnBy k A) m m n q)*G (densePoint (turnBy k A) m m n q)) j fun a b ha => by
      simp only [turn_densePoint hA hm h a b]
  rw [e1, e2] at b1
  rw [e1] at b2
  by_cases h0 : areaSum A m (fun n q => W (densePoint A m m n q)) i' j = 0
  · rw [a2 h0, b2 h0]
  · rw [a1 h0, b1 h0]

end Dense

/-- **C129** (Monte Carlo `Box2Ring`), with the same random variates for the same sectors, under the condition of
C71 on the numbers of box pixels hit. -/
theorem C129_mc (B : BoxArgs) (G : Mc.Grid) (hB : BoxOk B) (hG : G.Ok) (n : ℕ) (hn : 1 < n) (k : ℤ)
    (draws draws' : ℕ → ℕ → List ℝ × List ℝ)
    (hd : ∀ i j, i < G.nump → j < G.numr → Mc.Draws n (draws i j))
    (hd' : ∀ i j, i < G.nump → j < G.numr → Mc.Draws n (draws' i j))
    (hsame : ∀ i i' j, i < G.nump → i' < G.nump → j < G.numr → SameSector G.args k i i' → draws' i j = draws i' j)
    (f : Arr2 (Option ℝ)) (v : ℕ → ℕ → ℝ) (hf : f.rows = B.numy.toNat ∧ f.cols = B.numx.toNat)
    (hv : ∀ i j, i < f.rows → j < f.cols → f.val i j = some (v i j))
    (hdiff : Mc.RowsDiffer B G draws) (hdiff' : Mc.RowsDiffer B (turnGrid k G) draws') (s s' : Mc.State) :
    ∃ out out' s1 s1', Mc.mcRemap B G n draws f none s = (.ok out, s1) ∧
      Mc.mcRemap B (turnGrid k G) n draws' f none s' = (.ok out', s1') ∧
      out.rows = G.nump ∧ out'.rows = G.nump ∧ out.cols = G.numr ∧ out'.cols = G.numr ∧
      ∀ i i' j, i < out.rows → i' < out.rows → j < out.cols → SameSector G.args k i i' →
        out'.val i j = out.val i' j := by
  have ha : (turnGrid k G).args = turnBy k G.args := by cases G <;> rfl
  have t1 : (turnGrid k G).nump = G.nump := by unfold Mc.Grid.nump; rw [ha]; rfl
  have t2 : (turnGrid k G).numr = G.numr := by unfold Mc.Grid.numr; rw [ha]; rfl
  have hG' : (turnGrid k G).Ok := by
    cases G with
    | lin A => exact ⟨turn_ok hG.1, hG.2⟩
    | log A z => exact ⟨hG.1, turn_ok hG.2.1, hG.2.2⟩
  obtain ⟨out, s1, e, h1, h2, h3⟩ := C71_remap_partial B G hB hG n hn draws hd f v hf hv hdiff s
  obtain ⟨out', s1', e', h1', h2', h3'⟩ := C71_remap_partial B (turnGrid k G) hB hG' n hn draws'
    (by rw [t1, t2]; exact hd') f v hf hv hdiff' s'
  rw [t1] at h1'
  rw [t2] at h2'
  refine ⟨out, out', s1, s1', e, e', h1, h1', h2, h2', fun i i' j hi hi' hj h => ?_⟩
  rw [h1] at hi hi'
  rw [h2] at hj
  have hpts : (turnGrid k G).points i j (draws' i j) = G.points i' j (draws i' j) := by
    rw [hsame i i' j hi hi' hj h]
    unfold Mc.Grid.points
    congr 1
    funext u w
    exact turn_point hG h j u w
  obtain ⟨g, hg⟩ := Mc.exists_reads hB v (G.points i' j (draws i' j))
  rw [h3 i' j hi' hj g hg, h3' i j (by rwa [t1]) (by rwa [t2]) g (by rwa [hpts])]

/-- On a full circle each sector of the turned grid is a sector of the grid. -/
theorem C129_cyclic (A : PolarArgs) (hn : 0 < A.nump) (hc : A.pmax - A.pmin = 2*Real.pi) (k : ℤ) (i : ℕ) :
    SameSector A k i (((i:ℤ) + k) % A.nump).toNat := by
  refine ⟨-((i + k)/A.nump), ?_, .inr hc⟩
  rw [Int.toNat_of_nonneg (Int.emod_nonneg _ hn.ne')]
  have := Int.emod_add_mul_ediv (i + k) A.nump
  linarith [mul_comm A.nump ((i + k)/A.nump)]

/-- **C129** (Monte Carlo `Box2Ring`) on a full circle: row `i` of the turned map is row `i + k` modulo the number of
rows, if the variates are moved likewise. -/
theorem C129_mc_circle (B : BoxArgs) (G : Mc.Grid) (hB : BoxOk B) (hG : G.Ok) (n : ℕ) (hn : 1 < n) (k : ℤ)
    (hc : G.args.pmax - G.args.pmin = 2*Real.pi) (draws : ℕ → ℕ → List ℝ × List ℝ)
    (hd : ∀ i j, i < G.nump → j < G.numr → Mc.Draws n (draws i j))
    (f : Arr2 (Option ℝ)) (v : ℕ → ℕ → ℝ) (hf : f.rows = B.numy.toNat ∧ f.cols = B.numx.toNat)
    (hv : ∀ i j, i < f.rows → j < f.cols → f.val i j = some (v i j))
    (hdiff : Mc.RowsDiffer B G draws) (s s' : Mc.State) :
    ∃ out out' s1 s1', Mc.mcRemap B G n draws f none s = (.ok out, s1) ∧
      Mc.mcRemap B (turnGrid k G) n (fun i j => draws (((i:ℤ) + k) % G.args.nump).toNat j) f none s' = (.ok out', s1') ∧
      out.rows = G.nump ∧ out'.rows = G.nump ∧ out.cols = G.numr ∧ out'.cols = G.numr ∧
      ∀ i j, i < out.rows → j < out.cols → out'.val i j = out.val (((i:ℤ) + k) % G.args.nump).toNat j := by
  have hN := hG.polar.nump
  have hlt : ∀ i : ℕ, (((i:ℤ) + k) % G.args.nump).toNat < G.nump := by
    intro i
    have h1 := Int.emod_nonneg ((i:ℤ) + k) hN.ne'
    have h2 := Int.emod_lt_of_pos ((i:ℤ) + k) hN
    unfold Mc.Grid.nump
    omega
  have ha : (turnGrid k G).args = turnBy k G.args := by cases G <;> rfl
  have t1 : (turnGrid k G).nump = G.nump := by unfold Mc.Grid.nump; rw [ha]; rfl
  have t2 : (turnGrid k G).numr = G.numr := by unfold Mc.Grid.numr; rw [ha]; rfl
  have hs : ∀ i i' j, i < G.nump → i' < G.nump → j < G.numr → SameSector G.args k i i' →
      draws (((i:ℤ) + k) % G.args.nump).toNat j = draws i' j := by
    rintro i i' j hi hi' hj ⟨t, ht, -⟩
    have : ((i:ℤ) + k) % G.args.nump = i' := by
      rw [show (i:ℤ) + k = i' + (-t)*G.args.nump by linarith, Int.add_mul_emod_self_right]
      refine Int.emod_eq_of_lt (by omega) ?_
      unfold Mc.Grid.nump at hi'
      omega
    rw [this]
    rw [Int.toNat_natCast]
  have hdf : Mc.RowsDiffer B (turnGrid k G) fun i j => draws (((i:ℤ) + k) % G.args.nump).toNat j := by
    intro i hi
    obtain ⟨a, b, h1, h2, h3⟩ := hdiff _ (hlt i)
    refine ⟨a, b, by rwa [t2], by rwa [t2], ?_⟩
    have key : ∀ j d, (turnGrid k G).points i j d = G.points (((i:ℤ) + k) % G.args.nump).toNat j d := by
      intro j d
      unfold Mc.Grid.points
      congr 1
      funext u w
      exact turn_point hG (C129_cyclic _ hN hc k i) j u w
    simpa only [key] using h3
  obtain ⟨out, out', s1, s1', e, e', h1, h2, h3, h4, h5⟩ := C129_mc B G hB hG n hn k draws _ hd
    (fun i j _ hj => hd _ j (hlt i) hj) hs f v hf hv hdiff hdf s s'
  exact ⟨out, out', s1, s1', e, e', h1, h2, h3, h4, fun i j hi hj => h5 i _ j hi (by rw [h1]; exact hlt i) hj
    (C129_cyclic _ hN hc k i)⟩

/-- The hypotheses of `C129_mc_circle` and `C129_mc`. -/
example (f : Arr2 (Option ℝ)) (v : ℕ → ℕ → ℝ) (hf : f.rows = 1 ∧ f.cols = 2)
    (hv : ∀ i j, i < f.rows → j < f.cols → f.val i j = some (v i j)) (k : ℤ) (s s' : Mc.State) :
    ∃ out out' s1 s1', Mc.mcRemap exBoxTwo (.lin exHalf) 2 exDraws f none s = (.ok out, s1) ∧
      Mc.mcRemap exBoxTwo (turnGrid k (.lin exHalf)) 2 exDraws f none s' = (.ok out', s1') ∧
      ∀ i j, i < out.rows → j < out.cols → out'.val i j = out.val (((i:ℤ) + k) % 2).toNat j := by
  obtain ⟨out, out', s1, s1', e, e', -, -, -, -, h⟩ := C129_mc_circle exBoxTwo (.lin exHalf) exBoxTwo_ok exHalf_ok 2
    (by norm_num) k (by simp [Mc.Grid.args, exHalf]) exDraws (fun i j _ _ => exDraws_ok i j) f v
    (by simpa [exBoxTwo] using hf) hv exDraws_differ s s'
  exact ⟨out, out', s1, s1', e, e', fun i j hi hj => h i j hi hj⟩

/-- The hypotheses of `C129_dense`. -/
example : BoxOk exBox ∧ PolarOk exPolar ∧ 2 ≤ exPolar.numr ∧ 2 ≤ exPolar.nump :=
  ⟨exBox_ok, exPolar_ok, by simp [exPolar], by simp [exPolar]⟩

/-- A quarter turn of a full circle of eight sectors: the first row is the third row of the map that is not turned, and
the last row is the second. -/
example : SameSector { rmin := 1, rmax := 2, numr := 2, nump := 8 } 2 0 2 ∧
    SameSector { rmin := 1, rmax := 2, numr := 2, nump := 8 } 2 7 1 ∧
    (turnBy 2 { rmin := 1, rmax := 2, numr := 2, nump := 8 }).phiShift = Real.pi/2 := by
  refine ⟨⟨0, by norm_num, .inl rfl⟩, ⟨-1, by norm_num, .inr (by simp)⟩, ?_⟩
  simp only [turnBy]
  push_cast
  ring

/-- In half a circle the sectors that are turned out of it are lost. -/
example (i' : ℕ) (hi : i' < 8) : ¬ SameSector { rmin := 1, rmax := 2, numr := 2, nump := 8, pmax := Real.pi } 2 7 i' := by
  rintro ⟨t, h, rfl | h2⟩
  · simp at h; omega
  · have := Real.pi_pos
    simp only [sub_zero] at h2
    linarith

end Magpie.Props
