import Verif.Proof.Remap64
import Verif.Proof.Flat

/-!
# Remapping onto the same grid in binary64

`Resolved` and `IsDouble` are in `Verif/Spec`.
-/

set_option linter.unusedSimpArgs false
set_option linter.unusedVariables false

namespace Magpie.Props
open Magpie.Remap Magpie.Remap64 Magpie.Spec Magpie.F64

theorem flat_getD {f1 : List ℝ} {n m : ℕ} (h : f1.length = n*m) :
    ((List.range n).flatMap fun (i : ℕ) => (List.range m).map fun (j : ℕ) => f1.getD (i*m + j) 0) = f1 := by
  apply List.ext_getElem?
  intro t
  have hl : ∀ i, ((List.range m).map fun (j : ℕ) => f1.getD (i*m + j) 0).length = m := by simp
  by_cases ht : t < n*m
  · have hm : 0 < m := by
      rcases Nat.eq_zero_or_pos m with h0 | h0
      · subst h0; simp at ht
      · exact h0
    have e : t = t/m*m + t%m := by rw [mul_comm]; exact (Nat.div_add_mod t m).symm
    have h1 : t/m < n := Nat.div_lt_of_lt_mul (by rw [mul_comm]; exact ht)
    have h2 : t%m < m := Nat.mod_lt _ hm
    have := getElem?_flat n m _ hl (t/m) (t%m) h1 h2
    rw [← e] at this
    rw [this, List.getElem?_map, List.getElem?_range h2, Option.map_some, ← e,
      List.getElem?_eq_getElem (by omega), List.getD_eq_getElem?_getD, List.getElem?_eq_getElem (by omega),
      Option.getD_some]
  · rw [List.getElem?_eq_none (by rw [length_flat n m _ hl]; omega), List.getElem?_eq_none (by omega)]

theorem picks_value (fused : Bool) {f1 : List ℝ} (hf : ∀ v ∈ f1, IsDouble v) {n k : ℕ} (hl : f1.length = n)
    {buf : Buf ℝ} (h : Picks n k buf) : accum64 fused f1 0 buf = some (f1.getD k 0) := by
  subst hl
  rw [accum64_picks fused f1 (fun v hv => isDouble_fl (hf v hv)) h, List.getElem?_eq_getElem h.1,
    List.getD_eq_getElem?_getD, List.getElem?_eq_getElem h.1, Option.getD_some]

/-- C104, one dimension: in double precision, too, remapping onto the same grid returns every value bit for
bit, whether or not the compiler fuses multiplications with additions. -/
theorem C104_identity_partial (fused : Bool) (f1 : List ℝ) (hf : ∀ v ∈ f1, IsDouble v) (boxsize origin : ℝ)
    (h : Resolved origin boxsize f1.length) (buf0 : Buf ℝ) :
    grid2grid1D64 fused f1 boxsize f1.length origin origin (some boxsize) buf0 = .ok (some f1) := by
  unfold grid2grid1D64 remap1d64
  simp only []
  obtain ⟨s', e⟩ := sweep_all (fun buf i =>
    let buf := pixel64 fused (mkAxis64 origin boxsize f1.length origin boxsize f1.length) i buf
    (accum64 fused f1 0 buf).map fun v => (buf, v)) (fun j => f1.getD j 0) f1.length (by
      intro j hj s
      have := picks_value fused hf rfl (pixel_picks h fused hj s)
      simp only [this, Option.map_some]
      exact ⟨_, rfl⟩) buf0
  have hg : (mkAxis64 origin boxsize f1.length origin boxsize f1.length).grid2 = f1.length := rfl
  rw [hg, e]
  simp only [Option.map_some]
  congr 2
  have := flat_getD (f1 := f1) (n := 1) (m := f1.length) (by omega)
  simpa using this

/-- C104, two dimensions. -/
theorem C104_identity_2d_partial (fused : Bool) (nx ny : ℕ) (f1 : List ℝ) (hl : f1.length = nx*ny)
    (hf : ∀ v ∈ f1, IsDouble v) (xbox ybox xo yo : ℝ) (hx : Resolved xo xbox nx) (hy : Resolved yo ybox ny)
    (xbuf0 ybuf0 : Buf ℝ) :
    grid2grid2D64 fused nx ny f1 (.list [xbox, ybox]) (.list [nx, ny]) (.list [xo, yo]) (.list [xo, yo]) none
      xbuf0 ybuf0 = .ok (some ⟨f1, [nx, ny]⟩) := by
  unfold grid2grid2D64
  simp only [Arg.two, bind, Except.bind, pure, Except.pure]
  have key : remap2d64 fused (mkAxis64 xo xbox nx xo xbox nx) (mkAxis64 yo ybox ny yo ybox ny) f1 xbuf0 ybuf0
      = some f1 := by
    unfold remap2d64
    obtain ⟨s', e⟩ := sweep_all (fun (s : Buf ℝ × Buf ℝ) i =>
      let xb := pixel64 fused (mkAxis64 xo xbox nx xo xbox nx) i s.1
      (sweep (fun yb j =>
        let yb := pixel64 fused (mkAxis64 yo ybox ny yo ybox ny) j yb
        let pix := pix2d ny xb yb
        let w := xb.flatMap fun (x : ℤ × ℝ) => yb.map fun (y : ℤ × ℝ) => F64.mul x.2 y.2
        (accum64 fused f1 0 (pix.zip w)).map fun v => (yb, v)) s.2 (List.range ny)).map
          fun r => ((xb, r.1), r.2)) (fun i => (List.range ny).map fun (j : ℕ) => f1.getD (i*ny + j) 0) nx (by
        intro i hi s
        simp only []
        have hX := pixel_picks hx fused hi s.1
        obtain ⟨t, e⟩ := sweep_all (fun yb j =>
          let yb := pixel64 fused (mkAxis64 yo ybox ny yo ybox ny) j yb
          let pix := pix2d ny (pixel64 fused (mkAxis64 xo xbox nx xo xbox nx) i s.1) yb
          let w := (pixel64 fused (mkAxis64 xo xbox nx xo xbox nx) i s.1).flatMap fun (x : ℤ × ℝ) =>
            yb.map fun (y : ℤ × ℝ) => F64.mul x.2 y.2
          (accum64 fused f1 0 (pix.zip w)).map fun v => (yb, v)) (fun j => f1.getD (i*ny + j) 0) ny (by
            intro j hj yb
            simp only []
            rw [zip_prod64, picks_value fused hf hl (prod64_picks hX (pixel_picks hy fused hj yb))]
            exact ⟨_, rfl⟩) s.2
        simp only [] at e
        rw [e]
        exact ⟨_, rfl⟩) (xbuf0, ybuf0)
    have hg : (mkAxis64 xo xbox nx xo xbox nx).grid2 = nx := rfl
    have hg' : (mkAxis64 yo ybox ny yo ybox ny).grid2 = ny := rfl
    have hg'' : (mkAxis64 yo ybox ny yo ybox ny).grid1 = ny := rfl
    rw [hg, hg', hg'', e]
    simp only [Option.map_some]
    congr 1
    rw [← List.flatMap_def]
    exact flat_getD hl
  rw [key]
  rfl

/-- C104, three dimensions; the output sizes have to be given as one number (see C39). -/
theorem C104_identity_3d_partial (fused : Bool) (n : ℕ) (f1 : List ℝ) (hl : f1.length = n*n*n)
    (hf : ∀ v ∈ f1, IsDouble v) (xbox ybox zbox xo yo zo : ℝ) (hx : Resolved xo xbox n) (hy : Resolved yo ybox n)
    (hz : Resolved zo zbox n) (xbuf0 ybuf0 zbuf0 : Buf ℝ) :
    grid2grid3D64 fused n n n f1 (.list [xbox, ybox, zbox]) (.scalar n) (.list [xo, yo, zo]) (.list [xo, yo, zo]) none
      xbuf0 ybuf0 zbuf0 = .ok (some ⟨f1, [n, n, n]⟩) := by
  unfold grid2grid3D64
  simp only [Arg.three, bind, Except.bind, pure, Except.pure]
  have key : remap3d64 fused (mkAxis64 xo xbox n xo xbox n) (mkAxis64 yo ybox n yo ybox n)
      (mkAxis64 zo zbox n zo zbox n) f1 xbuf0 ybuf0 zbuf0 = some f1 := by
    unfold remap3d64
    have hgx : (mkAxis64 xo xbox n xo xbox n).grid2 = n := rfl
    have hgy : (mkAxis64 yo ybox n yo ybox n).grid2 = n := rfl
    have hgy' : (mkAxis64 yo ybox n yo ybox n).grid1 = n := rfl
    have hgz : (mkAxis64 zo zbox n zo zbox n).grid2 = n := rfl
    have hgz' : (mkAxis64 zo zbox n zo zbox n).grid1 = n := rfl
    rw [hgx, hgy, hgy', hgz, hgz']
    set ax := mkAxis64 xo xbox n xo xbox n
    set ay := mkAxis64 yo ybox n yo ybox n
    set az := mkAxis64 zo zbox n zo zbox n
    have inner : ∀ i j, i < n → j < n → ∀ xb yb zb0 : Buf ℝ, Picks n i xb → Picks n j yb →
        ∃ t, sweep (fun zb k =>
          let zb := pixel64 fused az k zb
          let pix := pix3d n n xb yb zb
          let w := xb.flatMap fun (x : ℤ × ℝ) => yb.flatMap fun (y : ℤ × ℝ) =>
            zb.map fun (z : ℤ × ℝ) => F64.mul (F64.mul x.2 y.2) z.2
          (accum64 fused f1 0 (pix.zip w)).map fun v => (zb, v)) zb0 (List.range n)
        = some (t, (List.range n).map fun (k : ℕ) => f1.getD ((i*n + j)*n + k) 0) := by
      intro i j hi hj xb yb zb0 hX hY
      apply sweep_all
      intro k hk zb
      simp only []
      rw [zip_prod64_3 n _ (picks_inR hX) (picks_inR hY),
        picks_value fused hf hl (prod64_picks (prod64_picks hX hY) (pixel_picks hz fused hk zb))]
      exact ⟨_, rfl⟩
    have middle : ∀ i, i < n → ∀ (xb : Buf ℝ) (s0 : Buf ℝ × Buf ℝ), Picks n i xb →
        ∃ t, sweep (fun (s : Buf ℝ × Buf ℝ) j =>
          let yb := pixel64 fused ay j s.1
          (sweep (fun zb k =>
            let zb := pixel64 fused az k zb
            let pix := pix3d n n xb yb zb
            let w := xb.flatMap fun (x : ℤ × ℝ) => yb.flatMap fun (y : ℤ × ℝ) =>
              zb.map fun (z : ℤ × ℝ) => F64.mul (F64.mul x.2 y.2) z.2
            (accum64 fused f1 0 (pix.zip w)).map fun v => (zb, v)) s.2 (List.range n)).map
              fun r => ((yb, r.1), r.2)) s0 (List.range n)
        = some (t, (List.range n).map fun (j : ℕ) => (List.range n).map fun (k : ℕ) => f1.getD ((i*n + j)*n + k) 0) := by
      intro i hi xb s0 hX
      apply sweep_all
      intro j hj s
      simp only []
      obtain ⟨t, e⟩ := inner i j hi hj xb (pixel64 fused ay j s.1) s.2 hX (pixel_picks hy fused hj s.1)
      simp only [] at e
      rw [e]
      exact ⟨_, rfl⟩
    obtain ⟨s', e⟩ := sweep_all (fun (s : Buf ℝ × Buf ℝ × Buf ℝ) i =>
      let xb := pixel64 fused ax i s.1
      (sweep (fun (s : Buf ℝ × Buf ℝ) j =>
        let yb := pixel64 fused ay j s.1
        (sweep (fun zb k =>
          let zb := pixel64 fused az k zb
          let pix := pix3d n n xb yb zb
          let w := xb.flatMap fun (x : ℤ × ℝ) => yb.flatMap fun (y : ℤ × ℝ) =>
            zb.map fun (z : ℤ × ℝ) => F64.mul (F64.mul x.2 y.2) z.2
          (accum64 fused f1 0 (pix.zip w)).map fun v => (zb, v)) s.2 (List.range n)).map
            fun r => ((yb, r.1), r.2)) s.2 (List.range n)).map
          fun r => ((xb, r.1), r.2.flatten))
      (fun i => ((List.range n).map fun (j : ℕ) => (List.range n).map fun (k : ℕ) => f1.getD ((i*n + j)*n + k) 0).flatten)
      n (by
        intro i hi s
        simp only []
        obtain ⟨t, e⟩ := middle i hi (pixel64 fused ax i s.1) s.2 (pixel_picks hx fused hi s.1)
        simp only [] at e
        rw [e]
        exact ⟨_, rfl⟩) (xbuf0, ybuf0, zbuf0)
    simp only [] at e
    rw [e]
    simp only [Option.map_some]
    congr 1
    simp only [← List.flatMap_def]
    have h1 := flat_getD (f1 := f1) (n := n*n) (m := n) hl
    refine Eq.trans ?_ h1
    apply List.ext_getElem?
    intro t
    have l1 : ∀ i, ((List.range n).map fun (j : ℕ) => f1.getD (i*n + j) 0).length = n := by simp
    have l2 : ∀ i, ((List.range n).flatMap fun (j : ℕ) => (List.range n).map fun (k : ℕ) =>
        f1.getD ((i*n + j)*n + k) 0).length = n*n := by
      intro i; rw [length_flat n n _ (by simp)]
    by_cases ht : t < n*n*n
    · have hn : 0 < n := hx.pos
      have hnn : 0 < n*n := by positivity
      have e1 : t = t/(n*n)*(n*n) + t%(n*n) := by rw [mul_comm]; exact (Nat.div_add_mod t (n*n)).symm
      have a1 : t/(n*n) < n := Nat.div_lt_of_lt_mul ht
      have a2 : t%(n*n) < n*n := Nat.mod_lt _ hnn
      have e2 : t%(n*n) = t%(n*n)/n*n + t%(n*n)%n := (Nat.div_add_mod' _ n).symm
      have a3 : t%(n*n)/n < n := Nat.div_lt_of_lt_mul a2
      have a4 : t%(n*n)%n < n := Nat.mod_lt _ hn
      set i := t/(n*n)
      set j := t%(n*n)/n
      set k := t%(n*n)%n
      have q1 := getElem?_flat n (n*n) _ l2 i (t%(n*n)) a1 a2
      rw [← e1] at q1
      have q2 := getElem?_flat n n (fun (j : ℕ) => (List.range n).map fun (k : ℕ) => f1.getD ((i*n + j)*n + k) 0) (by simp) j k a3 a4
      rw [← e2] at q2
      have q3 := getElem?_flat (n*n) n (fun (i : ℕ) => (List.range n).map fun (j : ℕ) => f1.getD (i*n + j) 0) l1 (i*n + j) k
        (by nlinarith) a4
      have e3 : (i*n + j)*n + k = t := by rw [e1, e2]; ring
      rw [e3] at q3
      rw [q1, q2, q3]
    · rw [List.getElem?_eq_none (by rw [length_flat n (n*n) _ l2]; nlinarith),
        List.getElem?_eq_none (by rw [length_flat (n*n) n _ l1]; omega)]
  rw [key]
  rfl

/-! ## Where it fails -/

theorem real4_even {m : ℤ} (h0 : 2^23 ≤ m) (h1 : m < 2^24) : real4 (2*m) = 2*m := by
  have hl : Int.log 2 |((2*m : ℤ):ℝ)| = 24 := by
    have hm0 : (2:ℝ)^23 ≤ m := by exact_mod_cast h0
    have hm1 : (m:ℝ) < 2^24 := by exact_mod_cast h1
    rw [abs_of_nonneg (by push_cast; linarith)]
    push_cast
    apply le_antisymm
    · have := (Int.lt_zpow_iff_log_lt (b := 2) (x := 25) (r := 2*(m:ℝ)) (by norm_num) (by linarith)).mp (by norm_num; linarith)
      omega
    · exact (Int.zpow_le_iff_le_log (b := 2) (x := 24) (by norm_num) (by linarith)).mp (by norm_num; linarith)
  unfold real4
  rw [hl]
  have : ((2*m : ℤ):ℝ)/(2:ℝ)^((24:ℤ) - 23) = m := by push_cast; norm_num
  rw [this, rne_int]
  norm_num
  ring

theorem real4_tie : real4 (2^24 + 3) = 2^24 + 4 := by
  have hl : Int.log 2 |((2^24 + 3 : ℤ):ℝ)| = 24 := by
    rw [abs_of_nonneg (by norm_num)]
    apply le_antisymm
    · have := (Int.lt_zpow_iff_log_lt (b := 2) (x := 25) (r := ((2^24 + 3 : ℤ):ℝ)) (by norm_num) (by norm_num)).mp (by norm_num)
      omega
    · exact (Int.zpow_le_iff_le_log (b := 2) (x := 24) (by norm_num) (by norm_num)).mp (by norm_num)
  unfold real4
  rw [hl]
  have : ((2^24 + 3 : ℤ):ℝ)/(2:ℝ)^((24:ℤ) - 23) = ((2^23 + 1 : ℤ):ℝ) + 1/2 := by norm_num
  rw [this, rne_half_odd (by decide)]
  norm_num

theorem real4_nonneg {n : ℤ} (h : 0 ≤ n) : 0 ≤ real4 n := by
  unfold real4
  have hn : (0:ℝ) ≤ n := by exact_mod_cast h
  have h2 := two_zpow_pos (Int.log 2 |(n:ℝ)| - 23)
  refine mul_nonneg ?_ h2.le
  have : (0:ℝ) ≤ (n:ℝ)/(2:ℝ)^(Int.log 2 |(n:ℝ)| - 23) := by positivity
  set x := (n:ℝ)/(2:ℝ)^(Int.log 2 |(n:ℝ)| - 23)
  have hf : 0 ≤ ⌊x⌋ := Int.floor_nonneg.mpr this
  have : 0 ≤ rne x := by unfold rne; split_ifs <;> omega
  exact_mod_cast this

theorem accum64_some (fused : Bool) (f1 : List ℝ) (b : Buf ℝ) (h : InR f1.length b) (acc : ℝ) :
    ∃ v, accum64 fused f1 acc b = some v := by
  induction b generalizing acc with
  | nil => exact ⟨acc, rfl⟩
  | cons e b ih =>
    obtain ⟨p, w⟩ := e
    have ih := ih fun e he => h e (List.mem_cons_of_mem _ he)
    rw [accum64]
    rcases h (p, w) List.mem_cons_self with hp | ⟨h0, h1⟩
    · simp only at hp
      rw [if_neg (by simpa using hp)]
      exact ih acc
    · simp only at h0 h1
      rw [if_pos (by omega)]
      unfold readAt
      rw [if_pos h0, List.getElem?_eq_getElem (by omega)]
      simp only
      exact ih _

theorem entryAcross64_inR (fused : Bool) (x d e1 e2 : ℝ) (n : ℕ) (p : ℤ) :
    (entryAcross64 fused x d n e1 e2 p).1 = -1 ∨
      (0 ≤ (entryAcross64 fused x d n e1 e2 p).1 ∧ (entryAcross64 fused x d n e1 e2 p).1 < n) := by
  unfold entryAcross64
  simp only []
  split_ifs with h <;> first | exact Or.inl rfl | exact Or.inr h

theorem entrySame_inR (n : ℕ) (p : ℤ) (i : ℕ) :
    (entrySame n p i : ℤ × ℝ).1 = -1 ∨ (0 ≤ (entrySame n p i : ℤ × ℝ).1 ∧ (entrySame n p i : ℤ × ℝ).1 < n) := by
  unfold entrySame
  simp only []
  split_ifs with h <;> first | exact Or.inl rfl | exact Or.inr h

/-- A pass that starts right of the grid's first edge overwrites the work arrays. -/
theorem pixel64_fresh (fused : Bool) (a : AxisArgs ℝ) (j : ℕ) (buf : Buf ℝ)
    (h : 0 ≤ whichPix64 a.x1min (F64.div (F64.sub a.x1max a.x1min) (real4 a.grid1))
      (madd fused a.x2min (F64.div (F64.sub a.x2max a.x2min) (real4 a.grid2)) (real4 j))) :
    InR a.grid1 (pixel64 fused a j buf) ∧ pixel64 fused a j buf = pixel64 fused a j [] := by
  unfold pixel64 remapPixel64
  simp only []
  constructor
  · split_ifs with h1 h2
    · intro e he
      rw [List.mem_map] at he
      obtain ⟨i, -, rfl⟩ := he
      exact entryAcross64_inR _ _ _ _ _ _ _
    · intro e he
      rw [List.mem_map] at he
      obtain ⟨i, -, rfl⟩ := he
      exact entrySame_inR _ _ _
    · push Not at h2
      omega
  · split_ifs with h1 h2
    · rfl
    · rfl
    · push Not at h2
      omega

/-- C104 is false for more than `2^24` cells: `real(n)` is single precision.  On the grid of `2^24 + 8` cells of
width 1, cell `2^24 + 3` of the output holds the value of its right neighbour. -/
theorem C104_violated (fused : Bool) (f1 : List ℝ) (hf : ∀ v ∈ f1, IsDouble v) (hl : f1.length = 2^24 + 8)
    (buf0 : Buf ℝ) :
    ∃ f2, grid2grid1D64 fused f1 (2^24 + 8) f1.length 0 0 (some (2^24 + 8)) buf0 = .ok (some f2) ∧
      f2[2^24 + 3]? = f1[2^24 + 4]? := by
  unfold grid2grid1D64 remap1d64
  simp only []
  rw [hl]
  set a := mkAxis64 0 (2^24 + 8) (2^24 + 8) 0 (2^24 + 8) (2^24 + 8) with ha
  have f1' := fl_int (n := 1) (by norm_num)
  push_cast at f1'
  have hN : fl (2^24 + 8 : ℝ) = 2^24 + 8 := by
    have e : (2^24 + 8 : ℝ) = ((2^24 + 8 : ℤ) : ℝ) := by norm_num
    rw [e]
    exact fl_int (by norm_num)
  have hR : real4 ((2^24 + 8 : ℕ) : ℤ) = 2^24 + 8 := by
    have := real4_even (m := 2^23 + 4) (by norm_num) (by norm_num)
    push_cast at this ⊢
    norm_num at this ⊢
    exact this
  have hX : F64.add 0 (2^24 + 8) = 2^24 + 8 := by unfold F64.add; rw [zero_add, hN]
  have hdx : F64.div (F64.sub (2^24 + 8) 0) (real4 ((2^24 + 8 : ℕ) : ℤ)) = 1 := by
    unfold F64.div F64.sub
    rw [sub_zero, hN, hR, div_self (by norm_num), f1']
  have hed : ∀ p : ℤ, madd fused 0 1 (real4 p) = fl (real4 p) := by
    intro p
    unfold madd F64.add F64.mul
    split_ifs <;> simp [fl_fl]
  have hwhich : ∀ x : ℝ, whichPix64 0 1 (fl x) = ⌊fl x⌋ := by
    intro x
    unfold whichPix64 F64.div F64.sub
    rw [sub_zero, fl_fl, div_one, fl_fl]
  have a1 : a.x1min = 0 := rfl
  have a2 : a.x1max = 2^24 + 8 := hX
  have a3 : a.x2min = 0 := rfl
  have a4 : a.x2max = 2^24 + 8 := hX
  have a5 : a.grid1 = 2^24 + 8 := rfl
  have a6 : a.grid2 = 2^24 + 8 := rfl
  have fresh : ∀ j buf, InR a.grid1 (pixel64 fused a j buf) ∧ pixel64 fused a j buf = pixel64 fused a j [] := by
    intro j buf
    apply pixel64_fresh
    rw [a1, a2, a3, a4, a5, a6, hdx, hed, hwhich]
    exact Int.floor_nonneg.mpr (fl_nonneg (real4_nonneg (by omega)))
  obtain ⟨s', e⟩ := sweep_all (fun buf i =>
    let buf := pixel64 fused a i buf
    (accum64 fused f1 0 buf).map fun v => (buf, v)) (fun j => (accum64 fused f1 0 (pixel64 fused a j [])).getD 0)
      (2^24 + 8) (by
      intro j hj s
      obtain ⟨h1, h2⟩ := fresh j s
      obtain ⟨v, hv⟩ := accum64_some fused f1 _ (by rw [hl, ← a5]; exact h1) 0
      simp only [hv, Option.map_some]
      rw [h2] at hv
      rw [hv]
      exact ⟨_, rfl⟩) buf0
  rw [a6, e]
  refine ⟨_, rfl, ?_⟩
  rw [List.getElem?_map, List.getElem?_range (by norm_num), Option.map_some]
  have hv : accum64 fused f1 0 (pixel64 fused a (2^24 + 3) []) = f1[2^24 + 4]? := by
    apply accum64_picks fused f1 (fun v hv => isDouble_fl (hf v hv))
    rw [hl]
    refine ⟨by norm_num, ?_⟩
    unfold pixel64 remapPixel64
    have hpl : a.pixlen = 3 := by
      have : a.pixlen = pixLen64 0 (F64.add 0 (2^24 + 8)) (2^24 + 8) 0 (F64.add 0 (2^24 + 8)) (2^24 + 8) := rfl
      rw [this, hX]
      unfold pixLen64
      simp only []
      rw [hdx]
      unfold F64.div
      rw [div_one, f1', Int.floor_one]
      norm_num
    simp only [a1, a2, a3, a4, a5, a6, hdx, hed, hwhich, hpl]
    have r1 : real4 ((2^24 + 3 : ℕ) : ℤ) = 2^24 + 4 := by
      have := real4_tie
      push_cast
      exact this
    have r2 : real4 (((2^24 + 3 : ℕ) : ℤ) + 1) = 2^24 + 4 := by
      have := real4_even (m := 2^23 + 2) (by norm_num) (by norm_num)
      push_cast at this ⊢
      norm_num at this ⊢
      exact this
    have hfl : fl (2^24 + 4 : ℝ) = ((2^24 + 4 : ℤ) : ℝ) := by
      have := fl_int (n := 2^24 + 4) (by norm_num)
      rw [← this]
      norm_num
    simp only [r1, r2, hfl, Int.floor_intCast]
    rw [if_neg (by simp), if_pos (by norm_num)]
    refine ⟨[], [entrySame (2^24 + 8) (2^24 + 4) 1, entrySame (2^24 + 8) (2^24 + 4) 2], ?_, by simp, ?_⟩
    · simp [List.range_succ, entrySame]
    · intro e he
      simp only [List.mem_cons, List.not_mem_nil, or_false] at he
      rcases he with rfl | rfl
      all_goals
        unfold entrySame Idle
        simp only []
        split_ifs with hc h0
        · simp at h0
        · exact Or.inr ⟨hc.1, hc.2, rfl⟩
        · exact Or.inl rfl
  rw [hv, List.getElem?_eq_getElem (by omega), Option.getD_some]

theorem fl_even53 {m : ℤ} (h0 : 0 ≤ m) (h1 : m ≤ 2^52) : fl (2^53 + 2*(m:ℝ)) = 2^53 + 2*m := by
  have e : (2^53 + 2*(m:ℝ)) = ((2^52 + m : ℤ):ℝ)*(2:ℝ)^(1:ℤ) := by push_cast; rw [zpow_one]; ring
  rw [e]
  exact fl_exact (by rw [abs_of_nonneg (by omega)]; omega) (by norm_num)

theorem fl_odd53 {m : ℤ} (h0 : 0 ≤ m) (h1 : m < 2^51) :
    fl (2^53 + 2*(m:ℝ) + 1) = if Even m then (2^53 + 2*m : ℝ) else 2^53 + 2*m + 2 := by
  have hm0 : (0:ℝ) ≤ m := by exact_mod_cast h0
  have hm1 : (m:ℝ) < 2^51 := by exact_mod_cast h1
  have hu : ulpExp (2^53 + 2*(m:ℝ) + 1) = 1 := by
    apply ulpExp_eq (by norm_num)
    · rw [abs_of_nonneg (by positivity)]; norm_num; linarith
    · rw [abs_of_nonneg (by positivity)]; norm_num; linarith
  have e : (2^53 + 2*(m:ℝ) + 1)/(2:ℝ)^(1:ℤ) = ((2^52 + m : ℤ):ℝ) + 1/2 := by push_cast; rw [zpow_one]; ring
  have hpar : Even (2^52 + m) ↔ Even m := by
    rw [Int.even_add]
    have : Even ((2:ℤ)^52) := by decide
    tauto
  by_cases hm : Even m
  · rw [if_pos hm, fl_of_ulp (n := 2^52 + m) hu (by rw [e]; exact rne_half_even (hpar.mpr hm))]
    push_cast; rw [zpow_one]; ring
  · rw [if_neg hm, fl_of_ulp (n := 2^52 + m + 1) hu (by rw [e]; exact rne_half_odd (fun h => hm (hpar.mp h)))]
    push_cast; rw [zpow_one]; ring

/-- C104 is false for grids too far from zero: with four cells of width 1 from `2^53` on, the last value of the
output is 0 whatever the input. -/
theorem C104_far_violated (fused : Bool) (a b c d : ℝ) (buf0 : Buf ℝ) :
    ∃ f2, grid2grid1D64 fused [a, b, c, d] 4 4 (2^53) (2^53) (some 4) buf0 = .ok (some f2) ∧ f2[3]? = some 0 := by
  unfold grid2grid1D64 remap1d64
  simp only [Except.ok.injEq, List.length_cons, List.length_nil, zero_add, Nat.reduceAdd]
  set ax := mkAxis64 (2^53) 4 4 (2^53) 4 4 with hax
  have f1' := fl_int (n := 1) (by norm_num)
  have f4' := fl_int (n := 4) (by norm_num)
  push_cast at f1' f4'
  have hX : F64.add (2^53) 4 = 2^53 + 4 := by
    unfold F64.add
    have := fl_even53 (m := 2) (by norm_num) (by norm_num)
    norm_num at this ⊢
    exact this
  have hR : real4 4 = 4 := by
    have := real4_int (n := 4) (by norm_num)
    push_cast at this
    exact this
  have hdx : F64.div (F64.sub (2^53 + 4) (2^53)) (real4 4) = 1 := by
    unfold F64.div F64.sub
    rw [add_sub_cancel_left, f4', hR, div_self (by norm_num), f1']
  have hE3 : madd fused (2^53) 1 (real4 3) = 2^53 + 4 := by
    have r := real4_int (n := 3) (by norm_num)
    push_cast at r
    have f3' := fl_int (n := 3) (by norm_num)
    push_cast at f3'
    have := fl_odd53 (m := 1) (by norm_num) (by norm_num)
    rw [if_neg (by decide)] at this
    unfold madd F64.add F64.mul
    rw [r]
    norm_num [f3'] at this ⊢
    exact this
  have hE4 : madd fused (2^53) 1 (real4 4) = 2^53 + 4 := by
    have := fl_even53 (m := 2) (by norm_num) (by norm_num)
    unfold madd F64.add F64.mul
    rw [hR]
    norm_num [f4'] at this ⊢
    exact this
  have hw : whichPix64 (2^53) 1 (2^53 + 4) = 4 := by
    unfold whichPix64 F64.div F64.sub
    rw [add_sub_cancel_left, f4', div_one, f4']
    norm_num
  have hlast : ∀ buf, ∀ e ∈ pixel64 fused ax 3 buf, e = ((-1 : ℤ), (0:ℝ)) := by
    intro buf
    unfold pixel64 remapPixel64
    have a1 : ax.x1min = 2^53 := rfl
    have a2 : ax.x1max = 2^53 + 4 := hX
    have a3 : ax.x2min = 2^53 := rfl
    have a4 : ax.x2max = 2^53 + 4 := hX
    have a5 : ax.grid1 = 4 := rfl
    have a6 : ax.grid2 = 4 := rfl
    have c4 : ((4:ℕ):ℤ) = 4 := rfl
    have c3 : ((3:ℕ):ℤ) = 3 := rfl
    have c3' : (3:ℤ) + 1 = 4 := rfl
    simp only [a1, a2, a3, a4, a5, a6, c4, c3, c3', hdx, hE3, hE4, hw]
    rw [if_neg (by simp), if_pos (by norm_num)]
    intro e he
    rw [List.mem_map] at he
    obtain ⟨i, -, rfl⟩ := he
    unfold entrySame
    simp only []
    rw [if_neg (by push_cast; omega)]
  have hacc : ∀ buf, accum64 fused [a, b, c, d] 0 (pixel64 fused ax 3 buf) = some 0 := by
    intro buf
    rw [← List.append_nil (pixel64 fused ax 3 buf), accum64_idle fused _ fl_zero]
    · rfl
    · intro e he; rw [hlast buf e he]; exact Or.inl rfl
  have hfresh : ∀ j buf, InR ax.grid1 (pixel64 fused ax j buf) ∧ pixel64 fused ax j buf = pixel64 fused ax j [] := by
    intro j buf
    apply pixel64_fresh
    have a1 : ax.x1min = 2^53 := rfl
    have a2 : ax.x1max = 2^53 + 4 := hX
    have a3 : ax.x2min = 2^53 := rfl
    have a4 : ax.x2max = 2^53 + 4 := hX
    have a5 : ax.grid1 = 4 := rfl
    have a6 : ax.grid2 = 4 := rfl
    have c4 : ((4:ℕ):ℤ) = 4 := rfl
    rw [a1, a2, a3, a4, a5, a6, c4, hdx]
    have hr := real4_nonneg (n := j) (by omega)
    have h53 : fl (2^53) = 2^53 := by
      have := fl_even53 (m := 0) (by norm_num) (by norm_num)
      norm_num at this ⊢
      exact this
    have hge : 2^53 ≤ madd fused (2^53) 1 (real4 j) := by
      rw [← h53]
      unfold madd F64.add F64.mul
      split_ifs
      · apply fl_mono; rw [h53]; linarith
      · apply fl_mono; rw [h53, one_mul]; linarith [fl_nonneg hr]
    unfold whichPix64 F64.div F64.sub
    refine Int.floor_nonneg.mpr (fl_nonneg ?_)
    rw [div_one]
    exact fl_nonneg (by linarith)
  obtain ⟨s', e⟩ := sweep_all (fun buf i =>
    let buf := pixel64 fused ax i buf
    (accum64 fused [a, b, c, d] 0 buf).map fun v => (buf, v))
      (fun j => (accum64 fused [a, b, c, d] 0 (pixel64 fused ax j [])).getD 0) 4 (by
      intro j hj s
      obtain ⟨h1, h2⟩ := hfresh j s
      obtain ⟨v, hv⟩ := accum64_some fused [a, b, c, d] _ h1 0
      simp only [hv, Option.map_some]
      rw [h2] at hv
      rw [hv]
      exact ⟨_, rfl⟩) buf0
  have hg : ax.grid2 = 4 := rfl
  rw [hg, e]
  refine ⟨_, rfl, ?_⟩
  rw [List.getElem?_map, List.getElem?_range (by norm_num), Option.map_some, hacc, Option.getD_some]

/-! ## Cases that meet the hypotheses -/

/-- A grid of 1000 cells from 3 to 5: the edges are not binary fractions. -/
example : Resolved 3 2 1000 := by
  refine ⟨by norm_num, by norm_num, ?_, ?_, ?_⟩
  · exact le_trans (zpow_le_one_of_nonpos₀ (by norm_num) (by norm_num)) (by norm_num)
  · refine le_trans (by norm_num : (2:ℝ) ≤ (2:ℝ)^(1:ℤ)) (zpow_le_zpow_right₀ (by norm_num) (by norm_num))
  · rw [abs_of_pos (by norm_num)]; norm_num

/-- Doubles: 0.75 and -3. -/
example : ∀ v ∈ ([3/4, -3] : List ℝ), IsDouble v := by
  intro v hv
  simp only [List.mem_cons, List.not_mem_nil, or_false] at hv
  rcases hv with rfl | rfl
  · exact ⟨3, -2, by norm_num, by norm_num, by norm_num, by norm_num⟩
  · exact ⟨-3, 0, by norm_num, by norm_num, by norm_num, by norm_num⟩

end Magpie.Props
