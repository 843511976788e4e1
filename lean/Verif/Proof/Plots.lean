import Verif.Spec.Plots
import Verif.Props.Heal2Ortho

/-!
# Lemmas about `PlotOrtho`
-/

set_option linter.unusedSimpArgs false
set_option linter.unusedVariables false

namespace Magpie.Plots
open Magpie Magpie.Radial Magpie.Coords Magpie.Spec Magpie.Ortho Magpie.Props
open Magpie.Box2Ring hiding BoxArgs State
open Matrix Real

/-- The object after a valid set-up. -/
structure SetUp (A : BoxArgs) (c : ℝ × ℝ) (o : Ortho.State) : Prop where
  valid : Valid A c
  grid : o.grid = some (mkGrid (edgesOf A) A)
  edges : o.edges = some (edgesOf A)

theorem setUp_of {ang2pix : ℤ → ℝ → ℝ → ℕ} {A : BoxArgs} {c : ℝ × ℝ} (h : Valid A c) {n : ℤ}
    {sky : ℕ → ℕ → ℝ × ℝ} {o : Ortho.State} (hs : Ready ang2pix n A c sky o) : SetUp A c o :=
  ⟨h, hs.grid, hs.edges⟩

variable {A : BoxArgs} {c : ℝ × ℝ} {o : Ortho.State}

theorem SetUp.transform (h : SetUp A c o) (phi theta : ℝ) :
    transform phi theta o = (.ok (position 1 c phi theta), o) := by
  obtain ⟨p', t', er, hd⟩ := (shift_from h.valid.phi h.valid.theta).2 phi theta
  unfold Ortho.transform
  have hc := (mkGrid_facts h.valid).center
  simp only [Meth.bind_apply, Meth.self_apply, Meth.lift_apply, h.grid, need_some, hc, er, Option.bind_some,
    Meth.pure_apply]
  rw [front_dir hd]
  unfold position
  simp only [one_mul]

theorem SetUp.transformArr (h : SetUp A c o) (rows : List (ℝ × ℝ)) (hne : rows ≠ []) :
    ∃ caller, transformArr (rows.map fun q => q.1) (rows.map fun q => q.2) o
      = (.ok (rows.map fun q => position 1 c q.1 q.2, caller), o) := by
  obtain ⟨p', t', cp, er, hd⟩ := (shift_from h.valid.phi h.valid.theta).1 rows hne (fun q => q.1) (fun q => q.2)
  refine ⟨cp, ?_⟩
  unfold Ortho.transformArr
  have hc := (mkGrid_facts h.valid).center
  simp only [Meth.bind_apply, Meth.self_apply, Meth.lift_apply, h.grid, need_some, hc, er, vzip_map_same,
    Option.bind_some, Meth.pure_apply]
  congr 3
  apply List.map_congr_left
  intro q _
  rw [front_dir (hd q)]
  unfold position
  simp only [one_mul]

theorem SetUp.limits (h : SetUp A c o) (drawn : List Cmd) :
    limits ⟨o, drawn⟩ = (.ok (-A.xLength/2, A.xLength/2, -A.yLength.getD A.xLength/2, A.yLength.getD A.xLength/2),
      ⟨o, drawn⟩) := by
  have hx : 2 ≤ nx A := by have := h.valid.xGrid; unfold nx; omega
  have hy : 2 ≤ ny A := by have := h.valid.yGrid; unfold ny; omega
  have ex0 : (edgesOf A).xedges.getD 0 0 = -A.xLength/2 := by
    show (linspace _ _ _).getD 0 0 = _
    rw [linspace_getD _ _ _ _ (by omega), edgeAt_zero]
  have ey0 : (edgesOf A).yedges.getD 0 0 = -A.yLength.getD A.xLength/2 := by
    show (linspace _ _ _).getD 0 0 = _
    rw [linspace_getD _ _ _ _ (by omega), edgeAt_zero]
  have ex1 : (edgesOf A).xedges.getLastD 0 = A.xLength/2 := linspace_getLastD _ _ _ (by omega)
  have ey1 : (edgesOf A).yedges.getLastD 0 = A.yLength.getD A.xLength/2 := linspace_getLastD _ _ _ (by omega)
  have nx0 : (edgesOf A).xedges ≠ [] := by
    intro h0
    have := congrArg List.length h0
    simp [edgesOf] at this
  have ny0 : (edgesOf A).yedges ≠ [] := by
    intro h0
    have := congrArg List.length h0
    simp [edgesOf] at this
  unfold Plots.limits
  simp only [Meth.bind_apply, Meth.self_apply, Meth.lift_apply, h.edges, need_some, Meth.pure_apply, nx0, ny0,
    or_self, if_false, ex0, ex1, ey0, ey1]

theorem linspace_dropLast (b : ℝ) (n : ℕ) :
    (linspace 0 b (n + 1)).dropLast = (List.range n).map fun (k : ℕ) => (k:ℝ)*b/n := by
  apply List.ext_getElem
  · simp
  · intro k h1 h2
    rw [List.getElem_dropLast, getElem_linspace]
    simp only [List.getElem_map, List.getElem_range]
    push_cast
    ring

theorem linspace_map (b : ℝ) : linspace 0 b 100 = (List.range 100).map fun (j : ℕ) => (j:ℝ)*b/99 := by
  unfold linspace
  apply List.map_congr_left
  intro k _
  push_cast
  ring

theorem SetUp.meridians (h : SetUp A c o) (ax : Target) (l : List ℝ) (drawn : List Cmd) :
    meridians ax l ⟨o, drawn⟩ = (.ok (), ⟨o, drawn ++ l.map fun v => .plot ax (meridian 1 c v)⟩) := by
  induction l generalizing drawn with
  | nil => simp [Plots.meridians]
  | cons v vs ih =>
    obtain ⟨cp, e⟩ := h.transformArr ((List.range 100).map fun (j : ℕ) => (v, (j:ℝ)*π/99)) (by simp)
    simp only [List.map_map, Function.comp_def, List.map_const', List.length_range] at e
    unfold Plots.meridians
    simp only [Meth.bind_apply, onOrtho, linspace_map, e, draw, Meth.assign_apply, ih]
    simp [meridian, Function.comp_def]

theorem SetUp.parallels (h : SetUp A c o) (ax : Target) (l : List ℝ) (drawn : List Cmd) :
    parallels ax l ⟨o, drawn⟩ = (.ok (), ⟨o, drawn ++ l.map fun v => .plot ax (parallel 1 c v)⟩) := by
  induction l generalizing drawn with
  | nil => simp [Plots.parallels]
  | cons v vs ih =>
    obtain ⟨cp, e⟩ := h.transformArr ((List.range 100).map fun (j : ℕ) => ((j:ℝ)*(2*π)/99, v)) (by simp)
    simp only [List.map_map, Function.comp_def, List.map_const', List.length_range] at e
    unfold Plots.parallels
    simp only [Meth.bind_apply, onOrtho, linspace_map, e, draw, Meth.assign_apply, ih]
    simp [parallel, Function.comp_def]

theorem intDiv_ok {a d : ℝ} (ha : 0 ≤ a) (hd : 0 < d) : intDiv a d = .ok ((⌊a/d⌋₊ : ℕ) : ℤ) := by
  unfold intDiv
  rw [if_neg hd.ne']
  unfold trunc
  rw [if_pos (by positivity), Int.natCast_floor_eq_floor (by positivity)]

theorem gridLine_ok (b : ℝ) (n : ℕ) : gridLine b n = .ok (linspace 0 b (n + 1)) := by
  unfold gridLine
  rw [if_neg (by omega)]
  rfl

theorem SetUp.plotGrid (h : SetUp A c o) {dtheta : ℝ} {dphi : Option ℝ} (ht : 0 < dtheta)
    (hp : 0 < dphi.getD dtheta) (ax : Target) (drawn : List Cmd) :
    plotGrid dtheta dphi ax ⟨o, drawn⟩ = (.ok (), ⟨o, drawn ++
      ((List.range ⌊360/dphi.getD dtheta⌋₊).map fun (k : ℕ) =>
        .plot ax (meridian 1 c ((k:ℝ)*(2*π)/(⌊360/dphi.getD dtheta⌋₊:ℕ)))) ++
      ((List.range ⌊180/dtheta⌋₊).map fun (k : ℕ) => .plot ax (parallel 1 c ((k:ℝ)*π/(⌊180/dtheta⌋₊:ℕ))))⟩) := by
  unfold Plots.plotGrid
  simp only [Meth.bind_apply, Meth.lift_apply, intDiv_ok (show (0:ℝ) ≤ 360 by norm_num) hp,
    intDiv_ok (show (0:ℝ) ≤ 180 by norm_num) ht, gridLine_ok, h.meridians, h.parallels, linspace_dropLast,
    List.map_map, Function.comp_def]

/-! ### Labels -/

theorem rint_near (x : ℝ) : |(rint x : ℝ) - x| ≤ 1/2 := by
  have h := Int.floor_add_fract x
  have h0 := Int.fract_nonneg x
  have h1 := Int.fract_lt_one x
  unfold rint
  rw [abs_le]
  split_ifs <;> push_cast <;> constructor <;> linarith

theorem rint_even (x : ℝ) (hx : |(rint x : ℝ) - x| = 1/2) : Even (rint x) := by
  have h := Int.floor_add_fract x
  have h0 := Int.fract_nonneg x
  have h1 := Int.fract_lt_one x
  unfold rint at hx ⊢
  split_ifs at hx ⊢ with a b e
  · rw [abs_of_nonpos (by linarith)] at hx
    linarith
  · push_cast at hx
    rw [abs_of_nonneg (by linarith)] at hx
    linarith
  · exact Int.even_iff.mpr e
  · rw [Int.even_iff]
    omega

theorem labelText_zero (v : ℝ) : labelText v 0 = (toString (rint (rad2deg v))).toList := by
  unfold labelText decStr
  simp only [pow_zero, mul_one, Nat.div_one, fracDigits]
  have : stripZeros [] = ['0'] := rfl
  rw [this]
  have e : ∀ l : List Char, (l ++ ['.'] ++ ['0']).dropLast.dropLast = l := by
    intro l
    rw [List.append_assoc]
    simp
  rw [e]
  cases hk : rint (rad2deg v) with
  | ofNat n => 
    rw [if_neg (by simp)]
    simp [toString, Int.repr, Nat.repr]
  | negSucc n =>
    rw [if_pos (by simp)]
    simp [toString, Int.repr, Nat.repr]

theorem SetUp.label (h : SetUp A c o) (ax : Target) (u : Bool) (pole : Option (ℝ × ℝ)) (str : List Char) (p t : ℝ)
    (hr : A.radius = 1) (drawn : List Cmd) :
    label ax u pole str p t ⟨o, drawn⟩
      = (.ok (), ⟨o, drawn ++ labels A c ax (fun q => if u then some (rotationAngle q pole) else none) [(str, p, t)]⟩) := by
  unfold Plots.label labels
  simp only [Meth.bind_apply, onOrtho, h.transform, h.limits, hr, List.filterMap_cons, List.filterMap_nil]
  cases hp : position 1 c p t with
  | none => simp
  | some q =>
    simp only [Option.bind_some]
    have : (q.1 ≥ -A.xLength/2 ∧ q.1 ≤ A.xLength/2 ∧ q.2 ≥ -A.yLength.getD A.xLength/2 ∧
        q.2 ≤ A.yLength.getD A.xLength/2) ↔ InMap A q := by
      unfold InMap
      rw [abs_le, abs_le]
      constructor
      · rintro ⟨h1, h2, h3, h4⟩; exact ⟨⟨by linarith, h2⟩, by linarith, h4⟩
      · rintro ⟨⟨h1, h2⟩, h3, h4⟩; exact ⟨by linarith, h2, by linarith, h4⟩
    by_cases hq : InMap A q
    · rw [if_pos (this.mpr hq), if_pos hq]
      simp [draw]
    · rw [if_neg (fun h => hq (this.mp h)), if_neg hq]
      simp

theorem labels_append (ax : Target) (rot : ℝ × ℝ → Option (Option ℝ)) (l l' : List (List Char × ℝ × ℝ)) :
    labels A c ax rot (l ++ l') = labels A c ax rot l ++ labels A c ax rot l' := by
  unfold labels; rw [List.filterMap_append]

theorem SetUp.phiLabels (h : SetUp A c o) (ax : Target) (u : Bool) (pole : Option (ℝ × ℝ)) (d : ℕ) (z sh : ℝ × ℝ)
    (hr : A.radius = 1) (l : List ℝ) (drawn : List Cmd) :
    phiLabels ax u pole d z sh l ⟨o, drawn⟩
      = (.ok (), ⟨o, drawn ++ labels A c ax (fun q => if u then some (rotationAngle q pole) else none)
          (l.map fun v => (labelText v d, v - deg2rad sh.1, z.2))⟩) := by
  induction l generalizing drawn with
  | nil => simp [Plots.phiLabels, labels]
  | cons v vs ih =>
    unfold Plots.phiLabels
    simp only [Meth.bind_apply, h.label _ _ _ _ _ _ hr, ih, List.map_cons]
    rw [List.append_assoc, ← labels_append]
    rfl

theorem position_turn (R : ℝ) (c : ℝ × ℝ) (p t : ℝ) (k : ℤ) : position R c (p + 2*π*k) t = position R c p t := by
  unfold position
  rw [dir_turn]

theorem SetUp.thetaLabels (h : SetUp A c o) (ax : Target) (u : Bool) (pole : Option (ℝ × ℝ)) (d : ℕ) (ll : Bool)
    (z sh : ℝ × ℝ) (hr : A.radius = 1) (l : List ℝ) (drawn : List Cmd) :
    thetaLabels ax u pole d ll z sh l ⟨o, drawn⟩
      = (.ok (), ⟨o, drawn ++ labels A c ax (fun q => if u then some (rotationAngle q pole) else none)
          (l.map fun v => (labelText (if ll then π/2 - v else v) d, z.1, v - deg2rad sh.2))⟩) := by
  induction l generalizing drawn with
  | nil => simp [Plots.thetaLabels, labels]
  | cons v vs ih =>
    unfold Plots.thetaLabels
    have hw : ∀ w : ℝ, position 1 c (if z.1 < 0 then z.1 + 2*π else if z.1 ≥ 2*π then z.1 - 2*π else z.1) w
        = position 1 c z.1 w := by
      intro w
      split_ifs
      · have := position_turn 1 c z.1 w 1
        simpa using this
      · have := position_turn 1 c z.1 w (-1)
        simp only [Int.cast_neg, Int.cast_one, mul_neg, mul_one] at this
        rw [sub_eq_add_neg]
        exact this
      · rfl
    have hl : ∀ (rot) (str : List Char) (w : ℝ),
        labels A c ax rot [(str, (if z.1 < 0 then z.1 + 2*π else if z.1 ≥ 2*π then z.1 - 2*π else z.1), w)]
          = labels A c ax rot [(str, z.1, w)] := by
      intro rot str w
      unfold labels
      simp only [List.filterMap_cons, hr, hw]
    simp only [Meth.bind_apply, h.label _ _ _ _ _ _ hr, ih, List.map_cons, hl]
    rw [List.append_assoc, ← labels_append]
    rfl

theorem yTicks_raises (lib : EdgeLib) (grid : List ℝ) : ∃ e, yTicks lib grid = .error e := by
  have hpart : ∀ t y, ∃ e, edgePart lib grid t y = .error e := by
    intro t y
    unfold edgePart polar2lonlat
    simp only [bind, Except.bind]
    cases lib.select grid t with
    | error e => exact ⟨e, rfl⟩
    | ok g =>
      simp only
      cases lib.interp t y g with
      | error e => exact ⟨e, rfl⟩
      | ok q => exact ⟨_, rfl⟩
  unfold yTicks
  simp only [bind, Except.bind]
  cases lib.angles with
  | error e => exact ⟨e, rfl⟩
  | ok q =>
    simp only
    cases lib.argmax q.1 with
    | error e => exact ⟨e, rfl⟩
    | ok imax =>
      simp only
      cases lib.argmin q.1 with
      | error e => exact ⟨e, rfl⟩
      | ok imin =>
        simp only
        split_ifs
        · obtain ⟨e, he⟩ := hpart (q.1.take imax) (q.2.take imax)
          rw [he]; exact ⟨e, rfl⟩
        · obtain ⟨e, he⟩ := hpart (q.1.take imin) (q.2.take imin)
          rw [he]; exact ⟨e, rfl⟩
        · exact hpart _ _

/-! ## Labels with decimals -/

/-- `fracDigits` as numbers. -/
def fracNums : ℕ → ℕ → List ℕ
  | 0, _ => []
  | d + 1, m => fracNums d (m / 10) ++ [m % 10]

theorem fracDigits_eq (d m : ℕ) : fracDigits d m = (fracNums d m).map Nat.digitChar := by
  induction d generalizing m with
  | zero => rfl
  | succ d ih => simp [fracDigits, fracNums, ih]

theorem fracNums_length (d m : ℕ) : (fracNums d m).length = d := by
  induction d generalizing m with
  | zero => rfl
  | succ d ih => simp [fracNums, ih]

theorem fracNums_lt (d m : ℕ) : ∀ x ∈ fracNums d m, x < 10 := by
  induction d generalizing m with
  | zero => simp [fracNums]
  | succ d ih =>
    intro x hx
    simp only [fracNums, List.mem_append, List.mem_singleton] at hx
    rcases hx with h | rfl
    · exact ih _ x h
    · exact Nat.mod_lt _ (by norm_num)

theorem decVal_append (l : List ℕ) (x : ℕ) : Plots.decVal (l ++ [x]) = Plots.decVal l + x/10^(l.length + 1) := by
  induction l with
  | nil => simp [Plots.decVal]
  | cons y l ih =>
    simp only [List.cons_append, Plots.decVal, ih, List.length_cons]
    field_simp
    ring

theorem decVal_fracNums (d m : ℕ) (h : m < 10^d) : Plots.decVal (fracNums d m) = m/10^d := by
  induction d generalizing m with
  | zero => obtain rfl : m = 0 := by simpa using h
            simp [fracNums, Plots.decVal]
  | succ d ih =>
    rw [fracNums, decVal_append, fracNums_length, ih (m/10) (by rw [pow_succ] at h; omega)]
    have e : (m:ℝ) = 10*(m/10 : ℕ) + (m % 10 : ℕ) := by exact_mod_cast (Nat.div_add_mod m 10).symm
    rw [e]
    field_simp
    push_cast
    have e2 : ((10*(m/10) + m % 10)/10 : ℕ) = m/10 := by omega
    ring

/-- `stripZeros` on numbers. -/
def stripNums (l : List ℕ) : List ℕ :=
  match (l.reverse.dropWhile (· == 0)).reverse with
  | [] => [0]
  | l => l

theorem digitChar_zero {x : ℕ} (h : x < 10) : (Nat.digitChar x == '0') = (x == 0) := by
  interval_cases x <;> decide

theorem dropWhile_digits (l : List ℕ) (h : ∀ x ∈ l, x < 10) :
    (l.map Nat.digitChar).dropWhile (· == '0') = (l.dropWhile (· == 0)).map Nat.digitChar := by
  induction l with
  | nil => rfl
  | cons x l ih =>
    rw [List.map_cons, List.dropWhile_cons, List.dropWhile_cons, digitChar_zero (h x (by simp))]
    split
    · exact ih fun y hy => h y (by simp [hy])
    · rfl

theorem stripZeros_eq (l : List ℕ) (h : ∀ x ∈ l, x < 10) :
    stripZeros (l.map Nat.digitChar) = (stripNums l).map Nat.digitChar := by
  unfold stripZeros stripNums
  rw [← List.map_reverse, dropWhile_digits _ (by simpa using h), ← List.map_reverse]
  cases (List.dropWhile (fun x => x == 0) l.reverse).reverse with
  | nil => rfl
  | cons y l => rfl

theorem decVal_drop (l : List ℕ) : Plots.decVal (l.dropWhile (· == 0)).reverse = Plots.decVal l.reverse := by
  induction l with
  | nil => rfl
  | cons x l ih =>
    rw [List.dropWhile_cons]
    split
    · rename_i h
      have : x = 0 := by simpa using h
      rw [ih, List.reverse_cons, decVal_append, this]
      simp
    · rfl

theorem stripNums_spec (l : List ℕ) (h : ∀ x ∈ l, x < 10) : stripNums l ≠ [] ∧ (∀ x ∈ stripNums l, x < 10) ∧
    (stripNums l).length ≤ max l.length 1 ∧ ((stripNums l).getLast? = some 0 → stripNums l = [0]) ∧
    Plots.decVal (stripNums l) = Plots.decVal l := by
  have hv := decVal_drop l.reverse
  rw [List.reverse_reverse] at hv
  have hm : ∀ x ∈ (l.reverse.dropWhile (· == 0)).reverse, x ∈ l := by
    intro x hx
    rw [List.mem_reverse] at hx
    exact List.mem_reverse.mp ((List.dropWhile_sublist _).subset hx)
  have hlen : ((l.reverse.dropWhile (· == 0)).reverse).length ≤ l.length := by
    rw [List.length_reverse]
    simpa using (List.dropWhile_sublist (· == 0) (l := l.reverse)).length_le
  have hlast : ((l.reverse.dropWhile (· == 0)).reverse).getLast? ≠ some 0 := by
    rw [List.getLast?_reverse]
    intro h0
    have := List.head?_dropWhile_not (· == 0) l.reverse
    rw [h0] at this
    simp at this
  unfold stripNums
  generalize (l.reverse.dropWhile (· == 0)).reverse = r at *
  cases r with
  | nil => exact ⟨by simp, by simp, by simp, by simp, by rw [← hv]; simp [Plots.decVal]⟩
  | cons y r => exact ⟨by simp, fun x hx => h x (hm x hx), hlen.trans (le_max_left _ _), fun h0 => absurd h0 hlast, hv⟩

end Magpie.Plots
