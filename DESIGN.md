# Formal model of magpie (knaidoo29/magpie) in Lean 4

Status: sections 1 and 2 were written before the proofs; sections 3 to 5 (trusted base,
disagreements) are kept current as the model grows.

## 1. What is modelled and how

The Python package (`/repo/magpie`) and its Fortran kernels (`/repo/src`) are
modelled as shallow, total Lean functions, branch by branch. Every definition
carries a comment citing file and lines.

| Code construct | Model |
|---|---|
| Python `int` | `Int` / `Nat` |
| `float` in purely algebraic code | an arbitrary linearly ordered field `K` (with `FloorRing K` where `floor` is used); so theorems hold for `ℝ` and `ℚ`, witnesses are evaluated over `ℚ` |
| `float` in code with `sqrt`, `pi`, trig | `ℝ` (`Real.sqrt`, `Real.pi`, `Real.cos`, `Complex.arg` for `arctan2`, ...) |
| IEEE rounding, overflow | not modelled: arithmetic is exact. Exception: `Model/Float64.lean` models binary64 rounding (no overflow), `Model/HealpixIndex64.lean` the HEALPix index code with it (C98), `Model/Conversions64.lean` the coordinate conversions (C100-C102), `Model/Remap64.lean` the remapping between grids (C104, C105), `Model/Grids64.lean` the edges of grids (C108, C109), `Model/Randoms64.lean` random positions (C114), `Model/Means64.lean` ring means and the means of Monte Carlo remappings (C118), `Model/Cumulative64.lean` tabulated distributions and running integrals (C125, C126), `Model/DgRemap64.lean` and `Model/DgCube64.lean` the dense grid `remap` of boxes and cubes (C127, C130; `np.cos` and `np.sin` are parameters, assumed within `2^-52` of the exact values), `Model/OneD64.lean` `rebin_1d` without `sigma` (C131) and `Progress.progressBar64` the progress bar (C69, C70) |
| NaN / inf result of a division | `Option K`, `none` = "not a finite number"; `fdiv a b = none` iff `b = 0` |
| NumPy 1-d array | `List`; 2-d array: list of rows (or a function of the indices with explicit shape) |
| boolean-mask read/write (`a[cond]`, `a[cond] = v`) | index list from `np.where`, gather, scatter |
| exception | `Except PyErr α` |
| in-place mutation | function returns result *and* new contents of the caller's array |
| `np.random.random_sample` | explicit argument with values in `[0,1)`, universally quantified |
| Fortran work arrays | explicit argument with arbitrary initial contents; a read outside an array is an error value |
| class instance | structure + step function over an operation type; histories are lists of operations |

Layers: `Verif/Np.lean` (NumPy library model), `Verif/Model/*` (code),
`Verif/Spec/*` (independent specifications), `Verif/Proof/*` (lemmas),
`Verif/Props/*` (property theorems and their non-vacuity examples).

## 2. Plan per property

Where the unchanged code violates the property, the plan is: prove the negation
with a concrete witness, and a `_partial` theorem for the inputs on which it holds.

| Id | Modelled | Proof |
|---|---|---|
| C01 | `healpix_pix2ij`, `healpix_ij2pix` scalar branches over ℝ sqrt / ℤ | ring bounds `2i(i-1) ≤ p < 2i(i+1)` from sqrt inequalities; mirror for the south cap |
| C02 | same | injectivity from C01, surjectivity from the converse round trip |
| C03 | same | strict monotonicity of `ij2pix` in lexicographic order |
| C04 | `i2id`, `j2jd`, `ij2xy`, `pix2xy`, `xy2ang` | case analysis caps / belt, floor of `2x/π` shown to be the facet number |
| C05 | same | diamonds correspond to unit squares around integer star indices; star indices injective |
| C06 | `ijd2ijs`, `ijs2ijd` | closed form of `jdash` in each region, integrality |
| C07 | `ijs_neighbours` | touching is defined on the sphere (`Spec/HealpixTouch`: a corner of the one pixel has the direction of a corner of the other); by a case analysis over the facets the lists of the code are shown to be the touching pixels, north first and south by exchange of the indices; violated: `np.unique` on each array separately, the north-western edge of northern facets is one step off, the belt for `nside = 1`, and the wrap-around at `9 nside - 1` |
| C08 | array branches with where/gather/scatter | generic scatter lemma |
| C09 | both branches of `pix2ij` | violated: witnesses p = 12N² and p = -1, for every nside; `_partial` for the range that does raise |
| C10 | `xy2ang`, `ang2xy` | real analysis: floor of the shifted angle, sqrt algebra |
| C11 | `xy2ang` | `HasDerivAt` of both components in each region, determinant; total area |
| C12 | `healpix_boundary*` | linspace algebra, endpoints |
| C13 | `_randoms_healpix_xy`, `randoms_healpix_pixel` | inequalities |
| C14 | same | inverse CDF identities, measure of the set of variates |
| C15-C18 | `conversions.py` | `Complex.arg` lemmas, `Real.arccos` lemmas |
| C19 | array branches | generic scatter lemma |
| C20 | `ortho2cart` | algebra |
| C21 | `usphere_area` | algebra; violated for positivity (phi_min > phi_max accepted) |
| C22 | `sphere2lonlat`, `lonlat2sphere` | algebra |
| C23 | `usphere_phi_shift` | case analysis |
| C24 | array branch with mutation | violated: witness; general theorem for when it mutates |
| C25-C28 | `usphere_rotate`, `usphere_shift`, `usphere_spin` | matrices over ℝ³, orthonormal frames, Rodrigues formula |
| C29, C30 | `coords/polar.py` | violated: every call raises / shift is k+1; witnesses, characterisation |
| C31-C37 | `remap_*_grid2grid.f90`, `remap_utils.f90` with buffers | kernel loop invariant; the weights written equal the overlaps; stale-buffer analysis |
| C38, C39 | `grid2grid.py` wrappers | corollaries; C39 violated (TypeError / ValueError) |
| C40-C46 | `one_d.py` | case analysis on the number of interior edges; C42, C45, C46 partly violated |
| C47 | `is_pos_monotonic` | induction |
| C48-C50 | `grids/cartesian.py` | linspace algebra; C49 violated |
| C51, C52 | `grids/polar.py` | sums of odd numbers, telescoping |
| C53-C55 | `polar2radial.py`, `radial.py` | weighted-mean lemmas, telescoping |
| C56-C59 | `randoms/*.py` | inverse CDF monotonicity; C59 violated |
| C60-C65 | `pdf.py`, `subsample.py` | sums, permutations, measure of variates |
| C66-C68 | `basic_shapes.py` | list lemmas |
| C69, C70 | `progress.py` | arithmetic, exact and in binary64; C70 violated |
| C71, C72 | `montecarlo/box2ring.py`, `cube2shell.py` | weighted means; C72 for every call that returns, from the value of a run as a sum over the points in the box |
| C73-C76 | `densegrid/box2ring.py` as a state machine | induction over histories; C73-C75 partly violated |
| C77 | `densegrid/heal2ortho.py` | violated: result is rebin_y times too large; characterisation |
| C78 | `densegrid/pointofview.py` | algebra; violated for spin ≠ 0 |
| C79 | `heal2ring`, `heal2polar` | violated: missing attributes / impossible assertion on every call |
| C80 | `densegrid/cube2shell.py` | index arithmetic; violated for the axis order |
| C81 | setup methods | violated for size 1 |
| C83 | setup methods, `linspace`, `logspace` | closed form of the edges; monotonicity of powers |
| C84 | `montecarlo/cube2shell.py` | weighted means; how `np.array(..., dtype=object)` packs the index lists; violated when all pixels of a shell touch equally many voxels |
| C85 | `densegrid/pointofview.py` | the composed rotation is an orthogonal matrix; its rows are the camera frame |
| C86 | `densegrid/heal2ortho.py` | `usphere_shift` as a matrix; its columns are east, north and the centre |
| C87 | `densegrid/heal2ring.py`, `densegrid/heal2polar.py` | `usphere_spin` and `usphere_shift` as matrices; the columns are the centre, east and north |
| C88 | `coords/healpix.py` | facets of the projection and a lattice rounding argument give the pixel; disjointness from C05 |
| C89 | `randoms/usphere.py` | C14 pushed forward by the inverse projection: piecewise change of variables with constant Jacobian 8/(3 pi) |
| C90 | `plots/ortho.py` | drawing as a list of matplotlib calls; `transform` from C86 along the loops; induction over the grid lines |
| C91 | `plots/ortho.py` | edges after the set-up; limits and extent |
| C92 | `plots/ortho.py` | as C90; text of a label as a list of characters |
| C93 | `plots/shapes.py`, `plots/ortho.py` | name lookup as an exception |
| C94 | `coords/usphere.py` (shift, rotate, spin) | the rotation matrices of two calls agree on a frame, hence everywhere; Rodrigues' formula for spins |
| C95 | `rotate_polar` of the four ring classes | case analysis on the state of the object |
| C96 | Monte Carlo `Box2Ring.get_weights`, `remap` with random variates | polar change of variables for the law of the points, strong law of large numbers, Chebyshev |
| C97 | dense grid `Box2Ring` set-up and `remap` | the sum over dense cells is the integral of a step function; dominated convergence, the lines of the box grid being a null set |
| C98 | `pixel/healpix_index.py` in binary64 | rounding to nearest even is a function on the reals, proved nearest and monotone; ring boundaries are decided by monotonicity with exactly representable separators; wrong pixels at large `nside` are evaluated |
| C99 | `src/remap_*_grid2grid.f90`, `remap/grid2grid.py` on arrays with NaN | the work array names exactly a given set of input cells, invariant of the sweep; a sum is NaN iff a named cell is; products of work arrays for two and three axes |
| C100 | `coords/conversions.py` in binary64 | the rounded square root of a rounded square is the number itself; monotonicity of rounding bounds `z/r` by 1; error terms of the sum of squares are added up |
| C101 | `coords/usphere.py:usphere_phi_shift` in binary64 | `2 pi` is a float, rounding is monotone; error terms |
| C102 | `coords/conversions.py:ortho2cart` in binary64 | as C100 |
| C103 | `montecarlo/cube2shell.py`, `randoms/sphere.py:randoms_sphere_r`, `randoms/usphere.py` | C89 times the cube root law of the radius; three-dimensional change of variables (cube of the radius, longitude, cosine) with constant Jacobian 1/3; strong law of large numbers and Chebyshev's inequality |
| C104 | `src/remap_utils.f90`, `src/remap_*_grid2grid.f90` in binary64 | error bounds of the rounded cell edges (1/16 of a cell), so that every output cell finds exactly one input cell with weight `x/x = 1` and all other weights 0 |
| C105 | as C104 | error bounds of rounded edges; the overlap length is 1-Lipschitz in every edge, so a wrongly chosen first or last cell carries a weight within the error bound; invariant over the work array (every entry in range, weights near the exact overlaps, at most `3 B.dx/A.dx + 3` entries); then error bounds of products and of the naive sum |
| C106 | the classes of `densegrid/` and `montecarlo/cube2shell.py` as state machines, `Model/ObjectCalls.lean` | which attributes each method reads and keeps; relational argument over two runs from objects that agree on what is read |
| C107 | the set-up methods of all classes, sequences of calls | which part of each method can raise `AssertionError`, and what has been assigned before; a call that leaves the object as it was can be left out of a history. False where a method raises after an assignment: shown by `C107_mc_violated`, `C107_ortho_violated`, `C107_numz_violated`; `Model/DgCubeAttrs` has every attribute of the dense grid `Cube2Shell` by itself, so that a `setup_cube` that fails half way keeps what it has assigned, and `C107_attributes` says that the coarser model is exact as long as set-ups return or raise `AssertionError` |
| C108 | `get_xedges`, `xedges2mid`, `grid1d`, `np.linspace` in the set-up methods, in binary64 (`Grids64`) | relative errors of difference, step and product bound every product below `xmax - xmin`; then monotonicity of rounding |
| C109 | cell width and cell lookup of the dense grid methods, in binary64 (`Grids64`) | error of the width times the number of cells; the integers up to `2^50` are exact, so `floor` is decided by comparing with them |
| C110 | `grid2grid1D/2D/3D` (`Remap`) | the overlap of cells of nested grids is a whole cell or nothing; the exact averages of C31-C34 |
| C111 | same | the share of one cell in another is invariant under affine maps and reflections |
| C112 | `one_d.py` (`OneD`) | on its own edges a bin has weight 1 and its neighbours weight 0; the weights of a new bin depend only on the edges. The errors are false for the second bin (its lower neighbour is kept if that is bin 0) and for a single bin (weights 1 and -1): shown by the `violated` theorems |
| C113 | Monte Carlo `Box2Ring` and `Cube2Shell` (`get_weights`, `remap`) with random variates | inside the box the value is a mean of `n` pairwise independent bounded variables; partly inside it is a sum over draws divided by the number inside: a draw inside is independent of the number of the others inside; for the mean square the cross terms of two draws vanish for the same reason, and the number inside is binomial (induction on `n`) |
| C114 | `randoms_polar`, `randoms_usphere`, `randoms_sphere_r` with rounding (`Randoms64`) | a double below 1 is at most `1 - 2^-53`, so the rounded width times a variate never exceeds the exact width; the rounded square root of a rounded square is the number; forward error analysis. The cube root is false at the ends: shown by the `violated` theorem |
| C115 | `shuffle`, `random_draw`, `random_prob_draw` on a stream of independent uniform numbers (`Spec/Draws`) | ties have probability 0, and without ties `argsort` is the inverse of the rank order; the law of `n` numbers is invariant under permutations, so all orders have equal probability; the numbers of one call are independent of those of the next. Sized draws with unequal probabilities: exact law for two elements, shown to differ |
| C116 | the same random functions with `n` points, on a stream of independent uniform numbers (`Spec/Draws`) | the numbers of a call as `n` pairs (or triples) have the product law; the call acts point by point, so the joint probability is the product of the single ones (C14, C56-C58, C64, C65, C82, C89) |
| C117 | densegrid `Cube2Shell.remap` for all rebin factors; HEALPix pixels as diamonds of the plane (`Spec/DgCubeLimit`) | the mean over dense points is the integral of a step function of a radial variate and the two coordinates along the sides of the diamond, in which volume is uniform (Jacobians of the projection and of spherical coordinates); dominated convergence, the planes of the grid being a null set |
| C118 | the means of `polar2radial` and of the Monte Carlo `remap` with rounding (`Means64`); an order of `np.sum` is a binary tree | induction over the tree with the relative error `(1 + 2^-53)^k - 1` of `k` roundings; sums of doubles are multiples of `2^-1074`, so an addition never underflows |
| C119 | `Box2Ring` and `Cube2Shell` with limits in any order (`Model/DgBox2Ring`, `Model/DgCube2Shell`, `Model/McBox2Ring`, `Model/McCube2Shell`) | the remap depends on the box only through the value read at each dense point; floor of `n - t` for the exchanged axis; the edges which NumPy's histogram makes of a range without a width |
| C120 | scalar and array branches of `coords/usphere.py`, `PointOfView` and `Heal2Ortho.transform` (`Model/Usphere`, `Model/PointOfView`, `Model/Heal2Ortho`) | every step raises for all points, is NaN for all points, or is one function of the point; composition of such steps |
| C121 | `Box2Ring` set-up, `remap`, mask and `polar2radial` of both classes together (`Model/DgBox2Ring`, `Model/McBox2Ring`, `Model/Box2Ring`) | C97 and C96 for every pixel and for the map of ones that makes the mask; the pixels of a ring have equal areas and no area in common |
| C122 | `densegrid/heal2ortho.py` for all rebin factors; HEALPix pixels as regions of the sky (`Spec/OrthoLimit`), `ang2pix` any function that gives directions inside a pixel to that pixel | the sums over dense points are integrals of step functions on the output pixel; almost every point of the view shows the inside of a HEALPix pixel (the pixels have the area of the whole sky, and the view is a differentiable map of longitude and height, which keeps null sets), so dominated convergence applies; violated without weights |
| C123 | dense grid `Box2Ring` set-up and `remap` for every refinement; the lines of the box grid that cross a polar pixel (`Spec/DgRate`) | the sum over dense cells is the integral of a step function that differs from the map only in cells that a line crosses (intermediate value theorem); in a quadrant of the angle a line is monotone in radius, so it crosses at most `2*m - 1` of the `m*m` cells |
| C124 | `randoms/pdf.py` with the default `kind="cubic"` (`Model/RandomsCubic`), the spline specified in `Spec/Spline` (cubic pieces, continuous second derivatives, not-a-knot ends) | the second derivatives at the points solve a linear system that is strictly diagonally dominant after elimination of the ends, so the spline exists and is unique; polynomials of degree three are their own spline; violated where the spline overshoots |
| C125 | `randoms/pdf.py` with rounding (`Cumulative64`): the table, linear interpolation, and the default interpolation with a rounded table and an exact spline | the running sum as a comb-shaped tree of C118; monotonicity of rounding; the last entry is `m/m`; absorption of small terms for the violation; a concrete table for the range |
| C126 | `polar/radial.py` with rounding (`Cumulative64`) | an error calculus with a relative part `(1 + 2^-53)^k - 1` and an underflow part (`Proof/Radial64`); Minkowski's inequality for the errors added in quadrature |
| C127 | `densegrid/box2ring.py`: `_remap` with rounding (`DgRemap64`) | bounds on edges, angles, coordinates and weights one after the other; a point near the one computed lies in the cell that is read; the error calculus of C126 for sums over trees; `remap(f, w)` as the quotient of two such means read at the same points |
| C128 | both `Box2Ring` and both `Cube2Shell` classes, all methods (`Cls.run`, `runCalls`) | simulation: a map of the attributes from the old units to the new, with which every method commutes; induction over the calls |
| C129 | both `Box2Ring` classes (`Dg.remap`, `Mc.mcRemap`) | the sample points of the turned grid are the sample points of the sector it covers (periodicity of sine and cosine for a full circle); C73 and C71 give the maps from the sample points |
| C130 | `densegrid/cube2shell.py`: `remap` with rounding (`DgCube64`) | bounds on shifted centres, coordinates, volumes and subpixel means one after the other, then as for C127; far from the boundaries the values read are those of C80 |
| C131 | `one_d.py`: `_rebin_1d_single_bin`, `rebin_1d` with rounding (`OneD64`) | the selection of edges is exact; for each new bin the exact and the rounded value are means of the same data (`single_plan`), with weights four roundings apart; then the bounds on sums and quotients of C118 |
| C132 | `remap` of both `Box2Ring`, `Heal2Ortho`, both `Cube2Shell` | three runs of the method, on `f`, `g` and `a*f + b*g`, are related step by step (`P3`, `M3`): every step raises in all three or keeps the relation "third = a * first + b * second" |
| C133 | `remap` with weights of both `Box2Ring`, `Heal2Ortho`, Monte Carlo `Cube2Shell`; `polar2radial` | the relation of C132 with `z = c*x`: numerator and denominator get the same factor, which cancels in the division; equal weights by reading a list of ones |
| C134 | `PointOfView.setup`, `transform`, `reverse`, of arrays and of numbers | the argument of a complex number, the colatitude and the rotations do not see a positive factor; arrays by C120 |
| C135 | `remap` of all five remapping classes and `polar2radial` of both `Box2Ring`, after every sequence of calls | the relation of C132 replaced by "both NaN or first at most second", closed under products and quotients with numbers that are not negative and under sums; by induction over the calls the stored ring areas, shell volumes, Monte Carlo weights and masks are not negative; negative weights are shown to be a counterexample |
| C136 | `remap` of both `Box2Ring` with data that have missing values | the sums of `_remap` and of the Monte Carlo weights computed with NaN as `none`: one NaN term makes the sum NaN, and without one the data can be replaced by their values; locality because the sample points are in the pixel |
| C137 | `remap` of both `Cube2Shell` with data that have missing values | as C136 for the Monte Carlo class; for the dense grid the cases of `hp.ud_grade` (no value missing, some, all) for each radial layer, and a cube whose middle cell is missing as a counterexample |
| C138 | `setup_box` and `remap` of `Heal2Ortho` with maps that have missing values | the dense sum of optional values is missing iff one is; the direction of each sample point is the one seen there, or on the rim for points outside the disc; a map with one missing pixel at the rim as a counterexample |
| C139 | `setup` and `transform` of `PointOfView` | depth and offsets of a point are linear in its position (C85); the images of a line follow from the ratio of depths, the vanishing point from the limit of a ratio of linear functions |
| C140 | `polar2radial`, and `polar2radial` of both `Box2Ring`, for maps with missing values | the sum over a ring of optional values is missing iff one is; the mask replaces pixels outside the box before the sum, the weights do not |
| C141 | `rebin_1d` without `sigma`, for data with missing values | the model with optional data against the model with filled data, bin by bin through the window of edges inside the new bin |
| C142 | `cumulative_radial` for profiles and errors with missing values (`RadialNan`) | each step of the running sum adds one optional value; induction over the edges. With C140 for polar maps |
| C143 | the errors of `polar2radial` for error maps with missing values (`RadialNan`) | column by column: a missing term makes the sum missing, otherwise the terms are those of the filled map |
| C144 | `rebin_1d` (`OneD`) | the overlap mean is symmetric, with C42 on both sides; C43 for NaN. False for bins of different lengths and for covering bins |
| C145 | `rebin_1d` (`OneD`) | by C42 each value times its length is a sum of overlaps; the overlaps of one bin with a division of the range telescope |
| C146 | `rebin_1d` (`OneD`) | the window of bins that the code reads is that of the overlapped bins, up to bins of weight zero (`Proof/RebinLocal`) |
| C147 | `rebin_1d` (`OneD`) | by C146 a new bin whose overlapped bins have one value gets it; a short bin overlaps one old bin only |

## 3. Trusted base

What has to be believed for the theorems to say something about the code:

1. **Lean's kernel** (4.33.0), which checked every proof. No `sorry`, no
   `admit`, no `native_decide`, no `bv_decide`, no axiom of our own, no
   `implemented_by`/`unsafe`. `decide +kernel` is used for closed examples only.
2. **Axioms.** Only Lean's three standard axioms: `propext`,
   `Classical.choice`, `Quot.sound`. `AXIOMS.md` lists the axioms of every theorem in
   `MANIFEST.json` (output of `#print axioms`).
3. **Mathlib's definitions** that occur in statements: `ℝ`, `Real.sqrt`,
   `Real.pi`, `Real.sin`, `Real.cos`, `Real.arccos`, `Complex.arg`, matrices,
   `HasFDerivAt`, `MeasureTheory.volume`, `MeasureTheory.Measure.map`.
4. **The model** (`Verif/Np.lean`, `Verif/Model/*`), which was written by hand
   from the source text. Nothing checks it against the Python and Fortran code; each
   definition cites file and lines so that a reader can.
5. **The specifications** (`Verif/Spec/*`): the published HEALPix formulas,
   directions on the sphere, overlaps of intervals, the camera frame, and so on.

### 3.1 Semantics of the libraries that the model assumes

| Library behaviour | Where | Assumption |
|---|---|---|
| float arithmetic | everywhere except `Model/HealpixIndex64.lean` (C98), `Model/Conversions64.lean` (C100-C102) and `Model/Remap64.lean` (C104, C105) and `Model/Grids64.lean` (C108, C109), which round every operation to binary64 | exact field arithmetic; no rounding, overflow, signed zero or subnormals. `x/0`, `sqrt` of a negative number and every operation on such a result are `none` ("not finite"); NaN and infinity are not distinguished |
| `np.linspace`, `np.arange`, `np.logspace`, `np.meshgrid` | `Np.lean`, `Grids.lean` | closed forms; an empty result for non-positive sizes, `ValueError` for negative ones where the code can reach it |
| `np.where`, fancy indexing, mask assignment | `Np.lean` | gather and scatter by index lists; `IndexError` outside the array; object index arrays raise `IndexError` |
| `np.array(list of lists, dtype=object)` | `McBox2Ring`, `McCube2Shell` | equal lengths pack into a two-dimensional array, unequal lengths stay lists, equal first dimensions with unequal later ones raise `ValueError` (this is what C71 and C84 hinge on) |
| `np.histogramdd` | `McBox2Ring` | half-open bins, the last one closed |
| broadcasting | everywhere | only scalar against array and equal shapes; a one-element array against a longer one is not modelled |
| `np.argsort`, `np.unique`, `np.cumsum`, `np.interp` | `RandomsBasic`, `HealpixIndex` | any sorting permutation; sorted without duplicates; partial sums; piecewise linear |
| `scipy.interpolate.interp1d` | `RandomsBasic`, `RandomsCubic` | `kind="linear"` is `np.interp`; `kind="cubic"` is the cubic spline with not-a-knot ends through the sorted points (a parameter with that specification), `ValueError` for fewer than four points, equal abscissas and numbers outside the table; other kinds are not modelled |
| `np.random.random_sample`, `np.random.choice` | `Randoms*` | the variates are arguments; laws are stated as push-forwards of the uniform measure |
| healpy `isnsideok` | setup methods | `0 < nside`; the power-of-two rule (only with `nest=True`) and the upper limit `2**29` are not modelled |
| healpy `ang2pix`, `pix2ang`, `ud_grade` subpixels | dense grid classes | parameters of the theorems; `ang2pix` raises `ValueError` for NaN and for colatitudes outside `[0, np.pi + 1e-5]` |
| `np.pi` | everywhere over ℝ | the real number π. In comparisons of longitudes `2*np.pi` is 2π. A colatitude given as a float is rational, so it is not π: `np.pi` itself is just below it, `sin(np.pi)` is not zero, and it is covered by the theorems for colatitudes below π (`Spec.IsRat`, `C28_spin`, `C86_accepted`). Theorems about a colatitude of exactly π would be about no run of the code |
| f2py | `Remap.lean` | `intent(out)` arrays are fresh, local work arrays start with arbitrary contents and keep them between pixels; a read outside an array is an error value |
| Python objects | `Meth.lean` | a method maps the state of the object to a result or an exception and a new state; an exception keeps the assignments made before it |
| printing, `verbose`, matplotlib | | printed text is not modelled, except when the progress bar prints (C69, C70); the calls made to matplotlib are recorded (`Plots`), drawing itself is not modelled |

### 3.2 Which code is modelled

| Code | Model | Not modelled |
|---|---|---|
| `pixel/healpix_index.py` | `HealpixIndex` (all functions, scalar and array branches); `HealpixIndex64` (`healpix_pix2ij`, array branch of `healpix_ij2pix`, in binary64) | |
| `coords/healpix.py` | `HealpixCoords` (all) | |
| `pixel/healpix_boundary.py` | `HealpixBoundary` (all) | |
| `pixel/basic_shapes.py` | `Shapes` (all) | |
| `coords/conversions.py`, `coords/usphere.py`, `coords/usphere_util.py`, `coords/polar.py` | `Conversions`, `Usphere`, `PolarRotate` (all); `Conversions64` (`cart2polar` scalar, `cart2sphere`, `ortho2cart`, `usphere_phi_shift` in binary64) | in `Conversions64` the C library's `arctan2` and `arccos` are parameters, of which C100 assumes the range of values (`Spec.AnglesInRange`) |
| `grids/cartesian.py`, `grids/polar.py` | `Grids` (all); `Grids64` (`get_xedges`, `xedges2mid`, `grid1d`, the edges of set-up methods and the cell lookup of the dense grid methods in binary64) | NumPy's `linspace` as `arange(n)*step + start` |
| `one_d/one_d.py`, `utils/check.py` | `OneD` (all); `OneD64` (`rebin_1d` without `sigma` in binary64); `OneDNan` (`rebin_1d` without `sigma` for data with missing values) | |
| `polar/polar2radial.py`, `polar/radial.py` | `Radial` (all); `Means64` (the means in binary64); `Cumulative64` (`cumulative_radial` in binary64); `RadialNan` (`cumulative_radial` and the errors of `polar2radial` with missing values) | |
| `randoms/*.py` | `RandomsBasic`, `RandomsUsphere` (all); `RandomsCubic` (`randoms_cdf`, `randoms_pdf` with cubic interpolation); `Randoms64` (`randoms_polar`, `randoms_usphere`, `randoms_sphere_r` in binary64); `Cumulative64` (`pdf2cdf`, `randoms_cdf` with linear interpolation and the table of `randoms_pdf` in binary64) | kinds of interpolation other than linear and cubic in `randoms_cdf`; in `Randoms64` the C library's `cos`, `arccos` and `pow` are parameters |
| `src/remap_*.f90`, `remap/grid2grid.py` | `Remap` (all); `RemapNan` (the same on arrays with NaN); `Remap64` (the same in binary64) | `src/utils.f90`, which is not compiled in |
| `utils/progress.py` | `Progress` (all) | the text of the bar |
| `densegrid/box2ring.py`, `montecarlo/box2ring.py` | `Box2Ring`, `DgBox2Ring`, `McBox2Ring`, `Box2RingCalls`, `DgRemap64` | |
| `densegrid/cube2shell.py`, `montecarlo/cube2shell.py` | `Cube2Shell`, `DgCube2Shell`, `DgCube64`, `DgCubeAttrs`, `McCube2Shell`, `ObjectCalls` | `nside` that is not a power of two in `ud_grade` |
| `densegrid/heal2ortho.py` | `Heal2Ortho`, `ObjectCalls` | `remap` after an incomplete set-up |
| `densegrid/heal2ring.py`, `montecarlo/heal2ring.py` | `Heal2Ring` | |
| `densegrid/heal2polar.py`, `montecarlo/heal2polar.py` | `Heal2Polar` | |
| `densegrid/pointofview.py` | `PointOfView` (arrays and scalars), `ObjectCalls` | |
| `plots/*.py` | `Plots` | options handed on to matplotlib; ortho.py:246-307, which is never reached |

`magpie/__init__.py` does not import `montecarlo`, `densegrid` and `plots`; the
properties of their classes are about the modules themselves.

## 4. Where the code does not have the property

For each of these the negation is proved (theorems with `violated` in their
name), together with a `_partial` theorem for the inputs on which the property holds.
The note in `MANIFEST.json` gives the exact boundary.

| Id | What goes wrong |
|---|---|
| C07 | `np.unique` is applied to the row and column arrays of the neighbours separately, which tears the pairs apart |
| C07 | on the north-western edge of a northern facet the three neighbours across the edge are one step off: a touching pixel is missing and a pixel that does not touch is listed |
| C07 | the wrap-around tests `> 9 nside - 1` where star indices end at `9 nside - 2`: neighbours across the zero meridian keep indices that no pixel has |
| C07 | for `nside = 1` a belt pixel lists a pair that is not on the map |
| C98 | in double precision, from `nside = 2^25` on, some pixels get place 0 of a ring, some get the wrong ring (`2^27`), and array calls return pixel numbers off the map; HEALPix allows `nside` up to `2^29` |
| C99 | when an output cell lies inside one input cell, the next input cell is multiplied by zero and added, so a NaN there makes the output NaN; the output cell next to the NaN can be finite while one further away is NaN |
| C100 | in double precision a point about `2^-537` from the centre has colatitude NaN, and nearer ones distance and colatitude 0 |
| C103 | when all pixels of a shell overlap equally many voxels the ragged arrays of weights pack into a rectangle and `remap` fails; with a one-voxel cube around the shells it fails almost surely for every large `mc_size` |
| C104 | beyond 2^24 cells `real(n)` rounds cell numbers to single precision and output cells take the values of their neighbours; four cells of width 1 at origin 2^53 lose the last value |
| C09 | `p = -1`, `p = 12 nside²` and arrays with such entries are accepted |
| C24 | array branch of `usphere_phi_shift` changes the caller's array |
| C86 | `transform` of empty arrays raises `IndexError` unless the centre is the north pole |
| C87 | a centre of longitude exactly `2*np.pi` makes `setup_polar_cap` raise `AssertionError` |
| C29, C30 | `polar` rotation raises for every accepted angle; a shift by whole pixels loses one row and duplicates another |
| C31-C36 | a first output cell strictly inside the cell to the left of the input box uses uninitialised memory |
| C39 | `grid2grid1D` raises `TypeError`, list sizes in `grid2grid3D` raise `ValueError` |
| C42 | a new bin covering all of the data counts the last value twice |
| C43, C44, C45, C46 | zero-length bins; no data; bins with one edge inside; dropped first bin in the error |
| C112 | error of the second bin mixes in the first; NaN error of a single bin |
| C114 | `randoms_sphere_r` from radius 1024 returns a radius below 1024 for the variate 0; `randoms_polar` with radii below about `2^-538` returns 0 |
| C115 | `random_prob_draw` with `size=1` and two elements of probabilities `p > q` draws the first with probability `1 - q/(2p)` (for `p = 2q` 3/4 instead of 2/3) |
| C124 | the default cubic interpolation overshoots: for the PDF `8, 1, 1` two thirds of the draws of `randoms_pdf` lie outside of the bins; a PDF with an empty bin or with two bins raises `ValueError` |
| C125 | a positive PDF with a bin of less than `2^-55` of the weight before it (the tail of a Gaussian) raises `ValueError` in `randoms_pdf` with the default interpolation; an integral below `2^-1078` raises `AssertionError`; a linear draw may exceed the last bin edge by a rounding error |
| C49 | `xmid2edges` (grids) is half a cell too wide, `IndexError` for one cell |
| C53 | NaN under a zero weight spoils the ring |
| C59 | `randoms_1d` returns an undefined name: `NameError` on every call |
| C62 | negative sizes are accepted |
| C68 | hidden edges are not dropped from far away or with one point per edge |
| C70 | up to `2*num_refresh - 1` prints |
| C71, C84 | index lists that happen to have equal lengths are packed by NumPy, and `remap` raises |
| C73, C77 | unequal rebin factors raise `ValueError`; `Heal2Ortho.remap` without weights is the rebin factor too large (C122: it grows beyond all bounds) |
| C74 | areas of an earlier grid are kept after a second set-up |
| C75 | pixels with a fractional mask influence the radial profile |
| C78 | every spin but zero raises `AssertionError` in `transform` or `reverse` |
| C79 | `Heal2Ring` and `Heal2Polar` call functions that do not exist |
| C80 | the dense `Cube2Shell` reads the transposed cell |
| C81 | size one is accepted by the assertions, then `IndexError` |
| C90 | grid lines ignore the radius of the map; separations that do not divide the circle are changed |
| C95 | the `rotate_polar` methods pass three arguments to a function of two and raise for every object, map and angle |
| C96 | if the polar pixels of a row overlap equal numbers of box pixels, Monte Carlo `remap` raises for all large numbers of points |
| C106 | set-up calls repeated with other arguments leave data of the earlier set-up in use: periodic images, Monte Carlo weights, pixel numbers |
| C107 | set-up methods that raise after their checks have already replaced attributes: single ring, centre outside the range of the angles, `numz` below -1 in `setup_cube` of the dense grid |
| C91, C93 | the name `shapes` is not defined in `plots/`: `finalize()` and the shape functions raise `NameError` |
| C92 | `coords.polar2lonlat` does not exist; labels with decimals lose them |
| C133 | dense grid pixels outside the box are 0 without weights and NaN with equal weights; `Heal2Ortho` without weights is too large by the rebin factor (see C77), with equal weights it is not |
| C21 | decreasing ranges are accepted and give a negative area |
| C118 | rounded sums: the mean of equal values need not be exactly that value |
| C119 | the Monte Carlo classes treat a side of width zero as if it had width one |
| C137 | dense grid: a radial layer of which all points are missing is averaged in as `UNSEEN = -1.6375e30` |
| C138 | sample points outside the sphere's disc look up the map in the direction on the rim and are multiplied by 0, so a NaN there makes a view pixel NaN that does not show it |
| C140 | a missing pixel with weight zero spoils the profile at its radius (as C53) |
| C141 | a missing bin that shares only an edge with a new bin makes the new bin NaN: merging bins in pairs with NaN in the third bin loses the first new bin too |
| C144 | with bins of different lengths the weight of the last bin that a new bin enters is divided by the length of the bin before it; the first one by its own length |
| C145 | merging bins of different lengths weights them by the covered fraction, not by the covered length, so the integral changes |
| C146 | a new bin that ends where the data begin does not overlap them, but gets the first value instead of NaN |

## 5. Tests against wrong programs

`seeded/LOG.jsonl` has one line per seeded bug: the definition of the model that was
edited, the edit, the claim it breaks, the theorems that then fail and the
theorems that were tightened because of it. Lines marked `"repair"` undo a bug of the
code; there the `violated` theorems have to fail.

How to read it:
- A theorem is listed as failed if its own proof no longer builds or if it depends on a lemma that no longer builds. This
  shows that the theorem noticed the edit. It does not show that its statement is false of the edited program, as a proof
  can also fail for an edit that keeps the statement true.
- Most runs built only the modules about the edited definition, so theorems in other modules may fail too and not be listed.
- An edit that no theorem noticed has a note. Where the note says that the edit is equivalent, this was argued by reading
  the code and is not itself proved.
