{
 "claims": [
  {
   "property": "C01",
   "status": "proved",
   "theorems": [
    "Magpie.Props.C01_pix_ring_pix"
   ],
   "note": "scalar branches, all nside and pixels"
  },
  {
   "property": "C02",
   "status": "proved",
   "theorems": [
    "Magpie.Props.C02_range",
    "Magpie.Props.C02_ring_pix_ring",
    "Magpie.Props.C02_bijection"
   ],
   "note": ""
  },
  {
   "property": "C03",
   "status": "proved",
   "theorems": [
    "Magpie.Props.C03_ordering"
   ],
   "note": ""
  },
  {
   "property": "C04",
   "status": "proved",
   "theorems": [
    "Magpie.Props.C04_centre"
   ],
   "note": "published centre formulas in Spec/Healpix.lean"
  },
  {
   "property": "C05",
   "status": "proved",
   "theorems": [
    "Magpie.Props.C05_disjoint"
   ],
   "note": "also modulo whole turns in longitude"
  },
  {
   "property": "C06",
   "status": "proved",
   "theorems": [
    "Magpie.Props.C06_star_roundtrip"
   ],
   "note": ""
  },
  {
   "property": "C07",
   "status": "partial",
   "theorems": [
    "Magpie.Props.C07_star_range",
    "Magpie.Props.C07_pairs_partial",
    "Magpie.Props.C07_arrays_partial",
    "Magpie.Props.C07_names_partial",
    "Magpie.Props.C07_edge_partial",
    "Magpie.Props.C07_neighbour_pairs_partial",
    "Magpie.Props.C07_violated",
    "Magpie.Props.C07_violated_edge",
    "Magpie.Props.C07_violated_one",
    "Magpie.Props.C07_violated_wrap"
   ],
   "note": "proved for every pixel of every map, with touching defined on the sphere, that the pairs the code lists are exactly the touching pixels except on the north-western edge of northern facets and in the belt for nside 1; violated there, by np.unique on each array separately, and by the wrap-around at 9 nside - 1; each negation proved"
  },
  {
   "property": "C08",
   "status": "proved",
   "theorems": [
    "Magpie.Props.C08_pix2ij",
    "Magpie.Props.C08_pix2ij_defined",
    "Magpie.Props.C08_ij2pix",
    "Magpie.Props.C08_j2jd",
    "Magpie.Props.C08_xy2ang",
    "Magpie.Props.C08_ang2xy"
   ],
   "note": ""
  },
  {
   "property": "C09",
   "status": "partial",
   "theorems": [
    "Magpie.Props.C09_violated_above",
    "Magpie.Props.C09_violated_below",
    "Magpie.Props.C09_violated_array",
    "Magpie.Props.C09_rejected_partial"
   ],
   "note": "violated by the code for p = -1, p = 12 nside^2 and for arrays"
  },
  {
   "property": "C10",
   "status": "proved",
   "theorems": [
    "Magpie.Props.C10_sky_plane_sky",
    "Magpie.Props.C10_poles",
    "Magpie.Props.C10_plane_sky_plane"
   ],
   "note": ""
  },
  {
   "property": "C100",
   "status": "partial",
   "theorems": [
    "Magpie.Props.C100_sphere_partial",
    "Magpie.Props.C100_polar_partial",
    "Magpie.Props.C100_arrays",
    "Magpie.Props.C100_axis",
    "Magpie.Props.C100_violated",
    "Magpie.Props.C100_underflow"
   ],
   "note": "Every operation rounded; arctan2 and arccos of the C library are arbitrary functions with values in the documented range (hypothesis AnglesInRange, met by the correctly rounded functions). Proved for differences of length 0 or in [2^-500, 2^510]; false for lengths near 2^-537, where a square underflows."
  },
  {
   "property": "C101",
   "status": "proved",
   "theorems": [
    "Magpie.Props.C101_phi_shift64",
    "Magpie.Props.C101_arrays"
   ],
   "note": "Every operation rounded to binary64."
  },
  {
   "property": "C102",
   "status": "proved",
   "theorems": [
    "Magpie.Props.C102_ortho64",
    "Magpie.Props.C102_outside",
    "Magpie.Props.C102_edge",
    "Magpie.Props.C102_arrays"
   ],
   "note": "Every operation rounded to binary64."
  },
  {
   "property": "C103",
   "status": "partial",
   "theorems": [
    "Magpie.Props.C103_law",
    "Magpie.Props.C103_limit_partial",
    "Magpie.Props.C103_outside",
    "Magpie.Props.C103_returns_partial",
    "Magpie.Props.C103_bound",
    "Magpie.Props.C103_violated"
   ],
   "note": "Exact law of the points (spherical change of variables) and the strong law of large numbers; the limit is stated for the calls that return, and the call is proved to return for all large mc_size when no shell has all its pixels overlapping equally many voxels, and to fail for all large mc_size otherwise."
  },
  {
   "property": "C104",
   "status": "partial",
   "theorems": [
    "Magpie.Props.C104_identity_partial",
    "Magpie.Props.C104_identity_2d_partial",
    "Magpie.Props.C104_identity_3d_partial",
    "Magpie.Props.C104_violated",
    "Magpie.Props.C104_far_violated"
   ],
   "note": "Every operation rounded to binary64, real(n) to single precision. Proved for at most 2^24 cells per axis and origins within 2^48 cell widths of zero; beyond 2^24 cells and at 2^53 cell widths it is violated."
  },
  {
   "property": "C105",
   "status": "partial",
   "theorems": [
    "Magpie.Props.C105_exceptions",
    "Magpie.Props.C105_accuracy_partial",
    "Magpie.Props.C105_accuracy_2d_partial",
    "Magpie.Props.C105_accuracy_3d_partial",
    "Magpie.Props.C105_constant_partial"
   ],
   "note": "Every operation rounded to binary64, real(n) to single precision; backward error analysis of every branch of the pixel routine, including output edges within rounding of input edges. Proved for resolved grids (at most 2^24 cells, origin within 2^48 cell widths) of condition number up to 2^39 whose first output cell is clear of the C31 defect; outside these the claim is violated, see C31_violated, C104_violated, C104_far_violated."
  },
  {
   "property": "C106",
   "status": "partial",
   "theorems": [
    "Magpie.Props.C106_dgcube_partial",
    "Magpie.Props.C106_dgcube_violated",
    "Magpie.Props.C106_mccube_partial",
    "Magpie.Props.C106_mccube_violated",
    "Magpie.Props.C106_ortho_partial",
    "Magpie.Props.C106_ortho_violated",
    "Magpie.Props.C106_pov"
   ],
   "note": "All calls with any arguments, including calls that raise. Missing: a set-up call repeated with other arguments after the calls that use it, where stale data is kept (the violated theorems show different results)."
  },
  {
   "property": "C107",
   "status": "partial",
   "theorems": [
    "Magpie.Props.C107_box",
    "Magpie.Props.C107_dg",
    "Magpie.Props.C107_mc_lin",
    "Magpie.Props.C107_mc_log",
    "Magpie.Props.C107_mc_weights",
    "Magpie.Props.C107_cube",
    "Magpie.Props.C107_dgshell",
    "Magpie.Props.C107_mcshell_lin",
    "Magpie.Props.C107_mcshell_log",
    "Magpie.Props.C107_mcshell_weights",
    "Magpie.Props.C107_map",
    "Magpie.Props.C107_mccap",
    "Magpie.Props.C107_dgcap_partial",
    "Magpie.Props.C107_mcskybox",
    "Magpie.Props.C107_dgskybox_partial",
    "Magpie.Props.C107_heal_weights",
    "Magpie.Props.C107_ortho_partial",
    "Magpie.Props.C107_reads",
    "Magpie.Props.C107_dg_history_partial",
    "Magpie.Props.C107_mc_history_partial",
    "Magpie.Props.C107_mcshell_history_partial",
    "Magpie.Props.C107_dgshell_history_partial",
    "Magpie.Props.C107_attributes",
    "Magpie.Props.C107_mc_violated",
    "Magpie.Props.C107_ortho_violated",
    "Magpie.Props.C107_numz_violated",
    "Magpie.Props.C107_numz_moved_violated",
    "Magpie.Props.C107_numz_remap_violated"
   ],
   "note": "The checks of all set-up methods, exactly, with the object unchanged; values of the centre in the dense classes for HEALPix maps are checked only after attributes have been assigned (violated theorem). Histories: every call that raises except set-ups that fail after their checks, and polar2radial. setup_cube does not check numz: C107_numz_* say what is left of the object, attribute by attribute, and that a later remap reads the old cube moved to the corner of the rejected one."
  },
  {
   "property": "C108",
   "status": "proved",
   "theorems": [
    "Magpie.Props.C108_edges",
    "Magpie.Props.C108_strict",
    "Magpie.Props.C108_get_xedges",
    "Magpie.Props.C108_mids",
    "Magpie.Props.C108_grid1d",
    "Magpie.Props.C108_rebin_accepts",
    "Magpie.Props.C108_underflow"
   ],
   "note": "NumPy's linspace is modelled operation by operation; no overflow for ranges up to half the largest double. C108_underflow shows that the bound on the size of the cells cannot be dropped."
  },
  {
   "property": "C109",
   "status": "proved",
   "theorems": [
    "Magpie.Props.C109_inside",
    "Magpie.Props.C109_near",
    "Magpie.Props.C109_outside"
   ],
   "note": "One axis; the coordinates of the point are given as doubles (the cosine and sine that give them are library functions)."
  },
  {
   "property": "C11",
   "status": "proved",
   "theorems": [
    "Magpie.Props.C11_equal_area",
    "Magpie.Props.C11_pixel_area"
   ],
   "note": "Jacobian as a full derivative"
  },
  {
   "property": "C110",
   "status": "proved",
   "theorems": [
    "Magpie.Props.C110_coarsen",
    "Magpie.Props.C110_refine",
    "Magpie.Props.C110_roundtrip",
    "Magpie.Props.C110_coarsen_2d",
    "Magpie.Props.C110_refine_2d",
    "Magpie.Props.C110_coarsen_3d",
    "Magpie.Props.C110_refine_3d",
    "Magpie.Props.C110_crop"
   ],
   "note": "Exact arithmetic. In three dimensions the number of output cells is the same for all axes (grid2grid3D accepts no other, see C39)."
  },
  {
   "property": "C111",
   "status": "proved",
   "theorems": [
    "Magpie.Props.C111_affine",
    "Magpie.Props.C111_mirror",
    "Magpie.Props.C111_transpose"
   ],
   "note": "Exact arithmetic, for pairs of grids on which the result does not depend on old memory contents (FirstCellClear, see C31)."
  },
  {
   "property": "C112",
   "status": "partial",
   "theorems": [
    "Magpie.Props.C112_same_edges",
    "Magpie.Props.C112_same_edges_weights",
    "Magpie.Props.C112_linear",
    "Magpie.Props.C112_nan_edges_only",
    "Magpie.Props.C112_monotone",
    "Magpie.Props.C112_weights_scale",
    "Magpie.Props.C112_errors_scale",
    "Magpie.Props.C112_errors_partial",
    "Magpie.Props.C112_errors_violated",
    "Magpie.Props.C112_errors_single_violated"
   ],
   "note": "Values in full. Errors on the old edges: all bins but the second; there the first error is mixed in (proved for all edges with three or more bins), and for a single bin the error is NaN (proved)."
  },
  {
   "property": "C113",
   "status": "proved",
   "theorems": [
    "Magpie.Props.C113_ring",
    "Magpie.Props.C113_shell",
    "Magpie.Props.C113_ring_some",
    "Magpie.Props.C113_shell_some"
   ],
   "note": "Box2Ring and Cube2Shell without weights (with weights the estimate is a ratio of two random sums). The value is a random variable defined for all draws, which remap gives whenever it returns; calls that raise (C96, C103) are not conditioned on."
  },
  {
   "property": "C114",
   "status": "partial",
   "theorems": [
    "Magpie.Props.C114_polar",
    "Magpie.Props.C114_usphere",
    "Magpie.Props.C114_sphere_r_partial",
    "Magpie.Props.C114_sphere_r_violated",
    "Magpie.Props.C114_tiny_violated"
   ],
   "note": "randoms_polar and randoms_usphere in full (radii 0 or in [2^-500, 2^510]; below that squares underflow and the claim is false). randoms_sphere_r: within a relative 2^-44 of the ends; the ends themselves can be left, because 1./3. is less than a third (proved for every accurate power function)."
  },
  {
   "property": "C115",
   "status": "partial",
   "theorems": [
    "Magpie.Props.C115_shuffle",
    "Magpie.Props.C115_draw",
    "Magpie.Props.C115_draw_contains",
    "Magpie.Props.C115_prob_draw",
    "Magpie.Props.C115_sized_order",
    "Magpie.Props.C115_sized_equal",
    "Magpie.Props.C115_sized_violated"
   ],
   "note": "shuffle, random_draw and random_prob_draw without a size in full. With a size: all orders equally likely, and all choices equally likely when the probabilities are equal; in general false (proved): of two elements with probabilities p > q and size 1 the first is drawn with probability 1 - q/(2p), not p/(p+q)."
  },
  {
   "property": "C116",
   "status": "proved",
   "theorems": [
    "Magpie.Props.C116_polar",
    "Magpie.Props.C116_usphere",
    "Magpie.Props.C116_sphere",
    "Magpie.Props.C116_healpix",
    "Magpie.Props.C116_cdf",
    "Magpie.Props.C116_pdf",
    "Magpie.Props.C116_integer",
    "Magpie.Props.C116_binary",
    "Magpie.Props.C116_ring_draws",
    "Magpie.Props.C116_shell_draws"
   ],
   "note": "Exact arithmetic; randoms_cdf and randoms_pdf with linear interpolation. For the Monte Carlo remaps: the numbers of a pixel meet the hypothesis Random of C96, C103 and C113."
  },
  {
   "property": "C117",
   "status": "proved",
   "theorems": [
    "Magpie.Props.C117_limit",
    "Magpie.Props.C117_integral",
    "Magpie.Props.C117_fraction"
   ],
   "note": "Exact arithmetic. About healpy it is assumed that the subpixels of a pixel are the m x m parts of its diamond, given by the directions of their centres (Subdivides; met by a nested numbering with the directions of healpix_xy2ang). For arrays in the layout of x3d see C80."
  },
  {
   "property": "C118",
   "status": "proved",
   "theorems": [
    "Magpie.Props.C118_ring",
    "Magpie.Props.C118_ring_weights",
    "Magpie.Props.C118_remap",
    "Magpie.Props.C118_remap_weights",
    "Magpie.Props.C118_mask",
    "Magpie.Props.C118_no_overflow",
    "Magpie.Props.C118_constant_violated"
   ],
   "note": "Rounding is modelled without overflow; that the sums do not overflow is C118_no_overflow. That a constant need not be exact is C118_constant_violated."
  },
  {
   "property": "C119",
   "status": "partial",
   "theorems": [
    "Magpie.Props.C119_dg_exchanged_x",
    "Magpie.Props.C119_dg_exchanged_y",
    "Magpie.Props.C119_dg_empty",
    "Magpie.Props.C119_dg_cube_exchanged_x",
    "Magpie.Props.C119_dg_cube_exchanged_y",
    "Magpie.Props.C119_dg_cube_exchanged_z",
    "Magpie.Props.C119_dg_cube_empty",
    "Magpie.Props.C119_mc_exchanged",
    "Magpie.Props.C119_mc_cube_exchanged",
    "Magpie.Props.C119_mc_empty_violated",
    "Magpie.Props.C119_mc_empty_mean_violated",
    "Magpie.Props.C119_mc_cube_empty_violated"
   ],
   "note": "The Monte Carlo classes treat a side without a width as if it had the width one (np.histogram2d and np.histogramdd widen the range by one half on both sides): C119_mc_empty_violated, C119_mc_empty_mean_violated, C119_mc_cube_empty_violated. Both dense grid classes in full."
  },
  {
   "property": "C12",
   "status": "proved",
   "theorems": [
    "Magpie.Props.C12_boundary"
   ],
   "note": ""
  },
  {
   "property": "C120",
   "status": "proved",
   "theorems": [
    "Magpie.Props.C120_shift",
    "Magpie.Props.C120_spin",
    "Magpie.Props.C120_rotate",
    "Magpie.Props.C120_ortho",
    "Magpie.Props.C120_pov_transform",
    "Magpie.Props.C120_pov_reverse"
   ],
   "note": "For every object and every rotation, accepted or not. Empty arrays are left out: usphere_rotate raises IndexError for them."
  },
  {
   "property": "C121",
   "status": "partial",
   "theorems": [
    "Magpie.Props.C121_profile",
    "Magpie.Props.C121_inside",
    "Magpie.Props.C121_one",
    "Magpie.Props.C121_mc_partial",
    "Magpie.Props.C121_mc_inside"
   ],
   "note": "New objects, no weights. Dense grid class in full; the Monte Carlo class for the calls that return (some raise for all large mc_size, see C96_violated). C121_inside and C121_mc_inside say what the limits are for rings inside the box."
  },
  {
   "property": "C122",
   "status": "partial",
   "theorems": [
    "Magpie.Props.C122_area",
    "Magpie.Props.C122_weighted_partial",
    "Magpie.Props.C122_remap_partial",
    "Magpie.Props.C122_violated"
   ],
   "note": "Equal rebin factors (others raise, C77_violated_shape). With weights the values converge to the weighted mean; without weights the values are m times a convergent value and C122_violated proves that they grow beyond all bounds. C122_area says that the areas add up to the part of the pixel on the sphere and that this is positive."
  },
  {
   "property": "C123",
   "status": "proved",
   "theorems": [
    "Magpie.Props.C123_rate",
    "Magpie.Props.C123_exact",
    "Magpie.Props.C123_weighted",
    "Magpie.Props.C123_lines"
   ],
   "note": "Equal rebin factors (others raise, C73). New and used objects. The count of crossed cells uses that a line is monotone in a quadrant of the angle; C123_lines bounds L by numx + numy + 2."
  },
  {
   "property": "C124",
   "status": "partial",
   "theorems": [
    "Magpie.Props.C124_unique",
    "Magpie.Props.C124_accepts",
    "Magpie.Props.C124_spline",
    "Magpie.Props.C124_table",
    "Magpie.Props.C124_cubic",
    "Magpie.Props.C124_uniform",
    "Magpie.Props.C124_pdf_rejects",
    "Magpie.Props.C124_law_partial",
    "Magpie.Props.C124_violated"
   ],
   "note": "SciPy interp1d(kind=\"cubic\") is assumed to be the cubic spline with not-a-knot ends, which is proved to exist and be unique. Range and law are proved if the spline increases; otherwise they are violated: for the PDF 8, 1, 1 two thirds of the draws lie outside of the bins."
  },
  {
   "property": "C125",
   "status": "partial",
   "theorems": [
    "Magpie.Props.C125_cdf",
    "Magpie.Props.C125_no_overflow",
    "Magpie.Props.C125_linear",
    "Magpie.Props.C125_default_violated",
    "Magpie.Props.C125_underflow_violated",
    "Magpie.Props.C125_range_violated"
   ],
   "note": "The table and the linear draws are bounded in binary64; the cubic spline (SciPy) is exact. Violated: a bin that holds less than 2^-55 of the weight before it makes randoms_pdf raise ValueError with the default kind (C125_default_violated); an integral below 2^-1078 raises AssertionError; a linear draw may exceed the last abscissa by a rounding error (C125_range_violated)."
  },
  {
   "property": "C126",
   "status": "proved",
   "theorems": [
    "Magpie.Props.C126_values",
    "Magpie.Props.C126_errors"
   ],
   "note": "No hypotheses on the radii or values apart from the lengths; overflow is not modelled."
  },
  {
   "property": "C127",
   "status": "proved",
   "theorems": [
    "Magpie.Props.C127_remap",
    "Magpie.Props.C127_exact",
    "Magpie.Props.C127_mask",
    "Magpie.Props.C127_weighted",
    "Magpie.Props.C127_weighted_exact"
   ],
   "note": "np.cos and np.sin are assumed to be within 2^-52 (TrigNear); overflow is not modelled. The mask theorem assumes that data and areas, arrays of the same shape and layout, are added in the same order."
  },
  {
   "property": "C128",
   "status": "proved",
   "theorems": [
    "Magpie.Props.C128_dense_ring",
    "Magpie.Props.C128_mc_ring",
    "Magpie.Props.C128_dense_shell",
    "Magpie.Props.C128_mc_shell",
    "Magpie.Props.C128_width_needed"
   ],
   "note": "Exact arithmetic. C128_width_needed shows that the condition on the widths cannot be dropped for the Monte Carlo classes."
  },
  {
   "property": "C129",
   "status": "proved",
   "theorems": [
    "Magpie.Props.C129_dense",
    "Magpie.Props.C129_dense_weighted",
    "Magpie.Props.C129_mc",
    "Magpie.Props.C129_mc_circle",
    "Magpie.Props.C129_cyclic"
   ],
   "note": "Exact arithmetic. C129_cyclic gives the row for every sector of a full circle."
  },
  {
   "property": "C13",
   "status": "proved",
   "theorems": [
    "Magpie.Props.C13_plane",
    "Magpie.Props.C13_sky"
   ],
   "note": "at an exact pole hit (a single draw of measure zero) only the colatitude is claimed"
  },
  {
   "property": "C130",
   "status": "proved",
   "theorems": [
    "Magpie.Props.C130_remap",
    "Magpie.Props.C130_exact",
    "Magpie.Props.C130_ones",
    "Magpie.Props.C130_outside"
   ],
   "note": "Cosine, sine and the cube of the C library are assumed accurate (LibOk); the angles are the doubles that healpy returns; arrays in the layout of x3d are excluded (C80_violated). C130_exact compares with the exact model of C80."
  },
  {
   "property": "C131",
   "status": "proved",
   "theorems": [
    "Magpie.Props.C131_rebin",
    "Magpie.Props.C131_weighted",
    "Magpie.Props.C131_inside"
   ],
   "note": "rounding as in IEEE binary64 without overflow; summation orders arbitrary"
  },
  {
   "property": "C132",
   "status": "proved",
   "theorems": [
    "Magpie.Props.C132_dense_box",
    "Magpie.Props.C132_mc_box",
    "Magpie.Props.C132_ortho",
    "Magpie.Props.C132_mc_cube",
    "Magpie.Props.C132_dense_cube",
    "Magpie.Props.C132_usual_needed"
   ],
   "note": "For every state of the object, reachable or not. C132_usual_needed shows that the condition on the data of the dense grid Cube2Shell cannot be dropped."
  },
  {
   "property": "C133",
   "status": "partial",
   "theorems": [
    "Magpie.Props.C133_dense_box",
    "Magpie.Props.C133_mc_box",
    "Magpie.Props.C133_ortho",
    "Magpie.Props.C133_mc_cube",
    "Magpie.Props.C133_radial",
    "Magpie.Props.C133_radial_sigma",
    "Magpie.Props.C133_equal_mc_box",
    "Magpie.Props.C133_equal_mc_cube",
    "Magpie.Props.C133_equal_radial",
    "Magpie.Props.C133_equal_radial_sigma",
    "Magpie.Props.C133_equal_dense_box_partial",
    "Magpie.Props.C133_equal_dense_box_violated",
    "Magpie.Props.C133_equal_ortho_violated"
   ],
   "note": "The first part is proved for every state of the object. That equal weights are no weights is proved for the Monte Carlo classes, for polar2radial and, in pixels inside the box, for the dense grid Box2Ring; it is false (proved) for dense grid pixels outside the box and for Heal2Ortho with rebin factors above 1."
  },
  {
   "property": "C134",
   "status": "proved",
   "theorems": [
    "Magpie.Props.C134_transform",
    "Magpie.Props.C134_reverse",
    "Magpie.Props.C134_transform_number",
    "Magpie.Props.C134_reverse_number",
    "Magpie.Props.C134_zoom",
    "Magpie.Props.C134_direction"
   ],
   "note": "real arithmetic; every spin, including those rejected"
  },
  {
   "property": "C135",
   "status": "proved",
   "theorems": [
    "Magpie.Props.C135_dense_box",
    "Magpie.Props.C135_mc_box",
    "Magpie.Props.C135_ortho",
    "Magpie.Props.C135_mc_cube",
    "Magpie.Props.C135_dense_cube",
    "Magpie.Props.C135_dense_profile",
    "Magpie.Props.C135_mc_profile",
    "Magpie.Props.C135_negative_weights"
   ],
   "note": "for every history of calls; the dense grid Cube2Shell with a HEALPix hierarchy in which every coarse pixel has subpixels, and data of magnitude below 1e30; C135_negative_weights shows that the condition on the weights is needed"
  },
  {
   "property": "C136",
   "status": "proved",
   "theorems": [
    "Magpie.Props.C136_dense",
    "Magpie.Props.C136_dense_weighted",
    "Magpie.Props.C136_dense_local",
    "Magpie.Props.C136_mc",
    "Magpie.Props.C136_mc_local",
    "Magpie.Props.C136_mc_returns"
   ],
   "note": "Exact arithmetic. The dense grid is set up with equal rebin factors (with others remap always raises, C73). For the Monte Carlo class the random variates are arguments."
  },
  {
   "property": "C137",
   "status": "partial",
   "theorems": [
    "Magpie.Props.C137_mc",
    "Magpie.Props.C137_mc_returns",
    "Magpie.Props.C137_dense_partial",
    "Magpie.Props.C137_dense_violated"
   ],
   "note": "Proved for the Monte Carlo class (exact arithmetic; random variates are arguments; remap returns unless the packing of the weights fails, C84). For the dense grid class the property is false: a radial layer of which all points are missing is averaged in as UNSEEN = -1.6375e30, and C137_dense_violated gives a map value that is neither missing nor UNSEEN. C137_dense_partial says what comes out in every case with at least two subpixels per pixel, and with one."
  },
  {
   "property": "C138",
   "status": "partial",
   "theorems": [
    "Magpie.Props.C138_remap_partial",
    "Magpie.Props.C138_inner",
    "Magpie.Props.C138_weighted",
    "Magpie.Props.C138_violated"
   ],
   "note": "Holds for view pixels with all sample points on the sphere (C138_inner). At the rim the code also looks up the map for sample points outside the disc, in the direction on the rim towards them, and multiplies by 0. A NaN there makes the view pixel NaN although it shows no missing map pixel (C138_violated). The exact condition for any pixel is C138_remap_partial."
  },
  {
   "property": "C139",
   "status": "proved",
   "theorems": [
    "Magpie.Props.C139_segment",
    "Magpie.Props.C139_line",
    "Magpie.Props.C139_sight",
    "Magpie.Props.C139_parallel",
    "Magpie.Props.C139_behind"
   ],
   "note": "Non-empty arrays. Derived from the exact projection (C85). C139_behind records that transform also shows the points behind the camera."
  },
  {
   "property": "C14",
   "status": "proved",
   "theorems": [
    "Magpie.Props.C14_uniform",
    "Magpie.Props.C14_area"
   ],
   "note": "joint law of the sampled point is the uniform law on the diamond"
  },
  {
   "property": "C140",
   "status": "partial",
   "theorems": [
    "Magpie.Props.C140_profile",
    "Magpie.Props.C140_weighted_partial",
    "Magpie.Props.C140_dense_partial",
    "Magpie.Props.C140_mc_partial",
    "Magpie.Props.C140_local",
    "Magpie.Props.C140_masked_violated"
   ],
   "note": "Proved except for weights that are zero: a missing pixel with weight zero spoils the profile at its radius (C140_masked_violated), although the documentation recommends the weights as a binary mask. Pixels outside the box do not matter (0/1 masks; for other masks of the dense grid class see C75_violated)."
  },
  {
   "property": "C141",
   "status": "partial",
   "theorems": [
    "Magpie.Props.C141_rebin_partial",
    "Magpie.Props.C141_overlap_partial",
    "Magpie.Props.C141_left_violated",
    "Magpie.Props.C141_right_violated",
    "Magpie.Props.C141_complete"
   ],
   "note": "Proved with \"touches\" in place of \"overlaps\" for all edges, data and weights (C141_rebin_partial), and as claimed where no edge of a new bin is an edge of the data (C141_overlap_partial). Where edges coincide the claim is false of the code: a missing bin that shares only an edge with a new bin spoils it, since 0*NaN is NaN (C141_left_violated, C141_right_violated). sigma is not covered."
  },
  {
   "property": "C142",
   "status": "proved",
   "theorems": [
    "Magpie.Props.C142_running",
    "Magpie.Props.C142_missing",
    "Magpie.Props.C142_complete",
    "Magpie.Props.C142_map"
   ],
   "note": ""
  },
  {
   "property": "C143",
   "status": "proved",
   "theorems": [
    "Magpie.Props.C143_errors",
    "Magpie.Props.C143_data",
    "Magpie.Props.C143_complete"
   ],
   "note": "The function in magpie/polar; shapes that NumPy would broadcast are not modelled."
  },
  {
   "property": "C144",
   "status": "partial",
   "theorems": [
    "Magpie.Props.C144_mirror_partial",
    "Magpie.Props.C144_nan",
    "Magpie.Props.C144_cover_violated",
    "Magpie.Props.C144_unequal_violated"
   ],
   "note": "Proved for old bins of equal length and new bins that overlap the data and do not cover all of them (C144_mirror_partial); which bins are NaN is mirrored for all increasing edges (C144_nan). False of the code otherwise: the weight of the last bin is divided by the length of the bin before it (C144_unequal_violated), and a new bin that covers all data counts the last value twice (C144_cover_violated). New bins that only touch the data, and weights, are not covered."
  },
  {
   "property": "C145",
   "status": "partial",
   "theorems": [
    "Magpie.Props.C145_integral_partial",
    "Magpie.Props.C145_single_violated",
    "Magpie.Props.C145_unequal_violated"
   ],
   "note": "Proved for old bins of equal length and two or more new bins of any lengths. False of the code for a single new bin, unless the last value is the mean (C145_single_violated), and for old bins of different lengths, whose fractions rather than lengths are used as weights (C145_unequal_violated)."
  },
  {
   "property": "C146",
   "status": "partial",
   "theorems": [
    "Magpie.Props.C146_local_partial",
    "Magpie.Props.C146_weighted_partial",
    "Magpie.Props.C146_touch_violated"
   ],
   "note": "Proved with and without weights for new bins that overlap the data. False of the code for a new bin that only touches the data: it gets the value of the bin it touches (C146_touch_violated)."
  },
  {
   "property": "C147",
   "status": "proved",
   "theorems": [
    "Magpie.Props.C147_split_merge",
    "Magpie.Props.C147_weighted"
   ],
   "note": "Exact arithmetic. With weights, these must not be zero and are split in the same way."
  },
  {
   "property": "C15",
   "status": "proved",
   "theorems": [
    "Magpie.Props.C15_cart_polar_cart"
   ],
   "note": ""
  },
  {
   "property": "C16",
   "status": "proved",
   "theorems": [
    "Magpie.Props.C16_polar_cart_polar"
   ],
   "note": ""
  },
  {
   "property": "C17",
   "status": "proved",
   "theorems": [
    "Magpie.Props.C17_cart_sphere_cart"
   ],
   "note": ""
  },
  {
   "property": "C18",
   "status": "proved",
   "theorems": [
    "Magpie.Props.C18_sphere_cart_sphere"
   ],
   "note": "on the polar axis phi is not determined"
  },
  {
   "property": "C19",
   "status": "proved",
   "theorems": [
    "Magpie.Props.C19_cart2polar",
    "Magpie.Props.C19_cart2sphere",
    "Magpie.Props.C19_ortho2cart",
    "Magpie.Props.C19_phi_shift",
    "Magpie.Props.C19_rotate"
   ],
   "note": ""
  },
  {
   "property": "C20",
   "status": "proved",
   "theorems": [
    "Magpie.Props.C20_ortho"
   ],
   "note": ""
  },
  {
   "property": "C21",
   "status": "partial",
   "theorems": [
    "Magpie.Props.C21_area_partial",
    "Magpie.Props.C21_violated"
   ],
   "note": "additivity, 4 pi and positivity for increasing ranges proved; full claim false: accepted decreasing ranges give a negative area"
  },
  {
   "property": "C22",
   "status": "proved",
   "theorems": [
    "Magpie.Props.C22_lonlat"
   ],
   "note": ""
  },
  {
   "property": "C23",
   "status": "proved",
   "theorems": [
    "Magpie.Props.C23_phi_shift",
    "Magpie.Props.C23_phi_shift_array"
   ],
   "note": ""
  },
  {
   "property": "C24",
   "status": "partial",
   "theorems": [
    "Magpie.Props.C24_no_mutation_partial",
    "Magpie.Props.C24_violated",
    "Magpie.Props.C24_violated_shift",
    "Magpie.Props.C24_spin_partial",
    "Magpie.Props.C24_violated_spin"
   ],
   "note": "false of the code: every nonzero shift changes the caller's array (proved)"
  },
  {
   "property": "C25",
   "status": "proved",
   "theorems": [
    "Magpie.Props.C25_rotate_start"
   ],
   "note": ""
  },
  {
   "property": "C26",
   "status": "proved",
   "theorems": [
    "Magpie.Props.C26_rotate_rigid"
   ],
   "note": ""
  },
  {
   "property": "C27",
   "status": "proved",
   "theorems": [
    "Magpie.Props.C27_shift",
    "Magpie.Props.C27_degenerate"
   ],
   "note": "Accepted arguments less than a full turn apart in longitude; a full turn is rejected (proved)."
  },
  {
   "property": "C28",
   "status": "proved",
   "theorems": [
    "Magpie.Props.C28_spin",
    "Magpie.Props.C28_spin_real"
   ],
   "note": "All accepted centres: colatitudes are floating-point numbers up to np.pi, hence rational and below the real number pi."
  },
  {
   "property": "C29",
   "status": "partial",
   "theorems": [
    "Magpie.Props.C29_rotate_polar_partial",
    "Magpie.Props.C29_violated"
   ],
   "note": "false of the code: the function raises for every accepted angle (proved)"
  },
  {
   "property": "C30",
   "status": "partial",
   "theorems": [
    "Magpie.Props.C30_rotate_grid_partial",
    "Magpie.Props.C30_violated",
    "Magpie.Props.C30_violated_mutation"
   ],
   "note": "false of the code: one row is lost and one duplicated, small shifts overwrite the input (proved for all grids)"
  },
  {
   "property": "C31",
   "status": "partial",
   "theorems": [
    "Magpie.Props.C31_exact_partial",
    "Magpie.Props.first_cell_clear",
    "Magpie.Props.C31_violated"
   ],
   "note": "proved for all grids whose first output cell is not strictly inside the cell width left of the input box; in that case the code uses uninitialised memory (proved)"
  },
  {
   "property": "C32",
   "status": "partial",
   "theorems": [
    "Magpie.Props.C32_conservation_partial",
    "Magpie.Props.C32_violated"
   ],
   "note": "same restriction as C31; false otherwise (proved)"
  },
  {
   "property": "C33",
   "status": "partial",
   "theorems": [
    "Magpie.Props.C33_exact_partial",
    "Magpie.Props.C33_violated"
   ],
   "note": "same restriction as C31; counterexample proved even for clean work arrays"
  },
  {
   "property": "C34",
   "status": "partial",
   "theorems": [
    "Magpie.Props.C34_exact_partial",
    "Magpie.Props.C34_violated"
   ],
   "note": "same restriction as C31, false otherwise (proved); scalar ngridout only since a list always raises (C39)"
  },
  {
   "property": "C35",
   "status": "partial",
   "theorems": [
    "Magpie.Props.C35_outside_partial",
    "Magpie.Props.C31_violated",
    "Magpie.Props.C33_violated"
   ],
   "note": "same restriction as C31"
  },
  {
   "property": "C36",
   "status": "partial",
   "theorems": [
    "Magpie.Props.C36_reads_partial",
    "Magpie.Props.C36_violated"
   ],
   "note": "same restriction as C31"
  },
  {
   "property": "C37",
   "status": "proved",
   "theorems": [
    "Magpie.Props.C37_linear_bounded",
    "Magpie.Props.C37_linear_bounded_nd"
   ],
   "note": "for grids where the result does not depend on uninitialised memory"
  },
  {
   "property": "C38",
   "status": "proved",
   "theorems": [
    "Magpie.Props.C38_identity",
    "Magpie.Props.C38_identity_2d",
    "Magpie.Props.C38_identity_3d"
   ],
   "note": ""
  },
  {
   "property": "C39",
   "status": "partial",
   "theorems": [
    "Magpie.Props.C39_defaults_partial",
    "Magpie.Props.C39_violated"
   ],
   "note": "false of the code for grid2grid1D (TypeError) and list sizes in grid2grid3D (ValueError)"
  },
  {
   "property": "C40",
   "status": "proved",
   "theorems": [
    "Magpie.Props.C40_constant"
   ],
   "note": "All edges, new edges and weights."
  },
  {
   "property": "C41",
   "status": "proved",
   "theorems": [
    "Magpie.Props.C41_range"
   ],
   "note": "All monotone grids, no weights or non-negative weights."
  },
  {
   "property": "C42",
   "status": "partial",
   "theorems": [
    "Magpie.Props.C42_overlapMean_partial",
    "Magpie.Props.C42_violated",
    "Magpie.Props.C42_violated_example"
   ],
   "note": "Proved for every new bin that does not cover the whole data range. False for covering bins: the last value is counted twice (proved for every grid)."
  },
  {
   "property": "C43",
   "status": "partial",
   "theorems": [
    "Magpie.Props.C43_nan_iff_partial",
    "Magpie.Props.C43_violated"
   ],
   "note": "Proved for old and new bins of positive length. False for a zero-length new bin at an old edge and for repeated old edges."
  },
  {
   "property": "C44",
   "status": "partial",
   "theorems": [
    "Magpie.Props.C44_rejects",
    "Magpie.Props.C44_sigma_rejects",
    "Magpie.Props.C44_accepts_partial",
    "Magpie.Props.C44_violated"
   ],
   "note": "Rejection proved for all inputs; acceptance for all inputs with at least one data value. One edge with no data raises IndexError."
  },
  {
   "property": "C45",
   "status": "partial",
   "theorems": [
    "Magpie.Props.C45_weights_partial",
    "Magpie.Props.C45_violated",
    "Magpie.Props.C45_violated_last"
   ],
   "note": "Proved unless the new bin contains exactly one old edge other than the first, or covers the data. False in those cases."
  },
  {
   "property": "C46",
   "status": "partial",
   "theorems": [
    "Magpie.Props.C46_sigma_partial",
    "Magpie.Props.C46_violated"
   ],
   "note": "Proved for new bins with at most one old edge inside. With two or more the bin entered first is dropped from the error (proved for every such bin)."
  },
  {
   "property": "C47",
   "status": "proved",
   "theorems": [
    "Magpie.Props.C47_monotonic"
   ],
   "note": ""
  },
  {
   "property": "C48",
   "status": "proved",
   "theorems": [
    "Magpie.Props.C48_grid1d"
   ],
   "note": ""
  },
  {
   "property": "C49",
   "status": "partial",
   "theorems": [
    "Magpie.Props.C49_shift_partial",
    "Magpie.Props.C49_violated"
   ],
   "note": "False of the code on every uniform grid: the edges come back half a cell too far out (exact result proved), IndexError for one cell."
  },
  {
   "property": "C50",
   "status": "proved",
   "theorems": [
    "Magpie.Props.C50_grid2d",
    "Magpie.Props.C50_grid3d",
    "Magpie.Props.C50_polargrid"
   ],
   "note": ""
  },
  {
   "property": "C51",
   "status": "proved",
   "theorems": [
    "Magpie.Props.C51_equal_area"
   ],
   "note": "Area is the integral of r dr dphi over the pixel."
  },
  {
   "property": "C52",
   "status": "proved",
   "theorems": [
    "Magpie.Props.C52_areas"
   ],
   "note": "For uniform phi edges, which is what the code assumes."
  },
  {
   "property": "C53",
   "status": "partial",
   "theorems": [
    "Magpie.Props.C53_mean",
    "Magpie.Props.C53_weighted",
    "Magpie.Props.C53_bounds",
    "Magpie.Props.C53_zero_weight_partial",
    "Magpie.Props.C53_violated"
   ],
   "note": "Proved for numeric data. A NaN under a zero weight still spoils its ring."
  },
  {
   "property": "C54",
   "status": "proved",
   "theorems": [
    "Magpie.Props.C54_formula",
    "Magpie.Props.C54_scales",
    "Magpie.Props.C54_pixarea",
    "Magpie.Props.C54_sector",
    "Magpie.Props.C54_dg",
    "Magpie.Props.C54_mc"
   ],
   "note": "C54_dg and C54_mc give the errors polar2radial returns after set-up of a new object; masks of zeros and ones."
  },
  {
   "property": "C55",
   "status": "proved",
   "theorems": [
    "Magpie.Props.C55_running",
    "Magpie.Props.C55_consequences"
   ],
   "note": ""
  },
  {
   "property": "C56",
   "status": "proved",
   "theorems": [
    "Magpie.Props.C56_range",
    "Magpie.Props.C56_law"
   ],
   "note": "Joint law of radius and angle."
  },
  {
   "property": "C57",
   "status": "proved",
   "theorems": [
    "Magpie.Props.C57_range",
    "Magpie.Props.C57_law"
   ],
   "note": "Joint law of both angles."
  },
  {
   "property": "C58",
   "status": "proved",
   "theorems": [
    "Magpie.Props.C58_range",
    "Magpie.Props.C58_law"
   ],
   "note": "Joint law of radius and both angles."
  },
  {
   "property": "C59",
   "status": "partial",
   "theorems": [
    "Magpie.Props.C59_violated",
    "Magpie.Props.C59_nameError_partial"
   ],
   "note": "False for every call: randoms_1d returns an undefined name, so none of the three functions ever returns."
  },
  {
   "property": "C60",
   "status": "proved",
   "theorems": [
    "Magpie.Props.C60_cdf"
   ],
   "note": "Accepted by the check of randoms_cdf; for the interpolation that follows see C82 (linear) and C124 (cubic)."
  },
  {
   "property": "C61",
   "status": "proved",
   "theorems": [
    "Magpie.Props.C61_permutation"
   ],
   "note": "For every sorting permutation np.argsort may return."
  },
  {
   "property": "C62",
   "status": "partial",
   "theorems": [
    "Magpie.Props.C62_draw_partial",
    "Magpie.Props.C62_violated"
   ],
   "note": "Proved for sizes >= 0. A negative size is accepted and len(sample)+size elements are returned."
  },
  {
   "property": "C63",
   "status": "proved",
   "theorems": [
    "Magpie.Props.C63_kept",
    "Magpie.Props.C63_sized",
    "Magpie.Props.C63_probability"
   ],
   "note": ""
  },
  {
   "property": "C64",
   "status": "proved",
   "theorems": [
    "Magpie.Props.C64_values",
    "Magpie.Props.C64_array",
    "Magpie.Props.C64_mean"
   ],
   "note": ""
  },
  {
   "property": "C65",
   "status": "proved",
   "theorems": [
    "Magpie.Props.C65_values",
    "Magpie.Props.C65_array",
    "Magpie.Props.C65_mean"
   ],
   "note": ""
  },
  {
   "property": "C66",
   "status": "proved",
   "theorems": [
    "Magpie.Props.C66_rejects",
    "Magpie.Props.C66_traces",
    "Magpie.Props.C66_perimeter"
   ],
   "note": ""
  },
  {
   "property": "C67",
   "status": "proved",
   "theorems": [
    "Magpie.Props.C67_arc",
    "Magpie.Props.C67_disc"
   ],
   "note": ""
  },
  {
   "property": "C68",
   "status": "partial",
   "theorems": [
    "Magpie.Props.C68_edges",
    "Magpie.Props.C68_nearest_partial",
    "Magpie.Props.C68_visible_kept_partial",
    "Magpie.Props.C68_nearest_exact_partial",
    "Magpie.Props.C68_violated_far",
    "Magpie.Props.C68_violated_short"
   ],
   "note": "The twelve edges and the rejection of other step counts are proved in full. With return_nearest the edges with a hidden corner are dropped exactly for at least two points per edge and a centre closer than 99 box lengths along each axis; C68_violated_* prove that the claim is false of the code otherwise (100 samples of the line of sight miss the box; with one point per edge the second corner is not looked at)."
  },
  {
   "property": "C69",
   "status": "proved",
   "theorems": [
    "Magpie.Props.C69_writes",
    "Magpie.Props.C69_marks",
    "Magpie.Props.C69_double",
    "Magpie.Props.C69_double_example"
   ],
   "note": "C69_writes and C69_marks in exact arithmetic; C69_double proves the statement for the binary64 arithmetic the program uses, where step 29 of 50 shows 28 marks."
  },
  {
   "property": "C70",
   "status": "partial",
   "theorems": [
    "Magpie.Props.C70_count_partial",
    "Magpie.Props.C70_twice_partial",
    "Magpie.Props.C70_long_partial",
    "Magpie.Props.C70_short_partial",
    "Magpie.Props.C70_violated",
    "Magpie.Props.C70_double"
   ],
   "note": "False of the code: 2n-1 steps with num_refresh=n print 2n-1 times (C70_violated). Proved: the exact number of prints, at most 2*num_refresh always, and the claim itself when length % num_refresh < length / num_refresh. C70_double: rounding to binary64 changes no decision to write."
  },
  {
   "property": "C71",
   "status": "partial",
   "theorems": [
    "Magpie.Props.C71_remap_partial",
    "Magpie.Props.C71_weighted_partial",
    "Magpie.Props.C71_bounds_partial",
    "Magpie.Props.C71_outside",
    "Magpie.Props.C71_violated_same",
    "Magpie.Props.C71_violated_mixed",
    "Magpie.Props.C71_violated"
   ],
   "note": "Linear and logarithmic grids, all draws. The cases are exhaustive: proved when in every row of polar pixels two touch different numbers of box pixels, or no point is in the box; otherwise the packing of the index arrays makes remap raise IndexError (C71_violated_same) or get_weights raise ValueError (C71_violated_mixed). C71_violated: a concrete set-up that fails for every draw."
  },
  {
   "property": "C72",
   "status": "proved",
   "theorems": [
    "Magpie.Props.C72_box2ring",
    "Magpie.Props.C72_cube2shell"
   ],
   "note": "Both classes, with and without weights, all histories, for every call that returns (which calls return: C71, C84)."
  },
  {
   "property": "C73",
   "status": "partial",
   "theorems": [
    "Magpie.Props.C73_remap_partial",
    "Magpie.Props.C73_weighted_partial",
    "Magpie.Props.C73_bounds_partial",
    "Magpie.Props.C73_violated"
   ],
   "note": "Proved for rebin_r = rebin_p and at least two rings and sectors. For rebin_r != rebin_p remap raises ValueError on every valid set-up (C73_violated)."
  },
  {
   "property": "C74",
   "status": "partial",
   "theorems": [
    "Magpie.Props.C74_dg_partial",
    "Magpie.Props.C74_dg_remap",
    "Magpie.Props.C74_mc_partial",
    "Magpie.Props.C74_violated"
   ],
   "note": "Proved for histories where no set-up call follows polar2radial/get_mask_in_bound without clean(); remap of the dense grid class for all histories. False otherwise: areas stored for the first grid are used after a second set-up (C74_violated)."
  },
  {
   "property": "C75",
   "status": "partial",
   "theorems": [
    "Magpie.Props.C75_dg_partial",
    "Magpie.Props.C75_mc_partial",
    "Magpie.Props.C75_mc_mask",
    "Magpie.Props.C75_caller_w",
    "Magpie.Props.C75_violated",
    "Magpie.Props.C75_caller_w_violated"
   ],
   "note": "Proved for masks of 0 and 1, which the Monte Carlo class always has. The dense grid class has fractional masks, and pixels with such a mask do influence the profile (C75_violated). The array of weights of the caller is multiplied by the mask (C75_caller_w)."
  },
  {
   "property": "C76",
   "status": "proved",
   "theorems": [
    "Magpie.Props.C76_dg_clean",
    "Magpie.Props.C76_mc_clean",
    "Magpie.Props.C76_dgcube_clean",
    "Magpie.Props.C76_mccube_clean",
    "Magpie.Props.C76_ortho_clean",
    "Magpie.Props.C76_pov_clean",
    "Magpie.Props.C76_mchealring_clean",
    "Magpie.Props.C76_dghealring_clean",
    "Magpie.Props.C76_mchealpolar_clean",
    "Magpie.Props.C76_dghealpolar_clean"
   ],
   "note": "Calls: set-up, remap, rotate_polar, get_mask_in_bound, polar2radial, clean, with any arguments, including calls that raise."
  },
  {
   "property": "C77",
   "status": "partial",
   "theorems": [
    "Magpie.Props.C77_remap_partial",
    "Magpie.Props.C77_constant_partial",
    "Magpie.Props.C77_weighted_partial",
    "Magpie.Props.C77_weighted_constant_partial",
    "Magpie.Props.C77_violated",
    "Magpie.Props.C77_violated_shape"
   ],
   "note": "Proved for rebin_x = rebin_y = 1 without weights and for rebin_x = rebin_y with weights; without weights the result is the rebin factor times the mean (proved), and rebin_x != rebin_y raises ValueError (proved). hp.ang2pix is a parameter."
  },
  {
   "property": "C78",
   "status": "partial",
   "theorems": [
    "Magpie.Props.C78_reverse_partial",
    "Magpie.Props.C78_violated"
   ],
   "note": "Proved without spin; for every spin other than zero reverse (or, for a negative spin, transform) raises AssertionError (proved)."
  },
  {
   "property": "C79",
   "status": "partial",
   "theorems": [
    "Magpie.Props.C79_violated_mcring_weights",
    "Magpie.Props.C79_violated_mcring",
    "Magpie.Props.C79_violated_mcring_radial",
    "Magpie.Props.C79_violated_mcbox_weights",
    "Magpie.Props.C79_violated_mcbox",
    "Magpie.Props.C79_violated_dgring",
    "Magpie.Props.C79_violated_dgring_remap",
    "Magpie.Props.C79_violated_dgbox",
    "Magpie.Props.C79_violated_dgbox_remap"
   ],
   "note": "False of the code: randoms.randoms_sky and coords.sky_area do not exist, so no history of calls makes get_weights, remap or polar2radial return (proved). What holds is that the dense set-ups return, see C87."
  },
  {
   "property": "C80",
   "status": "partial",
   "theorems": [
    "Magpie.Props.C80_remap_partial",
    "Magpie.Props.C80_reads",
    "Magpie.Props.C80_constant_partial",
    "Magpie.Props.C80_outside",
    "Magpie.Props.C80_violated",
    "Magpie.Props.C80_violated_shape"
   ],
   "note": "Proved for arrays with axes in the order x, y, z. For arrays in the layout of x3d the code reads the transposed cell (proved witness) or raises IndexError for shapes that are not square in x and y (proved). hp.pix2ang and the subpixels of hp.ud_grade are parameters."
  },
  {
   "property": "C81",
   "status": "partial",
   "theorems": [
    "Magpie.Props.C81_dg_partial",
    "Magpie.Props.C81_lin_partial",
    "Magpie.Props.C81_log_partial",
    "Magpie.Props.C81_dg_violated",
    "Magpie.Props.C81_lin_violated",
    "Magpie.Props.C81_log_violated",
    "Magpie.Props.C81_shell_lin_partial",
    "Magpie.Props.C81_shell_violated",
    "Magpie.Props.C81_shell_log",
    "Magpie.Props.C81_cube",
    "Magpie.Props.C81_dgshell_partial",
    "Magpie.Props.C81_dgshell_violated"
   ],
   "note": "Exact characterisation for the Box2Ring classes: a single sector, and in the linear set-ups a single ring, raise IndexError although the assertions accept them. The Monte Carlo Cube2Shell class is covered likewise: a single shell raises IndexError in the linear set-up, the logarithmic one accepts every size; the dense grid Cube2Shell class raises IndexError for a single shell."
  },
  {
   "property": "C82",
   "status": "proved",
   "theorems": [
    "Magpie.Props.C82_range",
    "Magpie.Props.C82_rejects",
    "Magpie.Props.C82_law",
    "Magpie.Props.C82_pdf_law"
   ],
   "note": "kind=\"linear\", where scipy interp1d is np.interp; the default kind=\"cubic\" is C124."
  },
  {
   "property": "C83",
   "status": "proved",
   "theorems": [
    "Magpie.Props.C83_box",
    "Magpie.Props.C83_dg",
    "Magpie.Props.C83_lin",
    "Magpie.Props.C83_log",
    "Magpie.Props.C83_log_increasing"
   ],
   "note": "At least two sectors (and rings, linear case), as smaller sizes are rejected, see C81."
  },
  {
   "property": "C84",
   "status": "partial",
   "theorems": [
    "Magpie.Props.C84_remap_partial",
    "Magpie.Props.C84_weighted_partial",
    "Magpie.Props.C84_outside",
    "Magpie.Props.C84_violated_same",
    "Magpie.Props.C84_violated_mixed",
    "Magpie.Props.C84_violated"
   ],
   "note": "Partial: remap returns only if in each shell two pixels touch a different number of voxels (NumPy then keeps the index lists as lists); otherwise it raises IndexError, proved for every such draw, and for every draw in the case of a single voxel."
  },
  {
   "property": "C85",
   "status": "proved",
   "theorems": [
    "Magpie.Props.C85_projection"
   ],
   "note": "Non-empty arrays; scalars are not modelled."
  },
  {
   "property": "C86",
   "status": "partial",
   "theorems": [
    "Magpie.Props.C86_transform",
    "Magpie.Props.C86_array_partial",
    "Magpie.Props.C86_roundtrip",
    "Magpie.Props.C86_accepted",
    "Magpie.Props.C86_violated"
   ],
   "note": "Proved for all accepted centres and non-empty arrays. transform of empty arrays raises IndexError (proved)."
  },
  {
   "property": "C87",
   "status": "partial",
   "theorems": [
    "Magpie.Props.C87_cap_partial",
    "Magpie.Props.C87_distance",
    "Magpie.Props.C87_box_partial",
    "Magpie.Props.C87_violated"
   ],
   "note": "For a centre of longitude exactly 2 pi the set-up of a polar cap raises AssertionError (proved). Proved for longitudes and rotation angles below 2 pi; around the north pole for distances up to pi, the range of hp.ang2pix, which is a parameter."
  },
  {
   "property": "C88",
   "status": "proved",
   "theorems": [
    "Magpie.Props.C88_cover",
    "Magpie.Props.C88_disjoint",
    "Magpie.Props.C88_pix",
    "Magpie.Props.C88_project"
   ],
   "note": "Closed diamonds, longitudes modulo 2 pi; the region of a pixel is taken without the poles."
  },
  {
   "property": "C89",
   "status": "proved",
   "theorems": [
    "Magpie.Props.C89_uniform"
   ],
   "note": "The law is stated in (phi, cos theta), in which solid angle is Lebesgue measure."
  },
  {
   "property": "C90",
   "status": "partial",
   "theorems": [
    "Magpie.Props.C90_position",
    "Magpie.Props.C90_grid_partial",
    "Magpie.Props.C90_exact",
    "Magpie.Props.C90_violated_radius",
    "Magpie.Props.C90_violated_separation"
   ],
   "note": "Proved for radius 1 and separations that divide 180 and 360 degrees. For another radius the lines are drawn on the unit disc, and other separations are changed to the next larger divisor (both proved)."
  },
  {
   "property": "C91",
   "status": "partial",
   "theorems": [
    "Magpie.Props.C91_imshow",
    "Magpie.Props.C91_finalize_partial",
    "Magpie.Props.C91_violated"
   ],
   "note": "imshow proved in full. With the default outeredge=True finalize raises NameError for every object (proved)."
  },
  {
   "property": "C92",
   "status": "partial",
   "theorems": [
    "Magpie.Props.C92_labels_partial",
    "Magpie.Props.C92_text",
    "Magpie.Props.C92_violated",
    "Magpie.Props.C92_violated_decimals"
   ],
   "note": "Proved for onsphere=True, no decimals, radius 1 and separations that divide 180 and 360. The default onsphere=False raises for all arguments; C92_text says what is written with decimals: the rounded number without its last two characters, so with one decimal 22.5 is written as 22 (both proved)."
  },
  {
   "property": "C93",
   "status": "partial",
   "theorems": [
    "Magpie.Props.C93_violated"
   ],
   "note": "False of the code for all arguments: the name shapes is not defined."
  },
  {
   "property": "C94",
   "status": "proved",
   "theorems": [
    "Magpie.Props.C94_compose",
    "Magpie.Props.C94_inverse",
    "Magpie.Props.C94_rotate_inverse",
    "Magpie.Props.C94_spin_add"
   ],
   "note": "Equality of directions; equality of the coordinates as well away from poles and branch cut."
  },
  {
   "property": "C95",
   "status": "partial",
   "theorems": [
    "Magpie.Props.C95_violated_box",
    "Magpie.Props.C95_violated_box_type",
    "Magpie.Props.C95_violated_heal",
    "Magpie.Props.C95_violated_heal_type"
   ],
   "note": "False of the code for all objects, maps and angles: the methods call coords.rotate_polar with three arguments and always raise."
  },
  {
   "property": "C96",
   "status": "partial",
   "theorems": [
    "Magpie.Props.C96_law",
    "Magpie.Props.C96_limit_partial",
    "Magpie.Props.C96_returns_partial",
    "Magpie.Props.C96_bound",
    "Magpie.Props.C96_violated"
   ],
   "note": "Whatever remap returns converges, for all geometries; it returns if in every row two polar pixels overlap different numbers of box pixels. False of the code otherwise: remap raises for all large mc_size."
  },
  {
   "property": "C97",
   "status": "proved",
   "theorems": [
    "Magpie.Props.C97_limit",
    "Magpie.Props.C97_weighted",
    "Magpie.Props.C97_fraction",
    "Magpie.Props.C97_agree"
   ],
   "note": "Dominated convergence in the variates for which area is uniform. Without weights the limit is the mean times the fraction of the polar pixel inside the box (C97_fraction), where the Monte Carlo class has the mean."
  },
  {
   "property": "C98",
   "status": "partial",
   "theorems": [
    "Magpie.Props.C98_rounding",
    "Magpie.Props.C98_ties",
    "Magpie.Props.C98_pix2ij_partial",
    "Magpie.Props.C98_pix2ij_arr_partial",
    "Magpie.Props.C98_ij2pix_arr_partial",
    "Magpie.Props.C98_violated",
    "Magpie.Props.C98_violated_ring",
    "Magpie.Props.C98_violated_arr"
   ],
   "note": "binary64 rounding is modelled and proved to be the IEEE one (nearest, ties to even); exact for nside <= 2^24; false for 2^25 (place along the ring, pixel numbers in arrays) and 2^27 (ring number in the north cap), proved on concrete pixels"
  },
  {
   "property": "C99",
   "status": "partial",
   "theorems": [
    "Magpie.Props.C99_nan_partial",
    "Magpie.Props.C99_nan_2d_partial",
    "Magpie.Props.C99_nan_3d_partial",
    "Magpie.Props.C99_reads_overlap",
    "Magpie.Props.C99_reads_wide",
    "Magpie.Props.C99_finite",
    "Magpie.Props.C99_violated"
   ],
   "note": "Exact set of input cells whose NaN reaches an output cell, in 1, 2 and 3 dimensions: the overlapped ones and, for an output cell inside one input cell, the next one (zero weight times NaN). For output cells that are not inside one input cell this is the full property. The first output cell must be clear as in C31."
  }
 ]
}