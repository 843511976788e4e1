{"id": "C01", "title": "HEALPix pixel -> ring -> pixel round trip", "statement": "For every nside >= 1 and every pixel index p in [0, 12*nside^2), healpix_ij2pix(*healpix_pix2ij(p, nside), nside) returns p, and neither call raises.", "quantifier": "all nside >= 1, all valid pixel indices", "why_tests_cant": "tests run nside 32, 33 and 16 only; the floor(sqrt(x - sqrt(floor x))) ring formula must be right at every ring boundary of every nside", "anchors": ["magpie/pixel/healpix_index.py:healpix_pix2ij", "magpie/pixel/healpix_index.py:healpix_ij2pix"]}
{"id": "C02", "title": "HEALPix ring indices are in range and pix2ij is a bijection", "statement": "healpix_pix2ij maps [0, 12*nside^2) one-to-one onto the pairs (i, j) with 1 <= i <= 4*nside-1 and 1 <= j <= length of ring i, and healpix_ij2pix inverts it from that side too.", "quantifier": "all nside >= 1, all pixels, all valid ring pairs", "why_tests_cant": "surjectivity over all rings of all nside cannot be sampled", "anchors": ["magpie/pixel/healpix_index.py:healpix_pix2ij", "magpie/pixel/healpix_index.py:healpix_ij2pix"]}
{"id": "C03", "title": "HEALPix ring ordering", "statement": "Pixel indices increase ring by ring from north to south and along each ring: p < q iff (i_p, j_p) < (i_q, j_q) lexicographically.", "quantifier": "all nside >= 1, all pairs of pixels", "why_tests_cant": "quantifies over pairs of pixels for every nside", "anchors": ["magpie/pixel/healpix_index.py:healpix_pix2ij"]}
{"id": "C04", "title": "HEALPix pixel centres agree with the published formulas", "statement": "healpix_xy2ang(*healpix_pix2xy(p, nside)) returns the standard HEALPix RING pixel centre: in the caps cos(theta) = 1 - i^2/(3 nside^2), phi = (j - 1/2) pi/(2 i), and in the equatorial belt cos(theta) = 4/3 - 2i/(3 nside), phi = (j - 1/2) pi/(2 nside) on rings with i - nside even and (j - 1) pi/(2 nside) on the others (the convention of the reference library), mirrored in the south.", "quantifier": "all nside >= 1 (even and odd), all pixels", "why_tests_cant": "only 'runs without error' is tested; the formula has parity and cap/belt cases for every nside", "anchors": ["magpie/pixel/healpix_index.py:healpix_j2jd", "magpie/pixel/healpix_index.py:healpix_i2id", "magpie/pixel/healpix_index.py:healpix_ij2xy", "magpie/pixel/healpix_index.py:healpix_pix2xy", "magpie/coords/healpix.py:healpix_xy2ang"]}
{"id": "C05", "title": "HEALPix pixels do not overlap", "statement": "For two different pixels of the same map the diamonds |x-xp|+|y-yp| < delta around healpix_pix2xy(p) in the healpix plane are disjoint, with delta = pi/(4 nside).", "quantifier": "all nside >= 1, all pairs of distinct pixels, all points of the plane", "why_tests_cant": "uncountably many points and all pairs", "anchors": ["magpie/pixel/healpix_index.py:healpix_pix2xy", "magpie/pixel/healpix_boundary.py:_healpix_get_delta"]}
{"id": "C06", "title": "HEALPix star-index round trip", "statement": "For the dash indices of any pixel healpix_ijd2ijs gives non-negative integers without losing a fraction in the integer cast, and healpix_ijs2ijd recovers the dash indices exactly.", "quantifier": "all nside >= 1, all pixels", "why_tests_cant": "tests check three nside values through a sum of differences, which can cancel", "anchors": ["magpie/pixel/healpix_index.py:healpix_ijd2ijs", "magpie/pixel/healpix_index.py:healpix_ijs2ijd", "magpie/pixel/healpix_index.py:healpix_i2id", "magpie/pixel/healpix_index.py:healpix_j2jd"]}
{"id": "C07", "title": "HEALPix star-index neighbours are returned as pairs", "statement": "healpix_ijs_neighbours returns parallel arrays: entry n of istar_neigh and entry n of jstar_neigh are the star indices of one neighbouring pixel, and all neighbours of the pixel appear.", "quantifier": "all nside, all pixels", "why_tests_cant": "tests only check that the call returns; the claim is about every pixel", "anchors": ["magpie/pixel/healpix_index.py:healpix_ijs_neighbours"]}
{"id": "C08", "title": "HEALPix array calls agree with scalar calls", "statement": "For every array of valid pixels (or ring indices, or plane/sky points), the array branch of healpix_pix2ij, healpix_ij2pix, healpix_j2jd, healpix_xy2ang and healpix_ang2xy returns elementwise what the scalar branch returns.", "quantifier": "all arrays of any length, all nside", "why_tests_cant": "arrays of every length and content", "anchors": ["magpie/pixel/healpix_index.py:healpix_pix2ij", "magpie/pixel/healpix_index.py:healpix_ij2pix", "magpie/pixel/healpix_index.py:healpix_j2jd", "magpie/coords/healpix.py:healpix_xy2ang", "magpie/coords/healpix.py:healpix_ang2xy"]}
{"id": "C09", "title": "HEALPix out-of-range pixels are not silently accepted", "statement": "healpix_pix2ij called with a pixel index outside [0, 12*nside^2) never returns a ring pair as if the pixel existed.", "quantifier": "all nside >= 1, all integers p outside the map", "why_tests_cant": "all integers", "anchors": ["magpie/pixel/healpix_index.py:healpix_pix2ij"]}
{"id": "C10", "title": "HEALPix plane <-> sky round trip", "statement": "healpix_xy2ang(healpix_ang2xy(phi, theta)) = (phi, theta) for every theta strictly between the poles and phi in [0, 2 pi); at the poles theta is recovered.", "quantifier": "all real phi, theta", "why_tests_cant": "continuum of inputs with a case split at |cos theta| = 2/3 and at quarter turns", "anchors": ["magpie/coords/healpix.py:healpix_xy2ang", "magpie/coords/healpix.py:healpix_ang2xy"]}
{"id": "C11", "title": "HEALPix projection is equal-area", "statement": "The map healpix_xy2ang from the plane to (phi, cos theta) has constant Jacobian 8/(3 pi) everywhere inside each facet, so the 12 nside^2 pixels have equal solid angle summing to 4 pi.", "quantifier": "all points of the plane off the facet boundaries", "why_tests_cant": "derivative statement over a continuum", "anchors": ["magpie/coords/healpix.py:healpix_xy2ang", "magpie/pixel/healpix_boundary.py:_healpix_get_delta"]}
{"id": "C12", "title": "HEALPix boundary points lie on the pixel edge", "statement": "Every point returned by healpix_boundary(p, nside, steps) lies on the edge |x-xp|+|y-yp| = delta of the pixel, exactly steps points are returned, for steps >= 4 the curve starts and ends at the left corner, and reverse=True returns the same points in reverse order.", "quantifier": "all nside, all pixels, all steps", "why_tests_cant": "all step counts including odd and small ones", "anchors": ["magpie/pixel/healpix_boundary.py:healpix_boundary", "magpie/pixel/healpix_boundary.py:healpix_boundary_top", "magpie/pixel/healpix_boundary.py:healpix_boundary_bot"]}
{"id": "C13", "title": "Random points in a HEALPix pixel stay in the pixel", "statement": "For every value of the uniform variates, the point drawn by the healpix sampler lies in the pixel diamond (up to the 2 pi wrap of x), and healpix_xy2ang of it is a sky position inside the pixel.", "quantifier": "all nside, all pixels, all uniform draws in [0,1)", "why_tests_cant": "all random draws", "anchors": ["magpie/randoms/usphere.py:_randoms_healpix_xy", "magpie/randoms/usphere.py:randoms_healpix_pixel"]}
{"id": "C14", "title": "Random points in a HEALPix pixel are uniform", "statement": "The sampler is the inverse-CDF of the uniform law on the diamond: P(x <= t) is the area fraction of the diamond left of t and, given x, y is uniform on the vertical chord.", "quantifier": "all thresholds, all pixels", "why_tests_cant": "a distributional statement; no finite sample decides it", "anchors": ["magpie/randoms/usphere.py:_randoms_healpix_xy"]}
{"id": "C15", "title": "Cartesian -> polar -> cartesian round trip", "statement": "polar2cart(*cart2polar(x, y, center), center) = (x, y), with r >= 0 and phi in [0, 2 pi).", "quantifier": "all real x, y, center", "why_tests_cant": "continuum, including the centre point and the negative x axis", "anchors": ["magpie/coords/conversions.py:cart2polar", "magpie/coords/conversions.py:polar2cart"]}
{"id": "C16", "title": "Polar -> cartesian -> polar round trip", "statement": "cart2polar(*polar2cart(r, phi, center), center) = (r, phi) for r > 0 and phi in [0, 2 pi).", "quantifier": "all r > 0, phi in [0,2pi), centers", "why_tests_cant": "continuum", "anchors": ["magpie/coords/conversions.py:cart2polar", "magpie/coords/conversions.py:polar2cart"]}
{"id": "C17", "title": "Cartesian -> spherical -> cartesian round trip", "statement": "sphere2cart(*cart2sphere(x, y, z, center), center) = (x, y, z) including at the centre itself, with r >= 0, phi in [0, 2 pi), theta in [0, pi].", "quantifier": "all real x, y, z, center", "why_tests_cant": "continuum, degenerate point r = 0", "anchors": ["magpie/coords/conversions.py:cart2sphere", "magpie/coords/conversions.py:sphere2cart"]}
{"id": "C18", "title": "Spherical -> cartesian -> spherical round trip", "statement": "cart2sphere(*sphere2cart(r, phi, theta, center), center) = (r, phi, theta) for r > 0, phi in [0, 2 pi), theta strictly between 0 and pi; on the axis r and theta are recovered.", "quantifier": "all such r, phi, theta, center", "why_tests_cant": "continuum", "anchors": ["magpie/coords/conversions.py:cart2sphere", "magpie/coords/conversions.py:sphere2cart"]}
{"id": "C19", "title": "Coordinate array calls agree with scalar calls", "statement": "cart2polar, cart2sphere (1-d arrays) and ortho2cart return for an array elementwise what the scalar branch returns for each element.", "quantifier": "all arrays of all lengths", "why_tests_cant": "arrays of every length", "anchors": ["magpie/coords/conversions.py:cart2polar", "magpie/coords/conversions.py:cart2sphere", "magpie/coords/conversions.py:ortho2cart"]}
{"id": "C20", "title": "Orthographic lift lies on the sphere", "statement": "ortho2cart returns z >= 0 with x^2+y^2+z^2 = r^2 when x^2+y^2 < r^2 and the fill value otherwise.", "quantifier": "all reals", "why_tests_cant": "continuum", "anchors": ["magpie/coords/conversions.py:ortho2cart"]}
{"id": "C21", "title": "Area of a sky patch", "statement": "usphere_area is additive in phi and theta, equals 4 pi for the full sphere, and is positive for every accepted input.", "quantifier": "all accepted patches", "why_tests_cant": "continuum", "anchors": ["magpie/coords/usphere_util.py:usphere_area"]}
{"id": "C22", "title": "Latitude convention is an involution", "statement": "lonlat2sphere(sphere2lonlat(theta)) = theta and the reverse, and theta in [0, pi] corresponds to latitude in [-pi/2, pi/2].", "quantifier": "all reals", "why_tests_cant": "continuum", "anchors": ["magpie/coords/usphere_util.py:sphere2lonlat", "magpie/coords/usphere_util.py:lonlat2sphere"]}
{"id": "C23", "title": "Longitude shift stays in range and is a shift", "statement": "usphere_phi_shift(phi, dphi) returns phi + dphi up to one turn, in [0, 2 pi], for phi in [0, 2 pi] and |dphi| < 2 pi, for scalars and for arrays; |dphi| >= 2 pi is rejected.", "quantifier": "all phi, dphi, all array lengths", "why_tests_cant": "continuum", "anchors": ["magpie/coords/usphere.py:usphere_phi_shift"]}
{"id": "C24", "title": "Sky transformations do not modify the caller's arrays", "statement": "usphere_phi_shift, usphere_shift and usphere_spin leave the phi and theta arrays passed by the caller unchanged.", "quantifier": "all arrays", "why_tests_cant": "aliasing must be absent for every array argument", "anchors": ["magpie/coords/usphere.py:usphere_phi_shift", "magpie/coords/usphere.py:usphere_shift", "magpie/coords/usphere.py:usphere_spin"]}
{"id": "C25", "title": "usphere_rotate moves the start point to the end point", "statement": "For two directions that are neither equal nor opposite, usphere_rotate applied to (phi_start, theta_start) returns the direction (phi_end, theta_end).", "quantifier": "all pairs of non-parallel directions", "why_tests_cant": "continuum", "anchors": ["magpie/coords/usphere.py:usphere_rotate"]}
{"id": "C26", "title": "usphere_rotate is a rigid rotation along the great circle", "statement": "usphere_rotate preserves the angle between any two directions, preserves orientation, fixes the axis perpendicular to both points and turns by their angular separation.", "quantifier": "all directions, all non-parallel start/end pairs", "why_tests_cant": "continuum", "anchors": ["magpie/coords/usphere.py:usphere_rotate"]}
{"id": "C27", "title": "usphere_shift moves the start point to the end point rigidly", "statement": "usphere_shift maps (phi_start, theta_start) to the direction (phi_end, theta_end) and preserves angles between directions.", "quantifier": "all accepted non-degenerate arguments", "why_tests_cant": "continuum", "anchors": ["magpie/coords/usphere.py:usphere_shift"]}
{"id": "C28", "title": "usphere_spin is a rotation about the given centre by alpha", "statement": "usphere_spin fixes the centre direction, preserves angles and turns every other direction by alpha about the centre.", "quantifier": "all centres, all alpha in [0, 2 pi), all directions", "why_tests_cant": "continuum", "anchors": ["magpie/coords/usphere.py:usphere_spin"]}
{"id": "C29", "title": "rotate_polar rotates the angles it is given", "statement": "rotate_polar(phi, rotate) returns phi + rotate wrapped into [0, 2 pi).", "quantifier": "all phi, all rotate in (0, 2 pi)", "why_tests_cant": "continuum", "anchors": ["magpie/coords/polar.py:rotate_polar"]}
{"id": "C30", "title": "rotate_polar_grid by whole pixels is a cyclic shift", "statement": "On a full-circle polar grid rotating by an exact multiple k of the pixel width returns the rows cyclically shifted by k, conserves the sum over phi, and leaves the input array unchanged.", "quantifier": "all grid sizes, all k, all data", "why_tests_cant": "all sizes and shifts", "anchors": ["magpie/coords/polar.py:rotate_polar_grid"]}
{"id": "C31", "title": "grid2grid1D computes exact overlap averages", "statement": "Every output cell equals the sum over input cells of value times overlap length divided by the output cell width.", "quantifier": "all grid sizes, origins, box sizes and data", "why_tests_cant": "alignment cases are unbounded; one wrong boundary only shows for special offsets", "anchors": ["magpie/src/remap_utils.f90:remap_1d_grid2grid_pixel", "magpie/src/remap_utils.f90:get_remap_pix_len", "magpie/src/remap_utils.f90:which_pix", "magpie/src/remap_1d_grid2grid.f90:remap_1d_grid2grid", "magpie/remap/grid2grid.py:grid2grid1D"]}
{"id": "C32", "title": "grid2grid1D conserves the integral", "statement": "If the output box covers the input box then sum(f2)*dx2 = sum(f1)*dx1.", "quantifier": "all grids with the output box covering the input box", "why_tests_cant": "all sizes and offsets", "anchors": ["magpie/src/remap_1d_grid2grid.f90:remap_1d_grid2grid", "magpie/remap/grid2grid.py:grid2grid1D"]}
{"id": "C33", "title": "grid2grid2D computes exact overlap averages and conserves the integral", "statement": "As for one dimension with product overlaps, for every cell of the 2d output.", "quantifier": "all grid sizes, origins, box sizes and data", "why_tests_cant": "unbounded sizes", "anchors": ["magpie/src/remap_2d_grid2grid.f90:remap_2d_grid2grid", "magpie/src/remap_utils.f90:pix1dto2d", "magpie/remap/grid2grid.py:grid2grid2D"]}
{"id": "C34", "title": "grid2grid3D computes exact overlap averages and conserves the integral", "statement": "As for two dimensions with triple product overlaps.", "quantifier": "all grid sizes, origins, box sizes and data", "why_tests_cant": "unbounded sizes", "anchors": ["magpie/src/remap_3d_grid2grid.f90:remap_3d_grid2grid", "magpie/src/remap_utils.f90:pix1dto3d", "magpie/remap/grid2grid.py:grid2grid3D"]}
{"id": "C35", "title": "Output cells outside the input box are zero", "statement": "A grid2grid output cell that does not meet the input box gets the value 0, whatever the memory contents before the call.", "quantifier": "all grids, all prior contents of the work arrays", "why_tests_cant": "depends on uninitialised memory, invisible to a test that happens to see zeros", "anchors": ["magpie/src/remap_utils.f90:remap_1d_grid2grid_pixel", "magpie/src/remap_1d_grid2grid.f90:remap_1d_grid2grid"]}
{"id": "C36", "title": "Remapping never reads outside the input grid", "statement": "Every index used to read the input field in the 1d, 2d and 3d kernels is inside the field.", "quantifier": "all grids", "why_tests_cant": "out-of-bounds reads can pass tests silently", "anchors": ["magpie/src/remap_1d_grid2grid.f90:remap_1d_grid2grid", "magpie/src/remap_2d_grid2grid.f90:remap_2d_grid2grid", "magpie/src/remap_3d_grid2grid.f90:remap_3d_grid2grid"]}
{"id": "C37", "title": "Remapping is linear, and bounded by the data inside the input box", "statement": "grid2grid is linear in the field; a constant field stays constant in every output cell inside the input box, where values stay between the minimum and maximum of the input.", "quantifier": "all grids, all fields", "why_tests_cant": "all fields", "anchors": ["magpie/src/remap_1d_grid2grid.f90:remap_1d_grid2grid", "magpie/remap/grid2grid.py:grid2grid1D"]}
{"id": "C38", "title": "Remapping onto the same grid is the identity", "statement": "grid2grid1D, grid2grid2D and grid2grid3D with the same origin, box size and number of cells return the input field.", "quantifier": "all sizes and boxes", "why_tests_cant": "all sizes; aligned edges are the boundary case", "anchors": ["magpie/src/remap_1d_grid2grid.f90:remap_1d_grid2grid", "magpie/remap/grid2grid.py:grid2grid1D"]}
{"id": "C39", "title": "grid2grid argument defaults work", "statement": "Omitting boxsizeout uses the input box size, and a list ngridout selects a size per axis, in every dimension.", "quantifier": "all calls using the documented defaults", "why_tests_cant": "quantifies over all calls", "anchors": ["magpie/remap/grid2grid.py:grid2grid1D", "magpie/remap/grid2grid.py:grid2grid2D", "magpie/remap/grid2grid.py:grid2grid3D"]}
{"id": "C40", "title": "rebin_1d preserves constants", "statement": "If all data values equal c then every rebinned value that is a number equals c.", "quantifier": "all edges, new edges and constants", "why_tests_cant": "all grids", "anchors": ["magpie/one_d/one_d.py:rebin_1d", "magpie/one_d/one_d.py:_rebin_1d_single_bin"]}
{"id": "C41", "title": "rebin_1d stays within the data range", "statement": "Every rebinned value that is a number lies between the minimum and the maximum of the data.", "quantifier": "all monotone grids, all data", "why_tests_cant": "all grids and data", "anchors": ["magpie/one_d/one_d.py:rebin_1d", "magpie/one_d/one_d.py:_rebin_1d_single_bin"]}
{"id": "C42", "title": "rebin_1d is the exact overlap mean on uniform bins", "statement": "For uniform input bins every new bin that meets the input range gets the average of the data weighted by overlap length.", "quantifier": "all uniform grids, all new bins, all data", "why_tests_cant": "all alignments; the covering case is special", "anchors": ["magpie/one_d/one_d.py:rebin_1d", "magpie/one_d/one_d.py:_rebin_1d_single_bin"]}
{"id": "C43", "title": "rebin_1d returns NaN only for bins outside the data", "statement": "A new bin gets NaN iff it does not meet the range of the old bins.", "quantifier": "all grids and new bins", "why_tests_cant": "all alignments", "anchors": ["magpie/one_d/one_d.py:_rebin_1d_single_bin"]}
{"id": "C44", "title": "rebin_1d validates its input", "statement": "Mismatched lengths or edges that decrease anywhere raise AssertionError before anything is computed; otherwise the result has one value per new bin.", "quantifier": "all inputs", "why_tests_cant": "all inputs", "anchors": ["magpie/one_d/one_d.py:rebin_1d", "magpie/utils/check.py:is_pos_monotonic"]}
{"id": "C45", "title": "rebin_1d_single_bin_weights agrees with rebin_1d", "statement": "The weights returned for a new bin reproduce the rebinned value: sum(weights*data)/sum(weights).", "quantifier": "all grids, new bins and data", "why_tests_cant": "all alignments", "anchors": ["magpie/one_d/one_d.py:rebin_1d_single_bin_weights", "magpie/one_d/one_d.py:_rebin_1d_single_bin"]}
{"id": "C46", "title": "rebin_1d errors propagate the same weights as the data", "statement": "The error of a rebinned value uses the same bins and weights as the value itself, so every bin that contributes to the value contributes to the error.", "quantifier": "all grids, new bins and errors", "why_tests_cant": "all alignments", "anchors": ["magpie/one_d/one_d.py:_rebin_1d_single_bin_sigma"]}
{"id": "C47", "title": "is_pos_monotonic decides monotonicity", "statement": "is_pos_monotonic(arr) is True iff arr[i] <= arr[j] for all i <= j.", "quantifier": "all arrays", "why_tests_cant": "all lengths", "anchors": ["magpie/utils/check.py:is_pos_monotonic"]}
{"id": "C48", "title": "Uniform grid edges and mid points", "statement": "get_xedges gives ngrid+1 equally spaced edges from xmin to xmin+length and grid1d the centre of each cell, increasing for positive length.", "quantifier": "all lengths, sizes, origins", "why_tests_cant": "all sizes", "anchors": ["magpie/grids/cartesian.py:get_xedges", "magpie/grids/cartesian.py:xedges2mid", "magpie/grids/cartesian.py:grid1d"]}
{"id": "C49", "title": "xmid2edges inverts xedges2mid", "statement": "For a uniform grid xmid2edges(xedges2mid(edges)) = edges.", "quantifier": "all uniform grids", "why_tests_cant": "all sizes; the existing test passes because its assertion is inverted", "anchors": ["magpie/grids/cartesian.py:xmid2edges", "magpie/grids/cartesian.py:xedges2mid"]}
{"id": "C50", "title": "grid2d and grid3d enumerate every cell once in row-major ij order", "statement": "Entry [i, j(, k)] of the output arrays is (xmid[i], ymid[j](, zmid[k])) with the shape given by ngrids, for scalar and list arguments.", "quantifier": "all sizes", "why_tests_cant": "all sizes", "anchors": ["magpie/grids/cartesian.py:grid2d", "magpie/grids/cartesian.py:grid3d", "magpie/grids/polar.py:polargrid"]}
{"id": "C51", "title": "Equal-area polar grid has equal areas", "statement": "polarEA_grid has polarEA_npix pixels; each of the base_nphi*(2i+1) pixels of ring i has area polarEA_area; the areas sum to pi*rmax^2; each listed point is the mid point of its pixel.", "quantifier": "all nr >= 1, rmax, base_nphi >= 1", "why_tests_cant": "all sizes", "anchors": ["magpie/grids/polar.py:polarEA_grid", "magpie/grids/polar.py:polarEA_area", "magpie/grids/polar.py:polarEA_npix"]}
{"id": "C52", "title": "Polar pixel areas add up", "statement": "The areas of get_polar_area2d are positive and sum to the area of the annular sector.", "quantifier": "all uniform phi edges, all increasing radial edges", "why_tests_cant": "all sizes", "anchors": ["magpie/polar/polar2radial.py:get_polar_area2d", "magpie/polar/polar2radial.py:get_pixarea"]}
{"id": "C53", "title": "polar2radial is a weighted mean", "statement": "Each radial value is the (weighted) mean over phi: constants are preserved, values stay within the range of the ring for non-negative weights, weights of zero remove a pixel completely, and a ring with zero total weight is NaN rather than a number.", "quantifier": "all shapes, data, weights", "why_tests_cant": "all shapes and data", "anchors": ["magpie/polar/polar2radial.py:polar2radial"]}
{"id": "C54", "title": "polar2radial errors scale with pixel area", "statement": "The radial error is sqrt(sum (pixarea/area)(w sigma)^2)/sum w; it is non-negative and scales linearly with sigma.", "quantifier": "all shapes, data, weights", "why_tests_cant": "all data", "anchors": ["magpie/polar/polar2radial.py:polar2radial"]}
{"id": "C55", "title": "cumulative_radial is a running integral", "statement": "The result starts at 0, increases by pi(r_{i+1}^2-r_i^2) f_i at each edge, equals c*pi*(r^2-r0^2) for a constant profile and is monotone for a non-negative profile; errors are non-decreasing.", "quantifier": "all edges and profiles", "why_tests_cant": "all sizes", "anchors": ["magpie/polar/radial.py:cumulative_radial"]}
{"id": "C56", "title": "randoms_polar samples the annular sector uniformly in area", "statement": "Every draw has r in [r_min, r_max] and phi in [phi_min, phi_max], and P(r <= rho) is the area fraction inside rho.", "quantifier": "all accepted limits, all uniform variates", "why_tests_cant": "distributional claim", "anchors": ["magpie/randoms/polar.py:randoms_polar"]}
{"id": "C57", "title": "randoms_usphere samples the sky patch uniformly in area", "statement": "Every draw has phi, theta inside the limits and P(theta <= t) is the solid-angle fraction above t.", "quantifier": "all limits 0 <= theta_min < theta_max <= pi", "why_tests_cant": "distributional claim", "anchors": ["magpie/randoms/usphere.py:randoms_usphere"]}
{"id": "C58", "title": "randoms_sphere samples the shell uniformly in volume", "statement": "Every draw has r in [r_min, r_max] and P(r <= rho) is the volume fraction inside rho.", "quantifier": "all 0 <= r_min < r_max", "why_tests_cant": "distributional claim", "anchors": ["magpie/randoms/sphere.py:randoms_sphere_r", "magpie/randoms/sphere.py:randoms_sphere"]}
{"id": "C59", "title": "Cartesian randoms lie in the requested box", "statement": "randoms_1d, randoms_2d and randoms_3d return size points inside the requested box.", "quantifier": "all sizes and boxes", "why_tests_cant": "all calls", "anchors": ["magpie/randoms/cart.py:randoms_1d", "magpie/randoms/cart.py:randoms_2d", "magpie/randoms/cart.py:randoms_3d"]}
{"id": "C60", "title": "pdf2cdf returns a valid CDF", "statement": "For a non-negative PDF with positive sum the CDF starts at 0, ends at 1, never decreases, has one more point than the PDF, increments equal to normalised pdf times dx, and is accepted by randoms_cdf.", "quantifier": "all non-negative pdfs, all uniform mid points", "why_tests_cant": "all lengths and values", "anchors": ["magpie/randoms/pdf.py:pdf2cdf", "magpie/randoms/pdf.py:randoms_cdf", "magpie/randoms/pdf.py:randoms_pdf"]}
{"id": "C61", "title": "shuffle is a permutation", "statement": "shuffle returns every element of the sample exactly as often as it occurs.", "quantifier": "all samples, all uniform variates", "why_tests_cant": "all samples and all draws", "anchors": ["magpie/randoms/subsample.py:shuffle"]}
{"id": "C62", "title": "random_draw draws without repeats", "statement": "random_draw returns size elements at distinct positions of the sample and rejects size >= len(sample).", "quantifier": "all samples, sizes and draws", "why_tests_cant": "all draws", "anchors": ["magpie/randoms/subsample.py:random_draw"]}
{"id": "C63", "title": "random_prob_draw respects probabilities", "statement": "Without size each element is kept iff its variate is at most its probability (so probability >= 1 is always kept and a negative one never); with size exactly size distinct positions are returned and zero probabilities are rejected.", "quantifier": "all samples, probabilities and draws", "why_tests_cant": "all draws", "anchors": ["magpie/randoms/subsample.py:random_prob_draw"]}
{"id": "C64", "title": "stochastic_integer_weights is unbiased", "statement": "The result is floor(w) or ceil(w), equals w when w is an integer, and its expectation over the uniform variate is w; scalar and array calls agree.", "quantifier": "all weights, all draws", "why_tests_cant": "expectation over a continuum", "anchors": ["magpie/randoms/subsample.py:stochastic_integer_weights"]}
{"id": "C65", "title": "stochastic_binary_weights is 0 or 1", "statement": "For non-negative weights the result is 0 or 1, with expectation min(w, 1).", "quantifier": "all non-negative weights, all draws", "why_tests_cant": "expectation over a continuum", "anchors": ["magpie/randoms/subsample.py:stochastic_binary_weights"]}
{"id": "C66", "title": "get_square traces the rectangle perimeter", "statement": "For steps a positive multiple of 4 exactly steps points are returned, each on the perimeter, including the four corners; other step counts are rejected.", "quantifier": "all rectangles, all steps", "why_tests_cant": "all steps", "anchors": ["magpie/pixel/basic_shapes.py:get_square"]}
{"id": "C67", "title": "get_arc and get_disc stay on their shape", "statement": "get_arc points are at distance radius from the centre; get_disc points lie on the boundary of the disc segment.", "quantifier": "all radii, angles, centres, steps", "why_tests_cant": "all steps", "anchors": ["magpie/pixel/basic_shapes.py:get_arc", "magpie/pixel/basic_shapes.py:get_disc"]}
{"id": "C68", "title": "get_box returns the box edges", "statement": "get_box returns twelve line segments of steps/12 points, each running along a different edge of the box; return_nearest=True returns a subset of them, dropping exactly the edges with a hidden corner.", "quantifier": "all boxes, steps, centres", "why_tests_cant": "all boxes and view points", "anchors": ["magpie/pixel/basic_shapes.py:get_box"]}
{"id": "C69", "title": "progress_bar draws a bar of constant width and finishes once", "statement": "For 0 <= index < length the bar has exactly bar_length marks, the number of done marks never decreases, a full bar is drawn only at the end, and only the last call writes a newline.", "quantifier": "all lengths, indices, bar lengths, refresh counts", "why_tests_cant": "all index/length pairs", "anchors": ["magpie/utils/progress.py:progress_bar"]}
{"id": "C70", "title": "progress_bar refreshes at most num_refresh times", "statement": "A loop of any length prints the bar at most num_refresh (plus the final) times.", "quantifier": "all lengths and refresh counts", "why_tests_cant": "all lengths", "anchors": ["magpie/utils/progress.py:progress_bar"]}
{"id": "C71", "title": "Monte Carlo Box2Ring remap is a weighted mean of box pixels", "statement": "Every remapped value is a convex combination of the box pixels hit by the random points, so constants are preserved and values stay within range; a polar pixel with no hit is NaN.", "quantifier": "all draws, all fields, all grids", "why_tests_cant": "all random draws", "anchors": ["magpie/montecarlo/box2ring.py:Box2Ring.get_weights", "magpie/montecarlo/box2ring.py:Box2Ring.remap"]}
{"id": "C72", "title": "Monte Carlo remap reads the pixel that was hit", "statement": "A random point in column x, row y of the box reads f[y, x], the pixel whose centre is (x2d[y,x], y2d[y,x]); in 3d f[y, x, z].", "quantifier": "all points, all grid shapes", "why_tests_cant": "square test grids cannot tell a transposition on symmetric data", "anchors": ["magpie/montecarlo/box2ring.py:Box2Ring.get_weights", "magpie/montecarlo/box2ring.py:Box2Ring.remap", "magpie/montecarlo/cube2shell.py:Cube2Shell.get_weights", "magpie/montecarlo/cube2shell.py:Cube2Shell.remap"]}
{"id": "C73", "title": "Dense grid Box2Ring remap is an area-weighted mean", "statement": "If all dense points fall in the box, each remapped value is the mean of the sampled pixels weighted by area; constants are preserved; it works for every rebin_r and rebin_p.", "quantifier": "all grids, rebin factors and fields", "why_tests_cant": "all rebin factors", "anchors": ["magpie/densegrid/box2ring.py:Box2Ring.setup_polar", "magpie/densegrid/box2ring.py:Box2Ring._remap"]}
{"id": "C74", "title": "Results depend only on the latest setup", "statement": "After any history of calls on a Box2Ring object, polar2radial uses the areas and mask of the grids set up last.", "quantifier": "all histories of method calls", "why_tests_cant": "quantifies over call histories", "anchors": ["magpie/densegrid/box2ring.py:Box2Ring.polar2radial", "magpie/montecarlo/box2ring.py:Box2Ring.polar2radial", "magpie/densegrid/box2ring.py:Box2Ring.clean"]}
{"id": "C75", "title": "Box2Ring.polar2radial excludes pixels not fully inside the box", "statement": "Polar pixels whose in-bound mask is not 1 have no influence on the radial profile, and the caller's weights are not modified.", "quantifier": "all masks, data and weights", "why_tests_cant": "all masks", "anchors": ["magpie/densegrid/box2ring.py:Box2Ring.polar2radial", "magpie/montecarlo/box2ring.py:Box2Ring.polar2radial"]}
{"id": "C76", "title": "clean() restores the initial state", "statement": "After clean() the object is indistinguishable from a new one, whatever happened before.", "quantifier": "all histories", "why_tests_cant": "quantifies over call histories", "anchors": ["magpie/densegrid/box2ring.py:Box2Ring.clean", "magpie/montecarlo/box2ring.py:Box2Ring.clean", "magpie/densegrid/cube2shell.py:Cube2Shell.clean", "magpie/montecarlo/cube2shell.py:Cube2Shell.clean", "magpie/densegrid/heal2ortho.py:Heal2Ortho.clean", "magpie/densegrid/pointofview.py:PointOfView.clean", "magpie/densegrid/heal2ring.py:Heal2Ring.clean", "magpie/montecarlo/heal2ring.py:Heal2Ring.clean", "magpie/densegrid/heal2polar.py:Heal2Polar.clean", "magpie/montecarlo/heal2polar.py:Heal2Polar.clean"]}
{"id": "C77", "title": "Heal2Ortho remap preserves constants", "statement": "A constant HEALPix map is remapped to the same constant on every output pixel whose dense points all lie on the sphere.", "quantifier": "all rebin factors, all grids, all constants", "why_tests_cant": "all rebin factors", "anchors": ["magpie/densegrid/heal2ortho.py:Heal2Ortho._remap", "magpie/densegrid/heal2ortho.py:Heal2Ortho.remap"]}
{"id": "C78", "title": "PointOfView.reverse inverts transform", "statement": "For every camera set-up and every point in front of the camera, reverse(*transform(x, y, z)) returns (x, y, z).", "quantifier": "all camera set-ups including spin, all points in front", "why_tests_cant": "continuum", "anchors": ["magpie/densegrid/pointofview.py:PointOfView.transform", "magpie/densegrid/pointofview.py:PointOfView.reverse", "magpie/densegrid/pointofview.py:PointOfView.setup"]}
{"id": "C79", "title": "HEALPix remapping classes run", "statement": "Heal2Ring and Heal2Polar (Monte Carlo and dense grid) complete get_weights/remap/polar2radial for every valid set-up.", "quantifier": "all valid set-ups", "why_tests_cant": "quantifies over all set-ups", "anchors": ["magpie/montecarlo/heal2ring.py:Heal2Ring.get_weights", "magpie/montecarlo/heal2polar.py:Heal2Polar.get_weights", "magpie/densegrid/heal2ring.py:Heal2Ring._remap", "magpie/densegrid/heal2polar.py:Heal2Polar._remap"]}
{"id": "C80", "title": "Dense grid Cube2Shell reads the cell containing the point", "statement": "A shell point (or its periodic image) inside the cube reads the value of the cell containing it in the layout of x3d, points outside every image read 0, and the radial downgrade is a volume-weighted mean.", "quantifier": "all cubes including non-cubic shapes, all points, all periodic ranges", "why_tests_cant": "square test cubes cannot tell a transposition", "anchors": ["magpie/densegrid/cube2shell.py:Cube2Shell.setup_polar", "magpie/densegrid/cube2shell.py:Cube2Shell.remap"]}
{"id": "C81", "title": "Every accepted grid size can be set up", "statement": "setup_polar_lin/setup_polar/setup_polar_log accept every numr > 0 and nump > 0 allowed by their assertions.", "quantifier": "all sizes passing the assertions", "why_tests_cant": "boundary sizes", "anchors": ["magpie/montecarlo/box2ring.py:Box2Ring.setup_polar_lin", "magpie/montecarlo/box2ring.py:Box2Ring.setup_polar_log", "magpie/densegrid/box2ring.py:Box2Ring.setup_polar", "magpie/densegrid/cube2shell.py:Cube2Shell.setup_polar"]}
{"id": "C82", "title": "Draws from a tabulated CDF follow it", "statement": "With kind='linear' every draw of randoms_cdf lies between the first and last abscissa and P(draw <= y) is the table interpolated linearly at y; randoms_pdf draws from the tabulated PDF taken as constant on each bin.", "quantifier": "all tables, all variates", "why_tests_cant": "distribution over a continuum of variates", "anchors": ["magpie/randoms/pdf.py:randoms_cdf", "magpie/randoms/pdf.py:randoms_pdf"]}
{"id": "C83", "title": "The set-up grids are the documented ones", "statement": "After setup_box and setup_polar(_lin) the edges divide the requested ranges into equal parts and x2d/y2d (r2d/p2d) hold the centre of each cell; setup_polar_log gives rings with a constant ratio of radii from r_min to r_max, preceded by the disc inside r_min if addzero, and strictly increasing edges.", "quantifier": "all accepted arguments, all objects whatever their history", "why_tests_cant": "all sizes and ranges", "anchors": ["magpie/montecarlo/box2ring.py:Box2Ring.setup_box", "magpie/montecarlo/box2ring.py:Box2Ring.setup_polar_lin", "magpie/montecarlo/box2ring.py:Box2Ring.setup_polar_log", "magpie/densegrid/box2ring.py:Box2Ring.setup_polar"]}
{"id": "C84", "title": "Monte Carlo Cube2Shell remap is the mean over the random points in the cube", "statement": "Every remapped value is the (weighted) mean of the cells of the cube hit by the random points of that pixel and shell, so it lies within their range; a pixel none of whose points lies in the cube is UNSEEN, and remap returns for every accepted set-up.", "quantifier": "all cubes, shells, draws and fields", "why_tests_cant": "all random draws and all set-ups", "anchors": ["magpie/montecarlo/cube2shell.py:Cube2Shell.get_weights", "magpie/montecarlo/cube2shell.py:Cube2Shell.remap"]}
{"id": "C85", "title": "PointOfView.transform is the perspective projection", "statement": "For every camera, target other than the camera and spin in [0, 2 pi), dist is the distance from the camera and (bx, by) is the offset perpendicular to the line of sight, in the frame of an upright camera turned by spin, scaled by display/depth; the target is at the centre of the view.", "quantifier": "all cameras, targets, displays, spins in [0, 2 pi) and arrays of points", "why_tests_cant": "continuum of cameras and points", "anchors": ["magpie/densegrid/pointofview.py:PointOfView.setup", "magpie/densegrid/pointofview.py:PointOfView.transform"]}
{"id": "C86", "title": "Heal2Ortho.transform is the orthographic projection", "statement": "transform(phi, theta) returns the offset of the direction to the east and to the north of the centre of the view (unit sphere), NaN for directions in the opposite hemisphere, and it inverts the grid: the direction read by remap at the point (x, y) of the disc is transformed to (x, y)/radius.", "quantifier": "all centres, all directions, scalars and arrays", "why_tests_cant": "continuum of centres and directions", "anchors": ["magpie/densegrid/heal2ortho.py:Heal2Ortho.setup_box", "magpie/densegrid/heal2ortho.py:Heal2Ortho.transform"]}
{"id": "C87", "title": "Dense sky grids look where they say", "statement": "After setup_polar_cap of the dense grid Heal2Ring, rebin_pix holds for every dense cell the HEALPix pixel of the direction at angular distance alpha from the centre and position angle beta + beta_shift (from the south to the east); after setup_box of the dense grid Heal2Polar that of the direction with longitude x and latitude y in coordinates centred on center and turned by alpha.", "quantifier": "all valid set-ups, all dense cells", "why_tests_cant": "continuum of centres and angles", "anchors": ["magpie/densegrid/heal2ring.py:Heal2Ring.setup_polar_cap", "magpie/densegrid/heal2polar.py:Heal2Polar.setup_box"]}
{"id": "C88", "title": "HEALPix pixels tile the sky", "statement": "Every direction belongs to the closed diamond of some pixel returned by healpix_pix2xy, under the projection of healpix_ang2xy which is the published one; the interiors of two different pixels have no direction in common, and each pixel has the solid angle 4 pi / (12 nside^2).", "quantifier": "all nside >= 1, all directions, all pairs of pixels", "why_tests_cant": "continuum of directions", "anchors": ["magpie/coords/healpix.py:healpix_ang2xy", "magpie/pixel/healpix_index.py:healpix_pix2xy"]}
{"id": "C89", "title": "Random points of a pixel are uniform on the sky", "statement": "randoms_healpix_pixel maps each pair of uniform variates to a direction whose distribution is uniform in solid angle over the sky region of the pixel.", "quantifier": "all nside >= 1, all pixels, all numbers of points", "why_tests_cant": "distribution over a continuum of variates", "anchors": ["magpie/randoms/usphere.py:randoms_healpix_pixel", "magpie/randoms/usphere.py:_randoms_healpix_xy"]}
{"id": "C90", "title": "plot_grid draws the graticule of the map", "statement": "PlotOrtho.plot_grid draws the meridians of longitude 0, dphi, 2 dphi, ... and the parallels of colatitude 0, dtheta, 2 dtheta, ... (degrees) at the positions where the orthographic map shows these directions.", "quantifier": "all valid maps (centre, size, radius), all separations", "why_tests_cant": "continuum of maps and directions", "anchors": ["magpie/plots/ortho.py:PlotOrtho.plot_grid", "magpie/densegrid/heal2ortho.py:Heal2Ortho.transform"]}
{"id": "C91", "title": "imshow and finalize use the coordinates of the map", "statement": "imshow shows every entry of a remapped map in its grid cell; finalize makes the axes end at the edges of the map, with x reversed if insphere, for the default arguments as well.", "quantifier": "all valid maps, all arguments", "why_tests_cant": "all maps", "anchors": ["magpie/plots/ortho.py:PlotOrtho.imshow", "magpie/plots/ortho.py:PlotOrtho.finalize"]}
{"id": "C92", "title": "plot_labels labels the grid lines", "statement": "plot_labels writes the degrees of each grid longitude and colatitude (or latitude) at the position of the direction zeropoint on that line, moved by shift, and leaves out the directions outside the map or on the far side.", "quantifier": "all valid maps, all separations, decimals, zero points and shifts, onsphere or not", "why_tests_cant": "continuum of maps and directions", "anchors": ["magpie/plots/ortho.py:PlotOrtho.plot_labels"]}
{"id": "C93", "title": "plot_box, plot_circle and plot_polar_box draw the shape", "statement": "The three functions draw the outline of the given shape.", "quantifier": "all arguments", "why_tests_cant": "all arguments", "anchors": ["magpie/plots/shapes.py:plot_box", "magpie/plots/shapes.py:plot_circle", "magpie/plots/ortho.py:PlotOrtho.plot_polar_box"]}
{"id": "C94", "title": "Sky shifts, rotations and spins compose", "statement": "Moving the sky with usphere_shift from A to B and then from B to C shows every direction where moving it from A to C shows it; moving from B back to A gives every direction back, also with usphere_rotate; two spins about the same centre add up.", "quantifier": "all directions, all points A, B, C for which the calls are allowed, all accepted centres, all angles", "why_tests_cant": "continuum of directions and of centres", "anchors": ["magpie/coords/usphere.py:usphere_shift", "magpie/coords/usphere.py:usphere_rotate", "magpie/coords/usphere.py:usphere_spin"]}
{"id": "C95", "title": "The rotate_polar methods turn the polar map", "statement": "rotate_polar of a Box2Ring or Heal2Ring object returns the polar map turned by the given angle.", "quantifier": "all objects in all states, all maps and angles", "why_tests_cant": "all objects and histories", "anchors": ["magpie/montecarlo/box2ring.py:Box2Ring.rotate_polar", "magpie/montecarlo/heal2ring.py:Heal2Ring.rotate_polar", "magpie/densegrid/box2ring.py:Box2Ring.rotate_polar", "magpie/densegrid/heal2ring.py:Heal2Ring.rotate_polar"]}
{"id": "C96", "title": "Monte Carlo remapping converges to the area weighted mean", "statement": "As mc_size grows, remap of the Monte Carlo Box2Ring returns and its value in every polar pixel that overlaps the box converges, with probability one, to the mean of the overlapped box pixels weighted by the area in common (times the given weights). For a polar pixel inside a box with values in [a, b] the probability of an error of eps or more is at most (b-a)^2/(4 mc_size eps^2).", "quantifier": "all boxes, polar grids, data, weights and histories of the object, almost all sequences of random variates", "why_tests_cant": "statement about a limit and about probabilities", "anchors": ["magpie/montecarlo/box2ring.py:Box2Ring.get_weights", "magpie/montecarlo/box2ring.py:Box2Ring.remap"]}
{"id": "C97", "title": "Dense grid remapping converges to the area weighted mean", "statement": "As rebin_r = rebin_p grows, the value that remap of the dense grid Box2Ring returns in every polar pixel converges to the integral of the map over the polar pixel divided by its area, the map being zero outside the box; with weights, to the mean of the overlapped box pixels weighted by the area in common times the weight. With the same weights the Monte Carlo and the dense grid class have the same limit.", "quantifier": "all boxes, polar grids of at least two rings and sectors, data, weights and histories of the object", "why_tests_cant": "statement about a limit", "anchors": ["magpie/densegrid/box2ring.py:Box2Ring.remap", "magpie/densegrid/box2ring.py:Box2Ring.setup_polar", "magpie/montecarlo/box2ring.py:Box2Ring.remap"]}
{"id": "C98", "title": "HEALPix ring numbers are right in double precision", "statement": "The ring and the place along the ring returned for a pixel are those of the exact formulas although the code computes them with double precision square roots, divisions and sums; array calls, which keep pixel numbers in float arrays, return exact pixel numbers. Neither holds for every HEALPix resolution: from nside 2^25 on some pixels get a place that does not exist or a number off the map.", "quantifier": "every nside up to 2^24, every pixel and every valid ring pair, scalar and array calls, with every float operation rounded to nearest even as IEEE 754 binary64 prescribes", "why_tests_cant": "the wrong cases are isolated pixels next to ring boundaries among up to 10^18; tests at small nside never meet them and a sweep at large nside cannot finish", "anchors": ["magpie/pixel/healpix_index.py:healpix_pix2ij", "magpie/pixel/healpix_index.py:healpix_ij2pix"]}
{"id": "C99", "title": "A missing value spoils only the pixels that overlap it", "statement": "If some values of the input grid are NaN, grid2grid1D, grid2grid2D and grid2grid3D return NaN exactly in the output cells that overlap a NaN cell, and the overlap average of finite values in all others. (False: an output cell that lies inside one input cell is NaN also when the next input cell to the right is.)", "quantifier": "all input and output grids, all positions of NaN values, all contents of the work arrays", "why_tests_cant": "quantifies over all relative positions of two grids and all NaN patterns", "anchors": ["magpie/remap/grid2grid.py:grid2grid1D", "magpie/remap/grid2grid.py:grid2grid2D", "magpie/remap/grid2grid.py:grid2grid3D", "magpie/src/remap_utils.f90:remap_1d_grid2grid_pixel", "magpie/src/remap_1d_grid2grid.f90:remap_1d_grid2grid"]}
{"id": "C100", "title": "Sky coordinates of a point are valid in double precision", "statement": "cart2sphere and cart2polar, computed in IEEE double precision, return a longitude in [0, 2 pi] and a colatitude in [0, pi], never NaN, and a distance accurate to three rounding units; on a coordinate axis the distance is exact. (False very near the centre: from about 2^-537 on the square of a coordinate underflows and the colatitude is NaN or 0.)", "quantifier": "all points and centres whose differences are zero or of length between 2^-500 and 2^510, all implementations of arctan2 and arccos with values in the documented ranges, scalars and arrays", "why_tests_cant": "z/r must not exceed 1 by a single rounding error for any of the 2^192 triples of doubles", "anchors": ["magpie/coords/conversions.py:cart2sphere", "magpie/coords/conversions.py:cart2polar"]}
{"id": "C101", "title": "Shifted longitudes stay in the circle in double precision", "statement": "usphere_phi_shift of a longitude in [0, 2 pi] by an allowed angle, computed in IEEE double precision, returns a longitude in [0, 2 pi] that differs from the exact sum by whole turns and at most 2^-48.", "quantifier": "all doubles phi in [0, 2 pi] and all accepted shifts, scalars and arrays", "why_tests_cant": "rounding at the ends of the circle concerns single values among 2^62; sampling does not meet them", "anchors": ["magpie/coords/usphere.py:usphere_phi_shift"]}
{"id": "C102", "title": "The orthographic sphere is defined on its disc in double precision", "statement": "ortho2cart, computed in IEEE double precision, returns a number between 0 and the radius for every position inside the disc and the fill value outside; positions that are inside or outside by more than five rounding units of the squared radius are recognised as such.", "quantifier": "all positions, all radii between 2^-500 and 2^511 and all fill values, scalars and arrays", "why_tests_cant": "the positions next to the limb at which rounding decides cannot be enumerated", "anchors": ["magpie/coords/conversions.py:ortho2cart"]}
{"id": "C103", "title": "Monte Carlo remapping of cubes onto shells converges to the volume weighted mean", "statement": "The points drawn for a pixel of a shell are uniform in the volume of that pixel, and as mc_size grows remap of the Monte Carlo Cube2Shell returns, with probability one, the mean over the voxels that the pixel overlaps, weighted by the common volume (times the voxel weight); for a pixel inside the cube and without weights the chance of an error of epsilon or more is at most (max - min)^2/(4 mc_size epsilon^2); pixels that miss the cube get UNSEEN. (False as stated: when all pixels of a shell overlap equally many voxels, for example when the cube is one voxel, the call fails with probability one for every large mc_size.)", "quantifier": "all cubes, shells (linear and logarithmic radii), centres, voxel values and weights, all pixels, almost all sequences of random numbers", "why_tests_cant": "a statement about limits and probabilities over all random sequences; a finite run with a seed shows neither the law nor the limit", "anchors": ["magpie/montecarlo/cube2shell.py:Cube2Shell", "magpie/randoms/usphere.py:randoms_healpix_pixel", "magpie/randoms/sphere.py:randoms_sphere_r"]}
{"id": "C104", "title": "Remapping onto the same grid is the identity in double precision", "statement": "grid2grid1D, grid2grid2D and grid2grid3D, computed in IEEE double precision with or without fused multiply-add, return the input field bit for bit when the output grid is the input grid. (False for more than 2^24 cells, where the cell numbers are rounded to single precision and cells take the values of their neighbours, and for grids so far from zero that the cell width is near the spacing of doubles.)", "quantifier": "all fields of doubles, all boxes and origins, all numbers of cells up to 2^24 per axis, all contents of the work arrays, with and without contraction to fused operations", "why_tests_cant": "whether a rounded cell edge falls on the wrong side of another edge depends on single bits of origin, width and cell number", "anchors": ["magpie/src/remap_utils.f90:remap_1d_grid2grid_pixel", "magpie/remap/grid2grid.py:grid2grid1D", "magpie/remap/grid2grid.py:grid2grid2D", "magpie/remap/grid2grid.py:grid2grid3D"]}
{"id": "C105", "title": "Remapping between grids is accurate in double precision", "statement": "grid2grid1D, grid2grid2D and grid2grid3D, computed in IEEE double precision with or without fused multiply-add, return in every output cell the exact overlap-weighted average of the input field up to about 2^-42 times the condition number of the grids (the largest coordinate measured in cell widths), relative to the largest input value; in two and three dimensions the naive sum adds about 2^-46 per input cell that meets the output cell. In particular a constant field stays constant up to that error. No rounding of a cell edge can drop a cell, count it twice or produce NaN. (False where C31 is false, and for grids beyond single precision cell numbers, see C104.)", "quantifier": "all fields of values up to 2^1000, all boxes, origins and numbers of cells with condition number up to 2^39, all contents of the work arrays, with and without contraction to fused operations", "why_tests_cant": "the errors depend on the last bits of every edge; the worst case is at output edges within rounding of input edges", "anchors": ["magpie/src/remap_utils.f90:remap_1d_grid2grid_pixel", "magpie/src/remap_1d_grid2grid.f90:remap_1d_grid2grid", "magpie/src/remap_2d_grid2grid.f90:remap_2d_grid2grid", "magpie/src/remap_3d_grid2grid.f90:remap_3d_grid2grid", "magpie/remap/grid2grid.py:grid2grid1D", "magpie/remap/grid2grid.py:grid2grid2D", "magpie/remap/grid2grid.py:grid2grid3D"]}
{"id": "C106", "title": "Remapping objects depend only on the latest set-up", "statement": "After any history of calls on a Cube2Shell, Heal2Ortho or PointOfView object, a complete set-up determines what all later calls return: they return what they return on a new object after the same set-up calls, whatever was set up, remapped or failed before. (False when one of the set-up calls is repeated with other arguments: setup_cube of the dense Cube2Shell after setup_polar keeps the periodic images of the old cube, setup_cube of the Monte Carlo Cube2Shell after get_weights keeps the weights of the old cube, and setup_map of Heal2Ortho after setup_box keeps the pixel numbers of the old map.)", "quantifier": "all histories of method calls with all arguments, including calls that raise", "why_tests_cant": "quantifies over call histories", "anchors": ["magpie/densegrid/cube2shell.py:Cube2Shell.setup_cube", "magpie/densegrid/cube2shell.py:Cube2Shell.setup_polar", "magpie/montecarlo/cube2shell.py:Cube2Shell.get_weights", "magpie/montecarlo/cube2shell.py:Cube2Shell.setup_cube", "magpie/densegrid/heal2ortho.py:Heal2Ortho.setup_map", "magpie/densegrid/heal2ortho.py:Heal2Ortho.setup_box", "magpie/densegrid/pointofview.py:PointOfView.setup"]}
{"id": "C107", "title": "A call that raises leaves the object as it was", "statement": "A set-up method of a remapping object called with arguments outside the documented ranges raises AssertionError and leaves the object as it was, and with arguments inside them does not raise AssertionError. More generally, a call that raises can be left out of any history: all other calls return what they return without it. (False when a set-up method raises after it has assigned attributes: a single ring in setup_polar_lin of the Monte Carlo Box2Ring makes a later get_weights fail, a centre outside the range of the angles in setup_box of Heal2Ortho makes every later transform fail, and a numz below -1 in setup_cube of the dense grid Cube2Shell makes a later remap read the old cube at the corner of the new one.)", "quantifier": "all arguments, all objects and all histories of calls", "why_tests_cant": "the state after a failed call matters only for later calls; quantifies over all arguments and call histories", "anchors": ["magpie/densegrid/box2ring.py:Box2Ring.setup_polar", "magpie/montecarlo/box2ring.py:Box2Ring.setup_polar_lin", "magpie/montecarlo/box2ring.py:Box2Ring.setup_polar_log", "magpie/montecarlo/box2ring.py:Box2Ring.get_weights", "magpie/densegrid/cube2shell.py:Cube2Shell.setup_polar", "magpie/montecarlo/cube2shell.py:Cube2Shell.setup_polar_lin", "magpie/densegrid/heal2ortho.py:Heal2Ortho.setup_box", "magpie/densegrid/heal2ring.py:Heal2Ring.setup_polar_cap", "magpie/montecarlo/heal2ring.py:Heal2Ring.setup_polar_cap", "magpie/densegrid/heal2polar.py:Heal2Polar.setup_box", "magpie/montecarlo/heal2polar.py:Heal2Polar.setup_box"]}
{"id": "C108", "title": "Grid edges and mid points are in order in double precision", "statement": "In IEEE double precision, get_xedges and the set-up methods of the remapping objects give one more edge than cells, exactly from xmin to xmax, never decreasing (so rebin_1d accepts them), each within (|xmin| + 6 (xmax - xmin)) / 2^53 of its exact place, and strictly increasing if cells are wider than the errors; the mid points of grid1d and of the set-up methods lie between their edges. The cells must be normal numbers: below 2^-1022 the last edge can be smaller than the one before.", "quantifier": "all finite doubles xmin <= xmax up to half the largest, all numbers of cells up to 2^50", "why_tests_cant": "rounding of every edge for every range; all alignments", "anchors": ["magpie/grids/cartesian.py:get_xedges", "magpie/grids/cartesian.py:xedges2mid", "magpie/grids/cartesian.py:grid1d", "magpie/densegrid/box2ring.py:Box2Ring.setup_box", "magpie/densegrid/cube2shell.py:Cube2Shell.setup_cube", "magpie/montecarlo/box2ring.py:Box2Ring.setup_box", "magpie/montecarlo/cube2shell.py:Cube2Shell.setup_cube"]}
{"id": "C109", "title": "The dense grid methods read the right cell in double precision", "statement": "In IEEE double precision the dense grid Box2Ring and Cube2Shell read, for a point inside a cell of the box and farther than 4 num (|xmin| + 8 (xmax - xmin)) / 2^53 from its boundaries, exactly that cell; a cell that is read always exists and is within this distance of the point, so points farther outside the box read no cell.", "quantifier": "all boxes and points in double precision", "why_tests_cant": "rounding near every cell boundary; all alignments", "anchors": ["magpie/densegrid/box2ring.py:Box2Ring.setup_box", "magpie/densegrid/box2ring.py:Box2Ring.remap", "magpie/densegrid/cube2shell.py:Cube2Shell.setup_cube", "magpie/densegrid/cube2shell.py:Cube2Shell.remap"]}
{"id": "C110", "title": "Remapping by whole factors averages or repeats cells", "statement": "grid2grid onto r times fewer cells of the same box gives the means of blocks of r cells per axis, onto r times more cells repeats each value r times per axis, doing the second and then the first gives back the field, and an output box shifted by whole cells gives the shifted values, with 0 outside the input box.", "quantifier": "all fields, factors, box sizes and origins, whatever the memory held before", "why_tests_cant": "every grid size and factor", "anchors": ["magpie/remap/grid2grid.py:grid2grid1D", "magpie/remap/grid2grid.py:grid2grid2D", "magpie/remap/grid2grid.py:grid2grid3D", "magpie/src/remap_1d_grid2grid.f90:remap_1d_grid2grid", "magpie/src/remap_2d_grid2grid.f90:remap_2d_grid2grid", "magpie/src/remap_3d_grid2grid.f90:remap_3d_grid2grid"]}
{"id": "C111", "title": "Remapping does not depend on units, origin, direction or order of axes", "statement": "grid2grid gives the same result when all lengths are multiplied by a positive factor and all origins moved by the same distance; reversing the field and both boxes reverses the result; swapping the axes of a 2d field and of both boxes swaps the axes of the result.", "quantifier": "all fields and all pairs of grids (for which grid2grid is the exact overlap average)", "why_tests_cant": "metamorphic relations over all inputs", "anchors": ["magpie/remap/grid2grid.py:grid2grid1D", "magpie/remap/grid2grid.py:grid2grid2D"]}
{"id": "C112", "title": "Rebinning onto the same bins changes nothing; rebinning is linear", "statement": "rebin_1d onto the old bin edges returns the data (with weights: the data where the weight is not 0 and NaN where it is) and the errors given; it is linear in the data, larger data give values that are not smaller (weights not negative), the bins that are NaN without weights depend only on the edges, a common factor of all weights changes nothing and a common factor of all errors multiplies the returned errors by its size.", "quantifier": "all data, weights, errors and edges (strictly increasing ones for the first part), equal bins or not", "why_tests_cant": "every number and width of bins; relations between several calls", "anchors": ["magpie/one_d/one_d.py:rebin_1d"]}
{"id": "C113", "title": "Monte Carlo remaps are unbiased and their variance falls as one over the number of points", "statement": "For a pixel inside the box or cube the expected Monte Carlo value is exactly the mean of the field weighted by common area or volume, and its variance is the variance of the field within the pixel divided by mc_size. For a pixel only partly inside, the probability of a value is 1 - (1 - q)^mc_size, q being the part of the pixel inside, and given a value its mean is again exact, and its mean square error is the variance of the field over the common part times the mean of one over the number of points inside, so at most 2/((mc_size+1)q) times it (independent draws). No weights are given; the value is a random variable defined for all draws, which remap returns whenever it returns.", "quantifier": "all boxes, cubes, polar grids and shells, fields, object histories, mc_size and probability spaces with uniform draws", "why_tests_cant": "a statement about expectations over all random draws", "anchors": ["magpie/montecarlo/box2ring.py:Box2Ring.get_weights", "magpie/montecarlo/box2ring.py:Box2Ring.remap", "magpie/montecarlo/cube2shell.py:Cube2Shell.get_weights", "magpie/montecarlo/cube2shell.py:Cube2Shell.remap"]}
{"id": "C114", "title": "Random positions stay in the range asked for in double precision", "statement": "With every operation rounded to double precision, randoms_polar, randoms_usphere and randoms_sphere return no NaN, and radii, longitudes and colatitudes between the two ends asked for (the ends themselves included), close to those of exact arithmetic.", "quantifier": "all variates that np.random.random_sample can return, all ranges of doubles, any C library cosine, arccosine and power function within stated limits", "why_tests_cant": "an error in the last place at one end of the range shows up for few variates; all doubles", "anchors": ["magpie/randoms/polar.py:randoms_polar", "magpie/randoms/usphere.py:randoms_usphere", "magpie/randoms/sphere.py:randoms_sphere_r", "magpie/randoms/sphere.py:randoms_sphere"]}
{"id": "C115", "title": "Shuffles and random draws are fair", "statement": "When np.random.random_sample gives independent uniform numbers: shuffle returns every order of its elements with equal probability; random_draw returns every ordered choice of size elements with equal probability, so each element is drawn with probability size/n; random_prob_draw without a size includes each element independently of the others with its own probability and returns the included ones in random order; with a size it draws the elements in proportion to their probabilities.", "quantifier": "all samples of distinct elements, all sizes, all probabilities in [0, 1], any position in the stream of random numbers, any argsort (however it breaks ties)", "why_tests_cant": "a statement about exact probabilities of n! outcomes for every n: a test sees frequencies of a few of them", "anchors": ["magpie/randoms/subsample.py:shuffle", "magpie/randoms/subsample.py:random_draw", "magpie/randoms/subsample.py:random_prob_draw"]}
{"id": "C116", "title": "Random points of one call are independent", "statement": "When np.random.random_sample gives independent uniform numbers, the points of one call of randoms_polar, randoms_usphere, randoms_sphere and randoms_healpix_pixel, the values of one call of randoms_cdf and randoms_pdf, and the weights of one call of stochastic_integer_weights and stochastic_binary_weights are independent of one another, each with the law promised for a single one; the Monte Carlo remaps use a fresh set of independent points for every pixel.", "quantifier": "all numbers of points, all ranges, all pixels, all joint limits on the points, any position in the stream of random numbers", "why_tests_cant": "a statement about the joint law of n points for every n; correlations between points (a number used twice) are invisible in single points", "anchors": ["magpie/randoms/polar.py:randoms_polar", "magpie/randoms/usphere.py:randoms_usphere", "magpie/randoms/usphere.py:randoms_healpix_pixel", "magpie/randoms/sphere.py:randoms_sphere", "magpie/randoms/pdf.py:randoms_cdf", "magpie/randoms/pdf.py:randoms_pdf", "magpie/randoms/subsample.py:stochastic_integer_weights", "magpie/randoms/subsample.py:stochastic_binary_weights"]}
{"id": "C117", "title": "Dense grid remapping onto shells converges to the volume weighted mean", "statement": "For an array whose axes are the x, y and z cells of the cube: as rebin_r and rebin_shell grow, the value that remap of the dense grid Cube2Shell returns in every HEALPix pixel of every shell converges to the integral of the map over the part of space that the pixel covers divided by its volume; the map is the array with its periodic images and zero elsewhere. Without periodic images this is the limit of the Monte Carlo class times the fraction of the pixel that is inside the cube.", "quantifier": "all cubes, shells (at least two), nside, centres, ranges of periodic images, data and histories of the object; all ways of growing of the two factors through values at which HEALPix divides the pixels", "why_tests_cant": "statement about a limit", "anchors": ["magpie/densegrid/cube2shell.py:Cube2Shell.remap", "magpie/densegrid/cube2shell.py:Cube2Shell.setup_polar", "magpie/montecarlo/cube2shell.py:Cube2Shell.remap"]}
{"id": "C118", "title": "Ring means and Monte Carlo means are accurate in double precision", "statement": "In IEEE double precision, whatever the order in which np.sum adds: polar2radial without weights returns the mean of each ring up to (d+1)/2^52 times the mean of the absolute values, and with weights that are not negative the weighted mean up to (d+d'+2)/2^52 times the weighted mean of the absolute values, d and d' being the longest chains of additions in the two sums. A pixel of remap of the Monte Carlo Box2Ring and Cube2Shell is the mean over the random points that fall into the box or cube up to (d+d'+4)/2^52, with weights up to (d+d'+6)/2^52, times the mean of the absolute values. The mask of pixels with a hit, the remapping of ones, is exactly 1. No sum overflows if the sum of the absolute values is at most half the largest double. A constant map other than one need not be returned exactly.", "quantifier": "all arrays of doubles of any size, all weights that are not negative, all numbers of points, all orders of summation of up to 2^40 levels; the products must not underflow", "why_tests_cant": "all data and all orders of summation; the order depends on the layout of the array and the NumPy version", "anchors": ["magpie/polar/polar2radial.py:polar2radial", "magpie/montecarlo/box2ring.py:Box2Ring.remap", "magpie/montecarlo/cube2shell.py:Cube2Shell.remap"]}
{"id": "C119", "title": "Boxes and cubes whose limits are equal or exchanged", "statement": "setup_box and setup_cube accept limits in any order. If xmin > xmax or ymin > ymax, the dense grid Box2Ring reads the map so that column k is still the one between edges k and k+1, that is, it returns what the box with ordered limits returns for the map with its columns (rows) reversed, and the dense grid Cube2Shell does the same along each of its three axes, while get_weights of the Monte Carlo Box2Ring and Cube2Shell raises ValueError and stores nothing. A box or cube without a width contains nothing: remap finds no data in it.", "quantifier": "all boxes, cubes, polar grids and shells, maps and weights, all histories of the object, all random points; for the dense grid no dense point may lie on an edge", "why_tests_cant": "degenerate inputs in every combination with grids, data and random points", "anchors": ["magpie/densegrid/box2ring.py:Box2Ring.remap", "magpie/montecarlo/box2ring.py:Box2Ring.get_weights", "magpie/montecarlo/cube2shell.py:Cube2Shell.get_weights", "magpie/montecarlo/box2ring.py:Box2Ring.setup_box"]}
{"id": "C120", "title": "Sky rotations and views act on each point by itself", "statement": "usphere_rotate, usphere_shift, usphere_spin, Heal2Ortho.transform, PointOfView.transform and PointOfView.reverse called with arrays return, entry by entry, what they return for the numbers of that entry, and raise what the calls with numbers raise; so the image of a point does not depend on the other points in the array.", "quantifier": "all non-empty arrays, all rotation points and angles including rejected ones, all states of the objects", "why_tests_cant": "arrays of every length and every argument", "anchors": ["magpie/coords/usphere.py:usphere_shift", "magpie/coords/usphere.py:usphere_spin", "magpie/coords/usphere.py:usphere_rotate", "magpie/densegrid/pointofview.py:PointOfView.transform", "magpie/densegrid/pointofview.py:PointOfView.reverse", "magpie/densegrid/heal2ortho.py:Heal2Ortho.transform"]}
{"id": "C121", "title": "Ring profiles of a remapped map converge to means over the rings", "statement": "If a map on a box is remapped to a polar grid and reduced with polar2radial (no weights), the profile of a grid all of whose pixels overlap the box converges, as the dense grid is refined or mc_size grows, to the integral of the map over each ring divided by the area of the ring for the dense grid class, and to the mean over the pixels of the ring of their area weighted means for the Monte Carlo class. For a ring inside the box both limits are the mean of the map over the ring.", "quantifier": "all boxes, polar grids that overlap the box, maps, accuracies; for the Monte Carlo class almost all sequences of random numbers", "why_tests_cant": "a limit in the number of points, over all geometries", "anchors": ["magpie/densegrid/box2ring.py:Box2Ring.remap", "magpie/densegrid/box2ring.py:Box2Ring.polar2radial", "magpie/montecarlo/box2ring.py:Box2Ring.remap", "magpie/montecarlo/box2ring.py:Box2Ring.polar2radial", "magpie/polar/polar2radial.py:polar2radial"]}
{"id": "C122", "title": "Orthographic views converge to means over the pixels of the view", "statement": "As rebin_x and rebin_y grow together, the value that Heal2Ortho.remap returns in every output pixel with its centre on the sphere converges to the mean of the HEALPix map over the part of the output pixel that is on the sphere: the values of the HEALPix pixels weighted by the area, in the view, in which they are seen, and by the weights if any. (True with weights. False without: the values are the rebin factor times a value that converges to the mean, and grow beyond all bounds.)", "quantifier": "all views (centre, size, radius, grid), all nside, all maps and weights with a non-zero total weight in the output pixel, every ang2pix that gives the directions inside a HEALPix pixel to that pixel", "why_tests_cant": "limit over all rebin factors, for a continuum of views", "anchors": ["magpie/densegrid/heal2ortho.py:Heal2Ortho.setup_box", "magpie/densegrid/heal2ortho.py:Heal2Ortho.remap"]}
{"id": "C123", "title": "The error of dense grid remapping is bounded at every refinement", "statement": "For every refinement m, equal in radius and angle, the value that the dense grid Box2Ring.remap returns in a polar pixel without weights is within 24*V*L/m of the integral of the map over the pixel divided by its area, where |map| <= V and L is the number of lines of the box grid that cross the polar pixel; a polar pixel that no line crosses is remapped without error for every m. With weights between 0 and W and a mean weight mu over the pixel with 24*W*L/m < mu, the value is a number within 48*V*W*L/(m*mu) of the weighted mean.", "quantifier": "all boxes, polar grids with two or more rings and sectors, maps, weights, refinements m >= 1 and pixels", "why_tests_cant": "A test compares one map at one refinement; a bound that holds for every map and every refinement needs a count of the cells that a line can cross.", "anchors": ["magpie/densegrid/box2ring.py:Box2Ring.remap", "magpie/densegrid/box2ring.py:Box2Ring.setup_polar", "magpie/densegrid/box2ring.py:Box2Ring._remap"]}
{"id": "C124", "title": "Draws from a table with the default cubic interpolation", "statement": "With the default kind='cubic', randoms_cdf accepts a table from 0 to 1 exactly if it has as many abscissas as entries, at least four, and no entry twice; otherwise it raises ValueError. The draws of an increasing table are the values of the one cubic spline with not-a-knot ends through the points: a variate that is in the table gives its abscissa, a table that is a polynomial of degree at most three is drawn from exactly, and a constant PDF gives uniform draws. The draws follow the table, i.e. P(draw <= x_k) = cdf_k, and lie in the range of the abscissas.", "quantifier": "all tables (lists of abscissas and CDF entries of any lengths), all PDFs on uniform bins, all variates in [0, 1)", "why_tests_cant": "A cubic spline may overshoot between the points; whether draws stay inside the table depends on every entry of it, and a test samples a few tables and a few variates.", "anchors": ["magpie/randoms/pdf.py:randoms_cdf", "magpie/randoms/pdf.py:randoms_pdf"]}
{"id": "C125", "title": "Tabulated distributions in double precision", "statement": "For a non-negative tabulated PDF of n bins (n at most 2^40, doubles, an integral that does not underflow) the CDF that pdf2cdf computes in double precision starts at exactly 0, ends at exactly 1, never decreases, and every entry is the exact one up to (n+3)*2^-51; so randoms_cdf accepts it. With kind='linear' a draw is the exact one up to 2^-48 of the largest abscissa and not below the first abscissa. With the default kind the draws succeed for every positive PDF, and linear draws do not exceed the last abscissa.", "quantifier": "all lengths, tables of doubles, variates in [0,1), with and without fused multiply-add", "why_tests_cant": "the errors depend on all the values of the table; the failures occur for tails far below the peak or for single variates out of 2^53", "anchors": ["magpie/randoms/pdf.py:pdf2cdf", "magpie/randoms/pdf.py:randoms_cdf", "magpie/randoms/pdf.py:randoms_pdf"]}
{"id": "C126", "title": "Cumulative radial profiles in double precision", "statement": "cumulative_radial in double precision returns the running integral of the profile up to (k+5)*2^-52 of the integral of |f| against pi*(r_out^2 + r_in^2), and its error estimates up to (k+8)*2^-52 in the same sense, apart from underflow; the first value and error are exactly 0, the errors are never NaN and never decrease, and the values never decrease for a profile that is not negative.", "quantifier": "all profiles, radii and error estimates, all lengths up to 2^40", "why_tests_cant": "rounding errors depend on every entry of the profile and on the cancellation between neighbouring radii", "anchors": ["magpie/polar/radial.py:cumulative_radial"]}
{"id": "C127", "title": "Dense grid remapping in double precision", "statement": "With rebin_r = rebin_p = m, the dense grid remap(f) in double precision returns for every polar pixel the area weighted mean of m*m values, each of which is the value the box has within 2^-44 of the sizes involved, plus twice the cell margin of C109, of the centre of a dense cell, or 0 outside; the error of the mean is at most m*2^-45 times the ratio of the outer disc to the ring times the largest value, whatever order NumPy adds in. So where no centre is that close to a boundary of a pixel the result agrees with that of exact arithmetic up to this error, and the mask of get_mask_in_bound is exactly 1 in pixels inside the box. remap(f, w) with weights from 0 to W reads data and weights at the same points; its error is at most m*2^-43 times the ratio of the disc to the ring times the largest value times W divided by the mean weight of the pixel, as long as that mean weight exceeds its own error fourfold, and a pixel without weight has no value.", "quantifier": "all boxes, polar grids, centres, shifts up to 16, rebin factors, data and orders of summation within the range of doubles", "why_tests_cant": "rounding errors of the edges, the cosines and the lookup decide which pixel is read, and depend on all arguments together", "anchors": ["magpie/densegrid/box2ring.py:Box2Ring._remap", "magpie/densegrid/box2ring.py:Box2Ring.setup_polar", "magpie/densegrid/box2ring.py:Box2Ring.remap", "magpie/densegrid/box2ring.py:Box2Ring.get_mask_in_bound"]}
{"id": "C128", "title": "Units and origin do not matter", "statement": "A client that gives all lengths in other units (box or cube limits, radii, centre multiplied by a factor c > 0) and all positions from another origin (limits and centre shifted) gets the same from every call of any history of calls on a Box2Ring or Cube2Shell object, dense grid or Monte Carlo with the same random variates: the same remapped maps, masks, radial means and their errors, and the same exceptions. For the Monte Carlo classes a change of units requires that the boxes and cubes have a width along each axis: one without a width is taken to have the width one in any units.", "quantifier": "every factor c > 0, every shift, every finite sequence of method calls with any arguments, every pixelisation and all random variates", "why_tests_cant": "A test compares two runs for a few factors and grids; a constant with a hidden unit, such as a width or tolerance, only shows for the lengths comparable to it.", "anchors": ["magpie/densegrid/box2ring.py:Box2Ring", "magpie/montecarlo/box2ring.py:Box2Ring", "magpie/densegrid/cube2shell.py:Cube2Shell", "magpie/montecarlo/cube2shell.py:Cube2Shell"]}
{"id": "C129", "title": "phi_shift by whole sectors moves the rows of the map", "statement": "If phi_shift is increased by the angular width of k sectors, the map that Box2Ring.remap returns is the old map with its rows moved by k: the row of a sector that now covers the directions of a former sector is the row of that sector, value for value. On a full circle this holds for every row, cyclically. For the dense grid it holds with and without weights, for the Monte Carlo class with linear and logarithmic radii, if the random variates are moved along with the sectors.", "quantifier": "every box, every polar grid (full circle or not, any phi_shift), every integer k, every finite map and weights, equal rebinning factors in both directions (dense grid), all random variates with which in each row two polar pixels touch different numbers of box pixels (Monte Carlo; for the others see C71)", "why_tests_cant": "A test compares a turned grid with the original for a few values of k; an angle wrapped at the wrong place shows only for the sectors next to it.", "anchors": ["magpie/densegrid/box2ring.py:Box2Ring.setup_polar", "magpie/densegrid/box2ring.py:Box2Ring.remap", "magpie/montecarlo/box2ring.py:Box2Ring.get_weights", "magpie/montecarlo/box2ring.py:Box2Ring.remap"]}
{"id": "C130", "title": "Dense grid remapping of a cube in double precision", "statement": "With an array indexed x, y, z, the dense grid Cube2Shell.remap(f) in double precision returns for every pixel of every shell the volume weighted mean over the dense points of the pixel of values, each of which is the value of a cell within 2^-44 of the sizes involved, plus twice the cell margin of C109, of one of the periodic images asked for, or 0 if near each image there is a point outside the cube; the error of the mean is at most 2^-45 times the number of samples in a pixel times the ratio of the outer ball to the shell times the largest value, whatever order NumPy adds in. So where no image of a dense point is that close to a boundary of a cell the result agrees with that of exact arithmetic up to this error, an array of ones gives exactly 1 in pixels inside the cube, and pixels outside are exactly 0.", "quantifier": "all cubes, shells, centres, periodic ranges, rebin factors, data up to 2^90 and orders of summation within the range of doubles", "why_tests_cant": "rounding errors of the edges, the angles, the shifted centres and the lookup decide which cell is read, and depend on all arguments together", "anchors": ["magpie/densegrid/cube2shell.py:Cube2Shell.remap", "magpie/densegrid/cube2shell.py:Cube2Shell.setup_polar", "magpie/densegrid/cube2shell.py:Cube2Shell.setup_cube"]}
{"id": "C131", "title": "rebin_1d in double precision stays within a proven rounding error", "statement": "In IEEE double precision rebin_1d raises the same exceptions as in exact arithmetic, returns NaN for the same new bins, and otherwise differs from the exact value by at most (2n+12)/2^52 times the largest |datum| (n old bins), whatever the order in which np.sum adds; with positive weights by at most (8n+55)/2^52 times the largest |datum| (plus a negligible constant). A new bin inside one old bin gets that bin's value without any rounding.", "quantifier": "all lists of doubles as edges and data, any number of old (fewer than 2^38) and new bins, all summation orders; edges equal or between 2^-200 and 2^200 apart, data and weights zero or of size between 2^-200 and 2^200, weights positive", "why_tests_cant": "Rounding errors depend on every edge and datum and on the order of summation; a test compares a few values with a tolerance that nobody has justified.", "anchors": ["magpie/one_d/one_d.py:rebin_1d", "magpie/one_d/one_d.py:_rebin_1d_single_bin"]}
{"id": "C132", "title": "Remapping is linear in the data, for every object state", "statement": "For both Box2Ring classes, Heal2Ortho and both Cube2Shell classes, after whatever calls have been made on the object, remapping a*f + b*g gives a times the remapped f plus b times the remapped g, entry by entry and with the same weights w (if any), NaN where one of the two is; or the three calls raise the same exception. Exceptions to this: Monte Carlo Cube2Shell writes the number hp.UNSEEN for pixels without random points, whatever the data are, and dense grid Cube2Shell needs data that healpy does not take for missing values.", "quantifier": "all object states, all real a and b, all f and g of the same shape, all weights", "why_tests_cant": "Tests compare a few maps of a few set-ups; linearity is about all pairs of maps and all factors.", "anchors": ["magpie/densegrid/box2ring.py:Box2Ring.remap", "magpie/montecarlo/box2ring.py:Box2Ring.remap", "magpie/densegrid/heal2ortho.py:Heal2Ortho.remap", "magpie/montecarlo/cube2shell.py:Cube2Shell.remap", "magpie/densegrid/cube2shell.py:Cube2Shell.remap"]}
{"id": "C133", "title": "Weights matter only up to a common factor", "statement": "For remap(f, w) of both Box2Ring classes, Heal2Ortho and the Monte Carlo Cube2Shell, and for the values and errors of polar2radial, the weights c*w with any number c other than 0 give exactly the result, or the exception, that w gives, whatever calls have been made on the object. Equal weights are the same as no weights, for these classes and for polar2radial.", "quantifier": "all object states, all data and weights, all c other than 0", "why_tests_cant": "Tests use a few weights; the claim is for every factor, every map and every history.", "anchors": ["magpie/densegrid/box2ring.py:Box2Ring.remap", "magpie/montecarlo/box2ring.py:Box2Ring.remap", "magpie/densegrid/heal2ortho.py:Heal2Ortho.remap", "magpie/montecarlo/cube2shell.py:Cube2Shell.remap", "magpie/polar/polar2radial.py:polar2radial"]}
{"id": "C134", "title": "The perspective view does not depend on units or origin", "statement": "Give camera, point looked at and all positions to PointOfView in units 1/k of the old ones and from another origin: transform returns the same bx, by and k times the distances, and reverse of the same bx, by with k times the distances returns the new coordinates of the same points, exceptions and positions without a finite image included. Multiplying the display distance by a factor multiplies bx and by by it. Only the direction of the point looked at matters, not its distance.", "quantifier": "all positive k, all offsets, cameras, points, display distances, spins, arrays of positions and earlier states of the object", "why_tests_cant": "The azimuth is wrapped and the colatitude is taken with a test for a zero radius, then several rotations are applied depending on further tests; a test tries a few units only.", "anchors": ["magpie/densegrid/pointofview.py:PointOfView.transform", "magpie/densegrid/pointofview.py:PointOfView.reverse", "magpie/coords/conversions.py:cart2sphere"]}
{"id": "C135", "title": "Larger data never give a smaller map, whatever was called before", "statement": "After any sequence of calls on a new object, whether or not some of them raised, remapping data g that are nowhere smaller than f (NaN at the same places), with weights that are not negative, gives a map that is nowhere smaller than the one of f and is NaN at the same pixels; or both calls raise the same exception. It holds for both Box2Ring classes, for Heal2Ortho and for both Cube2Shell classes (the dense grid Cube2Shell for finite data that healpy does not take for missing values), and for the ring profiles of polar2radial of both Box2Ring classes.", "quantifier": "all sequences of calls with all arguments, all random variates, all pairs of data arrays ordered entry by entry, all weights that are not negative", "why_tests_cant": "it compares two runs of the program on an object with an arbitrary history, for all pairs of inputs", "anchors": ["magpie/densegrid/box2ring.py:Box2Ring.remap", "magpie/montecarlo/box2ring.py:Box2Ring.remap", "magpie/densegrid/heal2ortho.py:Heal2Ortho.remap", "magpie/densegrid/cube2shell.py:Cube2Shell.remap", "magpie/montecarlo/cube2shell.py:Cube2Shell.remap"]}
{"id": "C136", "title": "A missing value spoils the pixels that sample it, and no others", "statement": "If the box data contain missing values (NaN), Box2Ring.remap returns wherever it returns for complete data. A polar pixel of the result is NaN if one of its sample points (the centres of the fine grid, or the random points of the Monte Carlo version) is in a box cell with a missing value, even if the weight of that cell is zero. Otherwise its value is the same (weighted) mean of the values at its sample points as for complete data. In particular a pixel depends only on the cells of the box that have a point in common with it: data that agree there and are arbitrary elsewhere give the same value.", "quantifier": "all boxes, polar grids, refinements, random variates, weights, and data with missing values anywhere, on objects with any history", "why_tests_cant": "Where the holes are and which pixels they reach depends on the geometry; a test looks at a few patterns of holes.", "anchors": ["magpie/densegrid/box2ring.py:Box2Ring.remap", "magpie/montecarlo/box2ring.py:Box2Ring.remap"]}
{"id": "C137", "title": "A missing voxel never turns into a number in a shell map", "statement": "For Cube2Shell, missing values (NaN) in the cube propagate and nothing else does: a pixel of the shell map is missing if one of its sample points (random points for the Monte Carlo method, dense grid points or their periodic images for the dense grid method) is in a voxel with a missing value, and otherwise it is the mean of the values at its sample points. A missing value never ends up as a finite number in the map, and never makes remap raise.", "quantifier": "all cubes and shell grids, all data with any set of missing voxels, all weights, all random draws, all objects with any history", "why_tests_cant": "Whether a missing voxel shows depends on how the sample points of a pixel fall among the voxels and among the radial layers; tests use data without missing values.", "anchors": ["magpie/montecarlo/cube2shell.py:Cube2Shell.remap", "magpie/densegrid/cube2shell.py:Cube2Shell.remap"]}
{"id": "C138", "title": "A missing map pixel spoils only the view pixels that show it", "statement": "When the perspective view of a HEALPix map is computed and some pixels of the map are missing (NaN), a pixel of the view is missing if and only if its centre is outside the disc or one of its sample points on the disc shows a missing map pixel. All other view pixels are finite and equal to the mean over their sample points on the disc. With weights, a missing map pixel makes a view pixel that shows it missing even if its weight is zero.", "quantifier": "all map resolutions, view geometries, centres, equal refinement factors in x and y, sets of missing map pixels, weights, and histories of the object", "why_tests_cant": "Whether a missing value reaches a pixel depends on which of infinitely many directions the sample points have, and on the sample points outside the disc, which are looked up as well and multiplied by zero. NaN times zero is NaN, which a test with a few maps does not reveal.", "anchors": ["magpie/densegrid/heal2ortho.py:Heal2Ortho.remap", "magpie/densegrid/heal2ortho.py:Heal2Ortho.setup_box"]}
{"id": "C139", "title": "Straight lines look straight in the perspective view", "statement": "In the perspective view of a set of points, a straight line between two points in front of the camera appears as the straight line between their images. Two points in front of the camera appear at the same place exactly if they are on one line of sight, and if their distances agree too they are the same point. Parallel lines that lead away from the camera run together at the place where the camera sees their direction. A point behind the camera appears at the place and distance of its mirror image in the camera.", "quantifier": "all cameras, points looked at, display distances, spins from 0 up to a full turn, pairs of points, points on the line between them, directions, arrays of points and histories of the object", "why_tests_cant": "A picture with a few points always looks plausible. That all lines stay straight and no two lines of sight are mixed up depends on four rotations of the sky that must cancel exactly for every camera, and the limit along parallel lines is not reached by any finite set of points.", "anchors": ["magpie/densegrid/pointofview.py:PointOfView.setup", "magpie/densegrid/pointofview.py:PointOfView.transform"]}
{"id": "C140", "title": "A missing pixel of a polar map spoils the profile at its radius only", "statement": "If some pixels of a polar map are missing (NaN), its radial profile is missing exactly at the radii of these pixels, and equal to the weighted mean everywhere else. A missing pixel that does not count, because it is outside the box or has weight zero, does not spoil the profile.", "quantifier": "all polar maps of any size, sets of missing pixels, weights, errors, masks and histories of the remapping objects", "why_tests_cant": "Which radii are spoilt depends on the positions of arbitrarily many missing pixels and on the order of masking and summing. NaN times a zero weight is NaN, so a mask works in all tests with finite data and fails with the missing data that masks are for.", "anchors": ["magpie/polar/polar2radial.py:polar2radial", "magpie/montecarlo/box2ring.py:Box2Ring.polar2radial", "magpie/densegrid/box2ring.py:Box2Ring.polar2radial"]}
{"id": "C141", "title": "A missing bin spoils only the new bins that overlap it", "statement": "When rebin_1d is given data with NaN in some bins, with or without weights, a new bin becomes NaN if it overlaps a bin whose value is missing, and every other new bin has the value it has for complete data, whatever stands in the missing places.", "quantifier": "all lists of edges and new edges that rebin_1d accepts, all data, every set of missing bins, with and without weights", "why_tests_cant": "The number of bins and the set of missing bins are unbounded, and the behaviour depends on whether old and new edges coincide.", "anchors": ["magpie/one_d/one_d.py:rebin_1d", "magpie/one_d/one_d.py:_rebin_1d_single_bin"]}
{"id": "C142", "title": "A missing ring spoils the running integral from there on and nowhere before", "statement": "If some values of a radial profile are missing (NaN), cumulative_radial still succeeds; the integral up to an edge is missing exactly if a ring below this edge is missing, and otherwise has the value given by the rings below. The errors behave the same, and missing values of the profile do not affect the errors or the other way round. For the profile of a polar map the integral at an edge is missing exactly if a pixel at a smaller radius is missing.", "quantifier": "all radial edges, all profiles and errors of matching lengths, every set of missing values, all polar maps with at least one angle", "why_tests_cant": "The number of rings and the set of missing values are unbounded; a test checks single patterns.", "anchors": ["magpie/polar/radial.py:cumulative_radial", "magpie/polar/polar2radial.py:polar2radial"]}
{"id": "C143", "title": "A missing error spoils the error of the profile at its radius only", "statement": "If some pixels of the error map given to polar2radial are missing (NaN), the errors of the radial profile are missing at the radii of those pixels and at all other radii have the values they have for complete errors, with or without weights; missing values of the map itself never affect the errors.", "quantifier": "all maps, areas, error maps and weights of matching shapes, every set of missing pixels", "why_tests_cant": "Shapes and the set of missing pixels are unbounded; a test checks single patterns.", "anchors": ["magpie/polar/polar2radial.py:polar2radial"]}
{"id": "C144", "title": "Turning the axis around turns the rebinned data around", "statement": "Rebinning the mirror image of the data (edges negated and reversed, values reversed) onto the mirror image of the new bins gives the mirror image of the result of rebin_1d: no direction of the axis is preferred.", "quantifier": "all lists of edges and new edges that rebin_1d accepts, all data", "why_tests_cant": "The number of bins and their edges are unbounded; the code treats the first and the last bin by different formulas, so a test on one grid does not show the asymmetry on another.", "anchors": ["magpie/one_d/one_d.py:rebin_1d", "magpie/one_d/one_d.py:_rebin_1d_single_bin"]}
{"id": "C145", "title": "Rebinning onto bins that divide the same range preserves the integral", "statement": "If the new bins divide the range of the data, rebin_1d returns a number in every new bin, and the sum of value times bin length over the new bins equals that sum over the old bins.", "quantifier": "all lists of edges, all data, all increasing new edges from the first to the last edge of the data", "why_tests_cant": "The numbers of old and new bins and the positions of the edges are unbounded; the formulas differ for bins with no, one or several edges inside, and rounding hides small errors in tests.", "anchors": ["magpie/one_d/one_d.py:rebin_1d", "magpie/one_d/one_d.py:_rebin_1d_single_bin"]}
{"id": "C146", "title": "A rebinned value depends only on the bins that the new bin overlaps", "statement": "If two data sets on the same edges agree on all bins that a new bin overlaps, rebin_1d gives both the same value in that new bin.", "quantifier": "all increasing edges, all pairs of data, all new bins", "why_tests_cant": "The number of bins and the positions of the edges are unbounded; an off-by-one in the search for the first or last bin, or a weight of the wrong bin, brings in a neighbour only for some positions.", "anchors": ["magpie/one_d/one_d.py:rebin_1d", "magpie/one_d/one_d.py:_rebin_1d_single_bin"]}
{"id": "C147", "title": "Splitting bins and merging them again returns the data", "statement": "If edges are added between the first and the last edge, rebin_1d gives each short bin the value of the bin it lies in, and rebinning the short bins onto the old edges returns the original data.", "quantifier": "all increasing edges of bins of any lengths, all data, all increasing lists that contain these edges and have the same first and last edge", "why_tests_cant": "The number of bins, the number of added edges and their positions are unbounded; the code takes different paths for a new bin with no, one or several old edges inside.", "anchors": ["magpie/one_d/one_d.py:rebin_1d", "magpie/one_d/one_d.py:_rebin_1d_single_bin"]}
