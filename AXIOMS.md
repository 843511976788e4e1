# Axioms of every theorem in MANIFEST.json

Output of `#print axioms`, in the namespace `Magpie.Props`.

| Property | Theorem | Axioms |
|---|---|---|
| C01 | `C01_pix_ring_pix` | propext, Classical.choice, Quot.sound |
| C02 | `C02_range` | propext, Classical.choice, Quot.sound |
| C02 | `C02_ring_pix_ring` | propext, Classical.choice, Quot.sound |
| C02 | `C02_bijection` | propext, Classical.choice, Quot.sound |
| C03 | `C03_ordering` | propext, Classical.choice, Quot.sound |
| C04 | `C04_centre` | propext, Classical.choice, Quot.sound |
| C05 | `C05_disjoint` | propext, Classical.choice, Quot.sound |
| C06 | `C06_star_roundtrip` | propext, Classical.choice, Quot.sound |
| C07 | `C07_star_range` | propext, Classical.choice, Quot.sound |
| C07 | `C07_pairs_partial` | propext, Classical.choice, Quot.sound |
| C07 | `C07_arrays_partial` | propext, Classical.choice, Quot.sound |
| C07 | `C07_names_partial` | propext, Classical.choice, Quot.sound |
| C07 | `C07_edge_partial` | propext, Classical.choice, Quot.sound |
| C07 | `C07_neighbour_pairs_partial` | propext, Classical.choice, Quot.sound |
| C07 | `C07_violated` | propext, Classical.choice, Quot.sound |
| C07 | `C07_violated_edge` | propext, Classical.choice, Quot.sound |
| C07 | `C07_violated_one` | propext, Classical.choice, Quot.sound |
| C07 | `C07_violated_wrap` | propext, Classical.choice, Quot.sound |
| C08 | `C08_pix2ij` | propext, Classical.choice, Quot.sound |
| C08 | `C08_pix2ij_defined` | propext, Classical.choice, Quot.sound |
| C08 | `C08_ij2pix` | propext, Classical.choice, Quot.sound |
| C08 | `C08_j2jd` | propext, Classical.choice, Quot.sound |
| C08 | `C08_xy2ang` | propext, Classical.choice, Quot.sound |
| C08 | `C08_ang2xy` | propext, Classical.choice, Quot.sound |
| C09 | `C09_violated_above` | propext, Classical.choice, Quot.sound |
| C09 | `C09_violated_below` | propext, Classical.choice, Quot.sound |
| C09 | `C09_violated_array` | propext, Classical.choice, Quot.sound |
| C09 | `C09_rejected_partial` | propext, Classical.choice, Quot.sound |
| C10 | `C10_sky_plane_sky` | propext, Classical.choice, Quot.sound |
| C10 | `C10_poles` | propext, Classical.choice, Quot.sound |
| C10 | `C10_plane_sky_plane` | propext, Classical.choice, Quot.sound |
| C100 | `C100_sphere_partial` | propext, Classical.choice, Quot.sound |
| C100 | `C100_polar_partial` | propext, Classical.choice, Quot.sound |
| C100 | `C100_arrays` | propext, Classical.choice, Quot.sound |
| C100 | `C100_axis` | propext, Classical.choice, Quot.sound |
| C100 | `C100_violated` | propext, Classical.choice, Quot.sound |
| C100 | `C100_underflow` | propext, Classical.choice, Quot.sound |
| C101 | `C101_phi_shift64` | propext, Classical.choice, Quot.sound |
| C101 | `C101_arrays` | propext, Classical.choice, Quot.sound |
| C102 | `C102_ortho64` | propext, Classical.choice, Quot.sound |
| C102 | `C102_outside` | propext, Classical.choice, Quot.sound |
| C102 | `C102_edge` | propext, Classical.choice, Quot.sound |
| C102 | `C102_arrays` | propext, Classical.choice, Quot.sound |
| C103 | `C103_law` | propext, Classical.choice, Quot.sound |
| C103 | `C103_limit_partial` | propext, Classical.choice, Quot.sound |
| C103 | `C103_outside` | propext, Classical.choice, Quot.sound |
| C103 | `C103_returns_partial` | propext, Classical.choice, Quot.sound |
| C103 | `C103_bound` | propext, Classical.choice, Quot.sound |
| C103 | `C103_violated` | propext, Classical.choice, Quot.sound |
| C104 | `C104_identity_partial` | propext, Classical.choice, Quot.sound |
| C104 | `C104_identity_2d_partial` | propext, Classical.choice, Quot.sound |
| C104 | `C104_identity_3d_partial` | propext, Classical.choice, Quot.sound |
| C104 | `C104_violated` | propext, Classical.choice, Quot.sound |
| C104 | `C104_far_violated` | propext, Classical.choice, Quot.sound |
| C105 | `C105_exceptions` | propext, Classical.choice, Quot.sound |
| C105 | `C105_accuracy_partial` | propext, Classical.choice, Quot.sound |
| C105 | `C105_accuracy_2d_partial` | propext, Classical.choice, Quot.sound |
| C105 | `C105_accuracy_3d_partial` | propext, Classical.choice, Quot.sound |
| C105 | `C105_constant_partial` | propext, Classical.choice, Quot.sound |
| C106 | `C106_dgcube_partial` | propext, Classical.choice, Quot.sound |
| C106 | `C106_dgcube_violated` | propext, Classical.choice, Quot.sound |
| C106 | `C106_mccube_partial` | propext, Classical.choice, Quot.sound |
| C106 | `C106_mccube_violated` | propext, Classical.choice, Quot.sound |
| C106 | `C106_ortho_partial` | propext, Classical.choice, Quot.sound |
| C106 | `C106_ortho_violated` | propext, Classical.choice, Quot.sound |
| C106 | `C106_pov` | propext, Classical.choice, Quot.sound |
| C107 | `C107_box` | propext, Classical.choice, Quot.sound |
| C107 | `C107_dg` | propext, Classical.choice, Quot.sound |
| C107 | `C107_mc_lin` | propext, Classical.choice, Quot.sound |
| C107 | `C107_mc_log` | propext, Classical.choice, Quot.sound |
| C107 | `C107_mc_weights` | propext, Classical.choice, Quot.sound |
| C107 | `C107_cube` | propext, Classical.choice, Quot.sound |
| C107 | `C107_dgshell` | propext, Classical.choice, Quot.sound |
| C107 | `C107_mcshell_lin` | propext, Classical.choice, Quot.sound |
| C107 | `C107_mcshell_log` | propext, Classical.choice, Quot.sound |
| C107 | `C107_mcshell_weights` | propext, Classical.choice, Quot.sound |
| C107 | `C107_map` | propext, Classical.choice, Quot.sound |
| C107 | `C107_mccap` | propext, Classical.choice, Quot.sound |
| C107 | `C107_dgcap_partial` | propext, Classical.choice, Quot.sound |
| C107 | `C107_mcskybox` | propext, Classical.choice, Quot.sound |
| C107 | `C107_dgskybox_partial` | propext, Classical.choice, Quot.sound |
| C107 | `C107_heal_weights` | propext, Classical.choice, Quot.sound |
| C107 | `C107_ortho_partial` | propext, Classical.choice, Quot.sound |
| C107 | `C107_reads` | propext, Classical.choice, Quot.sound |
| C107 | `C107_dg_history_partial` | propext, Classical.choice, Quot.sound |
| C107 | `C107_mc_history_partial` | propext, Classical.choice, Quot.sound |
| C107 | `C107_mcshell_history_partial` | propext, Classical.choice, Quot.sound |
| C107 | `C107_dgshell_history_partial` | propext, Classical.choice, Quot.sound |
| C107 | `C107_attributes` | propext, Classical.choice, Quot.sound |
| C107 | `C107_mc_violated` | propext, Classical.choice, Quot.sound |
| C107 | `C107_ortho_violated` | propext, Classical.choice, Quot.sound |
| C107 | `C107_numz_violated` | propext, Classical.choice, Quot.sound |
| C107 | `C107_numz_moved_violated` | propext, Classical.choice, Quot.sound |
| C107 | `C107_numz_remap_violated` | propext, Classical.choice, Quot.sound |
| C108 | `C108_edges` | propext, Classical.choice, Quot.sound |
| C108 | `C108_strict` | propext, Classical.choice, Quot.sound |
| C108 | `C108_get_xedges` | propext, Classical.choice, Quot.sound |
| C108 | `C108_mids` | propext, Classical.choice, Quot.sound |
| C108 | `C108_grid1d` | propext, Classical.choice, Quot.sound |
| C108 | `C108_rebin_accepts` | propext, Classical.choice, Quot.sound |
| C108 | `C108_underflow` | propext, Classical.choice, Quot.sound |
| C109 | `C109_inside` | propext, Classical.choice, Quot.sound |
| C109 | `C109_near` | propext, Classical.choice, Quot.sound |
| C109 | `C109_outside` | propext, Classical.choice, Quot.sound |
| C11 | `C11_equal_area` | propext, Classical.choice, Quot.sound |
| C11 | `C11_pixel_area` | propext, Classical.choice, Quot.sound |
| C110 | `C110_coarsen` | propext, Classical.choice, Quot.sound |
| C110 | `C110_refine` | propext, Classical.choice, Quot.sound |
| C110 | `C110_roundtrip` | propext, Classical.choice, Quot.sound |
| C110 | `C110_coarsen_2d` | propext, Classical.choice, Quot.sound |
| C110 | `C110_refine_2d` | propext, Classical.choice, Quot.sound |
| C110 | `C110_coarsen_3d` | propext, Classical.choice, Quot.sound |
| C110 | `C110_refine_3d` | propext, Classical.choice, Quot.sound |
| C110 | `C110_crop` | propext, Classical.choice, Quot.sound |
| C111 | `C111_affine` | propext, Classical.choice, Quot.sound |
| C111 | `C111_mirror` | propext, Classical.choice, Quot.sound |
| C111 | `C111_transpose` | propext, Classical.choice, Quot.sound |
| C112 | `C112_same_edges` | propext, Classical.choice, Quot.sound |
| C112 | `C112_same_edges_weights` | propext, Classical.choice, Quot.sound |
| C112 | `C112_linear` | propext, Classical.choice, Quot.sound |
| C112 | `C112_nan_edges_only` | propext, Classical.choice, Quot.sound |
| C112 | `C112_monotone` | propext, Classical.choice, Quot.sound |
| C112 | `C112_weights_scale` | propext, Classical.choice, Quot.sound |
| C112 | `C112_errors_scale` | propext, Classical.choice, Quot.sound |
| C112 | `C112_errors_partial` | propext, Classical.choice, Quot.sound |
| C112 | `C112_errors_violated` | propext, Classical.choice, Quot.sound |
| C112 | `C112_errors_single_violated` | propext, Classical.choice, Quot.sound |
| C113 | `C113_ring` | propext, Classical.choice, Quot.sound |
| C113 | `C113_shell` | propext, Classical.choice, Quot.sound |
| C113 | `C113_ring_some` | propext, Classical.choice, Quot.sound |
| C113 | `C113_shell_some` | propext, Classical.choice, Quot.sound |
| C114 | `C114_polar` | propext, Classical.choice, Quot.sound |
| C114 | `C114_usphere` | propext, Classical.choice, Quot.sound |
| C114 | `C114_sphere_r_partial` | propext, Classical.choice, Quot.sound |
| C114 | `C114_sphere_r_violated` | propext, Classical.choice, Quot.sound |
| C114 | `C114_tiny_violated` | propext, Classical.choice, Quot.sound |
| C115 | `C115_shuffle` | propext, Classical.choice, Quot.sound |
| C115 | `C115_draw` | propext, Classical.choice, Quot.sound |
| C115 | `C115_draw_contains` | propext, Classical.choice, Quot.sound |
| C115 | `C115_prob_draw` | propext, Classical.choice, Quot.sound |
| C115 | `C115_sized_order` | propext, Classical.choice, Quot.sound |
| C115 | `C115_sized_equal` | propext, Classical.choice, Quot.sound |
| C115 | `C115_sized_violated` | propext, Classical.choice, Quot.sound |
| C116 | `C116_polar` | propext, Classical.choice, Quot.sound |
| C116 | `C116_usphere` | propext, Classical.choice, Quot.sound |
| C116 | `C116_sphere` | propext, Classical.choice, Quot.sound |
| C116 | `C116_healpix` | propext, Classical.choice, Quot.sound |
| C116 | `C116_cdf` | propext, Classical.choice, Quot.sound |
| C116 | `C116_pdf` | propext, Classical.choice, Quot.sound |
| C116 | `C116_integer` | propext, Classical.choice, Quot.sound |
| C116 | `C116_binary` | propext, Classical.choice, Quot.sound |
| C116 | `C116_ring_draws` | propext, Classical.choice, Quot.sound |
| C116 | `C116_shell_draws` | propext, Classical.choice, Quot.sound |
| C117 | `C117_limit` | propext, Classical.choice, Quot.sound |
| C117 | `C117_integral` | propext, Classical.choice, Quot.sound |
| C117 | `C117_fraction` | propext, Classical.choice, Quot.sound |
| C118 | `C118_ring` | propext, Classical.choice, Quot.sound |
| C118 | `C118_ring_weights` | propext, Classical.choice, Quot.sound |
| C118 | `C118_remap` | propext, Classical.choice, Quot.sound |
| C118 | `C118_remap_weights` | propext, Classical.choice, Quot.sound |
| C118 | `C118_mask` | propext, Classical.choice, Quot.sound |
| C118 | `C118_no_overflow` | propext, Classical.choice, Quot.sound |
| C118 | `C118_constant_violated` | propext, Classical.choice, Quot.sound |
| C119 | `C119_dg_exchanged_x` | propext, Classical.choice, Quot.sound |
| C119 | `C119_dg_exchanged_y` | propext, Classical.choice, Quot.sound |
| C119 | `C119_dg_empty` | propext, Classical.choice, Quot.sound |
| C119 | `C119_dg_cube_exchanged_x` | propext, Classical.choice, Quot.sound |
| C119 | `C119_dg_cube_exchanged_y` | propext, Classical.choice, Quot.sound |
| C119 | `C119_dg_cube_exchanged_z` | propext, Classical.choice, Quot.sound |
| C119 | `C119_dg_cube_empty` | propext, Classical.choice, Quot.sound |
| C119 | `C119_mc_exchanged` | propext, Classical.choice, Quot.sound |
| C119 | `C119_mc_cube_exchanged` | propext, Classical.choice, Quot.sound |
| C119 | `C119_mc_empty_violated` | propext, Classical.choice, Quot.sound |
| C119 | `C119_mc_empty_mean_violated` | propext, Classical.choice, Quot.sound |
| C119 | `C119_mc_cube_empty_violated` | propext, Classical.choice, Quot.sound |
| C12 | `C12_boundary` | propext, Classical.choice, Quot.sound |
| C120 | `C120_shift` | propext, Classical.choice, Quot.sound |
| C120 | `C120_spin` | propext, Classical.choice, Quot.sound |
| C120 | `C120_rotate` | propext, Classical.choice, Quot.sound |
| C120 | `C120_ortho` | propext, Classical.choice, Quot.sound |
| C120 | `C120_pov_transform` | propext, Classical.choice, Quot.sound |
| C120 | `C120_pov_reverse` | propext, Classical.choice, Quot.sound |
| C121 | `C121_profile` | propext, Classical.choice, Quot.sound |
| C121 | `C121_inside` | propext, Classical.choice, Quot.sound |
| C121 | `C121_one` | propext, Classical.choice, Quot.sound |
| C121 | `C121_mc_partial` | propext, Classical.choice, Quot.sound |
| C121 | `C121_mc_inside` | propext, Classical.choice, Quot.sound |
| C122 | `C122_area` | propext, Classical.choice, Quot.sound |
| C122 | `C122_weighted_partial` | propext, Classical.choice, Quot.sound |
| C122 | `C122_remap_partial` | propext, Classical.choice, Quot.sound |
| C122 | `C122_violated` | propext, Classical.choice, Quot.sound |
| C123 | `C123_rate` | propext, Classical.choice, Quot.sound |
| C123 | `C123_exact` | propext, Classical.choice, Quot.sound |
| C123 | `C123_weighted` | propext, Classical.choice, Quot.sound |
| C123 | `C123_lines` | propext, Classical.choice, Quot.sound |
| C124 | `C124_unique` | propext, Classical.choice, Quot.sound |
| C124 | `C124_accepts` | propext, Classical.choice, Quot.sound |
| C124 | `C124_spline` | propext, Classical.choice, Quot.sound |
| C124 | `C124_table` | propext, Classical.choice, Quot.sound |
| C124 | `C124_cubic` | propext, Classical.choice, Quot.sound |
| C124 | `C124_uniform` | propext, Classical.choice, Quot.sound |
| C124 | `C124_pdf_rejects` | propext, Classical.choice, Quot.sound |
| C124 | `C124_law_partial` | propext, Classical.choice, Quot.sound |
| C124 | `C124_violated` | propext, Classical.choice, Quot.sound |
| C125 | `C125_cdf` | propext, Classical.choice, Quot.sound |
| C125 | `C125_no_overflow` | propext, Classical.choice, Quot.sound |
| C125 | `C125_linear` | propext, Classical.choice, Quot.sound |
| C125 | `C125_default_violated` | propext, Classical.choice, Quot.sound |
| C125 | `C125_underflow_violated` | propext, Classical.choice, Quot.sound |
| C125 | `C125_range_violated` | propext, Classical.choice, Quot.sound |
| C126 | `C126_values` | propext, Classical.choice, Quot.sound |
| C126 | `C126_errors` | propext, Classical.choice, Quot.sound |
| C127 | `C127_remap` | propext, Classical.choice, Quot.sound |
| C127 | `C127_exact` | propext, Classical.choice, Quot.sound |
| C127 | `C127_mask` | propext, Classical.choice, Quot.sound |
| C127 | `C127_weighted` | propext, Classical.choice, Quot.sound |
| C127 | `C127_weighted_exact` | propext, Classical.choice, Quot.sound |
| C128 | `C128_dense_ring` | propext, Classical.choice, Quot.sound |
| C128 | `C128_mc_ring` | propext, Classical.choice, Quot.sound |
| C128 | `C128_dense_shell` | propext, Classical.choice, Quot.sound |
| C128 | `C128_mc_shell` | propext, Classical.choice, Quot.sound |
| C128 | `C128_width_needed` | propext, Classical.choice, Quot.sound |
| C129 | `C129_dense` | propext, Classical.choice, Quot.sound |
| C129 | `C129_dense_weighted` | propext, Classical.choice, Quot.sound |
| C129 | `C129_mc` | propext, Classical.choice, Quot.sound |
| C129 | `C129_mc_circle` | propext, Classical.choice, Quot.sound |
| C129 | `C129_cyclic` | propext, Classical.choice, Quot.sound |
| C13 | `C13_plane` | propext, Classical.choice, Quot.sound |
| C13 | `C13_sky` | propext, Classical.choice, Quot.sound |
| C130 | `C130_remap` | propext, Classical.choice, Quot.sound |
| C130 | `C130_exact` | propext, Classical.choice, Quot.sound |
| C130 | `C130_ones` | propext, Classical.choice, Quot.sound |
| C130 | `C130_outside` | propext, Classical.choice, Quot.sound |
| C131 | `C131_rebin` | propext, Classical.choice, Quot.sound |
| C131 | `C131_weighted` | propext, Classical.choice, Quot.sound |
| C131 | `C131_inside` | propext, Classical.choice, Quot.sound |
| C132 | `C132_dense_box` | propext, Classical.choice, Quot.sound |
| C132 | `C132_mc_box` | propext, Classical.choice, Quot.sound |
| C132 | `C132_ortho` | propext, Classical.choice, Quot.sound |
| C132 | `C132_mc_cube` | propext, Classical.choice, Quot.sound |
| C132 | `C132_dense_cube` | propext, Classical.choice, Quot.sound |
| C132 | `C132_usual_needed` | propext, Classical.choice, Quot.sound |
| C133 | `C133_dense_box` | propext, Classical.choice, Quot.sound |
| C133 | `C133_mc_box` | propext, Classical.choice, Quot.sound |
| C133 | `C133_ortho` | propext, Classical.choice, Quot.sound |
| C133 | `C133_mc_cube` | propext, Classical.choice, Quot.sound |
| C133 | `C133_radial` | propext, Classical.choice, Quot.sound |
| C133 | `C133_radial_sigma` | propext, Classical.choice, Quot.sound |
| C133 | `C133_equal_mc_box` | propext, Classical.choice, Quot.sound |
| C133 | `C133_equal_mc_cube` | propext, Classical.choice, Quot.sound |
| C133 | `C133_equal_radial` | propext, Classical.choice, Quot.sound |
| C133 | `C133_equal_radial_sigma` | propext, Classical.choice, Quot.sound |
| C133 | `C133_equal_dense_box_partial` | propext, Classical.choice, Quot.sound |
| C133 | `C133_equal_dense_box_violated` | propext, Classical.choice, Quot.sound |
| C133 | `C133_equal_ortho_violated` | propext, Classical.choice, Quot.sound |
| C134 | `C134_transform` | propext, Classical.choice, Quot.sound |
| C134 | `C134_reverse` | propext, Classical.choice, Quot.sound |
| C134 | `C134_transform_number` | propext, Classical.choice, Quot.sound |
| C134 | `C134_reverse_number` | propext, Classical.choice, Quot.sound |
| C134 | `C134_zoom` | propext, Classical.choice, Quot.sound |
| C134 | `C134_direction` | propext, Classical.choice, Quot.sound |
| C135 | `C135_dense_box` | propext, Classical.choice, Quot.sound |
| C135 | `C135_mc_box` | propext, Classical.choice, Quot.sound |
| C135 | `C135_ortho` | propext, Classical.choice, Quot.sound |
| C135 | `C135_mc_cube` | propext, Classical.choice, Quot.sound |
| C135 | `C135_dense_cube` | propext, Classical.choice, Quot.sound |
| C135 | `C135_dense_profile` | propext, Classical.choice, Quot.sound |
| C135 | `C135_mc_profile` | propext, Classical.choice, Quot.sound |
| C135 | `C135_negative_weights` | propext, Classical.choice, Quot.sound |
| C136 | `C136_dense` | propext, Classical.choice, Quot.sound |
| C136 | `C136_dense_weighted` | propext, Classical.choice, Quot.sound |
| C136 | `C136_dense_local` | propext, Classical.choice, Quot.sound |
| C136 | `C136_mc` | propext, Classical.choice, Quot.sound |
| C136 | `C136_mc_local` | propext, Classical.choice, Quot.sound |
| C136 | `C136_mc_returns` | propext, Classical.choice, Quot.sound |
| C137 | `C137_mc` | propext, Classical.choice, Quot.sound |
| C137 | `C137_mc_returns` | propext, Classical.choice, Quot.sound |
| C137 | `C137_dense_partial` | propext, Classical.choice, Quot.sound |
| C137 | `C137_dense_violated` | propext, Classical.choice, Quot.sound |
| C138 | `C138_remap_partial` | propext, Classical.choice, Quot.sound |
| C138 | `C138_inner` | propext, Classical.choice, Quot.sound |
| C138 | `C138_weighted` | propext, Classical.choice, Quot.sound |
| C138 | `C138_violated` | propext, Classical.choice, Quot.sound |
| C139 | `C139_segment` | propext, Classical.choice, Quot.sound |
| C139 | `C139_line` | propext, Classical.choice, Quot.sound |
| C139 | `C139_sight` | propext, Classical.choice, Quot.sound |
| C139 | `C139_parallel` | propext, Classical.choice, Quot.sound |
| C139 | `C139_behind` | propext, Classical.choice, Quot.sound |
| C14 | `C14_uniform` | propext, Classical.choice, Quot.sound |
| C14 | `C14_area` | propext, Classical.choice, Quot.sound |
| C140 | `C140_profile` | propext, Classical.choice, Quot.sound |
| C140 | `C140_weighted_partial` | propext, Classical.choice, Quot.sound |
| C140 | `C140_dense_partial` | propext, Classical.choice, Quot.sound |
| C140 | `C140_mc_partial` | propext, Classical.choice, Quot.sound |
| C140 | `C140_local` | propext, Classical.choice, Quot.sound |
| C140 | `C140_masked_violated` | propext, Classical.choice, Quot.sound |
| C141 | `C141_rebin_partial` | propext, Classical.choice, Quot.sound |
| C141 | `C141_overlap_partial` | propext, Classical.choice, Quot.sound |
| C141 | `C141_left_violated` | propext, Classical.choice, Quot.sound |
| C141 | `C141_right_violated` | propext, Classical.choice, Quot.sound |
| C141 | `C141_complete` | propext, Classical.choice, Quot.sound |
| C142 | `C142_running` | propext, Classical.choice, Quot.sound |
| C142 | `C142_missing` | propext, Classical.choice, Quot.sound |
| C142 | `C142_complete` | propext, Classical.choice, Quot.sound |
| C142 | `C142_map` | propext, Classical.choice, Quot.sound |
| C143 | `C143_errors` | propext, Classical.choice, Quot.sound |
| C143 | `C143_data` | propext, Classical.choice, Quot.sound |
| C143 | `C143_complete` | propext, Classical.choice, Quot.sound |
| C144 | `C144_mirror_partial` | propext, Classical.choice, Quot.sound |
| C144 | `C144_nan` | propext, Classical.choice, Quot.sound |
| C144 | `C144_cover_violated` | propext, Classical.choice, Quot.sound |
| C144 | `C144_unequal_violated` | propext, Classical.choice, Quot.sound |
| C145 | `C145_integral_partial` | propext, Classical.choice, Quot.sound |
| C145 | `C145_single_violated` | propext, Classical.choice, Quot.sound |
| C145 | `C145_unequal_violated` | propext, Classical.choice, Quot.sound |
| C146 | `C146_local_partial` | propext, Classical.choice, Quot.sound |
| C146 | `C146_weighted_partial` | propext, Classical.choice, Quot.sound |
| C146 | `C146_touch_violated` | propext, Classical.choice, Quot.sound |
| C147 | `C147_split_merge` | propext, Classical.choice, Quot.sound |
| C147 | `C147_weighted` | propext, Classical.choice, Quot.sound |
| C15 | `C15_cart_polar_cart` | propext, Classical.choice, Quot.sound |
| C16 | `C16_polar_cart_polar` | propext, Classical.choice, Quot.sound |
| C17 | `C17_cart_sphere_cart` | propext, Classical.choice, Quot.sound |
| C18 | `C18_sphere_cart_sphere` | propext, Classical.choice, Quot.sound |
| C19 | `C19_cart2polar` | propext, Classical.choice, Quot.sound |
| C19 | `C19_cart2sphere` | propext, Classical.choice, Quot.sound |
| C19 | `C19_ortho2cart` | propext, Classical.choice, Quot.sound |
| C19 | `C19_phi_shift` | propext, Classical.choice, Quot.sound |
| C19 | `C19_rotate` | propext, Classical.choice, Quot.sound |
| C20 | `C20_ortho` | propext, Classical.choice, Quot.sound |
| C21 | `C21_area_partial` | propext, Classical.choice, Quot.sound |
| C21 | `C21_violated` | propext, Classical.choice, Quot.sound |
| C22 | `C22_lonlat` | propext, Classical.choice, Quot.sound |
| C23 | `C23_phi_shift` | propext, Classical.choice, Quot.sound |
| C23 | `C23_phi_shift_array` | propext, Classical.choice, Quot.sound |
| C24 | `C24_no_mutation_partial` | propext, Classical.choice, Quot.sound |
| C24 | `C24_violated` | propext, Classical.choice, Quot.sound |
| C24 | `C24_violated_shift` | propext, Classical.choice, Quot.sound |
| C24 | `C24_spin_partial` | propext, Classical.choice, Quot.sound |
| C24 | `C24_violated_spin` | propext, Classical.choice, Quot.sound |
| C25 | `C25_rotate_start` | propext, Classical.choice, Quot.sound |
| C26 | `C26_rotate_rigid` | propext, Classical.choice, Quot.sound |
| C27 | `C27_shift` | propext, Classical.choice, Quot.sound |
| C27 | `C27_degenerate` | propext, Classical.choice, Quot.sound |
| C28 | `C28_spin` | propext, Classical.choice, Quot.sound |
| C28 | `C28_spin_real` | propext, Classical.choice, Quot.sound |
| C29 | `C29_rotate_polar_partial` | propext, Classical.choice, Quot.sound |
| C29 | `C29_violated` | propext, Classical.choice, Quot.sound |
| C30 | `C30_rotate_grid_partial` | propext, Classical.choice, Quot.sound |
| C30 | `C30_violated` | propext, Classical.choice, Quot.sound |
| C30 | `C30_violated_mutation` | propext, Classical.choice, Quot.sound |
| C31 | `C31_exact_partial` | propext, Classical.choice, Quot.sound |
| C31 | `first_cell_clear` | propext, Classical.choice, Quot.sound |
| C31 | `C31_violated` | propext, Classical.choice, Quot.sound |
| C32 | `C32_conservation_partial` | propext, Classical.choice, Quot.sound |
| C32 | `C32_violated` | propext, Classical.choice, Quot.sound |
| C33 | `C33_exact_partial` | propext, Classical.choice, Quot.sound |
| C33 | `C33_violated` | propext, Classical.choice, Quot.sound |
| C34 | `C34_exact_partial` | propext, Classical.choice, Quot.sound |
| C34 | `C34_violated` | propext, Classical.choice, Quot.sound |
| C35 | `C35_outside_partial` | propext, Classical.choice, Quot.sound |
| C35 | `C31_violated` | propext, Classical.choice, Quot.sound |
| C35 | `C33_violated` | propext, Classical.choice, Quot.sound |
| C36 | `C36_reads_partial` | propext, Classical.choice, Quot.sound |
| C36 | `C36_violated` | propext, Classical.choice, Quot.sound |
| C37 | `C37_linear_bounded` | propext, Classical.choice, Quot.sound |
| C37 | `C37_linear_bounded_nd` | propext, Classical.choice, Quot.sound |
| C38 | `C38_identity` | propext, Classical.choice, Quot.sound |
| C38 | `C38_identity_2d` | propext, Classical.choice, Quot.sound |
| C38 | `C38_identity_3d` | propext, Classical.choice, Quot.sound |
| C39 | `C39_defaults_partial` | propext, Quot.sound |
| C39 | `C39_violated` | propext, Quot.sound |
| C40 | `C40_constant` | propext, Classical.choice, Quot.sound |
| C41 | `C41_range` | propext, Classical.choice, Quot.sound |
| C42 | `C42_overlapMean_partial` | propext, Classical.choice, Quot.sound |
| C42 | `C42_violated` | propext, Classical.choice, Quot.sound |
| C42 | `C42_violated_example` | propext, Classical.choice, Quot.sound |
| C43 | `C43_nan_iff_partial` | propext, Classical.choice, Quot.sound |
| C43 | `C43_violated` | propext, Classical.choice, Quot.sound |
| C44 | `C44_rejects` | propext, Quot.sound |
| C44 | `C44_sigma_rejects` | propext, Classical.choice, Quot.sound |
| C44 | `C44_accepts_partial` | propext, Classical.choice, Quot.sound |
| C44 | `C44_violated` | propext, Classical.choice, Quot.sound |
| C45 | `C45_weights_partial` | propext, Classical.choice, Quot.sound |
| C45 | `C45_violated` | propext, Classical.choice, Quot.sound |
| C45 | `C45_violated_last` | propext, Classical.choice, Quot.sound |
| C46 | `C46_sigma_partial` | propext, Classical.choice, Quot.sound |
| C46 | `C46_violated` | propext, Classical.choice, Quot.sound |
| C47 | `C47_monotonic` | propext, Quot.sound |
| C48 | `C48_grid1d` | propext, Classical.choice, Quot.sound |
| C49 | `C49_shift_partial` | propext, Classical.choice, Quot.sound |
| C49 | `C49_violated` | propext, Classical.choice, Quot.sound |
| C50 | `C50_grid2d` | propext, Classical.choice, Quot.sound |
| C50 | `C50_grid3d` | propext, Classical.choice, Quot.sound |
| C50 | `C50_polargrid` | propext, Classical.choice, Quot.sound |
| C51 | `C51_equal_area` | propext, Classical.choice, Quot.sound |
| C52 | `C52_areas` | propext, Classical.choice, Quot.sound |
| C53 | `C53_mean` | propext, Classical.choice, Quot.sound |
| C53 | `C53_weighted` | propext, Classical.choice, Quot.sound |
| C53 | `C53_bounds` | propext, Classical.choice, Quot.sound |
| C53 | `C53_zero_weight_partial` | propext, Quot.sound |
| C53 | `C53_violated` | propext, Classical.choice, Quot.sound |
| C54 | `C54_formula` | propext, Classical.choice, Quot.sound |
| C54 | `C54_scales` | propext, Classical.choice, Quot.sound |
| C54 | `C54_pixarea` | propext, Classical.choice, Quot.sound |
| C54 | `C54_sector` | propext, Classical.choice, Quot.sound |
| C54 | `C54_dg` | propext, Classical.choice, Quot.sound |
| C54 | `C54_mc` | propext, Classical.choice, Quot.sound |
| C55 | `C55_running` | propext, Classical.choice, Quot.sound |
| C55 | `C55_consequences` | propext, Classical.choice, Quot.sound |
| C56 | `C56_range` | propext, Classical.choice, Quot.sound |
| C56 | `C56_law` | propext, Classical.choice, Quot.sound |
| C57 | `C57_range` | propext, Classical.choice, Quot.sound |
| C57 | `C57_law` | propext, Classical.choice, Quot.sound |
| C58 | `C58_range` | propext, Classical.choice, Quot.sound |
| C58 | `C58_law` | propext, Classical.choice, Quot.sound |
| C59 | `C59_violated` | propext, Classical.choice, Quot.sound |
| C59 | `C59_nameError_partial` | propext, Quot.sound |
| C60 | `C60_cdf` | propext, Classical.choice, Quot.sound |
| C61 | `C61_permutation` | propext, Quot.sound |
| C62 | `C62_draw_partial` | propext, Classical.choice, Quot.sound |
| C62 | `C62_violated` | propext, Quot.sound |
| C63 | `C63_kept` | propext, Classical.choice, Quot.sound |
| C63 | `C63_sized` | propext, Classical.choice, Quot.sound |
| C63 | `C63_probability` | propext, Classical.choice, Quot.sound |
| C64 | `C64_values` | propext, Classical.choice, Quot.sound |
| C64 | `C64_array` | propext, Classical.choice, Quot.sound |
| C64 | `C64_mean` | propext, Classical.choice, Quot.sound |
| C65 | `C65_values` | propext, Classical.choice, Quot.sound |
| C65 | `C65_array` | propext, Classical.choice, Quot.sound |
| C65 | `C65_mean` | propext, Classical.choice, Quot.sound |
| C66 | `C66_rejects` | propext, Quot.sound |
| C66 | `C66_traces` | propext, Classical.choice, Quot.sound |
| C66 | `C66_perimeter` | propext, Classical.choice, Quot.sound |
| C67 | `C67_arc` | propext, Classical.choice, Quot.sound |
| C67 | `C67_disc` | propext, Classical.choice, Quot.sound |
| C68 | `C68_edges` | propext, Classical.choice, Quot.sound |
| C68 | `C68_nearest_partial` | propext, Classical.choice, Quot.sound |
| C68 | `C68_visible_kept_partial` | propext, Classical.choice, Quot.sound |
| C68 | `C68_nearest_exact_partial` | propext, Classical.choice, Quot.sound |
| C68 | `C68_violated_far` | propext, Classical.choice, Quot.sound |
| C68 | `C68_violated_short` | propext, Classical.choice, Quot.sound |
| C69 | `C69_writes` | propext, Classical.choice, Quot.sound |
| C69 | `C69_marks` | propext, Quot.sound |
| C69 | `C69_double` | propext, Classical.choice, Quot.sound |
| C69 | `C69_double_example` | propext, Classical.choice, Quot.sound |
| C70 | `C70_count_partial` | propext, Classical.choice, Quot.sound |
| C70 | `C70_twice_partial` | propext, Classical.choice, Quot.sound |
| C70 | `C70_long_partial` | propext, Classical.choice, Quot.sound |
| C70 | `C70_short_partial` | propext, Classical.choice, Quot.sound |
| C70 | `C70_violated` | propext, Classical.choice, Quot.sound |
| C70 | `C70_double` | propext, Classical.choice, Quot.sound |
| C71 | `C71_remap_partial` | propext, Classical.choice, Quot.sound |
| C71 | `C71_weighted_partial` | propext, Classical.choice, Quot.sound |
| C71 | `C71_bounds_partial` | propext, Classical.choice, Quot.sound |
| C71 | `C71_outside` | propext, Classical.choice, Quot.sound |
| C71 | `C71_violated_same` | propext, Classical.choice, Quot.sound |
| C71 | `C71_violated_mixed` | propext, Classical.choice, Quot.sound |
| C71 | `C71_violated` | propext, Classical.choice, Quot.sound |
| C72 | `C72_box2ring` | propext, Classical.choice, Quot.sound |
| C72 | `C72_cube2shell` | propext, Classical.choice, Quot.sound |
| C73 | `C73_remap_partial` | propext, Classical.choice, Quot.sound |
| C73 | `C73_weighted_partial` | propext, Classical.choice, Quot.sound |
| C73 | `C73_bounds_partial` | propext, Classical.choice, Quot.sound |
| C73 | `C73_violated` | propext, Classical.choice, Quot.sound |
| C74 | `C74_dg_partial` | propext, Classical.choice, Quot.sound |
| C74 | `C74_dg_remap` | propext, Classical.choice, Quot.sound |
| C74 | `C74_mc_partial` | propext, Classical.choice, Quot.sound |
| C74 | `C74_violated` | propext, Classical.choice, Quot.sound |
| C75 | `C75_dg_partial` | propext, Classical.choice, Quot.sound |
| C75 | `C75_mc_partial` | propext, Classical.choice, Quot.sound |
| C75 | `C75_mc_mask` | propext, Classical.choice, Quot.sound |
| C75 | `C75_caller_w` | propext, Classical.choice, Quot.sound |
| C75 | `C75_violated` | propext, Classical.choice, Quot.sound |
| C75 | `C75_caller_w_violated` | propext, Classical.choice, Quot.sound |
| C76 | `C76_dg_clean` | propext, Classical.choice, Quot.sound |
| C76 | `C76_mc_clean` | propext, Classical.choice, Quot.sound |
| C76 | `C76_dgcube_clean` | propext, Classical.choice, Quot.sound |
| C76 | `C76_mccube_clean` | propext, Classical.choice, Quot.sound |
| C76 | `C76_ortho_clean` | propext, Classical.choice, Quot.sound |
| C76 | `C76_pov_clean` | propext, Classical.choice, Quot.sound |
| C76 | `C76_mchealring_clean` | propext, Classical.choice, Quot.sound |
| C76 | `C76_dghealring_clean` | propext, Classical.choice, Quot.sound |
| C76 | `C76_mchealpolar_clean` | propext, Classical.choice, Quot.sound |
| C76 | `C76_dghealpolar_clean` | propext, Classical.choice, Quot.sound |
| C77 | `C77_remap_partial` | propext, Classical.choice, Quot.sound |
| C77 | `C77_constant_partial` | propext, Classical.choice, Quot.sound |
| C77 | `C77_weighted_partial` | propext, Classical.choice, Quot.sound |
| C77 | `C77_weighted_constant_partial` | propext, Classical.choice, Quot.sound |
| C77 | `C77_violated` | propext, Classical.choice, Quot.sound |
| C77 | `C77_violated_shape` | propext, Classical.choice, Quot.sound |
| C78 | `C78_reverse_partial` | propext, Classical.choice, Quot.sound |
| C78 | `C78_violated` | propext, Classical.choice, Quot.sound |
| C79 | `C79_violated_mcring_weights` | propext, Classical.choice, Quot.sound |
| C79 | `C79_violated_mcring` | propext, Classical.choice, Quot.sound |
| C79 | `C79_violated_mcring_radial` | propext, Classical.choice, Quot.sound |
| C79 | `C79_violated_mcbox_weights` | propext, Classical.choice, Quot.sound |
| C79 | `C79_violated_mcbox` | propext, Classical.choice, Quot.sound |
| C79 | `C79_violated_dgring` | propext, Classical.choice, Quot.sound |
| C79 | `C79_violated_dgring_remap` | propext, Classical.choice, Quot.sound |
| C79 | `C79_violated_dgbox` | propext, Classical.choice, Quot.sound |
| C79 | `C79_violated_dgbox_remap` | propext, Classical.choice, Quot.sound |
| C80 | `C80_remap_partial` | propext, Classical.choice, Quot.sound |
| C80 | `C80_reads` | propext, Classical.choice, Quot.sound |
| C80 | `C80_constant_partial` | propext, Classical.choice, Quot.sound |
| C80 | `C80_outside` | propext, Classical.choice, Quot.sound |
| C80 | `C80_violated` | propext, Classical.choice, Quot.sound |
| C80 | `C80_violated_shape` | propext, Classical.choice, Quot.sound |
| C81 | `C81_dg_partial` | propext, Classical.choice, Quot.sound |
| C81 | `C81_lin_partial` | propext, Classical.choice, Quot.sound |
| C81 | `C81_log_partial` | propext, Classical.choice, Quot.sound |
| C81 | `C81_dg_violated` | propext, Classical.choice, Quot.sound |
| C81 | `C81_lin_violated` | propext, Classical.choice, Quot.sound |
| C81 | `C81_log_violated` | propext, Classical.choice, Quot.sound |
| C81 | `C81_shell_lin_partial` | propext, Classical.choice, Quot.sound |
| C81 | `C81_shell_violated` | propext, Classical.choice, Quot.sound |
| C81 | `C81_shell_log` | propext, Classical.choice, Quot.sound |
| C81 | `C81_cube` | propext, Classical.choice, Quot.sound |
| C81 | `C81_dgshell_partial` | propext, Classical.choice, Quot.sound |
| C81 | `C81_dgshell_violated` | propext, Classical.choice, Quot.sound |
| C82 | `C82_range` | propext, Classical.choice, Quot.sound |
| C82 | `C82_rejects` | propext, Quot.sound |
| C82 | `C82_law` | propext, Classical.choice, Quot.sound |
| C82 | `C82_pdf_law` | propext, Classical.choice, Quot.sound |
| C83 | `C83_box` | propext, Classical.choice, Quot.sound |
| C83 | `C83_dg` | propext, Classical.choice, Quot.sound |
| C83 | `C83_lin` | propext, Classical.choice, Quot.sound |
| C83 | `C83_log` | propext, Classical.choice, Quot.sound |
| C83 | `C83_log_increasing` | propext, Classical.choice, Quot.sound |
| C84 | `C84_remap_partial` | propext, Classical.choice, Quot.sound |
| C84 | `C84_weighted_partial` | propext, Classical.choice, Quot.sound |
| C84 | `C84_outside` | propext, Classical.choice, Quot.sound |
| C84 | `C84_violated_same` | propext, Classical.choice, Quot.sound |
| C84 | `C84_violated_mixed` | propext, Classical.choice, Quot.sound |
| C84 | `C84_violated` | propext, Classical.choice, Quot.sound |
| C85 | `C85_projection` | propext, Classical.choice, Quot.sound |
| C86 | `C86_transform` | propext, Classical.choice, Quot.sound |
| C86 | `C86_array_partial` | propext, Classical.choice, Quot.sound |
| C86 | `C86_roundtrip` | propext, Classical.choice, Quot.sound |
| C86 | `C86_accepted` | propext, Classical.choice, Quot.sound |
| C86 | `C86_violated` | propext, Classical.choice, Quot.sound |
| C87 | `C87_cap_partial` | propext, Classical.choice, Quot.sound |
| C87 | `C87_distance` | propext, Classical.choice, Quot.sound |
| C87 | `C87_box_partial` | propext, Classical.choice, Quot.sound |
| C87 | `C87_violated` | propext, Classical.choice, Quot.sound |
| C88 | `C88_cover` | propext, Classical.choice, Quot.sound |
| C88 | `C88_disjoint` | propext, Classical.choice, Quot.sound |
| C88 | `C88_pix` | propext, Classical.choice, Quot.sound |
| C88 | `C88_project` | propext, Classical.choice, Quot.sound |
| C89 | `C89_uniform` | propext, Classical.choice, Quot.sound |
| C90 | `C90_position` | propext, Classical.choice, Quot.sound |
| C90 | `C90_grid_partial` | propext, Classical.choice, Quot.sound |
| C90 | `C90_exact` | propext, Classical.choice, Quot.sound |
| C90 | `C90_violated_radius` | propext, Classical.choice, Quot.sound |
| C90 | `C90_violated_separation` | propext, Classical.choice, Quot.sound |
| C91 | `C91_imshow` | propext, Classical.choice, Quot.sound |
| C91 | `C91_finalize_partial` | propext, Classical.choice, Quot.sound |
| C91 | `C91_violated` | propext, Classical.choice, Quot.sound |
| C92 | `C92_labels_partial` | propext, Classical.choice, Quot.sound |
| C92 | `C92_text` | propext, Classical.choice, Quot.sound |
| C92 | `C92_violated` | propext, Classical.choice, Quot.sound |
| C92 | `C92_violated_decimals` | propext, Classical.choice, Quot.sound |
| C93 | `C93_violated` | propext, Classical.choice, Quot.sound |
| C94 | `C94_compose` | propext, Classical.choice, Quot.sound |
| C94 | `C94_inverse` | propext, Classical.choice, Quot.sound |
| C94 | `C94_rotate_inverse` | propext, Classical.choice, Quot.sound |
| C94 | `C94_spin_add` | propext, Classical.choice, Quot.sound |
| C95 | `C95_violated_box` | propext, Classical.choice, Quot.sound |
| C95 | `C95_violated_box_type` | propext, Classical.choice, Quot.sound |
| C95 | `C95_violated_heal` | propext, Classical.choice, Quot.sound |
| C95 | `C95_violated_heal_type` | propext, Classical.choice, Quot.sound |
| C96 | `C96_law` | propext, Classical.choice, Quot.sound |
| C96 | `C96_limit_partial` | propext, Classical.choice, Quot.sound |
| C96 | `C96_returns_partial` | propext, Classical.choice, Quot.sound |
| C96 | `C96_bound` | propext, Classical.choice, Quot.sound |
| C96 | `C96_violated` | propext, Classical.choice, Quot.sound |
| C97 | `C97_limit` | propext, Classical.choice, Quot.sound |
| C97 | `C97_weighted` | propext, Classical.choice, Quot.sound |
| C97 | `C97_fraction` | propext, Classical.choice, Quot.sound |
| C97 | `C97_agree` | propext, Classical.choice, Quot.sound |
| C98 | `C98_rounding` | propext, Classical.choice, Quot.sound |
| C98 | `C98_ties` | propext, Classical.choice, Quot.sound |
| C98 | `C98_pix2ij_partial` | propext, Classical.choice, Quot.sound |
| C98 | `C98_pix2ij_arr_partial` | propext, Classical.choice, Quot.sound |
| C98 | `C98_ij2pix_arr_partial` | propext, Classical.choice, Quot.sound |
| C98 | `C98_violated` | propext, Classical.choice, Quot.sound |
| C98 | `C98_violated_ring` | propext, Classical.choice, Quot.sound |
| C98 | `C98_violated_arr` | propext, Classical.choice, Quot.sound |
| C99 | `C99_nan_partial` | propext, Classical.choice, Quot.sound |
| C99 | `C99_nan_2d_partial` | propext, Classical.choice, Quot.sound |
| C99 | `C99_nan_3d_partial` | propext, Classical.choice, Quot.sound |
| C99 | `C99_reads_overlap` | propext, Quot.sound |
| C99 | `C99_reads_wide` | propext, Classical.choice, Quot.sound |
| C99 | `C99_finite` | propext, Quot.sound |
| C99 | `C99_violated` | propext, Classical.choice, Quot.sound |
