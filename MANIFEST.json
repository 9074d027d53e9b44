{
 "claims": [
  {
   "property": "C01",
   "status": "proved",
   "theorems": [
    "Verif.Util.C01_pad_crop",
    "Verif.Util.C01_pad_crop_sizes"
   ],
   "note": ""
  },
  {
   "property": "C02",
   "status": "proved",
   "theorems": [
    "Verif.Util.C02_chain",
    "Verif.Util.C02_pad_then_crop_id",
    "Verif.Util.C02_chain_iff"
   ],
   "note": ""
  },
  {
   "property": "C03",
   "status": "proved",
   "theorems": [
    "Verif.Util.C03_ceil_even",
    "Verif.Util.C03_ceil_odd",
    "Verif.Util.C03_nextpow2",
    "Verif.Util.C03_nextpow2_zero"
   ],
   "note": ""
  },
  {
   "property": "C04",
   "status": "proved",
   "theorems": [
    "Verif.Util.C04_length_and_spacing",
    "Verif.Util.C04_pixel_centre",
    "Verif.Util.C04_symmetric"
   ],
   "note": ""
  },
  {
   "property": "C05",
   "status": "proved",
   "theorems": [
    "Verif.Util.C05_offcenter_crop",
    "Verif.Util.C05_outside_zero"
   ],
   "note": ""
  },
  {
   "property": "C06",
   "status": "proved",
   "theorems": [
    "Verif.Util.C06_bin_downsample",
    "Verif.Util.C06_total",
    "Verif.Util.C06_not_divisible"
   ],
   "note": ""
  },
  {
   "property": "C07",
   "status": "proved",
   "theorems": [
    "Verif.Optics.C07_even_identity",
    "Verif.Optics.C07_compose",
    "Verif.Optics.C07_odd_inversion",
    "Verif.Optics.C07_index",
    "Verif.Optics.C07_odd_size"
   ],
   "note": ""
  },
  {
   "property": "C08",
   "status": "proved",
   "theorems": [
    "Verif.Optics.C08_additive",
    "Verif.Optics.C08_reversible",
    "Verif.Optics.C08_linear",
    "Verif.Optics.C08_energy",
    "Verif.Optics.C08_nonsquare"
   ],
   "note": ""
  },
  {
   "property": "C09",
   "status": "proved",
   "theorems": [
    "Verif.Optics.C09_round_trip_formula",
    "Verif.Optics.C09_inverse_even",
    "Verif.Optics.C09_inverse_even'",
    "Verif.Optics.C09_inverse_iff",
    "Verif.Optics.C09_energy"
   ],
   "note": ""
  },
  {
   "property": "C10",
   "status": "proved",
   "theorems": [
    "Verif.Optics.C10_round_trip",
    "Verif.Optics.C10_linear",
    "Verif.Optics.C10_vertical_step"
   ],
   "note": ""
  },
  {
   "property": "C11",
   "status": "proved",
   "theorems": [
    "Verif.Dm.C11_tied",
    "Verif.Dm.C11_pinned",
    "Verif.Dm.C11_dead",
    "Verif.Dm.C11_free_unchanged",
    "Verif.Dm.C11_limits_zero_bias",
    "Verif.Dm.C11_over_limit_total",
    "Verif.Dm.C11_limits_exceeded",
    "Verif.Dm.C11_pinned_overridden",
    "Verif.Dm.C11_exact",
    "Verif.Dm.C11_pins"
   ],
   "note": ""
  },
  {
   "property": "C12",
   "status": "proved",
   "theorems": [
    "Verif.Dm.C12_idempotent",
    "Verif.Dm.C12_repeat",
    "Verif.Dm.C12_repeat_zero_bias",
    "Verif.Dm.C12_idempotent_iff",
    "Verif.Dm.C12_not_idempotent",
    "Verif.Dm.C12_pinned_monotone",
    "Verif.Dm.C12_pinned_stuck"
   ],
   "note": ""
  },
  {
   "property": "C13",
   "status": "proved",
   "theorems": [
    "Verif.Dm.C13_multiple_and_idempotent",
    "Verif.Dm.C13_round",
    "Verif.Dm.C13_directed"
   ],
   "note": ""
  },
  {
   "property": "C14",
   "status": "proved",
   "theorems": [
    "Verif.Dm.C14_orientation",
    "Verif.Dm.C14_injective"
   ],
   "note": ""
  },
  {
   "property": "C15",
   "status": "proved",
   "theorems": [
    "Verif.Dm.C15_pair_fix",
    "Verif.Dm.C15_sweep_sum",
    "Verif.Dm.C15_all_neighbours_visited",
    "Verif.Dm.C15_run_only_detects",
    "Verif.Dm.C15_single_actuator_violated",
    "Verif.Dm.C15_one_sweep_violated"
   ],
   "note": ""
  },
  {
   "property": "C16",
   "status": "proved",
   "theorems": [
    "Verif.Dm.C16_superposition",
    "Verif.Dm.C16_linear",
    "Verif.Dm.C16_skip_error"
   ],
   "note": ""
  },
  {
   "property": "C17",
   "status": "proved",
   "theorems": [
    "Verif.Dm.C17_quadratic",
    "Verif.Dm.C17_fourier",
    "Verif.Dm.C17_linear_and_unknown"
   ],
   "note": ""
  },
  {
   "property": "C18",
   "status": "proved",
   "theorems": [
    "Verif.Dm.C18_closed_forms",
    "Verif.Dm.C18_rotations",
    "Verif.Dm.C18_back_projection",
    "Verif.Dm.C18_poke_agrees_with_surface"
   ],
   "note": ""
  },
  {
   "property": "C19",
   "status": "proved",
   "theorems": [
    "Verif.Ctrl.C19_unique_minimiser",
    "Verif.Ctrl.C19_no_response"
   ],
   "note": ""
  },
  {
   "property": "C20",
   "status": "proved",
   "theorems": [
    "Verif.Ctrl.C20_gain_formula",
    "Verif.Ctrl.C20_never_increases"
   ],
   "note": ""
  },
  {
   "property": "C21",
   "status": "proved",
   "theorems": [
    "Verif.Ctrl.C21_pairs",
    "Verif.Ctrl.C21_best",
    "Verif.Ctrl.C21_empty",
    "Verif.Ctrl.C21_best_stateless"
   ],
   "note": ""
  },
  {
   "property": "C22",
   "status": "proved",
   "theorems": [
    "Verif.Ctrl.C22_voltages_restored",
    "Verif.Ctrl.C22_no_trace",
    "Verif.Ctrl.C22_no_trace_iff",
    "Verif.Ctrl.C22_trace",
    "Verif.Ctrl.C22_violated"
   ],
   "note": ""
  },
  {
   "property": "C23",
   "status": "proved",
   "theorems": [
    "Verif.Ctrl.C23_expansion",
    "Verif.Ctrl.C23_flags",
    "Verif.Ctrl.C23_digits"
   ],
   "note": ""
  },
  {
   "property": "C24",
   "status": "proved",
   "theorems": [
    "Verif.Ctrl.C24_real_code",
    "Verif.Ctrl.C24_offset_code",
    "Verif.Ctrl.C24_no_search_yet",
    "Verif.Ctrl.C24_grid",
    "Verif.Ctrl.C24_run"
   ],
   "note": ""
  },
  {
   "property": "C25",
   "status": "proved",
   "theorems": [
    "Verif.Ctrl.C25_unpack",
    "Verif.Ctrl.C25_wrapup",
    "Verif.Ctrl.C25_round_trip",
    "Verif.Ctrl.C25_wrong_length",
    "Verif.Ctrl.C25_present_command"
   ],
   "note": ""
  },
  {
   "property": "C26",
   "status": "proved",
   "theorems": [
    "Verif.Ctrl.C26_kept_set",
    "Verif.Ctrl.C26_never_empty",
    "Verif.Ctrl.C26_right_actuators_iff",
    "Verif.Ctrl.C26_stale_set_violated"
   ],
   "note": ""
  },
  {
   "property": "C27",
   "status": "proved",
   "theorems": [
    "Verif.Ctrl.C27_actual_weights",
    "Verif.Ctrl.C27_once",
    "Verif.Ctrl.C27_once_iff",
    "Verif.Ctrl.C27_violated"
   ],
   "note": ""
  },
  {
   "property": "C28",
   "status": "proved",
   "theorems": [
    "Verif.Compact.C28_data_dm2",
    "Verif.Compact.C28_data_dm1",
    "Verif.Compact.C28_dm2_stop",
    "Verif.Compact.C28_hlc_violated",
    "Verif.Compact.C28_no_penalty",
    "Verif.Compact.C28_penalty_violated",
    "Verif.Compact.C28_stale_violated"
   ],
   "note": ""
  },
  {
   "property": "C29",
   "status": "proved",
   "theorems": [
    "Verif.Ctrl.C29_within_limits",
    "Verif.Ctrl.C29_zero_feasible",
    "Verif.Ctrl.C29_no_new_pins",
    "Verif.Ctrl.C29_within_limits_iff",
    "Verif.Ctrl.C29_weight_violated"
   ],
   "note": ""
  },
  {
   "property": "C30",
   "status": "proved",
   "theorems": [
    "Verif.Jac.C30_serial",
    "Verif.Jac.C30_parallel",
    "Verif.Jac.C30_agree",
    "Verif.Jac.C30_culled_violated",
    "Verif.Jac.C30_dm_ind_violated"
   ],
   "note": ""
  },
  {
   "property": "C31",
   "status": "proved",
   "theorems": [
    "Verif.Jac.C31_response",
    "Verif.Jac.C31_columns",
    "Verif.Jac.C31_half_controlled_violated"
   ],
   "note": ""
  },
  {
   "property": "C32",
   "status": "proved",
   "theorems": [
    "Verif.Compact.C32_fpm_scale_agree",
    "Verif.Compact.C32_fpm_scale_violated",
    "Verif.Compact.C32_dm1",
    "Verif.Compact.C32_dm2",
    "Verif.Compact.C32_dead",
    "Verif.Compact.C32_dm_wfe_violated",
    "Verif.Compact.C32_zernike_dm1_violated",
    "Verif.Compact.C32_zernike_dm2_violated"
   ],
   "note": ""
  },
  {
   "property": "C33",
   "status": "proved",
   "theorems": [
    "Verif.Est.C33_least_squares",
    "Verif.Est.C33_exact_pixel",
    "Verif.Est.C33_exact"
   ],
   "note": ""
  },
  {
   "property": "C34",
   "status": "proved",
   "theorems": [
    "Verif.Est.C34_phases",
    "Verif.Est.C34_axes",
    "Verif.Est.C34_square",
    "Verif.Est.C34_rect",
    "Verif.Est.C34_fit_proper",
    "Verif.Est.C34_fit_lsq"
   ],
   "note": ""
  },
  {
   "property": "C35",
   "status": "proved",
   "theorems": [
    "Verif.Est.C35_restored",
    "Verif.Est.C35_unused_dm1",
    "Verif.Est.C35_unused_dm2"
   ],
   "note": ""
  },
  {
   "property": "C36",
   "status": "proved",
   "theorems": [
    "Verif.Est.C36_threshold_and_sum",
    "Verif.Est.C36_few_pairs",
    "Verif.Est.C36_one_pair"
   ],
   "note": ""
  },
  {
   "property": "C37",
   "status": "proved",
   "theorems": [
    "Verif.Est.C37_fields",
    "Verif.Est.C37_images",
    "Verif.Est.C37_images_exact",
    "Verif.Est.C37_images_violated"
   ],
   "note": ""
  },
  {
   "property": "C38",
   "status": "proved",
   "theorems": [
    "Verif.Setup.C38_subband_weights",
    "Verif.Setup.C38_wavelength_weights",
    "Verif.Setup.C38_unique",
    "Verif.Setup.C38_unique_total",
    "Verif.Setup.C38_trapezoid",
    "Verif.Setup.C38_narrow_band"
   ],
   "note": ""
  },
  {
   "property": "C39",
   "status": "proved",
   "theorems": [
    "Verif.Setup.C39_modes",
    "Verif.Setup.C39_weights",
    "Verif.Setup.C39_piston_weight",
    "Verif.Setup.C39_rejects",
    "Verif.Setup.C39_piston_last_violated",
    "Verif.Setup.C39_order_violated"
   ],
   "note": ""
  },
  {
   "property": "C40",
   "status": "proved",
   "theorems": [
    "Verif.Region.C40_keeps",
    "Verif.Region.C40_ring_always_cut",
    "Verif.Region.C40_edge_violated",
    "Verif.Region.C40_opaque_violated"
   ],
   "note": ""
  },
  {
   "property": "C41",
   "status": "proved",
   "theorems": [
    "Verif.Region.C41_zone",
    "Verif.Region.C41_sides",
    "Verif.Region.C41_spellings",
    "Verif.Region.C41_two_sided_symmetric",
    "Verif.Region.C41_union",
    "Verif.Region.C41_union_round",
    "Verif.Region.C41_score",
    "Verif.Region.C41_eta_only_violated",
    "Verif.Region.C41_overwrites_violated",
    "Verif.Region.C41_score_violated",
    "Verif.Region.C41_clocked_square_violated"
   ],
   "note": ""
  },
  {
   "property": "C42",
   "status": "proved",
   "theorems": [
    "Verif.Region.C42_terminates",
    "Verif.Region.C42_result",
    "Verif.Region.C42_power_of_two",
    "Verif.Region.C42_sampled",
    "Verif.Region.C42_long_wavelength_violated",
    "Verif.Region.C42_compact_sampling_violated"
   ],
   "note": ""
  },
  {
   "property": "C43",
   "status": "proved",
   "theorems": [
    "Verif.Region.C43_weights",
    "Verif.Region.C43_intensity"
   ],
   "note": ""
  },
  {
   "property": "C44",
   "status": "proved",
   "theorems": [
    "Verif.Imaging.C44_agree",
    "Verif.Imaging.C44_stars_violated",
    "Verif.Imaging.C44_noise_violated",
    "Verif.Imaging.C44_subband_violated"
   ],
   "note": ""
  },
  {
   "property": "C45",
   "status": "proved",
   "theorems": [
    "Verif.Imaging.C45_schedule",
    "Verif.Imaging.C45_one_thread",
    "Verif.Imaging.C45_completes",
    "Verif.Imaging.C45_polarisation_violated",
    "Verif.Imaging.C45_hlc_violated"
   ],
   "note": ""
  },
  {
   "property": "C46",
   "status": "proved",
   "theorems": [
    "Verif.Loop.C46_histories",
    "Verif.Loop.C46_model_based_violated",
    "Verif.Loop.C46_zernike_violated",
    "Verif.Loop.C46_save_violated",
    "Verif.Loop.C46_no_iterations"
   ],
   "note": ""
  },
  {
   "property": "C47",
   "status": "proved",
   "theorems": [
    "Verif.Loop.C47_report",
    "Verif.Loop.C47_violated"
   ],
   "note": ""
  },
  {
   "property": "C48",
   "status": "proved",
   "theorems": [
    "Verif.Config.C48_lazy"
   ],
   "note": ""
  },
  {
   "property": "C49",
   "status": "proved",
   "theorems": [
    "Verif.Config.C49_override",
    "Verif.Config.C49_list_violated",
    "Verif.Config.C49_object_violated",
    "Verif.Config.C49_arguments_violated"
   ],
   "note": ""
  },
  {
   "property": "C50",
   "status": "proved",
   "theorems": [
    "Verif.Config.C50_accepts",
    "Verif.Config.C50_arrays",
    "Verif.Config.C50_misuse",
    "Verif.Config.C50_bytes_violated"
   ],
   "note": ""
  },
  {
   "property": "C51",
   "status": "proved",
   "theorems": [
    "Verif.Hlc.C51_index",
    "Verif.Hlc.C51_lookup"
   ],
   "note": ""
  },
  {
   "property": "C52",
   "status": "proved",
   "theorems": [
    "Verif.Hlc.C52_single",
    "Verif.Hlc.C52_violated",
    "Verif.Hlc.C52_one_per_band_violated"
   ],
   "note": ""
  },
  {
   "property": "C53",
   "status": "proved",
   "theorems": [
    "Verif.Hlc.C53_segments",
    "Verif.Hlc.C53_support",
    "Verif.Hlc.C53_field_violated"
   ],
   "note": ""
  },
  {
   "property": "C54",
   "status": "proved",
   "theorems": [
    "Verif.Noll.C54_index",
    "Verif.Noll.C54_order",
    "Verif.Noll.C54_bijective_m",
    "Verif.Noll.C54_bijective_zero",
    "Verif.Noll.C54_text"
   ],
   "note": ""
  },
  {
   "property": "C55",
   "status": "proved",
   "theorems": [
    "Verif.ThinFilm.C55_passive",
    "Verif.ThinFilm.C55_lossless",
    "Verif.ThinFilm.C55_amplitudes",
    "Verif.ThinFilm.C55_table",
    "Verif.ThinFilm.C55_pol_error"
   ],
   "note": ""
  },
  {
   "property": "C56",
   "status": "proved",
   "theorems": [
    "Verif.Proper.C56_never_not_planar",
    "Verif.Proper.C56_position"
   ],
   "note": ""
  },
  {
   "property": "C57",
   "status": "proved",
   "theorems": [
    "Verif.Proper.C57_first_call_saves",
    "Verif.Proper.C57_second_call_keeps_files",
    "Verif.Proper.C57_restore_raises_violated",
    "Verif.Proper.C57_caller_unchanged_violated",
    "Verif.Proper.C57_file_shared",
    "Verif.Proper.C57_files_remain_violated",
    "Verif.Proper.C57_end_without_init_deletes_all_violated"
   ],
   "note": ""
  },
  {
   "property": "C58",
   "status": "proved",
   "theorems": [
    "Verif.Proper.C58_origin_to_centre",
    "Verif.Proper.C58_twice_even",
    "Verif.Proper.C58_twice_odd",
    "Verif.Proper.C58_odd_violated"
   ],
   "note": ""
  },
  {
   "property": "C59",
   "status": "proved",
   "theorems": [
    "Verif.Dm.C59_fit_reproduces_surface",
    "Verif.Dm.C59_transpose",
    "Verif.Dm.C59_iff",
    "Verif.Dm.C59_violated"
   ],
   "note": ""
  },
  {
   "property": "C60",
   "status": "proved",
   "theorems": [
    "Verif.Dm.C60_boxes_in_bounds"
   ],
   "note": ""
  },
  {
   "property": "C61",
   "status": "proved",
   "theorems": [
    "Verif.Dm.C61_crop_loop_terminates",
    "Verif.Dm.C61_zero_influence_violated"
   ],
   "note": ""
  },
  {
   "property": "C62",
   "status": "proved",
   "theorems": [
    "Verif.Optics.C62_reverse_is_adjoint",
    "Verif.Optics.C62_inner_is_norm",
    "Verif.Optics.C62_two_quadratures",
    "Verif.Optics.C62_unit_mask"
   ],
   "note": ""
  },
  {
   "property": "C63",
   "status": "proved",
   "theorems": [
    "Verif.Ctrl.C63_parallel_agrees_iff",
    "Verif.Ctrl.C63_violated"
   ],
   "note": ""
  },
  {
   "property": "C64",
   "status": "proved",
   "theorems": [
    "Verif.Est.C64_terminates",
    "Verif.Est.C64_not_worse",
    "Verif.Est.C64_surface",
    "Verif.Est.C64_surface_violated",
    "Verif.PropDm.C64_converges",
    "Verif.PropDm.C64_left_over",
    "Verif.PropDm.C64_symmetric_kernel"
   ],
   "note": ""
  },
  {
   "property": "C65",
   "status": "proved",
   "theorems": [
    "Verif.Est.C65_no_trace",
    "Verif.Est.C65_violated"
   ],
   "note": ""
  },
  {
   "property": "C66",
   "status": "proved",
   "theorems": [
    "Verif.Est.C66_schedule_violated",
    "Verif.Est.C66_unscheduled"
   ],
   "note": ""
  },
  {
   "property": "C67",
   "status": "proved",
   "theorems": [
    "Verif.Est.C67_shape_violated",
    "Verif.Est.C67_two_pairs_violated"
   ],
   "note": ""
  },
  {
   "property": "C68",
   "status": "proved",
   "theorems": [
    "Verif.Config.C68_same",
    "Verif.Config.C68_field_violated",
    "Verif.Config.C68_data_violated"
   ],
   "note": ""
  },
  {
   "property": "C69",
   "status": "proved",
   "theorems": [
    "Verif.Hlc.C69_violated",
    "Verif.Hlc.C69_single"
   ],
   "note": ""
  },
  {
   "property": "C70",
   "status": "proved",
   "theorems": [
    "Verif.ThinFilm.C70_zero_layer",
    "Verif.ThinFilm.C70_no_metal",
    "Verif.ThinFilm.C70_fresnel"
   ],
   "note": ""
  },
  {
   "property": "C71",
   "status": "proved",
   "theorems": [
    "Verif.ThinFilm.C71_normal",
    "Verif.ThinFilm.C71_mean",
    "Verif.ThinFilm.C71_violated"
   ],
   "note": ""
  },
  {
   "property": "C72",
   "status": "proved",
   "theorems": [
    "Verif.Proper.C72_energy",
    "Verif.Proper.C72_energy_from"
   ],
   "note": ""
  },
  {
   "property": "C73",
   "status": "proved",
   "theorems": [
    "Verif.Proper.C73_lens_law",
    "Verif.Proper.C73_propagate_same_beam"
   ],
   "note": ""
  },
  {
   "property": "C74",
   "status": "proved",
   "theorems": [
    "Verif.Proper.C74_phase",
    "Verif.Proper.C74_odd_grid_violated",
    "Verif.Proper.C74_fails_iff",
    "Verif.Proper.C74_to_plane_violated",
    "Verif.Proper.C74_consistent"
   ],
   "note": ""
  },
  {
   "property": "C75",
   "status": "proved",
   "theorems": [
    "Verif.Proper.C75_reversible"
   ],
   "note": ""
  },
  {
   "property": "C76",
   "status": "proved",
   "theorems": [
    "Verif.Proper.C76_ptp_same_even",
    "Verif.Proper.C76_odd_uniform",
    "Verif.Proper.C76_odd_violated"
   ],
   "note": ""
  },
  {
   "property": "C77",
   "status": "proved",
   "theorems": [
    "Verif.Proper.C77_image_sums_to_one",
    "Verif.Proper.C77_centre",
    "Verif.Proper.C77_extract_violated"
   ],
   "note": ""
  },
  {
   "property": "C78",
   "status": "proved",
   "theorems": [
    "Verif.Noll.C78_edge_value",
    "Verif.Noll.C78_orthonormal"
   ],
   "note": ""
  },
  {
   "property": "C79",
   "status": "proved",
   "theorems": [
    "Verif.Util.C79_pad_to_even_square"
   ],
   "note": ""
  },
  {
   "property": "C80",
   "status": "proved",
   "theorems": [
    "Verif.Util.C80_members",
    "Verif.Util.C80_length",
    "Verif.Util.C80_order",
    "Verif.Util.C80_nodup"
   ],
   "note": ""
  },
  {
   "property": "C81",
   "status": "proved",
   "theorems": [
    "Verif.Compact.C81_dm2",
    "Verif.Compact.C81_dm1",
    "Verif.Compact.C81_dm1_same_sampling",
    "Verif.Compact.C81_dm1_sampling_violated"
   ],
   "note": ""
  },
  {
   "property": "C82",
   "status": "proved",
   "theorems": [
    "Verif.Compact.C82_peak_dm1",
    "Verif.Compact.C82_peak_dm2",
    "Verif.Compact.C82_column",
    "Verif.Compact.C82_outer_transmission_violated"
   ],
   "note": ""
  },
  {
   "property": "C83",
   "status": "proved",
   "theorems": [
    "Verif.Est.C83_rect",
    "Verif.Est.C83_square",
    "Verif.Est.C83_rigid"
   ],
   "note": ""
  },
  {
   "property": "C84",
   "status": "proved",
   "theorems": [
    "Verif.DiffDm.C84_adjoint",
    "Verif.DiffDm.C84_adjoint_resampled",
    "Verif.DiffDm.C84_resampled_violated",
    "Verif.DiffDm.C84_odd_array_violated"
   ],
   "note": ""
  },
  {
   "property": "C85",
   "status": "proved",
   "theorems": [
    "Verif.DiffDm.C85_first_sampling",
    "Verif.DiffDm.C85_history_independent",
    "Verif.DiffDm.C85_sampling_violated"
   ],
   "note": ""
  },
  {
   "property": "C86",
   "status": "proved",
   "theorems": [
    "Verif.DiffDm.C86_superposition",
    "Verif.DiffDm.C86_lattice",
    "Verif.DiffDm.C86_centred",
    "Verif.DiffDm.C86_odd_grid_violated"
   ],
   "note": ""
  },
  {
   "property": "C87",
   "status": "proved",
   "theorems": [
    "Verif.ThinFilm.C87_slab",
    "Verif.ThinFilm.C87_reference_plane"
   ],
   "note": ""
  },
  {
   "property": "C88",
   "status": "proved",
   "theorems": [
    "Verif.Compact.C88_same_field",
    "Verif.Compact.C88_zernike_violated",
    "Verif.Compact.C88_avc_violated",
    "Verif.Compact.C88_dm_wfe_violated",
    "Verif.Compact.C88_fpm_scale_violated"
   ],
   "note": ""
  },
  {
   "property": "C89",
   "status": "proved",
   "theorems": [
    "Verif.Expected.C89_restores",
    "Verif.Expected.C89_image",
    "Verif.Expected.C89_rail_violated",
    "Verif.Expected.C89_columns",
    "Verif.Expected.C89_columns_violated"
   ],
   "note": ""
  },
  {
   "property": "C90",
   "status": "proved",
   "theorems": [
    "Verif.Compact.C90_position",
    "Verif.Compact.C90_position_violated",
    "Verif.Compact.C90_companion",
    "Verif.Compact.C90_brightness"
   ],
   "note": ""
  },
  {
   "property": "C91",
   "status": "proved",
   "theorems": [
    "Verif.Compact.C91_zernike",
    "Verif.Compact.C91_full_violated"
   ],
   "note": ""
  },
  {
   "property": "C92",
   "status": "proved",
   "theorems": [
    "Verif.ZernSens.C92_value",
    "Verif.ZernSens.C92_settles",
    "Verif.ZernSens.C92_one_mode_violated",
    "Verif.ZernSens.C92_small"
   ],
   "note": ""
  },
  {
   "property": "C93",
   "status": "proved",
   "theorems": [
    "Verif.ZernMap.C93_refused",
    "Verif.ZernMap.C93_value",
    "Verif.ZernMap.C93_intended",
    "Verif.ZernMap.C93_tilt_scaled",
    "Verif.ZernMap.C93_iff",
    "Verif.ZernMap.C93_violated",
    "Verif.ZernMap.C93_parity"
   ],
   "note": ""
  },
  {
   "property": "C94",
   "status": "proved",
   "theorems": [
    "Verif.ZernMap.C94_orthonormal",
    "Verif.ZernMap.C94_unobscured",
    "Verif.ZernMap.C94_proper_sum",
    "Verif.ZernMap.C94_custom_last",
    "Verif.ZernMap.C94_refused",
    "Verif.ZernMap.C94_custom_violated",
    "Verif.ZernMap.C94_sum"
   ],
   "note": ""
  },
  {
   "property": "C95",
   "status": "proved",
   "theorems": [
    "Verif.Compact.C95_energy",
    "Verif.Compact.C95_aliased_violated"
   ],
   "note": ""
  },
  {
   "property": "C96",
   "status": "proved",
   "theorems": [
    "Verif.Compact.C96_image",
    "Verif.Compact.C96_star_count_violated",
    "Verif.Compact.C96_source",
    "Verif.Compact.C96_value",
    "Verif.Compact.C96_metric",
    "Verif.Compact.C96_bounded",
    "Verif.Compact.C96_radius",
    "Verif.Compact.C96_bands_violated"
   ],
   "note": ""
  },
  {
   "property": "C97",
   "status": "proved",
   "theorems": [
    "Verif.Cull.C97_fixed_set",
    "Verif.Cull.C97_change_without_relin_violated",
    "Verif.Cull.C97_change_with_relin_violated",
    "Verif.Cull.C97_added_violated",
    "Verif.Cull.C97_unused_state"
   ],
   "note": ""
  },
  {
   "property": "C98",
   "status": "proved",
   "theorems": [
    "Verif.Shape.C98_error_iff",
    "Verif.Shape.C98_coverage",
    "Verif.Shape.C98_range",
    "Verif.Shape.C98_solid",
    "Verif.Shape.C98_symmetric",
    "Verif.Shape.C98_translate",
    "Verif.Shape.C98_monotone",
    "Verif.Shape.C98_off_grid_violated"
   ],
   "note": ""
  },
  {
   "property": "C99",
   "status": "proved",
   "theorems": [
    "Verif.Masks.C99_dm_stop",
    "Verif.Masks.C99_contained_iff",
    "Verif.Masks.C99_clipped_violated",
    "Verif.Masks.C99_history_violated"
   ],
   "note": ""
  },
  {
   "property": "C100",
   "status": "proved",
   "theorems": [
    "Verif.Masks.C100_value",
    "Verif.Masks.C100_contained",
    "Verif.Masks.C100_regions"
   ],
   "note": ""
  },
  {
   "property": "C101",
   "status": "proved",
   "theorems": [
    "Verif.Shape.C101_strips",
    "Verif.Shape.C101_range",
    "Verif.Shape.C101_solid",
    "Verif.Shape.C101_monotone",
    "Verif.Shape.C101_orientation_violated"
   ],
   "note": ""
  },
  {
   "property": "C102",
   "status": "proved",
   "theorems": [
    "Verif.Shape.C102_coverage",
    "Verif.Shape.C102_circle",
    "Verif.Shape.C102_unclocked",
    "Verif.Shape.C102_range",
    "Verif.Shape.C102_clocked_violated",
    "Verif.Shape.C102_magfac_violated"
   ],
   "note": ""
  },
  {
   "property": "C103",
   "status": "proved",
   "theorems": [
    "Verif.Masks.C103_refusals",
    "Verif.Masks.C103_product",
    "Verif.Masks.C103_circular",
    "Verif.Masks.C103_range",
    "Verif.Masks.C103_odd_violated"
   ],
   "note": ""
  },
  {
   "property": "C104",
   "status": "proved",
   "theorems": [
    "Verif.Detector.C104_quantised",
    "Verif.Detector.C104_mean",
    "Verif.Detector.C104_refusals",
    "Verif.Detector.C104_saturation_violated",
    "Verif.Detector.C104_noise"
   ],
   "note": ""
  },
  {
   "property": "C105",
   "status": "proved",
   "theorems": [
    "Verif.Ctrl.C105_gain_ignored",
    "Verif.Ctrl.C105_no_trace",
    "Verif.Ctrl.C105_search",
    "Verif.Ctrl.C105_gain_violated",
    "Verif.Ctrl.C105_one_dm_violated",
    "Verif.Ctrl.C105_command"
   ],
   "note": ""
  },
  {
   "property": "C106",
   "status": "proved",
   "theorems": [
    "Verif.Ctrl.C106_scale",
    "Verif.Ctrl.C106_same_penalty",
    "Verif.Ctrl.C106_abort_violated",
    "Verif.Ctrl.C106_single_violated"
   ],
   "note": ""
  },
  {
   "property": "C107",
   "status": "proved",
   "theorems": [
    "Verif.Compact.C107_peak",
    "Verif.Compact.C107_no_simulation",
    "Verif.Compact.C107_vortex",
    "Verif.Compact.C107_brightness",
    "Verif.Compact.C107_brightness_full",
    "Verif.Compact.C107_dark_violated",
    "Verif.Imaging.C107_parallel",
    "Verif.Imaging.C107_one_thread",
    "Verif.Imaging.C107_hlc_violated"
   ],
   "note": ""
  },
  {
   "property": "C108",
   "status": "proved",
   "theorems": [
    "Verif.Defaults.C108_kept",
    "Verif.Defaults.C108_complete",
    "Verif.Defaults.C108_documented",
    "Verif.Defaults.C108_reset",
    "Verif.Defaults.C108_dm1",
    "Verif.Defaults.C108_dm2",
    "Verif.Defaults.C108_derived",
    "Verif.Defaults.C108_delta",
    "Verif.Defaults.C108_delta_violated",
    "Verif.Defaults.C108_stars_violated",
    "Verif.Defaults.C108_required",
    "Verif.Defaults.C108_succeeds",
    "Verif.Defaults.C108_lazy",
    "Verif.Defaults.C108_lazy_error",
    "Verif.Defaults.C108_lazy_circular",
    "Verif.Defaults.C108_lazy_violated",
    "Verif.Defaults.C108_again"
   ],
   "note": ""
  },
  {
   "property": "C109",
   "status": "proved",
   "theorems": [
    "Verif.JacWork.C109_names",
    "Verif.JacWork.C109_files_always",
    "Verif.JacWork.C109_files_serial",
    "Verif.JacWork.C109_same_model",
    "Verif.JacWork.C109_accepted",
    "Verif.JacWork.C109_spc_violated",
    "Verif.JacWork.C109_files_fail",
    "Verif.JacWork.C109_reassemble_violated",
    "Verif.JacWork.C109_call",
    "Verif.JacWork.C109_threads",
    "Verif.JacWork.C109_serial",
    "Verif.JacWork.C109_threads_serial",
    "Verif.JacWork.C109_dm89_violated",
    "Verif.JacWork.C109_parallel_dm_ind_violated",
    "Verif.JacWork.C109_completes"
   ],
   "note": ""
  },
  {
   "property": "C110",
   "status": "proved",
   "theorems": [
    "Verif.Cubic.C110_pixel",
    "Verif.Cubic.C110_quadratic",
    "Verif.Cubic.C110_serial",
    "Verif.Cubic.C110_inside",
    "Verif.Cubic.C110_threaded",
    "Verif.Cubic.C110_threaded_square",
    "Verif.Cubic.C110_grid",
    "Verif.Cubic.C110_linear",
    "Verif.Cubic.C110_outside",
    "Verif.Cubic.C110_copies",
    "Verif.Cubic.C110_edge_violated",
    "Verif.Cubic.C110_threaded_violated",
    "Verif.Cubic.C110_vec_violated",
    "Verif.Cubic.C110_layout_violated",
    "Verif.Cubic.C110_rect_violated",
    "Verif.Cubic.C110_rows"
   ],
   "note": ""
  },
  {
   "property": "C111",
   "status": "proved",
   "theorems": [
    "Verif.Szoom.C111_value",
    "Verif.Szoom.C111_border",
    "Verif.Szoom.C111_window",
    "Verif.Szoom.C111_same",
    "Verif.Szoom.C111_pixel",
    "Verif.Szoom.C111_linear",
    "Verif.Szoom.C111_real",
    "Verif.Szoom.C111_identity",
    "Verif.Szoom.C111_identity_violated",
    "Verif.Szoom.C111_centre",
    "Verif.Szoom.C111_complex_python",
    "Verif.Szoom.C111_complex_library",
    "Verif.Szoom.C111_complex_violated",
    "Verif.Szoom.C111_quick",
    "Verif.Szoom.C111_empty",
    "Verif.Szoom.C111_edge_violated"
   ],
   "note": ""
  },
  {
   "property": "C112",
   "status": "proved",
   "theorems": [
    "Verif.ErrorMap.C112_resample",
    "Verif.ErrorMap.C112_shift_violated",
    "Verif.ErrorMap.C112_aligned",
    "Verif.ErrorMap.C112_amplitude_violated",
    "Verif.ErrorMap.C112_adds_phase",
    "Verif.ErrorMap.C112_intensity",
    "Verif.ErrorMap.C112_map",
    "Verif.ErrorMap.C112_no_pixsize",
    "Verif.ErrorMap.C112_radpix",
    "Verif.ErrorMap.C112_lone_centre",
    "Verif.ErrorMap.C112_lone_centre_violated",
    "Verif.ErrorMap.C112_rect_violated",
    "Verif.ErrorMap.C112_rotate_options_violated",
    "Verif.ErrorMap.C112_rotate",
    "Verif.ErrorMap.C112_quarter_turn",
    "Verif.ErrorMap.C112_half_turn",
    "Verif.ErrorMap.C112_rotate_violated",
    "Verif.ErrorMap.C112_rotated",
    "Verif.ErrorMap.C112_magnified"
   ],
   "note": ""
  },
  {
   "property": "C113",
   "status": "proved",
   "theorems": [
    "Verif.Downsample.C113_smoothing",
    "Verif.Downsample.C113_range",
    "Verif.Downsample.C113_flat",
    "Verif.Downsample.C113_total",
    "Verif.Downsample.C113_refused",
    "Verif.Downsample.C113_shape",
    "Verif.Downsample.C113_contained",
    "Verif.Downsample.C113_place",
    "Verif.Downsample.C113_average",
    "Verif.Downsample.C113_turn",
    "Verif.Downsample.C113_first_row",
    "Verif.Downsample.C113_beyond"
   ],
   "note": ""
  },
  {
   "property": "C114",
   "status": "proved",
   "theorems": [
    "Verif.VortexMask.C114_phase_only",
    "Verif.VortexMask.C114_vortex",
    "Verif.VortexMask.C114_on_axis",
    "Verif.VortexMask.C114_no_charge",
    "Verif.VortexMask.C114_charges_add",
    "Verif.VortexMask.C114_turns",
    "Verif.VortexMask.C114_window_range",
    "Verif.VortexMask.C114_window_accuracy",
    "Verif.VortexMask.C114_window_exact",
    "Verif.VortexMask.C114_no_taper",
    "Verif.VortexMask.C114_table",
    "Verif.VortexMask.C114_two_windows",
    "Verif.VortexMask.C114_reverse",
    "Verif.VortexMask.C114_charge_zero"
   ],
   "note": ""
  },
  {
   "property": "C115",
   "status": "proved",
   "theorems": [
    "Verif.Polygon.C115_irregular",
    "Verif.Polygon.C115_either_order",
    "Verif.Polygon.C115_regular",
    "Verif.Polygon.C115_hexagon",
    "Verif.Polygon.C115_range",
    "Verif.Polygon.C115_top_violated",
    "Verif.Polygon.C115_last_column_violated",
    "Verif.Polygon.C115_right_violated",
    "Verif.Polygon.C115_left_violated",
    "Verif.Polygon.C115_diamond",
    "Verif.Polygon.C115_covered_violated",
    "Verif.Polygon.C115_late"
   ],
   "note": ""
  },
  {
   "property": "C116",
   "status": "proved",
   "theorems": [
    "Verif.FocalCoords.C116_compact",
    "Verif.FocalCoords.C116_sizes",
    "Verif.FocalCoords.C116_dimensionless",
    "Verif.FocalCoords.C116_full",
    "Verif.FocalCoords.C116_full_violated",
    "Verif.FocalCoords.C116_pitch",
    "Verif.FocalCoords.C116_region",
    "Verif.FocalCoords.C116_region_odd_violated"
   ],
   "note": ""
  },
  {
   "property": "C117",
   "status": "proved",
   "theorems": [
    "Verif.DmTilt.C117_surface",
    "Verif.DmTilt.C117_superposition",
    "Verif.DmTilt.C117_at_actuator",
    "Verif.DmTilt.C117_centering",
    "Verif.DmTilt.C117_rotated_interpixel_violated",
    "Verif.DmTilt.C117_centre",
    "Verif.DmTilt.C117_stamp",
    "Verif.DmTilt.C117_stamp_interpixel_violated",
    "Verif.DmTilt.C117_padded",
    "Verif.DmTilt.C117_even_violated",
    "Verif.DmTilt.C117_ndm",
    "Verif.DmTilt.C117_inverse",
    "Verif.DmTilt.C117_same_tilt",
    "Verif.DmTilt.C117_obliquity",
    "Verif.DmTilt.C117_clocking_violated",
    "Verif.DmTilt.C117_tilt_backprop_violated",
    "Verif.DmTilt.C117_window",
    "Verif.DmTilt.C117_margin",
    "Verif.DmTilt.C117_wavefront"
   ],
   "note": ""
  },
  {
   "property": "C118",
   "status": "proved",
   "theorems": [
    "Verif.DmStats.C118_general",
    "Verif.DmStats.C118_statistics",
    "Verif.DmStats.C118_not_in_use",
    "Verif.DmStats.C118_schedule_violated",
    "Verif.DmStats.C118_bias_violated",
    "Verif.DmStats.C118_meaning"
   ],
   "note": ""
  },
  {
   "property": "C119",
   "status": "proved",
   "theorems": [
    "Verif.SurfFit.C119_heights",
    "Verif.SurfFit.C119_kernel",
    "Verif.SurfFit.C119_own_surface",
    "Verif.SurfFit.C119_round_trip",
    "Verif.SurfFit.C119_commands_recovered",
    "Verif.SurfFit.C119_orientation_violated",
    "Verif.SurfFit.C119_accepted",
    "Verif.SurfFit.C119_edge_violated"
   ],
   "note": ""
  },
  {
   "property": "C120",
   "status": "proved",
   "theorems": [
    "Verif.PsdMap.C120_rms",
    "Verif.PsdMap.C120_no_piston",
    "Verif.PsdMap.C120_amplitude",
    "Verif.PsdMap.C120_shape",
    "Verif.PsdMap.C120_max_frequency",
    "Verif.PsdMap.C120_max_frequency_violated",
    "Verif.PsdMap.C120_rotation_violated",
    "Verif.PsdMap.C120_adds_phase",
    "Verif.PsdMap.C120_mirror_sign_violated",
    "Verif.PsdMap.C120_file",
    "Verif.PsdMap.C120_reread",
    "Verif.PsdMap.C120_odd_violated"
   ],
   "note": ""
  },
  {
   "property": "C121",
   "status": "proved",
   "theorems": [
    "Verif.Run.C121_grid",
    "Verif.Run.C121_single",
    "Verif.Run.C121_switches",
    "Verif.Run.C121_sum",
    "Verif.Run.C121_error",
    "Verif.Run.C121_history",
    "Verif.Run.C121_one_row_violated",
    "Verif.Run.C121_demo"
   ],
   "note": ""
  },
  {
   "property": "C122",
   "status": "proved",
   "theorems": [
    "Verif.Run.C122_results",
    "Verif.Run.C122_failure",
    "Verif.Run.C122_returns",
    "Verif.Run.C122_lengths",
    "Verif.Run.C122_no_workers",
    "Verif.Run.C122_empty_dict_violated",
    "Verif.Run.C122_demo",
    "Verif.Run.C122_shared_state_violated"
   ],
   "note": ""
  },
  {
   "property": "C123",
   "status": "proved",
   "theorems": [
    "Verif.Yaml.C123_loads",
    "Verif.Yaml.C123_accepts",
    "Verif.Yaml.C123_own",
    "Verif.Yaml.C123_context_violated",
    "Verif.Yaml.C123_leak_violated",
    "Verif.Yaml.C123_demo"
   ],
   "note": ""
  },
  {
   "property": "C124",
   "status": "proved",
   "theorems": [
    "Verif.Proper.C124_arrays",
    "Verif.Proper.C124_numbers",
    "Verif.Proper.C124_complex_number_violated",
    "Verif.Proper.C124_shapes",
    "Verif.Proper.C124_row_broadcast",
    "Verif.Proper.C124_divide_undoes",
    "Verif.Proper.C124_amplitude_phase",
    "Verif.Proper.C124_add_phase_reads_back",
    "Verif.Proper.C124_odd_violated",
    "Verif.Proper.C124_samplings"
   ],
   "note": ""
  },
  {
   "property": "C125",
   "status": "proved",
   "theorems": [
    "Verif.HexZ.C125_map",
    "Verif.HexZ.C125_rms",
    "Verif.HexZ.C125_piston_violated",
    "Verif.HexZ.C125_too_few_indices",
    "Verif.HexZ.C125_orthonormal",
    "Verif.HexZ.C125_near_orthonormal",
    "Verif.HexZ.C125_z18_violated"
   ],
   "note": ""
  },
  {
   "property": "C126",
   "status": "proved",
   "theorems": [
    "Verif.HexWave.C126_segments",
    "Verif.HexWave.C126_spacing",
    "Verif.HexWave.C126_default_violated",
    "Verif.HexWave.C126_aperture",
    "Verif.HexWave.C126_phase",
    "Verif.HexWave.C126_range",
    "Verif.HexWave.C126_detect"
   ],
   "note": ""
  },
  {
   "property": "C127",
   "status": "proved",
   "theorems": [
    "Verif.Noll.C127_fits",
    "Verif.Noll.C127_high_orders_violated",
    "Verif.Noll.C127_first_violated",
    "Verif.Noll.C127_silent_violated",
    "Verif.ZernMap.C127_map_violated"
   ],
   "note": ""
  },
  {
   "property": "C128",
   "status": "proved",
   "theorems": [
    "Verif.FitZern.C128_least_squares",
    "Verif.FitZern.C128_linear",
    "Verif.FitZern.C128_refused",
    "Verif.FitZern.C128_many_violated",
    "Verif.FitZern.C128_nonsquare_violated"
   ],
   "note": ""
  },
  {
   "property": "C129",
   "status": "proved",
   "theorems": [
    "Verif.Mask8.C129_value",
    "Verif.Mask8.C129_range",
    "Verif.Mask8.C129_centre",
    "Verif.Mask8.C129_eighth_order",
    "Verif.Mask8.C129_shape",
    "Verif.Mask8.C129_field",
    "Verif.Mask8.C129_odd_violated",
    "Verif.Mask8.C129_zero"
   ],
   "note": ""
  },
  {
   "property": "C130",
   "status": "proved",
   "theorems": [
    "Verif.Pixellate.C130_integral",
    "Verif.Pixellate.C130_every_image",
    "Verif.Pixellate.C130_odd_violated",
    "Verif.Pixellate.C130_odd_example_violated",
    "Verif.Pixellate.C130_constant",
    "Verif.Pixellate.C130_resampled",
    "Verif.Pixellate.C130_centre",
    "Verif.Pixellate.C130_size_violated",
    "Verif.Pixellate.C130_shape"
   ],
   "note": ""
  },
  {
   "property": "C131",
   "status": "proved",
   "theorems": [
    "Verif.RoundRect.C131_violated",
    "Verif.RoundRect.C131_type_error"
   ],
   "note": ""
  },
  {
   "property": "C132",
   "status": "proved",
   "theorems": [
    "Verif.WriteMap.C132_written",
    "Verif.WriteMap.C132_round_trip",
    "Verif.WriteMap.C132_type_violated",
    "Verif.WriteMap.C132_centre_violated"
   ],
   "note": ""
  },
  {
   "property": "C133",
   "status": "proved",
   "theorems": [
    "Verif.PropDm.C133_kernel",
    "Verif.PropDm.C133_fit",
    "Verif.PropDm.C133_agree",
    "Verif.PropDm.C133_false_is_true_violated",
    "Verif.PropDm.C133_false",
    "Verif.PropDm.C133_order_false_violated",
    "Verif.PropDm.C133_refusals",
    "Verif.PropDm.C133_sign_violated",
    "Verif.PropDm.C133_applied"
   ],
   "note": ""
  },
  {
   "property": "C134",
   "status": "proved",
   "theorems": [
    "Verif.PropDm.C134_surface",
    "Verif.PropDm.C134_superposition",
    "Verif.PropDm.C134_not_square_violated",
    "Verif.PropDm.C134_rows_columns_violated"
   ],
   "note": ""
  },
  {
   "property": "C135",
   "status": "proved",
   "theorems": [
    "Verif.HexDraw.C135_hexagon",
    "Verif.HexDraw.C135_mirror",
    "Verif.HexDraw.C135_size",
    "Verif.HexDraw.C135_field_violated",
    "Verif.HexDraw.C135_field_empty_violated"
   ],
   "note": ""
  },
  {
   "property": "C136",
   "status": "proved",
   "theorems": [
    "Verif.HlcSurf.C136_superposition",
    "Verif.HlcSurf.C136_nonneg",
    "Verif.HlcSurf.C136_bilinear",
    "Verif.HlcSurf.C136_coordinates",
    "Verif.HlcSurf.C136_interpixel"
   ],
   "note": ""
  },
  {
   "property": "C137",
   "status": "proved",
   "theorems": [
    "Verif.HlcCos.C137_partition",
    "Verif.HlcCos.C137_ring",
    "Verif.HlcCos.C137_cube",
    "Verif.HlcCos.C137_lobes_violated",
    "Verif.HlcCos.C137_interpixel_violated",
    "Verif.HlcCos.C137_flat"
   ],
   "note": ""
  },
  {
   "property": "C138",
   "status": "proved",
   "theorems": [
    "Verif.HlcCos.C138_cosine_violated",
    "Verif.HlcCos.C138_setup_violated",
    "Verif.HlcCos.C138_workspace_violated"
   ],
   "note": ""
  },
  {
   "property": "C139",
   "status": "proved",
   "theorems": [
    "Verif.Luvoir.C139_cells",
    "Verif.Luvoir.C139_aperture_A",
    "Verif.Luvoir.C139_aperture_B",
    "Verif.Luvoir.A.C139_contained_A",
    "Verif.Luvoir.A.C139_value_A",
    "Verif.Luvoir.A.C139_value_lyot",
    "Verif.Luvoir.A.C139_centre",
    "Verif.Luvoir.A.C139_range_A",
    "Verif.Luvoir.B.C139_contained_B",
    "Verif.Luvoir.B.C139_value_B",
    "Verif.Luvoir.B.C139_rot_violated",
    "Verif.Luvoir.B.C139_rot_pixel"
   ],
   "note": ""
  },
  {
   "property": "C140",
   "status": "proved",
   "theorems": [
    "Verif.CustomHex.C140_segments",
    "Verif.CustomHex.C140_outer_violated",
    "Verif.CustomHex.C140_obscured_violated",
    "Verif.CustomHex.C140_struts_violated",
    "Verif.CustomHex.C140_pistons_violated"
   ],
   "note": ""
  },
  {
   "property": "C141",
   "status": "proved",
   "theorems": [
    "Verif.Options.C141_verify",
    "Verif.Options.C141_again",
    "Verif.Options.C141_estimators",
    "Verif.Options.C141_unchecked",
    "Verif.Options.C141_kalman_violated",
    "Verif.Options.C141_controllers",
    "Verif.Options.C141_controller_case",
    "Verif.Options.C141_coronagraphs",
    "Verif.Options.C141_jacobian",
    "Verif.Options.C141_scale",
    "Verif.Options.C141_scale_hlc_violated",
    "Verif.Options.C141_scale_lyot_violated",
    "Verif.Options.C141_iteration"
   ],
   "note": ""
  },
  {
   "property": "C142",
   "status": "proved",
   "theorems": [
    "Verif.SetupDm.C142_sign",
    "Verif.SetupDm.C142_dead",
    "Verif.SetupDm.C142_dead_negative_violated",
    "Verif.SetupDm.C142_dead_range",
    "Verif.SetupDm.C142_start",
    "Verif.SetupDm.C142_stops",
    "Verif.SetupDm.C142_fields_compact",
    "Verif.SetupDm.C142_fields_default",
    "Verif.SetupDm.C142_fields_resized",
    "Verif.SetupDm.C142_fields_missing",
    "Verif.SetupDm.C142_fields_unchecked",
    "Verif.SetupDm.C142_lyot",
    "Verif.SetupDm.C142_finish"
   ],
   "note": ""
  },
  {
   "property": "C143",
   "status": "proved",
   "theorems": [
    "Verif.Masks.C143_value",
    "Verif.Masks.C143_clocked",
    "Verif.Masks.C143_annulus",
    "Verif.Masks.C143_open",
    "Verif.Masks.C143_dark",
    "Verif.Masks.C143_clocked_violated"
   ],
   "note": ""
  },
  {
   "property": "C144",
   "status": "proved",
   "theorems": [
    "Verif.Interrupt.C144_probing_ok",
    "Verif.Interrupt.C144_probing_raised",
    "Verif.Interrupt.C144_probing_again",
    "Verif.Interrupt.C144_probe_stays",
    "Verif.Interrupt.C144_grid_ok",
    "Verif.Interrupt.C144_grid_raised",
    "Verif.Interrupt.C144_trial_stays",
    "Verif.Interrupt.C144_utu_ok",
    "Verif.Interrupt.C144_utu_raised",
    "Verif.Interrupt.C144_subset_stays",
    "Verif.Interrupt.C144_norms_fresh",
    "Verif.Interrupt.C144_norms_raised",
    "Verif.Interrupt.C144_zern",
    "Verif.Interrupt.C144_zern_lists",
    "Verif.Interrupt.C144_zern_stays"
   ],
   "note": ""
  },
  {
   "property": "C145",
   "status": "proved",
   "theorems": [
    "Verif.SimpleMap.C145_mean",
    "Verif.SimpleMap.C145_rms",
    "Verif.SimpleMap.C145_peak_to_valley_violated",
    "Verif.SimpleMap.C145_power_law",
    "Verif.SimpleMap.C145_odd_violated",
    "Verif.SimpleMap.C145_smooth",
    "Verif.SimpleMap.C145_smooth_constant",
    "Verif.SimpleMap.C145_smooth_ends_violated",
    "Verif.SimpleMap.C145_smooth_long_violated",
    "Verif.SimpleMap.C145_smooth_refused"
   ],
   "note": ""
  },
  {
   "property": "C146",
   "status": "proved",
   "theorems": [
    "Verif.FilmFiles.C146_names",
    "Verif.FilmFiles.C146_distinguish",
    "Verif.FilmFiles.C146_first_call",
    "Verif.FilmFiles.C146_stale",
    "Verif.FilmFiles.C146_d0_violated",
    "Verif.FilmFiles.C146_wavelength_violated",
    "Verif.FilmFiles.C146_shape_violated",
    "Verif.FilmFiles.C146_sequential",
    "Verif.FilmFiles.C146_cut_off",
    "Verif.FilmFiles.C146_cut_off_violated",
    "Verif.FilmFiles.C146_part_forever",
    "Verif.FilmFiles.C146_schedule",
    "Verif.FilmFiles.C146_right",
    "Verif.FilmFiles.C146_race_violated"
   ],
   "note": ""
  },
  {
   "property": "C147",
   "status": "proved",
   "theorems": [
    "Verif.Caches.C147_cube_slice",
    "Verif.Caches.C147_before",
    "Verif.Caches.C147_after_violated",
    "Verif.Caches.C147_full",
    "Verif.Caches.C147_compact_mask",
    "Verif.Caches.C147_first_fit",
    "Verif.Caches.C147_influence_violated",
    "Verif.Caches.C147_actuators_violated"
   ],
   "note": ""
  },
  {
   "property": "C148",
   "status": "proved",
   "theorems": [
    "Verif.FftLib.C148_fftw_lasts",
    "Verif.FftLib.C148_disable_lasts",
    "Verif.FftLib.C148_ffti_lasts",
    "Verif.FftLib.C148_ffti_next_session",
    "Verif.FftLib.C148_file_of_fftw",
    "Verif.FftLib.C148_file_of_ffti",
    "Verif.FftLib.C148_start",
    "Verif.FftLib.C148_available",
    "Verif.FftLib.C148_violated_error_map",
    "Verif.FftLib.C148_violated_error_map_ffti",
    "Verif.FftLib.C148_violated_disable",
    "Verif.FftLib.C148_violated_directory",
    "Verif.FftLib.C148_same_result"
   ],
   "note": ""
  },
  {
   "property": "C149",
   "status": "proved",
   "theorems": [
    "Verif.RomanPupil.C149_sector",
    "Verif.RomanPupil.C149_violated_whole_turn",
    "Verif.RomanPupil.C149_rigid",
    "Verif.RomanPupil.C149_range",
    "Verif.RomanPupil.C149_image_of_open",
    "Verif.RomanPupil.C149_rot180_interpixel",
    "Verif.RomanPupil.C149_rot180_pixel_lyot",
    "Verif.RomanPupil.C149_violated_rot180_pixel",
    "Verif.RomanPupil.C149_shear",
    "Verif.RomanPupil.C149_fits",
    "Verif.RomanPupil.C149_padding",
    "Verif.RomanPupil.C149_errors",
    "Verif.RomanPupil.C149_wfirst_body",
    "Verif.RomanPupil.C149_violated_wfirst_clock",
    "Verif.RomanPupil.C149_violated_wfirst_interpixel",
    "Verif.RomanPupil.C149_violated_wfirst_dict"
   ],
   "note": ""
  },
  {
   "property": "C150",
   "status": "proved",
   "theorems": [
    "Verif.Occulter.C150_curve_unique",
    "Verif.Occulter.C150_table",
    "Verif.Occulter.C150_pixel",
    "Verif.Occulter.C150_local",
    "Verif.Occulter.C150_violated_nan",
    "Verif.Occulter.C150_errors",
    "Verif.Occulter.C150_shapes",
    "Verif.Occulter.C150_empty",
    "Verif.Occulter.C150_passive",
    "Verif.Occulter.C150_no_metal",
    "Verif.Occulter.C150_violated_fused_silica",
    "Verif.Occulter.C150_violated_range"
   ],
   "note": ""
  },
  {
   "property": "C151",
   "status": "proved",
   "theorems": [
    "Verif.BowtieLyot.C151_region",
    "Verif.BowtieLyot.C151_pixel",
    "Verif.BowtieLyot.C151_image",
    "Verif.BowtieLyot.C151_passive",
    "Verif.BowtieLyot.C151_symmetric",
    "Verif.BowtieLyot.C151_polar",
    "Verif.BowtieLyot.C151_extremes",
    "Verif.BowtieLyot.C151_monotone",
    "Verif.BowtieLyot.C151_fits",
    "Verif.BowtieLyot.C151_even",
    "Verif.BowtieLyot.C151_errors"
   ],
   "note": ""
  },
  {
   "property": "C152",
   "status": "proved",
   "theorems": [
    "Verif.DeltaField.C152_history",
    "Verif.DeltaField.C152_completes",
    "Verif.DeltaField.C152_violated_single_pixel",
    "Verif.DeltaField.C152_proportional",
    "Verif.DeltaField.C152_perfect",
    "Verif.DeltaField.C152_scaling",
    "Verif.DeltaField.C152_unchanged_pixels",
    "Verif.DeltaField.C152_no_change",
    "Verif.DeltaField.C152_common_phase",
    "Verif.DeltaField.C152_violated_bound",
    "Verif.DeltaField.C152_violated_undefined",
    "Verif.DeltaField.C152_simulated",
    "Verif.DeltaField.C152_columns",
    "Verif.DeltaField.C152_violated_zernikes"
   ],
   "note": ""
  },
  {
   "property": "C153",
   "status": "proved",
   "theorems": [
    "Verif.ModeSpectrum.C153_spectrum",
    "Verif.ModeSpectrum.C153_abscissa",
    "Verif.ModeSpectrum.C153_relative",
    "Verif.ModeSpectrum.C153_unique",
    "Verif.ModeSpectrum.C153_errors"
   ],
   "note": ""
  },
  {
   "property": "C154",
   "status": "proved",
   "theorems": [
    "Verif.ProbeRecord.C154_record",
    "Verif.ProbeRecord.C154_plot",
    "Verif.ProbeRecord.C154_means",
    "Verif.ProbeRecord.C154_figures",
    "Verif.ProbeRecord.C154_errors"
   ],
   "note": ""
  },
  {
   "property": "C155",
   "status": "proved",
   "theorems": [
    "Verif.DeepCopy.C155_completes",
    "Verif.DeepCopy.C155_copy",
    "Verif.DeepCopy.C155_original",
    "Verif.DeepCopy.C155_sharing",
    "Verif.DeepCopy.C155_whole",
    "Verif.DeepCopy.C155_compact",
    "Verif.DeepCopy.C155_compact_sees_itself",
    "Verif.DeepCopy.C155_compact_stale_violated"
   ],
   "note": ""
  },
  {
   "property": "C156",
   "status": "proved",
   "theorems": [
    "Verif.Snippet.C156_within",
    "Verif.Snippet.C156_writing_violated",
    "Verif.Snippet.C156_complete",
    "Verif.Snippet.C156_plots",
    "Verif.Snippet.C156_plots_complete",
    "Verif.Snippet.C156_final_voltages_violated",
    "Verif.Snippet.C156_first_iteration"
   ],
   "note": ""
  },
  {
   "property": "C157",
   "status": "proved",
   "theorems": [
    "Verif.ProperTable.C157_number",
    "Verif.ProperTable.C157_lens_line",
    "Verif.ProperTable.C157_propagate_line",
    "Verif.ProperTable.C157_beam_diameter_violated",
    "Verif.ProperTable.C157_second_begin_violated",
    "Verif.ProperTable.C157_transparent",
    "Verif.ProperTable.C157_no_error",
    "Verif.ProperTable.C157_overflow_violated",
    "Verif.ProperTable.C157_name_violated",
    "Verif.ProperTable.C157_stale_violated",
    "Verif.ProperTable.C157_fratio_waist",
    "Verif.ProperTable.C157_independent"
   ],
   "note": ""
  },
  {
   "property": "C158",
   "status": "proved",
   "theorems": [
    "Verif.MklFft.C158_shift",
    "Verif.MklFft.C158_shift_numpy",
    "Verif.MklFft.C158_cube_violated",
    "Verif.MklFft.C158_shift_odd_violated",
    "Verif.MklFft.C158_shift_half_violated",
    "Verif.MklFft.C158_shift_long_violated",
    "Verif.MklFft.C158_single_row_violated",
    "Verif.MklFft.C158_axes_violated",
    "Verif.MklFft.C158_fft2",
    "Verif.MklFft.C158_real_violated",
    "Verif.MklFft.C158_restored",
    "Verif.MklFft.C158_inverse_violated",
    "Verif.MklFft.C158_full",
    "Verif.MklFft.C158_full_odd_violated",
    "Verif.MklFft.C158_norm_violated",
    "Verif.MklFft.C158_irfft2_violated"
   ],
   "note": ""
  },
  {
   "property": "C159",
   "status": "proved",
   "theorems": [
    "Verif.Config.C159_merge",
    "Verif.Config.C159_last",
    "Verif.Config.C159_others",
    "Verif.Config.C159_twice",
    "Verif.Config.C159_list_violated",
    "Verif.Config.C159_object_violated",
    "Verif.Config.C159_field_violated"
   ],
   "note": ""
  },
  {
   "property": "C160",
   "status": "proved",
   "theorems": [
    "Verif.Optics.C160_wraps",
    "Verif.Optics.C160_talbot",
    "Verif.Optics.C160_half",
    "Verif.Optics.C160_repeats_violated"
   ],
   "note": ""
  },
  {
   "property": "C161",
   "status": "proved",
   "theorems": [
    "Verif.Polar.C161_unique",
    "Verif.Polar.C161_cart2pol",
    "Verif.Polar.C161_refused",
    "Verif.Polar.C161_grids",
    "Verif.Polar.C161_list_violated",
    "Verif.Polar.C161_grids_refused",
    "Verif.Polar.C161_degrees",
    "Verif.Polar.C161_degrees_values",
    "Verif.Polar.C161_degrees_array_violated"
   ],
   "note": ""
  }
 ]
}