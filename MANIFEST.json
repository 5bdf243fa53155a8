{
 "claims": [
  {
   "property": "C01",
   "status": "proved",
   "theorems": [
    "TEflow.C01_retain_keeps"
   ],
   "note": ""
  },
  {
   "property": "C02",
   "status": "proved",
   "theorems": [
    "TEflow.C02_retain_match_order"
   ],
   "note": ""
  },
  {
   "property": "C03",
   "status": "proved",
   "theorems": [
    "TEflow.C03_retain_errors",
    "TEflow.C03_retain_not_exception_safe"
   ],
   "note": "The property states the actual behaviour, including the side effect before the error; C03_retain_not_exception_safe is the witness."
  },
  {
   "property": "C04",
   "status": "proved",
   "theorems": [
    "TEflow.C04_merge",
    "TEflow.C04_merge_defaults",
    "TEflow.C04_merge_append",
    "TEflow.C04_merge_extend",
    "TEflow.C04_append",
    "TEflow.C04_extend"
   ],
   "note": ""
  },
  {
   "property": "C05",
   "status": "proved",
   "theorems": [
    "TEflow.C05_sum",
    "TEflow.C05_sum_perm",
    "TEflow.C05_sum_defaults",
    "TEflow.C05_sum_concat"
   ],
   "note": ""
  },
  {
   "property": "C06",
   "status": "proved",
   "theorems": [
    "TEflow.C06_parse_list",
    "TEflow.C06_round_trip",
    "TEflow.C06_converters"
   ],
   "note": ""
  },
  {
   "property": "C07",
   "status": "proved",
   "theorems": [
    "TEflow.C07_range_two",
    "TEflow.C07_range_two_whole",
    "TEflow.C07_range_three",
    "TEflow.C07_range_three_bounds",
    "TEflow.C07_range_three_whole"
   ],
   "note": ""
  },
  {
   "property": "C08",
   "status": "proved",
   "theorems": [
    "TEflow.C08_split",
    "TEflow.C08_items",
    "TEflow.C08_single",
    "TEflow.C08_two_fields",
    "TEflow.C08_three_fields",
    "TEflow.C08_field_count",
    "TEflow.C08_two_blanks"
   ],
   "note": ""
  },
  {
   "property": "C09",
   "status": "proved",
   "theorems": [
    "TEflow.C09_pmatch_ok",
    "TEflow.C09_pmatch_error",
    "TEflow.C09_pmatch_type"
   ],
   "note": ""
  },
  {
   "property": "C10",
   "status": "proved",
   "theorems": [
    "TEflow.C10_exec_latest"
   ],
   "note": ""
  },
  {
   "property": "C11",
   "status": "proved",
   "theorems": [
    "TEflow.C11_exec_missing",
    "TEflow.C11_exec_outcome"
   ],
   "note": ""
  },
  {
   "property": "C12",
   "status": "proved",
   "theorems": [
    "TEflow.C12_no_duplicates",
    "TEflow.C12_latest",
    "TEflow.C12_console_file_collision"
   ],
   "note": "A log file literally named 'console' shares the console token (C12_console_file_collision); C12_latest excludes exactly that."
  },
  {
   "property": "C13",
   "status": "proved",
   "theorems": [
    "TEflow.C13_round_trip"
   ],
   "note": ""
  },
  {
   "property": "C14",
   "status": "proved",
   "theorems": [
    "TEflow.C14_errors",
    "TEflow.C14_from_string",
    "TEflow.C14_characters",
    "TEflow.C14_amount"
   ],
   "note": ""
  },
  {
   "property": "C15",
   "status": "proved",
   "theorems": [
    "TEflow.C15_errors",
    "TEflow.C15_match_order",
    "TEflow.C15_append",
    "TEflow.C15_undo"
   ],
   "note": ""
  },
  {
   "property": "C16",
   "status": "proved",
   "theorems": [
    "TEflow.C16_natom"
   ],
   "note": ""
  },
  {
   "property": "C17",
   "status": "proved",
   "theorems": [
    "TEflow.C17_table",
    "TEflow.C17_bounds",
    "TEflow.C17_single",
    "TEflow.C17_order",
    "TEflow.C17_scale",
    "TEflow.C17_unknown",
    "TEflow.C17_project"
   ],
   "note": ""
  },
  {
   "property": "C18",
   "status": "proved",
   "theorems": [
    "TEflow.C18_from_compounds",
    "TEflow.C18_names",
    "TEflow.C18_all_sites",
    "TEflow.C18_plain_dict_site"
   ],
   "note": ""
  },
  {
   "property": "C19",
   "status": "proved",
   "theorems": [
    "TEflow.C19_C_R",
    "TEflow.C19_C_N_U"
   ],
   "note": ""
  },
  {
   "property": "C20",
   "status": "proved",
   "theorems": [
    "TEflow.C20_get",
    "TEflow.C20_derivable",
    "TEflow.C20_getitem",
    "TEflow.C20_gget"
   ],
   "note": ""
  },
  {
   "property": "C21",
   "status": "proved",
   "theorems": [
    "TEflow.C21_build",
    "TEflow.C21_pairing",
    "TEflow.C21_blocks"
   ],
   "note": ""
  },
  {
   "property": "C22",
   "status": "proved",
   "theorems": [
    "TEflow.C22_text",
    "TEflow.C22_round_trip",
    "TEflow.C22_other"
   ],
   "note": ""
  },
  {
   "property": "C23",
   "status": "proved",
   "theorems": [
    "TEflow.C23_rowtext",
    "TEflow.C23_comments",
    "TEflow.C23_table",
    "TEflow.C23_items"
   ],
   "note": ""
  },
  {
   "property": "C24",
   "status": "proved",
   "theorems": [
    "TEflow.C24_TE",
    "TEflow.C24_TE2"
   ],
   "note": ""
  },
  {
   "property": "C25",
   "status": "proved",
   "theorems": [
    "TEflow.C25_CTA",
    "TEflow.C25_ZEM"
   ],
   "note": ""
  },
  {
   "property": "C26",
   "status": "proved",
   "theorems": [
    "TEflow.C26_no_header",
    "TEflow.C26_data",
    "TEflow.C26_lengths"
   ],
   "note": ""
  },
  {
   "property": "C27",
   "status": "proved",
   "theorems": [
    "TEflow.C27_success",
    "TEflow.C27_checks",
    "TEflow.C27_Cp",
    "TEflow.C27_model",
    "TEflow.C27_kappa"
   ],
   "note": ""
  },
  {
   "property": "C28",
   "status": "proved",
   "theorems": [
    "TEflow.C28_nonneg",
    "TEflow.C28_zero",
    "TEflow.C28_symm",
    "TEflow.C28_order",
    "TEflow.C28_scale",
    "TEflow.C28_documented",
    "TEflow.C28_dispatch"
   ],
   "note": ""
  },
  {
   "property": "C29",
   "status": "proved",
   "theorems": [
    "TEflow.C29_pieces"
   ],
   "note": ""
  },
  {
   "property": "C30",
   "status": "proved",
   "theorems": [
    "TEflow.C30_trend",
    "TEflow.C30_ends",
    "TEflow.C30_errors"
   ],
   "note": ""
  },
  {
   "property": "C31",
   "status": "proved",
   "theorems": [
    "TEflow.C31_weighted_mean",
    "TEflow.C31_scale",
    "TEflow.C31_bounds",
    "TEflow.C31_factor",
    "TEflow.C31_order",
    "TEflow.C31_errors",
    "TEflow.C31_integer_first"
   ],
   "note": ""
  },
  {
   "property": "C32",
   "status": "proved",
   "theorems": [
    "TEflow.C32_shape",
    "TEflow.C32_inverse"
   ],
   "note": ""
  },
  {
   "property": "C33",
   "status": "proved",
   "theorems": [
    "TEflow.C33_plain",
    "TEflow.C33_shift",
    "TEflow.C33_inverse_plain",
    "TEflow.C33_inverse_shift"
   ],
   "note": ""
  },
  {
   "property": "C34",
   "status": "proved",
   "theorems": [
    "TEflow.C34_kernel_range",
    "TEflow.C34_dfx_formula",
    "TEflow.C34_kernel_gradient",
    "TEflow.C34_exact_at_data",
    "TEflow.C34_gradient",
    "TEflow.C34_pointwise",
    "TEflow.C34_unknown_kernel"
   ],
   "note": ""
  },
  {
   "property": "C35",
   "status": "proved",
   "theorems": [
    "TEflow.C35_piecewise_linear",
    "TEflow.C35_at_data",
    "TEflow.C35_line",
    "TEflow.C35_between",
    "TEflow.C35_errors"
   ],
   "note": ""
  },
  {
   "property": "C36",
   "status": "proved",
   "theorems": [
    "TEflow.C36_sorted_pairs",
    "TEflow.C36_order",
    "TEflow.C36_no_reorder",
    "TEflow.C36_errors"
   ],
   "note": ""
  },
  {
   "property": "C37",
   "status": "proved",
   "theorems": [
    "TEflow.C37_values",
    "TEflow.C37_shape",
    "TEflow.C37_broadcast"
   ],
   "note": ""
  },
  {
   "property": "C38",
   "status": "proved",
   "theorems": [
    "TEflow.C38_seq_tens_seq",
    "TEflow.C38_tens_seq_tens",
    "TEflow.C38_symmetric_part"
   ],
   "note": ""
  },
  {
   "property": "C39",
   "status": "proved",
   "theorems": [
    "TEflow.C39_RCRT",
    "TEflow.C39_compose",
    "TEflow.C39_inverse",
    "TEflow.C39_invariants"
   ],
   "note": ""
  },
  {
   "property": "C40",
   "status": "proved",
   "theorems": [
    "TEflow.C40_named_axes",
    "TEflow.C40_comb_rotations",
    "TEflow.C40_proper",
    "TEflow.C40_angles_add",
    "TEflow.C40_right_handed",
    "TEflow.C40_errors"
   ],
   "note": ""
  },
  {
   "property": "C41",
   "status": "proved",
   "theorems": [
    "TEflow.C41_quadratic_form",
    "TEflow.C41_bounds",
    "TEflow.C41_linear_and_zz"
   ],
   "note": ""
  },
  {
   "property": "C42",
   "status": "proved",
   "theorems": [
    "TEflow.C42_vertical_le_parallel",
    "TEflow.C42_bounds",
    "TEflow.C42_order_identical_scale",
    "TEflow.C42_across",
    "TEflow.C42_along",
    "TEflow.C42_anilay",
    "TEflow.C42_equal_widths"
   ],
   "note": ""
  },
  {
   "property": "C43",
   "status": "proved",
   "theorems": [
    "TEflow.C43_inverts"
   ],
   "note": ""
  },
  {
   "property": "C44",
   "status": "proved",
   "theorems": [
    "TEflow.C44_zero_and_nonneg",
    "TEflow.C44_increasing"
   ],
   "note": ""
  },
  {
   "property": "C45",
   "status": "proved",
   "theorems": [
    "TEflow.C45_structure",
    "TEflow.C45_errors",
    "TEflow.C45_prefix",
    "TEflow.C45_np_symmetry",
    "TEflow.C45_unit_invariance",
    "TEflow.C45_phi"
   ],
   "note": ""
  },
  {
   "property": "C46",
   "status": "proved",
   "theorems": [
    "TEflow.C46_interval",
    "TEflow.C46_result"
   ],
   "note": ""
  },
  {
   "property": "C47",
   "status": "proved",
   "theorems": [
    "TEflow.C47_all",
    "TEflow.C47_failed",
    "TEflow.C47_single"
   ],
   "note": ""
  },
  {
   "property": "C48",
   "status": "proved",
   "theorems": [
    "TEflow.C48_bounds",
    "TEflow.C48_constant",
    "TEflow.C48_additive",
    "TEflow.C48_constant_at_data",
    "TEflow.C48_trapezoid",
    "TEflow.C48_outside",
    "TEflow.C48_between_data_inexact"
   ],
   "note": ""
  },
  {
   "property": "C49",
   "status": "proved",
   "theorems": [
    "TEflow.C49_identities",
    "TEflow.C49_endpoints",
    "TEflow.C49_geometry",
    "TEflow.C49_sign"
   ],
   "note": ""
  },
  {
   "property": "C50",
   "status": "proved",
   "theorems": [
    "TEflow.C50_power",
    "TEflow.C50_PowerMax"
   ],
   "note": ""
  },
  {
   "property": "C51",
   "status": "proved",
   "theorems": [
    "TEflow.C51_efficiency",
    "TEflow.C51_table"
   ],
   "note": ""
  },
  {
   "property": "C52",
   "status": "proved",
   "theorems": [
    "TEflow.C52_constant"
   ],
   "note": ""
  },
  {
   "property": "C53",
   "status": "proved",
   "theorems": [
    "TEflow.C53_temperatures",
    "TEflow.C53_currents",
    "TEflow.C53_not_built",
    "TEflow.C53_latest_build",
    "TEflow.C53_modes"
   ],
   "note": ""
  },
  {
   "property": "C54",
   "status": "proved",
   "theorems": [
    "TEflow.C54_polynomial",
    "TEflow.C54_ST_wrong",
    "TEflow.C54_agrees_with_table"
   ],
   "note": ""
  },
  {
   "property": "C55",
   "status": "proved",
   "theorems": [
    "TEflow.C55_true_optimum_ZT",
    "TEflow.C55_code_ZT",
    "TEflow.C55_PF",
    "TEflow.C55_claim_fails",
    "TEflow.C55_refused"
   ],
   "note": ""
  },
  {
   "property": "C56",
   "status": "proved",
   "theorems": [
    "TEflow.C56_series_parallel",
    "TEflow.C56_swap",
    "TEflow.C56_weights"
   ],
   "note": ""
  },
  {
   "property": "C57",
   "status": "proved",
   "theorems": [
    "TEflow.C57_given",
    "TEflow.C57_generated",
    "TEflow.C57_kappa_distinct",
    "TEflow.C57_kappa_auto",
    "TEflow.C57_overwrite",
    "TEflow.C57_directory_dropped",
    "TEflow.C57_no_suffix"
   ],
   "note": ""
  },
  {
   "property": "C58",
   "status": "proved",
   "theorems": [
    "TEflow.C58_run",
    "TEflow.C58_other"
   ],
   "note": ""
  },
  {
   "property": "C59",
   "status": "proved",
   "theorems": [
    "TEflow.C59_blanks",
    "TEflow.C59_comment",
    "TEflow.C59_all_columns",
    "TEflow.C59_columns",
    "TEflow.C59_idempotent"
   ],
   "note": ""
  },
  {
   "property": "C60",
   "status": "proved",
   "theorems": [
    "TEflow.C60_plain",
    "TEflow.C60_tokens",
    "TEflow.C60_padding",
    "TEflow.C60_rectangular"
   ],
   "note": ""
  },
  {
   "property": "C61",
   "status": "proved",
   "theorems": [
    "TEflow.C61_weight",
    "TEflow.C61_scale",
    "TEflow.C61_errors"
   ],
   "note": ""
  },
  {
   "property": "C62",
   "status": "proved",
   "theorems": [
    "TEflow.C62_factor",
    "TEflow.C62_values",
    "TEflow.C62_rows",
    "TEflow.C62_default_fails"
   ],
   "note": ""
  },
  {
   "property": "C63",
   "status": "proved",
   "theorems": [
    "TEflow.C63_large_step",
    "TEflow.C63_small_step",
    "TEflow.C63_too_low"
   ],
   "note": ""
  },
  {
   "property": "C64",
   "status": "proved",
   "theorems": [
    "TEflow.C64_words",
    "TEflow.C64_method",
    "TEflow.C64_poly_last_digit"
   ],
   "note": ""
  },
  {
   "property": "C65",
   "status": "proved",
   "theorems": [
    "TEflow.C65_definitions",
    "TEflow.C65_compatibility",
    "TEflow.C65_ZTave",
    "TEflow.C65_ZTave_constant",
    "TEflow.C65_columns",
    "TEflow.C65_L_ignored",
    "TEflow.C65_L_wrong"
   ],
   "note": ""
  },
  {
   "property": "C66",
   "status": "proved",
   "theorems": [
    "TEflow.C66_existing",
    "TEflow.C66_range",
    "TEflow.C66_range_items",
    "TEflow.C66_npoints",
    "TEflow.C66_interp"
   ],
   "note": ""
  },
  {
   "property": "C67",
   "status": "proved",
   "theorems": [
    "TEflow.C67_leaf_history",
    "TEflow.C67_leaf_level",
    "TEflow.C67_getitem",
    "TEflow.C67_names",
    "TEflow.C67_multi_compile",
    "TEflow.C67_multi_clear",
    "TEflow.C67_compile_then_clear",
    "TEflow.C67_no_hall",
    "TEflow.C67_append_stale",
    "TEflow.C67_shared_band",
    "TEflow.C67_sub_band_stale"
   ],
   "note": ""
  },
  {
   "property": "C68",
   "status": "proved",
   "theorems": [
    "TEflow.C68_sums",
    "TEflow.C68_seebeck",
    "TEflow.C68_order"
   ],
   "note": ""
  },
  {
   "property": "C69",
   "status": "proved",
   "theorems": [
    "TEflow.C69_one_type",
    "TEflow.C69_bipolar"
   ],
   "note": ""
  },
  {
   "property": "C70",
   "status": "proved",
   "theorems": [
    "TEflow.C70_quadrature",
    "TEflow.C70_positive",
    "TEflow.C70_models",
    "TEflow.C70_single",
    "TEflow.C70_multi"
   ],
   "note": ""
  },
  {
   "property": "C71",
   "status": "proved",
   "theorems": [
    "TEflow.C71_guess_btypes"
   ],
   "note": ""
  },
  {
   "property": "C72",
   "status": "proved",
   "theorems": [
    "TEflow.C72_construct",
    "TEflow.C72_all_or_dropped",
    "TEflow.C72_length",
    "TEflow.C72_unknown_type"
   ],
   "note": ""
  },
  {
   "property": "C73",
   "status": "proved",
   "theorems": [
    "TEflow.C73_sign_in_object",
    "TEflow.C73_shared_object",
    "TEflow.C73_extend",
    "TEflow.C73_extend_self"
   ],
   "note": ""
  },
  {
   "property": "C74",
   "status": "proved",
   "theorems": [
    "TEflow.C74_spb",
    "TEflow.C74_skb",
    "TEflow.C74_lin",
    "TEflow.C74_integral",
    "TEflow.C74_lin_sign"
   ],
   "note": ""
  },
  {
   "property": "C75",
   "status": "proved",
   "theorems": [
    "TEflow.C75_kstar",
    "TEflow.C75_kstar_masses",
    "TEflow.C75_uwt",
    "TEflow.C75_isotropic",
    "TEflow.C75_from_dp",
    "TEflow.C75_gap"
   ],
   "note": ""
  },
  {
   "property": "C76",
   "status": "proved",
   "theorems": [
    "TEflow.C76_Sr",
    "TEflow.C76_Ur",
    "TEflow.C76_Lr",
    "TEflow.C76_monotone",
    "TEflow.C76_LxS",
    "TEflow.C76_LxS_kane"
   ],
   "note": ""
  },
  {
   "property": "C77",
   "status": "proved",
   "theorems": [
    "TEflow.C77_valuate",
    "TEflow.C77_off",
    "TEflow.C77_optimum",
    "TEflow.C77_PFmax",
    "TEflow.C77_no_maximum"
   ],
   "note": ""
  },
  {
   "property": "C78",
   "status": "proved",
   "theorems": [
    "TEflow.C78_shape",
    "TEflow.C78_kane",
    "TEflow.C78_parabola"
   ],
   "note": ""
  },
  {
   "property": "C79",
   "status": "proved",
   "theorems": [
    "TEflow.C79_parabolic",
    "TEflow.C79_gap_ignores",
    "TEflow.C79_gap_wrong",
    "TEflow.C79_gap_domain",
    "TEflow.C79_physical"
   ],
   "note": ""
  },
  {
   "property": "C80",
   "status": "proved",
   "theorems": [
    "TEflow.C80_points",
    "TEflow.C80_weight",
    "TEflow.C80_substitution",
    "TEflow.C80_romberg_exact"
   ],
   "note": ""
  },
  {
   "property": "C81",
   "status": "proved",
   "theorems": [
    "TEflow.C81_spb",
    "TEflow.C81_skb",
    "TEflow.C81_rspb"
   ],
   "note": ""
  },
  {
   "property": "C82",
   "status": "proved",
   "theorems": [
    "TEflow.C82_bounds",
    "TEflow.C82_rejected",
    "TEflow.C82_in_sync",
    "TEflow.C82_assign"
   ],
   "note": ""
  },
  {
   "property": "C83",
   "status": "proved",
   "theorems": [
    "TEflow.C83_identity",
    "TEflow.C83_again",
    "TEflow.C83_retry",
    "TEflow.C83_broken"
   ],
   "note": ""
  },
  {
   "property": "C84",
   "status": "proved",
   "theorems": [
    "TEflow.C84_refresh",
    "TEflow.C84_count",
    "TEflow.C84_consistent",
    "TEflow.C84_earlier_changed",
    "TEflow.C84_partition",
    "TEflow.C84_doc"
   ],
   "note": ""
  },
  {
   "property": "C85",
   "status": "proved",
   "theorems": [
    "TEflow.C85_make",
    "TEflow.C85_refused",
    "TEflow.C85_total",
    "TEflow.C85_total_clash",
    "TEflow.C85_spectral",
    "TEflow.C85_spectral_single",
    "TEflow.C85_cutoff",
    "TEflow.C85_support",
    "TEflow.C85_spectral_decreasing",
    "TEflow.C85_call",
    "TEflow.C85_matthiessen"
   ],
   "note": ""
  },
  {
   "property": "C86",
   "status": "proved",
   "theorems": [
    "TEflow.C86_bins",
    "TEflow.C86_entries",
    "TEflow.C86_cumulative",
    "TEflow.C86_shift",
    "TEflow.C86_midpoint",
    "TEflow.C86_frequency"
   ],
   "note": ""
  },
  {
   "property": "C87",
   "status": "proved",
   "theorems": [
    "TEflow.C87_threephonon",
    "TEflow.C87_threephonon_units",
    "TEflow.C87_mass_unit",
    "TEflow.C87_threephonon_direct",
    "TEflow.C87_threephonon_args",
    "TEflow.C87_threephonon_made",
    "TEflow.C87_pointdefect",
    "TEflow.C87_pointdefect_units",
    "TEflow.C87_pointdefect_args",
    "TEflow.C87_pointdefect_made",
    "TEflow.C87_grainboundary",
    "TEflow.C87_nanoparticles",
    "TEflow.C87_nanoparticles_units",
    "TEflow.C87_nanoparticles_args",
    "TEflow.C87_nanoparticles_made",
    "TEflow.C87_dislocations",
    "TEflow.C87_dislocation_core_wrong",
    "TEflow.C87_stackingfaults",
    "TEflow.C87_cahill",
    "TEflow.C87_refused"
   ],
   "note": ""
  },
  {
   "property": "C88",
   "status": "proved",
   "theorems": [
    "TEflow.C88_ziman",
    "TEflow.C88_range",
    "TEflow.C88_saturation",
    "TEflow.C88_fermi",
    "TEflow.C88_constants",
    "TEflow.C88_coef"
   ],
   "note": ""
  },
  {
   "property": "C89",
   "status": "proved",
   "theorems": [
    "TEflow.C89_args",
    "TEflow.C89_given",
    "TEflow.C89_computed",
    "TEflow.C89_rep",
    "TEflow.C89_coef",
    "TEflow.C89_zero"
   ],
   "note": ""
  },
  {
   "property": "C90",
   "status": "proved",
   "theorems": [
    "TEflow.C90_range",
    "TEflow.C90_ends",
    "TEflow.C90_symmetric",
    "TEflow.C90_disorder",
    "TEflow.C90_u2",
    "TEflow.C90_klemens"
   ],
   "note": ""
  },
  {
   "property": "C91",
   "status": "proved",
   "theorems": [
    "TEflow.C91_value",
    "TEflow.C91_rejected",
    "TEflow.C91_renorm",
    "TEflow.C91_nonneg",
    "TEflow.C91_uniform",
    "TEflow.C91_ordered",
    "TEflow.C91_variance",
    "TEflow.C91_binary",
    "TEflow.C91_units",
    "TEflow.C91_entropy",
    "TEflow.C91_missing_mass",
    "TEflow.C91_extra_mass"
   ],
   "note": ""
  },
  {
   "property": "C92",
   "status": "proved",
   "theorems": [
    "TEflow.C92_gruneisen",
    "TEflow.C92_mean",
    "TEflow.C92_formula",
    "TEflow.C92_common",
    "TEflow.C92_arrays",
    "TEflow.C92_debye_temperature"
   ],
   "note": ""
  },
  {
   "property": "C93",
   "status": "proved",
   "theorems": [
    "TEflow.C93_line",
    "TEflow.C93_reads_back",
    "TEflow.C93_result",
    "TEflow.C93_missing",
    "TEflow.C93_sections",
    "TEflow.C93_file",
    "TEflow.C93_dot"
   ],
   "note": ""
  },
  {
   "property": "C94",
   "status": "proved",
   "theorems": [
    "TEflow.C94_unit",
    "TEflow.C94_meaning",
    "TEflow.C94_area"
   ],
   "note": ""
  },
  {
   "property": "C95",
   "status": "proved",
   "theorems": [
    "TEflow.C95_given",
    "TEflow.C95_range"
   ],
   "note": ""
  },
  {
   "property": "C96",
   "status": "proved",
   "theorems": [
    "TEflow.C96_built",
    "TEflow.C96_succeeds",
    "TEflow.C96_unique",
    "TEflow.C96_unknown",
    "TEflow.C96_bad_option",
    "TEflow.C96_bad_arguments",
    "TEflow.C96_cycle",
    "TEflow.C96_finishes",
    "TEflow.C96_debye_by_name"
   ],
   "note": ""
  },
  {
   "property": "C97",
   "status": "proved",
   "theorems": [
    "TEflow.C97_energy_balance",
    "TEflow.C97_carnot",
    "TEflow.C97_loss"
   ],
   "note": ""
  },
  {
   "property": "C98",
   "status": "proved",
   "theorems": [
    "TEflow.C98_dimension",
    "TEflow.C98_W_J"
   ],
   "note": ""
  },
  {
   "property": "C99",
   "status": "proved",
   "theorems": [
    "TEflow.C99_leg_valuate",
    "TEflow.C99_leg_valuate_short",
    "TEflow.C99_pair_valuate"
   ],
   "note": ""
  },
  {
   "property": "C100",
   "status": "proved",
   "theorems": [
    "TEflow.C100_hall"
   ],
   "note": ""
  },
  {
   "property": "C101",
   "status": "proved",
   "theorems": [
    "TEflow.C101_hall_factor"
   ],
   "note": ""
  },
  {
   "property": "C102",
   "status": "proved",
   "theorems": [
    "TEflow.C102_spb",
    "TEflow.C102_skb"
   ],
   "note": ""
  },
  {
   "property": "C103",
   "status": "proved",
   "theorems": [
    "TEflow.C103_concentration"
   ],
   "note": ""
  },
  {
   "property": "C104",
   "status": "proved",
   "theorems": [
    "TEflow.C104_integrand",
    "TEflow.C104_bounds",
    "TEflow.C104_classical"
   ],
   "note": ""
  },
  {
   "property": "C105",
   "status": "proved",
   "theorems": [
    "TEflow.C105_slack",
    "TEflow.C105_slack_formula",
    "TEflow.C105_slack_coef",
    "TEflow.C105_scaling",
    "TEflow.C105_simple"
   ],
   "note": ""
  },
  {
   "property": "C106",
   "status": "proved",
   "theorems": [
    "TEflow.C106_variable",
    "TEflow.C106_settings",
    "TEflow.C106_out_of_bounds",
    "TEflow.C106_not_a_number",
    "TEflow.C106_constant",
    "TEflow.C106_bad_bounds_ignored",
    "TEflow.C106_known_tag",
    "TEflow.C106_section"
   ],
   "note": ""
  },
  {
   "property": "C107",
   "status": "proved",
   "theorems": [
    "TEflow.C107_columns"
   ],
   "note": ""
  },
  {
   "property": "C108",
   "status": "proved",
   "theorems": [
    "TEflow.C108_PH",
    "TEflow.C108_PHX",
    "TEflow.C108_PD",
    "TEflow.C108_PDX",
    "TEflow.C108_GB",
    "TEflow.C108_NP",
    "TEflow.C108_NPX",
    "TEflow.C108_DL",
    "TEflow.C108_SF",
    "TEflow.C108_CAHILL",
    "TEflow.C108_EP",
    "TEflow.C108_EPR",
    "TEflow.C108_EPX",
    "TEflow.C108_EPRX",
    "TEflow.C108_BIPOLAR",
    "TEflow.C108_POWERLAW",
    "TEflow.C108_KLEMENS",
    "TEflow.C108_SLACK",
    "TEflow.C108_DEBYE",
    "TEflow.C108_fails_everywhere",
    "TEflow.C108_limit",
    "TEflow.C108_needs",
    "TEflow.C108_types",
    "TEflow.C108_klemens_component"
   ],
   "note": ""
  },
  {
   "property": "C109",
   "status": "proved",
   "theorems": [
    "TEflow.C109_simulation",
    "TEflow.C109_unknown_property",
    "TEflow.C109_dropped_bands",
    "TEflow.C109_no_bands_table",
    "TEflow.C109_settings",
    "TEflow.C109_no_bands",
    "TEflow.C109_default_offsets",
    "TEflow.C109_incomplete",
    "TEflow.C109_mismatch",
    "TEflow.C109_solver_fails",
    "TEflow.C109_linear_fails",
    "TEflow.C109_APSSPB",
    "TEflow.C109_APSSPB_UWT",
    "TEflow.C109_APSSPB_DP",
    "TEflow.C109_APSSKB",
    "TEflow.C109_APSSKB_UWT",
    "TEflow.C109_APSSKB_DP",
    "TEflow.C109_LinearBand",
    "TEflow.C109_unknown_option",
    "TEflow.C109_no_number",
    "TEflow.C109_types"
   ],
   "note": ""
  },
  {
   "property": "C110",
   "status": "proved",
   "theorems": [
    "TEflow.C110_table",
    "TEflow.C110_errors",
    "TEflow.C110_signs",
    "TEflow.C110_rows"
   ],
   "note": ""
  },
  {
   "property": "C111",
   "status": "proved",
   "theorems": [
    "TEflow.C111_fixed",
    "TEflow.C111_columns",
    "TEflow.C111_reread",
    "TEflow.C111_reread_fixed",
    "TEflow.C111_refine",
    "TEflow.C111_headers_unreadable",
    "TEflow.C111_layout",
    "TEflow.C111_dataset",
    "TEflow.C111_dataset_headers",
    "TEflow.C111_format_loses"
   ],
   "note": ""
  },
  {
   "property": "C112",
   "status": "proved",
   "theorems": [
    "TEflow.C112_errors",
    "TEflow.C112_leg",
    "TEflow.C112_resistivity",
    "TEflow.C112_pair",
    "TEflow.C112_roles"
   ],
   "note": ""
  },
  {
   "property": "C113",
   "status": "proved",
   "theorems": [
    "TEflow.C113_table",
    "TEflow.C113_yita",
    "TEflow.C113_again"
   ],
   "note": ""
  },
  {
   "property": "C114",
   "status": "proved",
   "theorems": [
    "TEflow.C114_output",
    "TEflow.C114_rounding",
    "TEflow.C114_frame",
    "TEflow.C114_table",
    "TEflow.C114_unsorted",
    "TEflow.C114_first",
    "TEflow.C114_again",
    "TEflow.C114_settles",
    "TEflow.C114_bare",
    "TEflow.C114_input"
   ],
   "note": ""
  },
  {
   "property": "C115",
   "status": "proved",
   "theorems": [
    "TEflow.C115_table",
    "TEflow.C115_flat",
    "TEflow.C115_screen",
    "TEflow.C115_screen_text",
    "TEflow.C115_single",
    "TEflow.C115_refused",
    "TEflow.C115_frame"
   ],
   "note": ""
  },
  {
   "property": "C116",
   "status": "proved",
   "theorems": [
    "TEflow.C116_loop",
    "TEflow.C116_reads",
    "TEflow.C116_letters",
    "TEflow.C116_errors",
    "TEflow.C116_round_trip"
   ],
   "note": ""
  },
  {
   "property": "C117",
   "status": "proved",
   "theorems": [
    "TEflow.C117_origin",
    "TEflow.C117_same_composition",
    "TEflow.C117_ones_written",
    "TEflow.C117_letters_after"
   ],
   "note": ""
  },
  {
   "property": "C118",
   "status": "proved",
   "theorems": [
    "TEflow.C118_frame",
    "TEflow.C118_table",
    "TEflow.C118_interpolate",
    "TEflow.C118_calculate",
    "TEflow.C118_labels",
    "TEflow.C118_lorenz",
    "TEflow.C118_again",
    "TEflow.C118_series",
    "TEflow.C118_independent",
    "TEflow.C118_settles",
    "TEflow.C118_headers",
    "TEflow.C118_fetch",
    "TEflow.C118_separators",
    "TEflow.C118_aligned",
    "TEflow.C118_zero_resistivity",
    "TEflow.C118_modes",
    "TEflow.C118_override",
    "TEflow.C118_no_switch",
    "TEflow.C118_output"
   ],
   "note": ""
  },
  {
   "property": "C119",
   "status": "proved",
   "theorems": [
    "TEflow.C119_refine_frame",
    "TEflow.C119_refine_same",
    "TEflow.C119_refine_columns",
    "TEflow.C119_refine_again",
    "TEflow.C119_refine_in_place",
    "TEflow.C119_refine_loss",
    "TEflow.C119_extend_frame",
    "TEflow.C119_extend",
    "TEflow.C119_extend_padding",
    "TEflow.C119_raw_comment",
    "TEflow.C119_extend_again",
    "TEflow.C119_extend_grows",
    "TEflow.C119_output",
    "TEflow.C119_extend_lines"
   ],
   "note": ""
  },
  {
   "property": "C120",
   "status": "proved",
   "theorems": [
    "TEflow.C120_frame",
    "TEflow.C120_default",
    "TEflow.C120_table",
    "TEflow.C120_again",
    "TEflow.C120_in_place",
    "TEflow.C120_output",
    "TEflow.C120_cutoff",
    "TEflow.C120_smoothstep",
    "TEflow.C120_factor"
   ],
   "note": ""
  },
  {
   "property": "C121",
   "status": "proved",
   "theorems": [
    "TEflow.C121_comment",
    "TEflow.C121_tail",
    "TEflow.C121_reads",
    "TEflow.C121_unique",
    "TEflow.C121_twice",
    "TEflow.C121_stray",
    "TEflow.C121_header_first",
    "TEflow.C121_lines",
    "TEflow.C121_option_twice",
    "TEflow.C121_distinct",
    "TEflow.C121_defaults"
   ],
   "note": ""
  },
  {
   "property": "C122",
   "status": "proved",
   "theorems": [
    "TEflow.C122_shows",
    "TEflow.C122_reads",
    "TEflow.C122_prediction",
    "TEflow.C122_bounds_below",
    "TEflow.C122_header_in_value"
   ],
   "note": ""
  },
  {
   "property": "C123",
   "status": "proved",
   "theorems": [
    "TEflow.C123_fit",
    "TEflow.C123_last",
    "TEflow.C123_rest",
    "TEflow.C123_nothing",
    "TEflow.C123_again",
    "TEflow.C123_not_returned"
   ],
   "note": ""
  },
  {
   "property": "C124",
   "status": "proved",
   "theorems": [
    "TEflow.C124_foreign",
    "TEflow.C124_failed",
    "TEflow.C124_files",
    "TEflow.C124_recover",
    "TEflow.C124_repeat",
    "TEflow.C124_points",
    "TEflow.C124_details",
    "TEflow.C124_unit",
    "TEflow.C124_command_line",
    "TEflow.C124_less",
    "TEflow.C124_incomplete",
    "TEflow.C124_prediction",
    "TEflow.C124_reread",
    "TEflow.C124_subs"
   ],
   "note": ""
  },
  {
   "property": "C125",
   "status": "proved",
   "theorems": [
    "TEflow.C125_failed",
    "TEflow.C125_files",
    "TEflow.C125_recover",
    "TEflow.C125_repeat",
    "TEflow.C125_auto",
    "TEflow.C125_command_line",
    "TEflow.C125_broken",
    "TEflow.C125_simulation",
    "TEflow.C125_reread",
    "TEflow.C125_modelling",
    "TEflow.C125_gap",
    "TEflow.C125_missing"
   ],
   "note": ""
  },
  {
   "property": "C126",
   "status": "proved",
   "theorems": [
    "TEflow.C126_formula",
    "TEflow.C126_amounts",
    "TEflow.C126_tiny",
    "TEflow.C126_sci",
    "TEflow.C126_general",
    "TEflow.C126_exact",
    "TEflow.C126_monotone",
    "TEflow.C126_clean",
    "TEflow.C126_fixed",
    "TEflow.C126_table"
   ],
   "note": ""
  },
  {
   "property": "C127",
   "status": "proved",
   "theorems": [
    "TEflow.C127_coefficients",
    "TEflow.C127_properties",
    "TEflow.C127_concentration",
    "TEflow.C127_hall",
    "TEflow.C127_spb",
    "TEflow.C127_skb",
    "TEflow.C127_hall_error",
    "TEflow.C127_outside",
    "TEflow.C127_linear"
   ],
   "note": ""
  },
  {
   "property": "C128",
   "status": "proved",
   "theorems": [
    "TEflow.C128_exact",
    "TEflow.C128_regular",
    "TEflow.C128_duplicates",
    "TEflow.C128_vector_order",
    "TEflow.C128_swap",
    "TEflow.C128_units",
    "TEflow.C128_linear",
    "TEflow.C128_pointwise",
    "TEflow.C128_unknown",
    "TEflow.C128_likelihood",
    "TEflow.C128_gpr_smooths"
   ],
   "note": ""
  },
  {
   "property": "C129",
   "status": "proved",
   "theorems": [
    "TEflow.C129_optimum",
    "TEflow.C129_conductivity",
    "TEflow.C129_seebeck"
   ],
   "note": ""
  },
  {
   "property": "C130",
   "status": "proved",
   "theorems": [
    "TEflow.C130_states",
    "TEflow.C130_hall",
    "TEflow.C130_deformation",
    "TEflow.C130_mobility",
    "TEflow.C130_constants"
   ],
   "note": ""
  },
  {
   "property": "C131",
   "status": "proved",
   "theorems": [
    "TEflow.C131_gap",
    "TEflow.C131_parabolic",
    "TEflow.C131_limit"
   ],
   "note": ""
  },
  {
   "property": "C132",
   "status": "proved",
   "theorems": [
    "TEflow.C132_charge",
    "TEflow.C132_totals",
    "TEflow.C132_append",
    "TEflow.C132_nested",
    "TEflow.C132_mirrored",
    "TEflow.C132_flat"
   ],
   "note": ""
  },
  {
   "property": "C133",
   "status": "proved",
   "theorems": [
    "TEflow.C133_text",
    "TEflow.C133_exact",
    "TEflow.C133_lines",
    "TEflow.C133_form",
    "TEflow.C133_names",
    "TEflow.C133_dataset",
    "TEflow.C133_dataset2"
   ],
   "note": ""
  },
  {
   "property": "C134",
   "status": "proved",
   "theorems": [
    "TEflow.C134_reads",
    "TEflow.C134_entries",
    "TEflow.C134_shadows",
    "TEflow.C134_hidden",
    "TEflow.C134_hasattr",
    "TEflow.C134_elements",
    "TEflow.C134_table",
    "TEflow.C134_computed",
    "TEflow.C134_methods"
   ],
   "note": ""
  },
  {
   "property": "C135",
   "status": "proved",
   "theorems": [
    "TEflow.C135_scan",
    "TEflow.C135_bound",
    "TEflow.C135_attained",
    "TEflow.C135_device",
    "TEflow.C135_nan",
    "TEflow.C135_tools_agree"
   ],
   "note": ""
  },
  {
   "property": "C136",
   "status": "proved",
   "theorems": [
    "TEflow.C136_reads",
    "TEflow.C136_unique",
    "TEflow.C136_plain",
    "TEflow.C136_doubled",
    "TEflow.C136_reference",
    "TEflow.C136_inline",
    "TEflow.C136_levels",
    "TEflow.C136_circle",
    "TEflow.C136_refused",
    "TEflow.C136_plain_file",
    "TEflow.C136_set"
   ],
   "note": ""
  },
  {
   "property": "C137",
   "status": "proved",
   "theorems": [
    "TEflow.C137_ztdev_frame",
    "TEflow.C137_yita",
    "TEflow.C137_ztdev",
    "TEflow.C137_ztdev_again",
    "TEflow.C137_yita_in_place",
    "TEflow.C137_output",
    "TEflow.C137_pipeline",
    "TEflow.C137_engout_frame",
    "TEflow.C137_engout",
    "TEflow.C137_engout_again",
    "TEflow.C137_engout_in_place"
   ],
   "note": ""
  },
  {
   "property": "C138",
   "status": "proved",
   "theorems": [
    "TEflow.C138_efficiency",
    "TEflow.C138_alpha",
    "TEflow.C138_alpha_formula",
    "TEflow.C138_heat",
    "TEflow.C138_joule",
    "TEflow.C138_power",
    "TEflow.C138_weights",
    "TEflow.C138_constant"
   ],
   "note": ""
  },
  {
   "property": "C139",
   "status": "proved",
   "theorems": [
    "TEflow.C139_undisturbed",
    "TEflow.C139_serial",
    "TEflow.C139_moment",
    "TEflow.C139_ends",
    "TEflow.C139_again",
    "TEflow.C139_interp",
    "TEflow.C139_mixing",
    "TEflow.C139_extend",
    "TEflow.C139_refine",
    "TEflow.C139_cutoff",
    "TEflow.C139_device",
    "TEflow.C139_band",
    "TEflow.C139_format",
    "TEflow.C139_kappa"
   ],
   "note": ""
  },
  {
   "property": "C140",
   "status": "proved",
   "theorems": [
    "TEflow.C140_lorenz",
    "TEflow.C140_numbers",
    "TEflow.C140_seebeck",
    "TEflow.C140_thermal"
   ],
   "note": ""
  },
  {
   "property": "C141",
   "status": "proved",
   "theorems": [
    "TEflow.C141_conductivity",
    "TEflow.C141_seebeck",
    "TEflow.C141_lorenz",
    "TEflow.C141_optimum"
   ],
   "note": ""
  },
  {
   "property": "C142",
   "status": "proved",
   "theorems": [
    "TEflow.C142_single",
    "TEflow.C142_onekind",
    "TEflow.C142_twokinds",
    "TEflow.C142_midgap"
   ],
   "note": ""
  },
  {
   "property": "C143",
   "status": "proved",
   "theorems": [
    "TEflow.C143_conductivity",
    "TEflow.C143_seebeck"
   ],
   "note": ""
  },
  {
   "property": "C144",
   "status": "proved",
   "theorems": [
    "TEflow.C144_mirror",
    "TEflow.C144_symmetric",
    "TEflow.C144_middle",
    "TEflow.C144_bipolar"
   ],
   "note": ""
  },
  {
   "property": "C145",
   "status": "proved",
   "theorems": [
    "TEflow.C145_twokinds",
    "TEflow.C145_onekind"
   ],
   "note": ""
  },
  {
   "property": "C146",
   "status": "proved",
   "theorems": [
    "TEflow.C146_onekind",
    "TEflow.C146_twokinds",
    "TEflow.C146_parabolic"
   ],
   "note": ""
  },
  {
   "property": "C147",
   "status": "proved",
   "theorems": [
    "TEflow.C147_device",
    "TEflow.C147_best",
    "TEflow.C147_constant",
    "TEflow.C147_leg",
    "TEflow.C147_pair_simulate",
    "TEflow.C147_pair_valuate"
   ],
   "note": ""
  },
  {
   "property": "C148",
   "status": "proved",
   "theorems": [
    "TEflow.C148_frozen",
    "TEflow.C148_product",
    "TEflow.C148_limit",
    "TEflow.C148_kinds"
   ],
   "note": ""
  },
  {
   "property": "C149",
   "status": "proved",
   "theorems": [
    "TEflow.C149_cahill",
    "TEflow.C149_cahill_limit",
    "TEflow.C149_threephonon"
   ],
   "note": ""
  },
  {
   "property": "C150",
   "status": "proved",
   "theorems": [
    "TEflow.C150_bounds",
    "TEflow.C150_klemens"
   ],
   "note": ""
  },
  {
   "property": "C151",
   "status": "proved",
   "theorems": [
    "TEflow.C151_exact",
    "TEflow.C151_rising",
    "TEflow.C151_valuate",
    "TEflow.C151_pair",
    "TEflow.C151_pair_valuate",
    "TEflow.C151_breaks"
   ],
   "note": ""
  },
  {
   "property": "C152",
   "status": "proved",
   "theorems": [
    "TEflow.C152_rows",
    "TEflow.C152_better",
    "TEflow.C152_best"
   ],
   "note": ""
  },
  {
   "property": "C153",
   "status": "proved",
   "theorems": [
    "TEflow.C153_leg",
    "TEflow.C153_valuate",
    "TEflow.C153_pair",
    "TEflow.C153_attained"
   ],
   "note": ""
  },
  {
   "property": "C154",
   "status": "proved",
   "theorems": [
    "TEflow.C154_simulate",
    "TEflow.C154_valuate"
   ],
   "note": ""
  }
 ]
}