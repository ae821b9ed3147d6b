{
 "claims": [
  {
   "property": "C01",
   "status": "proved",
   "theorems": [
    "PgNumeric.Props.C01_grammar",
    "PgNumeric.Props.C01_total",
    "PgNumeric.Props.C01_nan"
   ],
   "note": ""
  },
  {
   "property": "C02",
   "status": "proved",
   "theorems": [
    "PgNumeric.Props.C02_parse_exact"
   ],
   "note": ""
  },
  {
   "property": "C03",
   "status": "proved",
   "theorems": [
    "PgNumeric.Props.C03_parse_range",
    "PgNumeric.Props.C03_fits_accepted",
    "PgNumeric.Props.C03_zero_rejected"
   ],
   "note": ""
  },
  {
   "property": "C04",
   "status": "proved",
   "theorems": [
    "PgNumeric.Props.C04_display_parse",
    "PgNumeric.Props.C04_display_parse_nan"
   ],
   "note": ""
  },
  {
   "property": "C05",
   "status": "proved",
   "theorems": [
    "PgNumeric.Props.C05_display",
    "PgNumeric.Props.C05_display_nan",
    "PgNumeric.Props.C05_text_meaning"
   ],
   "note": ""
  },
  {
   "property": "C06",
   "status": "proved",
   "theorems": [
    "PgNumeric.Props.C06_layout",
    "PgNumeric.Props.C06_round_trip",
    "PgNumeric.Props.C06_injective",
    "PgNumeric.Props.C06_nan"
   ],
   "note": ""
  },
  {
   "property": "C07",
   "status": "proved",
   "theorems": [
    "PgNumeric.Props.C07_bytes_unique",
    "PgNumeric.Props.C07_canonical_shape",
    "PgNumeric.Props.C07_representable",
    "PgNumeric.Props.C07_reachable_valid"
   ],
   "note": "Shape, uniqueness and surjectivity of canonical bytes; closure of the API under canonicity."
  },
  {
   "property": "C08",
   "status": "proved",
   "theorems": [
    "PgNumeric.Props.C08_add_exact"
   ],
   "note": ""
  },
  {
   "property": "C09",
   "status": "proved",
   "theorems": [
    "PgNumeric.Props.C09_sub_exact"
   ],
   "note": ""
  },
  {
   "property": "C10",
   "status": "proved",
   "theorems": [
    "PgNumeric.Props.C10_mul_exact",
    "PgNumeric.Props.C10_mul_sound"
   ],
   "note": ""
  },
  {
   "property": "C11",
   "status": "partial",
   "theorems": [
    "PgNumeric.Props.C11_overflow_add_sub",
    "PgNumeric.Props.C11_overflow_mul_partial",
    "PgNumeric.Props.C11_zero_scale_panics"
   ],
   "note": "Exact for add, sub and for mul except a zero product with scale sum over 16383 in a debug build, where the code trips a debug assertion (C11_zero_scale_panics)."
  },
  {
   "property": "C12",
   "status": "proved",
   "theorems": [
    "PgNumeric.Props.C12_div_rounded",
    "PgNumeric.Props.C12_round_meaning"
   ],
   "note": ""
  },
  {
   "property": "C13",
   "status": "proved",
   "theorems": [
    "PgNumeric.Props.C13_quotient_scale"
   ],
   "note": ""
  },
  {
   "property": "C14",
   "status": "proved",
   "theorems": [
    "PgNumeric.Props.C14_div_by_zero",
    "PgNumeric.Props.C14_nonzero_divisor"
   ],
   "note": ""
  },
  {
   "property": "C15",
   "status": "proved",
   "theorems": [
    "PgNumeric.Props.C15_div_trunc"
   ],
   "note": ""
  },
  {
   "property": "C16",
   "status": "proved",
   "theorems": [
    "PgNumeric.Props.C16_rem_law"
   ],
   "note": ""
  },
  {
   "property": "C17",
   "status": "proved",
   "theorems": [
    "PgNumeric.Props.C17_round"
   ],
   "note": ""
  },
  {
   "property": "C18",
   "status": "proved",
   "theorems": [
    "PgNumeric.Props.C18_trunc",
    "PgNumeric.Props.C18_trunc_meaning"
   ],
   "note": ""
  },
  {
   "property": "C19",
   "status": "proved",
   "theorems": [
    "PgNumeric.Props.C19_ceil_floor"
   ],
   "note": ""
  },
  {
   "property": "C20",
   "status": "proved",
   "theorems": [
    "PgNumeric.Props.C20_sign_ops",
    "PgNumeric.Props.C20_negate_involutive",
    "PgNumeric.Props.C20_accessors"
   ],
   "note": ""
  },
  {
   "property": "C21",
   "status": "proved",
   "theorems": [
    "PgNumeric.Props.C21_cmp_is_value_order",
    "PgNumeric.Props.C21_denotes_total",
    "PgNumeric.Props.C21_total_order"
   ],
   "note": ""
  },
  {
   "property": "C22",
   "status": "proved",
   "theorems": [
    "PgNumeric.Props.C22_hash_iff_eq"
   ],
   "note": ""
  },
  {
   "property": "C23",
   "status": "proved",
   "theorems": [
    "PgNumeric.Props.C23_normalize",
    "PgNumeric.Props.C23_normalize_nan",
    "PgNumeric.Props.C23_normalize_iff_eq"
   ],
   "note": ""
  },
  {
   "property": "C24",
   "status": "proved",
   "theorems": [
    "PgNumeric.Props.C24_nan_binary",
    "PgNumeric.Props.C24_nan_unary",
    "PgNumeric.Props.C24_nan_accessors"
   ],
   "note": ""
  },
  {
   "property": "C25",
   "status": "proved",
   "theorems": [
    "PgNumeric.Props.C25_new_iff",
    "PgNumeric.Props.C25_with_precision",
    "PgNumeric.Props.C25_extract",
    "PgNumeric.Props.C25_value",
    "PgNumeric.Props.C25_injective",
    "PgNumeric.Props.C25_from_value",
    "PgNumeric.Props.C25_default"
   ],
   "note": ""
  },
  {
   "property": "C26",
   "status": "proved",
   "theorems": [
    "PgNumeric.Props.C26_apply_typmod",
    "PgNumeric.Props.C26_default"
   ],
   "note": ""
  },
  {
   "property": "C27",
   "status": "partial",
   "theorems": [
    "PgNumeric.Props.C27_receiver_partial",
    "PgNumeric.Props.C27_null_receiver",
    "PgNumeric.Props.C27_null_receiver_occurs"
   ],
   "note": "The documented claim is false of the code: when the rounded value reaches 10^131072 the receiver is left with a null buffer (C27_null_receiver, C27_null_receiver_occurs). Proved for every other number."
  },
  {
   "property": "C28",
   "status": "partial",
   "theorems": [
    "PgNumeric.Props.C28_nan_debug_fails",
    "PgNumeric.Props.C28_nan_release_zero",
    "PgNumeric.Props.C28_nan_no_overflow_partial"
   ],
   "note": "The claim is false of the code: debug builds abort on an assertion, release builds turn NaN into 0. Both behaviours are proved exactly."
  },
  {
   "property": "C29",
   "status": "proved",
   "theorems": [
    "PgNumeric.Props.C29_types",
    "PgNumeric.Props.C29_from_int",
    "PgNumeric.Props.C29_round_trip",
    "PgNumeric.Props.C29_from_bool",
    "PgNumeric.Props.C29_size_types"
   ],
   "note": ""
  },
  {
   "property": "C30",
   "status": "proved",
   "theorems": [
    "PgNumeric.Props.C30_to_int",
    "PgNumeric.Props.C30_nan"
   ],
   "note": ""
  },
  {
   "property": "C31",
   "status": "proved",
   "theorems": [
    "PgNumeric.Props.C31_factorial_exact",
    "PgNumeric.Props.C31_factorial_negative",
    "PgNumeric.Props.C31_factorial_none_iff",
    "PgNumeric.Props.C31_bound_is_sharp"
   ],
   "note": ""
  },
  {
   "property": "C32",
   "status": "proved",
   "theorems": [
    "PgNumeric.Props.C32_integer_power_exact",
    "PgNumeric.Props.C32_negative_integer_power",
    "PgNumeric.Props.C32_decimal_power_inaccurate"
   ],
   "note": ""
  },
  {
   "property": "C33",
   "status": "proved",
   "theorems": [
    "PgNumeric.Props.C33_nan_base",
    "PgNumeric.Props.C33_nan_exponent",
    "PgNumeric.Props.C33_zero_negative_panics",
    "PgNumeric.Props.C33_negative_fraction_panics",
    "PgNumeric.Props.C33_pow_zero",
    "PgNumeric.Props.C33_pow_one",
    "PgNumeric.Props.C33_pow_neg_one",
    "PgNumeric.Props.C33_zero_base",
    "PgNumeric.Props.C33_negative_base_large_exponent_panics",
    "PgNumeric.Props.C33_min_exponent",
    "PgNumeric.Props.C33_min_exponent_exact"
   ],
   "note": ""
  },
  {
   "property": "C34",
   "status": "proved",
   "theorems": [
    "PgNumeric.Props.C34_sqrt_debug_panics",
    "PgNumeric.Props.C34_sqrt_debug_safe",
    "PgNumeric.Props.C34_sqrt_accuracy",
    "PgNumeric.Props.C34_sqrt_exact",
    "PgNumeric.Props.C34_sqrt_negative",
    "PgNumeric.Props.C34_sqrt_nan",
    "PgNumeric.Props.C34_release_outcomes",
    "PgNumeric.Props.C34_sqrt_may_not_terminate",
    "PgNumeric.Props.C34_sqrt_panics_on_tiny"
   ],
   "note": ""
  },
  {
   "property": "C35",
   "status": "proved",
   "theorems": [
    "PgNumeric.Props.C35_scientific",
    "PgNumeric.Props.C35_tiny_panics",
    "PgNumeric.Props.C35_zero",
    "PgNumeric.Props.C35_nan",
    "PgNumeric.Props.C35_parse_back"
   ],
   "note": ""
  },
  {
   "property": "C36",
   "status": "proved",
   "theorems": [
    "PgNumeric.Props.C36_binary_no_fault",
    "PgNumeric.Props.C36_unary_no_fault",
    "PgNumeric.Props.C36_kernels_no_fault",
    "PgNumeric.Props.C36_debug_release_agree"
   ],
   "note": ""
  },
  {
   "property": "C37",
   "status": "proved",
   "theorems": [
    "PgNumeric.Props.C37_read",
    "PgNumeric.Props.C37_fresh",
    "PgNumeric.Props.C37_fresh_nan",
    "PgNumeric.Props.C37_negate_mut",
    "PgNumeric.Props.C37_abs_mut",
    "PgNumeric.Props.C37_round_mut",
    "PgNumeric.Props.C37_trunc_mut",
    "PgNumeric.Props.C37_apply_typmod",
    "PgNumeric.Props.C37_nan",
    "PgNumeric.Props.C37_history"
   ],
   "note": ""
  },
  {
   "property": "C38",
   "status": "proved",
   "theorems": [
    "PgNumeric.Props.C38_commutative",
    "PgNumeric.Props.C38_add_assoc",
    "PgNumeric.Props.C38_mul_assoc",
    "PgNumeric.Props.C38_distrib",
    "PgNumeric.Props.C38_sub_eq_add_neg",
    "PgNumeric.Props.C38_add_sub_cancel"
   ],
   "note": ""
  },
  {
   "property": "C39",
   "status": "proved",
   "theorems": [
    "PgNumeric.Props.C39_nan_inf",
    "PgNumeric.Props.C39_finite",
    "PgNumeric.Props.C39_sigRound_near",
    "PgNumeric.Props.C39_sigRound_exact",
    "PgNumeric.Props.C39_printf_short"
   ],
   "note": ""
  },
  {
   "property": "C40",
   "status": "proved",
   "theorems": [
    "PgNumeric.Props.C40_add_sub_mul",
    "PgNumeric.Props.C40_div_rem"
   ],
   "note": ""
  },
  {
   "property": "C41",
   "status": "proved",
   "theorems": [
    "PgNumeric.Props.C41_serde",
    "PgNumeric.Props.C41_serde_nan"
   ],
   "note": ""
  },
  {
   "property": "C42",
   "status": "proved",
   "theorems": [
    "PgNumeric.Props.C42_copies"
   ],
   "note": ""
  },
  {
   "property": "C43",
   "status": "proved",
   "theorems": [
    "PgNumeric.Props.C43_ln_domain",
    "PgNumeric.Props.C43_log_domain",
    "PgNumeric.Props.C43_log2_log10_domain",
    "PgNumeric.Props.C43_nan",
    "PgNumeric.Props.C43_ln_one",
    "PgNumeric.Props.C43_log_base_one"
   ],
   "note": ""
  },
  {
   "property": "C44",
   "status": "proved",
   "theorems": [
    "PgNumeric.Props.C44_monotone"
   ],
   "note": ""
  },
  {
   "property": "C45",
   "status": "proved",
   "theorems": [
    "PgNumeric.Props.C45_idempotent",
    "PgNumeric.Props.C45_round_noop"
   ],
   "note": ""
  },
  {
   "property": "C46",
   "status": "proved",
   "theorems": [
    "PgNumeric.Props.C46_mul_error"
   ],
   "note": ""
  },
  {
   "property": "C47",
   "status": "proved",
   "theorems": [
    "PgNumeric.Props.C47_release_accuracy",
    "PgNumeric.Props.C47_release_trunc",
    "PgNumeric.Props.C47_correctly_rounded",
    "PgNumeric.Props.C47_short_never_panics",
    "PgNumeric.Props.C47_exact_quotient",
    "PgNumeric.Props.C47_zero_divisor",
    "PgNumeric.Props.C47_debug_panic_occurs"
   ],
   "note": ""
  },
  {
   "property": "C48",
   "status": "proved",
   "theorems": [
    "PgNumeric.Props.C48_history"
   ],
   "note": ""
  },
  {
   "property": "C49",
   "status": "proved",
   "theorems": [
    "PgNumeric.Props.C49_ln_debug_panics",
    "PgNumeric.Props.C49_ln_debug_safe",
    "PgNumeric.Props.C49_ln_may_not_terminate",
    "PgNumeric.Props.C49_ln_accuracy",
    "PgNumeric.Props.C49_ln_significant",
    "PgNumeric.Props.C49_ln_total_near_one"
   ],
   "note": ""
  },
  {
   "property": "C50",
   "status": "proved",
   "theorems": [
    "PgNumeric.Props.C50_log_may_not_terminate",
    "PgNumeric.Props.C50_log_accuracy",
    "PgNumeric.Props.C50_log2_accuracy",
    "PgNumeric.Props.C50_log10_accuracy",
    "PgNumeric.Props.C50_log_exact",
    "PgNumeric.Props.C50_near_one_fails",
    "PgNumeric.Props.C50_log_total_near_one",
    "PgNumeric.Props.C50_log_debug_safe",
    "PgNumeric.Props.C50_log2_log10_debug_safe"
   ],
   "note": ""
  },
  {
   "property": "C51",
   "status": "proved",
   "theorems": [
    "PgNumeric.Props.C51_exp_accuracy",
    "PgNumeric.Props.C51_exp_overflow",
    "PgNumeric.Props.C51_exp_all",
    "PgNumeric.Props.C51_exp_nan",
    "PgNumeric.Props.C51_exp_zero"
   ],
   "note": ""
  },
  {
   "property": "C52",
   "status": "proved",
   "theorems": [
    "PgNumeric.Props.C52_pow_may_not_terminate",
    "PgNumeric.Props.C52_pow_accuracy",
    "PgNumeric.Props.C52_pow_exact",
    "PgNumeric.Props.C52_pow_overflow",
    "PgNumeric.Props.C52_tiny_power_is_one",
    "PgNumeric.Props.C52_tiny_power_overflows",
    "PgNumeric.Props.C52_pow_total_near_one",
    "PgNumeric.Props.C52_pow_debug_safe",
    "PgNumeric.Props.C52_tiny_power_run",
    "PgNumeric.Props.C52_tiny_overflow_run"
   ],
   "note": ""
  },
  {
   "property": "C53",
   "status": "proved",
   "theorems": [
    "PgNumeric.Props.C53_sqrt_every_build",
    "PgNumeric.Props.C53_square_every_build",
    "PgNumeric.Props.C53_sqrt_terminates",
    "PgNumeric.Props.C53_perfect_square",
    "PgNumeric.Props.C53_sqrt_of_square"
   ],
   "note": ""
  },
  {
   "property": "C54",
   "status": "proved",
   "theorems": [
    "PgNumeric.Props.C54_sqrt_never_panics",
    "PgNumeric.Props.C54_ln_never_panics",
    "PgNumeric.Props.C54_log_never_panics",
    "PgNumeric.Props.C54_pow_never_panics"
   ],
   "note": ""
  },
  {
   "property": "C55",
   "status": "proved",
   "theorems": [
    "PgNumeric.Props.C55_positive_power",
    "PgNumeric.Props.C55_positive_power_overflow",
    "PgNumeric.Props.C55_small_exponent",
    "PgNumeric.Props.C55_single_group",
    "PgNumeric.Props.C55_base_ge_one",
    "PgNumeric.Props.C55_negative_power",
    "PgNumeric.Props.C55_square",
    "PgNumeric.Props.C55_small_base_zero"
   ],
   "note": ""
  },
  {
   "property": "C56",
   "status": "proved",
   "theorems": [
    "PgNumeric.Props.C56_nan",
    "PgNumeric.Props.C56_nearest",
    "PgNumeric.Props.C56_overflow",
    "PgNumeric.Props.C56_exact",
    "PgNumeric.Props.C56_int",
    "PgNumeric.Props.C56_monotone"
   ],
   "note": ""
  },
  {
   "property": "C57",
   "status": "proved",
   "theorems": [
    "PgNumeric.Props.C57_error",
    "PgNumeric.Props.C57_extremes",
    "PgNumeric.Props.C57_nearest",
    "PgNumeric.Props.C57_accuracy",
    "PgNumeric.Props.C57_exact",
    "PgNumeric.Props.C57_double_rounding"
   ],
   "note": ""
  },
  {
   "property": "C58",
   "status": "proved",
   "theorems": [
    "PgNumeric.Props.C58_f64_round_trip",
    "PgNumeric.Props.C58_f32_round_trip",
    "PgNumeric.Props.C58_f64_lossy"
   ],
   "note": ""
  },
  {
   "property": "C59",
   "status": "proved",
   "theorems": [
    "PgNumeric.Props.C59_accessors",
    "PgNumeric.Props.C59_to_owned",
    "PgNumeric.Props.C59_cmp",
    "PgNumeric.Props.C59_hash",
    "PgNumeric.Props.C59_add",
    "PgNumeric.Props.C59_sub",
    "PgNumeric.Props.C59_negate",
    "PgNumeric.Props.C59_abs",
    "PgNumeric.Props.C59_round",
    "PgNumeric.Props.C59_trunc",
    "PgNumeric.Props.C59_canonical_is_stored",
    "PgNumeric.Props.C59_same_results",
    "PgNumeric.Props.C59_same_results_binary",
    "PgNumeric.Props.C59_deserialize",
    "PgNumeric.Props.C59_deserialize_unchecked",
    "PgNumeric.Props.C59_zero_with_digits",
    "PgNumeric.Props.C59_mul",
    "PgNumeric.Props.C59_div",
    "PgNumeric.Props.C59_div_leading_zero",
    "PgNumeric.Props.C59_small",
    "PgNumeric.Props.C59_apply_typmod",
    "PgNumeric.Props.C59_apply_typmod_default",
    "PgNumeric.Props.C59_display",
    "PgNumeric.Props.C59_normalize",
    "PgNumeric.Props.C59_to_int"
   ],
   "note": ""
  },
  {
   "property": "C60",
   "status": "proved",
   "theorems": [
    "PgNumeric.Props.C60_history",
    "PgNumeric.Props.C60_no_leak",
    "PgNumeric.Props.C60_drop_alignment",
    "PgNumeric.Props.C60_null"
   ],
   "note": ""
  },
  {
   "property": "C61",
   "status": "proved",
   "theorems": [
    "PgNumeric.Props.C61_deterministic",
    "PgNumeric.Props.C61_client",
    "PgNumeric.Props.C61_platform_independent",
    "PgNumeric.Props.C61_build_independent"
   ],
   "note": ""
  },
  {
   "property": "C62",
   "status": "proved",
   "theorems": [
    "PgNumeric.Props.C62_copies",
    "PgNumeric.Props.C62_copies_nan",
    "PgNumeric.Props.C62_no_alignment_guarantee"
   ],
   "note": ""
  },
  {
   "property": "C63",
   "status": "proved",
   "theorems": [
    "PgNumeric.Props.C63_scale_blind",
    "PgNumeric.Props.C63_scale_blind_binary",
    "PgNumeric.Props.C63_congruence",
    "PgNumeric.Props.C63_congruence_mul",
    "PgNumeric.Props.C63_division_depends_on_scale"
   ],
   "note": ""
  },
  {
   "property": "C64",
   "status": "proved",
   "theorems": [
    "PgNumeric.Props.C64_signs",
    "PgNumeric.Props.C64_cancel",
    "PgNumeric.Props.C64_units",
    "PgNumeric.Props.C64_back",
    "PgNumeric.Props.C64_monotone",
    "PgNumeric.Props.C64_remainder",
    "PgNumeric.Props.C64_trunc_of_quotient",
    "PgNumeric.Props.C64_trunc_of_quotient_differs"
   ],
   "note": ""
  },
  {
   "property": "C65",
   "status": "proved",
   "theorems": [
    "PgNumeric.Props.C65_sqrt_faithful",
    "PgNumeric.Props.C65_ln_faithful",
    "PgNumeric.Props.C65_ln_sign",
    "PgNumeric.Props.C65_log_faithful",
    "PgNumeric.Props.C65_exp_faithful",
    "PgNumeric.Props.C65_pow_faithful",
    "PgNumeric.Props.C65_order",
    "PgNumeric.Props.C65_root_squared",
    "PgNumeric.Props.C65_ln_exp",
    "PgNumeric.Props.C65_exp_ln"
   ],
   "note": ""
  },
  {
   "property": "C66",
   "status": "proved",
   "theorems": [
    "PgNumeric.Props.C66_threads",
    "PgNumeric.Props.C66_schedule_independent",
    "PgNumeric.Props.C66_stable",
    "PgNumeric.Props.C66_writes",
    "PgNumeric.Props.C66_reads"
   ],
   "note": ""
  },
  {
   "property": "C67",
   "status": "proved",
   "theorems": [
    "PgNumeric.Props.C67_typmod",
    "PgNumeric.Props.C67_typmod_injective",
    "PgNumeric.Props.C67_typmod_default",
    "PgNumeric.Props.C67_parse_message",
    "PgNumeric.Props.C67_int_message",
    "PgNumeric.Props.C67_float_message"
   ],
   "note": ""
  },
  {
   "property": "C68",
   "status": "proved",
   "theorems": [
    "PgNumeric.Props.C68_client",
    "PgNumeric.Props.C68_total"
   ],
   "note": ""
  },
  {
   "property": "C69",
   "status": "proved",
   "theorems": [
    "PgNumeric.Props.C69_exp_ln",
    "PgNumeric.Props.C69_ln_exp",
    "PgNumeric.Props.C69_ln_mul",
    "PgNumeric.Props.C69_exp_add",
    "PgNumeric.Props.C69_pow_add",
    "PgNumeric.Props.C69_pow_half",
    "PgNumeric.Props.C69_change_of_base"
   ],
   "note": ""
  },
  {
   "property": "C70",
   "status": "proved",
   "theorems": [
    "PgNumeric.Props.C70_size",
    "PgNumeric.Props.C70_size_zero",
    "PgNumeric.Props.C70_size_max",
    "PgNumeric.Props.C70_shortest"
   ],
   "note": ""
  },
  {
   "property": "C71",
   "status": "proved",
   "theorems": [
    "PgNumeric.Props.C71_unary",
    "PgNumeric.Props.C71_binary",
    "PgNumeric.Props.C71_functions",
    "PgNumeric.Props.C71_queries",
    "PgNumeric.Props.C71_text",
    "PgNumeric.Props.C71_conversions",
    "PgNumeric.Props.C71_in_place",
    "PgNumeric.Props.C71_programs"
   ],
   "note": ""
  },
  {
   "property": "C72",
   "status": "proved",
   "theorems": [
    "PgNumeric.Props.C72_total_exact",
    "PgNumeric.Props.C72_total_sound",
    "PgNumeric.Props.C72_total_order_free",
    "PgNumeric.Props.C72_total_nonnegative",
    "PgNumeric.Props.C72_total_nan",
    "PgNumeric.Props.C72_product_sound",
    "PgNumeric.Props.C72_product_order_free",
    "PgNumeric.Props.C72_product_whole",
    "PgNumeric.Props.C72_mean",
    "PgNumeric.Props.C72_largest",
    "PgNumeric.Props.C72_smallest",
    "PgNumeric.Props.C72_sorted_unique",
    "PgNumeric.Props.C72_order_can_overflow"
   ],
   "note": ""
  },
  {
   "property": "C73",
   "status": "proved",
   "theorems": [
    "PgNumeric.Props.C73_threads",
    "PgNumeric.Props.C73_all_return",
    "PgNumeric.Props.C73_schedule_independent",
    "PgNumeric.Props.C73_stable"
   ],
   "note": ""
  },
  {
   "property": "C74",
   "status": "proved",
   "theorems": [
    "PgNumeric.Props.C74_debug_returns",
    "PgNumeric.Props.C74_debug_stops",
    "PgNumeric.Props.C74_release_returns",
    "PgNumeric.Props.C74_release_oob",
    "PgNumeric.Props.C74_builds_agree",
    "PgNumeric.Props.C74_content",
    "PgNumeric.Props.C74_size",
    "PgNumeric.Props.C74_again",
    "PgNumeric.Props.C74_number",
    "PgNumeric.Props.C74_words"
   ],
   "note": ""
  },
  {
   "property": "C75",
   "status": "proved",
   "theorems": [
    "PgNumeric.Props.C75_queries",
    "PgNumeric.Props.C75_release",
    "PgNumeric.Props.C75_total",
    "PgNumeric.Props.C75_self",
    "PgNumeric.Props.C75_order",
    "PgNumeric.Props.C75_model",
    "PgNumeric.Props.C75_hash",
    "PgNumeric.Props.C75_not_antisymmetric",
    "PgNumeric.Props.C75_cycle"
   ],
   "note": ""
  },
  {
   "property": "C76",
   "status": "proved",
   "theorems": [
    "PgNumeric.Props.C76_negate",
    "PgNumeric.Props.C76_value",
    "PgNumeric.Props.C76_wraps"
   ],
   "note": ""
  },
  {
   "property": "C77",
   "status": "proved",
   "theorems": [
    "PgNumeric.Props.C77_release",
    "PgNumeric.Props.C77_debug",
    "PgNumeric.Props.C77_characters",
    "PgNumeric.Props.C77_numeral",
    "PgNumeric.Props.C77_model",
    "PgNumeric.Props.C77_same_text",
    "PgNumeric.Props.C77_minus_inside"
   ],
   "note": ""
  },
  {
   "property": "C78",
   "status": "proved",
   "theorems": [
    "PgNumeric.Props.C78_borrow",
    "PgNumeric.Props.C78_queries",
    "PgNumeric.Props.C78_answers",
    "PgNumeric.Props.C78_no_copy",
    "PgNumeric.Props.C78_again",
    "PgNumeric.Props.C78_owned_answers",
    "PgNumeric.Props.C78_abs",
    "PgNumeric.Props.C78_head_only"
   ],
   "note": ""
  },
  {
   "property": "C79",
   "status": "proved",
   "theorems": [
    "PgNumeric.Props.C79_arith",
    "PgNumeric.Props.C79_unary",
    "PgNumeric.Props.C79_real"
   ],
   "note": ""
  },
  {
   "property": "C80",
   "status": "proved",
   "theorems": [
    "PgNumeric.Props.C80_add",
    "PgNumeric.Props.C80_sub",
    "PgNumeric.Props.C80_nan",
    "PgNumeric.Props.C80_release",
    "PgNumeric.Props.C80_debug_exact",
    "PgNumeric.Props.C80_model",
    "PgNumeric.Props.C80_wraps",
    "PgNumeric.Props.C80_odd_digits"
   ],
   "note": ""
  },
  {
   "property": "C81",
   "status": "proved",
   "theorems": [
    "PgNumeric.Props.C81_convert",
    "PgNumeric.Props.C81_nan",
    "PgNumeric.Props.C81_proper",
    "PgNumeric.Props.C81_not_nearest",
    "PgNumeric.Props.C81_panics"
   ],
   "note": ""
  },
  {
   "property": "C82",
   "status": "proved",
   "theorems": [
    "PgNumeric.Props.C82_trunc",
    "PgNumeric.Props.C82_round",
    "PgNumeric.Props.C82_nan",
    "PgNumeric.Props.C82_proper",
    "PgNumeric.Props.C82_wraps",
    "PgNumeric.Props.C82_not_nearest"
   ],
   "note": ""
  },
  {
   "property": "C83",
   "status": "proved",
   "theorems": [
    "PgNumeric.Props.C83_ceil",
    "PgNumeric.Props.C83_floor",
    "PgNumeric.Props.C83_nan",
    "PgNumeric.Props.C83_model",
    "PgNumeric.Props.C83_zero",
    "PgNumeric.Props.C83_below"
   ],
   "note": ""
  },
  {
   "property": "C84",
   "status": "proved",
   "theorems": [
    "PgNumeric.Props.C84_typmod",
    "PgNumeric.Props.C84_flag_meaning",
    "PgNumeric.Props.C84_passes"
   ],
   "note": ""
  },
  {
   "property": "C85",
   "status": "proved",
   "theorems": [
    "PgNumeric.Props.C85_mul",
    "PgNumeric.Props.C85_hidden_digits"
   ],
   "note": ""
  },
  {
   "property": "C86",
   "status": "proved",
   "theorems": [
    "PgNumeric.Props.C86_div",
    "PgNumeric.Props.C86_div_trunc",
    "PgNumeric.Props.C86_div_by_leading_zero",
    "PgNumeric.Props.C86_five_is_zero"
   ],
   "note": ""
  },
  {
   "property": "C87",
   "status": "proved",
   "theorems": [
    "PgNumeric.Props.C87_rem",
    "PgNumeric.Props.C87_rem_exact",
    "PgNumeric.Props.C87_nan",
    "PgNumeric.Props.C87_hidden_digits"
   ],
   "note": ""
  },
  {
   "property": "C88",
   "status": "proved",
   "theorems": [
    "PgNumeric.Props.C88_sqrt",
    "PgNumeric.Props.C88_sqrt_negative",
    "PgNumeric.Props.C88_sqrt_nan",
    "PgNumeric.Props.C88_sqrt_no_digits",
    "PgNumeric.Props.C88_leading_zero"
   ],
   "note": ""
  },
  {
   "property": "C89",
   "status": "proved",
   "theorems": [
    "PgNumeric.Props.C89_f64",
    "PgNumeric.Props.C89_f32"
   ],
   "note": ""
  },
  {
   "property": "C90",
   "status": "proved",
   "theorems": [
    "PgNumeric.Props.C90_ln",
    "PgNumeric.Props.C90_ln_negative",
    "PgNumeric.Props.C90_ln_no_digits",
    "PgNumeric.Props.C90_ln_nan"
   ],
   "note": ""
  },
  {
   "property": "C91",
   "status": "proved",
   "theorems": [
    "PgNumeric.Props.C91_log",
    "PgNumeric.Props.C91_log2",
    "PgNumeric.Props.C91_log10"
   ],
   "note": ""
  }
 ]
}