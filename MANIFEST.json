{
 "claims": [
  {
   "property": "C01",
   "status": "proved",
   "theorems": [
    "Fawkes.Props.C01_linear_exact",
    "Fawkes.Props.C01_values",
    "Fawkes.Props.C01_values_none",
    "Fawkes.Props.C01_divConst"
   ],
   "note": ""
  },
  {
   "property": "C02",
   "status": "proved",
   "theorems": [
    "Fawkes.Props.C02_signals_canonical",
    "Fawkes.Props.C02_add_comm",
    "Fawkes.Props.C02_client",
    "Fawkes.Props.C02_circuit"
   ],
   "note": ""
  },
  {
   "property": "C03",
   "status": "proved",
   "theorems": [
    "Fawkes.Props.C03_asConst_sound",
    "Fawkes.Props.C03_asConst_complete",
    "Fawkes.Props.C03_asConst_exact",
    "Fawkes.Props.C03_client"
   ],
   "note": ""
  },
  {
   "property": "C04",
   "status": "proved",
   "theorems": [
    "Fawkes.Props.C04_mul_sound",
    "Fawkes.Props.C04_mul_complete",
    "Fawkes.Props.C04_mul_cost"
   ],
   "note": ""
  },
  {
   "property": "C05",
   "status": "partial",
   "theorems": [
    "Fawkes.Props.C05_refuted",
    "Fawkes.Props.C05_div_sound_partial",
    "Fawkes.Props.C05_div_complete_partial",
    "Fawkes.Props.C05_div_const_numerator",
    "Fawkes.Props.C05_div_const_zero_panics"
   ],
   "note": "False of the code for a constant numerator (C05_refuted); proved for all other operands."
  },
  {
   "property": "C06",
   "status": "proved",
   "theorems": [
    "Fawkes.Props.C06_assertTrue_iff",
    "Fawkes.Props.C06_assertFalse_iff",
    "Fawkes.Props.C06_bool_constants",
    "Fawkes.Props.C06_bool_complete",
    "Fawkes.Props.C06_assertConst_iff",
    "Fawkes.Props.C06_assertConst_const",
    "Fawkes.Props.C06_assertZero_iff",
    "Fawkes.Props.C06_assertZero_const",
    "Fawkes.Props.C06_assertEq_iff",
    "Fawkes.Props.C06_assertEq_const",
    "Fawkes.Props.C06_assertEq_complete",
    "Fawkes.Props.C06_signal_assertEq_iff",
    "Fawkes.Props.C06_signal_assertConst_iff",
    "Fawkes.Props.C06_signal_complete",
    "Fawkes.Props.C06_signal_const"
   ],
   "note": ""
  },
  {
   "property": "C07",
   "status": "proved",
   "theorems": [
    "Fawkes.Props.C07_assertNonzero_iff",
    "Fawkes.Props.C07_assertNonzero_const",
    "Fawkes.Props.C07_assertNonzero_honest",
    "Fawkes.Props.C07_assertNonzero_zero"
   ],
   "note": ""
  },
  {
   "property": "C08",
   "status": "proved",
   "theorems": [
    "Fawkes.Props.C08_assertBit_iff",
    "Fawkes.Props.C08_assertBit_const",
    "Fawkes.Props.C08_assertBit_complete"
   ],
   "note": ""
  },
  {
   "property": "C09",
   "status": "proved",
   "theorems": [
    "Fawkes.Props.C09_isZero_sound",
    "Fawkes.Props.C09_isEq_sound",
    "Fawkes.Props.C09_isEq_complete",
    "Fawkes.Props.C09_isZero_complete",
    "Fawkes.Props.C09_signal_isEq_sound",
    "Fawkes.Props.C09_signal_isEq_complete",
    "Fawkes.Props.C09_isEq_empty_vec_panics"
   ],
   "note": ""
  },
  {
   "property": "C10",
   "status": "proved",
   "theorems": [
    "Fawkes.Props.C10_if_else_sound",
    "Fawkes.Props.C10_if_else_complete",
    "Fawkes.Props.C10_if_else_constants",
    "Fawkes.Props.C10_switch_sound",
    "Fawkes.Props.C10_switch_complete",
    "Fawkes.Props.C10_signal_switch_sound",
    "Fawkes.Props.C10_signal_switch_complete"
   ],
   "note": ""
  },
  {
   "property": "C11",
   "status": "proved",
   "theorems": [
    "Fawkes.Props.C11_test_accept",
    "Fawkes.Props.C11_test_values",
    "Fawkes.Props.C11_enforce",
    "Fawkes.Props.C11_enforce_missing",
    "Fawkes.Props.C11_client_accept",
    "Fawkes.Props.C11_client_values",
    "Fawkes.Props.C11_circuit_accept"
   ],
   "note": ""
  },
  {
   "property": "C12",
   "status": "proved",
   "theorems": [
    "Fawkes.Props.C12_same_calls",
    "Fawkes.Props.C12_setup_no_values",
    "Fawkes.Props.C12_structure_independent",
    "Fawkes.Props.C12_witness_independent",
    "Fawkes.Props.C12_gadgets",
    "Fawkes.Props.C12_setup_follows_proving",
    "Fawkes.Props.C12_circuit",
    "Fawkes.Props.C12_wide_decomposition_panics"
   ],
   "note": "Relational theorem for all client code over the whole circuit API, plus: setup gets through whenever proving does, unless a decomposition is wider than NUM_BITS (C12_wide_decomposition_panics)."
  },
  {
   "property": "C13",
   "status": "proved",
   "theorems": [
    "Fawkes.Props.C13_indices_distinct",
    "Fawkes.Props.C13_alloc_fresh",
    "Fawkes.Props.C13_client_allocated"
   ],
   "note": ""
  },
  {
   "property": "C14",
   "status": "proved",
   "theorems": [
    "Fawkes.Props.C14_sound",
    "Fawkes.Props.C14_unique",
    "Fawkes.Props.C14_complete",
    "Fawkes.Props.C14_succeeds_iff",
    "Fawkes.Props.C14_const",
    "Fawkes.Props.C14_panics",
    "Fawkes.Props.C14_provable_iff"
   ],
   "note": ""
  },
  {
   "property": "C15",
   "status": "proved",
   "theorems": [
    "Fawkes.Props.C15_compare",
    "Fawkes.Props.C15_truncates",
    "Fawkes.Props.C15_complete",
    "Fawkes.Props.C15_empty"
   ],
   "note": ""
  },
  {
   "property": "C16",
   "status": "proved",
   "theorems": [
    "Fawkes.Props.C16_canonical",
    "Fawkes.Props.C16_digits_sum",
    "Fawkes.Props.C16_complete"
   ],
   "note": ""
  },
  {
   "property": "C17",
   "status": "proved",
   "theorems": [
    "Fawkes.Props.C17_sum",
    "Fawkes.Props.C17_panics_iff",
    "Fawkes.Props.C17_inverse",
    "Fawkes.Props.C17_inverse_strict",
    "Fawkes.Props.C17_complete"
   ],
   "note": ""
  },
  {
   "property": "C18",
   "status": "proved",
   "theorems": [
    "Fawkes.Props.C18_select",
    "Fawkes.Props.C18_complete",
    "Fawkes.Props.C18_shapes"
   ],
   "note": ""
  },
  {
   "property": "C19",
   "status": "proved",
   "theorems": [
    "Fawkes.Props.C19_sound",
    "Fawkes.Props.C19_complete",
    "Fawkes.Props.C19_arity"
   ],
   "note": ""
  },
  {
   "property": "C20",
   "status": "proved",
   "theorems": [
    "Fawkes.Props.C20_native",
    "Fawkes.Props.C20_sound",
    "Fawkes.Props.C20_complete",
    "Fawkes.Props.C20_arity"
   ],
   "note": ""
  },
  {
   "property": "C21",
   "status": "proved",
   "theorems": [
    "Fawkes.Props.C21_sound",
    "Fawkes.Props.C21_complete",
    "Fawkes.Props.C21_any_direction"
   ],
   "note": ""
  },
  {
   "property": "C22",
   "status": "proved",
   "theorems": [
    "Fawkes.Props.C22_sound",
    "Fawkes.Props.C22_complete"
   ],
   "note": ""
  },
  {
   "property": "C23",
   "status": "proved",
   "theorems": [
    "Fawkes.Props.C23_root",
    "Fawkes.Props.C23_height",
    "Fawkes.Props.C23_proofs_verify",
    "Fawkes.Props.C23_empty",
    "Fawkes.Props.C23_single"
   ],
   "note": ""
  },
  {
   "property": "C24",
   "status": "proved",
   "theorems": [
    "Fawkes.Props.C24_panics_iff",
    "Fawkes.Props.C24_zero_padding"
   ],
   "note": ""
  },
  {
   "property": "C25",
   "status": "proved",
   "theorems": [
    "Fawkes.Props.C25_in_curve",
    "Fawkes.Props.C25_affine_in_curve",
    "Fawkes.Props.C25_add",
    "Fawkes.Props.C25_double",
    "Fawkes.Props.C25_into_affine",
    "Fawkes.Props.C25_eq",
    "Fawkes.Props.C25_is_zero",
    "Fawkes.Props.C25_affine_add"
   ],
   "note": ""
  },
  {
   "property": "C26",
   "status": "proved",
   "theorems": [
    "Fawkes.Props.C26_closed",
    "Fawkes.Props.C26_comm",
    "Fawkes.Props.C26_assoc",
    "Fawkes.Props.C26_zero",
    "Fawkes.Props.C26_negate"
   ],
   "note": ""
  },
  {
   "property": "C27",
   "status": "proved",
   "theorems": [
    "Fawkes.Props.C27_double",
    "Fawkes.Props.C27_cofactor"
   ],
   "note": ""
  },
  {
   "property": "C28",
   "status": "proved",
   "theorems": [
    "Fawkes.Props.C28_mul",
    "Fawkes.Props.C28_mul_raw",
    "Fawkes.Props.C28_add_scalars",
    "Fawkes.Props.C28_mul_scalars",
    "Fawkes.Props.C28_add_points",
    "Fawkes.Props.C28_is_in_subgroup"
   ],
   "note": ""
  },
  {
   "property": "C29",
   "status": "proved",
   "theorems": [
    "Fawkes.Props.C29_into_montgomery",
    "Fawkes.Props.C29_round_trip",
    "Fawkes.Props.C29_from_montgomery",
    "Fawkes.Props.C29_extended"
   ],
   "note": ""
  },
  {
   "property": "C30",
   "status": "proved",
   "theorems": [
    "Fawkes.Props.C30_get_for_y",
    "Fawkes.Props.C30_recovers",
    "Fawkes.Props.C30_rand"
   ],
   "note": ""
  },
  {
   "property": "C31",
   "status": "proved",
   "theorems": [
    "Fawkes.Props.C31_subgroup_decompress",
    "Fawkes.Props.C31_unique",
    "Fawkes.Props.C31_round_trip"
   ],
   "note": ""
  },
  {
   "property": "C32",
   "status": "proved",
   "theorems": [
    "Fawkes.Props.C32_from_scalar",
    "Fawkes.Props.C32_map",
    "Fawkes.Props.C32_deterministic",
    "Fawkes.Props.C32_panics"
   ],
   "note": ""
  },
  {
   "property": "C33",
   "status": "partial",
   "theorems": [
    "Fawkes.Props.C33_add_sound_partial",
    "Fawkes.Props.C33_add_complete_partial",
    "Fawkes.Props.C33_double_sound_partial",
    "Fawkes.Props.C33_double_complete_partial",
    "Fawkes.Props.C33_cofactor_sound_partial",
    "Fawkes.Props.C33_cofactor_complete_partial",
    "Fawkes.Props.C33_refuted",
    "Fawkes.Props.C33_add_constant_sound_partial",
    "Fawkes.Props.C33_add_constant_complete_partial",
    "Fawkes.Props.C33_independent_partial",
    "Fawkes.Props.C33_add_constants",
    "Fawkes.Props.C33_double_constant"
   ],
   "note": "False of the code for two constant operands, because of the constant-numerator division bug (C33_refuted); proved for all points held in signals and for one constant operand, and the exact result (inverted coordinates, or a panic) is proved for two constant operands."
  },
  {
   "property": "C34",
   "status": "proved",
   "theorems": [
    "Fawkes.Props.C34_sound",
    "Fawkes.Props.C34_complete",
    "Fawkes.Props.C34_succeeds_iff",
    "Fawkes.Props.C34_provable_iff"
   ],
   "note": ""
  },
  {
   "property": "C35",
   "status": "proved",
   "theorems": [
    "Fawkes.Props.C35_sound",
    "Fawkes.Props.C35_complete",
    "Fawkes.Props.C35_succeeds_iff",
    "Fawkes.Props.C35_provable_iff"
   ],
   "note": ""
  },
  {
   "property": "C36",
   "status": "proved",
   "theorems": [
    "Fawkes.Props.C36_sound",
    "Fawkes.Props.C36_unsatisfiable",
    "Fawkes.Props.C36_complete",
    "Fawkes.Props.C36_succeeds_iff",
    "Fawkes.Props.C36_provable_iff"
   ],
   "note": ""
  },
  {
   "property": "C37",
   "status": "proved",
   "theorems": [
    "Fawkes.Props.C37_condition",
    "Fawkes.Props.C37_add_sound",
    "Fawkes.Props.C37_add_complete",
    "Fawkes.Props.C37_double_sound",
    "Fawkes.Props.C37_double_complete",
    "Fawkes.Props.C37_into_edwards_sound",
    "Fawkes.Props.C37_into_edwards_complete",
    "Fawkes.Props.C37_into_montgomery_sound",
    "Fawkes.Props.C37_into_montgomery_complete",
    "Fawkes.Props.C37_subgroup_ok"
   ],
   "note": ""
  },
  {
   "property": "C38",
   "status": "proved",
   "theorems": [
    "Fawkes.Props.C38_sound",
    "Fawkes.Props.C38_complete",
    "Fawkes.Props.C38_plain",
    "Fawkes.Props.C38_panics"
   ],
   "note": ""
  },
  {
   "property": "C39",
   "status": "partial",
   "theorems": [
    "Fawkes.Props.C39_refuted",
    "Fawkes.Props.C39_sound_partial",
    "Fawkes.Props.C39_complete_partial",
    "Fawkes.Props.C39_scalar_sound",
    "Fawkes.Props.C39_scalar_complete",
    "Fawkes.Props.C39_window_sound_partial",
    "Fawkes.Props.C39_window_complete_partial",
    "Fawkes.Props.C39_four_sound_partial",
    "Fawkes.Props.C39_four_complete_partial",
    "Fawkes.Props.C39_one_bit_sound_partial",
    "Fawkes.Props.C39_one_bit_complete_partial",
    "Fawkes.Props.C39_no_bits"
   ],
   "note": "False of the code for constant bits (C39_refuted). Proved for every bit string of length >= 2 whose first three bits are independent signals, and for the bits of every non-constant scalar (C39_scalar_*). Also for partly constant or dependent bits, whenever the first three bits can select multiples of the point that differ in both Montgomery coordinates (C39_window_*), which holds when they can take four values (C39_four_*). A single allocated bit is covered by C39_one_bit_sound_partial, and with no bits the call panics (C39_no_bits). Missing: a first window that selects one multiple only, where the code is wrong."
  },
  {
   "property": "C40",
   "status": "partial",
   "theorems": [
    "Fawkes.Props.C40_sound_partial",
    "Fawkes.Props.C40_complete_partial",
    "Fawkes.Props.C40_constant_sound_partial",
    "Fawkes.Props.C40_constant_complete_partial",
    "Fawkes.Props.C40_refuted",
    "Fawkes.Props.C40_constant_exact"
   ],
   "note": "False of the code for constant t, because of the constant-numerator division bug (C40_refuted); proved for every t that is not a constant (C40_sound_partial, C40_complete_partial), and for constants the result is the native point or its negative (C40_constant_*)."
  },
  {
   "property": "C41",
   "status": "proved",
   "theorems": [
    "Fawkes.Props.C41_sign_verifies"
   ],
   "note": ""
  },
  {
   "property": "C42",
   "status": "proved",
   "theorems": [
    "Fawkes.Props.C42_verify_iff",
    "Fawkes.Props.C42_unique_s"
   ],
   "note": ""
  },
  {
   "property": "C43",
   "status": "proved",
   "theorems": [
    "Fawkes.Props.C43_sound",
    "Fawkes.Props.C43_unsatisfiable",
    "Fawkes.Props.C43_complete",
    "Fawkes.Props.C43_accepts_unreduced"
   ],
   "note": ""
  },
  {
   "property": "C44",
   "status": "proved",
   "theorems": [
    "Fawkes.Props.C44_bn256",
    "Fawkes.Props.C44_bls12_381",
    "Fawkes.Props.C44_coefficients"
   ],
   "note": ""
  },
  {
   "property": "C45",
   "status": "partial",
   "theorems": [
    "Fawkes.Props.C45_from_u64",
    "Fawkes.Props.C45_from_u32",
    "Fawkes.Props.C45_from_signed_partial",
    "Fawkes.Props.C45_from_i64_min",
    "Fawkes.Props.C45_signed_refuted",
    "Fawkes.Props.C45_i32_min_wrong",
    "Fawkes.Props.C45_from_bool",
    "Fawkes.Props.C45_from_biguint",
    "Fawkes.Props.C45_from_bigint",
    "Fawkes.Props.C45_into_biguint",
    "Fawkes.Props.C45_into_u64"
   ],
   "note": "False of the code for i32::MIN/i64::MIN (C45_signed_refuted: panics with overflow checks, wrong value for i32::MIN without); proved for all other integers."
  },
  {
   "property": "C46",
   "status": "proved",
   "theorems": [
    "Fawkes.Props.C46_into_binary_be",
    "Fawkes.Props.C46_from_binary_be",
    "Fawkes.Props.C46_round_trip",
    "Fawkes.Props.C46_unaligned_panics"
   ],
   "note": ""
  },
  {
   "property": "C47",
   "status": "proved",
   "theorems": [
    "Fawkes.Props.C47_residue",
    "Fawkes.Props.C47_round_trip"
   ],
   "note": ""
  },
  {
   "property": "C48",
   "status": "proved",
   "theorems": [
    "Fawkes.Props.C48_iterbit",
    "Fawkes.Props.C48_parity"
   ],
   "note": ""
  },
  {
   "property": "C49",
   "status": "proved",
   "theorems": [
    "Fawkes.Props.C49_round_trip",
    "Fawkes.Props.C49_unique",
    "Fawkes.Props.C49_rejects"
   ],
   "note": ""
  },
  {
   "property": "C50",
   "status": "proved",
   "theorems": [
    "Fawkes.Props.C50_round_trip",
    "Fawkes.Props.C50_accepts",
    "Fawkes.Props.C50_never_reduces"
   ],
   "note": ""
  },
  {
   "property": "C51",
   "status": "proved",
   "theorems": [
    "Fawkes.Props.C51_buffer",
    "Fawkes.Props.C51_read_iff",
    "Fawkes.Props.C51_round_trip",
    "Fawkes.Props.C51_rejects"
   ],
   "note": ""
  },
  {
   "property": "C52",
   "status": "proved",
   "theorems": [
    "Fawkes.Props.C52_bls_g1_generator",
    "Fawkes.Props.C52_bls_g2_generator",
    "Fawkes.Props.C52_bls_outside",
    "Fawkes.Props.C52_g1_into",
    "Fawkes.Props.C52_g1_panics",
    "Fawkes.Props.C52_g1_into_point",
    "Fawkes.Props.C52_g1_from",
    "Fawkes.Props.C52_g1_round_trip",
    "Fawkes.Props.C52_g1_data_round_trip",
    "Fawkes.Props.C52_g2_into",
    "Fawkes.Props.C52_g2_panics",
    "Fawkes.Props.C52_g2_into_point",
    "Fawkes.Props.C52_g2_from",
    "Fawkes.Props.C52_g2_round_trip",
    "Fawkes.Props.C52_g2_data_round_trip",
    "Fawkes.Props.C52_imaginary_first",
    "Fawkes.Props.C52_g1_subgroup",
    "Fawkes.Props.C52_g1_subgroup_panics",
    "Fawkes.Props.C52_g1_subgroup_round_trip",
    "Fawkes.Props.C52_g2_subgroup",
    "Fawkes.Props.C52_g2_subgroup_panics",
    "Fawkes.Props.C52_g2_subgroup_round_trip",
    "Fawkes.Props.C52_constants",
    "Fawkes.Props.C52_constants_twist",
    "Fawkes.Props.C52_proof_round_trip",
    "Fawkes.Props.C52_vk_round_trip",
    "Fawkes.Props.C52_proof_data",
    "Fawkes.Props.C52_vk_data",
    "Fawkes.Props.C52_proof_subgroup_round_trip",
    "Fawkes.Props.C52_vk_subgroup_round_trip"
   ],
   "note": ""
  },
  {
   "property": "C53",
   "status": "proved",
   "theorems": [
    "Fawkes.Props.C53_g1",
    "Fawkes.Props.C53_g2",
    "Fawkes.Props.C53_proof",
    "Fawkes.Props.C53_vk",
    "Fawkes.Props.C53_point_layout",
    "Fawkes.Props.C53_proof_layout",
    "Fawkes.Props.C53_vk_layout"
   ],
   "note": ""
  },
  {
   "property": "C54",
   "status": "proved",
   "theorems": [
    "Fawkes.Props.C54_read",
    "Fawkes.Props.C54_round_trip",
    "Fawkes.Props.C54_rejects_infinity",
    "Fawkes.Props.C54_write_infinity",
    "Fawkes.Props.C54_canonical"
   ],
   "note": ""
  },
  {
   "property": "C55",
   "status": "proved",
   "theorems": [
    "Fawkes.Props.C55_error",
    "Fawkes.Props.C55_accepts",
    "Fawkes.Props.C55_rejects"
   ],
   "note": ""
  },
  {
   "property": "C56",
   "status": "proved",
   "theorems": [
    "Fawkes.Props.C56_contract",
    "Fawkes.Props.C56_no_ic",
    "Fawkes.Props.C56_no_ic_unchecked",
    "Fawkes.Props.C56_no_marker"
   ],
   "note": ""
  },
  {
   "property": "C57",
   "status": "partial",
   "theorems": [
    "Fawkes.Props.C57_refuted",
    "Fawkes.Props.C57_collect_partial",
    "Fawkes.Props.C57_alloc_lengths"
   ],
   "note": "False of the code for deserialisation (C57_refuted); proved for collect and alloc."
  },
  {
   "property": "C58",
   "status": "proved",
   "theorems": [
    "Fawkes.Props.C58_client_sound",
    "Fawkes.Props.C58_linearize",
    "Fawkes.Props.C58_inputize_sound",
    "Fawkes.Props.C58_inputize_complete",
    "Fawkes.Props.C58_circuit_sound",
    "Fawkes.Props.C58_circuit_get_inputs"
   ],
   "note": ""
  },
  {
   "property": "C59",
   "status": "proved",
   "theorems": [
    "Fawkes.Props.C59_stream",
    "Fawkes.Props.C59_stream_salted",
    "Fawkes.Props.C59_range"
   ],
   "note": ""
  },
  {
   "property": "C60",
   "status": "proved",
   "theorems": [
    "Fawkes.Props.C60_shape",
    "Fawkes.Props.C60_no_panic"
   ],
   "note": ""
  },
  {
   "property": "C61",
   "status": "proved",
   "theorems": [
    "Fawkes.Props.C61_bits_count",
    "Fawkes.Props.C61_poseidon_count",
    "Fawkes.Props.C61_merkle_count",
    "Fawkes.Props.C61_isZero_count",
    "Fawkes.Props.C61_poseidon_shape",
    "Fawkes.Props.C61_call_count",
    "Fawkes.Props.C61_call_shape"
   ],
   "note": ""
  },
  {
   "property": "C62",
   "status": "partial",
   "theorems": [
    "Fawkes.Props.C62_get_value_exact",
    "Fawkes.Props.C62_as_const_exact",
    "Fawkes.Props.C62_no_vectors",
    "Fawkes.Props.C62_refuted",
    "Fawkes.Props.C62_getValue_partial",
    "Fawkes.Props.C62_alloc_getValue",
    "Fawkes.Props.C62_fromConst"
   ],
   "note": "False of the code: vectors panic instead of returning None (C62_refuted). Proved exactly what happens: the first component without value (or that is no constant) decides, None outside vectors and a panic inside one (C62_get_value_exact, C62_as_const_exact); the property holds as stated for types without vectors (C62_no_vectors) and for signals with values and constants."
  },
  {
   "property": "C63",
   "status": "proved",
   "theorems": [
    "Fawkes.Props.C63_from_str_decimal",
    "Fawkes.Props.C63_from_str_panics"
   ],
   "note": ""
  },
  {
   "property": "C64",
   "status": "proved",
   "theorems": [
    "Fawkes.Props.C64_hades"
   ],
   "note": ""
  },
  {
   "property": "C65",
   "status": "proved",
   "theorems": [
    "Fawkes.Props.C65_parameters",
    "Fawkes.Props.C65_deterministic",
    "Fawkes.Props.C65_salts_distinct"
   ],
   "note": ""
  },
  {
   "property": "C66",
   "status": "proved",
   "theorems": [
    "Fawkes.Props.C66_returns",
    "Fawkes.Props.C66_unique",
    "Fawkes.Props.C66_accepts",
    "Fawkes.Props.C66_memory",
    "Fawkes.Props.C66_proof_element",
    "Fawkes.Props.C66_contract_then_library",
    "Fawkes.Props.C66_library_then_contract",
    "Fawkes.Props.C66_outside_subgroup"
   ],
   "note": ""
  },
  {
   "property": "C67",
   "status": "proved",
   "theorems": [
    "Fawkes.Props.C67_accepts",
    "Fawkes.Props.C67_accepts_public",
    "Fawkes.Props.C67_rejects",
    "Fawkes.Props.C67_unconstrained"
   ],
   "note": ""
  },
  {
   "property": "C68",
   "status": "proved",
   "theorems": [
    "Fawkes.Props.C68_hides",
    "Fawkes.Props.C68_simulator",
    "Fawkes.Props.C68_simulated_accepted"
   ],
   "note": ""
  },
  {
   "property": "C69",
   "status": "proved",
   "theorems": [
    "Fawkes.Props.C69_bound_to_inputs"
   ],
   "note": ""
  },
  {
   "property": "C70",
   "status": "proved",
   "theorems": [
    "Fawkes.Props.C70_test_iff_prove",
    "Fawkes.Props.C70_same_values",
    "Fawkes.Props.C70_circuit_iff",
    "Fawkes.Props.C70_passed_test_gives_proof",
    "Fawkes.Props.C70_failed_test_gives_no_proof"
   ],
   "note": ""
  },
  {
   "property": "C71",
   "status": "partial",
   "theorems": [
    "Fawkes.Props.C71_exact_partial",
    "Fawkes.Props.C71_public_partial",
    "Fawkes.Props.C71_refuted"
   ],
   "note": "False of the code (C71_refuted): linear combinations carry a term with coefficient zero for the constant (from_const(0), a + 0); the key generator drops the point, the prover's density tracker expects it, and prove() panics. Proved exactly when this happens (C71_exact_partial) and that circuits with a public signal are safe (C71_public_partial), up to few secret points."
  },
  {
   "property": "C72",
   "status": "proved",
   "theorems": [
    "Fawkes.Props.C72_base64_encode",
    "Fawkes.Props.C72_base64_decode",
    "Fawkes.Props.C72_base64_round_trip"
   ],
   "note": ""
  },
  {
   "property": "C73",
   "status": "proved",
   "theorems": [
    "Fawkes.Props.C73_vk",
    "Fawkes.Props.C73_proof",
    "Fawkes.Props.C73_inputs",
    "Fawkes.Props.C73_object",
    "Fawkes.Props.C73_too_deep"
   ],
   "note": ""
  },
  {
   "property": "C74",
   "status": "proved",
   "theorems": [
    "Fawkes.Props.C74_params_read",
    "Fawkes.Props.C74_params_round_trip",
    "Fawkes.Props.C74_params_no_infinity",
    "Fawkes.Props.C74_proof_read",
    "Fawkes.Props.C74_proof_round_trip",
    "Fawkes.Props.C74_proof_infinity",
    "Fawkes.Props.C74_params_infinity"
   ],
   "note": ""
  },
  {
   "property": "C75",
   "status": "partial",
   "theorems": [
    "Fawkes.Props.C75_refuted",
    "Fawkes.Props.C75_partial"
   ],
   "note": "False of the code (C75_refuted): the command calls write once and ignores the number of bytes taken, so after a short write it reports success with a truncated contract. Proved (C75_partial): the file always holds a prefix of the contract, the whole contract on a disk that works; no other file changes; no success line with a panic."
  },
  {
   "property": "C76",
   "status": "proved",
   "theorems": [
    "Fawkes.Props.C76_setup_ethereum",
    "Fawkes.Props.C76_setup_text",
    "Fawkes.Props.C76_setup_calm",
    "Fawkes.Props.C76_test_data",
    "Fawkes.Props.C76_test_data_calm",
    "Fawkes.Props.C76_prove",
    "Fawkes.Props.C76_prove_calm"
   ],
   "note": ""
  },
  {
   "property": "C77",
   "status": "proved",
   "theorems": [
    "Fawkes.Props.C77_verify",
    "Fawkes.Props.C77_true",
    "Fawkes.Props.C77_panics"
   ],
   "note": ""
  },
  {
   "property": "C78",
   "status": "proved",
   "theorems": [
    "Fawkes.Props.C78_ethereum_format",
    "Fawkes.Props.C78_near_format",
    "Fawkes.Props.C78_waves_format",
    "Fawkes.Props.C78_true",
    "Fawkes.Props.C78_false",
    "Fawkes.Props.C78_bn256_coords"
   ],
   "note": ""
  },
  {
   "property": "C79",
   "status": "proved",
   "theorems": [
    "Fawkes.Props.C79_parameters",
    "Fawkes.Props.C79_proof"
   ],
   "note": ""
  },
  {
   "property": "C80",
   "status": "proved",
   "theorems": [
    "Fawkes.Props.C80_same",
    "Fawkes.Props.C80_assertEq_iff",
    "Fawkes.Props.C80_isEq_sound",
    "Fawkes.Props.C80_switch_sound",
    "Fawkes.Props.C80_linearize"
   ],
   "note": ""
  },
  {
   "property": "C81",
   "status": "partial",
   "theorems": [
    "Fawkes.Props.C81_refuted",
    "Fawkes.Props.C81_refuted_tuple_field",
    "Fawkes.Props.C81_accepted_partial",
    "Fawkes.Props.C81_output_partial"
   ],
   "note": "False of the code (C81_refuted, C81_refuted_tuple_field): an attribute such as #[allow(..)] before #[Value = ..], or a field of a tuple type, makes the macro panic. Proved: exactly which structs are accepted (C81_accepted_partial) and what is generated for them (C81_output_partial)."
  },
  {
   "property": "C82",
   "status": "proved",
   "theorems": [
    "Fawkes.Props.C82_uniform",
    "Fawkes.Props.C82_proof_coins",
    "Fawkes.Props.C82_setup_coins",
    "Fawkes.Props.C82_counts",
    "Fawkes.Props.C82_setup",
    "Fawkes.Props.C82_hides",
    "Fawkes.Props.C82_soon"
   ],
   "note": ""
  },
  {
   "property": "C83",
   "status": "proved",
   "theorems": [
    "Fawkes.Props.C83_num",
    "Fawkes.Props.C83_num_div",
    "Fawkes.Props.C83_num_named",
    "Fawkes.Props.C83_add",
    "Fawkes.Props.C83_forms",
    "Fawkes.Props.C83_mul_div",
    "Fawkes.Props.C83_sub_neg"
   ],
   "note": ""
  },
  {
   "property": "C84",
   "status": "proved",
   "theorems": [
    "Fawkes.Props.C84_knowledge",
    "Fawkes.Props.C84_adaptive",
    "Fawkes.Props.C84_adaptive_count",
    "Fawkes.Props.C84_sound",
    "Fawkes.Props.C84_honest",
    "Fawkes.Props.C84_malleable",
    "Fawkes.Props.C84_entropy"
   ],
   "note": ""
  },
  {
   "property": "C85",
   "status": "proved",
   "theorems": [
    "Fawkes.Props.C85_accepts",
    "Fawkes.Props.C85_rejects"
   ],
   "note": ""
  },
  {
   "property": "C86",
   "status": "proved",
   "theorems": [
    "Fawkes.Props.C86_keys",
    "Fawkes.Props.C86_setup",
    "Fawkes.Props.C86_accepts",
    "Fawkes.Props.C86_knowledge",
    "Fawkes.Props.C86_sound"
   ],
   "note": ""
  },
  {
   "property": "C87",
   "status": "proved",
   "theorems": [
    "Fawkes.Props.C87_knowledge",
    "Fawkes.Props.C87_sound"
   ],
   "note": ""
  },
  {
   "property": "C88",
   "status": "proved",
   "theorems": [
    "Fawkes.Props.C88_keys",
    "Fawkes.Props.C88_keys_handwritten",
    "Fawkes.Props.C88_needed"
   ],
   "note": ""
  },
  {
   "property": "C89",
   "status": "partial",
   "theorems": [
    "Fawkes.Props.C89_forgery",
    "Fawkes.Props.C89_asserted_partial",
    "Fawkes.Props.C89_complete",
    "Fawkes.Props.C89_forger",
    "Fawkes.Props.C89_refuted",
    "Fawkes.Props.C89_setup",
    "Fawkes.Props.C89_chain",
    "Fawkes.Props.C89_count",
    "Fawkes.Props.C89_bn",
    "Fawkes.Props.C89_bls",
    "Fawkes.Props.C89_bn_security",
    "Fawkes.Props.C89_bls_security"
   ],
   "note": "False of the code (C89_refuted): CBool::alloc adds no constraint, so the prover may use any number as a direction and, from an authentic proof of any leaf, gets a proof for almost any other leaf accepted (C89_forgery, C89_forger). Proved: with path[i].assert() for every level first, accepted proofs show knowledge of a proof of membership (C89_asserted_partial) and authentic proofs are accepted (C89_complete). For this circuit keys exist for all but few secrets and the whole chain from key generation to acceptance holds (C89_setup, C89_chain), with the exact number of constraints, 230 per level plus 3 for the repository's parameters (C89_count, C89_bn, C89_bls)."
  },
  {
   "property": "C90",
   "status": "proved",
   "theorems": [
    "Fawkes.Props.C90_call",
    "Fawkes.Props.C90_signal",
    "Fawkes.Props.C90_program",
    "Fawkes.Props.C90_handwritten",
    "Fawkes.Props.C90_generated",
    "Fawkes.Props.C90_keys_handwritten"
   ],
   "note": ""
  },
  {
   "property": "C91",
   "status": "proved",
   "theorems": [
    "Fawkes.Props.C91_text",
    "Fawkes.Props.C91_unambiguous",
    "Fawkes.Props.C91_numeral",
    "Fawkes.Props.C91_vk",
    "Fawkes.Props.C91_proof",
    "Fawkes.Props.C91_inputs",
    "Fawkes.Props.C91_object"
   ],
   "note": ""
  },
  {
   "property": "C92",
   "status": "proved",
   "theorems": [
    "Fawkes.Props.C92_poseidon",
    "Fawkes.Props.C92_poseidon_constants",
    "Fawkes.Props.C92_tree",
    "Fawkes.Props.C92_tree_full",
    "Fawkes.Props.C92_merkle",
    "Fawkes.Props.C92_in_curve",
    "Fawkes.Props.C92_in_subgroup",
    "Fawkes.Props.C92_mul",
    "Fawkes.Props.C92_mul_const",
    "Fawkes.Props.C92_decompress",
    "Fawkes.Props.C92_bits",
    "Fawkes.Props.C92_strict",
    "Fawkes.Props.C92_eddsa",
    "Fawkes.Props.C92_readme_poseidon",
    "Fawkes.Props.C92_readme_merkle",
    "Fawkes.Props.C92_readme_decompress",
    "Fawkes.Props.C92_readme_mul_const",
    "Fawkes.Props.C92_readme_mul",
    "Fawkes.Props.C92_readme_eddsa",
    "Fawkes.Props.C92_bls_eddsa"
   ],
   "note": ""
  },
  {
   "property": "C93",
   "status": "proved",
   "theorems": [
    "Fawkes.Props.C93_balanced",
    "Fawkes.Props.C93_bn",
    "Fawkes.Props.C93_bls",
    "Fawkes.Props.C93_exist"
   ],
   "note": ""
  },
  {
   "property": "C94",
   "status": "proved",
   "theorems": [
    "Fawkes.Props.C94_knowledge",
    "Fawkes.Props.C94_sound",
    "Fawkes.Props.C94_accepts",
    "Fawkes.Props.C94_setup",
    "Fawkes.Props.C94_chain",
    "Fawkes.Props.C94_count",
    "Fawkes.Props.C94_bn",
    "Fawkes.Props.C94_bls",
    "Fawkes.Props.C94_bn_security",
    "Fawkes.Props.C94_bls_security"
   ],
   "note": ""
  },
  {
   "property": "C95",
   "status": "proved",
   "theorems": [
    "Fawkes.Props.C95_call",
    "Fawkes.Props.C95_program",
    "Fawkes.Props.C95_generated",
    "Fawkes.Props.C95_handwritten",
    "Fawkes.Props.C94_bn_security",
    "Fawkes.Props.C94_bls_security",
    "Fawkes.Props.C89_bn_security",
    "Fawkes.Props.C89_bls_security"
   ],
   "note": ""
  },
  {
   "property": "C96",
   "status": "proved",
   "theorems": [
    "Fawkes.Props.C96_proofs",
    "Fawkes.Props.C96_membership",
    "Fawkes.Props.C96_trees",
    "Fawkes.Props.C96_trailing_zeros",
    "Fawkes.Props.C96_height"
   ],
   "note": ""
  },
  {
   "property": "C97",
   "status": "proved",
   "theorems": [
    "Fawkes.Props.C97_public_keys",
    "Fawkes.Props.C97_extract",
    "Fawkes.Props.C97_key_recovered",
    "Fawkes.Props.C97_nonces"
   ],
   "note": ""
  },
  {
   "property": "C98",
   "status": "proved",
   "theorems": [
    "Fawkes.Props.C98_negated",
    "Fawkes.Props.C98_rerandomised",
    "Fawkes.Props.C98_different",
    "Fawkes.Props.C98_like_fresh"
   ],
   "note": ""
  },
  {
   "property": "C99",
   "status": "proved",
   "theorems": [
    "Fawkes.Props.C99_call",
    "Fawkes.Props.C99_program",
    "Fawkes.Props.C99_handwritten",
    "Fawkes.Props.C99_generated",
    "Fawkes.Props.C99_signal",
    "Fawkes.Props.C99_preimage",
    "Fawkes.Props.C99_member",
    "Fawkes.Props.C99_div_free",
    "Fawkes.Props.C99_isZero_free",
    "Fawkes.Props.C99_subgroup_free",
    "Fawkes.Props.C99_subgroup_two"
   ],
   "note": ""
  },
  {
   "property": "C100",
   "status": "proved",
   "theorems": [
    "Fawkes.Props.C100_program",
    "Fawkes.Props.C100_values",
    "Fawkes.Props.C100_circuit",
    "Fawkes.Props.C100_macros",
    "Fawkes.Props.C100_knowledge",
    "Fawkes.Props.C100_witness",
    "Fawkes.Props.C100_proof",
    "Fawkes.Props.C100_membership"
   ],
   "note": ""
  },
  {
   "property": "C101",
   "status": "proved",
   "theorems": [
    "Fawkes.Props.C101_form",
    "Fawkes.Props.C101_count",
    "Fawkes.Props.C101_other_message",
    "Fawkes.Props.C101_other_key",
    "Fawkes.Props.C101_zero_key",
    "Fawkes.Props.C101_zero_nonce"
   ],
   "note": ""
  },
  {
   "property": "C102",
   "status": "proved",
   "theorems": [
    "Fawkes.Props.C102_replace",
    "Fawkes.Props.C102_append",
    "Fawkes.Props.C102_any_proof",
    "Fawkes.Props.C102_two_roots",
    "Fawkes.Props.C102_circuit",
    "Fawkes.Props.C102_accepted"
   ],
   "note": ""
  },
  {
   "property": "C103",
   "status": "proved",
   "theorems": [
    "Fawkes.Props.C103_order",
    "Fawkes.Props.C103_subgroup_order",
    "Fawkes.Props.C103_get_for_y",
    "Fawkes.Props.C103_get_for_y_none",
    "Fawkes.Props.C103_rand",
    "Fawkes.Props.C103_from_scalar_pairs",
    "Fawkes.Props.C103_from_scalar"
   ],
   "note": ""
  },
  {
   "property": "C104",
   "status": "partial",
   "theorems": [
    "Fawkes.Props.C104_erasure",
    "Fawkes.Props.C104_reveals",
    "Fawkes.Props.C104_refuted",
    "Fawkes.Props.C104_count_partial",
    "Fawkes.Props.C104_sign_partial",
    "Fawkes.Props.C104_sign_reveals"
   ],
   "note": "False of the code (C104_refuted). Proved: the recorded runs are those of the model (C104_erasure); the number of doublings is constant and the number of additions is the number of ones (C104_count_partial, C104_sign_partial); the sequence determines scalar and secret key (C104_reveals, C104_sign_reveals)."
  },
  {
   "property": "C105",
   "status": "proved",
   "theorems": [
    "Fawkes.Props.C105_isolated",
    "Fawkes.Props.C105_noninterference",
    "Fawkes.Props.C105_untouched",
    "Fawkes.Props.C105_finishes",
    "Fawkes.Props.C105_setup",
    "Fawkes.Props.C105_write",
    "Fawkes.Props.C105_two_setups",
    "Fawkes.Props.C105_two_setups_text",
    "Fawkes.Props.C105_verdict"
   ],
   "note": ""
  },
  {
   "property": "C106",
   "status": "proved",
   "theorems": [
    "Fawkes.Props.C106_entropy",
    "Fawkes.Props.C106_ethereum_format",
    "Fawkes.Props.C106_near_format",
    "Fawkes.Props.C106_waves_format",
    "Fawkes.Props.C106_verdict",
    "Fawkes.Props.C106_native",
    "Fawkes.Props.C106_factors"
   ],
   "note": ""
  },
  {
   "property": "C107",
   "status": "proved",
   "theorems": [
    "Fawkes.Props.C107_files",
    "Fawkes.Props.C107_names",
    "Fawkes.Props.C107_unambiguous",
    "Fawkes.Props.C107_runs",
    "Fawkes.Props.C107_message",
    "Fawkes.Props.C107_touches",
    "Fawkes.Props.C107_defaults",
    "Fawkes.Props.C107_session",
    "Fawkes.Props.C107_same_path",
    "Fawkes.Props.C107_same_path_prove"
   ],
   "note": ""
  },
  {
   "property": "C108",
   "status": "proved",
   "theorems": [
    "Fawkes.Props.C108_call",
    "Fawkes.Props.C108_interleave",
    "Fawkes.Props.C108_panic",
    "Fawkes.Props.C108_order",
    "Fawkes.Props.C108_finished",
    "Fawkes.Props.C108_mixed"
   ],
   "note": ""
  },
  {
   "property": "C109",
   "status": "proved",
   "theorems": [
    "Fawkes.Props.C109_code",
    "Fawkes.Props.C109_extract",
    "Fawkes.Props.C109_no_panic",
    "Fawkes.Props.C109_lazy",
    "Fawkes.Props.C109_unforgeable",
    "Fawkes.Props.C109_average",
    "Fawkes.Props.C109_owner",
    "Fawkes.Props.C109_shipped"
   ],
   "note": ""
  },
  {
   "property": "C110",
   "status": "proved",
   "theorems": [
    "Fawkes.Props.C110_bn256_g1",
    "Fawkes.Props.C110_bn256_g2",
    "Fawkes.Props.C110_bls12_381_g1",
    "Fawkes.Props.C110_bls12_381_g2",
    "Fawkes.Props.C110_ordinate",
    "Fawkes.Props.C110_bn256_raw",
    "Fawkes.Props.C110_bls12_381_raw",
    "Fawkes.Props.C110_bn256_unchecked",
    "Fawkes.Props.C110_bls12_381_unchecked",
    "Fawkes.Props.C110_bn256_unchecked_g2",
    "Fawkes.Props.C110_bls12_381_unchecked_g2",
    "Fawkes.Props.C110_bn256_keys",
    "Fawkes.Props.C110_bls12_381_keys",
    "Fawkes.Props.C110_raw_lawful",
    "Fawkes.Props.C110_bls12_381_params",
    "Fawkes.Props.C110_bn256_params"
   ],
   "note": ""
  },
  {
   "property": "C111",
   "status": "proved",
   "theorems": [
    "Fawkes.Props.C111_bls_possible_g1",
    "Fawkes.Props.C111_bls_possible_g2",
    "Fawkes.Props.C111_bls_setup_possible",
    "Fawkes.Props.C111_bls_unlucky",
    "Fawkes.Props.C111_bls_entropy",
    "Fawkes.Props.C111_bls_command_line",
    "Fawkes.Props.C111_bls_pairing",
    "Fawkes.Props.C111_bls_g1_count",
    "Fawkes.Props.C111_bls_g2_count",
    "Fawkes.Props.C111_bls_random_g1",
    "Fawkes.Props.C111_bls_random_g2",
    "Fawkes.Props.C111_bls_uniform_g1",
    "Fawkes.Props.C111_bls_uniform_g2",
    "Fawkes.Props.C111_bls_setup_good",
    "Fawkes.Props.C111_bls_setup",
    "Fawkes.Props.C111_g1",
    "Fawkes.Props.C111_g1_into",
    "Fawkes.Props.C111_g1_count",
    "Fawkes.Props.C111_g2_count",
    "Fawkes.Props.C111_g2_subgroup_count",
    "Fawkes.Props.C111_random_g1",
    "Fawkes.Props.C111_random_g2",
    "Fawkes.Props.C111_uniform_g1",
    "Fawkes.Props.C111_uniform_g2",
    "Fawkes.Props.C111_setup_good",
    "Fawkes.Props.C111_setup",
    "Fawkes.Props.C111_possible_g1",
    "Fawkes.Props.C111_possible_g2",
    "Fawkes.Props.C111_setup_possible",
    "Fawkes.Props.C111_unlucky",
    "Fawkes.Props.C111_entropy",
    "Fawkes.Props.C111_command_line",
    "Fawkes.Props.C111_pairing"
   ],
   "note": ""
  },
  {
   "property": "C112",
   "status": "proved",
   "theorems": [
    "Fawkes.Props.C112_bls_draws",
    "Fawkes.Props.C112_bls_true",
    "Fawkes.Props.C112_bls_false",
    "Fawkes.Props.C112_true",
    "Fawkes.Props.C112_true_compressed",
    "Fawkes.Props.C112_false",
    "Fawkes.Props.C112_bn256_true",
    "Fawkes.Props.C112_bn256_false"
   ],
   "note": ""
  },
  {
   "property": "C113",
   "status": "proved",
   "theorems": [
    "Fawkes.Props.C113_digest",
    "Fawkes.Props.C113_pieces",
    "Fawkes.Props.C113_cuts",
    "Fawkes.Props.C113_refused",
    "Fawkes.Props.C113_from_seed",
    "Fawkes.Props.C113_from_seed_value",
    "Fawkes.Props.C113_hash_r",
    "Fawkes.Props.C113_seedbox",
    "Fawkes.Props.C113_stream"
   ],
   "note": ""
  },
  {
   "property": "C114",
   "status": "proved",
   "theorems": [
    "Fawkes.Props.C114_bls_setup",
    "Fawkes.Props.C114_bls_session",
    "Fawkes.Props.C114_tonelli",
    "Fawkes.Props.C114_legendre",
    "Fawkes.Props.C114_bn256",
    "Fawkes.Props.C114_bls12_381",
    "Fawkes.Props.C114_base_fields",
    "Fawkes.Props.C114_params",
    "Fawkes.Props.C114_decompress",
    "Fawkes.Props.C114_sign_verifies",
    "Fawkes.Props.C114_bls12_381_uses",
    "Fawkes.Props.C114_setup",
    "Fawkes.Props.C114_session_true",
    "Fawkes.Props.C114_session_false"
   ],
   "note": ""
  },
  {
   "property": "C115",
   "status": "proved",
   "theorems": [
    "Fawkes.Props.C115_unique",
    "Fawkes.Props.C115_sums",
    "Fawkes.Props.C115_products",
    "Fawkes.Props.C115_inverse",
    "Fawkes.Props.C115_repr",
    "Fawkes.Props.C115_constants",
    "Fawkes.Props.C115_no_overflow",
    "Fawkes.Props.C115_computation",
    "Fawkes.Props.C115_seedbox",
    "Fawkes.Props.C115_osrng"
   ],
   "note": ""
  },
  {
   "property": "C116",
   "status": "proved",
   "theorems": [
    "Fawkes.Props.C116_bls12_381_sqrt",
    "Fawkes.Props.C116_bls12_381_sign_verifies",
    "Fawkes.Props.C116_field",
    "Fawkes.Props.C116_poseidon",
    "Fawkes.Props.C116_params",
    "Fawkes.Props.C116_points",
    "Fawkes.Props.C116_extended",
    "Fawkes.Props.C116_conversions",
    "Fawkes.Props.C116_sqrt",
    "Fawkes.Props.C116_eddsa",
    "Fawkes.Props.C116_sign_verifies"
   ],
   "note": ""
  },
  {
   "property": "C117",
   "status": "proved",
   "theorems": [
    "Fawkes.Props.C117_bls12_381_eddsa",
    "Fawkes.Props.C117_linear",
    "Fawkes.Props.C117_signals",
    "Fawkes.Props.C117_bits",
    "Fawkes.Props.C117_poseidon",
    "Fawkes.Props.C117_points",
    "Fawkes.Props.C117_roots",
    "Fawkes.Props.C117_eddsa",
    "Fawkes.Props.C117_satisfied"
   ],
   "note": ""
  },
  {
   "property": "C118",
   "status": "proved",
   "theorems": [
    "Fawkes.Props.C118_ethereum",
    "Fawkes.Props.C118_waves",
    "Fawkes.Props.C118_near",
    "Fawkes.Props.C118_object",
    "Fawkes.Props.C118_setup",
    "Fawkes.Props.C118_prove",
    "Fawkes.Props.C118_test_data",
    "Fawkes.Props.C118_bn256_exact",
    "Fawkes.Props.C118_near_read",
    "Fawkes.Props.C118_ethereum_read",
    "Fawkes.Props.C118_waves_inputs_read"
   ],
   "note": ""
  },
  {
   "property": "C119",
   "status": "proved",
   "theorems": [
    "Fawkes.Props.C119_point_text",
    "Fawkes.Props.C119_point_read",
    "Fawkes.Props.C119_point_unchecked",
    "Fawkes.Props.C119_merkle_text",
    "Fawkes.Props.C119_merkle_read",
    "Fawkes.Props.C119_merkle_unchecked",
    "Fawkes.Props.C119_alloc",
    "Fawkes.Props.C119_merkle_circuit"
   ],
   "note": ""
  }
 ]
}