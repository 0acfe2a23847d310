# Axioms of the property theorems

Output of `#print axioms` for every theorem named in MANIFEST.json.

| property | theorem | axioms |
|---|---|---|
| C01 | C01_linear_exact | propext, Quot.sound |
| C01 | C01_values | propext, Quot.sound |
| C01 | C01_values_none | propext, Quot.sound |
| C01 | C01_divConst | propext, Classical.choice, Quot.sound |
| C02 | C02_signals_canonical | propext, Classical.choice, Quot.sound |
| C02 | C02_add_comm | propext, Classical.choice, Quot.sound |
| C02 | C02_client | propext, Classical.choice, Quot.sound |
| C02 | C02_circuit | propext, Classical.choice, Quot.sound |
| C03 | C03_asConst_sound | propext, Quot.sound |
| C03 | C03_asConst_complete | propext, Quot.sound |
| C03 | C03_asConst_exact | propext, Classical.choice, Quot.sound |
| C03 | C03_client | propext, Classical.choice, Quot.sound |
| C04 | C04_mul_sound | propext, Classical.choice, Quot.sound |
| C04 | C04_mul_complete | propext, Classical.choice, Quot.sound |
| C04 | C04_mul_cost | propext, Classical.choice, Quot.sound |
| C05 | C05_refuted | propext, Classical.choice, Quot.sound |
| C05 | C05_div_sound_partial | propext, Classical.choice, Quot.sound |
| C05 | C05_div_complete_partial | propext, Classical.choice, Quot.sound |
| C05 | C05_div_const_numerator | propext, Classical.choice, Quot.sound |
| C05 | C05_div_const_zero_panics | propext, Classical.choice, Quot.sound |
| C06 | C06_assertTrue_iff | propext, Quot.sound |
| C06 | C06_assertFalse_iff | propext, Quot.sound |
| C06 | C06_bool_constants | propext, Classical.choice, Quot.sound |
| C06 | C06_bool_complete | propext, Quot.sound |
| C06 | C06_assertConst_iff | propext, Quot.sound |
| C06 | C06_assertConst_const | propext, Quot.sound |
| C06 | C06_assertZero_iff | propext, Quot.sound |
| C06 | C06_assertZero_const | propext, Quot.sound |
| C06 | C06_assertEq_iff | propext, Quot.sound |
| C06 | C06_assertEq_const | propext, Quot.sound |
| C06 | C06_assertEq_complete | propext, Classical.choice, Quot.sound |
| C06 | C06_signal_assertEq_iff | propext, Classical.choice, Quot.sound |
| C06 | C06_signal_assertConst_iff | propext, Classical.choice, Quot.sound |
| C06 | C06_signal_complete | propext, Classical.choice, Quot.sound |
| C06 | C06_signal_const | propext, Classical.choice, Quot.sound |
| C07 | C07_assertNonzero_iff | propext, Classical.choice, Quot.sound |
| C07 | C07_assertNonzero_const | propext, Classical.choice, Quot.sound |
| C07 | C07_assertNonzero_honest | propext, Classical.choice, Quot.sound |
| C07 | C07_assertNonzero_zero | propext, Classical.choice, Quot.sound |
| C08 | C08_assertBit_iff | propext, Classical.choice, Quot.sound |
| C08 | C08_assertBit_const | propext, Quot.sound |
| C08 | C08_assertBit_complete | propext, Classical.choice, Quot.sound |
| C09 | C09_isZero_sound | propext, Classical.choice, Quot.sound |
| C09 | C09_isEq_sound | propext, Classical.choice, Quot.sound |
| C09 | C09_isEq_complete | propext, Classical.choice, Quot.sound |
| C09 | C09_isZero_complete | propext, Classical.choice, Quot.sound |
| C09 | C09_signal_isEq_sound | propext, Classical.choice, Quot.sound |
| C09 | C09_signal_isEq_complete | propext, Classical.choice, Quot.sound |
| C09 | C09_isEq_empty_vec_panics | propext, Classical.choice, Quot.sound |
| C10 | C10_if_else_sound | propext, Classical.choice, Quot.sound |
| C10 | C10_if_else_complete | propext, Classical.choice, Quot.sound |
| C10 | C10_if_else_constants | propext, Classical.choice, Quot.sound |
| C10 | C10_switch_sound | propext, Classical.choice, Quot.sound |
| C10 | C10_switch_complete | propext, Classical.choice, Quot.sound |
| C10 | C10_signal_switch_sound | propext, Classical.choice, Quot.sound |
| C10 | C10_signal_switch_complete | propext, Classical.choice, Quot.sound |
| C11 | C11_test_accept | propext, Classical.choice, Quot.sound |
| C11 | C11_test_values | propext, Classical.choice, Quot.sound |
| C11 | C11_enforce | propext, Quot.sound |
| C11 | C11_enforce_missing | propext, Quot.sound |
| C11 | C11_client_accept | propext, Classical.choice, Quot.sound |
| C11 | C11_client_values | propext, Classical.choice, Quot.sound |
| C11 | C11_circuit_accept | propext, Classical.choice, Quot.sound |
| C12 | C12_same_calls | propext, Quot.sound |
| C12 | C12_setup_no_values | propext, Quot.sound |
| C12 | C12_structure_independent | propext, Classical.choice, Quot.sound |
| C12 | C12_witness_independent | propext, Classical.choice, Quot.sound |
| C12 | C12_gadgets | propext, Classical.choice, Quot.sound |
| C12 | C12_setup_follows_proving | propext, Classical.choice, Quot.sound |
| C12 | C12_circuit | propext, Classical.choice, Quot.sound |
| C12 | C12_wide_decomposition_panics | propext, Classical.choice, Quot.sound |
| C13 | C13_indices_distinct | propext, Quot.sound |
| C13 | C13_alloc_fresh | propext, Classical.choice, Quot.sound |
| C13 | C13_client_allocated | propext, Classical.choice, Quot.sound |
| C14 | C14_sound | propext, Classical.choice, Quot.sound |
| C14 | C14_unique | propext, Classical.choice, Quot.sound |
| C14 | C14_complete | propext, Classical.choice, Quot.sound |
| C14 | C14_succeeds_iff | propext, Classical.choice, Quot.sound |
| C14 | C14_const | propext, Classical.choice, Quot.sound |
| C14 | C14_panics | propext, Classical.choice, Quot.sound |
| C14 | C14_provable_iff | propext, Classical.choice, Quot.sound |
| C15 | C15_compare | propext, Classical.choice, Quot.sound |
| C15 | C15_truncates | propext, Classical.choice, Quot.sound |
| C15 | C15_complete | propext, Classical.choice, Quot.sound |
| C15 | C15_empty | propext, Classical.choice, Quot.sound |
| C16 | C16_canonical | propext, Classical.choice, Quot.sound |
| C16 | C16_digits_sum | propext, Classical.choice, Quot.sound |
| C16 | C16_complete | propext, Classical.choice, Quot.sound |
| C17 | C17_sum | propext, Classical.choice, Quot.sound |
| C17 | C17_panics_iff | propext, Classical.choice, Quot.sound |
| C17 | C17_inverse | propext, Classical.choice, Quot.sound |
| C17 | C17_inverse_strict | propext, Classical.choice, Quot.sound |
| C17 | C17_complete | propext, Classical.choice, Quot.sound |
| C18 | C18_select | propext, Classical.choice, Quot.sound |
| C18 | C18_complete | propext, Classical.choice, Quot.sound |
| C18 | C18_shapes | propext, Classical.choice, Quot.sound |
| C19 | C19_sound | propext, Classical.choice, Quot.sound |
| C19 | C19_complete | propext, Classical.choice, Quot.sound |
| C19 | C19_arity | propext, Classical.choice, Quot.sound |
| C20 | C20_native | propext, Classical.choice, Quot.sound |
| C20 | C20_sound | propext, Classical.choice, Quot.sound |
| C20 | C20_complete | propext, Classical.choice, Quot.sound |
| C20 | C20_arity | propext, Classical.choice, Quot.sound |
| C21 | C21_sound | propext, Classical.choice, Quot.sound |
| C21 | C21_complete | propext, Classical.choice, Quot.sound |
| C21 | C21_any_direction | propext, Classical.choice, Quot.sound |
| C22 | C22_sound | propext, Classical.choice, Quot.sound |
| C22 | C22_complete | propext, Classical.choice, Quot.sound |
| C23 | C23_root | propext, Classical.choice, Quot.sound |
| C23 | C23_height | propext, Classical.choice, Quot.sound |
| C23 | C23_proofs_verify | propext, Classical.choice, Quot.sound |
| C23 | C23_empty | propext, Quot.sound |
| C23 | C23_single | propext, Quot.sound |
| C24 | C24_panics_iff | propext, Classical.choice, Quot.sound |
| C24 | C24_zero_padding | propext, Classical.choice, Quot.sound |
| C25 | C25_in_curve | propext, Classical.choice, Quot.sound |
| C25 | C25_affine_in_curve | propext, Quot.sound |
| C25 | C25_add | propext, Classical.choice, Quot.sound |
| C25 | C25_double | propext, Classical.choice, Quot.sound |
| C25 | C25_into_affine | propext, Classical.choice, Quot.sound |
| C25 | C25_eq | propext, Classical.choice, Quot.sound |
| C25 | C25_is_zero | propext, Classical.choice, Quot.sound |
| C25 | C25_affine_add | propext, Classical.choice, Quot.sound |
| C26 | C26_closed | propext, Classical.choice, Quot.sound |
| C26 | C26_comm | propext, Classical.choice, Quot.sound |
| C26 | C26_assoc | propext, Classical.choice, Quot.sound |
| C26 | C26_zero | propext, Classical.choice, Quot.sound |
| C26 | C26_negate | propext, Classical.choice, Quot.sound |
| C27 | C27_double | propext, Classical.choice, Quot.sound |
| C27 | C27_cofactor | propext, Classical.choice, Quot.sound |
| C28 | C28_mul | propext, Classical.choice, Quot.sound |
| C28 | C28_mul_raw | propext, Classical.choice, Quot.sound |
| C28 | C28_add_scalars | propext, Classical.choice, Quot.sound |
| C28 | C28_mul_scalars | propext, Classical.choice, Quot.sound |
| C28 | C28_add_points | propext, Classical.choice, Quot.sound |
| C28 | C28_is_in_subgroup | propext, Classical.choice, Quot.sound |
| C29 | C29_into_montgomery | propext, Classical.choice, Quot.sound |
| C29 | C29_round_trip | propext, Classical.choice, Quot.sound |
| C29 | C29_from_montgomery | propext, Classical.choice, Quot.sound |
| C29 | C29_extended | propext, Classical.choice, Quot.sound |
| C30 | C30_get_for_y | propext, Classical.choice, Quot.sound |
| C30 | C30_recovers | propext, Classical.choice, Quot.sound |
| C30 | C30_rand | propext, Classical.choice, Quot.sound |
| C31 | C31_subgroup_decompress | propext, Classical.choice, Quot.sound |
| C31 | C31_unique | propext, Classical.choice, Quot.sound |
| C31 | C31_round_trip | propext, Classical.choice, Quot.sound |
| C32 | C32_from_scalar | propext, Classical.choice, Quot.sound |
| C32 | C32_map | propext, Classical.choice, Quot.sound |
| C32 | C32_deterministic | propext, Classical.choice, Quot.sound |
| C32 | C32_panics | propext, Classical.choice, Quot.sound |
| C33 | C33_add_sound_partial | propext, Classical.choice, Quot.sound |
| C33 | C33_add_complete_partial | propext, Classical.choice, Quot.sound |
| C33 | C33_double_sound_partial | propext, Classical.choice, Quot.sound |
| C33 | C33_double_complete_partial | propext, Classical.choice, Quot.sound |
| C33 | C33_cofactor_sound_partial | propext, Classical.choice, Quot.sound |
| C33 | C33_cofactor_complete_partial | propext, Classical.choice, Quot.sound |
| C33 | C33_refuted | propext, Classical.choice, Quot.sound |
| C33 | C33_add_constant_sound_partial | propext, Classical.choice, Quot.sound |
| C33 | C33_add_constant_complete_partial | propext, Classical.choice, Quot.sound |
| C33 | C33_independent_partial | propext, Classical.choice, Quot.sound |
| C33 | C33_add_constants | propext, Classical.choice, Quot.sound |
| C33 | C33_double_constant | propext, Classical.choice, Quot.sound |
| C34 | C34_sound | propext, Classical.choice, Quot.sound |
| C34 | C34_complete | propext, Classical.choice, Quot.sound |
| C34 | C34_succeeds_iff | propext, Classical.choice, Quot.sound |
| C34 | C34_provable_iff | propext, Classical.choice, Quot.sound |
| C35 | C35_sound | propext, Classical.choice, Quot.sound |
| C35 | C35_complete | propext, Classical.choice, Quot.sound |
| C35 | C35_succeeds_iff | propext, Classical.choice, Quot.sound |
| C35 | C35_provable_iff | propext, Classical.choice, Quot.sound |
| C36 | C36_sound | propext, Classical.choice, Quot.sound |
| C36 | C36_unsatisfiable | propext, Classical.choice, Quot.sound |
| C36 | C36_complete | propext, Classical.choice, Quot.sound |
| C36 | C36_succeeds_iff | propext, Classical.choice, Quot.sound |
| C36 | C36_provable_iff | propext, Classical.choice, Quot.sound |
| C37 | C37_condition | propext, Classical.choice, Quot.sound |
| C37 | C37_add_sound | propext, Classical.choice, Quot.sound |
| C37 | C37_add_complete | propext, Classical.choice, Quot.sound |
| C37 | C37_double_sound | propext, Classical.choice, Quot.sound |
| C37 | C37_double_complete | propext, Classical.choice, Quot.sound |
| C37 | C37_into_edwards_sound | propext, Classical.choice, Quot.sound |
| C37 | C37_into_edwards_complete | propext, Classical.choice, Quot.sound |
| C37 | C37_into_montgomery_sound | propext, Classical.choice, Quot.sound |
| C37 | C37_into_montgomery_complete | propext, Classical.choice, Quot.sound |
| C37 | C37_subgroup_ok | propext, Classical.choice, Quot.sound |
| C38 | C38_sound | propext, Classical.choice, Quot.sound |
| C38 | C38_complete | propext, Classical.choice, Quot.sound |
| C38 | C38_plain | propext, Classical.choice, Quot.sound |
| C38 | C38_panics | propext, Classical.choice, Quot.sound |
| C39 | C39_refuted | propext, Classical.choice, Quot.sound |
| C39 | C39_sound_partial | propext, Classical.choice, Quot.sound |
| C39 | C39_complete_partial | propext, Classical.choice, Quot.sound |
| C39 | C39_scalar_sound | propext, Classical.choice, Quot.sound |
| C39 | C39_scalar_complete | propext, Classical.choice, Quot.sound |
| C39 | C39_window_sound_partial | propext, Classical.choice, Quot.sound |
| C39 | C39_window_complete_partial | propext, Classical.choice, Quot.sound |
| C39 | C39_four_sound_partial | propext, Classical.choice, Quot.sound |
| C39 | C39_four_complete_partial | propext, Classical.choice, Quot.sound |
| C39 | C39_one_bit_sound_partial | propext, Classical.choice, Quot.sound |
| C39 | C39_one_bit_complete_partial | propext, Classical.choice, Quot.sound |
| C39 | C39_no_bits | propext, Classical.choice, Quot.sound |
| C40 | C40_sound_partial | propext, Classical.choice, Quot.sound |
| C40 | C40_complete_partial | propext, Classical.choice, Quot.sound |
| C40 | C40_constant_sound_partial | propext, Classical.choice, Quot.sound |
| C40 | C40_constant_complete_partial | propext, Classical.choice, Quot.sound |
| C40 | C40_refuted | propext, Classical.choice, Quot.sound |
| C40 | C40_constant_exact | propext, Classical.choice, Quot.sound |
| C41 | C41_sign_verifies | propext, Classical.choice, Quot.sound |
| C42 | C42_verify_iff | propext, Classical.choice, Quot.sound |
| C42 | C42_unique_s | propext, Classical.choice, Quot.sound |
| C43 | C43_sound | propext, Classical.choice, Quot.sound |
| C43 | C43_unsatisfiable | propext, Classical.choice, Quot.sound |
| C43 | C43_complete | propext, Classical.choice, Quot.sound |
| C43 | C43_accepts_unreduced | propext, Classical.choice, Quot.sound |
| C44 | C44_bn256 | propext, Classical.choice, Quot.sound |
| C44 | C44_bls12_381 | propext, Classical.choice, Quot.sound |
| C44 | C44_coefficients | propext, Classical.choice, Quot.sound |
| C45 | C45_from_u64 | propext, Quot.sound |
| C45 | C45_from_u32 | propext, Classical.choice, Quot.sound |
| C45 | C45_from_signed_partial | propext, Classical.choice, Quot.sound |
| C45 | C45_from_i64_min | propext, Classical.choice, Quot.sound |
| C45 | C45_signed_refuted | propext, Classical.choice, Quot.sound |
| C45 | C45_i32_min_wrong | propext, Classical.choice, Quot.sound |
| C45 | C45_from_bool | propext, Quot.sound |
| C45 | C45_from_biguint | propext, Classical.choice, Quot.sound |
| C45 | C45_from_bigint | propext, Classical.choice, Quot.sound |
| C45 | C45_into_biguint | propext, Classical.choice, Quot.sound |
| C45 | C45_into_u64 | propext, Classical.choice, Quot.sound |
| C46 | C46_into_binary_be | propext, Classical.choice, Quot.sound |
| C46 | C46_from_binary_be | propext, Classical.choice, Quot.sound |
| C46 | C46_round_trip | propext, Classical.choice, Quot.sound |
| C46 | C46_unaligned_panics | propext, Classical.choice, Quot.sound |
| C47 | C47_residue | propext, Classical.choice, Quot.sound |
| C47 | C47_round_trip | propext, Classical.choice, Quot.sound |
| C48 | C48_iterbit | propext, Classical.choice, Quot.sound |
| C48 | C48_parity | propext, Classical.choice, Quot.sound |
| C49 | C49_round_trip | propext, Classical.choice, Quot.sound |
| C49 | C49_unique | propext, Classical.choice, Quot.sound |
| C49 | C49_rejects | propext, Classical.choice, Quot.sound |
| C50 | C50_round_trip | propext, Classical.choice, Quot.sound |
| C50 | C50_accepts | propext, Classical.choice, Quot.sound |
| C50 | C50_never_reduces | propext, Classical.choice, Quot.sound |
| C51 | C51_buffer | propext, Classical.choice, Quot.sound |
| C51 | C51_read_iff | propext, Classical.choice, Quot.sound |
| C51 | C51_round_trip | propext, Classical.choice, Quot.sound |
| C51 | C51_rejects | propext, Classical.choice, Quot.sound |
| C52 | C52_bls_g1_generator | propext, Classical.choice, Quot.sound |
| C52 | C52_bls_g2_generator | propext, Classical.choice, Quot.sound |
| C52 | C52_bls_outside | propext, Classical.choice, Quot.sound |
| C52 | C52_g1_into | propext, Quot.sound |
| C52 | C52_g1_panics | propext, Quot.sound |
| C52 | C52_g1_into_point | propext, Quot.sound |
| C52 | C52_g1_from | propext, Quot.sound |
| C52 | C52_g1_round_trip | propext, Quot.sound |
| C52 | C52_g1_data_round_trip | propext, Quot.sound |
| C52 | C52_g2_into | propext, Quot.sound |
| C52 | C52_g2_panics | propext, Quot.sound |
| C52 | C52_g2_into_point | propext, Quot.sound |
| C52 | C52_g2_from | propext, Quot.sound |
| C52 | C52_g2_round_trip | propext, Quot.sound |
| C52 | C52_g2_data_round_trip | propext, Quot.sound |
| C52 | C52_imaginary_first | propext, Quot.sound |
| C52 | C52_g1_subgroup | propext, Classical.choice, Quot.sound |
| C52 | C52_g1_subgroup_panics | propext, Classical.choice, Quot.sound |
| C52 | C52_g1_subgroup_round_trip | propext, Classical.choice, Quot.sound |
| C52 | C52_g2_subgroup | propext, Classical.choice, Quot.sound |
| C52 | C52_g2_subgroup_panics | propext, Classical.choice, Quot.sound |
| C52 | C52_g2_subgroup_round_trip | propext, Classical.choice, Quot.sound |
| C52 | C52_constants | propext, Classical.choice, Quot.sound |
| C52 | C52_constants_twist | propext, Classical.choice, Quot.sound |
| C52 | C52_proof_round_trip | propext, Quot.sound |
| C52 | C52_vk_round_trip | propext, Quot.sound |
| C52 | C52_proof_data | propext, Quot.sound |
| C52 | C52_vk_data | propext, Quot.sound |
| C52 | C52_proof_subgroup_round_trip | propext, Classical.choice, Quot.sound |
| C52 | C52_vk_subgroup_round_trip | propext, Classical.choice, Quot.sound |
| C53 | C53_g1 | propext, Classical.choice, Quot.sound |
| C53 | C53_g2 | propext, Classical.choice, Quot.sound |
| C53 | C53_proof | propext, Classical.choice, Quot.sound |
| C53 | C53_vk | propext, Classical.choice, Quot.sound |
| C53 | C53_point_layout | propext, Classical.choice, Quot.sound |
| C53 | C53_proof_layout | propext, Classical.choice, Quot.sound |
| C53 | C53_vk_layout | propext, Classical.choice, Quot.sound |
| C54 | C54_read | propext, Classical.choice, Quot.sound |
| C54 | C54_round_trip | propext, Classical.choice, Quot.sound |
| C54 | C54_rejects_infinity | propext, Classical.choice, Quot.sound |
| C54 | C54_write_infinity | propext, Classical.choice, Quot.sound |
| C54 | C54_canonical | propext, Classical.choice, Quot.sound |
| C55 | C55_error | propext, Quot.sound |
| C55 | C55_accepts | propext, Quot.sound |
| C55 | C55_rejects | propext, Quot.sound |
| C56 | C56_contract | propext, Classical.choice, Quot.sound |
| C56 | C56_no_ic | propext, Classical.choice, Quot.sound |
| C56 | C56_no_ic_unchecked | propext, Classical.choice, Quot.sound |
| C56 | C56_no_marker | propext, Classical.choice, Quot.sound |
| C57 | C57_refuted | none |
| C57 | C57_collect_partial | propext, Quot.sound |
| C57 | C57_alloc_lengths | propext, Classical.choice, Quot.sound |
| C58 | C58_client_sound | propext, Classical.choice, Quot.sound |
| C58 | C58_linearize | propext, Classical.choice, Quot.sound |
| C58 | C58_inputize_sound | propext, Classical.choice, Quot.sound |
| C58 | C58_inputize_complete | propext, Classical.choice, Quot.sound |
| C58 | C58_circuit_sound | propext, Classical.choice, Quot.sound |
| C58 | C58_circuit_get_inputs | propext, Classical.choice, Quot.sound |
| C59 | C59_stream | propext, Classical.choice, Quot.sound |
| C59 | C59_stream_salted | propext, Classical.choice, Quot.sound |
| C59 | C59_range | propext, Quot.sound |
| C60 | C60_shape | propext, Classical.choice, Quot.sound |
| C60 | C60_no_panic | propext, Classical.choice, Quot.sound |
| C61 | C61_bits_count | propext, Classical.choice, Quot.sound |
| C61 | C61_poseidon_count | propext, Classical.choice, Quot.sound |
| C61 | C61_merkle_count | propext, Classical.choice, Quot.sound |
| C61 | C61_isZero_count | propext, Classical.choice, Quot.sound |
| C61 | C61_poseidon_shape | propext, Classical.choice, Quot.sound |
| C61 | C61_call_count | propext, Classical.choice, Quot.sound |
| C61 | C61_call_shape | propext, Classical.choice, Quot.sound |
| C62 | C62_get_value_exact | propext, Classical.choice, Quot.sound |
| C62 | C62_as_const_exact | propext, Classical.choice, Quot.sound |
| C62 | C62_no_vectors | propext, Classical.choice, Quot.sound |
| C62 | C62_refuted | propext, Classical.choice, Quot.sound |
| C62 | C62_getValue_partial | propext, Classical.choice, Quot.sound |
| C62 | C62_alloc_getValue | propext, Classical.choice, Quot.sound |
| C62 | C62_fromConst | propext, Classical.choice, Quot.sound |
| C63 | C63_from_str_decimal | propext, Classical.choice, Quot.sound |
| C63 | C63_from_str_panics | propext, Classical.choice, Quot.sound |
| C64 | C64_hades | propext, Classical.choice, Quot.sound |
| C65 | C65_parameters | propext, Classical.choice, Quot.sound |
| C65 | C65_deterministic | propext, Classical.choice, Quot.sound |
| C65 | C65_salts_distinct | propext, Classical.choice, Quot.sound |
| C66 | C66_returns | propext, Classical.choice, Quot.sound |
| C66 | C66_unique | propext, Classical.choice, Quot.sound |
| C66 | C66_accepts | propext, Classical.choice, Quot.sound |
| C66 | C66_memory | propext, Classical.choice, Quot.sound |
| C66 | C66_proof_element | propext, Classical.choice, Quot.sound |
| C66 | C66_contract_then_library | propext, Classical.choice, Quot.sound |
| C66 | C66_library_then_contract | propext, Classical.choice, Quot.sound |
| C66 | C66_outside_subgroup | propext, Classical.choice, Quot.sound |
| C67 | C67_accepts | propext, Classical.choice, Quot.sound |
| C67 | C67_accepts_public | propext, Classical.choice, Quot.sound |
| C67 | C67_rejects | propext, Classical.choice, Quot.sound |
| C67 | C67_unconstrained | propext, Classical.choice, Quot.sound |
| C68 | C68_hides | propext, Classical.choice, Quot.sound |
| C68 | C68_simulator | propext, Classical.choice, Quot.sound |
| C68 | C68_simulated_accepted | propext, Classical.choice, Quot.sound |
| C69 | C69_bound_to_inputs | propext, Classical.choice, Quot.sound |
| C70 | C70_test_iff_prove | propext, Classical.choice, Quot.sound |
| C70 | C70_same_values | propext, Classical.choice, Quot.sound |
| C70 | C70_circuit_iff | propext, Classical.choice, Quot.sound |
| C70 | C70_passed_test_gives_proof | propext, Classical.choice, Quot.sound |
| C70 | C70_failed_test_gives_no_proof | propext, Classical.choice, Quot.sound |
| C71 | C71_exact_partial | propext, Classical.choice, Quot.sound |
| C71 | C71_public_partial | propext, Classical.choice, Quot.sound |
| C71 | C71_refuted | propext, Classical.choice, Quot.sound |
| C72 | C72_base64_encode | propext, Classical.choice, Quot.sound |
| C72 | C72_base64_decode | propext, Classical.choice, Quot.sound |
| C72 | C72_base64_round_trip | propext, Classical.choice, Quot.sound |
| C73 | C73_vk | propext, Classical.choice, Quot.sound |
| C73 | C73_proof | propext, Classical.choice, Quot.sound |
| C73 | C73_inputs | propext, Classical.choice, Quot.sound |
| C73 | C73_object | propext, Classical.choice, Quot.sound |
| C73 | C73_too_deep | propext, Classical.choice, Quot.sound |
| C74 | C74_params_read | propext, Classical.choice, Quot.sound |
| C74 | C74_params_round_trip | propext, Classical.choice, Quot.sound |
| C74 | C74_params_no_infinity | propext, Classical.choice, Quot.sound |
| C74 | C74_proof_read | propext, Quot.sound |
| C74 | C74_proof_round_trip | propext, Quot.sound |
| C74 | C74_proof_infinity | propext, Classical.choice, Quot.sound |
| C74 | C74_params_infinity | propext, Classical.choice, Quot.sound |
| C75 | C75_refuted | propext, Classical.choice, Quot.sound |
| C75 | C75_partial | propext, Classical.choice, Quot.sound |
| C76 | C76_setup_ethereum | propext, Classical.choice, Quot.sound |
| C76 | C76_setup_text | propext, Classical.choice, Quot.sound |
| C76 | C76_setup_calm | propext, Classical.choice, Quot.sound |
| C76 | C76_test_data | propext, Classical.choice, Quot.sound |
| C76 | C76_test_data_calm | propext, Classical.choice, Quot.sound |
| C76 | C76_prove | propext, Classical.choice, Quot.sound |
| C76 | C76_prove_calm | propext, Classical.choice, Quot.sound |
| C77 | C77_verify | propext, Classical.choice, Quot.sound |
| C77 | C77_true | propext, Classical.choice, Quot.sound |
| C77 | C77_panics | propext, Classical.choice, Quot.sound |
| C78 | C78_ethereum_format | propext, Classical.choice, Quot.sound |
| C78 | C78_near_format | propext, Classical.choice, Quot.sound |
| C78 | C78_waves_format | propext, Classical.choice, Quot.sound |
| C78 | C78_true | propext, Classical.choice, Quot.sound |
| C78 | C78_false | propext, Classical.choice, Quot.sound |
| C78 | C78_bn256_coords | propext, Classical.choice, Quot.sound |
| C79 | C79_parameters | propext, Classical.choice, Quot.sound |
| C79 | C79_proof | propext, Classical.choice, Quot.sound |
| C80 | C80_same | propext, Classical.choice, Quot.sound |
| C80 | C80_assertEq_iff | propext, Classical.choice, Quot.sound |
| C80 | C80_isEq_sound | propext, Classical.choice, Quot.sound |
| C80 | C80_switch_sound | propext, Classical.choice, Quot.sound |
| C80 | C80_linearize | propext, Classical.choice, Quot.sound |
| C81 | C81_refuted | propext, Quot.sound |
| C81 | C81_refuted_tuple_field | propext, Quot.sound |
| C81 | C81_accepted_partial | propext, Classical.choice, Quot.sound |
| C81 | C81_output_partial | propext, Quot.sound |
| C82 | C82_uniform | propext, Classical.choice, Quot.sound |
| C82 | C82_proof_coins | propext, Classical.choice, Quot.sound |
| C82 | C82_setup_coins | propext, Classical.choice, Quot.sound |
| C82 | C82_counts | propext, Classical.choice, Quot.sound |
| C82 | C82_setup | propext, Classical.choice, Quot.sound |
| C82 | C82_hides | propext, Classical.choice, Quot.sound |
| C82 | C82_soon | propext, Classical.choice, Quot.sound |
| C83 | C83_num | propext, Quot.sound |
| C83 | C83_num_div | propext, Classical.choice, Quot.sound |
| C83 | C83_num_named | propext, Quot.sound |
| C83 | C83_add | propext, Classical.choice, Quot.sound |
| C83 | C83_forms | propext, Quot.sound |
| C83 | C83_mul_div | propext, Classical.choice, Quot.sound |
| C83 | C83_sub_neg | propext, Classical.choice, Quot.sound |
| C84 | C84_knowledge | propext, Classical.choice, Quot.sound |
| C84 | C84_adaptive | propext, Classical.choice, Quot.sound |
| C84 | C84_adaptive_count | propext, Classical.choice, Quot.sound |
| C84 | C84_sound | propext, Classical.choice, Quot.sound |
| C84 | C84_honest | propext, Classical.choice, Quot.sound |
| C84 | C84_malleable | propext, Classical.choice, Quot.sound |
| C84 | C84_entropy | propext, Classical.choice, Quot.sound |
| C85 | C85_accepts | propext, Classical.choice, Quot.sound |
| C85 | C85_rejects | propext, Classical.choice, Quot.sound |
| C86 | C86_keys | propext, Classical.choice, Quot.sound |
| C86 | C86_setup | propext, Classical.choice, Quot.sound |
| C86 | C86_accepts | propext, Classical.choice, Quot.sound |
| C86 | C86_knowledge | propext, Classical.choice, Quot.sound |
| C86 | C86_sound | propext, Classical.choice, Quot.sound |
| C87 | C87_knowledge | propext, Classical.choice, Quot.sound |
| C87 | C87_sound | propext, Classical.choice, Quot.sound |
| C88 | C88_keys | propext, Classical.choice, Quot.sound |
| C88 | C88_keys_handwritten | propext, Classical.choice, Quot.sound |
| C88 | C88_needed | propext, Classical.choice, Quot.sound |
| C89 | C89_forgery | propext, Classical.choice, Quot.sound |
| C89 | C89_asserted_partial | propext, Classical.choice, Quot.sound |
| C89 | C89_complete | propext, Classical.choice, Quot.sound |
| C89 | C89_forger | propext, Classical.choice, Quot.sound |
| C89 | C89_refuted | propext, Classical.choice, Quot.sound |
| C89 | C89_setup | propext, Classical.choice, Quot.sound |
| C89 | C89_chain | propext, Classical.choice, Quot.sound |
| C89 | C89_count | propext, Classical.choice, Quot.sound |
| C89 | C89_bn | propext, Classical.choice, Quot.sound |
| C89 | C89_bls | propext, Classical.choice, Quot.sound |
| C89 | C89_bn_security | propext, Classical.choice, Quot.sound |
| C89 | C89_bls_security | propext, Classical.choice, Quot.sound |
| C90 | C90_call | propext, Classical.choice, Quot.sound |
| C90 | C90_signal | propext, Classical.choice, Quot.sound |
| C90 | C90_program | propext, Classical.choice, Quot.sound |
| C90 | C90_handwritten | propext, Classical.choice, Quot.sound |
| C90 | C90_generated | propext, Classical.choice, Quot.sound |
| C90 | C90_keys_handwritten | propext, Classical.choice, Quot.sound |
| C91 | C91_text | propext, Classical.choice, Quot.sound |
| C91 | C91_unambiguous | propext, Classical.choice, Quot.sound |
| C91 | C91_numeral | propext, Classical.choice, Quot.sound |
| C91 | C91_vk | propext, Classical.choice, Quot.sound |
| C91 | C91_proof | propext, Classical.choice, Quot.sound |
| C91 | C91_inputs | propext, Classical.choice, Quot.sound |
| C91 | C91_object | propext, Classical.choice, Quot.sound |
| C92 | C92_poseidon | propext, Classical.choice, Quot.sound |
| C92 | C92_poseidon_constants | propext, Classical.choice, Quot.sound |
| C92 | C92_tree | propext, Classical.choice, Quot.sound |
| C92 | C92_tree_full | propext, Classical.choice, Quot.sound |
| C92 | C92_merkle | propext, Classical.choice, Quot.sound |
| C92 | C92_in_curve | propext, Classical.choice, Quot.sound |
| C92 | C92_in_subgroup | propext, Classical.choice, Quot.sound |
| C92 | C92_mul | propext, Classical.choice, Quot.sound |
| C92 | C92_mul_const | propext, Classical.choice, Quot.sound |
| C92 | C92_decompress | propext, Classical.choice, Quot.sound |
| C92 | C92_bits | propext, Classical.choice, Quot.sound |
| C92 | C92_strict | propext, Classical.choice, Quot.sound |
| C92 | C92_eddsa | propext, Classical.choice, Quot.sound |
| C92 | C92_readme_poseidon | propext, Classical.choice, Quot.sound |
| C92 | C92_readme_merkle | propext, Classical.choice, Quot.sound |
| C92 | C92_readme_decompress | propext, Classical.choice, Quot.sound |
| C92 | C92_readme_mul_const | propext, Classical.choice, Quot.sound |
| C92 | C92_readme_mul | propext, Classical.choice, Quot.sound |
| C92 | C92_readme_eddsa | propext, Classical.choice, Quot.sound |
| C92 | C92_bls_eddsa | propext, Classical.choice, Quot.sound |
| C93 | C93_balanced | propext, Classical.choice, Quot.sound |
| C93 | C93_bn | propext, Classical.choice, Quot.sound |
| C93 | C93_bls | propext, Classical.choice, Quot.sound |
| C93 | C93_exist | propext, Classical.choice, Quot.sound |
| C94 | C94_knowledge | propext, Classical.choice, Quot.sound |
| C94 | C94_sound | propext, Classical.choice, Quot.sound |
| C94 | C94_accepts | propext, Classical.choice, Quot.sound |
| C94 | C94_setup | propext, Classical.choice, Quot.sound |
| C94 | C94_chain | propext, Classical.choice, Quot.sound |
| C94 | C94_count | propext, Classical.choice, Quot.sound |
| C94 | C94_bn | propext, Classical.choice, Quot.sound |
| C94 | C94_bls | propext, Classical.choice, Quot.sound |
| C94 | C94_bn_security | propext, Classical.choice, Quot.sound |
| C94 | C94_bls_security | propext, Classical.choice, Quot.sound |
| C95 | C95_call | propext, Classical.choice, Quot.sound |
| C95 | C95_program | propext, Classical.choice, Quot.sound |
| C95 | C95_generated | propext, Classical.choice, Quot.sound |
| C95 | C95_handwritten | propext, Classical.choice, Quot.sound |
| C95 | C94_bn_security | propext, Classical.choice, Quot.sound |
| C95 | C94_bls_security | propext, Classical.choice, Quot.sound |
| C95 | C89_bn_security | propext, Classical.choice, Quot.sound |
| C95 | C89_bls_security | propext, Classical.choice, Quot.sound |
| C96 | C96_proofs | propext, Classical.choice, Quot.sound |
| C96 | C96_membership | propext, Classical.choice, Quot.sound |
| C96 | C96_trees | propext, Classical.choice, Quot.sound |
| C96 | C96_trailing_zeros | propext, Classical.choice, Quot.sound |
| C96 | C96_height | propext, Classical.choice, Quot.sound |
| C97 | C97_public_keys | propext, Classical.choice, Quot.sound |
| C97 | C97_extract | propext, Classical.choice, Quot.sound |
| C97 | C97_key_recovered | propext, Classical.choice, Quot.sound |
| C97 | C97_nonces | propext, Classical.choice, Quot.sound |
| C98 | C98_negated | propext, Quot.sound |
| C98 | C98_rerandomised | propext, Classical.choice, Quot.sound |
| C98 | C98_different | propext, Classical.choice, Quot.sound |
| C98 | C98_like_fresh | propext, Classical.choice, Quot.sound |
| C99 | C99_call | propext, Classical.choice, Quot.sound |
| C99 | C99_program | propext, Classical.choice, Quot.sound |
| C99 | C99_handwritten | propext, Classical.choice, Quot.sound |
| C99 | C99_generated | propext, Classical.choice, Quot.sound |
| C99 | C99_signal | propext, Classical.choice, Quot.sound |
| C99 | C99_preimage | propext, Classical.choice, Quot.sound |
| C99 | C99_member | propext, Classical.choice, Quot.sound |
| C99 | C99_div_free | propext, Classical.choice, Quot.sound |
| C99 | C99_isZero_free | propext, Classical.choice, Quot.sound |
| C99 | C99_subgroup_free | propext, Classical.choice, Quot.sound |
| C99 | C99_subgroup_two | propext, Classical.choice, Quot.sound |
| C100 | C100_program | propext, Classical.choice, Quot.sound |
| C100 | C100_values | propext, Classical.choice, Quot.sound |
| C100 | C100_circuit | propext, Classical.choice, Quot.sound |
| C100 | C100_macros | propext, Classical.choice, Quot.sound |
| C100 | C100_knowledge | propext, Classical.choice, Quot.sound |
| C100 | C100_witness | propext, Classical.choice, Quot.sound |
| C100 | C100_proof | propext, Classical.choice, Quot.sound |
| C100 | C100_membership | propext, Classical.choice, Quot.sound |
| C101 | C101_form | propext, Classical.choice, Quot.sound |
| C101 | C101_count | propext, Classical.choice, Quot.sound |
| C101 | C101_other_message | propext, Classical.choice, Quot.sound |
| C101 | C101_other_key | propext, Classical.choice, Quot.sound |
| C101 | C101_zero_key | propext, Classical.choice, Quot.sound |
| C101 | C101_zero_nonce | propext, Classical.choice, Quot.sound |
| C102 | C102_replace | propext, Classical.choice, Quot.sound |
| C102 | C102_append | propext, Classical.choice, Quot.sound |
| C102 | C102_any_proof | propext, Classical.choice, Quot.sound |
| C102 | C102_two_roots | propext, Classical.choice, Quot.sound |
| C102 | C102_circuit | propext, Classical.choice, Quot.sound |
| C102 | C102_accepted | propext, Classical.choice, Quot.sound |
| C103 | C103_order | propext, Classical.choice, Quot.sound |
| C103 | C103_subgroup_order | propext, Classical.choice, Quot.sound |
| C103 | C103_get_for_y | propext, Classical.choice, Quot.sound |
| C103 | C103_get_for_y_none | propext, Classical.choice, Quot.sound |
| C103 | C103_rand | propext, Classical.choice, Quot.sound |
| C103 | C103_from_scalar_pairs | propext, Classical.choice, Quot.sound |
| C103 | C103_from_scalar | propext, Classical.choice, Quot.sound |
| C104 | C104_erasure | propext, Classical.choice, Quot.sound |
| C104 | C104_reveals | propext, Classical.choice, Quot.sound |
| C104 | C104_refuted | propext, Classical.choice, Quot.sound |
| C104 | C104_count_partial | propext, Classical.choice, Quot.sound |
| C104 | C104_sign_partial | propext, Classical.choice, Quot.sound |
| C104 | C104_sign_reveals | propext, Classical.choice, Quot.sound |
| C105 | C105_isolated | propext, Classical.choice, Quot.sound |
| C105 | C105_noninterference | propext, Classical.choice, Quot.sound |
| C105 | C105_untouched | propext, Classical.choice, Quot.sound |
| C105 | C105_finishes | propext, Classical.choice, Quot.sound |
| C105 | C105_setup | propext, Classical.choice, Quot.sound |
| C105 | C105_write | propext, Quot.sound |
| C105 | C105_two_setups | propext, Classical.choice, Quot.sound |
| C105 | C105_two_setups_text | propext, Classical.choice, Quot.sound |
| C105 | C105_verdict | propext, Classical.choice, Quot.sound |
| C106 | C106_entropy | propext, Classical.choice, Quot.sound |
| C106 | C106_ethereum_format | propext, Classical.choice, Quot.sound |
| C106 | C106_near_format | propext, Classical.choice, Quot.sound |
| C106 | C106_waves_format | propext, Classical.choice, Quot.sound |
| C106 | C106_verdict | propext, Classical.choice, Quot.sound |
| C106 | C106_native | propext, Classical.choice, Quot.sound |
| C106 | C106_factors | propext, Classical.choice, Quot.sound |
| C107 | C107_files | propext, Quot.sound |
| C107 | C107_names | propext |
| C107 | C107_unambiguous | propext, Quot.sound |
| C107 | C107_runs | propext, Classical.choice, Quot.sound |
| C107 | C107_message | propext, Classical.choice, Quot.sound |
| C107 | C107_touches | propext, Classical.choice, Quot.sound |
| C107 | C107_defaults | propext, Quot.sound |
| C107 | C107_session | propext, Classical.choice, Quot.sound |
| C107 | C107_same_path | propext, Classical.choice, Quot.sound |
| C107 | C107_same_path_prove | propext, Classical.choice, Quot.sound |
| C108 | C108_call | propext, Classical.choice, Quot.sound |
| C108 | C108_interleave | propext, Classical.choice, Quot.sound |
| C108 | C108_panic | propext, Classical.choice, Quot.sound |
| C108 | C108_order | propext, Classical.choice, Quot.sound |
| C108 | C108_finished | propext, Classical.choice, Quot.sound |
| C108 | C108_mixed | propext, Classical.choice, Quot.sound |
| C109 | C109_code | propext, Classical.choice, Quot.sound |
| C109 | C109_extract | propext, Classical.choice, Quot.sound |
| C109 | C109_no_panic | propext, Classical.choice, Quot.sound |
| C109 | C109_lazy | propext, Classical.choice, Quot.sound |
| C109 | C109_unforgeable | propext, Classical.choice, Quot.sound |
| C109 | C109_average | propext, Classical.choice, Quot.sound |
| C109 | C109_owner | propext, Classical.choice, Quot.sound |
| C109 | C109_shipped | propext, Classical.choice, Quot.sound |
| C110 | C110_bn256_g1 | propext, Classical.choice, Quot.sound |
| C110 | C110_bn256_g2 | propext, Classical.choice, Quot.sound |
| C110 | C110_bls12_381_g1 | propext, Classical.choice, Quot.sound |
| C110 | C110_bls12_381_g2 | propext, Classical.choice, Quot.sound |
| C110 | C110_ordinate | propext, Classical.choice, Quot.sound |
| C110 | C110_bn256_raw | propext, Classical.choice, Quot.sound |
| C110 | C110_bls12_381_raw | propext, Classical.choice, Quot.sound |
| C110 | C110_bn256_unchecked | propext, Classical.choice, Quot.sound |
| C110 | C110_bls12_381_unchecked | propext, Classical.choice, Quot.sound |
| C110 | C110_bn256_unchecked_g2 | propext, Classical.choice, Quot.sound |
| C110 | C110_bls12_381_unchecked_g2 | propext, Classical.choice, Quot.sound |
| C110 | C110_bn256_keys | propext, Classical.choice, Quot.sound |
| C110 | C110_bls12_381_keys | propext, Classical.choice, Quot.sound |
| C110 | C110_raw_lawful | propext, Classical.choice, Quot.sound |
| C110 | C110_bls12_381_params | propext, Classical.choice, Quot.sound |
| C110 | C110_bn256_params | propext, Classical.choice, Quot.sound |
| C111 | C111_bls_possible_g1 | propext, Classical.choice, Quot.sound |
| C111 | C111_bls_possible_g2 | propext, Classical.choice, Quot.sound |
| C111 | C111_bls_setup_possible | propext, Classical.choice, Quot.sound |
| C111 | C111_bls_unlucky | propext, Classical.choice, Quot.sound |
| C111 | C111_bls_entropy | propext, Classical.choice, Quot.sound |
| C111 | C111_bls_command_line | propext, Classical.choice, Quot.sound |
| C111 | C111_bls_pairing | propext, Classical.choice, Quot.sound |
| C111 | C111_bls_g1_count | propext, Classical.choice, Quot.sound |
| C111 | C111_bls_g2_count | propext, Classical.choice, Quot.sound |
| C111 | C111_bls_random_g1 | propext, Classical.choice, Quot.sound |
| C111 | C111_bls_random_g2 | propext, Classical.choice, Quot.sound |
| C111 | C111_bls_uniform_g1 | propext, Classical.choice, Quot.sound |
| C111 | C111_bls_uniform_g2 | propext, Classical.choice, Quot.sound |
| C111 | C111_bls_setup_good | propext, Classical.choice, Quot.sound |
| C111 | C111_bls_setup | propext, Classical.choice, Quot.sound |
| C111 | C111_g1 | propext, Classical.choice, Quot.sound |
| C111 | C111_g1_into | propext, Classical.choice, Quot.sound |
| C111 | C111_g1_count | propext, Classical.choice, Quot.sound |
| C111 | C111_g2_count | propext, Classical.choice, Quot.sound |
| C111 | C111_g2_subgroup_count | propext, Classical.choice, Quot.sound |
| C111 | C111_random_g1 | propext, Classical.choice, Quot.sound |
| C111 | C111_random_g2 | propext, Classical.choice, Quot.sound |
| C111 | C111_uniform_g1 | propext, Classical.choice, Quot.sound |
| C111 | C111_uniform_g2 | propext, Classical.choice, Quot.sound |
| C111 | C111_setup_good | propext, Classical.choice, Quot.sound |
| C111 | C111_setup | propext, Classical.choice, Quot.sound |
| C111 | C111_possible_g1 | propext, Classical.choice, Quot.sound |
| C111 | C111_possible_g2 | propext, Classical.choice, Quot.sound |
| C111 | C111_setup_possible | propext, Classical.choice, Quot.sound |
| C111 | C111_unlucky | propext, Classical.choice, Quot.sound |
| C111 | C111_entropy | propext, Classical.choice, Quot.sound |
| C111 | C111_command_line | propext, Classical.choice, Quot.sound |
| C111 | C111_pairing | propext, Classical.choice, Quot.sound |
| C112 | C112_bls_draws | propext, Classical.choice, Quot.sound |
| C112 | C112_bls_true | propext, Classical.choice, Quot.sound |
| C112 | C112_bls_false | propext, Classical.choice, Quot.sound |
| C112 | C112_true | propext, Classical.choice, Quot.sound |
| C112 | C112_true_compressed | propext, Classical.choice, Quot.sound |
| C112 | C112_false | propext, Classical.choice, Quot.sound |
| C112 | C112_bn256_true | propext, Classical.choice, Quot.sound |
| C112 | C112_bn256_false | propext, Classical.choice, Quot.sound |
| C113 | C113_digest | propext, Quot.sound |
| C113 | C113_pieces | propext, Classical.choice, Quot.sound |
| C113 | C113_cuts | propext, Classical.choice, Quot.sound |
| C113 | C113_refused | propext, Quot.sound |
| C113 | C113_from_seed | propext, Classical.choice, Quot.sound |
| C113 | C113_from_seed_value | propext, Classical.choice, Quot.sound |
| C113 | C113_hash_r | propext, Classical.choice, Quot.sound |
| C113 | C113_seedbox | propext, Classical.choice, Quot.sound |
| C113 | C113_stream | propext, Classical.choice, Quot.sound |
| C114 | C114_bls_setup | propext, Classical.choice, Quot.sound |
| C114 | C114_bls_session | propext, Classical.choice, Quot.sound |
| C114 | C114_tonelli | propext, Classical.choice, Quot.sound |
| C114 | C114_legendre | propext, Classical.choice, Quot.sound |
| C114 | C114_bn256 | propext, Classical.choice, Quot.sound |
| C114 | C114_bls12_381 | propext, Classical.choice, Quot.sound |
| C114 | C114_base_fields | propext, Classical.choice, Quot.sound |
| C114 | C114_params | propext, Classical.choice, Quot.sound |
| C114 | C114_decompress | propext, Classical.choice, Quot.sound |
| C114 | C114_sign_verifies | propext, Classical.choice, Quot.sound |
| C114 | C114_bls12_381_uses | propext, Classical.choice, Quot.sound |
| C114 | C114_setup | propext, Classical.choice, Quot.sound |
| C114 | C114_session_true | propext, Classical.choice, Quot.sound |
| C114 | C114_session_false | propext, Classical.choice, Quot.sound |
| C115 | C115_unique | propext, Classical.choice, Quot.sound |
| C115 | C115_sums | propext, Classical.choice, Quot.sound |
| C115 | C115_products | propext, Classical.choice, Quot.sound |
| C115 | C115_inverse | propext, Classical.choice, Quot.sound |
| C115 | C115_repr | propext, Classical.choice, Quot.sound |
| C115 | C115_constants | propext, Classical.choice, Quot.sound |
| C115 | C115_no_overflow | propext, Quot.sound |
| C115 | C115_computation | propext, Classical.choice, Quot.sound |
| C115 | C115_seedbox | propext, Classical.choice, Quot.sound |
| C115 | C115_osrng | propext, Classical.choice, Quot.sound |
| C116 | C116_bls12_381_sqrt | propext, Classical.choice, Quot.sound |
| C116 | C116_bls12_381_sign_verifies | propext, Classical.choice, Quot.sound |
| C116 | C116_field | propext, Classical.choice, Quot.sound |
| C116 | C116_poseidon | propext, Classical.choice, Quot.sound |
| C116 | C116_params | propext, Classical.choice, Quot.sound |
| C116 | C116_points | propext, Classical.choice, Quot.sound |
| C116 | C116_extended | propext, Classical.choice, Quot.sound |
| C116 | C116_conversions | propext, Classical.choice, Quot.sound |
| C116 | C116_sqrt | propext, Classical.choice, Quot.sound |
| C116 | C116_eddsa | propext, Classical.choice, Quot.sound |
| C116 | C116_sign_verifies | propext, Classical.choice, Quot.sound |
| C117 | C117_bls12_381_eddsa | propext, Classical.choice, Quot.sound |
| C117 | C117_linear | propext, Classical.choice, Quot.sound |
| C117 | C117_signals | propext, Classical.choice, Quot.sound |
| C117 | C117_bits | propext, Classical.choice, Quot.sound |
| C117 | C117_poseidon | propext, Classical.choice, Quot.sound |
| C117 | C117_points | propext, Classical.choice, Quot.sound |
| C117 | C117_roots | propext, Classical.choice, Quot.sound |
| C117 | C117_eddsa | propext, Classical.choice, Quot.sound |
| C117 | C117_satisfied | propext, Classical.choice, Quot.sound |
| C118 | C118_ethereum | propext, Classical.choice, Quot.sound |
| C118 | C118_waves | propext, Classical.choice, Quot.sound |
| C118 | C118_near | propext, Classical.choice, Quot.sound |
| C118 | C118_object | propext, Classical.choice, Quot.sound |
| C118 | C118_setup | propext, Classical.choice, Quot.sound |
| C118 | C118_prove | propext, Classical.choice, Quot.sound |
| C118 | C118_test_data | propext, Classical.choice, Quot.sound |
| C118 | C118_bn256_exact | propext, Classical.choice, Quot.sound |
| C118 | C118_near_read | propext, Classical.choice, Quot.sound |
| C118 | C118_ethereum_read | propext, Classical.choice, Quot.sound |
| C118 | C118_waves_inputs_read | propext, Classical.choice, Quot.sound |
| C119 | C119_point_text | propext, Classical.choice, Quot.sound |
| C119 | C119_point_read | propext, Classical.choice, Quot.sound |
| C119 | C119_point_unchecked | propext, Classical.choice, Quot.sound |
| C119 | C119_merkle_text | propext, Classical.choice, Quot.sound |
| C119 | C119_merkle_read | propext, Classical.choice, Quot.sound |
| C119 | C119_merkle_unchecked | propext, Classical.choice, Quot.sound |
| C119 | C119_alloc | propext, Classical.choice, Quot.sound |
| C119 | C119_merkle_circuit | propext, Classical.choice, Quot.sound |
