'APS.C01_field_ring_ops' depends on axioms: [propext, Quot.sound]
'APS.C02_inverse' depends on axioms: [propext, Classical.choice, Quot.sound]
'APS.C02_inverse_degenerate' depends on axioms: [propext, Classical.choice, Quot.sound]
'APS.C02_div' depends on axioms: [propext, Classical.choice, Quot.sound]
'APS.C03_expInt' depends on axioms: [propext, Classical.choice, Quot.sound]
'APS.C03_exp_partial' depends on axioms: [propext, Classical.choice, Quot.sound]
'APS.C03_exp_actual' depends on axioms: [propext, Classical.choice, Quot.sound]
'APS.C03_exp_refuted' depends on axioms: [propext, Classical.choice, Quot.sound]
'APS.C04_affine_equal' depends on axioms: [propext, Classical.choice, Quot.sound]
'APS.C05_evalPoly' depends on axioms: [propext, Classical.choice, Quot.sound]
'APS.C05_scalarProduct' depends on axioms: [propext, Classical.choice, Quot.sound]
'APS.C06_rand_range' depends on axioms: [propext, Classical.choice, Quot.sound]
'APS.C06_rand_bn256' does not depend on any axioms
'APS.C07_dense_ring_ops' depends on axioms: [propext, Classical.choice, Quot.sound]
'APS.C07_linearCombine' depends on axioms: [propext, Classical.choice, Quot.sound]
'APS.C07_mulSimple' depends on axioms: [propext, Classical.choice, Quot.sound]
'APS.C08_div_partial' depends on axioms: [propext, Classical.choice, Quot.sound]
'APS.C08_div_zero_leading' depends on axioms: [propext, Classical.choice, Quot.sound]
'APS.C08_div_refuted' depends on axioms: [propext, Classical.choice, Quot.sound]
'APS.C09_domainPolynomial' depends on axioms: [propext, Classical.choice, Quot.sound]
'APS.C10_newPolZeroAt' depends on axioms: [propext, Classical.choice, Quot.sound]
'APS.C10_lagrange' depends on axioms: [propext, Classical.choice, Quot.sound]
'APS.C11_cache_transparent' depends on axioms: [propext, Quot.sound]
'APS.C12_transpose' depends on axioms: [propext, Classical.choice, Quot.sound]
'APS.C13_map_refinement' depends on axioms: [propext, Classical.choice, Quot.sound]
'APS.C13_remove_returns_value' depends on axioms: [propext, Classical.choice, Quot.sound]
'APS.C14_traversals' depends on axioms: [propext, Classical.choice, Quot.sound]
'APS.C15_no_zero_stored' depends on axioms: [propext, Classical.choice, Quot.sound]
'APS.C16_balance_terminates' depends on axioms: [propext, Classical.choice, Quot.sound]
'APS.C16_calls_return' depends on axioms: [propext, Classical.choice, Quot.sound]
'APS.C17_failed_remove_partial' depends on axioms: [propext, Classical.choice, Quot.sound]
'APS.C17_failed_remove_refuted' does not depend on any axioms
'APS.C18_insertNoOverwrite' depends on axioms: [propext, Classical.choice, Quot.sound]
'APS.C19_max_min' depends on axioms: [propext, Classical.choice, Quot.sound]
'APS.C19_toArray' depends on axioms: [propext, Classical.choice, Quot.sound]
'APS.C19_fromArray' depends on axioms: [propext, Classical.choice, Quot.sound]
'APS.C20_clone' depends on axioms: [propext, Classical.choice, Quot.sound]
'APS.C20_mul' depends on axioms: [propext, Classical.choice, Quot.sound]
'APS.C20_scalar' depends on axioms: [propext, Classical.choice, Quot.sound]
'APS.C20_add' depends on axioms: [propext, Classical.choice, Quot.sound]
'APS.C20_sub' depends on axioms: [propext, Classical.choice, Quot.sound]
'APS.C20_sum' depends on axioms: [propext, Classical.choice, Quot.sound]
'APS.C20_linearCombine' depends on axioms: [propext, Classical.choice, Quot.sound]
'APS.C20_denotation' depends on axioms: [propext, Classical.choice, Quot.sound]
'APS.C21_eval' depends on axioms: [propext, Classical.choice, Quot.sound]
'APS.C21_unreduced_point_crashes' depends on axioms: [propext, Quot.sound]
'APS.C22_div' depends on axioms: [propext, Classical.choice, Quot.sound]
'APS.C23_div_terminates_partial' depends on axioms: [propext, Classical.choice, Quot.sound]
'APS.C23_constant_divisor_refuted' depends on axioms: [propext, Quot.sound]
'APS.C23_zero_by_one_hangs' depends on axioms: [propext, Classical.choice, Quot.sound]
'APS.C24_interpolate' depends on axioms: [propext, Classical.choice, Quot.sound]
'APS.C25_transpose' depends on axioms: [propext, Classical.choice, Quot.sound]
'APS.C25_transpose_out_of_range' depends on axioms: [propext, Classical.choice, Quot.sound]
'APS.C26_scalarProduct' depends on axioms: [propext, Classical.choice, Quot.sound]
'APS.C26_not_reduced' depends on axioms: [propext, Classical.choice, Quot.sound]
'APS.C27_traversal_safe' depends on axioms: [propext, Classical.choice, Quot.sound]
'APS.C27_traversal_live' depends on axioms: [propext, Classical.choice, Quot.sound]
'APS.C27_combine_schedule_dependent' depends on axioms: [propext]
'APS.C28_add' depends on axioms: [propext, Classical.choice, Quot.sound]
'APS.C28_negate' depends on axioms: [propext, Quot.sound]
'APS.C28_mul' depends on axioms: [propext, Classical.choice, Quot.sound]
'APS.C28_mul_last' depends on axioms: [propext, Classical.choice, Quot.sound]
'APS.C28_invert' depends on axioms: [propext, Classical.choice, Quot.sound]
'APS.C28_gcd' depends on axioms: [propext, Quot.sound]
'APS.C28_readVar' depends on axioms: [propext, Classical.choice, Quot.sound]
'APS.C28_scale_noop' depends on axioms: [propext, Quot.sound]
'APS.C29_order_insensitive' depends on axioms: [propext, Quot.sound]
'APS.C29_commutative' depends on axioms: [propext]
'APS.C29_equality_dropped_refuted' depends on axioms: [propext, Classical.choice, Quot.sound]
'APS.C30_positions' depends on axioms: [propext, Classical.choice, Quot.sound]
'APS.C30_no_shadowing' depends on axioms: [propext, Classical.choice, Quot.sound]
'APS.C30_duplicate_publics_refuted' does not depend on any axioms
'APS.C31_dense' depends on axioms: [propext, Classical.choice, Quot.sound]
'APS.C31_sparse' depends on axioms: [propext, Classical.choice, Quot.sound]
'APS.C31_row_count' depends on axioms: [propext, Quot.sound]
'APS.C31_sparse_number_name_refuted' depends on axioms: [propext, Classical.choice, Quot.sound]
'APS.C32_agree' depends on axioms: [propext, Classical.choice, Quot.sound]
'APS.C33_witness_sound' depends on axioms: [propext, Classical.choice, Quot.sound]
'APS.C34_sparse_witness_sound' depends on axioms: [propext, Classical.choice, Quot.sound]
'APS.C35_witness_complete' depends on axioms: [propext, Classical.choice, Quot.sound]
'APS.C36_split_partial' depends on axioms: [propext, Classical.choice, Quot.sound]
'APS.C36_split_input' depends on axioms: [propext, Classical.choice, Quot.sound]
'APS.C36_multiple_refuted' depends on axioms: [propext, Classical.choice, Quot.sound]
'APS.C37_program_refuted' depends on axioms: [propext, Classical.choice, Quot.sound]
'APS.C37_every_prime_refuted' depends on axioms: [propext, Classical.choice, Quot.sound]
'APS.C37_unique_below_q_partial' depends on axioms: [propext, Classical.choice, Quot.sound]
'APS.C37_exists_partial' depends on axioms: [propext, Classical.choice, Quot.sound]
'APS.C38_sound' depends on axioms: [propext, Classical.choice, Quot.sound]
'APS.C38_complete' depends on axioms: [propext, Classical.choice, Quot.sound]
'APS.C38_rows_sound' depends on axioms: [propext, Classical.choice, Quot.sound]
'APS.C38_rows_complete' depends on axioms: [propext, Classical.choice, Quot.sound]
'APS.C38_rows_sound_sparse' depends on axioms: [propext, Classical.choice, Quot.sound]
'APS.C38_rows_complete_sparse' depends on axioms: [propext, Classical.choice, Quot.sound]
'APS.Alias.C39_clean' depends on axioms: [propext, Classical.choice, Quot.sound]
'APS.Alias.C39_calm' depends on axioms: [propext, Classical.choice, Quot.sound]
'APS.Alias.C39_calm_next' depends on axioms: [propext, Classical.choice, Quot.sound]
'APS.Alias.C39_compiles' depends on axioms: [propext, Classical.choice, Quot.sound]
'APS.Alias.C39_text_sound' depends on axioms: [propext, Classical.choice, Quot.sound]
'APS.Alias.C39_text_complete' depends on axioms: [propext, Classical.choice, Quot.sound]
'APS.Alias.C39_refuted' depends on axioms: [propext, Classical.choice, Quot.sound]
'APS.Alias.C39_refuted_package' depends on axioms: [propext, Classical.choice, Quot.sound]
'APS.Alias.C39_remedy' depends on axioms: [propext, Classical.choice, Quot.sound]
'APS.C40_zero_times_refuted' depends on axioms: [propext, Classical.choice, Quot.sound]
'APS.C40_div_zero_refuted' depends on axioms: [propext, Classical.choice, Quot.sound]
'APS.C40_mul_total_partial' depends on axioms: [propext, Classical.choice, Quot.sound]
'APS.C40_div_total_partial' depends on axioms: [propext, Classical.choice, Quot.sound]
'APS.C41_combine' depends on axioms: [propext, Classical.choice, Quot.sound]
'APS.C41_mismatch' depends on axioms: [propext]
'APS.C41_public_positions' depends on axioms: [propext, Classical.choice, Quot.sound]
'APS.LexProps.C42_exact' depends on axioms: [propext, Classical.choice, Quot.sound]
'APS.LexProps.C42_spells' depends on axioms: [propext, Classical.choice, Quot.sound]
'APS.LexProps.C42_supported' depends on axioms: [propext, Classical.choice, Quot.sound]
'APS.LexProps.C43_exact' depends on axioms: [propext, Classical.choice, Quot.sound]
'APS.LexProps.C43_no_panic' depends on axioms: [propext, Classical.choice, Quot.sound]
'APS.LexProps.C43_refuted' depends on axioms: [propext, Classical.choice, Quot.sound]
'APS.LexProps.C43_ordinary' depends on axioms: [propext, Classical.choice, Quot.sound]
'APS.Parse.C44_from_bracket' depends on axioms: [propext, Quot.sound]
'APS.Parse.C44_from_inside' depends on axioms: [propext, Quot.sound]
'APS.Parse.C44_shortest' depends on axioms: [propext, Quot.sound]
'APS.Parse.C44_not_closed' depends on axioms: [propext, Quot.sound]
'APS.Parse.C44_strip' depends on axioms: [propext, Classical.choice, Quot.sound]
'APS.Parse.C45_tree' depends on axioms: [propext, Classical.choice, Quot.sound]
'APS.Parse.C45_shows' depends on axioms: [propext, Classical.choice, Quot.sound]
'APS.Parse.C45_parenthesised' depends on axioms: [propext, Classical.choice, Quot.sound]
'APS.Parse.C45_chain' depends on axioms: [propext, Classical.choice, Quot.sound]
'APS.Parse.C45_refuted' depends on axioms: [propext, Classical.choice, Quot.sound]
'APS.Parse.C46_names' depends on axioms: [propext, Classical.choice, Quot.sound]
'APS.Parse.C46_unambiguous' depends on axioms: [propext, Classical.choice, Quot.sound]
'APS.LangSpec.C47_loop_partial' depends on axioms: [propext, Classical.choice, Quot.sound]
'APS.LangSpec.C47_loop_up_partial' depends on axioms: [propext, Classical.choice, Quot.sound]
'APS.Prog.C47_condition' depends on axioms: [propext, Classical.choice, Quot.sound]
'APS.Prog.C47_condition_literals' depends on axioms: [propext, Classical.choice, Quot.sound]
'APS.Prog.C47_dynamic' depends on axioms: [propext, Classical.choice, Quot.sound]
'APS.Prog.C47_gates_partial' depends on axioms: [propext, Classical.choice, Quot.sound]
'APS.Prog.C47_refuted' depends on axioms: [propext, Classical.choice, Quot.sound]
'APS.Prog.C48_nested' depends on axioms: [propext, Quot.sound]
'APS.Prog.C48_chain_partial' depends on axioms: [propext, Quot.sound]
'APS.Prog.C48_refuted' depends on axioms: [propext, Classical.choice, Quot.sound]
'APS.C49_divisible' depends on axioms: [propext, Classical.choice, Quot.sound]
'APS.C49_bn256' depends on axioms: [propext, Classical.choice, Quot.sound]
'APS.C50_bn256_in_place_refuted' depends on axioms: [propext, Classical.choice, Quot.sound]
'APS.C50_complete_partial' depends on axioms: [propext, Classical.choice, Quot.sound]
'APS.C50_in_place_addition_refuted' depends on axioms: [propext, Classical.choice, Quot.sound]
'APS.C50_bn256_partial' depends on axioms: [propext, Classical.choice, Quot.sound]
'APS.C51_exact' depends on axioms: [propext, Classical.choice, Quot.sound]
'APS.C51_verdict' depends on axioms: [propext, Classical.choice, Quot.sound]
'APS.C51_refuted' depends on axioms: [propext, Classical.choice, Quot.sound]
'APS.C51_half_refuted' depends on axioms: [propext, Classical.choice, Quot.sound]
'APS.C51_bn256_exact' depends on axioms: [propext, Classical.choice, Quot.sound]
'APS.C51_bn256_refuted' depends on axioms: [propext, Classical.choice, Quot.sound]
'APS.C52_length' depends on axioms: [propext, Classical.choice, Quot.sound]
'APS.C52_bound' depends on axioms: [propext, Classical.choice, Quot.sound]
'APS.C52_commitment' depends on axioms: [propext, Classical.choice, Quot.sound]
'APS.C53_forgery_refuted' depends on axioms: [propext, Classical.choice, Quot.sound]
'APS.C53_refuted' depends on axioms: [propext, Classical.choice, Quot.sound]
'APS.C53_bn256_refuted' depends on axioms: [propext, Classical.choice, Quot.sound]
'APS.C53_linear_prover_partial' depends on axioms: [propext, Classical.choice, Quot.sound]
'APS.C53_plain_partial' depends on axioms: [propext, Classical.choice, Quot.sound]
'APS.C53_bn256_linear_prover_partial' depends on axioms: [propext, Classical.choice, Quot.sound]
'APS.C53_bn256_plain_partial' depends on axioms: [propext, Classical.choice, Quot.sound]
'APS.C54_total_partial' depends on axioms: [propext, Classical.choice, Quot.sound]
'APS.C54_single_gate_refuted' depends on axioms: [propext, Classical.choice, Quot.sound]
'APS.C54_bn256_partial' depends on axioms: [propext, Classical.choice, Quot.sound]
'APS.C54_sparse_total' depends on axioms: [propext, Classical.choice, Quot.sound]
'APS.C55_exact' depends on axioms: [propext, Classical.choice, Quot.sound]
'APS.C55_same_size_partial' depends on axioms: [propext, Classical.choice, Quot.sound]
'APS.C55_refuted' depends on axioms: [propext, Classical.choice, Quot.sound]
'APS.C56_guess_refuted' depends on axioms: [propext, Classical.choice, Quot.sound]
'APS.C56_refuted' depends on axioms: [propext, Classical.choice, Quot.sound]
'APS.C57_tower_of_fields' depends on axioms: [propext, Classical.choice, Quot.sound]
'APS.C57_gfp2' depends on axioms: [propext, Classical.choice, Quot.sound]
'APS.C57_normalised' depends on axioms: [propext, Classical.choice, Quot.sound]
'APS.C57_tests' depends on axioms: [propext, Classical.choice, Quot.sound]
'APS.C57_isOne_accepts_minus_one' depends on axioms: [propext, Classical.choice, Quot.sound]
'APS.C58_gfp6' depends on axioms: [propext, Classical.choice, Quot.sound]
'APS.C58_basis' depends on axioms: [propext, Classical.choice, Quot.sound]
'APS.C59_gfp12' depends on axioms: [propext, Classical.choice, Quot.sound]
'APS.C59_basis' depends on axioms: [propext, Classical.choice, Quot.sound]
'APS.C59_conjugate_returns_refuted' depends on axioms: [propext, Classical.choice, Quot.sound]
'APS.C59_mulScalar_ignores_argument_refuted' depends on axioms: [propext, Classical.choice, Quot.sound]
'APS.C60_g1_add' depends on axioms: [propext, Classical.choice, Quot.sound]
'APS.C60_g1_double' depends on axioms: [propext, Classical.choice, Quot.sound]
'APS.C60_g1_neg' depends on axioms: [propext, Classical.choice, Quot.sound]
'APS.C60_g2_add' depends on axioms: [propext, Classical.choice, Quot.sound]
'APS.C60_g2_double' depends on axioms: [propext, Classical.choice, Quot.sound]
'APS.C60_g2_neg' depends on axioms: [propext, Classical.choice, Quot.sound]
'APS.C60_representation' depends on axioms: [propext, Classical.choice, Quot.sound]
'APS.C60_g1_isOnCurve' depends on axioms: [propext, Classical.choice, Quot.sound]
'APS.C60_g2_isOnCurve' depends on axioms: [propext, Classical.choice, Quot.sound]
'APS.C61_g1_scalarMult' depends on axioms: [propext, Classical.choice, Quot.sound]
'APS.C61_g1_scalarBaseMult' depends on axioms: [propext, Classical.choice, Quot.sound]
'APS.C61_g2_scalarMult' depends on axioms: [propext, Classical.choice, Quot.sound]
'APS.C61_g2_scalarBaseMult' depends on axioms: [propext, Classical.choice, Quot.sound]
'APS.C61_makeAffine' depends on axioms: [propext, Classical.choice, Quot.sound]
'APS.C61_g1_x' depends on axioms: [propext, Classical.choice, Quot.sound]
'APS.C61_negative_scalars' depends on axioms: [propext, Classical.choice, Quot.sound]
'APS.C61_minus_one_refuted' depends on axioms: [propext, Classical.choice, Quot.sound]
'APS.C62_in_place' depends on axioms: [propext, Classical.choice, Quot.sound]
'APS.C62_equal_operands_refuted' depends on axioms: [propext, Classical.choice, Quot.sound]
'APS.C62_twist_equal_operands_refuted' depends on axioms: [propext, Classical.choice, Quot.sound]
'APS.C62_twist_negative_refuted' depends on axioms: [propext, Classical.choice, Quot.sound]
'APS.C63_parameters' depends on axioms: [propext, Classical.choice, Quot.sound]
'APS.C63_order' depends on axioms: [propext, Classical.choice, Quot.sound]
'APS.C63_scalars_mod_order' depends on axioms: [propext, Classical.choice, Quot.sound]
'APS.C64_g1_round_trip' depends on axioms: [propext, Classical.choice, Quot.sound]
'APS.C64_g1_accepts' depends on axioms: [propext, Classical.choice, Quot.sound]
'APS.C64_g1_canonical' depends on axioms: [propext, Classical.choice, Quot.sound]
'APS.C64_wrong_length' depends on axioms: [propext]
'APS.C64_g2_round_trip' depends on axioms: [propext, Classical.choice, Quot.sound]
'APS.C64_g2_accepts' depends on axioms: [propext, Classical.choice, Quot.sound]
'APS.C64_g2_canonical' depends on axioms: [propext, Classical.choice, Quot.sound]
'APS.C65_digits' depends on axioms: [propext]
'APS.C66_infinity' depends on axioms: [propext, Classical.choice, Quot.sound]
'APS.C67_pool' depends on axioms: [propext, Classical.choice, Quot.sound]
'APS.C67_recycles' depends on axioms: [propext]
'APS.C67_double_put' does not depend on any axioms
'APS.C68_value' depends on axioms: [propext, Classical.choice, Quot.sound]
'APS.C68_sum_partial' depends on axioms: [propext, Classical.choice, Quot.sound]
'APS.C68_sum_refuted' depends on axioms: [propext, Classical.choice, Quot.sound]
'APS.C69_dense_partial' depends on axioms: [propext, Classical.choice, Quot.sound]
'APS.C69_sparse' depends on axioms: [propext, Classical.choice, Quot.sound]
'APS.C69_bit_coefficient_refuted' depends on axioms: [propext, Classical.choice, Quot.sound]
'APS.C69_unknown_input_refuted' depends on axioms: [propext]
'APS.C70_sparse_complete_partial' depends on axioms: [propext, Classical.choice, Quot.sound]
'APS.C70_complete_refuted' depends on axioms: [propext, Classical.choice, Quot.sound]
'APS.C71_constants' depends on axioms: [propext, Classical.choice, Quot.sound]
'APS.C71_frobenius' depends on axioms: [propext, Classical.choice, Quot.sound]
'APS.C72_power' depends on axioms: [propext, Classical.choice, Quot.sound]
'APS.C72_order' depends on axioms: [propext, Classical.choice, Quot.sound]
'APS.C72_pair_order' depends on axioms: [propext, Classical.choice, Quot.sound]
'APS.C73_pairingCheck' depends on axioms: [propext, Classical.choice, Quot.sound]
'APS.C73_crash' depends on axioms: [propext, Classical.choice, Quot.sound]
'APS.C74_pair' depends on axioms: [propext, Classical.choice, Quot.sound]
'APS.C74_representation' depends on axioms: [propext, Classical.choice, Quot.sound]
'APS.C74_unmarshal' depends on axioms: [propext, Classical.choice, Quot.sound]
'APS.C74_stale_t_refuted' depends on axioms: [propext, Classical.choice, Quot.sound]
'APS.C75_nondegenerate' depends on axioms: [propext, Classical.choice, Quot.sound]
'APS.C75_multiples' depends on axioms: [propext, Classical.choice, Quot.sound]
'APS.C76_operations' depends on axioms: [propext, Classical.choice, Quot.sound]
'APS.C76_negative_exponent' depends on axioms: [propext, Classical.choice, Quot.sound]
'APS.C76_encoding' depends on axioms: [propext, Classical.choice, Quot.sound]
'APS.C76_exponents_mod_order' depends on axioms: [propext, Classical.choice, Quot.sound]
'APS.C76_minus_one_refuted' depends on axioms: [propext, Classical.choice, Quot.sound]
'APS.C76_unmarshal_refuted' depends on axioms: [propext, Classical.choice, Quot.sound]
'APS.C76_constants' depends on axioms: [propext, Classical.choice, Quot.sound]
'APS.C77_additive_left' depends on axioms: [propext, Classical.choice, Quot.sound]
'APS.C77_additive_right' depends on axioms: [propext, Classical.choice, Quot.sound]
'APS.C77_scalars' depends on axioms: [propext, Classical.choice, Quot.sound]
'APS.C77_symmetric' depends on axioms: [propext, Classical.choice, Quot.sound]
'APS.LexProps.C78_tokens_kept' depends on axioms: [propext]
'APS.LexProps.C78_single_breaks_partial' depends on axioms: [propext, Classical.choice, Quot.sound]
'APS.LexProps.C78_single_breaks_refuted' depends on axioms: [propext, Classical.choice, Quot.sound]
'APS.LexProps.C79_exact' depends on axioms: [propext, Classical.choice, Quot.sound]
'APS.LexProps.C79_refuted' depends on axioms: [propext, Classical.choice, Quot.sound]
'APS.LexProps.C80_leading_blanks_partial' depends on axioms: [propext, Classical.choice, Quot.sound]
'APS.LexProps.C80_trailing_blank_refuted' depends on axioms: [propext, Classical.choice, Quot.sound]
'APS.LexProps.C80_between' depends on axioms: [propext, Classical.choice, Quot.sound]
'APS.LexProps.C80_call_refuted' depends on axioms: [propext, Classical.choice, Quot.sound]
'APS.LexProps.C81_order' depends on axioms: [propext, Quot.sound]
'APS.LexProps.C81_live' depends on axioms: [propext, Quot.sound]
'APS.LexProps.C81_buffer' depends on axioms: [propext, Quot.sound]
'APS.Parse.C82_refuted' depends on axioms: [propext]
'APS.Prog.C83_refuted' depends on axioms: [propext, Classical.choice, Quot.sound]
'APS.Prog.Repo.C83_repo' depends on axioms: [propext, Classical.choice, Quot.sound]
'APS.Prog.Repo.C83_repo_refuted' depends on axioms: [propext, Classical.choice, Quot.sound]
'APS.Prog.C84_gates_sound' depends on axioms: [propext, Classical.choice, Quot.sound]
'APS.Prog.C85_gates_complete' depends on axioms: [propext, Classical.choice, Quot.sound]
'APS.Prog.C86_rows_sound' depends on axioms: [propext, Classical.choice, Quot.sound]
'APS.Prog.C86_rows_sound_sparse' depends on axioms: [propext, Classical.choice, Quot.sound]
'APS.Prog.C86_rows_complete' depends on axioms: [propext, Classical.choice, Quot.sound]
'APS.Prog.C86_rows_complete_sparse' depends on axioms: [propext, Classical.choice, Quot.sound]
'APS.Prog.C87_witness_sound' depends on axioms: [propext, Classical.choice, Quot.sound]
'APS.Prog.C87_witness_sound_sparse' depends on axioms: [propext, Classical.choice, Quot.sound]
'APS.Prog.C88_witness_complete' depends on axioms: [propext, Classical.choice, Quot.sound]
'APS.Prog.C88_witness_complete_sparse_partial' depends on axioms: [propext, Classical.choice, Quot.sound]
'APS.Prog.C89_parse' depends on axioms: [propext, Classical.choice, Quot.sound]
'APS.Prog.C89_text' depends on axioms: [propext, Classical.choice, Quot.sound]
'APS.Prog.C89_unambiguous' depends on axioms: [propext, Classical.choice, Quot.sound]
'APS.Prog.C90_text_sound' depends on axioms: [propext, Classical.choice, Quot.sound]
'APS.Prog.C90_text_complete' depends on axioms: [propext, Classical.choice, Quot.sound]
'APS.Prog.C91_witness_range' depends on axioms: [propext, Classical.choice, Quot.sound]
'APS.Prog.C91_witness_range_sparse' depends on axioms: [propext, Classical.choice, Quot.sound]
'APS.Prog.C92_text_to_proof_partial' depends on axioms: [propext, Classical.choice, Quot.sound]
'APS.Prog.C93_proof_to_text_partial' depends on axioms: [propext, Classical.choice, Quot.sound]
'APS.Snark.C94_key_shape' depends on axioms: [propext, Quot.sound]
'APS.Snark.C94_key_shape_sparse' depends on axioms: [propext, Quot.sound]
'APS.Snark.C94_signal_count' depends on axioms: [propext, Quot.sound]
'APS.Prog.C95_variable' depends on axioms: [propext, Classical.choice, Quot.sound]
'APS.Prog.C95_constants' depends on axioms: [propext, Classical.choice, Quot.sound]
'APS.LangSpec.C96_meaning' depends on axioms: [propext, Classical.choice, Quot.sound]
'APS.Prog.C96_if_sound_partial' depends on axioms: [propext, Classical.choice, Quot.sound]
'APS.Prog.C96_if_complete_partial' depends on axioms: [propext, Classical.choice, Quot.sound]
'APS.Prog.C97_loop_never_returns' depends on axioms: [propext, Classical.choice, Quot.sound]
'APS.Prog.C97_refuted' depends on axioms: [propext, Classical.choice, Quot.sound]
'APS.Prog.C98_refuted' depends on axioms: [propext, Classical.choice, Quot.sound]
'APS.Prog.C99_meaning' depends on axioms: [propext, Classical.choice, Quot.sound]
'APS.Prog.C99_return_sound_partial' depends on axioms: [propext, Classical.choice, Quot.sound]
'APS.Prog.C99_return_complete_partial' depends on axioms: [propext, Classical.choice, Quot.sound]
'APS.Prog.C100_accepted' depends on axioms: [propext, Classical.choice, Quot.sound]
'APS.Prog.C100_text_accepted' depends on axioms: [propext, Classical.choice, Quot.sound]
'APS.Prog.C100_demo' depends on axioms: [propext, Classical.choice, Quot.sound]
'APS.Prog.C100_demo_if' depends on axioms: [propext, Classical.choice, Quot.sound]
'APS.Prog.C100_bare_array_panics' depends on axioms: [propext, Classical.choice, Quot.sound]
'APS.Prog.C101_rows_exist' depends on axioms: [propext, Classical.choice, Quot.sound]
'APS.Prog.C101_sparse_rows_exist' depends on axioms: [propext, Classical.choice, Quot.sound]
'APS.Prog.C101_compiles' depends on axioms: [propext, Classical.choice, Quot.sound]
'APS.Prog.C102_declared' depends on axioms: [propext, Classical.choice, Quot.sound]
'APS.Prog.C102_rejected' depends on axioms: [propext, Classical.choice, Quot.sound]
'APS.Prog.C102_undeclared_return' depends on axioms: [propext, Classical.choice, Quot.sound]
'APS.Prog.C102_undeclared_assign' depends on axioms: [propext, Classical.choice, Quot.sound]
'APS.Prog.C102_examples' depends on axioms: [propext, Classical.choice, Quot.sound]
'APS.Prog.C102_unchecked' depends on axioms: [propext, Classical.choice, Quot.sound]
'APS.Prog.C103_functions' depends on axioms: [propext, Classical.choice, Quot.sound]
'APS.Prog.C103_once' depends on axioms: [propext, Classical.choice, Quot.sound]
'APS.Prog.C103_public' depends on axioms: [propext, Classical.choice, Quot.sound]
'APS.Prog.C103_rejected' depends on axioms: [propext, Classical.choice, Quot.sound]
'APS.Prog.C103_var_twice' depends on axioms: [propext, Classical.choice, Quot.sound]
'APS.Prog.C103_array_twice' depends on axioms: [propext, Classical.choice, Quot.sound]
'APS.Prog.C103_examples' depends on axioms: [propext, Classical.choice, Quot.sound]
'APS.Prog.C103_accepted' depends on axioms: [propext, Classical.choice, Quot.sound]
'APS.Prog.C103_array_then_var' depends on axioms: [propext, Classical.choice, Quot.sound]
'APS.Prog.C104_execute' depends on axioms: [propext, Classical.choice, Quot.sound]
'APS.Prog.C104_depth' depends on axioms: [propext, Classical.choice, Quot.sound]
'APS.Prog.C104_one_result' depends on axioms: [propext, Classical.choice, Quot.sound]
'APS.Prog.C104_any_text' depends on axioms: [propext, Classical.choice, Quot.sound]
'APS.Prog.C105_calc' depends on axioms: [propext, Classical.choice, Quot.sound]
'APS.Prog.C105_functions' depends on axioms: [propext, Classical.choice, Quot.sound]
'APS.Prog.C105_functions_expected' depends on axioms: [propext, Classical.choice, Quot.sound]
'APS.Prog.C105_fibonacci' depends on axioms: [propext, Classical.choice, Quot.sound]
'APS.Prog.Repo.C106_rec' depends on axioms: [propext, Classical.choice, Quot.sound]
'APS.Prog.Repo.C106_curry' depends on axioms: [propext, Classical.choice, Quot.sound]
'APS.Prog.Repo.C106_loop' depends on axioms: [propext, Classical.choice, Quot.sound]
'APS.Prog.Repo.C106_global' depends on axioms: [propext, Classical.choice, Quot.sound]
'APS.Prog.Repo.C106_global9' depends on axioms: [propext, Classical.choice, Quot.sound]
'APS.Prog.Repo.C106_apply' depends on axioms: [propext, Classical.choice, Quot.sound]
'APS.Prog.Repo.C106_closure' depends on axioms: [propext, Classical.choice, Quot.sound]
'APS.Prog.Repo.C106_keys' depends on axioms: [propext, Classical.choice, Quot.sound]
'APS.C107_arrays_equal' depends on axioms: [propext, Classical.choice, Quot.sound]
'APS.C107_zero_array' depends on axioms: [propext, Quot.sound]
'APS.Prog.Bare.C108_alone_partial' depends on axioms: [propext, Classical.choice, Quot.sound]
'APS.Prog.Bare.C108_refuted' depends on axioms: [propext, Classical.choice, Quot.sound]
'APS.Prog.C108_unreadable' depends on axioms: [propext, Quot.sound]
'APS.Prog.Builtin.C109_and_refuted' depends on axioms: [propext, Classical.choice, Quot.sound]
'APS.Prog.Builtin.C109_equal_refuted' depends on axioms: [propext, Classical.choice, Quot.sound]
'APS.Prog.Builtin.C109_operator_refuted' depends on axioms: [propext, Classical.choice, Quot.sound]
'APS.Prog.C109_boolean_panics' depends on axioms: [propext, Classical.choice, Quot.sound]
'APS.Prog.C110_executes' depends on axioms: [propext, Classical.choice, Quot.sound]
'APS.Prog.C110_compiles' depends on axioms: [propext, Classical.choice, Quot.sound]
'APS.Prog.C110_computes' depends on axioms: [propext, Classical.choice, Quot.sound]
'APS.Prog.Sums.C110_demo' depends on axioms: [propext, Classical.choice, Quot.sound]
'APS.Prog.Sums.C110_zero_refuted' depends on axioms: [propext, Classical.choice, Quot.sound]
'APS.Prog.C111_size' depends on axioms: [propext, Classical.choice, Quot.sound]
'APS.Prog.C111_rows' depends on axioms: [propext, Quot.sound]
'APS.Prog.C111_rows_sparse' depends on axioms: [propext, Quot.sound]
'APS.Prog.Sums.C111_demo' depends on axioms: [propext, Classical.choice, Quot.sound]
'APS.Prog.C112_solution_accepted_partial' depends on axioms: [propext, Classical.choice, Quot.sound]
'APS.Prog.C112_no_solution_no_proof_partial' depends on axioms: [propext, Classical.choice, Quot.sound]
'APS.Prog.Square.C112_demo' depends on axioms: [propext, Classical.choice, Quot.sound]
