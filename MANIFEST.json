{
 "claims": [
  {
   "property": "C01",
   "status": "proved",
   "theorems": [
    "APS.C01_field_ring_ops"
   ],
   "note": ""
  },
  {
   "property": "C02",
   "status": "proved",
   "theorems": [
    "APS.C02_inverse",
    "APS.C02_inverse_degenerate",
    "APS.C02_div"
   ],
   "note": ""
  },
  {
   "property": "C03",
   "status": "partial",
   "theorems": [
    "APS.C03_expInt",
    "APS.C03_exp_partial",
    "APS.C03_exp_actual",
    "APS.C03_exp_refuted"
   ],
   "note": "ExpInt proved in full; Exp refuted for exponents >= Q (the code reduces the exponent mod Q), proved for e < Q and characterised for all e."
  },
  {
   "property": "C04",
   "status": "proved",
   "theorems": [
    "APS.C04_affine_equal"
   ],
   "note": ""
  },
  {
   "property": "C05",
   "status": "proved",
   "theorems": [
    "APS.C05_evalPoly",
    "APS.C05_scalarProduct"
   ],
   "note": ""
  },
  {
   "property": "C06",
   "status": "proved",
   "theorems": [
    "APS.C06_rand_range",
    "APS.C06_rand_bn256"
   ],
   "note": ""
  },
  {
   "property": "C07",
   "status": "proved",
   "theorems": [
    "APS.C07_dense_ring_ops",
    "APS.C07_linearCombine",
    "APS.C07_mulSimple"
   ],
   "note": ""
  },
  {
   "property": "C08",
   "status": "partial",
   "theorems": [
    "APS.C08_div_partial",
    "APS.C08_div_zero_leading",
    "APS.C08_div_refuted"
   ],
   "note": "Proved for divisors with unit leading coefficient; refuted for divisors whose last entry is 0 (exact behaviour proved in C08_div_zero_leading)."
  },
  {
   "property": "C09",
   "status": "proved",
   "theorems": [
    "APS.C09_domainPolynomial"
   ],
   "note": ""
  },
  {
   "property": "C10",
   "status": "proved",
   "theorems": [
    "APS.C10_newPolZeroAt",
    "APS.C10_lagrange"
   ],
   "note": ""
  },
  {
   "property": "C11",
   "status": "proved",
   "theorems": [
    "APS.C11_cache_transparent"
   ],
   "note": ""
  },
  {
   "property": "C12",
   "status": "proved",
   "theorems": [
    "APS.C12_transpose"
   ],
   "note": ""
  },
  {
   "property": "C13",
   "status": "proved",
   "theorems": [
    "APS.C13_map_refinement",
    "APS.C13_remove_returns_value"
   ],
   "note": ""
  },
  {
   "property": "C14",
   "status": "proved",
   "theorems": [
    "APS.C14_traversals"
   ],
   "note": ""
  },
  {
   "property": "C15",
   "status": "proved",
   "theorems": [
    "APS.C15_no_zero_stored"
   ],
   "note": ""
  },
  {
   "property": "C16",
   "status": "proved",
   "theorems": [
    "APS.C16_balance_terminates",
    "APS.C16_calls_return"
   ],
   "note": ""
  },
  {
   "property": "C17",
   "status": "partial",
   "theorems": [
    "APS.C17_failed_remove_partial",
    "APS.C17_failed_remove_refuted"
   ],
   "note": "Refuted by a reachable tree: on a failed removal the root pointer is not written back after a rotation, entries become unreachable. _partial: proved whenever the removal does not have to rotate at the root."
  },
  {
   "property": "C18",
   "status": "proved",
   "theorems": [
    "APS.C18_insertNoOverwrite"
   ],
   "note": ""
  },
  {
   "property": "C19",
   "status": "proved",
   "theorems": [
    "APS.C19_max_min",
    "APS.C19_toArray",
    "APS.C19_fromArray"
   ],
   "note": ""
  },
  {
   "property": "C20",
   "status": "proved",
   "theorems": [
    "APS.C20_clone",
    "APS.C20_mul",
    "APS.C20_scalar",
    "APS.C20_add",
    "APS.C20_sub",
    "APS.C20_sum",
    "APS.C20_linearCombine",
    "APS.C20_denotation"
   ],
   "note": ""
  },
  {
   "property": "C21",
   "status": "proved",
   "theorems": [
    "APS.C21_eval",
    "APS.C21_unreduced_point_crashes"
   ],
   "note": ""
  },
  {
   "property": "C22",
   "status": "proved",
   "theorems": [
    "APS.C22_div"
   ],
   "note": ""
  },
  {
   "property": "C23",
   "status": "partial",
   "theorems": [
    "APS.C23_div_terminates_partial",
    "APS.C23_constant_divisor_refuted",
    "APS.C23_zero_by_one_hangs"
   ],
   "note": "Refuted for constant divisors (the loop repeats for ever, for every fuel); proved for all divisors of degree >= 1."
  },
  {
   "property": "C24",
   "status": "proved",
   "theorems": [
    "APS.C24_interpolate"
   ],
   "note": ""
  },
  {
   "property": "C25",
   "status": "proved",
   "theorems": [
    "APS.C25_transpose",
    "APS.C25_transpose_out_of_range"
   ],
   "note": ""
  },
  {
   "property": "C26",
   "status": "proved",
   "theorems": [
    "APS.C26_scalarProduct",
    "APS.C26_not_reduced"
   ],
   "note": ""
  },
  {
   "property": "C27",
   "status": "proved",
   "theorems": [
    "APS.C27_traversal_safe",
    "APS.C27_traversal_live",
    "APS.C27_combine_schedule_dependent"
   ],
   "note": ""
  },
  {
   "property": "C28",
   "status": "proved",
   "theorems": [
    "APS.C28_add",
    "APS.C28_negate",
    "APS.C28_mul",
    "APS.C28_mul_last",
    "APS.C28_invert",
    "APS.C28_gcd",
    "APS.C28_readVar",
    "APS.C28_scale_noop"
   ],
   "note": ""
  },
  {
   "property": "C29",
   "status": "partial",
   "theorems": [
    "APS.C29_order_insensitive",
    "APS.C29_commutative",
    "APS.C29_equality_dropped_refuted"
   ],
   "note": "Order-insensitivity and commutativity of the identifier proved for every hash; the claim itself is refuted for EVERY hash function: equal(a,b) after a*b is discarded."
  },
  {
   "property": "C30",
   "status": "partial",
   "theorems": [
    "APS.C30_positions",
    "APS.C30_no_shadowing",
    "APS.C30_duplicate_publics_refuted"
   ],
   "note": "Proved for distinct public inputs; refuted when a public input is declared twice."
  },
  {
   "property": "C31",
   "status": "partial",
   "theorems": [
    "APS.C31_dense",
    "APS.C31_sparse",
    "APS.C31_row_count",
    "APS.C31_sparse_number_name_refuted"
   ],
   "note": "Proved (dense and sparse); the sparse version needs the hypothesis that no constant is spelled like an input name, shown necessary by the refutation."
  },
  {
   "property": "C32",
   "status": "proved",
   "theorems": [
    "APS.C32_agree"
   ],
   "note": ""
  },
  {
   "property": "C33",
   "status": "proved",
   "theorems": [
    "APS.C33_witness_sound"
   ],
   "note": "For systems generated from compiled programs (arbitrary systems: C69). RunOK and NoRandName are decidable on the compiler output."
  },
  {
   "property": "C34",
   "status": "proved",
   "theorems": [
    "APS.C34_sparse_witness_sound"
   ],
   "note": ""
  },
  {
   "property": "C35",
   "status": "proved",
   "theorems": [
    "APS.C35_witness_complete"
   ],
   "note": ""
  },
  {
   "property": "C36",
   "status": "partial",
   "theorems": [
    "APS.C36_split_partial",
    "APS.C36_split_input",
    "APS.C36_multiple_refuted"
   ],
   "note": "Proved for inputs and for any wire; for k*z the bits are those of z (refutation given)."
  },
  {
   "property": "C37",
   "status": "partial",
   "theorems": [
    "APS.C37_program_refuted",
    "APS.C37_every_prime_refuted",
    "APS.C37_unique_below_q_partial",
    "APS.C37_exists_partial"
   ],
   "note": "Refuted for every prime modulus (0 has two bit vectors); uniqueness below Q and existence proved."
  },
  {
   "property": "C38",
   "status": "proved",
   "theorems": [
    "APS.C38_sound",
    "APS.C38_complete",
    "APS.C38_rows_sound",
    "APS.C38_rows_complete",
    "APS.C38_rows_sound_sparse",
    "APS.C38_rows_complete_sparse"
   ],
   "note": "Soundness and completeness of straight-line programs down to the matrix rows (dense and sparse).  Hypotheses (RunOK) are decidable on the compiler output; programs with addGateConstraint are excluded (C68)."
  },
  {
   "property": "C39",
   "status": "partial",
   "theorems": [
    "APS.Alias.C39_clean",
    "APS.Alias.C39_calm",
    "APS.Alias.C39_calm_next",
    "APS.Alias.C39_compiles",
    "APS.Alias.C39_text_sound",
    "APS.Alias.C39_text_complete",
    "APS.Alias.C39_refuted",
    "APS.Alias.C39_refuted_package",
    "APS.Alias.C39_remedy"
   ],
   "note": "Model/Heap.lean follows every *big.Int pointer. False in general: C39_refuted ((x-c)-c with c=5 gives x+10) and C39_refuted_package (x - scalarBaseMultiply(x) leaves bigOne at -1 for the rest of the process). Proved for all runs in which no subtraction negates the cell of a constant variable or bigOne (C39_clean), and for all programs that subtract only what they compute on the spot (C39_calm, Spec/Calm.lean), from the text to the rows (C39_text_sound/_complete); C39_remedy shows the rewriting c -> c*1. Missing: the ghost `full` (no operand of * or / is the call of a function that returns nothing) is a hypothesis on the run."
  },
  {
   "property": "C40",
   "status": "partial",
   "theorems": [
    "APS.C40_zero_times_refuted",
    "APS.C40_div_zero_refuted",
    "APS.C40_mul_total_partial",
    "APS.C40_div_total_partial"
   ],
   "note": "Refuted ((0*x)*y aborts for every hash and modulus; x/0 silently yields 0); totality proved for operands with a non-zero coefficient."
  },
  {
   "property": "C41",
   "status": "proved",
   "theorems": [
    "APS.C41_combine",
    "APS.C41_mismatch",
    "APS.C41_public_positions"
   ],
   "note": ""
  },
  {
   "property": "C42",
   "status": "proved",
   "theorems": [
    "APS.LexProps.C42_exact",
    "APS.LexProps.C42_spells",
    "APS.LexProps.C42_supported"
   ],
   "note": "For valid UTF-8 texts, stated against the token grammar of Spec/Lexer.lean."
  },
  {
   "property": "C43",
   "status": "partial",
   "theorems": [
    "APS.LexProps.C43_exact",
    "APS.LexProps.C43_no_panic",
    "APS.LexProps.C43_refuted",
    "APS.LexProps.C43_ordinary"
   ],
   "note": "Refuted for texts with unsupported characters, lone & | ! and unclosed quotes (the lexer never ends, for every fuel). C43_exact characterises the texts on which it ends; C43_ordinary: all texts of ordinary words, numbers, operators and punctuation are among them."
  },
  {
   "property": "C44",
   "status": "proved",
   "theorems": [
    "APS.Parse.C44_from_bracket",
    "APS.Parse.C44_from_inside",
    "APS.Parse.C44_shortest",
    "APS.Parse.C44_not_closed",
    "APS.Parse.C44_strip"
   ],
   "note": "All splitters of the parser, for all token lists."
  },
  {
   "property": "C45",
   "status": "partial",
   "theorems": [
    "APS.Parse.C45_tree",
    "APS.Parse.C45_shows",
    "APS.Parse.C45_parenthesised",
    "APS.Parse.C45_chain",
    "APS.Parse.C45_refuted"
   ],
   "note": "Refuted: operators nest to the right without precedence. C45_tree/C45_shows/C45_chain state the exact tree for every expression, C45_parenthesised that parenthesised expressions are parsed as written."
  },
  {
   "property": "C46",
   "status": "proved",
   "theorems": [
    "APS.Parse.C46_names",
    "APS.Parse.C46_unambiguous"
   ],
   "note": "ArrayStringBuild and resolveArrayName."
  },
  {
   "property": "C47",
   "status": "partial",
   "theorems": [
    "APS.LangSpec.C47_loop_partial",
    "APS.LangSpec.C47_loop_up_partial",
    "APS.Prog.C47_condition",
    "APS.Prog.C47_condition_literals",
    "APS.Prog.C47_dynamic",
    "APS.Prog.C47_gates_partial",
    "APS.Prog.C47_refuted"
   ],
   "note": "Conditions: proved in general (C47_condition, C47_condition_literals; anything but two numbers is rejected: C47_dynamic). Loops: proved against a Go loop over the integers (Spec/GoLoop.lean) while the counter stays within 0..q-1 (C47_loop_partial on the language, C47_gates_partial on the gates the compiler makes); refuted below zero: the counter -1 is read as q-1 (C47_refuted). C47_gates_partial: no `if` with a `return` before the loop."
  },
  {
   "property": "C48",
   "status": "partial",
   "theorems": [
    "APS.Prog.C48_nested",
    "APS.Prog.C48_chain_partial",
    "APS.Prog.C48_refuted"
   ],
   "note": "Proved for nested blocks (C48_nested) and for if chains without further ifs inside (_partial); refuted for an if inside an if branch."
  },
  {
   "property": "C49",
   "status": "proved",
   "theorems": [
    "APS.C49_divisible",
    "APS.C49_bn256"
   ],
   "note": "Dense polynomials; denotations in Polynomial (ZMod q)."
  },
  {
   "property": "C50",
   "status": "partial",
   "theorems": [
    "APS.C50_bn256_in_place_refuted",
    "APS.C50_complete_partial",
    "APS.C50_in_place_addition_refuted",
    "APS.C50_bn256_partial"
   ],
   "note": "Laws of the groups as hypotheses (C50_complete_partial) and without hypotheses for the modelled bn256 (C50_bn256_partial): every satisfying witness, every randomness with invertible gamma, delta. _partial: the group additions that the code performs in place must not add a finite point to itself (C50_in_place_addition_refuted, C50_bn256_in_place_refuted)."
  },
  {
   "property": "C51",
   "status": "partial",
   "theorems": [
    "APS.C51_exact",
    "APS.C51_verdict",
    "APS.C51_refuted",
    "APS.C51_half_refuted",
    "APS.C51_bn256_exact",
    "APS.C51_bn256_refuted"
   ],
   "note": "Refuted (abstractly and for bn256). C51_exact: the honest proof is accepted iff X(g^E(x)) = G(x) at the setup point."
  },
  {
   "property": "C52",
   "status": "proved",
   "theorems": [
    "APS.C52_length",
    "APS.C52_bound",
    "APS.C52_commitment"
   ],
   "note": "Public signals are accepted modulo q only; the exact binding is stated."
  },
  {
   "property": "C53",
   "status": "partial",
   "theorems": [
    "APS.C53_forgery_refuted",
    "APS.C53_refuted",
    "APS.C53_bn256_refuted",
    "APS.C53_linear_prover_partial",
    "APS.C53_plain_partial",
    "APS.C53_bn256_linear_prover_partial",
    "APS.C53_bn256_plain_partial"
   ],
   "note": "Refuted in general: element F is not tied to the exponents, so a forger without a witness is accepted (abstract groups and bn256). What is left of soundness is proved against all provers that build A, B, C as linear combinations of the published key and F as a fixed power: either the witness read off their coefficients meets the altered constraints (for k = 0 and no base multiplication: the constraints themselves), or they convince for at most (3 gates + 4) q^4 of the q^3 (q-1)^2 secrets; the same without group hypotheses for the modelled bn256 (C53_bn256_linear_prover_partial, C53_bn256_plain_partial)."
  },
  {
   "property": "C54",
   "status": "partial",
   "theorems": [
    "APS.C54_total_partial",
    "APS.C54_single_gate_refuted",
    "APS.C54_bn256_partial",
    "APS.C54_sparse_total"
   ],
   "note": "Refuted for systems with one gate (index out of range in the division); proved for at least two gates, abstractly and for bn256; sparse prover total."
  },
  {
   "property": "C55",
   "status": "partial",
   "theorems": [
    "APS.C55_exact",
    "APS.C55_same_size_partial",
    "APS.C55_refuted"
   ],
   "note": "Refuted: the sparse setup uses a domain of another size. C55_exact says when they agree; _partial for systems where the sizes coincide."
  },
  {
   "property": "C56",
   "status": "partial",
   "theorems": [
    "APS.C56_guess_refuted",
    "APS.C56_refuted"
   ],
   "note": "Refuted: GenerateProofs draws nothing, the proof is a function of key and witness, a guessed witness can be confirmed."
  },
  {
   "property": "C57",
   "status": "proved",
   "theorems": [
    "APS.C57_tower_of_fields",
    "APS.C57_gfp2",
    "APS.C57_normalised",
    "APS.C57_tests",
    "APS.C57_isOne_accepts_minus_one"
   ],
   "note": "Against GaloisField-style quadratic extension F_p[i]/(i^2+1), all representations."
  },
  {
   "property": "C58",
   "status": "proved",
   "theorems": [
    "APS.C58_gfp6",
    "APS.C58_basis"
   ],
   "note": "Against F_p2[tau]/(tau^3-xi)."
  },
  {
   "property": "C59",
   "status": "partial",
   "theorems": [
    "APS.C59_gfp12",
    "APS.C59_basis",
    "APS.C59_conjugate_returns_refuted",
    "APS.C59_mulScalar_ignores_argument_refuted"
   ],
   "note": "Mul, Square, Exp, Invert proved; Conjugate returns its argument instead of the receiver and MulScalar ignores one argument (refutations)."
  },
  {
   "property": "C60",
   "status": "proved",
   "theorems": [
    "APS.C60_g1_add",
    "APS.C60_g1_double",
    "APS.C60_g1_neg",
    "APS.C60_g2_add",
    "APS.C60_g2_double",
    "APS.C60_g2_neg",
    "APS.C60_representation",
    "APS.C60_g1_isOnCurve",
    "APS.C60_g2_isOnCurve"
   ],
   "note": "Against Mathlib's WeierstrassCurve.Jacobian/Affine group law, G1 and G2, all coordinates."
  },
  {
   "property": "C61",
   "status": "partial",
   "theorems": [
    "APS.C61_g1_scalarMult",
    "APS.C61_g1_scalarBaseMult",
    "APS.C61_g2_scalarMult",
    "APS.C61_g2_scalarBaseMult",
    "APS.C61_makeAffine",
    "APS.C61_g1_x",
    "APS.C61_negative_scalars",
    "APS.C61_minus_one_refuted"
   ],
   "note": "True for non-negative scalars; for negative ones refuted (C61_minus_one_refuted), with the exact result in C61_negative_scalars."
  },
  {
   "property": "C62",
   "status": "partial",
   "theorems": [
    "APS.C62_in_place",
    "APS.C62_equal_operands_refuted",
    "APS.C62_twist_equal_operands_refuted",
    "APS.C62_twist_negative_refuted"
   ],
   "note": "The in-place sum of two equal finite points is wrong (refuted); all other in-place uses are proved."
  },
  {
   "property": "C63",
   "status": "proved",
   "theorems": [
    "APS.C63_parameters",
    "APS.C63_order",
    "APS.C63_scalars_mod_order"
   ],
   "note": "Primality by Pratt certificates in the kernel; Order*G by kernel evaluation of the model."
  },
  {
   "property": "C64",
   "status": "proved",
   "theorems": [
    "APS.C64_g1_round_trip",
    "APS.C64_g1_accepts",
    "APS.C64_g1_canonical",
    "APS.C64_wrong_length",
    "APS.C64_g2_round_trip",
    "APS.C64_g2_accepts",
    "APS.C64_g2_canonical"
   ],
   "note": "Accepted encodings are exactly points of the curve; round trip for all points."
  },
  {
   "property": "C65",
   "status": "proved",
   "theorems": [
    "APS.C65_digits"
   ],
   "note": "The table is a signed binary expansion but not, as its name says, a non-adjacent form."
  },
  {
   "property": "C66",
   "status": "proved",
   "theorems": [
    "APS.C66_infinity"
   ],
   "note": "Exact for all lists."
  },
  {
   "property": "C67",
   "status": "proved",
   "theorems": [
    "APS.C67_pool",
    "APS.C67_recycles",
    "APS.C67_double_put"
   ],
   "note": "Object identities; no number is handed out twice while in use."
  },
  {
   "property": "C68",
   "status": "partial",
   "theorems": [
    "APS.C68_value",
    "APS.C68_sum_partial",
    "APS.C68_sum_refuted"
   ],
   "note": "Exact value proved (gr*a + gl*b); equals a+b only when both gcds are 1; refuted otherwise."
  },
  {
   "property": "C69",
   "status": "partial",
   "theorems": [
    "APS.C69_dense_partial",
    "APS.C69_sparse",
    "APS.C69_bit_coefficient_refuted",
    "APS.C69_unknown_input_refuted"
   ],
   "note": "Sparse proved in full for satisfaction; dense proved when bits are read with coefficient 1 and refuted otherwise; first entry = 1 refuted when an input name is unknown (it overwrites the constant wire)."
  },
  {
   "property": "C70",
   "status": "partial",
   "theorems": [
    "APS.C70_sparse_complete_partial",
    "APS.C70_complete_refuted"
   ],
   "note": "Refuted (reduced value compared with an unreduced sum); proved when the output side of every row has at most one entry."
  },
  {
   "property": "C71",
   "status": "proved",
   "theorems": [
    "APS.C71_constants",
    "APS.C71_frobenius"
   ],
   "note": "For the actual constants of constants.go."
  },
  {
   "property": "C72",
   "status": "proved",
   "theorems": [
    "APS.C72_power",
    "APS.C72_order",
    "APS.C72_pair_order"
   ],
   "note": "For all elements of F_p12 units."
  },
  {
   "property": "C73",
   "status": "proved",
   "theorems": [
    "APS.C73_pairingCheck",
    "APS.C73_crash"
   ],
   "note": "Exact, including crash on short second list."
  },
  {
   "property": "C74",
   "status": "partial",
   "theorems": [
    "APS.C74_pair",
    "APS.C74_representation",
    "APS.C74_unmarshal",
    "APS.C74_stale_t_refuted"
   ],
   "note": "Proved for every representation with an up to date t; without that condition the independence of the representation is refuted (C74_stale_t_refuted). G2 points: the multiples of the generator."
  },
  {
   "property": "C75",
   "status": "proved",
   "theorems": [
    "APS.C75_nondegenerate",
    "APS.C75_multiples"
   ],
   "note": "The value is computed by the kernel (decide +kernel on the model's own Miller loop)."
  },
  {
   "property": "C76",
   "status": "partial",
   "theorems": [
    "APS.C76_operations",
    "APS.C76_negative_exponent",
    "APS.C76_encoding",
    "APS.C76_exponents_mod_order",
    "APS.C76_minus_one_refuted",
    "APS.C76_unmarshal_refuted",
    "APS.C76_constants"
   ],
   "note": "Negative exponents and the validation in Unmarshal are refuted."
  },
  {
   "property": "C77",
   "status": "proved",
   "theorems": [
    "APS.C77_additive_left",
    "APS.C77_additive_right",
    "APS.C77_scalars",
    "APS.C77_symmetric"
   ],
   "note": "Scalars are non-negative (see C61); G2 objects must have an up to date t (see C74)."
  },
  {
   "property": "C78",
   "status": "partial",
   "theorems": [
    "APS.LexProps.C78_tokens_kept",
    "APS.LexProps.C78_single_breaks_partial",
    "APS.LexProps.C78_single_breaks_refuted"
   ],
   "note": "Tokens kept: proved. Single breaks: refuted when a comment stands alone on a line, proved without comments."
  },
  {
   "property": "C79",
   "status": "partial",
   "theorems": [
    "APS.LexProps.C79_exact",
    "APS.LexProps.C79_refuted"
   ],
   "note": "Refuted: StartSync makes a channel of half the text length and blocks when there are more tokens; C79_exact is the exact condition."
  },
  {
   "property": "C80",
   "status": "partial",
   "theorems": [
    "APS.LexProps.C80_leading_blanks_partial",
    "APS.LexProps.C80_trailing_blank_refuted",
    "APS.LexProps.C80_between",
    "APS.LexProps.C80_call_refuted"
   ],
   "note": "Refuted at the end of the text (an empty identifier is emitted), between the name of a call and its bracket (C80_call_refuted) and inside a comment; proved for every other place: before the first token and after any token that is neither a comment nor the name of a call and is followed by something (C80_between)."
  },
  {
   "property": "C81",
   "status": "proved",
   "theorems": [
    "APS.LexProps.C81_order",
    "APS.LexProps.C81_live",
    "APS.LexProps.C81_buffer"
   ],
   "note": "Small-step interleaving of lexer goroutine and reader, all schedules and buffer sizes."
  },
  {
   "property": "C82",
   "status": "partial",
   "theorems": [
    "APS.Parse.C82_refuted"
   ],
   "note": "Refuted: `x a+b)` is accepted as `a+b`."
  },
  {
   "property": "C83",
   "status": "partial",
   "theorems": [
    "APS.Prog.C83_refuted",
    "APS.Prog.Repo.C83_repo",
    "APS.Prog.Repo.C83_repo_refuted"
   ],
   "note": "Refuted: when the if branch does not return, the else branch is executed too. C83_repo and C83_repo_refuted: this makes the repository's own test program codes.go:430-461 compute 686 z^13 instead of 686 x^10 z^3."
  },
  {
   "property": "C84",
   "status": "proved",
   "theorems": [
    "APS.Prog.C84_gates_sound"
   ],
   "note": "Source language (functions, loops, arrays, `if` without `else`, with or without `return`, recursion) and interpreter in Spec/Lang.lean, the constraints the parser hands over in Spec/Emit.lean, conditions on a run in Spec/Run.lean (all decidable on the run; Demo.prog meets them over the bn256 order). Conditions: static operands are numbers (CleanRun.static), no constant written like a wire (CleanRun.kept), no two different gates with one name (NoConfusion). Value semantics of numbers; by C39_clean / C39_calm this is what the code with its shared big.Int cells does whenever no subtraction negates a constant variable or bigOne in place."
  },
  {
   "property": "C85",
   "status": "proved",
   "theorems": [
    "APS.Prog.C85_gates_complete"
   ],
   "note": "Source language (functions, loops, arrays, `if` without `else`, with or without `return`, recursion) and interpreter in Spec/Lang.lean, the constraints the parser hands over in Spec/Emit.lean, conditions on a run in Spec/Run.lean (all decidable on the run; Demo.prog meets them over the bn256 order). NoConstSplit: no SPLIT of a constant (C35). Value semantics of numbers; by C39_clean / C39_calm this is what the code with its shared big.Int cells does whenever no subtraction negates a constant variable or bigOne in place."
  },
  {
   "property": "C86",
   "status": "proved",
   "theorems": [
    "APS.Prog.C86_rows_sound",
    "APS.Prog.C86_rows_sound_sparse",
    "APS.Prog.C86_rows_complete",
    "APS.Prog.C86_rows_complete_sparse"
   ],
   "note": "Source language (functions, loops, arrays, `if` without `else`) and interpreter in Spec/Lang.lean, the constraints the parser hands over in Spec/Emit.lean, conditions on a run in Spec/Run.lean (all decidable on the run; Demo.prog meets them over the bn256 order).  Value semantics of numbers; by C39_clean / C39_calm this is what the code with its shared big.Int cells does whenever no subtraction negates a constant variable or bigOne in place. That names of wires never clash is proved (Proofs/Names.lean); the conditions left are: no two constraints confused, no constant handed to SPLIT, public inputs listed once, no gates in loop conditions and array indices."
  },
  {
   "property": "C87",
   "status": "proved",
   "theorems": [
    "APS.Prog.C87_witness_sound",
    "APS.Prog.C87_witness_sound_sparse"
   ],
   "note": "Source language (functions, loops, arrays, `if` without `else`) and interpreter in Spec/Lang.lean, the constraints the parser hands over in Spec/Emit.lean, conditions on a run in Spec/Run.lean (all decidable on the run; Demo.prog meets them over the bn256 order).  Value semantics of numbers; by C39_clean / C39_calm this is what the code with its shared big.Int cells does whenever no subtraction negates a constant variable or bigOne in place. That names of wires never clash is proved (Proofs/Names.lean); the conditions left are: no two constraints confused, no constant handed to SPLIT, public inputs listed once, no gates in loop conditions and array indices."
  },
  {
   "property": "C88",
   "status": "partial",
   "theorems": [
    "APS.Prog.C88_witness_complete",
    "APS.Prog.C88_witness_complete_sparse_partial"
   ],
   "note": "Source language (functions, loops, arrays, `if` without `else`) and interpreter in Spec/Lang.lean, the constraints the parser hands over in Spec/Emit.lean, conditions on a run in Spec/Run.lean (all decidable on the run; Demo.prog meets them over the bn256 order). The sparse version is partial as C70: output sides with at most one entry. Value semantics of numbers; by C39_clean / C39_calm this is what the code with its shared big.Int cells does whenever no subtraction negates a constant variable or bigOne in place. That names of wires never clash is proved (Proofs/Names.lean); the conditions left are: no two constraints confused, no constant handed to SPLIT, public inputs listed once, no gates in loop conditions and array indices."
  },
  {
   "property": "C89",
   "status": "proved",
   "theorems": [
    "APS.Prog.C89_parse",
    "APS.Prog.C89_text",
    "APS.Prog.C89_unambiguous"
   ],
   "note": "C89_parse: statementMode on the tokens of any written program (Spec/Write.lean: one statement per line, left operands of operators in parentheses) hands over its constraints (Spec/Emit.lean) and closes done. C89_text: every such program whose names are free words has a text that is read as exactly these tokens. C89_unambiguous: the tokens determine the constraints. `if` without `else` is in this language, except at the end of a block (C98); `else` is not (C83)."
  },
  {
   "property": "C90",
   "status": "proved",
   "theorems": [
    "APS.Prog.C90_text_sound",
    "APS.Prog.C90_text_complete"
   ],
   "note": "C86 from the text on: tokenizing, Parse with PublicInputs, Execute, parameters of main, GatesToR1CS. Conditions on the run as for C86 (CleanRun, NoClash). Demo.src_compiles: a text laid out as people write it meets all hypotheses over the bn256 scalar field. Value semantics of numbers; by C39_clean / C39_calm this is what the code with its shared big.Int cells does whenever no subtraction negates a constant variable or bigOne in place. That names of wires never clash is proved (Proofs/Names.lean); the conditions left are: no two constraints confused, no constant handed to SPLIT, public inputs listed once, no gates in loop conditions and array indices."
  },
  {
   "property": "C91",
   "status": "proved",
   "theorems": [
    "APS.Prog.C91_witness_range",
    "APS.Prog.C91_witness_range_sparse"
   ],
   "note": "No conditions on the system at all: it need not come from the compiler."
  },
  {
   "property": "C92",
   "status": "partial",
   "theorems": [
    "APS.Prog.C92_text_to_proof_partial"
   ],
   "note": "C90, C88, C91, C41 and C50 on bn256 put together, from the characters of the text to the verdict. Programs without scalarBaseMultiply (C51 is refuted), at least two constraints (C52) and a private wire; conditions on the run as C88. _partial as C50: no in-place addition of a point to itself, up-to-date t fields. Square.src meets all hypotheses: its proof for x = 3, y = 9 is accepted. That names of wires never clash is proved (Proofs/Names.lean); the conditions left are: no two constraints confused, no constant handed to SPLIT, public inputs listed once, no gates in loop conditions and array indices."
  },
  {
   "property": "C93",
   "status": "partial",
   "theorems": [
    "APS.Prog.C93_proof_to_text_partial"
   ],
   "note": "C90 and C53 on bn256 put together. _partial: linear provers with trivial F (for arbitrary F the claim is false, C53_bn256_refuted), programs without scalarBaseMultiply, division by zero not excluded (C84), up to (3 gates + 4) q^4 of the q^3 (q-1)^2 secrets. Square.src: nobody of this kind proves that 5 is a square. That names of wires never clash is proved (Proofs/Names.lean); the conditions left are: no two constraints confused, no constant handed to SPLIT, public inputs listed once, no gates in loop conditions and array indices."
  },
  {
   "property": "C94",
   "status": "proved",
   "theorems": [
    "APS.Snark.C94_key_shape",
    "APS.Snark.C94_key_shape_sparse",
    "APS.Snark.C94_signal_count"
   ],
   "note": "For every api of groups. C94_signal_count: with another number of signals the verdict is always rejection (dense keys)."
  },
  {
   "property": "C95",
   "status": "proved",
   "theorems": [
    "APS.Prog.C95_variable",
    "APS.Prog.C95_constants"
   ],
   "note": "Any form whose terms are numbers, arguments and gate outputs, as every compiled expression gives; C95_constants: two numbers are stored as one number, their sum."
  },
  {
   "property": "C96",
   "status": "partial",
   "theorems": [
    "APS.LangSpec.C96_meaning",
    "APS.Prog.C96_if_sound_partial",
    "APS.Prog.C96_if_complete_partial"
   ],
   "note": "For `if` anywhere in the top level of main before which no other `if` contains a `return`, with condition static (anything else is rejected, C47_dynamic); `if` inside loops and functions is covered by C84-C93, whose source language (Spec/Lang.lean) contains it. _partial: no `else`, no `return` (that is C99), no `if` and no declarations inside the branch (C48, C83 say what goes wrong), conditions on the run as C84. Branchy.src: a text with an `if` in a loop and one after it meets all conditions."
  },
  {
   "property": "C97",
   "status": "partial",
   "theorems": [
    "APS.Prog.C97_loop_never_returns",
    "APS.Prog.C97_refuted"
   ],
   "note": "Refuted for every loop: compiling a `for` never reports a return (C97_loop_never_returns); the text of C97_refuted returns x although its loop reaches `return x*x`."
  },
  {
   "property": "C98",
   "status": "partial",
   "theorems": [
    "APS.Prog.C98_refuted"
   ],
   "note": "Refuted for every condition and every body.  Followed by a further statement the `if` is read (C89_parse)."
  },
  {
   "property": "C99",
   "status": "partial",
   "theorems": [
    "APS.Prog.C99_meaning",
    "APS.Prog.C99_return_sound_partial",
    "APS.Prog.C99_return_complete_partial"
   ],
   "note": "C99_meaning: what it means for every function body of the source language; C99_return_sound_partial / C99_return_complete_partial: on the gates of a compiled program, for the first such `if` at the top level of main; in called functions (recursion) it is covered by C84-C93, whose source language contains it. _partial: no `else`, no `if` and no declarations inside the branch, not inside a loop (C48, C83, C97 say what goes wrong), conditions on the run as C84. Early.src: a text with the recursive function of testPrograms/codes.go:86-95 (with + for the builtin) and a `return` in an `if` of main meets all conditions."
  },
  {
   "property": "C100",
   "status": "proved",
   "theorems": [
    "APS.Prog.C100_accepted",
    "APS.Prog.C100_text_accepted",
    "APS.Prog.C100_demo",
    "APS.Prog.C100_demo_if",
    "APS.Prog.C100_bare_array_panics"
   ],
   "note": ""
  },
  {
   "property": "C101",
   "status": "proved",
   "theorems": [
    "APS.Prog.C101_rows_exist",
    "APS.Prog.C101_sparse_rows_exist",
    "APS.Prog.C101_compiles"
   ],
   "note": ""
  },
  {
   "property": "C102",
   "status": "proved",
   "theorems": [
    "APS.Prog.C102_declared",
    "APS.Prog.C102_rejected",
    "APS.Prog.C102_undeclared_return",
    "APS.Prog.C102_undeclared_assign",
    "APS.Prog.C102_examples",
    "APS.Prog.C102_unchecked"
   ],
   "note": "Not checked by the code, and shown as accepted: conditions and steps of loops, arrays with an index, names of called functions (C102_unchecked)."
  },
  {
   "property": "C103",
   "status": "proved",
   "theorems": [
    "APS.Prog.C103_functions",
    "APS.Prog.C103_once",
    "APS.Prog.C103_public",
    "APS.Prog.C103_rejected",
    "APS.Prog.C103_var_twice",
    "APS.Prog.C103_array_twice",
    "APS.Prog.C103_examples",
    "APS.Prog.C103_accepted",
    "APS.Prog.C103_array_then_var"
   ],
   "note": "Not checked by the code, and shown as accepted: a variable declared with the name of an array of the same block (C103_array_then_var)."
  },
  {
   "property": "C104",
   "status": "proved",
   "theorems": [
    "APS.Prog.C104_execute",
    "APS.Prog.C104_depth",
    "APS.Prog.C104_one_result",
    "APS.Prog.C104_any_text"
   ],
   "note": ""
  },
  {
   "property": "C105",
   "status": "proved",
   "theorems": [
    "APS.Prog.C105_calc",
    "APS.Prog.C105_functions",
    "APS.Prog.C105_functions_expected",
    "APS.Prog.C105_fibonacci"
   ],
   "note": ""
  },
  {
   "property": "C106",
   "status": "proved",
   "theorems": [
    "APS.Prog.Repo.C106_rec",
    "APS.Prog.Repo.C106_curry",
    "APS.Prog.Repo.C106_loop",
    "APS.Prog.Repo.C106_global",
    "APS.Prog.Repo.C106_global9",
    "APS.Prog.Repo.C106_apply",
    "APS.Prog.Repo.C106_closure",
    "APS.Prog.Repo.C106_keys"
   ],
   "note": ""
  },
  {
   "property": "C107",
   "status": "proved",
   "theorems": [
    "APS.C107_arrays_equal",
    "APS.C107_zero_array"
   ],
   "note": ""
  },
  {
   "property": "C108",
   "status": "partial",
   "theorems": [
    "APS.Prog.Bare.C108_alone_partial",
    "APS.Prog.Bare.C108_refuted",
    "APS.Prog.C108_unreadable"
   ],
   "note": "Refuted: the value of a bare return is a number with an empty text; a stored sum with it is read again from its text and the compiler panics, for every depth (C108_refuted; cause for every modulus: C108_unreadable). _partial: used on the spot or stored alone (two texts, all inputs)."
  },
  {
   "property": "C109",
   "status": "partial",
   "theorems": [
    "APS.Prog.Builtin.C109_and_refuted",
    "APS.Prog.Builtin.C109_equal_refuted",
    "APS.Prog.Builtin.C109_operator_refuted",
    "APS.Prog.C109_boolean_panics"
   ],
   "note": "Refuted: builtin names (BREAK, SPLIT, AND, NAND, OR, NOT, addGateConstraint, scalarBaseMultiply, equal) shadow declared functions; AND/NAND/OR/NOT and the operator && panic. Calls of functions with other names: C84-C90."
  },
  {
   "property": "C110",
   "status": "proved",
   "theorems": [
    "APS.Prog.C110_executes",
    "APS.Prog.C110_compiles",
    "APS.Prog.C110_computes",
    "APS.Prog.Sums.C110_demo",
    "APS.Prog.Sums.C110_zero_refuted"
   ],
   "note": "Proved for the programs of the statement; (0*x)*y panics (C110_zero_refuted). Remaining conditions of C110_compiles / C110_computes: no two different gates of the run share a (truncated) hash name (NoConfusion, decidable on the output), public inputs listed once."
  },
  {
   "property": "C111",
   "status": "proved",
   "theorems": [
    "APS.Prog.C111_size",
    "APS.Prog.C111_rows",
    "APS.Prog.C111_rows_sparse",
    "APS.Prog.Sums.C111_demo"
   ],
   "note": ""
  },
  {
   "property": "C112",
   "status": "partial",
   "theorems": [
    "APS.Prog.C112_solution_accepted_partial",
    "APS.Prog.C112_no_solution_no_proof_partial",
    "APS.Prog.Square.C112_demo"
   ],
   "note": "C110 with C92 and C93: the conditions on the run (CleanRun, no constant split, no base multiplication, size) are proved for these texts; left are NoConfusion, a private wire and, for acceptance, two rows. _partial as C92 and C93: no in-place addition of a point to itself, up-to-date t fields, linear provers with trivial F. C112_demo: \"y is a square\" meets all hypotheses."
  }
 ]
}