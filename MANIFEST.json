{
 "claims": [
  {
   "property": "C01",
   "status": "proved",
   "theorems": [
    "Qesa.Props.C01_inner_product",
    "Qesa.Props.C01_inner_product_symm",
    "Qesa.Props.C01_inner_product_linear"
   ],
   "note": ""
  },
  {
   "property": "C02",
   "status": "proved",
   "theorems": [
    "Qesa.Props.C02_vandemonde_challenge"
   ],
   "note": ""
  },
  {
   "property": "C03",
   "status": "proved",
   "theorems": [
    "Qesa.Props.C03_vandemonde_vector",
    "Qesa.Props.C03_vandemonde_vector_general",
    "Qesa.Props.C03_vandemonde_matrix",
    "Qesa.Props.C03_vandemonde_matrix_panics"
   ],
   "note": ""
  },
  {
   "property": "C04",
   "status": "proved",
   "theorems": [
    "Qesa.Props.C04_matrix_scalar_mul",
    "Qesa.Props.C04_matrix_scalar_mul_general",
    "Qesa.Props.C04_matrixpoint_scalar_mul",
    "Qesa.Props.C04_vectorpoint_scalar_mul",
    "Qesa.Props.C04_vector_scalar_mul_general",
    "Qesa.Props.C04_row_row_add",
    "Qesa.Props.C04_row_row_add_general",
    "Qesa.Props.C04_rowpoint_rowpoint_add",
    "Qesa.Props.C04_row_row_sub",
    "Qesa.Props.C04_matrix_matrix_add",
    "Qesa.Props.C04_matrix_matrix_add_general",
    "Qesa.Props.C04_matrixpoint_matrix_add",
    "Qesa.Props.C04_matrix_algebra"
   ],
   "note": ""
  },
  {
   "property": "C05",
   "status": "proved",
   "theorems": [
    "Qesa.Props.C05_matrix_vector_mul",
    "Qesa.Props.C05_matrix_vector_mul_general",
    "Qesa.Props.C05_matrixpoint_vector_mul",
    "Qesa.Props.C05_matrixpoint_vector_mul_linear",
    "Qesa.Props.C05_matrixpoint_vector_mul_linear_matrix"
   ],
   "note": ""
  },
  {
   "property": "C06",
   "status": "proved",
   "theorems": [
    "Qesa.Props.C06_matrix_transpose",
    "Qesa.Props.C06_transpose_twice",
    "Qesa.Props.C06_matrix_transpose_ragged",
    "Qesa.Props.C06_matrixpoint_transpose_ragged"
   ],
   "note": ""
  },
  {
   "property": "C07",
   "status": "proved",
   "theorems": [
    "Qesa.Props.C07_matrix_split",
    "Qesa.Props.C07_matrix_split_panics"
   ],
   "note": ""
  },
  {
   "property": "C08",
   "status": "proved",
   "theorems": [
    "Qesa.Props.C08_batch",
    "Qesa.Props.C08_batch_panics",
    "Qesa.Props.C08_block_push"
   ],
   "note": ""
  },
  {
   "property": "C09",
   "status": "proved",
   "theorems": [
    "Qesa.Props.C09_batch_drops",
    "Qesa.Props.C09_inner_create",
    "Qesa.Props.C09_zk_create",
    "Qesa.Props.C09_inner_verify",
    "Qesa.Props.C09_zk_verify",
    "Qesa.Props.C09_batched_all",
    "Qesa.Props.C09_code_batches_all"
   ],
   "note": ""
  },
  {
   "property": "C10",
   "status": "proved",
   "theorems": [
    "Qesa.Props.C10_challenge_scalar",
    "Qesa.Props.C10_little_endian",
    "Qesa.Props.C10_almost_uniform"
   ],
   "note": ""
  },
  {
   "property": "C11",
   "status": "proved",
   "theorems": [
    "Qesa.Props.C11_alm_verify_log",
    "Qesa.Props.C11_alm_create_log",
    "Qesa.Props.C11_ipa_create_log",
    "Qesa.Props.C11_ipa_verify_log"
   ],
   "note": ""
  },
  {
   "property": "C12",
   "status": "proved",
   "theorems": [
    "Qesa.Props.C12_orth_panics_iff",
    "Qesa.Props.C12_orth",
    "Qesa.Props.C12_orth_isotropic"
   ],
   "note": ""
  },
  {
   "property": "C13",
   "status": "proved",
   "theorems": [
    "Qesa.Props.C13_sample_gram_schmidt",
    "Qesa.Props.C13_sample_gram_schmidt_returns_iff"
   ],
   "note": ""
  },
  {
   "property": "C14",
   "status": "proved",
   "theorems": [
    "Qesa.Props.C14_sample_gram_schmidt_twice"
   ],
   "note": ""
  },
  {
   "property": "C15",
   "status": "proved",
   "theorems": [
    "Qesa.Props.C15_sparse_sampling",
    "Qesa.Props.C15_sparse_sampling_panics"
   ],
   "note": ""
  },
  {
   "property": "C16",
   "status": "proved",
   "theorems": [
    "Qesa.Props.C16_ipa_completeness"
   ],
   "note": ""
  },
  {
   "property": "C17",
   "status": "proved",
   "theorems": [
    "Qesa.Props.C17_ipa_create_returns_iff",
    "Qesa.Props.C17_ipa_create_panics",
    "Qesa.Props.C17_ipa_proof_size"
   ],
   "note": ""
  },
  {
   "property": "C18",
   "status": "proved",
   "theorems": [
    "Qesa.Props.C18_ipa_honest_proof_verdict",
    "Qesa.Props.C18_ipa_wrong_product_rejected"
   ],
   "note": ""
  },
  {
   "property": "C19",
   "status": "proved",
   "theorems": [
    "Qesa.Props.C19_ipa_verdict"
   ],
   "note": ""
  },
  {
   "property": "C20",
   "status": "proved",
   "theorems": [
    "Qesa.Props.C20_ipa_lockstep"
   ],
   "note": ""
  },
  {
   "property": "C21",
   "status": "proved",
   "theorems": [
    "Qesa.Props.C21_ipa_special_soundness",
    "Qesa.Props.C21_ipa_sound_without_relations"
   ],
   "note": ""
  },
  {
   "property": "C22",
   "status": "proved",
   "theorems": [
    "Qesa.Props.C22_ipa_verify_returns_iff"
   ],
   "note": ""
  },
  {
   "property": "C23",
   "status": "proved",
   "theorems": [
    "Qesa.Props.C23_ipa_malleable",
    "Qesa.Props.C23_ipa_malleable_different",
    "Qesa.Props.C23_ipa_points_hashed"
   ],
   "note": ""
  },
  {
   "property": "C24",
   "status": "proved",
   "theorems": [
    "Qesa.Props.C24_alm_completeness"
   ],
   "note": ""
  },
  {
   "property": "C25",
   "status": "proved",
   "theorems": [
    "Qesa.Props.C25_alm_special_soundness",
    "Qesa.Props.C25_alm_sound_without_relations"
   ],
   "note": ""
  },
  {
   "property": "C26",
   "status": "proved",
   "theorems": [
    "Qesa.Props.C26_inner_completeness",
    "Qesa.Props.C26_zk_completeness"
   ],
   "note": ""
  },
  {
   "property": "C27",
   "status": "proved",
   "theorems": [
    "Qesa.Props.C27_batched_quad",
    "Qesa.Props.C27_satisfied",
    "Qesa.Props.C27_violated",
    "Qesa.Props.C27_code_quad"
   ],
   "note": ""
  },
  {
   "property": "C28",
   "status": "proved",
   "theorems": [
    "Qesa.Props.C28_prover_value",
    "Qesa.Props.C28_verifier_value"
   ],
   "note": ""
  },
  {
   "property": "C29",
   "status": "proved",
   "theorems": [
    "Qesa.Props.C29_qesa_forgery",
    "Qesa.Props.C29_unsatisfiable"
   ],
   "note": ""
  },
  {
   "property": "C30",
   "status": "proved",
   "theorems": [
    "Qesa.Props.C30_verifier_commitment",
    "Qesa.Props.C30_pinned"
   ],
   "note": ""
  },
  {
   "property": "C31",
   "status": "proved",
   "theorems": [
    "Qesa.Props.C31_inner_create_shapes",
    "Qesa.Props.C31_zk_verify_returns_iff"
   ],
   "note": ""
  },
  {
   "property": "C32",
   "status": "proved",
   "theorems": [
    "Qesa.Props.C32_commit_value",
    "Qesa.Props.C32_commit_panics",
    "Qesa.Props.C32_homomorphic"
   ],
   "note": ""
  },
  {
   "property": "C33",
   "status": "proved",
   "theorems": [
    "Qesa.Props.C33_hiding",
    "Qesa.Props.C33_binding"
   ],
   "note": ""
  },
  {
   "property": "C34",
   "status": "proved",
   "theorems": [
    "Qesa.Props.C34_mapping"
   ],
   "note": ""
  },
  {
   "property": "C35",
   "status": "proved",
   "theorems": [
    "Qesa.Props.C35_lowest",
    "Qesa.Props.C35_panics_iff"
   ],
   "note": ""
  },
  {
   "property": "C36",
   "status": "proved",
   "theorems": [
    "Qesa.Props.C36_truncated",
    "Qesa.Props.C36_large_panics",
    "Qesa.Props.C36_behind_witness"
   ],
   "note": ""
  },
  {
   "property": "C37",
   "status": "proved",
   "theorems": [
    "Qesa.Props.C37_meaning",
    "Qesa.Props.C37_verifier",
    "Qesa.Props.C37_prover"
   ],
   "note": ""
  },
  {
   "property": "C38",
   "status": "proved",
   "theorems": [
    "Qesa.Props.C38_copy_completeness",
    "Qesa.Props.C38_untouched"
   ],
   "note": ""
  },
  {
   "property": "C39",
   "status": "proved",
   "theorems": [
    "Qesa.Props.C39_copy_equality"
   ],
   "note": ""
  },
  {
   "property": "C40",
   "status": "proved",
   "theorems": [
    "Qesa.Props.C40_copy_forgery"
   ],
   "note": ""
  },
  {
   "property": "C41",
   "status": "proved",
   "theorems": [
    "Qesa.Props.C41_honest_constraint",
    "Qesa.Props.C41_zero_accepted",
    "Qesa.Props.C41_zero_unsatisfied"
   ],
   "note": ""
  },
  {
   "property": "C42",
   "status": "proved",
   "theorems": [
    "Qesa.Props.C42_lmpa_completeness"
   ],
   "note": ""
  },
  {
   "property": "C43",
   "status": "proved",
   "theorems": [
    "Qesa.Props.C43_lmpa_special_soundness",
    "Qesa.Props.C43_lmpa_verify_one_row",
    "Qesa.Props.C43_lmpa_sound"
   ],
   "note": ""
  },
  {
   "property": "C44",
   "status": "proved",
   "theorems": [
    "Qesa.Props.C44_lmpa_verdict",
    "Qesa.Props.C44_lmpa_verify_size",
    "Qesa.Props.C44_lmpa_only_row_zero",
    "Qesa.Props.C44_lmpa_false_statement"
   ],
   "note": ""
  },
  {
   "property": "C45",
   "status": "proved",
   "theorems": [
    "Qesa.Props.C45_lmpa_challenges_ignore_statement",
    "Qesa.Props.C45_lmpa_target_after_challenges",
    "Qesa.Props.C45_lmpa_false_statement",
    "Qesa.Props.C45_simple_false_statement"
   ],
   "note": ""
  },
  {
   "property": "C46",
   "status": "proved",
   "theorems": [
    "Qesa.Props.C46_lmpa_create_log",
    "Qesa.Props.C46_lmpa_verify_log",
    "Qesa.Props.C46_simple_create_log",
    "Qesa.Props.C46_simple_verify_log"
   ],
   "note": ""
  },
  {
   "property": "C47",
   "status": "proved",
   "theorems": [
    "Qesa.Props.C47_lmpaK_completeness"
   ],
   "note": ""
  },
  {
   "property": "C48",
   "status": "proved",
   "theorems": [
    "Qesa.Props.C48_general_ignores_statement",
    "Qesa.Props.C48_general_forgery",
    "Qesa.Props.C48_general_forgery_no_round",
    "Qesa.Props.C48_lmpaK_verdict",
    "Qesa.Props.C48_lmpaK_ignores_statement",
    "Qesa.Props.C48_lmpaK_forgery",
    "Qesa.Props.C48_lmpaK_forgery_no_round"
   ],
   "note": ""
  },
  {
   "property": "C49",
   "status": "proved",
   "theorems": [
    "Qesa.Props.C49_lmpa_create_terminates",
    "Qesa.Props.C49_lmpa_verify_terminates",
    "Qesa.Props.C49_lmpa_verify_zero_panics",
    "Qesa.Props.C49_lmpa_create_loops_forever",
    "Qesa.Props.C49_lmpa_fuel",
    "Qesa.Props.C49_lmpa_verify_fuel",
    "Qesa.Props.C49_lmpaK_create_terminates",
    "Qesa.Props.C49_lmpaK_zero_panics",
    "Qesa.Props.C49_lmpaK_one_loops_forever",
    "Qesa.Props.C49_lmpaK_verify_terminates",
    "Qesa.Props.C49_lmpaK_fuel"
   ],
   "note": ""
  },
  {
   "property": "C50",
   "status": "proved",
   "theorems": [
    "Qesa.Props.C50_simple_completeness"
   ],
   "note": ""
  },
  {
   "property": "C51",
   "status": "proved",
   "theorems": [
    "Qesa.Props.C51_simple_witness_indistinguishable",
    "Qesa.Props.C51_simple_same_distribution"
   ],
   "note": ""
  },
  {
   "property": "C52",
   "status": "proved",
   "theorems": [
    "Qesa.Props.C52_simple_sound",
    "Qesa.Props.C52_simple_verdict",
    "Qesa.Props.C52_simple_special_soundness"
   ],
   "note": ""
  },
  {
   "property": "C53",
   "status": "proved",
   "theorems": [
    "Qesa.Props.C53_general_not_blinded",
    "Qesa.Props.C53_general_reveals_witness",
    "Qesa.Props.C53_general_distinguishes"
   ],
   "note": ""
  },
  {
   "property": "C54",
   "status": "proved",
   "theorems": [
    "Qesa.Props.C54_general_completeness",
    "Qesa.Props.C54_general_fails_small"
   ],
   "note": ""
  },
  {
   "property": "C55",
   "status": "proved",
   "theorems": [
    "Qesa.Props.C55_pedersen_commit",
    "Qesa.Props.C55_pedersen_homomorphic",
    "Qesa.Props.C55_pedersen_binding"
   ],
   "note": ""
  },
  {
   "property": "C56",
   "status": "proved",
   "theorems": [
    "Qesa.Props.C56_verify_log",
    "Qesa.Props.C56_create_log",
    "Qesa.Props.C56_lockstep"
   ],
   "note": ""
  },
  {
   "property": "C57",
   "status": "proved",
   "theorems": [
    "Qesa.Props.C57_copy_verify_log",
    "Qesa.Props.C57_copy_create_log"
   ],
   "note": ""
  },
  {
   "property": "C58",
   "status": "proved",
   "theorems": [
    "Qesa.Props.C58_copy_verify_returns_iff",
    "Qesa.Props.C58_copy_create_shapes"
   ],
   "note": ""
  },
  {
   "property": "C59",
   "status": "proved",
   "theorems": [
    "Qesa.Props.C59_ipa_challenges_ignore_statement",
    "Qesa.Props.C59_ipa_commitment_after_challenges",
    "Qesa.Props.C59_ipa_false_statement"
   ],
   "note": ""
  },
  {
   "property": "C60",
   "status": "proved",
   "theorems": [
    "Qesa.Props.C60_alm_false_statement"
   ],
   "note": ""
  },
  {
   "property": "C61",
   "status": "proved",
   "theorems": [
    "Qesa.Props.C61_qesa_special_soundness",
    "Qesa.Props.C61_qesa_sound_without_relations"
   ],
   "note": ""
  },
  {
   "property": "C62",
   "status": "proved",
   "theorems": [
    "Qesa.Props.C62_shifted_accepted",
    "Qesa.Props.C62_contradiction",
    "Qesa.Props.C62_false_statement"
   ],
   "note": ""
  },
  {
   "property": "C63",
   "status": "proved",
   "theorems": [
    "Qesa.Props.C63_trees_exist",
    "Qesa.Props.C63_trees_iff",
    "Qesa.Props.C63_qesa_shifted",
    "Qesa.Props.C63_qesa_sound"
   ],
   "note": ""
  },
  {
   "property": "C64",
   "status": "proved",
   "theorems": [
    "Qesa.Props.C64_ipa_knowledge",
    "Qesa.Props.C64_ipa_soundness_error",
    "Qesa.Props.C64_alm_knowledge",
    "Qesa.Props.C64_alm_soundness_error",
    "Qesa.Props.C64_ipa_honest",
    "Qesa.Props.C64_alm_honest"
   ],
   "note": ""
  },
  {
   "property": "C65",
   "status": "proved",
   "theorems": [
    "Qesa.Props.C65_qesa_knowledge",
    "Qesa.Props.C65_qesa_soundness_error"
   ],
   "note": ""
  },
  {
   "property": "C66",
   "status": "proved",
   "theorems": [
    "Qesa.Props.C66_lmpa_knowledge",
    "Qesa.Props.C66_simple_knowledge",
    "Qesa.Props.C66_lmpa_honest",
    "Qesa.Props.C66_simple_honest"
   ],
   "note": ""
  },
  {
   "property": "C67",
   "status": "proved",
   "theorems": [
    "Qesa.Props.C67_chance_true",
    "Qesa.Props.C67_chance_domain",
    "Qesa.Props.C67_ipa_algebraic",
    "Qesa.Props.C67_domain",
    "Qesa.Props.C67_scalars",
    "Qesa.Props.C67_bound"
   ],
   "note": ""
  },
  {
   "property": "C68",
   "status": "proved",
   "theorems": [
    "Qesa.Props.C68_alm_algebraic",
    "Qesa.Props.C68_domain"
   ],
   "note": ""
  },
  {
   "property": "C69",
   "status": "proved",
   "theorems": [
    "Qesa.Props.C69_qesa_algebraic",
    "Qesa.Props.C69_domain"
   ],
   "note": ""
  },
  {
   "property": "C70",
   "status": "proved",
   "theorems": [
    "Qesa.Props.C70_copy_algebraic",
    "Qesa.Props.C70_domain"
   ],
   "note": ""
  },
  {
   "property": "C71",
   "status": "proved",
   "theorems": [
    "Qesa.Props.C71_lmpa_oracle",
    "Qesa.Props.C71_simple_oracle",
    "Qesa.Props.C71_lmpa_algebraic",
    "Qesa.Props.C71_simple_algebraic",
    "Qesa.Props.C71_domain",
    "Qesa.Props.C71_simple_domain"
   ],
   "note": ""
  },
  {
   "property": "C72",
   "status": "proved",
   "theorems": [
    "Qesa.Props.C72_ipa_scalars",
    "Qesa.Props.C72_alm_two",
    "Qesa.Props.C72_alm_two_test",
    "Qesa.Props.C72_alm_two_recover"
   ],
   "note": ""
  },
  {
   "property": "C73",
   "status": "proved",
   "theorems": [
    "Qesa.Props.C73_qesa_hiding",
    "Qesa.Props.C73_copy_hiding"
   ],
   "note": ""
  },
  {
   "property": "C74",
   "status": "proved",
   "theorems": [
    "Qesa.Props.C74_ipa_completeness_error",
    "Qesa.Props.C74_alm_completeness_error",
    "Qesa.Props.C74_alm_domain",
    "Qesa.Props.C74_chanceBoth_true",
    "Qesa.Props.C74_alm_parallel"
   ],
   "note": ""
  },
  {
   "property": "C75",
   "status": "proved",
   "theorems": [
    "Qesa.Props.C75_zk_completeness_error",
    "Qesa.Props.C75_copy_completeness_error"
   ],
   "note": ""
  },
  {
   "property": "C76",
   "status": "proved",
   "theorems": [
    "Qesa.Props.C76_test_iff",
    "Qesa.Props.C76_test_eighteen",
    "Qesa.Props.C76_test_count",
    "Qesa.Props.C76_test_nineteen"
   ],
   "note": ""
  },
  {
   "property": "C77",
   "status": "proved",
   "theorems": [
    "Qesa.Props.C77_vandermonde",
    "Qesa.Props.C77_lmpa_no_zk",
    "Qesa.Props.C77_simple_zk",
    "Qesa.Props.C77_efficient",
    "Qesa.Props.C77_commitment_combination",
    "Qesa.Props.C77_batch"
   ],
   "note": ""
  },
  {
   "property": "C78",
   "status": "proved",
   "theorems": [
    "Qesa.Props.C78_lmpaK_completeness_error",
    "Qesa.Props.C78_general_completeness_error",
    "Qesa.Props.C78_test_lmpaK",
    "Qesa.Props.C78_test_general"
   ],
   "note": ""
  },
  {
   "property": "C79",
   "status": "proved",
   "theorems": [
    "Qesa.Props.C79_simple_zero_knowledge",
    "Qesa.Props.C79_simulated_accepted",
    "Qesa.Props.C79_adaptive_zero_knowledge"
   ],
   "note": ""
  },
  {
   "property": "C80",
   "status": "proved",
   "theorems": [
    "Qesa.Props.C80_test_orth",
    "Qesa.Props.C80_test_sample",
    "Qesa.Props.C80_test_sample_twice",
    "Qesa.Props.C80_test_orth_error",
    "Qesa.Props.C80_test_sample_error",
    "Qesa.Props.C80_test_sample_twice_error",
    "Qesa.Props.C80_test_nozk",
    "Qesa.Props.C80_test_almzk"
   ],
   "note": ""
  },
  {
   "property": "C81",
   "status": "proved",
   "theorems": [
    "Qesa.Props.C81_solutions_returns_iff",
    "Qesa.Props.C81_solutions",
    "Qesa.Props.C81_test_helper_solutions",
    "Qesa.Props.C81_test_helper_solutions_error",
    "Qesa.Props.C81_test_qesa_inner",
    "Qesa.Props.C81_vitalik",
    "Qesa.Props.C81_test_helper_vitalik",
    "Qesa.Props.C81_test_qesa_vitalik",
    "Qesa.Props.C81_test_copy",
    "Qesa.Props.C81_test_copy_single"
   ],
   "note": ""
  },
  {
   "property": "C82",
   "status": "proved",
   "theorems": [
    "Qesa.Props.C82_float_loop",
    "Qesa.Props.C82_float_run",
    "Qesa.Props.C82_test_float",
    "Qesa.Props.C82_alm1_run",
    "Qesa.Props.C82_alm2_run",
    "Qesa.Props.C82_test_alm1",
    "Qesa.Props.C82_test_alm2",
    "Qesa.Props.C82_alm1_target",
    "Qesa.Props.C82_alm2_target",
    "Qesa.Props.C82_f64"
   ],
   "note": ""
  },
  {
   "property": "C83",
   "status": "proved",
   "theorems": [
    "Qesa.Props.C83_alm_verify_returns_iff",
    "Qesa.Props.C83_alm_create_returns_iff",
    "Qesa.Props.C83_alm_create_terminates",
    "Qesa.Props.C83_alm_verdict"
   ],
   "note": ""
  },
  {
   "property": "C84",
   "status": "proved",
   "theorems": [
    "Qesa.Props.C84_lmpa_create_returns_iff",
    "Qesa.Props.C84_lmpa_create_rectangular",
    "Qesa.Props.C84_lmpa_verify_returns_iff",
    "Qesa.Props.C84_simple_create_returns_iff",
    "Qesa.Props.C84_simple_verify_returns_iff"
   ],
   "note": ""
  },
  {
   "property": "C85",
   "status": "proved",
   "theorems": [
    "Qesa.Props.C85_lmpaK_create_returns_iff",
    "Qesa.Props.C85_general_create_returns_iff",
    "Qesa.Props.C85_lmpaK_verify_returns_iff",
    "Qesa.Props.C85_general_verify_returns_iff"
   ],
   "note": ""
  },
  {
   "property": "C86",
   "status": "proved",
   "theorems": [
    "Qesa.Props.C86_batch_returns_iff",
    "Qesa.Props.C86_inner_verify_returns_iff",
    "Qesa.Props.C86_alm_create_shapes",
    "Qesa.Props.C86_inner_create_needs",
    "Qesa.Props.C86_inner_create_shapes",
    "Qesa.Props.C86_inner_create_returns_iff",
    "Qesa.Props.C86_zk_create_needs",
    "Qesa.Props.C86_zk_create_shapes",
    "Qesa.Props.C86_copy_verify_returns_iff",
    "Qesa.Props.C86_copy_create_needs",
    "Qesa.Props.C86_copy_create_shapes"
   ],
   "note": ""
  },
  {
   "property": "C87",
   "status": "proved",
   "theorems": [
    "Qesa.Props.C87_order_prime",
    "Qesa.Props.C87_points",
    "Qesa.Props.C87_scalars",
    "Qesa.Props.C87_qesa_soundness",
    "Qesa.Props.C87_copy_soundness",
    "Qesa.Props.C87_lmpa_soundness",
    "Qesa.Props.C87_qesa_completeness",
    "Qesa.Props.C87_copy_completeness",
    "Qesa.Props.C87_tests"
   ],
   "note": ""
  },
  {
   "property": "C88",
   "status": "proved",
   "theorems": [
    "Qesa.Props.C88_debug_helpers",
    "Qesa.Props.C88_debug_arguments",
    "Qesa.Props.C88_debug_lmpa",
    "Qesa.Props.C88_provers",
    "Qesa.Props.C88_alm_prover",
    "Qesa.Props.C88_lmpa",
    "Qesa.Props.C88_ipa_verify",
    "Qesa.Props.C88_alm_verify",
    "Qesa.Props.C88_zk_verify",
    "Qesa.Props.C88_copy_verify",
    "Qesa.Props.C88_malleable",
    "Qesa.Props.C88_qesa_soundness",
    "Qesa.Props.C88_copy_soundness",
    "Qesa.Props.C88_mapping",
    "Qesa.Props.C88_mapping_wraps"
   ],
   "note": ""
  },
  {
   "property": "C89",
   "status": "proved",
   "theorems": [
    "Qesa.Props.C89_drift",
    "Qesa.Props.C89_drift_one",
    "Qesa.Props.C89_qesa_any",
    "Qesa.Props.C89_qesa_first",
    "Qesa.Props.C89_qesa_first_accepted"
   ],
   "note": ""
  },
  {
   "property": "C90",
   "status": "proved",
   "theorems": [
    "Qesa.Props.C90_ipa_unique",
    "Qesa.Props.C90_alm_unique",
    "Qesa.Props.C90_qesa_unique",
    "Qesa.Props.C90_copy_ignored",
    "Qesa.Props.C90_copy_unique",
    "Qesa.Props.C90_lmpa_unique",
    "Qesa.Props.C90_lmpa_surplus",
    "Qesa.Props.C90_lmpaK_ignored"
   ],
   "note": ""
  },
  {
   "property": "C91",
   "status": "proved",
   "theorems": [
    "Qesa.Props.C91_copy_any",
    "Qesa.Props.C91_copy_first",
    "Qesa.Props.C91_copy_one",
    "Qesa.Props.C91_copy_messages",
    "Qesa.Props.C91_copy_accepted"
   ],
   "note": ""
  },
  {
   "property": "C92",
   "status": "proved",
   "theorems": [
    "Qesa.Props.C92_forking",
    "Qesa.Props.C92_ipa_rewinding",
    "Qesa.Props.C92_ipa_extraction",
    "Qesa.Props.C92_ipa_knowledge",
    "Qesa.Props.C92_ipa_false",
    "Qesa.Props.C92_alm_rewinding",
    "Qesa.Props.C92_alm_extraction",
    "Qesa.Props.C92_alm_knowledge",
    "Qesa.Props.C92_alm_false",
    "Qesa.Props.C92_ipa_domain",
    "Qesa.Props.C92_alm_domain"
   ],
   "note": ""
  },
  {
   "property": "C93",
   "status": "proved",
   "theorems": [
    "Qesa.Props.C93_qesa_rewinding",
    "Qesa.Props.C93_qesa_extraction",
    "Qesa.Props.C93_qesa_knowledge",
    "Qesa.Props.C93_qesa_zero",
    "Qesa.Props.C93_qesa_sound",
    "Qesa.Props.C93_qesa_false",
    "Qesa.Props.C93_qesa_domain"
   ],
   "note": ""
  },
  {
   "property": "C94",
   "status": "proved",
   "theorems": [
    "Qesa.Props.C94_copy_rewinding",
    "Qesa.Props.C94_copy_extraction",
    "Qesa.Props.C94_copy_knowledge",
    "Qesa.Props.C94_copy_zero",
    "Qesa.Props.C94_copy_messages",
    "Qesa.Props.C94_copy_false",
    "Qesa.Props.C94_copy_domain"
   ],
   "note": ""
  },
  {
   "property": "C95",
   "status": "proved",
   "theorems": [
    "Qesa.Props.C95_lmpa_rewinding",
    "Qesa.Props.C95_lmpa_extraction",
    "Qesa.Props.C95_lmpa_knowledge",
    "Qesa.Props.C95_simple_rewinding",
    "Qesa.Props.C95_simple_extraction",
    "Qesa.Props.C95_simple_knowledge"
   ],
   "note": ""
  },
  {
   "property": "C96",
   "status": "proved",
   "theorems": [
    "Qesa.Props.C96_ipa_knowledge",
    "Qesa.Props.C96_ipa_false",
    "Qesa.Props.C96_alm_knowledge",
    "Qesa.Props.C96_alm_false",
    "Qesa.Props.C96_qesa_knowledge",
    "Qesa.Props.C96_qesa_sound",
    "Qesa.Props.C96_qesa_false",
    "Qesa.Props.C96_lmpa_knowledge",
    "Qesa.Props.C96_lmpa_false",
    "Qesa.Props.C96_simple_knowledge",
    "Qesa.Props.C96_simple_false",
    "Qesa.Props.C96_copy_false",
    "Qesa.Props.C96_ipa_domain",
    "Qesa.Props.C96_alm_domain",
    "Qesa.Props.C96_qesa_domain",
    "Qesa.Props.C96_copy_domain",
    "Qesa.Props.C96_lmpa_domain",
    "Qesa.Props.C96_simple_domain",
    "Qesa.Props.C96_ipa_unhashed"
   ],
   "note": ""
  },
  {
   "property": "C97",
   "status": "proved",
   "theorems": [
    "Qesa.Props.C97_extractor",
    "Qesa.Props.C97_ipa_extractor",
    "Qesa.Props.C97_alm_extractor",
    "Qesa.Props.C97_qesa_extractor",
    "Qesa.Props.C97_copy_extractor",
    "Qesa.Props.C97_lmpa_extractor",
    "Qesa.Props.C97_simple_extractor"
   ],
   "note": ""
  },
  {
   "property": "C98",
   "status": "proved",
   "theorems": [
    "Qesa.Props.C98_ipa_reduction",
    "Qesa.Props.C98_alm_reduction",
    "Qesa.Props.C98_qesa_reduction",
    "Qesa.Props.C98_qesa_bad",
    "Qesa.Props.C98_qesa_domain",
    "Qesa.Props.C98_copy_reduction",
    "Qesa.Props.C98_copy_domain"
   ],
   "note": ""
  },
  {
   "property": "C99",
   "status": "proved",
   "theorems": [
    "Qesa.Props.C99_lmpa_cheat",
    "Qesa.Props.C99_lmpa_exact",
    "Qesa.Props.C99_simple_cheat",
    "Qesa.Props.C99_simple_exact",
    "Qesa.Props.C99_ipa_cheat",
    "Qesa.Props.C99_ipa_exact",
    "Qesa.Props.C99_alm_bound",
    "Qesa.Props.C99_alm_soundness_error",
    "Qesa.Props.C99_alm_cheat",
    "Qesa.Props.C99_alm_exact",
    "Qesa.Props.C99_ipa_bound",
    "Qesa.Props.C99_ipa_soundness_error",
    "Qesa.Props.C99_ipa_exact_all"
   ],
   "note": ""
  },
  {
   "property": "C100",
   "status": "proved",
   "theorems": [
    "Qesa.Props.C100_lmpa_grinding",
    "Qesa.Props.C100_simple_grinding",
    "Qesa.Props.C100_ipa_grinding",
    "Qesa.Props.C100_alm_grinding",
    "Qesa.Props.C100_qesa_grinding",
    "Qesa.Props.C100_scalars",
    "Qesa.Props.C100_ristretto",
    "Qesa.Props.C100_ristretto_others"
   ],
   "note": ""
  },
  {
   "property": "C101",
   "status": "proved",
   "theorems": [
    "Qesa.Props.C101_every_draw_counts",
    "Qesa.Props.C101_draws_overwritten",
    "Qesa.Props.C101_ipa_size",
    "Qesa.Props.C101_alm_size",
    "Qesa.Props.C101_inner_size",
    "Qesa.Props.C101_qesa_size",
    "Qesa.Props.C101_copy_size",
    "Qesa.Props.C101_simple_draws",
    "Qesa.Props.C101_general_draws"
   ],
   "note": ""
  },
  {
   "property": "C102",
   "status": "proved",
   "theorems": [
    "Qesa.Props.C102_separate",
    "Qesa.Props.C102_successive",
    "Qesa.Props.C102_simple_shared"
   ],
   "note": ""
  },
  {
   "property": "C103",
   "status": "proved",
   "theorems": [
    "Qesa.Props.C103_lmpa_verdict",
    "Qesa.Props.C103_lmpa_rejected",
    "Qesa.Props.C103_simple_verdict",
    "Qesa.Props.C103_simple_rejected",
    "Qesa.Props.C103_alm_verdict",
    "Qesa.Props.C103_alm_rejected",
    "Qesa.Props.C103_ipa_fixed_proof",
    "Qesa.Props.C103_qesa_transcripts",
    "Qesa.Props.C103_qesa_rejected"
   ],
   "note": ""
  },
  {
   "property": "C104",
   "status": "proved",
   "theorems": [
    "Qesa.Props.C104_ipa_fixed",
    "Qesa.Props.C104_alm_fixed",
    "Qesa.Props.C104_qesa_fixed",
    "Qesa.Props.C104_copy_fixed",
    "Qesa.Props.C104_lmpa_fixed",
    "Qesa.Props.C104_simple_fixed",
    "Qesa.Props.C104_alm_replay",
    "Qesa.Props.C104_qesa_replay",
    "Qesa.Props.C104_copy_replay",
    "Qesa.Props.C104_simple_replay"
   ],
   "note": ""
  },
  {
   "property": "C105",
   "status": "proved",
   "theorems": [
    "Qesa.Props.C105_ipa_create",
    "Qesa.Props.C105_ipa_verify",
    "Qesa.Props.C105_alm_create",
    "Qesa.Props.C105_alm_verify",
    "Qesa.Props.C105_inner_create",
    "Qesa.Props.C105_inner_verify",
    "Qesa.Props.C105_qesa_create",
    "Qesa.Props.C105_copy_create",
    "Qesa.Props.C105_copy_verify",
    "Qesa.Props.C105_lmpa_create",
    "Qesa.Props.C105_lmpa_verify",
    "Qesa.Props.C105_lmpaK_create",
    "Qesa.Props.C105_lmpaK_verify",
    "Qesa.Props.C105_simple_create",
    "Qesa.Props.C105_simple_verify",
    "Qesa.Props.C105_general_create",
    "Qesa.Props.C105_general_verify"
   ],
   "note": ""
  },
  {
   "property": "C106",
   "status": "proved",
   "theorems": [
    "Qesa.Props.C106_session_completeness",
    "Qesa.Props.C106_linear_sessions"
   ],
   "note": ""
  },
  {
   "property": "C107",
   "status": "proved",
   "theorems": [
    "Qesa.Props.C107_session_indistinguishable",
    "Qesa.Props.C107_session_same_distribution"
   ],
   "note": ""
  },
  {
   "property": "C108",
   "status": "proved",
   "theorems": [
    "Qesa.Props.C108_session_zero_knowledge"
   ],
   "note": ""
  },
  {
   "property": "C109",
   "status": "proved",
   "theorems": [
    "Qesa.Props.C109_session_soundness"
   ],
   "note": ""
  },
  {
   "property": "C110",
   "status": "proved",
   "theorems": [
    "Qesa.Props.C110_adaptive_sessions"
   ],
   "note": ""
  },
  {
   "property": "C111",
   "status": "proved",
   "theorems": [
    "Qesa.Props.C111_session_knowledge",
    "Qesa.Props.C111_encoding"
   ],
   "note": ""
  },
  {
   "property": "C112",
   "status": "proved",
   "theorems": [
    "Qesa.Props.C112_session_extractor"
   ],
   "note": ""
  },
  {
   "property": "C113",
   "status": "proved",
   "theorems": [
    "Qesa.Props.C113_session_soundness",
    "Qesa.Props.C113_session_knowledge",
    "Qesa.Props.C113_session_extractor"
   ],
   "note": ""
  },
  {
   "property": "C114",
   "status": "proved",
   "theorems": [
    "Qesa.Props.C114_session_level",
    "Qesa.Props.C114_session_conditional",
    "Qesa.Props.C114_session_reduction"
   ],
   "note": ""
  },
  {
   "property": "C115",
   "status": "proved",
   "theorems": [
    "Qesa.Props.C115_session_completeness",
    "Qesa.Props.C115_zero_knowledge"
   ],
   "note": ""
  },
  {
   "property": "C116",
   "status": "proved",
   "theorems": [
    "Qesa.Props.C116_all_proofs",
    "Qesa.Props.C116_all_openings",
    "Qesa.Props.C116_level"
   ],
   "note": ""
  }
 ]
}
