{
 "claims": [
  {
   "property": "C01",
   "status": "proved",
   "theorems": [
    "DVO.GGM.C01_create_recurrence",
    "DVO.GGM.C01_create_no_ub",
    "DVO.GGM.C01_create_ok_iff",
    "DVO.GGM.C01_create_ok_exact"
   ],
   "note": "num_leaves < 2^31; level count is a float oracle"
  },
  {
   "property": "C02",
   "status": "proved",
   "theorems": [
    "DVO.GGM.C02_sibling_xor"
   ],
   "note": ""
  },
  {
   "property": "C03",
   "status": "proved",
   "theorems": [
    "DVO.GGM.C03_punctured"
   ],
   "note": ""
  },
  {
   "property": "C04",
   "status": "proved",
   "theorems": [
    "DVO.GGM.C04_ignores_path_entries"
   ],
   "note": ""
  },
  {
   "property": "C05",
   "status": "proved",
   "theorems": [
    "DVO.GGM.C05_create_invalid_iff",
    "DVO.GGM.C05_getValue",
    "DVO.GGM.C05_leaf",
    "DVO.GGM.C05_leaf_create",
    "DVO.GGM.C05_createFromXor_invalid"
   ],
   "note": ""
  },
  {
   "property": "C06",
   "status": "partial",
   "theorems": [
    "DVO.GGM.C06_createFromXor_safe_partial",
    "DVO.GGM.C06_negation_negative_index",
    "DVO.GGM.C06_negation_extra_row",
    "DVO.GGM.C06_negation_extra_key",
    "DVO.GGM.C06_negation_missing_key"
   ],
   "note": "False of the code as stated: four undefined-behaviour witnesses. Safety proved under the documented contract."
  },
  {
   "property": "C07",
   "status": "proved",
   "theorems": [
    "DVO.ROT.C07_all_but_one"
   ],
   "note": ""
  },
  {
   "property": "C08",
   "status": "proved",
   "theorems": [
    "DVO.ROT.C08_sender_view",
    "DVO.ROT.C08_any_receiver"
   ],
   "note": "Ideal OT"
  },
  {
   "property": "C09",
   "status": "proved",
   "theorems": [
    "DVO.ROT.C09_receiver_view"
   ],
   "note": "Ideal OT"
  },
  {
   "property": "C10",
   "status": "proved",
   "theorems": [
    "DVO.SPFSS.C10_point_function"
   ],
   "note": ""
  },
  {
   "property": "C11",
   "status": "proved",
   "theorems": [
    "DVO.SPFSS.C11_message_masked",
    "DVO.SPFSS.C11_view_independent"
   ],
   "note": ""
  },
  {
   "property": "C12",
   "status": "proved",
   "theorems": [
    "DVO.ROT.C12_receiver_rejects",
    "DVO.ROT.C12_receiver_accepts",
    "DVO.SPFSS.C12_value_rejects",
    "DVO.SPFSS.C12_index_rejects",
    "DVO.SPFSS.C12_accepts"
   ],
   "note": ""
  },
  {
   "property": "C13",
   "status": "proved",
   "theorems": [
    "DVO.Cuckoo.C13_hash",
    "DVO.Cuckoo.C13_hash_local",
    "DVO.Cuckoo.C13_hash_invalid"
   ],
   "note": ""
  },
  {
   "property": "C14",
   "status": "proved",
   "theorems": [
    "DVO.Cuckoo.C14_hashSimple",
    "DVO.Cuckoo.C14_total_size"
   ],
   "note": ""
  },
  {
   "property": "C15",
   "status": "proved",
   "theorems": [
    "DVO.Cuckoo.C15_threads"
   ],
   "note": ""
  },
  {
   "property": "C16",
   "status": "proved",
   "theorems": [
    "DVO.Cuckoo.C16_hashCuckoo"
   ],
   "note": ""
  },
  {
   "property": "C17",
   "status": "proved",
   "theorems": [
    "DVO.Cuckoo.C17_outcomes",
    "DVO.Cuckoo.C17_distinct_first_choices"
   ],
   "note": ""
  },
  {
   "property": "C18",
   "status": "proved",
   "theorems": [
    "DVO.MPFSS.C18_shares",
    "DVO.MPFSS.C18_pointSum_distinct",
    "DVO.MPFSS.C18_whenever_ok"
   ],
   "note": ""
  },
  {
   "property": "C19",
   "status": "proved",
   "theorems": [
    "DVO.MPFSS.C19_updateBuckets",
    "DVO.MPFSS.C19_value_provider",
    "DVO.MPFSS.C19_index_provider"
   ],
   "note": ""
  },
  {
   "property": "C20",
   "status": "partial",
   "theorems": [
    "DVO.MPFSS.C20_negation_boundary",
    "DVO.MPFSS.C20_negation_negative",
    "DVO.MPFSS.C20_above_size_partial"
   ],
   "note": "False of the code for indices[i] = output.size() and for negative indices (witnesses proved); indices above the size are rejected."
  },
  {
   "property": "C21",
   "status": "partial",
   "theorems": [
    "DVO.MPFSS.C21_negation_repeated_accepted",
    "DVO.MPFSS.C21_rejected_if_hashing_fails_partial",
    "DVO.MPFSS.C21_repeated_indices_add"
   ],
   "note": "First half false of the code (witness proved): repeated indices are only rejected if cuckoo hashing fails. Second half (the values add up) proved."
  },
  {
   "property": "C22",
   "status": "proved",
   "theorems": [
    "DVO.MPFSS.C22_single_masked_message",
    "DVO.MPFSS.C22_perfectly_hiding"
   ],
   "note": ""
  },
  {
   "property": "C23",
   "status": "proved",
   "theorems": [
    "DVO.Gilboa.C23_product",
    "DVO.Gilboa.C23_which_ot",
    "DVO.Gilboa.C23_uint",
    "DVO.Gilboa.C23_ZZ_p",
    "DVO.Gilboa.C23_zz_p",
    "DVO.Gilboa.C23_gf128"
   ],
   "note": ""
  },
  {
   "property": "C24",
   "status": "proved",
   "theorems": [
    "DVO.Gilboa.C24_pack_roundtrip",
    "DVO.Gilboa.C24_wrong_length"
   ],
   "note": ""
  },
  {
   "property": "C25",
   "status": "partial",
   "theorems": [
    "DVO.Gilboa.C25_negation_signed",
    "DVO.Gilboa.C25_unsigned_partial"
   ],
   "note": "False as stated: concrete int32_t run with a wrong product. True for unsigned types."
  },
  {
   "property": "C26",
   "status": "proved",
   "theorems": [
    "DVO.Gilboa.C26_vector_provider",
    "DVO.Gilboa.C26_vector_provider_never_later",
    "DVO.Gilboa.C26_value_provider",
    "DVO.Gilboa.C26_value_provider_length"
   ],
   "note": "For lengths whose number of OTs fits an int (otherwise C56)."
  },
  {
   "property": "C27",
   "status": "proved",
   "theorems": [
    "DVO.C27_uint",
    "DVO.C27_uint_truncates",
    "DVO.C27_ZZ_p",
    "DVO.C27_zz_p",
    "DVO.C27_zzp_shift",
    "DVO.C27_ntl_reduces",
    "DVO.C27_gf128",
    "DVO.C27_negation_signed"
   ],
   "note": "Signed types are outside the claim; witness that they fail is included"
  },
  {
   "property": "C28",
   "status": "partial",
   "theorems": [
    "DVO.C28_ZZ_p_partial",
    "DVO.C28_zz_p_partial",
    "DVO.C28_uint",
    "DVO.C28_nan",
    "DVO.C28_negation_short_hash",
    "DVO.C28_negation_large_modulus"
   ],
   "note": "Proved for 128-bit hashes and moduli below 2^128; false for shorter hashes and larger moduli (witnesses)"
  },
  {
   "property": "C29",
   "status": "proved",
   "theorems": [
    "DVO.VOLE.C29_correlation",
    "DVO.VOLE.C29_no_deadlock"
   ],
   "note": "Both parties honest (the environments fit together); any mixture of roles."
  },
  {
   "property": "C30",
   "status": "proved",
   "theorems": [
    "DVO.VOLE.C30_length_sender",
    "DVO.VOLE.C30_length_receiver",
    "DVO.VOLE.C30_product"
   ],
   "note": "Any peer, any state."
  },
  {
   "property": "C31",
   "status": "proved",
   "theorems": [
    "DVO.VOLE.C31_once_sender",
    "DVO.VOLE.C31_once_receiver",
    "DVO.VOLE.C31_ghosts_grow"
   ],
   "note": "Any peer, any mixture of roles, failing calls included."
  },
  {
   "property": "C32",
   "status": "proved",
   "theorems": [
    "DVO.VOLE.C32_delta"
   ],
   "note": ""
  },
  {
   "property": "C33",
   "status": "proved",
   "theorems": [
    "DVO.VOLE.C33_expansions_sender",
    "DVO.VOLE.C33_expansions_receiver",
    "DVO.VOLE.C33_terminates_sender",
    "DVO.VOLE.C33_terminates_receiver",
    "DVO.VOLE.C33_example"
   ],
   "note": "Any peer; objects used in one role whose precomputations succeed."
  },
  {
   "property": "C34",
   "status": "proved",
   "theorems": [
    "DVO.VOLE.C34_lock_step"
   ],
   "note": ""
  },
  {
   "property": "C35",
   "status": "partial",
   "theorems": [
    "DVO.VOLE.C35_no_sanity_error_sender_partial",
    "DVO.VOLE.C35_no_sanity_error_receiver_partial",
    "DVO.VOLE.C35_seeds_sender",
    "DVO.VOLE.C35_seeds_receiver",
    "DVO.VOLE.C35_mixed_roles_false"
   ],
   "note": "False of the code if an object changes roles (witness proved); true for objects used in one role."
  },
  {
   "property": "C36",
   "status": "partial",
   "theorems": [
    "DVO.VOLE.C36_precompute_sender",
    "DVO.VOLE.C36_precompute_receiver",
    "DVO.VOLE.C36_batch_positive",
    "DVO.VOLE.C36_fits_sender_partial",
    "DVO.VOLE.C36_fits_receiver_partial",
    "DVO.VOLE.C36_fits_false",
    "DVO.VOLE.C36_overflow_ub",
    "DVO.Create.C36_created"
   ],
   "note": "Batch size and choice of the row proved. Bootstrap expansions fit their row for objects created with up to 128 bits of statistical security (C36_created), but not for arbitrary bucket counts (witness). Signed overflow for batch sizes near 2^63."
  },
  {
   "property": "C37",
   "status": "partial",
   "theorems": [
    "DVO.VOLE.C37_rejects_partial",
    "DVO.VOLE.C37_negative_ub",
    "DVO.VOLE.C37_zero_ok"
   ],
   "note": "False of the code: after precomputation size 0 returns OK and negative sizes are undefined behaviour (witnesses)."
  },
  {
   "property": "C38",
   "status": "partial",
   "theorems": [
    "DVO.VOLE.C38_shape",
    "DVO.VOLE.C38_entries",
    "DVO.VOLE.C38_same",
    "DVO.VOLE.C38_compilers_false"
   ],
   "note": "False for two different compilers (witness): the order of evaluation of the arguments of MakeUint128(rng(), rng()) is unspecified. With one compiler and library the generators are equal; shape and entries hold against any peer."
  },
  {
   "property": "C39",
   "status": "partial",
   "theorems": [
    "DVO.VOLE.C39_generated_partial",
    "DVO.VOLE.C39_false"
   ],
   "note": "False of the code (witness: a failed run, then a run that returns an uninitialised element). True of objects whose expansions as a receiver did not fail."
  },
  {
   "property": "C40",
   "status": "proved",
   "theorems": [
    "DVO.RNG.C40_counter_mode",
    "DVO.RNG.C40_after_seed",
    "DVO.RNG.load128_byte"
   ],
   "note": ""
  },
  {
   "property": "C41",
   "status": "partial",
   "theorems": [
    "DVO.RNG.C41_negation",
    "DVO.RNG.C41_odd_sizes",
    "DVO.RNG.C41_even_sizes_partial"
   ],
   "note": "False of the code for odd buffer sizes (every size-th word is 0, witness proved); true for even sizes, which are all that the library uses."
  },
  {
   "property": "C42",
   "status": "partial",
   "theorems": [
    "DVO.RNG.C42_negation",
    "DVO.RNG.C42_negation_odd",
    "DVO.RNG.C42_after_throw",
    "DVO.RNG.C42_first_throw_partial"
   ],
   "note": "False of the code: after the exception the next calls return words again, and odd buffer sizes return more words. The first exception comes at the right call."
  },
  {
   "property": "C43",
   "status": "proved",
   "theorems": [
    "DVO.RNG.C43_no_repetition",
    "DVO.RNG.C43_reseed",
    "DVO.RNG.C43_short_seed"
   ],
   "note": ""
  },
  {
   "property": "C44",
   "status": "proved",
   "theorems": [
    "DVO.GF128.C44_ring",
    "DVO.GF128.C44_ring_portable",
    "DVO.GF128.C44_conversions"
   ],
   "note": ""
  },
  {
   "property": "C45",
   "status": "proved",
   "theorems": [
    "DVO.GF128.C45_product",
    "DVO.GF128.C45_implementations_agree",
    "DVO.GF128.C45_poly_faithful"
   ],
   "note": ""
  },
  {
   "property": "C46",
   "status": "proved",
   "theorems": [
    "DVO.GF128.C46_inverse",
    "DVO.GF128.C46_no_zero_divisors"
   ],
   "note": ""
  },
  {
   "property": "C47",
   "status": "proved",
   "theorems": [
    "DVO.GF128.C47_generator",
    "DVO.GF128.C47_order"
   ],
   "note": ""
  },
  {
   "property": "C48",
   "status": "proved",
   "theorems": [
    "DVO.NTL.C48_cache_follows_modulus"
   ],
   "note": ""
  },
  {
   "property": "C49",
   "status": "proved",
   "theorems": [
    "DVO.C49_schedule_independent",
    "DVO.C49_deadlock_independent"
   ],
   "note": ""
  },
  {
   "property": "C50",
   "status": "partial",
   "theorems": [
    "DVO.ROT.C50_rot_sender_false",
    "DVO.ROT.C50_rot_receiver_false",
    "DVO.ROT.C50_rot_unnoticed",
    "DVO.SPFSS.C50_spfss_value_false",
    "DVO.SPFSS.C50_spfss_index_false",
    "DVO.SPFSS.C50_spfss_sizes_false",
    "DVO.MPFSS.C50_mpfss_index_false",
    "DVO.MPFSS.C50_mpfss_value_false",
    "DVO.MPFSS.C50_mpfss_boundary_false",
    "DVO.MPFSS.C50_mpfss_buckets_partial",
    "DVO.Gilboa.C50_gilboa_size_partial",
    "DVO.Gilboa.C50_gilboa_false",
    "DVO.VOLE.C50_vole_run_false",
    "DVO.VOLE.C50_vole_run_reached_false",
    "DVO.VOLE.C50_batch_partial",
    "DVO.Create.C50_create_false"
   ],
   "note": "False of the code at every layer: most errors are returned without telling the peer, which waits forever (proved for all interleavings, with witnesses). The partial theorems give the errors that both sides return."
  },
  {
   "property": "C51",
   "status": "proved",
   "theorems": [
    "DVO.Par.C51_hash",
    "DVO.Par.C51_create",
    "DVO.Par.C51_unpack",
    "DVO.Par.C51_sums",
    "DVO.Par.C51_differences",
    "DVO.Par.C51_buckets",
    "DVO.Par.C51_build",
    "DVO.Par.C51_build_failing",
    "DVO.Par.C51_build_succeeds",
    "DVO.Cuckoo.C15_threads"
   ],
   "note": "Any interleaving of the steps of the iterations (ReceiveTrees: any order of whole iterations, because of the shared variable status; no iteration fails there). HashSimple is C15."
  },
  {
   "property": "C52",
   "status": "partial",
   "theorems": [
    "DVO.Promotion.C52_mul",
    "DVO.Promotion.C52_false",
    "DVO.Promotion.C52_other_types_partial",
    "DVO.Promotion.C52_add_sub",
    "DVO.Promotion.C52_signed_false",
    "DVO.Promotion.C52_signed",
    "DVO.Promotion.C52_signed_narrow_partial",
    "DVO.Promotion.C52_gilboa_mul",
    "DVO.Promotion.C52_gilboa",
    "DVO.Promotion.C52_value_shares",
    "DVO.Promotion.C52_value_shares_false",
    "DVO.Promotion.C52_expand",
    "DVO.Promotion.C52_expand16",
    "DVO.Promotion.C52_expand_false"
   ],
   "note": "False of the code for uint16_t: the products of the MPFSS value shares and of the expansion are computed in int and overflow (witnesses, and the exact condition). True for the other unsigned types, for int8_t and int16_t, and for uint16_t in Gilboa's protocol."
  },
  {
   "property": "C53",
   "status": "proved",
   "theorems": [
    "DVO.ROT.C53_conversions"
   ],
   "note": ""
  },
  {
   "property": "C54",
   "status": "proved",
   "theorems": [
    "DVO.Create.C54_null",
    "DVO.Create.C54_negative",
    "DVO.Create.C54_accepted",
    "DVO.Create.C54_mpfss_pair",
    "DVO.Create.C54_vole_pair"
   ],
   "note": "NaN is accepted by all of them."
  },
  {
   "property": "C55",
   "status": "partial",
   "theorems": [
    "DVO.Cuckoo.C55_negation_two_inputs",
    "DVO.Cuckoo.C17_distinct_first_choices"
   ],
   "note": "False of the code: two inputs with the same first bucket are never inserted. Success is proved for distinct first choices."
  },
  {
   "property": "C56",
   "status": "partial",
   "theorems": [
    "DVO.Gilboa.C56_negation_overflow",
    "DVO.Gilboa.C56_value_provider_ub_iff",
    "DVO.Gilboa.C56_good_lengths_partial"
   ],
   "note": "False as stated: signed overflow for long vectors; the exact bound is proved."
  },
  {
   "property": "C57",
   "status": "proved",
   "theorems": [
    "DVO.Gilboa.C57_chosen_ot",
    "DVO.Gilboa.C57_correlated_ot",
    "DVO.Gilboa.full_uint",
    "DVO.Gilboa.full_gf128",
    "DVO.Gilboa.useCorrelated_gf128"
   ],
   "note": ""
  },
  {
   "property": "C58",
   "status": "proved",
   "theorems": [
    "DVO.Gilboa.C58_any_value_provider",
    "DVO.Gilboa.C58_honest"
   ],
   "note": ""
  },
  {
   "property": "C59",
   "status": "partial",
   "theorems": [
    "DVO.VOLE.C59_sender_partial",
    "DVO.VOLE.C59_receiver_partial",
    "DVO.VOLE.C59_ok_partial",
    "DVO.VOLE.C59_sparse",
    "DVO.VOLE.C59_false"
   ],
   "note": "False of the code: a Precompute that is refused after the generator was cleared leaves the object ready, and a run then returns OK with a vector u that has at most noise-many nonzero elements per expansion (witness proved: 1000000 elements, at most 1324 nonzero). True if the precomputations returned OK."
  },
  {
   "property": "C60",
   "status": "proved",
   "theorems": [
    "DVO.VOLE.C60_progress"
   ],
   "note": ""
  },
  {
   "property": "C61",
   "status": "partial",
   "theorems": [
    "DVO.ROT.C61_ZZ_p_partial",
    "DVO.ROT.C61_zz_p_partial",
    "DVO.ROT.C61_false",
    "DVO.VOLE.C61_generator_partial"
   ],
   "note": "False of the code when the number of leaves reaches 2^31 (the int accumulator wraps; witness with 2^32 leaves), and for moduli above 2^128 (C28). Proved otherwise by the hybrid argument."
  },
  {
   "property": "C62",
   "status": "proved",
   "theorems": [
    "DVO.Cuckoo.C62_create",
    "DVO.Cuckoo.C62_buckets",
    "DVO.Cuckoo.C62_empty"
   ],
   "note": "The floating-point estimate itself is not modelled; its conversion to int64_t is (C65)."
  },
  {
   "property": "C63",
   "status": "proved",
   "theorems": [
    "DVO.MPFSS.C63_value_provider",
    "DVO.MPFSS.C63_index_provider"
   ],
   "note": ""
  },
  {
   "property": "C64",
   "status": "partial",
   "theorems": [
    "DVO.Gilboa.C64_ZZ_p_partial",
    "DVO.Gilboa.C64_zz_p_partial",
    "DVO.Gilboa.C64_unchecked",
    "DVO.Gilboa.C64_short_false",
    "DVO.Gilboa.C64_false"
   ],
   "note": "False of the code in two ways, each with a witness: for moduli that do not need 8 or 16 bytes CanBeHashedInto looks at the wrong remainder (advantage 1/4 at 40 bits; for 15 bytes the check never fails), and elsewhere each element is masked once per bit of x but counted once (advantage over 126 * 2^-40 at 40 bits). Proved with the factor 8 * SizeOf() for moduli of 8 or 16 bytes, by a hybrid argument over all masks. Unsigned integers and gf128 are perfectly hidden (C57)."
  },
  {
   "property": "C65",
   "status": "partial",
   "theorems": [
    "DVO.Create.C65_false",
    "DVO.Create.C65_out_of_range",
    "DVO.Create.C65_precompute",
    "DVO.Create.C67_huge_false",
    "DVO.Create.C65_partial"
   ],
   "note": "False of the code: NaN and very large values are accepted, and the conversion of the estimated number of buckets to int64_t is then undefined behaviour in the first precomputation or MPFSS run (proved for every estimate outside the range; C67_huge_false shows it for numbers above 2^71 bits; that NaN yields NaN is by reading the formula). C65_partial covers the computation of the buckets if the estimate is in range; the rest of the calls is C18, C29 and C60."
  },
  {
   "property": "C66",
   "status": "proved",
   "theorems": [
    "DVO.Contexts.C66_calls",
    "DVO.Contexts.C66_protocols",
    "DVO.Contexts.C66_expand",
    "DVO.Contexts.C66_product",
    "DVO.Contexts.C66_more_threads_false"
   ],
   "note": "For the products, under the hypothesis that Eigen uses at most as many threads as OpenMP regions (its default); C66_more_threads_false shows that this is needed. That Eigen parallelises the sparse product by columns, and that thread i of a team is the same thread in consecutive regions, is assumed."
  },
  {
   "property": "C67",
   "status": "proved",
   "theorems": [
    "DVO.Cuckoo.C67_enough",
    "DVO.Cuckoo.C67_range",
    "DVO.Cuckoo.C67_noise",
    "DVO.Cuckoo.C67_mono",
    "DVO.Cuckoo.C67_huge",
    "DVO.Cuckoo.C67_search",
    "DVO.Cuckoo.C67_search_unique",
    "DVO.Create.C67_created",
    "DVO.Create.C36_created"
   ],
   "note": "The formula is over the real numbers, with the error function as an integral; for three hash functions the theorems hold for every computation of it with a relative error of at most 2^-40 (Faithful), which is assumed of the doubles. The search for two hash functions is in exact arithmetic."
  },
  {
   "property": "C68",
   "status": "proved",
   "theorems": [
    "DVO.GGM.C68_deep",
    "DVO.GGM.C68_shallow",
    "DVO.GGM.C68_good",
    "DVO.GGM.C68_tree",
    "DVO.Cuckoo.C68_accepted",
    "DVO.Cuckoo.C68_rejected",
    "DVO.Create.C68_together",
    "DVO.Create.C68_smooth",
    "DVO.Create.C68_correlation",
    "DVO.Create.C68_success",
    "DVO.Create.C68_uint",
    "DVO.Create.C68_zz_p",
    "DVO.Create.C68_ZZ_p",
    "DVO.Create.C68_too_much"
   ],
   "note": "The formulas are over the real numbers; the theorems hold for every computation of them with a relative error of at most 2^-40, which is assumed of the doubles. What is left to luck (Lucky) is that sampling ends and that cuckoo hashing succeeds."
  },
  {
   "property": "C69",
   "status": "proved",
   "theorems": [
    "DVO.GF128.C69_sage",
    "DVO.GF128.C69_inverse",
    "DVO.GGM.C69_constructor",
    "DVO.GGM.C69_constructor2",
    "DVO.GGM.C69_messages",
    "DVO.GGM.C69_getValue",
    "DVO.Cuckoo.C69_messages",
    "DVO.Cuckoo.C69_buckets",
    "DVO.Tests.C69_types",
    "DVO.Tests.C69_rot",
    "DVO.Tests.C69_rot_messages",
    "DVO.Tests.C69_spfss",
    "DVO.Tests.C69_spfss_null",
    "DVO.Tests.C69_gilboa",
    "DVO.Tests.C69_conversions",
    "DVO.Tests.C69_gilboa_messages",
    "DVO.Tests.C69_mpfss",
    "DVO.Tests.C69_mpfss_messages",
    "DVO.Tests.C69_mpfss_repeating",
    "DVO.Tests.C69_zz_p",
    "DVO.Tests.C69_gf128",
    "DVO.Tests.C69_vole_types",
    "DVO.Tests.C69_vole_small",
    "DVO.Tests.C69_vole_large"
   ],
   "note": "DESIGN.md maps every unit test to theorems. The calls that the tests make, with all their element types, for ranges of arguments that include theirs. Luck remains a hypothesis where the protocols need it (MPFSS: the indices can be hashed; VOLE: Lucky). The four tests that depend on what AES is like are in C73 and C74."
  },
  {
   "property": "C70",
   "status": "proved",
   "theorems": [
    "DVO.Clients.C70_ZZ_p",
    "DVO.Clients.C70_moduli",
    "DVO.Clients.C70_lengths",
    "DVO.Clients.C70_sizes",
    "DVO.Clients.C70_vole",
    "DVO.Clients.C70_gilboa",
    "DVO.Clients.C70_spfss",
    "DVO.Clients.C70_unknown",
    "DVO.Clients.C70_dispatch",
    "DVO.Clients.C70_run",
    "DVO.Clients.C70_precompute",
    "DVO.Clients.C70_spfss_benchmark",
    "DVO.Clients.C70_gilboa_benchmark",
    "DVO.Clients.C70_mpfss_benchmark_hangs"
   ],
   "note": "Luck (Ready contains Lucky) remains a hypothesis for the vector OLE. The iterations that google-benchmark decides on are any number n; the loop of the other thread has a bound on its iterations in the model that must not be below n. The benchmark of the MPFSS never ends: C70_mpfss_benchmark_hangs."
  },
  {
   "property": "C71",
   "status": "proved",
   "theorems": [
    "DVO.Cuckoo.C71_cuckoo",
    "DVO.Cuckoo.C71_simple",
    "DVO.Cuckoo.C71_ideal"
   ],
   "note": "About an ideal random function, not about AES; that AES with a random key cannot be told from one is a cryptographic assumption and not claimed. The test of the number of bits is over the real numbers with a relative error of at most 2^-40 (FaithfulBits)."
  },
  {
   "property": "C72",
   "status": "proved",
   "theorems": [
    "DVO.Dist.C72_conforms",
    "DVO.Dist.C72_draw",
    "DVO.Dist.C72_indices",
    "DVO.Dist.C72_noise",
    "DVO.Dist.C72_code"
   ],
   "note": "About an ideal random function, not about AES. The distribution is that of libstdc++, from its documentation and source as remembered; the protocol theorems (C29, C60, C68) allow for any distribution."
  },
  {
   "property": "C73",
   "status": "proved",
   "theorems": [
    "DVO.AES.C73_sbox",
    "DVO.AES.C73_vectors",
    "DVO.AES.C73_bijective",
    "DVO.AES.C73_blocks",
    "DVO.AES.C73_cuckoo"
   ],
   "note": "AES is defined in Spec/AES.lean, with the bytes of a block in little-endian order, and compared with the examples of the standards (C73_vectors). C73_cuckoo is computed by the kernel."
  },
  {
   "property": "C74",
   "status": "proved",
   "theorems": [
    "DVO.RandomTests.C74_broken",
    "DVO.RandomTests.C74_bits",
    "DVO.RandomTests.C74_reals",
    "DVO.RandomTests.C74_full",
    "DVO.RandomTests.C74_overflow",
    "DVO.RandomTests.C74_words",
    "DVO.RandomTests.C74_noticed"
   ],
   "note": "About an ideal random function, not about AES. Doubles are rational numbers with an accuracy that is assumed (Accurate); the final comparison in UniformReals is exact."
  },
  {
   "property": "C75",
   "status": "proved",
   "theorems": [
    "DVO.C75_rot_sender",
    "DVO.C75_rot_receiver",
    "DVO.C75_spfss_value",
    "DVO.C75_spfss_index",
    "DVO.C75_mpfss_value",
    "DVO.C75_mpfss_index",
    "DVO.C75_gilboa_vector",
    "DVO.C75_gilboa_value",
    "DVO.VOLE.C75_precompute_sender",
    "DVO.VOLE.C75_precompute_receiver",
    "DVO.VOLE.C75_run_sender",
    "DVO.VOLE.C75_run_receiver",
    "DVO.VOLE.C75_first_run_sender",
    "DVO.VOLE.C75_first_run_receiver",
    "DVO.VOLE.C75_transfers",
    "DVO.VOLE.C75_sublinear",
    "DVO.VOLE.C75_setup",
    "DVO.VOLE.C75_total_sender",
    "DVO.VOLE.C75_total_receiver"
   ],
   "note": "Oblivious transfers are ideal and are counted; the bytes that the OT extension needs for them are not. The lengths that precede a message, and the sizes of elements on the wire, are not counted (messages are lists). The theorems on precomputations and runs need fewer than 2^31 buckets (ModerateBuckets, which C75_sublinear derives for objects made by Create); the numbers need the formulas of C67 and C68 (Faithful, FaithfulDepth)."
  },
  {
   "property": "C76",
   "status": "proved",
   "theorems": [
    "DVO.Permutations.C76_aes",
    "DVO.Permutations.C76_blocks",
    "DVO.Permutations.C76_tables",
    "DVO.Permutations.C76_noise",
    "DVO.Permutations.C76_code",
    "DVO.Permutations.C76_tests",
    "DVO.Permutations.C76_overflow"
   ],
   "note": "About a uniformly random permutation, not about AES; that AES with a random key cannot be told from one is a cryptographic assumption and not claimed."
  },
  {
   "property": "C77",
   "status": "partial",
   "theorems": [
    "DVO.Cuckoo.C77_negation",
    "DVO.Cuckoo.C77_noise",
    "DVO.Cuckoo.C77_lower",
    "DVO.Cuckoo.C77_buckets",
    "DVO.Cuckoo.C77_birthday_partial",
    "DVO.MPFSS.C77_hangs",
    "DVO.VOLE.C77_vole"
   ],
   "note": "False of the code: for 40 bits and every number of noise indices, hashing fails with a probability of more than 2^-36, because the three buckets of an input need not be different. C77_hangs: the MPFSS then hangs. C77_vole: so does the first run of the vector OLE, for up to 2221 elements. What is proved in the other direction is the birthday bound on first buckets (C77_birthday_partial); missing is an upper bound for the sizes that are used. The negative results are about a random function and about a random permutation, the bound is about a random function; none is about AES."
  },
  {
   "property": "C78",
   "status": "proved",
   "theorems": [
    "DVO.Several.C78_correlation",
    "DVO.Several.C78_success"
   ],
   "note": "All objects have the same element type. Luck (Lucky) remains a hypothesis of C78_success, as in C68."
  },
  {
   "property": "C79",
   "status": "partial",
   "theorems": [
    "DVO.ROT.C79_sender",
    "DVO.ROT.C79_receiver",
    "DVO.Gilboa.C79_gilboa_vector",
    "DVO.Gilboa.C79_gilboa_value",
    "DVO.SPFSS.C79_value",
    "DVO.SPFSS.C79_index_partial",
    "DVO.SPFSS.C79_index_negation",
    "DVO.MPFSS.C79_mpfss_value_partial",
    "DVO.MPFSS.C79_mpfss_value_negation",
    "DVO.MPFSS.C79_mpfss_index_partial",
    "DVO.MPFSS.C79_mpfss_index_negation",
    "DVO.VOLE.C79_vole_receiver_partial",
    "DVO.VOLE.C79_vole_sender_partial",
    "DVO.VOLE.C79_vole_new_receiver_partial",
    "DVO.VOLE.C79_vole_new_sender_partial",
    "DVO.Create.C79_create",
    "DVO.Create.C79_life_receiver_partial",
    "DVO.Create.C79_life_sender_partial",
    "DVO.VOLE.C79_vole_negation",
    "DVO.VOLE.C79_vole_sender_negation"
   ],
   "note": "False of the code: lengths of received vectors are not checked (the negations). Proved in full for Create, the random OT, the Gilboa product and the value provider of the SPFSS; for the index provider of the SPFSS, the MPFSS and the vector OLE (from Create on: precomputation and any runs after it) with vectors of the right length (the _partial theorems; sizes that are not negative and batch sizes below 2^62, see C37 and C33 for others)."
  },
  {
   "property": "C80",
   "status": "proved",
   "theorems": [
    "DVO.MPFSS.C80_failure",
    "DVO.MPFSS.C80_success",
    "DVO.MPFSS.C80_negative"
   ],
   "note": "The exception for a negative output size is that of std::vector; it is not turned into a status."
  }
 ]
}