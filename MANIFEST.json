{
 "claims": [
  {
   "property": "C01",
   "status": "proved",
   "theorems": [
    "Verif.C01_header_round_trip",
    "Verif.C01_oversized_edk_field_is_lost"
   ],
   "note": "Both versions, every well-formed header, any trailing bytes. C01_oversized_edk_field_is_lost shows the 16-bit premise is needed and is not enforced by the code."
  },
  {
   "property": "C02",
   "status": "proved",
   "theorems": [
    "Verif.C02_header_streaming",
    "Verif.C02_rejection_is_final"
   ],
   "note": "Exact consumption, every proper prefix short; rejection is final."
  },
  {
   "property": "C03",
   "status": "proved",
   "theorems": [
    "Verif.C03_header_size_exact",
    "Verif.C03_failed_write_leaves_zeros",
    "Verif.C03_header_size_wraps"
   ],
   "note": "Sizes below 2^31 (hdr_size returns int); C03_header_size_wraps shows the bound is needed."
  },
  {
   "property": "C04",
   "status": "proved",
   "theorems": [
    "Verif.C04_parse_exact",
    "Verif.C04_failure_leaves_nothing",
    "Verif.C04_no_other_encoding",
    "Verif.C04_version_and_suite"
   ],
   "note": "Exact acceptance set as an iff with the published format."
  },
  {
   "property": "C05",
   "status": "proved",
   "theorems": [
    "Verif.C05_parse_enforces_limit",
    "Verif.Props.C05_encrypt_within_limit",
    "Verif.Props.C05_decrypt_within_limit",
    "Verif.Props.C05_cmm_not_asked_beyond_limit",
    "Verif.Props.C05_limit_set",
    "Verif.Props.C05_limit_stays"
   ],
   "note": "Parser half in Props/Header; session half for both directions, CMM never consulted beyond the limit (non-interference), limit persists until changed."
  },
  {
   "property": "C06",
   "status": "proved",
   "theorems": [
    "Verif.C06_enc_ctx_round_trip",
    "Verif.C06_enc_ctx_serialize_succeeds"
   ],
   "note": "Round trip for every context and destination; success characterised separately."
  },
  {
   "property": "C07",
   "status": "proved",
   "theorems": [
    "Verif.C07_enc_ctx_canonical",
    "Verif.C07_enc_ctx_order_irrelevant"
   ],
   "note": "Serialisations equal iff same map; iteration order irrelevant."
  },
  {
   "property": "C08",
   "status": "proved",
   "theorems": [
    "Verif.C08_deserialize_exact",
    "Verif.C08_duplicate_key_rejected",
    "Verif.C08_zero_count_rejected",
    "Verif.C08_missing_bytes_rejected"
   ],
   "note": "Exact acceptance set plus the three rejection cases; trailing bytes inside a header are covered by C04."
  },
  {
   "property": "C09",
   "status": "proved",
   "theorems": [
    "Verif.C09_enc_ctx_size",
    "Verif.C09_enc_ctx_serialize_exact",
    "Verif.C09_over_limit_not_serialized"
   ],
   "note": "Exact size, LIMIT_EXCEEDED beyond, no truncation. Hypothesis: strings fit a 64-bit address space."
  },
  {
   "property": "C10",
   "status": "proved",
   "theorems": [
    "Verif.C10_clone_equals_source",
    "Verif.C10_clone_size"
   ],
   "note": "Allocation failure not modelled."
  },
  {
   "property": "C11",
   "status": "proved",
   "theorems": [
    "Verif.C11_frame_round_trip",
    "Verif.C11_parse_exact"
   ],
   "note": "Wire format is an independent spec (Spec/Frame.lean); C11_parse_exact gives the converse."
  },
  {
   "property": "C12",
   "status": "partial",
   "theorems": [
    "Verif.C12_prefix_and_estimate_partial",
    "Verif.C12_estimate_too_large",
    "Verif.C12_rejection_is_final"
   ],
   "note": "Everything is proved except the upper bound on the estimate for a final frame of which fewer than 4 bytes were supplied; C12_estimate_too_large is a concrete counterexample to that part in the code as it is."
  },
  {
   "property": "C13",
   "status": "proved",
   "theorems": [
    "Verif.C13_write_exact",
    "Verif.C13_no_marker_in_intermediate",
    "Verif.C13_size_output_not_always_set"
   ],
   "note": "Also proves that, unlike documented, the size output is not set on one error path."
  },
  {
   "property": "C14",
   "status": "proved",
   "theorems": [
    "Verif.Props.C14_nonces_distinct",
    "Verif.Props.C14_record_complete",
    "Verif.Props.C14_message_nonces"
   ],
   "note": "Ghost record of (key, IV) pairs in the model; C14_record_complete shows by non-interference that the AEAD is used on no other pair; C14_message_nonces restates it for the bytes written."
  },
  {
   "property": "C15",
   "status": "proved",
   "theorems": [
    "Verif.C15_aad_injective",
    "Verif.C15_body_cipher",
    "Verif.Props.C15_header_is_no_frame"
   ],
   "note": "Proved for every pair of valid (message id, frame type, sequence number, length) tuples of the same message-id size. C15_header_is_no_frame separates frames from headers; it needs lengths below 2^32 for framed content and sequence number 1 for single-block content, which is what the sessions use."
  },
  {
   "property": "C16",
   "status": "proved",
   "theorems": [
    "Verif.Props.C16_round_trip"
   ],
   "note": "Safety half: whenever both runs complete. AEAD correctness, equal HKDF and a CMM that returns the data key are hypotheses (Undoes); EDKs must fit the 16-bit length fields (Storable)."
  },
  {
   "property": "C17",
   "status": "proved",
   "theorems": [
    "Verif.Props.C17_two_schedules",
    "Verif.Props.C17_schedule_independent"
   ],
   "note": "One canonical message for every schedule, with materials, primitives and frame size fixed and the declared size, if any, equal to the length of the plaintext."
  },
  {
   "property": "C18",
   "status": "proved",
   "theorems": [
    "Verif.Props.C18_two_schedules",
    "Verif.Props.C18_schedule_independent"
   ],
   "note": "One canonical plaintext for every byte string (well formed or not), schedule, policy and limit, with CMM answers and primitives fixed."
  },
  {
   "property": "C19",
   "status": "proved",
   "theorems": [
    "Verif.Props.C19_released_was_opened",
    "Verif.Props.C19_no_reordering_or_splicing",
    "Verif.Props.C19_env_unforgeable"
   ],
   "note": "C19_released_was_opened: released text is the concatenation of opened frames, in order. C19_no_reordering_or_splicing: with an unforgeable AEAD it is a prefix of what was sealed under that message id."
  },
  {
   "property": "C20",
   "status": "proved",
   "theorems": [
    "Verif.Props.C20_done_means_verified"
   ],
   "note": "For every reachable history; environments of the calls since the last reset range over an arbitrary set E."
  },
  {
   "property": "C21",
   "status": "proved",
   "theorems": [
    "Verif.Props.C21_failure_is_zeroed_and_sticky"
   ],
   "note": ""
  },
  {
   "property": "C22",
   "status": "proved",
   "theorems": [
    "Verif.Props.C22_encrypt_policy",
    "Verif.Props.C22_decrypt_policy",
    "Verif.Props.C22_some_policy"
   ],
   "note": "Policy in force = last valid policy set. Holds whatever the CMM returns."
  },
  {
   "property": "C23",
   "status": "proved",
   "theorems": [
    "Verif.C23_commitment_comparison",
    "Verif.Props.C23_released_only_if_committed"
   ],
   "note": "Comparison exact (C23_commitment_comparison); sessions release plaintext only after it."
  },
  {
   "property": "C24",
   "status": "proved",
   "theorems": [
    "Verif.Props.C24_unsigned_only",
    "Verif.Props.C24_proviso_needed"
   ],
   "note": "With the proviso of the property; C24_proviso_needed is a concrete counterexample without it."
  },
  {
   "property": "C25",
   "status": "proved",
   "theorems": [
    "Verif.Props.C25_visible_only_after_cmm",
    "Verif.Props.C25_visible_is_header"
   ],
   "note": ""
  },
  {
   "property": "C26",
   "status": "proved",
   "theorems": [
    "Verif.Props.C26_no_abort",
    "Verif.Props.C26_invalid_policy_reaches_check"
   ],
   "note": "Also excludes NULL dereferences and divergence in the modelled code. C26_invalid_policy_reaches_check documents that a debug-build assert on the policy value can be reached."
  },
  {
   "property": "C27",
   "status": "proved",
   "theorems": [
    "Verif.Props.C27_process_terminates"
   ],
   "note": "Bound: output capacity + input length + 6 iterations."
  },
  {
   "property": "C28",
   "status": "partial",
   "theorems": [
    "Verif.Props.C28_estimates_exceed_leftovers_partial",
    "Verif.Props.C28_documented_progress_partial",
    "Verif.Props.C28_encryption_progress_partial",
    "Verif.Props.C28_refuted_unframed_without_size",
    "Verif.Props.C28_refuted_null_input",
    "Verif.Props.C28_refuted_without_estimate_growth"
   ],
   "note": "Proved: the documented promise (supplying the estimates fails, finishes, reads, writes or raises an estimate) for all reachable sessions with non-NULL input that are framed or know their message size, and the stronger form (fails, finishes or writes) for encryption once the suite is known. Missing, and refuted by witnesses: NULL input, unframed encryption without message size, and decryption calls that only raise the estimates (documented)."
  },
  {
   "property": "C29",
   "status": "proved",
   "theorems": [
    "Verif.Props.C29_size",
    "Verif.Props.C29_bound",
    "Verif.Props.C29_done_needs_size"
   ],
   "note": ""
  },
  {
   "property": "C30",
   "status": "partial",
   "theorems": [
    "Verif.Props.C30_never_checked",
    "Verif.Props.C30_refuted",
    "Verif.Props.C30_bound_refuted",
    "Verif.Props.C30_never_done_partial"
   ],
   "note": "The documented behaviour is refuted for the code as it is (C30_refuted, C30_bound_refuted, C30_never_checked); proved instead: such a session never reports done."
  },
  {
   "property": "C31",
   "status": "proved",
   "theorems": [
    "Verif.Props.C31_reset_is_fresh",
    "Verif.Props.C31_reset_equals_new",
    "Verif.Props.C31_reset_invalid",
    "Verif.Props.C31_frame_size_refuted"
   ],
   "note": "State after reset equals a new session with the documented settings. C31_frame_size_refuted: a decryption in between overwrites the frame size, contrary to the documentation."
  },
  {
   "property": "C32",
   "status": "proved",
   "theorems": [
    "Verif.Props.C32_full_ok",
    "Verif.Props.C32_full_error",
    "Verif.Props.C32_zeroed_refuted"
   ],
   "note": "C32_zeroed_refuted: on the early returns the buffer is not zeroed, contrary to the documentation; the property as listed (if processing fails) holds."
  },
  {
   "property": "C33",
   "status": "proved",
   "theorems": [
    "Verif.C33_suite_table",
    "Verif.C33_ids_distinct",
    "Verif.C33_policy_table",
    "Verif.C33_md_name_never_null"
   ],
   "note": "All identifiers (Nat), table compared with an independent table in Spec/Alg.lean."
  },
  {
   "property": "C34",
   "status": "proved",
   "theorems": [
    "Verif.C34_derivation",
    "Verif.C34_domain_separation"
   ],
   "note": "HKDF is the abstract function of the crypto environment; the theorems say which inputs each suite gives it, and that inputs for distinct suites, purposes or message ids differ."
  },
  {
   "property": "C35",
   "status": "proved",
   "theorems": [
    "Verif.C35_hkdf_rfc5869",
    "Verif.C35_hkdf_all_or_nothing",
    "Verif.C35_hkdf_errors"
   ],
   "note": "HMAC is a parameter with a fixed output length; the loop is proved equal to RFC 5869 for every hash, salt, ikm, info and length."
  },
  {
   "property": "C36",
   "status": "proved",
   "theorems": [
    "Verif.Props.C36_config_valid",
    "Verif.Props.C36_message_limit",
    "Verif.Props.C36_message_limit_total"
   ],
   "note": "For every history of any number of caching CMMs sharing a cache, with limits that may change between calls; assumes the upstream CMM does not return a data key that was served before (FreshKeys). Sequential calls; see C41 for interleavings."
  },
  {
   "property": "C37",
   "status": "proved",
   "theorems": [
    "Verif.Props.C37_byte_limit",
    "Verif.Props.C37_byte_limit_total"
   ],
   "note": "Same histories and assumption as C36; a message longer than the limit bypasses the cache and its key is used once."
  },
  {
   "property": "C38",
   "status": "proved",
   "theorems": [
    "Verif.Props.C38_configured_ttl",
    "Verif.Props.C38_encrypt",
    "Verif.Props.C38_decrypt",
    "Verif.Props.C38_configured_ttl_new"
   ],
   "note": "The time t is the clock reading at which the materials were stored. For encryption and decryption; the conversion of the configured TTL to nanoseconds is C38_configured_ttl."
  },
  {
   "property": "C39",
   "status": "partial",
   "theorems": [
    "Verif.Props.C39_oversize_bypass_partial",
    "Verif.Props.C39_unknown_size_bypass",
    "Verif.Props.C39_every_suite_cacheable",
    "Verif.Props.C39_no_kdf_refuted"
   ],
   "note": "Bypass for oversized and unknown sizes is proved; the half about suites without a KDF is false of the code and refuted (C39_no_kdf_refuted): the digest name of these suites is the string \"NULL\", not a null pointer."
  },
  {
   "property": "C40",
   "status": "proved",
   "theorems": [
    "Verif.Props.C40_encrypt_ids",
    "Verif.Props.C40_decrypt_ids",
    "Verif.Props.C40_kinds",
    "Verif.Props.C40_encrypt_hit",
    "Verif.Props.C40_decrypt_hit",
    "Verif.Props.C40_wrong_kind"
   ],
   "note": "The alternative to equality is an explicit collision of the hash function on strings digested for the two requests. The hit theorems say which earlier upstream result is returned."
  },
  {
   "property": "C41",
   "status": "partial",
   "theorems": [
    "Verif.Props.C41_message_limit_concurrent",
    "Verif.Props.C41_byte_limit_concurrent_partial",
    "Verif.Props.C41_not_stuck",
    "Verif.Props.C41_byte_limit_concurrent_refuted",
    "Verif.Props.C41_other_calls"
   ],
   "note": "Executions interleave the single accesses to the shared cache of any number of threads (sequentially consistent). The message limit holds for every interleaving (C41_message_limit_concurrent); the byte limit holds when (threads+1)*limit < 2^64, and is refuted for the default limit 2^63-1 with two threads (C41_byte_limit_concurrent_refuted), where the 64-bit counter wraps. Executions end where the fault of C44 occurs."
  },
  {
   "property": "C42",
   "status": "proved",
   "theorems": [
    "Verif.Props.C42_capacity_concurrent",
    "Verif.Props.C42_refinement",
    "Verif.Props.C42_capacity",
    "Verif.Props.C42_stored_then_found"
   ],
   "note": "Refinement of the hash table / priority queue / reference count model to a bounded list of items, for all histories of calls, clock readings and allocation failures. Expiry runs in batches of eight, so an expired entry can still be found (part of the specification). Locking assumed to succeed; interleavings are C41/C44."
  },
  {
   "property": "C43",
   "status": "proved",
   "theorems": [
    "Verif.Props.C43_held_is_live_concurrent",
    "Verif.Props.C43_handle_keeps_materials_concurrent",
    "Verif.Props.C43_no_fault",
    "Verif.Props.C43_live_iff_referenced",
    "Verif.Props.C43_all_freed",
    "Verif.Props.C43_clear_frees",
    "Verif.Props.C43_handle_keeps_materials",
    "Verif.Props.C43_store_gives_materials"
   ],
   "note": "All sequential histories of calls by a client that uses only handles it holds. Entries, reference counts and freed memory are explicit in the model; touching freed memory, failing assertions and divergence are outcomes that are proved unreachable."
  },
  {
   "property": "C44",
   "status": "partial",
   "theorems": [
    "Verif.Props.C44_concurrent_release_refuted",
    "Verif.Props.C44_only_fault_partial",
    "Verif.Props.C44_without_invalidation_partial",
    "Verif.Props.C44_two_threads_partial",
    "Verif.Props.C44_caching_cmm_refuted",
    "Verif.Props.C97_caching_cmms_race_refuted"
   ],
   "note": "The claim is refuted for the code as it is, with two threads using the cache directly (C44_concurrent_release_refuted) and with three threads that only use a caching CMM (C44_caching_cmm_refuted; C97_caching_cmms_race_refuted for the complete programs of the calls). Proved instead: that access is the only possible fault, and it does not occur without invalidating releases, nor with two threads holding one handle at a time."
  },
  {
   "property": "C45",
   "status": "proved",
   "theorems": [
    "Verif.Props.C45_encrypt_contract",
    "Verif.Props.C45_never_called_without_key",
    "Verif.Props.C45_violations_reported"
   ],
   "note": "For every keyring implementation. Success is characterised exactly; the contents of a pre-existing key are not compared by the code, which the statement says."
  },
  {
   "property": "C46",
   "status": "proved",
   "theorems": [
    "Verif.Props.C46_decrypt_contract",
    "Verif.Props.C46_never_called_with_key",
    "Verif.Props.C46_wrong_length_reported"
   ],
   "note": "For every keyring implementation; success characterised exactly."
  },
  {
   "property": "C47",
   "status": "partial",
   "theorems": [
    "Verif.Props.C47_success",
    "Verif.Props.C47_contributions_in_order",
    "Verif.Props.C47_completeness",
    "Verif.Props.C47_failure_leaves_lists_partial",
    "Verif.Props.C47_public_failure_leaves_lists_partial",
    "Verif.Props.C47_nesting",
    "Verif.Props.C47_refuted_when_list_cannot_grow",
    "Verif.Props.C47_no_undefined_behaviour"
   ],
   "note": "Success characterised exactly, contributions in order, and completeness. Failure leaves the lists as they were provided the final transfer onto the caller's EDK list does not fail (C47_failure_leaves_lists_partial); C47_refuted_when_list_cannot_grow shows that if that list cannot grow half-way, the call fails with the EDK list changed."
  },
  {
   "property": "C48",
   "status": "partial",
   "theorems": [
    "Verif.Props.C48_first_key_wins",
    "Verif.Props.C48_errors_do_not_prevent_partial",
    "Verif.Props.C48_no_key",
    "Verif.Props.C48_refuted_by_wrong_length",
    "Verif.Props.C48_failure_may_report_no_error"
   ],
   "note": "The first key wins, for all lists. That errors of earlier keyrings do not prevent it is proved for keyrings that leave no key behind when they fail (C48_errors_do_not_prevent_partial); C48_refuted_by_wrong_length is the code's counterexample with a raw RSA keyring. C48_failure_may_report_no_error: the reported code may be stale."
  },
  {
   "property": "C49",
   "status": "partial",
   "theorems": [
    "Verif.Props.C49_decrypt_exact",
    "Verif.Props.C49_decrypt_succeeds",
    "Verif.Props.C49_foreign_edks_ignored",
    "Verif.Props.C49_encrypt_form",
    "Verif.Props.C49_encrypt_succeeds",
    "Verif.Props.C49_round_trip_partial",
    "Verif.Props.C49_refuted_empty_namespace",
    "Verif.Props.C49_no_undefined_behaviour",
    "Verif.Props.C49_failure_changes_nothing",
    "Verif.Props.C49_reserved_namespace"
   ],
   "note": "Decryption characterised exactly (first matching EDK that authenticates), form of the produced EDK, reserved namespace, no undefined behaviour. Round trip proved for a non-empty namespace; C49_refuted_empty_namespace shows the code fails for an empty one. Assumes only that AES-GCM decryption undoes encryption."
  },
  {
   "property": "C50",
   "status": "partial",
   "theorems": [
    "Verif.Props.C50_decrypt_exact",
    "Verif.Props.C50_foreign_edks_ignored",
    "Verif.Props.C50_encrypt_form",
    "Verif.Props.C50_encrypt_succeeds",
    "Verif.Props.C50_round_trip_partial",
    "Verif.Props.C50_refuted_empty_name",
    "Verif.Props.C50_keys_needed",
    "Verif.Props.C50_failure_changes_nothing",
    "Verif.Props.C50_no_undefined_behaviour"
   ],
   "note": "Decryption characterised exactly, form of the produced EDK, needed keys. Round trip proved for non-empty namespace and name; C50_refuted_empty_name shows the code fails otherwise. Assumes RSA decryption undoes encryption."
  },
  {
   "property": "C51",
   "status": "proved",
   "theorems": [
    "Verif.Props.C51_generate",
    "Verif.Props.C51_generate_succeeds",
    "Verif.Props.C51_reserved_name_refused",
    "Verif.Props.C51_decrypt",
    "Verif.Props.C51_decrypt_refusals",
    "Verif.Props.C51_set_alg",
    "Verif.Props.C51_unknown_suite_reports_no_error",
    "Verif.Props.C51_no_undefined_behaviour"
   ],
   "note": "Success of generate implies the full description of the materials and succeeds when the keyring does; decrypt characterised exactly; refusals; set_alg; C51_unknown_suite_reports_no_error documents that an unknown requested suite fails without setting an error."
  },
  {
   "property": "C52",
   "status": "proved",
   "theorems": [
    "Verif.Props.C52_copy_all_or_nothing",
    "Verif.Props.C52_edk_list_copy",
    "Verif.Props.C52_trace_copy"
   ],
   "note": "Generic over element type and failure pattern, and for both instances."
  },
  {
   "property": "C53",
   "status": "proved",
   "theorems": [
    "Verif.Props.C53_kms_filter",
    "Verif.Props.C53_filter_builders",
    "Verif.Props.C53_mrk_filter",
    "Verif.Props.C53_mrk_builders"
   ],
   "note": "KMS and MRK-aware discovery keyrings, and their builders. A null filter is refused by the KMS builder and accepted, as no filter, by the MRK-aware one (C53_mrk_builders)."
  },
  {
   "property": "C54",
   "status": "proved",
   "theorems": [
    "Verif.Props.C54_kms_decrypt",
    "Verif.Props.C54_only_configured_keys",
    "Verif.Props.C54_accepts_only_configured_key"
   ],
   "note": "C54_kms_decrypt describes the whole call; the other two are what a user of a built keyring sees."
  },
  {
   "property": "C55",
   "status": "proved",
   "theorems": [
    "Verif.Props.C55_mrk_match",
    "Verif.Props.C55_mrk_match_equivalence",
    "Verif.Props.C55_replicas",
    "Verif.Props.C55_published_form_refuted"
   ],
   "note": "Exact, with an independent description of ARNs. C55_published_form_refuted: repeated slashes are skipped, so the match is wider than the published form."
  },
  {
   "property": "C56",
   "status": "proved",
   "theorems": [
    "Verif.Props.C56_mrk_decrypt",
    "Verif.Props.C56_strict_calls",
    "Verif.Props.C56_discovery_calls",
    "Verif.Props.C56_accepts_only_requested_key",
    "Verif.Props.C56_undefined_for_unknown_suite"
   ],
   "note": "Strict and discovery mode, all EDKs and answers. C56_undefined_for_unknown_suite: NULL dereference for an unknown suite, which the public decryption path never passes."
  },
  {
   "property": "C57",
   "status": "partial",
   "theorems": [
    "Verif.Props.C57_duplicates_found",
    "Verif.Props.C57_build_partial",
    "Verif.Props.C57_build_no_generator_partial",
    "Verif.Props.C57_duplicates_refused",
    "Verif.Props.C57_full_refuted"
   ],
   "note": "A duplicate always makes the build fail. 'Exactly' is false (C57_full_refuted): children must be ARNs with a region and a client must be available; C57_build_partial states the exact condition."
  },
  {
   "property": "C58",
   "status": "partial",
   "theorems": [
    "Verif.Props.C58_kms_all_or_nothing_partial",
    "Verif.Props.C58_kms_encrypts",
    "Verif.Props.C58_mrk_all_or_nothing_partial",
    "Verif.Props.C58_discovery",
    "Verif.Props.C58_push_failure_refuted",
    "Verif.Props.C58_wrong_length_refuted",
    "Verif.Props.C58_empty_key_refuted"
   ],
   "note": "Proved when the caller's list can grow and KMS generates keys of the length asked for; refuted otherwise (C58_push_failure_refuted, C58_wrong_length_refuted, C58_empty_key_refuted)."
  },
  {
   "property": "C59",
   "status": "partial",
   "theorems": [
    "Verif.Props.C59_kdf_suites_partial",
    "Verif.Props.C59_no_kdf_refuted"
   ],
   "note": "Proved for suites with key derivation, up to an explicit KDF collision; refuted for suites without (C59_no_kdf_refuted): the two sessions have identical lists of (key, IV) pairs."
  },
  {
   "property": "C60",
   "status": "proved",
   "theorems": [
    "Verif.Props.C60_done_means_complete"
   ],
   "note": ""
  },
  {
   "property": "C61",
   "status": "proved",
   "theorems": [
    "Verif.Props.C61_alg_id_when_done"
   ],
   "note": ""
  },
  {
   "property": "C62",
   "status": "partial",
   "theorems": [
    "Verif.Props.C62_calls_return_partial",
    "Verif.Props.C62_unknown_algorithm_refuted",
    "Verif.Props.C62_oversize_edk_refuted"
   ],
   "note": "Proved for known suites, encrypted data keys that fit the format and no digest failure in the loop over them; each exception is refuted."
  },
  {
   "property": "C63",
   "status": "partial",
   "theorems": [
    "Verif.Props.C63_same_policy_partial",
    "Verif.Props.C63_other_policy_refuted"
   ],
   "note": "Proved if the upstream CMM respects one fixed policy in all requests of the history; refuted for mixed policies."
  },
  {
   "property": "C64",
   "status": "proved",
   "theorems": [
    "Verif.Props.C64_kms_round_trip",
    "Verif.Props.C64_mrk_round_trip"
   ],
   "note": "KmsAgrees is the assumption on KMS: an answer to a Decrypt request for something it encrypted is the plaintext and names the key asked for. It may refuse any request."
  },
  {
   "property": "C65",
   "status": "proved",
   "theorems": [
    "Verif.Props.C65_declared_bounds_consumed",
    "Verif.Props.C65_declared_is_size"
   ],
   "note": "Stated through the CMM: one that accepts only requests declaring at most L bytes bounds what is encrypted by L. Joins the session model to the byte limit of caching CMMs (C37)."
  },
  {
   "property": "C66",
   "status": "proved",
   "theorems": [
    "Verif.Props.C66_reading_never_fails",
    "Verif.Props.C66_reads_to_the_end",
    "Verif.Props.C66_process_full"
   ],
   "note": "Liveness counterpart of C16. Opens (Spec/SessionComplete) lists what is asked of the reading environment: AEAD and signature correctness, equal HKDF, allocations and digests that succeed, a CMM that returns the data key."
  },
  {
   "property": "C67",
   "status": "proved",
   "theorems": [
    "Verif.Props.C67_length",
    "Verif.Props.C67_verifies",
    "Verif.Props.C67_no_overflow",
    "Verif.Props.C67_ends_iff",
    "Verif.Props.C67_typical_draw"
   ],
   "note": "ECDSA itself, the random signatures and the digests are parameters; the DER encoding is modelled. Termination cannot be proved for every stream of signatures: C67_ends_iff says when signing ends, C67_typical_draw bounds the signatures that do not end it."
  },
  {
   "property": "C68",
   "status": "proved",
   "theorems": [
    "Verif.Props.C68_accepts_only",
    "Verif.Props.C68_wrong_suite",
    "Verif.Props.C68_prefix_free",
    "Verif.Props.C68_round_trip",
    "Verif.Props.C68_succeeds"
   ],
   "note": "Under the assumption that the point encoding of this key can be decoded (Codec)."
  },
  {
   "property": "C69",
   "status": "proved",
   "theorems": [
    "Verif.Props.C69_slices_sign",
    "Verif.Props.C69_slices_verify",
    "Verif.Props.C69_verify_start",
    "Verif.Props.C69_verify_iff",
    "Verif.Props.C69_verify_start_succeeds",
    "Verif.Props.C69_keygen",
    "Verif.Props.C69_keygen_succeeds",
    "Verif.Props.C69_end_to_end",
    "Verif.Props.C69_no_signature"
   ],
   "note": "Under the assumptions on ECDSA recorded in DESIGN.md 3.3."
  },
  {
   "property": "C70",
   "status": "partial",
   "theorems": [
    "Verif.Props.C70_keygen",
    "Verif.Props.C70_sign_start",
    "Verif.Props.C70_verify_start",
    "Verif.Props.C70_get_keys",
    "Verif.Props.C70_verify_finish",
    "Verif.Props.C70_abort",
    "Verif.Props.C70_sign_finish_partial",
    "Verif.Props.C70_md_init",
    "Verif.Props.C70_sign_finish_refuted"
   ],
   "note": "False as stated for signing when exactly one of the two BN_dup calls fails: the other number leaks (C70_sign_finish_refuted). Everything else is proved, and signing when both or neither fail. Missing: the values in memory that are released (only counts per kind of object are modelled)."
  },
  {
   "property": "C71",
   "status": "proved",
   "theorems": [
    "Verif.Props.C71_reading_never_fails",
    "Verif.Props.C71_reads_to_the_end",
    "Verif.Props.C71_process_full",
    "Verif.Props.C71_round_trip",
    "Verif.Props.C71_strangers_read_nothing",
    "Verif.Props.C71_no_undefined_behaviour",
    "Verif.Props.C71_primitives"
   ],
   "note": "Composition of all modelled layers. Primitives and Healthy (Spec/Stack) list all assumptions on OpenSSL and resources. The strangers theorem covers keyrings of other names; for the same name and another key the outcome depends on AES-GCM or RSA rejecting, see C19."
  },
  {
   "property": "C72",
   "status": "proved",
   "theorems": [
    "Verif.Props.C72_encrypt_asks_what_was_configured",
    "Verif.Props.C72_decrypt_asks_only_to_decrypt",
    "Verif.Props.C72_context_is_what_the_caller_made"
   ],
   "note": "Stated as indistinguishability of CMMs that agree on the one admissible request, for every reachable session and every call. The size in the request is the subject of C65."
  },
  {
   "property": "C73",
   "status": "proved",
   "theorems": [
    "Verif.Props.C73_encryption_does_not_fail",
    "Verif.Props.C73_message_length",
    "Verif.Props.C73_all_input_completes",
    "Verif.Props.C73_one_call"
   ],
   "note": "Works, Usable, RoomFor and CanWrite (Spec/SessionWrites) list all assumptions; messageLen is computed from the fields of the format. That signatures have the announced length is an assumption here; C67 and C71 give it for the modelled signature functions."
  },
  {
   "property": "C74",
   "status": "proved",
   "theorems": [
    "Verif.Props.C74_encryption_does_not_fail",
    "Verif.Props.C74_one_call",
    "Verif.Props.C74_encrypt_then_decrypt",
    "Verif.Props.C74_produces",
    "Verif.Props.C74_wraps",
    "Verif.Props.C74_reach"
   ],
   "note": "Composition of all modelled layers for writing. CanProduce, Sizes, CanWrap and Fits (Spec/StackWrites) list all assumptions on OpenSSL, resources, keyrings and the message. That OpenSSL soon draws a signature of the right length is an assumption (draws); C67_typical_draw says how rare the exceptions are."
  },
  {
   "property": "C75",
   "status": "proved",
   "theorems": [
    "Verif.Props.C75_accepts_exactly",
    "Verif.Props.C75_reading_never_fails",
    "Verif.Props.C75_reads_to_the_end",
    "Verif.Props.C75_done_means_valid"
   ],
   "note": "Both directions. NothingFails: allocations succeed and digests take data; otherwise crypto and CMM are arbitrary functions. The message is described in Spec/SessionAccepts from the wire format only."
  },
  {
   "property": "C76",
   "status": "proved",
   "theorems": [
    "Verif.Props.C76_calls_are_safe",
    "Verif.Props.C76_constructors_keep_what_they_use",
    "Verif.Props.C76_multi_keeps_children",
    "Verif.Props.C76_destructors_are_safe",
    "Verif.Props.C76_reachable_is_alive",
    "Verif.Props.C76_kind_is_kept",
    "Verif.Props.C76_destructors_end"
   ],
   "note": "The rules for the program (Spec.Allowed) are about what it owns by its own account, not about the heap. Calls other than releases are one step; a release is a sequence of steps that interleave with other threads. Cache entries are in C44, EC and digest objects in C70."
  },
  {
   "property": "C77",
   "status": "partial",
   "theorems": [
    "Verif.Props.C77_allocated_iff_in_use_partial",
    "Verif.Props.C77_all_freed_partial",
    "Verif.Props.C77_releases_free_everything_partial",
    "Verif.Props.C77_leak_rsa",
    "Verif.Props.C77_leak_mrk",
    "Verif.Props.C77_leak_add_child",
    "Verif.Props.C77_leak_caching",
    "Verif.Props.C77_leak_cycle"
   ],
   "note": "The code does not have this property: C77_leak_* are five programs that own nothing at the end while memory is allocated. The partial theorems hold for programs that avoid exactly these calls (Spec.lossless) and do not build cycles of multi-keyrings (Spec.NoCycle)."
  },
  {
   "property": "C78",
   "status": "proved",
   "theorems": [
    "Verif.Props.C78_why_decryption_fails",
    "Verif.Props.C78_rejects",
    "Verif.Props.C78_one_reason",
    "Verif.Props.C78_message_not_rejected",
    "Verif.Props.C78_full_call_errors",
    "Verif.Props.C78_header_decides",
    "Verif.Props.C78_not_set_up"
   ],
   "note": "The reasons are defined from the message format (Spec.Rejected), not from the parser. Enough bytes (Spec.Decided): a malformed header may only be noticed once its announced fields have arrived."
  },
  {
   "property": "C79",
   "status": "proved",
   "theorems": [
    "Verif.Props.C79_aes_encrypt",
    "Verif.Props.C79_aes_decrypt",
    "Verif.Props.C79_aes_decrypt_last_error",
    "Verif.Props.C79_rsa_encrypt",
    "Verif.Props.C79_rsa_decrypt",
    "Verif.Props.C79_rsa_decrypt_last_error",
    "Verif.Props.C79_constructors",
    "Verif.Props.C79_multi_encrypt"
   ],
   "note": "For the suites of the table (an unknown suite is a NULL dereference, C49/C50) and contexts whose entries fit a 64-bit address space. The checks are listed in Spec/KeyringErrors."
  },
  {
   "property": "C80",
   "status": "proved",
   "theorems": [
    "Verif.Props.C80_header",
    "Verif.Props.C80_why_encryption_fails",
    "Verif.Props.C80_one_reason",
    "Verif.Props.C80_setters",
    "Verif.Props.C80_failed_setter",
    "Verif.Props.C80_failed_full_call",
    "Verif.Props.C80_why_full_call_fails"
   ],
   "note": "For sessions set up to encrypt whose CMM, primitives and allocations answer equal requests equally (one environment), and answers that make a header of less than 2^31 bytes with a context that is a map. The header phase is exact in both directions; for the later phases the theorem gives the reason for each failure."
  },
  {
   "property": "C81",
   "status": "proved",
   "theorems": [
    "Verif.Props.C81_generate",
    "Verif.Props.C81_context_after",
    "Verif.Props.C81_decrypt",
    "Verif.Props.C51_unknown_suite_reports_no_error"
   ],
   "note": "For the suites of the table and keyrings without undefined behaviour (shown for the raw keyrings and multi-keyrings: C49, C71). An unknown suite is reported with whatever error the thread had last."
  },
  {
   "property": "C82",
   "status": "proved",
   "theorems": [
    "Verif.Props.C82_kms_encrypt",
    "Verif.Props.C82_mrk_encrypt",
    "Verif.Props.C82_builders",
    "Verif.Props.C82_multi_builders"
   ],
   "note": "Encryption for the suites of the table, with keyrings as the builders give them. KMS and the clients may answer in any way."
  },
  {
   "property": "C83",
   "status": "proved",
   "theorems": [
    "Verif.Props.C83_reading_never_fails",
    "Verif.Props.C83_reads_to_the_end",
    "Verif.Props.C83_process_full",
    "Verif.Props.C83_round_trip",
    "Verif.Props.C83_strangers_read_nothing",
    "Verif.Props.C83_no_undefined_behaviour"
   ],
   "note": "Reading without error assumes that nothing fails for the reader for want of resources and that the digests of its request succeed; C83_round_trip and C83_strangers_read_nothing do not. The double free of hash_dec_request (C62) is shown to the session as an error. No collision is assumed only between strings digested for this message's request and for earlier decryption requests of the reader's cache."
  },
  {
   "property": "C85",
   "status": "proved",
   "theorems": [
    "Verif.Props.C85_calls_go_to_the_region",
    "Verif.Props.C85_fixed_client",
    "Verif.Props.C85_grant_tokens",
    "Verif.Props.C85_filter_builder",
    "Verif.Props.C85_builders",
    "Verif.Props.C85_multi_builders",
    "Verif.Props.C85_programs",
    "Verif.Props.C85_no_exception",
    "Verif.Props.C85_null_client_throws",
    "Verif.Props.C85_region_with_colon_refuted"
   ],
   "note": "C85_programs, C85_builders and C85_multi_builders tie the stepwise programs to the functions used for C53-C58, C80 and C82. C85_null_client_throws and C85_region_with_colon_refuted show that the two exceptions are needed."
  },
  {
   "property": "C86",
   "status": "partial",
   "theorems": [
    "Verif.Props.C86_cache",
    "Verif.Props.C86_used",
    "Verif.Props.C86_entered",
    "Verif.Props.C86_unused_refuted",
    "Verif.Props.C86_stays",
    "Verif.Props.C86_one_client",
    "Verif.Props.C86_two_clients_refuted",
    "Verif.Props.C86_multi_never_caches"
   ],
   "note": "False in the code in two points, with witnesses: building a keyring with one key enters a client that was never used (C86_unused_refuted; C86_used holds without such builds), and two threads may make and enter two clients for one region, the later replacing the earlier (C86_two_clients_refuted; C86_one_client holds for one thread). Builders of multi-keyrings never enter a client."
  },
  {
   "property": "C87",
   "status": "partial",
   "theorems": [
    "Verif.Props.C87_wiped_partial",
    "Verif.Props.C87_encryption_leaves_nothing_partial",
    "Verif.Props.C87_owned",
    "Verif.Props.C87_nothing_remains",
    "Verif.Props.C87_reset_wipes",
    "Verif.Props.C87_failed_wrap_refuted",
    "Verif.Props.C87_decryption_refuted"
   ],
   "note": "False in the code in two places, with witnesses for every data key: a keyring that generated a data key and then fails to wrap it releases it unwiped (C87_failed_wrap_refuted, raw AES, raw RSA and KMS keyrings), and derive_data_key leaves its local copy of the data key on the stack in every decryption (C87_decryption_refuted). C87_wiped_partial shows that there are no other places; C87_owned, C87_nothing_remains and C87_reset_wipes hold without exception. Memory inside OpenSSL and the AWS SDK is not modelled."
  },
  {
   "property": "C88",
   "status": "proved",
   "theorems": [
    "Verif.Props.C88_reading_never_fails",
    "Verif.Props.C88_reads_to_the_end",
    "Verif.Props.C88_process_full",
    "Verif.Props.C88_round_trip",
    "Verif.Props.C88_strangers_read_nothing"
   ],
   "note": "A keyring is any pair of functions on the states that keyrings see, and may be another one in every call (Spec.Moment). The conditions GoodWriter, AlwaysFinds, NeverMistaken and NeverFinds speak of the checked calls aws_cryptosdk_keyring_on_encrypt/on_decrypt only."
  },
  {
   "property": "C89",
   "status": "proved",
   "theorems": [
    "Verif.Props.C89_finds",
    "Verif.Props.C89_reading_never_fails",
    "Verif.Props.C89_reads_to_the_end",
    "Verif.Props.C89_process_full",
    "Verif.Props.C89_round_trip",
    "Verif.Props.C89_strangers_read_nothing",
    "Verif.Props.C89_no_undefined_behaviour"
   ],
   "note": "Assumed of KMS: what it answers for a ciphertext it made, in the same context and asked to use the same key or a replica, is right (KmsHonest); it may refuse at any time except where TreeReads asks for an answer. Raw keyrings of writer and reader either fit or are apart by namespace or name, and do not use the reserved namespace aws-kms (C49_reserved_namespace). Each keyring has its own environment by its position in the tree."
  },
  {
   "property": "C90",
   "status": "proved",
   "theorems": [
    "Verif.Props.C90_keygen",
    "Verif.Props.C90_sign_start",
    "Verif.Props.C90_verify_start",
    "Verif.Props.C90_get_pubkey",
    "Verif.Props.C90_get_privkey",
    "Verif.Props.C90_update",
    "Verif.Props.C90_sign_finish_error",
    "Verif.Props.C90_sign_finish_round",
    "Verif.Props.C90_sign_finish_in_vain",
    "Verif.Props.C90_rounds",
    "Verif.Props.C90_md_init",
    "Verif.Props.C90_codes",
    "Verif.Props.C90_private_integer"
   ],
   "note": "A code of aws-c-common for a full buffer (reading out a private key that does not fit 130 bytes) is `.raw 0`. Negative DER integers are refused in the model; OpenSSL would read them."
  },
  {
   "property": "C91",
   "status": "partial",
   "theorems": [
    "Verif.Props.C91_messages_use_their_key",
    "Verif.Props.C91_message_limit",
    "Verif.Props.C91_byte_limit_partial",
    "Verif.Props.C91_size_set_first",
    "Verif.Props.C91_byte_limit_refuted"
   ],
   "note": "Missing, because the code refutes it (C91_byte_limit_refuted): a message that is never finished and whose size was not set before the data key was asked for can exceed the byte limit, since a declared bound on the size is enforced only when the size is set."
  },
  {
   "property": "C92",
   "status": "partial",
   "theorems": [
    "Verif.Props.C92_one_owner_partial",
    "Verif.Props.C92_all_released_partial",
    "Verif.Props.C92_released_once",
    "Verif.Props.C92_released_without_events",
    "Verif.Props.C92_small_transfers",
    "Verif.Props.C92_refuted_transfer",
    "Verif.Props.C92_refuted_transfer_multi",
    "Verif.Props.C92_refuted_stale_digest",
    "Verif.Props.C92_refuted_header",
    "Verif.Props.C92_refuted_rsa",
    "Verif.Props.C92_refuted_caching_cmm",
    "Verif.Props.C92_refuted_hash_enc"
   ],
   "note": "Missing, because the code refutes it (C92_refuted_*): memory is released twice after a transfer that failed half-way or a failure in the loop over the EDKs of a decryption request, and lost in four places when an allocation fails. After one of the two double releases nothing is claimed. Signature contexts are one block here (C70), wiping is C87, reference counts C76, C77, concurrent use of cache entries C44."
  },
  {
   "property": "C93",
   "status": "proved",
   "theorems": [
    "Verif.Props.C93_encrypt",
    "Verif.Props.C93_decrypt",
    "Verif.Props.C93_decrypt_any",
    "Verif.Props.C93_session",
    "Verif.Props.C93_available",
    "Verif.Props.C93_reset",
    "Verif.Props.C93_session_encrypt",
    "Verif.Props.C93_session_decrypt",
    "Verif.Props.C93_refuted_record_missing",
    "Verif.Props.C93_refuted_alias",
    "Verif.Props.C93_refuted_empty_plaintext"
   ],
   "note": "The three C93_refuted_* theorems show that the exceptions in the statement are needed. That a session moves the records of the materials into its own trace without failing is an assumption of the session model; the failing move is in C92."
  },
  {
   "property": "C94",
   "status": "proved",
   "theorems": [
    "Verif.Props.C94_encrypt_hit",
    "Verif.Props.C94_decrypt_hit",
    "Verif.Props.C94_miss",
    "Verif.Props.C94_message_limit",
    "Verif.Props.C94_byte_limit",
    "Verif.Props.C94_not_stuck",
    "Verif.Props.C94_faults"
   ],
   "note": "Limits and progress assume, like C41, that the upstream CMM never gives the same data key twice. An encryption request whose hit fails may reach the upstream CMM with another encryption context (C94_miss)."
  },
  {
   "property": "C95",
   "status": "proved",
   "theorems": [
    "Verif.Props.C95_handles_encrypt",
    "Verif.Props.C95_handles_decrypt",
    "Verif.Props.C95_served_encrypt",
    "Verif.Props.C95_served_decrypt",
    "Verif.Props.C95_upstream_encrypt",
    "Verif.Props.C95_upstream_decrypt",
    "Verif.Props.C95_missing",
    "Verif.Props.C95_encrypt_hit",
    "Verif.Props.C95_decrypt_hit",
    "Verif.Props.C95_message_limit",
    "Verif.Props.C95_byte_limit",
    "Verif.Props.C95_local",
    "Verif.Props.C95_wrap_refutes",
    "Verif.Props.C95_promised_refutes",
    "Verif.Props.C95_table",
    "Verif.Props.C95_calls_in_table"
   ],
   "note": "Limits assume that the upstream CMM never gives the same data key in two calls, and that the history is short enough for 64-bit counters (fewer than 2^64 questions; questions times byte limit below 2^64). The kind of an entry that is given by find_entry is assumed to be written. C95_local shows that Model/CachingCmm is this program with the local cache answering."
  },
  {
   "property": "C96",
   "status": "proved",
   "theorems": [
    "Verif.Props.C96_messages_use_their_key",
    "Verif.Props.C96_message_limit",
    "Verif.Props.C96_byte_limit"
   ],
   "note": "The byte limit speaks of messages that are complete or whose size was known when the data key was asked for; for others it fails (C91_byte_limit_refuted). As in C95 the history is short enough for 64-bit counters."
  },
  {
   "property": "C97",
   "status": "proved",
   "theorems": [
    "Verif.Props.C97_local_cache_keeps",
    "Verif.Props.C97_settles",
    "Verif.Props.C97_every_answer_is_recorded",
    "Verif.Props.C97_calls_are_possible",
    "Verif.Props.C97_message_limit",
    "Verif.Props.C97_byte_limit"
   ],
   "note": "Executions up to a fault: the later steps of an invalidating release can access a freed entry (C44, C97_caching_cmms_race_refuted). The steps are those of Model/CacheConc; upstream CMMs do not give the same data key twice, and the execution is short enough for 64-bit counters, as in C96."
  },
  {
   "property": "C98",
   "status": "proved",
   "theorems": [
    "Verif.Props.C98_reading_never_fails",
    "Verif.Props.C98_reads_to_the_end",
    "Verif.Props.C98_process_full",
    "Verif.Props.C98_round_trip",
    "Verif.Props.C98_strangers_read_nothing",
    "Verif.Props.C98_trees",
    "Verif.Props.C98_local_cache"
   ],
   "note": "The digest for identifiers has 64 bytes and does not collide on the strings digested for the requests made to the reader's cache. A reader is sure not to fail if its calls return and digests for identifiers do not fail. For the local cache, executions up to a fault (C44)."
  },
  {
   "property": "C99",
   "status": "proved",
   "theorems": [
    "Verif.Props.C99_linearizable",
    "Verif.Props.C99_every_execution",
    "Verif.Props.C99_found",
    "Verif.Props.C99_handles",
    "Verif.Props.C99_invalidated_not_found",
    "Verif.Props.C99_invalidated_refused",
    "Verif.Props.C99_uninterrupted",
    "Verif.Props.C99_usage_sums_refuted"
   ],
   "note": "Executions up to a fault: C44 shows that releases with invalidation can read a freed entry. Steps are sequentially consistent. C99_usage_sums_refuted shows why the sums of update_usage_stats are excluded."
  },
  {
   "property": "C100",
   "status": "proved",
   "theorems": [
    "Verif.Props.C100_only_what_was_written",
    "Verif.Props.C15_header_is_no_frame",
    "Verif.Props.C100_sessions_write_messages",
    "Verif.Props.C100_fresh_identifiers_needed"
   ],
   "note": "The integrity of the AEAD (whatever opens was sealed by a writer, with its nonce, additional data and tag) is a hypothesis, as is the difference of message identifiers; C100_fresh_identifiers_needed shows that the latter cannot be dropped. The trailer is not covered (C20, C89)."
  },
  {
   "property": "C101",
   "status": "proved",
   "theorems": [
    "Verif.Props.C101_one_plaintext",
    "Verif.Props.C101_required_by_policy",
    "Verif.Props.C101_uncommitted_refuted"
   ],
   "note": "The collision of commitments is an explicit alternative of the conclusion, with the two data keys the CMMs returned for the same request. C101_uncommitted_refuted gives a version 1 message with two plaintexts for a toy AEAD that, like GCM, does not commit to its key."
  },
  {
   "property": "C102",
   "status": "proved",
   "theorems": [
    "Verif.Props.C102_signed_message",
    "Verif.Props.C102_no_stripping",
    "Verif.Props.C102_default_cmm",
    "Verif.Props.C102_unsigned_refuted"
   ],
   "note": "Unforgeability (nothing verifies but what the writers signed) is a hypothesis on the verification keys that the CMM returns for the context shown; with the default CMM, on the public key in that context. The signature itself is not claimed to be the one written (ECDSA signatures are malleable)."
  },
  {
   "property": "C103",
   "status": "proved",
   "theorems": [
    "Verif.Props.C103_materials",
    "Verif.Props.C103_tree_materials",
    "Verif.Props.C103_context",
    "Verif.Props.C103_bound_written",
    "Verif.Props.C103_written_though_keys_known",
    "Verif.Props.C103_tree_written",
    "Verif.Props.C103_rsa_refuted",
    "Verif.Props.C103_discovery_refuted"
   ],
   "note": "That nothing else opens under the wrapping keys (WrapsIntact, LeafIntact) and nothing else verifies under the public keys (OwnKeys) are hypotheses; AES-GCM, ECDSA and KMS itself are outside the model. Messages of the writers must fit the format (AllReadable). RSA keyrings that decrypt and KMS keyrings in discovery mode are excluded; for both a refutation is proved."
  },
  {
   "property": "C104",
   "status": "proved",
   "theorems": [
    "Verif.Props.C104_context",
    "Verif.Props.C104_written",
    "Verif.Props.C104_threads_answer",
    "Verif.Props.C104_caches_answer",
    "Verif.Props.C104_threads",
    "Verif.Props.C104_cached"
   ],
   "note": "Hypotheses: those of C103 (WrapsIntact or LeafIntact, OwnKeys, AllReadable); no collision of the digest on strings for the requests (in Readers and ThreadReaders); decoded curve points can be encoded and decoded again (StablePoints); a cache other than the local cache keeps its promises (SharedCache, proved for the local cache in C97 and C98)."
  },
  {
   "property": "C105",
   "status": "proved",
   "theorems": [
    "Verif.Props.C105_hash",
    "Verif.Props.C105_hash_spreads",
    "Verif.Props.C105_contract",
    "Verif.Props.C105_table",
    "Verif.Props.C105_address_hash_refuted",
    "Verif.Props.C105_order",
    "Verif.Props.C105_top"
   ],
   "note": "The hash table itself belongs to aws-c-common; it is represented by chains chosen by the hash and searched with the given equality (Spec/Containers), and shown to agree with the table of Model/LocalCache. C105_address_hash_refuted shows that the contract is needed."
  },
  {
   "property": "C106",
   "status": "proved",
   "theorems": [
    "Verif.Props.C106_edk",
    "Verif.Props.C106_trace",
    "Verif.Props.C106_copies",
    "Verif.Props.C106_suite",
    "Verif.Props.C106_suite_valid_but_other",
    "Verif.Props.C106_context"
   ],
   "note": "aws_byte_buf_eq and aws_string_eq (aws-c-common) are assumed to compare contents; std::map keeps one value per key in the order of the keys."
  },
  {
   "property": "C107",
   "status": "proved",
   "theorems": [
    "Verif.Props.C107_process",
    "Verif.Props.C107_process_full",
    "Verif.Props.C107_history",
    "Verif.Props.C107_only_lengths"
   ],
   "note": "Says nothing about timing. That nonces are not repeated under a key, which real AEADs need in order to hide the plaintext, is C14. The CMM is given only the size of the plaintext (EncRequest)."
  },
  {
   "property": "C108",
   "status": "proved",
   "theorems": [
    "Verif.Props.C108_call",
    "Verif.Props.C108_process",
    "Verif.Props.C108_history",
    "Verif.Props.C108_default_policy",
    "Verif.Props.C108_default_history",
    "Verif.Props.C108_suites",
    "Verif.Props.C108_no_derivation_refuted"
   ],
   "note": "Uses inside the keyrings (wrapping) are C113. What is derived, and with which inputs, is C34."
  },
  {
   "property": "C109",
   "status": "proved",
   "theorems": [
    "Verif.Props.C109_count",
    "Verif.Props.C109_freed_once",
    "Verif.Props.C109_enough",
    "Verif.Props.C109_objects",
    "Verif.Props.C109_weaker_refuted"
   ],
   "note": "Assumes the C11 rules stated in Spec/MemoryOrder, that the atomics of aws-c-common have the C11 meaning of the order that they are given, and fewer than 2^64 - 1 operations on a count. C76 and C77 are about who holds references, with steps of threads interleaved; this is about executions in which threads do not agree on the order of events."
  },
  {
   "property": "C110",
   "status": "partial",
   "theorems": [
    "Verif.Props.C110_entry_refuted",
    "Verif.Props.C110_ordered_partial",
    "Verif.Props.C110_repaired"
   ],
   "note": "Partial because the code does not have the property: local_cache.c:354 and 854 have release order without acquire. What holds is proved: entries whose references are given up in an order enforced otherwise, and all entries if the two lines had acquire-release order. The counts themselves and that an entry is destroyed at most once are C109_count and C109_freed_once, which hold for any orders. The reading of entry->zombie after the reference is given up is a different fault, C44."
  },
  {
   "property": "C111",
   "status": "partial",
   "theorems": [
    "Verif.Props.C111_only_races",
    "Verif.Props.C111_readers",
    "Verif.Props.C111_no_race_partial",
    "Verif.Props.C111_zombie_refuted",
    "Verif.Props.C111_expiry_refuted"
   ],
   "note": "Partial because the code does not have the property: zombie and expiry_time are read without the mutex and are not atomic. What holds is proved: these are the only races, and executions without these readings have none. Destruction of entries is C110 and C44. The other properties about threads (C41, C44, C97) take these two readings to be atomic."
  },
  {
   "property": "C112",
   "status": "proved",
   "theorems": [
    "Verif.Props.C112_process",
    "Verif.Props.C112_process_full",
    "Verif.Props.C112_history",
    "Verif.Props.C112_only_lengths"
   ],
   "note": "The counterpart of C107 for decryption. It is about the calls of the session API; what the AEAD does inside, and time, are outside of the model."
  },
  {
   "property": "C113",
   "status": "proved",
   "theorems": [
    "Verif.Props.C113_encrypt",
    "Verif.Props.C113_decrypt",
    "Verif.Props.C113_kms_encrypt_calls",
    "Verif.Props.C113_kms_decrypt_calls",
    "Verif.Props.C113_cmm",
    "Verif.Props.C113_session"
   ],
   "note": "The counterpart of C108 for keyrings; together they cover the life of a data key from its birth to its wrapping and to the derivation of keys. In C113_session the primitives of the session and those of the keyrings are separate parameters, as the same AES-GCM cannot both undo the replacement of wrapped keys and encrypt bodies as before. Time is outside of the model."
  },
  {
   "property": "C114",
   "status": "proved",
   "theorems": [
    "Verif.Props.C114_cache",
    "Verif.Props.C114_generate",
    "Verif.Props.C114_decrypt",
    "Verif.Props.C114_history",
    "Verif.Props.C114_cmm",
    "Verif.Props.C114_session",
    "Verif.Props.C114_library",
    "Verif.Props.C114_sharing"
   ],
   "note": "C114_cmm discharges, for caching CMMs, the hypothesis of C108 on the CMM. The encrypted data keys of a decryption request are not replaced: they are part of the cache identifier by design. Failed copies of materials are outcomes of allocations in the model, independent of the lists that are copied. Time and memory use are outside of the model. Which call a session makes of its CMM is said in C114_sharing as in C91, by what the session's outcome depends on."
  },
  {
   "property": "C115",
   "status": "proved",
   "theorems": [
    "Verif.Props.C115_cache",
    "Verif.Props.C115_step",
    "Verif.Props.C115_schedule",
    "Verif.Props.C115_new",
    "Verif.Props.C115_runs"
   ],
   "note": "C115_cache is about the steps of calls of the cache itself, C115_step about the steps of the two calls of a caching CMM, C115_schedule about all schedules (with undefined behaviour and impossible steps), C115_runs about the executions of C94. Steps are those of C94: parts of a call under the mutex are one step, atomic operations outside it are steps of their own. Time within a step is outside of the model."
  },
  {
   "property": "C116",
   "status": "proved",
   "theorems": [
    "Verif.Props.C116_cache",
    "Verif.Props.C116_generate",
    "Verif.Props.C116_decrypt",
    "Verif.Props.C116_generateFaults",
    "Verif.Props.C116_decryptFaults",
    "Verif.Props.C116_history"
   ],
   "note": "The theorems say that there is a schedule of the thread alone; for calls that go through, each of its steps after the first is the only one that the thread can make. For calls that run into undefined behaviour in the sequential model the theorems say that the thread alone does too, in the same way; that its steps up to there are forced is not stated for these. Time is outside of the model."
  }
 ]
}
