{"id": "C01", "title": "Header serialise/parse round trip", "statement": "Every message header the library serialises successfully (known algorithm, fields within their 16-bit limits, at least one EDK, valid content type and frame length) parses back, from any buffer that starts with those bytes, to exactly the same header (algorithm, message id, encryption context, EDK list, content type, frame length, suite data, IV, tag), and parsing consumes exactly the serialised bytes.", "quantifier": "all headers of both format versions, all encryption contexts, all EDK lists, all trailing bytes", "why_tests_cant": "A header has unbounded variable-length fields; a test exercises a few literal headers only.", "anchors": ["source/header.c:aws_cryptosdk_hdr_write", "source/header.c:aws_cryptosdk_hdr_parse"]}
{"id": "C02", "title": "Header parsing is streaming-safe", "statement": "If a byte string starts with a complete valid header, then every proper prefix of that header is reported as 'short buffer' (never accepted, never rejected as malformed), so a caller that feeds the message in arbitrary pieces gets the same header.", "quantifier": "all byte strings that start with a parseable header, all proper prefixes", "why_tests_cant": "Number of split points and headers is unbounded; tests try a handful of splits.", "anchors": ["source/header.c:aws_cryptosdk_hdr_parse", "source/session_decrypt.c:aws_cryptosdk_priv_try_parse_header"]}
{"id": "C03", "title": "Header size is exact and header writing is all-or-nothing", "statement": "The size reported for a header is exactly the number of bytes written; writing succeeds exactly when the buffer holds that many bytes; when it fails, the reported length is zero and every byte of the buffer is zero.", "quantifier": "all headers whose fields fit their on-wire widths and whose serialised size is below 2^31 bytes (the size is returned as an int), all buffer capacities", "why_tests_cant": "Every capacity and every header must agree between two separately written functions.", "anchors": ["source/header.c:aws_cryptosdk_hdr_size", "source/header.c:aws_cryptosdk_hdr_write"]}
{"id": "C04", "title": "Accepted headers are well formed", "statement": "If header parsing accepts a byte string, the algorithm id is one of the supported suites and matches the message format version, the content type is framed or non-framed with a frame length that is non-zero exactly for framed, the EDK list is non-empty, the v1 reserved field is zero and the v1 IV length is 12; and the accepted bytes are fully determined by the parsed header apart from the order of the encryption-context entries.", "quantifier": "all byte strings", "why_tests_cant": "Quantifies over arbitrary attacker-supplied bytes.", "anchors": ["source/header.c:aws_cryptosdk_hdr_parse", "source/header.c:parse_edks", "source/header.c:parse_frame_len"]}
{"id": "C05", "title": "EDK-count limit is enforced in both directions", "statement": "With a maximum EDK count configured, no message with more EDKs is ever written by an encrypting session, and no message with more EDKs ever reaches the CMM or yields plaintext on decryption; without one, the count is unrestricted.", "quantifier": "all messages, materials and configured limits", "why_tests_cant": "Needs all counts and all headers, including counts larger than the limit by one.", "anchors": ["source/session.c:aws_cryptosdk_session_set_max_encrypted_data_keys", "source/header.c:parse_edks", "source/session_encrypt.c:aws_cryptosdk_priv_try_gen_key"]}
{"id": "C06", "title": "Encryption-context serialisation round trip", "statement": "Deserialising the serialisation of any encryption context within the size limit yields the same key/value map and consumes all bytes.", "quantifier": "all finite maps from byte strings to byte strings within the limit", "why_tests_cant": "Unbounded number of entries and lengths.", "anchors": ["source/enc_ctx.c:aws_cryptosdk_enc_ctx_serialize", "source/enc_ctx.c:aws_cryptosdk_enc_ctx_deserialize"]}
{"id": "C07", "title": "Encryption-context serialisation is canonical", "statement": "The serialisation depends only on the set of key/value pairs, not on insertion or hash-table order, and two different encryption contexts never have the same serialisation; so the AAD authenticated by the header determines the context.", "quantifier": "all pairs of encryption contexts, all iteration orders", "why_tests_cant": "Statement about all orders and all pairs.", "anchors": ["source/enc_ctx.c:aws_cryptosdk_enc_ctx_serialize", "source/utils.c:aws_cryptosdk_compare_hash_elems_by_key_string"]}
{"id": "C08", "title": "Malformed encryption contexts are rejected and leave nothing behind", "statement": "Deserialisation of bytes with a repeated key, a zero entry count, or missing bytes fails and leaves the context empty; in a header any trailing bytes after the entries are rejected.", "quantifier": "all byte strings", "why_tests_cant": "Quantifies over arbitrary attacker-supplied bytes.", "anchors": ["source/enc_ctx.c:aws_cryptosdk_enc_ctx_deserialize", "source/header.c:parse_aad"]}
{"id": "C09", "title": "Encryption-context size limit", "statement": "The size function returns exactly the serialised length when it is at most 65535 and there are at most 65535 entries, and otherwise fails with LIMIT_EXCEEDED; serialisation never truncates a length field.", "quantifier": "all encryption contexts", "why_tests_cant": "Boundary must hold for every mixture of entry sizes.", "anchors": ["source/enc_ctx.c:aws_cryptosdk_enc_ctx_size"]}
{"id": "C10", "title": "Cloning an encryption context makes the destination equal to the source", "statement": "After a successful clone the destination holds exactly the source's pairs whatever it held before, and the source is unchanged.", "quantifier": "all source and destination contexts, all iteration orders", "why_tests_cant": "All pairs of maps.", "anchors": ["source/enc_ctx.c:aws_cryptosdk_enc_ctx_clone"]}
{"id": "C11", "title": "Frame serialise/parse round trip", "statement": "Serialising a frame (intermediate, final or single-block) and filling in its IV, ciphertext and tag yields bytes which the frame parser splits into the same type, sequence number, IV, ciphertext and tag, whatever bytes follow; the consumed length is the reported ciphertext size.", "quantifier": "all frame types, sequence numbers, sizes, contents and trailing bytes", "why_tests_cant": "Unbounded sizes, 32-bit sequence numbers.", "anchors": ["source/framefmt.c:aws_cryptosdk_serialize_frame", "source/framefmt.c:aws_cryptosdk_deserialize_frame"]}
{"id": "C12", "title": "Frame parsing is streaming-safe and its size estimates are sound", "statement": "On every proper prefix of a complete frame the parser reports 'short buffer' without consuming input; the ciphertext-size estimate it returns is more than what was supplied and no more than the real frame size, so a caller that follows the estimate always makes progress and never over-reads.", "quantifier": "all frames, all proper prefixes", "why_tests_cant": "All split points of all frames.", "anchors": ["source/framefmt.c:aws_cryptosdk_deserialize_frame"]}
{"id": "C13", "title": "Frame writing respects limits and buffers", "statement": "Frame serialisation succeeds exactly when the sequence number, frame size and output capacity permit it, never writes beyond the capacity, and zeroes the output on failure; the final-frame marker can never be produced by an intermediate frame.", "quantifier": "all frames, sequence numbers and capacities", "why_tests_cant": "Boundary values 0xFFFFFFFF and all capacities.", "anchors": ["source/framefmt.c:aws_cryptosdk_serialize_frame"]}
{"id": "C14", "title": "AEAD nonces never repeat within a message", "statement": "During one encryption the header tag and all body frames are sealed under the content key with pairwise distinct IVs, whatever the frame size, message size and call pattern.", "quantifier": "all encryption sessions, all sequences of process calls", "why_tests_cant": "Requires reasoning about up to 2^32 frames and every call schedule.", "anchors": ["source/cipher.c:aws_cryptosdk_encrypt_body", "source/session_encrypt.c:aws_cryptosdk_priv_try_encrypt_body", "source/cipher.c:aws_cryptosdk_sign_header"]}
{"id": "C15", "title": "Frame AAD is injective and separated from header AAD", "statement": "The additional data authenticated with a body frame determines the message id, the frame kind (intermediate, final, single block), the sequence number and the content length; two frames that differ in any of these never share AAD. The additional data authenticated with a header are never those of a frame.", "quantifier": "all message ids of the same format version, kinds, sequence numbers, lengths", "why_tests_cant": "Injectivity over an unbounded domain.", "anchors": ["source/cipher.c:update_frame_aad"]}
{"id": "C16", "title": "Encrypt-then-decrypt returns the plaintext for every chunking", "statement": "For every plaintext, frame size (including non-framed), suite, encryption context and EDK list, encrypting with any sequence of input/output slice sizes that completes, then decrypting the result with any sequence of slice sizes that completes, returns exactly the plaintext and the same encryption context.", "quantifier": "all plaintexts, frame sizes, suites, and pairs of call schedules", "why_tests_cant": "Unbounded message length and number of schedules.", "anchors": ["source/session.c:aws_cryptosdk_session_process", "source/session_encrypt.c", "source/session_decrypt.c"]}
{"id": "C17", "title": "Encryption output does not depend on how the caller slices buffers", "statement": "For fixed materials and randomness, the concatenation of the output produced by any sequence of process calls is a prefix of one canonical ciphertext determined by plaintext, frame size and materials, and equals it once the session reports done.", "quantifier": "all schedules of input and output slice sizes", "why_tests_cant": "Exponentially many schedules.", "anchors": ["source/session.c:aws_cryptosdk_session_process", "source/session_encrypt.c:aws_cryptosdk_priv_try_encrypt_body"]}
{"id": "C18", "title": "Decryption output does not depend on how the caller slices buffers", "statement": "For a fixed ciphertext and CMM behaviour, the concatenation of the plaintext released by any sequence of successful process calls is a prefix of one plaintext determined by the ciphertext alone, and equals it once the session reports done.", "quantifier": "all ciphertexts (well formed or not), all schedules", "why_tests_cant": "Exponentially many schedules, arbitrary bytes.", "anchors": ["source/session.c:aws_cryptosdk_session_process", "source/session_decrypt.c:aws_cryptosdk_priv_try_decrypt_body"]}
{"id": "C19", "title": "Only authenticated frames are released, in order", "statement": "Every byte of plaintext a decrypting session reports as output is the result of a successful AEAD opening under the content key of the message with AAD binding the message id and the frame's position; the n-th released frame has sequence number n. Under the assumption that only honestly sealed frames open, the released plaintext is a prefix of the honest plaintext, and equals it if the session completes: frames cannot be reordered, duplicated, dropped, truncated or spliced from another message.", "quantifier": "all ciphertexts, all schedules", "why_tests_cant": "Quantifies over every adversarial ciphertext.", "anchors": ["source/session_decrypt.c:aws_cryptosdk_priv_try_decrypt_body", "source/cipher.c:aws_cryptosdk_decrypt_body"]}
{"id": "C20", "title": "Done means verified", "statement": "A decrypting session reports done only after the header tag and every frame up to and including the final one were authenticated and, if the suite is a signing suite, a signature over exactly the header bytes followed by the body bytes was verified.", "quantifier": "all ciphertexts, all schedules", "why_tests_cant": "Adversarial inputs and schedules.", "anchors": ["source/session_decrypt.c:aws_cryptosdk_priv_check_trailer", "source/session.c:aws_cryptosdk_priv_session_change_state"]}
{"id": "C21", "title": "Failure leaves no output and is sticky", "statement": "If process fails, it reports zero bytes written and every byte of the caller's output buffer is zero; every later process call fails with the same error and also zeroes its output, until the session is reset.", "quantifier": "all sessions, inputs, buffers, failure points and later calls", "why_tests_cant": "Every failure point in every state.", "anchors": ["source/session.c:aws_cryptosdk_session_process", "source/session.c:aws_cryptosdk_priv_fail_session"]}
{"id": "C22", "title": "Commitment policy is enforced", "statement": "Under a policy that requires commitment for encryption no message with a non-committing suite is produced, and under one that forbids it none with a committing suite; under the policy that requires commitment for decryption no plaintext is ever released from a message with a non-committing suite, whatever the CMM returns.", "quantifier": "all policies, suites, CMM responses, ciphertexts, schedules", "why_tests_cant": "Must hold against every CMM behaviour and message.", "anchors": ["source/session.c:algorithm_allowed_for_encrypt", "source/session.c:algorithm_allowed_for_decrypt", "source/session_encrypt.c:aws_cryptosdk_priv_try_gen_key", "source/session_decrypt.c:aws_cryptosdk_priv_unwrap_keys"]}
{"id": "C23", "title": "Key commitment is checked", "statement": "When a message with a committing suite is decrypted, plaintext is released only if the commitment value derived from the unwrapped data key equals the one stored in the header, byte for byte; the comparison accepts equal values and nothing else.", "quantifier": "all data keys, headers, commitment strings", "why_tests_cant": "Equality over all 32-byte strings; adversarial headers.", "anchors": ["source/cipher.c:aws_cryptosdk_private_commitment_eq", "source/cipher.c:aws_cryptosdk_private_derive_key"]}
{"id": "C24", "title": "Unsigned-only decryption never releases plaintext of signed messages", "statement": "A session in unsigned-only decryption mode never releases plaintext from a message whose header names a signing suite, provided the CMM returns materials for the suite it was asked about.", "quantifier": "all ciphertexts, CMMs, schedules", "why_tests_cant": "Adversarial inputs.", "anchors": ["source/session_decrypt.c:aws_cryptosdk_priv_unwrap_keys"]}
{"id": "C25", "title": "Encryption context is visible only after the CMM accepted it", "statement": "On decryption the encryption context accessor returns nothing until the CMM has returned decryption materials for the message; afterwards it returns the context in the parsed header.", "quantifier": "all histories of API calls", "why_tests_cant": "All histories.", "anchors": ["source/session.c:aws_cryptosdk_session_get_enc_ctx_ptr", "source/session_decrypt.c:aws_cryptosdk_priv_unwrap_keys"]}
{"id": "C26", "title": "No API call history aborts the process", "statement": "No sequence of public session calls (configuration, process with any buffers, reset, accessors), with any CMM and crypto outcomes, reaches the library's abort on an illegal state transition.", "quantifier": "all finite sequences of API calls and environment outcomes", "why_tests_cant": "Unbounded histories.", "anchors": ["source/session.c:aws_cryptosdk_priv_session_change_state"]}
{"id": "C27", "title": "process terminates", "statement": "Every call to process performs finitely many internal steps, bounded by the supplied buffer sizes plus a constant number of phase changes.", "quantifier": "all sessions, buffers", "why_tests_cant": "Termination over all inputs.", "anchors": ["source/session.c:aws_cryptosdk_session_process"]}
{"id": "C28", "title": "Following the size estimates makes progress", "statement": "If a call leaves the session unfinished and without error, then supplying at least the estimated input and output sizes on the next call makes it consume input, produce output or change phase, so encryption and decryption complete after finitely many calls.", "quantifier": "all sessions reachable by any schedule", "why_tests_cant": "All reachable states.", "anchors": ["source/session.c:aws_cryptosdk_session_estimate_buf", "source/session_encrypt.c:aws_cryptosdk_priv_encrypt_compute_body_estimate", "source/session_decrypt.c"]}
{"id": "C29", "title": "A completed encryption matches the declared size", "statement": "When an encrypting session reports done, it consumed exactly the declared message size, and this is at most every bound that was accepted by set_message_bound.", "quantifier": "all sessions, schedules and orders of set_message_size / set_message_bound calls", "why_tests_cant": "All schedules.", "anchors": ["source/session.c:aws_cryptosdk_session_set_message_size", "source/session.c:aws_cryptosdk_session_set_message_bound"]}
{"id": "C30", "title": "Declaring a size smaller than what was already processed is an error", "statement": "As documented, set_message_size fails if more plaintext has already been processed than the declared size, and writing more than the smallest bound fails. (The code does not do this: refuted by a concrete history.)", "quantifier": "all sessions and sizes", "why_tests_cant": "A history-dependent arithmetic wrap.", "anchors": ["include/aws/cryptosdk/session.h:aws_cryptosdk_session_set_message_size", "source/session.c:aws_cryptosdk_session_set_message_size"]}
{"id": "C31", "title": "Reset gives a fresh session", "statement": "After reset to any mode the observable behaviour of the session is that of a newly created one with the same CMM, commitment policy, EDK limit and frame size: no key, context, error, trace or byte of the previous message influences it. (As documented, the frame size survives; the code lets a decryption overwrite it.)", "quantifier": "all histories before the reset and all histories after it", "why_tests_cant": "All histories.", "anchors": ["source/session.c:aws_cryptosdk_session_reset"]}
{"id": "C32", "title": "process_full is all-or-nothing", "statement": "process_full succeeds only if the whole input was consumed and the session is done, and then reports the complete output; if processing fails it reports zero bytes and the output buffer is zeroed.", "quantifier": "all inputs, capacities, sessions", "why_tests_cant": "All failure points.", "anchors": ["source/session.c:aws_cryptosdk_session_process_full"]}
{"id": "C33", "title": "Algorithm suite table is coherent", "statement": "Every supported suite has a data key length, content key length, IV length, tag length, format version, commitment length and signature length consistent with its identifier, and the header-level tag/IV lengths agree with the suite table; all other 16-bit identifiers are unsupported everywhere.", "quantifier": "all 16-bit algorithm identifiers", "why_tests_cant": "All identifiers and all tables that repeat the data.", "anchors": ["source/cipher.c:aws_cryptosdk_alg_props", "source/header.c:aws_cryptosdk_algorithm_is_known", "source/header.c:aws_cryptosdk_private_algorithm_taglen"]}
{"id": "C34", "title": "Content keys are domain separated", "statement": "The KDF input used for the content key (salt and info) determines the algorithm suite and message id; the info string for the commitment key differs from that of the content key for every suite.", "quantifier": "all suites, message ids and data keys", "why_tests_cant": "Injectivity over all inputs.", "anchors": ["source/cipher.c:aws_cryptosdk_private_derive_key", "source/hkdf.c:aws_cryptosdk_hkdf"]}
{"id": "C35", "title": "HKDF produces exactly the requested length or fails", "statement": "HKDF output equals the RFC 5869 extract-and-expand construction for every requested length up to 255 hash blocks and fails, with the output zeroed, beyond it.", "quantifier": "all salts, keys, info strings and output lengths", "why_tests_cant": "All lengths incl. partial last block.", "anchors": ["source/hkdf.c:aws_cryptosdk_hkdf"]}
{"id": "C36", "title": "Cached data keys respect the message limit", "statement": "A caching CMM never hands out the same encryption data key for more than the configured number of messages.", "quantifier": "all histories of requests, cache evictions, clock readings and upstream outcomes", "why_tests_cant": "All histories.", "anchors": ["source/caching_cmm.c:generate_enc_materials", "source/local_cache.c:update_usage_stats"]}
{"id": "C37", "title": "Cached data keys respect the byte limit", "statement": "The total of the plaintext sizes declared in the requests that were served with one encryption data key never exceeds the configured byte limit, except that a single message longer than the limit is served with a data key of its own that is used for nothing else.", "quantifier": "all histories of requests", "why_tests_cant": "All histories, 64-bit arithmetic.", "anchors": ["source/caching_cmm.c:generate_enc_materials", "source/local_cache.c:update_usage_stats"]}
{"id": "C38", "title": "Cached materials respect the time limit", "statement": "With a TTL configured, materials created at time t are never served from the cache at or after t+TTL, for encryption or decryption, and never when the clock cannot be read (unless t+TTL does not fit in 64 bits, so that no clock reading can reach it).", "quantifier": "all histories, clock readings, TTL values incl. overflow", "why_tests_cant": "All histories and 64-bit overflow of time arithmetic.", "anchors": ["source/caching_cmm.c:check_ttl", "source/caching_cmm.c:convert_ttl_to_nanos"]}
{"id": "C39", "title": "Uncacheable requests bypass the cache", "statement": "Requests with unknown or over-limit plaintext size are never served from nor stored in the cache for encryption; and, as the source comments intend, suites without a key derivation step are never served from nor stored in the cache. (The second half is false of the code: the suite table stringifies the digest name, so the test 'md_name != NULL' is true for every supported suite; refuted.)", "quantifier": "all requests", "why_tests_cant": "All requests and histories.", "anchors": ["source/caching_cmm.c:generate_enc_materials", "source/caching_cmm.c:decrypt_materials", "source/caching_cmm.c:can_cache_algorithm"]}
{"id": "C40", "title": "Cache lookups are isolated", "statement": "Two requests share a cache identifier only if they are of the same kind (encrypt/decrypt) and have equal partition, algorithm, encryption context and (for decryption) the same multiset of EDKs, unless the hash function collides.", "quantifier": "all pairs of requests, all hash functions", "why_tests_cant": "Injectivity over unbounded inputs.", "anchors": ["source/caching_cmm.c:hash_enc_request", "source/caching_cmm.c:hash_dec_request"]}
{"id": "C41", "title": "Cache limits hold under concurrency", "statement": "When several threads use one caching CMM, the message and byte limits hold for every interleaving of the individual cache accesses, and the threads do not block each other for good. (The byte limit is refuted for limits so large that the 64-bit counter wraps.)", "quantifier": "all interleavings of any number of threads", "why_tests_cant": "Schedules are unbounded and rare interleavings are not reproduced by tests.", "anchors": ["source/caching_cmm.c:generate_enc_materials", "source/local_cache.c:update_usage_stats"]}
{"id": "C42", "title": "The local cache never exceeds its capacity and evicts least recently used entries", "statement": "After every operation the cache holds at most its capacity (at least two) of live entries; a lookup returns the most recently stored unexpired, unevicted, not invalidated entry for that id; eviction removes the least recently used one and never the entry just inserted.", "quantifier": "all sequences of cache operations and clock readings", "why_tests_cant": "All histories.", "anchors": ["source/local_cache.c:locked_insert_entry", "source/local_cache.c:locked_find_entry"]}
{"id": "C43", "title": "Cache entries live exactly as long as they are referenced", "statement": "For clients that release each handle once, no cache operation touches a freed entry, no entry is freed while a handle or the cache refers to it, and every entry is freed once neither does.", "quantifier": "all sequences of cache operations by any number of handle holders", "why_tests_cant": "All histories.", "anchors": ["source/local_cache.c:locked_release_entry", "source/local_cache.c:release_entry"]}
{"id": "C44", "title": "Concurrent release of cache entries is memory safe", "statement": "As documented (the cache is thread safe), concurrent releases of handles on the same entry never access a freed entry. (Refuted: there are interleavings of two threads that call the cache directly, and of three threads that only use a caching CMM, that read a freed entry.)", "quantifier": "all interleavings of releases", "why_tests_cant": "Needs a specific interleaving of two or three threads.", "anchors": ["source/local_cache.c:locked_release_entry", "source/local_cache.c:release_entry"]}
{"id": "C45", "title": "Keyring call contract on encryption", "statement": "Through the public keyring call, success guarantees that a data key created by the keyring has the suite's length and that a pre-existing data key is still in the same buffer (address, length, capacity, allocator); violations by the keyring are reported as errors; a keyring is never asked to encrypt with EDKs present but no data key. (Success does not promise that there is a data key.)", "quantifier": "all keyring implementations, states", "why_tests_cant": "Arbitrary third-party keyrings.", "anchors": ["source/materials.c:aws_cryptosdk_keyring_on_encrypt"]}
{"id": "C46", "title": "Keyring call contract on decryption", "statement": "Through the public keyring call, success means either no data key or one of the suite's length, and a keyring is never called with a data key already present.", "quantifier": "all keyring implementations, states", "why_tests_cant": "Arbitrary third-party keyrings.", "anchors": ["source/materials.c:aws_cryptosdk_keyring_on_decrypt"]}
{"id": "C47", "title": "Multi-keyring encryption is all-or-nothing", "statement": "A multi-keyring encrypt succeeds only if the generator and all children succeeded, and then appends their EDKs and trace records in order; if it fails, the caller's EDK list and trace are unchanged.", "quantifier": "all generators, child lists and their outcomes", "why_tests_cant": "Arbitrary lists of arbitrary keyrings.", "anchors": ["source/multi_keyring.c:multi_keyring_on_encrypt"]}
{"id": "C48", "title": "Multi-keyring decryption tries every keyring until one succeeds", "statement": "A multi-keyring decrypt returns the data key of the first keyring, generator first, that produces one; errors of earlier keyrings do not prevent it; it fails only if none produced a key and at least one failed. (Documented; refuted for a keyring that fails while leaving a data key behind.)", "quantifier": "all child lists and outcomes", "why_tests_cant": "Arbitrary lists of arbitrary keyrings.", "anchors": ["source/multi_keyring.c:multi_keyring_on_decrypt", "include/aws/cryptosdk/multi_keyring.h"]}
{"id": "C49", "title": "Raw AES keyring recovers exactly its own data keys", "statement": "A raw AES keyring decrypts what an identically configured raw AES keyring encrypted, and never uses an EDK whose namespace, name, IV/tag description or length differ from its own.", "quantifier": "all data keys, names, namespaces, EDK lists", "why_tests_cant": "Unbounded strings and lists.", "anchors": ["source/raw_aes_keyring.c:raw_aes_keyring_on_encrypt", "source/raw_aes_keyring.c:raw_aes_keyring_on_decrypt", "source/raw_aes_keyring.c:aws_cryptosdk_parse_provider_info"]}
{"id": "C50", "title": "Raw RSA keyring recovers exactly its own data keys", "statement": "A raw RSA keyring decrypts what an identically configured raw RSA keyring encrypted, and never attempts an EDK with a different namespace or name.", "quantifier": "all data keys, names, namespaces, EDK lists", "why_tests_cant": "Unbounded strings and lists.", "anchors": ["source/raw_rsa_keyring.c:raw_rsa_keyring_on_encrypt", "source/raw_rsa_keyring.c:raw_rsa_keyring_on_decrypt"]}
{"id": "C51", "title": "Default CMM picks the suite and binds the signing key", "statement": "The default CMM uses the requested or configured suite, else the commitment-policy default; for signing suites the context of the produced message contains the public key under the reserved name, and requests that already contain the reserved name are refused; on decryption a signing suite without the key, or a non-signing one with it, is refused.", "quantifier": "all requests, contexts, keyrings", "why_tests_cant": "All requests and keyring behaviours.", "anchors": ["source/default_cmm.c:default_cmm_generate_enc_materials", "source/default_cmm.c:default_cmm_decrypt_materials"]}
{"id": "C52", "title": "List copying is all-or-nothing", "statement": "Copying all elements of an EDK or trace list onto another appends them all in order or, on failure at any element, leaves the destination as it was.", "quantifier": "all lists, all failure points", "why_tests_cant": "All failure points.", "anchors": ["source/list_utils.c:aws_cryptosdk_edk_list_copy_all", "source/list_utils.c:aws_cryptosdk_keyring_trace_copy_all"]}
{"id": "C53", "title": "KMS discovery filter", "statement": "A KMS keyring with a discovery filter never calls KMS for an EDK whose key ARN has a different partition or an account not in the filter.", "quantifier": "all EDK lists, filters", "why_tests_cant": "Adversarial provider-info strings.", "anchors": ["aws-encryption-sdk-cpp/source/kms_keyring.cpp:OnDecrypt", "aws-encryption-sdk-cpp/source/kms_keyring.cpp:IsAuthorized"]}
{"id": "C54", "title": "Strict KMS keyrings use only configured keys", "statement": "A strict KMS keyring calls Decrypt only for EDKs whose key ARN is one of the configured identifiers and accepts a data key only if KMS reports that it used that key.", "quantifier": "all EDK lists, KMS responses", "why_tests_cant": "Adversarial EDKs and responses.", "anchors": ["aws-encryption-sdk-cpp/source/kms_keyring.cpp:OnDecrypt"]}
{"id": "C55", "title": "Multi-Region key matching", "statement": "Two key identifiers match for decryption exactly if they are equal or both are multi-Region key ARNs that differ at most in the region (repeated slashes in the resource count as one); matching is an equivalence relation on key identifiers.", "quantifier": "all pairs and triples of strings", "why_tests_cant": "All strings.", "anchors": ["aws-encryption-sdk-cpp/source/cpputils.cpp:kms_mrk_match_for_decrypt", "aws-encryption-sdk-cpp/source/cpputils.cpp:is_kms_mrk_identifier"]}
{"id": "C56", "title": "MRK-aware decryption calls KMS only in its own region with a matching key", "statement": "An MRK-aware strict keyring calls Decrypt only with its configured key id and only for EDKs matching it; a discovery one calls only with ARNs in its own region that satisfy the filter, and accepts only a response for the key requested with the suite's key length.", "quantifier": "all EDK lists, KMS responses", "why_tests_cant": "Adversarial EDKs and responses.", "anchors": ["aws-encryption-sdk-cpp/source/kms_mrk_keyring.cpp:OnDecrypt"]}
{"id": "C57", "title": "Duplicate multi-Region keys are detected", "statement": "Building an MRK-aware multi-keyring fails exactly when two of the identifiers denote multi-Region keys with the same key id (or an identifier is empty or invalid).", "quantifier": "all identifier lists", "why_tests_cant": "All lists.", "anchors": ["aws-encryption-sdk-cpp/source/cpputils.cpp:find_duplicate_kms_mrk_ids", "aws-encryption-sdk-cpp/source/kms_mrk_keyring.cpp:_Build"]}
{"id": "C58", "title": "KMS keyring encryption is all-or-nothing", "statement": "KMS keyring encryption either adds one EDK per configured key in order, or fails leaving the EDK list, the trace and the data key buffer as they were.", "quantifier": "all key lists and KMS responses", "why_tests_cant": "All failure points.", "anchors": ["aws-encryption-sdk-cpp/source/kms_keyring.cpp:OnEncrypt", "aws-encryption-sdk-cpp/source/kms_mrk_keyring.cpp:OnEncrypt"]}
{"id": "C59", "title": "No (key, IV) pair is reused across messages that share cached materials", "statement": "Two messages encrypted with the same cached data key are sealed under different content keys whenever their message ids differ and the KDF does not collide. (True for suites with a KDF; refuted for suites without one, which the caching CMM caches although its comments say it must not: the two messages then use the same content key and the same IVs.)", "quantifier": "all pairs of encryption sessions served by one caching CMM entry", "why_tests_cant": "Quantifies over all message ids, frame counts and suites; a sample cannot show that no pair of messages collides.", "anchors": ["source/caching_cmm.c:can_cache_algorithm", "source/cipher.c:aws_cryptosdk_alg_props", "source/cipher.c:aws_cryptosdk_private_derive_key"]}
{"id": "C60", "title": "A completed encryption is a well-formed message", "statement": "When an encrypting session reports done, the concatenated output is a header carrying the encryption context, EDKs and suite of the CMM's materials, followed by frames numbered 1..n that seal, in order, exactly the plaintext consumed (all but the last being intermediate frames of the frame size), followed by the signature trailer over all preceding bytes if and only if the suite is a signing suite.", "quantifier": "all encryption sessions, CMM responses, frame sizes and schedules", "why_tests_cant": "Must hold for every sequence of slice sizes and every CMM response, not just for the round trips tests exercise.", "anchors": ["source/session.c:aws_cryptosdk_session_process", "source/session_encrypt.c:aws_cryptosdk_priv_try_encrypt_body", "source/session_encrypt.c:aws_cryptosdk_priv_write_trailer"]}
{"id": "C61", "title": "The suite accessor works on completed sessions", "statement": "When a session reports done, the algorithm-id accessor succeeds and returns the suite named in the header of the message that was written or read.", "quantifier": "all histories of API calls that leave the session done", "why_tests_cant": "Quantifies over every history, including resets between messages of different suites.", "anchors": ["source/session.c:aws_cryptosdk_session_get_alg_id"]}
{"id": "C62", "title": "Requests to a caching CMM have defined behaviour", "statement": "Whatever materials request is made on a caching CMM, and whatever the cache holds, the call returns a result or an error; it never crashes or corrupts memory. (Refuted: a request that names an unknown algorithm dereferences a null pointer; a decryption request with an encrypted data key field longer than 65535 bytes, or a digest failure while encrypted data keys are hashed, frees a digest context twice. Proved for all other requests.)", "quantifier": "all requests, all histories of the cache, all upstream and digest outcomes", "why_tests_cant": "Quantifies over all request contents and cache histories; the failing paths need inputs and failures tests do not inject.", "anchors": ["source/caching_cmm.c:can_cache_algorithm", "source/caching_cmm.c:hash_dec_request", "source/caching_cmm.c:generate_enc_materials", "source/caching_cmm.c:decrypt_materials"]}
{"id": "C63", "title": "A caching CMM respects the commitment policy of the request", "statement": "If the upstream CMM only gives materials that the commitment policy of the request admits, so does a caching CMM in front of it. (Refuted: the cache identifier does not include the policy, so materials stored for a request under one policy are served to a request under another one; proved when all requests have the same policy.)", "quantifier": "all histories of requests with any policies", "why_tests_cant": "Needs histories that mix policies in one cache.", "anchors": ["source/caching_cmm.c:hash_enc_request", "source/caching_cmm.c:generate_enc_materials"]}
{"id": "C64", "title": "KMS keyrings round trip", "statement": "The data key that a KMS or MRK-aware keyring wrapped is the one that any KMS or MRK-aware keyring recovers from those EDKs, whenever KMS answers for at least one of the EDKs the second keyring may try; with an MRK-aware keyring a replica key in another region suffices.", "quantifier": "all keyring configurations, EDK lists, contexts, suites, KMS answers that are right for what KMS encrypted", "why_tests_cant": "All configurations and all patterns of KMS failures.", "anchors": ["aws-encryption-sdk-cpp/source/kms_keyring.cpp:OnEncrypt", "aws-encryption-sdk-cpp/source/kms_keyring.cpp:OnDecrypt", "aws-encryption-sdk-cpp/source/kms_mrk_keyring.cpp:OnEncrypt", "aws-encryption-sdk-cpp/source/kms_mrk_keyring.cpp:OnDecrypt"]}
{"id": "C65", "title": "The declared plaintext size bounds what is encrypted", "statement": "The plaintext size that an encrypting session declares in its request to the CMM is at least the number of bytes it has consumed when it reports done, and it is exactly the message size if that was set before processing began; so limits that a CMM enforces on declared sizes are limits on encrypted bytes.", "quantifier": "all CMMs, schedules and orders of set_message_size / set_message_bound / process calls", "why_tests_cant": "All orders of the size calls around the request.", "anchors": ["source/session_encrypt.c:aws_cryptosdk_priv_try_gen_key", "source/session.c:aws_cryptosdk_session_set_message_size", "source/session.c:aws_cryptosdk_session_set_message_bound"]}
{"id": "C66", "title": "What was written can be read", "statement": "A message that a session wrote can be read by another session whose policy, EDK limit and mode admit it and whose CMM answers for its encrypted data keys: no call fails, whatever the slices in which the message arrives and the sizes of the output buffers, also while the message is still being written; and once the whole message is available with room for the plaintext, a single call reads it to its end, releasing exactly the plaintext, with or without a trailing signature.", "quantifier": "all messages written under any suite, frame length and schedule, all slicings of the input, all output buffer sizes, all environments that undo the writer's", "why_tests_cant": "A test reads a few messages in a few slicings; a spurious failure can depend on where a slice ends within a field.", "anchors": ["source/session.c:aws_cryptosdk_session_process", "source/session_decrypt.c:aws_cryptosdk_priv_try_parse_header", "source/session_decrypt.c:aws_cryptosdk_priv_try_decrypt_body", "source/session_decrypt.c:aws_cryptosdk_priv_check_trailer", "source/session.c:aws_cryptosdk_session_process_full"]}
{"id": "C67", "title": "Signatures have the announced length", "statement": "A trailing signature that is produced has exactly the length that the suite announces (so that the ciphertext size is known beforehand), is a well-formed encoding of two integers and is accepted by the verification of the key it was made with; producing it never writes beyond its buffer; and signing ends as soon as one of the random signatures has, directly or with s negated, the right length, which all but a small fraction of them have.", "quantifier": "all keys, all data, all streams of random signatures, all patterns of failing library calls", "why_tests_cant": "The length of an ECDSA signature is random; wrong lengths that need more than one iteration or negation are rare.", "anchors": ["source/cipher_openssl.c:aws_cryptosdk_sig_sign_finish", "source/cipher.c:signature_len"]}
{"id": "C68", "title": "Serialised signing keys", "statement": "A private key that was serialised from a signing context can be loaded again, giving a context with the same key pair and public key text; loading accepts only strings with the identifier of the suite, the two lengths, a valid point, an integer and nothing after them; in particular it refuses the key of another suite, any proper prefix of a serialised key and any extension of it.", "quantifier": "all key pairs and suites, all byte strings offered as a key", "why_tests_cant": "Tests try a few keys and a few damaged strings.", "anchors": ["source/cipher_openssl.c:aws_cryptosdk_sig_get_privkey", "source/cipher_openssl.c:aws_cryptosdk_sig_sign_start"]}
{"id": "C69", "title": "A signature covers the data in any slices, and nothing else", "statement": "Signing and verification depend only on the concatenation of the data passed in, not on the slices; verification succeeds if and only if the signature is well formed and valid for the digest of all of the data under the public key given as text at the start; a signature made with a generated key verifies, from its public key text, over the same data in other slices; suites without signature have no signature context.", "quantifier": "all data and slicings, all public key texts, all signatures", "why_tests_cant": "Tests use a few slicings and a few corrupted signatures.", "anchors": ["source/cipher_openssl.c:aws_cryptosdk_sig_update", "source/cipher_openssl.c:aws_cryptosdk_sig_verify_start", "source/cipher_openssl.c:aws_cryptosdk_sig_verify_finish", "source/cipher_openssl.c:aws_cryptosdk_sig_sign_start_keygen"]}
{"id": "C70", "title": "Signature functions free what they allocate", "statement": "Whatever calls fail, each of the signature functions leaves behind exactly what it returns: the start functions a context (and the text of the public key if asked for) on success and nothing on failure, the functions that serialise keys a string or nothing, abort and both finish functions free the context, signing leaving only the signature string.", "quantifier": "all keys and inputs, all patterns of failing OpenSSL and allocator calls, all streams of random signatures", "why_tests_cant": "Failures of the allocator or of OpenSSL in the middle of a function are not exercised by tests.", "anchors": ["source/cipher_openssl.c:sign_start", "source/cipher_openssl.c:serialize_pubkey", "source/cipher_openssl.c:load_pubkey", "source/cipher_openssl.c:aws_cryptosdk_sig_abort", "source/cipher_openssl.c:aws_cryptosdk_sig_sign_finish", "source/cipher_openssl.c:aws_cryptosdk_md_init"]}
{"id": "C71", "title": "The whole library round-trips", "statement": "A message written by a session with the default CMM over raw AES and RSA keyrings, alone or in a multi-keyring, is read completely by a session with the default CMM over keyrings of which one holds a matching key, whatever the slices, buffers, suite, context and the order of the keyrings, and yields the same plaintext and context; when calls of the reader fail it still releases nothing but a prefix of the plaintext; a reader none of whose keyrings is addressed by the message accepts no byte of it. No undefined behaviour occurs in CMM and keyrings.", "quantifier": "all keyrings and multi-keyrings of raw keyrings, all histories of calls of writer and reader, all primitives that satisfy the listed laws, all allocation failures", "why_tests_cant": "Tests run a few combinations of keyrings and suites; the composition of all layers for all keyrings, histories and failures cannot be enumerated.", "anchors": ["source/session.c:aws_cryptosdk_session_process", "source/default_cmm.c:default_cmm_generate_enc_materials", "source/default_cmm.c:default_cmm_decrypt_materials", "source/multi_keyring.c:multi_keyring_on_decrypt", "source/raw_aes_keyring.c", "source/raw_rsa_keyring.c", "source/cipher_openssl.c:aws_cryptosdk_sig_sign_finish"]}
{"id": "C72", "title": "A session asks its CMM for exactly what the caller configured", "statement": "An encrypting session requests materials only for the encryption context that the caller sees through the accessor, with no particular algorithm suite and with the commitment policy in force, so no call can tell apart two CMMs that answer those requests alike. A decrypting session never requests encryption materials. The encryption context is the one the caller made: a new or reset session has an empty one, an edit before processing applies, a later edit or a setter does not change it.", "quantifier": "all reachable sessions, all pairs of CMMs, all next API calls with all arguments", "why_tests_cant": "Tests inspect the request of one mock CMM in a few configurations; that no other request is ever made must hold for every history of configuration calls and every CMM.", "anchors": ["source/session_encrypt.c:aws_cryptosdk_priv_try_gen_key", "source/session_decrypt.c:aws_cryptosdk_priv_unwrap_keys", "source/session.c:aws_cryptosdk_session_get_enc_ctx_ptr_mut"]}
{"id": "C73", "title": "Encryption succeeds when nothing outside fails, and the message has the length of the format", "statement": "An encrypting session whose CMM answers with usable materials (a suite that the policy admits, a data key of its length, at least one and not too many encrypted data keys, a context that fits the header), in an environment in which no allocation and no primitive fails, and with a message within the limits of the format, never fails to process input, whatever the slices and buffers. A finished message has exactly the length that the format gives for its suite, encryption context, encrypted data keys, frame size and plaintext. Given the rest of the input and room for that many bytes, a call finishes the message; one call with a large enough buffer encrypts everything.", "quantifier": "all reachable encrypting sessions, all environments in which nothing fails, all inputs, slicings and output buffers", "why_tests_cant": "Tests encrypt a few messages with a few buffer sizes; that no slicing, buffer size, context, suite or number of keys leads to an error or a stall, and the exact length, must hold for all of them.", "anchors": ["source/session.c:aws_cryptosdk_session_process", "source/session_encrypt.c:aws_cryptosdk_priv_try_gen_key", "source/session_encrypt.c:aws_cryptosdk_priv_try_encrypt_body", "source/session_encrypt.c:aws_cryptosdk_priv_write_trailer", "source/header.c:aws_cryptosdk_hdr_size"]}
{"id": "C74", "title": "The whole library encrypts, and what it encrypts in one call it decrypts in one call", "statement": "A user who encrypts with the default CMM over a raw AES or RSA keyring or a multi-keyring of such with a generator, with a suite the commitment policy admits, does not get an error for any message within the limits of the format, whatever the slices and buffers, as long as OpenSSL and the allocator do not fail. The length of the message can be computed beforehand from suite, encryption context, keyrings, frame size and plaintext, and one call with a buffer of that length encrypts everything; then one call of a reader with a fitting keyring and a buffer of the plaintext's length returns the plaintext.", "quantifier": "all keyrings, contexts, suites, policies, frame sizes, plaintexts, slicings, buffers, and all behaviours of OpenSSL within the stated assumptions", "why_tests_cant": "Tests combine a handful of keyrings, suites and sizes; that no combination fails, that the announced length is exact and that the two single calls fit together must hold for all of them.", "anchors": ["source/session.c:aws_cryptosdk_session_process_full", "source/session_encrypt.c:aws_cryptosdk_priv_try_gen_key", "source/default_cmm.c:default_cmm_generate_enc_materials", "source/raw_aes_keyring.c:raw_aes_keyring_on_encrypt", "source/raw_rsa_keyring.c:raw_rsa_keyring_on_encrypt", "source/multi_keyring.c:multi_keyring_on_encrypt", "source/cipher_openssl.c:aws_cryptosdk_sig_sign_finish"]}
{"id": "C75", "title": "Decryption accepts exactly the messages of the published format", "statement": "In an environment in which nothing outside the message fails, one call with the whole input succeeds with a given plaintext if and only if the input is a message with this plaintext and the buffer has room for it. A message is: a header of the published format, shorter than 2^31 bytes, for which the CMM has a data key of the suite's length, with the right commitment and tag, of a suite the policy admits and with no more encrypted data keys than the limit; frames in order that open under the content key, the last and only the last one final, whatever their IVs, the final one possibly full; and for a signing suite a signature over all of it. A session that is fed such a message from its beginning, also one that this library would not write, in any slices and buffers never fails, and ends with the plaintext when it has all of it.", "quantifier": "all inputs, environments, policies, limits, modes, slicings and buffers", "why_tests_cant": "Acceptance of exactly a set of byte strings, including those other implementations write, cannot be sampled: a reader that is too strict for rare messages or too lenient for others passes any finite list of test vectors.", "anchors": ["source/session.c:aws_cryptosdk_session_process_full", "source/session_decrypt.c:aws_cryptosdk_priv_try_parse_header", "source/session_decrypt.c:aws_cryptosdk_priv_unwrap_keys", "source/session_decrypt.c:aws_cryptosdk_priv_try_decrypt_body", "source/session_decrypt.c:aws_cryptosdk_priv_check_trailer", "source/header.c:aws_cryptosdk_hdr_parse", "source/framefmt.c:aws_cryptosdk_deserialize_frame"]}
{"id": "C76", "title": "No keyring, CMM, cache or session is used after it is freed", "statement": "However a program, also one with several threads, makes keyrings, multi-keyrings, caches, CMMs and sessions, retains and releases them, as long as each call only names references the program owns, no call and no destructor uses freed memory, frees memory twice, lets a reference count wrap or mistakes one kind of object for another; this also when allocations fail anywhere. Everything that can be reached from an object the program owns is allocated. A constructor whose allocations succeed makes an object from which all it was given can be reached, so that the program may give up its own references to these in any order. Every destructor ends.", "quantifier": "all sequences and interleavings of API calls and destructor steps, all numbers of threads, all allocation failures, all graphs of objects", "why_tests_cant": "A wrong count shows up only for particular orders of creation, release and failure; the space of object graphs and interleavings is unbounded, and use after free often goes unnoticed in a run.", "anchors": ["include/aws/cryptosdk/materials.h:aws_cryptosdk_private_refcount_down", "include/aws/cryptosdk/materials.h:aws_cryptosdk_keyring_release", "source/multi_keyring.c:aws_cryptosdk_multi_keyring_new", "source/default_cmm.c:aws_cryptosdk_default_cmm_new", "source/caching_cmm.c:aws_cryptosdk_caching_cmm_new_from_cmm", "source/session.c:aws_cryptosdk_session_new_from_keyring_2", "aws-encryption-sdk-cpp/source/kms_mrk_keyring.cpp:MultiKeyringBuilder::Build"]}
{"id": "C77", "title": "When a program has given up its references, everything is freed", "statement": "When the program owns no reference any more and no destructor is running, no object is allocated; and whenever it can happen, releasing what it owns and letting the destructors run leads there. At any time an object is allocated exactly if the program owns it, something allocated holds it, or a destructor is about to release or free it.", "quantifier": "all sequences and interleavings of API calls and destructor steps, all numbers of threads, all graphs of objects", "why_tests_cant": "Leaks on paths with a failed allocation, and leaks that depend on the order of releases in several threads, need every path and every order.", "anchors": ["source/multi_keyring.c:aws_cryptosdk_multi_keyring_add_child", "source/raw_rsa_keyring.c:aws_cryptosdk_raw_rsa_keyring_new", "source/caching_cmm.c:aws_cryptosdk_caching_cmm_new_from_cmm", "aws-encryption-sdk-cpp/source/kms_mrk_keyring.cpp:MultiKeyringBuilder::Build", "include/aws/cryptosdk/materials.h:aws_cryptosdk_private_refcount_down"]}
{"id": "C78", "title": "Decryption fails for exactly one reason, and the error tells which", "statement": "A call of aws_cryptosdk_session_process in a decrypting session fails with error c only if the bytes given so far are turned down with c, or an allocation or digest outside the message fails with c. The reasons to turn bytes down are: they do not begin with a header (bad ciphertext), announce more EDKs than the limit (limit exceeded), the CMM fails (its error), its suite is unknown (bad state) or signs where only unsigned messages are taken (signed message not allowed), the data key has the wrong length (unknown), the policy excludes the suite (policy violation), the key cannot be derived, the commitment or header tag is wrong, a frame is malformed, out of order or does not verify, the public key is missing or the signature does not verify. The reasons exclude each other, and a message that is valid is never turned down. Conversely bytes that are turned down make the call fail with their error as soon as there are enough of them, if the output has room; the one-call API fails with the error of its input, or bad ciphertext if something is missing or left over.", "quantifier": "all sessions, all divisions of all inputs into calls, all buffer sizes, all CMMs and cryptographic primitives, all failures of allocations and digests", "why_tests_cant": "Which error a bad message produces depends on the first of many checks that fails, for every position in the message and every division into calls; tests check a few corruptions.", "anchors": ["source/session_decrypt.c:aws_cryptosdk_priv_try_parse_header", "source/session_decrypt.c:aws_cryptosdk_priv_unwrap_keys", "source/session_decrypt.c:aws_cryptosdk_priv_try_decrypt_body", "source/session_decrypt.c:aws_cryptosdk_priv_check_trailer", "source/session.c:aws_cryptosdk_session_process", "source/session.c:aws_cryptosdk_session_process_full", "source/header.c:aws_cryptosdk_hdr_parse", "source/framefmt.c:aws_cryptosdk_deserialize_frame"]}
{"id": "C79", "title": "A raw keyring or multi-keyring fails for exactly the documented reasons, with a known error", "statement": "Encrypting or decrypting a data key with a raw AES or raw RSA keyring makes a fixed list of checks (misuse, randomness, context size, wrapping key and data key size, each allocation, AES-GCM or RSA); the call succeeds if and only if none of them fails, and fails with error c if and only if the first one that fails does so with c, whatever EDKs are in the list. A successful decryption resets the thread's last error exactly if an EDK of the keyring's form did not open, and otherwise leaves it alone. A multi-keyring fails exactly if the call is misused, its lists cannot be allocated, the generator fails or leaves no data key, a child fails or the caller's list cannot grow, and then leaves the data key and the error of the keyring that failed.", "quantifier": "all keyrings, EDK lists, contexts, suites, prior states, all outcomes of allocations, random number generation and primitives", "why_tests_cant": "Which error results depends on the first of many checks that fails, in all combinations of failures; tests do not make allocations and the random number generator fail one by one.", "anchors": ["source/raw_aes_keyring.c:raw_aes_keyring_on_encrypt", "source/raw_aes_keyring.c:raw_aes_keyring_on_decrypt", "source/raw_rsa_keyring.c:raw_rsa_keyring_on_encrypt", "source/raw_rsa_keyring.c:raw_rsa_keyring_on_decrypt", "source/multi_keyring.c:multi_keyring_on_encrypt", "source/materials.c:aws_cryptosdk_keyring_on_encrypt", "source/materials.c:aws_cryptosdk_keyring_on_decrypt"]}
{"id": "C80", "title": "Encryption fails only for the listed reasons, and the error tells which", "statement": "The first call of an encrypting session makes a fixed list of checks while it makes the header: the CMM answers, with a known suite, a data key of the suite's length, at least one and not too many encrypted data keys, a signing context exactly for signing suites, a suite that the policy admits; randomness, key derivation, allocations, context size, the header tag, and the digest. The call fails with error c if the first of them that fails does so with c, and a failure of the first call is either that or happens after a header that could be made. Later failures are: no frame number left, an unframed message that is too long, a failing AEAD or digest, a failing signature or one longer than announced. The calls that configure a session fail with exactly the error of their first failing check, and put the session into the error state exactly in the listed cases. A failed call of process_full leaves a session that returns the same error ever after, and for encryption fails because the size may not be set, for a reason above, or because the output buffer is shorter than the message.", "quantifier": "all call histories of a session, CMMs, primitives, allocation outcomes, inputs and buffers", "why_tests_cant": "The error depends on the first failing check among many that tests cannot make fail one at a time or together (allocations, random numbers, key derivation, AEAD, digests).", "anchors": ["source/session_encrypt.c:aws_cryptosdk_priv_try_gen_key", "source/session_encrypt.c:build_header", "source/session_encrypt.c:sign_header", "source/session_encrypt.c:aws_cryptosdk_priv_try_encrypt_body", "source/session_encrypt.c:aws_cryptosdk_priv_write_trailer", "source/session.c:aws_cryptosdk_session_process_full", "source/session.c:aws_cryptosdk_session_set_message_size", "source/session.c:aws_cryptosdk_session_set_message_bound", "source/session.c:aws_cryptosdk_session_set_max_encrypted_data_keys", "source/session.c:aws_cryptosdk_session_set_commitment_policy", "source/session.c:aws_cryptosdk_session_set_frame_size"]}
{"id": "C81", "title": "The default CMM fails for exactly the listed reasons, with a known error", "statement": "A request for encryption materials of a suite of the table succeeds exactly if the context does not have the reserved name, the materials can be allocated, for a signing suite a key pair can be made and its public key put into the context, and the keyring succeeds for that context; otherwise it fails with the error of the first of these that fails. Afterwards the request's context is as before or has the public key in addition, also when the request failed; in the latter case repeating the request with that context is refused for the reserved name. A request for decryption materials succeeds exactly if they can be allocated, the keyring succeeds and finds a data key, the context has the reserved name exactly for signing suites, and the public key can be loaded; otherwise it fails with the error of the first that fails.", "quantifier": "all keyrings without undefined behaviour, contexts, suites, EDK lists, outcomes of allocations, key generation and loading", "why_tests_cant": "Tests cover single failures with fixed keyrings; the claim is about every combination of failing parts and about the error reported, including the context left behind by a failed request.", "anchors": ["source/default_cmm.c:default_cmm_generate_enc_materials", "source/default_cmm.c:default_cmm_decrypt_materials"]}
{"id": "C82", "title": "KMS keyrings fail to encrypt, and to be built, for exactly the listed reasons", "statement": "An encryption call of a strict KMS keyring succeeds exactly if no check of the following list fails, and otherwise fails with the error of the first that does: misuse (EDKs without data key), memory for the lists, a client for the first key and a generated data key if none was given, memory for its EDK and for the data key, then for every key to wrap with a client, an answer of KMS and memory for the EDK, in the order of the keys, then room in the caller's list, then the length of the generated data key. The same for a strict MRK-aware keyring, whose list also includes the length of the generated data key and the form of the key name in KMS's answer. Every builder of KMS keyrings, MRK-aware keyrings and MRK-aware multi-keyrings succeeds exactly under the stated conditions on identifiers, regions, filter, clients and memory, and gives exactly the keyring of its arguments.", "quantifier": "all key identifiers, grant tokens, contexts, suites, keyring inputs, clients, answers of KMS and outcomes of allocations", "why_tests_cant": "The tests use mocked KMS clients with scripted answers for a handful of failures; the claim covers every combination of failures and every list of keys.", "anchors": ["aws-encryption-sdk-cpp/source/kms_keyring.cpp:OnEncrypt", "aws-encryption-sdk-cpp/source/kms_mrk_keyring.cpp:OnEncrypt", "aws-encryption-sdk-cpp/source/kms_mrk_keyring.cpp:MultiKeyringBuilder::_Build", "aws-encryption-sdk-cpp/source/kms_mrk_keyring.cpp:MultiKeyringBuilder::BuildDiscovery"]}
{"id": "C83", "title": "The whole library round-trips through caches on both sides", "statement": "A message written by a session whose CMM is a caching CMM with a local cache over a default CMM (or, call by call, the default CMM itself) is read completely by a session whose CMM is a caching CMM over a default CMM of a user with a matching key, whatever went through both caches before, shared with any number of other caching CMMs: the plaintext and the context are the same and the signature verifies, also when data key and signing key come from the writer's cache and data key and verification key from the reader's. When calls of the reader fail it releases nothing but a prefix of the plaintext. A cache does not help a reader none of whose keyrings is addressed by the message. No undefined behaviour occurs, except where the digest of an encrypted data key fails.", "quantifier": "all histories of both caches, all partitions, limits and times to live, all keyrings and multi-keyrings of raw keyrings, all histories of session calls, all primitives that satisfy the listed laws, all failures of allocations, clocks, copies and signature functions; unless the digest collides on strings that the reader's cache digested", "why_tests_cant": "Tests exercise a few hits and misses with mock materials; what the cache stored under which history, and whether a signature made with a resumed key verifies against a resumed public key, cannot be enumerated.", "anchors": ["source/caching_cmm.c:generate_enc_materials", "source/caching_cmm.c:decrypt_materials", "source/local_cache.c:get_enc_materials", "source/local_cache.c:get_dec_materials", "source/cipher_openssl.c:aws_cryptosdk_sig_sign_start", "source/session.c:aws_cryptosdk_session_process"]}
{"id": "C85", "title": "Calls of KMS go to the region of their key", "statement": "Whatever KMS keyrings (strict, discovery, MRK-aware, multi-keyrings of MRK-aware ones) a program builds and uses in any number of threads, in any interleaving: every call of KMS carries exactly the grant tokens given to the builder of the keyring, in order; it is made with the client the user fixed with WithKmsClient or a SingleClientSupplier, and otherwise with a client for the region named in the ARN of the key of the call (the default region if there is none). A discovery filter has exactly the accounts added since they were last replaced. No call throws, unless a keyring with one key is built with a client supplier of the user that returns no client.", "quantifier": "all sequences of builder settings, all keyrings, requests, answers and failures of KMS, all client suppliers of users that return clients for the region asked, all numbers of threads and interleavings; region names without colon for multi-keyrings in discovery mode", "why_tests_cant": "Tests use one mock client that ignores the region; which client reaches which call depends on the number of keys, on the supplier, on what other threads cached and on earlier failures.", "anchors": ["aws-encryption-sdk-cpp/source/kms_keyring.cpp:BuildClientSupplier", "aws-encryption-sdk-cpp/source/kms_keyring.cpp:KmsKeyring::CachingClientSupplier::GetClient", "aws-encryption-sdk-cpp/source/kms_keyring.cpp:OnDecrypt", "aws-encryption-sdk-cpp/source/kms_mrk_keyring.cpp:MultiKeyringBuilder::_Build", "aws-encryption-sdk-cpp/source/kms_keyring.cpp:KmsKeyring::DiscoveryFilterBuilder"]}
{"id": "C86", "title": "A caching client supplier has one client per region, entered after success, and keeps it", "statement": "A KmsKeyring::CachingClientSupplier shared by any keyrings and threads holds at most one client for a region, and that is a client for this region. A client is entered only after KMS was called successfully with it, and after a success with a KMS keyring there is one for the region. Once there is a client for a region, one stays; calls for the region then use it and no other client is made.", "quantifier": "all programs that build and use KMS keyrings, all answers and failures of KMS, all interleavings", "why_tests_cant": "The supplier's state depends on the order of failures and successes over all keyrings and threads that share it; races do not show up reliably.", "anchors": ["aws-encryption-sdk-cpp/source/kms_keyring.cpp:KmsKeyring::CachingClientSupplier::GetClient", "aws-encryption-sdk-cpp/source/kms_keyring.cpp:BuildClientSupplier", "aws-encryption-sdk-cpp/source/kms_mrk_keyring.cpp:MultiKeyringBuilder::_Build"]}
{"id": "C87", "title": "Key material does not remain in memory that is given back", "statement": "Memory that may have held bytes of a data key, of a content key or of a value derived from them, of a wrapping key or of a private signing key is overwritten with zeros before it is given back to the allocator or its stack frame ends, in the keyrings, the default CMM, the cache, key derivation and the session, whichever steps fail. Such memory is live only as part of a session, a cache entry or a raw keyring, so that none is left when these are destroyed; resetting a session wipes its content key.", "quantifier": "all sequences of calls on any number of sessions, cache entries and keyrings, all trees of multi-keyrings, all algorithm suites, all outcomes of random numbers, wrapping, unwrapping, HKDF, copying and checking, all values of the secrets", "why_tests_cant": "Tests do not look at memory after it is given back, least of all on the paths where OpenSSL, KMS or an allocation fails.", "anchors": ["source/raw_aes_keyring.c:raw_aes_keyring_on_encrypt", "source/raw_rsa_keyring.c:raw_rsa_keyring_on_encrypt", "aws-encryption-sdk-cpp/source/kms_keyring.cpp:OnEncrypt", "source/session_decrypt.c:derive_data_key", "source/session_encrypt.c:aws_cryptosdk_priv_try_gen_key", "source/materials.c:aws_cryptosdk_enc_materials_destroy", "source/local_cache.c:destroy_cache_entry", "source/cipher_openssl.c:aws_cryptosdk_sig_get_privkey", "source/hkdf.c:aws_cryptosdk_hkdf", "source/session.c:aws_cryptosdk_session_reset"]}
{"id": "C88", "title": "The library round-trips with any keyrings that fit together", "statement": "With any keyrings, also those written by users of the library, the default CMM and the session preserve what the keyrings promise: if the writer's keyring gives a data key whenever it succeeds and the reader's keyring finds that data key again from the encrypted data keys and the same encryption context, every message is read completely and yields the plaintext and context; if the reader's keyring may fail but never finds a wrong data key, the reader releases nothing but a prefix of the plaintext; if it finds no data key, the reader accepts no byte of the message.", "quantifier": "all pairs of keyrings, also such that behave differently in each call, all histories of calls of writer and reader, all suites, contexts and commitment policies, all primitives that satisfy the listed laws", "why_tests_cant": "Users write their own keyrings; tests can only try the keyrings that exist in the repository.", "anchors": ["include/aws/cryptosdk/materials.h:aws_cryptosdk_keyring_vt", "source/materials.c:aws_cryptosdk_keyring_on_encrypt", "source/materials.c:aws_cryptosdk_keyring_on_decrypt", "source/default_cmm.c:default_cmm_generate_enc_materials", "source/default_cmm.c:default_cmm_decrypt_materials", "source/session.c:aws_cryptosdk_session_process"]}
{"id": "C89", "title": "The library round-trips with all its keyrings, also KMS keyrings and nested multi-keyrings", "statement": "A message written by a session with the default CMM over raw AES and RSA keyrings, KMS keyrings, MRK-aware KMS keyrings and multi-keyrings of these, nested to any depth, is read completely by a session over such keyrings of which one holds a matching key or may ask KMS, in its own region and with its own mode and filter, for one of the encrypted data keys and gets an answer; plaintext and context come back. If KMS refuses or calls fail, the reader still releases nothing but a prefix of the plaintext; a reader none of whose keyrings is addressed by the message or gets an answer of KMS accepts no byte. No undefined behaviour occurs in CMM and keyrings.", "quantifier": "all trees of keyrings, all histories of calls of writer and reader, all behaviours of KMS that never give a wrong plaintext, all primitives that satisfy the listed laws, all allocation failures", "why_tests_cant": "Tests mock KMS and run single keyrings or a few flat combinations; how all kinds of keyrings pass over each other's encrypted data keys in any nesting cannot be enumerated.", "anchors": ["source/multi_keyring.c:multi_keyring_on_encrypt", "source/multi_keyring.c:multi_keyring_on_decrypt", "source/raw_aes_keyring.c", "source/raw_rsa_keyring.c", "aws-encryption-sdk-cpp/source/kms_keyring.cpp:OnDecrypt", "aws-encryption-sdk-cpp/source/kms_keyring.cpp:OnEncrypt", "aws-encryption-sdk-cpp/source/kms_mrk_keyring.cpp:OnDecrypt", "aws-encryption-sdk-cpp/source/kms_mrk_keyring.cpp:OnEncrypt", "source/default_cmm.c:default_cmm_decrypt_materials", "source/session.c:aws_cryptosdk_session_process"]}
{"id": "C90", "title": "The signature functions report the code of the first thing that is wrong or fails", "statement": "The functions for trailing signatures (generating a key, starting from a serialised private key, starting verification, reading out the keys, updating, finishing a signature, making a digest context) succeed exactly if every OpenSSL call and allocation succeeds and the given key is well formed, and otherwise report the code of the first thing that is wrong: OOM only if a call that gives memory failed, BAD_CIPHERTEXT on starting to verify exactly if the public key is not base64 of a point (when nothing fails), CRYPTO_UNKNOWN for a private key that is truncated, of another suite, followed by other bytes or not a minimal DER integer. Signing ends with the outcome of the first round that is not in vain, in every round and for every pattern of failing calls.", "quantifier": "all suites with signatures, all keys and key texts, all patterns of failing calls, all sequences of drawn signatures", "why_tests_cant": "Tests cannot make the OpenSSL calls fail one by one or in combination, and do not cover all malformed keys.", "anchors": ["source/cipher_openssl.c:sign_start", "source/cipher_openssl.c:serialize_pubkey", "source/cipher_openssl.c:aws_cryptosdk_sig_get_privkey", "source/cipher_openssl.c:aws_cryptosdk_sig_sign_start_keygen", "source/cipher_openssl.c:aws_cryptosdk_sig_sign_start", "source/cipher_openssl.c:load_pubkey", "source/cipher_openssl.c:aws_cryptosdk_sig_verify_start", "source/cipher_openssl.c:aws_cryptosdk_sig_sign_finish", "source/cipher_openssl.c:aws_cryptosdk_md_init"]}
{"id": "C91", "title": "The usage limits of a caching CMM hold for what sessions really encrypt", "statement": "However many sessions share the cache of caching CMMs, in any interleaving of their calls: a session reads and writes nothing for a message before it has got a data key, and everything it then writes is sealed under keys derived from this data key. No data key is used for more messages than the largest message limit of the CMMs, and the plaintexts of the messages under one data key that are complete, or whose exact size was set before processing began, have together no more bytes than the largest byte limit, unless a single message is longer than the limit, which then does not share its data key. A session never takes in more plaintext than the size that was set before it began to process.", "quantifier": "all numbers of sessions, interleavings and histories of calls, all limits, all requests, all upstream CMMs that give no data key twice", "why_tests_cant": "The caching CMM counts the sizes it is told when a data key is asked for; that the sessions keep to what they tell, in every history and for every way of splitting the input, is a statement about all runs of several sessions and a cache.", "anchors": ["source/caching_cmm.c:generate_enc_materials", "source/caching_cmm.c:set_ttl_on_miss", "source/local_cache.c:update_usage_stats", "source/session_encrypt.c:aws_cryptosdk_priv_try_gen_key", "source/session.c:aws_cryptosdk_session_set_message_size", "source/session.c:aws_cryptosdk_session_set_message_bound", "source/session_encrypt.c:aws_cryptosdk_priv_try_encrypt_body"]}
{"id": "C92", "title": "Memory of sessions, headers, contexts, EDKs, traces, materials, cache entries, digests, raw keyrings and caching CMMs is released exactly once, whatever fails", "statement": "Whatever a program does with sessions (creating, encryption context, encrypting, decrypting, trailers, reading the trace, resetting, destroying), a materials cache, raw keyrings and caching CMMs, over any tree of raw, KMS and multi-keyrings, and whatever allocations, OpenSSL and KMS calls, checks and parsing steps fail: no block of memory is released twice or read after its release, at every time each block that is not released is owned by exactly one object of the program, and after all objects are destroyed no block is left. Exceptions, which are all there are: a transfer of EDKs or trace records into a list that must grow and cannot, after part has been moved (elements in two lists); a failure while a caching CMM hashes the EDKs of a decryption request, which a field of more than 65535 bytes causes without any failed allocation (digest context released twice); and losses when the EDK list of a header cannot grow, when the private key of an RSA keyring cannot be copied after the public key, when the second digest context of an encryption request or the object of a caching CMM cannot be had.", "quantifier": "all programs, all keyring trees, all numbers of EDKs, records, context pairs and cache entries, all combinations of failures at all places", "why_tests_cant": "Each allocation is a place where a run can fail, and what the error path must release depends on everything done before; the repository's tests inject no allocation failures, and combinations of places, objects and histories are unbounded.", "anchors": ["source/list_utils.c:aws_cryptosdk_transfer_list", "source/list_utils.c:list_copy_all", "source/edk.c:aws_cryptosdk_edk_init_clone", "source/keyring_trace.c:push_record_onto_trace", "source/enc_ctx.c:aws_cryptosdk_enc_ctx_clone", "source/enc_ctx.c:aws_cryptosdk_enc_ctx_deserialize", "source/header.c:aws_cryptosdk_hdr_parse", "source/session.c:aws_cryptosdk_session_reset", "source/session.c:aws_cryptosdk_session_destroy", "source/session_encrypt.c:aws_cryptosdk_priv_try_gen_key", "source/session_decrypt.c:aws_cryptosdk_priv_unwrap_keys", "source/local_cache.c:destroy_cache_entry", "source/local_cache.c:put_entry_for_encrypt", "source/local_cache.c:get_enc_materials", "source/caching_cmm.c:hash_dec_request", "source/caching_cmm.c:hash_enc_request", "source/caching_cmm.c:aws_cryptosdk_caching_cmm_new_from_cmm", "source/raw_rsa_keyring.c:aws_cryptosdk_raw_rsa_keyring_new", "source/multi_keyring.c:multi_keyring_on_encrypt"]}
{"id": "C93", "title": "The keyring trace names the wrapping keys that protect a message and the one that opened it", "statement": "The trace that a session shows is the one that came with the materials of its present message, never of an earlier one, and a finished session shows one. With a default CMM over any tree of raw AES, raw RSA, KMS, MRK-aware and multi-keyrings: in an encryption session the trace has, in the order of the tree, at most one record for each wrapping key and no other record; only the first can say that the data key was generated, and the flags for signing appear exactly for AES and KMS; if memory for records did not run out, no record is missing; and the encrypted data keys in the header are those that the same wrapping keys made of one data key, in the same order. In a decryption session the trace is one record (or none, if memory ran out), of a keyring of the tree that unwrapped a data key of the right length from one of the encrypted data keys in the header. It is assumed that KMS does not answer with empty keys; if it does on decryption, a record of that may precede. A record of a KMS key bears the configured identifier, which for aliases differs from the name in the encrypted data key.", "quantifier": "all keyring trees, encryption contexts, suites, session histories, CMMs (for the first sentence), answers of KMS and OpenSSL, and failures of allocations", "why_tests_cant": "The trace is assembled along the recursion over arbitrarily nested keyrings, across lists that are moved and cut when memory is short, and survives or not along arbitrary session histories; tests compare traces of a few fixed trees without failures.", "anchors": ["include/aws/cryptosdk/keyring_trace.h", "source/keyring_trace.c:aws_cryptosdk_keyring_trace_add_record", "source/raw_aes_keyring.c:raw_aes_keyring_on_encrypt", "source/raw_aes_keyring.c:raw_aes_keyring_on_decrypt", "source/raw_rsa_keyring.c:raw_rsa_keyring_on_encrypt", "source/raw_rsa_keyring.c:raw_rsa_keyring_on_decrypt", "source/multi_keyring.c:multi_keyring_on_encrypt", "source/multi_keyring.c:multi_keyring_on_decrypt", "aws-encryption-sdk-cpp/source/kms_keyring.cpp:OnEncrypt", "aws-encryption-sdk-cpp/source/kms_keyring.cpp:OnDecrypt", "aws-encryption-sdk-cpp/source/kms_mrk_keyring.cpp:OnDecrypt", "source/session.c:aws_cryptosdk_session_get_keyring_trace_ptr", "source/session_encrypt.c:aws_cryptosdk_priv_try_gen_key", "source/session_decrypt.c:aws_cryptosdk_priv_unwrap_keys"]}
{"id": "C94", "title": "Caching CMMs shared by threads: requests served from the cache get what the upstream CMM gave for the same request, within the time to live, under every interleaving", "statement": "Let any number of threads make encryption and decryption requests on caching CMMs that share one cache, and clear the cache, with the single accesses to the cache interleaved in any way. A request served from the cache gets the suite, data key, encrypted data keys (encryption) and trace that the upstream CMM gave for a request of the same kind answered before, with the same partition, suite and encryption context (and, for decryption, encrypted data keys up to their order) unless SHA-512 collides on the strings digested for them; with a signature context started from the key stored then; and the entry was stored not longer ago than the time to live of the CMM that serves it. Other answers of the upstream CMM reach the caller unchanged. Decryption requests and clearing do not weaken the message limit, nor the byte limit as far as it holds (C41). Threads never block each other for good. The only faults are: an unknown suite (in a request or from upstream), a double free when hashing the encrypted data keys of a decryption request fails, and the access to a destroyed entry in a release that C44 describes.", "quantifier": "all numbers of threads, schedules, requests, configurations of caching CMMs, clocks, upstream CMMs, capacities and addresses of entries", "why_tests_cant": "The claim is about all interleavings of the steps of two functions and their calls of the cache, with eviction, expiry, invalidation and clearing in between; tests run single-threaded or try a few schedules.", "anchors": ["source/caching_cmm.c:decrypt_materials", "source/caching_cmm.c:generate_enc_materials", "source/caching_cmm.c:check_ttl", "source/caching_cmm.c:set_ttl_on_miss", "source/caching_cmm.c:hash_dec_request", "source/caching_cmm.c:hash_enc_request", "source/local_cache.c:get_dec_materials", "source/local_cache.c:put_entry_for_decrypt", "source/local_cache.c:find_entry", "source/local_cache.c:release_entry", "source/local_cache.c:clear_cache"]}
{"id": "C95", "title": "Caching CMMs over a materials cache of any kind: handles are returned, answers come from the cache or from upstream unchanged, and limits hold if the cache keeps its promises", "statement": "An application may give a caching CMM a materials cache of its own, a table of functions. Whatever these answer, and whatever other threads do to the cache: a call uses only entry handles that it was given and has not returned, returns each exactly once, and holds none at its end. A request answered without the upstream CMM looked up exactly the identifier of the request, found an entry of the right kind, had its usage (one message with its bytes) counted within the limits, and got what the cache gave for this entry, which is returned with the wish to invalidate it exactly if the message limit is reached. A request that is passed on gets exactly the upstream CMM's answer, and cacheable materials are stored under the request's identifier with this usage; requests that bypass do not ask the cache at all. A cache that lacks a function needed for looking up serves nothing. If the cache keeps its promises (what it finds was put under the identifier; a handle stands for one entry; counters start with the initial usage and count every update; materials are those that were put), then over any interleaving of calls of any caching CMMs, a hit gets what the upstream CMM gave for the same partition, suite and context (and encrypted data keys) unless SHA-512 collides, within the time to live; no data key is given for more messages than the limit; nor for more bytes, except for one request that is longer than the limit and bypasses the cache. Two promises cannot be weakened: counters must not overflow as long as an invalidated entry is not forgotten, and usage must be counted also for entries that were invalidated, which the comments in cache.h leave unspecified.", "quantifier": "all caches (any answers), tables of functions, interleavings of any number of calls, configurations, requests, clocks and upstream CMMs", "why_tests_cant": "The claim is about every cache an application may plug in and every sequence of its answers; tests use the local cache and a mock with a few canned answers.", "anchors": ["source/caching_cmm.c:generate_enc_materials", "source/caching_cmm.c:decrypt_materials", "source/caching_cmm.c:check_ttl", "source/caching_cmm.c:set_ttl_on_miss", "include/aws/cryptosdk/cache.h:aws_cryptosdk_materials_cache_vt", "include/aws/cryptosdk/cache.h:aws_cryptosdk_materials_cache_find_entry", "include/aws/cryptosdk/cache.h:aws_cryptosdk_materials_cache_update_usage_stats", "include/aws/cryptosdk/cache.h:aws_cryptosdk_materials_cache_get_enc_materials", "include/aws/cryptosdk/cache.h:aws_cryptosdk_materials_cache_put_entry_for_encrypt", "include/aws/cryptosdk/cache.h:aws_cryptosdk_materials_cache_entry_release", "include/aws/cryptosdk/vtable.h:AWS_CRYPTOSDK_PRIVATE_VT_GET_NULL"]}
{"id": "C96", "title": "Usage limits hold for what sessions in any number of threads encrypt, over a materials cache of any kind", "statement": "Any number of encrypting sessions, in any number of threads, are created, configured, called and reset in any order; their CMMs are caching CMMs, with any limits and upstream CMMs, that share a materials cache of any kind, together with any other users. A session reads and writes nothing for a message before it has got a data key in a call of its CMM that is for this message only, and everything it then writes is under this data key. If the cache keeps its promises (as in C95) and the upstream CMMs do not give the same data key twice, no data key is used for more messages than the largest message limit, and the plaintexts of the messages under a data key that are complete, or whose size was set before processing began, have together no more bytes than the largest byte limit, or there is only one such message and more than the limit was declared for it.", "quantifier": "all histories of session calls, interleavings of the calls of caching CMMs, caches, limits, upstream CMMs and cryptographic primitives", "why_tests_cant": "The claim is about all interleavings of sessions and threads and all caches; tests run a few messages through one session and the local cache.", "anchors": ["source/session_encrypt.c:aws_cryptosdk_priv_try_gen_key", "source/session.c:aws_cryptosdk_session_process", "source/session.c:aws_cryptosdk_session_reset", "source/caching_cmm.c:generate_enc_materials", "include/aws/cryptosdk/cache.h:aws_cryptosdk_materials_cache_vt"]}
{"id": "C97", "title": "The local cache keeps the promises of a materials cache in any interleaving of threads, and so do usage limits over it", "statement": "Any number of calls of caching CMMs (encryption and decryption, any limits and upstream CMMs) run in any number of threads over one local cache of any capacity, with the steps of the cache's calls interleaved in any way, and other calls such as clearing the cache in between. Then the cache keeps what C95 asks of a materials cache: what is found was put under the same identifier and is of the kind reported, a handle stands for one entry, every successful update of the usage adds to 64-bit counters and reports the sums, bytes and messages each in some order of the updates, materials and encryption contexts given are those put, and creation times are the clock readings at the put. Every call of the cache that returns is in the record, calls are only about handles held and their first step does not fault. So over a local cache no data key is used by sessions in these threads for more messages than the largest message limit, and messages that are complete or of known size together have no more bytes than the largest byte limit (or there is only one, declared larger).", "quantifier": "all interleavings of steps of the cache's calls, numbers of threads, capacities, clock readings, failures, calls of caching CMMs and of sessions", "why_tests_cant": "The claim is about all interleavings of atomic steps; the tests of the cache call it from few threads in few orders.", "anchors": ["source/local_cache.c:find_entry", "source/local_cache.c:update_usage_stats", "source/local_cache.c:get_enc_materials", "source/local_cache.c:put_entry_for_encrypt", "source/local_cache.c:release_entry", "source/caching_cmm.c:generate_enc_materials"]}
{"id": "C98", "title": "Messages round trip between users whose sessions run in threads over shared caches", "statement": "Each user has a keyring of any kind and caching CMMs that share a materials cache of any kind, called from any number of threads with the questions to the cache interleaved in any way; sessions use a caching CMM or the default CMM. If the writer's keyring gives data keys that the reader's keyring finds whatever the order of the encrypted data keys, then a session of the reader that reads a message of the writer, in any slices, never fails, reads it to the end, in one call if input and room suffice, and releases what was written with the same encryption context. What a reader releases is always a prefix of what was written, and a reader whose keyring finds no data key takes and releases nothing, whatever its cache holds. All of this holds for trees of the library's keyrings that fit together, and for the library's local cache under any interleaving of its steps.", "quantifier": "all users, keyrings, materials caches that keep their promises, interleavings, numbers of threads, messages, slices and policies; for the local cache all interleavings of its steps", "why_tests_cant": "The claim is about every interleaving of threads, every cache and every slicing of a message; tests run a few single-threaded round trips with the local cache.", "anchors": ["source/caching_cmm.c:generate_enc_materials", "source/caching_cmm.c:decrypt_materials", "source/caching_cmm.c:hash_dec_request", "source/local_cache.c:get_enc_materials", "source/local_cache.c:get_dec_materials", "source/session.c:aws_cryptosdk_session_process"]}
{"id": "C99", "title": "Calls on the local cache in any interleaving of threads are calls one after the other", "statement": "Any number of threads make any calls on one local cache, on handles they hold, their steps interleaved in any way. The calls in the order of their return are a history of the sequential cache: a list of items, the most recently used first, bounded by the capacity, from which up to eight expired items are dropped at a lookup or a store. What a lookup finds was stored earlier under its identifier, and no call that returned since then cleared the cache, invalidated the entry or stored another under the identifier. No two stores give the same handle. After a release with invalidation has returned no lookup finds the entry and every update of its usage is refused. A call that no other thread separates does what the call does as a whole. Only the pair of sums returned by an update of the usage is not covered: two updates at the same time can return sums for which no order of the calls is right.", "quantifier": "all executions of any number of threads, calls, capacities, clocks and failures of allocation", "why_tests_cant": "The number of interleavings is unbounded; the threaded test of the local cache runs a few schedules chosen by the operating system and checks no order of results.", "anchors": ["source/local_cache.c:find_entry", "source/local_cache.c:put_entry_for_encrypt", "source/local_cache.c:update_usage_stats", "source/local_cache.c:set_expiration_hint", "source/local_cache.c:release_entry", "source/local_cache.c:locked_release_entry", "source/local_cache.c:clear_cache"]}
{"id": "C100", "title": "A reader accepts only what one session of a writer wrote, byte for byte", "statement": "Any number of encrypting sessions write messages, possibly under shared data keys, with message identifiers that differ under one content key. A decrypting session is given whatever bytes. If nothing opens under the content keys of the data keys that its CMM returns except what those sessions sealed, then the decrypting session has accepted nothing, or there is one writer such that the bytes accepted up to the trailer are the beginning of the bytes that writer wrote, including its whole header, the bytes released are the beginning of what that writer was given, and the suite and the encryption context shown are those of its message. When the decrypting session is done it has released all that the writer was given, and for a suite without signature it has read exactly what the writer wrote. The additional data of a header are never those of a frame. When two messages under one key share an identifier the claim fails.", "quantifier": "all sets of reachable encrypting sessions, all byte strings and call sequences of the reader, all suites, CMMs and environments", "why_tests_cant": "Tests flip bytes of one message and see it rejected; that no splice of the headers and frames of any number of messages, in any order, in any slices, is ever accepted is a statement about all inputs.", "anchors": ["source/session_decrypt.c:aws_cryptosdk_priv_try_parse_header", "source/session_decrypt.c:aws_cryptosdk_priv_try_decrypt_body", "source/cipher.c:aws_cryptosdk_verify_header", "source/cipher.c:aws_cryptosdk_decrypt_body", "source/cipher.c:aws_cryptosdk_sign_header", "source/cipher.c:aws_cryptosdk_encrypt_body", "source/session_encrypt.c:aws_cryptosdk_priv_try_encrypt_body"]}
{"id": "C101", "title": "A message with a committing suite has one plaintext, whoever reads it", "statement": "Two decrypting sessions, with CMMs of their own that may return different data keys, have read beginnings of one message of format version 2, in slices of their own. What one of them released is the beginning of what the other released, and when both are done they released the same bytes; otherwise the two CMMs returned two data keys for which the key derivation makes the same commitment. What a session accepts under the policy that requires commitment has format version 2. For suites without commitment the claim fails when the AEAD does not commit to its key.", "quantifier": "all pairs of reachable decrypting sessions, all byte strings, call sequences, CMMs and environments with the same primitives", "why_tests_cant": "Tests decrypt a message with a wrong data key and see one failure; that no message at all can be crafted to open to two plaintexts is a statement about every message and every pair of keys.", "anchors": ["source/session_decrypt.c:aws_cryptosdk_priv_unwrap_keys", "source/session_decrypt.c:derive_data_key", "source/cipher.c:aws_cryptosdk_private_commitment_eq", "source/cipher.c:aws_cryptosdk_private_derive_key_v2", "source/session.c:aws_cryptosdk_priv_algorithm_allowed_for_decrypt"]}
{"id": "C102", "title": "A signed message that was read to its end is what its signer wrote, whoever has the data key", "statement": "A decrypting session is done with a message of a signing suite. If nothing but what some encrypting sessions signed verifies under the key that its CMM returned, then what it read is, up to the signature, byte for byte what one of these sessions wrote; it shows the suite and the context of that message, and it released the plaintext of that session if its CMM returned the data key of that message. For a committing suite the two data keys have the same commitment. Nothing is assumed about who can seal under the data key. With the default CMM over any keyring, a message is accepted with a signing suite exactly if its context has the reserved public-key name, so the signature cannot be stripped without changing the context. For suites without signature the claim fails.", "quantifier": "all reachable decrypting sessions, all byte strings, call sequences, CMMs, keyrings and environments, all sets of reachable encrypting sessions", "why_tests_cant": "Tests flip bits of a signature; that no holder of the data key can make any other message that a reader finishes, in any slices, is a statement about all byte strings.", "anchors": ["source/session_decrypt.c:aws_cryptosdk_priv_check_trailer", "source/session_decrypt.c:aws_cryptosdk_priv_unwrap_keys", "source/session_decrypt.c:aws_cryptosdk_priv_try_decrypt_body", "source/session_encrypt.c:aws_cryptosdk_priv_write_trailer", "source/session_encrypt.c:sign_header", "source/default_cmm.c:default_cmm_decrypt_materials"]}
{"id": "C103", "title": "AES and KMS wrapping binds the context: with signing suites, messages are authentic though others have the data keys", "statement": "A user has a default CMM with any tree of multi-keyrings whose leaves are raw AES keyrings, KMS keyrings that name their keys, and raw RSA keyrings without private key. If nothing opens under the AES keys, and KMS returns nothing under the named keys, but data keys that some encrypting sessions had wrapped, each with the context of its message, then every context that a decrypting session shows from the first byte consumed on is, as a map, the context of one of these messages, and the data key is that of the same message. If moreover every message has a public key of its own in its context, and nothing verifies under these public keys but what was signed by those sessions, then a session that is done has read what one of them wrote, byte for byte up to the signature, shows its suite and context, and released its plaintext. Others may have all data keys. With a raw RSA keyring that decrypts the first claim fails: the context is not bound to the wrapped key, and a session shows a context that nobody wrote. With a KMS keyring in discovery mode without filter, keys of anybody are used: a session is done though KMS decrypts nothing under the keys of the organization.", "quantifier": "all reachable decrypting sessions, all byte strings, call sequences, outcomes of allocations, primitives and KMS calls, all trees of multi-keyrings over such keyrings, all sets of reachable encrypting sessions", "why_tests_cant": "Tests decrypt with a wrong context a few times; that no byte string makes a holder of the data keys able to show another context or finish another message is a statement about all inputs and all histories.", "anchors": ["source/raw_aes_keyring.c:raw_aes_keyring_on_decrypt", "source/raw_aes_keyring.c:aws_cryptosdk_parse_provider_info", "source/raw_rsa_keyring.c:raw_rsa_keyring_on_decrypt", "source/multi_keyring.c:multi_keyring_on_decrypt", "source/default_cmm.c:default_cmm_decrypt_materials", "source/enc_ctx.c:aws_cryptosdk_enc_ctx_serialize", "source/session_decrypt.c:aws_cryptosdk_priv_unwrap_keys", "source/session_decrypt.c:aws_cryptosdk_priv_check_trailer", "aws-encryption-sdk-cpp/source/kms_keyring.cpp:OnDecrypt", "aws-encryption-sdk-cpp/source/kms_mrk_keyring.cpp:OnDecrypt"]}
{"id": "C104", "title": "Messages read through caches, in any number of threads, are authentic though others have the data keys", "statement": "Sessions of a user have caching CMMs over a default CMM: over a local cache with any history, shared with other caching CMMs of the user; or in any number of threads over a materials cache of any kind that keeps its promises. The keyrings bind the context as in C103: raw AES keyrings, or any tree with AES keyrings and KMS keyrings that name their keys. If the digest does not collide on the strings for the requests, then the context that a decrypting session shows is that of a message of the writers, and when the session is done with a message it has read what one of the writers wrote, byte for byte up to the signature, shows its suite and context, and released its plaintext, under the assumptions of C103 on wrapping and signing. Neither a data key nor a verification key from the cache weakens what C103 says: the key was given for the same suite, context and encrypted data keys, and a public key that was stored and loaded again is the same public key.", "quantifier": "all reachable decrypting sessions, all byte strings, call sequences, cache histories, interleavings of threads, outcomes of allocations, clocks, primitives and KMS calls, all such keyrings", "why_tests_cant": "Tests read a few messages through a cache; that no history of a cache and no interleaving lets a holder of the data keys finish another message is a statement about all histories and inputs.", "anchors": ["source/caching_cmm.c:decrypt_materials", "source/caching_cmm.c:hash_dec_request", "source/local_cache.c:get_dec_materials", "source/local_cache.c:put_entry_for_decrypt", "source/cipher_openssl.c:aws_cryptosdk_sig_get_pubkey", "source/cipher_openssl.c:aws_cryptosdk_sig_verify_start", "source/session_decrypt.c:aws_cryptosdk_priv_unwrap_keys", "source/session_decrypt.c:aws_cryptosdk_priv_check_trailer"]}
{"id": "C105", "title": "The functions that the local cache gives to its hash table and queue are what these containers need", "statement": "hash_cache_id is, on hosts of either byte order, the number that the first eight bytes of the id spell (fewer bytes are aligned to the low end), and depends on nothing but the contents of the buffer; eq_cache_id holds exactly for equal contents; so equal ids have equal hashes. Hence a hash table with any number of chains that searches only the chain chosen by the hash finds, after any changes, what the last change for that id left, wherever the buffers are: it is a map from ids. Two digests have the same hash exactly if they agree in the first eight bytes. ttl_heap_cmp is a total order on entries at different addresses, by expiry time first, zero only for one and the same entry; so the entry that is taken as the next to expire does not depend on how the queue has arranged its entries.", "quantifier": "all ids, addresses, byte orders, numbers of chains, sequences of changes, and all caches and arrangements of the queue", "why_tests_cant": "Tests put a few ids into a table; that no pair of buffers and no sequence of changes defeats the table is a statement about all of them, and a test runs on one byte order.", "anchors": ["source/local_cache.c:hash_cache_id", "source/local_cache.c:eq_cache_id", "source/local_cache.c:ttl_heap_cmp"]}
{"id": "C106", "title": "Comparisons are equality of contents, copies compare equal, and the context for KMS is the same map", "statement": "aws_cryptosdk_edk_eq holds exactly if provider id, provider info and ciphertext are the same bytes; aws_cryptosdk_keyring_trace_eq never aborts and holds exactly for equal lists of records; a list of encrypted data keys or a trace that was copied to an empty list compares equal to the original. Suite properties are valid exactly if their pointers are set and their six numbers are those of a suite of the library, so those of the library are; the check leaves out message format and commitment length. The C++ map that is sent to KMS as context has exactly the pairs of the table, zero bytes included, in the order of keys: two tables give the same map exactly if they have the same pairs, in whatever order they are stored, and NULL gives the empty map.", "quantifier": "all encrypted data keys, traces, property structures, contexts, orders of tables, and outcomes of allocations", "why_tests_cant": "Tests compare a few values; that no two different values compare equal, and that the map never depends on the order of the table, are statements about all pairs and orders.", "anchors": ["include/aws/cryptosdk/edk.h:aws_cryptosdk_edk_eq", "source/keyring_trace.c:aws_cryptosdk_keyring_trace_eq", "source/keyring_trace.c:aws_cryptosdk_keyring_trace_record_eq", "source/list_utils.c:aws_cryptosdk_edk_list_copy_all", "source/list_utils.c:aws_cryptosdk_keyring_trace_copy_all", "source/cipher.c:aws_cryptosdk_alg_properties_is_valid", "source/cipher.c:aws_cryptosdk_alg_properties_equal", "aws-encryption-sdk-cpp/source/cpputils.cpp:aws_map_from_c_aws_hash_table"]}
{"id": "C107", "title": "An encrypting session uses the bytes of the plaintext for nothing but to seal them", "statement": "Replace the AEAD by one that seals zeros in place of whatever plaintext it is given. Then every call of aws_cryptosdk_session_process or aws_cryptosdk_session_process_full on an encrypting session does exactly what it does, with the original AEAD, on zeros of the same length: the session, the whole output buffer, the counts of bytes read and written and the result are equal; and so for every history of calls. Hence, if the AEAD hides everything but the length, two histories that differ only in the bytes of their inputs leave equal sessions, release equal bytes and end alike in every call: the plaintext reaches the output, the signature, the header, the size estimates and the error codes only through the ciphertext and tag of its frame, and through its length.", "quantifier": "all reachable encrypting sessions, histories of calls, inputs, output buffers, CMMs, crypto functions and outcomes of allocations", "why_tests_cant": "A test can compare the outputs for two plaintexts, which differ anyway; that the difference comes from the seal alone is a statement about all pairs of runs and about crypto functions no library has.", "anchors": ["source/session.c:aws_cryptosdk_session_process", "source/session.c:aws_cryptosdk_session_process_full", "source/session_encrypt.c:aws_cryptosdk_priv_try_encrypt_body", "source/session_encrypt.c:aws_cryptosdk_priv_write_trailer", "source/cipher.c:aws_cryptosdk_encrypt_body"]}
{"id": "C108", "title": "A session uses a data key for nothing but to derive keys from it", "statement": "Replace every data key that the CMM gives, for encryption and decryption, by another of the same length, and HKDF by a function that derives from the replacement what was derived from the key. If the suites in use derive their keys (all but the three without KDF), or if the session has the default commitment policy, which admits only such suites, no call of the session API and no history of calls on any session differs in anything: session, output buffer, counts, released bytes, results. So neither the output nor the checks depend on the data key except through HKDF: for committing suites through the content key and the commitment, else through the content key. For the three suites without KDF the claim is refuted: there the data key is the content key.", "quantifier": "all sessions, modes, calls, histories, CMMs, crypto functions, length-preserving replacements of data keys, and outcomes of allocations", "why_tests_cant": "A test uses one HKDF; the statement compares runs with different HKDFs and data keys, for all replacements.", "anchors": ["source/session_encrypt.c:aws_cryptosdk_priv_try_gen_key", "source/session_decrypt.c:derive_data_key", "source/session_decrypt.c:aws_cryptosdk_priv_unwrap_keys", "source/cipher.c:aws_cryptosdk_private_derive_key"]}
{"id": "C109", "title": "Everything done with a keyring, CMM or cache happens before its destruction", "statement": "In every execution that C11 allows, of any number of threads, in which each thread gives up each reference once and uses the object only while it holds one: no operation on the reference count reads 0 and no addition wraps; at most one subtraction leads to the destruction, and it is the last operation on the count; and with the memory orders of the code (relaxed to add, acquire-release to subtract) each use of the object by any thread and each operation on its count happens before the destruction, so there is no data race with the destructor. With any weaker order for the subtraction this is refuted by an execution of two threads.", "quantifier": "all consistent executions of any number of threads and events, with any synchronisation by other means", "why_tests_cant": "Whether two accesses are ordered by happens-before is not visible in a run; processors that order more than C11 hide the error.", "anchors": ["include/aws/cryptosdk/materials.h:aws_cryptosdk_private_refcount_down", "include/aws/cryptosdk/materials.h:aws_cryptosdk_private_refcount_up", "include/aws/cryptosdk/cache.h:aws_cryptosdk_materials_cache_release"]}
{"id": "C110", "title": "Everything done with an entry of the local cache happens before its destruction", "statement": "In every execution that C11 allows, in which each thread gives up each reference to a cache entry once and uses the entry only while it holds one, each use happens before the destruction. With the memory orders of local_cache.c, which subtracts with release order only, this is refuted: two threads that each find the entry, read its materials and give it back while a third clears the cache have an execution in which one's reading is not ordered with the other's destruction. It holds when the subtractions are ordered by other means, and would hold in general with acquire-release order as in materials.h.", "quantifier": "all consistent executions of any number of threads and events, with any synchronisation by other means", "why_tests_cant": "Whether two accesses are ordered by happens-before is not visible in a run; processors that order more than C11 hide the error.", "anchors": ["source/local_cache.c:release_entry", "source/local_cache.c:locked_release_entry", "source/local_cache.c:find_entry", "source/local_cache.c:put_entry_for_encrypt"]}
{"id": "C111", "title": "Threads that share a local cache have no data races", "statement": "In every execution of threads that call the functions of one local cache, using without the mutex only entries to which a reference was got before, any two accesses to the same field of an entry or part of the cache, not both atomic and not both readings, are ordered by happens-before (destruction of entries aside). This is refuted for two fields: update_usage_stats, the fast path of set_expiration_hint and release_entry read zombie, and set_expiration_hint reads expiry_time, without the mutex, while another thread may write them. These are the only races: there is none on materials, keys, encryption contexts, identifiers, times of creation, usage counters, reference counts, LRU list, heap and table.", "quantifier": "all executions of any number of threads and calls, with any synchronisation by other means", "why_tests_cant": "Happens-before is not visible in a run; a race detector sees only the executions that a test has.", "anchors": ["source/local_cache.c:update_usage_stats", "source/local_cache.c:set_expiration_hint", "source/local_cache.c:release_entry", "source/local_cache.c:find_entry", "source/local_cache.c:locked_invalidate_entry", "source/local_cache.c:get_enc_materials"]}
{"id": "C112", "title": "A decrypting session uses the bytes of the plaintext for nothing but to give them out", "statement": "Replace every byte that the AEAD opens by its image under any function of bytes. Then in every call of process and process_full of a decrypting session the bytes written are replaced and nothing else differs: session with its estimates, both counts, result, and the rest of the output buffer; the same holds for the bytes released, the sessions and the results in every history of calls. So errors, progress, size estimates and sessions depend on the plaintext only through its length.", "quantifier": "all decrypting sessions, histories of calls, buffers, CMMs, crypto functions, replacements of bytes, and outcomes of allocations", "why_tests_cant": "The statement compares runs with different AEADs, for all inputs and all replacements of bytes.", "anchors": ["source/session_decrypt.c:aws_cryptosdk_priv_try_decrypt_body", "source/session_decrypt.c:aws_cryptosdk_priv_check_trailer", "source/session.c:aws_cryptosdk_session_process", "source/session.c:aws_cryptosdk_session_process_full", "source/cipher.c:aws_cryptosdk_decrypt_body"]}
{"id": "C113", "title": "A keyring uses a data key for nothing but to have it wrapped", "statement": "Replace every data key by another of the same length (the one passed in, the random one of a raw keyring, those that KMS makes) and let AES-GCM, RSA and KMS make of the replacement what they made of the key, and give the replacement where they gave the key. Then aws_cryptosdk_keyring_on_encrypt and aws_cryptosdk_keyring_on_decrypt of every keyring of the library (raw AES, raw RSA, KMS, MRK-aware KMS, multi-keyrings nested to any depth) return the same, with the same encrypted data keys, keyring trace and last error, and the data key is the replaced one; the calls of KMS are the same but for the Plaintext of Encrypt; the default CMM over the keyring gives the same materials but for the data key; and if HKDF undoes the replacement too, no call of a session under the default commitment policy over that CMM notices.", "quantifier": "all trees of keyrings, replacements of data keys that keep lengths, encryption contexts, suites, encrypted data keys, primitives, behaviours of KMS, outcomes of allocations, and sessions reached by calls of the API under the default policy", "why_tests_cant": "The statement compares runs with different primitives, for all trees of keyrings and all replacements of data keys.", "anchors": ["source/raw_aes_keyring.c:raw_aes_keyring_on_encrypt", "source/raw_aes_keyring.c:raw_aes_keyring_on_decrypt", "source/raw_rsa_keyring.c:raw_rsa_keyring_on_encrypt", "source/raw_rsa_keyring.c:raw_rsa_keyring_on_decrypt", "aws-encryption-sdk-cpp/source/kms_keyring.cpp:OnEncrypt", "aws-encryption-sdk-cpp/source/kms_mrk_keyring.cpp:OnEncrypt", "source/multi_keyring.c:multi_keyring_on_encrypt", "source/materials.c:aws_cryptosdk_keyring_on_encrypt", "source/default_cmm.c:default_cmm_generate_enc_materials"]}
{"id": "C114", "title": "A cache and a caching CMM use data keys, encrypted data keys and traces for nothing but to keep and give them", "statement": "Replace the data keys, encrypted data keys and keyring traces in a local cache, and in the answers of the CMM under a caching CMM, in any way (the replacement may depend on all three, and may change lengths and numbers). Then every function of the cache (find, both puts, update of usage, both gets, time of creation, expiration hint, release, clear, count, destroy) does what it did, on the cache with the replacement; both calls of a caching CMM return the replaced materials when they returned the materials, with the same encryption context and error, ask the CMM underneath when they did, and leave the cache that they left with the replacement; so do all sequences of calls of caching CMMs that share a cache. Under the default commitment policy, a session over a caching CMM notices no replacement of data keys that keeps lengths and that HKDF undoes. Nor does a session over the whole library (caching CMM, default CMM, any tree of keyrings), if what wraps data keys undoes the replacement too; nor do any number of sessions that share a cache, over all their calls in any order, if the replacement is one to one.", "quantifier": "all caches, replacements, caching CMMs, requests, behaviours of the CMM underneath, clocks, outcomes of allocations, sequences of calls, and sessions reached by calls of the API under the default policy", "why_tests_cant": "The statement compares two runs for all caches and all replacements of the materials in them.", "anchors": ["source/local_cache.c:find_entry", "source/local_cache.c:put_entry_for_encrypt", "source/local_cache.c:put_entry_for_decrypt", "source/local_cache.c:get_enc_materials", "source/local_cache.c:get_dec_materials", "source/local_cache.c:locked_process_ttls", "source/local_cache.c:locked_insert_entry", "source/caching_cmm.c:generate_enc_materials", "source/caching_cmm.c:decrypt_materials", "source/session.c:aws_cryptosdk_session_process"]}
{"id": "C115", "title": "Threads that share a cache use data keys, encrypted data keys and traces for nothing but to keep and give them", "statement": "Let threads call caching CMMs over one local cache, interleaved in any way, and replace the data keys, encrypted data keys and keyring traces that the CMM underneath gives, in any way. Then every step of every thread is possible when it was, runs into undefined behaviour when it did, leaves the threads in the same places with the same entries held, and leaves the same cache with the replacement. The requests are answered in the same order, from the cache or by the CMM underneath as before, with the replaced materials. So the keys and what they are wrapped to have no influence on which request waits, which entry is found, evicted, expired or invalidated, and which answer comes first.", "quantifier": "all states of the threads and of the cache, replacements, caching CMMs, requests, behaviours of the CMM underneath, clocks, outcomes of allocations, numbers of threads and schedules", "why_tests_cant": "The statement compares two executions for all interleavings and all replacements of the materials.", "anchors": ["source/local_cache.c:release_entry", "source/local_cache.c:update_usage_stats", "source/local_cache.c:set_expiration_hint", "source/local_cache.c:find_entry", "source/local_cache.c:get_enc_materials", "source/local_cache.c:get_dec_materials", "source/caching_cmm.c:generate_enc_materials", "source/caching_cmm.c:decrypt_materials"]}
{"id": "C116", "title": "A call of a caching CMM that is not interrupted does what the call does without threads", "statement": "Let threads be anywhere in calls of caching CMMs over one local cache, with the mutex free, and let one more thread make a call for encryption or decryption materials while the others stand still. Then the call goes through to its end without waiting, each of its steps being the only one that the thread can then make; it answers as the same call made without threads, from the cache or by the CMM underneath; it leaves the cache as that call does; and it changes nothing else, in particular the thread holds the entries that it held before. A call that runs into undefined behaviour without threads does so in the same way when one thread makes it alone. So every sequence of calls (for encryption materials, for decryption materials, and to clear the cache) made one after the other is an execution of threads in which any one thread makes all of the calls, and what is proved of all executions of threads holds for it.", "quantifier": "all states of the threads and of the cache, caching CMMs, requests, behaviours of the CMM underneath, clocks, outcomes of allocations, numbers of threads and sequences of calls", "why_tests_cant": "The statement compares two programs for all caches and for all places of the other threads.", "anchors": ["source/caching_cmm.c:generate_enc_materials", "source/caching_cmm.c:decrypt_materials", "source/caching_cmm.c:check_ttl", "source/caching_cmm.c:set_ttl_on_miss", "source/local_cache.c:release_entry", "source/local_cache.c:update_usage_stats", "source/local_cache.c:set_expiration_hint"]}
