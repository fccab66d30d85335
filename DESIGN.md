# Formal model of aws-encryption-sdk-c in Lean 4

## 1. What is modelled and how

The model lives in `lean/Verif/Model/*.lean`, helper lemmas in `lean/Verif/Proof/*.lean`, small
independent specifications in `lean/Verif/Spec/*.lean`, and the property theorems in
`lean/Verif/Props/*.lean`.  Every model definition carries a comment with the file and lines it models.

Conventions

* A byte string is a `List UInt8`.  `size_t`/`uint64_t` values are `Nat`; where the C code can wrap,
  the wrap is explicit (`% 2^64`).
* A function that can fail returns a result with an error code; where the C code mutates state before
  failing, the new state is returned too.
* Undefined behaviour, `abort()` and failed assertions are distinct outcomes, never assumed away.
* A hash table is an association list without repeated keys; the list order is the (arbitrary)
  iteration order and theorems quantify over all orders.
* Crypto primitives (AES-GCM, HMAC/HKDF, ECDSA, RSA, SHA-512, random), the CMM and keyrings called
  through their vtables, the KMS service, the clock and the allocator are *parameters*
  (structures of functions).  Theorems quantify over all of them; where a property needs an assumption
  (e.g. "opening a sealed box gives the plaintext back") it is an explicit hypothesis and an `example`
  shows a concrete instance meeting it.

## 2. Plan per property

| Id | Model | Proof |
|----|-------|-------|
| C01–C04 | `Model/Header`: `hdrParse`, `hdrSize`, `hdrWrite` field by field | round trip by unfolding the field readers over concatenations; prefix lemma "reader is prefix-monotone" |
| C05 | `Model/Session` limit checks in header parsing and key generation | invariant over process steps |
| C06–C10 | `Model/EncCtx` | induction over entry lists; sortedness/permutation uniqueness |
| C11–C13 | `Model/Frame`: `serializeFrame`, `deserializeFrame` | case analysis on frame type, `omega` |
| C14 | log of sealed boxes kept by the session model | invariant: sealed seqnos strictly increase |
| C15 | `Model/Cipher.frameAad` | injectivity of concatenation with fixed prefix/suffix; header data are no frame data because the context length field would have to be a piece of a label (`Proof/Integrity`) |
| C16–C20 | `Model/Session` (`process` loop), `Spec/Message` (canonical ciphertext/plaintext of a message) | simulation between any schedule of `process` calls and the canonical run; ideal-AEAD hypothesis for C19 |
| C21, C25–C28 | `Model/Session` | invariant over the process loop and over API histories |
| C22–C24 | `Model/Session`, `Model/Alg`, `Model/Cipher.commitmentEq` | invariant |
| C29–C30 | `Model/Session` | invariant; C30 refuted by a concrete history |
| C31 | `Model/Session.reset` | equality of states up to unobservable fields, congruence |
| C32 | `processFull` | case analysis |
| C33 | `Model/Alg` | case analysis over the identifier |
| C34–C35 | `Model/Kdf` | byte-string injectivity; induction over HKDF blocks against an independent RFC 5869 spec |
| C36–C40, C59 | `Model/CachingCmm` over `Model/LocalCache` | history invariant |
| C41, C44 | `Model/CacheConc` interleaving semantics | invariant over interleavings; C44 refuted by witness |
| C42–C43 | `Model/LocalCache` | invariant over operation lists |
| C45–C48, C52 | `Model/Keyring` | decision logic / induction over children |
| C49–C50 | `Model/Keyring` | round trip under RSA/AES correctness hypothesis |
| C51 | `Model/DefaultCmm` | decision logic |
| C60–C61 | `Model/Session` | invariant over the process loop |
| C62–C63 | `Model/CachingCmm` | history invariant; refutation by witness where the code disagrees |
| C53–C58 | `Model/Kms`, `Model/Arn` | decision logic over EDK lists |
| C64 | `Model/Kms` | the KMS answers of encryption determine those of decryption; induction over the key list |
| C65 | `Model/Session` | invariant relating the size given to the CMM, the bound and the bytes consumed |
| C66 | `Model/Session` | simulation: the reading session follows the written message; induction over the calls and, in each, over the steps of the loop |
| C67–C70 | `Model/Signature`: source/cipher_openssl.c with the failing calls as parameters, DER written out, objects counted by kind | induction over the signing loop; DER length and prefix lemmas; case analysis over the failing calls. C70 refuted for one pattern of failures by a witness |
| C71 | `Model/Stack`: session, default CMM, raw and multi-keyrings, HKDF and signatures composed; `World` holds what is outside | the hypotheses of C16 and C66 are derived for the composition from what OpenSSL promises (`Spec/Stack`, `Primitives`) |
| C72 | session model; the CMM is a parameter | two environments that differ in the CMM only: if the CMMs agree on the request with the visible context, suite 0 and the policy in force, every call gives the same result; congruence of each step, then of the loop, with the invariant that no call ends between the configuration and the request |
| C73 | session model; environments in which nothing fails (`Works`) and CMM answers that can be used (`Usable`) | induction over the processing loop: in each state the step succeeds, and a call that stops early has used the buffers up, since what is left of the message is longer than the room; lengths of header, frames and trailer from the logs of C16 |
| C74 | the composition of C71, writing: worlds in which nothing fails (`CanProduce`), keyrings that can wrap (`CanWrap`), messages that fit (`Fits`) | the hypotheses of C73 are derived for the composition: keyrings, key generation, signing, HKDF and the CMM succeed layer by layer, with the lengths of what they return; C71 for the reader |
| C75 | `Model/Session`, `Model/Header`, `Model/Frame` | the simulation behind C66 stated for any readable message instead of a written one; conversely the history invariant of C20 with the facts of the header phase (size, data key length, suite of the materials) |
| C76 | `Model/Lifetime`: heap of counted objects, stacks of pending destructor steps per thread | invariant: each count is the number of references owned, held, pending or lost; each call and step preserves it and so cannot fault; a measure for the destructors |
| C77 | `Model/Lifetime` | with nothing lost and no cycle, the longest chain of holders of an allocated object ends at a reference the program owns; the five ways to lose memory are witnesses |
| C78 | `Model/Session`, `Model/Header`, `Model/Frame` | each failing step names the format rule that is broken; uniqueness of parsing makes the reasons exclusive; a stalled session waits for input that rejected bytes do not need |
| C79 | `Model/Keyring` | lists of checks with errors as specification; case analysis in their order; the wrapper's checks shown not to change the outcome |
| C80 | `Model/Session` | list of checks for the header phase, decided in their order; inductive specification of later failures; one step, then many by the step invariant; setters by their checks |
| C81 | `Model/DefaultCmm` | lists of checks with errors; case analysis in their order |
| C82 | `Model/Kms` | lists of checks with errors; induction over the keys; the builders as equivalences |
| C83 | `Model/CachedStack`: the composition of C71 with a caching CMM and a local cache between session and default CMM; the cache calls the modelled signature functions | what a caching CMM answers is traced through the history to an answer of the default CMM (C40), stored and resumed signature contexts are the same (C68, C69), and C16 and C66 are applied relative to the request for the message (`OpensFor`, `UndoesFor`) |
| C85 | `Model/KmsClient`: operations and builders as programs that stop at every use of a client supplier, a client or KMS, run by threads in any interleaving | `Good`, a predicate on programs relative to the clients made so far, holds for every job (`job_good`) and is kept by all steps (`step_inv`) |
| C86 | as C85, with the maps of the caching suppliers | invariants of maps (C85's `KmsInv`), of a single thread (`SeqInv`), and of programs that never report (`NoReport`) |
| C87 | `Model/Secrets`: a memory with live blocks and the last contents of released ones; the functions that handle key material as programs over it, with their wipes and releases, for all outcomes of the steps that may fail | Hoare logic (`Tri`, `Own`): which blocks are live, which are known to be blank |
| C88 | `World.envWith`: the composition of C71 with any keyring, also of a user, which may behave differently in each call | the hypotheses of C16 and C66 are derived from conditions on the two keyrings alone (`Spec/AnyStack`) |
| C89 | `Model/KeyringTree`: raw, KMS and MRK-aware keyrings in trees of multi-keyrings, below the default CMM and the session | what each wrapping key of the writer's tree makes (`MadeBy`) and what each keyring of the reader's tree does with it (`Tries`), by induction over the trees from C47, C49, C50, C54, C56; then C88 |
| C91 | `Model/Session*` with `Model/CachingCmm`: several sessions over one cache | histories of sessions and cache together (`Spec/CacheUsage`), each call of a session that asks for materials is a call of the cache; per session a message uses the one data key it was served (C24's `Encrypted`), sizes told bound sizes taken in; counts compared with those of C36, C37 |
| C90 | `Model/Signature`: codes of all functions | lists of what has to go well with the code of each (`Spec/SignatureErrors`); case distinction over the calls, induction over the rounds of signing |
| C92 | `Model/Memory`: the allocations, moves, sharings and releases of all functions that handle these objects, as programs over a heap of addresses; every outcome is asked from a list | which blocks an object owns by its type (`Spec/Memory`); for each block a count of owners before and after each function (`Keeps`), composed along the programs; a session at its start has no buffers; six kinds of events excuse losses and double releases |
| C93 | `Model/Keyring`, `Model/Kms`, `Model/KeyringTree`, `Model/DefaultCmm`, `Model/Session` | what each wrapping key's record must be, `InOrder`/`EdkOf`, `Unwrapped` (`Spec/Trace`); induction over trees (`Told`, `OpenedBy` in `Proof/Trace`); an invariant of session histories (`TraceInv` in `Proof/SessionTrace`) |
| C94 | `Model/CacheConc`, `Model/CmmConc`, `Model/CmmConcDec` | executions `AllRuns` (`Spec/CmmConcDec`); an invariant that every entry in memory stems from an upstream answer in the log and what each program point knows of its entry (`AInv` in `Proof/CmmConcDec`); projection on the executions of C41 and held handles (`Proof/CmmConcDecHeld`) |
| C95 | `Model/AnyCache` | calls as programs that ask a cache, with any answers (`Prog`, `Path`); histories of interleaved calls and the promises of a cache (`Spec/AnyCache`); events of a call and held handles (`Proof/AnyCacheCalls`), positions and entries (`Proof/AnyCacheLimits`), sums (`Proof/AnyCacheSums`), the local cache as an instance (`Proof/AnyCacheLocal`) |
| C96 | `Model/AnyCache`, `Model/Session*` | sessions in any interleaving, each message with the number of its call in a C95 history (`Spec/ThreadUsage`); messages have different calls and count for no more than these (`Proof/ThreadUsage`, reusing what C91 knows of single sessions) |
| C97 | `Model/CacheConc`, `Model/AnyCache` | executions of C95 programs over the steps of the concurrent local cache, with the record of answers (`Spec/LocalRuns`); books about which put an entry comes from and the order of additions to its counters are kept by every step (`Proof/LocalRunsOps`, `Proof/LocalRunsBooks`, `Proof/LocalRuns`) and give the promises (`Proof/LocalRunsKeeps`) once no update is half done, which every execution can be brought to (`Proof/LocalRunsSettle`) |
| C98 | `Model/AnyCache`, `Model/CacheConc`, `Model/CachedStack`, `Model/Stack` | the answers of calls of C95 programs over any cache that keeps its promises, also about signature keys (`Spec/ThreadStack`), are answers of the default CMM to an equal request up to order (`Proof/ThreadStack`); then as C88; the books of C97 give the promises for the local cache |
| C99 | `Model/CacheConc`, `Model/LocalCache` | executions with a record of the calls that returned (`Spec/LinearCache`); a call takes effect at the step that returns; invariant `Lin` in `Proof/LinearCache`: the record is a history of `Spec/LocalCache`, an entry whose release with invalidation is past its test or has returned is a zombie or freed |
| C100 | `Model/Session`, `Model/Cipher`, `Model/Header`, `Model/Frame` | writers are reachable encrypting sessions with what they wrote (`Spec/Integrity`); header tags and frames have different additional data (`Proof/Integrity`: the length field of the context would have to be a piece of a frame label, or the IV length a piece of a content length); each seal the reader opens is traced to one writer, the same for all by the message identifier |
| C101 | `Model/Session`, `Model/Cipher` | both sessions parse the same header (`Proof/SessionDet.header_unique`); equal data keys give equal content keys and frames, different data keys that pass the commitment check give a collision |
| C102 | `Model/Session`, `Model/DefaultCmm` | the bytes that the verified signature covers are all bytes before the trailer (C20); equal bytes of two messages are equal headers and frames (`Proof/SessionDet`); default CMM by C51 |
| C103 | `Model/Keyring`, `Model/Kms`, `Model/KeyringTree`, `Model/DefaultCmm`, `Model/Stack`, `Model/Session` | the key that a list or tree of keyrings returns was opened by one of its leaves (`Proof/WrapIntegrity`); the serialised context is injective (C07); then C102 |
| C104 | `Model/CachingCmm`, `Model/CachedStack`, `Model/AnyCache`, `Model/Signature` | answers of caching CMMs are answers of the default CMM for the same request (C83, C98); a stored verifier is the same verifier (C69); then the argument of C103 with the request that the session made |
| C105 | `Model/Containers`, `Model/LocalCache` | the contracts of hash table and priority queue are stated in `Spec/Containers` with a chained table; hash as a base-256 number for both byte orders; refinement to a map; order of the queue total, so its top is unique |
| C106 | `Model/Compare`, `Model/Keyring` | comparisons as loops over indices, with abort as an outcome, equal structural equality; with C52 copies compare equal; the map is the sorted permutation of the table |
| C107 | `Model/Session`, `Model/Cipher` | two runs in lockstep: with the AEAD sealing zeros, and on zeros; every step function commutes with zeroing the input, decrypting states are excluded by the invariant of reachable sessions; lifted to calls and histories |
| C108 | `Model/Session`, `Model/Kdf` | the derivation functions commute with a renaming of data keys that HKDF undoes; every step of a session follows; witness for suites without KDF; the default policy admits only suites with KDF |
| C109 | `Model/MemoryOrder` | counting along the modification order: who reads 1 is last and every reference was given up before; release sequences give happens-before; finite executions checked by closure refute weaker orders |
| C110 | `Model/MemoryOrder` | as C109; an execution of three threads with the orders of the code refutes the claim; conditional theorem and repair |
| C111 | `Model/CacheFields`: what each function reads and writes, and where it holds the mutex | acts with the mutex are ordered by turns, the making of an entry before all handles; the remaining conflicts by a check of all pairs of acts; two finite executions refute the claim for two fields |
| C112 | `Model/Session`, `Model/Cipher` | every step of a decrypting session commutes with a replacement of the bytes opened; induction over the loop and over histories |
| C113 | `Model/KeyringTree`, `Model/Keyring`, `Model/Kms`, `Model/DefaultCmm`, `Model/Session` | each leaf, loop by loop, commutes with a replacement of data keys that wrapping undoes; induction over the tree; the default CMM; then C108 under the default policy |
| C114 | `Model/LocalCache`, `Model/CachingCmm`, `Model/Session` | each function of the cache commutes with a replacement of the materials in its entries, loop by loop; so do the two calls of the caching CMM; induction over calls; then C108 under the default policy |
| C115 | `Model/CacheConc`, `Model/CmmConc`, `Model/CmmConcDec` | each step of a thread commutes with a replacement of the materials in the cache and in the places of the threads, from C114; induction over the schedule |
| C116 | `Model/CacheConc`, `Model/CmmConc`, `Model/CmmConcDec`, `Model/CachingCmm` | a call of the cache taken step by step without interruption is the call in one step; then the programs of the two calls, branch by branch, to their end and to undefined behaviour; induction over histories |

## 3. Trusted base

### 3.1 Lean

* Lean's kernel, version 4.33.0, and `#print axioms`: every theorem named in MANIFEST.json depends on at most
  `propext`, `Classical.choice` and `Quot.sound`.  No axioms of our own, no `sorry`, no `native_decide`, no `bv_decide`.
  `decide +kernel` is used only for closed facts (examples, witnesses of refutations, the suite table); it is checked by the kernel.
* Only Lean's core library is used, no Mathlib.

### 3.2 The reading of the code

The model was written by reading the sources; nothing checks it against the compiled program.  Each definition cites the
lines it models, so that the reading can be repeated.

### 3.3 Code that is assumed, not modelled

* *aws-c-common.*  Byte cursors (advancing too far gives an empty cursor and leaves the source), byte buffers
  (`aws_byte_buf_write*` is all-or-nothing; `aws_byte_buf_secure_zero` zeroes the whole capacity and sets the length to 0;
  `aws_byte_buf_init_copy` of a NULL buffer succeeds with an empty one), array lists, strings, hash table (a finite map with
  an arbitrary iteration order), priority queue (top is a least element), linked hash table, atomics, mutex.
* *OpenSSL.*  AES-GCM, HMAC, SHA-512, ECDSA, RSA, random: arbitrary functions of their arguments that may fail.  What the
  library relies on about lengths is part of the structures `Crypto`, `Hmac` and `KrEnv` (ciphertext as long as plaintext,
  tags of 16 bytes, requested number of random bytes).  Where a property needs more — that opening a sealed box gives the
  plaintext (C16, C49, C64), that signatures verify with the key they were made with, also with `s` negated (C67, C69), that points
  are decoded to what was encoded (C68, C69), that RSA decryption undoes encryption (C50), ideal authenticity (C19) — it is a hypothesis of the
  theorem and an `example` beside it exhibits an instance.  Properties about digests (C34, C40, C59) conclude with an
  explicit pair of colliding strings, never with the mere existence of a collision.
* *The composition with caches (C83).*  `Spec.CachedSessions` lets each call meet any history of the cache in which all calls go through
  caching CMMs over default CMMs with the user's keyring (`GoodCall`); a context that could not be copied entirely is only assumed to be a
  map (`Turn.clone`).  Collision-freedom is assumed per message and reader (`NoClash`), nothing is assumed for the writer's cache.
* *KMS in the composition (C89).*  `Spec.KmsHonest`: if KMS answers a request to decrypt what it made, in the same encryption context and asked
  to use the same key or a replica of it, the answer is right.  `Spec.KmsSizes`: it does not generate empty data keys, and what it returns
  fits the 16-bit lengths of the message format.
* *The composition (C71).*  `Spec.Primitives` is the complete list of what is asked of OpenSSL between writer and reader: opening undoes
  sealing, equal HMACs, RSA decryption undoes encryption with a matching key and gives less than 65536 bytes, generated EC keys sign so that
  their public key verifies, encodings can be undone.  `Spec.Healthy` says that no call of the reader fails for want of resources; the safety
  theorem `C71_round_trip` does not need it.  Each call of a session may take place in another world of the given set.
* *The composition when it writes (C74).*  `Spec.CanProduce` is the complete list of what is asked so that nothing fails: `Healthy`, memory for the
  lists, random bytes, AES-GCM for keys of AES lengths, HMAC, encodings of known length (`Sizes`), and that OpenSSL draws, before the model's
  fuel is used up, an ECDSA signature of the length announced for the suite, possibly after negating `s`.
* *AWS SDK for C++.*  `Aws::Utils::ARN` splits at the first five colons; `StringUtils::Split` skips empty parts and leaves the
  rest in the last part, as documented.  (The SDK's implementation stops at a byte 0xFF; the model follows the documentation.)
* *KMS.*  Any answer to any call.  C64 assumes that Decrypt answers what Encrypt and GenerateDataKey returned.
* *User-supplied CMMs and keyrings.*  Arbitrary functions of their arguments unless a theorem states a hypothesis.  They are
  assumed not to touch the session or the cache behind the library's back.
* *Compiler.*  `size_t` is 64 bits, `int` 32 bits; conversions of out-of-range values to `int` wrap.

* *Memory (C92).*  aws-c-common as listed at the top of `Model/Memory.lean`: what lists, hash tables and buffers acquire and release.  OpenSSL's
  digest contexts are one block each, released by `EVP_MD_CTX_destroy`.

### 3.4 Concurrency (C41, C44, C76, C77, C85, C86, C109, C110, C111)

Threads interleave at every access to shared state made without the mutex, and critical sections are atomic except where a
thread without the mutex can interfere (after the atomic decrement in `locked_release_entry`).  Memory is sequentially
consistent; `zombie` and `expiry_time`, read without the mutex in the C code, are taken to be read atomically.  Locking
succeeds.  Each thread uses only handles it holds.

In the model of reference counts (C76, C77) a decrement is one step and each action of a destructor another; constructors are one
step, as they work on memory that no other thread can see, and retaining is one atomic addition.  `add_child` has no lock: the
program keeps other threads away from the multi-keyring while it runs.  Addresses are not reused, which makes every stale pointer
visible.

The properties C109 and C110 are about the memory orders of the reference counts and do not take memory to be sequentially consistent: executions
are those of C11, as far as `Spec/MemoryOrder` states its rules (happens-before from program order, from other synchronisation and from release
sequences of read-modify-write operations; coherence).  The atomics of aws-c-common are taken to have the C11 meaning of the order they are given.

The property C111 rests on a list, read off the code, of what each function of the local cache reads and writes and whether it holds the mutex.
It shows where the assumption above, that `zombie` and `expiry_time` are read atomically, is not met by the code.

Threads that use KMS keyrings (C85, C86) interleave at every use of a client supplier, of `report_success` and of KMS; each critical section of
`CachingClientSupplier` is one step.  A client supplier of the user returns clients for the region asked and then sets `report_success`
(`Spec.Honest`), or no client.

### 3.5 Modelled and not modelled

| Source | Modelled | Not modelled |
|--------|----------|--------------|
| source/header.c | parsing, size, writing, clearing | printing, validity predicates (CBMC) |
| source/framefmt.c | all | — |
| source/enc_ctx.c | size, serialise, deserialise, clone | hash table internals |
| source/cipher.c | suite table, KDF, header and body AEAD, commitment comparison, AES/RSA wrappers | PEM parsing (part of the RSA functions), `ERR_*` reporting |
| source/hkdf.c | HMAC branch, with its memory (`Model/Secrets`) | branch using OpenSSL's own HKDF |
| source/cipher_openssl.c | signature contexts, key generation, serialisation, loading, signing loop, verification, freeing (`Model/Signature`); in the session model a signature context is a key and the data absorbed | elliptic curve arithmetic, digests, base64; builds for OpenSSL before 1.1.0 (`OSSL_100`); the digest functions beyond `md_init`; memory of OpenSSL's own objects (the bytes of `tmparr` in `aws_cryptosdk_sig_get_privkey` are modelled, `Model/Secrets`) |
| source/session.c, session_encrypt.c, session_decrypt.c | all state and steps; memory of the key material (`Model/Secrets`) | — |
| source/materials.c | calling conventions of keyrings; reference counts and destructors (`Model/Lifetime`) | — |
| source/list_utils.c, edk.c, keyring_trace.c | transfer, copy, clone, adding records | printing, comparison of traces |
| source/multi_keyring.c, raw_aes_keyring.c, raw_rsa_keyring.c | encryption, decryption, constructors, their allocation failures (`Model/Lifetime`) | — |
| source/default_cmm.c | all | — |
| source/local_cache.c | all operations, sequential and concurrent; memory (`Model/Memory`) | — |
| source/caching_cmm.c | both operations, identifiers, limits, TTL; concurrent encryption | setters' saturation of units other than those cited |
| aws-encryption-sdk-cpp/source/kms_keyring.cpp, kms_mrk_keyring.cpp, cpputils.cpp | decisions, calls of KMS, builders, ARNs, client suppliers (`Model/KmsClient`) | log output, configuration of new clients, memory of the SDK's `ByteBuffer` holding an unwrapped data key |

Where a definition simplifies, its comment says so.

## 4. Where the code disagrees with a property

Each is proved about the model with a concrete witness (`_refuted` and similar names), and the property is claimed `partial`.

* C12: the plaintext estimate for a final frame of which fewer than 4 bytes were supplied can be too large (`C12_estimate_too_large`).
* C28: with a NULL input, with an unframed message of unknown size, or with decryption calls that only raise estimates, no progress is made.
* C30: `aws_cryptosdk_session_set_message_size` and `set_message_bound` accept sizes smaller than what was already processed.
* C31: the frame size survives `aws_cryptosdk_session_reset` when decryption changed it (`C31_frame_size_refuted`; the property excludes it).
* C39: `can_cache_algorithm` compares the stringified name "NULL" with NULL, so that suites without KDF are cached; an unknown suite is a NULL dereference (C62).
* C41: the byte counter of an entry wraps with large limits and several threads.
* C44: concurrent release with invalidation uses a freed entry.
* C47, C58: a failed transfer leaves part of the encrypted data keys in the caller's list, pointing to freed buffers.
* C48: a keyring that fails and leaves a key of the wrong length (raw RSA) ends the search; the reported error may be stale.
* C49, C50: an empty namespace or name makes a raw keyring unable to decrypt its own keys.
* C57: building an MRK multi-keyring also fails for children without a region.
* C58: KMS keyrings do not check the length of a generated key (the wrapper does, after EDKs were added); an empty plaintext is success without a key.
* C59: for suites without KDF two messages under one cached data key use the same (key, IV) pairs.
* C62: a digest failure in the loop over encrypted data keys frees a digest context twice (caching_cmm.c:469); oversized fields reach it.
* C63: the cache identifier of an encryption request ignores the commitment policy.
* C70: when exactly one of the two `BN_dup` calls of an iteration of `aws_cryptosdk_sig_sign_finish` fails, the other number is never freed (cipher_openssl.c:932-938, `C70_sign_finish_refuted`).
* C77: memory is never freed when the copy of an RSA private key cannot be allocated (raw_rsa_keyring.c 215-219), when the child array cannot
  grow (multi_keyring.c 186-188) or a caching CMM cannot be allocated (caching_cmm.c 179-182); and always for the children and generator of
  an MRK multi-keyring (kms_mrk_keyring.cpp 880, 965); and for multi-keyrings that contain themselves (`C77_leak_*`).
* C86: `BuildClientSupplier` reports success before any call for a keyring with one key, so that an unused client is cached (kms_keyring.cpp:382), and
  throws `std::bad_function_call` if the user's supplier had no client and left `report_success` unset (`C85_null_client_throws`), where
  kms_keyring.h:163-171 promises that encryption fails; `CachingClientSupplier::GetClient` makes clients outside the lock, so two threads may
  make and use two for one region.  `MultiKeyringBuilder` never reports success, so it makes a client for each member.
* C92: the places of C47, C62 and C77 above, and: a header with five or more EDKs loses an EDK, and is accepted without it, when the list cannot
  grow (header.c:316); `hash_enc_request` loses the first digest context when the second cannot be had (caching_cmm.c:275-277) (`C92_refuted_*`).
* C87: the keyrings release a data key that they generated but could not wrap with `aws_byte_buf_clean_up`, not
  `aws_byte_buf_clean_up_secure` (raw_aes_keyring.c:173, raw_rsa_keyring.c:95, kms_keyring.cpp:298, kms_mrk_keyring.cpp:605), and `derive_data_key`
  (session_decrypt.c:80) never wipes its local `data_key`, where session_encrypt.c:147 does.

Noticed while reading, outside the listed properties: a failed key derivation makes decryption return -1 as the error code
(session_decrypt.c, `derive_data_key`; C78 has it as `.raw (-1)`), a failed allocation of the EDK list is reported as unknown error, and
a header of 2^31 bytes or more as unknown error or, if its length is a multiple of 2^32, bad ciphertext; when encrypting, running out
of frame numbers and a failing digest of a frame are reported as unknown error (the check that would report the former as exceeded limit
cannot be reached), and the number of encrypted data keys is written modulo 2^16; `derive_key` returns positive codes that `try_gen_key` does not raise; raw AES
wrapping of a data key shorter than the suite's leaves uninitialised bytes in the EDK (raw_aes_keyring.c:113-119); the IV of a body
frame is not compared with its sequence number when decrypting; `hash_enc_request` leaks a digest context if the second one cannot
be created; `locked_process_ttls` handles at most 8 expired entries
per call; `get_enc_materials` may change the request's context and then fail; data races on `zombie` and `expiry_time`; `split_arn_resource` skips repeated slashes,
contrary to its comment; MRK `BuildDiscovery` accepts a null filter and an empty region; MRK `OnDecrypt` dereferences NULL for an
unknown suite (kms_mrk_keyring.cpp:319, `C56_undefined_for_unknown_suite`).

## 5. Tests against wrong programs

`seeded/LOG.jsonl` records, for each deliberately wrong edit of the model, the theorems that then failed.  The edit is made in a scratch
copy; every declaration that no longer compiles is replaced by `sorry`, and a property theorem counts as failed if it then depends on
`sorryAx`.  Theorems found too weak were tightened (fields `theorems_tightened`).

This is a test of proofs: a theorem that counts as failed has a proof that no longer goes through, in itself or in a lemma that it uses, and
may still be true of the wrong program.  A theorem that does not count as failed certainly does not notice the edit.  So `theorems_failed`
is an upper bound on what the edit makes false.
