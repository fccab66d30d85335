import Verif.Model.LocalCache
/-
The caching CMM: source/caching_cmm.c.

One call of a caching CMM is modelled without interference from other threads; Model/CacheConc models interleavings.  What comes from
outside (clocks, digest and allocation failures, the upstream CMM) is a parameter of each call.
-/
namespace Verif

/-- `struct caching_cmm`, source/caching_cmm.c:25-35; the upstream CMM, cache and clock are parameters of the calls. -/
structure CachingCmm where
  partition : Bytes
  limitMessages : Nat
  limitBytes : Nat
  ttl : Nat
deriving DecidableEq

/-- `AWS_CRYPTOSDK_CACHE_MAX_LIMIT_MESSAGES`, include/aws/cryptosdk/cache.h:58. -/
def maxLimitMessages : Nat := 2 ^ 32

/-- `convert_ttl_to_nanos`, source/caching_cmm.c:140-146.  `unit` is the value of `enum aws_timestamp_unit` (aws-c-common: units per
second); multiplication saturates. -/
def convertTtl (ttl unit : Nat) : Nat :=
  if ttl = 0 ∨ (unit ≠ 1 ∧ unit ≠ 1000 ∧ unit ≠ 1000000 ∧ unit ≠ 1000000000) then 0
  else min (1000000000 / unit * ttl) (2 ^ 64 - 1)

/-- `hash_or_generate_partition_id`, source/caching_cmm.c:68-99: the digest of the name, or 64 random bytes. -/
def partitionId (sha : Bytes → Bytes) (name : Option Bytes) (random : Bytes) : Bytes :=
  match name with
  | some s => sha s
  | none => random

/-- `aws_cryptosdk_caching_cmm_new_from_cmm`, source/caching_cmm.c:162-201; digest, randomness and allocation are assumed to succeed. -/
def cachingCmmNew (sha : Bytes → Bytes) (name : Option Bytes) (random : Bytes) (ttl unit : Nat) : Except Err CachingCmm :=
  if convertTtl ttl unit = 0 then .error .invalidArgument
  else .ok ⟨partitionId sha name random, maxLimitMessages, 2 ^ 63 - 1, convertTtl ttl unit⟩

/-- `aws_cryptosdk_caching_cmm_set_limit_bytes`, source/caching_cmm.c:108-121, on a caching CMM. -/
def CachingCmm.setLimitBytes (cmm : CachingCmm) (n : Nat) : CachingCmm × Except Err Unit :=
  if n > 2 ^ 63 - 1 then (cmm, .error .invalidArgument) else ({ cmm with limitBytes := n }, .ok ())

/-- `aws_cryptosdk_caching_cmm_set_limit_messages`, source/caching_cmm.c:123-135, on a caching CMM. -/
def CachingCmm.setLimitMessages (cmm : CachingCmm) (n : Nat) : CachingCmm × Except Err Unit :=
  if n = 0 ∨ n > maxLimitMessages then (cmm, .error .invalidArgument) else ({ cmm with limitMessages := n }, .ok ())

/-- `aws_cryptosdk_caching_cmm_set_ttl`, source/caching_cmm.c:148-160, on a caching CMM. -/
def CachingCmm.setTtl (cmm : CachingCmm) (ttl unit : Nat) : CachingCmm × Except Err Unit :=
  if convertTtl ttl unit = 0 then (cmm, .error .invalidArgument) else ({ cmm with ttl := convertTtl ttl unit }, .ok ())

/-- `can_cache_algorithm`, source/caching_cmm.c:61-66; for an unknown suite a null pointer is dereferenced. -/
def canCache (alg : Nat) : Except Fault Bool :=
  match algProps alg with
  | none => .error .nullDeref
  | some p => .ok p.mdName.isSome

/-- Failures of digest and allocation calls while computing cache identifiers, `none` for success: in `hash_enc_request`; in
`hash_dec_request` before, in, and after the loop over the encrypted data keys. -/
structure IdEnv where
  encFails : Option Err
  decCtxFails : Option Err
  decEdkFails : Option Err
  decEndFails : Option Err

/-- The serialized encryption context, source/caching_cmm.c:295-298 and 399-402. -/
def idCtxBytes (ctx : EncCtx) : Except Err Bytes :=
  match encCtxSize ctx with
  | .error e => .error e
  | .ok n =>
    match encCtxSerialize ⟨n, []⟩ ctx with
    | (_, .error e) => .error e
    | (b, .ok ()) => .ok b.data

/-- What `hash_enc_request` digests, source/caching_cmm.c:281-313. -/
def encPreimage (partition : Bytes) (alg : Nat) (ctxDigest : Bytes) : Bytes :=
  partition ++ (if alg ≠ 0 then 1 :: be 2 alg else [0]) ++ ctxDigest

/-- `hash_enc_request`, source/caching_cmm.c:251-324.  (On some failures a digest context is leaked; memory leaks are not modelled.) -/
def hashEnc (sha : Bytes → Bytes) (env : IdEnv) (partition : Bytes) (req : EncRequest) : Except Err Bytes :=
  match idCtxBytes req.encCtx with
  | .error e => .error e
  | .ok b =>
    match env.encFails with
    | some e => .error e
    | none => .ok (sha (encPreimage partition req.requestedAlg (sha b)))

/-- `hash_edk_field`, source/caching_cmm.c:335-349: what is digested for a field. -/
def edkField (f : Bytes) : Except Err Bytes :=
  if f.length > 65535 then .error .limitExceeded else .ok (be 2 f.length ++ f)

/-- `hash_edk_for_decrypt`, source/caching_cmm.c:351-369. -/
def hashEdk (sha : Bytes → Bytes) (e : Edk) : Except Err Bytes :=
  match edkField e.providerId with
  | .error err => .error err
  | .ok a =>
    match edkField e.providerInfo with
    | .error err => .error err
    | .ok b =>
      match edkField e.ciphertext with
      | .error err => .error err
      | .ok c => .ok (sha (a ++ b ++ c))

/-- The loop over the encrypted data keys, source/caching_cmm.c:421-441. -/
def hashEdks (sha : Bytes → Bytes) : List Edk → Except Err (List Bytes)
  | [] => .ok []
  | e :: es =>
    match hashEdk sha e with
    | .error err => .error err
    | .ok h =>
      match hashEdks sha es with
      | .error err => .error err
      | .ok hs => .ok (h :: hs)

/-- Insertion into a sorted list of digests. -/
def insertBytes (b : Bytes) : List Bytes → List Bytes
  | [] => [b]
  | a :: as => if bytesLe b a then b :: a :: as else a :: insertBytes b as

/-- `aws_array_list_sort` with `edk_hash_entry_cmp` (memcmp), source/caching_cmm.c:329-333 and 443. -/
def sortBytes : List Bytes → List Bytes
  | [] => []
  | b :: bs => insertBytes b (sortBytes bs)

/-- What `hash_dec_request` digests, source/caching_cmm.c:411-463. -/
def decPreimage (partition : Bytes) (alg : Nat) (edkDigests : List Bytes) (ctxDigest : Bytes) : Bytes :=
  partition ++ be 2 alg ++ (sortBytes edkDigests).flatten ++ List.replicate 64 0 ++ ctxDigest

/-- `hash_dec_request`, source/caching_cmm.c:371-475.  After the digest of the encryption context has been finished (and freed), the
pointer to it is not cleared, so that a failure in the loop over the encrypted data keys frees it again (line 469). -/
def hashDec (sha : Bytes → Bytes) (env : IdEnv) (partition : Bytes) (req : DecRequest) : Except Fault (Except Err Bytes) :=
  match idCtxBytes req.encCtx with
  | .error e => .ok (.error e)
  | .ok b =>
    match env.decCtxFails with
    | some e => .ok (.error e)
    | none =>
      match env.decEdkFails, hashEdks sha req.edks with
      | some _, _ => .error .doubleFree
      | none, .error _ => .error .doubleFree
      | none, .ok hs =>
        match env.decEndFails with
        | some e => .ok (.error e)
        | none => .ok (.ok (sha (decPreimage partition req.alg hs (sha b))))

/-- `check_ttl`, source/caching_cmm.c:223-248. -/
def checkTtl (cmm : CachingCmm) (clk : Option Nat) (push : Bool) (n : Nat) (c : Cache) : Except Fault (Cache × Bool) :=
  if cmm.ttl = 2 ^ 64 - 1 then .ok (c, true)
  else match cacheCreation n c with
    | .error f => .error f
    | .ok t =>
      if u64 (t + cmm.ttl) < t then .ok (c, true)
      else match clk with
        | none => .ok (c, false)
        | some now =>
          if now ≥ u64 (t + cmm.ttl) then .ok (c, false)
          else match cacheHint n (u64 (t + cmm.ttl)) push c with
            | .error f => .error f
            | .ok c => .ok (c, true)

/-- `set_ttl_on_miss`, source/caching_cmm.c:477-486, for an entry that exists. -/
def setTtlOnMiss (cmm : CachingCmm) (push : Bool) (n : Nat) (c : Cache) : Except Fault Cache :=
  if cmm.ttl = 2 ^ 64 - 1 then .ok c
  else match cacheCreation n c with
    | .error f => .error f
    | .ok t => if u64 (t + cmm.ttl) > t then cacheHint n (u64 (t + cmm.ttl)) push c else .ok c

/-- What a `generate_enc_materials` call meets outside: digest failures, the clock read by `find_entry` and by `check_ttl`, whether
expiration hints can be recorded, and the calls of the cache and the upstream CMM. -/
structure GenEnv where
  ids : IdEnv
  clkFind : Option Nat
  clkTtl : Option Nat
  pushHit : Bool
  get : GetEnv
  up : EncRequest → EncCtx × Except Err EncMaterials
  put : PutEnv
  pushMiss : Bool

/-- What `generate_enc_materials` leaves: the request's encryption context, the result, and (not visible to the caller) whether the
upstream CMM was called. -/
structure GenOut where
  ctx : EncCtx
  res : Except Err EncMaterials
  upstream : Bool

/-- Giving up an unusable entry, source/caching_cmm.c:553-561. -/
def dropEntry (n : Nat) (ctx : EncCtx) (c : Cache) : Except Fault (Cache × EncCtx × Option EncMaterials) :=
  match cacheRelease n true c with
  | .error f => .error f
  | .ok c => .ok (c, ctx, none)

/-- Using a found entry after the usage counters were updated to `bytes` and `messages`, source/caching_cmm.c:535-552. -/
def genUse (cmm : CachingCmm) (env : GenEnv) (n bytes messages : Nat) (ctx : EncCtx) (c : Cache) :
    Except Fault (Cache × EncCtx × Option EncMaterials) :=
  if bytes > cmm.limitBytes ∨ messages > cmm.limitMessages then dropEntry n ctx c
  else match cacheGetEnc env.get n ctx c with
    | .error f => .error f
    | .ok (ctx', .error _) => dropEntry n ctx' c
    | .ok (ctx', .ok m) =>
      match cacheRelease n (messages = cmm.limitMessages) c with
      | .error f => .error f
      | .ok c => .ok (c, ctx', some m)

/-- The cache lookup of `generate_enc_materials`, source/caching_cmm.c:520-561: the materials if the entry could be used. -/
def genTry (cmm : CachingCmm) (env : GenEnv) (id : Bytes) (req : EncRequest) (c : Cache) :
    Except Fault (Cache × EncCtx × Option EncMaterials) :=
  match cacheFind env.clkFind id c with
  | .error f => .error f
  | .ok (c, none) => .ok (c, req.encCtx, none)
  | .ok (c, some n) =>
    match c.entry n with
    | .error f => .error f
    | .ok e =>
      if !e.isEncrypt then dropEntry n req.encCtx c
      else match checkTtl cmm env.clkTtl env.pushHit n c with
        | .error f => .error f
        | .ok (c, false) => dropEntry n req.encCtx c
        | .ok (c, true) =>
          match cacheUpdateUsage n req.plaintextSize 1 c with
          | .error f => .error f
          | .ok (c, .error _) => dropEntry n req.encCtx c
          | .ok (c, .ok (bytes, messages)) => genUse cmm env n bytes messages req.encCtx c

/-- Storing materials that came from upstream, source/caching_cmm.c:568-578. -/
def genStore (cmm : CachingCmm) (env : GenEnv) (id : Bytes) (size : Nat) (ctx : EncCtx) (m : EncMaterials) (c : Cache) :
    Except Fault Cache :=
  match canCache m.alg with
  | .error f => .error f
  | .ok false => .ok c
  | .ok true =>
    match cachePutEnc env.put id m size 1 ctx c with
    | .error f => .error f
    | .ok (c, none) => .ok c
    | .ok (c, some n) =>
      match setTtlOnMiss cmm env.pushMiss n c with
      | .error f => .error f
      | .ok c => cacheRelease n false c

/-- The rest of `generate_enc_materials` after a cache miss, source/caching_cmm.c:563-581. -/
def genMiss (cmm : CachingCmm) (env : GenEnv) (id : Bytes) (req : EncRequest) (ctx : EncCtx) (c : Cache) : Except Fault (Cache × GenOut) :=
  match env.up { req with encCtx := ctx } with
  | (ctx', .error e) => .ok (c, ⟨ctx', .error e, true⟩)
  | (ctx', .ok m) =>
    match genStore cmm env id req.plaintextSize ctx' m c with
    | .error f => .error f
    | .ok c => .ok (c, ⟨ctx', .ok m, true⟩)

/-- `generate_enc_materials` past the bypass, source/caching_cmm.c:514-581. -/
def genCached (sha : Bytes → Bytes) (cmm : CachingCmm) (env : GenEnv) (req : EncRequest) (c : Cache) : Except Fault (Cache × GenOut) :=
  match hashEnc sha env.ids cmm.partition req with
  | .error e => .ok (c, ⟨req.encCtx, .error e, false⟩)
  | .ok id =>
    match genTry cmm env id req c with
    | .error f => .error f
    | .ok (c, ctx, some m) => .ok (c, ⟨ctx, .ok m, false⟩)
    | .ok (c, ctx, none) => genMiss cmm env id req ctx c

/-- The call of the upstream CMM that bypasses the cache, source/caching_cmm.c:509-511. -/
def genBypass (env : GenEnv) (req : EncRequest) (c : Cache) : Cache × GenOut :=
  (c, ⟨(env.up req).1, (env.up req).2, true⟩)

/-- `generate_enc_materials`, source/caching_cmm.c:488-581. -/
def cachingGenerate (sha : Bytes → Bytes) (cmm : CachingCmm) (env : GenEnv) (req : EncRequest) (c : Cache) : Except Fault (Cache × GenOut) :=
  if req.plaintextSize > cmm.limitBytes then .ok (genBypass env req c)
  else if req.requestedAlg = 0 then genCached sha cmm env req c
  else match canCache req.requestedAlg with
    | .error f => .error f
    | .ok false => .ok (genBypass env req c)
    | .ok true => genCached sha cmm env req c

/-- What a `decrypt_materials` call meets outside. -/
structure DecEnv where
  ids : IdEnv
  clkFind : Option Nat
  clkTtl : Option Nat
  pushHit : Bool
  get : GetEnv
  up : DecRequest → Except Err DecMaterials
  put : PutEnv
  pushMiss : Bool

/-- The result of `decrypt_materials` and whether the upstream CMM was called. -/
structure DecOut where
  res : Except Err DecMaterials
  upstream : Bool

/-- Giving up an unusable entry, source/caching_cmm.c:625-631. -/
def dropDec (n : Nat) (c : Cache) : Except Fault (Cache × Option DecMaterials) :=
  match cacheRelease n true c with
  | .error f => .error f
  | .ok c => .ok (c, none)

/-- Using a found entry, source/caching_cmm.c:616-622. -/
def decUse (env : DecEnv) (n : Nat) (c : Cache) : Except Fault (Cache × Option DecMaterials) :=
  match cacheGetDec env.get n c with
  | .error f => .error f
  | .ok (.error _) => dropDec n c
  | .ok (.ok m) =>
    match cacheRelease n false c with
    | .error f => .error f
    | .ok c => .ok (c, some m)

/-- The cache lookup of `decrypt_materials`, source/caching_cmm.c:604-631. -/
def decTry (cmm : CachingCmm) (env : DecEnv) (id : Bytes) (c : Cache) : Except Fault (Cache × Option DecMaterials) :=
  match cacheFind env.clkFind id c with
  | .error f => .error f
  | .ok (c, none) => .ok (c, none)
  | .ok (c, some n) =>
    match c.entry n with
    | .error f => .error f
    | .ok e =>
      if e.isEncrypt then dropDec n c
      else match checkTtl cmm env.clkTtl env.pushHit n c with
        | .error f => .error f
        | .ok (c, false) => dropDec n c
        | .ok (c, true) => decUse env n c

/-- Storing materials that came from upstream, source/caching_cmm.c:637-643. -/
def decStore (cmm : CachingCmm) (env : DecEnv) (id : Bytes) (m : DecMaterials) (c : Cache) : Except Fault Cache :=
  match cachePutDec env.put id m c with
  | .error f => .error f
  | .ok (c, none) => .ok c
  | .ok (c, some n) =>
    match setTtlOnMiss cmm env.pushMiss n c with
    | .error f => .error f
    | .ok c => cacheRelease n false c

/-- `decrypt_materials` past the bypass, source/caching_cmm.c:597-646. -/
def decCached (sha : Bytes → Bytes) (cmm : CachingCmm) (env : DecEnv) (req : DecRequest) (c : Cache) : Except Fault (Cache × DecOut) :=
  match hashDec sha env.ids cmm.partition req with
  | .error f => .error f
  | .ok (.error e) => .ok (c, ⟨.error e, false⟩)
  | .ok (.ok id) =>
    match decTry cmm env id c with
    | .error f => .error f
    | .ok (c, some m) => .ok (c, ⟨.ok m, false⟩)
    | .ok (c, none) =>
      match env.up req with
      | .error e => .ok (c, ⟨.error e, true⟩)
      | .ok m =>
        match decStore cmm env id m c with
        | .error f => .error f
        | .ok c => .ok (c, ⟨.ok m, true⟩)

/-- `decrypt_materials`, source/caching_cmm.c:583-647. -/
def cachingDecrypt (sha : Bytes → Bytes) (cmm : CachingCmm) (env : DecEnv) (req : DecRequest) (c : Cache) : Except Fault (Cache × DecOut) :=
  match canCache req.alg with
  | .error f => .error f
  | .ok false => .ok (c, ⟨env.up req, true⟩)
  | .ok true => decCached sha cmm env req c

end Verif
