import Verif.Model.Session
/-
Keyrings: source/materials.c:88-168, source/multi_keyring.c, source/raw_aes_keyring.c, source/raw_rsa_keyring.c,
source/list_utils.c, source/keyring_trace.c.

The thread's last error (`aws_last_error`) is the explicit component `errno`, because keyrings reset it and callers read it.
-/
namespace Verif

/-- `struct aws_byte_buf` holding a data key: its address, contents (`len` is the length of `bytes`), capacity and allocator.
A NULL `buffer` is `none` in `Option KeyBuf`; a NULL buffer with nonzero length is not represented. -/
structure KeyBuf where
  ptr : Nat
  bytes : Bytes
  cap : Nat
  heap : Nat
deriving DecidableEq, Repr

/-- The bytes of the structure compared by `memcmp` in source/materials.c:130-133. -/
def KeyBuf.meta_ (k : KeyBuf) : Nat × Nat × Nat × Nat := (k.bytes.length, k.ptr, k.cap, k.heap)

/-- The in/out arguments of `on_encrypt`. -/
structure EncState where
  key : Option KeyBuf
  trace : List TraceRec
  edks : List Edk
  errno : Err
deriving DecidableEq

/-- The in/out arguments of `on_decrypt`. -/
structure DecState where
  key : Option KeyBuf
  trace : List TraceRec
  errno : Err
deriving DecidableEq

/-- How a keyring call ends: AWS_OP_SUCCESS, AWS_OP_ERR, or undefined behaviour (NULL dereference). -/
inductive KRet where
  | ok | fail | ub
deriving DecidableEq, Repr

/-- `struct aws_cryptosdk_keyring` as seen through its vtable (include/aws/cryptosdk/materials.h:516-566).  `none` is a slot that is
NULL or beyond `vt_size`.  A call may do anything to its in/out arguments. -/
structure Keyring where
  onEncrypt : Option (EncCtx → Nat → EncState → KRet × EncState)
  onDecrypt : Option (List Edk → EncCtx → Nat → DecState → KRet × DecState)

/-- The length check of source/materials.c:118-119 and 162-163. -/
def dataKeyLenOK (alg : Nat) (k : KeyBuf) : Bool :=
  match algProps alg with
  | none => false
  | some p => k.bytes.length = p.dataKeyLen

/-- The postconditions of source/materials.c:115-134. -/
def checkEncKey (alg : Nat) (before after : Option KeyBuf) : Bool :=
  match before, after with
  | none, none => true
  | none, some k => dataKeyLenOK alg k
  | some k, after => after.map KeyBuf.meta_ = some k.meta_

/-- `aws_cryptosdk_keyring_on_encrypt`, source/materials.c:88-136. -/
def keyringOnEncrypt (kr : Keyring) (ctx : EncCtx) (alg : Nat) (s : EncState) : KRet × EncState :=
  if s.key.isNone ∧ s.edks ≠ [] then (.fail, { s with errno := .badState })
  else match kr.onEncrypt with
    | none => (.fail, { s with errno := .unimplemented })
    | some f =>
      let r := f ctx alg s
      if r.1 = .ub then r
      else if checkEncKey alg s.key r.2.key then r
      else (.fail, { r.2 with errno := .badState })

/-- `aws_cryptosdk_keyring_on_decrypt`, source/materials.c:138-168. -/
def keyringOnDecrypt (kr : Keyring) (edks : List Edk) (ctx : EncCtx) (alg : Nat) (s : DecState) : KRet × DecState :=
  if s.key.isSome then (.fail, { s with errno := .badState })
  else match kr.onDecrypt with
    | none => (.fail, { s with errno := .unimplemented })
    | some f =>
      let r := f edks ctx alg s
      if r.1 = .ub then r
      else match r.2.key with
        | none => r
        | some k => if dataKeyLenOK alg k then r else (.fail, { r.2 with errno := .badCiphertext })

/-! ### lists -/

/-- The loop of `aws_cryptosdk_transfer_list`, source/list_utils.c:24-28: the destination, and whether every push succeeded;
`push i` says whether the push of element `i` does (it may need to grow the array). -/
def transferLoop (push : Nat → Bool) (i : Nat) (dest : List α) : List α → List α × Bool
  | [] => (dest, true)
  | x :: src => if push i then transferLoop push (i + 1) (dest ++ [x]) src else (dest, false)

/-- The loop of `list_copy_all`, source/list_utils.c:66-81.  `clone i x` is the result of copying element `i`, `push i` whether it
could be appended. -/
def copyLoop (clone : Nat → α → Option α) (push : Nat → Bool) (i : Nat) (dest : List α) : List α → List α × Bool
  | [] => (dest, true)
  | x :: src =>
    match clone i x with
    | none => (dest, false)
    | some y => if push i then copyLoop clone push (i + 1) (dest ++ [y]) src else (dest, false)

/-- The rollback loop of `list_copy_all`, source/list_utils.c:89-101: pop until the list has its initial length. -/
def popTo (n : Nat) (dest : List α) : List α :=
  if h : dest.length > n then popTo n dest.dropLast else dest
termination_by dest.length
decreasing_by simp; omega

/-- `list_copy_all`, source/list_utils.c:42-103, used by `aws_cryptosdk_edk_list_copy_all` and
`aws_cryptosdk_keyring_trace_copy_all`. `tmp` says whether the temporary element could be allocated. -/
def listCopyAll (tmp : Bool) (clone : Nat → α → Option α) (push : Nat → Bool) (dest src : List α) : List α × Bool :=
  if !tmp then (dest, false)
  else
    let r := copyLoop clone push 0 dest src
    if r.2 then r else (popTo dest.length r.1, false)

/-- `aws_cryptosdk_edk_init_clone`, source/edk.c:50-69: `a`, `b`, `c` say whether the three copies could be allocated. -/
def edkClone (a b c : Bool) (e : Edk) : Option Edk :=
  if a ∧ b ∧ c then some ⟨e.providerId, e.providerInfo, e.ciphertext⟩ else none

/-- `aws_cryptosdk_keyring_trace_record_init_clone`, source/keyring_trace.c:182-211: `a`, `b` say whether the two strings could be
allocated. -/
def traceClone (a b : Bool) (r : TraceRec) : Option TraceRec :=
  if a ∧ b then some ⟨r.namespace_, r.name, r.flags⟩ else none

/-! ### multi-keyring -/

/-- Outcomes of the allocations made by a multi-keyring call. -/
structure MultiAlloc where
  edks : Bool
  trace : Bool
  pushEdk : Nat → Bool
  pushTrace : Nat → Bool

/-- `call_on_encrypt_on_list`, source/multi_keyring.c:20-37. -/
def callOnEncryptList (ctx : EncCtx) (alg : Nat) : List Keyring → EncState → KRet × EncState
  | [], s => (.ok, s)
  | kr :: krs, s =>
    let r := keyringOnEncrypt kr ctx alg s
    match r.1 with
    | .ok => callOnEncryptList ctx alg krs r.2
    | e => (e, r.2)

/-- The call of the generator, source/multi_keyring.c:58-64. -/
def callGenerator (ctx : EncCtx) (alg : Nat) (gen : Option Keyring) (s : EncState) : KRet × EncState :=
  match gen with
  | none => (.ok, s)
  | some kr => keyringOnEncrypt kr ctx alg s

/-- The transfers of source/multi_keyring.c:80-85: `my` is the local state, `s` the caller's.  The result of the transfer of the
trace is ignored.  After a failed transfer the elements already transferred stay in the caller's list, although their buffers are
freed with the local list (lines 88-89). -/
def multiTransfer (a : MultiAlloc) (s my : EncState) : KRet × EncState :=
  let e := transferLoop a.pushEdk 0 s.edks my.edks
  if !e.2 then (.fail, { key := my.key, trace := s.trace, edks := e.1, errno := .oom })
  else
    let t := transferLoop a.pushTrace 0 s.trace my.trace
    (.ok, { key := my.key, trace := t.1, edks := e.1, errno := if t.2 then my.errno else .oom })

/-- `multi_keyring_on_encrypt`, source/multi_keyring.c:39-90.  The local lists `my_edks` and `my_trace` are the lists of the state
threaded through the calls. -/
def multiOnEncrypt (a : MultiAlloc) (gen : Option Keyring) (children : List Keyring) (ctx : EncCtx) (alg : Nat) (s : EncState) :
    KRet × EncState :=
  if !a.edks ∨ !a.trace then (.fail, { s with errno := .oom })
  else
    let g := callGenerator ctx alg gen { s with trace := [], edks := [] }
    match g.1 with
    | .ok =>
      match g.2.key with
      | none => (.fail, { s with key := none, errno := .badState })
      | some _ =>
        let c := callOnEncryptList ctx alg children g.2
        match c.1 with
        | .ok => multiTransfer a s c.2
        | e => (e, { s with key := c.2.key, errno := c.2.errno })
    | e => (e, { s with key := g.2.key, errno := g.2.errno })

/-- The loop over the keyrings in `multi_keyring_on_decrypt`, source/multi_keyring.c:107-126; `failed` is
`ret_if_no_decrypt`. -/
def multiDecLoop (edks : List Edk) (ctx : EncCtx) (alg : Nat) (failed : Bool) : List Keyring → DecState → KRet × DecState
  | [], s => (if failed then .fail else .ok, s)
  | kr :: krs, s =>
    let r := keyringOnDecrypt kr edks ctx alg s
    match r.1 with
    | .ub => r
    | e => if r.2.key.isSome then (.ok, r.2) else multiDecLoop edks ctx alg (failed || e = .fail) krs r.2

/-- `multi_keyring_on_decrypt`, source/multi_keyring.c:92-127: generator first, then the children. -/
def multiOnDecrypt (gen : Option Keyring) (children : List Keyring) (edks : List Edk) (ctx : EncCtx) (alg : Nat) (s : DecState) :
    KRet × DecState :=
  multiDecLoop edks ctx alg false (gen.toList ++ children) s

/-- A multi-keyring, source/multi_keyring.c:146-189. -/
def multiKeyring (a : MultiAlloc) (gen : Option Keyring) (children : List Keyring) : Keyring :=
  { onEncrypt := some (multiOnEncrypt a gen children), onDecrypt := some (multiOnDecrypt gen children) }

/-! ### environment of the raw keyrings -/

/-- Places where an allocation of a raw keyring may fail. -/
inductive KrSite where
  | aad | dataKey | ciphertext | providerInfo | providerId | pushEdk | traceRecord
deriving DecidableEq, Repr

/-- What a raw keyring call uses from outside: AES-GCM, RSA, random bytes (`random i n` is the `i`-th draw of the call),
allocation outcomes, address and allocator of a new data key buffer, and the contents of uninitialised memory.  PEM parsing is part
of the RSA functions, source/cipher.c:950-1061. -/
structure KrEnv where
  crypto : Crypto
  rsaEncrypt : (pem : Bytes) → (padding : Nat) → (pt : Bytes) → Except Err Bytes
  rsaDecrypt : (pem : Bytes) → (padding : Nat) → (ct : Bytes) → Except Err Bytes
  random : Nat → Nat → Option Bytes
  alloc : KrSite → Bool
  ptr : Nat
  heap : Nat
  junk : Nat → Bytes
  random_len : ∀ i n b, random i n = some b → b.length = n
  junk_len : ∀ n, (junk n).length = n

/-- `aws_cryptosdk_keyring_trace_add_record`, source/keyring_trace.c:109-126; callers ignore its result. -/
def addTrace (env : KrEnv) (t : List TraceRec) (errno : Err) (r : TraceRec) : List TraceRec × Err :=
  if env.alloc .traceRecord then (t ++ [r], errno) else (t, .oom)

/-- The key sizes accepted by `get_alg_from_key_size`, source/cipher.c:830-838. -/
def aesKeySizeOK (n : Nat) : Bool := n = 16 ∨ n = 24 ∨ n = 32

/-- `aws_cryptosdk_aes_gcm_encrypt`, source/cipher.c:848-893, into a buffer of capacity `cap` and a tag buffer of 16 bytes. -/
def aesGcmEncrypt (c : Crypto) (key iv aad pt : Bytes) (cap : Nat) : Except Err (Bytes × Bytes) :=
  if !aesKeySizeOK key.length ∨ iv.length ≠ 12 ∨ cap < pt.length then .error .invalidBufferSize
  else match c.aeadSeal key iv aad pt with
    | none => .error .cryptoUnknown
    | some x => .ok x

/-- `aws_cryptosdk_aes_gcm_decrypt`, source/cipher.c:895-948, into a buffer of capacity `cap`. -/
def aesGcmDecrypt (c : Crypto) (key iv aad ct tag : Bytes) (cap : Nat) : Except Err Bytes :=
  if !aesKeySizeOK key.length ∨ iv.length ≠ 12 ∨ tag.length ≠ 16 ∨ cap < ct.length then .error .invalidBufferSize
  else c.aeadOpen key iv aad ct tag

/-- `serialize_aad_init`, source/raw_aes_keyring.c:29-43. -/
def serializeAad (env : KrEnv) (ctx : EncCtx) : Except Err Bytes :=
  match encCtxSize ctx with
  | .error e => .error e
  | .ok n =>
    if !env.alloc .aad then .error .oom
    else match encCtxSerialize ⟨n, []⟩ ctx with
      | (_, .error e) => .error e
      | (b, .ok ()) => .ok b.data

/-! ### raw AES keyring -/

/-- `struct raw_aes_keyring`, source/raw_aes_keyring.c:21-27. -/
structure RawAes where
  ns : Bytes
  name : Bytes
  key : Bytes
deriving DecidableEq

/-- `aws_cryptosdk_raw_aes_keyring_new`, source/raw_aes_keyring.c:274-309; allocation is assumed to succeed. -/
def rawAesNew (ns name key : Bytes) : Except Err RawAes :=
  if ns = ascii "aws-kms" then .error .reservedName else .ok ⟨ns, name, key⟩

/-- `aws_cryptosdk_serialize_provider_info_init`, source/raw_aes_keyring.c:45-59. -/
def providerInfo (name iv : Bytes) : Bytes := name ++ be 4 (16 * 8) ++ be 4 12 ++ iv

/-- `aws_cryptosdk_parse_provider_info`, source/raw_aes_keyring.c:61-88: the IV, or `none` for false. -/
def parseProviderInfo (name info : Bytes) : Option Bytes :=
  if name.length + 12 + 8 ≠ info.length then none
  else match rd name.length info with
    | none => none
    | some (mkid, r) =>
      if mkid ≠ name then none
      else match rd 4 r with
        | none => none
        | some (t, r) =>
          if unbe t ≠ 16 * 8 then none
          else match rd 4 r with
            | none => none
            | some (l, r) => if unbe l ≠ 12 then none else some r

/-- `aws_cryptosdk_raw_aes_keyring_encrypt_data_key_with_iv`, source/raw_aes_keyring.c:90-142: the EDK to push, or an error.  If the
data key is shorter than the suite's, the bytes between ciphertext and tag stay uninitialised (lines 113-119). -/
def aesWrap (env : KrEnv) (kr : RawAes) (ctx : EncCtx) (p : AlgProps) (key iv : Bytes) : Except Err Edk :=
  match serializeAad env ctx with
  | .error e => .error e
  | .ok aad =>
    if !env.alloc .ciphertext then .error .oom
    else match aesGcmEncrypt env.crypto kr.key iv aad key p.dataKeyLen with
      | .error e => .error e
      | .ok (ct, tag) =>
        if !env.alloc .providerInfo ∨ !env.alloc .providerId ∨ !env.alloc .pushEdk then .error .oom
        else .ok ⟨kr.ns, providerInfo kr.name iv, ct ++ env.junk (p.dataKeyLen - ct.length) ++ tag⟩

/-- The end of `raw_aes_keyring_on_encrypt`, source/raw_aes_keyring.c:169-182, with data key `k`; `flags` is
WRAPPING_KEY_GENERATED_DATA_KEY (1) if this call generated it, else 0. -/
def aesFinish (env : KrEnv) (kr : RawAes) (ctx : EncCtx) (p : AlgProps) (iv : Bytes) (k : KeyBuf) (flags : Nat) (s : EncState) :
    KRet × EncState :=
  match aesWrap env kr ctx p k.bytes iv with
  | .error e => (.fail, { s with key := if flags = 0 then some k else none, errno := e })
  | .ok edk =>
    let t := addTrace env s.trace s.errno ⟨kr.ns, kr.name, flags + 2 + 8⟩
    (.ok, { key := some k, trace := t.1, edks := s.edks ++ [edk], errno := t.2 })

/-- `raw_aes_keyring_on_encrypt`, source/raw_aes_keyring.c:144-183. -/
def aesOnEncrypt (env : KrEnv) (kr : RawAes) (ctx : EncCtx) (alg : Nat) (s : EncState) : KRet × EncState :=
  match algProps alg with
  | none => (.ub, s)
  | some p =>
    match env.random 0 12 with
    | none => (.fail, { s with errno := .cryptoUnknown })
    | some iv =>
      match s.key with
      | some k => aesFinish env kr ctx p iv k 0 s
      | none =>
        if !env.alloc .dataKey then (.fail, { s with errno := .oom })
        else match env.random 1 p.dataKeyLen with
          | none => (.fail, { s with errno := .cryptoUnknown })
          | some b => aesFinish env kr ctx p iv ⟨env.ptr, b, p.dataKeyLen, env.heap⟩ 1 s

/-- The checks before decryption of one EDK, source/raw_aes_keyring.c:215-227, and the arguments of the decryption: IV, ciphertext and
tag.  `none` is `continue`. -/
def aesMatch (kr : RawAes) (p : AlgProps) (e : Edk) : Option (Bytes × Bytes × Bytes) :=
  if e.providerId.length = 0 ∨ e.providerInfo.length = 0 ∨ e.ciphertext.length = 0 then none
  else if kr.ns ≠ e.providerId then none
  else match parseProviderInfo kr.name e.providerInfo with
    | none => none
    | some iv =>
      if p.dataKeyLen + 16 ≠ e.ciphertext.length then none
      else some (iv, e.ciphertext.take p.dataKeyLen, e.ciphertext.drop p.dataKeyLen)

/-- The loop of `raw_aes_keyring_on_decrypt`, source/raw_aes_keyring.c:209-251: the data key if one was found, and the last error
(reset after a failed decryption, line 240). -/
def aesDecLoop (env : KrEnv) (kr : RawAes) (p : AlgProps) (aad : Bytes) (errno : Err) : List Edk → Option Bytes × Err
  | [] => (none, errno)
  | e :: edks =>
    match aesMatch kr p e with
    | none => aesDecLoop env kr p aad errno edks
    | some (iv, ct, tag) =>
      match aesGcmDecrypt env.crypto kr.key iv aad ct tag p.dataKeyLen with
      | .error _ => aesDecLoop env kr p aad (.raw 0) edks
      | .ok pt => (some pt, errno)

/-- `raw_aes_keyring_on_decrypt`, source/raw_aes_keyring.c:185-258. -/
def aesOnDecrypt (env : KrEnv) (kr : RawAes) (edks : List Edk) (ctx : EncCtx) (alg : Nat) (s : DecState) : KRet × DecState :=
  match serializeAad env ctx with
  | .error e => (.fail, { s with errno := e })
  | .ok aad =>
    match algProps alg with
    | none => (.ub, s)
    | some p =>
      if !env.alloc .dataKey then (.fail, { s with errno := .oom })
      else match aesDecLoop env kr p aad s.errno edks with
        | (none, errno) => (.ok, { s with key := none, errno := errno })
        | (some pt, errno) =>
          let t := addTrace env s.trace errno ⟨kr.ns, kr.name, 4 + 16⟩
          (.ok, { key := some ⟨env.ptr, pt, p.dataKeyLen, env.heap⟩, trace := t.1, errno := t.2 })

/-- The vtable of the raw AES keyring, source/raw_aes_keyring.c:268-272. -/
def aesKeyring (env : KrEnv) (kr : RawAes) : Keyring :=
  { onEncrypt := some (aesOnEncrypt env kr), onDecrypt := some (aesOnDecrypt env kr) }

/-! ### raw RSA keyring -/

/-- `struct raw_rsa_keyring`, source/raw_rsa_keyring.c:23-31; `padding` is the enumerator. -/
structure RawRsa where
  ns : Bytes
  name : Bytes
  priv : Option Bytes
  pub : Option Bytes
  padding : Nat
deriving DecidableEq

/-- `aws_cryptosdk_raw_rsa_keyring_new`, source/raw_rsa_keyring.c:170-220; allocation is assumed to succeed. -/
def rawRsaNew (ns name : Bytes) (priv pub : Option Bytes) (padding : Nat) : Except Err RawRsa :=
  if ns = ascii "aws-kms" then .error .reservedName
  else if priv.isNone ∧ pub.isNone then .error .badState
  else .ok ⟨ns, name, priv, pub, padding⟩

/-- `encrypt_data_key`, source/raw_rsa_keyring.c:33-65 with `aws_cryptosdk_rsa_encrypt`, source/cipher.c:959-1008: the EDK to
push, or an error. -/
def rsaWrap (env : KrEnv) (kr : RawRsa) (pub key : Bytes) : Except Err Edk :=
  if ¬ kr.padding < 3 then .error .unsupportedFormat
  else match env.rsaEncrypt pub kr.padding key with
    | .error e => .error e
    | .ok ct =>
      if !env.alloc .providerId ∨ !env.alloc .providerInfo ∨ !env.alloc .pushEdk then .error .oom
      else .ok ⟨kr.ns, kr.name, ct⟩

/-- The end of `raw_rsa_keyring_on_encrypt`, source/raw_rsa_keyring.c:93-102. -/
def rsaFinish (env : KrEnv) (kr : RawRsa) (pub : Bytes) (k : KeyBuf) (flags : Nat) (s : EncState) : KRet × EncState :=
  match rsaWrap env kr pub k.bytes with
  | .error e => (.fail, { s with key := if flags = 0 then some k else none, errno := e })
  | .ok edk =>
    let t := addTrace env s.trace s.errno ⟨kr.ns, kr.name, flags + 2⟩
    (.ok, { key := some k, trace := t.1, edks := s.edks ++ [edk], errno := t.2 })

/-- `raw_rsa_keyring_on_encrypt`, source/raw_rsa_keyring.c:67-103. -/
def rsaOnEncrypt (env : KrEnv) (kr : RawRsa) (_ctx : EncCtx) (alg : Nat) (s : EncState) : KRet × EncState :=
  match kr.pub with
  | none => (.fail, { s with errno := .badState })
  | some pub =>
    match s.key with
    | some k => rsaFinish env kr pub k 0 s
    | none =>
      match algProps alg with
      | none => (.ub, s)
      | some p =>
        if !env.alloc .dataKey then (.fail, { s with errno := .oom })
        else match env.random 1 p.dataKeyLen with
          | none => (.fail, { s with errno := .cryptoUnknown })
          | some b => rsaFinish env kr pub ⟨env.ptr, b, p.dataKeyLen, env.heap⟩ 1 s

/-- The checks of source/raw_rsa_keyring.c:122-125 on one EDK: false is `continue`. -/
def rsaMatch (kr : RawRsa) (e : Edk) : Bool :=
  e.providerId.length ≠ 0 ∧ e.providerInfo.length ≠ 0 ∧ e.ciphertext.length ≠ 0 ∧ kr.ns = e.providerId ∧ kr.name = e.providerInfo

/-- `aws_cryptosdk_rsa_decrypt`, source/cipher.c:1010-1061, into a NULL buffer. -/
def rsaUnwrap (env : KrEnv) (kr : RawRsa) (priv ct : Bytes) : Except Err Bytes :=
  if ¬ kr.padding < 3 then .error .unsupportedFormat else env.rsaDecrypt priv kr.padding ct

/-- The loop of `raw_rsa_keyring_on_decrypt`, source/raw_rsa_keyring.c:114-150. -/
def rsaDecLoop (env : KrEnv) (kr : RawRsa) (priv : Bytes) (errno : Err) : List Edk → Option Bytes × Err
  | [] => (none, errno)
  | e :: edks =>
    if rsaMatch kr e then
      match rsaUnwrap env kr priv e.ciphertext with
      | .error _ => rsaDecLoop env kr priv (.raw 0) edks
      | .ok pt => (some pt, errno)
    else rsaDecLoop env kr priv errno edks

/-- `raw_rsa_keyring_on_decrypt`, source/raw_rsa_keyring.c:105-153.  The capacity of the buffer is the size of the RSA key; it is
represented by the length of the plaintext. -/
def rsaOnDecrypt (env : KrEnv) (kr : RawRsa) (edks : List Edk) (_ctx : EncCtx) (_alg : Nat) (s : DecState) : KRet × DecState :=
  match kr.priv with
  | none => (.fail, { s with errno := .badState })
  | some priv =>
    match rsaDecLoop env kr priv s.errno edks with
    | (none, errno) => (.ok, { s with errno := errno })
    | (some pt, errno) =>
      let t := addTrace env s.trace errno ⟨kr.ns, kr.name, 4⟩
      (.ok, { key := some ⟨env.ptr, pt, pt.length, env.heap⟩, trace := t.1, errno := t.2 })

/-- The vtable of the raw RSA keyring, source/raw_rsa_keyring.c:164-168. -/
def rsaKeyring (env : KrEnv) (kr : RawRsa) : Keyring :=
  { onEncrypt := some (rsaOnEncrypt env kr), onDecrypt := some (rsaOnDecrypt env kr) }

end Verif
