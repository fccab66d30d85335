import Verif.Model.Cipher
import Verif.Model.Header
/-
Sessions: source/session.c, source/session_encrypt.c, source/session_decrypt.c, include/aws/cryptosdk/private/session.h.

Outcomes other than return codes are explicit: `abort` is a call of `abort()`, `ub` is undefined behaviour (dereferencing
a NULL pointer), `diverge` is a loop that did not end within the fuel given to it.
-/
namespace Verif

/-- `struct aws_cryptosdk_keyring_trace_record`, include/aws/cryptosdk/keyring_trace.h. -/
structure TraceRec where
  namespace_ : Bytes
  name : Bytes
  flags : Nat
deriving DecidableEq, Repr

/-- `enum aws_cryptosdk_mode`, include/aws/cryptosdk/session.h:34-54; `invalid n` is any other value. -/
inductive Mode where
  | encrypt | decrypt | decryptUnsigned
  | invalid (n : Nat)
deriving DecidableEq, Repr

/-- `aws_cryptosdk_priv_is_valid_mode`, source/session.c:600-607. -/
def Mode.isValid : Mode → Bool
  | .invalid _ => false
  | _ => true

/-- `aws_cryptosdk_priv_is_decrypt_mode`, source/session.c:609-615. -/
def Mode.isDecrypt : Mode → Bool
  | .decrypt | .decryptUnsigned => true
  | _ => false

/-- `enum session_state`, include/aws/cryptosdk/private/session.h:25-47. -/
inductive St where
  | config | error | done
  | readHeader | unwrapKey | decryptBody | checkTrailer
  | genKey | writeHeader | encryptBody | writeTrailer
deriving DecidableEq, Repr

/-- `struct aws_cryptosdk_enc_request`, include/aws/cryptosdk/materials.h:133-164. -/
structure EncRequest where
  encCtx : EncCtx
  requestedAlg : Nat
  plaintextSize : Nat
  policy : Policy
deriving DecidableEq

/-- `struct aws_cryptosdk_enc_materials`, include/aws/cryptosdk/materials.h:169-183. -/
structure EncMaterials where
  alg : Nat
  dataKey : Bytes
  edks : List Edk
  trace : List TraceRec
  signctx : Option SigCtx
deriving DecidableEq

/-- `struct aws_cryptosdk_dec_request`, include/aws/cryptosdk/materials.h:188-193. -/
structure DecRequest where
  encCtx : EncCtx
  edks : List Edk
  alg : Nat
deriving DecidableEq

/-- `struct aws_cryptosdk_dec_materials`, include/aws/cryptosdk/materials.h:203-211. -/
structure DecMaterials where
  alg : Nat
  dataKey : Bytes
  trace : List TraceRec
  signctx : Option SigCtx
deriving DecidableEq

/-- A CMM as the session sees it (include/aws/cryptosdk/materials.h:490-520).  `generate` may modify the encryption
context of the request, whether or not it succeeds; `decrypt` gets it as a pointer to const. -/
structure Cmm where
  generate : EncRequest → EncCtx × Except Err EncMaterials
  decrypt : DecRequest → Except Err DecMaterials

/-- Places where an allocation may fail. -/
inductive AllocSite where
  | messageId | iv | tag | headerCopy | edkList | sigString
deriving DecidableEq, Repr

/-- Everything outside the session: the CMM, the crypto primitives, the allocator, the value of the uninitialised variable
`ciphertext_size` (source/session_encrypt.c:326), and the thread's last error before the call. -/
structure Env where
  cmm : Cmm
  crypto : Crypto
  alloc : AllocSite → Bool
  uninit : Nat
  staleErr : Err

/-- `struct aws_cryptosdk_session`, include/aws/cryptosdk/private/session.h:49-99.  `hasCmm` is `cmm != NULL`; the CMM itself
is part of `Env`.  `key_commitment_arr` is represented by its view `header.alg_suite_data`.  `nonces` is a ghost field: the
(key, IV) pairs with which the session called AES-GCM encryption since the last reset. -/
structure Session where
  error : Err
  mode : Mode
  state : St
  policy : Policy
  hasCmm : Bool
  preciseSize : Nat
  sizeBound : Nat
  dataSoFar : Nat
  preciseKnown : Bool
  headerCopy : Option Bytes
  headerSize : Nat
  header : Hdr
  frameSize : Nat
  trace : List TraceRec
  inEst : Nat
  outEst : Nat
  seqno : Nat
  algProps : Option AlgProps
  contentKey : Bytes
  signctx : Option SigCtx
  cmmSuccess : Bool
  maxEdks : Nat
  nonces : List (Bytes × Bytes)
deriving DecidableEq

/-- How a call or a step ends. -/
inductive Res where
  | ok
  | err (e : Err)
  | abort
  | ub
  | diverge
deriving DecidableEq, Repr

/-- The checks of `aws_cryptosdk_priv_session_change_state` for each new state, source/session.c:406-534.  Note that an illegal
transition to ST_DECRYPT_BODY only `break`s (lines 433-436). -/
def legalChange (s : Session) (new : St) : Bool :=
  match new with
  | .error | .config => true
  | .readHeader => s.state = .config ∧ s.mode.isDecrypt
  | .unwrapKey => s.state = .readHeader ∧ s.mode.isDecrypt ∧ s.headerCopy.isSome ∧ s.headerSize ≠ 0
  | .decryptBody => s.state ≠ .unwrapKey ∨ (s.algProps.isSome ∧ s.seqno ≠ 0)
  | .checkTrailer => s.state = .decryptBody
  | .genKey => s.state = .config ∧ s.mode = .encrypt
  | .writeHeader => s.mode = .encrypt ∧ s.state = .genKey ∧ s.headerCopy.isSome ∧ s.headerSize ≠ 0
  | .encryptBody => s.state = .writeHeader ∧ s.algProps.isSome ∧ s.seqno ≠ 0
  | .writeTrailer => s.state = .encryptBody
  | .done => s.state = .encryptBody ∨ s.state = .decryptBody ∨ s.state = .checkTrailer ∨ s.state = .writeTrailer

/-- `aws_cryptosdk_priv_session_change_state`, source/session.c:388-538; `none` is `abort()`. -/
def changeState (s : Session) (new : St) : Option Session :=
  if s.state = new then some s
  else if s.state = .error ∧ new ≠ .config then none
  else if legalChange s new then some { s with state := new } else none

/-- `aws_cryptosdk_priv_fail_session`, source/session.c:540-547 (the change to ST_ERROR is always legal). -/
def failSession (s : Session) (e : Err) : Session × Res :=
  if s.state ≠ .error then ({ s with error := e, state := .error }, .err e) else (s, .err e)

/-- `aws_cryptosdk_session_reset`, source/session.c:29-69. -/
def reset (s : Session) (mode : Mode) : Session × Res :=
  let s : Session :=
    { error := .raw 0, mode := mode, state := .config, policy := s.policy, hasCmm := s.hasCmm
      preciseSize := 0, sizeBound := 2 ^ 64 - 1, dataSoFar := 0, preciseKnown := false, cmmSuccess := false
      headerCopy := none, headerSize := 0, header := s.header.clear, trace := [], frameSize := s.frameSize
      inEst := 1, outEst := 1, seqno := 0, algProps := none, contentKey := [], signctx := none
      maxEdks := s.maxEdks, nonces := [] }
  if mode.isValid then (s, .ok) else failSession s .unimplemented

/-- `aws_cryptosdk_session_new_from_cmm_2`, source/session.c:71-118 (with a CMM): `none` is a NULL session. -/
def sessionNew (mode : Mode) : Option Session :=
  if mode.isValid then
    some { error := .raw 0, mode := mode, state := .config, policy := .requireRequire, hasCmm := true
           preciseSize := 0, sizeBound := 2 ^ 64 - 1, dataSoFar := 0, preciseKnown := false, cmmSuccess := false
           headerCopy := none, headerSize := 0, header := {}, trace := [], frameSize := 256 * 1024
           inEst := 1, outEst := 1, seqno := 0, algProps := none, contentKey := [], signctx := none
           maxEdks := 0, nonces := [] }
  else none

/-- The effect of one step on the session, the output space it was given and the input. -/
structure Step where
  s : Session
  buf : WBuf
  inp : Bytes
  res : Res
deriving DecidableEq

/-- Change the state at the end of a step. -/
def enter (s : Session) (st : St) (buf : WBuf) (inp : Bytes) : Step :=
  match changeState s st with
  | some s' => ⟨s', buf, inp, .ok⟩
  | none => ⟨s, buf, inp, .abort⟩

/-- `if (session->signctx && aws_cryptosdk_sig_update(session->signctx, …))`. -/
def sigFeed (c : Crypto) (ctx : Option SigCtx) (x : Bytes) : Except Err (Option SigCtx) :=
  match ctx with
  | none => .ok none
  | some ctx => match c.sigUpdate ctx x with
    | .error e => .error e
    | .ok ctx => .ok (some ctx)

/-! ### Encryption -/

/-- The end of `sign_header`, source/session_encrypt.c:246-268: the final header bytes are signed and the state changes. -/
def signHeaderEnd (env : Env) (s : Session) (copy : Bytes) : Session × Res :=
  let s := { s with headerCopy := some copy }
  match sigFeed env.crypto s.signctx copy with
  | .error e => (s, .err e)
  | .ok ctx =>
    let s := { s with signctx := ctx, seqno := 1 }
    match changeState s .writeHeader with
    | some s => (s, .ok)
    | none => (s, .abort)

/-- `sign_header`, source/session_encrypt.c:223-254: with the header serialised once in `copy`, compute the tag, put IV and
tag into the header and serialise it again. -/
def signHeaderTag (env : Env) (s : Session) (p : AlgProps) (copy : Bytes) : Session × Res :=
  let al := authtagLen p
  let s := { s with nonces := s.nonces ++ [(s.contentKey, List.replicate p.ivLen 0)] }
  match signHeader env.crypto p s.contentKey al (copy.take (s.headerSize - al)) with
  | .error e => (s, .err e)
  | .ok authtag =>
    let h := s.header
    let h := if p.msgFormatVersion = 1 then
        { h with iv := authtag.take h.iv.length, authTag := (authtag.drop h.iv.length).take h.authTag.length }
      else { h with authTag := authtag.take h.authTag.length }
    let s := { s with header := h }
    match hdrWrite h copy with
    | (copy, n, .ok ()) => if n ≠ s.headerSize then (s, .err .cryptoUnknown) else signHeaderEnd env s copy
    | (_, _, .error e) => (s, .err e)

/-- `sign_header`, source/session_encrypt.c:183-222.  The fresh buffer's contents are modelled as zero; they are overwritten
or the call fails. -/
def signHeaderStep (env : Env) (s : Session) (p : AlgProps) : Session × Res :=
  let s := { s with headerSize := intToSize (hdrSize s.header) }
  if s.headerSize = 0 then (s, .err .limitExceeded)
  else if !env.alloc .headerCopy then (s, .err .oom)
  else
    let h := { s.header with iv := List.replicate s.header.iv.length 0x42
                             authTag := List.replicate s.header.authTag.length 0xDE }
    let s := { s with header := h }
    match hdrWrite h (List.replicate s.headerSize 0) with
    | (copy, n, .ok ()) =>
      let s := { s with headerCopy := some copy }
      if n ≠ s.headerSize then (s, .err .cryptoUnknown) else signHeaderTag env s p copy
    | (copy, _, .error e) => ({ s with headerCopy := some copy }, .err e)

/-- `build_header`, source/session_encrypt.c:152-181, followed by `sign_header`. -/
def buildHeader (env : Env) (s : Session) (p : AlgProps) (m : EncMaterials) : Session × Res :=
  let s := { s with header := { s.header with algId := p.algId } }
  if s.frameSize > 2 ^ 32 - 1 then (s, .err .limitExceeded)
  else
    let s := { s with header := { s.header with frameLen := s.frameSize, edks := m.edks } }
    if !env.alloc .iv then (s, .err .oom)
    else
      let s := { s with header := { s.header with iv := List.replicate p.ivLen 0 } }
      if !env.alloc .tag then (s, .err .oom)
      else signHeaderStep env { s with header := { s.header with authTag := List.replicate p.tagLen 0 } } p

/-- `aws_cryptosdk_priv_try_gen_key`, source/session_encrypt.c:111-131: derive the content key.  A positive code returned by
`derive_key` is not raised, so the error reported later is whatever error the thread had last. -/
def genKeyDerive (env : Env) (s : Session) (p : AlgProps) (m : EncMaterials) : Session × Res :=
  let must := s.policy.encryptMustIncludeCommitment
  let cl := if must then p.commitmentLen else s.header.algSuiteData.length
  match deriveKey env.crypto.hkdf p m.dataKey s.header.messageId cl with
  | .raised e => (s, .err e)
  | .code _ => (s, .err env.staleErr)
  | .ok k c =>
    let s := { s with contentKey := k
                      header := { s.header with algSuiteData := if must then c else s.header.algSuiteData } }
    buildHeader env s p m

/-- `aws_cryptosdk_priv_try_gen_key`, source/session_encrypt.c:101-110: message id. -/
def genKeyMessageId (env : Env) (s : Session) (p : AlgProps) (m : EncMaterials) : Session × Res :=
  if !env.alloc .messageId then (s, .err .cryptoUnknown)
  else match env.crypto.random (messageIdLen p) with
    | none => (s, .err .cryptoUnknown)
    | some mid => genKeyDerive env { s with header := { s.header with messageId := mid } } p m

/-- The checks on the materials, source/session_encrypt.c:76-91. -/
def genKeyCheck (s : Session) (p : AlgProps) (m : EncMaterials) : Option Err :=
  if m.dataKey.length ≠ p.dataKeyLen then some .cryptoUnknown
  else if m.edks.length = 0 then some .cryptoUnknown
  else if s.maxEdks ≠ 0 ∧ m.edks.length > s.maxEdks then some .limitExceeded
  else if (p.signatureLen ≠ 0) ≠ (m.signctx.isSome = true) then some .cryptoUnknown
  else if !allowedForEncrypt m.alg s.policy then some .policyViolation
  else none

/-- `aws_cryptosdk_priv_try_gen_key`, source/session_encrypt.c:71-100: materials from the CMM. -/
def genKeyWith (env : Env) (s : Session) (m : EncMaterials) : Session × Res :=
  let s := { s with algProps := algProps m.alg }
  match algProps m.alg with
  | none => (s, .err .cryptoUnknown)
  | some p => match genKeyCheck s p m with
    | some e => (s, .err e)
    | none => genKeyMessageId env { s with signctx := m.signctx, trace := s.trace ++ m.trace, cmmSuccess := true } p m

/-- `aws_cryptosdk_priv_try_gen_key`, source/session_encrypt.c:50-150. -/
def tryGenKey (env : Env) (s : Session) : Session × Res :=
  let req : EncRequest := { encCtx := s.header.encCtx, requestedAlg := 0,
                            plaintextSize := if s.preciseKnown then s.preciseSize else s.sizeBound, policy := s.policy }
  let r := env.cmm.generate req
  let s := { s with header := { s.header with encCtx := r.1 } }
  match r.2 with
  | .error e => (s, .err e)
  | .ok m => genKeyWith env s m

/-- `aws_byte_buf_write`: append, or fail without writing. -/
def WBuf.write (b : WBuf) (x : Bytes) : Option WBuf :=
  if x.length ≤ b.mem.length - b.len then some ⟨patchAt b.mem b.len x, b.len + x.length⟩ else none

/-- `aws_cryptosdk_priv_try_write_header`, source/session_encrypt.c:271-285.  `headerCopy = none` with a positive size would
be a NULL dereference. -/
def tryWriteHeader (s : Session) (buf : WBuf) (inp : Bytes) : Step :=
  let s := { s with outEst := s.headerSize }
  match s.headerCopy with
  | none => ⟨s, buf, inp, .ub⟩
  | some c => match buf.write c with
    | some buf' => enter s .encryptBody buf' inp
    | none => ⟨s, buf, inp, .ok⟩

/-- The frame to be written next: type and plaintext size (source/session_encrypt.c:292-317); `none` when the message is
unframed and its size is not known yet. -/
def nextFrame (s : Session) : Option (FrameType × Nat) :=
  if s.frameSize ≠ 0 then
    if s.preciseKnown ∧ u64sub s.preciseSize s.dataSoFar < s.frameSize then
      some (.final, u64sub s.preciseSize s.dataSoFar)
    else some (.frame, s.frameSize)
  else if !s.preciseKnown then none
  else some (.single, s.preciseSize)

/-- End of `aws_cryptosdk_priv_try_encrypt_body`, source/session_encrypt.c:368-397: the frame is complete in `ser.buf`. -/
def encryptBodyEnd (env : Env) (s : Session) (type : FrameType) (ptLen : Nat) (buf out : WBuf) (inp : Bytes)
    (inRest : Bytes) : Step :=
  match sigFeed env.crypto s.signctx ((out.mem.take out.len).drop buf.len) with
  | .error _ => ⟨s, ⟨patchAt out.mem buf.len (List.replicate (out.len - buf.len) 0), buf.len⟩, inp, .err .cryptoUnknown⟩
  | .ok ctx =>
    let s := { s with signctx := ctx, dataSoFar := u64 (s.dataSoFar + ptLen), seqno := u64 (s.seqno + 1) }
    if type ≠ .frame then enter s .writeTrailer out inRest else ⟨s, out, inRest, .ok⟩

/-- `aws_cryptosdk_priv_try_encrypt_body`, source/session_encrypt.c:346-397, after a successful `serialize_frame`.
`inNull` says that the caller's input pointer is NULL. -/
def encryptBodyFill (env : Env) (s : Session) (p : AlgProps) (type : FrameType) (ptLen : Nat) (buf : WBuf) (inp : Bytes)
    (inNull : Bool) (loc : FrameLoc) (out : WBuf) : Step :=
  match (if inNull then none else rd ptLen inp) with
  | none => ⟨s, ⟨out.mem, buf.len⟩, inp, .ok⟩
  | some (pt, inRest) =>
    let s := { s with nonces := s.nonces ++ [(s.contentKey, frameIv p s.seqno)] }
    match encryptBody env.crypto p s.contentKey s.header.messageId type s.seqno pt ptLen with
    | .error _ => ⟨s, buf.secureZero, inp, .err .cryptoUnknown⟩
    | .ok (iv, ct, tag) =>
      match loc.ivOff, loc.ctOff, loc.tagOff with
      | some i, some c, some t =>
        encryptBodyEnd env s type ptLen buf ⟨patchAt (patchAt (patchAt out.mem i iv) c ct) t tag, out.len⟩ inp inRest
      | _, _, _ => ⟨s, buf, inp, .ub⟩

/-- `aws_cryptosdk_priv_try_encrypt_body`, source/session_encrypt.c:318-345. -/
def encryptBodyFrame (env : Env) (s : Session) (type : FrameType) (ptLen : Nat) (buf : WBuf) (inp : Bytes)
    (inNull : Bool) : Step :=
  if s.seqno > 2 ^ 32 - 1 then ⟨s, buf, inp, .err .limitExceeded⟩
  else match s.algProps with
    | none => ⟨s, buf, inp, .ub⟩
    | some p =>
      let r := serializeFrame p type s.seqno ptLen buf
      let s := { s with outEst := r.ciphertextSize.getD env.uninit, inEst := ptLen }
      match r.res with
      | .error e => if e = .shortBuffer then ⟨s, ⟨r.buf.mem, buf.len⟩, inp, .ok⟩
        else ⟨s, ⟨r.buf.mem, buf.len⟩, inp, .err .cryptoUnknown⟩
      | .ok loc => encryptBodyFill env s p type ptLen buf inp inNull loc r.buf

/-- `aws_cryptosdk_priv_try_encrypt_body`, source/session_encrypt.c:287-398. -/
def tryEncryptBody (env : Env) (s : Session) (buf : WBuf) (inp : Bytes) (inNull : Bool) : Step :=
  match nextFrame s with
  | none => ⟨{ s with outEst := 0, inEst := 0 }, buf, inp, .ok⟩
  | some (type, ptLen) => encryptBodyFrame env s type ptLen buf inp inNull

/-- `aws_cryptosdk_priv_encrypt_compute_body_estimate`, source/session_encrypt.c:34-48. -/
def computeBodyEstimate (env : Env) (s : Session) : Session × Res :=
  if s.state ≠ .encryptBody then (s, .ok)
  else
    let r := tryEncryptBody env s ⟨[], 0⟩ [] false
    (r.s, match r.res with | .abort => .abort | .ub => .ub | .diverge => .diverge | _ => .ok)

/-- The write of the trailer, source/session_encrypt.c:431-447, given the signature. -/
def writeTrailerSig (s : Session) (buf : WBuf) (inp sig : Bytes) : Step :=
  match buf.write (be 2 sig.length) with
  | none => ⟨s, buf, inp, .err .cryptoUnknown⟩
  | some buf1 => match buf1.write sig with
    | none => ⟨s, buf1, inp, .err .cryptoUnknown⟩
    | some buf2 => enter s .done buf2 inp

/-- `aws_cryptosdk_priv_write_trailer`, source/session_encrypt.c:400-448. -/
def writeTrailer (env : Env) (s : Session) (buf : WBuf) (inp : Bytes) : Step :=
  let s := { s with inEst := 0, outEst := 0 }
  match s.algProps with
  | none => ⟨s, buf, inp, .ub⟩
  | some p =>
    if p.signatureLen = 0 then enter s .done buf inp
    else if buf.mem.length - buf.len < 2 + p.signatureLen then
      ⟨{ s with outEst := 2 + p.signatureLen }, buf, inp, .ok⟩
    else match s.signctx with
      | none => ⟨s, buf, inp, .ub⟩
      | some ctx =>
        let s := { s with signctx := none }
        match env.crypto.sign ctx with
        | .error e => ⟨s, buf, inp, .err e⟩
        | .ok sig => writeTrailerSig s buf inp sig

/-! ### Decryption -/

/-- `derive_data_key`, source/session_decrypt.c:67-100. -/
def deriveDataKey (env : Env) (s : Session) (p : AlgProps) (m : DecMaterials) : Session × Except Err Unit :=
  if m.dataKey.length ≠ p.dataKeyLen then (s, .error .cryptoUnknown)
  else if !allowedForDecrypt p.algId s.policy then (s, .error .policyViolation)
  else match deriveKey env.crypto.hkdf p m.dataKey s.header.messageId p.commitmentLen with
    | .raised _ => (s, .error (.raw (-1)))
    | .code e => (s, .error e)
    | .ok k c =>
      let s := { s with contentKey := k }
      if !commitmentEq c s.header.algSuiteData then (s, .error .badCiphertext) else (s, .ok ())

/-- `validate_header`, source/session_decrypt.c:102-123.  The `assert` at line 107 is an `abort` (debug builds). -/
def validateHeader (env : Env) (s : Session) (p : AlgProps) : Res :=
  let size := intToSize (hdrSize s.header)
  if size ≠ s.headerSize then .abort
  else if size = 0 then .err .badCiphertext
  else if u64sub size s.header.authLen ≠ authtagLen p then .err .badCiphertext
  else match s.headerCopy with
    | none => .ub
    | some c =>
      match verifyHeader env.crypto p s.contentKey ((c.drop s.header.authLen).take (authtagLen p))
          (c.take s.header.authLen) with
      | .error e => .err e
      | .ok () => .ok

/-- End of `aws_cryptosdk_priv_unwrap_keys`, source/session_decrypt.c:175-179. -/
def unwrapEnd (s : Session) : Session × Res :=
  let s := { s with seqno := 1, frameSize := s.header.frameLen }
  match changeState s .decryptBody with
  | some s => (s, .ok)
  | none => (s, .abort)

/-- `aws_cryptosdk_priv_unwrap_keys`, source/session_decrypt.c:158-179: after header validation. -/
def unwrapSig (env : Env) (s : Session) (p : AlgProps) (m : DecMaterials) : Session × Res :=
  if p.signatureLen ≠ 0 then
    match m.signctx with
    | none => (s, .err .badCiphertext)
    | some ctx => match env.crypto.sigUpdate ctx (s.headerCopy.getD []) with
      | .error e => ({ s with signctx := some ctx }, .err e)
      | .ok ctx => unwrapEnd { s with signctx := some ctx }
  else unwrapEnd s

/-- `aws_cryptosdk_priv_unwrap_keys`, source/session_decrypt.c:155-157. -/
def unwrapValidate (env : Env) (s : Session) (p : AlgProps) (m : DecMaterials) : Session × Res :=
  match deriveDataKey env s p m with
  | (s, .error e) => (s, .err e)
  | (s, .ok ()) => match validateHeader env s p with
    | .ok => unwrapSig env s p m
    | r => (s, r)

/-- `aws_cryptosdk_priv_unwrap_keys`, source/session_decrypt.c:139-154. -/
def unwrapWith (env : Env) (s : Session) (p : AlgProps) (m : DecMaterials) : Session × Res :=
  let s := { s with trace := s.trace ++ m.trace, cmmSuccess := true }
  match algProps m.alg with
  | none => (s, .err .badState)
  | some mp =>
    if s.mode = .decryptUnsigned ∧ mp.signatureLen ≠ 0 then (s, .err .signedNotAllowed)
    else unwrapValidate env s p m

/-- `aws_cryptosdk_priv_unwrap_keys`, source/session_decrypt.c:125-186, with `fill_request`, 33-65. -/
def unwrapKeys (env : Env) (s : Session) : Session × Res :=
  let s := { s with algProps := algProps s.header.algId }
  match algProps s.header.algId with
  | none => (s, .err .badCiphertext)
  | some p =>
    if !env.alloc .edkList then (s, .err .cryptoUnknown)
    else match env.cmm.decrypt { encCtx := s.header.encCtx, edks := s.header.edks, alg := p.algId } with
      | .error e => (s, .err e)
      | .ok m => unwrapWith env s p m

/-- `aws_cryptosdk_priv_try_parse_header`, source/session_decrypt.c:209-228: after a successful parse that left `rest`. -/
def parsedHeader (env : Env) (s : Session) (buf : WBuf) (inp rest : Bytes) : Step :=
  let s := { s with headerSize := intToSize (hdrSize s.header) }
  if s.headerSize = 0 then ⟨s, buf, rest, .err .badCiphertext⟩
  else if s.headerSize ≠ inp.length - rest.length then ⟨s, buf, rest, .err .cryptoUnknown⟩
  else if !env.alloc .headerCopy then ⟨s, buf, rest, .err .oom⟩
  else
    let s := { s with headerCopy := some (inp.take s.headerSize) }
    match changeState s .unwrapKey with
    | none => ⟨s, buf, rest, .abort⟩
    | some s => let r := unwrapKeys env s; ⟨r.1, buf, rest, r.2⟩

/-- `aws_cryptosdk_priv_try_parse_header`, source/session_decrypt.c:188-229. -/
def tryParseHeader (env : Env) (s : Session) (buf : WBuf) (inp : Bytes) : Step :=
  match hdrParseInto s.header s.maxEdks inp with
  | (h, .error e) =>
    let s := { s with header := h }
    if e = .shortBuffer then
      let est := if inp.length ≥ s.inEst then
          (if u64 (inp.length + 128) < inp.length then 2 ^ 64 - 1 else u64 (inp.length + 128)) else s.inEst
      ⟨{ s with inEst := est, outEst := 0 }, buf, inp, .ok⟩
    else ⟨s, buf, inp, .err e⟩
  | (h, .ok rest) => parsedHeader env { s with header := h } buf inp rest

/-- `aws_cryptosdk_priv_try_decrypt_body`, source/session_decrypt.c:272-304: decrypt a frame for which there is room. -/
def decryptFrame (env : Env) (s : Session) (f : Frame) (buf : WBuf) (inp rest : Bytes) : Step :=
  let buf' : WBuf := { buf with len := buf.len + s.outEst }
  match decryptBody env.crypto s.contentKey s.header.messageId f s.outEst with
  | .error e => ⟨s, buf', rest, .err e⟩
  | .ok pt =>
    let s := { s with seqno := u64 (s.seqno + 1) }
    let buf' : WBuf := ⟨patchAt buf.mem buf.len pt, buf.len + s.outEst⟩
    match sigFeed env.crypto s.signctx (inp.take (inp.length - rest.length)) with
    | .error e => ⟨s, buf', rest, .err e⟩
    | .ok ctx =>
      let s := { s with signctx := ctx }
      if f.type ≠ .frame then enter s .checkTrailer buf' rest else ⟨s, buf', rest, .ok⟩

/-- `aws_cryptosdk_priv_try_decrypt_body`, source/session_decrypt.c:231-305. -/
def tryDecryptBody (env : Env) (s : Session) (buf : WBuf) (inp : Bytes) : Step :=
  match s.algProps with
  | none => ⟨s, buf, inp, .ub⟩
  | some p =>
    let d := deserializeFrame p s.frameSize inp
    let s := { s with inEst := d.ciphertextSize, outEst := d.plaintextSize }
    match d.res with
    | .error e => if e = .shortBuffer then ⟨s, buf, inp, .ok⟩ else ⟨s, buf, inp, .err e⟩
    | .ok f =>
      if s.seqno ≠ f.seqno then ⟨s, buf, d.rest, .err .badCiphertext⟩
      else if buf.mem.length - buf.len < s.outEst then ⟨s, buf, inp, .ok⟩
      else decryptFrame env s f buf inp d.rest

/-- The reads of `aws_cryptosdk_priv_check_trailer`, source/session_decrypt.c:323-331: the signature and the rest, or the
value of `sig_len` when there is not enough input. -/
def readTrailer (inp : Bytes) : Except Nat (Bytes × Bytes) :=
  match rd 2 inp with
  | none => .error 0
  | some (l, r) => match rd (unbe l) r with
    | none => .error (unbe l)
    | some x => .ok x

/-- `aws_cryptosdk_priv_check_trailer`, source/session_decrypt.c:307-345. -/
def checkTrailer (env : Env) (s : Session) (buf : WBuf) (inp : Bytes) : Step :=
  let s := { s with outEst := 0, inEst := 0 }
  match s.signctx with
  | none => enter s .done buf inp
  | some ctx => match readTrailer inp with
    | .error n => ⟨{ s with inEst := 2 + n }, buf, inp, .ok⟩
    | .ok (sig, rest) =>
      if !env.alloc .sigString then ⟨s, buf, rest, .err .oom⟩
      else
        let s := { s with signctx := none }
        match env.crypto.verify ctx sig with
        | .error e => ⟨s, buf, rest, .err e⟩
        | .ok () => ⟨s, buf, rest, .ok⟩

/-! ### Processing -/

/-- One iteration of the switch in `aws_cryptosdk_session_process`, source/session.c:270-305. -/
def sessionStep (env : Env) (s : Session) (buf : WBuf) (inp : Bytes) (inNull : Bool) : Step :=
  match s.state with
  | .config =>
    if !s.hasCmm || !s.policy.isValid then ⟨s, buf, inp, .err .badState⟩
    else if s.mode = .encrypt then enter s .genKey buf inp
    else enter s .readHeader buf inp
  | .readHeader => tryParseHeader env s buf inp
  | .unwrapKey => let r := unwrapKeys env s; ⟨r.1, buf, inp, r.2⟩
  | .decryptBody => tryDecryptBody env s buf inp
  | .checkTrailer => checkTrailer env s buf inp
  | .genKey => let r := tryGenKey env s; ⟨r.1, buf, inp, r.2⟩
  | .writeHeader => tryWriteHeader s buf inp
  | .encryptBody => tryEncryptBody env s buf inp inNull
  | .writeTrailer => writeTrailer env s buf inp
  | .done => ⟨s, buf, inp, .ok⟩
  | .error => ⟨s, buf, inp, .err s.error⟩

/-- The loop of `aws_cryptosdk_session_process`, source/session.c:262-311: `out` is the caller's output buffer.  Every
iteration works on `remaining_space`, the unused part of it. -/
def processLoop (env : Env) (inNull : Bool) : (fuel : Nat) → Session → WBuf → Bytes → Step
  | 0, s, out, inp => ⟨s, out, inp, .diverge⟩
  | n + 1, s, out, inp =>
    let r := sessionStep env s ⟨out.mem.drop out.len, 0⟩ inp inNull
    let out' : WBuf := ⟨out.mem.take out.len ++ r.buf.mem, out.len + r.buf.len⟩
    match r.res with
    | .ok =>
      if r.buf.len ≠ 0 ∨ r.inp.length ≠ inp.length ∨ s.state ≠ r.s.state then processLoop env inNull n r.s out' r.inp
      else ⟨r.s, out', r.inp, .ok⟩
    | e => ⟨r.s, out', r.inp, e⟩

/-- Outputs of `aws_cryptosdk_session_process`: session, output buffer, `*out_bytes_written`, `*in_bytes_read` and
result. -/
structure ProcOut where
  s : Session
  mem : Bytes
  written : Nat
  read : Nat
  res : Res
deriving DecidableEq

/-- Fuel for `processLoop`; C27 shows that it suffices. -/
def processFuel (mem inp : Bytes) : Nat := mem.length + inp.length + 8

/-- `aws_cryptosdk_session_process`, source/session.c:244-329.  `mem` is the caller's output buffer, `inNull` says that the
input pointer is NULL (then `inp` is empty). -/
def process (env : Env) (s : Session) (mem inp : Bytes) (inNull : Bool) : ProcOut :=
  let r := processLoop env inNull (processFuel mem inp) s ⟨mem, 0⟩ inp
  let read := inp.length - r.inp.length
  match r.res with
  | .ok =>
    ⟨r.s, r.buf.mem, r.buf.len, read, if r.s.state = .error then .err r.s.error else .ok⟩
  | .err e =>
    let s := if r.s.state ≠ .error then { r.s with error := e, state := .error } else r.s
    ⟨s, List.replicate mem.length 0, 0, read, .err s.error⟩
  | f => ⟨r.s, r.buf.mem, r.buf.len, read, f⟩

/-! ### Other entry points -/

/-- `aws_cryptosdk_session_set_frame_size`, source/session.c:153-161; the argument is a `uint32_t`. -/
def setFrameSize (s : Session) (n : Nat) : Session × Res :=
  if s.mode ≠ .encrypt ∨ s.state ≠ .config then (s, .err .badState)
  else ({ s with frameSize := n % 2 ^ 32 }, .ok)

/-- `aws_cryptosdk_session_set_message_size`, source/session.c:163-185. -/
def setMessageSize (env : Env) (s : Session) (n : Nat) : Session × Res :=
  if s.mode ≠ .encrypt then (s, .err .badState)
  else if s.preciseKnown then failSession s .badState
  else if s.sizeBound < u64 n then failSession s .limitExceeded
  else computeBodyEstimate env { s with preciseSize := u64 n, preciseKnown := true }

/-- `aws_cryptosdk_session_set_message_bound`, source/session.c:187-201. -/
def setMessageBound (s : Session) (n : Nat) : Session × Res :=
  if s.mode ≠ .encrypt then (s, .err .badState)
  else if s.preciseKnown ∧ s.preciseSize > u64 n then failSession s .limitExceeded
  else if s.sizeBound > u64 n then ({ s with sizeBound := u64 n }, .ok)
  else (s, .ok)

/-- `aws_cryptosdk_session_set_commitment_policy`, source/session.c:203-225. -/
def setCommitmentPolicy (s : Session) (pol : Policy) : Session × Res :=
  let s := { s with policy := pol }
  if !pol.isValid then (s, .err .invalidArgument)
  else if s.state ≠ .config then failSession s .badState
  else (s, .ok)

/-- `aws_cryptosdk_session_set_max_encrypted_data_keys`, source/session.c:227-242. -/
def setMaxEdks (s : Session) (n : Nat) : Session × Res :=
  if s.state ≠ .config then failSession s .badState
  else if n = 0 then (s, .err .invalidArgument)
  else ({ s with maxEdks := n }, .ok)

/-- `aws_cryptosdk_session_process_full`, source/session.c:331-364.  `oldWritten` is the caller's `*out_bytes_written`
before the call (left alone by the early returns).  The `read` component is the local `in_bytes_read`. -/
def processFull (env : Env) (s : Session) (mem inp : Bytes) (inNull : Bool) (oldWritten : Nat) : ProcOut :=
  if s.state ≠ .config then ⟨s, mem, oldWritten, 0, .err .badState⟩
  else
    let r := if s.mode = .encrypt then setMessageSize env s inp.length else (s, .ok)
    match r.2 with
    | .ok =>
      let o := process env r.1 mem inp inNull
      match o.res with
      | .ok =>
        if o.s.state = .done ∧ o.read = inp.length then o
        else
          ⟨{ o.s with error := .badCiphertext, state := .error }, List.replicate mem.length 0, 0, o.read,
            .err .badCiphertext⟩
      | .err e => ⟨o.s, List.replicate mem.length 0, 0, o.read, .err e⟩
      | _ => o
    | .err e => ⟨r.1, mem, oldWritten, 0, .err e⟩
    | f => ⟨r.1, mem, oldWritten, 0, f⟩

/-- `aws_cryptosdk_session_is_done`, source/session.c:366-368. -/
def isDone (s : Session) : Bool := s.state = .done

/-- `aws_cryptosdk_session_get_alg_id`, source/session.c:370-378. -/
def getAlgId (s : Session) : Except Err Nat :=
  match s.algProps with
  | none => .error .badState
  | some p => .ok p.algId

/-- `aws_cryptosdk_session_estimate_buf`, source/session.c:380-386: output and input estimate. -/
def estimateBuf (s : Session) : Nat × Nat := (s.outEst, s.inEst)

/-- `aws_cryptosdk_session_get_enc_ctx_ptr`, source/session.c:549-561; `none` is NULL. -/
def getEncCtx (s : Session) : Option EncCtx :=
  if s.mode.isDecrypt ∧ !s.cmmSuccess then none else some s.header.encCtx

/-- `aws_cryptosdk_session_get_enc_ctx_ptr_mut`, source/session.c:563-568, and the caller's edit through the pointer. -/
def editEncCtx (s : Session) (f : EncCtx → EncCtx) : Session :=
  if s.mode = .encrypt ∧ s.state = .config then { s with header := { s.header with encCtx := f s.header.encCtx } } else s

/-- `aws_cryptosdk_session_get_keyring_trace_ptr`, source/session.c:570-574; `none` is NULL. -/
def getTrace (s : Session) : Option (List TraceRec) := if s.cmmSuccess then some s.trace else none

end Verif
