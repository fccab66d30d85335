import Verif.Spec.KeyringErrors
import Verif.Spec.SessionWrites
/-
Why encryption fails, and with which error: the checks made while the header is written, in order; and what can go wrong afterwards.
-/
namespace Verif.Spec

/-- The request that an encrypting session makes of its CMM. -/
def keyRequest (s : Session) : EncRequest :=
  ⟨s.header.encCtx, 0, if s.preciseKnown then s.preciseSize else s.sizeBound, s.policy⟩

/-- The header that is to be written, up to its tag, and the content key: suite, frame length and encrypted data keys, a random message
id, the context in the order of its keys, and the commitment and the key that follow from the data key. -/
structure Draft (e : Env) (frameLen : Nat) (row : SuiteRow) (ctx : EncCtx) (m : EncMaterials) (h : Hdr) (k : Bytes) : Prop where
  alg : h.algId = row.id
  length : h.frameLen = frameLen
  edks : h.edks = m.edks
  messageId : e.crypto.random (if row.version = 1 then 16 else 32) = some h.messageId
  perm : h.encCtx.Perm ctx
  sorted : h.encCtx.Pairwise (fun a b => a.1 ≤ b.1)
  key : DerivedKey e.crypto.hkdf row m.dataKey h.messageId k h.algSuiteData
  iv : row.version = 1 → h.iv = List.replicate 12 0

/-- Key derivation with these inputs (salt, info) and this output length fails with `c`. -/
def KdfFails (e : Env) (row : SuiteRow) (dk : Bytes) (inputs : Bytes × Bytes) (n : Nat) (c : Err) : Prop :=
  ∃ sha, 8 * hashLen sha = row.kdfBits ∧ e.crypto.hkdf sha inputs.1 dk inputs.2 n = .error c

/-- The checks made of the CMM's answer, and what is needed to write a header with it. -/
def headerChecks (e : Env) (s : Session) (row : SuiteRow) (ctx : EncCtx) (m : EncMaterials) : List Check :=
  [failsIf (m.dataKey.length ≠ row.keyBits / 8) .cryptoUnknown,
   failsIf (m.edks = []) .cryptoUnknown,
   failsIf (s.maxEdks ≠ 0 ∧ s.maxEdks < m.edks.length) .limitExceeded,
   failsIf (¬ (m.signctx.isSome = true ↔ row.curveBits ≠ 0)) .cryptoUnknown,
   failsIf (¬ MayEncrypt s.policy row) .policyViolation,
   failsIf (e.alloc .messageId = false ∨ e.crypto.random (if row.version = 1 then 16 else 32) = none) .cryptoUnknown,
   fun c => ∃ mid, e.crypto.random (if row.version = 1 then 16 else 32) = some mid ∧ row.commitment ≠ 0 ∧
     KdfFails e row m.dataKey (commitKdfInput mid) row.commitment c,
   fun c => ∃ mid, e.crypto.random (if row.version = 1 then 16 else 32) = some mid ∧ row.kdfBits ≠ 0 ∧
     KdfFails e row m.dataKey (contentKdfInput row.version row.id mid) (row.keyBits / 8) c,
   failsIf (e.alloc .iv = false ∨ e.alloc .tag = false) .oom,
   failsIf (65535 < wireLen ctx) .limitExceeded,
   failsIf (e.alloc .headerCopy = false) .oom,
   failsIf (∃ h k, Draft e s.frameSize row ctx m h k ∧ e.crypto.aeadSeal k (List.replicate 12 0) (wireAuthPart row.version h) [] = none) .cryptoUnknown,
   fun c => ∃ h k ct sctx, Draft e s.frameSize row ctx m h k ∧
     e.crypto.aeadSeal k (List.replicate 12 0) (wireAuthPart row.version h) [] = some (ct, h.authTag) ∧
     m.signctx = some sctx ∧ e.crypto.sigFail sctx (wireHeader row.version h) = some c]

/-- No header can be written: the CMM fails, answers with an unknown suite, or a check fails. -/
inductive HeaderFails (e : Env) (s : Session) : Err → Prop
  | cmm {ctx : EncCtx} {c : Err} (h : e.cmm.generate (keyRequest s) = (ctx, .error c)) : HeaderFails e s c
  | suite {ctx : EncCtx} {m : EncMaterials} (h : e.cmm.generate (keyRequest s) = (ctx, .ok m)) (hu : ∀ row ∈ suiteTable, row.id ≠ m.alg) :
      HeaderFails e s .cryptoUnknown
  | check {row : SuiteRow} {ctx : EncCtx} {m : EncMaterials} {c : Err} (h : e.cmm.generate (keyRequest s) = (ctx, .ok m))
      (hr : row ∈ suiteTable) (ha : row.id = m.alg) (hc : FirstFails (headerChecks e s row ctx m) c) : HeaderFails e s c

/-- The CMM answers and all checks succeed. -/
def HeaderWorks (e : Env) (s : Session) : Prop :=
  ∃ row ctx m, e.cmm.generate (keyRequest s) = (ctx, .ok m) ∧ row ∈ suiteTable ∧ row.id = m.alg ∧ NoneFails (headerChecks e s row ctx m)

/-- The answer to the session's request makes a header of less than 2^31 bytes, and its context is a map. -/
def HeaderSmall (e : Env) (s : Session) : Prop :=
  ∀ row ctx m, e.cmm.generate (keyRequest s) = (ctx, .ok m) → row ∈ suiteTable → row.id = m.alg →
    headerLen row ctx m.edks < 2 ^ 31 ∧ DistinctKeys ctx

/-- The kind and the plaintext length of the frame that comes after `done` bytes of plaintext. -/
inductive NextPiece (s : Session) (done : Nat) : FrameType → Nat → Prop
  | single (h0 : s.frameSize = 0) (hk : s.preciseKnown = true) : NextPiece s done .single s.preciseSize
  | final (h0 : s.frameSize ≠ 0) (hk : s.preciseKnown = true) (h1 : done ≤ s.preciseSize) (h2 : s.preciseSize - done < s.frameSize) :
      NextPiece s done .final (s.preciseSize - done)
  | frame (h0 : s.frameSize ≠ 0) (hk : s.preciseKnown = true → ¬ (done ≤ s.preciseSize ∧ s.preciseSize - done < s.frameSize)) :
      NextPiece s done .frame s.frameSize

/-- Why the next frame, after the frames `fr` of a message, is not written although `rest` is at hand. -/
inductive FrameFails (e : Env) (s : Session) (row : SuiteRow) (h : Hdr) (m : EncMaterials) (k : Bytes) (fr : List (Frame × Bytes))
    (rest : Bytes) : Err → Prop
  /-- There are no numbers left for a frame that is not the last one. -/
  | number {n : Nat} (hn : NextPiece s (bodyText fr).length .frame n) (hl : fr.length + 1 = 2 ^ 32 - 1) : FrameFails e s row h m k fr rest .cryptoUnknown
  /-- The plaintext is too long for one block. -/
  | size {n : Nat} (hn : NextPiece s (bodyText fr).length .single n) (hl : 2 ^ 36 - 32 ≤ n) : FrameFails e s row h m k fr rest .cryptoUnknown
  | aead {t : FrameType} {pt rest' : Bytes} (hn : NextPiece s (bodyText fr).length t pt.length) (hr : rest = pt ++ rest')
      (hs : e.crypto.aeadSeal k (bodyIv (fr.length + 1)) (bodyAad h.messageId t (fr.length + 1) pt.length) pt = none) :
      FrameFails e s row h m k fr rest .cryptoUnknown
  | digest {f : Frame} {pt rest' : Bytes} {ctx : SigCtx} {c : Err} (hn : NextPiece s (bodyText fr).length f.type pt.length) (hr : rest = pt ++ rest')
      (hs : SealedFrame (· = e) k h.messageId h.frameLen (fr.length + 1) f pt) (hm : m.signctx = some ctx)
      (hd : e.crypto.sigFail { ctx with data := ctx.data ++ (wireHeader row.version h ++ bodyBytes fr) } (wireFrame f) = some c) :
      FrameFails e s row h m k fr rest .cryptoUnknown

/-- Why the signature of a message is not written. -/
inductive SignatureFails (e : Env) (row : SuiteRow) (m : EncMaterials) (signed : Bytes) : Err → Prop
  | sign {ctx : SigCtx} {c : Err} (hs : row.curveBits ≠ 0) (hm : m.signctx = some ctx)
      (h : e.crypto.sign { ctx with data := ctx.data ++ signed } = .error c) : SignatureFails e row m signed c
  /-- It is longer than announced. -/
  | long {ctx : SigCtx} {sig : Bytes} (hs : row.curveBits ≠ 0) (hm : m.signctx = some ctx)
      (h : e.crypto.sign { ctx with data := ctx.data ++ signed } = .ok sig) (hl : sigBytes row < sig.length) : SignatureFails e row m signed .cryptoUnknown

/-- Why an encrypting session that has read and written this much (`v`) fails when `inp` is at hand. -/
inductive EncryptFails (e : Env) (v : View) (inp : Bytes) : Err → Prop
  | header {c : Err} (hst : v.s.state = .config) (h : HeaderFails e v.s c) : EncryptFails e v inp c
  | frame {row : SuiteRow} {h : Hdr} {m : EncMaterials} {k : Bytes} {fr : List (Frame × Bytes)} {rest : Bytes} {c : Err}
      (hh : HeaderMade e row h m k) (hf : AllFrames (SealedFrame (· = e) k h.messageId h.frameLen) fr) (ho : Ongoing fr)
      (hx : v.consumed ++ inp = bodyText fr ++ rest) (hl : v.released <+: wireHeader row.version h ++ bodyBytes fr)
      (hr : FrameFails e v.s row h m k fr rest c) : EncryptFails e v inp c
  | signature {row : SuiteRow} {h : Hdr} {m : EncMaterials} {k : Bytes} {fr : List (Frame × Bytes)} {rest : Bytes} {c : Err}
      (hh : HeaderMade e row h m k) (hf : AllFrames (SealedFrame (· = e) k h.messageId h.frameLen) fr) (hc : Complete fr)
      (hx : v.consumed ++ inp = bodyText fr ++ rest) (hl : v.released <+: wireHeader row.version h ++ bodyBytes fr)
      (hr : SignatureFails e row m (wireHeader row.version h ++ bodyBytes fr) c) : EncryptFails e v inp c

/-- The session has been set up to encrypt, and has not failed. -/
structure SetUpEnc (s : Session) : Prop where
  mode : s.mode = .encrypt
  live : s.state ≠ .error
  policy : s.policy.isValid = true

/-- The checks of the calls that configure a session. -/
def setterChecks (s : Session) : Op → List Check
  | .setFrameSize _ => [failsIf (s.mode ≠ .encrypt ∨ s.state ≠ .config) .badState]
  | .setMessageSize n => [failsIf (s.mode ≠ .encrypt ∨ s.preciseKnown = true) .badState, failsIf (s.sizeBound < n) .limitExceeded]
  | .setMessageBound n => [failsIf (s.mode ≠ .encrypt) .badState, failsIf (s.preciseKnown = true ∧ n < s.preciseSize) .limitExceeded]
  | .setPolicy pol => [failsIf (pol.isValid = false) .invalidArgument, failsIf (s.state ≠ .config) .badState]
  | .setMaxEdks n => [failsIf (s.state ≠ .config) .badState, failsIf (n = 0) .invalidArgument]
  | _ => []

/-- A call that configures a session, with sizes that the C types allow. -/
def ConfigCall : Op → Prop
  | .setFrameSize _ | .setPolicy _ | .setMaxEdks _ => True
  | .setMessageSize n | .setMessageBound n => n < 2 ^ 64
  | _ => False

/-- The failure of this call puts the session into the error state. -/
def FailureBreaks (s : Session) : Op → Prop
  | .setMessageSize _ | .setMessageBound _ => s.mode = .encrypt
  | .setPolicy pol => pol.isValid = true
  | .setMaxEdks _ => s.state ≠ .config
  | _ => False

end Verif.Spec
