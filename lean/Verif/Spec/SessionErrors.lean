import Verif.Spec.SessionAccepts
/-
Why a message is turned down, and with which error.  Written from the message format and the order of the checks that an
implementation of it makes; the bytes `x` are everything the reader has been given so far.
-/
namespace Verif.Spec

/-- No continuation of `x` begins with a header. -/
def NoHeader (x : Bytes) : Prop := ∀ row h more rest, HeaderOK row h → x ++ more ≠ wireHeader row.version h ++ rest

/-- The beginning of a header, up to the encryption context. -/
def wireFront (version : Nat) (h : Hdr) : Bytes :=
  (if version = 1 then [1, 0x80] else [2]) ++ u16 h.algId ++ h.messageId ++ u16 (wireCtx h.encCtx).length ++ wireCtx h.encCtx

/-- `x` begins like a header that announces more encrypted data keys than the limit `mx` (0 is no limit). -/
def TooManyEdks (mx : Nat) (x : Bytes) : Prop :=
  ∃ row h n rest, HeaderOK row h ∧ x = wireFront row.version h ++ u16 n ++ rest ∧ n < 65536 ∧ mx ≠ 0 ∧ mx < n

/-- `x` does not begin with a header the reader takes. -/
inductive HeaderMalformed (mx : Nat) (x : Bytes) : Err → Prop
  | edks (h : TooManyEdks mx x) : HeaderMalformed mx x .limitExceeded
  | bytes (h1 : ¬ TooManyEdks mx x) (h2 : NoHeader x) : HeaderMalformed mx x .badCiphertext

/-- The CMM answered with materials the reader can use: the header is shorter than 2^31 bytes, the suite of the materials is known, and
a reader that may not release unsigned plaintext early only takes suites that do not sign. -/
structure MaterialsOK (e : Env) (mode : Mode) (row : SuiteRow) (h : Hdr) (m : DecMaterials) : Prop where
  small : (wireHeader row.version h).length < 2 ^ 31
  cmm : e.cmm.decrypt { encCtx := h.encCtx, edks := h.edks, alg := h.algId } = .ok m
  suite : ∃ r ∈ suiteTable, r.id = m.alg ∧ (mode = .decryptUnsigned → r.curveBits = 0)

/-- Why a well-formed header is turned down.  The reasons exclude each other: each one supposes that those before it do not hold. -/
inductive HeaderRejected (e : Env) (pol : Policy) (mode : Mode) (row : SuiteRow) (h : Hdr) : Err → Prop
  | tooLong (hl : 2 ^ 31 ≤ (wireHeader row.version h).length) :
      HeaderRejected e pol mode row h (if (wireHeader row.version h).length % 2 ^ 32 = 0 then .badCiphertext else .cryptoUnknown)
  | cmm {c : Err} (hs : (wireHeader row.version h).length < 2 ^ 31)
      (hc : e.cmm.decrypt { encCtx := h.encCtx, edks := h.edks, alg := h.algId } = .error c) : HeaderRejected e pol mode row h c
  | suite {m : DecMaterials} (hs : (wireHeader row.version h).length < 2 ^ 31)
      (hc : e.cmm.decrypt { encCtx := h.encCtx, edks := h.edks, alg := h.algId } = .ok m)
      (hu : ∀ r ∈ suiteTable, r.id ≠ m.alg) : HeaderRejected e pol mode row h .badState
  | signed {m : DecMaterials} {r : SuiteRow} (hs : (wireHeader row.version h).length < 2 ^ 31)
      (hc : e.cmm.decrypt { encCtx := h.encCtx, edks := h.edks, alg := h.algId } = .ok m)
      (hr : r ∈ suiteTable) (hid : r.id = m.alg) (hm : mode = .decryptUnsigned) (hsig : r.curveBits ≠ 0) :
      HeaderRejected e pol mode row h .signedNotAllowed
  | dataKey {m : DecMaterials} (hm : MaterialsOK e mode row h m) (hd : m.dataKey.length ≠ row.keyBits / 8) :
      HeaderRejected e pol mode row h .cryptoUnknown
  | policy {m : DecMaterials} (hm : MaterialsOK e mode row h m) (hd : m.dataKey.length = row.keyBits / 8) (hp : ¬ MayDecrypt pol row) :
      HeaderRejected e pol mode row h .policyViolation
  | kdf {m : DecMaterials} (hm : MaterialsOK e mode row h m) (hd : m.dataKey.length = row.keyBits / 8) (hp : MayDecrypt pol row)
      (hk : ¬ ∃ k c, DerivedKey e.crypto.hkdf row m.dataKey h.messageId k c) : HeaderRejected e pol mode row h (.raw (-1))
  | commitment {m : DecMaterials} {k c : Bytes} (hm : MaterialsOK e mode row h m) (hd : m.dataKey.length = row.keyBits / 8)
      (hp : MayDecrypt pol row) (hk : DerivedKey e.crypto.hkdf row m.dataKey h.messageId k c) (hne : c ≠ h.algSuiteData) :
      HeaderRejected e pol mode row h .badCiphertext
  | tag {m : DecMaterials} {k : Bytes} {c : Err} (hm : MaterialsOK e mode row h m) (hd : m.dataKey.length = row.keyBits / 8)
      (hp : MayDecrypt pol row) (hk : DerivedKey e.crypto.hkdf row m.dataKey h.messageId k h.algSuiteData)
      (ht : e.crypto.aeadOpen k (if row.version = 1 then h.iv else List.replicate 12 0) (wireAuthPart row.version h) [] h.authTag = .error c) :
      HeaderRejected e pol mode row h c
  | noKey {m : DecMaterials} {k : Bytes} (hm : MaterialsOK e mode row h m) (hd : m.dataKey.length = row.keyBits / 8)
      (hp : MayDecrypt pol row) (hv : HeaderVerified e row h m k) (hs : row.curveBits ≠ 0) (hn : m.signctx = none) :
      HeaderRejected e pol mode row h .badCiphertext

/-- A header that is taken. -/
structure HeaderAccepted (e : Env) (pol : Policy) (mode : Mode) (row : SuiteRow) (h : Hdr) (m : DecMaterials) (k : Bytes) : Prop where
  materials : MaterialsOK e mode row h m
  dataKey : m.dataKey.length = row.keyBits / 8
  policy : MayDecrypt pol row
  verified : HeaderVerified e row h m k
  verifier : row.curveBits ≠ 0 → ∃ ctx, m.signctx = some ctx

/-- No continuation of `x` begins with a frame of a message with frame length `fs`. -/
def NoFrame (fs : Nat) (x : Bytes) : Prop := ∀ f more rest, FrameOK fs f → x ++ more ≠ wireFrame f ++ rest

/-- Why the bytes `x` are turned down as frame number `i`. -/
inductive FrameRejected (e : Env) (k mid : Bytes) (fs i : Nat) (x : Bytes) : Err → Prop
  | bytes (h : NoFrame fs x) : FrameRejected e k mid fs i x .badCiphertext
  | number {f : Frame} {rest : Bytes} (hok : FrameOK fs f) (hx : x = wireFrame f ++ rest) (hn : f.seqno ≠ i) :
      FrameRejected e k mid fs i x .badCiphertext
  | tag {f : Frame} {rest : Bytes} {c : Err} (hok : FrameOK fs f) (hx : x = wireFrame f ++ rest) (hn : f.seqno = i)
      (ht : e.crypto.aeadOpen k f.iv (bodyAad mid f.type i f.ciphertext.length) f.ciphertext f.authtag = .error c) :
      FrameRejected e k mid fs i x c

/-- `x` is turned down with error `c` by a reader whose CMM and crypto are those of `e` and whose settings are `pol`, `mx` and `mode`. -/
inductive Rejected (e : Env) (pol : Policy) (mx : Nat) (mode : Mode) (x : Bytes) : Err → Prop
  /-- It does not begin with a header. -/
  | malformed {c : Err} (h : HeaderMalformed mx x c) : Rejected e pol mx mode x c
  /-- Its header is turned down. -/
  | header {row : SuiteRow} {h : Hdr} {rest : Bytes} {c : Err} (hok : HeaderOK row h) (hl : mx = 0 ∨ h.edks.length ≤ mx)
      (hx : x = wireHeader row.version h ++ rest) (hr : HeaderRejected e pol mode row h c) : Rejected e pol mx mode x c
  /-- A frame is turned down. -/
  | frame {row : SuiteRow} {h : Hdr} {m : DecMaterials} {k : Bytes} {fr : List (Frame × Bytes)} {rest : Bytes} {c : Err}
      (hl : mx = 0 ∨ h.edks.length ≤ mx) (ha : HeaderAccepted e pol mode row h m k)
      (hf : AllFrames (OpenedFrame (· = e) k h.messageId h.frameLen) fr) (ho : Ongoing fr)
      (hx : x = wireHeader row.version h ++ bodyBytes fr ++ rest)
      (hr : FrameRejected e k h.messageId h.frameLen (fr.length + 1) rest c) : Rejected e pol mx mode x c
  /-- The signature does not verify. -/
  | signature {row : SuiteRow} {h : Hdr} {m : DecMaterials} {k : Bytes} {fr : List (Frame × Bytes)} {ctx : SigCtx} {sig rest : Bytes} {c : Err}
      (hl : mx = 0 ∨ h.edks.length ≤ mx) (ha : HeaderAccepted e pol mode row h m k)
      (hf : AllFrames (OpenedFrame (· = e) k h.messageId h.frameLen) fr) (hc : Complete fr) (hs : row.curveBits ≠ 0)
      (hm : m.signctx = some ctx) (hsl : sig.length < 65536)
      (hx : x = wireHeader row.version h ++ bodyBytes fr ++ wireTrailer sig ++ rest)
      (hv : e.crypto.verify { ctx with data := ctx.data ++ (wireHeader row.version h ++ bodyBytes fr) } sig = .error c) :
      Rejected e pol mx mode x c

/-- The number of bytes within which it is seen whether the input begins with a frame. -/
def frameBound (fs : Nat) : Nat := if fs = 0 then 2 ^ 36 + 36 else fs + 40

/-- There are enough bytes to tell.  What is missing matters only while the bytes so far can no longer become a header, or the next
frame, but could still be taken for the beginning of one. -/
structure Decided (e : Env) (pol : Policy) (mode : Mode) (x : Bytes) : Prop where
  header : NoHeader x → 2 ^ 34 ≤ x.length
  frame : ∀ row h m k fr rest, HeaderAccepted e pol mode row h m k → AllFrames (OpenedFrame (· = e) k h.messageId h.frameLen) fr → Ongoing fr →
    x = wireHeader row.version h ++ bodyBytes fr ++ rest → NoFrame h.frameLen rest → frameBound h.frameLen ≤ rest.length

/-- The session has been set up to decrypt, and has not failed. -/
structure SetUp (s : Session) : Prop where
  mode : s.mode.isDecrypt = true
  live : s.state ≠ .error
  policy : s.policy.isValid = true
  cmm : s.state = .config → s.hasCmm = true

/-- Something outside the message fails, with error `c`. -/
inductive OutsideFails (e : Env) : Err → Prop
  | headerCopy (h : e.alloc .headerCopy = false) : OutsideFails e .oom
  | edkList (h : e.alloc .edkList = false) : OutsideFails e .cryptoUnknown
  | sigString (h : e.alloc .sigString = false) : OutsideFails e .oom
  | digest {ctx : SigCtx} {x : Bytes} {c : Err} (h : e.crypto.sigFail ctx x = some c) : OutsideFails e c

end Verif.Spec
