import Verif.Model.Header
import Verif.Spec.EncCtx
import Verif.Spec.Alg
/-
Independent specification of the message-header wire format (AWS Encryption SDK message format reference).
Only the *data types* `Hdr` and `Edk` are taken from the model; no function of the model is used.
-/
namespace Verif.Spec

/-- A 32-bit big-endian integer. -/
def u32 (n : Nat) : List UInt8 :=
  [UInt8.ofNat (n / 16777216), UInt8.ofNat (n / 65536 % 256), UInt8.ofNat (n / 256 % 256), UInt8.ofNat (n % 256)]

/-- A 64-bit big-endian integer. -/
def u64be (n : Nat) : List UInt8 := u32 (n / 4294967296) ++ u32 (n % 4294967296)

/-- One encrypted data key: three fields, each preceded by its 16-bit length. -/
def wireEdk (e : Edk) : List UInt8 :=
  u16 e.providerId.length ++ e.providerId ++ u16 e.providerInfo.length ++ e.providerInfo ++
  u16 e.ciphertext.length ++ e.ciphertext

/-- Content type byte: 2 framed, 1 non-framed. -/
def wireContentType (frameLen : Nat) : List UInt8 := if frameLen = 0 then [1] else [2]

/-- The authenticated part of a header of format version 1 or 2. -/
def wireAuthPart (version : Nat) (h : Hdr) : List UInt8 :=
  (if version = 1 then [1, 0x80] else [2]) ++ u16 h.algId ++ h.messageId ++
  u16 (wireCtx h.encCtx).length ++ wireCtx h.encCtx ++
  u16 h.edks.length ++ (h.edks.map wireEdk).flatten ++
  wireContentType h.frameLen ++
  (if version = 1 then [0, 0, 0, 0] ++ [12] else []) ++
  u32 h.frameLen ++
  h.algSuiteData

/-- A complete header: the authenticated part, then (version 1 only) the IV, then the tag. -/
def wireHeader (version : Nat) (h : Hdr) : List UInt8 :=
  wireAuthPart version h ++ (if version = 1 then h.iv else []) ++ h.authTag

/-- What a well-formed header is: the suite is in the published table and every field has the length the
suite and the format version prescribe, or fits its length field. -/
structure HeaderOK (r : SuiteRow) (h : Hdr) : Prop where
  suite : r ∈ suiteTable
  id : h.algId = r.id
  messageId : h.messageId.length = if r.version = 1 then 16 else 32
  suiteData : h.algSuiteData.length = r.commitment
  iv : h.iv.length = if r.version = 1 then 12 else 0
  tag : h.authTag.length = 16
  frameLen : h.frameLen < 2 ^ 32
  edksNonempty : h.edks ≠ []
  edksCount : h.edks.length < 65536
  edksFit : ∀ e ∈ h.edks, e.providerId.length < 65536 ∧ e.providerInfo.length < 65536 ∧ e.ciphertext.length < 65536
  ctxKeys : DistinctKeys h.encCtx
  ctxFits : wireLen h.encCtx ≤ 65535

/-- Two headers carry the same information: all fields equal, except that the encryption context is compared
as a map (the order of a hash table is not observable). -/
structure SameHeader (h1 h2 : Hdr) : Prop where
  algId : h1.algId = h2.algId
  frameLen : h1.frameLen = h2.frameLen
  iv : h1.iv = h2.iv
  authTag : h1.authTag = h2.authTag
  messageId : h1.messageId = h2.messageId
  algSuiteData : h1.algSuiteData = h2.algSuiteData
  edks : h1.edks = h2.edks
  encCtx : SameMap h1.encCtx h2.encCtx

end Verif.Spec
