import Verif.Model.EncCtx
import Verif.Model.Alg
/-
Message header: source/header.c, include/aws/cryptosdk/private/header.h.
Allocation failures are not modelled.
-/
namespace Verif

/-- `struct aws_cryptosdk_edk` (include/aws/cryptosdk/edk.h:39-43). -/
structure Edk where
  providerId : Bytes
  providerInfo : Bytes
  ciphertext : Bytes
deriving DecidableEq, Repr, Inhabited

/-- `struct aws_cryptosdk_hdr`, include/aws/cryptosdk/private/header.h:24-42 (without the allocator). -/
structure Hdr where
  algId : Nat := 0
  frameLen : Nat := 0
  iv : Bytes := []
  authTag : Bytes := []
  messageId : Bytes := []
  algSuiteData : Bytes := []
  encCtx : EncCtx := []
  edks : List Edk := []
  authLen : Nat := 0
deriving DecidableEq, Repr, Inhabited

/-- `aws_cryptosdk_hdr_clear`, source/header.c:128-142 (and the state after `hdr_init`, 111-126). -/
def Hdr.clear (_ : Hdr) : Hdr := {}

/-! ### Parsing -/

/-- Run a parser and also return the number of bytes it consumed (`cur.ptr - pcursor->ptr`). -/
def P.counted (p : P α) : P (α × Nat) := fun bs =>
  match p bs with
  | .error e => .error e
  | .ok (a, r) => .ok ((a, bs.length - r.length), r)

/-- `aws_cryptosdk_priv_hdr_parse_header_version`, source/header.c:230-239. -/
def parseHeaderVersion : P Nat := do
  let v ← rdBE 1
  if headerVersionIsKnown v then pure v else P.fail .badCiphertext

/-- `aws_cryptosdk_priv_hdr_parse_message_type`, source/header.c:241-249. -/
def parseMessageType : P Unit := do
  let t ← rdBE 1
  if t ≠ 0x80 then P.fail .badCiphertext else pure ()

/-- `aws_cryptosdk_priv_hdr_parse_alg_id`, source/header.c:251-268.  The `none` branch is a null-pointer
dereference in C; `algorithmIsKnown` rules it out (`algProps_of_known`). -/
def parseAlgId (ver : Nat) : P (Nat × AlgProps) := do
  let a ← rdBE 2
  if !algorithmIsKnown a then P.fail .badCiphertext
  else match algProps a with
    | none => P.fail .unknown
    | some p => if p.msgFormatVersion ≠ ver then P.fail .badCiphertext else pure (a, p)

/-- `aws_cryptosdk_priv_hdr_parse_message_id`, source/header.c:270-280. -/
def parseMessageId (p : AlgProps) : P Bytes := rdN (messageIdLen p)

/-- `aws_cryptosdk_priv_hdr_parse_aad`, source/header.c:282-299. -/
def parseAad : P EncCtx := do
  let len ← rdBE 2
  if len = 0 then pure []
  else do
    let aad ← rdN len
    match encCtxParse aad with
    | .error _ => P.fail .badCiphertext
    | .ok (m, r) => if r.length ≠ 0 then P.fail .badCiphertext else pure m

/-- `parse_edk`, source/header.c:160-187. -/
def parseEdk : P Edk := do
  let l1 ← rdBE 2
  let a ← rdN l1
  let l2 ← rdBE 2
  let b ← rdN l2
  let l3 ← rdBE 2
  let c ← rdN l3
  pure ⟨a, b, c⟩

/-- The loop of source/header.c:313-317 for `n` EDKs. -/
def parseEdkN : Nat → P (List Edk)
  | 0 => pure []
  | n + 1 => do
    let e ← parseEdk
    let es ← parseEdkN n
    pure (e :: es)

/-- `aws_cryptosdk_priv_hdr_parse_edks`, source/header.c:301-320. -/
def parseEdks (maxEdks : Nat) : P (List Edk) := do
  let n ← rdBE 2
  if n = 0 then P.fail .badCiphertext
  else if maxEdks ≠ 0 ∧ n > maxEdks then P.fail .limitExceeded
  else parseEdkN n

/-- `aws_cryptosdk_priv_hdr_parse_content_type`, source/header.c:322-330 with `is_known_type`, 95-101. -/
def parseContentType : P Nat := do
  let t ← rdBE 1
  if t = 1 ∨ t = 2 then pure t else P.fail .badCiphertext

/-- `aws_cryptosdk_priv_hdr_parse_reserved`, source/header.c:332-339. -/
def parseReserved : P Unit := do
  let v ← rdBE 4
  if v ≠ 0 then P.fail .badCiphertext else pure ()

/-- `aws_cryptosdk_priv_hdr_parse_iv_len`, source/header.c:341-349. -/
def parseIvLen (algId : Nat) : P Nat := do
  let n ← rdBE 1
  if (n : Int) ≠ algorithmIvLen algId then P.fail .badCiphertext else pure n

/-- `aws_cryptosdk_priv_hdr_parse_frame_len`, source/header.c:351-362. -/
def parseFrameLen (ctype : Nat) : P Nat := do
  let n ← rdBE 4
  if (ctype = 1 ∧ n ≠ 0) ∨ (ctype = 2 ∧ n = 0) then P.fail .badCiphertext else pure n

/-- `aws_cryptosdk_priv_hdr_parse_alg_suite_data`, source/header.c:364-375. -/
def parseAlgSuiteData (p : AlgProps) : P Bytes :=
  if p.algSuiteDataLen = 0 then pure [] else rdN p.algSuiteDataLen

/-- `aws_cryptosdk_priv_hdr_parse_iv`, source/header.c:377-383. -/
def parseIv (ivLen : Nat) : P Bytes := rdN ivLen

/-- `aws_cryptosdk_priv_hdr_parse_auth_tag`, source/header.c:385-394. -/
def parseAuthTag (algId : Nat) : P Bytes := rdN (algorithmTagLen algId).toNat

/-- Version 1 only: the message type byte (source/header.c:204-206). -/
def parseMessageTypeV1 (ver : Nat) : P Unit := if ver = 1 then parseMessageType else pure ()

/-- Version 1 only: the reserved field and the IV length (source/header.c:212-215); 0 when not read. -/
def parseReservedIvLenV1 (ver algId : Nat) : P Nat :=
  if ver = 1 then parseReserved >>= fun _ => parseIvLen algId else pure 0

/-- Version 2 only: the algorithm suite data (source/header.c:217-219). -/
def parseAlgSuiteDataV2 (ver : Nat) (p : AlgProps) : P Bytes := if ver = 2 then parseAlgSuiteData p else pure []

/-- Version 1 only: the IV (source/header.c:223-225). -/
def parseIvV1 (ver ivLen : Nat) : P Bytes := if ver = 1 then parseIv ivLen else pure []

/-- The authenticated part of `aws_cryptosdk_hdr_parse`, source/header.c:199-218: returns the header version,
the IV length byte (0 for version 2, where it is not read) and the fields parsed so far. -/
def hdrParseAuthPart (maxEdks : Nat) : P (Nat × Nat × Hdr) := do
  let ver ← parseHeaderVersion
  parseMessageTypeV1 ver
  let (algId, props) ← parseAlgId ver
  let messageId ← parseMessageId props
  let encCtx ← parseAad
  let edks ← parseEdks maxEdks
  let ctype ← parseContentType
  let ivLen ← parseReservedIvLenV1 ver algId
  let frameLen ← parseFrameLen ctype
  let suite ← parseAlgSuiteDataV2 ver props
  pure (ver, ivLen, { algId := algId, frameLen := frameLen, messageId := messageId, algSuiteData := suite,
                      encCtx := encCtx, edks := edks })

/-- `aws_cryptosdk_hdr_parse`, source/header.c:189-228, as a parser. -/
def hdrParse (maxEdks : Nat) : P Hdr := do
  let ((ver, ivLen, h), authLen) ← P.counted (hdrParseAuthPart maxEdks)
  let iv ← parseIvV1 ver ivLen
  let tag ← parseAuthTag h.algId
  pure { h with iv := iv, authTag := tag, authLen := authLen }

/-- `aws_cryptosdk_hdr_parse` with its effect on the header object: cleared first (line 194), filled on success,
cleared on failure (396-414). -/
def hdrParseInto (old : Hdr) (maxEdks : Nat) (bs : Bytes) : Hdr × Except Err Bytes :=
  match hdrParse maxEdks bs with
  | .ok (h, r) => (h, .ok r)
  | .error e => (old.clear, .error e)

/-! ### Size and writing -/

/-- `saturating_add`, source/header.c:428-434. -/
def satAdd (a b : Nat) : Nat := if u64 (a + b) < a then 2 ^ 64 - 1 else u64 (a + b)

/-- One iteration of the loop source/header.c:456-469. -/
def hdrSizeEdk (bytes : Nat) (e : Edk) : Nat :=
  satAdd (satAdd (satAdd (satAdd bytes 6) e.providerId.length) e.providerInfo.length) e.ciphertext.length

/-- Conversion of a `size_t` to `int` (two's complement wrap, as on every supported compiler). -/
def toInt32 (n : Nat) : Int := if n % 2 ^ 32 < 2 ^ 31 then (n % 2 ^ 32 : Nat) else (n % 2 ^ 32 : Nat) - 2 ^ 32

/-- Conversion of an `int` to `size_t`. -/
def intToSize (i : Int) : Nat := (i % 2 ^ 64).toNat

/-- `aws_cryptosdk_hdr_size`, source/header.c:436-472.  The `memcmp` with an all-zero struct (line 438) is
covered by the unknown algorithm 0. -/
def hdrSize (h : Hdr) : Int :=
  match algProps h.algId with
  | none => 0
  | some p =>
    if staticFieldsLen p.msgFormatVersion = -1 then 0
    else
      let bytes := u64 ((staticFieldsLen p.msgFormatVersion).toNat + (h.messageId.length + h.algSuiteData.length)
        + authtagLen p)
      match encCtxSize h.encCtx with
      | .error _ => 0
      | .ok aad =>
        let total := h.edks.foldl hdrSizeEdk (u64 (bytes + aad))
        if total = 2 ^ 64 - 1 then 0 else toInt32 total

/-- The body of the EDK loop of `aws_cryptosdk_hdr_write`, source/header.c:521-539.  Lengths are cast to
`uint16_t`. -/
def hdrWriteEdk (b : OBuf) (e : Edk) : Option OBuf := do
  let b ← b.write (be 2 e.providerId.length)
  let b ← b.write e.providerId
  let b ← b.write (be 2 e.providerInfo.length)
  let b ← b.write e.providerInfo
  let b ← b.write (be 2 e.ciphertext.length)
  b.write e.ciphertext

/-- The EDK loop, source/header.c:513-540. -/
def hdrWriteEdks (b : OBuf) : List Edk → Option OBuf
  | [] => some b
  | e :: es => do
    let b ← hdrWriteEdk b e
    hdrWriteEdks b es

/-- Store the 2-byte AAD length into the space reserved at `pos` (source/header.c:500-508). -/
def OBuf.patch (b : OBuf) (pos : Nat) (x : Bytes) : OBuf :=
  { b with data := b.data.take pos ++ x ++ b.data.drop (pos + x.length) }

/-- Version 1 only: the message type byte (source/header.c:492-494). -/
def hdrWriteTypeV1 (ver : Nat) (b : OBuf) : Option OBuf := if ver = 1 then b.write (be 1 0x80) else some b

/-- Serialise the context in place (source/header.c:503-505); its failure is the jump to WRITE_ERR. -/
def hdrWriteCtx (m : EncCtx) (b : OBuf) : Option OBuf :=
  match encCtxSerialize b m with
  | (b, .ok ()) => some b
  | (_, .error _) => none

/-- Version 1 only: the reserved field and the IV length (source/header.c:544-547). -/
def hdrWriteReservedV1 (ver ivLen : Nat) (b : OBuf) : Option OBuf :=
  if ver = 1 then (b.write [0, 0, 0, 0]).bind (fun b => b.write (be 1 ivLen)) else some b

/-- Version 1 only: the IV (source/header.c:555-557). -/
def hdrWriteIvV1 (ver : Nat) (iv : Bytes) (b : OBuf) : Option OBuf := if ver = 1 then b.write iv else some b

/-- The writing steps of `aws_cryptosdk_hdr_write`, source/header.c:491-559; `none` is the jump to WRITE_ERR. -/
def hdrWriteBuf (h : Hdr) (ver : Nat) (b : OBuf) : Option OBuf := do
  let b ← b.write (be 1 ver)
  let b ← hdrWriteTypeV1 ver b
  let b ← b.write (be 2 h.algId)
  let b ← b.write h.messageId
  let pos := b.data.length
  let b ← b.write [0, 0]
  let oldLen := b.data.length
  let b ← hdrWriteCtx h.encCtx b
  let b := b.patch pos (be 2 (b.data.length - oldLen))
  let b ← b.write (be 2 h.edks.length)
  let b ← hdrWriteEdks b h.edks
  let b ← b.write (be 1 (if h.frameLen ≠ 0 then 2 else 1))
  let b ← hdrWriteReservedV1 ver h.iv.length b
  let b ← b.write (be 4 h.frameLen)
  let b ← b.write h.algSuiteData
  let b ← hdrWriteIvV1 ver h.iv b
  b.write h.authTag

/-- `aws_cryptosdk_hdr_write`, source/header.c:479-575.  Takes the contents of the caller's buffer; returns its
contents afterwards, `*bytes_written` and the result.  (The bytes reserved for the AAD length are modelled as zero
until patched; they are never observable.) -/
def hdrWrite (h : Hdr) (outbuf : Bytes) : Bytes × Nat × Except Err Unit :=
  match algProps h.algId with
  | none => (List.replicate outbuf.length 0, 0, .error .badState)
  | some p =>
    match hdrWriteBuf h p.msgFormatVersion { cap := outbuf.length, data := [] } with
    | none => (List.replicate outbuf.length 0, 0, .error .shortBuffer)
    | some b => (b.data ++ outbuf.drop b.data.length, b.data.length, .ok ())

end Verif
