import Verif.Model.Alg
/-
Frame format: source/framefmt.c, include/aws/cryptosdk/private/framefmt.h.

The C `serde_*` functions serve reading and writing through one `writing` flag; they are modelled once per direction.
-/
namespace Verif

/-- `enum aws_cryptosdk_frame_type`, include/aws/cryptosdk/private/cipher.h:117. -/
inductive FrameType where
  | single | frame | final
deriving DecidableEq, Repr

/-- `LAST_FRAME_MARK`, source/framefmt.c:21. -/
def lastFrameMark : Nat := 0xFFFFFFFF
/-- `MAX_FRAME_SIZE`, include/aws/cryptosdk/private/framefmt.h:38. -/
def maxFrameSize : Nat := 0xFFFFFFFF
/-- `MAX_UNFRAMED_PLAINTEXT_SIZE`, include/aws/cryptosdk/private/framefmt.h:42. -/
def maxUnframedPlaintextSize : Nat := 0xFFFFFFFE0

/-! ### Reading -/

/-- `struct aws_cryptosdk_frame` (include/aws/cryptosdk/private/framefmt.h:24-35) after a successful parse: the three
buffers point into the input. -/
structure Frame where
  type : FrameType
  seqno : Nat
  iv : Bytes
  ciphertext : Bytes
  authtag : Bytes
deriving DecidableEq, Repr

/-- `struct aws_cryptosdk_framestate` while reading (source/framefmt.c:29-58). -/
structure RdState where
  plaintextSize : Nat
  ciphertextSize : Nat
  cursor : Bytes
  tooSmall : Bool
deriving DecidableEq, Repr

/-- `field_helper` with `writing = false` (source/framefmt.c:85-96): an `n`-byte integer, 0 when it cannot be read. -/
def rdField (n : Nat) (s : RdState) : Nat × RdState :=
  let s := { s with ciphertextSize := u64 (s.ciphertextSize + n) }
  if s.tooSmall then (0, s)
  else match rd n s.cursor with
    | some (x, r) => (unbe x, { s with cursor := r })
    | none => (0, { s with tooSmall := true })

/-- `field_sized` with `writing = false` (source/framefmt.c:109-127): `none` is a NULL buffer. -/
def rdSized (size : Nat) (s : RdState) : Option Bytes × RdState :=
  let s := { s with ciphertextSize := u64 (s.ciphertextSize + size) }
  match rd size s.cursor with
  | some (x, r) => (some x, { s with cursor := r })
  | none => (none, { s with tooSmall := true })

/-- The three buffers of a frame under construction (`none`: NULL). -/
structure RdFrame where
  type : FrameType
  seqno : Nat
  iv : Option Bytes
  ciphertext : Option Bytes
  authtag : Option Bytes
deriving DecidableEq, Repr

/-- `serde_last_frame` reading, source/framefmt.c:179-201. -/
def serdeLastFrameRd (p : AlgProps) (maxFs : Nat) (s : RdState) : RdState × Except Err RdFrame :=
  let (seqno, s) := rdField 4 s
  let (iv, s) := rdSized p.ivLen s
  let (pt, s) := rdField 4 s
  let s := { s with plaintextSize := pt }
  if s.plaintextSize > maxFs then (s, .error .badCiphertext)
  else
    let (ct, s) := rdSized s.plaintextSize s
    let (tag, s) := rdSized p.tagLen s
    (s, .ok ⟨.final, seqno, iv, ct, tag⟩)

/-- `serde_framed` reading, source/framefmt.c:138-177. -/
def serdeFramedRd (p : AlgProps) (maxFs : Nat) (s : RdState) : RdState × Except Err RdFrame :=
  let (mark, s) := rdField 4 s
  if mark = lastFrameMark then serdeLastFrameRd p maxFs s
  else
    let s := { s with plaintextSize := maxFs }
    let (iv, s) := rdSized p.ivLen s
    let (ct, s) := rdSized s.plaintextSize s
    let (tag, s) := rdSized p.tagLen s
    (s, .ok ⟨.frame, mark, iv, ct, tag⟩)

/-- `serde_nonframed` reading, source/framefmt.c:203-222. -/
def serdeNonframedRd (p : AlgProps) (s : RdState) : RdState × Except Err RdFrame :=
  let (iv, s) := rdSized p.ivLen s
  let (pt, s) := rdField 8 s
  let s := { s with plaintextSize := pt }
  if s.plaintextSize ≥ maxUnframedPlaintextSize then (s, .error .badCiphertext)
  else
    let (ct, s) := rdSized s.plaintextSize s
    let (tag, s) := rdSized p.tagLen s
    (s, .ok ⟨.single, 1, iv, ct, tag⟩)

/-- Results of `aws_cryptosdk_deserialize_frame`: its return value with `*frame`, the two size outputs and the
cursor afterwards. -/
structure DeserResult where
  res : Except Err Frame
  ciphertextSize : Nat
  plaintextSize : Nat
  rest : Bytes
deriving DecidableEq

/-- `aws_cryptosdk_deserialize_frame`, source/framefmt.c:373-432, on a 64-bit platform (the `SIZE_MAX` comparison at
lines 407-413 never holds for `uint64_t` values).  The inner match on the three buffers is exhaustive in the sense
that `tooSmall = false` implies all are set; the impossible case is given the distinct error `unknown`
(`deserializeFrame_eq_parser` shows that it never appears). -/
def deserializeFrame (p : AlgProps) (maxFs : Nat) (bs : Bytes) : DeserResult :=
  let s0 : RdState := ⟨0, 0, bs, false⟩
  let (s, r) := if maxFs ≠ 0 then serdeFramedRd p maxFs s0 else serdeNonframedRd p s0
  match r with
  | .error e => ⟨.error e, s.ciphertextSize, s.plaintextSize, bs⟩
  | .ok f =>
    if s.tooSmall then ⟨.error .shortBuffer, s.ciphertextSize, s.plaintextSize, bs⟩
    else match f.iv, f.ciphertext, f.authtag with
      | some iv, some ct, some tag => ⟨.ok ⟨f.type, f.seqno, iv, ct, tag⟩, s.ciphertextSize, s.plaintextSize, s.cursor⟩
      | _, _, _ => ⟨.error .unknown, s.ciphertextSize, s.plaintextSize, bs⟩

/-! ### Writing -/

/-- An `aws_byte_buf` with its memory: `mem` is the whole capacity, the first `len` bytes are in use. -/
structure WBuf where
  mem : Bytes
  len : Nat
deriving DecidableEq, Repr

/-- Overwrite part of the memory. -/
def patchAt (mem : Bytes) (pos : Nat) (x : Bytes) : Bytes := mem.take pos ++ x ++ mem.drop (pos + x.length)

/-- `aws_byte_buf_secure_zero` (aws-c-common): zero the whole capacity and set the length to 0. -/
def WBuf.secureZero (b : WBuf) : WBuf := ⟨List.replicate b.mem.length 0, 0⟩

/-- `struct aws_cryptosdk_framestate` while writing; `plaintext_size` and `max_frame_size` stay equal to the argument. -/
structure WrState where
  ciphertextSize : Nat
  buf : WBuf
  tooSmall : Bool
deriving DecidableEq, Repr

/-- `field_helper` with `writing = true` (source/framefmt.c:85-96) for an `n`-byte integer. -/
def wrField (n v : Nat) (s : WrState) : WrState :=
  let s := { s with ciphertextSize := u64 (s.ciphertextSize + n) }
  if s.tooSmall then s
  else if s.buf.mem.length - s.buf.len ≥ n then { s with buf := ⟨patchAt s.buf.mem s.buf.len (be n v), s.buf.len + n⟩ }
  else { s with tooSmall := true }

/-- `field_sized` with `writing = true` (source/framefmt.c:109-127): reserve `size` bytes and return their offset. -/
def wrSized (size : Nat) (s : WrState) : Option Nat × WrState :=
  let s := { s with ciphertextSize := u64 (s.ciphertextSize + size) }
  if s.buf.mem.length - s.buf.len ≥ size then (some s.buf.len, { s with buf := { s.buf with len := s.buf.len + size } })
  else (none, { s with tooSmall := true })

/-- Where the three buffers of a frame being written are. -/
structure FrameLoc where
  ivOff : Option Nat
  ctOff : Option Nat
  tagOff : Option Nat
deriving DecidableEq, Repr

/-- The three reserved fields written last by every frame type. -/
def serdeTailWr (p : AlgProps) (pt : Nat) (iv : Option Nat) (s : WrState) : WrState × FrameLoc :=
  let (ct, s) := wrSized pt s
  let (tag, s) := wrSized p.tagLen s
  (s, ⟨iv, ct, tag⟩)

/-- `serde_last_frame` writing, source/framefmt.c:179-201 (the size check compares equal values). -/
def serdeLastFrameWr (p : AlgProps) (seqno pt : Nat) (s : WrState) : WrState × Except Err FrameLoc :=
  let s := wrField 4 seqno s
  let (iv, s) := wrSized p.ivLen s
  let s := wrField 4 pt s
  let (s, l) := serdeTailWr p pt iv s
  (s, .ok l)

/-- `serde_framed` writing, source/framefmt.c:138-177. -/
def serdeFramedWr (p : AlgProps) (type : FrameType) (seqno pt : Nat) (s : WrState) : WrState × Except Err FrameLoc :=
  if type = .final then serdeLastFrameWr p seqno pt (wrField 4 lastFrameMark s)
  else if seqno = lastFrameMark then (s, .error .limitExceeded)
  else
    let s := wrField 4 seqno s
    let (iv, s) := wrSized p.ivLen s
    let (s, l) := serdeTailWr p pt iv s
    (s, .ok l)

/-- `serde_nonframed` writing, source/framefmt.c:203-222. -/
def serdeNonframedWr (p : AlgProps) (pt : Nat) (s : WrState) : WrState × Except Err FrameLoc :=
  let (iv, s) := wrSized p.ivLen s
  let s := wrField 8 pt s
  if pt ≥ maxUnframedPlaintextSize then (s, .error .badCiphertext)
  else
    let (s, l) := serdeTailWr p pt iv s
    (s, .ok l)

/-- Results of `aws_cryptosdk_serialize_frame`.  `ciphertextSize = none` means that the output was *not* set (in
contrast with the documentation, "always set"). -/
structure SerResult where
  res : Except Err FrameLoc
  ciphertextSize : Option Nat
  buf : WBuf
deriving DecidableEq

/-- `aws_cryptosdk_serialize_frame`, source/framefmt.c:298-359. -/
def serializeFrame (p : AlgProps) (type : FrameType) (seqno pt : Nat) (buf : WBuf) : SerResult :=
  if (type = .single ∧ pt > maxUnframedPlaintextSize) ∨ (type ≠ .single ∧ pt > maxFrameSize) then
    ⟨.error .limitExceeded, none, buf.secureZero⟩
  else
    let s0 : WrState := ⟨0, buf, false⟩
    let (s, r) := if type = .single then serdeNonframedWr p pt s0 else serdeFramedWr p type seqno pt s0
    match r with
    | .error e => ⟨.error e, some s.ciphertextSize, buf.secureZero⟩
    | .ok l =>
      if s.tooSmall then ⟨.error .shortBuffer, some s.ciphertextSize, buf.secureZero⟩
      else ⟨.ok l, some s.ciphertextSize, s.buf⟩

end Verif
