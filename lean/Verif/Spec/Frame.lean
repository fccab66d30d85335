import Verif.Model.Frame
import Verif.Spec.Header
/-
Independent specification of the message-body wire format.  Only the data types `Frame` and `FrameType` come from
the model.
-/
namespace Verif.Spec

/-- The wire format of a frame. -/
def wireFrame (f : Frame) : List UInt8 :=
  match f.type with
  | .frame => u32 f.seqno ++ f.iv ++ f.ciphertext ++ f.authtag
  | .final => [0xFF, 0xFF, 0xFF, 0xFF] ++ u32 f.seqno ++ f.iv ++ u32 f.ciphertext.length ++ f.ciphertext ++ f.authtag
  | .single => f.iv ++ u64be f.ciphertext.length ++ f.ciphertext ++ f.authtag

/-- A well-formed frame of a message with frame length `fs` (0 for a non-framed message): 12-byte IV, 16-byte tag, and
a content length and sequence number allowed for its type. -/
structure FrameOK (fs : Nat) (f : Frame) : Prop where
  iv : f.iv.length = 12
  tag : f.authtag.length = 16
  seqno : f.seqno < 4294967296
  shape : match f.type with
    | .frame => fs ≠ 0 ∧ f.ciphertext.length = fs ∧ f.seqno ≠ 4294967295
    | .final => fs ≠ 0 ∧ f.ciphertext.length ≤ fs
    | .single => fs = 0 ∧ f.ciphertext.length < 68719476704 ∧ f.seqno = 1

/-- Number of bytes a frame of a given type takes for `n` bytes of content: the fields are
4+12+n+16, 4+4+12+4+n+16 and 12+8+n+16 bytes. -/
def frameSize : FrameType → Nat → Nat
  | .frame, n => n + 32
  | .final, n => n + 40
  | .single, n => n + 36

/-- Bytes `off ..` of `mem` replaced by `x`. -/
def overwrite (mem : List UInt8) (off : Nat) (x : List UInt8) : List UInt8 :=
  mem.take off ++ x ++ mem.drop (off + x.length)

/-- What a caller of frame serialisation does with the three places it is given: fill in IV, ciphertext and tag. -/
def fillIn (mem : List UInt8) (ivOff ctOff tagOff : Nat) (f : Frame) : List UInt8 :=
  overwrite (overwrite (overwrite mem ivOff f.iv) ctOff f.ciphertext) tagOff f.authtag

/-- The limits of the message format on a frame of a given type with `n` bytes of content. -/
def WithinLimits : FrameType → (seqno n : Nat) → Prop
  | .frame, seqno, n => n ≤ 4294967295 ∧ seqno ≠ 4294967295
  | .final, _, n => n ≤ 4294967295
  | .single, _, n => n < 68719476704

end Verif.Spec
