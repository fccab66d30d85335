import Verif.Spec.Header
import Verif.Spec.Frame
/-
Independent specifications for key derivation and frame authentication.
-/
namespace Verif.Spec

/-- RFC 5869, section 2.3: the blocks `T(i)` of HKDF-Expand over a pseudorandom function `prf key msg`. -/
def hkdfT (prf : List UInt8 → List UInt8 → List UInt8) (prk info : List UInt8) : Nat → List UInt8
  | 0 => []
  | i + 1 => prf prk (hkdfT prf prk info i ++ info ++ [UInt8.ofNat (i + 1)])

/-- RFC 5869, section 2.3: the first `L` octets of `T(1) | T(2) | … | T(N)` with `N = ceil(L / HashLen)`. -/
def hkdfExpandRfc (prf : List UInt8 → List UInt8 → List UInt8) (hashLen : Nat) (prk info : List UInt8) (L : Nat) :
    List UInt8 :=
  (((List.range ((L + hashLen - 1) / hashLen)).map (fun i => hkdfT prf prk info (i + 1))).flatten).take L

/-- RFC 5869, section 2.2: `HMAC-Hash(salt, IKM)`; an absent salt is a string of `HashLen` zeros. -/
def hkdfExtractRfc (prf : List UInt8 → List UInt8 → List UInt8) (hashLen : Nat) (salt ikm : List UInt8) : List UInt8 :=
  prf (if salt = [] then List.replicate hashLen 0 else salt) ikm

/-- HKDF. -/
def hkdfRfc (prf : List UInt8 → List UInt8 → List UInt8) (hashLen : Nat) (salt ikm info : List UInt8) (L : Nat) :
    List UInt8 :=
  hkdfExpandRfc prf hashLen (hkdfExtractRfc prf hashLen salt ikm) info L

/-- The salt and info for the content key of a message (AWS Encryption SDK specification): version 1 has no salt and puts
suite id and message id into the info; version 2 uses the message id as salt and a label in the info. -/
def contentKdfInput (version suite : Nat) (messageId : List UInt8) : List UInt8 × List UInt8 :=
  if version = 1 then ([], u16 suite ++ messageId)
  else (messageId, u16 suite ++ [0x44, 0x45, 0x52, 0x49, 0x56, 0x45, 0x4B, 0x45, 0x59])

/-- The salt and info for the commitment key of a version 2 message: the label "COMMITKEY". -/
def commitKdfInput (messageId : List UInt8) : List UInt8 × List UInt8 :=
  (messageId, [0x43, 0x4F, 0x4D, 0x4D, 0x49, 0x54, 0x4B, 0x45, 0x59])

/-- The label authenticated with each kind of frame. -/
def frameLabel : FrameType → String
  | .frame => "AWSKMSEncryptionClient Frame"
  | .final => "AWSKMSEncryptionClient Final Frame"
  | .single => "AWSKMSEncryptionClient Single Block"

/-- The additional authenticated data of a body frame. -/
def bodyAad (messageId : List UInt8) (kind : FrameType) (seqno len : Nat) : List UInt8 :=
  messageId ++ (frameLabel kind).toList.map (fun c => UInt8.ofNat c.toNat) ++ u32 seqno ++ u64be len

/-- The IV of the `n`-th body frame: a 12-byte big-endian integer (only the low 8 bytes can be non-zero). -/
def bodyIv (n : Nat) : List UInt8 := [0, 0, 0, 0] ++ u64be n

end Verif.Spec
