import Verif.Model.Kdf
import Verif.Model.Frame
/-
Authenticated encryption of header and body: source/cipher.c:435-829.  OpenSSL's AES-GCM, ECDSA and random generator are
parameters.
-/
namespace Verif

/-- The key of a signature context: the suite, the private and the public part of the key pair (`EC_KEY`), if set. -/
structure SigKey where
  alg : Nat
  priv : Option Nat
  pub : Option Nat
deriving DecidableEq, Repr

/-- `struct aws_cryptosdk_sig_ctx` (source/cipher_openssl.c:89-96): key material and the data absorbed so far. -/
structure SigCtx where
  key : SigKey
  data : Bytes
deriving DecidableEq, Repr

/-- The crypto primitives.  Each may fail on any input.
* `aeadSeal key iv aad pt`: AES-GCM encryption (`EVP_Encrypt*`), ciphertext and tag;
* `aeadOpen key iv aad ct tag`: AES-GCM decryption with tag check;
* `sigFail ctx data`: the error, if any, with which `aws_cryptosdk_sig_update` fails;
* `sign`, `verify`: `aws_cryptosdk_sig_sign_finish`, `aws_cryptosdk_sig_verify_finish`;
* `random n`: `RAND_bytes`.
The `_len` fields are what the library assumes of OpenSSL (GCM ciphertext is as long as the plaintext, HKDF and RAND_bytes
produce the requested number of bytes). -/
structure Crypto where
  hkdf : HkdfFn
  aeadSeal : (key iv aad pt : Bytes) → Option (Bytes × Bytes)
  aeadOpen : (key iv aad ct tag : Bytes) → Except Err Bytes
  sigFail : SigCtx → Bytes → Option Err
  sign : SigCtx → Except Err Bytes
  verify : SigCtx → Bytes → Except Err Unit
  random : Nat → Option Bytes
  hkdf_len : ∀ sha salt ikm info n k, hkdf sha salt ikm info n = .ok k → k.length = n
  aeadSeal_len : ∀ key iv aad pt ct tag, aeadSeal key iv aad pt = some (ct, tag) → ct.length = pt.length ∧ tag.length = 16
  aeadOpen_len : ∀ key iv aad ct tag pt, aeadOpen key iv aad ct tag = .ok pt → pt.length = ct.length
  random_len : ∀ n b, random n = some b → b.length = n

/-- `aws_cryptosdk_sig_update` (source/cipher_openssl.c:805-823). -/
def Crypto.sigUpdate (c : Crypto) (ctx : SigCtx) (x : Bytes) : Except Err SigCtx :=
  match c.sigFail ctx x with
  | some e => .error e
  | none => .ok { ctx with data := ctx.data ++ x }

/-- `aws_cryptosdk_sign_header`, source/cipher.c:504-561: the contents of the `authtag` buffer (IV and tag, or only the
tag in format version 2). -/
def signHeader (c : Crypto) (p : AlgProps) (key : Bytes) (authtagBufLen : Nat) (header : Bytes) : Except Err Bytes :=
  if p.msgFormatVersion = 1 then
    if authtagBufLen ≠ p.ivLen + p.tagLen then .error .badCiphertext
    else match c.aeadSeal key (List.replicate p.ivLen 0) header [] with
      | none => .error .cryptoUnknown
      | some (_, tag) => .ok (List.replicate p.ivLen 0 ++ tag)
  else if p.msgFormatVersion = 2 then
    if authtagBufLen ≠ p.tagLen then .error .badCiphertext
    else match c.aeadSeal key (List.replicate 12 0) header [] with
      | none => .error .cryptoUnknown
      | some (_, tag) => .ok tag
  else .error .cryptoUnknown

/-- `aws_cryptosdk_verify_header`, source/cipher.c:563-613. -/
def verifyHeader (c : Crypto) (p : AlgProps) (key authtag header : Bytes) : Except Err Unit :=
  if p.msgFormatVersion = 1 then
    if authtag.length ≠ p.ivLen + p.tagLen then .error .badCiphertext
    else match c.aeadOpen key (authtag.take p.ivLen) header [] (authtag.drop p.ivLen) with
      | .error e => .error e
      | .ok _ => .ok ()
  else if p.msgFormatVersion = 2 then
    if authtag.length ≠ p.tagLen then .error .badCiphertext
    else match c.aeadOpen key (List.replicate 12 0) header [] authtag with
      | .error e => .error e
      | .ok _ => .ok ()
  else .error .cryptoUnknown

/-- The AAD string of each frame type, source/cipher.c:623-628. -/
def aadString : FrameType → Bytes
  | .single => ascii "AWSKMSEncryptionClient Single Block"
  | .frame => ascii "AWSKMSEncryptionClient Frame"
  | .final => ascii "AWSKMSEncryptionClient Final Frame"

/-- The additional data fed to the cipher by `update_frame_aad`, source/cipher.c:615-644.  (`body_frame_type` always is one
of the three enumerators, so the `default` branch, which would return -1 and be taken for success, is not reached.) -/
def frameAad (messageId : Bytes) (type : FrameType) (seqno dataSize : Nat) : Bytes :=
  messageId ++ aadString type ++ be 4 seqno ++ (be 4 (dataSize / 2 ^ 32) ++ be 4 (dataSize % 2 ^ 32))

/-- The IV of a body frame, source/cipher.c:676-691. -/
def frameIv (p : AlgProps) (seqno : Nat) : Bytes := List.replicate (p.ivLen - 8) 0 ++ be 8 seqno

/-- `aws_cryptosdk_encrypt_body`, source/cipher.c:646-744.  `outCap` is the capacity of the ciphertext buffer.  Returns IV,
ciphertext and tag.  Feeding the data in pieces of at most INT_MAX bytes is modelled as one call. -/
def encryptBody (c : Crypto) (p : AlgProps) (key messageId : Bytes) (type : FrameType) (seqno : Nat) (pt : Bytes)
    (outCap : Nat) : Except Err (Bytes × Bytes × Bytes) :=
  if pt.length ≠ outCap then .error .shortBuffer
  else if seqno = 0 then .error .cryptoUnknown
  else if p.ivLen < 8 then .error .cryptoUnknown
  else match c.aeadSeal key (frameIv p seqno) (frameAad messageId type seqno pt.length) pt with
    | none => .error .cryptoUnknown
    | some (ct, tag) => .ok (frameIv p seqno, ct, tag)

/-- `aws_cryptosdk_decrypt_body`, source/cipher.c:746-806.  `outCap` is the free capacity of the output buffer. -/
def decryptBody (c : Crypto) (key messageId : Bytes) (f : Frame) (outCap : Nat) : Except Err Bytes :=
  if f.ciphertext.length ≠ outCap then .error .shortBuffer
  else c.aeadOpen key f.iv (frameAad messageId f.type f.seqno f.ciphertext.length) f.ciphertext f.authtag

end Verif
