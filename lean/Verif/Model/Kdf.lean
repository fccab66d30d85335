import Verif.Model.Alg
/-
Key derivation: source/hkdf.c and source/cipher.c:319-433.
-/
namespace Verif

/-- `EVP_MD_size` of the digest returned by `aws_cryptosdk_get_evp_md` (source/hkdf.c:24-33); 0 stands for the
NULL digest of `AWS_CRYPTOSDK_NOSHA`. -/
def hashLen : Sha → Nat
  | .nosha => 0
  | .sha256 => 32
  | .sha384 => 48
  | .sha512 => 64

/-- OpenSSL's HMAC, one-shot or incremental (`HMAC_Init_ex`/`HMAC_Update`/`HMAC_Final` over the pieces is HMAC over their
concatenation); `none` when OpenSSL fails. -/
structure Hmac where
  mac : Sha → (key msg : Bytes) → Option Bytes
  mac_len : ∀ sha key msg t, mac sha key msg = some t → t.length = hashLen sha

/-- `aws_cryptosdk_hkdf_extract`, source/hkdf.c:48-74.  (`*prk_len == 0` is covered by `mac_len`.) -/
def hkdfExtract (H : Hmac) (sha : Sha) (salt ikm : Bytes) : Except Err Bytes :=
  if sha = .nosha then .error .unsupportedFormat
  else
    let mysalt := if salt.length ≠ 0 then salt else List.replicate (hashLen sha) 0
    match H.mac sha mysalt ikm with
    | none => .error .cryptoUnknown
    | some prk => if prk.length = 0 then .error .cryptoUnknown else .ok prk

/-- The loop of `aws_cryptosdk_hkdf_expand`, source/hkdf.c:94-108: `n` more iterations starting at index `idx`, with the
previous block `t`, the bytes still to write and the output so far.  `none` is the jump to `err`. -/
def hkdfExpandLoop (H : Hmac) (sha : Sha) (prk info : Bytes) : (n idx : Nat) → (t : Bytes) → (remaining : Nat) →
    (okm : Bytes) → Option Bytes
  | 0, _, _, _, okm => some okm
  | n + 1, idx, t, remaining, okm =>
    let msg := (if idx ≠ 1 then t else []) ++ info ++ [UInt8.ofNat idx]
    match H.mac sha prk msg with
    | none => none
    | some t' =>
      let w := if remaining < hashLen sha then remaining else hashLen sha
      hkdfExpandLoop H sha prk info n (idx + 1) t' (remaining - w) (okm ++ t'.take w)

/-- `aws_cryptosdk_hkdf_expand`, source/hkdf.c:76-120, for `len` bytes of output.  Returns the contents of the output
buffer and the result. -/
def hkdfExpand (H : Hmac) (sha : Sha) (prk info : Bytes) (old : Bytes) : Bytes × Except Err Unit :=
  let len := old.length
  if sha = .nosha then (old, .error .unsupportedFormat)
  else if len = 0 ∨ prk.length = 0 then (List.replicate len 0, .error .cryptoUnknown)
  else
    let n := (len + hashLen sha - 1) / hashLen sha
    if n > 255 then (List.replicate len 0, .error .cryptoUnknown)
    else match hkdfExpandLoop H sha prk info n 1 [] len [] with
      | none => (List.replicate len 0, .error .cryptoUnknown)
      | some okm => (okm, .ok ())

/-- `aws_cryptosdk_hkdf`, source/hkdf.c:159-179 (the branch for OpenSSL before 1.1.0 and AWS-LC; the other branch
calls OpenSSL's own HKDF). -/
def hkdf (H : Hmac) (sha : Sha) (salt ikm info : Bytes) (old : Bytes) : Bytes × Except Err Unit :=
  match hkdfExtract H sha salt ikm with
  | .error e => (old, .error e)
  | .ok prk => hkdfExpand H sha prk info old

/-! ### Deriving the content key -/

/-- HKDF as used by the session: salt, input key, info and output length. -/
abbrev HkdfFn := Sha → (salt ikm info : Bytes) → Nat → Except Err Bytes

/-- Result of `aws_cryptosdk_private_derive_key`: success with the content key and the commitment value; `AWS_OP_ERR` with
an error already raised (from HKDF); or a positive error code returned *without* raising it. -/
inductive KdfRes where
  | ok (contentKey commitment : Bytes)
  | raised (e : Err)
  | code (e : Err)
deriving DecidableEq

/-- The info string of format version 1: suite identifier and message id (source/cipher.c:334-338). -/
def kdfInfoV1 (algId : Nat) (messageId : Bytes) : Bytes := be 2 algId ++ messageId

/-- The info string for the content key in format version 2 (source/cipher.c:379-384). -/
def kdfInfoV2 (algId : Nat) : Bytes := be 2 algId ++ ascii "DERIVEKEY"

/-- The info string for the commitment key (source/cipher.c:386-388). -/
def commitInfo : Bytes := ascii "COMMITKEY"

/-- `aws_cryptosdk_private_derive_key_v1`, source/cipher.c:319-350. -/
def deriveKeyV1 (hk : HkdfFn) (p : AlgProps) (dataKey messageId : Bytes) : KdfRes :=
  if messageId.length ≠ 16 then .code .unsupportedFormat
  else if whichSha p.algId = .nosha then .ok (dataKey.take p.dataKeyLen) []
  else match hk (whichSha p.algId) [] (dataKey.take p.dataKeyLen) (kdfInfoV1 p.algId messageId) p.contentKeyLen with
    | .error e => .raised e
    | .ok k => .ok k []

/-- `aws_cryptosdk_private_derive_key_v2`, source/cipher.c:352-406; `capacity` is that of the commitment buffer. -/
def deriveKeyV2 (hk : HkdfFn) (p : AlgProps) (dataKey messageId : Bytes) (capacity : Nat) : KdfRes :=
  if capacity < p.commitmentLen then .code .cryptoUnknown
  else if messageId.length ≠ 32 then .code .unsupportedFormat
  else if whichSha p.algId = .nosha then .code .unsupportedFormat
  else match hk (whichSha p.algId) messageId (dataKey.take p.dataKeyLen) commitInfo p.commitmentLen with
    | .error e => .raised e
    | .ok c => match hk (whichSha p.algId) messageId (dataKey.take p.dataKeyLen) (kdfInfoV2 p.algId) p.contentKeyLen with
      | .error e => .raised e
      | .ok k => .ok k c

/-- `aws_cryptosdk_private_derive_key`, source/cipher.c:408-433; `commitLen` is the length and capacity of the commitment
buffer passed in (every caller passes a buffer made by `aws_byte_buf_from_array`, or an empty one). -/
def deriveKey (hk : HkdfFn) (p : AlgProps) (dataKey messageId : Bytes) (commitLen : Nat) : KdfRes :=
  if p.msgFormatVersion = 1 then
    if commitLen ≠ 0 then .code .cryptoUnknown else deriveKeyV1 hk p dataKey messageId
  else if p.msgFormatVersion = 2 then deriveKeyV2 hk p dataKey messageId commitLen
  else .code .unsupportedFormat

/-- The words compared by `aws_cryptosdk_private_commitment_eq` (source/cipher.c:303-311): the bytes in groups of
`sizeof(uintptr_t) = 8`.  (Byte order does not matter to the comparison; big endian is used here.) -/
def words8 : Bytes → List Nat
  | a :: b :: c :: d :: e :: f :: g :: h :: r => unbe [a, b, c, d, e, f, g, h] :: words8 r
  | _ => []

/-- `aws_cryptosdk_private_commitment_eq`, source/cipher.c:282-317. -/
def commitmentEq (a b : Bytes) : Bool :=
  if a.length ≠ b.length then false
  else if a.length = 0 then true
  else if a.length ≠ 32 then false
  else ((words8 a).zip (words8 b)).foldl (fun acc w => acc ||| (w.1 ^^^ w.2)) 0 == 0

end Verif
