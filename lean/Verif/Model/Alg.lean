import Verif.Model.Bytes
/-
Algorithm suites: source/cipher.c:33-254, source/header.c:27-109, include/aws/cryptosdk/header.h:26-40,
include/aws/cryptosdk/private/cipher.h:57-63, include/aws/cryptosdk/materials.h:105-126,712-733.
-/
namespace Verif

/-- Digest used by the KDF (source/cipher.c:239-254, `enum aws_cryptosdk_sha_version`). -/
inductive Sha where
  | nosha | sha256 | sha384 | sha512
deriving DecidableEq, Repr

/-- `struct aws_cryptosdk_alg_properties` (include/aws/cryptosdk/cipher.h:54-113).  `mdName` is `none`
for a NULL pointer.  Not modelled: `cipher_name`, `alg_name`, `impl`, `sig_md_name`. -/
structure AlgProps where
  algId : Nat
  mdName : Option String
  msgFormatVersion : Nat
  dataKeyLen : Nat
  contentKeyLen : Nat
  ivLen : Nat
  tagLen : Nat
  signatureLen : Nat
  algSuiteDataLen : Nat
  commitmentLen : Nat
deriving DecidableEq, Repr

/-- The `STATIC_ALG_PROPS` macro, source/cipher.c:35-73.  `md` is *stringified* (`.md_name = #md`), so for
the suites that pass `NULL` the member is the string `"NULL"`, not a null pointer. -/
def staticAlgProps (algId ver : Nat) (md : String) (dkBits sigLen suiteDataBits commitBits : Nat) : AlgProps :=
  { algId := algId, mdName := some md, msgFormatVersion := ver, dataKeyLen := dkBits / 8
    contentKeyLen := dkBits / 8, ivLen := 12, tagLen := 16, signatureLen := sigLen
    algSuiteDataLen := suiteDataBits / 8, commitmentLen := commitBits / 8 }

/-- `aws_cryptosdk_alg_props`, source/cipher.c:33-224 (identifiers: header.h:26-40). -/
def algProps (algId : Nat) : Option AlgProps :=
  match algId with
  | 0x0014 => some (staticAlgProps 0x0014 1 "NULL" 128 0 0 0)
  | 0x0114 => some (staticAlgProps 0x0114 1 "sha256" 128 0 0 0)
  | 0x0046 => some (staticAlgProps 0x0046 1 "NULL" 192 0 0 0)
  | 0x0146 => some (staticAlgProps 0x0146 1 "sha256" 192 0 0 0)
  | 0x0078 => some (staticAlgProps 0x0078 1 "NULL" 256 0 0 0)
  | 0x0178 => some (staticAlgProps 0x0178 1 "sha256" 256 0 0 0)
  | 0x0478 => some (staticAlgProps 0x0478 2 "sha512" 256 0 256 256)
  | 0x0214 => some (staticAlgProps 0x0214 1 "sha256" 128 71 0 0)
  | 0x0346 => some (staticAlgProps 0x0346 1 "sha384" 192 103 0 0)
  | 0x0378 => some (staticAlgProps 0x0378 1 "sha384" 256 103 0 0)
  | 0x0578 => some (staticAlgProps 0x0578 2 "sha512" 256 103 256 256)
  | _ => none

/-- `aws_cryptosdk_private_algorithm_message_id_len`, source/cipher.c:226-234. -/
def messageIdLen (p : AlgProps) : Nat :=
  match p.msgFormatVersion with
  | 1 => 16
  | 2 => 32
  | _ => 0

/-- `aws_cryptosdk_which_sha`, source/cipher.c:239-254. -/
def whichSha (algId : Nat) : Sha :=
  match algId with
  | 0x0578 | 0x0478 => .sha512
  | 0x0378 | 0x0346 => .sha384
  | 0x0214 | 0x0178 | 0x0146 | 0x0114 => .sha256
  | _ => .nosha

/-- `aws_cryptosdk_algorithm_is_known`, source/header.c:27-42. -/
def algorithmIsKnown (algId : Nat) : Bool :=
  match algId with
  | 0x0478 | 0x0578 | 0x0378 | 0x0346 | 0x0214 | 0x0178 | 0x0146 | 0x0114 | 0x0078 | 0x0046 | 0x0014 => true
  | _ => false

/-- `aws_cryptosdk_header_version_is_known`, source/header.c:44-50. -/
def headerVersionIsKnown (v : Nat) : Bool := v == 1 || v == 2

/-- `aws_cryptosdk_private_algorithm_taglen`, source/header.c:52-59. -/
def algorithmTagLen (algId : Nat) : Int := if algorithmIsKnown algId then 16 else -1

/-- `aws_cryptosdk_private_algorithm_ivlen`, source/header.c:61-68. -/
def algorithmIvLen (algId : Nat) : Int := if algorithmIsKnown algId then 12 else -1

/-- `aws_cryptosdk_header_version_static_fields_len`, source/header.c:70-93. -/
def staticFieldsLen (v : Nat) : Int :=
  match v with
  | 1 => 1 + 1 + 2 + 2 + 2 + 1 + 4 + 1 + 4
  | 2 => 1 + 2 + 2 + 2 + 1 + 4
  | _ => -1

/-- `aws_cryptosdk_algorithm_is_committing`, source/header.c:103-109. -/
def algorithmIsCommitting (algId : Nat) : Bool :=
  match algId with
  | 0x0478 | 0x0578 => true
  | _ => false

/-- `aws_cryptosdk_private_authtag_len`, include/aws/cryptosdk/private/cipher.h:57-63. -/
def authtagLen (p : AlgProps) : Nat :=
  if p.msgFormatVersion = 1 then p.ivLen + p.tagLen else p.tagLen

/-- `enum aws_cryptosdk_commitment_policy`, include/aws/cryptosdk/materials.h:105-126; `other n` is any value
outside the enumeration that a caller may pass. -/
inductive Policy where
  | requireRequire | requireAllow | forbidAllow
  | other (n : Nat)
deriving DecidableEq, Repr

/-- `aws_cryptosdk_commitment_policy_is_valid`, include/aws/cryptosdk/materials.h:712-719. -/
def Policy.isValid : Policy → Bool
  | .requireRequire | .requireAllow | .forbidAllow => true
  | .other _ => false

/-- `aws_cryptosdk_commitment_policy_encrypt_must_include_commitment`, materials.h:725-733. -/
def Policy.encryptMustIncludeCommitment : Policy → Bool
  | .requireRequire | .requireAllow => true
  | _ => false

/-- `aws_cryptosdk_priv_algorithm_allowed_for_encrypt`, source/session.c:576-586. -/
def allowedForEncrypt (algId : Nat) (pol : Policy) : Bool :=
  match pol with
  | .requireRequire | .requireAllow => algorithmIsCommitting algId
  | .forbidAllow => !algorithmIsCommitting algId
  | .other _ => false

/-- `aws_cryptosdk_priv_algorithm_allowed_for_decrypt`, source/session.c:588-598. -/
def allowedForDecrypt (algId : Nat) (pol : Policy) : Bool :=
  match pol with
  | .requireRequire => algorithmIsCommitting algId
  | .requireAllow | .forbidAllow => true
  | .other _ => false

end Verif
