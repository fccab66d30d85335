import Verif.Model.Keyring
/-
Comparisons of encrypted data keys, keyring traces and suite properties, and the conversion of an encryption context to a C++ map:
include/aws/cryptosdk/edk.h, source/keyring_trace.c, source/cipher.c, aws-encryption-sdk-cpp/source/cpputils.cpp.

`aws_byte_buf_eq` and `aws_string_eq` (aws-c-common) compare contents.
-/
namespace Verif

/-- `aws_cryptosdk_edk_eq`, include/aws/cryptosdk/edk.h:112-116. -/
def edkEq (a b : Edk) : Bool :=
  a.ciphertext == b.ciphertext && a.providerInfo == b.providerInfo && a.providerId == b.providerId

/-- `aws_cryptosdk_keyring_trace_record_eq`, source/keyring_trace.c:212-216. -/
def traceRecordEq (a b : TraceRec) : Bool := a.flags == b.flags && a.namespace_ == b.namespace_ && a.name == b.name

/-- The loop of `aws_cryptosdk_keyring_trace_eq`, source/keyring_trace.c:226-231, from `idx` on with `k` records left; `none` is
`abort()`. -/
def traceEqLoop (a b : List TraceRec) : (k idx : Nat) → Option Bool
  | 0, _ => some true
  | k + 1, idx =>
    match a[idx]?, b[idx]? with
    | some x, some y => if !traceRecordEq x y then some false else traceEqLoop a b k (idx + 1)
    | _, _ => none

/-- `aws_cryptosdk_keyring_trace_eq`, source/keyring_trace.c:218-233. -/
def traceEq (a b : List TraceRec) : Option Bool :=
  if a.length ≠ b.length then some false else traceEqLoop a b a.length 0

/-- The members of `struct aws_cryptosdk_alg_properties` that `AlgProps` leaves out, as far as they are tested: whether they are set. -/
structure AlgPtrs where
  cipherName : Bool
  algName : Bool
  impl : Bool
deriving DecidableEq, Repr

/-- `aws_cryptosdk_alg_properties_equal`, source/cipher.c:256-267. -/
def algPropertiesEqual (p q : AlgProps) : Bool :=
  p.dataKeyLen == q.dataKeyLen && p.contentKeyLen == q.contentKeyLen && p.ivLen == q.ivLen && p.tagLen == q.tagLen &&
    p.signatureLen == q.signatureLen && p.algId == q.algId

/-- `aws_cryptosdk_alg_properties_is_valid`, source/cipher.c:269-280; `none` is NULL. -/
def algPropertiesIsValid (p : Option (AlgProps × AlgPtrs)) : Bool :=
  match p with
  | none => false
  | some (p, ptrs) =>
    match algProps p.algId with
    | none => false
    | some std => p.mdName.isSome && ptrs.cipherName && ptrs.algName && ptrs.impl && algPropertiesEqual p std

/-- `Aws::Map<Aws::String, Aws::String>::operator[]` followed by an assignment (`std::map`): the entries are kept in the order of their
keys, which is that of unsigned bytes. -/
def cppMapSet (k v : Bytes) : List (Bytes × Bytes) → List (Bytes × Bytes)
  | [] => [(k, v)]
  | e :: m => if e.1 = k then (k, v) :: m else if bytesLe k e.1 then (k, v) :: e :: m else e :: cppMapSet k v m

/-- `aws_map_from_c_aws_hash_table`, aws-encryption-sdk-cpp/source/cpputils.cpp:49-64, with `aws_string_from_c_aws_string`, 39-41, which
copies all `len` bytes, zeros included; `none` is NULL.  The iteration order of the hash table is that of the list. -/
def mapFromTable (t : Option EncCtx) : List (Bytes × Bytes) :=
  match t with
  | none => []
  | some t => t.foldl (fun m e => cppMapSet e.1 e.2 m) []

end Verif
