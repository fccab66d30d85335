import Verif.Model.KeyringTree
/-
Data keys under other names, seen from the keyrings: what a keyring does is compared with what it does when every data key that comes into
being or out of its wrapping is replaced, and everything that wraps data keys undoes the replacement.
-/
namespace Verif.Spec
open Verif

/-- The surroundings of a raw keyring under `φ`.  AES-GCM and RSA make of `φ k` what they made of `k`, and give `φ k` where they gave `k`;
the random bytes for a data key (the draw with number 1) are replaced.  All else is the same. -/
structure RawRewrap (φ : Bytes → Bytes) (e e' : KrEnv) : Prop where
  aesSeal : ∀ key iv aad k, e'.crypto.aeadSeal key iv aad (φ k) = e.crypto.aeadSeal key iv aad k
  aesOpen : ∀ key iv aad ct tag, e'.crypto.aeadOpen key iv aad ct tag = (e.crypto.aeadOpen key iv aad ct tag).map φ
  rsaEncrypt : ∀ pem pad k, e'.rsaEncrypt pem pad (φ k) = e.rsaEncrypt pem pad k
  rsaDecrypt : ∀ pem pad ct, e'.rsaDecrypt pem pad ct = (e.rsaDecrypt pem pad ct).map φ
  iv : ∀ n, e'.random 0 n = e.random 0 n
  dataKey : ∀ n, e'.random 1 n = (e.random 1 n).map φ
  alloc : e'.alloc = e.alloc
  ptr : e'.ptr = e.ptr
  heap : e'.heap = e.heap
  junk : e'.junk = e.junk

/-- The surroundings of a KMS keyring under `φ`: Encrypt answers for `φ k` what it answered for `k`, GenerateDataKey and Decrypt give
`φ k` where they gave `k`.  All else is the same. -/
structure KmsRewrap (φ : Bytes → Bytes) (e e' : KmsEnv) : Prop where
  encrypt : ∀ i c id k ctx grants, e'.encrypt i c ⟨id, φ k, ctx, grants⟩ = e.encrypt i c ⟨id, k, ctx, grants⟩
  generate : ∀ c r, e'.generate c r = (e.generate c r).map (fun x => (x.1, x.2.1, φ x.2.2))
  decrypt : ∀ i c r, e'.decrypt i c r = (e.decrypt i c r).map (fun x => (x.1, φ x.2))
  client : e'.client = e.client
  alloc : e'.alloc = e.alloc
  pushEdk : e'.pushEdk = e.pushEdk
  pushTrace : e'.pushTrace = e.pushTrace
  ptr : e'.ptr = e.ptr
  heap : e'.heap = e.heap

/-- The surroundings of all keyrings of a tree under `φ`, which keeps lengths. -/
structure Rewrap (φ : Bytes → Bytes) (a a' : Around) : Prop where
  len : ∀ k, (φ k).length = k.length
  raw : ∀ p, RawRewrap φ { a.kr p with crypto := a.world.crypto } { a'.kr p with crypto := a'.world.crypto }
  kms : ∀ p, KmsRewrap φ (a.kms p) (a'.kms p)
  multi : a'.multi = a.multi

/-- The buffer of a data key with the replaced contents. -/
def rekeyBuf (φ : Bytes → Bytes) (k : KeyBuf) : KeyBuf := { k with bytes := φ k.bytes }

/-- The in/out arguments of `on_encrypt` and `on_decrypt`, with the data key, if any, replaced: encrypted data keys, keyring trace and last
error are the same. -/
def rekeyEnc (φ : Bytes → Bytes) (s : EncState) : EncState := { s with key := s.key.map (rekeyBuf φ) }

def rekeyDec (φ : Bytes → Bytes) (s : DecState) : DecState := { s with key := s.key.map (rekeyBuf φ) }

/-- Calls of KMS with the data key in them replaced. -/
def rekeyCall (φ : Bytes → Bytes) : KmsCall → KmsCall
  | .encrypt c r => .encrypt c { r with plaintext := φ r.plaintext }
  | x => x

end Verif.Spec
