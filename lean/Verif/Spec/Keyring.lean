import Verif.Model.DefaultCmm
import Verif.Spec.Alg
import Verif.Spec.Header
/-
Specifications for keyrings and the default CMM, from the documentation in include/aws/cryptosdk/materials.h, multi_keyring.h,
raw_aes_keyring.h, raw_rsa_keyring.h and default_cmm.h and the published formats.  A keyring is only seen through the public calls
`keyringOnEncrypt` and `keyringOnDecrypt`.
-/
namespace Verif.Spec
open Verif

/-- The data key has the length that the published table gives for the suite. -/
def RightLength (alg : Nat) (key : List UInt8) : Prop := ∃ row ∈ suiteTable, row.id = alg ∧ key.length = row.keyBits / 8

/-- The keyrings were called one after the other on the same lists and every call succeeded. -/
inductive AllSucceed (ctx : EncCtx) (alg : Nat) : List Keyring → EncState → EncState → Prop where
  | nil (s) : AllSucceed ctx alg [] s s
  | cons {kr krs s s1 s2} : keyringOnEncrypt kr ctx alg s = (.ok, s1) → AllSucceed ctx alg krs s1 s2 →
      AllSucceed ctx alg (kr :: krs) s s2

/-- As `AllSucceed`, for keyrings that only append: `news` lists what each call appended to the EDK list and to the trace. -/
inductive AllAppend (ctx : EncCtx) (alg : Nat) : List Keyring → EncState → EncState → List (List Edk × List TraceRec) → Prop where
  | nil (s) : AllAppend ctx alg [] s s []
  | cons {kr krs s s1 s2 new news} : keyringOnEncrypt kr ctx alg s = (.ok, s1) → s1.edks = s.edks ++ new.1 →
      s1.trace = s.trace ++ new.2 → AllAppend ctx alg krs s1 s2 news → AllAppend ctx alg (kr :: krs) s s2 (new :: news)

/-- A keyring that follows the documented rule to add only to the lists it is given. -/
def AppendOnly (kr : Keyring) : Prop :=
  ∀ ctx alg s s', keyringOnEncrypt kr ctx alg s = (.ok, s') →
    ∃ new : List Edk × List TraceRec, s'.edks = s.edks ++ new.1 ∧ s'.trace = s.trace ++ new.2

/-- The keyrings were asked one after the other to decrypt and none left a data key; `failed` tells whether one reported an error. -/
inductive NoneDecrypted (edks : List Edk) (ctx : EncCtx) (alg : Nat) : List Keyring → DecState → DecState → Bool → Prop where
  | nil (s) : NoneDecrypted edks ctx alg [] s s false
  | ok {kr krs s s1 s2 failed} : keyringOnDecrypt kr edks ctx alg s = (.ok, s1) → s1.key = none →
      NoneDecrypted edks ctx alg krs s1 s2 failed → NoneDecrypted edks ctx alg (kr :: krs) s s2 failed
  | fail {kr krs s s1 s2 failed} : keyringOnDecrypt kr edks ctx alg s = (.fail, s1) → s1.key = none →
      NoneDecrypted edks ctx alg krs s1 s2 failed → NoneDecrypted edks ctx alg (kr :: krs) s s2 true

/-- The additional authenticated data of a wrapped data key: the serialised encryption context, in the order of its keys. -/
def CtxAad (ctx : EncCtx) (aad : List UInt8) : Prop :=
  ∃ m : List (List UInt8 × List UInt8), m.Perm ctx ∧ m.Pairwise (fun a b => a.1 ≤ b.1) ∧ aad = wireCtx m

/-- The published form of an EDK of the raw AES keyring: provider id = namespace, provider information = key name, tag length in bits,
IV length in bytes and IV, ciphertext = encrypted data key and tag. -/
structure AesEdk (ns name : List UInt8) (keyLen : Nat) (e : Edk) (iv ct tag : List UInt8) : Prop where
  id : e.providerId = ns
  info : e.providerInfo = name ++ u32 128 ++ u32 12 ++ iv
  cipher : e.ciphertext = ct ++ tag
  ivLen : iv.length = 12
  ctLen : ct.length = keyLen
  tagLen : tag.length = 16

/-- EDK `e` is in the form of the raw AES keyring `kr` for data keys of the suite and opens under its key, bound to the encryption
context. -/
def AesOpens (env : KrEnv) (kr : RawAes) (ctx : EncCtx) (alg : Nat) (e : Edk) (key : List UInt8) : Prop :=
  RightLength alg key ∧ kr.ns ≠ [] ∧ kr.key.length ∈ [16, 24, 32] ∧
    ∃ iv ct tag aad, AesEdk kr.ns kr.name key.length e iv ct tag ∧ CtxAad ctx aad ∧
      env.crypto.aeadOpen kr.key iv aad ct tag = .ok key

/-- EDK `e` carries the namespace and name of the raw RSA keyring and its private key opens it. -/
def RsaOpens (env : KrEnv) (kr : RawRsa) (priv : List UInt8) (e : Edk) (key : List UInt8) : Prop :=
  kr.ns ≠ [] ∧ kr.name ≠ [] ∧ e.providerId = kr.ns ∧ e.providerInfo = kr.name ∧ e.ciphertext ≠ [] ∧ kr.padding < 3 ∧
    env.rsaDecrypt priv kr.padding e.ciphertext = .ok key

/-- The first EDK of the list that `Opens` gives `key`. -/
def FirstOpened (Opens : Edk → List UInt8 → Prop) (edks : List Edk) (key : List UInt8) : Prop :=
  ∃ pre e post, edks = pre ++ e :: post ∧ (∀ x ∈ pre, ∀ k, ¬ Opens x k) ∧ Opens e key

/-- The reserved key of the encryption context under which the public key of a signed message travels. -/
def publicKeyName : List UInt8 := "aws-crypto-public-key".toList.map (fun c => UInt8.ofNat c.toNat)

/-- The documented choice of suite: the one requested, else the one configured, else the default of the commitment policy. -/
def ChosenSuite (configured : Option Nat) (req : EncRequest) (alg : Nat) : Prop :=
  (req.requestedAlg ≠ 0 ∧ alg = req.requestedAlg) ∨
  (req.requestedAlg = 0 ∧ configured = some alg) ∨
  (req.requestedAlg = 0 ∧ configured = none ∧ (req.policy = .requireRequire ∨ req.policy = .requireAllow) ∧ alg = 0x0578) ∨
  (req.requestedAlg = 0 ∧ configured = none ∧ ¬ (req.policy = .requireRequire ∨ req.policy = .requireAllow) ∧ alg = 0x0378)

end Verif.Spec
