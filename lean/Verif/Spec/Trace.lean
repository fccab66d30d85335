import Verif.Spec.KeyringTree
import Verif.Spec.Session
/-
What a keyring trace ought to say, include/aws/cryptosdk/keyring_trace.h: which wrapping keys did what.
-/
namespace Verif.Spec

/-- The flags of a record. -/
def generatedFlag : Nat := 1
def encryptedFlag : Nat := 2
def decryptedFlag : Nat := 4
def signedFlag : Nat := 8
def verifiedFlag : Nat := 16

/-- The record of a wrapping key that encrypted the data key, and if `generated` also made it.  Raw RSA keyrings do not bind the
encryption context.  The name of a KMS key is its configured identifier as a C string. -/
def wrapRecord (generated : Bool) : Source → TraceRec
  | .raw (.aes kr) => ⟨kr.ns, kr.name, (if generated then generatedFlag else 0) + encryptedFlag + signedFlag⟩
  | .raw (.rsa kr) => ⟨kr.ns, kr.name, (if generated then generatedFlag else 0) + encryptedFlag⟩
  | .kms id => ⟨ascii "aws-kms", id.takeWhile (· ≠ 0), (if generated then generatedFlag else 0) + encryptedFlag + signedFlag⟩

/-- The records of wrapping keys that encrypted the data key in this order; `fresh` tells that there was no data key before the first. -/
def wrapRecords (fresh : Bool) : List Source → List TraceRec
  | [] => []
  | x :: xs => wrapRecord fresh x :: xs.map (wrapRecord false)

/-- The lists correspond element by element. -/
inductive InOrder (R : α → β → Prop) : List α → List β → Prop where
  | nil : InOrder R [] []
  | cons {a b as bs} : R a b → InOrder R as bs → InOrder R (a :: as) (b :: bs)

/-- The encrypted data key `e` is one that the wrapping key at this position makes of the data key `key`. -/
def EdkOf (a : Around) (ctx : EncCtx) (key : Bytes) : List Nat × Source → Edk → Prop
  | (_, .raw (.aes kr)), e => ∃ iv ct tag, AesEdk kr.ns kr.name key.length e iv ct tag
  | (_, .raw (.rsa kr)), e => e.providerId = kr.ns ∧ e.providerInfo = kr.name
  | (p, .kms id), e => KmsMade (a.kms p) id ctx key e

/-- There is memory for all records. -/
structure TraceMemory (a : Around) : Prop where
  raw : ∀ p, (a.kr p).alloc .traceRecord = true
  kms : ∀ p i, (a.kms p).alloc (.trace i) = true ∧ (a.kms p).pushTrace i = true
  multi : ∀ p i, (a.multi p).pushTrace i = true

/-- The keyring at this position unwrapped an encrypted data key of the list to `key`; the record says so.  Names are those in the
encrypted data key. -/
inductive Unwrapped (a : Around) (edks : List Edk) (ctx : EncCtx) (alg : Nat) (key : Bytes) : List Nat × Leaf → TraceRec → Prop where
  | aes {p kr e} : e ∈ edks → AesOpens ((a.at p).krEnv 0) kr ctx alg e key →
      Unwrapped a edks ctx alg key (p, .raw (.aes kr)) ⟨kr.ns, kr.name, decryptedFlag + verifiedFlag⟩
  | rsa {p kr priv e} : e ∈ edks → kr.priv = some priv → RsaOpens (a.kr p) kr priv e key →
      Unwrapped a edks ctx alg key (p, .raw (.rsa kr)) ⟨kr.ns, kr.name, decryptedFlag⟩
  | kms {p kr e region i c} : e ∈ edks → MayTry kr e region → (a.kms p).client i region = some c →
      (a.kms p).decrypt i c ⟨e.providerInfo, e.ciphertext, ctx, kr.grants⟩ = some (e.providerInfo, key) →
      Unwrapped a edks ctx alg key (p, .kms kr) ⟨ascii "aws-kms", e.providerInfo.takeWhile (· ≠ 0), decryptedFlag + verifiedFlag⟩
  | mrk {p kr e region keyId i c} : e ∈ edks → MrkMayTry kr e region keyId → (a.kms p).client i region = some c →
      (a.kms p).decrypt i c ⟨keyId, e.ciphertext, ctx, kr.grants⟩ = some (keyId, key) → RightLength alg key →
      Unwrapped a edks ctx alg key (p, .mrk kr) ⟨ascii "aws-kms", e.providerInfo.takeWhile (· ≠ 0), decryptedFlag + verifiedFlag⟩

/-- KMS, asked to generate a data key, does not give an empty one. -/
def GivesKeys1 (a : Around) : Prop :=
  ∀ p c r keyId ciphertext plaintext, r.numBytes ≠ 0 → (a.kms p).generate c r = some (keyId, ciphertext, plaintext) → plaintext ≠ []

/-- KMS, asked to decrypt, does not answer with an empty plaintext. -/
def OpensKeys (a : Around) : Prop := ∀ p i c r keyId plaintext, (a.kms p).decrypt i c r = some (keyId, plaintext) → plaintext ≠ []

/-- What a call of `on_decrypt` without a data key before it left: the trace grew by `extra`, which are records of keyrings to which
KMS gave an empty plaintext, and by `last`; if there is a data key, one of the keyrings in `xs` unwrapped it from one of the encrypted
data keys, and `last` is the record of that, unless there was no memory for it. -/
def OpenedBy (a : Around) (edks : List Edk) (ctx : EncCtx) (alg : Nat) (xs : List (List Nat × Leaf)) (s s' : DecState) : Prop :=
  ∃ extra last, s'.trace = s.trace ++ extra ++ last ∧ (∀ r ∈ extra, ∃ p kr, (p, .kms kr) ∈ xs ∧ Unwrapped a edks ctx alg [] (p, .kms kr) r) ∧
    match s'.key with
    | none => last = []
    | some k => ∃ x ∈ xs, ∃ r, Unwrapped a edks ctx alg k.bytes x r ∧ (last = [r] ∨ last = [] ∧ ¬ TraceMemory a)

/-- The sessions of a user with the keyring `t`, a default CMM and the default suite `alg`. -/
def TreeSessions (A : Around → Prop) (t : KrTree) (alg : Option Nat) : Env → Prop :=
  fun e => ∃ a, A a ∧ e = a.world.envWith (t.keyring a []) alg

/-- Where the trace of a session comes from, for sessions in whose environments `E` holds: from the materials that the CMM gave for
this message; in encryption sessions that have not failed, the encrypted data keys in the header are those of the same materials. -/
def TraceOf (E : Env → Prop) (s : Session) (trace : List TraceRec) : Prop :=
  ∃ e, E e ∧
    ((s.mode = .encrypt ∧ ∃ req m, DistinctKeys req.encCtx ∧ e.cmm.generate req = (s.header.encCtx, .ok m) ∧ trace = m.trace ∧
        m.dataKey ≠ [] ∧ (s.state ≠ .error → s.header.edks = m.edks)) ∨
     (s.mode.isDecrypt = true ∧ ∃ m, e.cmm.decrypt { encCtx := s.header.encCtx, edks := s.header.edks, alg := s.header.algId } = .ok m ∧
        trace = m.trace ∧ DistinctKeys s.header.encCtx))

end Verif.Spec
