import Verif.Model.Kms
import Verif.Spec.Keyring
/-
Specifications for KMS keyrings, from the AWS documentation of resource names and from the comments in
aws-encryption-sdk-cpp/include/aws/cryptosdk/cpp/kms_keyring.h and kms_mrk_keyring.h.
-/
namespace Verif.Spec
open Verif

/-- `s` is the resource name "arn:partition:service:region:account:resource". -/
def IsArn (s partition service region account resource : List UInt8) : Prop :=
  s = ascii "arn:" ++ partition ++ ascii ":" ++ service ++ ascii ":" ++ region ++ ascii ":" ++ account ++ ascii ":" ++ resource ∧
    58 ∉ partition ∧ 58 ∉ service ∧ 58 ∉ region ∧ 58 ∉ account

/-- A resource "kind/id", where any number of slashes in front of it or between the two parts counts as none or one. -/
def IsResource (resource kind id : List UInt8) : Prop :=
  (∃ m n, resource = List.replicate m 47 ++ kind ++ List.replicate (n + 1) 47 ++ id) ∧
    kind ≠ [] ∧ 47 ∉ kind ∧ id ≠ [] ∧ id.head? ≠ some 47

/-- A KMS resource name with no empty part. -/
def IsKmsArn (s partition region account resource kind id : List UInt8) : Prop :=
  IsArn s partition (ascii "kms") region account resource ∧ partition ≠ [] ∧ region ≠ [] ∧ account ≠ [] ∧ IsResource resource kind id

/-- The resource name of a KMS key or alias. -/
def IsKeyArn (s : List UInt8) : Prop :=
  ∃ partition region account resource kind id, IsKmsArn s partition region account resource kind id ∧
    (kind = ascii "key" ∨ kind = ascii "alias")

/-- The resource name of a multi-Region key: a key whose id begins with "mrk-". -/
def IsMrkArn (s partition region account resource id : List UInt8) : Prop :=
  IsKmsArn s partition region account resource (ascii "key") id ∧ ascii "mrk-" <+: id

/-- The same key, or two resource names of one multi-Region key, which differ at most in the region. -/
def SameMrk (s t : List UInt8) : Prop :=
  s = t ∨ ∃ partition region region' account resource id, IsMrkArn s partition region account resource id ∧
    IsMrkArn t partition region' account resource id

/-- The identifier denotes the multi-Region key with this id. -/
def DenotesMrk (s id : List UInt8) : Prop :=
  (∃ partition region account resource, IsMrkArn s partition region account resource id) ∨ (s = id ∧ ascii "mrk-" <+: s)

/-- Two of the identifiers denote the same multi-Region key. -/
def TwoAlike (ids : List Bytes) : Prop :=
  ∃ i j : Nat, i < j ∧ ∃ a b k, ids[i]? = some a ∧ ids[j]? = some b ∧ DenotesMrk a k ∧ DenotesMrk b k

/-- A valid identifier: the resource name of a key or alias, "alias/...", or a key id. -/
def ValidIdentifier (s : List UInt8) : Prop :=
  IsKeyArn s ∨ (58 ∉ s ∧ (47 ∈ s → ascii "alias/" <+: s))

/-- `s` begins like a KMS resource name with this region, which is not empty: "arn:...:kms:region:...". -/
def HasRegion (s region : List UInt8) : Prop :=
  (∃ partition rest, s = ascii "arn:" ++ partition ++ ascii ":kms:" ++ region ++ ascii ":" ++ rest ∧ 58 ∉ partition) ∧
    58 ∉ region ∧ region ≠ []

/-- The filter lets KMS be called for a key: its resource name has the partition and one of the accounts of the filter. -/
def Allows (f : DiscoveryFilter) (s : List UInt8) : Prop :=
  ∃ service region account resource, IsArn s f.partition service region account resource ∧ account ∈ f.accounts

/-- KMS keyring `kr` may try to decrypt EDK `e`, in this region: the EDK is one of KMS, its key is configured unless the keyring is in
discovery mode, and the filter, if there is one, allows it. -/
def MayTry (kr : KmsKeyring) (e : Edk) (region : List UInt8) : Prop :=
  e.providerId = ascii "aws-kms" ∧ (kr.keyIds ≠ [] → e.providerInfo ∈ kr.keyIds) ∧ (∀ f, kr.filter = some f → Allows f e.providerInfo) ∧
    HasRegion e.providerInfo region

/-- MRK-aware keyring `kr` may try to decrypt EDK `e` by asking KMS in `region` to use the key `keyId`.  In strict mode the key is the
configured one, which is the same multi-Region key as that of the EDK, or the same key.  In discovery mode the region is that of the
keyring; the key is that of the EDK if it is in the region, and for a multi-Region key its replica in the region. -/
def MrkMayTry (kr : MrkKeyring) (e : Edk) (region keyId : List UInt8) : Prop :=
  e.providerId = ascii "aws-kms" ∧
    ∃ p r acct res id, IsKmsArn e.providerInfo p r acct res (ascii "key") id ∧ ascii "key" <+: res ∧
      ((kr.keyId ≠ [] ∧ SameMrk kr.keyId e.providerInfo ∧ keyId = kr.keyId ∧
          ∃ p' acct' res', IsArn kr.keyId p' (ascii "kms") region acct' res') ∨
       (kr.keyId = [] ∧ region = kr.region ∧ (∀ f, kr.filter = some f → Allows f e.providerInfo) ∧
          ((ascii "mrk-" <+: id ∧
              keyId = ascii "arn:" ++ p ++ ascii ":kms:" ++ kr.region ++ ascii ":" ++ acct ++ ascii ":" ++ res) ∨
           (¬ ascii "mrk-" <+: id ∧ r = kr.region ∧ keyId = e.providerInfo))))

/-- The EDKs were taken in turn and none gave a data key; `i` is the number of the first.  `mayTry` tells for which EDKs KMS may be asked, in
which region and to use which key.  An EDK for which that is not so, or for which there is no client, was passed over.  For every other
one KMS was called once, and failed or gave an answer (key used, plaintext) that the keyring rejects.  `calls` lists the calls,
`reported` tells whether something happened that the keyring reports. -/
inductive NoKey (env : KmsEnv) (ctx : EncCtx) (grants : List (List UInt8)) (mayTry : Edk → List UInt8 → List UInt8 → Prop)
    (rejects : List UInt8 → List UInt8 → List UInt8 → Prop) (reportsFailures : Bool) : Nat → List Edk → List KmsCall → Bool → Prop where
  | nil (i) : NoKey env ctx grants mayTry rejects reportsFailures i [] [] false
  | pass {i e edks calls reported} : (∀ region keyId, mayTry e region keyId → env.client i region = none) →
      NoKey env ctx grants mayTry rejects reportsFailures (i + 1) edks calls reported →
      NoKey env ctx grants mayTry rejects reportsFailures i (e :: edks) calls reported
  | failed {i e edks calls reported region keyId c} : mayTry e region keyId → env.client i region = some c →
      env.decrypt i c ⟨keyId, e.ciphertext, ctx, grants⟩ = none →
      NoKey env ctx grants mayTry rejects reportsFailures (i + 1) edks calls reported →
      NoKey env ctx grants mayTry rejects reportsFailures i (e :: edks) (.decrypt c ⟨keyId, e.ciphertext, ctx, grants⟩ :: calls)
        (reportsFailures || reported)
  | rejected {i e edks calls reported region keyId c used plaintext} : mayTry e region keyId → env.client i region = some c →
      env.decrypt i c ⟨keyId, e.ciphertext, ctx, grants⟩ = some (used, plaintext) → rejects keyId used plaintext →
      NoKey env ctx grants mayTry rejects reportsFailures (i + 1) edks calls reported →
      NoKey env ctx grants mayTry rejects reportsFailures i (e :: edks) (.decrypt c ⟨keyId, e.ciphertext, ctx, grants⟩ :: calls) true

/-- As `NoKey` for the EDKs before `e`; then KMS was called for `e` and answered with (key used, plaintext). -/
def Answered (env : KmsEnv) (ctx : EncCtx) (grants : List (List UInt8)) (mayTry : Edk → List UInt8 → List UInt8 → Prop)
    (rejects : List UInt8 → List UInt8 → List UInt8 → Prop) (reportsFailures : Bool) (edks : List Edk) (e : Edk)
    (keyId used plaintext : List UInt8) (calls : List KmsCall) : Prop :=
  ∃ pre post before reported region c, edks = pre ++ e :: post ∧
    NoKey env ctx grants mayTry rejects reportsFailures 0 pre before reported ∧ mayTry e region keyId ∧
    env.client pre.length region = some c ∧
    env.decrypt pre.length c ⟨keyId, e.ciphertext, ctx, grants⟩ = some (used, plaintext) ∧
    calls = before ++ [.decrypt c ⟨keyId, e.ciphertext, ctx, grants⟩]

/-- What an MRK-aware keyring rejects: an answer for another key than the one asked for, or with a data key whose length is not that of the
suite. -/
def Rejects (alg : Nat) (keyId used plaintext : List UInt8) : Prop := used ≠ keyId ∨ ¬ RightLength alg plaintext

/-- KMS encrypted the data key `key` under each of the keys, called in the region of each with a client for it, and gave the EDKs.  The
`i`-th key is the first of the list. -/
inductive Wraps (env : KmsEnv) (grants : List (List UInt8)) (ctx : EncCtx) (key : List UInt8) : Nat → List (List UInt8) → List Edk → Prop where
  | nil (i) : Wraps env grants ctx key i [] []
  | cons {i id ids region c keyId ciphertext edks} : HasRegion id region → env.client i region = some c →
      env.encrypt i c ⟨id, key, ctx, grants⟩ = some (keyId, ciphertext) → Wraps env grants ctx key (i + 1) ids edks →
      Wraps env grants ctx key i (id :: ids) (⟨ascii "aws-kms", keyId, ciphertext⟩ :: edks)

end Verif.Spec
