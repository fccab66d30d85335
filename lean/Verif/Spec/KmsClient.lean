import Verif.Model.KmsClient
import Verif.Spec.KmsErrors
/-
Specifications for the clients of KMS keyrings, from the comments in aws-encryption-sdk-cpp/include/aws/cryptosdk/cpp/kms_keyring.h.
-/
namespace Verif.Spec
open Verif

/-- The client that the last `WithKmsClient` gave. -/
def clientOf (l : List KmsSetting) : Option Nat :=
  match l.reverse.findSome? (fun | .client c => some c | _ => none) with
  | some c => c
  | none => none

/-- The client supplier that the last `WithClientSupplier` gave. -/
def supplierOf (l : List KmsSetting) : Option Supplier :=
  match l.reverse.findSome? (fun | .supplier s => some s | _ => none) with
  | some s => s
  | none => none

/-- The client that the user has fixed for all calls: with `WithKmsClient`, else with a `SingleClientSupplier`. -/
def fixedClient (l : List KmsSetting) : Option Nat :=
  match clientOf l, supplierOf l with
  | some c, _ => some c
  | none, some (.single c) => c
  | none, _ => none

/-- All grant tokens that were added, in order. -/
def tokensOf (l : List KmsSetting) : List (List UInt8) :=
  l.flatMap fun | .grant t => [t] | .grants ts => ts | _ => []

/-- The user builds a keyring with one key and, in this way, a client supplier but no client. -/
def OneKey (job : KmsJob) (sup : Supplier) : Prop :=
  ∃ l, clientOf l = none ∧ supplierOf l = some sup ∧ ((∃ id, job = .build l id []) ∨ ∃ id, job = .mrk l id)

/-- What the user may do: use keyrings that were built; the builder of multi-keyrings has no `WithKmsClient`; names of regions have no
colon. -/
def Allowed (s : KmsSys) : KmsJob → Prop
  | .encrypt l kr _ _ _ _ => (l, kr) ∈ s.built
  | .decrypt l kr _ _ _ _ _ => (l, kr) ∈ s.built
  | .multi l _ _ _ _ => ∀ c, KmsSetting.client c ∉ l
  | .multiDiscovery l _ _ regions _ => (∀ c, KmsSetting.client c ∉ l) ∧ ∀ r ∈ regions, 58 ∉ r
  | _ => True

/-- What a client supplier of the user has to do: "Returns a KMS client for the particular region. Returns a callable at report_success"
(kms_keyring.h:163-164).  It may return no client. -/
def Honest (s : KmsSys) (t : Nat) (ch : KmsChoice) : Prop :=
  ∀ th obj i region k, s.threads[t]? = some (some th) → th.prog = .client (.custom obj) i region k →
    ∀ c, ch.client = some c → s.regions[c]? = some region ∧ ch.setsReport = true

/-- The states in which a program with `n` threads can be that makes only calls of the kinds `P`. -/
inductive KmsReach (P : KmsJob → Prop) (n : Nat) : KmsSys → Prop where
  | init : KmsReach P n { threads := List.replicate n none }
  | makeClient {s} (region) : KmsReach P n s → KmsReach P n (s.makeClient region)
  | makeSupplier {s} : KmsReach P n s → KmsReach P n s.makeSupplier
  | start {s} (t job) : KmsReach P n s → s.threads[t]? = some none → P job → Allowed s job → KmsReach P n (s.start t job)
  | step {s} (t ch) : KmsReach P n s → Honest s t ch → KmsReach P n (s.step t ch)

/-- The accounts that a call of the builder of discovery filters names. -/
def namedAccounts : FilterSetting → List (List UInt8)
  | .add a => [a]
  | .adds as => as
  | .replace as => as

/-- An account is among those of the filter: a call names it, and no later one replaces the accounts. -/
def FilterAccount (l : List FilterSetting) (a : List UInt8) : Prop :=
  ∃ before call after, l = before ++ call :: after ∧ a ∈ namedAccounts call ∧ ∀ as, FilterSetting.replace as ∉ after

/-- The call uses a KMS keyring with this caching client supplier. -/
def UsesCaching (obj : Nat) : KmsJob → Prop
  | .encrypt _ (.kms _ sup) _ _ _ _ => sup = .caching obj
  | .decrypt _ (.kms _ sup) _ _ _ _ _ => sup = .caching obj
  | _ => False

/-- The call builds a multi-keyring. -/
def BuildsMulti : KmsJob → Prop
  | .multi .. | .multiDiscovery .. => True
  | _ => False

end Verif.Spec
namespace Verif

/-- The client with which a call is made. -/
def KmsCall.client : KmsCall → Nat
  | .decrypt c _ => c
  | .encrypt c _ => c
  | .generate c _ => c

/-- The key that a call names. -/
def KmsCall.keyId : KmsCall → Bytes
  | .decrypt _ r => r.keyId
  | .encrypt _ r => r.keyId
  | .generate _ r => r.keyId

/-- The grant tokens of a call. -/
def KmsCall.grants : KmsCall → List Bytes
  | .decrypt _ r => r.grants
  | .encrypt _ r => r.grants
  | .generate _ r => r.grants

/-- The client that the caching client supplier `o` has for a region. -/
def KmsSys.cached (s : KmsSys) (o : Nat) (r : Bytes) : Option Nat := cacheLookup (s.caches.getD o []) r

end Verif
