import Verif.Spec.Kms
import Verif.Spec.KeyringErrors
/-
When the KMS keyrings fail to encrypt or to be built: the checks they make, in order; the first one that fails decides.
-/
namespace Verif.Spec
open Verif

/-- The region whose client serves the key: that of its resource name, or the empty one if the identifier has none. -/
def ClientRegion (id region : List UInt8) : Prop := HasRegion id region ∨ ((∀ r, ¬ HasRegion id r) ∧ region = [])

/-- There is no client for the `i`-th key. -/
def NoClient (env : KmsEnv) (i : Nat) (id : List UInt8) : Prop := ∃ region, ClientRegion id region ∧ env.client i region = none

/-- KMS, called with the client for the key `id`, the first of the keyring, answers a request for a data key for the suite. -/
def GenAnswer (env : KmsEnv) (grants : List (List UInt8)) (ctx : EncCtx) (row : SuiteRow) (id : List UInt8)
    (answer : Option (List UInt8 × List UInt8 × List UInt8)) : Prop :=
  ∃ region c, ClientRegion id region ∧ env.client 0 region = some c ∧ env.generate c ⟨id, row.keyBits / 8, ctx, grants⟩ = answer

/-- KMS, called with the client for the `i`-th key, answers a request to encrypt a data key. -/
def EncAnswer (env : KmsEnv) (grants : List (List UInt8)) (ctx : EncCtx) (i : Nat) (id key : List UInt8)
    (answer : Option (List UInt8 × List UInt8)) : Prop :=
  ∃ region c, ClientRegion id region ∧ env.client i region = some c ∧ env.encrypt i c ⟨id, key, ctx, grants⟩ = answer

/-- The data key to encrypt: the one given, or else the one that KMS generates with the first key. -/
def KmsDataKey (env : KmsEnv) (grants : List (List UInt8)) (ctx : EncCtx) (row : SuiteRow) (id : List UInt8) (s : EncState)
    (key : List UInt8) : Prop :=
  (∃ k, s.key = some k ∧ key = k.bytes) ∨ (s.key = none ∧ ∃ used ciphertext, GenAnswer env grants ctx row id (some (used, ciphertext, key)))

/-- The checks for encrypting the data key under the `i`-th key. -/
def wrapChecks (env : KmsEnv) (grants : List (List UInt8)) (ctx : EncCtx) (DataKey : List UInt8 → Prop) (id : List UInt8) (i : Nat) : List Check :=
  [failsIf (NoClient env i id) .badState,
   failsIf (∃ key, DataKey key ∧ EncAnswer env grants ctx i id key none) .kmsFailure,
   failsIf (env.alloc (.edk i) = false) .oom]

/-- The checks of an encryption call with a strict KMS keyring for these keys.  A data key that KMS generates is not encrypted again under
the key it was generated with. -/
def kmsEncryptChecks (env : KmsEnv) (grants : List (List UInt8)) (generator : List UInt8) (additional : List (List UInt8)) (ctx : EncCtx)
    (row : SuiteRow) (s : EncState) : List Check :=
  [failsIf (s.key = none ∧ s.edks ≠ []) .badState,
   failsIf (env.alloc .edkList = false ∨ env.alloc .traceList = false) .oom,
   failsIf (s.key = none ∧ NoClient env 0 generator) .badState,
   failsIf (s.key = none ∧ GenAnswer env grants ctx row generator none) .kmsFailure,
   failsIf (s.key = none ∧ (env.alloc (.edk 0) = false ∨
     env.alloc .dataKey = false ∧ ∃ key, KmsDataKey env grants ctx row generator s key ∧ key ≠ [])) .oom] ++
  (if s.key.isNone then additional.zipIdx 1 else (generator :: additional).zipIdx).flatMap
    (fun x => wrapChecks env grants ctx (KmsDataKey env grants ctx row generator s) x.1 x.2) ++
  [failsIf (∃ j < additional.length + 1, env.pushEdk j = false) .oom,
   failsIf (s.key = none ∧ ∃ key, KmsDataKey env grants ctx row generator s key ∧ key ≠ [] ∧ key.length ≠ row.keyBits / 8) .badState]

/-- The checks of an encryption call with a strict MRK-aware keyring.  It looks at what KMS answers. -/
def mrkEncryptChecks (env : KmsEnv) (grants : List (List UInt8)) (keyId : List UInt8) (ctx : EncCtx) (row : SuiteRow) (s : EncState) : List Check :=
  [failsIf (s.key = none ∧ s.edks ≠ []) .badState,
   failsIf (env.alloc .edkList = false ∨ env.alloc .traceList = false) .oom,
   failsIf (NoClient env 0 keyId) .badState,
   failsIf (s.key = none ∧ ∃ answer, GenAnswer env grants ctx row keyId answer ∧
     ∀ used ciphertext key, answer = some (used, ciphertext, key) → key.length ≠ row.keyBits / 8 ∨ ¬ IsKeyArn used) .kmsFailure,
   failsIf (∃ k answer, s.key = some k ∧ EncAnswer env grants ctx 0 keyId k.bytes answer ∧
     ∀ used ciphertext, answer = some (used, ciphertext) → ¬ IsKeyArn used) .kmsFailure,
   failsIf (env.alloc (.edk 0) = false ∨ s.key = none ∧ env.alloc .dataKey = false) .oom,
   failsIf (env.pushEdk 0 = false) .oom]

/-- A multi-keyring can have these children: every identifier is valid and has a region, for which there is a client, and there is memory
for each child. -/
def ChildrenBuild (env : MultiBuildEnv) (additional : List (List UInt8)) : Prop :=
  ∀ i id, additional[i]? = some id → ValidIdentifier id ∧ env.child i = true ∧ ∃ region, HasRegion id region ∧ env.client region = true

end Verif.Spec
