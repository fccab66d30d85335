import Verif.Model.Kms
/-
Where KMS keyrings get their clients: the client suppliers and builders of aws-encryption-sdk-cpp/source/kms_keyring.cpp and
kms_mrk_keyring.cpp, used by several threads at once.

Operations of keyrings and builders are written here as programs that stop at everything visible from outside: asking a client supplier for
a client, calling `report_success`, calling KMS, making a client or a client supplier.  Run to the end in one go they are the functions of
`Verif.Model.Kms`.  A multi-keyring is represented by its members, whose operations it calls one after the other.
-/
namespace Verif

/-- A `ClientSupplier`: a `SingleClientSupplier` with its client, which may be a null pointer, a `CachingClientSupplier`, which has a number,
or a class of the user. -/
inductive Supplier where
  | single (client : Option Nat)
  | caching (obj : Nat)
  | custom (obj : Nat)
deriving DecidableEq

/-- A program; the numbers `i` count the keys of the operation, as in `KmsEnv`. -/
inductive KmsProg (α : Type) where
  | done (a : α)
  | client (sup : Supplier) (i : Nat) (region : Bytes) (k : Option Nat → KmsProg α)
  | report (k : KmsProg α)
  | decrypt (i client : Nat) (r : KmsDecReq) (k : Option (Bytes × Bytes) → KmsProg α)
  | encrypt (i client : Nat) (r : KmsEncReq) (k : Option (Bytes × Bytes) → KmsProg α)
  | generate (client : Nat) (r : KmsGenReq) (k : Option (Bytes × Bytes × Bytes) → KmsProg α)
  | newClient (region : Bytes) (k : Nat → KmsProg α)
  | newSupplier (k : Nat → KmsProg α)

namespace KmsProg

def bind {α β : Type} (p : KmsProg α) (f : α → KmsProg β) : KmsProg β :=
  match p with
  | .done a => f a
  | .client sup i region k => .client sup i region fun c => bind (k c) f
  | .report k => .report (bind k f)
  | .decrypt i c r k => .decrypt i c r fun a => bind (k a) f
  | .encrypt i c r k => .encrypt i c r fun a => bind (k a) f
  | .generate c r k => .generate c r fun a => bind (k a) f
  | .newClient region k => .newClient region fun n => bind (k n) f
  | .newSupplier k => .newSupplier fun n => bind (k n) f

/-- A program run by itself to the end, with clients and answers of KMS from `env`; new objects get the number 0. -/
def run {α : Type} (env : KmsEnv) : KmsProg α → α × List KmsCall
  | .done a => (a, [])
  | .client _ i region k => run env (k (env.client i region))
  | .report k => run env k
  | .decrypt i c r k => let x := run env (k (env.decrypt i c r)); (x.1, .decrypt c r :: x.2)
  | .encrypt i c r k => let x := run env (k (env.encrypt i c r)); (x.1, .encrypt c r :: x.2)
  | .generate c r k => let x := run env (k (env.generate c r)); (x.1, .generate c r :: x.2)
  | .newClient _ k => run env (k 0)
  | .newSupplier k => run env (k 0)

end KmsProg

/-! ### Operations of the keyrings; of `env` only the outcomes of allocations are used -/

/-- The loop of `OnDecrypt`, aws-encryption-sdk-cpp/source/kms_keyring.cpp:68-158. -/
def kmsDecProg (env : KmsEnv) (sup : Supplier) (kr : KmsKeyring) (ctx : EncCtx) (i : Nat) (s : DecState) : List Edk → KmsProg (KRet × DecState)
  | [] => .done (.ok, s)
  | e :: edks =>
    match kmsPlan kr e with
    | none => kmsDecProg env sup kr ctx (i + 1) s edks
    | some region =>
      .client sup i region fun
        | none => kmsDecProg env sup kr ctx (i + 1) s edks
        | some c =>
          .decrypt i c ⟨e.providerInfo, e.ciphertext, ctx, kr.grants⟩ fun
            | none => kmsDecProg env sup kr ctx (i + 1) s edks
            | some (keyId, plaintext) =>
              .report (.done
                (if keyId = e.providerInfo then
                  match dupKey env plaintext with
                  | none => (.fail, { s with errno := .oom })
                  | some k =>
                    let t := kmsTrace env 0 s.trace s.errno e.providerInfo (4 + 16)
                    (.ok, { key := k, trace := t.1, errno := t.2 })
                else (.fail, { s with errno := .invalidState })))

/-- The loop of `OnEncrypt`, aws-encryption-sdk-cpp/source/kms_keyring.cpp:244-290. -/
def kmsEncProgLoop (env : KmsEnv) (sup : Supplier) (grants : List Bytes) (ctx : EncCtx) (key : Bytes) (i : Nat) (my : KmsLocal) :
    List Bytes → KmsProg (Except Err KmsLocal)
  | [] => .done (.ok my)
  | id :: ids =>
    .client sup i (parseRegion id) fun
      | none => .done (.error .badState)
      | some c =>
        .encrypt i c ⟨id, key, ctx, grants⟩ fun
          | none => .done (.error .kmsFailure)
          | some (keyId, ciphertext) =>
            .report
              (match kmsAppend env i my keyId ciphertext id (2 + 8) with
              | none => .done (.error .oom)
              | some my => kmsEncProgLoop env sup grants ctx key (i + 1) my ids)

/-- `OnEncrypt` from line 241 on, aws-encryption-sdk-cpp/source/kms_keyring.cpp:241-300. -/
def kmsEncProgRest (env : KmsEnv) (sup : Supplier) (kr : KmsKeyring) (ctx : EncCtx) (s : EncState) (key : Option KeyBuf) (fresh : Bool) (i : Nat)
    (my : KmsLocal) (ids : List Bytes) : KmsProg (KRet × EncState) :=
  (kmsEncProgLoop env sup kr.grants ctx (keyBytes key) i my ids).bind fun
    | .error e => .done (.fail, { s with key := if fresh then none else key, errno := e })
    | .ok my => .done (kmsTransfer env s key fresh my)

/-- `OnEncrypt`, aws-encryption-sdk-cpp/source/kms_keyring.cpp:161-301. -/
def kmsEncProg (env : KmsEnv) (sup : Supplier) (kr : KmsKeyring) (ctx : EncCtx) (alg : Nat) (s : EncState) : KmsProg (KRet × EncState) :=
  match kr.keyIds with
  | [] => .done (.ok, s)
  | id :: ids =>
    if !env.alloc .edkList ∨ !env.alloc .traceList then .done (.fail, { s with errno := .oom })
    else match s.key with
      | some k => kmsEncProgRest env sup kr ctx s (some k) false 0 ⟨[], [], s.errno⟩ (id :: ids)
      | none =>
        match algProps alg with
        | none => .done (.fail, { s with errno := .cryptoUnknown })
        | some p =>
          .client sup 0 (parseRegion id) fun
            | none => .done (.fail, { s with errno := .badState })
            | some c =>
              .generate c ⟨id, p.dataKeyLen, ctx, kr.grants⟩ fun
                | none => .done (.fail, { s with errno := .kmsFailure })
                | some (keyId, ciphertext, plaintext) =>
                  .report
                    (match kmsAppend env 0 ⟨[], [], s.errno⟩ keyId ciphertext id (1 + 2 + 8), dupKey env plaintext with
                    | some my, some key => kmsEncProgRest env sup kr ctx s key true 1 my ids
                    | _, _ => .done (.fail, { s with errno := .oom }))

/-- The loop of `OnDecrypt` and its end, aws-encryption-sdk-cpp/source/kms_mrk_keyring.cpp:136-371. -/
def mrkDecProgLoop (env : KmsEnv) (sup : Supplier) (kr : MrkKeyring) (ctx : EncCtx) (alg i : Nat) (failed : Bool) (s : DecState) :
    List Edk → KmsProg (KRet × DecState)
  | [] => .done (if failed then (.fail, { s with errno := .kmsFailure }) else (.ok, s))
  | e :: edks =>
    match mrkPlan kr e with
    | none => mrkDecProgLoop env sup kr ctx alg (i + 1) failed s edks
    | some (region, keyArn) =>
      .client sup i region fun
        | none => mrkDecProgLoop env sup kr ctx alg (i + 1) failed s edks
        | some c =>
          .decrypt i c ⟨keyArn, e.ciphertext, ctx, kr.grants⟩ fun
            | none => mrkDecProgLoop env sup kr ctx alg (i + 1) (failed || !kr.isDiscovery) s edks
            | some (keyId, plaintext) =>
              .report
                (match algProps alg with
                | none => .done (.ub, s)
                | some p =>
                  if plaintext.length ≠ p.contentKeyLen ∨ keyId ≠ keyArn then mrkDecProgLoop env sup kr ctx alg (i + 1) true s edks
                  else match dupKey env plaintext with
                    | none => .done (.fail, { s with errno := .oom })
                    | some k =>
                      let t := kmsTrace env 0 s.trace s.errno e.providerInfo (4 + 16)
                      .done (.ok, { key := k, trace := t.1, errno := t.2 }))

/-- `OnDecrypt`, aws-encryption-sdk-cpp/source/kms_mrk_keyring.cpp:83-372. -/
def mrkDecProg (env : KmsEnv) (sup : Supplier) (kr : MrkKeyring) (edks : List Edk) (ctx : EncCtx) (alg : Nat) (s : DecState) :
    KmsProg (KRet × DecState) :=
  if (keyBytes s.key).length ≠ 0 then .done (.ok, s) else mrkDecProgLoop env sup kr ctx alg 0 false s edks

/-- `OnEncrypt`, aws-encryption-sdk-cpp/source/kms_mrk_keyring.cpp:377-608. -/
def mrkEncProg (env : KmsEnv) (sup : Supplier) (kr : MrkKeyring) (ctx : EncCtx) (alg : Nat) (s : EncState) : KmsProg (KRet × EncState) :=
  if kr.isDiscovery then .done (.fail, { s with errno := .badState })
  else if !env.alloc .edkList ∨ !env.alloc .traceList then .done (.fail, { s with errno := .oom })
  else match s.key with
    | none =>
      match algProps alg with
      | none => .done (.fail, { s with errno := .cryptoUnknown })
      | some p =>
        .client sup 0 (parseRegion kr.keyId) fun
          | none => .done (.fail, { s with errno := .badState })
          | some c =>
            .generate c ⟨kr.keyId, p.dataKeyLen, ctx, kr.grants⟩ fun
              | none => .done (.fail, { s with errno := .kmsFailure })
              | some (keyId, ciphertext, plaintext) =>
                if plaintext.length ≠ p.contentKeyLen ∨ !isValidKeyArn (arnParse keyId) then .done (.fail, { s with errno := .kmsFailure })
                else .report
                  (match kmsAppend env 0 ⟨[], [], s.errno⟩ keyId ciphertext kr.keyId (1 + 2 + 8), dupKey env plaintext with
                  | some my, some key => .done (kmsTransfer env s key true my)
                  | _, _ => .done (.fail, { s with errno := .oom }))
    | some k =>
      .client sup 0 (parseRegion kr.keyId) fun
        | none => .done (.fail, { s with errno := .badState })
        | some c =>
          .encrypt 0 c ⟨kr.keyId, k.bytes, ctx, kr.grants⟩ fun
            | none => .done (.fail, { s with errno := .kmsFailure })
            | some (keyId, ciphertext) =>
              if !isValidKeyArn (arnParse keyId) then .done (.fail, { s with errno := .kmsFailure })
              else .report
                (match kmsAppend env 0 ⟨[], [], s.errno⟩ keyId ciphertext kr.keyId (2 + 8) with
                | none => .done (.fail, { s with errno := .oom })
                | some my => .done (kmsTransfer env s (some k) false my))

/-! ### Builders -/

/-- The members of `KmsKeyring::Builder` (include/aws/cryptosdk/cpp/kms_keyring.h:148-151) and of the builders of kms_mrk_keyring.h; that of
multi-keyrings has no client. -/
structure KmsBuilder where
  client : Option Nat := none
  supplier : Option Supplier := none
  grants : List Bytes := []

/-- A call of a builder's `With...` function; null pointers may be set. -/
inductive KmsSetting where
  | grant (t : Bytes)
  | grants (ts : List Bytes)
  | supplier (s : Option Supplier)
  | client (c : Option Nat)
deriving DecidableEq

/-- aws-encryption-sdk-cpp/source/kms_keyring.cpp:445-464 and kms_mrk_keyring.cpp:701-734. -/
def KmsBuilder.apply (b : KmsBuilder) : KmsSetting → KmsBuilder
  | .grant t => { b with grants := b.grants ++ [t] }
  | .grants ts => { b with grants := b.grants ++ ts }
  | .supplier s => { b with supplier := s }
  | .client c => { b with client := c }

/-- A builder on which these functions were called in turn. -/
def KmsBuilder.ofSettings (l : List KmsSetting) : KmsBuilder := l.foldl KmsBuilder.apply {}

/-- A call of `DiscoveryFilterBuilder`. -/
inductive FilterSetting where
  | add (account : Bytes)
  | adds (accounts : List Bytes)
  | replace (accounts : List Bytes)

/-- aws-encryption-sdk-cpp/source/kms_keyring.cpp:482-497; the set of accounts is a list. -/
def applyFilterSetting (accounts : List Bytes) : FilterSetting → List Bytes
  | .add a => accounts ++ [a]
  | .adds as => accounts ++ as
  | .replace as => as

/-- `DiscoveryFilter::Builder(partition)`, calls of the builder, and `Build`, aws-encryption-sdk-cpp/source/kms_keyring.cpp:477-518. -/
def discoveryFilterOf (partition : Bytes) (l : List FilterSetting) : Option DiscoveryFilter :=
  discoveryFilterBuild partition (l.foldl applyFilterSetting [])

/-- `BuildClientSupplier`, aws-encryption-sdk-cpp/source/kms_keyring.cpp:366-395. -/
def buildSupplier (keyIds : List Bytes) (b : KmsBuilder) : KmsProg Supplier :=
  match b.client with
  | some c => .done (.single (some c))
  | none =>
    match keyIds with
    | [id] =>
      match b.supplier with
      | some s => .client s 0 (parseRegion id) fun c => .report (.done (.single c))
      | none => .newClient (parseRegion id) fun c => .done (.single (some c))
    | _ =>
      match b.supplier with
      | some s => .done s
      | none => .newSupplier fun n => .done (.caching n)

/-- A keyring with its supplier. -/
inductive KmsBuilt where
  | kms (kr : KmsKeyring) (sup : Supplier)
  | mrk (kr : MrkKeyring) (sup : Supplier)
deriving DecidableEq

/-- `KmsKeyring::Builder::Build`, aws-encryption-sdk-cpp/source/kms_keyring.cpp:397-420. -/
def kmsBuildProg (b : KmsBuilder) (generator : Bytes) (additional : List Bytes) : KmsProg (Option KmsBuilt) :=
  match kmsBuild b.grants generator additional with
  | .error _ => .done none
  | .ok kr => (buildSupplier kr.keyIds b).bind fun s => .done (some (.kms kr s))

/-- `KmsKeyring::Builder::BuildDiscovery()`, aws-encryption-sdk-cpp/source/kms_keyring.cpp:422-429. -/
def kmsBuildDiscoveryProg (b : KmsBuilder) : KmsProg (Option KmsBuilt) :=
  (buildSupplier [] b).bind fun s => .done (some (.kms (kmsBuildDiscovery b.grants) s))

/-- `KmsKeyring::Builder::BuildDiscovery(filter)`, aws-encryption-sdk-cpp/source/kms_keyring.cpp:431-443. -/
def kmsBuildFilterProg (b : KmsBuilder) (f : Option DiscoveryFilter) : KmsProg (Option KmsBuilt) :=
  match kmsBuildDiscoveryFilter b.grants f with
  | none => .done none
  | some kr => (buildSupplier [] b).bind fun s => .done (some (.kms kr s))

/-- `Builder::Build`, aws-encryption-sdk-cpp/source/kms_mrk_keyring.cpp:629-649. -/
def mrkBuildProg (b : KmsBuilder) (keyId : Bytes) : KmsProg (Option KmsBuilt) :=
  match mrkBuild b.grants keyId with
  | .error _ => .done none
  | .ok kr => (buildSupplier [keyId] b).bind fun s => .done (some (.mrk kr s))

/-- `Builder::BuildDiscovery(region)`, aws-encryption-sdk-cpp/source/kms_mrk_keyring.cpp:660-676. -/
def mrkBuildDiscoveryProg (b : KmsBuilder) (region : Bytes) : KmsProg (Option KmsBuilt) :=
  match mrkBuildDiscovery b.grants b.supplier.isSome b.client.isSome region with
  | none => .done none
  | some kr => .done (some (.mrk kr (.single b.client)))

/-- `Builder::BuildDiscovery(region, filter)`, aws-encryption-sdk-cpp/source/kms_mrk_keyring.cpp:678-699. -/
def mrkBuildFilterProg (b : KmsBuilder) (region : Bytes) (f : Option DiscoveryFilter) : KmsProg (Option KmsBuilt) :=
  match mrkBuildDiscoveryFilter b.grants b.supplier.isSome b.client.isSome region f with
  | none => .done none
  | some kr => .done (some (.mrk kr (.single b.client)))

/-- The loop over the children, aws-encryption-sdk-cpp/source/kms_mrk_keyring.cpp:844-870; `child i` tells whether memory for the `i`-th
entry of the list of children was available. -/
def mrkChildrenProg (child : Nat → Bool) (sup : Supplier) (grants : List Bytes) (i : Nat) : List Bytes → KmsProg (Option (List KmsBuilt))
  | [] => .done (some [])
  | id :: ids =>
    if parseRegion id = [] then .done none
    else .client sup 0 (parseRegion id) fun
      | none => .done none
      | some c =>
        (mrkBuildProg { client := some c, grants := grants } id).bind fun
          | none => .done none
          | some kr =>
            if !child i then .done none
            else (mrkChildrenProg child sup grants (i + 1) ids).bind fun
              | none => .done none
              | some krs => .done (some (kr :: krs))

/-- The generator, aws-encryption-sdk-cpp/source/kms_mrk_keyring.cpp:807-827. -/
def mrkGeneratorProg (sup : Supplier) (grants : List Bytes) (generator : Bytes) : KmsProg (Option (List KmsBuilt)) :=
  if generator = [] then .done (some [])
  else .client sup 0 (parseRegion generator) fun
    | none => .done none
    | some c =>
      (mrkBuildProg { client := some c, grants := grants } generator).bind fun
        | none => .done none
        | some kr => .done (some [kr])

/-- `client_supplier_or_default`, aws-encryption-sdk-cpp/source/kms_mrk_keyring.cpp:799-800 and 924-925. -/
def supplierOrDefault (b : KmsBuilder) : KmsProg Supplier :=
  match b.supplier with
  | some s => .done s
  | none => .newSupplier fun n => .done (.caching n)

/-- `MultiKeyringBuilder::_Build`, aws-encryption-sdk-cpp/source/kms_mrk_keyring.cpp:752-893: the members of the new multi-keyring, the
generator first. -/
def mrkMultiProg_ (multi : Bool) (child : Nat → Bool) (b : KmsBuilder) (generator : Bytes) (additional : List Bytes) :
    KmsProg (Option (List KmsBuilt)) :=
  if [] ∈ additional then .done none
  else
    let all := (if generator.length > 0 then [generator] else []) ++ additional
    if all = [] then .done none
    else if (findDuplicateMrks all).length > 0 then .done none
    else (supplierOrDefault b).bind fun sup =>
      (mrkGeneratorProg sup b.grants generator).bind fun
        | none => .done none
        | some g =>
          if !multi then .done none
          else (mrkChildrenProg child sup b.grants 0 additional).bind fun
            | none => .done none
            | some krs => .done (some (g ++ krs))

/-- `MultiKeyringBuilder::Build`, aws-encryption-sdk-cpp/source/kms_mrk_keyring.cpp:736-748, with or without a generator. -/
def mrkMultiProg (multi : Bool) (child : Nat → Bool) (b : KmsBuilder) (generator : Option Bytes) (additional : List Bytes) :
    KmsProg (Option (List KmsBuilt)) :=
  match generator with
  | some g => if g.length = 0 then .done none else mrkMultiProg_ multi child b g additional
  | none => mrkMultiProg_ multi child b [] additional

/-- The loop over the regions, aws-encryption-sdk-cpp/source/kms_mrk_keyring.cpp:942-960. -/
def mrkRegionsProg (child : Nat → Bool) (sup : Supplier) (grants : List Bytes) (f : Option DiscoveryFilter) (i : Nat) :
    List Bytes → KmsProg (Option (List KmsBuilt))
  | [] => .done (some [])
  | region :: regions =>
    .client sup 0 region fun
      | none => .done none
      | some c =>
        (mrkBuildFilterProg { client := some c, grants := grants } region f).bind fun
          | none => .done none
          | some kr =>
            if !child i then .done none
            else (mrkRegionsProg child sup grants f (i + 1) regions).bind fun
              | none => .done none
              | some krs => .done (some (kr :: krs))

/-- `MultiKeyringBuilder::BuildDiscovery`, aws-encryption-sdk-cpp/source/kms_mrk_keyring.cpp:897-975. -/
def mrkMultiDiscoveryProg (multi : Bool) (child : Nat → Bool) (b : KmsBuilder) (regions : List Bytes) (f : Option DiscoveryFilter) :
    KmsProg (Option (List KmsBuilt)) :=
  if regions = [] then .done none
  else if [] ∈ regions then .done none
  else (supplierOrDefault b).bind fun sup =>
    if !multi then .done none else mrkRegionsProg child sup b.grants f 0 regions

/-! ### Threads -/

/-- What the user asks for. -/
inductive KmsJob where
  | build (l : List KmsSetting) (generator : Bytes) (additional : List Bytes)
  | discovery (l : List KmsSetting) (filter : Option (Option DiscoveryFilter))
  | mrk (l : List KmsSetting) (keyId : Bytes)
  | mrkDiscovery (l : List KmsSetting) (region : Bytes) (filter : Option (Option DiscoveryFilter))
  | multi (l : List KmsSetting) (mem : Bool) (child : Nat → Bool) (generator : Option Bytes) (additional : List Bytes)
  | multiDiscovery (l : List KmsSetting) (mem : Bool) (child : Nat → Bool) (regions : List Bytes) (filter : Option DiscoveryFilter)
  | encrypt (owner : List KmsSetting) (kr : KmsBuilt) (mem : KmsEnv) (ctx : EncCtx) (alg : Nat) (s : EncState)
  | decrypt (owner : List KmsSetting) (kr : KmsBuilt) (mem : KmsEnv) (edks : List Edk) (ctx : EncCtx) (alg : Nat) (s : DecState)

/-- What a call returns. -/
inductive KmsResult where
  | keyrings (l : List KmsBuilt)
  | null
  | encrypted (r : KRet) (s : EncState)
  | decrypted (r : KRet) (s : DecState)
  /-- `std::bad_function_call` -/
  | threw

def KmsResult.ofKeyring : Option KmsBuilt → KmsResult
  | none => .null
  | some k => .keyrings [k]

def KmsResult.ofKeyrings : Option (List KmsBuilt) → KmsResult
  | none => .null
  | some l => .keyrings l

/-- The program of a call. -/
def KmsJob.prog : KmsJob → KmsProg KmsResult
  | .build l g a => (kmsBuildProg (.ofSettings l) g a).bind fun r => .done (.ofKeyring r)
  | .discovery l none => (kmsBuildDiscoveryProg (.ofSettings l)).bind fun r => .done (.ofKeyring r)
  | .discovery l (some f) => (kmsBuildFilterProg (.ofSettings l) f).bind fun r => .done (.ofKeyring r)
  | .mrk l id => (mrkBuildProg (.ofSettings l) id).bind fun r => .done (.ofKeyring r)
  | .mrkDiscovery l region none => (mrkBuildDiscoveryProg (.ofSettings l) region).bind fun r => .done (.ofKeyring r)
  | .mrkDiscovery l region (some f) => (mrkBuildFilterProg (.ofSettings l) region f).bind fun r => .done (.ofKeyring r)
  | .multi l mem child g a => (mrkMultiProg mem child (.ofSettings l) g a).bind fun r => .done (.ofKeyrings r)
  | .multiDiscovery l mem child rs f => (mrkMultiDiscoveryProg mem child (.ofSettings l) rs f).bind fun r => .done (.ofKeyrings r)
  | .encrypt _ (.kms kr sup) mem ctx alg s => (kmsEncProg mem sup kr ctx alg s).bind fun r => .done (.encrypted r.1 r.2)
  | .encrypt _ (.mrk kr sup) mem ctx alg s => (mrkEncProg mem sup kr ctx alg s).bind fun r => .done (.encrypted r.1 r.2)
  | .decrypt _ (.kms kr sup) mem edks ctx _ s => (kmsDecProg mem sup kr ctx 0 s edks).bind fun r => .done (.decrypted r.1 r.2)
  | .decrypt _ (.mrk kr sup) mem edks ctx alg s => (mrkDecProg mem sup kr edks ctx alg s).bind fun r => .done (.decrypted r.1 r.2)

/-- The value of the local variable `report_success`: `unset` as it was declared, a function that does nothing, or one that enters a client
into the map of a `CachingClientSupplier`. -/
inductive Report where
  | unset
  | noop
  | store (obj : Nat) (region : Bytes) (client : Nat)
deriving DecidableEq

/-- A thread: the call it is in, what is left of it, its `report_success`, and whether it is between lines 357 and 358 of
kms_keyring.cpp, having found no client in the map. -/
structure KmsThread where
  job : KmsJob
  prog : KmsProg KmsResult
  report : Report := .unset
  missed : Bool := false

/-- The memory that the threads share: `regions` lists the regions with which the clients were made, in order (the empty one is the default of
the AWS SDK); `caches` has the maps of the `CachingClientSupplier`s.  `log` lists the calls of KMS with their success, `built` the keyrings,
each with the calls of its builder. -/
structure KmsSys where
  regions : List Bytes := []
  caches : List (List (Bytes × Nat)) := []
  threads : List (Option KmsThread) := []
  log : List (KmsJob × KmsCall × Bool) := []
  built : List (List KmsSetting × KmsBuilt) := []

/-- What the outside decides in a step: the answers of KMS, the client that a client supplier of the user returns, and whether it sets
`report_success`. -/
structure KmsChoice where
  answer : Option (Bytes × Bytes) := none
  generated : Option (Bytes × Bytes × Bytes) := none
  client : Option Nat := none
  setsReport : Bool := false

/-- `cache.find(region)`. -/
def cacheLookup (m : List (Bytes × Nat)) (region : Bytes) : Option Nat := (m.find? fun e => e.1 = region).map (·.2)

/-- `cache[region] = client`. -/
def cacheAssign (m : List (Bytes × Nat)) (region : Bytes) (client : Nat) : List (Bytes × Nat) :=
  (region, client) :: m.filter fun e => e.1 ≠ region

/-- The settings of the builder of a job. -/
def KmsJob.settings : KmsJob → List KmsSetting
  | .build l _ _ => l
  | .discovery l _ => l
  | .mrk l _ => l
  | .mrkDiscovery l _ _ => l
  | .multi l _ _ _ _ => l
  | .multiDiscovery l _ _ _ _ => l
  | .encrypt l _ _ _ _ _ => l
  | .decrypt l _ _ _ _ _ _ => l

/-- The keyrings among the results of a call. -/
def KmsResult.new (l : List KmsSetting) : KmsResult → List (List KmsSetting × KmsBuilt)
  | .keyrings ks => ks.map fun k => (l, k)
  | _ => []

/-- A step of a thread.
`client`: `SingleClientSupplier::GetClient`, kms_keyring.cpp:339-343; `CachingClientSupplier::GetClient`, lines 349-364, where looking into the
map, under its lock, is one step and making a client the next (nothing calls a supplier that does not exist); or a function of the user.  `report_success` is a new variable for every call of
`GetClient`.  `report`: calling it, lines 360-361; calling one that was never set throws.  `newClient`: `CreateDefaultKmsClient`, lines
320-332.  `newSupplier`: `CachingClientSupplier::Create`, lines 345-347.  `done`: the call returns. -/
def KmsSys.step (s : KmsSys) (t : Nat) (ch : KmsChoice) : KmsSys :=
  match s.threads[t]? with
  | some (some th) =>
    match th.prog with
    | .done r => { s with threads := s.threads.set t none, built := s.built ++ r.new th.job.settings }
    | .client sup _ region k =>
      match sup with
      | .single c => { s with threads := s.threads.set t (some { th with prog := k c, report := .noop }) }
      | .custom _ => { s with threads := s.threads.set t (some { th with prog := k ch.client, report := if ch.setsReport then .noop else .unset }) }
      | .caching o =>
        if s.caches.length ≤ o then s
        else if th.missed then
          { s with
            regions := s.regions ++ [region]
            threads := s.threads.set t
              (some { th with prog := k (some s.regions.length), report := .store o region s.regions.length, missed := false }) }
        else
          match cacheLookup (s.caches.getD o []) region with
          | some c => { s with threads := s.threads.set t (some { th with prog := k (some c), report := .noop }) }
          | none => { s with threads := s.threads.set t (some { th with missed := true }) }
    | .report k =>
      match th.report with
      | .unset => { s with threads := s.threads.set t (some { th with prog := .done .threw }) }
      | .noop => { s with threads := s.threads.set t (some { th with prog := k }) }
      | .store o region c =>
        { s with
          caches := s.caches.set o (cacheAssign (s.caches.getD o []) region c)
          threads := s.threads.set t (some { th with prog := k }) }
    | .decrypt _ c r k =>
      { s with
        log := s.log ++ [(th.job, .decrypt c r, ch.answer.isSome)]
        threads := s.threads.set t (some { th with prog := k ch.answer }) }
    | .encrypt _ c r k =>
      { s with
        log := s.log ++ [(th.job, .encrypt c r, ch.answer.isSome)]
        threads := s.threads.set t (some { th with prog := k ch.answer }) }
    | .generate c r k =>
      { s with
        log := s.log ++ [(th.job, .generate c r, ch.generated.isSome)]
        threads := s.threads.set t (some { th with prog := k ch.generated }) }
    | .newClient region k =>
      { s with
        regions := s.regions ++ [region]
        threads := s.threads.set t (some { th with prog := k s.regions.length }) }
    | .newSupplier k =>
      { s with
        caches := s.caches ++ [[]]
        threads := s.threads.set t (some { th with prog := k s.caches.length }) }
  | _ => s

/-- A thread that is in no call begins one. -/
def KmsSys.start (s : KmsSys) (t : Nat) (job : KmsJob) : KmsSys :=
  { s with threads := s.threads.set t (some { job := job, prog := job.prog }) }

/-- The user makes a client for a region. -/
def KmsSys.makeClient (s : KmsSys) (region : Bytes) : KmsSys := { s with regions := s.regions ++ [region] }

/-- The user calls `CachingClientSupplier::Create`. -/
def KmsSys.makeSupplier (s : KmsSys) : KmsSys := { s with caches := s.caches ++ [[]] }

end Verif
