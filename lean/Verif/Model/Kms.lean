import Verif.Model.Keyring
import Verif.Model.Arn
/-
KMS keyrings: aws-encryption-sdk-cpp/source/kms_keyring.cpp and aws-encryption-sdk-cpp/source/kms_mrk_keyring.cpp.

The KMS service is a parameter: it may answer each call in any way.  The calls that a keyring operation makes are returned with its
result.  A client of the AWS SDK is represented by a number.  Writing to the log and `report_success` are not modelled.
-/
namespace Verif

/-- A KMS Decrypt request. -/
structure KmsDecReq where
  keyId : Bytes
  ciphertext : Bytes
  ctx : EncCtx
  grants : List Bytes
deriving DecidableEq

/-- A KMS Encrypt request. -/
structure KmsEncReq where
  keyId : Bytes
  plaintext : Bytes
  ctx : EncCtx
  grants : List Bytes
deriving DecidableEq

/-- A KMS GenerateDataKey request. -/
structure KmsGenReq where
  keyId : Bytes
  numBytes : Nat
  ctx : EncCtx
  grants : List Bytes
deriving DecidableEq

/-- A call made with a client. -/
inductive KmsCall where
  | decrypt (client : Nat) (r : KmsDecReq)
  | encrypt (client : Nat) (r : KmsEncReq)
  | generate (client : Nat) (r : KmsGenReq)
deriving DecidableEq

/-- Allocations of a KMS keyring operation. -/
inductive KmsSite where
  | edkList | traceList | edk (i : Nat) | dataKey | trace (i : Nat)
deriving DecidableEq, Repr

/-- What a KMS keyring operation meets outside: clients for regions and answers of KMS (`i` counts the encrypted data keys or key
identifiers of the operation; `none` is a failed call, or no client), outcomes of allocations and of pushes onto the caller's lists, and
address and allocator of a new data key buffer. -/
structure KmsEnv where
  client : (i : Nat) → (region : Bytes) → Option Nat
  decrypt : (i client : Nat) → KmsDecReq → Option (Bytes × Bytes)
  encrypt : (i client : Nat) → KmsEncReq → Option (Bytes × Bytes)
  generate : (client : Nat) → KmsGenReq → Option (Bytes × Bytes × Bytes)
  alloc : KmsSite → Bool
  pushEdk : Nat → Bool
  pushTrace : Nat → Bool
  ptr : Nat
  heap : Nat

/-- `KmsKeyring::DiscoveryFilter`. -/
structure DiscoveryFilter where
  partition : Bytes
  accounts : List Bytes
deriving DecidableEq

/-- `DiscoveryFilter::IsAuthorized`, aws-encryption-sdk-cpp/source/kms_keyring.cpp:466-475. -/
def DiscoveryFilter.isAuthorized (f : DiscoveryFilter) (s : Bytes) : Bool :=
  match arnParse s with
  | none => false
  | some a => a.partition = f.partition ∧ a.account ∈ f.accounts

/-- The condition of aws-encryption-sdk-cpp/source/kms_keyring.cpp:98 and kms_mrk_keyring.cpp:193. -/
def blockedBy (f : Option DiscoveryFilter) (s : Bytes) : Bool :=
  match f with
  | none => false
  | some f => !f.isAuthorized s

/-- `DiscoveryFilterBuilder::Build`, aws-encryption-sdk-cpp/source/kms_keyring.cpp:499-518. -/
def discoveryFilterBuild (partition : Bytes) (accounts : List Bytes) : Option DiscoveryFilter :=
  if accounts = [] then none
  else if partition = [] then none
  else if [] ∈ accounts then none
  else some ⟨partition, accounts⟩

/-- `KEY_PROVIDER_STR`, aws-encryption-sdk-cpp/source/kms_keyring.cpp:42 and kms_mrk_keyring.cpp:52. -/
def kmsProvider : Bytes := ascii "aws-kms"

/-- A C string: the bytes before the first zero. -/
def cstr (s : Bytes) : Bytes := s.takeWhile (· ≠ 0)

/-- `aws_cryptosdk_keyring_trace_add_record_c_str`, source/keyring_trace.c:129-146; its result is ignored. -/
def kmsTrace (env : KmsEnv) (i : Nat) (t : List TraceRec) (errno : Err) (name : Bytes) (flags : Nat) : List TraceRec × Err :=
  if env.alloc (.trace i) then (t ++ [⟨kmsProvider, cstr name, flags⟩], errno) else (t, .oom)

/-- `aws_byte_buf_dup_from_aws_utils`, aws-encryption-sdk-cpp/source/cpputils.cpp:43-47: the copy of an empty buffer has a NULL
pointer. -/
def dupKey (env : KmsEnv) (plaintext : Bytes) : Option (Option KeyBuf) :=
  if plaintext = [] then some none
  else if env.alloc .dataKey then some (some ⟨env.ptr, plaintext, plaintext.length, env.heap⟩)
  else none

/-! ### KMS keyring -/

/-- `KmsKeyringImpl`, aws-encryption-sdk-cpp/include/aws/cryptosdk/private/kms_keyring.h:46-86. -/
structure KmsKeyring where
  keyIds : List Bytes
  grants : List Bytes
  filter : Option DiscoveryFilter
deriving DecidableEq

/-- `KmsKeyring::Builder::Build`, aws-encryption-sdk-cpp/source/kms_keyring.cpp:397-420. -/
def kmsBuild (grants : List Bytes) (generator : Bytes) (additional : List Bytes) : Except Err KmsKeyring :=
  if parseRegion generator = [] then .error .invalidArgument
  else if additional.any (fun k => parseRegion k = []) then .error .invalidArgument
  else .ok ⟨generator :: additional, grants, none⟩

/-- `KmsKeyring::Builder::BuildDiscovery`, aws-encryption-sdk-cpp/source/kms_keyring.cpp:422-443, without a filter. -/
def kmsBuildDiscovery (grants : List Bytes) : KmsKeyring := ⟨[], grants, none⟩

/-- `KmsKeyring::Builder::BuildDiscovery`, aws-encryption-sdk-cpp/source/kms_keyring.cpp:431-443, with a filter, which may be a null
pointer. -/
def kmsBuildDiscoveryFilter (grants : List Bytes) (f : Option DiscoveryFilter) : Option KmsKeyring :=
  match f with
  | none => none
  | some f => some ⟨[], grants, some f⟩

/-- The checks before KMS is called for an encrypted data key, aws-encryption-sdk-cpp/source/kms_keyring.cpp:76-113: the region, or
`none` for `continue`. -/
def kmsPlan (kr : KmsKeyring) (e : Edk) : Option Bytes :=
  if e.providerId ≠ kmsProvider then none
  else if kr.keyIds ≠ [] ∧ e.providerInfo ∉ kr.keyIds then none
  else if blockedBy kr.filter e.providerInfo then none
  else if parseRegion e.providerInfo = [] then none
  else some (parseRegion e.providerInfo)

/-- The loop of `OnDecrypt`, aws-encryption-sdk-cpp/source/kms_keyring.cpp:68-158. -/
def kmsDecLoop (env : KmsEnv) (kr : KmsKeyring) (ctx : EncCtx) (i : Nat) (s : DecState) : List Edk → KRet × DecState × List KmsCall
  | [] => (.ok, s, [])
  | e :: edks =>
    match kmsPlan kr e with
    | none => kmsDecLoop env kr ctx (i + 1) s edks
    | some region =>
      match env.client i region with
      | none => kmsDecLoop env kr ctx (i + 1) s edks
      | some c =>
        let req : KmsDecReq := ⟨e.providerInfo, e.ciphertext, ctx, kr.grants⟩
        match env.decrypt i c req with
        | none =>
          let r := kmsDecLoop env kr ctx (i + 1) s edks
          (r.1, r.2.1, .decrypt c req :: r.2.2)
        | some (keyId, plaintext) =>
          if keyId = e.providerInfo then
            match dupKey env plaintext with
            | none => (.fail, { s with errno := .oom }, [.decrypt c req])
            | some k =>
              let t := kmsTrace env 0 s.trace s.errno e.providerInfo (4 + 16)
              (.ok, { key := k, trace := t.1, errno := t.2 }, [.decrypt c req])
          else (.fail, { s with errno := .invalidState }, [.decrypt c req])

/-- `OnDecrypt`, aws-encryption-sdk-cpp/source/kms_keyring.cpp:49-159. -/
def kmsOnDecrypt (env : KmsEnv) (kr : KmsKeyring) (edks : List Edk) (ctx : EncCtx) (s : DecState) : KRet × DecState × List KmsCall :=
  kmsDecLoop env kr ctx 0 s edks

/-- The local lists of `OnEncrypt`. -/
structure KmsLocal where
  edks : List Edk
  trace : List TraceRec
  errno : Err

/-- `append_key_dup_to_edks`, aws-encryption-sdk-cpp/source/cpputils.cpp:66-103, and the trace record that follows it. -/
def kmsAppend (env : KmsEnv) (i : Nat) (my : KmsLocal) (keyId ciphertext name : Bytes) (flags : Nat) : Option KmsLocal :=
  if env.alloc (.edk i) then
    let t := kmsTrace env i my.trace my.errno name flags
    some ⟨my.edks ++ [⟨kmsProvider, keyId, ciphertext⟩], t.1, t.2⟩
  else none

/-- The loop of `OnEncrypt`, aws-encryption-sdk-cpp/source/kms_keyring.cpp:244-290, over the key identifiers from number `i` on. -/
def kmsEncLoop (env : KmsEnv) (grants : List Bytes) (ctx : EncCtx) (key : Bytes) (i : Nat) (my : KmsLocal) :
    List Bytes → Except Err KmsLocal × List KmsCall
  | [] => (.ok my, [])
  | id :: ids =>
    match env.client i (parseRegion id) with
    | none => (.error .badState, [])
    | some c =>
      let req : KmsEncReq := ⟨id, key, ctx, grants⟩
      match env.encrypt i c req with
      | none => (.error .kmsFailure, [.encrypt c req])
      | some (keyId, ciphertext) =>
        match kmsAppend env i my keyId ciphertext id (2 + 8) with
        | none => (.error .oom, [.encrypt c req])
        | some my =>
          let r := kmsEncLoop env grants ctx key (i + 1) my ids
          (r.1, .encrypt c req :: r.2)

/-- The transfers at the end of `OnEncrypt`, aws-encryption-sdk-cpp/source/kms_keyring.cpp:291-300: `key` is the data key and `fresh`
tells whether this call generated it.  After a failed transfer the elements already transferred stay in the caller's list, although their
buffers are freed with the local list. -/
def kmsTransfer (env : KmsEnv) (s : EncState) (key : Option KeyBuf) (fresh : Bool) (my : KmsLocal) : KRet × EncState :=
  let e := transferLoop env.pushEdk 0 s.edks my.edks
  if !e.2 then (.fail, { key := if fresh then none else key, trace := s.trace, edks := e.1, errno := .oom })
  else
    let t := transferLoop env.pushTrace 0 s.trace my.trace
    (.ok, { key := key, trace := t.1, edks := e.1, errno := if t.2 then my.errno else .oom })

/-- The bytes of a data key buffer, `aws_utils_byte_buffer_from_c_aws_byte_buf`, aws-encryption-sdk-cpp/source/cpputils.cpp:35-37. -/
def keyBytes : Option KeyBuf → Bytes
  | none => []
  | some k => k.bytes

/-- `OnEncrypt` from line 241 on, aws-encryption-sdk-cpp/source/kms_keyring.cpp:241-300. -/
def kmsEncRest (env : KmsEnv) (kr : KmsKeyring) (ctx : EncCtx) (s : EncState) (key : Option KeyBuf) (fresh : Bool) (i : Nat) (my : KmsLocal)
    (ids : List Bytes) : KRet × EncState × List KmsCall :=
  match kmsEncLoop env kr.grants ctx (keyBytes key) i my ids with
  | (.error e, calls) => (.fail, { s with key := if fresh then none else key, errno := e }, calls)
  | (.ok my, calls) =>
    let r := kmsTransfer env s key fresh my
    (r.1, r.2, calls)

/-- `OnEncrypt`, aws-encryption-sdk-cpp/source/kms_keyring.cpp:161-301. -/
def kmsOnEncrypt (env : KmsEnv) (kr : KmsKeyring) (ctx : EncCtx) (alg : Nat) (s : EncState) : KRet × EncState × List KmsCall :=
  match kr.keyIds with
  | [] => (.ok, s, [])
  | id :: ids =>
    if !env.alloc .edkList ∨ !env.alloc .traceList then (.fail, { s with errno := .oom }, [])
    else match s.key with
      | some k => kmsEncRest env kr ctx s (some k) false 0 ⟨[], [], s.errno⟩ (id :: ids)
      | none =>
        match algProps alg with
        | none => (.fail, { s with errno := .cryptoUnknown }, [])
        | some p =>
          match env.client 0 (parseRegion id) with
          | none => (.fail, { s with errno := .badState }, [])
          | some c =>
            let req : KmsGenReq := ⟨id, p.dataKeyLen, ctx, kr.grants⟩
            match env.generate c req with
            | none => (.fail, { s with errno := .kmsFailure }, [.generate c req])
            | some (keyId, ciphertext, plaintext) =>
              match kmsAppend env 0 ⟨[], [], s.errno⟩ keyId ciphertext id (1 + 2 + 8), dupKey env plaintext with
              | some my, some key =>
                let r := kmsEncRest env kr ctx s key true 1 my ids
                (r.1, r.2.1, .generate c req :: r.2.2)
              | _, _ => (.fail, { s with errno := .oom }, [.generate c req])

/-- A KMS keyring. -/
def kmsKeyring (env : KmsEnv) (kr : KmsKeyring) : Keyring :=
  { onEncrypt := some (fun ctx alg s => let r := kmsOnEncrypt env kr ctx alg s; (r.1, r.2.1))
    onDecrypt := some (fun edks ctx _ s => let r := kmsOnDecrypt env kr edks ctx s; (r.1, r.2.1)) }

/-! ### MRK-aware keyring -/

/-- `KmsMrkAwareSymmetricKeyringImpl`, aws-encryption-sdk-cpp/include/aws/cryptosdk/private/kms_mrk_keyring.h:55-102. -/
structure MrkKeyring where
  keyId : Bytes
  grants : List Bytes
  region : Bytes
  filter : Option DiscoveryFilter
deriving DecidableEq

/-- `is_discovery`, aws-encryption-sdk-cpp/source/kms_mrk_keyring.cpp:59-61. -/
def MrkKeyring.isDiscovery (kr : MrkKeyring) : Bool := kr.keyId.length = 0

/-- `Builder::Build`, aws-encryption-sdk-cpp/source/kms_mrk_keyring.cpp:629-649. -/
def mrkBuild (grants : List Bytes) (keyId : Bytes) : Except Err MrkKeyring :=
  if keyId = [] ∨ !isValidIdentifier keyId then .error .invalidArgument else .ok ⟨keyId, grants, [], none⟩

/-- `Builder::BuildDiscovery`, aws-encryption-sdk-cpp/source/kms_mrk_keyring.cpp:660-676: with a client (`client`) and no client supplier
(`supplier`). -/
def mrkBuildDiscovery (grants : List Bytes) (supplier client : Bool) (region : Bytes) : Option MrkKeyring :=
  if supplier ∨ !client then none else some ⟨[], grants, region, none⟩

/-- `Builder::BuildDiscovery` with a filter, which may be a null pointer, aws-encryption-sdk-cpp/source/kms_mrk_keyring.cpp:678-699. -/
def mrkBuildDiscoveryFilter (grants : List Bytes) (supplier client : Bool) (region : Bytes) (f : Option DiscoveryFilter) : Option MrkKeyring :=
  if region = [] then none else if supplier ∨ !client then none else some ⟨[], grants, region, f⟩

/-- `replace_arn_region`, aws-encryption-sdk-cpp/source/kms_mrk_keyring.cpp:67-72. -/
def replaceRegion (a : Arn) (region : Bytes) : Bytes :=
  ascii "arn:" ++ a.partition ++ ascii ":" ++ a.service ++ ascii ":" ++ region ++ ascii ":" ++ a.account ++ ascii ":" ++ a.resource

/-- `ARN(s).GetRegion()` (AWS SDK for C++): empty if `s` is not a resource name. -/
def arnRegion (s : Bytes) : Bytes :=
  match arnParse s with
  | none => []
  | some a => a.region

/-- The checks before KMS is called for an encrypted data key, aws-encryption-sdk-cpp/source/kms_mrk_keyring.cpp:150-212 and 226-242: the
region of the client and the key identifier of the request, or `none` for `continue`. -/
def mrkPlan (kr : MrkKeyring) (e : Edk) : Option (Bytes × Bytes) :=
  if e.providerId ≠ kmsProvider then none
  else match arnParse e.providerInfo with
    | none => none
    | some a =>
      if !isValidKeyArn (some a) ∨ !startsWith a.resource (ascii "key") then none
      else if kr.isDiscovery then
        if !isMrkIdentifier e.providerInfo ∧ kr.region ≠ a.region then none
        else if blockedBy kr.filter e.providerInfo then none
        else some (kr.region, if isMrkIdentifier e.providerInfo then replaceRegion a kr.region else e.providerInfo)
      else
        if isMrkIdentifier e.providerInfo then
          if mrkMatch kr.keyId e.providerInfo then some (arnRegion kr.keyId, kr.keyId) else none
        else if kr.keyId = e.providerInfo then some (arnRegion kr.keyId, e.providerInfo) else none

/-- The loop of `OnDecrypt` and its end, aws-encryption-sdk-cpp/source/kms_mrk_keyring.cpp:136-371; `failed` is
`failed_decrypt_attempt`.  Unknown suites have no properties, so that reading the key length dereferences NULL (line 319). -/
def mrkDecLoop (env : KmsEnv) (kr : MrkKeyring) (ctx : EncCtx) (alg i : Nat) (failed : Bool) (s : DecState) :
    List Edk → KRet × DecState × List KmsCall
  | [] => if failed then (.fail, { s with errno := .kmsFailure }, []) else (.ok, s, [])
  | e :: edks =>
    match mrkPlan kr e with
    | none => mrkDecLoop env kr ctx alg (i + 1) failed s edks
    | some (region, keyArn) =>
      match env.client i region with
      | none => mrkDecLoop env kr ctx alg (i + 1) failed s edks
      | some c =>
        let req : KmsDecReq := ⟨keyArn, e.ciphertext, ctx, kr.grants⟩
        match env.decrypt i c req with
        | none =>
          let r := mrkDecLoop env kr ctx alg (i + 1) (failed || !kr.isDiscovery) s edks
          (r.1, r.2.1, .decrypt c req :: r.2.2)
        | some (keyId, plaintext) =>
          match algProps alg with
          | none => (.ub, s, [.decrypt c req])
          | some p =>
            if plaintext.length ≠ p.contentKeyLen ∨ keyId ≠ keyArn then
              let r := mrkDecLoop env kr ctx alg (i + 1) true s edks
              (r.1, r.2.1, .decrypt c req :: r.2.2)
            else match dupKey env plaintext with
              | none => (.fail, { s with errno := .oom }, [.decrypt c req])
              | some k =>
                let t := kmsTrace env 0 s.trace s.errno e.providerInfo (4 + 16)
                (.ok, { key := k, trace := t.1, errno := t.2 }, [.decrypt c req])

/-- `OnDecrypt`, aws-encryption-sdk-cpp/source/kms_mrk_keyring.cpp:83-372. -/
def mrkOnDecrypt (env : KmsEnv) (kr : MrkKeyring) (edks : List Edk) (ctx : EncCtx) (alg : Nat) (s : DecState) :
    KRet × DecState × List KmsCall :=
  if (keyBytes s.key).length ≠ 0 then (.ok, s, []) else mrkDecLoop env kr ctx alg 0 false s edks

/-- The end of `OnEncrypt`, aws-encryption-sdk-cpp/source/kms_mrk_keyring.cpp:599-607. -/
def mrkEncFinish (env : KmsEnv) (s : EncState) (key : Option KeyBuf) (fresh : Bool) (my : KmsLocal) (call : KmsCall) :
    KRet × EncState × List KmsCall :=
  let r := kmsTransfer env s key fresh my
  (r.1, r.2, [call])

/-- `OnEncrypt`, aws-encryption-sdk-cpp/source/kms_mrk_keyring.cpp:377-608. -/
def mrkOnEncrypt (env : KmsEnv) (kr : MrkKeyring) (ctx : EncCtx) (alg : Nat) (s : EncState) : KRet × EncState × List KmsCall :=
  if kr.isDiscovery then (.fail, { s with errno := .badState }, [])
  else if !env.alloc .edkList ∨ !env.alloc .traceList then (.fail, { s with errno := .oom }, [])
  else match s.key with
    | none =>
      match algProps alg with
      | none => (.fail, { s with errno := .cryptoUnknown }, [])
      | some p =>
        match env.client 0 (parseRegion kr.keyId) with
        | none => (.fail, { s with errno := .badState }, [])
        | some c =>
          let req : KmsGenReq := ⟨kr.keyId, p.dataKeyLen, ctx, kr.grants⟩
          match env.generate c req with
          | none => (.fail, { s with errno := .kmsFailure }, [.generate c req])
          | some (keyId, ciphertext, plaintext) =>
            if plaintext.length ≠ p.contentKeyLen ∨ !isValidKeyArn (arnParse keyId) then
              (.fail, { s with errno := .kmsFailure }, [.generate c req])
            else match kmsAppend env 0 ⟨[], [], s.errno⟩ keyId ciphertext kr.keyId (1 + 2 + 8), dupKey env plaintext with
              | some my, some key => mrkEncFinish env s key true my (.generate c req)
              | _, _ => (.fail, { s with errno := .oom }, [.generate c req])
    | some k =>
      match env.client 0 (parseRegion kr.keyId) with
      | none => (.fail, { s with errno := .badState }, [])
      | some c =>
        let req : KmsEncReq := ⟨kr.keyId, k.bytes, ctx, kr.grants⟩
        match env.encrypt 0 c req with
        | none => (.fail, { s with errno := .kmsFailure }, [.encrypt c req])
        | some (keyId, ciphertext) =>
          if !isValidKeyArn (arnParse keyId) then (.fail, { s with errno := .kmsFailure }, [.encrypt c req])
          else match kmsAppend env 0 ⟨[], [], s.errno⟩ keyId ciphertext kr.keyId (2 + 8) with
            | none => (.fail, { s with errno := .oom }, [.encrypt c req])
            | some my => mrkEncFinish env s (some k) false my (.encrypt c req)

/-- An MRK-aware keyring. -/
def mrkKeyring (env : KmsEnv) (kr : MrkKeyring) : Keyring :=
  { onEncrypt := some (fun ctx alg s => let r := mrkOnEncrypt env kr ctx alg s; (r.1, r.2.1))
    onDecrypt := some (fun edks ctx alg s => let r := mrkOnDecrypt env kr edks ctx alg s; (r.1, r.2.1)) }

/-! ### MRK-aware multi-keyrings -/

/-- What building a multi-keyring meets outside: whether the client supplier has a client for a region, and whether memory for the
multi-keyring and for its `i`-th child was available. -/
structure MultiBuildEnv where
  client : Bytes → Bool
  multi : Bool
  child : Nat → Bool

/-- The loop over the children, aws-encryption-sdk-cpp/source/kms_mrk_keyring.cpp:844-870. -/
def mrkChildren (env : MultiBuildEnv) (grants : List Bytes) (i : Nat) : List Bytes → Option (List MrkKeyring)
  | [] => some []
  | id :: ids =>
    if parseRegion id = [] then none
    else if !env.client (parseRegion id) then none
    else match mrkBuild grants id with
      | .error _ => none
      | .ok kr =>
        if !env.child i then none
        else match mrkChildren env grants (i + 1) ids with
          | none => none
          | some krs => some (kr :: krs)

/-- The generator, aws-encryption-sdk-cpp/source/kms_mrk_keyring.cpp:807-827. -/
def mrkGenerator (env : MultiBuildEnv) (grants : List Bytes) (generator : Bytes) : Option (Option MrkKeyring) :=
  if generator = [] then some none
  else if !env.client (parseRegion generator) then none
  else match mrkBuild grants generator with
    | .error _ => none
    | .ok kr => some (some kr)

/-- `MultiKeyringBuilder::_Build`, aws-encryption-sdk-cpp/source/kms_mrk_keyring.cpp:752-893: generator and children of the new
multi-keyring, or `none` for a null pointer. -/
def mrkMultiBuild_ (env : MultiBuildEnv) (grants : List Bytes) (generator : Bytes) (additional : List Bytes) :
    Option (Option MrkKeyring × List MrkKeyring) :=
  if [] ∈ additional then none
  else
    let all := (if generator.length > 0 then [generator] else []) ++ additional
    if all = [] then none
    else if (findDuplicateMrks all).length > 0 then none
    else match mrkGenerator env grants generator with
      | none => none
      | some g =>
        if !env.multi then none
        else match mrkChildren env grants 0 additional with
          | none => none
          | some krs => some (g, krs)

/-- `MultiKeyringBuilder::Build` with a generator, aws-encryption-sdk-cpp/source/kms_mrk_keyring.cpp:736-743. -/
def mrkMultiBuild (env : MultiBuildEnv) (grants : List Bytes) (generator : Bytes) (additional : List Bytes) :
    Option (Option MrkKeyring × List MrkKeyring) :=
  if generator.length = 0 then none else mrkMultiBuild_ env grants generator additional

/-- `MultiKeyringBuilder::Build` without a generator, aws-encryption-sdk-cpp/source/kms_mrk_keyring.cpp:745-748. -/
def mrkMultiBuildNoGen (env : MultiBuildEnv) (grants : List Bytes) (additional : List Bytes) : Option (Option MrkKeyring × List MrkKeyring) :=
  mrkMultiBuild_ env grants [] additional

/-- The loop over the regions, aws-encryption-sdk-cpp/source/kms_mrk_keyring.cpp:942-960. -/
def mrkDiscoveryChildren (env : MultiBuildEnv) (grants : List Bytes) (f : Option DiscoveryFilter) (i : Nat) : List Bytes → Option (List MrkKeyring)
  | [] => some []
  | region :: regions =>
    if !env.client region then none
    else match mrkBuildDiscoveryFilter grants false true region f with
      | none => none
      | some kr =>
        if !env.child i then none
        else match mrkDiscoveryChildren env grants f (i + 1) regions with
          | none => none
          | some krs => some (kr :: krs)

/-- `MultiKeyringBuilder::BuildDiscovery`, aws-encryption-sdk-cpp/source/kms_mrk_keyring.cpp:897-975; `regions` lists the set in its
order. -/
def mrkMultiBuildDiscovery (env : MultiBuildEnv) (grants : List Bytes) (regions : List Bytes) (f : Option DiscoveryFilter) :
    Option (List MrkKeyring) :=
  if regions = [] then none
  else if [] ∈ regions then none
  else if !env.multi then none
  else mrkDiscoveryChildren env grants f 0 regions

end Verif
