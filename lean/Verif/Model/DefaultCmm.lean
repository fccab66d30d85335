import Verif.Model.Keyring
/-
The default CMM: source/default_cmm.c.
-/
namespace Verif

/-- How a CMM call ends: materials, an error (the thread's last error), or undefined behaviour inside the keyring. -/
inductive CRes (α : Type) where
  | ok (a : α)
  | err (e : Err)
  | ub

/-- What the default CMM uses from outside: signature key generation (the signing context and the encoded public key) and loading of
a public key, source/cipher_openssl.c:446-538 and 739-803; whether the allocations of the materials and of the hash table entry
succeed; and the thread's last error before the call. -/
structure CmmEnv where
  keygen : (alg : Nat) → Except Err (SigCtx × Bytes)
  verifyStart : (alg : Nat) → (pub : Bytes) → Except Err SigCtx
  allocMat : Bool
  allocPut : Bool
  errno : Err

/-- `struct default_cmm`, source/default_cmm.c:27-33; `defaultAlg = none` is `!default_alg_is_set`. -/
structure DefaultCmm where
  kr : Keyring
  defaultAlg : Option Nat

/-- `aws_cryptosdk_default_cmm_new`, source/default_cmm.c:163-177; allocation is assumed to succeed. -/
def defaultCmmNew (kr : Keyring) : DefaultCmm := ⟨kr, none⟩

/-- `aws_cryptosdk_default_cmm_set_alg_id`, source/default_cmm.c:179-191. -/
def DefaultCmm.setAlg (c : DefaultCmm) (alg : Nat) : DefaultCmm × Except Err Unit :=
  if algorithmIsKnown alg then ({ c with defaultAlg := some alg }, .ok ()) else (c, .error .unsupportedFormat)

/-- `EC_PUBLIC_KEY_FIELD`, source/default_cmm.c:25. -/
def ecPublicKeyField : Bytes := ascii "aws-crypto-public-key"

/-- The suite used, source/default_cmm.c:53-63. -/
def DefaultCmm.pickAlg (c : DefaultCmm) (req : EncRequest) : Nat :=
  if req.requestedAlg ≠ 0 then req.requestedAlg
  else match c.defaultAlg with
    | some a => a
    | none => if req.policy.encryptMustIncludeCommitment then 0x0578 else 0x0378

/-- The call of the keyring and the result, source/default_cmm.c:82-97. -/
def DefaultCmm.callKeyring (env : CmmEnv) (c : DefaultCmm) (ctx : EncCtx) (alg : Nat) (signctx : Option SigCtx) :
    CRes EncMaterials :=
  match keyringOnEncrypt c.kr ctx alg ⟨none, [], [], env.errno⟩ with
  | (.ub, _) => .ub
  | (.fail, s) => .err s.errno
  | (.ok, s) => .ok ⟨alg, (s.key.map KeyBuf.bytes).getD [], s.edks, s.trace, signctx⟩

/-- `default_cmm_generate_enc_materials`, source/default_cmm.c:35-98: the request's encryption context afterwards and the result.
The materials of the model do not distinguish an absent data key from an empty one. -/
def DefaultCmm.generate (env : CmmEnv) (c : DefaultCmm) (req : EncRequest) : EncCtx × CRes EncMaterials :=
  if (EncCtx.find req.encCtx ecPublicKeyField).isSome then (req.encCtx, .err .reservedName)
  else match algProps (c.pickAlg req) with
    | none => (req.encCtx, .err env.errno)
    | some p =>
      if !env.allocMat then (req.encCtx, .err .oom)
      else if p.signatureLen = 0 then (req.encCtx, c.callKeyring env req.encCtx (c.pickAlg req) none)
      else match env.keygen (c.pickAlg req) with
        | .error e => (req.encCtx, .err e)
        | .ok (sc, pub) =>
          if !env.allocPut then (req.encCtx, .err .oom)
          else
            (EncCtx.put req.encCtx ecPublicKeyField pub,
             c.callKeyring env (EncCtx.put req.encCtx ecPublicKeyField pub) (c.pickAlg req) (some sc))

/-- The checks after the keyring succeeded, source/default_cmm.c:122-142. -/
def DefaultCmm.finish (env : CmmEnv) (req : DecRequest) (s : DecState) : CRes DecMaterials :=
  match s.key with
  | none => .err .cannotDecrypt
  | some k =>
    match algProps req.alg with
    | none => .ub
    | some p =>
      match EncCtx.find req.encCtx ecPublicKeyField with
      | none => if p.signatureLen = 0 then .ok ⟨req.alg, k.bytes, s.trace, none⟩ else .err .badCiphertext
      | some pub =>
        if p.signatureLen = 0 then .err .badCiphertext
        else match env.verifyStart req.alg pub with
          | .error e => .err e
          | .ok sc => .ok ⟨req.alg, k.bytes, s.trace, some sc⟩

/-- `default_cmm_decrypt_materials`, source/default_cmm.c:100-150. -/
def DefaultCmm.decrypt (env : CmmEnv) (c : DefaultCmm) (req : DecRequest) : CRes DecMaterials :=
  if !env.allocMat then .err .oom
  else match keyringOnDecrypt c.kr req.edks req.encCtx req.alg ⟨none, [], env.errno⟩ with
    | (.ub, _) => .ub
    | (.fail, s) => .err s.errno
    | (.ok, s) => DefaultCmm.finish env req s

/-- A result as the session sees it.  Undefined behaviour is shown as an error; theorems that use `DefaultCmm.toCmm` state that it does
not happen. -/
def CRes.toExcept : CRes α → Except Err α
  | .ok a => .ok a
  | .err e => .error e
  | .ub => .error .unknown

/-- A default CMM in the place where the session calls its CMM. -/
def DefaultCmm.toCmm (env : CmmEnv) (c : DefaultCmm) : Cmm :=
  { generate := fun req => ((c.generate env req).1, (c.generate env req).2.toExcept)
    decrypt := fun req => (c.decrypt env req).toExcept }

end Verif
