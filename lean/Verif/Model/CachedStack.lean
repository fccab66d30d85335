import Verif.Model.Stack
import Verif.Model.CachingCmm
/-
The layers put together with a caching CMM between the session and the default CMM, and a local cache: the signature functions called
by the cache, and one call of the CMM by a session.
-/
namespace Verif

/-- The call of `aws_cryptosdk_sig_get_privkey` in the cache, source/local_cache.c:672-676; `none` if it fails. -/
def storeSigner (ec : Ec) (x : SigCtx) : Option Bytes :=
  match x.full with
  | none => none
  | some c =>
    match sigCurve c.props.algId with
    | none => none
    | some cv =>
      match (sigGetPrivkey ec cv c (fun _ => 0)).1 with
      | .ok s => some s
      | .error _ => none

/-- The call of `aws_cryptosdk_sig_get_pubkey` in the cache, source/local_cache.c:728-732; `none` if it fails. -/
def storeVerifier (ec : Ec) (x : SigCtx) : Option Bytes :=
  match x.full with
  | none => none
  | some c =>
    match sigCurve c.props.algId with
    | none => none
    | some cv =>
      match (sigGetPubkey ec cv c (fun _ => 0)).1 with
      | .ok s => some s
      | .error _ => none

/-- The call of `aws_cryptosdk_sig_sign_start` in the cache, without asking for the public key, source/local_cache.c:586-593.  (For a
suite without signature, for which the function succeeds without a context, no key is stored.) -/
def resumeSigner (ec : Ec) (alg : Nat) (key : Bytes) : Except Err SigCtx :=
  match algProps alg with
  | none => .error .unknown
  | some p =>
    match (sigSignStart ec false p key (fun _ => 0)).1 with
    | .error e => .error e
    | .ok (some (c, _)) => .ok c.view
    | .ok none => .error .unknown

/-- What one call of a caching CMM meets outside: the worlds of the call of the upstream CMM and of the signature functions when an entry
is read and written, and the outcomes of the other calls in source/caching_cmm.c and source/local_cache.c (see `GenEnv`, `GetEnv` and
`PutEnv`). -/
structure CacheTurn where
  up : World
  get : World
  put : World
  ids : IdEnv
  clkFind : Option Nat
  clkTtl : Option Nat
  pushHit : Bool
  copy : Bool
  cloneFails : Option EncCtx
  clkNew : Option Nat
  alloc : Bool
  clkPut : Option Nat
  create : Bool
  pushMiss : Bool

/-- `generate_enc_materials` of a caching CMM over a default CMM, source/caching_cmm.c:488-581. -/
def CacheTurn.genEnv (t : CacheTurn) (kr : UserKr) (da : Option Nat) : GenEnv :=
  { ids := t.ids, clkFind := t.clkFind, clkTtl := t.clkTtl, pushHit := t.pushHit
    get := ⟨t.copy, t.cloneFails, resumeSigner t.get.ec⟩
    up := (t.up.env kr da).cmm.generate
    put := ⟨t.clkNew, t.alloc, t.clkPut, t.create, storeSigner t.put.ec⟩
    pushMiss := t.pushMiss }

/-- `decrypt_materials` of a caching CMM over a default CMM, source/caching_cmm.c:583-647; the cache calls `aws_cryptosdk_sig_verify_start`,
source/local_cache.c:622-626. -/
def CacheTurn.decEnv (t : CacheTurn) (kr : UserKr) (da : Option Nat) : DecEnv :=
  { ids := t.ids, clkFind := t.clkFind, clkTtl := t.clkTtl, pushHit := t.pushHit
    get := ⟨t.copy, t.cloneFails, verifyStartOf t.get.ec⟩
    up := (t.up.env kr da).cmm.decrypt
    put := ⟨t.clkNew, t.alloc, t.clkPut, t.create, storeVerifier t.put.ec⟩
    pushMiss := t.pushMiss }

/-- A caching CMM over a default CMM as the session sees it when the cache is in the state `c`.  (A session calls its CMM once for a
message, so that the state in which the call leaves the cache does not matter to it.)  An undefined outcome is shown as an error. -/
def CachingCmm.toCmm (sha : Bytes → Bytes) (cmm : CachingCmm) (t : CacheTurn) (kr : UserKr) (da : Option Nat) (c : Cache) : Cmm where
  generate req :=
    match cachingGenerate sha cmm (t.genEnv kr da) req c with
    | .error _ => (req.encCtx, .error .unknown)
    | .ok (_, out) => (out.ctx, out.res)
  decrypt req :=
    match cachingDecrypt sha cmm (t.decEnv kr da) req c with
    | .error _ => .error .unknown
    | .ok (_, out) => out.res

/-- The environment of a session whose CMM is a caching CMM (source/caching_cmm.c:162-201) over a default CMM with the user's keyring. -/
def World.cachedEnv (w : World) (sha : Bytes → Bytes) (cmm : CachingCmm) (t : CacheTurn) (kr : UserKr) (da : Option Nat) (c : Cache) : Env :=
  { cmm := cmm.toCmm sha t kr da c
    crypto := w.crypto
    alloc := w.alloc
    uninit := w.uninit
    staleErr := w.lastErr }

end Verif
