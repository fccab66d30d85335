import Verif.Spec.AnyStack
import Verif.Spec.AnyCache
import Verif.Spec.CachedStack
import Verif.Spec.LocalRuns
/-
Users of the whole library whose sessions run in any number of threads, over caching CMMs that share a materials cache of any kind.
-/
namespace Verif.Spec

variable {η : Type}

/-- What a materials cache promises besides `CacheKeeps`: the encryption context stays a map; a signature context given with cached materials
is the one that was stored, or was begun anew from its key: the private key for encryption, the public key for decryption. -/
structure KeepsSignatures (W : World → Prop) (H : List (Nat × CacheEvent η)) (E : Entries) : Prop where
  maps : ∀ {i t : Nat} {h : η} {ctx ctx' : EncCtx} {r : Except Err EncMaterials}, H[i]? = some (t, ⟨.getEnc h ctx, (ctx', r)⟩) → DistinctKeys ctx → DistinctKeys ctx'
  signer : ∀ {i t h ctx ctx' m u id m0 bytes messages ctx0 o}, H[i]? = some (t, ⟨.getEnc h ctx, (ctx', .ok m)⟩) →
    H[E.ent i]? = some (u, ⟨.putEnc id m0 bytes messages ctx0, o⟩) → Resumed storeSigner resumeSigner W m0.alg m0.signctx m.signctx
  verifier : ∀ {i t h m u id m0 o}, H[i]? = some (t, ⟨.getDec h, .ok m⟩) → H[E.ent i]? = some (u, ⟨.putDec id m0, o⟩) →
    Resumed storeVerifier verifyStartOf W m0.alg m0.signctx m.signctx

/-- A call of a caching CMM over a user's default CMM, whatever the user's keyring does at the moment, with a context that is a map. -/
def CallAt (M : Moment → Prop) (da : Option Nat) : AnyCall → Prop
  | .gen _ env req _ => DistinctKeys req.encCtx ∧ ∃ m, M m ∧ env.up = (m.world.envWith m.kr da).cmm.generate
  | .dec cmm env req _ => cmm.Valid ∧ req.alg < 65536 ∧ DistinctKeys req.encCtx ∧ ∃ m, M m ∧ env.up = (m.world.envWith m.kr da).cmm.decrypt

/-- Calls of caching CMMs of a user, in any interleaving, over a cache that keeps its promises; those about usage counters do not matter. -/
structure SharedCache (sha : Bytes → Bytes) (vt : CacheVt) (M : Moment → Prop) (da : Option Nat) (calls : List AnyCall)
    (H : List (Nat × CacheEvent η)) : Prop where
  history : History sha vt calls H
  calls : ∀ call ∈ calls, CallAt M da call
  keeps : ∃ E, CacheKeepsAt H E (fun _ => False) ∧ KeepsSignatures (worlds M) H E

/-- The answer to `req` is that of such a call. -/
def SharedEnc (sha : Bytes → Bytes) (M : Moment → Prop) (da : Option Nat) (req : EncRequest) (ctx : EncCtx) (res : Except Err EncMaterials) : Prop :=
  ∃ (η : Type) (vt : CacheVt) (calls : List AnyCall) (H : List (Nat × CacheEvent η)) (t : Nat) (cmm : CachingCmm) (env : AnyGenEnv) (out : GenOut),
    SharedCache sha vt M da calls H ∧ calls[t]? = some (.gen cmm env req (some out)) ∧ out.ctx = ctx ∧ out.res = res

/-- The same for a decryption request, if the digest does not collide on strings for the requests made to the cache; `R` is a condition on the
failures of digests in the call. -/
def SharedDec (sha : Bytes → Bytes) (R : IdEnv → Prop) (M : Moment → Prop) (da : Option Nat) (r : DecRequest) (res : Except Err DecMaterials) : Prop :=
  ∃ (η : Type) (vt : CacheVt) (calls : List AnyCall) (H : List (Nat × CacheEvent η)) (t : Nat) (cmm : CachingCmm) (env : AnyDecEnv) (out : DecOut),
    SharedCache sha vt M da calls H ∧ calls[t]? = some (.dec cmm env r (some out)) ∧ out.res = res ∧ R env.ids ∧
    ∀ cmm' env' r' out', .dec cmm' env' r' out' ∈ calls → ¬ Collides sha (DecStrings sha cmm'.partition r') (DecStrings sha cmm.partition r)

/-- Cryptography and memory of a session are those of a moment. -/
def EnvAt (M : Moment → Prop) (e : Env) : Prop := ∃ m, M m ∧ e.crypto = m.world.crypto ∧ e.alloc = m.world.alloc

/-- The environments of sessions whose CMM is a caching CMM over a shared cache, or the default CMM: materials that it gives are
those of such a call. -/
def ThreadWriters (sha : Bytes → Bytes) (M : Moment → Prop) (da : Option Nat) : Env → Prop := fun e =>
  EnvAt M e ∧ ∀ req ctx mat, DistinctKeys req.encCtx → e.cmm.generate req = (ctx, .ok mat) →
    (∃ m, M m ∧ (m.world.envWith m.kr da).cmm.generate req = (ctx, .ok mat)) ∨ SharedEnc sha M da req ctx (.ok mat)

/-- The same for sessions that read a message with the request `r0`. -/
def ThreadReaders (sha : Bytes → Bytes) (r0 : DecRequest) (M : Moment → Prop) (da : Option Nat) : Env → Prop := fun e =>
  EnvAt M e ∧ ∀ r mat, SameRequest r0 r → e.cmm.decrypt r = .ok mat →
    (∃ m, M m ∧ (m.world.envWith m.kr da).cmm.decrypt r = .ok mat) ∨ SharedDec sha (fun _ => True) M da r (.ok mat)

/-- The same, when moreover calls return and the digests for identifiers do not fail. -/
def SteadyThreadReaders (sha : Bytes → Bytes) (r0 : DecRequest) (M : Moment → Prop) (da : Option Nat) : Env → Prop := fun e =>
  EnvAt M e ∧ ∀ r, SameRequest r0 r →
    (∃ m, M m ∧ e.cmm.decrypt r = (m.world.envWith m.kr da).cmm.decrypt r) ∨ SharedDec sha Digests M da r (e.cmm.decrypt r)

/-! ### the local cache -/

/-- Signature contexts are stored and begun anew by the library's functions, in one of the worlds `W`; a context that could not be copied
entirely is still a map. -/
def LibrarySigs (W : World → Prop) : CacheOp → Prop
  | .putEnc env _ _ _ _ _ => ∃ w, W w ∧ env.getKey = storeSigner w.ec
  | .putDec env _ _ => ∃ w, W w ∧ env.getKey = storeVerifier w.ec
  | .getEnc env _ _ => (∃ w, W w ∧ env.sigStart = resumeSigner w.ec) ∧ ∀ c, env.cloneFails = some c → DistinctKeys c
  | .getDec env _ => ∃ w, W w ∧ env.sigStart = verifyStartOf w.ec
  | _ => True

end Verif.Spec
