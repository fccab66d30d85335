import Verif.Model.CachedStack
import Verif.Spec.CachingCmm
import Verif.Spec.Stack
/-
Users of the whole library who put a caching CMM with a local cache between their sessions and their default CMM.
-/
namespace Verif.Spec

/-- The worlds of a call are among `W`, and a context that could not be copied entirely is still a map. -/
structure Turn (W : World → Prop) (t : CacheTurn) : Prop where
  up : W t.up
  get : W t.get
  put : W t.put
  clone : ∀ x, t.cloneFails = some x → DistinctKeys x

/-- A call on a caching CMM over the user's default CMM, with a context that is a map and a suite of 16 bits.  Different caching CMMs (with
other partitions and limits) may share the cache, all over default CMMs with the same keyring and default suite. -/
def GoodCall (W : World → Prop) (kr : UserKr) (da : Option Nat) : CmmEvent → Prop
  | .gen _ env req _ => (∃ t, Turn W t ∧ env = t.genEnv kr da) ∧ req.requestedAlg < 65536 ∧ DistinctKeys req.encCtx
  | .dec _ env req _ => (∃ t, Turn W t ∧ env = t.decEnv kr da) ∧ req.alg < 65536 ∧ DistinctKeys req.encCtx
  | .clear => True

/-- No string digested for `r` by this caching CMM collides with a string digested for a decryption request of the history. -/
def NoClash (sha : Bytes → Bytes) (cmm : CachingCmm) (log : List CmmEvent) (r : DecRequest) : Prop :=
  ∀ cmm' env req out, .dec cmm' env req out ∈ log → ¬ Collides sha (DecStrings sha cmm'.partition req) (DecStrings sha cmm.partition r)

/-- No digest or allocation fails while the identifier of a decryption request is computed. -/
def Digests (ids : IdEnv) : Prop := ids.decCtxFails = none ∧ ids.decEdkFails = none ∧ ids.decEndFails = none

/-- The environments of sessions whose CMM is a caching CMM over the default CMM with keyring `kr`: any caching CMM, any history of the cache.
`R` is a condition on CMM, history and the failures of digests at the call. -/
def CachedSessions (sha : Bytes → Bytes) (R : CachingCmm → List CmmEvent → IdEnv → Prop) (W : World → Prop) (kr : UserKr) (da : Option Nat) :
    Env → Prop :=
  fun e => ∃ addr cap log c cmm t w, CmmHistory sha addr cap log c ∧ (∀ ev ∈ log, GoodCall W kr da ev) ∧ cmm.Valid ∧ Turn W t ∧ W w ∧
    R cmm log t.ids ∧ e = w.cachedEnv sha cmm t kr da c

/-- Sessions of a user who may or may not use a cache, call by call. -/
def Writers (sha : Bytes → Bytes) (W : World → Prop) (kr : UserKr) (da : Option Nat) : Env → Prop :=
  fun e => Sessions W kr da e ∨ CachedSessions sha (fun _ _ _ => True) W kr da e

/-- Sessions of a user who may or may not use a cache, when the digest does not collide on the strings for the request `r`. -/
def Readers (sha : Bytes → Bytes) (r : DecRequest) (W : World → Prop) (kr : UserKr) (da : Option Nat) : Env → Prop :=
  fun e => Sessions W kr da e ∨ CachedSessions sha (fun cmm log _ => NoClash sha cmm log r) W kr da e

/-- The same, when moreover the digests for the identifier do not fail. -/
def SteadyReaders (sha : Bytes → Bytes) (r : DecRequest) (W : World → Prop) (kr : UserKr) (da : Option Nat) : Env → Prop :=
  fun e => Sessions W kr da e ∨ CachedSessions sha (fun cmm log ids => NoClash sha cmm log r ∧ Digests ids) W kr da e

/-- The request with which a reader asks its CMM for the keys of the message that `v` writes, up to the order of the encryption context. -/
def messageRequest (v : View) : DecRequest := ⟨v.s.header.encCtx, v.s.header.edks, v.s.header.algId⟩

/-- Two decryption requests are equal up to the order of the encryption context. -/
def SameRequest (r r' : DecRequest) : Prop := r'.encCtx.Perm r.encCtx ∧ r'.edks = r.edks ∧ r'.alg = r.alg

/-- The signature context `y` is `x`, or was written as a key in one of the worlds `W` and begun anew from that key in another. -/
def Resumed (store : Ec → SigCtx → Option Bytes) (start : Ec → Nat → Bytes → Except Err SigCtx) (W : World → Prop) (alg : Nat)
    (x y : Option SigCtx) : Prop :=
  y = x ∨ ∃ wp wg sc s sc', W wp ∧ W wg ∧ x = some sc ∧ store wp.ec sc = some s ∧ start wg.ec alg s = .ok sc' ∧ y = some sc'

end Verif.Spec
