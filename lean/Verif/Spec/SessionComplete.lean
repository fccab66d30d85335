import Verif.Spec.Session
/-
What it takes for a message to be readable: an environment that undoes what the writer's environment did, and a reader that is
fed the message from its beginning.
-/
namespace Verif.Spec

/-- The environments `E2` can read what the environments `E1` write, if the reader's CMM is asked a request of `R`: what one seals the
other opens, both derive keys alike, allocations of the reader succeed and its digests accept data, and for encrypted data keys that
came with a data key, under the same suite and context, the reader's CMM answers with that data key and, if the writer signs, with a
verification context that accepts the writer's signatures. -/
structure OpensFor (R : DecRequest → Prop) (E1 E2 : Env → Prop) : Prop where
  aead : ∀ e1 e2 k iv aad pt ct tag, E1 e1 → E2 e2 → e1.crypto.aeadSeal k iv aad pt = some (ct, tag) →
    e2.crypto.aeadOpen k iv aad ct tag = .ok pt
  hkdf : ∀ e1 e2 sha salt ikm info n x, E1 e1 → E2 e2 → e1.crypto.hkdf sha salt ikm info n = .ok x →
    e2.crypto.hkdf sha salt ikm info n = .ok x
  alloc : ∀ e2 site, E2 e2 → e2.alloc site = true
  digest : ∀ e2 ctx x, E2 e2 → e2.crypto.sigFail ctx x = none
  sigLen : ∀ e1 ctx sig, E1 e1 → e1.crypto.sign ctx = .ok sig → sig.length < 65536
  answers : ∀ e1 e2 req ctx ctx' m, E1 e1 → E2 e2 → DistinctKeys req.encCtx → e1.cmm.generate req = (ctx, .ok m) → ctx.Perm ctx' →
    R { encCtx := ctx', edks := m.edks, alg := m.alg } →
    ∃ m', e2.cmm.decrypt { encCtx := ctx', edks := m.edks, alg := m.alg } = .ok m' ∧ m'.dataKey = m.dataKey ∧ m'.alg = m.alg ∧
      ∀ c, m.signctx = some c → ∃ c', m'.signctx = some c' ∧
        ∀ e1 e2 data sig, E1 e1 → E2 e2 → e1.crypto.sign { c with data := c.data ++ data } = .ok sig →
          e2.crypto.verify { c' with data := c'.data ++ data } sig = .ok ()

/-- The environments `E2` can read what the environments `E1` write, whatever the reader's CMM is asked. -/
def Opens (E1 E2 : Env → Prop) : Prop := OpensFor (fun _ => True) E1 E2

/-- A session that is about to read a message written under suite `alg` with `n` encrypted data keys, and whose settings admit
it: it is new or was reset, has a CMM, its policy admits the suite, the limit on encrypted data keys is not exceeded, and if it
may not release unverified plaintext the suite has no signature. -/
structure ReadyToRead (alg n : Nat) (v : View) : Prop where
  start : v.s.state = .config ∧ v.consumed = [] ∧ v.released = []
  hasCmm : v.s.hasCmm = true
  policy : ∀ row ∈ suiteTable, row.id = alg → MayDecrypt v.s.policy row
  limit : v.s.maxEdks = 0 ∨ n ≤ v.s.maxEdks
  mode : v.s.mode = .decrypt ∨ (v.s.mode = .decryptUnsigned ∧ ∀ row ∈ suiteTable, row.id = alg → row.curveBits = 0)

/-- The session is fed `msg` from the beginning, in whatever slices and with whatever output buffers: each call is given some
bytes of the message, starting with the first one not yet consumed. -/
inductive Reading (E : Env → Prop) (msg : Bytes) (v0 : View) : View → Prop where
  | start : Reading E msg v0 v0
  | call {v : View} {env : Env} {mem inp : Bytes} (h : Reading E msg v0 v) (he : E env) (hinp : v.consumed ++ inp <+: msg) :
      Reading E msg v0 (apply env v (.process mem (some inp))).1

end Verif.Spec
