import Verif.Spec.CachingCmm
import Verif.Spec.Session
/-
Any number of encrypting sessions whose caching CMMs share a cache: which calls of the CMMs the calls of sessions make, and how much is
encrypted with a data key.
-/
namespace Verif.Spec

/-- A call of a session that does not call the CMM: it does not matter which CMM there is. -/
def Quiet (env : Env) (v : View) (op : Op) : Prop := ∀ cmm, apply { env with cmm := cmm } v op = apply env v op

/-- A call of a session that calls the CMM, for encryption materials, with the request `req` and no other: it matters which CMM there is, but
only how it answers this request. -/
def AsksFor (req : EncRequest) (env : Env) (v : View) (op : Op) : Prop :=
  ¬ Quiet env v op ∧ ∀ cmm : Cmm, cmm.generate req = env.cmm.generate req → apply { env with cmm := cmm } v op = apply env v op

/-- What one session does between being created or reset and being reset: the call of the CMM it has made, if any, whether the message size
was known at that time, and whether the session has been reset since. -/
structure Message where
  v : View
  served : Option CmmEvent
  sizeFirst : Bool
  over : Bool

/-- A message of a session that has just been created or reset. -/
def Message.fresh (v : View) : Message := ⟨v, none, false, false⟩

/-- The call gives the message size with the input. -/
def Op.bringsSize : Op → Bool
  | .processFull _ _ _ => true
  | _ => false

/-- Histories of a cache and of the encrypting sessions that use it through caching CMMs (each call through any caching CMM, with any limits
and any upstream CMM), in any interleaving.  The cache may also be used by others, and be cleared.  The cryptographic primitives of the sessions
are among `W`. -/
inductive Shared (W : Crypto → Prop) (sha : Bytes → Bytes) (addr : Nat → Nat) (cap : Nat) : List CmmEvent → Cache → List Message → Prop where
  | new : Shared W sha addr cap [] (cacheNew addr cap) []
  | other {log c ms ev c'} : Shared W sha addr cap log c ms → (CmmHistory sha addr cap log c → CmmHistory sha addr cap (ev :: log) c') →
      Shared W sha addr cap (ev :: log) c' ms
  | start {log c ms s} : Shared W sha addr cap log c ms → sessionNew .encrypt = some s →
      Shared W sha addr cap log c (.fresh ⟨s, [], []⟩ :: ms)
  | reset {log c pre x post} (env : Env) : Shared W sha addr cap log c (pre ++ x :: post) → x.over = false →
      Shared W sha addr cap log c (.fresh (apply env x.v (.reset .encrypt)).1 :: (pre ++ { x with over := true } :: post))
  | quiet {log c pre x post} (env : Env) (op : Op) : Shared W sha addr cap log c (pre ++ x :: post) → x.over = false → W env.crypto →
      op.notReset = true → Quiet env x.v op → Shared W sha addr cap log c (pre ++ { x with v := (apply env x.v op).1 } :: post)
  | asks {log c pre x post cmm genv req c' out} (env : Env) (op : Op) : Shared W sha addr cap log c (pre ++ x :: post) → x.over = false →
      W env.crypto → op.notReset = true → AsksFor req env x.v op → cmm.Valid → cachingGenerate sha cmm genv req c = .ok (c', out) →
      env.cmm.generate req = (out.ctx, out.res) →
      Shared W sha addr cap (.gen cmm genv req out :: log) c'
        (pre ++ ⟨(apply env x.v op).1, some (.gen cmm genv req out), x.v.s.preciseKnown || op.bringsSize, false⟩ :: post)

/-- The data key with which the message was to be encrypted. -/
def Message.key (x : Message) : Option Bytes := x.served.bind servedKey

/-- The messages for which the session got data key `k`. -/
def messagesUnder (k : Bytes) (ms : List Message) : Nat := (ms.filter (fun x => x.key = some k)).length

/-- The plaintext bytes that the session took in for the message and encrypted, if it is complete or its size was known from the beginning. -/
def Message.bytes (x : Message) : Nat := if isDone x.v.s = true ∨ x.sizeFirst = true then x.v.consumed.length else 0

/-- Their sum over the messages under `k`. -/
def bytesUnder (k : Bytes) (ms : List Message) : Nat := ((ms.filter (fun x => x.key = some k)).map Message.bytes).sum

/-- What a session has written is the beginning of a message under the data key `k`: header tag and frames are sealed with a content key that
follows from `k` and the message id. -/
def WrittenUnder (W : Crypto → Prop) (k : Bytes) (v : View) : Prop :=
  ∃ row hd m ck fr tr, Encrypted (fun e => W e.crypto) row hd m ck fr tr v.consumed v.released ∧ m.dataKey = k

end Verif.Spec
