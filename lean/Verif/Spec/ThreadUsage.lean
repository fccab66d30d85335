import Verif.Spec.AnyCache
import Verif.Spec.CacheUsage
/-
Any number of encrypting sessions in any number of threads, whose caching CMMs share a materials cache of any kind.
-/
namespace Verif.Spec

/-- What one session does between being created or reset and being reset: the number of the call of a caching CMM it has made, if any, whether
the message size was known at that time, and whether the session has been reset since. -/
structure ThreadMessage where
  v : View
  call : Option Nat
  sizeFirst : Bool
  over : Bool

/-- A message of a session that has just been created or reset. -/
def ThreadMessage.fresh (v : View) : ThreadMessage := ⟨v, none, false, false⟩

/-- Sessions that are created, called and reset in any order, in any threads.  A call of a session that calls the CMM makes one of the `calls` of
caching CMMs, which no other has made, and goes on when this has come to its end.  What the caching CMMs ask the cache in the meantime, and what
others ask it, is in the history that belongs to `calls` (`History`).  The cryptographic primitives of the sessions are among `W`. -/
inductive Threads (W : Crypto → Prop) (calls : List AnyCall) : List ThreadMessage → Prop where
  | new : Threads W calls []
  | start {ms s} : Threads W calls ms → sessionNew .encrypt = some s → Threads W calls (.fresh ⟨s, [], []⟩ :: ms)
  | reset {pre x post} (env : Env) : Threads W calls (pre ++ x :: post) → x.over = false →
      Threads W calls (.fresh (apply env x.v (.reset .encrypt)).1 :: (pre ++ { x with over := true } :: post))
  | quiet {pre x post} (env : Env) (op : Op) : Threads W calls (pre ++ x :: post) → x.over = false → W env.crypto → op.notReset = true →
      Quiet env x.v op → Threads W calls (pre ++ { x with v := (apply env x.v op).1 } :: post)
  | asks {pre x post t cmm genv req out} (env : Env) (op : Op) : Threads W calls (pre ++ x :: post) → x.over = false → W env.crypto →
      op.notReset = true → AsksFor req env x.v op → calls[t]? = some (.gen cmm genv req (some out)) → (∀ y ∈ pre ++ x :: post, y.call ≠ some t) →
      env.cmm.generate req = (out.ctx, out.res) →
      Threads W calls (pre ++ ⟨(apply env x.v op).1, some t, x.v.s.preciseKnown || op.bringsSize, false⟩ :: post)

/-- The data key with which the message was to be encrypted. -/
def ThreadMessage.key (calls : List AnyCall) (x : ThreadMessage) : Option Bytes := x.call.bind fun t => calls[t]?.bind AnyCall.key

/-- The messages for which the sessions got data key `k`. -/
def threadMessages (k : Bytes) (calls : List AnyCall) (ms : List ThreadMessage) : Nat := (ms.filter (fun x => x.key calls = some k)).length

/-- The plaintext bytes that the session took in for the message and encrypted, if it is complete or its size was known from the beginning. -/
def ThreadMessage.bytes (x : ThreadMessage) : Nat := if isDone x.v.s = true ∨ x.sizeFirst = true then x.v.consumed.length else 0

/-- Their sum over the messages under `k`. -/
def threadBytes (k : Bytes) (calls : List AnyCall) (ms : List ThreadMessage) : Nat :=
  ((ms.filter (fun x => x.key calls = some k)).map ThreadMessage.bytes).sum

end Verif.Spec
