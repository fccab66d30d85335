import Verif.Spec.LocalCache
import Verif.Spec.CachingCmm
/-
Several threads using one local cache: source/local_cache.c, with the steps of its calls that other threads can separate.

A call that holds the mutex from beginning to end is one step.  `update_usage_stats`, `set_expiration_hint` and `release_entry` touch an
entry without the mutex and are split at each such access; `locked_release_entry` is also split after its atomic decrement, since the
other holders of handles can decrement without the mutex.  (Splitting other critical sections would add nothing: while the mutex is held
and the cache has its own reference, the accesses made without it commute with what the section does.)  Steps are sequentially
consistent; the fields `zombie` and `expiry_time`, which are read without the mutex, are taken to be read atomically, although the C code
does not say so.  Locking succeeds.
-/
namespace Verif

/-- Where a thread is inside a call of the cache. -/
inductive Pending where
  /-- in no call -/
  | idle
  /-- `update_usage_stats` after the test, source/local_cache.c:552 -/
  | addBytes (n bytes messages : Nat)
  /-- `update_usage_stats` after the first addition, source/local_cache.c:553, whose sum is `sum` -/
  | addMessages (n sum messages : Nat)
  /-- `set_expiration_hint` waiting for the mutex, source/local_cache.c:784 -/
  | hintLock (n time : Nat) (push : Bool)
  /-- `release_entry` waiting for the mutex, source/local_cache.c:832 -/
  | relLock (n : Nat)
  /-- `locked_release_entry`, called by `release_entry`, after the decrement, holding the mutex, source/local_cache.c:365 -/
  | relHeld (n : Nat)
  /-- `release_entry` before the decrement without the mutex, source/local_cache.c:854 -/
  | relPlain (n : Nat)
deriving DecidableEq, Repr

/-- A thread holds the mutex between steps. -/
def Pending.locked : Pending → Bool
  | .relHeld _ => true
  | _ => false

/-- The next step needs the mutex. -/
def Pending.needsLock : Pending → Bool
  | .hintLock _ _ _ => true
  | .relLock _ => true
  | _ => false

/-- A thread: the handles it may use, and where it is. -/
structure Thread where
  held : List Nat
  doing : Pending

/-- What a step of a call leads to: a further step, or the return of the call. -/
inductive After where
  | wait (p : Pending)
  | ret (r : CacheResult)

/-- Calls that hold the mutex from beginning to end. -/
def CacheOp.locking : CacheOp → Bool
  | .find _ _ => true
  | .putEnc _ _ _ _ _ _ => true
  | .putDec _ _ _ => true
  | .clear => true
  | .count => true
  | _ => false

/-- The first step of a call: `update_usage_stats` up to the test (source/local_cache.c:547-549), `set_expiration_hint` up to the fast
path (780-782), `release_entry` up to the test (825-831); every other call completely. -/
def startCall (op : CacheOp) (c : Cache) : Except Fault (Cache × After) :=
  match op with
  | .use n bytes messages =>
    match c.entry n with
    | .error f => .error f
    | .ok e =>
      if e.zombie ∨ e.isEncrypt = false then .ok (c, .ret (.usage (.error .badState))) else .ok (c, .wait (.addBytes n bytes messages))
  | .hint n t push =>
    match c.entry n with
    | .error f => .error f
    | .ok e => if e.zombie ∨ e.expiry ≤ t then .ok (c, .ret .done) else .ok (c, .wait (.hintLock n t push))
  | .release n inv =>
    match c.entry n with
    | .error f => .error f
    | .ok e => if inv ∧ e.zombie = false then .ok (c, .wait (.relLock n)) else .ok (c, .wait (.relPlain n))
  | op =>
    match cacheCall op c with
    | .error f => .error f
    | .ok (c, r) => .ok (c, .ret r)

/-- A later step of a call: the two additions of `update_usage_stats` (source/local_cache.c:552-554), the critical section of
`set_expiration_hint` (784-815), the decrement of `release_entry` with the destruction of the entry (854-865), and the critical section
of `release_entry` (832-847): the decrement in `locked_release_entry` with the destruction of the entry (354-363), and the rest of it
(365-374). -/
def resumeCall (p : Pending) (c : Cache) : Except Fault (Cache × After) :=
  match p with
  | .idle => .ok (c, .wait .idle)
  | .addBytes n bytes messages =>
    match c.entry n with
    | .error f => .error f
    | .ok e =>
      .ok (c.set n (some { e with usageBytes := u64 (e.usageBytes + bytes) }), .wait (.addMessages n (u64 (e.usageBytes + bytes)) messages))
  | .addMessages n sum messages =>
    match c.entry n with
    | .error f => .error f
    | .ok e =>
      .ok (c.set n (some { e with usageMessages := u64 (e.usageMessages + messages) }),
        .ret (.usage (.ok (sum, u64 (e.usageMessages + messages)))))
  | .hintLock n t push =>
    match cacheHint n t push c with
    | .error f => .error f
    | .ok c => .ok (c, .ret .done)
  | .relPlain n =>
    match decref c n with
    | .error f => .error f
    | .ok c => .ok (c, .ret .done)
  | .relLock n =>
    match c.entry n with
    | .error f => .error f
    | .ok e =>
      match decref c n with
      | .error f => .error f
      | .ok c => if e.refcount = 1 then .ok (c, .ret .done) else .ok (c, .wait (.relHeld n))
  | .relHeld n =>
    match c.entry n with
    | .error f => .error f
    | .ok e =>
      if e.zombie then .ok (c, .ret .done)
      else match invalidate c n false with
        | .error f => .error f
        | .ok c => .ok (c, .ret .done)

/-- A cache and the threads `0`, …, `num - 1` that use it. -/
structure Conc where
  cache : Cache
  num : Nat
  thr : Nat → Thread

/-- No thread holds the mutex. -/
def Conc.unlocked (s : Conc) : Bool := (List.range s.num).all fun t => !(s.thr t).doing.locked

/-- A scheduled step: a thread begins a call, or goes on with the call it is in. -/
inductive Move where
  | call (op : CacheOp)
  | go

/-- The handles a thread holds when it has begun the call `op` (a release gives up the handle), or when the call returned `r`. -/
def heldAfter (op : Option CacheOp) (a : After) (held : List Nat) : List Nat :=
  match op, a with
  | some (.release n _), _ => held.erase n
  | _, .ret (.handle (some n)) => n :: held
  | _, _ => held

/-- The thread after a step. -/
def Thread.next (th : Thread) (op : Option CacheOp) (a : After) : Thread :=
  { held := heldAfter op a th.held
    doing := match a with
      | .wait p => p
      | .ret _ => .idle }

/-- The state after a step of thread `t`. -/
def Conc.update (s : Conc) (t : Nat) (c : Cache) (th : Thread) : Conc :=
  { s with cache := c, thr := fun i => if i = t then th else s.thr i }

/-- The result of a call that returned. -/
def After.result : After → Option CacheResult
  | .wait _ => none
  | .ret r => some r

/-- What a step leads to. -/
def Conc.finish (s : Conc) (t : Nat) (op : Option CacheOp) (r : Except Fault (Cache × After)) : Except Fault (Conc × Option CacheResult) :=
  match r with
  | .error f => .error f
  | .ok (c, a) => .ok (s.update t c ((s.thr t).next op a), a.result)

/-- One step of thread `t`, with the result of the call if it returned; `none` if the step is not possible: there is no such thread; it
is (not) in a call; it does not hold the handle the call is about; or the step needs the mutex and another thread has it. -/
def Conc.step (s : Conc) (t : Nat) (mv : Move) : Option (Except Fault (Conc × Option CacheResult)) :=
  match mv with
  | .call op =>
    if t < s.num ∧ (s.thr t).doing = .idle ∧ (∀ n, op.on = some n → n ∈ (s.thr t).held) ∧ (op.locking = true → s.unlocked = true) then
      some (s.finish t (some op) (startCall op s.cache))
    else none
  | .go =>
    if t < s.num ∧ (s.thr t).doing ≠ .idle ∧ ((s.thr t).doing.needsLock = true → s.unlocked = true) then
      some (s.finish t none (resumeCall (s.thr t).doing s.cache))
    else none

/-- A new cache used by `num` threads. -/
def concNew (addr : Nat → Nat) (cap num : Nat) : Conc := ⟨cacheNew addr cap, num, fun _ => ⟨[], .idle⟩⟩

end Verif
