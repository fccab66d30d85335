import Verif.Spec.AnyCache
import Verif.Spec.CacheConc
/-
Calls of caching CMMs in any number of threads that share one local cache (source/local_cache.c), as histories of questions and answers.
Every call is a thread of its own here; a thread that makes several calls one after the other is a special case.
-/
namespace Verif.Spec

/-- The question that a call of the local cache answers, if it is one that caching CMMs ask. -/
def questionOf : CacheOp → Option (CacheQuery Nat)
  | .find _ id => some (.find id)
  | .putEnc _ id m bytes messages ctx => some (.putEnc id m bytes messages ctx)
  | .putDec _ id m => some (.putDec id m)
  | .use h bytes messages => some (.usage h bytes messages)
  | .getEnc _ h ctx => some (.getEnc h ctx)
  | .getDec _ h => some (.getDec h)
  | .created h => some (.creation h)
  | .hint h t _ => some (.hint h t)
  | .release h inv => some (.release h inv)
  | .clear => none
  | .count => none

/-- The question with the answer when the call has returned; `c` is the cache then, in which `find_entry` reads the kind of the entry while it
has the mutex (source/local_cache.c:528-530). -/
def recordOf (c : Cache) : CacheOp → CacheResult → Option (CacheEvent Nat)
  | .find _ id, .handle none => some ⟨.find id, (false, none)⟩
  | .find _ id, .handle (some n) => (c.mem n).map fun e => ⟨.find id, (false, some (n, e.isEncrypt))⟩
  | .putEnc _ id m bytes messages ctx, .handle h => some ⟨.putEnc id m bytes messages ctx, h⟩
  | .putDec _ id m, .handle h => some ⟨.putDec id m, h⟩
  | .use n bytes messages, .usage r => some ⟨.usage n bytes messages, r⟩
  | .getEnc _ n ctx, .encMaterials ctx' r => some ⟨.getEnc n ctx, (ctx', r)⟩
  | .getDec _ n, .decMaterials r => some ⟨.getDec n, r⟩
  | .created n, .time t => some ⟨.creation n, t⟩
  | .hint n t _, .done => some ⟨.hint n t, ()⟩
  | .release n inv, .done => some ⟨.release n inv, ()⟩
  | _, _ => none

/-- The clock read for the creation time of an entry. -/
def clockOf : CacheOp → Option Nat
  | .putEnc env _ _ _ _ _ => env.clkNew
  | .putDec env _ _ => env.clkNew
  | _ => none

/-- Clocks give 64-bit numbers, and encryption contexts are maps. -/
def OpFits (op : CacheOp) : Prop :=
  (∀ x, clockOf op = some x → x < 2 ^ 64) ∧
  (∀ env id m bytes messages ctx, op = .putEnc env id m bytes messages ctx → DistinctKeys ctx) ∧
  (∀ env n ctx, op = .getEnc env n ctx → DistinctKeys ctx)

/-- A call of the local cache that has returned: by which call of a caching CMM it was made, and what was asked and answered. -/
structure LocalEvent where
  t : Nat
  op : CacheOp
  ev : CacheEvent Nat

/-- The history of questions and answers. -/
def asHistory (log : List LocalEvent) : List (Nat × CacheEvent Nat) := log.map fun x => (x.t, x.ev)

/-- The call when it has not returned. -/
def AnyCall.begun : AnyCall → AnyCall
  | .gen cmm env req _ => .gen cmm env req none
  | .dec cmm env req _ => .dec cmm env req none

/-- The next question of call `t` is what `op` answers. -/
def Asks (sha : Bytes → Bytes) (calls : List AnyCall) (log : List LocalEvent) (t : Nat) (op : CacheOp) : Prop :=
  OpFits op ∧ ∃ call q, calls[t]? = some call ∧ questionOf op = some q ∧
    ∀ a : q.Ans, call.begun.Does sha localVt (eventsOf t (asHistory log) ++ [⟨q, a⟩])

/-- `asked` with another value for `t`. -/
def setAsked (asked : Nat → Option CacheOp) (t : Nat) (x : Option CacheOp) : Nat → Option CacheOp := fun i => if i = t then x else asked i

/-- Executions of calls of caching CMMs over a local cache (with the steps of Model/CacheConc): what has been answered so far, the calls of the
cache that have not returned, and the state.  Other calls of the cache that caching CMMs do not make (`clear_cache`, `entry_count`) are made at any
time. -/
inductive LocalRuns (sha : Bytes → Bytes) (calls : List AnyCall) (addr : Nat → Nat) (cap num : Nat) :
    List LocalEvent → (Nat → Option CacheOp) → Conc → Prop where
  | new : LocalRuns sha calls addr cap num [] (fun _ => none) (concNew addr cap num)
  | begins {log asked s t op s'} : LocalRuns sha calls addr cap num log asked s → Asks sha calls log t op →
      s.step t (.call op) = some (.ok (s', none)) → LocalRuns sha calls addr cap num log (setAsked asked t (some op)) s'
  | returns {log asked s t op s' r ev} : LocalRuns sha calls addr cap num log asked s → Asks sha calls log t op →
      s.step t (.call op) = some (.ok (s', some r)) → recordOf s'.cache op r = some ev →
      LocalRuns sha calls addr cap num (log ++ [⟨t, op, ev⟩]) asked s'
  | goes {log asked s t s'} : LocalRuns sha calls addr cap num log asked s → s.step t .go = some (.ok (s', none)) →
      LocalRuns sha calls addr cap num log asked s'
  | ends {log asked s t op s' r ev} : LocalRuns sha calls addr cap num log asked s → asked t = some op →
      s.step t .go = some (.ok (s', some r)) → recordOf s'.cache op r = some ev →
      LocalRuns sha calls addr cap num (log ++ [⟨t, op, ev⟩]) (setAsked asked t none) s'
  | other {log asked s t op s' r} : LocalRuns sha calls addr cap num log asked s → questionOf op = none →
      s.step t (.call op) = some (.ok (s', r)) → LocalRuns sha calls addr cap num log asked s'

/-- No thread is between the two additions of `update_usage_stats`. -/
def Settled (s : Conc) : Prop := ∀ t n sum messages, t < s.num → (s.thr t).doing ≠ .addMessages n sum messages

end Verif.Spec
