import Verif.Spec.LocalRuns
/-
Any clients of a local cache in several threads, and the record of the calls that have returned.
-/
namespace Verif.Spec

/-- A call that has returned: by which thread, and its result. -/
abbrev Done := Nat × CacheOp × CacheResult

/-- Executions of `num` threads on a new local cache: the calls that have returned, latest first, what each thread has begun and not finished,
and the state.  A thread may make any call on handles it holds. -/
inductive ThreadRuns (addr : Nat → Nat) (cap num : Nat) : List Done → (Nat → Option CacheOp) → Conc → Prop where
  | new : ThreadRuns addr cap num [] (fun _ => none) (concNew addr cap num)
  | begins {log asked s t op s'} : ThreadRuns addr cap num log asked s → s.step t (.call op) = some (.ok (s', none)) →
      ThreadRuns addr cap num log (setAsked asked t (some op)) s'
  | returns {log asked s t op s' r} : ThreadRuns addr cap num log asked s → s.step t (.call op) = some (.ok (s', some r)) →
      ThreadRuns addr cap num ((t, op, r) :: log) asked s'
  | goes {log asked s t s'} : ThreadRuns addr cap num log asked s → s.step t .go = some (.ok (s', none)) → ThreadRuns addr cap num log asked s'
  | ends {log asked s t op s' r} : ThreadRuns addr cap num log asked s → asked t = some op → s.step t .go = some (.ok (s', some r)) →
      ThreadRuns addr cap num ((t, op, r) :: log) (setAsked asked t none) s'

/-- The handle a store gave. -/
def putHandle : CacheOp × CacheResult → Option Nat
  | (.putEnc _ _ _ _ _ _, .handle h) => h
  | (.putDec _ _ _, .handle h) => h
  | _ => none

/-- The identifier under which a store put its entry. -/
def putId : CacheOp × CacheResult → Option Bytes
  | (.putEnc _ id _ _ _ _, _) => some id
  | (.putDec _ id _, _) => some id
  | _ => none

/-- The handle and the identifier of a lookup that found something. -/
def foundAs : CacheOp × CacheResult → Option (Nat × Bytes)
  | (.find _ id, .handle (some h)) => some (h, id)
  | _ => none

/-- Calls after which the entry with the handle and the identifier must not be found: clearing the cache, invalidating the entry, and storing
another one under the identifier. -/
def Removes (h : Nat) (id : Bytes) (x : CacheOp × CacheResult) : Prop :=
  x.1 = .clear ∨ x.1 = .release h true ∨ (putId x = some id ∧ putHandle x ≠ none)

/-- A call whose steps no other thread separates, from what its last step led to. -/
inductive Alone : Cache → After → Cache → CacheResult → Prop where
  | ret {c r} : Alone c (.ret r) c r
  | wait {c p c1 a c' r} : resumeCall p c = .ok (c1, a) → Alone c1 a c' r → Alone c (.wait p) c' r

end Verif.Spec
