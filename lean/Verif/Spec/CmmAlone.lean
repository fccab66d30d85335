import Verif.Spec.CacheSwapThreads
/-
Calls that no other thread interrupts, and what a thread that is in a call can do next.
-/
namespace Verif.Spec
open Verif

/-- The rest of a call of the cache, without interruption: what it leads to, and its result. -/
inductive GoRun (t : Nat) : Conc → Conc → CacheResult → Prop where
  | last {s s' r} : s.step t .go = some (.ok (s', some r)) → GoRun t s s' r
  | more {s s1 s' r} : s.step t .go = some (.ok (s1, none)) → GoRun t s1 s' r → GoRun t s s' r

/-- A call of the cache, without interruption. -/
def CallRun (t : Nat) (op : CacheOp) (s s' : Conc) (r : CacheResult) : Prop :=
  s.step t (.call op) = some (.ok (s', some r)) ∨ ∃ s1, s.step t (.call op) = some (.ok (s1, none)) ∧ GoRun t s1 s' r

/-- The steps of thread `t` alone, each of which is the only one that it could make. -/
def Forced (sha : Bytes → Bytes) (t : Nat) : CmmAll → List AllMove → Prop
  | _, [] => True
  | s, mv :: rest =>
    (∀ mv', (s.step sha t mv').isSome = true → mv' = mv) ∧ ∀ s' ev, s.step sha t mv = some (.ok (s', ev)) → Forced sha t s' rest

end Verif.Spec
