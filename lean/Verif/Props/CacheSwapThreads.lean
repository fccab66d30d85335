import Verif.Proof.CacheSwapThreads
import Verif.Props.CmmConcDec
/-
C115: Threads that share caching CMMs use data keys, encrypted data keys and traces for nothing but to keep and give them, however they are
interleaved.
-/
namespace Verif.Props
open Verif Verif.Spec Verif.Proof

/-- Every step of a thread in a call of the cache, with the replacement in the cache and in what is put, is possible when it was, fails when
it did, and leads to the same cache with the replacement, returning what it returned with the replacement; the threads are in the same places
and hold the same entries. -/
theorem C115_cache (w : Swap) (s : Conc) (t : Nat) :
    (∀ op, (w.conc s).step t (.call (w.op op)) = (s.step t (.call op)).map (fun r => r.map (fun x => (w.conc x.1, x.2.map w.result)))) ∧
    (w.conc s).step t .go = (s.step t .go).map (fun r => r.map (fun x => (w.conc x.1, x.2.map w.result))) :=
  ⟨fun op => concCall_swap w s t op, concGo_swap w s t⟩

/-- So is every step of a thread in a call of a caching CMM. -/
theorem C115_step (w : Swap) (sha : Bytes → Bytes) (s : CmmAll) (t : Nat) (mv : AllMove) :
    (w.threads s).step sha t (w.move mv) = (s.step sha t mv).map (fun r => r.map (fun x => (w.threads x.1, x.2.map w.event))) :=
  step_swap w sha s t mv

/-- Every schedule is possible, or runs into undefined behaviour, when it was before the replacement; the requests are answered in the same
order, from the cache or by the CMM underneath as before, by the replaced materials. -/
theorem C115_schedule (w : Swap) (sha : Bytes → Bytes) (s : CmmAll) (sched : List (Nat × AllMove)) :
    execution sha (w.threads s) (sched.map (fun m => (m.1, w.move m.2))) =
      (execution sha s sched).map (fun r => r.map (fun x => (x.1.map w.event, w.threads x.2))) := by
  induction sched generalizing s with
  | nil => rfl
  | cons m rest ih =>
    obtain ⟨t, mv⟩ := m
    simp only [List.map_cons, execution, C115_step]
    cases s.step sha t mv with
    | none => rfl
    | some r =>
      cases r with
      | error f => rfl
      | ok x =>
        obtain ⟨s', ev⟩ := x
        simp only [Option.map_some, Except.map, ih]
        cases execution sha s' rest with
        | none => rfl
        | some r =>
          cases r with
          | error f => rfl
          | ok x =>
            simp only [Option.map_some, List.map_append]
            cases ev <;> rfl

/-- From a new cache. -/
theorem C115_new (w : Swap) (sha : Bytes → Bytes) (addr : Nat → Nat) (cap num : Nat) (sched : List (Nat × AllMove)) :
    execution sha (cmmAllNew addr cap num) (sched.map (fun m => (m.1, w.move m.2))) =
      (execution sha (cmmAllNew addr cap num) sched).map (fun r => r.map (fun x => (x.1.map w.event, w.threads x.2))) :=
  C115_schedule w sha (cmmAllNew addr cap num) sched

/-- What threads have come to by calls is, with the replacement, what they come to when the CMM underneath gives replaced materials. -/
theorem C115_runs (w : Swap) {sha : Bytes → Bytes} {allow : CachingCmm → Prop} {addr : Nat → Nat} {cap num : Nat} {log : List CmmEvent}
    {s : CmmAll} (h : AllRuns sha allow addr cap num log s) : AllRuns sha allow addr cap num (log.map w.event) (w.threads s) := by
  induction h with
  | new => exact .new
  | @step log s t mv s' ev _ ha hs ih =>
    have h' := C115_step w sha s t mv
    rw [hs] at h'
    have := AllRuns.step ih (allow := allow) (mv := w.move mv) (by cases mv <;> exact ha) h'
    rw [List.map_append]
    cases ev <;> exact this

namespace CacheSwapThreadsExample
open CmmExample CmmAllExample

def look (r : Option (Except Fault (List CmmEvent × CmmAll))) : Option (List (Option Bytes × Bool)) :=
  match r with
  | some (.ok x) => some (summary x.1)
  | _ => none

/-- The schedule of the example of C94 with other keys: key `[8]` is `[7, 8]`, and what was served from the cache is served from the cache. -/
example :
    look (execution tsha (cmmAllNew id 4 3) sched) = some [(some [8], false), (some [9], false), (some [8], true), (some [9], true)] ∧
    look (execution tsha (cmmAllNew id 4 3) (sched.map (fun m => (m.1, (keySwap (fun k => 7 :: k)).move m.2)))) =
      some [(some [7, 8], false), (some [7, 9], false), (some [7, 8], true), (some [7, 9], true)] := by
  decide +kernel

end CacheSwapThreadsExample
end Verif.Props
