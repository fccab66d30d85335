import Verif.Model.CacheConc
/-
Executions of several threads that use one local cache.
-/
namespace Verif.Spec

/-- States the threads can reach with steps that the clients allow. -/
inductive ConcReach (allow : Conc → Nat → Move → Prop) (s0 : Conc) : Conc → Prop where
  | start : ConcReach allow s0 s0
  | step {s s' t mv r} : ConcReach allow s0 s → allow s t mv → s.step t mv = some (.ok (s', r)) → ConcReach allow s0 s'

/-- Any calls on handles the caller holds. -/
def anyClient (_ : Conc) (_ : Nat) (_ : Move) : Prop := True

/-- Clients that never ask a release to invalidate the entry. -/
def noInvalidation (_ : Conc) (_ : Nat) (mv : Move) : Prop := ∀ n, mv ≠ .call (.release n true)

/-- Calls that store, look up or remove entries. -/
def storing : CacheOp → Bool
  | .find _ _ => true
  | .putEnc _ _ _ _ _ _ => true
  | .putDec _ _ _ => true
  | .clear => true
  | _ => false

/-- Clients that release the handle they hold before they store, look up or remove entries, as a caching CMM does. -/
def oneHandle (s : Conc) (t : Nat) (mv : Move) : Prop := ∀ op, mv = .call op → storing op = true → (s.thr t).held = []

/-- The state after a schedule, for examples. -/
def concAfter (s : Conc) : List (Nat × Move) → Option Conc
  | [] => some s
  | (t, mv) :: l =>
    match s.step t mv with
    | some (.ok (s', _)) => concAfter s' l
    | _ => none

theorem concAfter_reach {s0 : Conc} {l : List (Nat × Move)} : ∀ {s s' : Conc}, ConcReach anyClient s0 s → concAfter s l = some s' → ConcReach anyClient s0 s' := by
  induction l with
  | nil => intro s s' h ha; cases ha; exact h
  | cons x l ih =>
    intro s s' h ha
    obtain ⟨t, mv⟩ := x
    simp only [concAfter] at ha
    cases hs : s.step t mv with
    | none => rw [hs] at ha; cases ha
    | some r =>
      cases r with
      | error f => rw [hs] at ha; cases ha
      | ok p => rw [hs] at ha; exact ih (.step h trivial hs) ha

end Verif.Spec
