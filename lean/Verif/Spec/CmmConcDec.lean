import Verif.Model.CmmConcDec
/-
Executions of several threads that encrypt and decrypt with caching CMMs sharing one cache.
-/
namespace Verif.Spec

/-- The calls that begin with a step are made on caching CMMs that `allow` describes. -/
def AllMove.on (allow : CachingCmm → Prop) : AllMove → Prop
  | .gen cmm _ _ => allow cmm
  | .dec cmm _ _ => allow cmm
  | _ => True

/-- Executions: the requests answered so far (latest first) and the state. -/
inductive AllRuns (sha : Bytes → Bytes) (allow : CachingCmm → Prop) (addr : Nat → Nat) (cap num : Nat) : List CmmEvent → CmmAll → Prop where
  | new : AllRuns sha allow addr cap num [] (cmmAllNew addr cap num)
  | step {log s t mv s' ev} : AllRuns sha allow addr cap num log s → AllMove.on allow mv → s.step sha t mv = some (.ok (s', ev)) →
      AllRuns sha allow addr cap num (ev.toList ++ log) s'

/-- An event of an encryption request. -/
def isGen : CmmEvent → Bool
  | .gen _ _ _ _ => true
  | _ => false

/-- The execution of a schedule, if it is possible and goes well. -/
def allAfter (sha : Bytes → Bytes) (x : List CmmEvent × CmmAll) : List (Nat × AllMove) → Option (List CmmEvent × CmmAll)
  | [] => some x
  | (t, mv) :: rest =>
    match x.2.step sha t mv with
    | some (.ok (s', ev)) => allAfter sha (ev.toList ++ x.1, s') rest
    | _ => none

theorem allAfter_runs {sha : Bytes → Bytes} {allow : CachingCmm → Prop} {addr : Nat → Nat} {cap num : Nat} {sched : List (Nat × AllMove)}
    {x y : List CmmEvent × CmmAll} (h : AllRuns sha allow addr cap num x.1 x.2) (ha : ∀ m ∈ sched, AllMove.on allow m.2)
    (hy : allAfter sha x sched = some y) : AllRuns sha allow addr cap num y.1 y.2 := by
  induction sched generalizing x with
  | nil => cases hy; exact h
  | cons m rest ih =>
    obtain ⟨t, mv⟩ := m
    simp only [allAfter] at hy
    cases hs : x.2.step sha t mv with
    | none => rw [hs] at hy; cases hy
    | some r =>
      rw [hs] at hy
      cases r with
      | error f => cases hy
      | ok p => exact ih (.step h (ha _ (.head _)) hs) (fun m hm => ha m (.tail _ hm)) hy

end Verif.Spec
