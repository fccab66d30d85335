import Verif.Model.CmmConc
/-
Executions of several threads that call caching CMMs sharing one cache.
-/
namespace Verif.Spec

/-- Executions: the requests answered so far (latest first) and the state.  The calls are made on caching CMMs that `allow` describes. -/
inductive CmmRuns (sha : Bytes → Bytes) (allow : CachingCmm → Prop) (addr : Nat → Nat) (cap num : Nat) : List CmmEvent → CmmConc → Prop where
  | new : CmmRuns sha allow addr cap num [] (cmmConcNew addr cap num)
  | step {log s t mv s' ev} : CmmRuns sha allow addr cap num log s → (∀ cmm env req, mv = .start cmm env req → allow cmm) →
      s.step sha t mv = some (.ok (s', ev)) → CmmRuns sha allow addr cap num (ev.toList ++ log) s'

/-- The execution of a schedule, if it is possible and goes well. -/
def cmmAfter (sha : Bytes → Bytes) (x : List CmmEvent × CmmConc) : List (Nat × CmmMove) → Option (List CmmEvent × CmmConc)
  | [] => some x
  | (t, mv) :: rest =>
    match x.2.step sha t mv with
    | some (.ok (s', ev)) => cmmAfter sha (ev.toList ++ x.1, s') rest
    | _ => none

theorem cmmAfter_runs {sha : Bytes → Bytes} {allow : CachingCmm → Prop} {addr : Nat → Nat} {cap num : Nat} {sched : List (Nat × CmmMove)}
    {x y : List CmmEvent × CmmConc} (h : CmmRuns sha allow addr cap num x.1 x.2)
    (ha : ∀ m ∈ sched, ∀ cmm env req, m.2 = .start cmm env req → allow cmm) (hy : cmmAfter sha x sched = some y) :
    CmmRuns sha allow addr cap num y.1 y.2 := by
  induction sched generalizing x with
  | nil => cases hy; exact h
  | cons m rest ih =>
    obtain ⟨t, mv⟩ := m
    simp only [cmmAfter] at hy
    cases hs : x.2.step sha t mv with
    | none => rw [hs] at hy; cases hy
    | some r =>
      rw [hs] at hy
      cases r with
      | error f => cases hy
      | ok p => exact ih (.step h (fun cmm env req hh => ha _ (.head _) cmm env req hh) hs) (fun m hm => ha m (.tail _ hm)) hy

end Verif.Spec
