import Verif.Proof.KmsClientRep
import Verif.Spec.KmsExample
/-
Client suppliers: runs given as lists of actions, for examples.
-/
namespace Verif
open Verif.Spec Verif.Example

inductive KmsAct where
  | makeClient (region : Bytes)
  | makeSupplier
  | start (t : Nat) (job : KmsJob)
  | step (t : Nat) (ch : KmsChoice)

def KmsSys.act (s : KmsSys) : KmsAct → KmsSys
  | .makeClient r => s.makeClient r
  | .makeSupplier => s.makeSupplier
  | .start t job => s.start t job
  | .step t ch => s.step t ch

def allowedB (s : KmsSys) : KmsJob → Bool
  | .encrypt l kr _ _ _ _ => decide ((l, kr) ∈ s.built)
  | .decrypt l kr _ _ _ _ _ => decide ((l, kr) ∈ s.built)
  | .multi l _ _ _ _ => l.all fun | .client _ => false | _ => true
  | .multiDiscovery l _ _ regions _ => (l.all fun | .client _ => false | _ => true) && regions.all (fun r => decide (58 ∉ r))
  | _ => true

def okAct (p : KmsJob → Bool) (s : KmsSys) : KmsAct → Bool
  | .makeClient _ => true
  | .makeSupplier => true
  | .start t job => (match s.threads[t]? with | some none => true | _ => false) && p job && allowedB s job
  | .step _ ch => ch.client.isNone

def okActs (p : KmsJob → Bool) (s : KmsSys) : List KmsAct → Bool
  | [] => true
  | a :: l => okAct p s a && okActs p (s.act a) l

/-- A program with `n` threads after these actions. -/
def play (n : Nat) (l : List KmsAct) : KmsSys := l.foldl KmsSys.act { threads := List.replicate n none }

theorem no_client_setting {l : List KmsSetting} (h : (l.all fun | .client _ => false | _ => true) = true) : ∀ c, KmsSetting.client c ∉ l := by
  intro c hc
  have := List.all_eq_true.1 h _ hc
  cases this

theorem allowedB_iff {s : KmsSys} {job : KmsJob} (h : allowedB s job = true) : Allowed s job := by
  cases job with
  | encrypt l kr => exact (of_decide_eq_true h : (l, kr) ∈ s.built)
  | decrypt l kr => exact (of_decide_eq_true h : (l, kr) ∈ s.built)
  | multi => exact no_client_setting h
  | multiDiscovery =>
    have h := Bool.and_eq_true_iff.1 h
    exact ⟨no_client_setting h.1, fun r hr => of_decide_eq_true (List.all_eq_true.1 h.2 r hr)⟩
  | _ => trivial

theorem play_reach {p : KmsJob → Bool} {n : Nat} {l : List KmsAct} (h : okActs p { threads := List.replicate n none } l = true) :
    KmsReach (fun j => p j = true) n (play n l) := by
  have : ∀ (l : List KmsAct) (s : KmsSys), KmsReach (fun j => p j = true) n s → okActs p s l = true →
      KmsReach (fun j => p j = true) n (l.foldl KmsSys.act s) := by
    intro l
    induction l with
    | nil => intro s hs _; exact hs
    | cons a l ih =>
      intro s hs h
      have h := Bool.and_eq_true_iff.1 h
      refine ih _ ?_ h.2
      have h1 := h.1
      cases a with
      | makeClient r => exact .makeClient r hs
      | makeSupplier => exact .makeSupplier hs
      | start t job =>
        have h1 := Bool.and_eq_true_iff.1 h1
        have h2 := Bool.and_eq_true_iff.1 h1.1
        refine .start t job hs ?_ h2.2 (allowedB_iff h1.2)
        have h3 := h2.1
        split at h3
        · assumption
        · cases h3
      | step t ch =>
        refine .step t ch hs fun th obj i region k _ _ c hc => ?_
        have h1 : ch.client.isNone = true := h1
        rw [hc] at h1; cases h1
  exact this l _ .init h

/-- A keyring in discovery mode with the first `CachingClientSupplier`. -/
def cachingSettings : List KmsSetting := [.supplier (some (.caching 0)), .grant (ascii "g"), .grants [ascii "h", ascii "i"]]
def cachingDisco : KmsBuilt := .kms ⟨[], [ascii "g", ascii "h", ascii "i"], none⟩ (.caching 0)
def decryptJob : KmsJob := .decrypt cachingSettings cachingDisco kmsEnv
  [⟨ascii "aws-kms", arn1, [5, 5]⟩, ⟨ascii "aws-kms", arn2, List.replicate 32 7 ++ [50]⟩] krCtx 0x0178 decStart
def refused : KmsAct := .step 0 {}
def opened (t : Nat) (id : Bytes) : KmsAct := .step t { answer := some (id, List.replicate 32 7) }

/-- The keyring is built and opens the second of two encrypted data keys, after KMS refused the first. -/
def decryptRun : List KmsAct :=
  [.makeSupplier, .start 0 (.discovery cachingSettings none), .step 0 {}, .start 0 decryptJob,
   .step 0 {}, .step 0 {}, refused, .step 0 {}, .step 0 {}, opened 0 arn2, .step 0 {}, .step 0 {}]

/-- Two threads use the keyring at once; each looks into the map before the other reports its client. -/
def raceJob : KmsJob := .decrypt cachingSettings cachingDisco kmsEnv [⟨ascii "aws-kms", arn2, List.replicate 32 7 ++ [50]⟩] krCtx 0x0178 decStart
def raceRun : List KmsAct :=
  [.makeSupplier, .start 0 (.discovery cachingSettings none), .step 0 {}, .start 0 raceJob, .start 1 raceJob,
   .step 0 {}, .step 1 {}, .step 0 {}, .step 1 {}, opened 0 arn2, .step 0 {}, opened 1 arn2]

end Verif
