import Verif.Proof.CmmAloneFault
import Verif.Props.CmmConcDec
/-
C116: A call of a caching CMM that is not interrupted by other threads is the call of the sequential model, so what was proved of threads
includes what one thread does.
-/
namespace Verif.Props
open Verif Verif.Spec Verif.Proof.CmmAlone

variable {sha : Bytes → Bytes} {s : CmmAll} {t : Nat}

/-- A thread that is in no call, while no thread has the mutex, makes a call of the cache alone, on an entry that it holds if the call is about
one: the call goes through, with the result that it has without threads, leaves the cache as without threads and the thread with the entries
that it then holds, and changes nothing else. -/
theorem C116_cache {k : Conc} (ht : t < k.num) (hu : k.unlocked = true) (hi : (k.thr t).doing = .idle) {op : CacheOp}
    (hh : ∀ n, op.on = some n → n ∈ (k.thr t).held) {c : Cache} {r : CacheResult} (hr : cacheCall op k.cache = .ok (c, r)) :
    CallRun t op k ⟨c, k.num, fun i => if i = t then ⟨handlesAfter op r (k.thr t).held, .idle⟩ else k.thr i⟩ r := by
  have h := callRun (s := k) (h := (k.thr t).held) ht hu hh hr
  have e : k.update t k.cache ⟨(k.thr t).held, .idle⟩ = k := by
    obtain ⟨c, num, thr⟩ := k
    simp only [Conc.update]
    congr 1
    funext i
    split
    · rename_i e; subst e; simp only at hi; rw [← hi]
    · rfl
  rw [e] at h
  exact h

/-- A thread that is in no call, while no thread has the mutex, makes a `generate_enc_materials` call alone: it can go through, answers as
the call of the sequential model, leaves the cache as this call does, and nothing else is changed, whatever the other threads are doing.  Once begun, there is no other
step that the thread could make. -/
theorem C116_generate (ht : t < s.base.conc.num) (hu : s.base.conc.unlocked = true) (hp : s.base.pc t = .idle) (hd : s.dpc t = .idle)
    (hi : (s.base.conc.thr t).doing = .idle) {cmm : CachingCmm} {env : GenEnv} {req : EncRequest} {c : Cache} {o : GenOut}
    (hr : cachingGenerate sha cmm env req s.base.conc.cache = .ok (c, o)) :
    ∃ mvs : List AllMove,
      execution sha s ((.gen cmm env req :: mvs).map (fun mv => (t, mv))) =
        some (.ok ([.gen cmm env req o], ⟨⟨{ s.base.conc with cache := c }, s.base.pc⟩, s.dpc⟩)) ∧
      ∀ s1 ev, s.step sha t (.gen cmm env req) = some (.ok (s1, ev)) → Forced sha t s1 mvs := by
  have hh : s.base.conc.thr t = ⟨(s.base.conc.thr t).held, .idle⟩ := by rw [← hi]
  have h := gen_alone (s := s) ht hu (h := (s.base.conc.thr t).held) hr
  rw [place_self hp hd hh, place_cache hp hd hh] at h
  exact h.execution

/-- So does a `decrypt_materials` call. -/
theorem C116_decrypt (ht : t < s.base.conc.num) (hu : s.base.conc.unlocked = true) (hp : s.base.pc t = .idle) (hd : s.dpc t = .idle)
    (hi : (s.base.conc.thr t).doing = .idle) {cmm : CachingCmm} {env : DecEnv} {req : DecRequest} {c : Cache} {o : DecOut}
    (hr : cachingDecrypt sha cmm env req s.base.conc.cache = .ok (c, o)) :
    ∃ mvs : List AllMove,
      execution sha s ((.dec cmm env req :: mvs).map (fun mv => (t, mv))) =
        some (.ok ([.dec cmm env req o], ⟨⟨{ s.base.conc with cache := c }, s.base.pc⟩, s.dpc⟩)) ∧
      ∀ s1 ev, s.step sha t (.dec cmm env req) = some (.ok (s1, ev)) → Forced sha t s1 mvs := by
  have hh : s.base.conc.thr t = ⟨(s.base.conc.thr t).held, .idle⟩ := by rw [← hi]
  have h := dec_alone (s := s) ht hu (h := (s.base.conc.thr t).held) hr
  rw [place_self hp hd hh, place_cache hp hd hh] at h
  exact h.execution

/-- A `generate_enc_materials` call that runs into undefined behaviour in the sequential model does so too, in the same way, when a thread
makes it alone. -/
theorem C116_generateFaults (ht : t < s.base.conc.num) (hu : s.base.conc.unlocked = true) (hp : s.base.pc t = .idle) (hd : s.dpc t = .idle)
    (hi : (s.base.conc.thr t).doing = .idle) {cmm : CachingCmm} {env : GenEnv} {req : EncRequest} {f : Fault}
    (hr : cachingGenerate sha cmm env req s.base.conc.cache = .error f) :
    ∃ mvs : List AllMove, execution sha s ((.gen cmm env req :: mvs).map (fun mv => (t, mv))) = some (.error f) := by
  have hh : s.base.conc.thr t = ⟨(s.base.conc.thr t).held, .idle⟩ := by rw [← hi]
  have h := gen_fails (s := s) ht hu (h := (s.base.conc.thr t).held) hr
  rw [place_self hp hd hh] at h
  exact h.execution

/-- So does a `decrypt_materials` call. -/
theorem C116_decryptFaults (ht : t < s.base.conc.num) (hu : s.base.conc.unlocked = true) (hp : s.base.pc t = .idle) (hd : s.dpc t = .idle)
    (hi : (s.base.conc.thr t).doing = .idle) {cmm : CachingCmm} {env : DecEnv} {req : DecRequest} {f : Fault}
    (hr : cachingDecrypt sha cmm env req s.base.conc.cache = .error f) :
    ∃ mvs : List AllMove, execution sha s ((.dec cmm env req :: mvs).map (fun mv => (t, mv))) = some (.error f) := by
  have hh : s.base.conc.thr t = ⟨(s.base.conc.thr t).held, .idle⟩ := by rw [← hi]
  have h := dec_fails (s := s) ht hu (h := (s.base.conc.thr t).held) hr
  rw [place_self hp hd hh] at h
  exact h.execution

/-- The answers in a history. -/
def isAnswer : CmmEvent → Bool
  | .clear => false
  | _ => true

/-- Every history of calls one after the other (as in C36, C37 and C40) is an execution of threads in which one thread, whichever, makes the calls. -/
theorem C116_history {addr : Nat → Nat} {cap num : Nat} (ht : t < num) {log : List CmmEvent} {c : Cache}
    (h : CmmHistory sha addr cap log c) :
    ∃ mvs : List AllMove, execution sha (cmmAllNew addr cap num) (mvs.map (fun mv => (t, mv))) =
      some (.ok (log.filter isAnswer, ⟨⟨{ concNew addr cap num with cache := c }, fun _ => .idle⟩, fun _ => .idle⟩)) := by
  have hu : (cmmAllNew addr cap num).base.conc.unlocked = true := by
    unfold Conc.unlocked
    rw [List.all_eq_true]
    intro i _
    rfl
  have ht' : t < (cmmAllNew addr cap num).base.conc.num := ht
  have key : ∃ mvs : List AllMove, execution sha (cmmAllNew addr cap num) (mvs.map (fun mv => (t, mv))) =
      some (.ok (log.filter isAnswer, place (cmmAllNew addr cap num) t c [] .idle .idle)) := by
    induction h with
    | new =>
      rw [show place (cmmAllNew addr cap num) t (cacheNew addr cap) [] .idle .idle = cmmAllNew addr cap num from
        place_self (s := cmmAllNew addr cap num) rfl rfl rfl]
      exact ⟨[], rfl⟩
    | gen _ _ hr ih =>
      obtain ⟨a, ha⟩ := ih
      obtain ⟨b, hb, _⟩ := (gen_alone ht' hu (h := []) hr).execution
      exact ⟨a ++ (_ :: b), by rw [List.map_append]; exact execution_append ha hb⟩
    | dec _ _ hr ih =>
      obtain ⟨a, ha⟩ := ih
      obtain ⟨b, hb, _⟩ := (dec_alone ht' hu (h := []) hr).execution
      exact ⟨a ++ (_ :: b), by rw [List.map_append]; exact execution_append ha hb⟩
    | @clear log c c' _ hr ih =>
      obtain ⟨a, ha⟩ := ih
      have hb : execution sha (place (cmmAllNew addr cap num) t c [] .idle .idle) [(t, .clear)] =
          some (.ok ([], place (cmmAllNew addr cap num) t c' [] .idle .idle)) := by
        simp only [execution, clear_alone ht' hu hr]
        rfl
      exact ⟨a ++ [.clear], by rw [List.map_append]; exact execution_append ha hb⟩
  rw [place_cache rfl rfl rfl] at key
  exact key

namespace CmmAloneExample
open CmmExample CmmAllExample

/-- Thread 1 asks for encryption materials alone while thread 0 is between the lookup and the use of an entry; the answer comes from the
cache, and thread 0 is where it was. -/
def before : List (Nat × AllMove) :=
  [(0, .gen cmm (genv 0x0378 10 [8]) (req 5)), (0, .call), (0, .up), (0, .call), (0, .call), (0, .call), (0, .go), (0, .call), (0, .go),
   (0, .gen cmm (genv 0x0378 11 [6]) (req 5)), (0, .call)]

def state : CmmAll :=
  match execution tsha (cmmAllNew id 4 2) before with
  | some (.ok x) => x.2
  | _ => cmmAllNew id 4 2

def idleB (s : CmmAll) (t : Nat) : Bool := (s.base.pc t).isIdle && (s.dpc t).isIdle

example : state.base.conc.num = 2 ∧ state.base.conc.unlocked = true ∧ idleB state 1 = true ∧ idleB state 0 = false ∧
    (state.base.conc.thr 1).doing = .idle ∧
    (match cachingGenerate tsha cmm (genv 0x0378 12 [5]) (req 5) state.base.conc.cache with
      | .ok (_, o) => decide (o.res.toOption.map EncMaterials.dataKey = some [8]) && !o.upstream
      | .error _ => false) = true := by
  decide +kernel

/-- A call of the cache in three steps: after its test, the use of an entry is counted in two additions. -/
example : state.base.conc.num = 2 ∧ (match cacheCall (.find (some 12) []) state.base.conc.cache with | .ok (_, .handle none) => true | _ => false) = true ∧
    (state.base.conc.thr 0).held = [0] ∧ (state.base.conc.thr 0).doing = .idle ∧
    (match cacheCall (.use 0 3 1) state.base.conc.cache with | .ok (_, .usage (.ok (b, m))) => decide (b = 8 ∧ m = 2) | _ => false) = true := by
  decide +kernel

/-- An algorithm that the library does not know is undefined behaviour, in the sequential model and for the thread. -/
example : (match cachingGenerate tsha cmm (genv 0x0378 12 [5]) { req 5 with requestedAlg := 0x9999 } state.base.conc.cache with
      | .ok _ => false
      | .error _ => true) = true ∧
    (match execution tsha state [(1, .gen cmm (genv 0x0378 12 [5]) { req 5 with requestedAlg := 0x9999 })] with
      | some (.error _) => true
      | _ => false) = true := by
  decide +kernel

end CmmAloneExample
end Verif.Props
