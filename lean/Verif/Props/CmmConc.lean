import Verif.Proof.CmmConcStep
import Verif.Props.CacheConc
import Verif.Props.CachingCmmMore
/-
C41: caching CMMs used by several threads.  The executions (Spec/CmmConc) interleave the single accesses to the shared cache.
-/
namespace Verif.Props

open Spec

variable {sha : Bytes → Bytes} {addr : Nat → Nat} {cap num : Nat} {log : List CmmEvent} {s s' : CmmConc} {t : Nat} {mv : CmmMove} {f : Fault}

theorem runs_inv {allow : CachingCmm → Prop} {LB LM : Nat} (h : CmmRuns sha allow addr cap num log s) (hf : FreshKeys log)
    (hal : ∀ cmm, allow cmm → cmm.limitBytes ≤ LB ∧ cmm.limitMessages ≤ LM) (hLM : 1 ≤ LM) (hM : LM + num < 2 ^ 64) :
    GInv LB LM num log s := by
  induction h with
  | new => exact .new addr cap
  | @step log s t mv s' ev hr ha hs ih =>
    refine (ih ?_).step hLM hM (fun cmm env req hh => hal cmm (ha cmm env req hh)) hs hf
    cases ev with
    | none => exact hf
    | some e => exact freshKeys_tail hf

/-! ## messages -/

/-- C41, messages: whatever the interleaving of any number of threads, no data key is used for more messages than the limit of the
caching CMMs (the largest one, if they are configured differently). -/
theorem C41_message_limit_concurrent {L : Nat} (h : CmmRuns sha (fun cmm => cmm.Valid ∧ cmm.limitMessages ≤ L) addr cap num log s)
    (hf : FreshKeys log) (hL : 1 ≤ L) (hn : num < 2 ^ 63) (k : Bytes) : messagesWith k log ≤ L := by
  have := (runs_inv (LB := 2 ^ 63 - 1) (LM := min L (2 ^ 32)) h hf (fun cmm hc => ⟨hc.1.bytes, Nat.le_min.mpr ⟨hc.2, hc.1.messages.2⟩⟩)
    (by omega) (by omega)).logM k
  omega

/-! ## bytes -/

/-- C41, bytes, partial: if the byte limit `L` leaves room for one more message of that size from each thread in 64 bits, the declared
sizes of the messages served with one data key never sum up to more than `L`, except for a single message that is longer.  Without
the bound the claim is false, see `C41_byte_limit_concurrent_refuted`. -/
theorem C41_byte_limit_concurrent_partial {L : Nat} (h : CmmRuns sha (fun cmm => cmm.Valid ∧ cmm.limitBytes ≤ L) addr cap num log s)
    (hf : FreshKeys log) (hn : num < 2 ^ 63) (hw : (num + 1) * L < 2 ^ 64) (k : Bytes) :
    bytesWith k log ≤ L ∨ ∃ cmm env req out, servedWith k log = [.gen cmm env req out] ∧ cmm.limitBytes < req.plaintextSize := by
  refine (runs_inv (LB := L) (LM := 2 ^ 32) h hf (fun cmm hc => ⟨hc.2, hc.1.messages.2⟩) (by omega) (by omega)).logB k ?_
  show L + L * num < 2 ^ 64
  rw [Nat.add_mul, Nat.one_mul, Nat.mul_comm] at hw
  omega

/-! ## progress -/

/-- C41: threads that are in the middle of calls never block each other for good: some thread can go on. -/
theorem C41_not_stuck (h : CmmRuns sha CachingCmm.Valid addr cap num log s) (hf : FreshKeys log) (hn : num < 2 ^ 63)
    (ht : t < num) (hbusy : (s.conc.thr t).doing ≠ .idle ∨ (s.pc t).isIdle = false) :
    ∃ u mv r, u < num ∧ (mv = .go ∨ mv = .call ∨ mv = .up) ∧ s.step sha u mv = some r := by
  have hinv := runs_inv (LB := 2 ^ 63 - 1) (LM := 2 ^ 32) h hf (fun cmm hc => ⟨hc.bytes, hc.messages.2⟩) (by omega) (by omega)
  have hnum := hinv.num
  have some_of : ∀ u r, ∃ r', s.shared u (some r) = some r' := by
    intro u r
    cases r with
    | error f => exact ⟨_, rfl⟩
    | ok p =>
      obtain ⟨s2, x⟩ := p
      cases x <;> exact ⟨_, rfl⟩
  cases hu : s.conc.unlocked with
  | false =>
    simp only [Conc.unlocked, List.all_eq_false] at hu
    obtain ⟨u, hu1, hu2⟩ := hu
    have hlt : u < s.conc.num := by simpa using hu1
    have hlk : (s.conc.thr u).doing.locked = true := by simpa using hu2
    have hne : (s.conc.thr u).doing ≠ .idle := by intro hd; rw [hd] at hlk; cases hlk
    have hnl : (s.conc.thr u).doing.needsLock = true → s.conc.unlocked = true := by
      cases hd : (s.conc.thr u).doing <;> rw [hd] at hlk <;> first | (cases hlk; done) | (intro hh; cases hh)
    obtain ⟨r, hr⟩ := some_of u (s.conc.finish u none (resumeCall (s.conc.thr u).doing s.conc.cache))
    refine ⟨u, .go, r, by omega, .inl rfl, ?_⟩
    simp only [CmmConc.step, Conc.step]
    rw [if_pos ⟨hlt, hne, hnl⟩]
    exact hr
  | true =>
    by_cases hd : (s.conc.thr t).doing = .idle
    · have hT := hinv.thr t ht
      have callable : ∀ op, (s.pc t).op = some op → (∀ n, op.on = some n → (s.pc t).ref = some n) →
          ∃ u mv r, u < num ∧ (mv = .go ∨ mv = .call ∨ mv = .up) ∧ s.step sha u mv = some r := by
        intro op hop hon
        obtain ⟨r, hr⟩ := some_of t (s.conc.finish t (some op) (startCall op s.conc.cache))
        refine ⟨t, .call, r, ht, .inr (.inl rfl), ?_⟩
        simp only [CmmConc.step, hop, Conc.step]
        rw [if_pos ⟨by omega, hd, fun n hn => hT.held n (hon n hn) hd, fun _ => hu⟩]
        exact hr
      cases hp : s.pc t with
      | idle => rw [hp] at hbusy; rcases hbusy with hb | hb; exact absurd hd hb; cases hb
      | up g ctx =>
        refine ⟨t, .up, s.local t (genUp g ctx), ht, .inr (.inr rfl), ?_⟩
        simp only [CmmConc.step, hp]
        rw [if_pos (by omega)]
      | _ => rw [hp] at callable; exact callable _ rfl (fun n hh => by cases hh <;> rfl)
    · obtain ⟨r, hr⟩ := some_of t (s.conc.finish t none (resumeCall (s.conc.thr t).doing s.conc.cache))
      refine ⟨t, .go, r, ht, .inl rfl, ?_⟩
      simp only [CmmConc.step, Conc.step]
      rw [if_pos ⟨by omega, hd, fun _ => hu⟩]
      exact hr

/-! ## executions -/

namespace CmmConcExample

open CmmExample

/-- The largest limits that can be configured (the default ones), no time to live. -/
def big : CachingCmm := ⟨List.replicate 64 1, 2 ^ 32, 2 ^ 63 - 1, 2 ^ 64 - 1⟩

/-- A request that misses the cache, from beginning to end. -/
def miss (t : Nat) (c : CachingCmm) (now size : Nat) (key : Bytes) : List (Nat × CmmMove) :=
  [(t, .start c (genv 0x0378 now key) (req size)), (t, .call), (t, .up), (t, .call)]

end CmmConcExample

open CmmExample CmmConcExample

/-- C41, bytes, refuted in general: with the default byte limit 2^63 - 1 and two threads, the counter can wrap around: a first message
uses up the limit; thread 1 asks for as many bytes again and is interrupted between the addition and the test of the sum; thread 0 asks
for three bytes, and is served with the same data key. -/
theorem C41_byte_limit_concurrent_refuted : ¬ ∀ (sha : Bytes → Bytes) (addr : Nat → Nat) (cap num L : Nat) (log : List CmmEvent) (s : CmmConc)
    (k : Bytes), CmmRuns sha (fun cmm => cmm.Valid ∧ cmm.limitBytes ≤ L) addr cap num log s → FreshKeys log →
    bytesWith k log ≤ L ∨ ∃ cmm env req out, servedWith k log = [.gen cmm env req out] ∧ cmm.limitBytes < req.plaintextSize := by
  intro h
  let sched : List (Nat × CmmMove) := miss 0 big 10 (2 ^ 63 - 1) [9] ++ [(0, .call), (0, .go)] ++
    [(1, .start big (genv 0x0378 11 [8]) (req (2 ^ 63 - 1))), (1, .call), (1, .call), (1, .go),
      (0, .start big (genv 0x0378 12 [7]) (req 3)), (0, .call), (0, .call), (0, .go), (0, .go), (0, .call)]
  have hs : ∃ log s, cmmAfter tsha ([], cmmConcNew id 2 2) sched = some (log, s) ∧
      bytesWith [9] log = 2 ^ 63 + 2 ∧ (servedWith [9] log).length = 2 ∧ FreshKeys log := by
    have h : ((cmmAfter tsha ([], cmmConcNew id 2 2) sched).map fun x => (freshB x.1, bytesWith [9] x.1, (servedWith [9] x.1).length)) =
        some (true, 2 ^ 63 + 2, 2) := by decide +kernel
    cases hp : cmmAfter tsha ([], cmmConcNew id 2 2) sched with
    | none => rw [hp] at h; cases h
    | some x =>
      rw [hp] at h
      simp only [Option.map_some, Option.some.injEq, Prod.mk.injEq] at h
      exact ⟨x.1, x.2, rfl, h.2.1, h.2.2, freshB_ok h.1⟩
  obtain ⟨log, s, h1, h3, h4, h5⟩ := hs
  have hrun : CmmRuns tsha (fun cmm => cmm.Valid ∧ cmm.limitBytes ≤ 2 ^ 63 - 1) id 2 2 log s := by
    refine cmmAfter_runs (x := ([], _)) (y := (log, s)) .new ?_ h1
    intro m hm cmm env req hh
    have : cmm = big := by
      simp [sched, miss] at hm
      rcases hm with rfl | rfl | rfl | rfl | rfl | rfl | rfl | rfl | rfl | rfl | rfl | rfl | rfl | rfl | rfl | rfl <;> cases hh <;> rfl
    subst this
    exact ⟨⟨by decide, by decide, by decide⟩, by decide⟩
  rcases h tsha id 2 2 (2 ^ 63 - 1) log s [9] hrun h5 with hb | ⟨_, _, _, _, hb, -⟩
  · omega
  · rw [hb] at h4; cases h4

/-- C44, refuted also for threads that only make `generate_enc_materials` calls, on one caching CMM: three threads find an entry just
before its time to live is over, notice that it is over, and release and invalidate the entry. -/
theorem C44_caching_cmm_refuted : ¬ ∀ (sha : Bytes → Bytes) (addr : Nat → Nat) (cap num : Nat) (log : List CmmEvent) (s : CmmConc) (t : Nat)
    (f : Fault), CmmRuns sha CachingCmm.Valid addr cap num log s → s.step sha t .go ≠ some (.error f) := by
  intro h
  -- stored at 10, to be used until 60; looked up at 59, but the second reading of the clock gives 61
  let env : GenEnv := { genv 0x0378 59 [8] with clkTtl := some 61 }
  let sched : List (Nat × CmmMove) := [(0, .start cmm (genv 0x0378 10 [9]) (req 5)), (0, .call), (0, .up), (0, .call), (0, .call), (0, .call), (0, .go), (0, .call), (0, .go)] ++
    [0, 1, 2].flatMap (fun t => [(t, .start cmm env (req 5)), (t, .call), (t, .call)]) ++
    -- thread 0 finds that the entry is alive; thread 2 invalidates it
    [(0, .call), (2, .call), (2, .go), (2, .go),
    -- thread 0 takes the mutex and gives up its reference; thread 1 destroys the entry
    (0, .go), (1, .call), (1, .go)]
  have hs : ∃ log s, cmmAfter tsha ([], cmmConcNew id 2 3) sched = some (log, s) ∧ s.step tsha 0 .go = some (.error .useAfterFree) := by
    have h : ((cmmAfter tsha ([], cmmConcNew id 2 3) sched).map fun x =>
        match x.2.step tsha 0 .go with | some (.error .useAfterFree) => true | _ => false) = some true := by decide +kernel
    cases hp : cmmAfter tsha ([], cmmConcNew id 2 3) sched with
    | none => rw [hp] at h; cases h
    | some x =>
      rw [hp] at h
      simp only [Option.map_some, Option.some.injEq] at h
      refine ⟨x.1, x.2, rfl, ?_⟩
      split at h
      · next hh => exact hh
      · cases h
  obtain ⟨log, s, h1, h2⟩ := hs
  refine h tsha id 2 3 log s 0 .useAfterFree (cmmAfter_runs (x := ([], _)) (y := (log, s)) .new ?_ h1) h2
  intro m hm c e r hh
  have : c = cmm := by
    simp [sched] at hm
    rcases hm with rfl | rfl | rfl | rfl | rfl | rfl | rfl | rfl | rfl | rfl | rfl | rfl | rfl | rfl | rfl | rfl | rfl | rfl | rfl | rfl | rfl | rfl | rfl <;> cases hh <;> rfl
  subst this
  exact CmmExample.valid.1

/-- The histories that the limits hold for are not restricted: outside of its requests a thread can make every other call of the cache that
a thread can make on its own, at any time. -/
theorem C41_other_calls (sha : Bytes → Bytes) (s : CmmConc) (t : Nat) (op : CacheOp) (hidle : (s.pc t).isIdle = true)
    (hop : (∀ h b n, op ≠ .use h b n) ∧ ∀ env id m b n ctx, op ≠ .putEnc env id m b n ctx) (r : Except Fault (Conc × Option CacheResult))
    (hr : s.conc.step t (.call op) = some r) : ∃ r', s.step sha t (.other op) = some r' ∧
      (∀ s1 x, r = .ok (s1, x) → ∃ s2 ev, r' = .ok (s2, ev) ∧ s2.conc = s1) := by
  have hf : op.foreign = true := by
    cases op with
    | use h b n => exact absurd rfl (hop.1 h b n)
    | putEnc env id m b n ctx => exact absurd rfl (hop.2 env id m b n ctx)
    | _ => rfl
  simp only [CmmConc.step]
  rw [if_pos ⟨hidle, hf⟩, hr]
  obtain f | ⟨s1, x⟩ := r
  · exact ⟨_, rfl, fun _ _ h => nomatch h⟩
  · cases x with
    | none => exact ⟨_, rfl, fun _ _ h => by cases h; exact ⟨_, _, rfl, rfl⟩⟩
    | some y => exact ⟨_, rfl, fun _ _ h => by cases h; exact ⟨_, _, rfl, rfl⟩⟩

/-- Such a call between two requests. -/
example : ((cmmConcNew id 2 3).step tsha 1 (.other .clear)).isSome = true := by decide +kernel

/-- Three threads in the middle of their calls: two have been served with the key that thread 0 brought, one is between counting bytes and counting messages. -/
example : ∃ log s, CmmRuns tsha (fun c => c.Valid ∧ c.limitBytes ≤ 100 ∧ c.limitMessages ≤ 3) id 2 3 log s ∧ FreshKeys log ∧ messagesWith [9] log = 2 ∧
    (s.conc.thr 2).doing = .addMessages 0 15 1 := by
  let sched : List (Nat × CmmMove) := [(0, .start cmm (genv 0x0378 10 [9]) (req 5)), (0, .call), (0, .up), (0, .call),
    (1, .start cmm (genv 0x0378 11 [8]) (req 5)), (2, .start cmm (genv 0x0378 11 [7]) (req 5)), (1, .call), (2, .call), (1, .call), (2, .call),
    (1, .call), (2, .call), (2, .go), (1, .go), (2, .call), (1, .call), (1, .go), (2, .go), (1, .go), (1, .call)]
  have h : ((cmmAfter tsha ([], cmmConcNew id 2 3) sched).map fun x => (freshB x.1, messagesWith [9] x.1, decide ((x.2.conc.thr 2).doing = .addMessages 0 15 1))) =
      some (true, 2, true) := by decide +kernel
  cases hp : cmmAfter tsha ([], cmmConcNew id 2 3) sched with
  | none => rw [hp] at h; cases h
  | some x =>
    rw [hp] at h
    simp only [Option.map_some, Option.some.injEq, Prod.mk.injEq, decide_eq_true_eq] at h
    refine ⟨x.1, x.2, cmmAfter_runs (x := ([], _)) .new ?_ hp, freshB_ok h.1, h.2.1, h.2.2⟩
    intro m hm c e r hh
    have : c = cmm := by
      simp [sched] at hm
      rcases hm with rfl | rfl | rfl | rfl | rfl | rfl | rfl | rfl | rfl | rfl | rfl | rfl | rfl | rfl | rfl | rfl | rfl | rfl | rfl | rfl <;> cases hh <;> rfl
    subst this
    exact ⟨CmmExample.valid.1, by decide, by decide⟩

end Verif.Props
