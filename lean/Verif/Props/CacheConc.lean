import Verif.Proof.CacheConc
import Verif.Props.LocalCache
/-
C44, and C42 and C43 with several threads.
-/
namespace Verif.Props

variable {addr : Nat → Nat} {cap num : Nat} {s s' : Conc} {t : Nat} {mv : Move} {f : Fault}

/-! ## C44: releases in several threads -/

/-- C44, refuted: with two threads, each of which uses only handles it holds, there is an execution in which releasing a handle reads an
entry that has been freed. -/
theorem C44_concurrent_release_refuted : ¬ ∀ (addr : Nat → Nat) (cap num : Nat) (s : Conc) (t : Nat) (mv : Move) (f : Fault),
    Spec.ConcReach Spec.anyClient (concNew addr cap num) s → s.step t mv ≠ some (.error f) := by
  intro h
  -- thread 1 stores an entry and keeps its handle; thread 0 looks it up and begins to release and invalidate it; thread 1 clears the
  -- cache, thread 0 decrements the count, thread 1 releases its handle and frees the entry, thread 0 reads it
  let sched : List (Nat × Move) := [(1, .call (.putEnc (CacheExample.penv 10) [1] CacheExample.mats 5 1 [])), (0, .call (.find (some 15) [1])),
    (0, .call (.release 0 true)), (1, .call .clear), (0, .go), (1, .call (.release 0 false)), (1, .go)]
  have hs : ∃ s, Spec.concAfter (concNew id 2 2) sched = some s ∧ s.step 0 .go = some (.error .useAfterFree) := ⟨_, by rfl, by rfl⟩
  obtain ⟨s, h1, h2⟩ := hs
  exact h id 2 2 s 0 .go .useAfterFree (Spec.concAfter_reach .start h1) h2

/-- C44, partial: for any number of threads and any interleaving, nothing else goes wrong: the only step that can fault is the second
test of the `zombie` flag in an invalidating release, made after the reference was given up. -/
theorem C44_only_fault_partial (h : Spec.ConcReach Spec.anyClient (concNew addr cap num) s) (hs : s.step t mv = some (.error f)) :
    mv = .go ∧ f = .useAfterFree ∧ ∃ n, (s.thr t).doing = .relHeld n ∧ s.cache.mem n = none := by
  rcases (CC.reach (.new addr cap num) h).1.step hs with ⟨_, _, he, -⟩ | ⟨n, h1, -, h2, h3, h4⟩
  · cases he
  · cases h4
    exact ⟨h1, rfl, n, h2, h3⟩

theorem no_relLock (h : Spec.ConcReach Spec.noInvalidation (concNew addr cap num) s) {n : Nat} :
    (s.thr t).doing ≠ .relLock n ∧ (s.thr t).doing ≠ .relHeld n := by
  induction h generalizing n with
  | start => exact ⟨by simp [concNew], by simp [concNew]⟩
  | @step s s' u mv r hr ha hs ih =>
    rcases (CC.reach (.new addr cap num) hr).1.step hs with ⟨_, _, he, -, hk⟩ | ⟨_, -, -, -, -, he⟩
    · cases he
      by_cases htu : t = u
      · subst htu
        cases hk with
        | @call op c' a _ _ _ _ hst _ hlk _ _ =>
          rw [update_self]
          refine ⟨?_, fun hd => by simp only at hd; rw [hd] at hlk; cases hlk⟩
          intro hd
          simp only at hd
          cases op with
          | release k inv =>
            cases inv with
            | true => exact ha k rfl
            | false =>
              simp only [startCall] at hst
              cases he : s.cache.entry k with
              | error f => rw [he] at hst; cases hst
              | ok e => rw [he] at hst; simp at hst; obtain ⟨-, rfl⟩ := hst; cases hd
          | use k _ _ =>
            simp only [startCall] at hst
            cases he : s.cache.entry k with
            | error f => rw [he] at hst; cases hst
            | ok e => rw [he] at hst; simp only at hst; split at hst <;> cases hst <;> cases hd
          | hint k _ _ =>
            simp only [startCall] at hst
            cases he : s.cache.entry k with
            | error f => rw [he] at hst; cases hst
            | ok e => rw [he] at hst; simp only at hst; split at hst <;> cases hst <;> cases hd
          | find a1 a2 =>
            simp only [startCall] at hst
            cases hcc : cacheCall (.find a1 a2) s.cache with
            | error f => rw [hcc] at hst; cases hst
            | ok p => rw [hcc] at hst; cases hst; cases hd
          | putEnc a1 a2 a3 a4 a5 a6 =>
            simp only [startCall] at hst
            cases hcc : cacheCall (.putEnc a1 a2 a3 a4 a5 a6) s.cache with
            | error f => rw [hcc] at hst; cases hst
            | ok p => rw [hcc] at hst; cases hst; cases hd
          | putDec a1 a2 a3 =>
            simp only [startCall] at hst
            cases hcc : cacheCall (.putDec a1 a2 a3) s.cache with
            | error f => rw [hcc] at hst; cases hst
            | ok p => rw [hcc] at hst; cases hst; cases hd
          | getEnc a1 a2 a3 =>
            simp only [startCall] at hst
            cases hcc : cacheCall (.getEnc a1 a2 a3) s.cache with
            | error f => rw [hcc] at hst; cases hst
            | ok p => rw [hcc] at hst; cases hst; cases hd
          | getDec a1 a2 =>
            simp only [startCall] at hst
            cases hcc : cacheCall (.getDec a1 a2) s.cache with
            | error f => rw [hcc] at hst; cases hst
            | ok p => rw [hcc] at hst; cases hst; cases hd
          | created a1 =>
            simp only [startCall] at hst
            cases hcc : cacheCall (.created a1) s.cache with
            | error f => rw [hcc] at hst; cases hst
            | ok p => rw [hcc] at hst; cases hst; cases hd
          | clear =>
            simp only [startCall] at hst
            cases hcc : cacheCall .clear s.cache with
            | error f => rw [hcc] at hst; cases hst
            | ok p => rw [hcc] at hst; cases hst; cases hd
          | count => cases hst; cases hd
        | @go c' a _ hidle _ _ hlater _ hrl =>
          rw [update_self]
          refine ⟨?_, fun hd => (ih (n := n)).1 (hrl n hd)⟩
          intro hda
          simp only at hda
          cases hd : (s.thr t).doing with
          | idle => exact hidle hd
          | addBytes n b m => rw [hd] at hlater; obtain ⟨e, -, -, rfl⟩ := hlater; cases hda
          | addMessages n b m => rw [hd] at hlater; obtain ⟨e, -, -, rfl⟩ := hlater; cases hda
          | hintLock n b m => rw [hd] at hlater; obtain ⟨-, rfl⟩ := hlater; cases hda
          | relPlain n => rw [hd] at hlater; obtain ⟨-, rfl⟩ := hlater; cases hda
          | relHeld n => rw [hd] at hlater; obtain ⟨-, rfl, -⟩ := hlater; cases hda
          | relLock n => exact (ih (n := n)).1 hd
      · cases hk with
        | call => rw [update_other s htu]; exact ih
        | go => rw [update_other s htu]; exact ih
    · cases he

/-- C44, partial: if no release invalidates, any number of threads may release (and otherwise use) handles on the same entry: no
freed entry is accessed and no assertion fails. -/
theorem C44_without_invalidation_partial (h : Spec.ConcReach Spec.noInvalidation (concNew addr cap num) s) : s.step t mv ≠ some (.error f) := by
  intro hs
  rcases (CC.reach (.new addr cap num) h).1.step hs with ⟨_, _, he, -⟩ | ⟨n, -, -, h2, -, -⟩
  · cases he
  · exact (no_relLock h).2 h2

/-- C44, partial: two threads that release the handle they hold before they store, look up or remove entries never access a freed entry,
whatever they invalidate. -/
theorem C44_two_threads_partial (h : Spec.ConcReach Spec.oneHandle (concNew addr cap 2) s) : s.step t mv ≠ some (.error f) := by
  have htwo : Two s := by
    induction h with
    | start => exact ⟨fun t _ => ⟨Nat.zero_le _, fun h => by cases h⟩, fun t _ n h => (by cases h), fun t _ n h => (by cases h)⟩
    | @step s s' t mv r hr ha hs ih =>
      obtain ⟨hc, hn, -⟩ := CC.reach (.new addr cap 2) hr
      rcases hc.step hs with ⟨_, _, he, hc', hk⟩ | ⟨_, -, -, -, -, he⟩
      · cases he
        exact ih.step hc hc' hn hk ha
      · cases he
  intro hs
  obtain ⟨hc, hn, -⟩ := CC.reach (.new addr cap 2) h
  rcases hc.step hs with ⟨_, _, he, -⟩ | ⟨n, -, ht, h2, h3, -⟩
  · cases he
  · obtain ⟨e, he, -⟩ := (mem_lru hc.ok).mp (htwo.locked t ht n h2)
    rw [h3] at he
    cases he

/-! ## C42 and C43 with several threads -/

/-- C42 with several threads: the number of live entries never exceeds the capacity. -/
theorem C42_capacity_concurrent (h : Spec.ConcReach Spec.anyClient (concNew addr cap num) s) : cacheCount s.cache ≤ max cap 2 := by
  obtain ⟨hc, -, hcap⟩ := CC.reach (.new addr cap num) h
  have := hc.ok.size
  rw [hcap] at this
  show s.cache.table.length ≤ max cap 2
  have h2 : (concNew addr cap num).cache.capacity ≤ max cap 2 := by
    show (if cap < 2 then 2 else cap) ≤ max cap 2
    split <;> omega
  exact Nat.le_trans this h2

/-- C43 with several threads: a handle that a thread holds refers to an entry in memory. -/
theorem C43_held_is_live_concurrent (h : Spec.ConcReach Spec.anyClient (concNew addr cap num) s) (ht : t < num) {n : Nat}
    (hn : n ∈ (s.thr t).held) : (s.cache.mem n).isSome := by
  obtain ⟨hc, hnum, -⟩ := CC.reach (.new addr cap num) h
  have ht' : t < s.num := by rw [hnum]; exact ht
  obtain ⟨e, he⟩ := hc.ok.inv.heldLive n ((s.refs_split ht').symm.subset (List.mem_append_left _ (List.mem_append_left _ hn)))
  rw [he]; rfl

/-- C43 with several threads: while a thread holds a handle, it gives the same materials and creation time, whatever the other threads
do. -/
theorem C43_handle_keeps_materials_concurrent (h : Spec.ConcReach Spec.anyClient (concNew addr cap num) s) {u : Nat} {r : Option CacheResult}
    (hs : s.step u mv = some (.ok (s', r))) (ht : t < num) {n : Nat} (hn : n ∈ (s.thr t).held) (hn' : n ∈ (s'.thr t).held) (env : GetEnv)
    (ctx : EncCtx) :
    cacheGetEnc env n ctx s'.cache = cacheGetEnc env n ctx s.cache ∧ cacheGetDec env n s'.cache = cacheGetDec env n s.cache ∧
    cacheCreation n s'.cache = cacheCreation n s.cache := by
  obtain ⟨e, he⟩ := Option.isSome_iff_exists.mp (C43_held_is_live_concurrent h ht hn)
  obtain ⟨e', he'⟩ := Option.isSome_iff_exists.mp (C43_held_is_live_concurrent (h.step trivial hs) ht hn')
  have evolve : ∀ {c' : Cache} {new}, Evolve s.cache c' new → c'.mem n = some e' → e'.mat = e.mat ∧ e'.keyMat = e.keyMat ∧ e'.creation = e.creation := by
    intro c' new hev hm
    rcases hev.old n e' hm with ⟨e0, h0, h1, -, -, -, h2, h3⟩ | ⟨-, -, h0, -⟩
    · rw [he] at h0; cases h0; exact ⟨h1, h3, h2⟩
    · rw [he] at h0; cases h0
  have key : e'.mat = e.mat ∧ e'.keyMat = e.keyMat ∧ e'.creation = e.creation := by
    rcases (CC.reach (.new addr cap num) h).1.step hs with ⟨_, _, hq, -, hk⟩ | ⟨_, -, -, -, -, hq⟩
    · cases hq
      cases hk with
      | call _ _ _ _ _ hev _ _ _ => exact evolve hev he'
      | @go c' a _ hidle _ _ hlater _ _ =>
        have he2 : c'.mem n = some e' := he'
        have modify : ∀ (k : Nat) (e0 e1 : Entry), s.cache.mem k = some e0 → c' = s.cache.set k (some e1) →
            e1.mat = e0.mat ∧ e1.keyMat = e0.keyMat ∧ e1.creation = e0.creation → e'.mat = e.mat ∧ e'.keyMat = e.keyMat ∧ e'.creation = e.creation := by
          intro k e0 e1 h0 hcc hsame
          subst hcc
          by_cases hkn : n = k
          · subst hkn
            rw [set_mem_self] at he2
            cases he2
            rw [he] at h0; cases h0
            exact hsame
          · have : (s.cache.set k (some e1)).mem n = s.cache.mem n := by simp [Cache.set, hkn]
            rw [this, he] at he2
            cases he2
            exact ⟨rfl, rfl, rfl⟩
        cases hd : (s.thr u).doing with
        | idle => exact absurd hd hidle
        | addBytes k b m => rw [hd] at hlater; obtain ⟨e0, h1, h2, -⟩ := hlater; exact modify k e0 _ h1 h2 ⟨rfl, rfl, rfl⟩
        | addMessages k b m => rw [hd] at hlater; obtain ⟨e0, h1, h2, -⟩ := hlater; exact modify k e0 _ h1 h2 ⟨rfl, rfl, rfl⟩
        | hintLock k b m => rw [hd] at hlater; exact evolve hlater.1 he2
        | relPlain k => rw [hd] at hlater; exact evolve hlater.1 he2
        | relLock k => rw [hd] at hlater; exact evolve hlater.1 he2
        | relHeld k => rw [hd] at hlater; exact evolve hlater.1 he2
    · cases hq
  unfold cacheGetEnc cacheGetDec cacheCreation
  rw [entry_some he, entry_some he']
  simp only [key.1, key.2.1, key.2.2, and_self]

/-! ## concrete executions -/

namespace ConcExample

open CacheExample

/-- Three threads share an entry: one releases with invalidation and is inside the critical section, one is in the middle of counting
usage, one waits for the mutex. -/
example : ∃ s, Spec.ConcReach Spec.anyClient (concNew id 2 3) s ∧ (s.thr 0).doing = .relHeld 0 ∧ (s.thr 1).doing = .addMessages 0 8 1 ∧
    (s.thr 2).doing = .relLock 0 ∧ (s.thr 1).held = [0] ∧ cacheCount s.cache = 1 := by
  have h : ∃ s, Spec.concAfter (concNew id 2 3) [(0, .call (.putEnc (penv 10) [1] mats 5 1 [])), (1, .call (.find (some 15) [1])),
      (2, .call (.find (some 15) [1])), (1, .call (.use 0 3 1)), (2, .call (.release 0 true)), (0, .call (.release 0 true)), (1, .go),
      (0, .go)] = some s ∧ (s.thr 0).doing = .relHeld 0 ∧ (s.thr 1).doing = .addMessages 0 8 1 ∧
    (s.thr 2).doing = .relLock 0 ∧ (s.thr 1).held = [0] ∧ cacheCount s.cache = 1 := ⟨_, by rfl, by rfl, by rfl, by rfl, by rfl, by rfl⟩
  obtain ⟨s, h1, h2⟩ := h
  exact ⟨s, Spec.concAfter_reach .start h1, h2⟩

/-- Two threads with one handle each, one of them inside an invalidating release while the other begins one. -/
example : ∃ s, Spec.ConcReach Spec.oneHandle (concNew id 2 2) s ∧ (s.thr 0).doing = .relHeld 0 ∧ (s.thr 1).doing = .relLock 0 := by
  refine ⟨_, .step (t := 0) (mv := .go) (.step (t := 1) (mv := .call (.release 0 true)) (.step (t := 0) (mv := .call (.release 0 true))
    (.step (t := 1) (mv := .call (.find (some 15) [1])) (.step (t := 0) (mv := .call (.putEnc (penv 10) [1] mats 5 1 [])) .start ?_ (by rfl))
    ?_ (by rfl)) ?_ (by rfl)) ?_ (by rfl)) ?_ (by rfl), by rfl, by rfl⟩
  · intro op _ _; rfl
  · intro op _ _; rfl
  · intro op h1 h2; cases h1; cases h2
  · intro op h1 h2; cases h1; cases h2
  · intro op h1 h2; cases h1

/-- Two threads that release the same entry without invalidation. -/
example : ∃ s, Spec.ConcReach Spec.noInvalidation (concNew id 2 2) s ∧ (s.thr 0).doing = .relPlain 0 ∧ (s.thr 1).doing = .relPlain 0 := by
  refine ⟨_, .step (t := 1) (mv := .call (.release 0 false)) (.step (t := 0) (mv := .call (.release 0 false))
    (.step (t := 1) (mv := .call (.find (some 15) [1])) (.step (t := 0) (mv := .call (.putEnc (penv 10) [1] mats 5 1 [])) .start ?_ (by rfl))
    ?_ (by rfl)) ?_ (by rfl)) ?_ (by rfl), by rfl, by rfl⟩
  all_goals intro n h; cases h

end ConcExample

end Verif.Props
