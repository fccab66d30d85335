import Verif.Proof.LinearCache
/-
C99: calls on the local cache by any clients in any interleaving of threads have the results of calls made one after the other.
-/
namespace Verif.Props
open Verif.Spec Verif.Proof

/-- **C99** (the local cache, linearizability): in every execution of threads, the calls in the order in which they returned are a history
of the sequential specification, whose list has as many items as the cache has entries. -/
theorem C99_linearizable {addr : Nat → Nat} {cap num : Nat} {log : List Done} {asked : Nat → Option CacheOp} {s : Conc}
    (h : ThreadRuns addr cap num log asked s) : ∃ l, LruHistory (max cap 2) (log.map (·.2)) l ∧ l.length = cacheCount s.cache := by
  have hl := lin_runs h
  refine ⟨_, hl.hist, ?_⟩
  exact (count_items hl.cc.ok).symm

/-- **C99** (the local cache, all executions): every state that threads reach on a new cache is the end of an execution with a record. -/
theorem C99_every_execution {addr : Nat → Nat} {cap num : Nat} {s : Conc} (h : ConcReach anyClient (concNew addr cap num) s) :
    ∃ log asked, ThreadRuns addr cap num log asked s := by
  induction h with
  | start => exact ⟨_, _, .new⟩
  | @step s s' t mv r _ _ hs ih =>
    obtain ⟨log, asked, hr⟩ := ih
    cases mv with
    | call op =>
      cases r with
      | none => exact ⟨_, _, .begins hr hs⟩
      | some r => exact ⟨_, _, .returns hr hs⟩
    | go =>
      cases r with
      | none => exact ⟨_, _, .goes hr hs⟩
      | some r =>
        obtain ⟨op, ho⟩ := lin_asked (lin_runs hr) hs
        exact ⟨_, _, .ends hr ho hs⟩

/-- **C99** (the local cache, lookups): what a lookup finds was stored earlier under its identifier, and since then no call that returned
before the lookup cleared the cache, invalidated the entry or stored another under the identifier. -/
theorem C99_found {addr : Nat → Nat} {cap num : Nat} {log post pre : List Done} {x : Done} {asked : Nat → Option CacheOp} {s : Conc}
    (h : ThreadRuns addr cap num log asked s) (hl : log = post ++ x :: pre) {n : Nat} {id : Bytes} (hx : foundAs x.2 = some (n, id)) :
    ∃ mid y old, pre = mid ++ y :: old ∧ putHandle y.2 = some n ∧ putId y.2 = some id ∧ ∀ z ∈ mid, ¬ Removes n id z.2 := by
  subst hl
  have hh := (lin_runs h).hist
  rw [List.map_append, List.map_cons] at hh
  obtain ⟨l0, l1, h1, h2⟩ := history_at hh
  obtain ⟨it, hi, rfl, rfl⟩ := found_item hx h2
  obtain ⟨mid, y, old, h3, h4, h5, h6⟩ := history_items h1 it hi
  obtain ⟨mid', rest, rfl, rfl, h7⟩ := List.map_eq_append_iff.1 h3
  obtain ⟨y', old', rfl, rfl, rfl⟩ := List.map_eq_cons_iff.1 h7
  exact ⟨mid', y', old', rfl, h4, h5, fun z hz => h6 z.2 (List.mem_map.2 ⟨z, hz, rfl⟩)⟩

/-- **C99** (the local cache, handles): no two stores, by whichever threads, give the same handle. -/
theorem C99_handles {addr : Nat → Nat} {cap num : Nat} {log : List Done} {asked : Nat → Option CacheOp} {s : Conc}
    (h : ThreadRuns addr cap num log asked s) : (log.filterMap fun x => putHandle x.2).Nodup := (lin_runs h).nodup

/-- **C99** (the local cache, invalidation): once a release that asks for invalidation has returned, no lookup by any thread finds the
entry. -/
theorem C99_invalidated_not_found {addr : Nat → Nat} {cap num : Nat} {log post pre : List Done} {x : Done} {asked : Nat → Option CacheOp}
    {s : Conc} (h : ThreadRuns addr cap num log asked s) (hl : log = post ++ x :: pre) {n : Nat} (hx : x.2.1 = .release n true) :
    ∀ y ∈ post, ∀ id, foundAs y.2 ≠ some (n, id) := by
  subst hl
  intro y hy id
  exact (List.pairwise_append.1 (lin_runs h).never).2.2 y hy x (List.mem_cons_self ..) n id hx

/-- **C99** (the local cache, usage of invalidated entries): once a release that asks for invalidation has returned, every
`update_usage_stats` of the entry that begins is refused. -/
theorem C99_invalidated_refused {addr : Nat → Nat} {cap num : Nat} {log : List Done} {x : Done} {asked : Nat → Option CacheOp} {s s' : Conc}
    (h : ThreadRuns addr cap num log asked s) (hx : x ∈ log) {n : Nat} (hn : x.2.1 = .release n true) {t bytes messages : Nat}
    {r : Option CacheResult} (hs : s.step t (.call (.use n bytes messages)) = some (.ok (s', r))) :
    r = some (.usage (.error .badState)) ∧ s'.cache = s.cache := by
  have hg := (lin_runs h).gone x hx n hn
  unfold Conc.step at hs
  simp only at hs
  split at hs
  · unfold startCall at hs
    simp only at hs
    cases hm : s.cache.mem n with
    | none => simp [Cache.entry, hm, Conc.finish] at hs
    | some e =>
      simp only [entry_some hm, hg.2 e hm, true_or, if_true, Conc.finish, Option.some.injEq, Except.ok.injEq, Prod.mk.injEq, After.result] at hs
      obtain ⟨rfl, rfl⟩ := hs
      exact ⟨rfl, rfl⟩
  · cases hs

/-- **C99** (the local cache, no interference): a call whose steps no other thread separates does what the call does as a whole. -/
theorem C99_uninterrupted {op : CacheOp} {c c' : Cache} {r : CacheResult} :
    cacheCall op c = .ok (c', r) ↔ ∃ c1 a, startCall op c = .ok (c1, a) ∧ Alone c1 a c' r := by
  have ret : ∀ {c1 c' : Cache} {q r}, Alone c1 (.ret q) c' r ↔ c' = c1 ∧ r = q :=
    ⟨fun h => by cases h; exact ⟨rfl, rfl⟩, fun ⟨h1, h2⟩ => h1 ▸ h2 ▸ .ret⟩
  have wait : ∀ {c1 c' : Cache} {p r}, Alone c1 (.wait p) c' r ↔ ∃ c2 a, resumeCall p c1 = .ok (c2, a) ∧ Alone c2 a c' r :=
    ⟨fun h => by cases h with | wait h1 h2 => exact ⟨_, _, h1, h2⟩, fun ⟨_, _, h1, h2⟩ => .wait h1 h2⟩
  have whole : (∀ (h : startCall op c = match cacheCall op c with | .error f => .error f | .ok (c, r) => .ok (c, .ret r)),
      (cacheCall op c = .ok (c', r) ↔ ∃ c1 a, startCall op c = .ok (c1, a) ∧ Alone c1 a c' r)) := by
    intro h
    rw [h]
    cases hc : cacheCall op c with
    | error f => simp
    | ok x =>
      simp only [Except.ok.injEq, Prod.mk.injEq]
      constructor
      · rintro rfl; exact ⟨_, _, ⟨rfl, rfl⟩, .ret⟩
      · rintro ⟨c1, a, ⟨rfl, rfl⟩, ha⟩
        obtain ⟨rfl, rfl⟩ := ret.1 ha
        rfl
  cases op with
  | use n b k =>
    unfold cacheCall startCall cacheUpdateUsage
    simp only
    cases hm : c.mem n with
    | none => simp [Cache.entry, hm, Except.map]
    | some e =>
      simp only [entry_some hm]
      split
      · simp only [Except.map, Except.ok.injEq, Prod.mk.injEq]
        constructor
        · rintro ⟨rfl, rfl⟩; exact ⟨_, _, ⟨rfl, rfl⟩, .ret⟩
        · rintro ⟨c1, a, ⟨rfl, rfl⟩, ha⟩
          obtain ⟨rfl, rfl⟩ := ret.1 ha
          exact ⟨rfl, rfl⟩
      · simp only [Except.map, Except.ok.injEq, Prod.mk.injEq]
        have e1 : resumeCall (.addBytes n b k) c = .ok (c.set n (some { e with usageBytes := u64 (e.usageBytes + b) }), .wait (.addMessages n (u64 (e.usageBytes + b)) k)) := by
          unfold resumeCall; simp only [entry_some hm]
        have e2 : resumeCall (.addMessages n (u64 (e.usageBytes + b)) k) (c.set n (some { e with usageBytes := u64 (e.usageBytes + b) })) =
            .ok (c.set n (some { e with usageBytes := u64 (e.usageBytes + b), usageMessages := u64 (e.usageMessages + k) }),
              .ret (.usage (.ok (u64 (e.usageBytes + b), u64 (e.usageMessages + k))))) := by
          unfold resumeCall; simp only [entry_set, set_set]
        constructor
        · rintro ⟨rfl, rfl⟩
          exact ⟨_, _, ⟨rfl, rfl⟩, .wait e1 (.wait e2 .ret)⟩
        · rintro ⟨c1, a, ⟨rfl, rfl⟩, ha⟩
          obtain ⟨c2, a, h1, ha⟩ := wait.1 ha
          rw [e1] at h1; cases h1
          obtain ⟨c2, a, h1, ha⟩ := wait.1 ha
          rw [e2] at h1; cases h1
          obtain ⟨rfl, rfl⟩ := ret.1 ha
          exact ⟨rfl, rfl⟩
  | hint n t push =>
    unfold cacheCall startCall
    simp only
    cases hm : c.mem n with
    | none => simp [cacheHint, Cache.entry, hm, Except.map]
    | some e =>
      simp only [entry_some hm]
      split
      · next hz =>
        have : cacheHint n t push c = .ok c := by unfold cacheHint; rw [entry_some hm]; simp only [if_pos hz]
        simp only [this, Except.map, Except.ok.injEq, Prod.mk.injEq]
        constructor
        · rintro ⟨rfl, rfl⟩; exact ⟨_, _, ⟨rfl, rfl⟩, .ret⟩
        · rintro ⟨c1, a, ⟨rfl, rfl⟩, ha⟩
          obtain ⟨rfl, rfl⟩ := ret.1 ha
          exact ⟨rfl, rfl⟩
      · simp only [Except.ok.injEq, Prod.mk.injEq]
        cases hc : cacheHint n t push c with
        | error f =>
          simp only [Except.map, reduceCtorEq, false_iff]
          rintro ⟨c1, a, ⟨rfl, rfl⟩, ha⟩
          obtain ⟨c2, a, h1, ha⟩ := wait.1 ha
          simp [resumeCall, hc] at h1
        | ok c2 =>
          simp only [Except.map, Except.ok.injEq, Prod.mk.injEq]
          constructor
          · rintro ⟨rfl, rfl⟩; exact ⟨_, _, ⟨rfl, rfl⟩, .wait (by simp only [resumeCall, hc]) .ret⟩
          · rintro ⟨c1, a, ⟨rfl, rfl⟩, ha⟩
            obtain ⟨c3, a, h1, ha⟩ := wait.1 ha
            simp only [resumeCall, hc, Except.ok.injEq, Prod.mk.injEq] at h1
            obtain ⟨rfl, rfl⟩ := h1
            obtain ⟨rfl, rfl⟩ := ret.1 ha
            exact ⟨rfl, rfl⟩
  | release n inv =>
    unfold cacheCall startCall cacheRelease
    simp only
    cases hm : c.mem n with
    | none => simp [Cache.entry, hm, Except.map]
    | some e =>
      simp only [entry_some hm]
      split
      · next hz =>
        obtain ⟨rfl, hz⟩ := hz
        simp only [Except.ok.injEq, Prod.mk.injEq]
        unfold lockedRelease
        simp only [entry_some hm]
        split
        · next h0 =>
          simp only [Except.map, reduceCtorEq, false_iff]
          rintro ⟨c1, a, ⟨rfl, rfl⟩, ha⟩
          obtain ⟨c2, a, h1, ha⟩ := wait.1 ha
          simp [resumeCall, entry_some hm, decref, h0] at h1
        · next h0 =>
          split
          · next h1 =>
            simp only [hz, Bool.false_eq_true, if_false, Except.map, reduceCtorEq, false_iff]
            rintro ⟨c1, a, ⟨rfl, rfl⟩, ha⟩
            obtain ⟨c2, a, h2, ha⟩ := wait.1 ha
            simp [resumeCall, entry_some hm, decref, h1, hz] at h2
          · next h1 =>
            have e1 : resumeCall (.relLock n) c = .ok (c.set n (some { e with refcount := e.refcount - 1 }), .wait (.relHeld n)) := by
              simp only [resumeCall, entry_some hm, decref, if_neg h0, if_neg h1]
            have e2 : ∀ r, resumeCall (.relHeld n) (c.set n (some { e with refcount := e.refcount - 1 })) = .ok r ↔
                ∃ c3, invalidate (c.set n (some { e with refcount := e.refcount - 1 })) n false = .ok c3 ∧ r = (c3, .ret .done) := by
              intro r
              unfold resumeCall
              simp only [entry_set]
              rw [if_neg (by simp [hz])]
              cases invalidate (c.set n (some { e with refcount := e.refcount - 1 })) n false with
              | error f => simp
              | ok c3 => simp [eq_comm]
            rw [if_pos (by simp [hz])]
            constructor
            · intro h
              cases hi : invalidate (c.set n (some { e with refcount := e.refcount - 1 })) n false with
              | error f => rw [hi] at h; cases h
              | ok c3 => rw [hi] at h; cases h; exact ⟨_, _, ⟨rfl, rfl⟩, .wait e1 (.wait ((e2 _).2 ⟨_, hi, rfl⟩) .ret)⟩
            · rintro ⟨c1, a, ⟨rfl, rfl⟩, ha⟩
              obtain ⟨c2, a, h2, ha⟩ := wait.1 ha
              rw [e1] at h2; cases h2
              obtain ⟨c2, a, h2, ha⟩ := wait.1 ha
              obtain ⟨c3, hi, h2⟩ := (e2 _).1 h2
              cases h2
              obtain ⟨rfl, rfl⟩ := ret.1 ha
              rw [hi]; rfl
      · simp only [Except.ok.injEq, Prod.mk.injEq]
        cases hc : decref c n with
        | error f =>
          simp only [Except.map, reduceCtorEq, false_iff]
          rintro ⟨c1, a, ⟨rfl, rfl⟩, ha⟩
          obtain ⟨c2, a, h1, ha⟩ := wait.1 ha
          simp [resumeCall, hc] at h1
        | ok c2 =>
          simp only [Except.map, Except.ok.injEq, Prod.mk.injEq]
          constructor
          · rintro ⟨rfl, rfl⟩; exact ⟨_, _, ⟨rfl, rfl⟩, .wait (by simp only [resumeCall, hc]) .ret⟩
          · rintro ⟨c1, a, ⟨rfl, rfl⟩, ha⟩
            obtain ⟨c3, a, h1, ha⟩ := wait.1 ha
            simp only [resumeCall, hc, Except.ok.injEq, Prod.mk.injEq] at h1
            obtain ⟨rfl, rfl⟩ := h1
            obtain ⟨rfl, rfl⟩ := ret.1 ha
            exact ⟨rfl, rfl⟩
  | find clk id => exact whole rfl
  | putEnc env id m b k ctx => exact whole rfl
  | putDec env id m => exact whole rfl
  | getEnc env n ctx => exact whole rfl
  | getDec env n => exact whole rfl
  | created n => exact whole rfl
  | clear => exact whole rfl
  | count => exact whole rfl

namespace C99

def env0 : PutEnv := ⟨some 10, true, some 10, true, fun _ => none⟩
def mat0 : EncMaterials := ⟨0x0478, [1], [], [], none⟩

/-- Two threads update the usage of one entry at the same time. -/
def both : List Done :=
  [(0, .use 0 5 1, .usage (.ok (5, 2))), (1, .use 0 6 1, .usage (.ok (11, 1))), (1, .find (some 11) [7], .handle (some 0)),
    (0, .putEnc env0 [7] mat0 0 0 [], .handle (some 0))]

/-- Then the second invalidates it. -/
def all : List Done :=
  [(1, .count, .number 0), (0, .find (some 12) [7], .handle none), (0, .use 0 1 1, .usage (.error .badState)), (1, .release 0 true, .done)] ++ both

theorem runs : ∃ asked s, ThreadRuns id 2 2 both asked s ∧ ∃ asked s, ThreadRuns id 2 2 all asked s := by
  have r0 := ThreadRuns.returns (t := 0) (op := .putEnc env0 [7] mat0 0 0 []) (r := .handle (some 0)) (ThreadRuns.new (addr := id) (cap := 2) (num := 2)) (by rfl)
  have r1 := ThreadRuns.returns (t := 1) (op := .find (some 11) [7]) (r := .handle (some 0)) r0 (by rfl)
  have r2 := ThreadRuns.begins (t := 0) (op := .use 0 5 1) r1 (by rfl)
  have r3 := ThreadRuns.begins (t := 1) (op := .use 0 6 1) r2 (by rfl)
  have r4 := ThreadRuns.goes (t := 0) r3 (by rfl)
  have r5 := ThreadRuns.goes (t := 1) r4 (by rfl)
  have r6 := ThreadRuns.ends (t := 1) (op := .use 0 6 1) (r := .usage (.ok (11, 1))) r5 (by rfl) (by rfl)
  have r7 := ThreadRuns.ends (t := 0) (op := .use 0 5 1) (r := .usage (.ok (5, 2))) r6 (by rfl) (by rfl)
  have r8 := ThreadRuns.begins (t := 1) (op := .release 0 true) r7 (by rfl)
  have r9 := ThreadRuns.goes (t := 1) r8 (by rfl)
  have r10 := ThreadRuns.ends (t := 1) (op := .release 0 true) (r := .done) r9 (by rfl) (by rfl)
  have r11 := ThreadRuns.returns (t := 0) (op := .use 0 1 1) (r := .usage (.error .badState)) r10 (by rfl)
  have r12 := ThreadRuns.returns (t := 0) (op := .find (some 12) [7]) (r := .handle none) r11 (by rfl)
  have r13 := ThreadRuns.returns (t := 1) (op := .count) (r := .number 0) r12 (by rfl)
  exact ⟨_, _, r7, _, _, r13⟩

end C99

/-- **C99** (the local cache, sums, refuted): the two sums that a call of `update_usage_stats` returns need not belong together.  The
bytes and the messages are added in two steps; of two calls at the same time one can see more bytes and the other more messages, so
that there is no order of the calls in which both results are right. -/
theorem C99_usage_sums_refuted : ¬ ∀ (addr : Nat → Nat) (cap num : Nat) (log : List Done) (asked : Nat → Option CacheOp) (s : Conc),
    ThreadRuns addr cap num log asked s → ∀ t n b m x y, (t, .use n b m, .usage (.ok (x, y))) ∈ log →
      ∀ t' b' m' x' y', (t', .use n b' m', .usage (.ok (x', y'))) ∈ log → x ≤ x' → y ≤ y' := by
  intro h
  obtain ⟨asked, s, hr, -⟩ := C99.runs
  have := h id 2 2 C99.both asked s hr 0 0 5 1 5 2 (by simp [C99.both]) 1 6 1 11 1 (by simp [C99.both]) (by decide)
  omega

/-- In the execution above the lookup of the second thread finds what the first stored, nothing is found after the invalidation, and the
count is that of the sequential specification. -/
example : ∃ asked s l, ThreadRuns id 2 2 C99.all asked s ∧ LruHistory 2 (C99.all.map (·.2)) l ∧ l.length = cacheCount s.cache ∧
    (C99.all.filterMap fun x => putHandle x.2) = [0] ∧ (∃ x ∈ C99.all, foundAs x.2 = some (0, [7])) ∧
    (∀ y ∈ C99.all.take 3, ∀ id, foundAs y.2 ≠ some (0, id)) := by
  obtain ⟨-, -, -, asked, s, hr⟩ := C99.runs
  obtain ⟨l, h1, h2⟩ := C99_linearizable hr
  refine ⟨asked, s, l, hr, h1, h2, rfl, ⟨_, List.mem_append_right _ (by simp [C99.both]; exact .inr (.inr (.inl rfl))), rfl⟩, ?_⟩
  exact C99_invalidated_not_found (post := C99.all.take 3) (pre := C99.both) hr rfl rfl

/-- A call that no other thread separates: releasing with invalidation takes three steps. -/
example : ∃ c c1 c2 c3 : Cache, startCall (.release 0 true) c = .ok (c1, .wait (.relLock 0)) ∧ resumeCall (.relLock 0) c1 = .ok (c2, .wait (.relHeld 0)) ∧
    resumeCall (.relHeld 0) c2 = .ok (c3, .ret .done) ∧ cacheCall (.release 0 true) c = .ok (c3, .done) ∧ cacheCount c = 1 ∧ cacheCount c3 = 0 := by
  obtain ⟨c, hc, hn⟩ : ∃ c, cacheCall (.putEnc C99.env0 [7] C99.mat0 0 0 []) (cacheNew id 2) = .ok (c, .handle (some 0)) ∧ cacheCount c = 1 := ⟨_, rfl, rfl⟩
  obtain ⟨c1, h1⟩ : ∃ c1, startCall (.release 0 true) c = .ok (c1, .wait (.relLock 0)) := by cases hc; exact ⟨_, rfl⟩
  obtain ⟨c2, h2⟩ : ∃ c2, resumeCall (.relLock 0) c1 = .ok (c2, .wait (.relHeld 0)) := by cases hc; cases h1; exact ⟨_, rfl⟩
  obtain ⟨c3, h3, h4⟩ : ∃ c3, resumeCall (.relHeld 0) c2 = .ok (c3, .ret .done) ∧ cacheCount c3 = 0 := by cases hc; cases h1; cases h2; exact ⟨_, rfl, rfl⟩
  exact ⟨c, c1, c2, c3, h1, h2, h3, C99_uninterrupted.2 ⟨_, _, h1, .wait h2 (.wait h3 .ret)⟩, hn, h4⟩

end Verif.Props
