import Verif.Spec.CacheConc
import Verif.Proof.LocalCacheOps
/-
Every step of a thread keeps the invariant of the cache; only one kind of step can fault.
-/
namespace Verif

theorem CInv.perm {x : Option Nat} {held held' : List Nat} {c : Cache} (h : CInv x held c) (hp : held.Perm held') : CInv x held' c :=
  ⟨h.keys, h.tab, h.lruN, h.lru, h.len, h.ttlN, h.ttl, fun n e he => by rw [← hp.count_eq]; exact h.rc n e he, h.pos,
    fun n hn => h.heldLive n (hp.mem_iff.mpr hn), h.fresh, h.pend⟩

theorem COk.perm {held held' : List Nat} {c : Cache} (h : COk held c) (hp : held.Perm held') : COk held' c :=
  ⟨h.inv.perm hp, h.cap, h.size, h.bnd⟩

/-- References held inside a call. -/
def Pending.refs : Pending → List Nat
  | .relLock n => [n]
  | .relPlain n => [n]
  | _ => []

/-- The entry a call works on while its handle is still held by the caller. -/
def Pending.uses : Pending → Option Nat
  | .addBytes n _ _ => some n
  | .addMessages n _ _ => some n
  | .hintLock n _ _ => some n
  | _ => none

/-- All references of a thread. -/
def Thread.refs (th : Thread) : List Nat := th.held ++ th.doing.refs

/-- Where a thread is after a step. -/
def After.doing : After → Pending
  | .wait p => p
  | .ret _ => .idle

theorem Thread.next_eq (th : Thread) (op : Option CacheOp) (a : After) : th.next op a = ⟨heldAfter op a th.held, a.doing⟩ := by
  unfold Thread.next After.doing
  cases a <;> rfl

/-- The entry created by a call. -/
def newEntry (op : CacheOp) (a : After) : Option (Nat × Mat × Nat × Nat) :=
  match op, a with
  | .putEnc _ _ m bytes messages ctx, .ret (.handle (some n)) => some (n, .enc { m with signctx := none } ctx, bytes, messages)
  | .putDec _ _ m, .ret (.handle (some n)) => some (n, .dec { m with signctx := none }, 0, 0)
  | _, _ => none

/-- How entries change in a step that does not count usage. -/
structure Evolve (c c' : Cache) (new : Option (Nat × Mat × Nat × Nat)) : Prop where
  next : c.next ≤ c'.next
  old : ∀ m e', c'.mem m = some e' →
    (∃ e, c.mem m = some e ∧ e'.mat = e.mat ∧ e'.usageBytes = e.usageBytes ∧ e'.usageMessages = e.usageMessages ∧
      (e.zombie = true → e'.zombie = true) ∧ e'.creation = e.creation ∧ e'.keyMat = e.keyMat) ∨
    (new = some (m, e'.mat, e'.usageBytes, e'.usageMessages) ∧ m = c.next ∧ c.mem m = none ∧ e'.zombie = false)

theorem Evolve.refl (c : Cache) : Evolve c c none := ⟨Nat.le_refl _, fun _ e h => .inl ⟨e, h, rfl, rfl, rfl, id, rfl, rfl⟩⟩

theorem Evolve.kept {c c' : Cache} (h : Kept c c') (hn : c.next ≤ c'.next) : Evolve c c' none := by
  refine ⟨hn, fun m e' he' => ?_⟩
  obtain ⟨e, k, z, he, rfl, hz⟩ := h m e' he'
  exact .inl ⟨e, he, rfl, rfl, rfl, hz, rfl, rfl⟩

theorem put_step {held rest : List Nat} {c : Cache} (h : COk (held ++ rest) c) (env : PutEnv) (id : Bytes) (mat : Mat)
    (key : Option (Option Bytes)) (bytes messages : Nat) :
    ∃ c' r, cachePut env id mat key bytes messages c = .ok (c', r) ∧
      COk ((match r with | none => held | some n => n :: held) ++ rest) c' ∧
      Evolve c c' (match r with | none => none | some n => some (n, mat, bytes, messages)) ∧ c'.capacity = c.capacity ∧
      (∀ n, r = some n → ∃ e, c'.mem n = some e ∧ e.zombie = false) := by
  obtain ⟨c', r, h1, h2, h3, h4, h5⟩ := cachePut_spec h env id mat key bytes messages
  refine ⟨c', r, h1, ?_⟩
  rcases h5 with ⟨rfl, h6, h7, -⟩ | ⟨rfl, h6, h7, -, -, now, k, -, -, h8⟩
  · exact ⟨h6, .kept h7 h3, h4, fun n hn => by cases hn⟩
  · refine ⟨h6, ⟨h3, fun m e' he' => ?_⟩, h4, fun n hn => by cases hn; exact ⟨_, h8, rfl⟩⟩
    by_cases hm : m = c.next
    · subst hm
      rw [h8] at he'
      cases he'
      exact .inr ⟨rfl, rfl, h7, rfl⟩
    · obtain ⟨e, k, z, he, rfl, hz⟩ := h2 m e' hm he'
      exact .inl ⟨e, he, rfl, rfl, rfl, hz, rfl, rfl⟩

/-- The first step of a call. -/
theorem startCall_spec {held rest : List Nat} {c : Cache} (h : COk (held ++ rest) c) (op : CacheOp)
    (hop : ∀ n, op.on = some n → n ∈ held) :
    ∃ c' a, startCall op c = .ok (c', a) ∧ COk (heldAfter (some op) a held ++ a.doing.refs ++ rest) c' ∧
      Evolve c c' (newEntry op a) ∧ (∀ n, a.doing.uses = some n → n ∈ heldAfter (some op) a held) ∧ a.doing.locked = false ∧
      c'.capacity = c.capacity ∧ (∀ n, a = .ret (.handle (some n)) → ∃ e, c'.mem n = some e ∧ e.zombie = false) := by
  have live : ∀ n, op.on = some n → ∃ e, c.mem n = some e :=
    fun n hn => h.inv.heldLive n (List.mem_append_left _ (hop n hn))
  cases op with
  | find clk id =>
    obtain ⟨c', r, kept, h1, h2, h3, -, -, -, h7, h8, h9⟩ := cacheFind_spec h clk id
    refine ⟨c', .ret (.handle r), ?_, ?_, ?_, ?_, rfl, h8, fun n hn => by cases hn; obtain ⟨e, he, -, hz⟩ := h9 n rfl; exact ⟨e, he, hz⟩⟩
    · simp only [startCall, cacheCall]; rw [h1]; rfl
    · cases r with
      | none => simpa [heldAfter, After.doing, Pending.refs] using h2
      | some n => simpa [heldAfter, After.doing, Pending.refs] using h2
    · have : newEntry (.find clk id) (.ret (.handle r)) = none := rfl
      rw [this]
      exact .kept h3 (Nat.le_of_eq h7.symm)
    · intro n hn; cases hn
  | putEnc env id m bytes messages ctx =>
    obtain ⟨c', r, h1, h2, h3, h4, h5⟩ := put_step h env id (.enc { m with signctx := none } ctx) (storedKey env m.signctx) bytes messages
    refine ⟨c', .ret (.handle r), ?_, ?_, ?_, ?_, rfl, h4, fun n hn => by cases hn; exact h5 n rfl⟩
    · simp only [startCall, cacheCall, cachePutEnc]; rw [h1]; rfl
    · cases r with
      | none => simpa [heldAfter, After.doing, Pending.refs] using h2
      | some n => simpa [heldAfter, After.doing, Pending.refs] using h2
    · cases r <;> exact h3
    · intro n hn; cases hn
  | putDec env id m =>
    obtain ⟨c', r, h1, h2, h3, h4, h5⟩ := put_step h env id (.dec { m with signctx := none }) (storedKey env m.signctx) 0 0
    refine ⟨c', .ret (.handle r), ?_, ?_, ?_, ?_, rfl, h4, fun n hn => by cases hn; exact h5 n rfl⟩
    · simp only [startCall, cacheCall, cachePutDec]; rw [h1]; rfl
    · cases r with
      | none => simpa [heldAfter, After.doing, Pending.refs] using h2
      | some n => simpa [heldAfter, After.doing, Pending.refs] using h2
    · cases r <;> exact h3
    · intro n hn; cases hn
  | use n bytes messages =>
    obtain ⟨e, hm⟩ := live n rfl
    simp only [startCall, entry_some hm]
    split
    · refine ⟨c, _, rfl, ?_, .refl c, ?_, rfl, rfl, fun n hn => by cases hn⟩
      · simpa [heldAfter, After.doing, Pending.refs] using h
      · intro k hk; cases hk
    · refine ⟨c, _, rfl, ?_, .refl c, ?_, rfl, rfl, fun n hn => by cases hn⟩
      · simpa [heldAfter, After.doing, Pending.refs] using h
      · intro k hk
        cases hk
        exact hop n rfl
  | getEnc env n ctx =>
    obtain ⟨c', r, h1, -, -, -, -, -⟩ := cacheCall_spec h (.getEnc env n ctx) (fun k hk => List.mem_append_left _ (hop k hk))
    simp only [startCall, h1]
    simp only [cacheCall] at h1
    cases hg : cacheGetEnc env n ctx c with
    | error f => rw [hg] at h1; cases h1
    | ok x =>
      rw [hg] at h1
      cases h1
      refine ⟨c, _, rfl, ?_, .refl c, ?_, rfl, rfl, fun n hn => by cases hn⟩
      · simpa [heldAfter, After.doing, Pending.refs] using h
      · intro k hk; cases hk
  | getDec env n =>
    obtain ⟨c', r, h1, -, -, -, -, -⟩ := cacheCall_spec h (.getDec env n) (fun k hk => List.mem_append_left _ (hop k hk))
    simp only [startCall, h1]
    simp only [cacheCall] at h1
    cases hg : cacheGetDec env n c with
    | error f => rw [hg] at h1; cases h1
    | ok x =>
      rw [hg] at h1
      cases h1
      refine ⟨c, _, rfl, ?_, .refl c, ?_, rfl, rfl, fun n hn => by cases hn⟩
      · simpa [heldAfter, After.doing, Pending.refs] using h
      · intro k hk; cases hk
  | created n =>
    obtain ⟨e, hm⟩ := live n rfl
    simp only [startCall, cacheCall, cacheCreation, entry_some hm]
    refine ⟨c, _, rfl, ?_, .refl c, ?_, rfl, rfl, fun n hn => by cases hn⟩
    · simpa [heldAfter, After.doing, Pending.refs] using h
    · intro k hk; cases hk
  | hint n t push =>
    obtain ⟨e, hm⟩ := live n rfl
    simp only [startCall, entry_some hm]
    split
    · refine ⟨c, _, rfl, ?_, .refl c, ?_, rfl, rfl, fun n hn => by cases hn⟩
      · simpa [heldAfter, After.doing, Pending.refs] using h
      · intro k hk; cases hk
    · refine ⟨c, _, rfl, ?_, .refl c, ?_, rfl, rfl, fun n hn => by cases hn⟩
      · simpa [heldAfter, After.doing, Pending.refs] using h
      · intro k hk
        cases hk
        exact hop n rfl
  | release n inv =>
    obtain ⟨e, hm⟩ := live n rfl
    have hp : (held ++ rest).Perm (held.erase n ++ [n] ++ rest) := by
      have h1 := List.perm_cons_erase (hop n rfl)
      have h2 : (n :: held.erase n).Perm (held.erase n ++ [n]) := (List.perm_append_singleton n (held.erase n)).symm
      exact (h1.trans h2).append_right rest
    simp only [startCall, entry_some hm]
    split
    · refine ⟨c, _, rfl, ?_, .refl c, ?_, rfl, rfl, fun n hn => by cases hn⟩
      · exact h.perm hp
      · intro k hk; cases hk
    · refine ⟨c, _, rfl, ?_, .refl c, ?_, rfl, rfl, fun n hn => by cases hn⟩
      · exact h.perm hp
      · intro k hk; cases hk
  | clear =>
    obtain ⟨c', h1, h2, h3, h4, h5, h6⟩ := cacheClear_spec h
    refine ⟨c', .ret .done, ?_, ?_, .kept h4 (Nat.le_of_eq h5.symm), ?_, rfl, h6, fun n hn => by cases hn⟩
    · simp only [startCall, cacheCall]; rw [h1]; rfl
    · simpa [heldAfter, After.doing, Pending.refs] using h2
    · intro k hk; cases hk
  | count =>
    refine ⟨c, .ret (.number (cacheCount c)), rfl, ?_, .refl c, ?_, rfl, rfl, fun n hn => by cases hn⟩
    · simpa [heldAfter, After.doing, Pending.refs] using h
    · intro k hk; cases hk

/-- How entries change in the later steps of a call. -/
def Later (p : Pending) (c c' : Cache) (a : After) : Prop :=
  match p with
  | .addBytes n bytes messages => ∃ e, c.mem n = some e ∧ c' = c.set n (some { e with usageBytes := u64 (e.usageBytes + bytes) }) ∧
      a = .wait (.addMessages n (u64 (e.usageBytes + bytes)) messages)
  | .addMessages n sum messages => ∃ e, c.mem n = some e ∧ c' = c.set n (some { e with usageMessages := u64 (e.usageMessages + messages) }) ∧
      a = .ret (.usage (.ok (sum, u64 (e.usageMessages + messages))))
  | .hintLock _ _ _ => Evolve c c' none ∧ a = .ret .done
  | .relPlain _ => Evolve c c' none ∧ a = .ret .done
  | .relLock n => Evolve c c' none ∧ ((a = .ret .done ∧ c'.mem n = none) ∨ (a = .wait (.relHeld n) ∧ c.mem n ≠ none ∧
      ∃ e', c'.mem n = some e' ∧ (e'.zombie = true → 0 < e'.refcount)))
  | .relHeld n => Evolve c c' none ∧ a = .ret .done ∧ ∀ e', c'.mem n = some e' → e'.zombie = true
  | .idle => False

theorem decref_eq_release (c : Cache) (n : Nat) : decref c n = cacheRelease n false c := by
  unfold cacheRelease
  cases h : c.entry n with
  | error f => unfold decref; rw [h]
  | ok e => simp

/-- The other steps of a call: they keep the invariant, or they read a freed entry after giving up the last reference that kept it. -/
theorem resumeCall_spec {held rest : List Nat} {c : Cache} {p : Pending} (h : COk (held ++ p.refs ++ rest) c) (hp : p ≠ .idle)
    (hu : ∀ n, p.uses = some n → n ∈ held) :
    (∃ c' a, resumeCall p c = .ok (c', a) ∧ COk (heldAfter none a held ++ a.doing.refs ++ rest) c' ∧ Later p c c' a ∧
      (∀ n, a.doing.uses = some n → n ∈ heldAfter none a held) ∧ (∀ n, a.doing = .relHeld n → p = .relLock n) ∧
      c'.capacity = c.capacity) ∨
    (∃ n, p = .relHeld n ∧ c.mem n = none ∧ resumeCall p c = .error .useAfterFree) := by
  have modify : ∀ (n : Nat) (e e' : Entry), c.mem n = some e → e'.zombie = e.zombie → e'.cacheId = e.cacheId → e'.expiry = e.expiry →
      e'.refcount = e.refcount → COk (held ++ p.refs ++ rest) (c.set n (some e')) := by
    intro n e e' hm hz hid hx hr
    refine ⟨h.inv.modify hm hz hid hx (fun _ _ => rfl) ?_ (by rw [hr]; exact h.inv.pos n e hm), h.cap, h.size, ?_⟩
    · rw [hr, hz]; exact h.inv.rc n e hm
    · intro m f hf
      unfold Cache.set at hf
      simp only at hf
      split at hf
      · cases hf
        rw [hx]; exact h.bnd n e hm
      · exact h.bnd m f hf
  cases p with
  | idle => exact absurd rfl hp
  | addBytes n bytes messages =>
    left
    obtain ⟨e, hm⟩ := h.inv.heldLive n (by simp [hu n rfl])
    refine ⟨_, _, by simp only [resumeCall, entry_some hm], ?_, ⟨e, hm, rfl, rfl⟩, ?_, ?_, rfl⟩
    · exact modify n e _ hm rfl rfl rfl rfl
    · intro k hk; cases hk; exact hu n rfl
    · intro k hk; cases hk
  | addMessages n sum messages =>
    left
    obtain ⟨e, hm⟩ := h.inv.heldLive n (by simp [hu n rfl])
    refine ⟨_, _, by simp only [resumeCall, entry_some hm], ?_, ⟨e, hm, rfl, rfl⟩, ?_, ?_, rfl⟩
    · exact modify n e _ hm rfl rfl rfl rfl
    · intro k hk; cases hk
    · intro k hk; cases hk
  | hintLock n t push =>
    left
    have hn : n ∈ held ++ (Pending.hintLock n t push).refs ++ rest := by simp [hu n rfl]
    obtain ⟨c', h1, h2, h3, h4, h5, h6⟩ := cacheHint_spec h hn t push
    refine ⟨c', .ret .done, by simp only [resumeCall, h1], h2, ⟨⟨Nat.le_of_eq h4.symm, ?_⟩, rfl⟩, ?_, ?_, h5⟩
    · intro m e' he'
      obtain ⟨e, x, he, rfl⟩ := h6 m e' he'
      exact .inl ⟨e, he, rfl, rfl, rfl, id, rfl, rfl⟩
    · intro k hk; cases hk
    · intro k hk; cases hk
  | relPlain n =>
    left
    have hn : n ∈ held ++ (Pending.relPlain n).refs ++ rest := by simp [Pending.refs]
    obtain ⟨c', h1, h2, h3, -, h5, h6⟩ := cacheRelease_spec h hn false
    have hpm : ((held ++ (Pending.relPlain n).refs ++ rest).erase n).Perm (held ++ rest) := by
      have : (held ++ (Pending.relPlain n).refs ++ rest).Perm (n :: (held ++ rest)) := by
        show (held ++ [n] ++ rest).Perm (n :: (held ++ rest))
        rw [List.append_assoc]
        exact List.perm_middle
      have := this.erase n
      rwa [List.erase_cons_head] at this
    refine ⟨c', .ret .done, by simp only [resumeCall, decref_eq_release, h1], ?_, ⟨.kept h3 (Nat.le_of_eq h5.symm), rfl⟩, ?_, ?_, h6⟩
    · have := h2.perm hpm
      simpa [heldAfter, After.doing, Pending.refs] using this
    · intro k hk; cases hk
    · intro k hk; cases hk
  | relLock n =>
    left
    have hn : n ∈ held ++ (Pending.relLock n).refs ++ rest := by simp [Pending.refs]
    obtain ⟨e, hm⟩ := h.inv.heldLive n hn
    obtain ⟨c', h1, h2, h3, -, h5, h6⟩ := cacheRelease_spec h hn false
    have hpm : ((held ++ (Pending.relLock n).refs ++ rest).erase n).Perm (held ++ rest) := by
      have : (held ++ (Pending.relLock n).refs ++ rest).Perm (n :: (held ++ rest)) := by
        show (held ++ [n] ++ rest).Perm (n :: (held ++ rest))
        rw [List.append_assoc]
        exact List.perm_middle
      have := this.erase n
      rwa [List.erase_cons_head] at this
    have h2' := h2.perm hpm
    have hd : decref c n = .ok c' := by rw [decref_eq_release]; exact h1
    have hd2 := hd
    unfold decref at hd2
    rw [entry_some hm] at hd2
    simp only at hd2
    have hpos := h.inv.pos n e hm
    rw [if_neg (by omega)] at hd2
    by_cases h1' : e.refcount = 1
    · refine ⟨c', .ret .done, by simp only [resumeCall, entry_some hm, hd, if_pos h1'], ?_, ⟨.kept h3 (Nat.le_of_eq h5.symm), .inl ⟨rfl, ?_⟩⟩, ?_, ?_, h6⟩
      · simpa [heldAfter, After.doing, Pending.refs] using h2'
      · rw [if_pos h1'] at hd2
        split at hd2
        · cases hd2; exact set_mem_self ..
        · cases hd2
      · intro k hk; cases hk
      · intro k hk; cases hk
    · rw [if_neg h1'] at hd2
      refine ⟨c', .wait (.relHeld n), by simp only [resumeCall, entry_some hm, hd, if_neg h1'], ?_,
        ⟨.kept h3 (Nat.le_of_eq h5.symm), .inr ⟨rfl, by rw [hm]; simp, { e with refcount := e.refcount - 1 }, ?_, ?_⟩⟩, ?_, ?_, h6⟩
      · simpa [heldAfter, After.doing, Pending.refs] using h2'
      · cases hd2; exact set_mem_self ..
      · intro _; show 0 < e.refcount - 1; omega
      · intro k hk; cases hk
      · intro k hk; cases hk; rfl
  | relHeld n =>
    cases hm : c.mem n with
    | none =>
      right
      refine ⟨n, rfl, hm, ?_⟩
      simp only [resumeCall, Cache.entry, hm]
    | some e =>
      left
      simp only [resumeCall, entry_some hm]
      cases hz : e.zombie with
      | true =>
        refine ⟨c, .ret .done, by simp, h, ⟨.refl c, rfl, ?_⟩, ?_, ?_, rfl⟩
        · intro e' he'
          rw [hm] at he'; cases he'; exact hz
        · intro k hk; cases hk
        · intro k hk; cases hk
      | false =>
        have hv : Vis c none n e := ⟨hm, hz, by simp⟩
        refine ⟨c.without n e, .ret .done, by simp [invalidate_false h.inv hv], ?_, ⟨.kept (.without hm) (Nat.le_refl _), rfl, ?_⟩, ?_, ?_, rfl⟩
        · exact h.kept (h.inv.without hv) (.without hm) rfl (List.length_filter_le _ _)
        · intro e' he'
          simp only [Cache.without, if_true, Entry.dropped] at he'
          split at he'
          · cases he'
          · cases he'; rfl
        · intro k hk; cases hk
        · intro k hk; cases hk

/-! ### threads -/

/-- All references of all threads. -/
def Conc.refs (s : Conc) : List Nat := (List.range s.num).flatMap fun t => (s.thr t).refs

/-- The references of all threads but one. -/
def Conc.others (s : Conc) (t : Nat) : List Nat := ((List.range s.num).filter (fun i => i ≠ t)).flatMap fun i => (s.thr i).refs

theorem flatMap_range_split {f : Nat → List Nat} {t : Nat} : ∀ {k : Nat}, t < k →
    ((List.range k).flatMap f).Perm (f t ++ ((List.range k).filter (fun i => i ≠ t)).flatMap f) := by
  intro k
  induction k with
  | zero => intro h; omega
  | succ k ih =>
    intro h
    rw [List.range_succ, List.flatMap_append, List.filter_append, List.flatMap_append]
    by_cases ht : t = k
    · subst ht
      have : (List.range t).filter (fun i => decide (i ≠ t)) = List.range t := by
        apply List.filter_eq_self.mpr
        intro a ha
        have := List.mem_range.mp ha
        simp; omega
      rw [this]
      simp
      exact List.perm_append_comm
    · have := (ih (by omega)).append_right ([k].flatMap f)
      have hk : [k].filter (fun i => decide (i ≠ t)) = [k] := by
        simp; omega
      rw [hk, ← List.append_assoc]
      exact this

theorem Conc.refs_split (s : Conc) {t : Nat} (ht : t < s.num) : s.refs.Perm ((s.thr t).refs ++ s.others t) := flatMap_range_split ht

theorem Conc.others_update (s : Conc) (t : Nat) (c : Cache) (th : Thread) : (s.update t c th).others t = s.others t := by
  have key : ∀ (l : List Nat), (∀ i ∈ l, i ≠ t) →
      l.flatMap (fun i => ((s.update t c th).thr i).refs) = l.flatMap (fun i => (s.thr i).refs) := by
    intro l hl
    induction l with
    | nil => rfl
    | cons a l ih =>
      have ha : a ≠ t := hl a (by simp)
      simp only [List.flatMap_cons]
      rw [ih (fun i hi => hl i (by simp [hi]))]
      simp only [Conc.update, if_neg ha]
  unfold Conc.others
  exact key _ (fun i hi => by simpa using (List.mem_filter.mp hi).2)

theorem Conc.refs_update (s : Conc) {t : Nat} (ht : t < s.num) (c : Cache) (th : Thread) :
    (s.update t c th).refs.Perm (th.refs ++ s.others t) := by
  have h := (s.update t c th).refs_split (t := t) ht
  rw [s.others_update] at h
  have : (s.update t c th).thr t = th := by simp [Conc.update]
  rwa [this] at h

/-- Invariant of a cache used by several threads. -/
structure CC (s : Conc) : Prop where
  ok : COk s.refs s.cache
  uses : ∀ t, t < s.num → ∀ n, (s.thr t).doing.uses = some n → n ∈ (s.thr t).held
  mutex : ∀ t u, t < s.num → u < s.num → (s.thr t).doing.locked = true → (s.thr u).doing.locked = true → t = u

theorem CC.new (addr : Nat → Nat) (cap num : Nat) : CC (concNew addr cap num) := by
  refine ⟨?_, ?_, fun t u _ _ h => by cases h⟩
  · have : (concNew addr cap num).refs = [] := by
      unfold Conc.refs
      rw [List.flatMap_eq_nil_iff]
      intro t _; rfl
    rw [this]
    exact cacheNew_ok addr cap
  · intro t _ n h; cases h

theorem not_locked {s : Conc} (h : s.unlocked = true) {t : Nat} (ht : t < s.num) : (s.thr t).doing.locked = false := by
  unfold Conc.unlocked at h
  have := List.all_eq_true.mp h t (List.mem_range.mpr ht)
  simpa using this

/-- What a step is. -/
inductive StepKind (s : Conc) (t : Nat) : Move → Conc → Option CacheResult → Prop where
  | call {op c' a} : t < s.num → (s.thr t).doing = .idle → (∀ n, op.on = some n → n ∈ (s.thr t).held) →
      (op.locking = true → s.unlocked = true) → startCall op s.cache = .ok (c', a) → Evolve s.cache c' (newEntry op a) →
      a.doing.locked = false → c'.capacity = s.cache.capacity →
      (∀ n, a = .ret (.handle (some n)) → ∃ e, c'.mem n = some e ∧ e.zombie = false) → StepKind s t (.call op) (s.update t c' ⟨heldAfter (some op) a (s.thr t).held, a.doing⟩) a.result
  | go {c' a} : t < s.num → (s.thr t).doing ≠ .idle → ((s.thr t).doing.needsLock = true → s.unlocked = true) →
      resumeCall (s.thr t).doing s.cache = .ok (c', a) → Later (s.thr t).doing s.cache c' a → c'.capacity = s.cache.capacity → (∀ n, a.doing = .relHeld n → (s.thr t).doing = .relLock n) →
      StepKind s t .go (s.update t c' ⟨heldAfter none a (s.thr t).held, a.doing⟩) a.result

theorem CC.step {s : Conc} (h : CC s) {t : Nat} {mv : Move} {r : Except Fault (Conc × Option CacheResult)}
    (hs : s.step t mv = some r) :
    (∃ s' x, r = .ok (s', x) ∧ CC s' ∧ StepKind s t mv s' x) ∨
    (∃ n, mv = .go ∧ t < s.num ∧ (s.thr t).doing = .relHeld n ∧ s.cache.mem n = none ∧ r = .error .useAfterFree) := by
  have uses : ∀ (c' : Cache) (th : Thread), (∀ n, th.doing.uses = some n → n ∈ th.held) →
      ∀ i, i < s.num → ∀ n, ((s.update t c' th).thr i).doing.uses = some n → n ∈ ((s.update t c' th).thr i).held := by
    intro c' th hth i hi n hn
    by_cases hit : i = t
    · subst hit
      simp only [Conc.update, if_true] at hn ⊢
      exact hth n hn
    · simp only [Conc.update, if_neg hit] at hn ⊢
      exact h.uses i hi n hn
  have mutex : ∀ (c' : Cache) (th : Thread), (th.doing.locked = true → s.unlocked = true) →
      ∀ i j, i < s.num → j < s.num → ((s.update t c' th).thr i).doing.locked = true → ((s.update t c' th).thr j).doing.locked = true → i = j := by
    intro c' th hth i j hi hj h1 h2
    by_cases hit : i = t
    · by_cases hjt : j = t
      · omega
      · subst hit
        simp only [Conc.update, if_true, if_neg hjt] at h1 h2
        rw [not_locked (hth h1) hj] at h2; cases h2
    · by_cases hjt : j = t
      · subst hjt
        simp only [Conc.update, if_true, if_neg hit] at h1 h2
        rw [not_locked (hth h2) hi] at h1; cases h1
      · simp only [Conc.update, if_neg hit, if_neg hjt] at h1 h2
        exact h.mutex i j hi hj h1 h2
  cases mv with
  | call op =>
    simp only [Conc.step] at hs
    split at hs
    · next hc =>
      obtain ⟨ht, hidle, hop, hl⟩ := hc
      left
      have hr : COk ((s.thr t).held ++ s.others t) s.cache := by
        have := h.ok.perm (s.refs_split ht)
        unfold Thread.refs at this
        rw [hidle] at this
        simpa [Pending.refs] using this
      obtain ⟨c', a, h1, h2, h3, h4, h5, h6, h7⟩ := startCall_spec hr op hop
      cases hs
      refine ⟨_, _, by unfold Conc.finish; rw [h1], ⟨?_, ?_, ?_⟩, ?_⟩
      · rw [Thread.next_eq]
        exact h2.perm (s.refs_update ht c' ⟨_, _⟩).symm
      · rw [Thread.next_eq]
        exact uses c' _ h4
      · rw [Thread.next_eq]
        exact mutex c' _ (fun hb => by simp only at hb; rw [h5] at hb; cases hb)
      · rw [Thread.next_eq]
        exact .call ht hidle hop hl h1 h3 h5 h6 h7
    · cases hs
  | go =>
    simp only [Conc.step] at hs
    split at hs
    · next hc =>
      obtain ⟨ht, hidle, hl⟩ := hc
      have hr : COk ((s.thr t).held ++ (s.thr t).doing.refs ++ s.others t) s.cache := h.ok.perm (s.refs_split ht)
      cases hs
      rcases resumeCall_spec hr hidle (h.uses t ht) with ⟨c', a, h1, h2, h3, h4, h5, h6⟩ | ⟨n, h1, h2, h3⟩
      · left
        refine ⟨_, _, by unfold Conc.finish; rw [h1], ⟨?_, ?_, ?_⟩, ?_⟩
        · rw [Thread.next_eq]
          exact h2.perm (s.refs_update ht c' ⟨_, _⟩).symm
        · rw [Thread.next_eq]
          exact uses c' _ h4
        · rw [Thread.next_eq]
          refine mutex c' _ (fun hb => ?_)
          simp only at hb
          cases hd : a.doing with
          | relHeld n => exact hl (by rw [h5 n hd]; rfl)
          | _ => rw [hd] at hb; cases hb
        · rw [Thread.next_eq]
          exact .go ht hidle hl h1 h3 h6 h5
      · right
        exact ⟨n, rfl, ht, h1, h2, by unfold Conc.finish; rw [h3]⟩
    · cases hs


theorem CC.reach {allow : Conc → Nat → Move → Prop} {s0 s : Conc} (h0 : CC s0) (h : Spec.ConcReach allow s0 s) :
    CC s ∧ s.num = s0.num ∧ s.cache.capacity = s0.cache.capacity := by
  induction h with
  | start => exact ⟨h0, rfl, rfl⟩
  | @step s s' t mv r hr ha hs ih =>
    obtain ⟨h1, h2, h3⟩ := ih
    rcases h1.step hs with ⟨s2, x, he, hc, hk⟩ | ⟨n, -, -, -, -, he⟩
    · cases he
      cases hk with
      | call _ _ _ _ _ _ _ hcap _ => exact ⟨hc, h2, hcap.trans h3⟩
      | go _ _ _ _ _ hcap _ => exact ⟨hc, h2, hcap.trans h3⟩
    · cases he

theorem mem_lru {held : List Nat} {c : Cache} (h : COk held c) {n : Nat} : n ∈ c.lru ↔ ∃ e, c.mem n = some e ∧ e.zombie = false := by
  rw [h.inv.lru]
  constructor
  · rintro ⟨e, he⟩
    exact ⟨e, he.1, he.2.1⟩
  · rintro ⟨e, he, hz⟩
    exact ⟨e, he, hz, by simp⟩

theorem startCall_lru {op : CacheOp} {c c' : Cache} {a : After} (h : startCall op c = .ok (c', a)) (hs : Spec.storing op = false) : c' = c := by
  cases op with
  | find _ _ => cases hs
  | putEnc _ _ _ _ _ _ => cases hs
  | putDec _ _ _ => cases hs
  | clear => cases hs
  | count => cases h; rfl
  | use n _ _ =>
    simp only [startCall] at h
    cases he : c.entry n with
    | error f => rw [he] at h; cases h
    | ok e => rw [he] at h; simp only at h; split at h <;> cases h <;> rfl
  | hint n _ _ =>
    simp only [startCall] at h
    cases he : c.entry n with
    | error f => rw [he] at h; cases h
    | ok e => rw [he] at h; simp only at h; split at h <;> cases h <;> rfl
  | release n _ =>
    simp only [startCall] at h
    cases he : c.entry n with
    | error f => rw [he] at h; cases h
    | ok e => rw [he] at h; simp only at h; split at h <;> cases h <;> rfl
  | getEnc env n ctx =>
    simp only [startCall, cacheCall] at h
    cases hg : cacheGetEnc env n ctx c with
    | error f => rw [hg] at h; cases h
    | ok x => rw [hg] at h; cases h; rfl
  | getDec env n =>
    simp only [startCall, cacheCall] at h
    cases hg : cacheGetDec env n c with
    | error f => rw [hg] at h; cases h
    | ok x => rw [hg] at h; cases h; rfl
  | created n =>
    simp only [startCall, cacheCall] at h
    cases hg : cacheCreation n c with
    | error f => rw [hg] at h; cases h
    | ok x => rw [hg] at h; cases h; rfl

theorem decref_lru {c c' : Cache} {n : Nat} (h : decref c n = .ok c') : c'.lru = c.lru := by
  unfold decref at h
  cases he : c.entry n with
  | error f => rw [he] at h; cases h
  | ok e =>
    rw [he] at h
    simp only at h
    split at h
    · cases h
    · split at h
      · split at h
        · cases h; rfl
        · cases h
      · cases h; rfl

theorem resumeCall_lru {p : Pending} {c c' : Cache} {a : After} (h : resumeCall p c = .ok (c', a)) (hp : p.locked = false) : c'.lru = c.lru := by
  cases p with
  | idle => cases h; rfl
  | addBytes n _ _ =>
    simp only [resumeCall] at h
    cases he : c.entry n with
    | error f => rw [he] at h; cases h
    | ok e => rw [he] at h; cases h; rfl
  | addMessages n _ _ =>
    simp only [resumeCall] at h
    cases he : c.entry n with
    | error f => rw [he] at h; cases h
    | ok e => rw [he] at h; cases h; rfl
  | hintLock n t push =>
    simp only [resumeCall, cacheHint] at h
    cases he : c.entry n with
    | error f => rw [he] at h; cases h
    | ok e =>
      rw [he] at h
      simp only at h
      by_cases hz : e.zombie = true ∨ e.expiry ≤ t
      · rw [if_pos hz] at h; cases h; rfl
      · rw [if_neg hz] at h
        cases push <;> cases h <;> rfl
  | relPlain n =>
    simp only [resumeCall] at h
    cases he : decref c n with
    | error f => rw [he] at h; cases h
    | ok c1 => rw [he] at h; cases h; exact decref_lru he
  | relLock n =>
    simp only [resumeCall] at h
    cases he : c.entry n with
    | error f => rw [he] at h; cases h
    | ok e =>
      rw [he] at h
      simp only at h
      cases he : decref c n with
      | error f => rw [he] at h; cases h
      | ok c1 =>
        rw [he] at h
        simp only at h
        split at h <;> cases h <;> exact decref_lru he
  | relHeld n => cases hp

/-- Where the thread of a step is afterwards. -/
theorem update_self (s : Conc) (t : Nat) (c : Cache) (th : Thread) : (s.update t c th).thr t = th := by simp [Conc.update]

theorem update_other (s : Conc) {t u : Nat} (h : u ≠ t) (c : Cache) (th : Thread) : (s.update t c th).thr u = s.thr u := by
  simp [Conc.update, h]

/-- Two threads with one handle each: an entry that a thread is about to invalidate is either stored, or that thread has the last
reference. -/
structure Two (s : Conc) : Prop where
  one : ∀ t, t < s.num → (s.thr t).refs.length ≤ 1 ∧ ((s.thr t).doing.locked = true → (s.thr t).held = [])
  locked : ∀ t, t < s.num → ∀ n, (s.thr t).doing = .relHeld n → n ∈ s.cache.lru
  last : ∀ t, t < s.num → ∀ n, (s.thr t).doing = .relLock n → n ∉ s.cache.lru → ∀ u, u < s.num → u ≠ t → n ∉ (s.thr u).refs

theorem storing_locking {op : CacheOp} (h : Spec.storing op = true) : op.locking = true := by
  cases op <;> first | rfl | cases h

theorem Two.step {s s' : Conc} {t : Nat} {mv : Move} {r : Option CacheResult} (hc : CC s) (hc' : CC s') (h : Two s) (hn : s.num = 2)
    (hk : StepKind s t mv s' r) (ha : Spec.oneHandle s t mv) : Two s' := by
  cases hk with
  | @call op c' a ht hidle hop hl hst hev hlk hcap hnew =>
    have hrt := h.one t ht
    have hheld : (s.thr t).held.length ≤ 1 := by
      have := hrt.1
      unfold Thread.refs at this
      rw [List.length_append] at this
      omega
    by_cases hsto : Spec.storing op = true
    · -- a storing call: the thread held nothing
      have hnil := ha op rfl hsto
      have hdo : ∃ x, a = .ret x := by
        cases op with
        | find clk id =>
          simp only [startCall] at hst
          cases hcc : cacheCall (.find clk id) s.cache with
          | error f => rw [hcc] at hst; cases hst
          | ok p => rw [hcc] at hst; cases hst; exact ⟨_, rfl⟩
        | putEnc e i m b k x =>
          simp only [startCall] at hst
          cases hcc : cacheCall (.putEnc e i m b k x) s.cache with
          | error f => rw [hcc] at hst; cases hst
          | ok p => rw [hcc] at hst; cases hst; exact ⟨_, rfl⟩
        | putDec e i m =>
          simp only [startCall] at hst
          cases hcc : cacheCall (.putDec e i m) s.cache with
          | error f => rw [hcc] at hst; cases hst
          | ok p => rw [hcc] at hst; cases hst; exact ⟨_, rfl⟩
        | clear =>
          simp only [startCall] at hst
          cases hcc : cacheCall .clear s.cache with
          | error f => rw [hcc] at hst; cases hst
          | ok p => rw [hcc] at hst; cases hst; exact ⟨_, rfl⟩
        | _ => cases hsto
      obtain ⟨x, rfl⟩ := hdo
      have hunl := hl (storing_locking hsto)
      have hha : heldAfter (some op) (.ret x) (s.thr t).held = [] ∨
          ∃ n, heldAfter (some op) (.ret x) (s.thr t).held = [n] ∧ n ∈ c'.lru := by
        rw [hnil]
        cases op with
        | release _ _ => cases hsto
        | _ =>
          cases x with
          | handle o =>
            cases o with
            | none => exact .inl rfl
            | some n => exact .inr ⟨n, rfl, (mem_lru hc'.ok).mpr (hnew n rfl)⟩
          | _ => exact .inl rfl
      refine ⟨?_, ?_, ?_⟩
      · intro i hi
        by_cases hit : i = t
        · subst hit
          rw [update_self]
          refine ⟨?_, fun hb => by cases hb⟩
          unfold Thread.refs
          simp only [After.doing, Pending.refs, List.append_nil]
          rcases hha with hh | ⟨n, hh, -⟩ <;> rw [hh] <;> simp
        · rw [update_other s hit]; exact h.one i hi
      · intro i hi n hd
        by_cases hit : i = t
        · subst hit
          rw [update_self] at hd; cases hd
        · rw [update_other s hit] at hd
          have := not_locked hunl hi
          rw [hd] at this; cases this
      · intro i hi n hd hnl u hu hui
        by_cases hit : i = t
        · subst hit
          rw [update_self] at hd; cases hd
        · have hut : u = t := by
            have : s.num = 2 := hn
            have hi' : i < s.num := hi
            have hu' : u < s.num := hu
            omega
          subst hut
          rw [update_self]
          unfold Thread.refs
          simp only [After.doing, Pending.refs, List.append_nil]
          rcases hha with hh | ⟨k, hh, hk⟩
          · rw [hh]; simp
          · rw [hh]
            intro hm
            simp at hm
            subst hm
            exact hnl hk
    · have hsto : Spec.storing op = false := by cases hx : Spec.storing op with | false => rfl | true => exact absurd hx hsto
      have hcc : c' = s.cache := startCall_lru hst hsto
      subst hcc
      -- the references of the thread stay the same
      have hrefs : (heldAfter (some op) a (s.thr t).held ++ a.doing.refs).Perm (s.thr t).held ∧
          (∀ n, a.doing = .relLock n → n ∈ s.cache.lru) := by
        cases op with
        | find _ _ => cases hsto
        | putEnc _ _ _ _ _ _ => cases hsto
        | putDec _ _ _ => cases hsto
        | clear => cases hsto
        | count => cases hst; exact ⟨by simp [heldAfter, After.doing, Pending.refs], fun n hd => by cases hd⟩
        | use n _ _ =>
          simp only [startCall] at hst
          cases he : s.cache.entry n with
          | error f => rw [he] at hst; cases hst
          | ok e =>
            rw [he] at hst; simp only at hst
            split at hst <;> cases hst <;> exact ⟨by simp [heldAfter, After.doing, Pending.refs], fun n hd => by cases hd⟩
        | hint n _ _ =>
          simp only [startCall] at hst
          cases he : s.cache.entry n with
          | error f => rw [he] at hst; cases hst
          | ok e =>
            rw [he] at hst; simp only at hst
            split at hst <;> cases hst <;> exact ⟨by simp [heldAfter, After.doing, Pending.refs], fun n hd => by cases hd⟩
        | release n inv =>
          have hp : ((s.thr t).held.erase n ++ [n]).Perm (s.thr t).held :=
            ((List.perm_cons_erase (hop n rfl)).trans (List.perm_append_singleton n _).symm).symm
          obtain ⟨e, hm⟩ := hc.ok.inv.heldLive n ((s.refs_split ht).symm.subset (List.mem_append_left _ (List.mem_append_left _ (hop n rfl))))
          simp only [startCall, entry_some hm] at hst
          split at hst
          · next hz =>
            cases hst
            refine ⟨hp, fun k hd => ?_⟩
            cases hd
            exact (mem_lru hc.ok).mpr ⟨e, hm, hz.2⟩
          · cases hst
            exact ⟨hp, fun k hd => by cases hd⟩
        | getEnc env n ctx =>
          simp only [startCall, cacheCall] at hst
          cases hg : cacheGetEnc env n ctx s.cache with
          | error f => rw [hg] at hst; cases hst
          | ok x => rw [hg] at hst; cases hst; exact ⟨by simp [heldAfter, After.doing, Pending.refs], fun n hd => by cases hd⟩
        | getDec env n =>
          simp only [startCall, cacheCall] at hst
          cases hg : cacheGetDec env n s.cache with
          | error f => rw [hg] at hst; cases hst
          | ok x => rw [hg] at hst; cases hst; exact ⟨by simp [heldAfter, After.doing, Pending.refs], fun n hd => by cases hd⟩
        | created n =>
          simp only [startCall, cacheCall] at hst
          cases hg : cacheCreation n s.cache with
          | error f => rw [hg] at hst; cases hst
          | ok x => rw [hg] at hst; cases hst; exact ⟨by simp [heldAfter, After.doing, Pending.refs], fun n hd => by cases hd⟩
      refine ⟨?_, ?_, ?_⟩
      · intro i hi
        by_cases hit : i = t
        · subst hit
          rw [update_self]
          refine ⟨?_, fun hb => ?_⟩
          · unfold Thread.refs
            simp only
            rw [hrefs.1.length_eq]; exact hheld
          · simp only at hb
            rw [hlk] at hb; cases hb
        · rw [update_other s hit]; exact h.one i hi
      · intro i hi n hd
        by_cases hit : i = t
        · subst hit
          rw [update_self] at hd
          simp only at hd
          rw [hd] at hlk; cases hlk
        · rw [update_other s hit] at hd
          exact h.locked i hi n hd
      · intro i hi n hd hnl u hu hui
        by_cases hit : i = t
        · subst hit
          rw [update_self] at hd
          exact absurd (hrefs.2 n hd) hnl
        · rw [update_other s hit] at hd
          have h3 := h.last i hi n hd hnl u hu hui
          by_cases hut : u = t
          · subst hut
            rw [update_self]
            unfold Thread.refs at h3 ⊢
            simp only
            intro hm
            exact h3 (List.mem_append_left _ (hrefs.1.subset hm))
          · rw [update_other s hut]; exact h3
  | @go c' a ht hidle hl hres hlater hcap hrl =>
    have hrt := h.one t ht
    -- the references of the thread become fewer
    have hrefs : (heldAfter none a (s.thr t).held ++ a.doing.refs).Sublist (s.thr t).refs := by
      unfold Thread.refs
      cases hd : (s.thr t).doing with
      | idle => exact absurd hd hidle
      | addBytes n b m =>
        rw [hd] at hlater
        obtain ⟨e, -, -, rfl⟩ := hlater
        simp [heldAfter, After.doing, Pending.refs]
      | addMessages n b m =>
        rw [hd] at hlater
        obtain ⟨e, -, -, rfl⟩ := hlater
        simp [heldAfter, After.doing, Pending.refs]
      | hintLock n b m =>
        rw [hd] at hlater
        obtain ⟨-, rfl⟩ := hlater
        simp [heldAfter, After.doing, Pending.refs]
      | relPlain n =>
        rw [hd] at hlater
        obtain ⟨-, rfl⟩ := hlater
        simp [heldAfter, After.doing, Pending.refs]
      | relHeld n =>
        rw [hd] at hlater
        obtain ⟨-, rfl, -⟩ := hlater
        simp [heldAfter, After.doing, Pending.refs]
      | relLock n =>
        rw [hd] at hlater
        rcases hlater with ⟨-, ⟨rfl, -⟩ | ⟨rfl, -⟩⟩ <;> simp [heldAfter, After.doing, Pending.refs]
    have hnorl : ∀ n, a.doing ≠ .relLock n := by
      intro n
      cases hd : (s.thr t).doing with
      | idle => exact absurd hd hidle
      | addBytes n b m => rw [hd] at hlater; obtain ⟨e, -, -, rfl⟩ := hlater; simp [After.doing]
      | addMessages n b m => rw [hd] at hlater; obtain ⟨e, -, -, rfl⟩ := hlater; simp [After.doing]
      | hintLock n b m => rw [hd] at hlater; obtain ⟨-, rfl⟩ := hlater; simp [After.doing]
      | relPlain n => rw [hd] at hlater; obtain ⟨-, rfl⟩ := hlater; simp [After.doing]
      | relHeld n => rw [hd] at hlater; obtain ⟨-, rfl, -⟩ := hlater; simp [After.doing]
      | relLock n => rw [hd] at hlater; rcases hlater with ⟨-, ⟨rfl, -⟩ | ⟨rfl, -⟩⟩ <;> simp [After.doing]
    refine ⟨?_, ?_, ?_⟩
    · intro i hi
      by_cases hit : i = t
      · subst hit
        rw [update_self]
        refine ⟨?_, fun hb => ?_⟩
        · exact Nat.le_trans hrefs.length_le hrt.1
        · -- the only handle is being given up
          simp only at hb ⊢
          cases hda : a.doing with
          | relHeld n =>
            have hd := hrl n hda
            have h1 := hrt.1
            unfold Thread.refs at h1
            rw [hd, List.length_append] at h1
            simp only [Pending.refs, List.length_cons, List.length_nil] at h1
            have h2 : (s.thr i).held = [] := List.length_eq_zero_iff.mp (by omega)
            rw [h2]
            rw [hd] at hlater
            rcases hlater with ⟨-, ⟨rfl, -⟩ | ⟨rfl, -⟩⟩ <;> rfl
          | _ => rw [hda] at hb; cases hb
      · rw [update_other s hit]; exact h.one i hi
    · intro i hi n hd
      by_cases hit : i = t
      · subst hit
        rw [update_self] at hd
        have hd0 := hrl n hd
        have hlru : c'.lru = s.cache.lru := resumeCall_lru hres (by rw [hd0]; rfl)
        show n ∈ c'.lru
        rw [hlru]
        apply Classical.byContradiction
        intro hnl
        -- not stored and no other reference: the count was one
        have hlast := h.last i ht n hd0 hnl
        have hcnt : s.refs.count n = 1 := by
          rw [(s.refs_split ht).count_eq, List.count_append]
          have h1 : (s.thr i).refs.count n = 1 := by
            have hle := hrt.1
            unfold Thread.refs at hle ⊢
            rw [hd0] at hle ⊢
            rw [List.length_append] at hle
            simp only [Pending.refs, List.length_cons, List.length_nil] at hle
            have h2 : (s.thr i).held = [] := List.length_eq_zero_iff.mp (by omega)
            rw [h2]
            simp [Pending.refs]
          have h2 : (s.others i).count n = 0 := by
            rw [List.count_eq_zero]
            intro hm
            unfold Conc.others at hm
            rw [List.mem_flatMap] at hm
            obtain ⟨u, hu, hmu⟩ := hm
            rw [List.mem_filter] at hu
            exact hlast u (List.mem_range.mp hu.1) (by simpa using hu.2) hmu
          omega
        obtain ⟨e, hm⟩ := hc.ok.inv.heldLive n (List.count_pos_iff.mp (by omega))
        have hrc := hc.ok.inv.rc n e hm
        have hz : e.zombie = true := by
          cases hz : e.zombie with
          | true => rfl
          | false => exact absurd ((mem_lru hc.ok).mpr ⟨e, hm, hz⟩) hnl
        rw [hz, hcnt] at hrc
        simp only [if_true] at hrc
        rw [hd0] at hres
        simp only [resumeCall, entry_some hm] at hres
        cases hdec : decref s.cache n with
        | error f => rw [hdec] at hres; cases hres
        | ok c1 =>
          rw [hdec] at hres
          simp only [hrc] at hres
          cases hres
          cases hd
      · rw [update_other s hit] at hd
        -- a step that changes what is stored needs the mutex
        have h2 := h.locked i hi n hd
        have hnl : (s.thr t).doing.locked = false := by
          cases hx : (s.thr t).doing.locked with
          | false => rfl
          | true =>
            exfalso
            exact hit (hc.mutex i t hi ht (by rw [hd]; rfl) hx)
        show n ∈ c'.lru
        rw [resumeCall_lru hres hnl]
        exact h2
    · intro i hi n hd hnl u hu hui
      by_cases hit : i = t
      · subst hit
        rw [update_self] at hd
        exact absurd hd (hnorl n)
      · rw [update_other s hit] at hd
        by_cases hut : u = t
        · subst hut
          rw [update_self]
          intro hm
          have hm0 := hrefs.subset hm
          by_cases hlk : (s.thr u).doing.locked = true
          · have := hrt.2 hlk
            unfold Thread.refs at hm0
            rw [this] at hm0
            cases hdu : (s.thr u).doing with
            | relHeld k => rw [hdu] at hm0; simp [Pending.refs] at hm0
            | _ => rw [hdu] at hlk; cases hlk
          · have hlru : c'.lru = s.cache.lru := resumeCall_lru hres (by simpa using hlk)
            have hnl0 : n ∉ s.cache.lru := by rw [← hlru]; exact hnl
            exact h.last i hi n hd hnl0 u hu hui hm0
        · exfalso
          have hi' : i < s.num := hi
          have hu' : u < s.num := hu
          omega

end Verif
