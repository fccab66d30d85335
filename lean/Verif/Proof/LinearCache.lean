import Verif.Proof.CacheConc
import Verif.Spec.LinearCache
/-
A call of the local cache takes effect on the list of items in the step in which it returns.
-/
namespace Verif.Proof
open Verif Verif.Spec

/-- The entry was there and is invalidated or freed. -/
def Gone (c : Cache) (n : Nat) : Prop := n < c.next ∧ ∀ e, c.mem n = some e → e.zombie = true

theorem gone_evolve {c c' : Cache} {new : Option (Nat × Mat × Nat × Nat)} {n : Nat} (h : Evolve c c' new) (hg : Gone c n) : Gone c' n := by
  refine ⟨Nat.lt_of_lt_of_le hg.1 h.next, fun e' he' => ?_⟩
  rcases h.old n e' he' with ⟨e, he, -, -, -, hz, -, -⟩ | ⟨-, rfl, -, -⟩
  · exact hz (hg.2 e he)
  · exact absurd hg.1 (Nat.lt_irrefl _)

theorem gone_set {c : Cache} {n m : Nat} {e e' : Entry} (hm : c.mem m = some e) (hz : e'.zombie = e.zombie) (hg : Gone c n) :
    Gone (c.set m (some e')) n := by
  refine ⟨hg.1, fun f hf => ?_⟩
  unfold Cache.set at hf
  simp only at hf
  split at hf
  · next h => cases hf; rw [hz]; exact hg.2 e (h ▸ hm)
  · exact hg.2 f hf

theorem gone_later {p : Pending} {c c' : Cache} {a : After} {n : Nat} (h : Later p c c' a) (hg : Gone c n) : Gone c' n := by
  cases p with
  | idle => exact h.elim
  | addBytes m b k => obtain ⟨e, hm, rfl, -⟩ := h; exact gone_set hm rfl hg
  | addMessages m b k => obtain ⟨e, hm, rfl, -⟩ := h; exact gone_set hm rfl hg
  | hintLock m t p => exact gone_evolve h.1 hg
  | relPlain m => exact gone_evolve h.1 hg
  | relLock m => exact gone_evolve h.1 hg
  | relHeld m => exact gone_evolve h.1 hg

theorem gone_step {s s' : Conc} {t : Nat} {mv : Move} {r : Option CacheResult} {n : Nat} (hk : StepKind s t mv s' r) (hg : Gone s.cache n) :
    Gone s'.cache n := by
  cases hk with
  | call _ _ _ _ _ h => exact gone_evolve h hg
  | go _ _ _ _ h => exact gone_later h hg

theorem gone_not_item {held : List Nat} {c : Cache} (h : COk held c) {n : Nat} (hg : ∀ e, c.mem n = some e → e.zombie = true) {x : Item}
    (hx : x ∈ items c) : x.handle ≠ n := by
  obtain ⟨m, hm, rfl⟩ := List.mem_map.1 hx
  rw [itemOf_handle]
  rintro rfl
  obtain ⟨e, he⟩ := (h.inv.lru _).1 hm
  have h1 := hg e he.1
  rw [he.2.1] at h1
  cases h1

theorem filter_gone {held : List Nat} {c : Cache} (h : COk held c) {n : Nat} (hg : ∀ e, c.mem n = some e → e.zombie = true) :
    (items c).filter (fun x => x.handle ≠ n) = items c :=
  List.filter_eq_self.2 fun x hx => by simpa using gone_not_item h hg hx

/-- What a thread has asked for and where it is. -/
def Where (asked : Option CacheOp) (c : Cache) : Pending → Prop
  | .idle => True
  | .addBytes n _ _ => ∃ b k, asked = some (.use n b k)
  | .addMessages n _ _ => ∃ b k, asked = some (.use n b k)
  | .hintLock n t push => asked = some (.hint n t push)
  | .relLock n => asked = some (.release n true)
  | .relHeld n => asked = some (.release n true)
  | .relPlain n => ∃ inv, asked = some (.release n inv) ∧ (inv = true → Gone c n)

theorem where_mono {asked : Option CacheOp} {c c' : Cache} (h : ∀ n, Gone c n → Gone c' n) {p : Pending} (hw : Where asked c p) : Where asked c' p := by
  cases p with
  | relPlain n => obtain ⟨inv, h1, h2⟩ := hw; exact ⟨inv, h1, fun hi => h n (h2 hi)⟩
  | _ => exact hw

theorem items_set {c : Cache} {n : Nat} {e e' : Entry} (hm : c.mem n = some e) (hid : e'.cacheId = e.cacheId) (hx : e'.expiry = e.expiry) :
    items (c.set n (some e')) = items c := by
  refine items_congr rfl fun m _ => ?_
  unfold itemOf Cache.set
  by_cases h : m = n
  · subst h; simp [hm, hid, hx]
  · simp [h]

/-- The first step of a call: it returns and takes effect, or it changes nothing. -/
theorem start_lin {held rest : List Nat} {c c' : Cache} {a : After} {op : CacheOp} (h : COk (held ++ rest) c) (hop : ∀ n, op.on = some n → n ∈ held)
    (hs : startCall op c = .ok (c', a)) :
    (∃ r, a = .ret r ∧ LruStep c.capacity (items c) op r (items c') ∧ ∀ n, putHandle (op, r) = some n → n = c.next ∧ n < c'.next) ∨
    (∃ p, a = .wait p ∧ c' = c ∧ Where (some op) c p) := by
  obtain ⟨c1, r1, hc1, hok1, hl1, -⟩ := cacheCall_spec h op (fun n hn => List.mem_append_left _ (hop n hn))
  have plain : (match cacheCall op c with | .error f => Except.error f | .ok (c, r) => Except.ok (c, After.ret r)) = .ok (c', a) →
      (∀ n, putHandle (op, r1) = some n → n = c.next ∧ n < c1.next) →
      ∃ r, a = .ret r ∧ LruStep c.capacity (items c) op r (items c') ∧ ∀ n, putHandle (op, r) = some n → n = c.next ∧ n < c'.next := by
    intro hx hp
    rw [hc1] at hx
    cases hx
    exact ⟨r1, rfl, hl1, hp⟩
  have put : ∀ (env : PutEnv) (id : Bytes) (mat : Mat) (key : Option (Option Bytes)) (bytes messages : Nat) (r : Option Nat),
      (cachePut env id mat key bytes messages c).map (fun r => (r.1, CacheResult.handle r.2)) = .ok (c1, .handle r) →
      ∀ n, r = some n → n = c.next ∧ n < c1.next := by
    intro env id mat key bytes messages r hr n hn
    subst hn
    obtain ⟨c2, r2, h1, -, -, -, h5⟩ := cachePut_spec h env id mat key bytes messages
    rw [h1] at hr
    simp only [Except.map, Except.ok.injEq, Prod.mk.injEq, CacheResult.handle.injEq] at hr
    obtain ⟨hr1, hr2⟩ := hr
    rcases h5 with ⟨h6, -⟩ | ⟨h6, -, -, h7, -⟩
    · rw [h6] at hr2; cases hr2
    · rw [h6] at hr2; cases hr2
      exact ⟨rfl, by rw [← hr1, h7]; exact Nat.lt_succ_self _⟩
  cases op with
  | find clk id => exact .inl (plain hs (fun n hn => by cases hn))
  | putEnc env id m bytes messages ctx =>
    refine .inl (plain hs (fun n hn => ?_))
    cases r1 with
    | handle r => exact put _ _ _ _ _ _ r hc1 n hn
    | _ => cases hn
  | putDec env id m =>
    refine .inl (plain hs (fun n hn => ?_))
    cases r1 with
    | handle r => exact put _ _ _ _ _ _ r hc1 n hn
    | _ => cases hn
  | getEnc env n ctx => exact .inl (plain hs (fun n hn => by cases hn))
  | getDec env n => exact .inl (plain hs (fun n hn => by cases hn))
  | created n => exact .inl (plain hs (fun n hn => by cases hn))
  | clear => exact .inl (plain hs (fun n hn => by cases hn))
  | count => exact .inl (plain hs (fun n hn => by cases hn))
  | use n bytes messages =>
    obtain ⟨e, hm⟩ := h.inv.heldLive n (List.mem_append_left _ (hop n rfl))
    unfold startCall at hs
    simp only [entry_some hm] at hs
    split at hs
    · cases hs; exact .inl ⟨_, rfl, rfl, fun n hn => by cases hn⟩
    · cases hs; exact .inr ⟨_, rfl, rfl, _, _, rfl⟩
  | hint n t push =>
    obtain ⟨e, hm⟩ := h.inv.heldLive n (List.mem_append_left _ (hop n rfl))
    unfold startCall at hs
    simp only [entry_some hm] at hs
    split at hs
    · next hz =>
      cases hs
      refine .inl ⟨_, rfl, ?_, fun n hn => by cases hn⟩
      have : cacheHint n t push c = .ok c := by unfold cacheHint; rw [entry_some hm]; simp only [if_pos hz]
      simp only [cacheCall, this] at hc1
      cases hc1
      exact hl1
    · cases hs; exact .inr ⟨_, rfl, rfl, rfl⟩
  | release n inv =>
    obtain ⟨e, hm⟩ := h.inv.heldLive n (List.mem_append_left _ (hop n rfl))
    unfold startCall at hs
    simp only [entry_some hm] at hs
    split at hs
    · next hz => cases hs; obtain ⟨rfl, -⟩ := hz; exact .inr ⟨_, rfl, rfl, rfl⟩
    · next hz =>
      cases hs
      refine .inr ⟨_, rfl, rfl, inv, rfl, fun hi => ⟨?_, fun e' he' => ?_⟩⟩
      · rcases Nat.lt_or_ge n c.next with hlt | hge
        · exact hlt
        · rw [h.inv.fresh _ hge] at hm; cases hm
      · rw [hm] at he'; cases he'
        cases hb : e.zombie with
        | true => rfl
        | false => exact absurd ⟨hi, hb⟩ hz

/-- A later step of a call: it returns and takes effect, or it changes nothing in the list. -/
theorem resume_lin {held rest : List Nat} {c c' : Cache} {a : After} {p : Pending} {op : Option CacheOp} (h : COk (held ++ p.refs ++ rest) c)
    (hu : ∀ n, p.uses = some n → n ∈ held) (hw : Where op c p) (hs : resumeCall p c = .ok (c', a)) (hp : p ≠ .idle) :
    ∃ o, op = some o ∧ ((∃ r, a = .ret r ∧ LruStep c.capacity (items c) o r (items c') ∧ putHandle (o, r) = none ∧
        (∀ n, o = .release n true → Gone c' n)) ∨
      (∃ q, a = .wait q ∧ items c' = items c ∧ Where op c' q)) := by
  have noput : ∀ {o : CacheOp} {r : CacheResult}, (∀ n, r ≠ .handle n) → putHandle (o, r) = none := by
    intro o r hr
    cases r with
    | handle n => exact absurd rfl (hr n)
    | _ => cases o <;> rfl
  have live : ∀ {n : Nat} {e : Entry}, c.mem n = some e → n < c.next := by
    intro n e hm
    rcases Nat.lt_or_ge n c.next with hlt | hge
    · exact hlt
    · rw [h.inv.fresh _ hge] at hm; cases hm
  cases p with
  | idle => exact absurd rfl hp
  | addBytes n b k =>
    obtain ⟨b0, k0, rfl⟩ := hw
    obtain ⟨e, hm⟩ := h.inv.heldLive n (List.mem_append_left _ (List.mem_append_left _ (hu n rfl)))
    unfold resumeCall at hs
    simp only [entry_some hm] at hs
    cases hs
    exact ⟨_, rfl, .inr ⟨_, rfl, items_set hm rfl rfl, _, _, rfl⟩⟩
  | addMessages n b k =>
    obtain ⟨b0, k0, rfl⟩ := hw
    obtain ⟨e, hm⟩ := h.inv.heldLive n (List.mem_append_left _ (List.mem_append_left _ (hu n rfl)))
    unfold resumeCall at hs
    simp only [entry_some hm] at hs
    cases hs
    exact ⟨_, rfl, .inl ⟨_, rfl, items_set hm rfl rfl, noput nofun, fun _ h => by cases h⟩⟩
  | hintLock n t push =>
    cases hw
    obtain ⟨c1, h1, -, h3, -⟩ := cacheHint_spec h (List.mem_append_left _ (List.mem_append_left _ (hu n rfl))) t push
    unfold resumeCall at hs
    simp only [h1] at hs
    cases hs
    exact ⟨_, rfl, .inl ⟨_, rfl, ⟨rfl, h3⟩, noput nofun, fun _ h => by cases h⟩⟩
  | relPlain n =>
    obtain ⟨inv, rfl, hg⟩ := hw
    obtain ⟨c1, h1, -, hk, h3, hnx, -⟩ := cacheRelease_spec h (n := n) (by simp [Pending.refs]) false
    unfold resumeCall at hs
    simp only [decref_eq_release, h1] at hs
    cases hs
    simp only [Bool.false_eq_true, if_false] at h3
    refine ⟨_, rfl, .inl ⟨_, rfl, ⟨rfl, ?_⟩, noput nofun, fun m hm => ?_⟩⟩
    · cases inv with
      | false => exact h3
      | true => simp only [if_true]; rw [h3, filter_gone h (hg rfl).2]
    · cases hm
      exact gone_evolve (.kept hk (Nat.le_of_eq hnx.symm)) (hg rfl)
  | relLock n =>
    cases hw
    obtain ⟨e, hm⟩ := h.inv.heldLive n (by simp [Pending.refs])
    obtain ⟨c1, h1, hok, hk, h3, hnx, -⟩ := cacheRelease_spec h (n := n) (by simp [Pending.refs]) false
    simp only [Bool.false_eq_true, if_false] at h3
    unfold resumeCall at hs
    simp only [entry_some hm, decref_eq_release, h1] at hs
    refine ⟨_, rfl, ?_⟩
    split at hs
    · next hr =>
      cases hs
      have hfree : c'.mem n = none := by
        have h2 := h1
        rw [← decref_eq_release] at h2
        unfold decref at h2
        simp only [entry_some hm] at h2
        rw [if_neg (by rw [hr]; decide), if_pos hr] at h2
        split at h2
        · cases h2; simp [Cache.set]
        · cases h2
      have hg : Gone c' n := ⟨by rw [hnx]; exact live hm, fun e' he' => by rw [hfree] at he'; cases he'⟩
      refine .inl ⟨_, rfl, ⟨rfl, ?_⟩, noput nofun, fun m hm => by cases hm; exact hg⟩
      simp only [if_true]
      rw [← h3, filter_gone hok hg.2]
    · cases hs
      exact .inr ⟨_, rfl, h3, rfl⟩
  | relHeld n =>
    cases hw
    unfold resumeCall at hs
    cases hm : c.mem n with
    | none => simp [Cache.entry, hm] at hs
    | some e =>
      simp only [entry_some hm] at hs
      refine ⟨_, rfl, .inl ?_⟩
      cases hz : e.zombie with
      | true =>
        simp only [hz, if_true] at hs
        cases hs
        have hg : ∀ e', c.mem n = some e' → e'.zombie = true := fun e' he' => by rw [hm] at he'; cases he'; exact hz
        refine ⟨_, rfl, ⟨rfl, ?_⟩, noput nofun, fun m hm' => by cases hm'; exact ⟨live hm, hg⟩⟩
        simp only [if_true]
        rw [filter_gone h hg]
      | false =>
        have hv : Vis c none n e := ⟨hm, hz, by simp⟩
        simp only [hz, Bool.false_eq_true, if_false, invalidate_false h.inv hv] at hs
        cases hs
        refine ⟨_, rfl, ⟨rfl, ?_⟩, noput nofun, fun m hm' => ?_⟩
        · simp only [if_true]
          rw [items_filter_handle h.inv.lruN, items_of_kept (h.inv.without hv) (.without hm)]
          rfl
        · cases hm'
          refine ⟨live hm, fun e' he' => ?_⟩
          simp only [Cache.without, if_true, Entry.dropped] at he'
          split at he'
          · cases he'
          · cases he'; rfl

/-- The invariant of executions. -/
structure Lin (cap num : Nat) (log : List Done) (asked : Nat → Option CacheOp) (s : Conc) : Prop where
  cc : CC s
  num_eq : s.num = num
  cap_eq : s.cache.capacity = max cap 2
  hist : LruHistory (max cap 2) (log.map (·.2)) (items s.cache)
  whr : ∀ t, t < num → Where (asked t) s.cache (s.thr t).doing
  puts : ∀ x ∈ log, ∀ n, putHandle x.2 = some n → n < s.cache.next
  nodup : (log.filterMap fun x => putHandle x.2).Nodup
  gone : ∀ x ∈ log, ∀ n, x.2.1 = .release n true → Gone s.cache n
  never : log.Pairwise fun later earlier => ∀ n id, earlier.2.1 = .release n true → foundAs later.2 ≠ some (n, id)

theorem lin_new (addr : Nat → Nat) (cap num : Nat) : Lin cap num [] (fun _ => none) (concNew addr cap num) :=
  ⟨CC.new addr cap num, rfl, by show (if cap < 2 then 2 else cap) = max cap 2; split <;> omega, .new, fun _ _ => trivial, (by simp), List.nodup_nil, (by simp), .nil⟩

/-- What a lookup finds is in the list before it. -/
theorem found_item {cap : Nat} {l l' : List Item} {x : CacheOp × CacheResult} {n : Nat} {id : Bytes} (hf : foundAs x = some (n, id))
    (h : LruStep cap l x.1 x.2 l') : ∃ y ∈ l, y.handle = n ∧ y.id = id := by
  obtain ⟨op, r⟩ := x
  unfold foundAs at hf
  split at hf
  · next clk id' h' heq =>
    cases heq
    cases hf
    obtain ⟨kept, hk, -, hr⟩ := h
    simp only [CacheResult.handle.injEq, lookedUp] at hr
    cases hy : kept.find? (fun x => x.id = id) with
    | none => rw [hy] at hr; cases hr
    | some y =>
      rw [hy] at hr
      cases hr
      refine ⟨y, ?_, rfl, by simpa using List.find?_some hy⟩
      have := List.mem_of_find?_eq_some hy
      unfold Swept at hk
      split at hk
      · rw [← hk]; exact this
      · exact hk.1.subset this
  · cases hf

theorem never_cons {log : List Done} {cap t : Nat} {c : Cache} {held : List Nat} {op : CacheOp} {r : CacheResult} {l' : List Item} (hok : COk held c)
    (hg : ∀ x ∈ log, ∀ n, x.2.1 = .release n true → Gone c n) (h : LruStep cap (items c) op r l') :
    ∀ x ∈ log, ∀ n id, x.2.1 = .release n true → foundAs (t, op, r).2 ≠ some (n, id) := by
  intro x hx n id hn hf
  obtain ⟨y, hy, hyn, -⟩ := found_item (x := (op, r)) hf h
  exact gone_not_item hok (hg x hx n hn).2 hy hyn

theorem where_others {asked : Nat → Option CacheOp} {s : Conc} {num t : Nat} {c' : Cache} {th : Thread} {asked' : Nat → Option CacheOp}
    (hw : ∀ u, u < num → Where (asked u) s.cache (s.thr u).doing) (hg : ∀ n, Gone s.cache n → Gone c' n) (ha : ∀ u, u ≠ t → asked' u = asked u)
    (hself : Where (asked' t) c' th.doing) : ∀ u, u < num → Where (asked' u) (s.update t c' th).cache ((s.update t c' th).thr u).doing := by
  intro u hu
  by_cases h : u = t
  · subst h; rw [update_self]; exact hself
  · rw [update_other _ h, ha u h]; exact where_mono hg (hw u hu)

theorem lin_runs {addr : Nat → Nat} {cap num : Nat} {log : List Done} {asked : Nat → Option CacheOp} {s : Conc}
    (h : ThreadRuns addr cap num log asked s) : Lin cap num log asked s := by
  have call : ∀ {log asked} {s : Conc} {t : Nat} {op : CacheOp} {s' x}, Lin cap num log asked s → s.step t (.call op) = some (.ok (s', x)) →
      CC s' ∧ s'.num = num ∧ s'.cache.capacity = max cap 2 ∧ s.cache.next ≤ s'.cache.next ∧ (∀ n, Gone s.cache n → Gone s'.cache n) ∧
      ∃ (a : After) (th : Thread), s' = s.update t s'.cache th ∧ th.doing = a.doing ∧ x = a.result ∧
      ((∃ r, a = .ret r ∧ LruStep s.cache.capacity (items s.cache) op r (items s'.cache) ∧
          ∀ n, putHandle (op, r) = some n → n = s.cache.next ∧ n < s'.cache.next) ∨
        (∃ p, a = .wait p ∧ s'.cache = s.cache ∧ Where (some op) s.cache p)) ∧ (∀ n, op = .release n true → x = none) := by
    intro log asked s t op s' x hl hs
    rcases hl.cc.step hs with ⟨s2, y, he, hc, hk⟩ | ⟨n, h1, -⟩
    · cases he
      have hg : ∀ n, Gone s.cache n → Gone s'.cache n := fun n => gone_step hk
      generalize hmv : Move.call op = mv at hk
      cases hk with
      | @call op' c' a ht hidle hop _ h1 h2 _ hcap _ =>
        cases hmv
        have hr : COk ((s.thr t).held ++ s.others t) s.cache := by
          have := hl.cc.ok.perm (s.refs_split ht)
          unfold Thread.refs at this
          rw [hidle] at this
          simpa [Pending.refs] using this
        have hlin := start_lin hr hop h1
        refine ⟨hc, hl.num_eq, hcap.trans hl.cap_eq, h2.next, hg, a, _, rfl, rfl, rfl, hlin, fun n hn => ?_⟩
        subst hn
        unfold startCall at h1
        cases hm : s.cache.entry n with
        | error f => simp [hm] at h1
        | ok e => simp only [hm] at h1; split at h1 <;> cases h1 <;> rfl
      | go => cases hmv
    · cases h1
  have go : ∀ {log asked} {s : Conc} {t : Nat} {s' x}, Lin cap num log asked s → s.step t .go = some (.ok (s', x)) →
      CC s' ∧ s'.num = num ∧ s'.cache.capacity = max cap 2 ∧ s.cache.next ≤ s'.cache.next ∧ (∀ n, Gone s.cache n → Gone s'.cache n) ∧
      ∃ (a : After) (th : Thread) (o : CacheOp), s' = s.update t s'.cache th ∧ th.doing = a.doing ∧ x = a.result ∧ asked t = some o ∧
      ((∃ r, a = .ret r ∧ LruStep s.cache.capacity (items s.cache) o r (items s'.cache) ∧ putHandle (o, r) = none ∧
          (∀ n, o = .release n true → Gone s'.cache n)) ∨
        (∃ q, a = .wait q ∧ items s'.cache = items s.cache ∧ Where (asked t) s'.cache q)) := by
    intro log asked s t s' x hl hs
    rcases hl.cc.step hs with ⟨s2, y, he, hc, hk⟩ | ⟨n, -, -, -, -, h1⟩
    · cases he
      have hg : ∀ n, Gone s.cache n → Gone s'.cache n := fun n => gone_step hk
      generalize hmv : Move.go = mv at hk
      cases hk with
      | call => cases hmv
      | @go c' a ht hidle _ h1 h2 hcap _ =>
        have hr : COk ((s.thr t).held ++ (s.thr t).doing.refs ++ s.others t) s.cache := hl.cc.ok.perm (s.refs_split ht)
        obtain ⟨o, ho, hlin⟩ := resume_lin hr (hl.cc.uses t ht) (hl.whr t (by rw [← hl.num_eq]; exact ht)) h1 hidle
        refine ⟨hc, hl.num_eq, hcap.trans hl.cap_eq, ?_, hg, a, _, o, rfl, rfl, rfl, ho, hlin⟩
        revert h2
        generalize (s.thr t).doing = p
        intro h2
        cases p with
        | idle => exact h2.elim
        | addBytes m b k => obtain ⟨e, -, rfl, -⟩ := h2; exact Nat.le_refl _
        | addMessages m b k => obtain ⟨e, -, rfl, -⟩ := h2; exact Nat.le_refl _
        | hintLock m t p => exact h2.1.next
        | relPlain m => exact h2.1.next
        | relLock m => exact h2.1.next
        | relHeld m => exact h2.1.next
    · cases h1
  induction h with
  | new => exact lin_new addr cap num
  | @begins log asked s t op s' _ hs ih =>
    obtain ⟨h1, h2, h3, h4, h5, a, th, h6, h7, h8, h9, -⟩ := call ih hs
    rcases h9 with ⟨r, rfl, -⟩ | ⟨p, rfl, hc, hw⟩
    · cases h8
    · refine ⟨h1, h2, h3, by rw [hc]; exact ih.hist, ?_, fun x hx n hn => by rw [hc]; exact ih.puts x hx n hn, ih.nodup,
        fun x hx n hn => h5 n (ih.gone x hx n hn), ih.never⟩
      rw [h6]
      refine where_others ih.whr h5 (fun u hu => by simp [setAsked, hu]) ?_
      rw [h7, hc]
      simpa [setAsked, After.doing] using hw
  | @returns log asked s t op s' r _ hs ih =>
    obtain ⟨h1, h2, h3, h4, h5, a, th, h6, h7, h8, h9, h10⟩ := call ih hs
    rcases h9 with ⟨r', rfl, hl, hp⟩ | ⟨p, rfl, -⟩
    · cases h8
      rw [ih.cap_eq] at hl
      refine ⟨h1, h2, h3, .call ih.hist hl, ?_, ?_, ?_, ?_, List.pairwise_cons.2 ⟨never_cons ih.cc.ok ih.gone hl, ih.never⟩⟩
      · rw [h6]
        refine where_others ih.whr h5 (fun u _ => rfl) ?_
        rw [h7]; trivial
      · intro x hx n hn
        rcases List.mem_cons.1 hx with rfl | hx
        · exact (hp n hn).2
        · exact Nat.lt_of_lt_of_le (ih.puts x hx n hn) h4
      · cases hh : putHandle (op, r) with
        | none => rw [List.filterMap_cons_none (by exact hh)]; exact ih.nodup
        | some n =>
          rw [List.filterMap_cons_some (b := n) (by exact hh), List.nodup_cons]
          refine ⟨fun hm => ?_, ih.nodup⟩
          obtain ⟨x, hx, hxn⟩ := List.mem_filterMap.1 hm
          have := ih.puts x hx n hxn
          rw [(hp n hh).1] at this
          exact absurd this (Nat.lt_irrefl _)
      · intro x hx n hn
        rcases List.mem_cons.1 hx with rfl | hx
        · have := h10 n hn; cases this
        · exact h5 n (ih.gone x hx n hn)
    · cases h8
  | @goes log asked s t s' _ hs ih =>
    obtain ⟨h1, h2, h3, h4, h5, a, th, o, h6, h7, h8, -, h9⟩ := go ih hs
    rcases h9 with ⟨r, rfl, -⟩ | ⟨q, rfl, hi, hw⟩
    · cases h8
    · refine ⟨h1, h2, h3, by rw [hi]; exact ih.hist, ?_, fun x hx n hn => Nat.lt_of_lt_of_le (ih.puts x hx n hn) h4, ih.nodup,
        fun x hx n hn => h5 n (ih.gone x hx n hn), ih.never⟩
      rw [h6]
      refine where_others ih.whr h5 (fun u _ => rfl) ?_
      rw [h7]; exact hw
  | @ends log asked s t op s' r _ ha hs ih =>
    obtain ⟨h1, h2, h3, h4, h5, a, th, o, h6, h7, h8, ho, h9⟩ := go ih hs
    rw [ha] at ho
    cases ho
    rcases h9 with ⟨r', rfl, hl, hp, hgn⟩ | ⟨q, rfl, -⟩
    · cases h8
      rw [ih.cap_eq] at hl
      refine ⟨h1, h2, h3, .call ih.hist hl, ?_, ?_, ?_, ?_, List.pairwise_cons.2 ⟨never_cons ih.cc.ok ih.gone hl, ih.never⟩⟩
      · rw [h6]
        refine where_others ih.whr h5 (fun u hu => by simp [setAsked, hu]) ?_
        rw [h7]; trivial
      · intro x hx n hn
        rcases List.mem_cons.1 hx with rfl | hx
        · rw [hp] at hn; cases hn
        · exact Nat.lt_of_lt_of_le (ih.puts x hx n hn) h4
      · rw [List.filterMap_cons_none (by exact hp)]; exact ih.nodup
      · intro x hx n hn
        rcases List.mem_cons.1 hx with rfl | hx
        · exact hgn n hn
        · exact h5 n (ih.gone x hx n hn)
    · cases h8

theorem count_items {held : List Nat} {c : Cache} (h : COk held c) : cacheCount c = (items c).length := by
  unfold cacheCount items
  rw [List.length_map, h.inv.len]

/-- A thread that goes on has begun a call. -/
theorem lin_asked {cap num t : Nat} {log : List Done} {asked : Nat → Option CacheOp} {s s' : Conc} {r : Option CacheResult} (h : Lin cap num log asked s)
    (hs : s.step t .go = some (.ok (s', r))) : ∃ op, asked t = some op := by
  unfold Conc.step at hs
  simp only at hs
  split at hs
  · next hc =>
    have hw := h.whr t (by rw [← h.num_eq]; exact hc.1)
    generalize (s.thr t).doing = p at hw hc
    cases p with
    | idle => exact absurd rfl hc.2.1
    | addBytes n b k => obtain ⟨_, _, h⟩ := hw; exact ⟨_, h⟩
    | addMessages n b k => obtain ⟨_, _, h⟩ := hw; exact ⟨_, h⟩
    | hintLock n t q => exact ⟨_, hw⟩
    | relPlain n => obtain ⟨_, h, _⟩ := hw; exact ⟨_, h⟩
    | relLock n => exact ⟨_, hw⟩
    | relHeld n => exact ⟨_, hw⟩
  · cases hs

/-- Every item of the list was stored under its identifier, and no call since then removed it. -/
theorem history_items {cap : Nat} {log : List (CacheOp × CacheResult)} {l : List Item} (h : LruHistory cap log l) : ∀ x ∈ l,
    ∃ mid y old, log = mid ++ y :: old ∧ putHandle y = some x.handle ∧ putId y = some x.id ∧ ∀ z ∈ mid, ¬ Removes x.handle x.id z := by
  induction h with
  | new => intro x hx; cases hx
  | @call log l op r l' _ hs ih =>
    have keep : ∀ {x y : Item}, y ∈ l → y.handle = x.handle → y.id = x.id → ¬ Removes x.handle x.id (op, r) →
        ∃ mid y old, (op, r) :: log = mid ++ y :: old ∧ putHandle y = some x.handle ∧ putId y = some x.id ∧ ∀ z ∈ mid, ¬ Removes x.handle x.id z := by
      intro x y hy h1 h2 h3
      obtain ⟨mid, z, old, h4, h5, h6, h7⟩ := ih y hy
      rw [h1, h2] at h7
      refine ⟨(op, r) :: mid, z, old, by rw [h4]; rfl, by rw [h5, h1], by rw [h6, h2], fun w hw => ?_⟩
      rcases List.mem_cons.1 hw with rfl | hw
      · exact h3
      · exact h7 w hw
    have swept : ∀ {clk : Option Nat} {kept : List Item}, Swept clk l kept → ∀ x ∈ kept, x ∈ l := by
      intro clk kept hk x hx
      unfold Swept at hk
      split at hk
      · rw [← hk]; exact hx
      · exact hk.1.subset hx
    have put : ∀ {id : Bytes} {clk : Option Nat}, putId (op, r) = some id → (∀ h, r = .handle h → putHandle (op, r) = h) → op ≠ .clear → (∀ h, op ≠ .release h true) →
        ((∃ h kept, r = .handle (some h) ∧ (∀ x ∈ l, x.handle ≠ h) ∧ Swept clk l kept ∧ l' = stored cap h id kept) ∨
          (r = .handle none ∧ (l' = l ∨ Swept clk l l'))) →
        ∀ x ∈ l', ∃ mid y old, (op, r) :: log = mid ++ y :: old ∧ putHandle y = some x.handle ∧ putId y = some x.id ∧
          ∀ z ∈ mid, ¬ Removes x.handle x.id z := by
      intro id clk hid hh hc hrel hs x hx
      rcases hs with ⟨h, kept, rfl, -, hk, rfl⟩ | ⟨rfl, hl⟩
      · rcases List.mem_cons.1 (List.mem_of_mem_take hx) with rfl | hx
        · exact ⟨[], _, log, rfl, hh _ rfl, hid, by simp⟩
        · obtain ⟨hx, hne⟩ := List.mem_filter.1 hx
          refine keep (swept hk x hx) rfl rfl ?_
          rintro (h1 | h1 | ⟨h1, -⟩)
          · exact hc h1
          · exact hrel _ h1
          · rw [hid] at h1
            cases h1
            simp at hne
      · refine keep (y := x) (hl.elim (fun e => e ▸ hx) (fun e => swept e x hx)) rfl rfl ?_
        rintro (h1 | h1 | ⟨-, h1⟩)
        · exact hc h1
        · exact hrel _ h1
        · exact h1 (hh _ rfl)
    have plain : op ≠ .clear → (∀ h, op ≠ .release h true) → putId (op, r) = none → ∀ h id, ¬ Removes h id (op, r) := by
      rintro h1 h2 h3 h id (h4 | h4 | ⟨h4, -⟩)
      · exact h1 h4
      · exact h2 _ h4
      · rw [h3] at h4; cases h4
    intro x hx
    cases op with
    | find clk id =>
      obtain ⟨kept, hk, rfl, -⟩ := hs
      refine keep (y := x) (swept hk x ?_) rfl rfl (plain nofun nofun rfl _ _)
      unfold touched at hx
      split at hx
      · exact hx
      · next y hy =>
        rcases List.mem_cons.1 hx with rfl | hx
        · exact List.mem_of_find?_eq_some hy
        · exact (List.mem_filter.1 hx).1
    | putEnc env id m b k ctx => exact put (id := id) rfl (fun h e => by rw [e]; rfl) nofun nofun hs x hx
    | putDec env id m => exact put (id := id) rfl (fun h e => by rw [e]; rfl) nofun nofun hs x hx
    | hint h t rec =>
      obtain ⟨-, rfl⟩ := hs
      obtain ⟨y, hy, rfl⟩ := List.mem_map.1 hx
      refine keep hy ?_ ?_ (plain nofun nofun rfl _ _) <;> (split <;> rfl)
    | release h inv =>
      obtain ⟨-, rfl⟩ := hs
      cases inv with
      | false => exact keep hx rfl rfl (plain nofun nofun rfl _ _)
      | true =>
        simp only [if_true] at hx
        obtain ⟨hx, hne⟩ := List.mem_filter.1 hx
        refine keep hx rfl rfl ?_
        rintro (h1 | h1 | ⟨h1, -⟩)
        · cases h1
        · cases h1; simp at hne
        · cases h1
    | clear => obtain ⟨-, rfl⟩ := hs; cases hx
    | count => obtain ⟨-, rfl⟩ := hs; exact keep hx rfl rfl (plain nofun nofun rfl _ _)
    | use h b k => cases (show l' = l from hs); exact keep hx rfl rfl (plain nofun nofun rfl _ _)
    | getEnc env h ctx => cases (show l' = l from hs); exact keep hx rfl rfl (plain nofun nofun rfl _ _)
    | getDec env h => cases (show l' = l from hs); exact keep hx rfl rfl (plain nofun nofun rfl _ _)
    | created h => cases (show l' = l from hs); exact keep hx rfl rfl (plain nofun nofun rfl _ _)

theorem history_at {cap : Nat} {post pre : List (CacheOp × CacheResult)} {x : CacheOp × CacheResult} {l : List Item}
    (h : LruHistory cap (post ++ x :: pre) l) : ∃ l0 l1, LruHistory cap pre l0 ∧ LruStep cap l0 x.1 x.2 l1 := by
  induction post generalizing l with
  | nil => cases h with | call h1 h2 => exact ⟨_, _, h1, h2⟩
  | cons y post ih => cases h with | call h1 h2 => exact ih h1

theorem set_set (c : Cache) (n : Nat) (a b : Option Entry) : (c.set n a).set n b = c.set n b := by
  unfold Cache.set
  simp only [Cache.mk.injEq, and_self, and_true]
  funext m
  split <;> rfl

theorem entry_set (c : Cache) (n : Nat) (e : Entry) : (c.set n (some e)).entry n = .ok e := by simp [Cache.entry, Cache.set]

end Verif.Proof
