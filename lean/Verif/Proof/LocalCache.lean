import Verif.Model.LocalCache
/-
The invariant of the local cache and what each operation does.
-/
namespace Verif

/-- Entry `n` is live and stored in the cache (`x` is an entry under construction). -/
def Vis (c : Cache) (x : Option Nat) (n : Nat) (e : Entry) : Prop := c.mem n = some e ∧ e.zombie = false ∧ x ≠ some n

/-- Invariant of the cache, with outstanding handles `held` and possibly an entry `x` that is allocated and not yet inserted. -/
structure CInv (x : Option Nat) (held : List Nat) (c : Cache) : Prop where
  keys : (c.table.map Prod.fst).Nodup
  tab : ∀ id n, (id, n) ∈ c.table ↔ ∃ e, Vis c x n e ∧ e.cacheId = id
  lruN : c.lru.Nodup
  lru : ∀ n, n ∈ c.lru ↔ ∃ e, Vis c x n e
  len : c.lru.length = c.table.length
  ttlN : c.ttl.Nodup
  ttl : ∀ n, n ∈ c.ttl ↔ ∃ e, Vis c x n e ∧ e.expiry ≠ noExpiry
  rc : ∀ n e, c.mem n = some e → e.refcount = held.count n + (if e.zombie then 0 else 1)
  pos : ∀ n e, c.mem n = some e → 0 < e.refcount
  heldLive : ∀ n ∈ held, ∃ e, c.mem n = some e
  fresh : ∀ n, c.next ≤ n → c.mem n = none
  pend : ∀ n, x = some n → ∃ e, c.mem n = some e ∧ e.zombie = false ∧ e.expiry = noExpiry

theorem table_filter_length {t : List (Bytes × Nat)} {id : Bytes} {n : Nat} (hk : (t.map Prod.fst).Nodup) (hm : (id, n) ∈ t) :
    (tableRemove t id).length + 1 = t.length := by
  unfold tableRemove
  induction t with
  | nil => cases hm
  | cons a t ih =>
    simp only [List.map_cons, List.nodup_cons] at hk
    by_cases ha : a.1 = id
    · have hall : t.filter (fun x => decide (x.1 ≠ id)) = t := by
        rw [List.filter_eq_self]
        intro b hb
        have : b.1 ≠ id := by
          intro hbi
          exact hk.1 (by rw [ha, ← hbi]; exact List.mem_map_of_mem hb)
        simpa using this
      rw [List.filter_cons_of_neg (by simp [ha]), hall]
      rfl
    · have hm' : (id, n) ∈ t := by
        rcases List.mem_cons.mp hm with h | h
        · exact absurd (by rw [← h]) ha
        · exact h
      rw [List.filter_cons_of_pos (by simp [ha])]
      have := ih hk.2 hm'
      simp only [List.length_cons]
      omega

theorem table_lookup {t : List (Bytes × Nat)} {id : Bytes} {n : Nat} (hk : (t.map Prod.fst).Nodup) :
    t.lookup id = some n ↔ (id, n) ∈ t := by
  induction t with
  | nil => simp
  | cons a t ih =>
    obtain ⟨i, m⟩ := a
    simp only [List.map_cons, List.nodup_cons] at hk
    rw [List.lookup_cons]
    by_cases hi : id = i
    · subst hi
      simp only [beq_self_eq_true, Option.some.injEq, List.mem_cons, Prod.mk.injEq, true_and]
      constructor
      · intro h; exact .inl h.symm
      · rintro (h | h)
        · exact h.symm
        · exact absurd (List.mem_map_of_mem h) hk.1
    · have hb : (id == i) = false := by simpa using hi
      simp only [hb, ih hk.2, List.mem_cons, Prod.mk.injEq, hi, false_and, false_or]

theorem table_lookup_none {t : List (Bytes × Nat)} {id : Bytes} : t.lookup id = none ↔ ∀ n, (id, n) ∉ t := by
  induction t with
  | nil => simp
  | cons a t ih =>
    obtain ⟨i, m⟩ := a
    rw [List.lookup_cons]
    by_cases hi : id = i
    · subst hi
      simp only [beq_self_eq_true, reduceCtorEq, false_iff]
      intro h
      exact h m (by simp)
    · have hb : (id == i) = false := by simpa using hi
      simp [hb, ih, hi]

theorem mem_tableRemove {t : List (Bytes × Nat)} {id i : Bytes} {n : Nat} : (i, n) ∈ tableRemove t id ↔ (i, n) ∈ t ∧ i ≠ id := by
  simp [tableRemove]

theorem keys_tableRemove {t : List (Bytes × Nat)} {id : Bytes} (hk : (t.map Prod.fst).Nodup) : ((tableRemove t id).map Prod.fst).Nodup :=
  List.Nodup.sublist (List.Sublist.map _ List.filter_sublist) hk

/-- An entry after the cache dropped its reference. -/
def Entry.dropped (e : Entry) : Option Entry :=
  if e.refcount = 1 then none else some { e with zombie := true, refcount := e.refcount - 1 }

/-- The cache after invalidating entry `n`. -/
def Cache.without (c : Cache) (n : Nat) (e : Entry) : Cache :=
  { c with mem := fun m => if m = n then e.dropped else c.mem m, table := tableRemove c.table e.cacheId, lru := c.lru.erase n,
           ttl := c.ttl.erase n }

theorem vis_without {c : Cache} {x : Option Nat} {n : Nat} {e : Entry} (m : Nat) (f : Entry) :
    Vis (c.without n e) x m f ↔ Vis c x m f ∧ m ≠ n := by
  unfold Vis Cache.without
  by_cases hm : m = n
  · subst hm
    simp only [if_true, ne_eq, not_true, and_false, iff_false]
    rintro ⟨h1, h2, -⟩
    unfold Entry.dropped at h1
    split at h1
    · cases h1
    · cases h1; cases h2
  · simp [hm]

theorem CInv.vis_id {x : Option Nat} {held : List Nat} {c : Cache} (h : CInv x held c) {n m : Nat} {e f : Entry} (h1 : Vis c x n e)
    (h2 : Vis c x m f) (hid : e.cacheId = f.cacheId) : n = m := by
  have a := (table_lookup h.keys).mpr ((h.tab _ _).mpr ⟨e, h1, rfl⟩)
  have b := (table_lookup h.keys).mpr ((h.tab _ _).mpr ⟨f, h2, rfl⟩)
  rw [hid] at a
  exact Option.some.inj (a.symm.trans b)

theorem CInv.without {x : Option Nat} {held : List Nat} {c : Cache} (h : CInv x held c) {n : Nat} {e : Entry} (hv : Vis c x n e) :
    CInv x held (c.without n e) := by
  have hid : (e.cacheId, n) ∈ c.table := (h.tab _ _).mpr ⟨e, hv, rfl⟩
  refine ⟨keys_tableRemove h.keys, ?_, h.lruN.erase n, ?_, ?_, h.ttlN.erase n, ?_, ?_, ?_, ?_, ?_, ?_⟩
  · intro i m
    simp only [vis_without]
    show (i, m) ∈ tableRemove c.table e.cacheId ↔ _
    rw [mem_tableRemove, h.tab]
    constructor
    · rintro ⟨⟨f, hf, rfl⟩, hne⟩
      refine ⟨f, ⟨hf, ?_⟩, rfl⟩
      rintro rfl
      have : f = e := Option.some.inj (hf.1.symm.trans hv.1)
      exact hne (by rw [this])
    · rintro ⟨f, ⟨hf, hne⟩, rfl⟩
      exact ⟨⟨f, hf, rfl⟩, fun hid => hne (h.vis_id hf hv hid)⟩
  · intro m
    simp only [vis_without]
    show m ∈ c.lru.erase n ↔ _
    rw [h.lruN.mem_erase_iff, h.lru]
    constructor
    · rintro ⟨a, f, b⟩; exact ⟨f, b, a⟩
    · rintro ⟨f, b, a⟩; exact ⟨a, f, b⟩
  · show (c.lru.erase n).length = (tableRemove c.table e.cacheId).length
    have h1 := table_filter_length h.keys hid
    have h2 := List.length_erase_of_mem ((h.lru n).mpr ⟨e, hv⟩)
    have h3 := h.len
    omega
  · intro m
    simp only [vis_without]
    show m ∈ c.ttl.erase n ↔ _
    rw [h.ttlN.mem_erase_iff, h.ttl]
    constructor
    · rintro ⟨a, f, b, d⟩; exact ⟨f, ⟨b, a⟩, d⟩
    · rintro ⟨f, ⟨b, a⟩, d⟩; exact ⟨a, f, b, d⟩
  · intro m f hf
    simp only [Cache.without] at hf
    by_cases hm : m = n
    · subst hm
      rw [if_pos rfl] at hf
      unfold Entry.dropped at hf
      split at hf
      · cases hf
      · cases hf
        have := h.rc _ _ hv.1
        rw [hv.2.1] at this
        simp at this ⊢
        omega
    · rw [if_neg hm] at hf
      exact h.rc m f hf
  · intro m f hf
    simp only [Cache.without] at hf
    by_cases hm : m = n
    · subst hm
      rw [if_pos rfl] at hf
      unfold Entry.dropped at hf
      split at hf
      · cases hf
      · rename_i h1
        cases hf
        have := h.pos _ _ hv.1
        simp only
        omega
    · rw [if_neg hm] at hf
      exact h.pos m f hf
  · intro m hm
    obtain ⟨f, hf⟩ := h.heldLive m hm
    simp only [Cache.without]
    by_cases hmn : m = n
    · subst hmn
      have := h.rc _ _ hv.1
      rw [hv.2.1] at this
      have hc : 0 < held.count m := List.count_pos_iff.mpr hm
      rw [if_pos rfl]
      unfold Entry.dropped
      rw [if_neg (by simp at this; omega)]
      exact ⟨_, rfl⟩
    · rw [if_neg hmn]; exact ⟨f, hf⟩
  · intro m hm
    have := h.fresh m hm
    simp only [Cache.without]
    by_cases hmn : m = n
    · subst hmn; exact absurd (this.symm.trans hv.1) (by simp)
    · rw [if_neg hmn]; exact this
  · intro m hm
    have hne : m ≠ n := by rintro rfl; exact hv.2.2 hm
    simp only [Cache.without, if_neg hne]
    exact h.pend m hm

theorem set_set (c : Cache) (n : Nat) (a b : Option Entry) : (c.set n a).set n b = c.set n b := by
  unfold Cache.set
  congr 1
  funext m
  by_cases h : m = n <;> simp [h]

theorem set_mem_self (c : Cache) (n : Nat) (a : Option Entry) : (c.set n a).mem n = a := by simp [Cache.set]

theorem entry_some {c : Cache} {n : Nat} {e : Entry} (h : c.mem n = some e) : c.entry n = .ok e := by
  unfold Cache.entry; rw [h]

theorem CInv.ttl_erase {x : Option Nat} {held : List Nat} {c : Cache} (h : CInv x held c) {n : Nat} {e : Entry} (hv : Vis c x n e) :
    (if e.expiry ≠ noExpiry then c.ttl.erase n else c.ttl) = c.ttl.erase n := by
  split
  · rfl
  · rename_i hne
    have : n ∉ c.ttl := by
      intro hm
      obtain ⟨f, hf, h2⟩ := (h.ttl n).mp hm
      have : f = e := Option.some.inj (hf.1.symm.trans hv.1)
      exact hne (this ▸ h2)
    exact (List.erase_of_not_mem this).symm

theorem decref_zombie (c : Cache) (n : Nat) (e : Entry) (hp : 0 < e.refcount) :
    decref (c.set n (some { e with zombie := true })) n = .ok (c.set n e.dropped) := by
  have he : (c.set n (some { e with zombie := true })).entry n = .ok { e with zombie := true } := entry_some (set_mem_self ..)
  unfold decref
  rw [he]
  simp only
  rw [if_neg (by omega)]
  unfold Entry.dropped
  by_cases h1 : e.refcount = 1
  · rw [if_pos h1, if_pos trivial, if_pos h1, set_set]
  · rw [if_neg h1, if_neg h1, set_set]

theorem invalidate_false {x : Option Nat} {held : List Nat} {c : Cache} (h : CInv x held c) {n : Nat} {e : Entry} (hv : Vis c x n e) :
    invalidate c n false = .ok (c.without n e) := by
  have hid : (e.cacheId, n) ∈ c.table := (h.tab _ _).mpr ⟨e, hv, rfl⟩
  unfold invalidate
  rw [entry_some hv.1]
  simp only
  rw [if_neg (by simp [hv.2.1]), if_neg (by simp [(table_lookup h.keys).mpr hid]), h.ttl_erase hv, decref_zombie _ _ _ (h.pos _ _ hv.1)]
  rfl

theorem invalidate_true {x : Option Nat} {held : List Nat} {c : Cache} (h : CInv x held c) {n : Nat} {e : Entry} (hv : Vis c x n e) :
    invalidate c n true = .ok { c.without n e with table := c.table } := by
  unfold invalidate
  rw [entry_some hv.1]
  simp only
  rw [if_neg (by simp [hv.2.1]), if_neg (by simp), h.ttl_erase hv, decref_zombie _ _ _ (h.pos _ _ hv.1)]
  rfl

/-! ### expiry -/

theorem ttlTop_none {c : Cache} {l : List Nat} : c.ttlTop l = none ↔ l = [] := by
  cases l with
  | nil => simp [Cache.ttlTop]
  | cons n l =>
    simp only [Cache.ttlTop, reduceCtorEq, iff_false]
    split
    · simp
    · split <;> simp

theorem ttlTop_some {c : Cache} {l : List Nat} {n : Nat} (h : c.ttlTop l = some n) :
    n ∈ l ∧ ∀ m ∈ l, (c.ttlKey n).1 ≤ (c.ttlKey m).1 := by
  induction l generalizing n with
  | nil => cases h
  | cons a l ih =>
    simp only [Cache.ttlTop] at h
    split at h
    · rename_i h0
      rw [ttlTop_none] at h0
      subst h0
      cases h
      simp
    · rename_i m hm
      obtain ⟨h1, h2⟩ := ih hm
      split at h
      · rename_i hlt
        cases h
        simp only [Cache.ttlLt, decide_eq_true_eq] at hlt
        refine ⟨.tail _ h1, ?_⟩
        intro k hk
        rcases List.mem_cons.mp hk with rfl | hk
        · omega
        · exact h2 k hk
      · rename_i hlt
        cases h
        simp only [Cache.ttlLt, decide_eq_true_eq] at hlt
        refine ⟨.head _, ?_⟩
        intro k hk
        rcases List.mem_cons.mp hk with rfl | hk
        · exact Nat.le_refl _
        · have := h2 k hk; omega

/-- What expiry does to the cache: it drops at most `k` entries, all of them due, the earliest first, and all that are due if it drops
fewer than `k`. -/
structure Expired (now k : Nat) (c c' : Cache) (gone : List Nat) : Prop where
  few : gone.length ≤ k
  nodup : gone.Nodup
  due : ∀ n ∈ gone, ∃ e, c.mem n = some e ∧ e.zombie = false ∧ e.expiry ≤ now ∧ n ∈ c.lru ∧ e.expiry ≠ noExpiry
  lru : c'.lru = c.lru.filter (fun n => n ∉ gone)
  all : gone.length < k → ∀ n ∈ c'.ttl, ∀ e, c'.mem n = some e → now < e.expiry
  first : ∀ n ∈ gone, ∀ e, c.mem n = some e → ∀ m ∈ c'.ttl, m ∈ c.ttl ∧ ∀ f, c'.mem m = some f → e.expiry ≤ f.expiry
  mem : ∀ n, n ∉ gone → c'.mem n = c.mem n
  memGone : ∀ n ∈ gone, ∀ e, c.mem n = some e → c'.mem n = e.dropped
  sameNext : c'.next = c.next
  sameCap : c'.capacity = c.capacity
  sameAddr : c'.addr = c.addr
  tabLen : c'.table.length ≤ c.table.length

theorem Expired.refl (now k : Nat) (c : Cache) (h : 0 < k → ∀ n ∈ c.ttl, ∀ e, c.mem n = some e → now < e.expiry) :
    Expired now k c c [] := by
  refine ⟨by simp, by simp, by simp, ?_, h, by simp, by simp, by simp, rfl, rfl, rfl, Nat.le_refl _⟩
  symm
  rw [List.filter_eq_self]
  simp

theorem ttlLoop_ok (now : Nat) : ∀ (k : Nat) {x : Option Nat} {held : List Nat} {c : Cache}, CInv x held c →
    ∃ c' gone, ttlLoop now k c = .ok c' ∧ CInv x held c' ∧ Expired now k c c' gone := by
  intro k
  induction k with
  | zero =>
    intro x held c h
    exact ⟨c, [], rfl, h, Expired.refl now 0 c (by simp)⟩
  | succ k ih =>
    intro x held c h
    unfold ttlLoop
    have hno : c.ttl.any (fun n => (c.mem n).isNone) = false := by
      rw [List.any_eq_false]
      intro n hn
      obtain ⟨e, hv, -⟩ := (h.ttl n).mp hn
      simp [hv.1]
    rw [hno]
    simp only [Bool.false_eq_true, if_false]
    cases ht : c.ttlTop c.ttl with
    | none =>
      rw [ttlTop_none] at ht
      exact ⟨c, [], rfl, h, Expired.refl now (k + 1) c (by rw [ht]; simp)⟩
    | some n =>
      obtain ⟨hn, hmin⟩ := ttlTop_some ht
      obtain ⟨e, hv, hne⟩ := (h.ttl n).mp hn
      simp only
      rw [entry_some hv.1]
      simp only
      by_cases hle : e.expiry ≤ now
      · rw [if_pos hle, invalidate_false h hv]
        simp only
        obtain ⟨c', gone, h1, h2, h3⟩ := ih (h.without hv)
        refine ⟨c', n :: gone, h1, h2, ?_⟩
        have hng : n ∉ gone := by
          intro hg
          obtain ⟨f, -, -, -, hl, -⟩ := h3.due n hg
          exact ((h.lruN.mem_erase_iff (a := n) (b := n)).mp hl).1 rfl
        have hsub : ∀ m ∈ c'.ttl, m ∈ c.ttl ∧ ∃ f, c'.mem m = some f ∧ c.mem m = some f := by
          intro m hm
          obtain ⟨f, hvf, hne'⟩ := (h2.ttl m).mp hm
          have hmg : m ∉ gone := by
            intro hg
            obtain ⟨g, hg1, -⟩ := h3.due m hg
            have h4 := h3.memGone m hg g hg1
            rw [hvf.1] at h4
            unfold Entry.dropped at h4
            split at h4
            · cases h4
            · have h5 := hvf.2.1
              rw [Option.some.inj h4] at h5
              cases h5
          have h4 := h3.mem m hmg
          rw [hvf.1] at h4
          have hmn : m ≠ n := by
            rintro rfl
            have h5 : Vis (c.without m e) x m f := ⟨h4.symm, hvf.2.1, hvf.2.2⟩
            exact ((vis_without m f).mp h5).2 rfl
          have h5 : c.mem m = some f := by
            have : (c.without n e).mem m = c.mem m := by simp [Cache.without, hmn]
            rw [← this, ← h4]
          exact ⟨(h.ttl m).mpr ⟨f, ⟨h5, hvf.2.1, hvf.2.2⟩, hne'⟩, f, hvf.1, h5⟩
        refine ⟨?_, List.nodup_cons.mpr ⟨hng, h3.nodup⟩, ?_, ?_, ?_, ?_, ?_, ?_, h3.sameNext, h3.sameCap, h3.sameAddr, ?_⟩
        · have := h3.few; simp only [List.length_cons]; omega
        · intro m hm
          rcases List.mem_cons.mp hm with rfl | hm'
          · exact ⟨e, hv.1, hv.2.1, hle, (h.lru _).mpr ⟨e, hv⟩, hne⟩
          · obtain ⟨f, hf, hz, hd, hl, hnx⟩ := h3.due m hm'
            have hmn : m ≠ n := by rintro rfl; exact hng hm'
            refine ⟨f, ?_, hz, hd, List.mem_of_mem_erase hl, hnx⟩
            simpa [Cache.without, hmn] using hf
        · rw [h3.lru]
          show (c.lru.erase n).filter _ = _
          rw [h.lruN.erase_eq_filter, List.filter_filter]
          apply List.filter_congr
          intro m _
          by_cases hm : m = n <;> by_cases hg : m ∈ gone <;> simp [hm, hg]
        · intro hlt
          exact h3.all (by simp only [List.length_cons] at hlt; omega)
        · intro m hm f hf k hk
          obtain ⟨hk1, g, hg1, hg2⟩ := hsub k hk
          refine ⟨hk1, fun g' hg' => ?_⟩
          rw [hg1] at hg'; cases hg'
          rcases List.mem_cons.mp hm with rfl | hm'
          · have := hmin k hk1
            rw [hv.1] at hf; cases hf
            simpa [Cache.ttlKey, hv.1, hg2] using this
          · have hmn : m ≠ n := by rintro rfl; exact hng hm'
            exact (h3.first m hm' f (by simpa [Cache.without, hmn] using hf) k hk).2 g hg1
        · intro m hm
          simp only [List.mem_cons, not_or] at hm
          rw [h3.mem m hm.2]
          simp [Cache.without, hm.1]
        · intro m hm f hf
          rcases List.mem_cons.mp hm with rfl | hm'
          · rw [h3.mem _ hng]
            rw [hv.1] at hf; cases hf
            simp [Cache.without]
          · have hmn : m ≠ n := by rintro rfl; exact hng hm'
            exact h3.memGone m hm' f (by simpa [Cache.without, hmn] using hf)
        · refine Nat.le_trans h3.tabLen ?_
          exact List.length_filter_le _ _
      · rw [if_neg hle]
        refine ⟨c, [], rfl, h, Expired.refl now (k + 1) c ?_⟩
        intro _ m hm f hf
        have hk := hmin m hm
        simp only [Cache.ttlKey, hv.1, hf] at hk
        omega

/-- The readings of the clock as a bound: entries due at `now` are dropped, none when the clock fails. -/
def ExpiredAt (clk : Option Nat) (c c' : Cache) (gone : List Nat) : Prop :=
  match clk with
  | none => c' = c ∧ gone = []
  | some now => Expired now ttlBatch c c' gone

theorem processTtls_ok (clk : Option Nat) {x : Option Nat} {held : List Nat} {c : Cache} (h : CInv x held c) :
    ∃ c' gone, processTtls clk c = .ok c' ∧ CInv x held c' ∧ ExpiredAt clk c c' gone := by
  unfold processTtls ExpiredAt
  cases clk with
  | none => exact ⟨c, [], rfl, h, rfl, rfl⟩
  | some now => exact ttlLoop_ok now ttlBatch h

/-! ### single steps on entries -/

theorem CInv.modify {x : Option Nat} {held held' : List Nat} {c : Cache} (h : CInv x held c) {n : Nat} {e e' : Entry}
    (hm : c.mem n = some e) (hz : e'.zombie = e.zombie) (hid : e'.cacheId = e.cacheId) (hx : e'.expiry = e.expiry)
    (hc : ∀ m, m ≠ n → held'.count m = held.count m) (hr : e'.refcount = held'.count n + (if e'.zombie then 0 else 1))
    (hp : 0 < e'.refcount) : CInv x held' (c.set n (some e')) := by
  have hvis : ∀ m f, Vis (c.set n (some e')) x m f ↔ (m = n ∧ f = e' ∧ Vis c x n e) ∨ (m ≠ n ∧ Vis c x m f) := by
    intro m f
    unfold Vis Cache.set
    by_cases hmn : m = n
    · subst hmn
      simp only [if_true, Option.some.injEq, true_and, hm, ne_eq, not_true, false_and, or_false]
      constructor
      · rintro ⟨rfl, h1, h2⟩; exact ⟨rfl, hz ▸ h1, h2⟩
      · rintro ⟨rfl, h1, h2⟩; exact ⟨rfl, hz ▸ h1, h2⟩
    · simp [hmn]
  have hex : ∀ m, (∃ f, Vis (c.set n (some e')) x m f) ↔ ∃ f, Vis c x m f := by
    intro m
    constructor
    · rintro ⟨f, hf⟩
      rcases (hvis m f).mp hf with ⟨rfl, -, h1⟩ | ⟨-, h1⟩
      · exact ⟨e, h1⟩
      · exact ⟨f, h1⟩
    · rintro ⟨f, hf⟩
      by_cases hmn : m = n
      · subst hmn
        have : f = e := Option.some.inj (hf.1.symm.trans hm)
        exact ⟨e', (hvis _ _).mpr (.inl ⟨rfl, rfl, this ▸ hf⟩)⟩
      · exact ⟨f, (hvis _ _).mpr (.inr ⟨hmn, hf⟩)⟩
  refine ⟨h.keys, ?_, h.lruN, ?_, h.len, h.ttlN, ?_, ?_, ?_, ?_, ?_, ?_⟩
  · intro id m
    show (id, m) ∈ c.table ↔ _
    rw [h.tab]
    constructor
    · rintro ⟨f, hf, rfl⟩
      by_cases hmn : m = n
      · subst hmn
        have : f = e := Option.some.inj (hf.1.symm.trans hm)
        exact ⟨e', (hvis _ _).mpr (.inl ⟨rfl, rfl, this ▸ hf⟩), by rw [hid, this]⟩
      · exact ⟨f, (hvis _ _).mpr (.inr ⟨hmn, hf⟩), rfl⟩
    · rintro ⟨f, hf, rfl⟩
      rcases (hvis m f).mp hf with ⟨rfl, rfl, h1⟩ | ⟨-, h1⟩
      · exact ⟨e, h1, hid.symm⟩
      · exact ⟨f, h1, rfl⟩
  · intro m
    rw [hex]
    exact h.lru m
  · intro m
    show m ∈ c.ttl ↔ _
    rw [h.ttl]
    constructor
    · rintro ⟨f, hf, h1⟩
      by_cases hmn : m = n
      · subst hmn
        have : f = e := Option.some.inj (hf.1.symm.trans hm)
        exact ⟨e', (hvis _ _).mpr (.inl ⟨rfl, rfl, this ▸ hf⟩), by rw [hx, ← this]; exact h1⟩
      · exact ⟨f, (hvis _ _).mpr (.inr ⟨hmn, hf⟩), h1⟩
    · rintro ⟨f, hf, h2⟩
      rcases (hvis m f).mp hf with ⟨rfl, rfl, h1⟩ | ⟨-, h1⟩
      · exact ⟨e, h1, hx ▸ h2⟩
      · exact ⟨f, h1, h2⟩
  · intro m f hf
    unfold Cache.set at hf
    by_cases hmn : m = n
    · subst hmn; simp only [if_true, Option.some.injEq] at hf; subst hf; exact hr
    · simp only [hmn, if_false] at hf; rw [hc m hmn]; exact h.rc m f hf
  · intro m f hf
    unfold Cache.set at hf
    by_cases hmn : m = n
    · subst hmn; simp only [if_true, Option.some.injEq] at hf; subst hf; exact hp
    · simp only [hmn, if_false] at hf; exact h.pos m f hf
  · intro m hmh
    unfold Cache.set
    by_cases hmn : m = n
    · simp [hmn]
    · simp only [hmn, if_false]
      refine h.heldLive m ?_
      rw [← List.count_pos_iff, ← hc m hmn, List.count_pos_iff]
      exact hmh
  · intro m hmf
    have := h.fresh m hmf
    unfold Cache.set
    by_cases hmn : m = n
    · subst hmn; rw [hm] at this; cases this
    · simpa [hmn] using this
  · intro m hxm
    obtain ⟨f, hf, h1, h2⟩ := h.pend m hxm
    unfold Cache.set
    by_cases hmn : m = n
    · subst hmn
      rw [hm] at hf; cases hf
      exact ⟨e', by simp, by rw [hz]; exact h1, by rw [hx]; exact h2⟩
    · exact ⟨f, by simpa [hmn] using hf, h1, h2⟩

theorem CInv.addRef {held : List Nat} {c : Cache} (h : CInv none held c) {n : Nat} {e : Entry} (hm : c.mem n = some e) :
    CInv none (n :: held) (c.set n (some { e with refcount := e.refcount + 1 })) := by
  refine h.modify hm rfl rfl rfl ?_ ?_ ?_
  · intro m hmn; rw [List.count_cons_of_ne]; exact fun h => hmn h.symm
  · have := h.rc n e hm
    simp only [List.count_cons_self, this]
    omega
  · show 0 < e.refcount + 1
    omega

/-- Freeing an entry that only one handle referred to. -/
theorem CInv.freeZombie {held : List Nat} {c : Cache} (h : CInv none held c) {n : Nat} {e : Entry} (hm : c.mem n = some e)
    (hz : e.zombie = true) (h1 : e.refcount = 1) : CInv none (held.erase n) (c.set n none) := by
  have hcount : held.count n = 1 := by
    have := h.rc n e hm; rw [hz] at this; simp at this; omega
  have hnot : ∀ f, ¬ Vis c none n f := by
    intro f hf
    have : f = e := Option.some.inj (hf.1.symm.trans hm)
    rw [this] at hf
    exact absurd hf.2.1 (by simp [hz])
  have hvis : ∀ m f, Vis (c.set n none) none m f ↔ Vis c none m f := by
    intro m f
    by_cases hmn : m = n
    · subst hmn
      constructor
      · intro hf; exact absurd hf.1 (by simp [Cache.set])
      · intro hf; exact absurd hf (hnot f)
    · simp [Vis, Cache.set, hmn]
  refine ⟨h.keys, ?_, h.lruN, ?_, h.len, h.ttlN, ?_, ?_, ?_, ?_, ?_, ?_⟩
  · intro id m; simp only [hvis]; exact h.tab id m
  · intro m; simp only [hvis]; exact h.lru m
  · intro m; simp only [hvis]; exact h.ttl m
  · intro m f hf
    by_cases hmn : m = n
    · subst hmn; simp [Cache.set] at hf
    · simp only [Cache.set, hmn, if_false] at hf
      rw [List.count_erase_of_ne hmn]
      exact h.rc m f hf
  · intro m f hf
    by_cases hmn : m = n
    · subst hmn; simp [Cache.set] at hf
    · simp only [Cache.set, hmn, if_false] at hf; exact h.pos m f hf
  · intro m hmh
    have hmn : m ≠ n := by
      rintro rfl
      have : 0 < (held.erase m).count m := List.count_pos_iff.mpr hmh
      rw [List.count_erase_self] at this
      omega
    simp only [Cache.set, hmn, if_false]
    exact h.heldLive m (List.mem_of_mem_erase hmh)
  · intro m hmf
    by_cases hmn : m = n
    · simp [Cache.set, hmn]
    · simp only [Cache.set, hmn, if_false]; exact h.fresh m hmf
  · intro m hm0; cases hm0

/-- Dropping one of several references. -/
theorem CInv.subRef {held : List Nat} {c : Cache} (h : CInv none held c) {n : Nat} {e : Entry} (hm : c.mem n = some e)
    (hh : n ∈ held) (h1 : e.refcount ≠ 1) : CInv none (held.erase n) (c.set n (some { e with refcount := e.refcount - 1 })) := by
  have hrc := h.rc n e hm
  have hp := h.pos n e hm
  have hcp : 0 < held.count n := List.count_pos_iff.mpr hh
  refine h.modify hm rfl rfl rfl ?_ ?_ ?_
  · intro m hmn; exact List.count_erase_of_ne hmn
  · rw [List.count_erase_self]
    show e.refcount - 1 = held.count n - 1 + (if e.zombie then 0 else 1)
    omega
  · show 0 < e.refcount - 1
    omega

theorem cacheRelease_ok {held : List Nat} {c : Cache} (h : CInv none held c) {n : Nat} (hh : n ∈ held) (inv : Bool) :
    ∃ c' e, c.mem n = some e ∧ cacheRelease n inv c = .ok c' ∧ CInv none (held.erase n) c' ∧ c'.next = c.next ∧
      c'.capacity = c.capacity ∧ c'.addr = c.addr ∧ c'.table.length ≤ c.table.length ∧ (∀ m, m ≠ n → c'.mem m = c.mem m) ∧
      (∀ e', c'.mem n = some e' → ∃ k z, e' = { e with refcount := k, zombie := z } ∧ (e.zombie = true → z = true) ∧ (inv = true → z = true)) ∧
      c'.lru = if inv then c.lru.erase n else c.lru := by
  obtain ⟨e, hm⟩ := h.heldLive n hh
  have hrc := h.rc n e hm
  have hp := h.pos n e hm
  have hcp : 0 < held.count n := List.count_pos_iff.mpr hh
  have hnl : e.zombie = true → c.lru.erase n = c.lru := by
    intro hz
    apply List.erase_of_not_mem
    intro hl
    obtain ⟨f, hf⟩ := (h.lru n).mp hl
    have : f = e := Option.some.inj (hf.1.symm.trans hm)
    rw [this] at hf
    exact absurd hf.2.1 (by simp [hz])
  unfold cacheRelease
  rw [entry_some hm]
  simp only
  cases hz : e.zombie with
  | true =>
    simp only [Bool.true_eq_false, and_false, if_false]
    unfold decref
    rw [entry_some hm]
    simp only
    rw [if_neg (by omega)]
    by_cases h1 : e.refcount = 1
    · rw [if_pos h1, if_pos hz]
      refine ⟨_, e, hm, rfl, h.freeZombie hm hz h1, rfl, rfl, rfl, Nat.le_refl _, ?_, ?_, ?_⟩
      · intro m hmn; simp [Cache.set, hmn]
      · intro e' he'; simp [Cache.set] at he'
      · show c.lru = _
        rw [hnl hz]; simp
    · rw [if_neg h1]
      refine ⟨_, e, hm, rfl, h.subRef hm hh h1, rfl, rfl, rfl, Nat.le_refl _, ?_, ?_, ?_⟩
      · intro m hmn; simp [Cache.set, hmn]
      · intro e' he'
        simp only [Cache.set, if_true, Option.some.injEq] at he'
        subst he'
        exact ⟨e.refcount - 1, e.zombie, rfl, by simp, by simp [hz]⟩
      · show c.lru = _
        rw [hnl hz]; simp
  | false =>
    have hz' : ¬ e.zombie = true := by simp [hz]
    simp only [hz', Bool.false_eq_true, if_false] at hrc
    have h1 : e.refcount ≠ 1 := by omega
    have hs := h.subRef hm hh h1
    cases inv with
    | false =>
      simp only [Bool.false_eq_true, false_and, if_false]
      unfold decref
      rw [entry_some hm]
      simp only
      rw [if_neg (by omega), if_neg h1]
      refine ⟨_, e, hm, rfl, hs, rfl, rfl, rfl, Nat.le_refl _, ?_, ?_, rfl⟩
      · intro m hmn; simp [Cache.set, hmn]
      · intro e' he'
        simp only [Cache.set, if_true, Option.some.injEq] at he'
        subst he'
        exact ⟨e.refcount - 1, e.zombie, rfl, by simp, by simp⟩
    | true =>
      simp only [true_and, if_true]
      unfold lockedRelease
      rw [entry_some hm]
      simp only
      rw [if_neg (by omega), if_neg h1, if_pos ⟨trivial, hz⟩]
      have hv : Vis (c.set n (some { e with refcount := e.refcount - 1 })) none n { e with refcount := e.refcount - 1 } :=
        ⟨set_mem_self .., hz, by simp⟩
      rw [invalidate_false hs hv]
      refine ⟨_, e, hm, rfl, hs.without hv, rfl, rfl, rfl, ?_, ?_, ?_, rfl⟩
      · exact List.length_filter_le _ _
      · intro m hmn; simp [Cache.set, Cache.without, hmn]
      · intro e' he'
        simp only [Cache.without, if_true] at he'
        unfold Entry.dropped at he'
        split at he'
        · cases he'
        · cases he'
          exact ⟨_, true, rfl, by simp, by simp⟩

theorem CInv.touch {held : List Nat} {c : Cache} (h : CInv none held c) {n : Nat} (hn : n ∈ c.lru) :
    CInv none held { c with lru := n :: c.lru.erase n } := by
  refine ⟨h.keys, h.tab, ?_, ?_, ?_, h.ttlN, h.ttl, h.rc, h.pos, h.heldLive, h.fresh, h.pend⟩
  · rw [List.nodup_cons]
    exact ⟨fun hm => ((h.lruN.mem_erase_iff).mp hm).1 rfl, h.lruN.erase n⟩
  · intro m
    show m ∈ n :: c.lru.erase n ↔ _
    rw [List.mem_cons, h.lruN.mem_erase_iff]
    have := h.lru m
    constructor
    · rintro (rfl | ⟨-, h1⟩)
      · exact (h.lru _).mp hn
      · exact this.mp h1
    · intro hm
      by_cases hmn : m = n
      · exact .inl hmn
      · exact .inr ⟨hmn, this.mpr hm⟩
  · show (n :: c.lru.erase n).length = c.table.length
    have h1 := List.length_erase_of_mem hn
    have h2 := h.len
    have h3 := List.length_pos_of_mem hn
    simp only [List.length_cons]
    omega

theorem cacheFind_ok {held : List Nat} {c : Cache} (h : CInv none held c) (clk : Option Nat) (id : Bytes) :
    ∃ c1 gone, CInv none held c1 ∧ ExpiredAt clk c c1 gone ∧
      ((cacheFind clk id c = .ok (c1, none) ∧ ∀ n, (id, n) ∉ c1.table) ∨
       (∃ n e, Vis c1 none n e ∧ e.cacheId = id ∧ n ∈ c1.lru ∧
         cacheFind clk id c = .ok ({ c1 with lru := n :: c1.lru.erase n }.set n (some { e with refcount := e.refcount + 1 }), some n) ∧
         CInv none (n :: held) ({ c1 with lru := n :: c1.lru.erase n }.set n (some { e with refcount := e.refcount + 1 })))) := by
  obtain ⟨c1, gone, h1, h2, h3⟩ := processTtls_ok clk h
  refine ⟨c1, gone, h2, h3, ?_⟩
  unfold cacheFind
  rw [h1]
  simp only
  cases hl : c1.table.lookup id with
  | none => exact .inl ⟨rfl, table_lookup_none.mp hl⟩
  | some n =>
    have hm := (table_lookup h2.keys).mp hl
    obtain ⟨e, hv, hid⟩ := (h2.tab _ _).mp hm
    have hn : n ∈ c1.lru := (h2.lru n).mpr ⟨e, hv⟩
    refine .inr ⟨n, e, hv, hid, hn, ?_, ?_⟩
    · have : ({ c1 with lru := n :: c1.lru.erase n } : Cache).entry n = .ok e := entry_some hv.1
      simp only [this]
    · exact (h2.touch hn).addRef (c := { c1 with lru := n :: c1.lru.erase n }) hv.1

/-! ### insertion -/

theorem CInv.alloc {held : List Nat} {c : Cache} (h : CInv none held c) (e : Entry) (hz : e.zombie = false) (hx : e.expiry = noExpiry)
    (hr : e.refcount = 1) : CInv (some c.next) held ({ c with next := c.next + 1 }.set c.next (some e)) := by
  have hfree := h.fresh c.next (Nat.le_refl _)
  have hvis : ∀ m f, Vis ({ c with next := c.next + 1 }.set c.next (some e)) (some c.next) m f ↔ Vis c none m f := by
    intro m f
    by_cases hm : m = c.next
    · subst hm
      simp [Vis, hfree]
    · have : c.next ≠ m := fun h => hm h.symm
      simp [Vis, Cache.set, hm, this]
  have hnh : held.count c.next = 0 := by
    rw [List.count_eq_zero]
    intro hm
    obtain ⟨f, hf⟩ := h.heldLive _ hm
    rw [hfree] at hf; cases hf
  refine ⟨h.keys, ?_, h.lruN, ?_, h.len, h.ttlN, ?_, ?_, ?_, ?_, ?_, ?_⟩
  · intro id m; simp only [hvis]; exact h.tab id m
  · intro m; simp only [hvis]; exact h.lru m
  · intro m; simp only [hvis]; exact h.ttl m
  · intro m f hf
    by_cases hm : m = c.next
    · subst hm
      simp only [Cache.set, if_true, Option.some.injEq] at hf
      subst hf
      rw [hnh, hr, hz]; rfl
    · simp only [Cache.set, hm, if_false] at hf; exact h.rc m f hf
  · intro m f hf
    by_cases hm : m = c.next
    · subst hm
      simp only [Cache.set, if_true, Option.some.injEq] at hf
      subst hf; omega
    · simp only [Cache.set, hm, if_false] at hf; exact h.pos m f hf
  · intro m hmh
    obtain ⟨f, hf⟩ := h.heldLive m hmh
    have hm : m ≠ c.next := by rintro rfl; rw [hfree] at hf; cases hf
    exact ⟨f, by simpa [Cache.set, hm] using hf⟩
  · intro m hmf
    have hm : m ≠ c.next := by
      rintro rfl
      have : c.next + 1 ≤ c.next := hmf
      omega
    have h1 : c.next + 1 ≤ m := hmf
    simpa [Cache.set, hm] using h.fresh m (by omega)
  · intro m hm
    cases hm
    exact ⟨e, set_mem_self .., hz, hx⟩

theorem CInv.unalloc {held : List Nat} {n : Nat} {c : Cache} (h : CInv (some n) held c) (hnh : n ∉ held) :
    CInv none held (c.set n none) := by
  have hvis : ∀ m f, Vis (c.set n none) none m f ↔ Vis c (some n) m f := by
    intro m f
    by_cases hm : m = n
    · subst hm; simp [Vis, Cache.set]
    · have : n ≠ m := fun h => hm h.symm
      simp [Vis, Cache.set, hm, this]
  refine ⟨h.keys, ?_, h.lruN, ?_, h.len, h.ttlN, ?_, ?_, ?_, ?_, ?_, by simp⟩
  · intro id m; simp only [hvis]; exact h.tab id m
  · intro m; simp only [hvis]; exact h.lru m
  · intro m; simp only [hvis]; exact h.ttl m
  · intro m f hf
    by_cases hm : m = n
    · subst hm; simp [Cache.set] at hf
    · simp only [Cache.set, hm, if_false] at hf; exact h.rc m f hf
  · intro m f hf
    by_cases hm : m = n
    · subst hm; simp [Cache.set] at hf
    · simp only [Cache.set, hm, if_false] at hf; exact h.pos m f hf
  · intro m hmh
    obtain ⟨f, hf⟩ := h.heldLive m hmh
    have hm : m ≠ n := by rintro rfl; exact hnh hmh
    exact ⟨f, by simpa [Cache.set, hm] using hf⟩
  · intro m hmf
    by_cases hm : m = n
    · simp [Cache.set, hm]
    · simpa [Cache.set, hm] using h.fresh m hmf

theorem tableRemove_self {t : List (Bytes × Nat)} {id : Bytes} (h : ∀ n, (id, n) ∉ t) : tableRemove t id = t := by
  unfold tableRemove
  rw [List.filter_eq_self]
  rintro ⟨i, n⟩ hm
  have : i ≠ id := by rintro rfl; exact h n hm
  simpa using this

/-- After dropping what was stored under `id`, the new entry may be linked in. -/
theorem dropOld_ok {n : Nat} {held : List Nat} {c : Cache} (h : CInv (some n) held c) (id : Bytes) :
    ∃ c' c2, dropOld c id = .ok c' ∧ c2 = { c' with table := tableRemove c'.table id } ∧ CInv (some n) held c2 ∧
      (∀ m, (id, m) ∉ c2.table) ∧
      ((c2 = c ∧ ∀ m, (id, m) ∉ c.table) ∨ ∃ m e, Vis c (some n) m e ∧ e.cacheId = id ∧ c2 = c.without m e) := by
  unfold dropOld
  cases hl : c.table.lookup id with
  | none =>
    have h0 := table_lookup_none.mp hl
    have h1 := tableRemove_self h0
    refine ⟨c, c, rfl, ?_, h, h0, .inl ⟨rfl, h0⟩⟩
    rw [h1]
  | some m =>
    obtain ⟨e, hv, hid⟩ := (h.tab _ _).mp ((table_lookup h.keys).mp hl)
    simp only
    rw [invalidate_true h hv]
    refine ⟨_, c.without m e, rfl, ?_, h.without hv, ?_, .inr ⟨m, e, hv, hid, rfl⟩⟩
    · simp only [Cache.without, hid]
    · intro k hk
      have : (id, k) ∈ tableRemove c.table e.cacheId := hk
      rw [mem_tableRemove, hid] at this
      exact this.2 rfl

theorem CInv.link {n : Nat} {held : List Nat} {c : Cache} (h : CInv (some n) held c) {e : Entry} (hm : c.mem n = some e)
    (hno : ∀ m, (e.cacheId, m) ∉ c.table) : CInv none held { c with table := (e.cacheId, n) :: c.table, lru := n :: c.lru } := by
  obtain ⟨e', he', hz, hx⟩ := h.pend n rfl
  rw [hm] at he'; cases he'
  have hvis : ∀ m f, Vis { c with table := (e.cacheId, n) :: c.table, lru := n :: c.lru } none m f ↔
      Vis c (some n) m f ∨ (m = n ∧ f = e) := by
    intro m f
    by_cases hmn : m = n
    · subst hmn
      simp only [Vis, hm, Option.some.injEq, ne_eq, not_true, and_false, true_and, false_or, reduceCtorEq, not_false_eq_true, and_true]
      constructor
      · rintro ⟨rfl, -⟩; rfl
      · rintro rfl; exact ⟨rfl, hz⟩
    · have : n ≠ m := fun h => hmn h.symm
      simp [Vis, hmn, this]
  have hnl : n ∉ c.lru := by
    intro hl
    obtain ⟨f, hf⟩ := (h.lru n).mp hl
    exact hf.2.2 rfl
  refine ⟨?_, ?_, ?_, ?_, ?_, h.ttlN, ?_, h.rc, h.pos, h.heldLive, h.fresh, by simp⟩
  · show ((e.cacheId :: c.table.map Prod.fst)).Nodup
    rw [List.nodup_cons]
    refine ⟨?_, h.keys⟩
    intro hmem
    obtain ⟨⟨i, m⟩, h1, h2⟩ := List.mem_map.mp hmem
    simp only at h2
    subst h2
    exact hno m h1
  · intro id m
    simp only [hvis]
    show (id, m) ∈ (e.cacheId, n) :: c.table ↔ _
    rw [List.mem_cons, h.tab]
    constructor
    · rintro (h1 | ⟨f, hf, rfl⟩)
      · cases h1; exact ⟨e, .inr ⟨rfl, rfl⟩, rfl⟩
      · exact ⟨f, .inl hf, rfl⟩
    · rintro ⟨f, hf | ⟨rfl, rfl⟩, rfl⟩
      · exact .inr ⟨f, hf, rfl⟩
      · exact .inl rfl
  · rw [List.nodup_cons]; exact ⟨hnl, h.lruN⟩
  · intro m
    simp only [hvis]
    show m ∈ n :: c.lru ↔ _
    rw [List.mem_cons, h.lru]
    constructor
    · rintro (rfl | ⟨f, hf⟩)
      · exact ⟨e, .inr ⟨rfl, rfl⟩⟩
      · exact ⟨f, .inl hf⟩
    · rintro ⟨f, hf | ⟨rfl, rfl⟩⟩
      · exact .inr ⟨f, hf⟩
      · exact .inl rfl
  · show (n :: c.lru).length = ((e.cacheId, n) :: c.table).length
    simp [h.len]
  · intro m
    simp only [hvis]
    show m ∈ c.ttl ↔ _
    rw [h.ttl]
    constructor
    · rintro ⟨f, hf, h1⟩; exact ⟨f, .inl hf, h1⟩
    · rintro ⟨f, hf | ⟨rfl, rfl⟩, h1⟩
      · exact ⟨f, hf, h1⟩
      · exact absurd hx h1

theorem nodup_erase_last {l : List Nat} {m : Nat} (hn : l.Nodup) (hl : l.getLast? = some m) : l.erase m = l.dropLast := by
  obtain ⟨ys, rfl⟩ := List.getLast?_eq_some_iff.mp hl
  have : m ∉ ys := by
    rw [List.nodup_append] at hn
    intro hm
    exact hn.2.2 m hm m (by simp) rfl
  rw [List.erase_append_right _ this]
  simp

theorem evict_ok {held : List Nat} {c : Cache} (h : CInv none held c) (n : Nat) (hn : c.lru.head? = some n) (h2 : 2 ≤ c.capacity)
    (hlen : c.table.length ≤ c.capacity + 1) :
    ∃ c', evict n c.table.length c = .ok c' ∧ CInv none held c' ∧ c'.table.length ≤ c'.capacity ∧ c'.lru = c.lru.take c.capacity ∧
      (c' = c ∨ ∃ m e, m ≠ n ∧ Vis c none m e ∧ c.lru.getLast? = some m ∧ c' = c.without m e) := by
  have hpos : c.table.length ≠ 0 := by
    rw [← h.len]
    cases hc : c.lru with
    | nil => rw [hc] at hn; cases hn
    | cons a l => simp
  obtain ⟨k, hk⟩ : ∃ k, c.table.length = k + 1 := ⟨c.table.length - 1, by omega⟩
  by_cases hover : c.table.length > c.capacity
  · obtain ⟨m, hm⟩ : ∃ m, c.lru.getLast? = some m := by
      cases hc : c.lru with
      | nil => rw [hc] at hn; cases hn
      | cons a l => exact ⟨_, List.getLast?_eq_some_getLast (by simp)⟩
    have hml : m ∈ c.lru := List.mem_of_getLast? hm
    obtain ⟨e, hv⟩ := (h.lru m).mp hml
    have hmn : m ≠ n := by
      rintro rfl
      have hN := h.lruN
      obtain ⟨ys, hys⟩ := List.getLast?_eq_some_iff.mp hm
      have hl := h.len
      rw [hys] at hN hn hl
      cases ys with
      | nil => simp at hl; omega
      | cons a ys =>
        simp only [List.cons_append, List.head?_cons, Option.some.injEq] at hn
        subst hn
        simp at hN
    have hrun : evict n c.table.length c = .ok (c.without m e) := by
      have hlt : ¬ (c.without m e).table.length > (c.without m e).capacity := by
        have := table_filter_length h.keys ((h.tab _ _).mpr ⟨e, hv, rfl⟩)
        show ¬ (tableRemove c.table e.cacheId).length > c.capacity
        omega
      rw [hk]
      unfold evict
      rw [if_pos hover, hm]
      simp only
      rw [if_neg hmn, invalidate_false h hv]
      simp only
      cases k with
      | zero => unfold evict; rw [if_neg hlt]
      | succ k => unfold evict; rw [if_neg hlt]
    refine ⟨_, hrun, h.without hv, ?_, ?_, .inr ⟨m, e, hmn, hv, hm, rfl⟩⟩
    · have := table_filter_length h.keys ((h.tab _ _).mpr ⟨e, hv, rfl⟩)
      show (tableRemove c.table e.cacheId).length ≤ c.capacity
      omega
    · show c.lru.erase m = _
      rw [nodup_erase_last h.lruN hm, List.dropLast_eq_take]
      have := h.len
      congr 1
      omega
  · refine ⟨c, ?_, h, by omega, ?_, .inl rfl⟩
    · rw [hk]; unfold evict; rw [if_neg hover]
    · rw [List.take_of_length_le]
      have := h.len
      omega

end Verif
