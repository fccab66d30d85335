import Verif.Proof.LocalCache
import Verif.Spec.LocalCache
/-
Each cache operation keeps the invariant, never faults, and does to the list of items what the specification says.
-/
namespace Verif
open Spec (Item)

/-! ### the list of items -/

/-- The item of an entry. -/
def itemOf (c : Cache) (n : Nat) : Item :=
  match c.mem n with
  | none => ⟨n, [], 0⟩
  | some e => ⟨n, e.cacheId, e.expiry⟩

/-- The abstraction of the cache. -/
def items (c : Cache) : List Item := c.lru.map (itemOf c)

theorem itemOf_some {c : Cache} {n : Nat} {e : Entry} (h : c.mem n = some e) : itemOf c n = ⟨n, e.cacheId, e.expiry⟩ := by
  unfold itemOf; rw [h]

theorem itemOf_handle (c : Cache) (n : Nat) : (itemOf c n).handle = n := by
  unfold itemOf; cases c.mem n <;> rfl

theorem items_congr {c c' : Cache} (hl : c'.lru = c.lru) (h : ∀ n ∈ c.lru, itemOf c' n = itemOf c n) : items c' = items c := by
  unfold items
  rw [hl]
  exact List.map_congr_left h

theorem filter_not_mem_length : ∀ {g l : List Nat}, l.Nodup → g.Nodup → (∀ x ∈ g, x ∈ l) →
    (l.filter (fun x => x ∉ g)).length + g.length = l.length := by
  intro g
  induction g with
  | nil => intro l _ _ _; simp
  | cons a g ih =>
    intro l hl hg hs
    rw [List.nodup_cons] at hg
    have ha : a ∈ l := hs a (by simp)
    have h1 := ih (hl.erase a) hg.2 (by
      intro x hx
      rw [hl.mem_erase_iff]
      exact ⟨by rintro rfl; exact hg.1 hx, hs x (by simp [hx])⟩)
    have h2 := List.length_erase_of_mem ha
    have h3 := List.length_pos_of_mem ha
    have h4 : l.filter (fun x => decide (x ∉ a :: g)) = (l.erase a).filter (fun x => decide (x ∉ g)) := by
      rw [hl.erase_eq_filter, List.filter_filter]
      apply List.filter_congr
      intro m _
      by_cases hm : m = a <;> by_cases hmg : m ∈ g <;> simp [hm, hmg]
    rw [h4]
    simp only [List.length_cons]
    omega

theorem swept_of_expired {x : Option Nat} {held : List Nat} {clk : Option Nat} {c c1 : Cache} {gone : List Nat} (h : CInv x held c)
    (h1 : CInv x held c1) (he : ExpiredAt clk c c1 gone) : Spec.Swept clk (items c) (items c1) := by
  unfold ExpiredAt at he
  unfold Spec.Swept
  cases clk with
  | none => rw [he.1]
  | some now =>
    simp only at he ⊢
    have hsame : ∀ n, n ∉ gone → itemOf c1 n = itemOf c n := by
      intro n hn; unfold itemOf; rw [he.mem n hn]
    have hit : items c1 = (c.lru.filter (fun n => n ∉ gone)).map (itemOf c) := by
      unfold items
      rw [he.lru]
      apply List.map_congr_left
      intro n hn
      exact hsame n (by simpa using (List.mem_filter.mp hn).2)
    have hgone : ∀ y ∈ items c, y ∉ items c1 → ∃ n ∈ gone, n ∈ c.lru ∧ y = itemOf c n := by
      intro y hy hn
      obtain ⟨n, hnl, rfl⟩ := List.mem_map.mp hy
      refine ⟨n, ?_, hnl, rfl⟩
      apply Classical.byContradiction
      intro hg
      exact hn (by rw [hit]; exact List.mem_map_of_mem (List.mem_filter.mpr ⟨hnl, by simpa using hg⟩))
    have hlen : (items c).length = (items c1).length + gone.length := by
      rw [hit]
      unfold items
      rw [List.length_map, List.length_map]
      exact (filter_not_mem_length h.lruN he.nodup (fun n hn => by obtain ⟨_, _, _, _, hl, _⟩ := he.due n hn; exact hl)).symm
    refine ⟨?_, ?_, ?_, ?_, ?_⟩
    · rw [hit]; exact List.Sublist.map _ List.filter_sublist
    · intro y hy hn
      obtain ⟨n, hg, -, rfl⟩ := hgone y hy hn
      obtain ⟨e, hm, -, hd, -, hne⟩ := he.due n hg
      rw [itemOf_some hm]
      exact ⟨hne, hd⟩
    · intro y hy hn z hz hzn
      obtain ⟨n, hg, -, rfl⟩ := hgone y hy hn
      obtain ⟨e, hm, -⟩ := he.due n hg
      obtain ⟨m, hml, rfl⟩ := List.mem_map.mp hz
      obtain ⟨f, hf⟩ := (h1.lru m).mp hml
      rw [itemOf_some hm]
      rw [itemOf_some hf.1] at hzn ⊢
      exact (he.first n hg e hm m ((h1.ttl m).mpr ⟨f, hf, hzn⟩)).2 f hf.1
    · have := he.few
      unfold ttlBatch at this
      omega
    · intro hlt z hz hdue
      obtain ⟨m, hml, rfl⟩ := List.mem_map.mp hz
      obtain ⟨f, hf⟩ := (h1.lru m).mp hml
      rw [itemOf_some hf.1] at hdue
      have := he.all (by unfold ttlBatch; omega) m ((h1.ttl m).mpr ⟨f, hf, hdue.1⟩) f hf.1
      have := hdue.2
      simp only at this
      omega

/-! ### what stays the same in entries -/

/-- Every entry of `c'` is an entry of `c` up to reference count and life. -/
def Kept (c c' : Cache) : Prop :=
  ∀ n e', c'.mem n = some e' → ∃ e k z, c.mem n = some e ∧ e' = { e with refcount := k, zombie := z } ∧ (e.zombie = true → z = true)

theorem Kept.refl (c : Cache) : Kept c c := fun _ e h => ⟨e, e.refcount, e.zombie, h, rfl, id⟩

theorem Kept.trans {a b c : Cache} (h1 : Kept a b) (h2 : Kept b c) : Kept a c := by
  intro n e' h
  obtain ⟨e, k, z, he, rfl, hz⟩ := h2 n e' h
  obtain ⟨f, k', z', hf, rfl, hz'⟩ := h1 n e he
  exact ⟨f, k, z, hf, rfl, fun h => hz (hz' h)⟩

theorem Kept.of_mem {c c' : Cache} (h : c'.mem = c.mem) : Kept c c' := by
  intro n e he; rw [h] at he; exact Kept.refl c n e he

theorem Kept.without {c : Cache} {n : Nat} {e : Entry} (hm : c.mem n = some e) : Kept c (c.without n e) := by
  intro m e' h
  by_cases hmn : m = n
  · subst hmn
    simp only [Cache.without, if_true] at h
    unfold Entry.dropped at h
    split at h
    · cases h
    · cases h; exact ⟨e, _, true, hm, rfl, by simp⟩
  · simp only [Cache.without, hmn, if_false] at h
    exact Kept.refl c m e' h

theorem Kept.setRef {c : Cache} {n k : Nat} {e : Entry} (hm : c.mem n = some e) : Kept c (c.set n (some { e with refcount := k })) := by
  intro m e' h
  by_cases hmn : m = n
  · subst hmn
    simp only [Cache.set, if_true, Option.some.injEq] at h
    subst h
    exact ⟨e, k, e.zombie, hm, rfl, id⟩
  · simp only [Cache.set, hmn, if_false] at h
    exact Kept.refl c m e' h

theorem Kept.free {c : Cache} {n : Nat} : Kept c (c.set n none) := by
  intro m e' h
  by_cases hmn : m = n
  · subst hmn; simp [Cache.set] at h
  · simp only [Cache.set, hmn, if_false] at h
    exact Kept.refl c m e' h

theorem Kept.expired {clk : Option Nat} {c c1 : Cache} {gone : List Nat} (h : ExpiredAt clk c c1 gone) : Kept c c1 := by
  unfold ExpiredAt at h
  cases clk with
  | none => rw [h.1]; exact Kept.refl c
  | some now =>
    intro m e' he'
    by_cases hg : m ∈ gone
    · obtain ⟨e, hm, -⟩ := h.due m hg
      have := h.memGone m hg e hm
      rw [he'] at this
      unfold Entry.dropped at this
      split at this
      · cases this
      · cases this; exact ⟨e, _, true, hm, rfl, by simp⟩
    · rw [h.mem m hg] at he'
      exact Kept.refl c m e' he'

theorem expiredAt_same {clk : Option Nat} {c c1 : Cache} {gone : List Nat} (h : ExpiredAt clk c c1 gone) :
    c1.next = c.next ∧ c1.capacity = c.capacity ∧ c1.addr = c.addr ∧ c1.table.length ≤ c.table.length := by
  unfold ExpiredAt at h
  cases clk with
  | none => rw [h.1]; exact ⟨rfl, rfl, rfl, Nat.le_refl _⟩
  | some now => exact ⟨h.sameNext, h.sameCap, h.sameAddr, h.tabLen⟩

/-! ### the state between calls -/

/-- The invariant between calls. -/
structure COk (held : List Nat) (c : Cache) : Prop where
  inv : CInv none held c
  cap : 2 ≤ c.capacity
  size : c.table.length ≤ c.capacity
  bnd : ∀ n e, c.mem n = some e → e.expiry ≤ noExpiry

theorem COk.kept {held held' : List Nat} {c c' : Cache} (h : COk held c) (hi : CInv none held' c') (hk : Kept c c')
    (hc : c'.capacity = c.capacity) (ht : c'.table.length ≤ c.table.length) : COk held' c' := by
  refine ⟨hi, by rw [hc]; exact h.cap, by rw [hc]; exact Nat.le_trans ht h.size, ?_⟩
  intro n e' he'
  obtain ⟨e, k, z, he, rfl, -⟩ := hk n e' he'
  exact h.bnd n e he

theorem CInv.item_unique {x : Option Nat} {held : List Nat} {c : Cache} (h : CInv x held c) {a b : Item} (ha : a ∈ items c) (hb : b ∈ items c)
    (hid : a.id = b.id) : a = b := by
  obtain ⟨n, hn, rfl⟩ := List.mem_map.mp ha
  obtain ⟨m, hm, rfl⟩ := List.mem_map.mp hb
  obtain ⟨e, he⟩ := (h.lru n).mp hn
  obtain ⟨f, hf⟩ := (h.lru m).mp hm
  rw [itemOf_some he.1, itemOf_some hf.1] at hid
  have h1 := (h.tab e.cacheId n).mpr ⟨e, he, rfl⟩
  have h2 := (h.tab f.cacheId m).mpr ⟨f, hf, rfl⟩
  simp only at hid
  rw [← hid, ← table_lookup h.keys] at h2
  rw [← table_lookup h.keys, h2] at h1
  cases h1
  rfl

theorem find?_unique {α : Type} {p : α → Bool} {x : α} : ∀ {l : List α}, x ∈ l → p x = true → (∀ y ∈ l, p y = true → y = x) →
    l.find? p = some x := by
  intro l
  induction l with
  | nil => intro h; cases h
  | cons a l ih =>
    intro hx hp hu
    by_cases ha : p a = true
    · rw [List.find?_cons_of_pos ha, hu a (by simp) ha]
    · rw [List.find?_cons_of_neg ha]
      rcases List.mem_cons.mp hx with rfl | hx'
      · exact absurd hp ha
      · exact ih hx' hp (fun y hy => hu y (by simp [hy]))

theorem items_filter_ne {c : Cache} (hN : c.lru.Nodup) (n : Nat) :
    (items c).filter (fun y => y ≠ itemOf c n) = (c.lru.erase n).map (itemOf c) := by
  unfold items
  rw [List.filter_map, hN.erase_eq_filter]
  congr 1
  apply List.filter_congr
  intro m _
  have : itemOf c m = itemOf c n ↔ m = n := by
    constructor
    · intro h; rw [← itemOf_handle c m, h, itemOf_handle]
    · rintro rfl; rfl
  by_cases hm : m = n
  · simp [hm]
  · have h2 : itemOf c m ≠ itemOf c n := fun h => hm (this.mp h)
    simp [hm, h2]

theorem items_filter_handle {c : Cache} (hN : c.lru.Nodup) (n : Nat) :
    (items c).filter (fun y => y.handle ≠ n) = (c.lru.erase n).map (itemOf c) := by
  unfold items
  rw [List.filter_map, hN.erase_eq_filter]
  congr 1
  apply List.filter_congr
  intro m _
  simp only [Function.comp, itemOf_handle]
  by_cases hm : m = n <;> simp [hm]

/-! ### find -/

theorem cacheFind_spec {held : List Nat} {c : Cache} (h : COk held c) (clk : Option Nat) (id : Bytes) :
    ∃ c' r kept, cacheFind clk id c = .ok (c', r) ∧ COk (match r with | none => held | some n => n :: held) c' ∧ Kept c c' ∧
      Spec.Swept clk (items c) kept ∧ items c' = Spec.touched id kept ∧ r = Spec.lookedUp id kept ∧ c'.next = c.next ∧ c'.capacity = c.capacity ∧
      (∀ n, r = some n → ∃ e, c'.mem n = some e ∧ e.cacheId = id ∧ e.zombie = false) := by
  obtain ⟨c1, gone, h1, h2, h3⟩ := cacheFind_ok h.inv clk id
  obtain ⟨hn, hc, ha, ht⟩ := expiredAt_same h2
  have hsw := swept_of_expired h.inv h1 h2
  have hk := Kept.expired h2
  rcases h3 with ⟨hr, hno⟩ | ⟨n, e, hv, hid, hnl, hr, hi⟩
  · have hf : (items c1).find? (fun x => x.id = id) = none := by
      rw [List.find?_eq_none]
      intro y hy
      obtain ⟨m, hm, rfl⟩ := List.mem_map.mp hy
      obtain ⟨f, hf⟩ := (h1.lru m).mp hm
      rw [itemOf_some hf.1]
      have : f.cacheId ≠ id := by
        intro hi
        exact hno m ((h1.tab id m).mpr ⟨f, hf, hi⟩)
      simpa using this
    refine ⟨c1, none, items c1, hr, h.kept h1 hk hc ht, hk, hsw, ?_, ?_, hn, hc, by simp⟩
    · unfold Spec.touched; rw [hf]
    · unfold Spec.lookedUp; rw [hf]; rfl
  · have hin : itemOf c1 n ∈ items c1 := List.mem_map_of_mem hnl
    have hide : (itemOf c1 n).id = id := by rw [itemOf_some hv.1]; exact hid
    have hf : (items c1).find? (fun x => x.id = id) = some (itemOf c1 n) := by
      apply find?_unique hin (by simpa using hide)
      intro y hy hp
      exact h1.item_unique hy hin (by rw [hide]; simpa using hp)
    have hk' : Kept c ({ c1 with lru := n :: c1.lru.erase n }.set n (some { e with refcount := e.refcount + 1 })) :=
      hk.trans (Kept.trans (Kept.of_mem (c' := { c1 with lru := n :: c1.lru.erase n }) rfl)
        (Kept.setRef (c := { c1 with lru := n :: c1.lru.erase n }) hv.1))
    refine ⟨_, some n, items c1, hr, h.kept hi hk' hc ht, hk', hsw, ?_, ?_, hn, hc, fun m hm => by
      cases hm; exact ⟨_, set_mem_self .., hid, hv.2.1⟩⟩
    · unfold Spec.touched
      rw [hf]
      simp only
      rw [items_filter_ne h1.lruN, ← List.map_cons]
      show (n :: c1.lru.erase n).map _ = _
      apply List.map_congr_left
      intro m _
      by_cases hm : m = n
      · subst hm; rw [itemOf_some hv.1, itemOf_some (set_mem_self ..)]
      · unfold itemOf; simp [Cache.set, hm]
    · unfold Spec.lookedUp
      rw [hf]
      simp [itemOf_handle]

/-! ### release -/

theorem cacheRelease_spec {held : List Nat} {c : Cache} (h : COk held c) {n : Nat} (hn : n ∈ held) (inv : Bool) :
    ∃ c', cacheRelease n inv c = .ok c' ∧ COk (held.erase n) c' ∧ Kept c c' ∧
      (items c' = if inv then (items c).filter (fun x => x.handle ≠ n) else items c) ∧ c'.next = c.next ∧ c'.capacity = c.capacity := by
  obtain ⟨c', e, hm, hr, hi, hnx, hc, -, ht, hoth, hme, hl⟩ := cacheRelease_ok h.inv hn inv
  have hk : Kept c c' := by
    intro m e' he'
    by_cases hmn : m = n
    · subst hmn
      obtain ⟨k, z, rfl, hz, -⟩ := hme e' he'
      exact ⟨e, k, z, hm, rfl, hz⟩
    · rw [hoth m hmn] at he'
      exact Kept.refl c m e' he'
  have hsame : ∀ m ∈ c'.lru, itemOf c' m = itemOf c m := by
    intro m hm'
    obtain ⟨f, hf⟩ := (hi.lru m).mp hm'
    obtain ⟨g, k, z, hg, rfl, -⟩ := hk m f hf.1
    rw [itemOf_some hf.1, itemOf_some hg]
  refine ⟨c', hr, h.kept hi hk hc ht, hk, ?_, hnx, hc⟩
  cases inv with
  | false =>
    simp only [Bool.false_eq_true, if_false] at hl ⊢
    exact items_congr hl (by rw [← hl]; exact hsame)
  | true =>
    simp only [if_true] at hl ⊢
    rw [items_filter_handle h.inv.lruN, ← hl]
    exact List.map_congr_left hsame

/-! ### put -/

/-- Every entry of `c'` except `n` is an entry of `c` up to reference count and life. -/
def KeptBut (n : Nat) (c c' : Cache) : Prop :=
  ∀ m e', m ≠ n → c'.mem m = some e' →
    ∃ e k z, c.mem m = some e ∧ e' = { e with refcount := k, zombie := z } ∧ (e.zombie = true → z = true)

theorem Kept.but {n : Nat} {c c' : Cache} (h : Kept c c') : KeptBut n c c' := fun m e' _ he' => h m e' he'

theorem KeptBut.trans {n : Nat} {a b c : Cache} (h1 : KeptBut n a b) (h2 : KeptBut n b c) : KeptBut n a c := by
  intro m e' hmn h
  obtain ⟨e, k, z, he, rfl, hz⟩ := h2 m e' hmn h
  obtain ⟨f, k', z', hf, rfl, hz'⟩ := h1 m e hmn he
  exact ⟨f, k, z, hf, rfl, fun h => hz (hz' h)⟩

theorem items_of_kept {x : Option Nat} {held : List Nat} {c c' : Cache} (hi : CInv x held c') (hk : Kept c c') :
    items c' = c'.lru.map (itemOf c) := by
  unfold items
  apply List.map_congr_left
  intro m hm
  obtain ⟨f, hf⟩ := (hi.lru m).mp hm
  obtain ⟨g, k, z, hg, rfl, -⟩ := hk m f hf.1
  rw [itemOf_some hf.1, itemOf_some hg]

theorem items_drop {x : Option Nat} {held : List Nat} {c : Cache} (h : CInv x held c) {m : Nat} {e : Entry} (hv : Vis c x m e) :
    items (c.without m e) = (items c).filter (fun y => y.id ≠ e.cacheId) := by
  have hml := (h.lru m).mpr ⟨e, hv⟩
  rw [items_of_kept (h.without hv) (Kept.without hv.1)]
  show (c.lru.erase m).map _ = _
  rw [← items_filter_ne h.lruN]
  apply List.filter_congr
  intro y hy
  have hmi : itemOf c m ∈ items c := List.mem_map_of_mem hml
  have hid : (itemOf c m).id = e.cacheId := by rw [itemOf_some hv.1]
  by_cases hy' : y = itemOf c m
  · simp [hy', hid]
  · have : y.id ≠ e.cacheId := fun hh => hy' (h.item_unique hy hmi (by rw [hid, hh]))
    simp [hy', this]

theorem insertEntry_spec {held : List Nat} {c : Cache} {n : Nat} {e : Entry} (h : CInv (some n) held c) (hnh : n ∉ held)
    (hm : c.mem n = some e) (h2 : 2 ≤ c.capacity) (hsz : c.table.length ≤ c.capacity) (clk : Option Nat) (create : Bool) :
    ∃ c' kept, insertEntry clk create n e.cacheId c = .ok (c', create) ∧ KeptBut n c c' ∧ Spec.Swept clk (items c) kept ∧
      c'.next = c.next ∧ c'.capacity = c.capacity ∧ c'.table.length ≤ c'.capacity ∧
      (create = false → CInv (some n) held c' ∧ items c' = kept) ∧
      (create = true → CInv none held c' ∧ c'.mem n = some e ∧ items c' = Spec.stored c.capacity n e.cacheId kept) := by
  obtain ⟨c1, gone, h1, hi1, hx1⟩ := processTtls_ok clk h
  obtain ⟨hn1, hc1, -, ht1⟩ := expiredAt_same hx1
  have hsw := swept_of_expired h hi1 hx1
  have hk1 := Kept.expired hx1
  have hnl : n ∉ c.lru := by
    intro hl
    obtain ⟨f, hf⟩ := (h.lru n).mp hl
    exact hf.2.2 rfl
  have hm1 : c1.mem n = some e := by
    unfold ExpiredAt at hx1
    cases clk with
    | none => rw [hx1.1]; exact hm
    | some now =>
      have : n ∉ gone := by
        intro hg
        obtain ⟨_, _, _, _, hl, _⟩ := hx1.due n hg
        exact hnl hl
      rw [hx1.mem n this]; exact hm
  unfold insertEntry
  rw [h1]
  simp only
  cases create with
  | false =>
    exact ⟨c1, items c1, rfl, hk1.but, hsw, hn1, hc1, by omega, fun _ => ⟨hi1, rfl⟩, by simp⟩
  | true =>
    simp only [Bool.not_true, Bool.false_eq_true, if_false]
    obtain ⟨c', c2, hd, hc2, hi2, hno, hcase⟩ := dropOld_ok hi1 e.cacheId
    rw [hd]
    simp only
    -- the state after dropping what was stored under the id
    have hfacts : Kept c1 c2 ∧ c2.mem n = some e ∧ c2.next = c1.next ∧ c2.capacity = c1.capacity ∧ c2.table.length ≤ c1.table.length ∧
        items c2 = (items c1).filter (fun y => y.id ≠ e.cacheId) := by
      rcases hcase with ⟨rfl, hno'⟩ | ⟨m, f, hv, hid, rfl⟩
      · refine ⟨Kept.refl _, hm1, rfl, rfl, Nat.le_refl _, ?_⟩
        symm
        rw [List.filter_eq_self]
        intro y hy
        obtain ⟨k, hk, rfl⟩ := List.mem_map.mp hy
        obtain ⟨f, hf⟩ := (hi1.lru k).mp hk
        rw [itemOf_some hf.1]
        have : f.cacheId ≠ e.cacheId := by
          intro hh
          exact hno' k ((hi1.tab _ _).mpr ⟨f, hf, hh⟩)
        simpa using this
      · have hmn : n ≠ m := fun hh => hv.2.2 (by rw [hh])
        refine ⟨Kept.without hv.1, ?_, rfl, rfl, List.length_filter_le _ _, ?_⟩
        · simpa [Cache.without, hmn] using hm1
        · rw [items_drop hi1 hv, hid]
    obtain ⟨hk2, hm2, hn2, hcap2, ht2, hit2⟩ := hfacts
    have h3eq : ({ c' with table := (e.cacheId, n) :: tableRemove c'.table e.cacheId, lru := n :: c'.lru } : Cache) =
        { c2 with table := (e.cacheId, n) :: c2.table, lru := n :: c2.lru } := by rw [hc2]
    rw [h3eq]
    have hi3 := hi2.link hm2 hno
    have hit3 : items { c2 with table := (e.cacheId, n) :: c2.table, lru := n :: c2.lru } = itemOf c2 n :: items c2 := rfl
    obtain ⟨c4, hev, hi4, hsz4, hlru4, hcase4⟩ := evict_ok hi3 n rfl (by show 2 ≤ c2.capacity; omega)
      (by show ((e.cacheId, n) :: c2.table).length ≤ c2.capacity + 1; simp only [List.length_cons]; omega)
    have hk4 : Kept { c2 with table := (e.cacheId, n) :: c2.table, lru := n :: c2.lru } c4 := by
      rcases hcase4 with rfl | ⟨m, f, -, hv, -, rfl⟩
      · exact Kept.refl _
      · exact Kept.without hv.1
    have hk3 : Kept c2 { c2 with table := (e.cacheId, n) :: c2.table, lru := n :: c2.lru } := Kept.of_mem rfl
    have hmisc : c4.mem n = some e ∧ c4.next = c2.next ∧ c4.capacity = c2.capacity := by
      rcases hcase4 with rfl | ⟨m, f, hmn, hv, -, rfl⟩
      · exact ⟨hm2, rfl, rfl⟩
      · have hmn' : n ≠ m := fun hh => hmn hh.symm
        refine ⟨?_, rfl, rfl⟩
        simpa [Cache.without, hmn'] using hm2
    obtain ⟨hm4, hn4, hcap4⟩ := hmisc
    obtain ⟨e', he', -, hx⟩ := h.pend n rfl
    rw [hm] at he'; cases he'
    refine ⟨c4, items c1, ?_, ((hk1.trans hk2).trans (hk3.trans hk4)).but, hsw, by omega, by omega, hsz4, by simp, fun _ => ⟨hi4, hm4, ?_⟩⟩
    · have hlen : ((e.cacheId, n) :: tableRemove c'.table e.cacheId).length = ((e.cacheId, n) :: c2.table).length := by rw [hc2]
      have hev' : evict n ((e.cacheId, n) :: c2.table).length { c2 with table := (e.cacheId, n) :: c2.table, lru := n :: c2.lru } = .ok c4 := hev
      show (match evict n ((e.cacheId, n) :: tableRemove c'.table e.cacheId).length _ with | .error f => _ | .ok c => _) = _
      rw [hlen, hev']
    · rw [items_of_kept hi4 hk4, hlru4]
      show ((n :: c2.lru).take c2.capacity).map (itemOf c2) = _
      rw [List.map_take]
      unfold Spec.stored
      rw [← hit2, hcap2, hc1, List.map_cons, itemOf_some hm2, hx]
      rfl

theorem cachePut_spec {held : List Nat} {c : Cache} (h : COk held c) (env : PutEnv) (id : Bytes) (mat : Mat) (key : Option (Option Bytes))
    (bytes messages : Nat) :
    ∃ c' r, cachePut env id mat key bytes messages c = .ok (c', r) ∧ KeptBut c.next c c' ∧ c.next ≤ c'.next ∧ c'.capacity = c.capacity ∧
      ((r = none ∧ COk held c' ∧ Kept c c' ∧ (items c' = items c ∨ Spec.Swept env.clkTtl (items c) (items c'))) ∨
       (r = some c.next ∧ COk (c.next :: held) c' ∧ c.mem c.next = none ∧ c'.next = c.next + 1 ∧
         (∃ kept, Spec.Swept env.clkTtl (items c) kept ∧ items c' = Spec.stored c.capacity c.next id kept) ∧
         ∃ now k, env.clkNew = some now ∧ key = some k ∧
           c'.mem c.next = some ⟨2, id, noExpiry, now, mat, k, messages, bytes, false⟩)) := by
  unfold cachePut
  cases hck : env.clkNew with
  | none => exact ⟨c, none, rfl, (Kept.refl c).but, Nat.le_refl _, rfl, .inl ⟨rfl, h, Kept.refl c, .inl rfl⟩⟩
  | some now =>
    simp only
    cases hal : env.alloc with
    | false =>
      simp only [Bool.not_false, if_true]
      exact ⟨c, none, rfl, (Kept.refl c).but, Nat.le_refl _, rfl, .inl ⟨rfl, h, Kept.refl c, .inl rfl⟩⟩
    | true =>
      simp only [Bool.not_true, Bool.false_eq_true, if_false]
      cases key with
      | none => exact ⟨c, none, rfl, (Kept.refl c).but, Nat.le_refl _, rfl, .inl ⟨rfl, h, Kept.refl c, .inl rfl⟩⟩
      | some k =>
        simp only
        have hfree := h.inv.fresh c.next (Nat.le_refl _)
        have hnh : c.next ∉ held := by
          intro hm
          obtain ⟨f, hf⟩ := h.inv.heldLive _ hm
          rw [hfree] at hf; cases hf
        have hia := h.inv.alloc ⟨1, id, noExpiry, now, mat, k, messages, bytes, false⟩ rfl rfl rfl
        have hma := set_mem_self { c with next := c.next + 1 } c.next (some ⟨1, id, noExpiry, now, mat, k, messages, bytes, false⟩)
        have hka : KeptBut c.next c ({ c with next := c.next + 1 }.set c.next (some ⟨1, id, noExpiry, now, mat, k, messages, bytes, false⟩)) := by
          intro m e' hmn he'
          simp only [Cache.set, hmn, if_false] at he'
          exact Kept.refl c m e' he'
        have hita : items ({ c with next := c.next + 1 }.set c.next (some ⟨1, id, noExpiry, now, mat, k, messages, bytes, false⟩)) = items c := by
          refine items_congr (by rfl) ?_
          intro m hm
          have hmn : m ≠ c.next := by
            rintro rfl
            obtain ⟨f, hf⟩ := (h.inv.lru _).mp hm
            have := hf.1
            rw [hfree] at this; cases this
          unfold itemOf
          simp [Cache.set, hmn]
        obtain ⟨c1, kept, hr, hkb, hsw, hn1, hc1, hsz1, hF, hT⟩ := insertEntry_spec hia hnh hma h.cap h.size env.clkTtl env.create
        rw [hita] at hsw
        have hkc : KeptBut c.next c c1 := hka.trans hkb
        have hbnd : ∀ m e, m ≠ c.next → c1.mem m = some e → e.expiry ≤ noExpiry := by
          intro m e hmn he
          obtain ⟨f, k', z', hf, rfl, -⟩ := hkc m e hmn he
          exact h.bnd m f hf
        simp only at hr
        rw [hr]
        simp only at hn1 hc1 hT
        cases hcr : env.create with
        | false =>
          obtain ⟨hiF, hitF⟩ := hF hcr
          have hkF : Kept c (c1.set c.next none) := by
            intro m e' he'
            by_cases hmn : m = c.next
            · subst hmn; simp [Cache.set] at he'
            · simp only [Cache.set, hmn, if_false] at he'
              exact hkc m e' hmn he'
          have hitU : items (c1.set c.next none) = items c1 := by
            refine items_congr (by rfl) ?_
            intro m hm
            have hmn : m ≠ c.next := by
              rintro rfl
              obtain ⟨f, hf⟩ := (hiF.lru _).mp hm
              exact hf.2.2 rfl
            unfold itemOf
            simp [Cache.set, hmn]
          refine ⟨c1.set c.next none, none, rfl, hkF.but, ?_, hc1, .inl ⟨rfl, ⟨hiF.unalloc hnh, ?_, ?_, ?_⟩, hkF, .inr ?_⟩⟩
          · show c.next ≤ c1.next; rw [hn1]; exact Nat.le_succ _
          · show 2 ≤ c1.capacity; rw [hc1]; exact h.cap
          · exact hsz1
          · intro m e he
            obtain ⟨f, k', z', hf, rfl, -⟩ := hkF m e he
            exact h.bnd m f hf
          · rw [hitU, hitF]; exact hsw
        | true =>
          obtain ⟨hiT, hmT, hitT⟩ := hT hcr
          simp only
          rw [entry_some hmT]
          simp only
          refine ⟨_, some c.next, rfl, hkc.trans (Kept.setRef hmT).but, ?_, hc1, .inr ⟨rfl, ⟨hiT.addRef hmT, ?_, hsz1, ?_⟩, hfree, hn1, ⟨kept, hsw, ?_⟩, now, k, rfl, rfl, ?_⟩⟩
          · show c.next ≤ c1.next; rw [hn1]; exact Nat.le_succ _
          · show 2 ≤ c1.capacity; rw [hc1]; exact h.cap
          · intro m e he
            by_cases hmn : m = c.next
            · subst hmn
              simp only [Cache.set, if_true, Option.some.injEq] at he
              subst he
              exact Nat.le_refl _
            · simp only [Cache.set, hmn, if_false] at he
              exact hbnd m e hmn he
          · refine Eq.trans ?_ hitT
            refine items_congr (by rfl) ?_
            intro m _
            by_cases hmn : m = c.next
            · subst hmn; rw [itemOf_some hmT, itemOf_some (set_mem_self ..)]
            · unfold itemOf; simp [Cache.set, hmn]
          · exact set_mem_self ..

/-! ### update, hint, clear -/

theorem cacheUpdateUsage_spec {held : List Nat} {c : Cache} (h : COk held c) {n : Nat} (hn : n ∈ held) (bytes messages : Nat) :
    ∃ c' r e, c.mem n = some e ∧ cacheUpdateUsage n bytes messages c = .ok (c', r) ∧ COk held c' ∧ items c' = items c ∧ c'.next = c.next ∧ c'.capacity = c.capacity ∧
      (∀ m, m ≠ n → c'.mem m = c.mem m) ∧
      (if e.zombie = true ∨ e.isEncrypt = false then r = .error .badState ∧ c' = c
       else r = .ok (u64 (e.usageBytes + bytes), u64 (e.usageMessages + messages)) ∧
         c'.mem n = some { e with usageBytes := u64 (e.usageBytes + bytes), usageMessages := u64 (e.usageMessages + messages) }) := by
  obtain ⟨e, hm⟩ := h.inv.heldLive n hn
  unfold cacheUpdateUsage
  rw [entry_some hm]
  simp only
  by_cases hz : e.zombie = true ∨ e.isEncrypt = false
  · rw [if_pos hz]
    exact ⟨c, _, e, hm, rfl, h, rfl, rfl, rfl, fun _ _ => rfl, by rw [if_pos hz]; exact ⟨rfl, rfl⟩⟩
  · rw [if_neg hz]
    have hi := h.inv.modify (held' := held) hm
      (e' := { e with usageBytes := u64 (e.usageBytes + bytes), usageMessages := u64 (e.usageMessages + messages) })
      rfl rfl rfl (fun _ _ => rfl) (h.inv.rc n e hm) (h.inv.pos n e hm)
    refine ⟨_, _, e, hm, rfl, ⟨hi, h.cap, h.size, ?_⟩, ?_, rfl, rfl, ?_, ?_⟩
    · intro m f hf
      by_cases hmn : m = n
      · subst hmn
        simp only [Cache.set, if_true, Option.some.injEq] at hf
        subst hf
        exact h.bnd m e hm
      · simp only [Cache.set, hmn, if_false] at hf
        exact h.bnd m f hf
    · refine items_congr (by rfl) ?_
      intro m _
      by_cases hmn : m = n
      · subst hmn; rw [itemOf_some hm, itemOf_some (set_mem_self ..)]
      · unfold itemOf; simp [Cache.set, hmn]
    · intro m hmn; simp [Cache.set, hmn]
    · rw [if_neg hz]; exact ⟨rfl, set_mem_self ..⟩

/-- Changing the expiry of an entry. -/
theorem CInv.setExpiry {held : List Nat} {c : Cache} (h : CInv none held c) {n t : Nat} {e : Entry} {q : List Nat} (hm : c.mem n = some e)
    (hz : e.zombie = false) (hqN : q.Nodup) (hq : ∀ m, m ∈ q ↔ (m = n ∧ t ≠ noExpiry) ∨ (m ≠ n ∧ m ∈ c.ttl)) :
    CInv none held ({ c with ttl := q }.set n (some { e with expiry := t })) := by
  have hvis : ∀ m f, Vis ({ c with ttl := q }.set n (some { e with expiry := t })) none m f ↔
      (m = n ∧ f = { e with expiry := t }) ∨ (m ≠ n ∧ Vis c none m f) := by
    intro m f
    by_cases hmn : m = n
    · subst hmn
      simp only [Vis, Cache.set, if_true, Option.some.injEq, ne_eq, reduceCtorEq, not_false_eq_true, and_true, true_and, not_true, false_and, or_false]
      constructor
      · rintro ⟨rfl, -⟩; rfl
      · rintro rfl; exact ⟨rfl, hz⟩
    · simp [Vis, Cache.set, hmn]
  have hv : Vis c none n e := ⟨hm, hz, by simp⟩
  refine ⟨h.keys, ?_, h.lruN, ?_, h.len, hqN, ?_, ?_, ?_, ?_, ?_, by simp⟩
  · intro id m
    show (id, m) ∈ c.table ↔ _
    rw [h.tab]
    simp only [hvis]
    by_cases hmn : m = n
    · subst hmn
      constructor
      · rintro ⟨f, hf, rfl⟩
        have : f = e := Option.some.inj (hf.1.symm.trans hm)
        subst this
        exact ⟨_, .inl ⟨rfl, rfl⟩, rfl⟩
      · rintro ⟨f, ⟨-, rfl⟩ | ⟨hh, -⟩, rfl⟩
        · exact ⟨e, hv, rfl⟩
        · exact absurd rfl hh
    · simp [hmn]
  · intro m
    show m ∈ c.lru ↔ _
    rw [h.lru]
    simp only [hvis]
    by_cases hmn : m = n
    · subst hmn
      exact ⟨fun _ => ⟨_, .inl ⟨rfl, rfl⟩⟩, fun _ => ⟨e, hv⟩⟩
    · simp [hmn]
  · intro m
    show m ∈ q ↔ _
    rw [hq]
    simp only [hvis]
    by_cases hmn : m = n
    · subst hmn
      constructor
      · rintro (⟨-, ht⟩ | ⟨hh, -⟩)
        · exact ⟨_, .inl ⟨rfl, rfl⟩, ht⟩
        · exact absurd rfl hh
      · rintro ⟨f, ⟨-, rfl⟩ | ⟨hh, -⟩, ht⟩
        · exact .inl ⟨rfl, ht⟩
        · exact absurd rfl hh
    · simp [hmn, h.ttl]
  · intro m f hf
    by_cases hmn : m = n
    · subst hmn
      simp only [Cache.set, if_true, Option.some.injEq] at hf
      subst hf
      exact h.rc m e hm
    · simp only [Cache.set, hmn, if_false] at hf; exact h.rc m f hf
  · intro m f hf
    by_cases hmn : m = n
    · subst hmn
      simp only [Cache.set, if_true, Option.some.injEq] at hf
      subst hf
      exact h.pos m e hm
    · simp only [Cache.set, hmn, if_false] at hf; exact h.pos m f hf
  · intro m hmh
    by_cases hmn : m = n
    · subst hmn; exact ⟨_, set_mem_self ..⟩
    · obtain ⟨f, hf⟩ := h.heldLive m hmh
      exact ⟨f, by simpa [Cache.set, hmn] using hf⟩
  · intro m hmf
    have hf := h.fresh m hmf
    have hmn : m ≠ n := by rintro rfl; rw [hm] at hf; cases hf
    simpa [Cache.set, hmn] using hf

theorem cacheHint_spec {held : List Nat} {c : Cache} (h : COk held c) {n : Nat} (hn : n ∈ held) (t : Nat) (push : Bool) :
    ∃ c', cacheHint n t push c = .ok c' ∧ COk held c' ∧ items c' = Spec.hinted n t push (items c) ∧ c'.next = c.next ∧ c'.capacity = c.capacity ∧
      ∀ m e', c'.mem m = some e' → ∃ e x, c.mem m = some e ∧ e' = { e with expiry := x } := by
  obtain ⟨e, hm⟩ := h.inv.heldLive n hn
  unfold cacheHint
  rw [entry_some hm]
  simp only
  by_cases hz : e.zombie = true ∨ e.expiry ≤ t
  · rw [if_pos hz]
    refine ⟨c, rfl, h, ?_, rfl, rfl, fun m e' he' => ⟨e', e'.expiry, he', rfl⟩⟩
    unfold Spec.hinted
    symm
    rw [← List.map_id (items c), List.map_map]
    apply List.map_congr_left
    intro y hy
    obtain ⟨m, hml, rfl⟩ := List.mem_map.mp hy
    obtain ⟨f, hf⟩ := (h.inv.lru m).mp hml
    have : ¬ ((itemOf c m).handle = n ∧ t < (itemOf c m).expiry) := by
      rintro ⟨h1, h2⟩
      rw [itemOf_handle] at h1
      subst h1
      rw [itemOf_some hm] at h2
      have hfe : f = e := Option.some.inj (hf.1.symm.trans hm)
      rcases hz with hz | hz
      · have := hf.2.1; rw [hfe, hz] at this; cases this
      · simp only at h2; omega
    simp only [Function.comp, id, this, if_false]
  · rw [if_neg hz]
    have hz1 : e.zombie = false := by
      cases hh : e.zombie with
      | false => rfl
      | true => exact absurd (.inl hh) hz
    have hz2 : t < e.expiry := by
      apply Classical.byContradiction
      intro hh; exact hz (.inr (by omega))
    have hb := h.bnd n e hm
    have hv : Vis c none n e := ⟨hm, hz1, by simp⟩
    have hrest : ∀ m, m ∈ (if e.expiry < noExpiry then c.ttl.erase n else c.ttl) ↔ m ≠ n ∧ m ∈ c.ttl := by
      intro m
      split
      · rw [h.inv.ttlN.mem_erase_iff]
      · next hge =>
        have : n ∉ c.ttl := by
          intro hh
          obtain ⟨f, hf, hne⟩ := (h.inv.ttl n).mp hh
          have hfe : f = e := Option.some.inj (hf.1.symm.trans hm)
          rw [hfe] at hne
          exact hne (by omega)
        constructor
        · intro hmt; exact ⟨by rintro rfl; exact this hmt, hmt⟩
        · exact fun hh => hh.2
    have hrestN : (if e.expiry < noExpiry then c.ttl.erase n else c.ttl).Nodup := by
      split
      · exact h.inv.ttlN.erase n
      · exact h.inv.ttlN
    have key : ∀ (q : List Nat) (x : Nat), CInv none held ({ c with ttl := q }.set n (some { e with expiry := x })) → x ≤ noExpiry →
        x = (if push then t else Spec.never) →
        COk held ({ c with ttl := q }.set n (some { e with expiry := x })) ∧
        items ({ c with ttl := q }.set n (some { e with expiry := x })) = Spec.hinted n t push (items c) ∧
        ∀ m e', ({ c with ttl := q }.set n (some { e with expiry := x })).mem m = some e' →
          ∃ e x, c.mem m = some e ∧ e' = { e with expiry := x } := by
      intro q x hi hx hxe
      refine ⟨⟨hi, h.cap, h.size, ?_⟩, ?_, ?_⟩
      · intro m f hf
        by_cases hmn : m = n
        · subst hmn
          simp only [Cache.set, if_true, Option.some.injEq] at hf
          subst hf
          exact hx
        · simp only [Cache.set, hmn, if_false] at hf
          exact h.bnd m f hf
      · unfold Spec.hinted items
        rw [List.map_map]
        apply List.map_congr_left
        intro m _
        simp only [Function.comp]
        by_cases hmn : m = n
        · subst hmn
          rw [itemOf_some hm, itemOf_some (set_mem_self ..)]
          simp only [true_and]
          rw [if_pos hz2, hxe]
        · rw [if_neg (by rw [itemOf_handle]; exact fun hh => hmn hh.1)]
          unfold itemOf
          simp [Cache.set, hmn]
      · intro m f hf
        by_cases hmn : m = n
        · subst hmn
          simp only [Cache.set, if_true, Option.some.injEq] at hf
          exact ⟨e, x, hm, hf.symm⟩
        · simp only [Cache.set, hmn, if_false] at hf
          exact ⟨f, f.expiry, hf, rfl⟩
    cases push with
    | true =>
      simp only [if_true]
      have hi := h.inv.setExpiry (t := t) (q := n :: (if e.expiry < noExpiry then c.ttl.erase n else c.ttl)) hm hz1
        (List.nodup_cons.mpr ⟨fun hh => ((hrest n).mp hh).1 rfl, hrestN⟩) (by
          intro m
          rw [List.mem_cons, hrest]
          have : t ≠ noExpiry := by omega
          constructor
          · rintro (rfl | hh)
            · exact .inl ⟨rfl, this⟩
            · exact .inr hh
          · rintro (⟨rfl, -⟩ | hh)
            · exact .inl rfl
            · exact .inr hh)
      obtain ⟨h1, h2, h3⟩ := key _ _ hi (by omega) rfl
      exact ⟨_, rfl, h1, h2, rfl, rfl, h3⟩
    | false =>
      simp only [Bool.false_eq_true, if_false]
      have hi := h.inv.setExpiry (t := noExpiry) (q := (if e.expiry < noExpiry then c.ttl.erase n else c.ttl)) hm hz1 hrestN (by
          intro m
          rw [hrest]
          simp)
      obtain ⟨h1, h2, h3⟩ := key _ _ hi (Nat.le_refl _) rfl
      exact ⟨_, rfl, h1, h2, rfl, rfl, h3⟩

theorem clearLoop_ok : ∀ (es : List (Bytes × Nat)) {held : List Nat} {c : Cache}, CInv none held c → c.table = es →
    ∃ c', clearLoop es c = .ok c' ∧ CInv none held c' ∧ c'.table = [] ∧ Kept c c' ∧ c'.next = c.next ∧ c'.capacity = c.capacity := by
  intro es
  induction es with
  | nil => intro held c h ht; exact ⟨c, rfl, h, ht, Kept.refl c, rfl, rfl⟩
  | cons a es ih =>
    intro held c h ht
    obtain ⟨id, n⟩ := a
    obtain ⟨e, hv, hid⟩ := (h.tab id n).mp (by rw [ht]; simp)
    unfold clearLoop
    rw [invalidate_true h hv]
    simp only
    have hes : tableRemove c.table id = es := by
      rw [ht]
      unfold tableRemove
      rw [List.filter_cons_of_neg (by simp)]
      rw [List.filter_eq_self]
      rintro ⟨i, m⟩ hm
      have hk := h.keys
      rw [ht, List.map_cons, List.nodup_cons] at hk
      have : i ≠ id := by
        rintro rfl
        exact hk.1 (List.mem_map.mpr ⟨(i, m), hm, rfl⟩)
      simpa using this
    have heq : ({ ({ c.without n e with table := c.table } : Cache) with table := tableRemove c.table id } : Cache) = c.without n e := by
      simp only [Cache.without, hid]
    obtain ⟨c', h1, h2, h3, h4, h5, h6⟩ := ih (h.without hv) (by show tableRemove c.table e.cacheId = es; rw [hid]; exact hes)
    refine ⟨c', ?_, h2, h3, (Kept.without hv.1).trans h4, h5, h6⟩
    rw [← h1, ← heq]

theorem cacheClear_spec {held : List Nat} {c : Cache} (h : COk held c) :
    ∃ c', cacheClear c = .ok c' ∧ COk held c' ∧ items c' = [] ∧ Kept c c' ∧ c'.next = c.next ∧ c'.capacity = c.capacity := by
  obtain ⟨c', h1, h2, h3, h4, h5, h6⟩ := clearLoop_ok c.table h.inv rfl
  refine ⟨c', h1, h.kept h2 h4 h6 (by rw [h3]; simp), ?_, h4, h5, h6⟩
  have : c'.lru = [] := by
    apply List.length_eq_zero_iff.mp
    rw [h2.len, h3]; rfl
  unfold items
  rw [this]; rfl

theorem cacheNew_ok (addr : Nat → Nat) (cap : Nat) : COk [] (cacheNew addr cap) := by
  refine ⟨⟨by simp [cacheNew], ?_, by simp [cacheNew], ?_, rfl, by simp [cacheNew], ?_, ?_, ?_, by simp, ?_, by simp⟩, ?_, by simp [cacheNew], ?_⟩
  · intro id n; simp [cacheNew, Vis]
  · intro n; simp [cacheNew, Vis]
  · intro n; simp [cacheNew, Vis]
  · intro n e h; cases h
  · intro n e h; cases h
  · intro n _; rfl
  · unfold cacheNew
    simp only
    split <;> omega
  · intro n e h; cases h

theorem cacheNew_items (addr : Nat → Nat) (cap : Nat) : items (cacheNew addr cap) = [] := rfl

/-! ### one call -/

/-- What a call leaves of an entry: everything but reference count, life, expiry and (for `use`) the usage counters. -/
def SameEntry (e e' : Entry) : Prop :=
  e'.cacheId = e.cacheId ∧ e'.creation = e.creation ∧ e'.mat = e.mat ∧ e'.keyMat = e.keyMat ∧ (e.zombie = true → e'.zombie = true)

theorem Kept.same {c c' : Cache} (h : Kept c c') {n : Nat} {e e' : Entry} (he : c.mem n = some e) (he' : c'.mem n = some e') :
    SameEntry e e' ∧ e'.usageBytes = e.usageBytes ∧ e'.usageMessages = e.usageMessages := by
  obtain ⟨f, k, z, hf, rfl, hz⟩ := h n e' he'
  rw [he] at hf; cases hf
  exact ⟨⟨rfl, rfl, rfl, rfl, hz⟩, rfl, rfl⟩

theorem KeptBut.same {c c' : Cache} (h : KeptBut c.next c c') (hfresh : c.mem c.next = none) {n : Nat} {e e' : Entry}
    (he : c.mem n = some e) (he' : c'.mem n = some e') :
    SameEntry e e' ∧ e'.usageBytes = e.usageBytes ∧ e'.usageMessages = e.usageMessages := by
  have hn : n ≠ c.next := by rintro rfl; rw [hfresh] at he; cases he
  obtain ⟨f, k, z, hf, rfl, hz⟩ := h n e' hn he'
  rw [he] at hf; cases hf
  exact ⟨⟨rfl, rfl, rfl, rfl, hz⟩, rfl, rfl⟩

theorem cacheCall_spec {held : List Nat} {c : Cache} (h : COk held c) (op : CacheOp) (hop : ∀ n, op.on = some n → n ∈ held) :
    ∃ c' r, cacheCall op c = .ok (c', r) ∧ COk (handlesAfter op r held) c' ∧ Spec.LruStep c.capacity (items c) op r (items c') ∧
      c'.capacity = c.capacity ∧ c.next ≤ c'.next ∧
      (∀ n e e', c.mem n = some e → c'.mem n = some e' →
        SameEntry e e' ∧ ((∀ b m, op ≠ .use n b m) → e'.usageBytes = e.usageBytes ∧ e'.usageMessages = e.usageMessages)) := by
  have put : ∀ (env : PutEnv) (id : Bytes) (mat : Mat) (key : Option (Option Bytes)) (bytes messages : Nat),
      ∃ c' r, (cachePut env id mat key bytes messages c).map (fun r => (r.1, CacheResult.handle r.2)) = .ok (c', .handle r) ∧
        COk (match r with | none => held | some n => n :: held) c' ∧
        ((∃ h kept, CacheResult.handle r = .handle (some h) ∧ (∀ x ∈ items c, x.handle ≠ h) ∧ Spec.Swept env.clkTtl (items c) kept ∧
            items c' = Spec.stored c.capacity h id kept) ∨
          (CacheResult.handle r = .handle none ∧ (items c' = items c ∨ Spec.Swept env.clkTtl (items c) (items c')))) ∧
        c'.capacity = c.capacity ∧ c.next ≤ c'.next ∧
        (∀ n e e', c.mem n = some e → c'.mem n = some e' →
          SameEntry e e' ∧ e'.usageBytes = e.usageBytes ∧ e'.usageMessages = e.usageMessages) := by
    intro env id mat key bytes messages
    obtain ⟨c', r, h1, h2, h3, h4, h5⟩ := cachePut_spec h env id mat key bytes messages
    have hfree := h.inv.fresh c.next (Nat.le_refl _)
    refine ⟨c', r, by rw [h1]; rfl, ?_, ?_, h4, h3, fun n e e' he he' => h2.same hfree he he'⟩
    · rcases h5 with ⟨rfl, h6, -⟩ | ⟨rfl, h6, -⟩ <;> exact h6
    · rcases h5 with ⟨rfl, -, -, h6⟩ | ⟨rfl, -, hf, -, ⟨kept, h6, h7⟩, -⟩
      · exact .inr ⟨rfl, h6⟩
      · refine .inl ⟨c.next, kept, rfl, ?_, h6, h7⟩
        intro x hx
        obtain ⟨m, hm, rfl⟩ := List.mem_map.mp hx
        rw [itemOf_handle]
        rintro rfl
        obtain ⟨f, hf'⟩ := (h.inv.lru _).mp hm
        rw [hf'.1] at hf; cases hf
  cases op with
  | find clk id =>
    obtain ⟨c', r, kept, h1, h2, h3, h4, h5, h6, h7, h8, -⟩ := cacheFind_spec h clk id
    refine ⟨c', .handle r, by simp only [cacheCall]; rw [h1]; rfl, ?_, ⟨kept, h4, h5, by rw [h6]⟩, h8, Nat.le_of_eq h7.symm, ?_⟩
    · cases r <;> exact h2
    · intro n e e' he he'
      obtain ⟨h9, h10⟩ := h3.same he he'
      exact ⟨h9, fun _ => h10⟩
  | putEnc env id m bytes messages ctx =>
    obtain ⟨c', r, h1, h2, h3, h4, h5, h6⟩ := put env id (.enc { m with signctx := none } ctx) (storedKey env m.signctx) bytes messages
    refine ⟨c', .handle r, h1, ?_, h3, h4, h5, ?_⟩
    · cases r <;> exact h2
    · intro n e e' he he'
      obtain ⟨h9, h10⟩ := h6 n e e' he he'
      exact ⟨h9, fun _ => h10⟩
  | putDec env id m =>
    obtain ⟨c', r, h1, h2, h3, h4, h5, h6⟩ := put env id (.dec { m with signctx := none }) (storedKey env m.signctx) 0 0
    refine ⟨c', .handle r, h1, ?_, h3, h4, h5, ?_⟩
    · cases r <;> exact h2
    · intro n e e' he he'
      obtain ⟨h9, h10⟩ := h6 n e e' he he'
      exact ⟨h9, fun _ => h10⟩
  | use n bytes messages =>
    obtain ⟨c', r, e, hm, h1, h2, h3, h4, h5, h6, h7⟩ := cacheUpdateUsage_spec h (hop n rfl) bytes messages
    refine ⟨c', .usage r, by simp only [cacheCall]; rw [h1]; rfl, h2, h3, h5, Nat.le_of_eq h4.symm, ?_⟩
    intro m f f' hf hf'
    by_cases hmn : m = n
    · subst hmn
      rw [hm] at hf; cases hf
      refine ⟨?_, fun hh => absurd rfl (hh bytes messages)⟩
      split at h7
      · rw [h7.2, hm] at hf'; cases hf'
        exact ⟨rfl, rfl, rfl, rfl, id⟩
      · rw [h7.2] at hf'; cases hf'
        exact ⟨rfl, rfl, rfl, rfl, id⟩
    · rw [h6 m hmn, hf] at hf'
      cases hf'
      exact ⟨⟨rfl, rfl, rfl, rfl, id⟩, fun _ => ⟨rfl, rfl⟩⟩
  | getEnc env n ctx =>
    obtain ⟨e, hm⟩ := h.inv.heldLive n (hop n rfl)
    have : ∃ r, cacheGetEnc env n ctx c = .ok r := by
      unfold cacheGetEnc
      rw [entry_some hm]
      simp only
      cases e.mat with
      | dec _ => exact ⟨_, rfl⟩
      | enc m ectx =>
        simp only
        cases env.copy with
        | false => exact ⟨_, rfl⟩
        | true =>
          simp only [Bool.not_true, Bool.false_eq_true, if_false]
          cases env.cloneFails with
          | some x => exact ⟨_, rfl⟩
          | none =>
            simp only
            cases startSig env m.alg e.keyMat with
            | error err => exact ⟨_, rfl⟩
            | ok sc => exact ⟨_, rfl⟩
    obtain ⟨r, hr⟩ := this
    refine ⟨c, .encMaterials r.1 r.2, by simp only [cacheCall]; rw [hr]; rfl, h, rfl, rfl, Nat.le_refl _, ?_⟩
    intro m f f' hf hf'
    obtain ⟨h9, h10⟩ := (Kept.refl c).same hf hf'
    exact ⟨h9, fun _ => h10⟩
  | getDec env n =>
    obtain ⟨e, hm⟩ := h.inv.heldLive n (hop n rfl)
    have : ∃ r, cacheGetDec env n c = .ok r := by
      unfold cacheGetDec
      rw [entry_some hm]
      simp only
      cases e.mat with
      | enc _ _ => exact ⟨_, rfl⟩
      | dec m =>
        simp only
        cases env.copy with
        | false => exact ⟨_, rfl⟩
        | true =>
          simp only [Bool.not_true, Bool.false_eq_true, if_false]
          cases startSig env m.alg e.keyMat with
          | error err => exact ⟨_, rfl⟩
          | ok sc => exact ⟨_, rfl⟩
    obtain ⟨r, hr⟩ := this
    refine ⟨c, .decMaterials r, by simp only [cacheCall]; rw [hr]; rfl, h, rfl, rfl, Nat.le_refl _, ?_⟩
    intro m f f' hf hf'
    obtain ⟨h9, h10⟩ := (Kept.refl c).same hf hf'
    exact ⟨h9, fun _ => h10⟩
  | created n =>
    obtain ⟨e, hm⟩ := h.inv.heldLive n (hop n rfl)
    refine ⟨c, .time e.creation, by unfold cacheCall cacheCreation; simp only [entry_some hm]; rfl, h, rfl, rfl, Nat.le_refl _, ?_⟩
    intro m f f' hf hf'
    obtain ⟨h9, h10⟩ := (Kept.refl c).same hf hf'
    exact ⟨h9, fun _ => h10⟩
  | hint n t push =>
    obtain ⟨c', h1, h2, h3, h4, h5, h6⟩ := cacheHint_spec h (hop n rfl) t push
    refine ⟨c', .done, by simp only [cacheCall]; rw [h1]; rfl, h2, ⟨rfl, h3⟩, h5, Nat.le_of_eq h4.symm, ?_⟩
    intro m f f' hf hf'
    obtain ⟨g, x, hg, rfl⟩ := h6 m f' hf'
    rw [hf] at hg; cases hg
    exact ⟨⟨rfl, rfl, rfl, rfl, id⟩, fun _ => ⟨rfl, rfl⟩⟩
  | release n inv =>
    obtain ⟨c', h1, h2, h3, h4, h5, h6⟩ := cacheRelease_spec h (hop n rfl) inv
    refine ⟨c', .done, by simp only [cacheCall]; rw [h1]; rfl, h2, ⟨rfl, h4⟩, h6, Nat.le_of_eq h5.symm, ?_⟩
    intro m f f' hf hf'
    obtain ⟨h9, h10⟩ := h3.same hf hf'
    exact ⟨h9, fun _ => h10⟩
  | clear =>
    obtain ⟨c', h1, h2, h3, h4, h5, h6⟩ := cacheClear_spec h
    refine ⟨c', .done, by simp only [cacheCall]; rw [h1]; rfl, h2, ⟨rfl, h3⟩, h6, Nat.le_of_eq h5.symm, ?_⟩
    intro m f f' hf hf'
    obtain ⟨h9, h10⟩ := h4.same hf hf'
    exact ⟨h9, fun _ => h10⟩
  | count =>
    refine ⟨c, .number (cacheCount c), rfl, h, ⟨?_, rfl⟩, rfl, Nat.le_refl _, ?_⟩
    · unfold cacheCount items
      rw [List.length_map, h.inv.len]
    · intro m f f' hf hf'
      obtain ⟨h9, h10⟩ := (Kept.refl c).same hf hf'
      exact ⟨h9, fun _ => h10⟩

theorem CacheHistory.ok {addr : Nat → Nat} {cap : Nat} {log : List (CacheOp × CacheResult)} {c : Cache} {held : List Nat}
    (h : CacheHistory addr cap log c held) :
    COk held c ∧ c.capacity = max cap 2 ∧ Spec.LruHistory (max cap 2) log (items c) := by
  induction h with
  | new =>
    refine ⟨cacheNew_ok addr cap, ?_, .new⟩
    unfold cacheNew
    simp only
    split <;> omega
  | call hist hop hcall ih =>
    obtain ⟨h1, h2, h3⟩ := ih
    obtain ⟨c', r, h4, h5, h6, h7, -⟩ := cacheCall_spec h1 _ hop
    rw [h4] at hcall
    cases hcall
    refine ⟨h5, by rw [h7, h2], .call h3 (by rw [← h2]; exact h6)⟩

end Verif
