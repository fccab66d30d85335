import Verif.Proof.LocalCacheOps
import Verif.Spec.SessionExample
/-
C42 and C43: the local cache.
-/
namespace Verif.Props

variable {addr : Nat → Nat} {cap : Nat} {log : List (CacheOp × CacheResult)} {c : Cache} {held : List Nat}

/-! ## C42: capacity and eviction -/

/-- C42: every history of calls on the cache is a history of the specification with the same results: a bounded list of items, most
recently used first, from which stores drop the last item, expiry removes due items, and lookups return what is in the list. -/
theorem C42_refinement (h : CacheHistory addr cap log c held) : ∃ l, Spec.LruHistory (max cap 2) log l :=
  ⟨items c, h.ok.2.2⟩

/-- C42: the number of live entries never exceeds the capacity the cache was created with (at least two). -/
theorem C42_capacity (h : CacheHistory addr cap log c held) : cacheCount c ≤ max cap 2 := by
  have := h.ok.1.size
  rw [h.ok.2.1] at this
  exact this

theorem spec_capacity {k : Nat} {l : List Spec.Item} (h : Spec.LruHistory k log l) : l.length ≤ k := by
  have touched_len : ∀ (id : Bytes) (l : List Spec.Item), (Spec.touched id l).length ≤ l.length := by
    intro id l
    unfold Spec.touched
    cases hf : l.find? (fun x => x.id = id) with
    | none => exact Nat.le_refl _
    | some x =>
      have hx := List.mem_of_find?_eq_some hf
      have : (l.filter (fun y => y ≠ x)).length < l.length := by
        rw [List.length_filter_lt_length_iff_exists]
        exact ⟨x, hx, by simp⟩
      simp only [List.length_cons]
      omega
  have swept_len : ∀ (clk : Option Nat) (l l' : List Spec.Item), Spec.Swept clk l l' → l'.length ≤ l.length := by
    intro clk l l' hs
    unfold Spec.Swept at hs
    cases clk with
    | none => rw [hs]; exact Nat.le_refl _
    | some now => exact hs.1.length_le
  have stored_len : ∀ (n : Nat) (id : Bytes) (l : List Spec.Item), (Spec.stored k n id l).length ≤ k := by
    intro n id l
    unfold Spec.stored
    rw [List.length_take]
    omega
  induction h with
  | new => simp
  | @call log l op r l' hist hs ih =>
    cases op with
    | find clk id =>
      obtain ⟨kept, h1, rfl, -⟩ := hs
      have := touched_len id kept
      have := swept_len clk _ _ h1
      omega
    | putEnc env id m b ms ctx =>
      rcases hs with ⟨n, kept, -, -, -, rfl⟩ | ⟨-, rfl | h1⟩
      · exact stored_len n id kept
      · exact ih
      · have := swept_len _ _ _ h1; omega
    | putDec env id m =>
      rcases hs with ⟨n, kept, -, -, -, rfl⟩ | ⟨-, rfl | h1⟩
      · exact stored_len n id kept
      · exact ih
      · have := swept_len _ _ _ h1; omega
    | hint n t rec =>
      obtain ⟨-, rfl⟩ := hs
      unfold Spec.hinted
      rw [List.length_map]; exact ih
    | release n inv =>
      obtain ⟨-, rfl⟩ := hs
      split
      · exact Nat.le_trans (List.length_filter_le _ _) ih
      · exact ih
    | clear => obtain ⟨-, rfl⟩ := hs; simp
    | count => obtain ⟨-, rfl⟩ := hs; exact ih
    | use _ _ _ => cases hs; exact ih
    | getEnc _ _ _ => cases hs; exact ih
    | getDec _ _ => cases hs; exact ih
    | created _ => cases hs; exact ih

/-- C42: what was just stored is what the next lookup of that identifier returns: storing never evicts the new entry, whatever the
capacity, and replaces what was stored under the identifier before. -/
theorem C42_stored_then_found (h : CacheHistory addr cap log c held) (env : PutEnv) (id : Bytes) (m : EncMaterials) (bytes messages : Nat)
    (ctx : EncCtx) {c' : Cache} {n : Nat} (hp : cachePutEnc env id m bytes messages ctx c = .ok (c', some n)) (clk : Option Nat) :
    ∃ c'', cacheFind clk id c' = .ok (c'', some n) := by
  have hput : cacheCall (.putEnc env id m bytes messages ctx) c = .ok (c', .handle (some n)) := by
    simp only [cacheCall]; rw [hp]; rfl
  have h1 := CacheHistory.call h (by intro k hk; cases hk) hput
  obtain ⟨hok, -, -⟩ := h1.ok
  obtain ⟨ho, hcap, -⟩ := h.ok
  obtain ⟨c2, r, hr, -, hstep, -⟩ := cacheCall_spec ho (.putEnc env id m bytes messages ctx) (by intro k hk; cases hk)
  rw [hput] at hr
  cases hr
  rcases hstep with ⟨k, kept, hk, -, -, hit⟩ | ⟨hk, -⟩
  · cases hk
    obtain ⟨c'', r, kept', hf, -, -, hsw, -, hlk, -⟩ := cacheFind_spec hok clk id
    refine ⟨c'', ?_⟩
    rw [hf, hlk]
    have h2 := ho.cap
    obtain ⟨j, hj⟩ : ∃ j, c.capacity = j + 1 := ⟨c.capacity - 1, by omega⟩
    unfold Spec.stored at hit
    rw [hj, List.take_succ_cons] at hit
    -- expiry keeps the new item, which is in front
    have hhead : ∃ rest, kept' = ⟨n, id, Spec.never⟩ :: rest := by
      unfold Spec.Swept at hsw
      cases clk with
      | none => simp only at hsw; rw [hsw]; exact ⟨_, hit⟩
      | some now =>
        simp only at hsw
        obtain ⟨hsub, hdue, -⟩ := hsw
        have hin : (⟨n, id, Spec.never⟩ : Spec.Item) ∈ kept' := by
          apply Classical.byContradiction
          intro hh
          exact (hdue ⟨n, id, Spec.never⟩ (by rw [hit]; simp) hh).1 rfl
        rw [hit] at hsub
        cases hsub with
        | cons _ hs =>
          exfalso
          have hmem := hs.subset hin
          have := (List.mem_filter.mp (List.mem_of_mem_take hmem)).2
          simp at this
        | cons_cons _ hs => exact ⟨_, rfl⟩
    obtain ⟨rest, rfl⟩ := hhead
    unfold Spec.lookedUp
    rw [List.find?_cons_of_pos (by simp)]
    rfl
  · cases hk

/-! ## C43: lifetime of entries -/

/-- C43: no call by a client that uses only handles it holds ever touches a freed entry, fails an assertion of the cache, or runs
forever. -/
theorem C43_no_fault (h : CacheHistory addr cap log c held) (op : CacheOp) (hop : ∀ n, op.on = some n → n ∈ held) :
    ∃ c' r, cacheCall op c = .ok (c', r) := by
  obtain ⟨c', r, hr, -⟩ := cacheCall_spec h.ok.1 op hop
  exact ⟨c', r, hr⟩

/-- C43: an entry is in memory exactly if a handle on it is held or the cache stores it, and its reference count is the number of
handles plus one if the cache stores it. -/
theorem C43_live_iff_referenced (h : CacheHistory addr cap log c held) (n : Nat) :
    ((c.mem n).isSome ↔ n ∈ held ∨ ∃ id, (id, n) ∈ c.table) ∧
    (∀ e, c.mem n = some e → (∃ id, (id, n) ∈ c.table) → e.refcount = held.count n + 1) ∧
    (∀ e, c.mem n = some e → ¬ (∃ id, (id, n) ∈ c.table) → e.refcount = held.count n) := by
  have hi := h.ok.1.inv
  have hz : ∀ e, c.mem n = some e → ((∃ id, (id, n) ∈ c.table) ↔ e.zombie = false) := by
    intro e he
    constructor
    · rintro ⟨id, hid⟩
      obtain ⟨f, hf, -⟩ := (hi.tab id n).mp hid
      have : f = e := Option.some.inj (hf.1.symm.trans he)
      rw [← this]; exact hf.2.1
    · intro hze
      exact ⟨e.cacheId, (hi.tab _ n).mpr ⟨e, ⟨he, hze, by simp⟩, rfl⟩⟩
  refine ⟨?_, ?_, ?_⟩
  · constructor
    · intro hs
      obtain ⟨e, he⟩ := Option.isSome_iff_exists.mp hs
      cases hze : e.zombie with
      | false => exact .inr ((hz e he).mpr hze)
      | true =>
        left
        have h1 := hi.rc n e he
        have h2 := hi.pos n e he
        rw [hze] at h1
        simp only [if_true, Nat.add_zero] at h1
        rw [← List.count_pos_iff]
        omega
    · rintro (hh | ⟨id, hid⟩)
      · obtain ⟨e, he⟩ := hi.heldLive n hh; simp [he]
      · obtain ⟨f, hf, -⟩ := (hi.tab id n).mp hid; simp [hf.1]
  · intro e he ht
    have h1 := hi.rc n e he
    rw [(hz e he).mp ht] at h1
    exact h1
  · intro e he ht
    have h1 := hi.rc n e he
    cases hze : e.zombie with
    | false => exact absurd ((hz e he).mpr hze) ht
    | true => rw [hze] at h1; exact h1

/-- C43: once the client has released every handle, destroying the cache leaves no entry in memory. -/
theorem C43_all_freed (h : CacheHistory addr cap log c []) (n : Nat) : (cacheDestroy c).mem n = none := by
  obtain ⟨hl, -⟩ := C43_live_iff_referenced h n
  unfold cacheDestroy
  simp only
  split
  · rfl
  · next hn =>
    cases hm : c.mem n with
    | none => rfl
    | some e =>
      rw [hm] at hl
      rcases hl.mp rfl with hh | ⟨id, hid⟩
      · cases hh
      · exact absurd (List.any_eq_true.mpr ⟨_, hid, by simp⟩) hn

/-- C43: clearing the cache leaves in memory exactly the entries on which handles are still held. -/
theorem C43_clear_frees (h : CacheHistory addr cap log c held) {c' : Cache} (hc : cacheClear c = .ok c') (n : Nat) :
    (c'.mem n).isSome ↔ n ∈ held := by
  have h1 := CacheHistory.call (op := .clear) h (by intro k hk; cases hk) (c' := c') (r := .done) (by simp only [cacheCall]; rw [hc]; rfl)
  obtain ⟨c2, hc2, -, hit, -⟩ := cacheClear_spec h.ok.1
  rw [hc] at hc2; cases hc2
  obtain ⟨hl, -⟩ := C43_live_iff_referenced h1 n
  have ht : c'.table = [] := by
    apply List.length_eq_zero_iff.mp
    rw [← h1.ok.1.inv.len, ← List.length_map (f := itemOf c')]
    show (items c').length = 0
    rw [hit]; rfl
  rw [hl, ht]
  simp [handlesAfter]

/-- C43: while a handle is held, whatever other calls are made, it gives the same materials and creation time, even if the entry was
meanwhile evicted, replaced, expired, or invalidated. -/
theorem C43_handle_keeps_materials (h : CacheHistory addr cap log c held) {op : CacheOp} {c' : Cache} {r : CacheResult}
    (hop : ∀ n, op.on = some n → n ∈ held) (hc : cacheCall op c = .ok (c', r)) {n : Nat} (hn : n ∈ held)
    (hn' : n ∈ handlesAfter op r held) (env : GetEnv) (ctx : EncCtx) :
    cacheGetEnc env n ctx c' = cacheGetEnc env n ctx c ∧ cacheGetDec env n c' = cacheGetDec env n c ∧
    cacheCreation n c' = cacheCreation n c := by
  obtain ⟨c2, r2, hr, hok, -, -, -, hsame⟩ := cacheCall_spec h.ok.1 op hop
  rw [hc] at hr
  cases hr
  obtain ⟨e, he⟩ := h.ok.1.inv.heldLive n hn
  obtain ⟨e', he'⟩ := hok.inv.heldLive n hn'
  obtain ⟨⟨-, h2, h3, h4, -⟩, -⟩ := hsame n e e' he he'
  unfold cacheGetEnc cacheGetDec cacheCreation
  rw [entry_some he, entry_some he']
  simp only [h2, h3, h4, and_self]

/-- C43: the handle returned by a store gives back what was stored: the same algorithm suite, data key, encrypted data keys, key trace and
encryption context, with a signature started afresh from the key that was extracted, and the time of the store. -/
theorem C43_store_gives_materials (h : CacheHistory addr cap log c held) (env : PutEnv) (id : Bytes) (m : EncMaterials) (bytes messages : Nat)
    (ctx : EncCtx) {c' : Cache} {n : Nat} (hp : cachePutEnc env id m bytes messages ctx c = .ok (c', some n)) (genv : GetEnv)
    (hcopy : genv.copy = true) (hclone : genv.cloneFails = none) (ctx0 : EncCtx) :
    (∃ t, env.clkNew = some t ∧ cacheCreation n c' = .ok t) ∧
    (m.signctx = none → cacheGetEnc genv n ctx0 c' = .ok (encCtxClone ctx0 ctx, .ok m)) ∧
    (∀ sc, m.signctx = some sc → ∃ k, env.getKey sc = some k ∧
      (∀ sc', genv.sigStart m.alg k = .ok sc' → cacheGetEnc genv n ctx0 c' = .ok (encCtxClone ctx0 ctx, .ok { m with signctx := some sc' })) ∧
      (∀ e, genv.sigStart m.alg k = .error e → ∃ x, cacheGetEnc genv n ctx0 c' = .ok (x, .error e))) := by
  obtain ⟨c2, r, hr, -, -, -, h5⟩ := cachePut_spec h.ok.1 env id (.enc { m with signctx := none } ctx) (storedKey env m.signctx) bytes messages
  have hp' : cachePut env id (.enc { m with signctx := none } ctx) (storedKey env m.signctx) bytes messages c = .ok (c', some n) := hp
  rw [hp'] at hr
  cases hr
  rcases h5 with ⟨h6, -⟩ | ⟨h6, -, -, -, -, now, k, hnow, hkey, hm⟩
  · cases h6
  · cases h6
    refine ⟨⟨now, hnow, ?_⟩, ?_, ?_⟩
    · unfold cacheCreation; rw [entry_some hm]
    · intro hs
      unfold storedKey at hkey
      rw [hs] at hkey
      simp only [Option.some.injEq] at hkey
      subst hkey
      unfold cacheGetEnc
      rw [entry_some hm]
      simp only [hcopy, hclone, Bool.not_true, Bool.false_eq_true, if_false]
      unfold startSig
      simp only
      have hme : ({ m with signctx := none } : EncMaterials) = m := by
        cases m; simp only at hs; subst hs; rfl
      rw [hme]
    · intro sc hs
      unfold storedKey at hkey
      rw [hs] at hkey
      simp only [Option.map_eq_some_iff] at hkey
      obtain ⟨k', hk', rfl⟩ := hkey
      refine ⟨k', hk', ?_, ?_⟩
      · intro sc' hss
        unfold cacheGetEnc
        rw [entry_some hm]
        simp only [hcopy, hclone, Bool.not_true, Bool.false_eq_true, if_false]
        unfold startSig
        simp only [hss]
      · intro e hss
        unfold cacheGetEnc
        rw [entry_some hm]
        simp only [hcopy, hclone, Bool.not_true, Bool.false_eq_true, if_false]
        unfold startSig
        simp only [hss]
        exact ⟨_, rfl⟩

/-! ## a concrete history -/

namespace CacheExample

def penv (now : Nat) : PutEnv := ⟨some now, true, some now, true, fun _ => some [7]⟩
def mats : EncMaterials := { alg := 0x0178, dataKey := [1, 2, 3], edks := [], trace := [], signctx := none }
def dmats : DecMaterials := { alg := 0x0178, dataKey := [1, 2, 3], trace := [], signctx := none }

/-- Fill a cache of capacity two, shorten the life of the first entry, look it up, then store a third entry (evicting the second), look
it up when the first one's time is over, and use a handle on an entry that was evicted. -/
theorem history : ∃ log c held, CacheHistory id 2 log c held ∧ held = [2, 2, 0, 1, 0] ∧
    log.map Prod.snd = [.time 12, .handle (some 2), .handle (some 2), .handle (some 0), .done, .handle (some 1), .handle (some 0)] ∧
    cacheCount c = 1 := by
  refine ⟨_, _, _, CacheHistory.call (CacheHistory.call (CacheHistory.call (CacheHistory.call (CacheHistory.call (CacheHistory.call
    (CacheHistory.call CacheHistory.new
      (op := .putEnc (penv 10) [1] mats 5 1 []) (by simp [CacheOp.on]) (by rfl))
      (op := .putDec (penv 12) [2] dmats) (by simp [CacheOp.on]) (by rfl))
      (op := .hint 0 20 true) (by intro n hn; cases hn; decide +kernel) (by rfl))
      (op := .find (some 15) [1]) (by simp [CacheOp.on]) (by rfl))
      (op := .putEnc (penv 16) [3] mats 5 1 []) (by simp [CacheOp.on]) (by rfl))
      (op := .find (some 30) [3]) (by simp [CacheOp.on]) (by rfl))
      (op := .created 1) (by intro n hn; cases hn; decide +kernel) (by rfl), by rfl, by rfl, by rfl⟩

end CacheExample

end Verif.Props
