import Verif.Proof.MemoryOrderFin
/-
C109, C110: the memory orders of the reference counts, in the sense of C11.
-/
namespace Verif.Props
open Verif.MemoryOrder Verif.Spec.MemoryOrder Verif.Proof.MemoryOrder

/-- **C109, the assertions.**  With whatever memory orders: no operation on the count reads zero, and no addition reads `SIZE_MAX`
(materials.h:328 and 358, local_cache.c:355 and 855). -/
theorem C109_count {x : Exec} {gave under : Nat → Nat} (hc : x.Consistent) (hd : x.Disciplined gave under) (hr : x.InRange) {a v : Nat}
    (h : x.Reads a v) : v ≠ 0 ∧ v ≠ 2 ^ 64 - 1 := by
  have hp := reads_pos hc hd hr h
  obtain ⟨i, hi, rfl⟩ := h
  have hl := index_lt hi
  have h1 := countAfter_eq hc hd hr i (by omega)
  have h2 := ups_le x i
  unfold Exec.InRange at hr
  omega

/-- **C109, one destruction.**  With whatever memory orders: at most one subtraction leads to the destruction of the object, and it is the last
operation on the count. -/
theorem C109_freed_once {x : Exec} {gave under : Nat → Nat} (hc : x.Consistent) (hd : x.Disciplined gave under) (hr : x.InRange) {d v : Nat}
    (h1 : x.Down d) (h2 : x.Reads d v) (h3 : destroysAt v = true) : x.mo.getLast? = some d ∧
    ∀ d' v', x.Down d' → x.Reads d' v' → destroysAt v' = true → d' = d := by
  have key : ∀ d' v', x.Down d' → x.Reads d' v' → destroysAt v' = true → x.mo.getLast? = some d' := by
    intro d' v' k1 k2 k3
    obtain ⟨i, hi, rfl⟩ := k2
    have hl := last_of_one hc hd hr k1 hi (by simpa [destroysAt] using k3)
    rw [List.getLast?_eq_getElem?, ← hl]
    exact hi
  refine ⟨key d v h1 h2 h3, fun d' v' k1 k2 k3 => ?_⟩
  have := (key d' v' k1 k2 k3).symm.trans (key d v h1 h2 h3)
  cases this
  rfl

/-- **C109, orders that suffice.**  If every subtraction has both release and acquire semantics, everything that touches the object happens before
its destruction. -/
theorem C109_enough {x : Exec} {gave under : Nat → Nat} (hc : x.Consistent) (hd : x.Disciplined gave under) (hr : x.InRange) (hf : x.Frees)
    (ho : ∀ a s o, x.events a = some (.count s o) → s.adds = false → Order.releases o = true ∧ Order.acquires o = true) {f a : Nat}
    (h : x.events f = some .free) (ha : x.Touches a) : x.HB a f := by
  obtain ⟨d, v, h1, h2, h3, h4⟩ := hf f h
  have hev : ∀ d, x.Down d → ∃ s o, x.events d = some (.count s o) ∧ Order.releases o = true ∧ Order.acquires o = true := by
    rintro d ⟨s, hs, hadd⟩
    unfold Exec.site at hs
    split at hs
    · rename_i s' o he
      cases hs
      exact ⟨s, o, he, ho d s o he hadd⟩
    · cases hs
  have hord : ∀ d d', x.Down d → x.Down d' → x.Before d d' → x.HB d d' := by
    intro d d' k k' hb
    obtain ⟨s, o, e, r, _⟩ := hev d k
    obtain ⟨s', o', e', _, q⟩ := hev d' k'
    exact .sync ⟨hb, ⟨s, o, e, r⟩, s', o', e', q⟩
  rcases touches_before hc hd hr hord h1 h2 h3 ha with rfl | k
  · exact .sb h4
  · exact k.trans (.sb h4)

/-- **C109.**  With the memory orders of the code, everything that any thread does with a keyring, CMM or cache for which it holds a reference, and
every operation on the count, happens before the destruction: there is no data race with the destructor, although additions are relaxed. -/
theorem C109_objects {x : Exec} {gave under : Nat → Nat} (hc : x.Consistent) (hd : x.Disciplined gave under) (hr : x.InRange) (hf : x.Frees)
    (ho : x.CodeOrders objectSites) {f a : Nat} (h : x.events f = some .free) (ha : x.Touches a) : x.HB a f := by
  refine C109_enough hc hd hr hf (fun a s o e hadd => ?_) h ha
  obtain ⟨hs, rfl⟩ := ho a s o e
  cases s <;> first | exact ⟨rfl, rfl⟩ | exact hs.elim | exact absurd hadd (by decide)

/-- Two threads: one makes an object, retains it for the other and releases its own reference, which destroys the object; the other uses the object and
releases its reference. -/
def twoThreads (o : Order) : FinExec where
  evs := [.make, .count .retain .relaxed, .use, .count .release o, .count .release o, .free]
  sb := [(0, 1), (1, 4), (4, 5), (2, 3)]
  ext := [(1, 2)]
  make := 0
  mo := [1, 3, 4]
  gave d := if d = 3 then 1 else 0
  under e := if e = 2 then 1 else 0

theorem twoThreads_good (o : Order) : (twoThreads o).Good := by
  cases o <;> constructor <;> decide +kernel

/-- **C109, neither half can be left out.**  With any weaker order for subtractions there is an execution of two threads, each using the object under
its own reference, in which a use and the destruction are not ordered. -/
theorem C109_weaker_refuted (o : Order) (h : ¬ (Order.releases o = true ∧ Order.acquires o = true)) :
    ∃ (x : Exec) (gave under : Nat → Nat), x.Consistent ∧ x.Disciplined gave under ∧ x.InRange ∧ x.Frees ∧
      (∀ a s o', x.events a = some (.count s o') → (s = .retain ∧ o' = .relaxed) ∨ (s = .release ∧ o' = o)) ∧
      ∃ e f, x.events e = some .use ∧ x.events f = some .free ∧ ¬ x.HB e f ∧ ¬ x.HB f e := by
  have hg := twoThreads_good o
  refine ⟨_, _, _, hg.consistent, hg.disciplined, hg.range, hg.frees', ?_, 2, 5, rfl, rfl, ?_, ?_⟩
  · intro a s o' e
    have hlt := FinExec.event_lt e
    have key : ∀ a, a < 6 → ∀ s o', (twoThreads o).evs[a]? = some (.count s o') → (s = .retain ∧ o' = .relaxed) ∨ (s = .release ∧ o' = o) := by
      intro a ha s o' e
      match a, ha with
      | 0, _ => cases e
      | 1, _ => cases e; exact .inl ⟨rfl, rfl⟩
      | 2, _ => cases e
      | 3, _ => cases e; exact .inr ⟨rfl, rfl⟩
      | 4, _ => cases e; exact .inr ⟨rfl, rfl⟩
      | 5, _ => cases e
    exact key a hlt s o' e
  · apply hg.not_hb
    cases o <;> first | (exact absurd ⟨rfl, rfl⟩ h) | decide +kernel
  · apply hg.not_hb
    cases o <;> first | (exact absurd ⟨rfl, rfl⟩ h) | decide +kernel

/-- With the order of the code the same execution is ordered, and meets the hypotheses of `C109_objects`. -/
example : (twoThreads .acqRel).exec.Consistent ∧ (twoThreads .acqRel).exec.Disciplined (twoThreads .acqRel).gave (twoThreads .acqRel).under ∧
    (twoThreads .acqRel).exec.Frees ∧ (twoThreads .acqRel).exec.CodeOrders objectSites ∧ (twoThreads .acqRel).exec.HB 2 5 := by
  have hg := twoThreads_good .acqRel
  have hco : (twoThreads .acqRel).exec.CodeOrders objectSites := by
    intro a s o e
    have hlt := FinExec.event_lt e
    match a, hlt with
    | 0, _ => cases e
    | 1, _ => cases e; exact ⟨trivial, rfl⟩
    | 2, _ => cases e
    | 3, _ => cases e; exact ⟨trivial, rfl⟩
    | 4, _ => cases e; exact ⟨trivial, rfl⟩
    | 5, _ => cases e
  exact ⟨hg.consistent, hg.disciplined, hg.frees', hco, C109_objects hg.consistent hg.disciplined hg.range hg.frees' hco (f := 5) (a := 2) rfl
    (.inr (.inl rfl))⟩

/-! ### Entries of the local cache -/

/-- A cache entry.  Thread M puts it (0, 1), gives its reference back (5) and clears the cache (6); thread A finds it (2), reads the materials (3) and
gives it back (4); thread B finds it (7), reads the materials (8), gives it back (9) and finds that this was the last reference (10).  The mutex orders
the sections of `put_entry`, the two `find_entry` and `clear_cache` in this order. -/
def entryRace : FinExec where
  evs := [.make, .count .putEncrypt .acqRel, .count .findEntry .relaxed, .use, .count .releaseEntry .release, .count .releaseEntry .release,
    .count .lockedRelease .release, .count .findEntry .relaxed, .use, .count .releaseEntry .release, .free]
  sb := [(0, 1), (1, 5), (5, 6), (2, 3), (3, 4), (7, 8), (8, 9), (9, 10)]
  ext := [(1, 2), (2, 7), (7, 6)]
  make := 0
  mo := [1, 2, 7, 5, 6, 4, 9]
  gave d := if d = 4 then 2 else if d = 5 then 1 else if d = 9 then 7 else 0
  under e := if e = 3 then 2 else if e = 8 then 7 else 0

theorem entryRace_good : entryRace.Good := by
  constructor <;> decide +kernel

theorem entryRace_orders : entryRace.exec.CodeOrders entrySites := by
  intro a s o e
  have hlt := FinExec.event_lt e
  match a, hlt with
  | 0, _ => cases e
  | 1, _ => cases e; exact ⟨trivial, rfl⟩
  | 2, _ => cases e; exact ⟨trivial, rfl⟩
  | 3, _ => cases e
  | 4, _ => cases e; exact ⟨trivial, rfl⟩
  | 5, _ => cases e; exact ⟨trivial, rfl⟩
  | 6, _ => cases e; exact ⟨trivial, rfl⟩
  | 7, _ => cases e; exact ⟨trivial, rfl⟩
  | 8, _ => cases e
  | 9, _ => cases e; exact ⟨trivial, rfl⟩
  | 10, _ => cases e

/-- **C110, refuted.**  With the memory orders of local_cache.c (release, where the other reference counts have acquire and release) there is an
execution in which a thread reads the materials of an entry under its own reference and this is not ordered with the destruction of the entry by
another thread: a data race. -/
theorem C110_entry_refuted : ∃ (x : Exec) (gave under : Nat → Nat), x.Consistent ∧ x.Disciplined gave under ∧ x.InRange ∧ x.Frees ∧ x.CodeOrders entrySites ∧
    ∃ e f, x.events e = some .use ∧ x.events f = some .free ∧ ¬ x.HB e f ∧ ¬ x.HB f e := by
  have hg := entryRace_good
  exact ⟨_, _, _, hg.consistent, hg.disciplined, hg.range, hg.frees', entryRace_orders, 3, 10, rfl, rfl, hg.not_hb (by decide +kernel),
    hg.not_hb (by decide +kernel)⟩

/-- **C110, what holds.**  An entry whose references are given up in an order that the program enforces otherwise, for example with the mutex held or
by one thread, is destroyed after everything that touches it.  (That no count is wrong and that it is destroyed at most once holds in any case:
`C109_count`, `C109_freed_once`.) -/
theorem C110_ordered_partial {x : Exec} {gave under : Nat → Nat} (hc : x.Consistent) (hd : x.Disciplined gave under) (hr : x.InRange) (hf : x.Frees)
    (hord : ∀ d d', x.Down d → x.Down d' → x.Before d d' → x.HB d d') {f a : Nat} (h : x.events f = some .free) (ha : x.Touches a) : x.HB a f := by
  obtain ⟨d, v, h1, h2, h3, h4⟩ := hf f h
  rcases touches_before hc hd hr hord h1 h2 h3 ha with rfl | k
  · exact .sb h4
  · exact k.trans (.sb h4)

/-- **C110, the repair.**  If both subtractions of local_cache.c had acquire and release semantics, entries would be safe too. -/
theorem C110_repaired {x : Exec} {gave under : Nat → Nat} (hc : x.Consistent) (hd : x.Disciplined gave under) (hr : x.InRange) (hf : x.Frees)
    (ho : ∀ a s o, x.events a = some (.count s o) → entrySites s ∧ o = (if s.adds then s.order else .acqRel)) {f a : Nat}
    (h : x.events f = some .free) (ha : x.Touches a) : x.HB a f := by
  refine C109_enough hc hd hr hf (fun a s o e hadd => ?_) h ha
  obtain ⟨_, rfl⟩ := ho a s o e
  rw [if_neg (by simp [hadd])]
  exact ⟨rfl, rfl⟩

/-- A thread that is alone: it puts an entry, clears the cache and gives the entry back. -/
def entryAlone : FinExec where
  evs := [.make, .count .putEncrypt .acqRel, .use, .count .lockedRelease .release, .count .releaseEntry .release, .free]
  sb := [(0, 1), (1, 2), (2, 3), (3, 4), (4, 5)]
  ext := []
  make := 0
  mo := [1, 3, 4]
  gave d := if d = 4 then 1 else 0
  under e := if e = 2 then 1 else 0

/-- It meets the hypotheses of `C110_ordered_partial`. -/
example : ∃ (x : Exec) (gave under : Nat → Nat), x.Consistent ∧ x.Disciplined gave under ∧ x.InRange ∧ x.Frees ∧ (∀ d d', x.Down d → x.Down d' → x.Before d d' → x.HB d d') ∧
    ∃ f, x.events f = some .free := by
  have hg : entryAlone.Good := by constructor <;> decide +kernel
  refine ⟨_, _, _, hg.consistent, hg.disciplined, hg.range, hg.frees', fun d d' h h' hb => ?_, 5, rfl⟩
  apply FinExec.hb_sound entryAlone (d, d')
  have key : ∀ d ∈ entryAlone.mo, ∀ d' ∈ entryAlone.mo, entryAlone.BeforeB d d' → (d, d') ∈ entryAlone.hb := by decide +kernel
  exact key d (down_mem hg.consistent h) d' (down_mem hg.consistent h') ((FinExec.before_iff _ _ _).mpr hb)

end Verif.Props
