import Verif.Spec.CacheFields
/-
C111: data races between the functions of the local cache.
-/
namespace Verif.Props
open Verif.CacheFields Verif.Spec.CacheFields

namespace CacheFields

def allFns : List Fn := [.findEntry, .updateUsage, .getEnc, .getDec, .putEnc, .putDec, .entryCount, .release, .creationTime, .ttlHint, .clear]

theorem mem_allFns (f : Fn) : f ∈ allFns := by cases f <;> decide

/-- Everything that is done anywhere. -/
def allActs : List (Bool × Act) := (allFns.flatMap fun f => mark false f.body).eraseDups

theorem is_mem {x : Exec} {a c e : Nat} {h : Bool} {s : Act} (k : x.Is a c e h s) : (h, s) ∈ allActs := by
  obtain ⟨p, _, hp⟩ := k
  have h1 := List.mem_of_getElem? hp
  have h2 : (h, s) ∈ allFns.flatMap fun f => mark false f.body := List.mem_flatMap.mpr ⟨_, mem_allFns (x.calls c).fn, h1⟩
  have h3 : ∀ p ∈ allFns.flatMap (fun f => mark false f.body), p ∈ allActs := by decide +kernel
  exact h3 _ h2

theorem make_locked : ∀ p ∈ allActs, isMake p.2 = true → p.1 = true := by decide +kernel

theorem unlocked_entry : ∀ p ∈ allActs, p.1 = false → ∀ f ∈ field p.2, f.ofCache = false := by decide +kernel

theorem make_entry : ∀ p ∈ allActs, isMake p.2 = true → ∀ f ∈ field p.2, f.ofCache = false := by decide +kernel

/-- What can conflict with an act without the mutex, other than the making of the entry. -/
def conflictOk (p q : Bool × Act) : Bool :=
  p.1 || isMake q.2 || field p.2 != field q.2 || (isRead p.2 && isRead q.2) || (isAtomic p.2 && isAtomic q.2) ||
  (q.1 && ((p.2 == .read .zombie && q.2 == .write .zombie) || (p.2 == .read .expiry && q.2 == .write .expiry)))

theorem conflicts : ∀ p ∈ allActs, ∀ q ∈ allActs, conflictOk p q = true := by decide +kernel

end CacheFields
open CacheFields

/-- Two acts with the mutex held are ordered. -/
theorem CacheFields.locked_ordered {x : Exec} (hv : x.Valid) {a b c d e f : Nat} {s t : Act} (ha : x.Is a c e true s) (hb : x.Is b d f true t)
    (hne : a ≠ b) : x.HB a b ∨ x.HB b a := by
  rcases Nat.lt_trichotomy (x.calls c).turn (x.calls d).turn with h | h | h
  · exact .inl (.mutex ha hb h)
  · have := hv.turns a b c d e f s t ha hb h
    subst this
    rcases Nat.lt_or_gt_of_ne hne with h | h
    · exact .inl (.sb ha hb rfl h)
    · exact .inr (.sb hb ha rfl h)
  · exact .inr (.mutex hb ha h)

/-- The making of an entry happens before everything done without the mutex. -/
theorem CacheFields.make_before {x : Exec} (hv : x.Valid) {a b c d e : Nat} {h : Bool} {s t : Act} (ha : x.Is a c e h s) (hm : isMake s = true)
    (hb : x.Is b d e false t) : x.HB a b := by
  obtain ⟨o, c', ho, hob⟩ := hv.held b d e t hb
  have hl : h = true := make_locked _ (is_mem ha) hm
  subst hl
  have hc := hv.made a c e true s ha hm
  refine .trans ?_ hob
  rcases hv.reached o c' e .obtain .refcount ho rfl rfl with h | h
  · subst hc; subst h
    exact .sb ha ho rfl (hv.first a o _ e true true s .obtain ha ho hm rfl (by simp))
  · subst hc
    exact .mutex ha ho h

/-- **C111, the only races.**  Whatever threads do with a local cache: a data race is between a reading of `zombie` or `expiry_time` without the mutex
and a writing of the same field with the mutex held.  So there is none on materials, keys, contexts, identifiers, times of creation, usage, lists,
heap and table. -/
theorem C111_only_races {x : Exec} (hv : x.Valid) {f : Field} {a b : Nat} {h k : Bool} {s t : Act} (hr : x.Race f a b h k s t) :
    (f = .zombie ∨ f = .expiry) ∧ ((h = false ∧ s = .read f ∧ k = true ∧ t = .write f) ∨ (k = false ∧ t = .read f ∧ h = true ∧ s = .write f)) := by
  have key : ∀ {a b : Nat} {h k : Bool} {s t : Act}, x.Race f a b h k s t → h = false →
      (f = .zombie ∨ f = .expiry) ∧ (h = false ∧ s = .read f ∧ k = true ∧ t = .write f) := by
    intro a b h k s t hr hh
    subst hh
    obtain ⟨c, d, e, e', ha, hb, hee⟩ := hr.acts
    have hcf : f.ofCache = false := unlocked_entry _ (is_mem ha) rfl f hr.same.1
    have hee : e = e' := by
      rcases hee with h | h
      · rw [hcf] at h; cases h
      · exact h
    subst hee
    have hc := conflicts _ (is_mem ha) _ (is_mem hb)
    by_cases hm : isMake t = true
    · exact absurd (make_before hv hb hm ha) hr.unordered.2
    · have h1 := hr.conflict.1
      have h2 := hr.conflict.2
      have h3 : field s = field t := hr.same.1.trans hr.same.2.symm
      have h4 := hr.same.1
      simp only [conflictOk, Bool.or_eq_true, Bool.and_eq_true, beq_iff_eq, bne_iff_ne] at hc
      rcases hc with ((((h | h) | h) | h) | h) | ⟨hk, h | h⟩
      · cases h
      · exact absurd h hm
      · exact absurd h3 h
      · exact absurd h h1
      · exact absurd h h2
      · rw [h.1] at h4
        cases h4
        exact ⟨.inl rfl, rfl, h.1, hk, h.2⟩
      · rw [h.1] at h4
        cases h4
        exact ⟨.inr rfl, rfl, h.1, hk, h.2⟩
  cases h with
  | false => exact ⟨(key hr rfl).1, .inl (key hr rfl).2⟩
  | true =>
    cases k with
    | false =>
      have hr' : x.Race f b a false true t s := by
        obtain ⟨c, d, e, e', ha, hb, hee⟩ := hr.acts
        exact ⟨⟨d, c, e', e, hb, ha, hee.imp id Eq.symm⟩, ⟨hr.same.2, hr.same.1⟩, hr.different.symm,
          ⟨fun h => hr.conflict.1 ⟨h.2, h.1⟩, fun h => hr.conflict.2 ⟨h.2, h.1⟩⟩, ⟨hr.unordered.2, hr.unordered.1⟩⟩
      have := key hr' rfl
      exact ⟨this.1, .inr ⟨this.2.1, this.2.2.1, this.2.2.2.1, this.2.2.2.2⟩⟩
    | true =>
      obtain ⟨c, d, e, e', ha, hb, _⟩ := hr.acts
      rcases locked_ordered hv ha hb hr.different with h | h
      · exact absurd h hr.unordered.1
      · exact absurd h hr.unordered.2

/-- **C111, which calls.**  The readings are those of `update_usage_stats`, of the fast path of `set_expiration_hint` and of `release_entry`. -/
theorem C111_readers {x : Exec} {a c e : Nat} {f : Field} (ha : x.Is a c e false (.read f)) (hf : f = .zombie ∨ f = .expiry) :
    ((x.calls c).fn = .updateUsage ∧ f = .zombie) ∨ (x.calls c).fn = .ttlHint ∨ ((x.calls c).fn = .release ∧ f = .zombie) := by
  obtain ⟨p, _, hp⟩ := ha
  have h1 := List.mem_of_getElem? hp
  generalize (x.calls c).fn = g at h1
  have : ∀ g ∈ allFns, ∀ f ∈ [Field.zombie, .expiry], (false, Act.read f) ∈ mark false g.body →
      (g = .updateUsage ∧ f = .zombie) ∨ g = .ttlHint ∨ (g = .release ∧ f = .zombie) := by decide +kernel
  exact this g (mem_allFns g) f (by rcases hf with rfl | rfl <;> simp) h1

/-- **C111, without these.**  Executions in which nothing reads these two fields without the mutex have no data race. -/
theorem C111_no_race_partial {x : Exec} (hv : x.Valid) (hn : ∀ a c e f, (f = .zombie ∨ f = .expiry) → ¬ x.Is a c e false (.read f)) {f : Field}
    {a b : Nat} {h k : Bool} {s t : Act} : ¬ x.Race f a b h k s t := by
  intro hr
  obtain ⟨c, d, e, e', ha, hb, _⟩ := hr.acts
  have h0 := C111_only_races hv hr
  rcases h0.2 with ⟨rfl, rfl, _⟩ | ⟨rfl, rfl, _⟩
  · exact hn a c e f h0.1 ha
  · exact hn b d e' f h0.1 hb

/-! ### Executions -/

namespace CacheFields

/-- A finite execution, with no synchronisation but by the mutex. -/
structure FinExec where
  calls : List Call
  evs : List Event

def FinExec.call (x : FinExec) (c : Nat) : Call := x.calls[c]?.getD ⟨.entryCount, 0, 0⟩

def FinExec.exec (x : FinExec) : Exec where
  calls := x.call
  events a := x.evs[a]?
  ext _ _ := False
  maker _ := 0

/-- The event `a`: call, entry, whether the mutex is held, act. -/
def FinExec.get (x : FinExec) (a : Nat) : Option (Nat × Nat × Bool × Act) :=
  x.evs[a]?.bind fun v => (mark false (x.call v.call).fn.body)[v.pos]?.map fun q => (v.call, v.entry, q.1, q.2)

theorem FinExec.is_iff {x : FinExec} {a c e : Nat} {h : Bool} {s : Act} : x.exec.Is a c e h s ↔ x.get a = some (c, e, h, s) := by
  constructor
  · rintro ⟨p, h1, h2⟩
    have h1 : x.evs[a]? = some ⟨c, p, e⟩ := h1
    have h2 : (mark false (x.call c).fn.body)[p]? = some (h, s) := h2
    simp [FinExec.get, h1, h2]
  · intro k
    simp only [FinExec.get, Option.bind_eq_some_iff, Option.map_eq_some_iff] at k
    obtain ⟨⟨c', p, e'⟩, h1, ⟨h', s'⟩, h2, h3⟩ := k
    cases h3
    exact ⟨p, h1, h2⟩

def FinExec.all (x : FinExec) : List (Nat × Nat × Nat × Bool × Act) :=
  (List.range x.evs.length).flatMap fun a => (x.get a).toList.map fun v => (a, v)

theorem FinExec.mem_all {x : FinExec} {a c e : Nat} {h : Bool} {s : Act} : x.exec.Is a c e h s ↔ (a, c, e, h, s) ∈ x.all := by
  rw [FinExec.is_iff]
  simp only [FinExec.all, List.mem_flatMap, List.mem_range, List.mem_map, Option.mem_toList]
  constructor
  · intro k
    refine ⟨a, ?_, _, k, rfl⟩
    simp only [FinExec.get, Option.bind_eq_some_iff] at k
    obtain ⟨v, h1, _⟩ := k
    exact (List.getElem?_eq_some_iff.mp h1).1
  · rintro ⟨a', _, v, h1, h2⟩
    cases h2
    exact h1

/-- What has to be checked of two events. -/
def FinExec.pairOk (x : FinExec) : (Nat × Nat × Nat × Bool × Act) → (Nat × Nat × Nat × Bool × Act) → Bool
  | (a, c, e, h, s), (b, d, f, k, t) =>
    (!(h && k && (x.call c).turn == (x.call d).turn) || c == d) &&
    (!(h && k && decide ((x.call c).turn < (x.call d).turn)) || decide (a < b)) &&
    (!(c == d && e == f && isMake s && !isMake t && t != .lock) || decide (a < b))

/-- What has to be checked of one event. -/
def FinExec.oneOk (x : FinExec) : (Nat × Nat × Nat × Bool × Act) → Bool
  | (b, d, e, k, t) =>
    (!isMake t || d == 0) &&
    (!(k && ((field t).map fun f => !f.ofCache).getD false) || d == 0 || decide ((x.call 0).turn < (x.call d).turn)) &&
    (k || x.all.any fun o => o.2.2.1 == e && o.2.2.2.1 && o.2.2.2.2 == .obtain && (x.call o.2.1).thread == (x.call d).thread && decide (o.1 < b))

theorem FinExec.valid {x : FinExec} (h2 : ∀ p ∈ x.all, ∀ q ∈ x.all, x.pairOk p q = true) (h1 : ∀ p ∈ x.all, x.oneOk p = true) : x.exec.Valid where
  turns a b c d e f s t ha hb ht := by
    have := h2 _ (mem_all.mp ha) _ (mem_all.mp hb)
    have ht : (x.call c).turn = (x.call d).turn := ht
    simp only [pairOk, Bool.and_eq_true] at this
    simpa [ht] using this.1.1
  numbered a b k := by
    induction k with
    | sb _ _ _ lt => exact lt
    | @mutex a b c d e f s t ha hb lt =>
      have := h2 _ (mem_all.mp ha) _ (mem_all.mp hb)
      have lt : (x.call c).turn < (x.call d).turn := lt
      simp only [pairOk, Bool.and_eq_true] at this
      simpa [lt] using this.1.2
    | ext h => exact h.elim
    | trans _ _ i j => exact Nat.lt_trans i j
  made a c e h s ha hm := by
    have := h1 _ (mem_all.mp ha)
    simp only [oneOk, Bool.and_eq_true] at this
    simpa [hm, exec] using this.1.1
  first a b c e h k s t ha hb hm ht hl := by
    have := h2 _ (mem_all.mp ha) _ (mem_all.mp hb)
    simp only [pairOk, Bool.and_eq_true] at this
    simpa [hm, ht, hl] using this.2
  reached b d e t f hb hf hc := by
    have := h1 _ (mem_all.mp hb)
    simp only [oneOk, Bool.and_eq_true] at this
    simpa [hf, hc, exec] using this.1.2
  held b d e t hb := by
    have := h1 _ (mem_all.mp hb)
    simp only [oneOk, Bool.and_eq_true, Bool.false_or] at this
    obtain ⟨⟨o, c, e', k, s⟩, hm, ho⟩ := List.any_eq_true.mp this.2
    simp only [Bool.and_eq_true, beq_iff_eq, decide_eq_true_eq] at ho
    obtain ⟨⟨⟨⟨rfl, rfl⟩, rfl⟩, ht⟩, hlt⟩ := ho
    exact ⟨o, c, mem_all.mpr hm, .sb (mem_all.mpr hm) hb ht hlt⟩

/-- Nothing that comes after `r` in its thread, and no mutex: then `r` happens before nothing. -/
def FinExec.lastOk (x : FinExec) (r : Nat) : (Nat × Nat × Nat × Bool × Act) → (Nat × Nat × Nat × Bool × Act) → Bool
  | (a, c, _, h, _), (b, d, _, _, _) => a != r || (!h && !((x.call c).thread == (x.call d).thread && decide (a < b)))

theorem FinExec.last {x : FinExec} {r : Nat} (h : ∀ p ∈ x.all, ∀ q ∈ x.all, x.lastOk r p q = true) (b : Nat) : ¬ x.exec.HB r b := by
  intro k
  have : ∀ a b, x.exec.HB a b → a ≠ r := by
    intro a b k
    induction k with
    | @sb a b c d e f h' k' s t ha hb same lt =>
      intro hr
      have := h _ (mem_all.mp ha) _ (mem_all.mp hb)
      have same : (x.call c).thread = (x.call d).thread := same
      simp [lastOk, hr, same, hr ▸ lt] at this
    | @mutex a b c d e f s t ha hb lt =>
      intro hr
      have := h _ (mem_all.mp ha) _ (mem_all.mp hb)
      simp [lastOk, hr] at this
    | ext h => exact h.elim
    | trans _ _ i _ => exact i
  exact this r b k rfl

def FinExec.completeOk (x : FinExec) : (Nat × Nat × Nat × Bool × Act) → Bool
  | (a, c, _, h, _) => !h || ((x.all.any fun o => o.2.1 == c && o.2.2.2.1 && o.2.2.2.2 == .lock && decide (o.1 ≤ a)) &&
      x.all.any fun o => o.2.1 == c && o.2.2.2.1 && o.2.2.2.2 == .unlock && decide (a ≤ o.1))

theorem FinExec.complete {x : FinExec} (h : ∀ p ∈ x.all, x.completeOk p = true) : x.exec.Complete := by
  intro a c e s ha
  have := h _ (mem_all.mp ha)
  simp only [completeOk, Bool.not_true, Bool.false_or, Bool.and_eq_true, List.any_eq_true, beq_iff_eq, decide_eq_true_eq] at this
  obtain ⟨⟨⟨o, c1, e1, h1, s1⟩, m1, ⟨⟨rfl, rfl⟩, rfl⟩, l1⟩, ⟨o', c2, e2, h2, s2⟩, m2, ⟨⟨rfl, rfl⟩, rfl⟩, l2⟩ := this
  exact ⟨⟨o, e1, mem_all.mpr m1, l1⟩, o', e2, mem_all.mpr m2, l2⟩

/-- One thread puts an entry and later clears the cache; another finds the entry in between and updates its usage. -/
def zombieRace : FinExec where
  calls := [⟨.putEnc, 0, 0⟩, ⟨.findEntry, 1, 1⟩, ⟨.updateUsage, 1, 0⟩, ⟨.clear, 0, 2⟩]
  evs := [⟨0, 0, 7⟩, ⟨0, 14, 7⟩, ⟨0, 45, 7⟩, ⟨0, 46, 7⟩, ⟨1, 0, 7⟩, ⟨1, 19, 7⟩, ⟨1, 21, 7⟩, ⟨2, 0, 7⟩, ⟨3, 0, 7⟩, ⟨3, 11, 7⟩, ⟨3, 15, 7⟩]

/-- One thread puts an entry and later gives its time of expiry; another finds the entry in between and gives a time of expiry as well. -/
def expiryRace : FinExec where
  calls := [⟨.putEnc, 0, 0⟩, ⟨.findEntry, 1, 1⟩, ⟨.ttlHint, 1, 0⟩, ⟨.ttlHint, 0, 2⟩]
  evs := [⟨0, 0, 7⟩, ⟨0, 5, 7⟩, ⟨0, 45, 7⟩, ⟨0, 46, 7⟩, ⟨1, 0, 7⟩, ⟨1, 19, 7⟩, ⟨1, 21, 7⟩, ⟨2, 2, 7⟩, ⟨3, 3, 7⟩, ⟨3, 8, 7⟩, ⟨3, 12, 7⟩]

theorem race_of {x : FinExec} {f : Field} (h2 : ∀ p ∈ x.all, ∀ q ∈ x.all, x.pairOk p q = true) (h1 : ∀ p ∈ x.all, x.oneOk p = true)
    (hl : ∀ p ∈ x.all, ∀ q ∈ x.all, x.lastOk 7 p q = true) (ha : (7, 2, 7, false, Act.read f) ∈ x.all)
    (hb : (9, 3, 7, true, Act.write f) ∈ x.all) : x.exec.Race f 7 9 false true (.read f) (.write f) where
  acts := ⟨2, 3, 7, 7, FinExec.mem_all.mpr ha, FinExec.mem_all.mpr hb, .inr rfl⟩
  same := ⟨rfl, rfl⟩
  different := by decide
  conflict := ⟨fun h => by simp [isRead] at h, fun h => by simp [isAtomic] at h⟩
  unordered := ⟨FinExec.last hl 9, fun h => absurd ((FinExec.valid h2 h1).numbered _ _ h) (by decide)⟩

/-- One thread puts an entry; another finds it and copies its materials. -/
def copies : FinExec where
  calls := [⟨.putEnc, 0, 0⟩, ⟨.findEntry, 1, 1⟩, ⟨.getEnc, 1, 0⟩]
  evs := [⟨0, 0, 7⟩, ⟨0, 6, 7⟩, ⟨0, 45, 7⟩, ⟨0, 46, 7⟩, ⟨1, 0, 7⟩, ⟨1, 19, 7⟩, ⟨1, 21, 7⟩, ⟨2, 0, 7⟩]

end CacheFields

/-- **C111, refuted.**  There is an execution in which one thread clears the cache while another updates the usage of an entry that it holds, with a data
race on `zombie`. -/
theorem C111_zombie_refuted : ∃ x : Exec, x.Valid ∧ x.Complete ∧ (∃ c, (x.calls c).fn = .updateUsage ∧ x.Is 7 c 7 false (.read .zombie)) ∧
    (∃ c, (x.calls c).fn = .clear ∧ x.Is 9 c 7 true (.write .zombie)) ∧ x.Race .zombie 7 9 false true (.read .zombie) (.write .zombie) := by
  have h2 : ∀ p ∈ zombieRace.all, ∀ q ∈ zombieRace.all, zombieRace.pairOk p q = true := by decide +kernel
  have h1 : ∀ p ∈ zombieRace.all, zombieRace.oneOk p = true := by decide +kernel
  have ha : (7, 2, 7, false, Act.read .zombie) ∈ zombieRace.all := by decide +kernel
  have hb : (9, 3, 7, true, Act.write .zombie) ∈ zombieRace.all := by decide +kernel
  exact ⟨zombieRace.exec, FinExec.valid h2 h1, FinExec.complete (by decide +kernel), ⟨2, rfl, FinExec.mem_all.mpr ha⟩,
    ⟨3, rfl, FinExec.mem_all.mpr hb⟩, race_of h2 h1 (by decide +kernel) ha hb⟩

/-- **C111, refuted.**  There is an execution in which two threads give a time of expiry for an entry that both hold, with a data race on
`expiry_time`. -/
theorem C111_expiry_refuted : ∃ x : Exec, x.Valid ∧ x.Complete ∧ (∃ c, (x.calls c).fn = .ttlHint ∧ x.Is 7 c 7 false (.read .expiry)) ∧
    (∃ c, (x.calls c).fn = .ttlHint ∧ x.Is 9 c 7 true (.write .expiry)) ∧ x.Race .expiry 7 9 false true (.read .expiry) (.write .expiry) := by
  have h2 : ∀ p ∈ expiryRace.all, ∀ q ∈ expiryRace.all, expiryRace.pairOk p q = true := by decide +kernel
  have h1 : ∀ p ∈ expiryRace.all, expiryRace.oneOk p = true := by decide +kernel
  have ha : (7, 2, 7, false, Act.read .expiry) ∈ expiryRace.all := by decide +kernel
  have hb : (9, 3, 7, true, Act.write .expiry) ∈ expiryRace.all := by decide +kernel
  exact ⟨expiryRace.exec, FinExec.valid h2 h1, FinExec.complete (by decide +kernel), ⟨2, rfl, FinExec.mem_all.mpr ha⟩,
    ⟨3, rfl, FinExec.mem_all.mpr hb⟩, race_of h2 h1 (by decide +kernel) ha hb⟩

/-- An execution to which `C111_no_race_partial` applies: the materials that one thread writes happen before the other copies them. -/
example : ∃ x : Exec, x.Valid ∧ (∀ a c e f, (f = .zombie ∨ f = .expiry) → ¬ x.Is a c e false (.read f)) ∧
    x.Is 1 0 7 true (.make .encMaterials) ∧ x.Is 7 2 7 false (.read .encMaterials) ∧ x.HB 1 7 := by
  have h2 : ∀ p ∈ copies.all, ∀ q ∈ copies.all, copies.pairOk p q = true := by decide +kernel
  have h1 : ∀ p ∈ copies.all, copies.oneOk p = true := by decide +kernel
  have ha : copies.exec.Is 1 0 7 true (.make .encMaterials) := FinExec.mem_all.mpr (by decide +kernel)
  have hb : copies.exec.Is 7 2 7 false (.read .encMaterials) := FinExec.mem_all.mpr (by decide +kernel)
  refine ⟨copies.exec, FinExec.valid h2 h1, ?_, ha, hb, make_before (FinExec.valid h2 h1) ha rfl hb⟩
  intro a c e f hf k
  have h3 : ∀ p ∈ copies.all, p.2.2.2.1 = true ∨ (p.2.2.2.2 ≠ .read .zombie ∧ p.2.2.2.2 ≠ .read .expiry) := by decide +kernel
  rcases h3 _ (FinExec.mem_all.mp k) with h | h
  · cases h
  · rcases hf with rfl | rfl
    · exact h.1 rfl
    · exact h.2 rfl

end Verif.Props
