import Verif.Proof.MemoryOrder
/-
Finite executions, to be checked by evaluation.
-/
namespace Verif.Proof.MemoryOrder
open Verif.MemoryOrder Verif.Spec.MemoryOrder

/-- A finite execution with the references of its events. -/
structure FinExec where
  evs : List Kind
  sb : List (Nat × Nat)
  ext : List (Nat × Nat)
  make : Nat
  mo : List Nat
  gave : Nat → Nat
  under : Nat → Nat

namespace FinExec

def exec (x : FinExec) : Exec where
  events a := x.evs[a]?
  sb a b := (a, b) ∈ x.sb
  ext a b := (a, b) ∈ x.ext
  make := x.make
  mo := x.mo

abbrev BeforeB (x : FinExec) (a b : Nat) : Prop := ∃ i, i < x.mo.length ∧ ∃ j, j < x.mo.length ∧ i < j ∧ x.mo[i]? = some a ∧ x.mo[j]? = some b

theorem before_iff (x : FinExec) (a b : Nat) : x.BeforeB a b ↔ x.exec.Before a b := by
  constructor
  · rintro ⟨i, _, j, _, h, h1, h2⟩; exact ⟨i, j, h, h1, h2⟩
  · rintro ⟨i, j, h, h1, h2⟩; exact ⟨i, index_lt h1, j, index_lt h2, h, h1, h2⟩

def isRel (x : FinExec) (a : Nat) : Bool := match x.evs[a]? with | some (.count _ o) => Order.releases o | _ => false
def isAcq (x : FinExec) (a : Nat) : Bool := match x.evs[a]? with | some (.count _ o) => Order.acquires o | _ => false

def syncs (x : FinExec) : List (Nat × Nat) :=
  (x.mo.flatMap (fun a => x.mo.map (fun b => (a, b)))).filter (fun p => decide (x.BeforeB p.1 p.2) && x.isRel p.1 && x.isAcq p.2)

theorem mem_syncs (x : FinExec) (a b : Nat) : (a, b) ∈ x.syncs ↔ x.exec.Sync a b := by
  have h1 : x.isRel a = true ↔ ∃ s o, x.exec.events a = some (.count s o) ∧ Order.releases o = true := by
    unfold isRel exec
    simp only
    split
    · rename_i s o h
      constructor
      · intro k; exact ⟨s, o, h, k⟩
      · rintro ⟨s', o', e, k⟩
        rw [h] at e; cases e; exact k
    · rename_i h
      constructor
      · intro k; cases k
      · rintro ⟨s, o, k, _⟩; exact absurd k (h s o)
  have h2 : x.isAcq b = true ↔ ∃ s o, x.exec.events b = some (.count s o) ∧ Order.acquires o = true := by
    unfold isAcq exec
    simp only
    split
    · rename_i s o h
      constructor
      · intro k; exact ⟨s, o, h, k⟩
      · rintro ⟨s', o', e, k⟩
        rw [h] at e; cases e; exact k
    · rename_i h
      constructor
      · intro k; cases k
      · rintro ⟨s, o, k, _⟩; exact absurd k (h s o)
  unfold syncs Exec.Sync
  rw [List.mem_filter, ← h1, ← h2, ← before_iff]
  simp only [Bool.and_eq_true, decide_eq_true_eq]
  constructor
  · rintro ⟨_, ⟨h, r⟩, q⟩; exact ⟨h, r, q⟩
  · rintro ⟨h, r, q⟩
    refine ⟨?_, ⟨h, r⟩, q⟩
    obtain ⟨i, _, j, _, _, hi, hj⟩ := h
    exact List.mem_flatMap.mpr ⟨a, List.mem_of_getElem? hi, List.mem_map.mpr ⟨b, List.mem_of_getElem? hj, rfl⟩⟩

/-- One round of the transitive closure. -/
def grow (r : List (Nat × Nat)) : List (Nat × Nat) :=
  (r ++ r.flatMap (fun p => (r.filter (fun q => p.2 == q.1)).map (fun q => (p.1, q.2)))).eraseDups

/-- Four rounds. -/
def hb (x : FinExec) : List (Nat × Nat) := grow (grow (grow (grow (x.sb ++ x.ext ++ x.syncs))))

theorem grow_sound {x : FinExec} {r : List (Nat × Nat)} (h : ∀ p ∈ r, x.exec.HB p.1 p.2) : ∀ p ∈ grow r, x.exec.HB p.1 p.2 := by
  intro p hp
  unfold grow at hp
  rw [List.mem_eraseDups] at hp
  rcases List.mem_append.mp hp with hp | hp
  · exact h p hp
  · obtain ⟨q, hq, hp⟩ := List.mem_flatMap.mp hp
    obtain ⟨t, ht, rfl⟩ := List.mem_map.mp hp
    obtain ⟨ht, e⟩ := List.mem_filter.mp ht
    have e : q.2 = t.1 := by simpa using e
    exact (h q hq).trans (e ▸ h t ht)

theorem hb_sound (x : FinExec) : ∀ p ∈ x.hb, x.exec.HB p.1 p.2 := by
  refine grow_sound (grow_sound (grow_sound (grow_sound ?_)))
  intro p hp
  rcases List.mem_append.mp hp with hp | hp
  · rcases List.mem_append.mp hp with hp | hp
    · exact .sb hp
    · exact .ext hp
  · exact .sync ((mem_syncs x p.1 p.2).mp hp)

theorem mem_grow {r : List (Nat × Nat)} {p : Nat × Nat} (h : p ∈ r) : p ∈ grow r := by
  unfold grow
  rw [List.mem_eraseDups]
  exact List.mem_append_left _ h

theorem hb_complete (x : FinExec) (h : ∀ p ∈ x.hb, ∀ q ∈ x.hb, p.2 = q.1 → (p.1, q.2) ∈ x.hb) {a b : Nat} (k : x.exec.HB a b) : (a, b) ∈ x.hb := by
  have hbase : ∀ p ∈ x.sb ++ x.ext ++ x.syncs, p ∈ x.hb := fun p hp => mem_grow (mem_grow (mem_grow (mem_grow hp)))
  induction k with
  | sb h => exact hbase _ (List.mem_append_left _ (List.mem_append_left _ h))
  | ext h => exact hbase _ (List.mem_append_left _ (List.mem_append_right _ h))
  | sync h => exact hbase _ (List.mem_append_right _ ((mem_syncs x _ _).mpr h))
  | trans _ _ ih1 ih2 => exact h _ ih1 _ ih2 rfl

abbrev isCount (x : FinExec) (a : Nat) : Bool := (x.exec.site a).isSome
abbrev birth (x : FinExec) (r : Nat) : Bool := r == x.make || isUp x.exec r

/-- `d` gives up the reference under which `e` touches the object. -/
def ends (x : FinExec) (e d : Nat) : Bool :=
  decide (x.evs[e]? = some .use ∨ isUp x.exec e = true) && isDown x.exec d && decide (x.gave d = x.under e)

/-- Everything that has to be checked. -/
structure Good (x : FinExec) : Prop where
  closed : ∀ p ∈ x.hb, ∀ q ∈ x.hb, p.2 = q.1 → (p.1, q.2) ∈ x.hb
  acyclic : ∀ p ∈ x.hb, p.1 ≠ p.2
  nodup : x.mo.Nodup
  all1 : ∀ a ∈ x.mo, x.isCount a = true
  all2 : ∀ a, a < x.evs.length → x.isCount a = true → a ∈ x.mo
  coherent : ∀ p ∈ x.hb, p.1 ∈ x.mo → p.2 ∈ x.mo → x.BeforeB p.1 p.2
  made : x.evs[x.make]? = some .make ∧ ∀ a, a < x.evs.length → x.evs[a]? = some .make → a = x.make
  gives : ∀ d, d < x.evs.length → isDown x.exec d = true → x.birth (x.gave d) = true ∧ (x.gave d, d) ∈ x.hb
  once : ∀ d, d < x.evs.length → ∀ d', d' < x.evs.length → isDown x.exec d = true → isDown x.exec d' = true → x.gave d = x.gave d' → d = d'
  owner : ∀ e, e < x.evs.length → (x.evs[e]? = some .use ∨ isUp x.exec e = true) → x.birth (x.under e) = true ∧ (x.under e, e) ∈ x.hb
  keeps : ∀ e ∈ List.range x.evs.length, ∀ d ∈ List.range x.evs.length, x.ends e d = true → (e, d) ∈ x.hb
  frees : ∀ f, f < x.evs.length → x.evs[f]? = some .free → ∃ i, i < x.mo.length ∧ isDown x.exec (x.mo[i]?.getD 0) = true ∧
    destroysAt (x.exec.countAfter (x.mo.take i)) = true ∧ (x.mo[i]?.getD 0, f) ∈ x.sb
  range : x.mo.length < 2 ^ 64 - 1

theorem event_lt {x : FinExec} {a : Nat} {k : Kind} (h : x.exec.events a = some k) : a < x.evs.length :=
  (List.getElem?_eq_some_iff.mp h).1

theorem site_lt {x : FinExec} {a : Nat} {s : Site} (h : x.exec.site a = some s) : a < x.evs.length := by
  unfold Exec.site at h
  split at h
  · rename_i he; exact event_lt he
  · cases h

theorem birth_iff {x : FinExec} {r : Nat} : x.birth r = true ↔ x.exec.Birth r := by
  unfold birth Exec.Birth
  rw [Bool.or_eq_true, isUp_iff]
  simp [exec]

theorem isCount_iff {x : FinExec} {a : Nat} : x.isCount a = true ↔ ∃ s o, x.exec.events a = some (.count s o) := by
  unfold isCount Exec.site
  split
  · rename_i s o h; simp [h]
  · rename_i h
    constructor
    · intro k; cases k
    · rintro ⟨s, o, k⟩; exact absurd k (h s o)

theorem Good.consistent {x : FinExec} (h : x.Good) : x.exec.Consistent where
  acyclic a k := h.acyclic _ (hb_complete x h.closed k) rfl
  nodup := h.nodup
  all a := by
    rw [← isCount_iff]
    refine ⟨h.all1 a, fun k => h.all2 a ?_ k⟩
    obtain ⟨s, o, e⟩ := isCount_iff.mp k
    exact event_lt e
  coherent a b ha hb k := (before_iff x a b).mp (h.coherent _ (hb_complete x h.closed k) ha hb)

theorem Good.disciplined {x : FinExec} (h : x.Good) : x.exec.Disciplined x.gave x.under where
  made := ⟨h.made.1, fun a k => h.made.2 a (event_lt k) k⟩
  gives d k := by
    have := h.gives d (site_lt k.choose_spec.1) (isDown_iff.mpr k)
    exact ⟨birth_iff.mp this.1, hb_sound x _ this.2⟩
  once d d' k k' e := h.once d (site_lt k.choose_spec.1) d' (site_lt k'.choose_spec.1) (isDown_iff.mpr k) (isDown_iff.mpr k') e
  owner e k := by
    have hlt : e < x.evs.length := by
      rcases k with k | k
      · exact event_lt k
      · exact site_lt k.choose_spec.1
    have := h.owner e hlt (k.imp id isUp_iff.mpr)
    exact ⟨birth_iff.mp this.1, hb_sound x _ this.2,
      fun d hd hg => hb_sound x _ (h.keeps e (List.mem_range.mpr hlt) d (List.mem_range.mpr (site_lt hd.choose_spec.1)) (by
        simp only [ends, Bool.and_eq_true, decide_eq_true_eq]
        exact ⟨⟨k.imp id isUp_iff.mpr, isDown_iff.mpr hd⟩, hg⟩))⟩

theorem Good.frees' {x : FinExec} (h : x.Good) : x.exec.Frees := by
  intro f k
  obtain ⟨i, hi, h1, h2, h3⟩ := h.frees f (event_lt k) k
  have hget : x.mo[i]? = some x.mo[i] := List.getElem?_eq_getElem hi
  rw [hget] at h1 h3
  exact ⟨x.mo[i], _, isDown_iff.mp h1, ⟨i, hget, rfl⟩, h2, h3⟩

theorem Good.not_hb {x : FinExec} (h : x.Good) {a b : Nat} (k : (a, b) ∉ x.hb) : ¬ x.exec.HB a b := fun e => k (hb_complete x h.closed e)

end FinExec

end Verif.Proof.MemoryOrder
