import Verif.Spec.Memory

/-
Accounting for one block at a time: how often it is live, owned, and lost.
-/
namespace Verif.Memory

/-- How often an object owns a block. -/
def own (b : Nat) {α : Type} [Blocks α] (x : α) : Nat := (blocks x).count b

/-- How often a block is among those lost by some events. -/
def lostIn (b : Nat) (ev : List Event) : Nat := (ev.flatMap Event.lost).count b

/-- Every event came with a failure. -/
def Excused (h : Heap) : Prop := h.events = [] ∨ h.failed = true ∨ h.oversize = true

/-- No block is live twice, and new addresses are new. -/
def Fresh (h : Heap) : Prop := h.live.Nodup ∧ ∀ x ∈ h.live, x < h.next

/-- What holds of heaps whatever a program does. -/
structure Sound {α : Type} (f : MM α) : Prop where
  corrupt : ∀ h, Corrupt h → Corrupt (f h).2
  excused : ∀ h, Excused h → Excused (f h).2
  fresh : ∀ h, Fresh h → Fresh (f h).2

/-- Started owning `P` times block `b`, `f` ends owning it `Q` times, without faults at `b`; or something dangerous has happened. -/
structure Keeps (b : Nat) {α : Type} (f : MM α) (P : Nat) (Q : α → Nat) : Prop extends Sound f where
  count : ∀ h F, b ∉ h.faults → h.live.count b = P + F + lostIn b h.events →
    Corrupt (f h).2 ∨ (b ∉ (f h).2.faults ∧ (f h).2.live.count b = Q (f h).1 + F + lostIn b (f h).2.events)

class HasKeeps (b : Nat) {α : Type} (f : MM α) (P : outParam Nat) (Q : outParam (α → Nat)) : Prop where
  keeps : Keeps b f P Q

theorem Keeps.pure' {b : Nat} {α : Type} {a : α} {P : Nat} {Q : α → Nat} (h : P = Q a) : Keeps b (pure a : MM α) P Q where
  corrupt := fun _ h => h
  excused := fun _ h => h
  fresh := fun _ h => h
  count := fun hp F hf hc => Or.inr ⟨hf, by rw [h] at hc; exact hc⟩

theorem Keeps.bind' {b : Nat} {α β : Type} {f : MM α} {g : α → MM β} {Pf P : Nat} {Qf : α → Nat} {Q : β → Nat}
    (hf : Keeps b f Pf Qf) (hle : Pf ≤ P) (hg : ∀ R, P = Pf + R → ∀ r, Keeps b (g r) (Qf r + R) Q) : Keeps b (f >>= g) P Q := by
  obtain ⟨R, hR⟩ : ∃ R, P = Pf + R := ⟨P - Pf, by omega⟩
  refine ⟨⟨fun h hh => ?_, fun h hh => ?_, fun h hh => ?_⟩, fun h F hb hc => ?_⟩
  · exact (hg R hR _).corrupt _ (hf.corrupt h hh)
  · exact (hg R hR _).excused _ (hf.excused h hh)
  · exact (hg R hR _).fresh _ (hf.fresh h hh)
  · rcases hf.count h (F + R) hb (by omega) with h1 | ⟨h1, h2⟩
    · exact Or.inl ((hg R hR _).corrupt _ h1)
    · exact (hg R hR (f h).1).count (f h).2 F h1 (by omega)

theorem Keeps.bind2 {b : Nat} {α β γ : Type} {f : MM (α × β)} {g : α × β → MM γ} {Pf P : Nat} {Qf : α × β → Nat} {Q : γ → Nat}
    (hf : Keeps b f Pf Qf) (hle : Pf ≤ P) (hg : ∀ R, P = Pf + R → ∀ x y, Keeps b (g (x, y)) (Qf (x, y) + R) Q) : Keeps b (f >>= g) P Q :=
  Keeps.bind' hf hle (fun R hR r => hg R hR r.1 r.2)

theorem Keeps.bind3 {b : Nat} {α β δ γ : Type} {f : MM (α × β × δ)} {g : α × β × δ → MM γ} {Pf P : Nat} {Qf : α × β × δ → Nat} {Q : γ → Nat}
    (hf : Keeps b f Pf Qf) (hle : Pf ≤ P) (hg : ∀ R, P = Pf + R → ∀ x y z, Keeps b (g (x, y, z)) (Qf (x, y, z) + R) Q) :
    Keeps b (f >>= g) P Q :=
  Keeps.bind' hf hle (fun R hR r => hg R hR r.1 r.2.1 r.2.2)

theorem Keeps.bind4 {b : Nat} {α β δ ε γ : Type} {f : MM (α × β × δ × ε)} {g : α × β × δ × ε → MM γ} {Pf P : Nat}
    {Qf : α × β × δ × ε → Nat} {Q : γ → Nat}
    (hf : Keeps b f Pf Qf) (hle : Pf ≤ P) (hg : ∀ R, P = Pf + R → ∀ x y z w, Keeps b (g (x, y, z, w)) (Qf (x, y, z, w) + R) Q) :
    Keeps b (f >>= g) P Q :=
  Keeps.bind' hf hle (fun R hR r => hg R hR r.1 r.2.1 r.2.2.1 r.2.2.2)

/-- A last call. -/
theorem Keeps.last {b : Nat} {α : Type} {f : MM α} {Pf P : Nat} {Qf Q : α → Nat}
    (hf : Keeps b f Pf Qf) (hle : Pf ≤ P) (hg : ∀ R, P = Pf + R → ∀ r, Qf r + R = Q r) : Keeps b f P Q := by
  obtain ⟨R, hR⟩ : ∃ R, P = Pf + R := ⟨P - Pf, by omega⟩
  refine ⟨⟨hf.corrupt, hf.excused, hf.fresh⟩, fun h F hb hc => ?_⟩
  rcases hf.count h (F + R) hb (by omega) with h1 | ⟨h1, h2⟩
  · exact Or.inl h1
  · refine Or.inr ⟨h1, ?_⟩
    have := hg R hR (f h).1
    omega

/-! What objects own. -/
section own
variable {b : Nat} {α β : Type} [Blocks α] [Blocks β]
theorem own_bool (x : Bool) : own b x = 0 := rfl
theorem own_unit (x : Unit) : own b x = 0 := rfl
theorem own_none : own b (none : Option α) = 0 := rfl
theorem own_some (x : α) : own b (some x) = own b x := rfl
theorem own_pair (p : α × β) : own b p = own b p.1 + own b p.2 := by simp [own, blocks]
theorem own_nil : own b ([] : List α) = 0 := rfl
theorem own_cons (x : α) (xs : List α) : own b (x :: xs) = own b x + own b xs := by simp [own, blocks]
theorem own_append (xs ys : List α) : own b (xs ++ ys) = own b xs + own b ys := by simp [own, blocks]
theorem own_alist (d : Buf) (n : Nat) (xs : List α) : own b (AList.mk d n xs) = own b d + own b xs := by simp [own, blocks]
theorem own_edk (x y z : Buf) : own b (Edk.mk x y z) = own b x + (own b y + own b z) := by simp [own, blocks]
theorem own_rec (x y : Buf) : own b (Rec.mk x y) = own b x + own b y := by simp [own, blocks]
theorem own_ctx (t : Buf) (xs : List (Buf × Buf)) : own b (Ctx.mk t xs) = own b t + own b xs := by simp [own, blocks]
theorem own_encMat (m : EncMat) : own b m = own b m.self + (own b m.key + (own b m.edks + (own b m.trace + own b m.sig))) := by
  unfold own; simp only [blocks, List.count_append]
theorem own_decMat (m : DecMat) : own b m = own b m.self + (own b m.key + (own b m.trace + own b m.sig)) := by
  unfold own; simp only [blocks, List.count_append]
theorem own_encSt (s : EncSt) : own b s = own b s.key + (own b s.edks + own b s.trace) := by
  unfold own; simp only [blocks, List.count_append]
theorem own_decSt (s : DecSt) : own b s = own b s.key + own b s.trace := by unfold own; simp only [blocks, List.count_append]
theorem own_md (e s : Nat) : own b (Md.mk e s) = own b e + own b s := by unfold own; simp only [blocks, List.count_append]
theorem own_entry (e : Entry) :
    own b e = own b e.self + (own b e.id + (own b e.enc + (own b e.dec + (own b e.key + own b e.ctx)))) := by
  unfold own; simp only [blocks, List.count_append]
theorem own_cache (c : Cache) : own b c = own b c.self + (own b c.table + (own b c.heap + own b c.entries)) := by
  unfold own; simp only [blocks, List.count_append]
theorem own_hdr (h : Hdr) :
    own b h = own b h.ctx + (own b h.edks + (own b h.iv + (own b h.tag + (own b h.msgId + own b h.suiteData)))) := by
  unfold own; simp only [blocks, List.count_append]
theorem own_session (s : Session) : own b s = own b s.self + (own b s.hdr + (own b s.copy + (own b s.trace + own b s.sig))) := by
  unfold own; simp only [blocks, List.count_append]
theorem own_raw (r : Raw) : own b r = own b r.self + (own b r.name + (own b r.ns + (own b r.key1 + own b r.key2))) := by
  unfold own; simp only [blocks, List.count_append]
theorem own_ccmm (c : CCmm) : own b c = own b c.self + own b c.pid := by unfold own; simp only [blocks, List.count_append]
theorem own_objs (o : Objs) : own b o = own b o.sessions + (own b o.cache + (own b o.raws + own b o.ccmms)) := by
  unfold own; simp only [blocks, List.count_append]
end own

theorem lostIn_nil (b : Nat) : lostIn b [] = 0 := rfl

/-- Splits a list at a place. -/
theorem own_drop {b : Nat} {α : Type} [Blocks α] {xs : List α} {n : Nat} {ys : List α} (h : xs.drop n = ys) :
    own b xs = own b (xs.take n) + own b ys := by
  rw [← h, ← own_append, List.take_append_drop]

macro "owns" : tactic => `(tactic| (
  (try simp only [own_bool, own_unit, own_none, own_some, own_pair, own_nil, own_cons, own_append, own_alist, own_edk, own_rec, own_ctx,
    own_encMat, own_decMat, own_encSt, own_decSt, own_md, own_entry, own_cache, own_hdr, own_session, own_raw, own_ccmm, own_objs,
    lostIn_nil, if_true, if_false, Bool.false_eq_true, reduceCtorEq, Nat.zero_add, Nat.add_zero] at *)
  <;> first | done | omega))

/-- One step of a program: the call, then its cases. -/
macro "mstep" : tactic => `(tactic| first
  | ((with_reducible refine Keeps.pure' ?_); owns)
  | ((with_reducible refine Keeps.bind4 HasKeeps.keeps ?_ ?_); · owns
     intro R hR x y z w; try dsimp only at hR ⊢)
  | ((with_reducible refine Keeps.bind3 HasKeeps.keeps ?_ ?_); · owns
     intro R hR x y z; try dsimp only at hR ⊢)
  | ((with_reducible refine Keeps.bind2 HasKeeps.keeps ?_ ?_); · owns
     intro R hR x y; try dsimp only at hR ⊢)
  | ((with_reducible refine Keeps.bind' HasKeeps.keeps ?_ ?_); · owns
     intro R hR r)
  | ((with_reducible refine Keeps.last HasKeeps.keeps ?_ ?_); · owns
     intro R hR r; first | owns | (cases r <;> owns) | (rcases r with ⟨_ | _, r⟩ <;> owns))
  | (split <;> (try (rename_i heq; have := congrArg Prod.fst heq; clear this; cases heq)) <;> (try contradiction)))

macro "mm" : tactic => `(tactic| repeat' mstep)

/-! Primitives. -/

theorem mem_of_count {b : Nat} {l : List Nat} {n F : Nat} (h : l.count b = 1 + n + F) : b ∈ l := by
  apply List.count_pos_iff.mp; omega

instance (b : Nat) : HasKeeps b ask 0 (fun _ => 0) := ⟨{
  corrupt := fun _ h => h
  excused := fun _ h => h
  fresh := fun _ h => h
  count := fun _ _ hf hc => Or.inr ⟨hf, hc⟩ }⟩

instance (b : Nat) : HasKeeps b goesWell 0 (fun _ => 0) := ⟨by unfold goesWell; mm⟩

theorem corrupt_append {h : Heap} (ev : List Event) (hc : Corrupt h) (f o : Bool) :
    Corrupt { h with failed := f, oversize := o, events := ev ++ h.events } := by
  obtain ⟨e, he, hb⟩ := hc
  exact ⟨e, List.mem_append_right _ he, hb⟩

theorem lostIn_append (b : Nat) (xs ys : List Event) : lostIn b (xs ++ ys) = lostIn b xs + lostIn b ys := by
  simp [lostIn, List.flatMap_append]

theorem keeps_fails (b : Nat) (ev : List Event) : Keeps b (fails ev) (lostIn b ev) (fun _ => 0) where
  corrupt := fun _ h => corrupt_append ev h _ _
  excused := fun _ _ => Or.inr (Or.inl rfl)
  fresh := fun _ h => h
  count := fun h F hf hc => Or.inr ⟨hf, by
    show h.live.count b = 0 + F + lostIn b (ev ++ h.events)
    rw [lostIn_append]; omega⟩

instance (b : Nat) (ev : List Event) : HasKeeps b (fails ev) (lostIn b ev) (fun _ => 0) := ⟨keeps_fails b ev⟩

/-- After a dangerous event nothing is promised. -/
theorem keeps_fails_bad (b : Nat) {ev : List Event} (hbad : ∃ e ∈ ev, e.corrupting) (P : Nat) (Q : Unit → Nat) : Keeps b (fails ev) P Q where
  corrupt := fun _ h => corrupt_append ev h _ _
  excused := fun _ _ => Or.inr (Or.inl rfl)
  fresh := fun _ h => h
  count := fun h F _ _ => Or.inl (by
    obtain ⟨e, he, hb⟩ := hbad
    exact ⟨e, List.mem_append_left _ he, hb⟩)

theorem keeps_tooLong_bad (b : Nat) {ev : List Event} (hbad : ∃ e ∈ ev, e.corrupting) (P : Nat) (Q : Unit → Nat) : Keeps b (tooLong ev) P Q where
  corrupt := fun _ h => corrupt_append ev h _ _
  excused := fun _ _ => Or.inr (Or.inr rfl)
  fresh := fun _ h => h
  count := fun h F _ _ => Or.inl (by
    obtain ⟨e, he, hb⟩ := hbad
    exact ⟨e, List.mem_append_left _ he, hb⟩)

instance (b : Nat) : HasKeeps b acquire 0 (fun x => own b x) := ⟨{
  corrupt := fun _ h => h
  excused := fun _ h => h
  fresh := fun h hh => by
    refine ⟨List.nodup_cons.mpr ⟨fun hm => Nat.lt_irrefl _ (hh.2 _ hm), hh.1⟩, fun x hx => ?_⟩
    rcases List.mem_cons.mp hx with rfl | hx
    · exact Nat.lt_succ_self _
    · exact Nat.lt_succ_of_lt (hh.2 x hx)
  count := fun h F hf hc => Or.inr ⟨hf, by
    show (h.next :: h.live).count b = [h.next].count b + F + lostIn b h.events
    rw [List.count_cons, List.count_cons, List.count_nil]; omega⟩ }⟩

theorem own_nat (b x : Nat) : own b x = if x = b then 1 else 0 := by
  show [x].count b = _
  simp [List.count_cons]

instance (b x : Nat) : HasKeeps b (release x) (own b x) (fun _ => 0) := ⟨{
  corrupt := fun h hh => by unfold release; split <;> exact hh
  excused := fun h hh => by unfold release; split <;> exact hh
  fresh := fun h hh => by
    unfold release
    split
    · exact ⟨hh.1.erase x, fun y hy => hh.2 y (List.mem_of_mem_erase hy)⟩
    · exact hh
  count := fun h F hf hc => Or.inr (by
    rw [own_nat] at hc
    unfold release
    by_cases hx : x = b
    · subst hx
      rw [if_pos rfl] at hc
      rw [if_pos (List.count_pos_iff.mp (by omega))]
      exact ⟨hf, by show (h.live.erase x).count x = _; rw [List.count_erase_self, hc]; dsimp only; omega⟩
    · rw [if_neg hx] at hc
      split
      · exact ⟨hf, by show (h.live.erase x).count b = _; rw [List.count_erase_of_ne (fun e => hx e.symm), hc]⟩
      · refine ⟨?_, hc⟩
        intro hm
        rcases List.mem_cons.mp hm with h1 | h1
        · exact hx h1.symm
        · exact hf h1) }⟩

instance (b x : Nat) : HasKeeps b (use x) (own b x) (fun _ => own b x) := ⟨{
  corrupt := fun h hh => by unfold use; split <;> exact hh
  excused := fun h hh => by unfold use; split <;> exact hh
  fresh := fun h hh => by unfold use; split <;> exact hh
  count := fun h F hf hc => Or.inr (by
    rw [own_nat] at hc ⊢
    unfold use
    by_cases hx : x = b
    · subst hx
      rw [if_pos rfl] at hc ⊢
      rw [if_pos (List.count_pos_iff.mp (by omega))]
      exact ⟨hf, hc⟩
    · rw [if_neg hx] at hc ⊢
      split
      · exact ⟨hf, hc⟩
      · refine ⟨?_, hc⟩
        intro hm
        rcases List.mem_cons.mp hm with h1 | h1
        · exact hx h1.symm
        · exact hf h1) }⟩

instance (b : Nat) (ev : List Event) :
    HasKeeps b (alloc ev) (lostIn b ev) (fun r => match r with | none => 0 | some x => own b x + lostIn b ev) := ⟨by unfold alloc; mm⟩

theorem alloc_bad (b : Nat) {ev : List Event} (hbad : ∃ e ∈ ev, e.corrupting) (P X : Nat) :
    Keeps b (alloc ev) P (fun r => match r with | none => X | some x => own b x + P) := by
  unfold alloc
  mstep
  split
  · mm
  · exact Keeps.bind' (keeps_fails_bad b hbad P (fun _ => X)) (by omega) (fun R hR r => Keeps.pure' (by dsimp only at *; omega))

instance (b : Nat) (x : Buf) : HasKeeps b (freeBuf x) (own b x) (fun _ => 0) := ⟨by cases x <;> unfold freeBuf <;> mm⟩
instance (b : Nat) (x : Buf) : HasKeeps b (useBuf x) (own b x) (fun _ => own b x) := ⟨by cases x <;> unfold useBuf <;> mm⟩
instance (b : Nat) : HasKeeps b bufInit 0 (fun r => own b r) := ⟨by unfold bufInit; mm⟩

/-! Lists. -/

/-- Elements are released. -/
class Cleans (b : Nat) {α : Type} [Blocks α] (f : α → MM Unit) : Prop where
  cleans : ∀ x, Keeps b (f x) (own b x) (fun _ => 0)
/-- Elements are read. -/
class Reads (b : Nat) {α : Type} [Blocks α] (f : α → MM Unit) : Prop where
  reads : ∀ x, Keeps b (f x) (own b x) (fun _ => own b x)
/-- Elements are copied. -/
class Clones (b : Nat) {α : Type} [Blocks α] (f : α → MM (Option α)) : Prop where
  clones : ∀ x, Keeps b (f x) (own b x) (fun r => own b r + own b x)

section lists
variable {b : Nat} {α : Type} [Blocks α]

instance (f : α → MM Unit) [h : Cleans b f] (x : α) : HasKeeps b (f x) (own b x) (fun _ => 0) := ⟨h.cleans x⟩

theorem forEach_cleans (f : α → MM Unit) [h : Cleans b f] (xs : List α) : Keeps b (forEach f xs) (own b xs) (fun _ => 0) := by
  induction xs with
  | nil => unfold forEach; mm
  | cons x xs ih =>
    unfold forEach
    exact Keeps.bind' (h.cleans x) (by owns) (fun R hR r => Keeps.last ih (by owns) (fun R hR r => by owns))

theorem forEach_reads (f : α → MM Unit) [h : Reads b f] (xs : List α) : Keeps b (forEach f xs) (own b xs) (fun _ => own b xs) := by
  induction xs with
  | nil => unfold forEach; mm
  | cons x xs ih =>
    unfold forEach
    exact Keeps.bind' (h.reads x) (by owns) (fun R hR r => Keeps.last ih (by owns) (fun R hR r => by owns))

instance (n : Nat) : HasKeeps b (listInit n : MM (Option (AList α))) 0 (fun r => own b r) := ⟨by unfold listInit; mm⟩

instance (l : AList α) (x : α) :
    HasKeeps b (push l x []) (own b l + own b x) (fun r => match r with | none => own b l + own b x | some l' => own b l') := ⟨by
  obtain ⟨d, n, xs⟩ := l
  unfold push; mm⟩

theorem push_bad {ev : List Event} (hbad : ∃ e ∈ ev, e.corrupting) (l : AList α) (x : α) (P X : Nat) :
    Keeps b (push l x ev) (own b l + own b x + P) (fun r => match r with | none => X | some l' => own b l' + P) := by
  obtain ⟨d, n, xs⟩ := l
  unfold push
  split
  · mm
  · refine Keeps.bind' (alloc_bad b hbad (own b (AList.mk d n xs) + own b x + P) X) (by omega) (fun R hR r => ?_)
    mm

/-- The push whose failure loses the element. -/
theorem push_drop {ev : List Event} (l : AList α) (x : α) (hx : lostIn b ev = own b x) :
    Keeps b (push l x ev) (own b l + own b x) (fun r => match r with | none => own b l | some l' => own b l') := by
  obtain ⟨d, n, xs⟩ := l
  unfold push
  mm

instance (f : α → MM Unit) [Cleans b f] (xs : List α) : HasKeeps b (forEach f xs) (own b xs) (fun _ => 0) := ⟨forEach_cleans f xs⟩

instance (f : α → MM Unit) [Cleans b f] (l : AList α) : HasKeeps b (listClear f l) (own b l) (fun r => own b r) := ⟨by
  obtain ⟨d, n, xs⟩ := l
  unfold listClear; mm⟩

instance (f : α → MM Unit) [Cleans b f] (l : AList α) : HasKeeps b (listCleanUp f l) (own b l) (fun _ => 0) := ⟨by
  obtain ⟨d, n, xs⟩ := l
  unfold listCleanUp; mm⟩

theorem transferLoop_rest (xs : List α) : ∀ (d : AList α) (X : AList α → Nat),
    Keeps b (transferLoop false xs d) (own b d + own b xs) (fun r => if r.1 then own b r.2 else X r.2) := by
  induction xs with
  | nil => intro d X; unfold transferLoop; mm
  | cons x xs ih =>
    intro d X
    unfold transferLoop
    refine Keeps.bind' (push_bad ⟨.transferPartly, List.mem_singleton.mpr rfl, trivial⟩ d x (own b xs) (X d)) (by owns) (fun R hR r => ?_)
    split
    · mm
    · exact Keeps.last (ih _ X) (by owns) (fun R hR r => by rcases r with ⟨_ | _, r⟩ <;> owns)

instance (d : AList α) (xs : List α) :
    HasKeeps b (transferLoop true xs d) (own b d + own b xs) (fun r => if r.1 then own b r.2 else own b r.2 + own b xs) := ⟨by
  cases xs with
  | nil => unfold transferLoop; mm
  | cons x xs =>
    unfold transferLoop
    rw [if_pos rfl]
    mstep
    split
    · mm
    · exact Keeps.last (transferLoop_rest xs _ (fun r => own b r + own b (x :: xs))) (by owns)
        (fun R hR r => by rcases r with ⟨_ | _, r⟩ <;> owns)⟩

/-- Lists are handed over as a whole, or not at all; or something dangerous has happened. -/
instance (d l : AList α) : HasKeeps b (transfer d l) (own b d + own b l) (fun r => own b r) := ⟨by
  obtain ⟨ld, n, xs⟩ := l
  unfold transfer
  mstep
  mstep
  rename_i r
  rcases r with ⟨_ | _, r⟩ <;> mm⟩

theorem copyLoop_keeps (clone : α → MM (Option α)) (clean : α → MM Unit) [h1 : Clones b clone] [h2 : Cleans b clean] (xs : List α) :
    ∀ d : AList α, Keeps b (copyLoop clone clean xs d) (own b d + own b xs) (fun r => own b r.2 + own b xs) := by
  induction xs with
  | nil => intro d; unfold copyLoop; mm
  | cons x xs ih =>
    intro d
    unfold copyLoop
    refine Keeps.bind' (h1.clones x) (by owns) (fun R hR r => ?_)
    split
    · mm
    · mstep
      split
      · mm
      · exact Keeps.last (ih _) (by owns) (fun R hR r => by owns)

instance (clone : α → MM (Option α)) (clean : α → MM Unit) [Clones b clone] [Cleans b clean] (xs : List α) (d : AList α) :
    HasKeeps b (copyLoop clone clean xs d) (own b d + own b xs) (fun r => own b r.2 + own b xs) := ⟨copyLoop_keeps clone clean xs d⟩

instance (clone : α → MM (Option α)) (clean : α → MM Unit) [Clones b clone] [Cleans b clean] (d l : AList α) :
    HasKeeps b (copyAll clone clean d l) (own b d + own b l) (fun r => own b r.2 + own b l) := ⟨by
  obtain ⟨ld, n, xs⟩ := l
  unfold copyAll
  mstep
  split
  · mm
  · mstep
    mstep
    rename_i ok e
    obtain ⟨ed, en, es⟩ := e
    have hs : own b es = own b (es.take d.items.length) + own b (es.drop d.items.length) := own_drop rfl
    mm⟩

end lists

/-! EDKs, traces, contexts. -/
section small
variable {b : Nat}

instance (e : Edk) : HasKeeps b (edkCleanUp e) (own b e) (fun _ => 0) := ⟨by obtain ⟨x, y, z⟩ := e; unfold edkCleanUp; mm⟩
instance : Cleans b edkCleanUp := ⟨fun _ => HasKeeps.keeps⟩
instance : HasKeeps b newEdk 0 (fun r => own b r) := ⟨by unfold newEdk; mm⟩
instance (e : Edk) : HasKeeps b (readEdk e) (own b e) (fun _ => own b e) := ⟨by obtain ⟨x, y, z⟩ := e; unfold readEdk; mm⟩
instance : Reads b readEdk := ⟨fun _ => HasKeeps.keeps⟩
instance (es : List Edk) : HasKeeps b (forEach readEdk es) (own b es) (fun _ => own b es) := ⟨forEach_reads _ _⟩
instance : Clones b cloneEdk := ⟨fun e => by unfold cloneEdk; mm⟩
instance : HasKeeps b edkListInit 0 (fun r => own b r) := ⟨by unfold edkListInit; mm⟩
instance (l : AList Edk) : HasKeeps b (appendEdk l) (own b l) (fun r => own b r) := ⟨by unfold appendEdk; mm⟩
instance (e : Rec) : HasKeeps b (recCleanUp e) (own b e) (fun _ => 0) := ⟨by obtain ⟨x, y⟩ := e; unfold recCleanUp; mm⟩
instance : Cleans b recCleanUp := ⟨fun _ => HasKeeps.keeps⟩
instance : HasKeeps b newRec 0 (fun r => own b r) := ⟨by unfold newRec; mm⟩
instance (e : Rec) : HasKeeps b (readRec e) (own b e) (fun _ => own b e) := ⟨by obtain ⟨x, y⟩ := e; unfold readRec; mm⟩
instance : Reads b readRec := ⟨fun _ => HasKeeps.keeps⟩
instance (es : List Rec) : HasKeeps b (forEach readRec es) (own b es) (fun _ => own b es) := ⟨forEach_reads _ _⟩
instance : Clones b cloneRec := ⟨fun e => by unfold cloneRec; mm⟩
instance : HasKeeps b traceInit 0 (fun r => own b r) := ⟨by unfold traceInit; mm⟩
instance (l : AList Rec) : HasKeeps b (addRecord l) (own b l) (fun r => own b r) := ⟨by unfold addRecord; mm⟩
instance (p : Buf × Buf) : HasKeeps b (pairCleanUp p) (own b p) (fun _ => 0) := ⟨by obtain ⟨x, y⟩ := p; unfold pairCleanUp; mm⟩
instance : Cleans b pairCleanUp := ⟨fun _ => HasKeeps.keeps⟩
instance : HasKeeps b ctxInit 0 (fun r => own b r) := ⟨by unfold ctxInit; mm⟩
instance (c : Ctx) : HasKeeps b (ctxClear c) (own b c) (fun r => own b r) := ⟨by obtain ⟨t, xs⟩ := c; unfold ctxClear; mm⟩
instance (c : Ctx) : HasKeeps b (ctxCleanUp c) (own b c) (fun _ => 0) := ⟨by obtain ⟨t, xs⟩ := c; unfold ctxCleanUp; mm⟩
instance (t : Buf) : HasKeeps b (tableGrow t) (own b t) (fun r => match r with | none => own b t | some t' => own b t') := ⟨by unfold tableGrow; mm⟩
instance (c : Ctx) (p : Buf × Buf) : HasKeeps b (ctxPut c p) (own b c + own b p)
    (fun r => own b r.2 + match r.1 with | none => own b p | some _ => 0) := ⟨by
  obtain ⟨t, xs⟩ := c
  unfold ctxPut
  mstep
  mstep
  split
  · mm
  · split
    · mm
    · rename_i heq
      have := own_drop (b := b) heq
      mm⟩

theorem deserializeLoop_keeps (n : Nat) : ∀ c : Ctx, Keeps b (deserializeLoop n c) (own b c) (fun r => own b r) := by
  induction n with
  | zero => intro c; unfold deserializeLoop; mm
  | succ n ih =>
    intro c
    have : ∀ c, HasKeeps b (deserializeLoop n c) (own b c) (fun r => own b r) := fun c => ⟨ih c⟩
    unfold deserializeLoop
    mm

instance (n : Nat) (c : Ctx) : HasKeeps b (deserializeLoop n c) (own b c) (fun r => own b r) := ⟨deserializeLoop_keeps n c⟩
instance (n : Nat) (c : Ctx) : HasKeeps b (ctxDeserialize n c) (own b c) (fun r => own b r) := ⟨by unfold ctxDeserialize; mm⟩
instance (x : Buf) : HasKeeps b (cloneStr x) (own b x) (fun r => own b r + own b x) := ⟨by cases x <;> unfold cloneStr <;> mm⟩

theorem cloneDrop_keeps (xs : List (Buf × Buf)) : Keeps b (cloneDrop xs) (own b xs) (fun r => own b r) := by
  induction xs with
  | nil => unfold cloneDrop; mm
  | cons x xs ih =>
    have : HasKeeps b (cloneDrop xs) (own b xs) (fun r => own b r) := ⟨ih⟩
    unfold cloneDrop
    mm

instance (xs : List (Buf × Buf)) : HasKeeps b (cloneDrop xs) (own b xs) (fun r => own b r) := ⟨cloneDrop_keeps xs⟩

instance (c : Ctx) (p : Buf × Buf) : HasKeeps b (cloneStep c p) (own b c + own b p) (fun r => own b r + own b p) := ⟨by
  obtain ⟨t, xs⟩ := c
  obtain ⟨pk, pv⟩ := p
  unfold cloneStep
  mstep
  split
  · mm
  · split
    · mm
    · rename_i heq
      have := own_drop (b := b) heq
      rename_i old rest
      obtain ⟨o1, o2⟩ := old
      mm⟩

theorem cloneLoop_keeps (ps : List (Buf × Buf)) : ∀ c : Ctx, Keeps b (cloneLoop ps c) (own b c + own b ps) (fun r => own b r + own b ps) := by
  induction ps with
  | nil => intro c; unfold cloneLoop; mm
  | cons p ps ih =>
    intro c
    have : ∀ c, HasKeeps b (cloneLoop ps c) (own b c + own b ps) (fun r => own b r + own b ps) := fun c => ⟨ih c⟩
    unfold cloneLoop
    mm

instance (ps : List (Buf × Buf)) (c : Ctx) : HasKeeps b (cloneLoop ps c) (own b c + own b ps) (fun r => own b r + own b ps) :=
  ⟨cloneLoop_keeps ps c⟩
instance (d c : Ctx) : HasKeeps b (ctxClone d c) (own b d + own b c) (fun r => own b r + own b c) := ⟨by
  obtain ⟨dt, ds⟩ := d
  obtain ⟨ct, cs⟩ := c
  unfold ctxClone; mm⟩
instance : HasKeeps b serializeCtx 0 (fun _ => 0) := ⟨by unfold serializeCtx; mm⟩
instance : HasKeeps b serializeAad 0 (fun r => own b r) := ⟨by unfold serializeAad; mm⟩
instance : HasKeeps b encMatNew 0 (fun r => own b r) := ⟨by unfold encMatNew; mm⟩
instance : HasKeeps b decMatNew 0 (fun r => own b r) := ⟨by unfold decMatNew; mm⟩
instance (m : EncMat) : HasKeeps b (encMatDestroy m) (own b m) (fun _ => 0) := ⟨by cases m; unfold encMatDestroy; mm⟩
instance (m : DecMat) : HasKeeps b (decMatDestroy m) (own b m) (fun _ => 0) := ⟨by cases m; unfold decMatDestroy; mm⟩
end small

/-! Keyrings. -/
section keyrings
variable {b : Nat}

instance : HasKeeps b newKey 0 (fun r => own b r) := ⟨by unfold newKey; mm⟩
instance (a : Bool) (l : AList Edk) : HasKeeps b (wrapKey a l) (own b l) (fun r => own b r) := ⟨by unfold wrapKey; mm⟩
instance (a : Bool) (st : EncSt) : HasKeeps b (rawOnEncrypt a st) (own b st) (fun r => own b r) := ⟨by
  obtain ⟨k, e, t⟩ := st
  unfold rawOnEncrypt
  mstep
  split
  · cases k <;> dsimp only <;> mm
  · mm⟩

theorem kmsLoop_keeps (n : Nat) : ∀ (e : AList Edk) (t : AList Rec), Keeps b (kmsLoop n e t) (own b e + own b t) (fun r => own b r) := by
  induction n with
  | zero => intro e t; unfold kmsLoop; mm
  | succ n ih =>
    intro e t
    have : ∀ e t, HasKeeps b (kmsLoop n e t) (own b e + own b t) (fun r => own b r) := fun e t => ⟨ih e t⟩
    unfold kmsLoop
    mm

instance (n : Nat) (e : AList Edk) (t : AList Rec) : HasKeeps b (kmsLoop n e t) (own b e + own b t) (fun r => own b r) := ⟨kmsLoop_keeps n e t⟩

instance (ok : Bool) (dE : AList Edk) (dT : AList Rec) (e : AList Edk) (t : AList Rec) :
    HasKeeps b (handOver ok dE dT e t) (own b dE + own b dT + own b e + own b t) (fun r => own b r) := ⟨by unfold handOver; mm⟩

instance (n : Nat) (st : EncSt) : HasKeeps b (kmsOnEncrypt n st) (own b st) (fun r => own b r) := ⟨by
  obtain ⟨k, e, t⟩ := st
  unfold kmsOnEncrypt
  cases k <;> dsimp only <;> mm⟩

theorem guardEnc_keeps {f : EncSt → MM (Bool × EncSt)} (hf : ∀ st, Keeps b (f st) (own b st) (fun r => own b r)) (st : EncSt) :
    Keeps b (guardEnc f st) (own b st) (fun r => own b r) := by
  have : ∀ st, HasKeeps b (f st) (own b st) (fun r => own b r) := fun st => ⟨hf st⟩
  unfold guardEnc
  mm

theorem multiOnEncrypt_keeps {g f : EncSt → MM (Bool × EncSt)} (hg : ∀ st, Keeps b (g st) (own b st) (fun r => own b r))
    (hf : ∀ st, Keeps b (f st) (own b st) (fun r => own b r)) (st : EncSt) : Keeps b (multiOnEncrypt g f st) (own b st) (fun r => own b r) := by
  have : ∀ st, HasKeeps b (f st) (own b st) (fun r => own b r) := fun st => ⟨hf st⟩
  have : ∀ st, HasKeeps b (g st) (own b st) (fun r => own b r) := fun st => ⟨hg st⟩
  obtain ⟨k, e, t⟩ := st
  unfold multiOnEncrypt
  mstep
  split
  · mm
  · mstep
    split
    · mm
    · mstep
      rename_i r
      obtain ⟨ok, ⟨mk, me, mt⟩⟩ := r
      dsimp only
      split
      · mstep
        rename_i r
        obtain ⟨ok, ⟨mk, me, mt⟩⟩ := r
        mm
      · mm

mutual
theorem onEncrypt_keeps : ∀ (kr : Kr) (st : EncSt), Keeps b (onEncrypt kr st) (own b st) (fun r => own b r)
  | .aes, st => by unfold onEncrypt; exact guardEnc_keeps (fun _ => HasKeeps.keeps) st
  | .rsa, st => by unfold onEncrypt; exact guardEnc_keeps (fun _ => HasKeeps.keeps) st
  | .kms n, st => by unfold onEncrypt; exact guardEnc_keeps (fun _ => HasKeeps.keeps) st
  | .multiGen g ks, st => by
    unfold onEncrypt
    exact guardEnc_keeps (fun st => multiOnEncrypt_keeps (onEncrypt_keeps g) (onEncryptAll_keeps ks) st) st
  | .multi ks, st => by
    unfold onEncrypt
    exact guardEnc_keeps (fun st => multiOnEncrypt_keeps (fun _ => Keeps.pure' (by owns)) (onEncryptAll_keeps ks) st) st
theorem onEncryptAll_keeps : ∀ (ks : Krs) (st : EncSt), Keeps b (onEncryptAll ks st) (own b st) (fun r => own b r)
  | .nil, st => by unfold onEncryptAll; mm
  | .cons k ks, st => by
    have : ∀ st, HasKeeps b (onEncrypt k st) (own b st) (fun r => own b r) := fun st => ⟨onEncrypt_keeps k st⟩
    have : ∀ st, HasKeeps b (onEncryptAll ks st) (own b st) (fun r => own b r) := fun st => ⟨onEncryptAll_keeps ks st⟩
    unfold onEncryptAll
    mm
end

instance (kr : Kr) (st : EncSt) : HasKeeps b (onEncrypt kr st) (own b st) (fun r => own b r) := ⟨onEncrypt_keeps kr st⟩

theorem aesOnDecrypt_keeps (edks : List Edk) (t : AList Rec) :
    Keeps b (aesOnDecrypt edks ⟨none, t⟩) (own b t + own b edks) (fun r => own b r + own b edks) := by unfold aesOnDecrypt; mm

theorem bufOnDecrypt_keeps (edks : List Edk) (t : AList Rec) :
    Keeps b (bufOnDecrypt edks ⟨none, t⟩) (own b t + own b edks) (fun r => own b r + own b edks) := by unfold bufOnDecrypt; mm

theorem guardDec_keeps {edks : List Edk} {f : DecSt → MM (Bool × DecSt)}
    (hf : ∀ t, Keeps b (f ⟨none, t⟩) (own b t + own b edks) (fun r => own b r + own b edks)) (st : DecSt) :
    Keeps b (guardDec f st) (own b st + own b edks) (fun r => own b r + own b edks) := by
  have : ∀ t, HasKeeps b (f ⟨none, t⟩) (own b t + own b edks) (fun r => own b r + own b edks) := fun t => ⟨hf t⟩
  obtain ⟨k, t⟩ := st
  unfold guardDec
  cases k <;> dsimp only [Option.isSome] <;> mm

mutual
theorem onDecrypt_keeps (edks : List Edk) : ∀ (kr : Kr) (st : DecSt),
    Keeps b (onDecrypt edks kr st) (own b st + own b edks) (fun r => own b r + own b edks)
  | .aes, st => by unfold onDecrypt; exact guardDec_keeps (aesOnDecrypt_keeps edks) st
  | .rsa, st => by unfold onDecrypt; exact guardDec_keeps (bufOnDecrypt_keeps edks) st
  | .kms n, st => by unfold onDecrypt; exact guardDec_keeps (bufOnDecrypt_keeps edks) st
  | .multiGen g ks, st => by
    unfold onDecrypt
    refine guardDec_keeps (fun t => ?_) st
    have : ∀ st, HasKeeps b (onDecrypt edks g st) (own b st + own b edks) (fun r => own b r + own b edks) := fun st => ⟨onDecrypt_keeps edks g st⟩
    have : ∀ ok st, HasKeeps b (onDecryptAny edks ks ok st) (own b st + own b edks) (fun r => own b r + own b edks) :=
      fun ok st => ⟨onDecryptAny_keeps edks ks ok st⟩
    mm
  | .multi ks, st => by
    unfold onDecrypt
    exact guardDec_keeps (fun t => Keeps.last (onDecryptAny_keeps edks ks true ⟨none, t⟩) (by owns) (fun R hR r => by owns)) st
theorem onDecryptAny_keeps (edks : List Edk) : ∀ (ks : Krs) (ok : Bool) (st : DecSt),
    Keeps b (onDecryptAny edks ks ok st) (own b st + own b edks) (fun r => own b r + own b edks)
  | .nil, ok, st => by unfold onDecryptAny; mm
  | .cons k ks, ok, st => by
    have : ∀ st, HasKeeps b (onDecrypt edks k st) (own b st + own b edks) (fun r => own b r + own b edks) := fun st => ⟨onDecrypt_keeps edks k st⟩
    have : ∀ ok st, HasKeeps b (onDecryptAny edks ks ok st) (own b st + own b edks) (fun r => own b r + own b edks) :=
      fun ok st => ⟨onDecryptAny_keeps edks ks ok st⟩
    unfold onDecryptAny
    mm
end

instance (edks : List Edk) (kr : Kr) (st : DecSt) :
    HasKeeps b (onDecrypt edks kr st) (own b st + own b edks) (fun r => own b r + own b edks) := ⟨onDecrypt_keeps edks kr st⟩

/-! The default CMM. -/

instance : HasKeeps b keygen 0 (fun r => own b r) := ⟨by unfold keygen; mm⟩
instance (c : Ctx) : HasKeeps b (signStart c) (own b c) (fun r => own b r) := ⟨by unfold signStart; mm⟩
instance (kr : Kr) (c : Ctx) : HasKeeps b (defaultGen kr c) (own b c) (fun r => own b r) := ⟨by
  unfold defaultGen
  mm⟩
instance (kr : Kr) (edks : List Edk) : HasKeeps b (defaultDec kr edks) (own b edks) (fun r => own b r + own b edks) := ⟨by
  unfold defaultDec
  mm⟩

end keyrings

/-! Digests. -/
section digests
variable {b : Nat}

instance (ev : List Event) : HasKeeps b (mdInit ev) (lostIn b ev)
    (fun r => match r with | none => 0 | some m => own b m + lostIn b ev) := ⟨by unfold mdInit; mm⟩
instance (m : Md) : HasKeeps b (mdAbort m) (own b m) (fun _ => 0) := ⟨by cases m; unfold mdAbort; mm⟩
instance (m : Md) : HasKeeps b (mdUpdate m []) (own b m) (fun _ => own b m) := ⟨by cases m; unfold mdUpdate; mm⟩
instance (m : Md) : HasKeeps b (mdFinish m []) (own b m) (fun _ => 0) := ⟨by unfold mdFinish; mm⟩

theorem lostIn_digest (m : Md) : lostIn b [Event.digestLost [m.evp, m.self]] = own b m := by
  simp [lostIn, Event.lost, own, blocks]

instance : HasKeeps b hashEnc 0 (fun _ => 0) := ⟨by
  unfold hashEnc
  mstep
  split
  · mm
  · rename_i m
    refine Keeps.bind' HasKeeps.keeps (by rw [lostIn_digest]; owns) (fun R hR r => ?_)
    rw [lostIn_digest] at hR ⊢
    mm⟩

theorem stale : ∃ e ∈ [Event.staleDigest], e.corrupting := ⟨_, List.mem_singleton.mpr rfl, trivial⟩

theorem mdInit_bad (P X : Nat) : Keeps b (mdInit [Event.staleDigest]) P (fun r => match r with | none => X | some m => own b m + P) := by
  unfold mdInit
  refine Keeps.bind' (alloc_bad b stale P X) (by omega) (fun R hR r => ?_)
  split
  · mm
  · rename_i e
    mstep
    split
    · refine Keeps.bind' (alloc_bad b stale (own b e + P) (X + own b e)) (by owns) (fun R hR r => ?_)
      mm
    · mstep
      refine Keeps.bind' (keeps_fails_bad b stale P (fun _ => X)) (by owns) (fun R hR r => ?_)
      mm

theorem mdUpdate_bad (m : Md) (P X : Nat) :
    Keeps b (mdUpdate m [Event.staleDigest]) (own b m + P) (fun r => if r then own b m + P else X) := by
  obtain ⟨e, s⟩ := m
  unfold mdUpdate
  mstep
  mstep
  mstep
  split
  · mm
  · refine Keeps.bind' (keeps_fails_bad b stale (own b (Md.mk e s) + P) (fun _ => X)) (by owns) (fun R hR r => ?_)
    mm

theorem hashFields_bad (m : Md) (P X : Nat) (n : Nat) :
    Keeps b (hashFields m n) (own b m + P) (fun r => if r then own b m + P else X) := by
  induction n with
  | zero => unfold hashFields; mm
  | succ n ih =>
    unfold hashFields
    mstep
    split
    · refine Keeps.bind' (mdUpdate_bad m P X) (by owns) (fun R hR r => ?_)
      cases r
      · simp only [Bool.false_eq_true, if_false]
        mm
      · simp only [if_true]
        exact Keeps.last ih (by owns) (fun R hR r => by cases r <;> owns)
    · refine Keeps.bind' (keeps_tooLong_bad b stale (own b m + P) (fun _ => X)) (by owns) (fun R hR r => ?_)
      mm

/-- Of a digest of an EDK that fails nothing is promised. -/
theorem hashEdk_bad (P X : Nat) : Keeps b hashEdk P (fun r => if r then P else X) := by
  unfold hashEdk
  refine Keeps.bind' (mdInit_bad P X) (by omega) (fun R hR r => ?_)
  split
  · mm
  · rename_i m
    refine Keeps.bind' (hashFields_bad m P (X + own b m) 3) (by owns) (fun R hR r => ?_)
    cases r
    · simp only [Bool.false_eq_true, if_false]
      mm
    · simp only [if_true]
      unfold mdFinish
      refine Keeps.bind' (mdUpdate_bad m P (X + own b m)) (by owns) (fun R hR r => ?_)
      cases r <;> mm

theorem hashEdks_bad (P X : Nat) (n : Nat) : Keeps b (hashEdks n) P (fun r => if r then P else X) := by
  induction n with
  | zero => unfold hashEdks; mm
  | succ n ih =>
    unfold hashEdks
    refine Keeps.bind' (hashEdk_bad P X) (by omega) (fun R hR r => ?_)
    cases r
    · simp only [Bool.false_eq_true, if_false]
      mm
    · simp only [if_true]
      exact Keeps.last ih (by owns) (fun R hR r => by cases r <;> owns)

instance (n : Nat) : HasKeeps b (hashDec n) 0 (fun _ => 0) := ⟨by
  unfold hashDec
  mstep
  split
  · mm
  · rename_i l
    have hl : own b l = own b l.data + own b l.items := by cases l; exact own_alist _ _ _
    have hz : own b l.items = 0 := by
      generalize l.items = xs
      induction xs with
      | nil => rfl
      | cons x xs ih => rw [own_cons, ih]; rfl
    mstep
    split
    · mm
    · rename_i m
      mstep
      split
      · mm
      · mstep
        split
        · mstep
          split
          · refine Keeps.bind' (hashEdks_bad 0 (own b m) n) (by owns) (fun R hR r => ?_)
            cases r
            · simp only [Bool.false_eq_true, if_false]
              mm
            · simp only [if_true]
              mm
          · mm
        · mm⟩

end digests

/-! The cache. -/
section cache
variable {b : Nat}

instance {α : Type} [Blocks α] (f : α → MM Unit) [Cleans b f] (x : Option α) : HasKeeps b (optDo f x) (own b x) (fun _ => 0) := ⟨by
  cases x with
  | none => unfold optDo; mm
  | some x => exact Cleans.cleans x⟩
instance : Cleans b encMatDestroy := ⟨fun _ => HasKeeps.keeps⟩
instance : Cleans b decMatDestroy := ⟨fun _ => HasKeeps.keeps⟩
instance : Cleans b ctxCleanUp := ⟨fun _ => HasKeeps.keeps⟩
instance (e : Entry) : HasKeeps b (entryDestroy e) (own b e) (fun _ => 0) := ⟨by unfold entryDestroy; mm⟩
instance : Cleans b entryDestroy := ⟨fun _ => HasKeeps.keeps⟩
instance : HasKeeps b newEntry 0 (fun r => own b r) := ⟨by unfold newEntry; mm⟩
instance (e : AList Edk) (t : AList Rec) (m : EncMat) :
    HasKeeps b (copyEnc e t m) (own b e + own b t + own b m) (fun r => own b r + own b m) := ⟨by unfold copyEnc; mm⟩
instance (t : AList Rec) (m : DecMat) :
    HasKeeps b (copyDec t m) (own b t + own b m) (fun r => own b r + own b m) := ⟨by unfold copyDec; mm⟩

theorem evict_keeps (n : Nat) : ∀ es : List Entry, Keeps b (evict n es) (own b es) (fun r => own b r) := by
  induction n with
  | zero => intro es; unfold evict; mm
  | succ n ih =>
    intro es
    have : ∀ es, HasKeeps b (evict n es) (own b es) (fun r => own b r) := fun es => ⟨ih es⟩
    unfold evict
    mstep
    split
    · mm
    · rename_i h
      have h := own_drop (b := b) h
      mm
instance (n : Nat) (es : List Entry) : HasKeeps b (evict n es) (own b es) (fun r => own b r) := ⟨evict_keeps n es⟩

instance (c : Cache) (e : Entry) :
    HasKeeps b (insertEntry c e) (own b c + own b e) (fun r => own b r.2 + if r.1 then 0 else own b e) := ⟨by unfold insertEntry; mm⟩
instance (c : Cache) (m : EncMat) (x : Ctx) :
    HasKeeps b (putEnc c m x) (own b c + own b m + own b x) (fun r => own b r + own b m + own b x) := ⟨by unfold putEnc; mm⟩
instance (c : Cache) (m : DecMat) :
    HasKeeps b (putDec c m) (own b c + own b m) (fun r => own b r + own b m) := ⟨by unfold putDec; mm⟩
instance (x : Buf) : HasKeeps b (ttlHint x) (own b x) (fun r => own b r) := ⟨by unfold ttlHint; mm⟩
instance (e : Entry) (x : Ctx) : HasKeeps b (getEnc e x) (own b x + own b e) (fun r => own b r + own b e) := ⟨by
  obtain ⟨_, _, m, _, _, c⟩ := e
  cases m <;> cases c <;> unfold getEnc <;> mm⟩
instance (e : Entry) : HasKeeps b (getDec e) (own b e) (fun r => own b r + own b e) := ⟨by
  obtain ⟨_, _, _, m, _, _⟩ := e
  cases m <;> unfold getDec <;> mm⟩
instance (c : Cache) (i : Nat) : HasKeeps b (dropAt c i) (own b c) (fun r => own b r) := ⟨by
  unfold dropAt
  split
  · mm
  · rename_i h
    have h := own_drop (b := b) h
    mm⟩
instance (kr : Kr) (x : Ctx) (c : Cache) : HasKeeps b (missEnc kr x c) (own b x + own b c) (fun r => own b r) := ⟨by unfold missEnc; mm⟩
instance (kr : Kr) (es : List Edk) (c : Cache) :
    HasKeeps b (missDec kr es c) (own b es + own b c) (fun r => own b r + own b es) := ⟨by unfold missDec; mm⟩

theorem cachingGen_keeps (kr : Kr) (x : Ctx) (c : Cache) : Keeps b (cachingGen kr x c) (own b x + own b c) (fun r => own b r) := by
  unfold cachingGen
  mstep
  split
  · mstep
    split
    · mstep
      mstep
      dsimp only
      mstep
      split
      · mm
      · rename_i h
        have h := own_drop (b := b) h
        mm
    · mm
  · mm
instance (kr : Kr) (x : Ctx) (c : Cache) : HasKeeps b (cachingGen kr x c) (own b x + own b c) (fun r => own b r) := ⟨cachingGen_keeps kr x c⟩

theorem cachingDec_keeps (kr : Kr) (edks : List Edk) (c : Cache) :
    Keeps b (cachingDec kr edks c) (own b edks + own b c) (fun r => own b r + own b edks) := by
  unfold cachingDec
  mstep
  split
  · mstep
    split
    · mstep
      mstep
      dsimp only
      mstep
      split
      · mm
      · rename_i h
        have h := own_drop (b := b) h
        mm
    · mm
  · mm
instance (kr : Kr) (edks : List Edk) (c : Cache) :
    HasKeeps b (cachingDec kr edks c) (own b edks + own b c) (fun r => own b r + own b edks) := ⟨cachingDec_keeps kr edks c⟩

instance : HasKeeps b cacheNew 0 (fun r => own b r) := ⟨by unfold cacheNew; mm⟩
instance (c : Cache) : HasKeeps b (cacheClear c) (own b c) (fun r => own b r) := ⟨by unfold cacheClear; mm⟩
instance (c : Cache) : HasKeeps b (cacheDestroy c) (own b c) (fun _ => 0) := ⟨by unfold cacheDestroy; mm⟩
instance : Cleans b cacheDestroy := ⟨fun _ => HasKeeps.keeps⟩

end cache

/-! Headers and sessions. -/
section sessions
variable {b : Nat}

instance : HasKeeps b hdrInit 0 (fun r => own b r) := ⟨by unfold hdrInit; mm⟩
instance (h : Hdr) : HasKeeps b (hdrBufs h) (own b h.iv + own b h.tag + own b h.msgId + own b h.suiteData) (fun _ => 0) := ⟨by
  unfold hdrBufs; mm⟩
instance (h : Hdr) : HasKeeps b (hdrClear h) (own b h) (fun r => own b r) := ⟨by unfold hdrClear; mm⟩
instance (h : Hdr) : HasKeeps b (hdrCleanUp h) (own b h) (fun _ => 0) := ⟨by unfold hdrCleanUp; mm⟩

theorem lostIn_edk (e : Edk) : lostIn b [Event.edkDropped (e.id.toList ++ e.info.toList ++ e.ct.toList)] = own b e := by
  obtain ⟨i, j, k⟩ := e
  cases i <;> cases j <;> cases k <;> simp [lostIn, Event.lost, own, blocks]

theorem parseEdks_keeps (n : Nat) : ∀ l : AList Edk, Keeps b (parseEdks n l) (own b l) (fun r => own b r) := by
  induction n with
  | zero => intro l; unfold parseEdks; mm
  | succ n ih =>
    intro l
    have : ∀ l, HasKeeps b (parseEdks n l) (own b l) (fun r => own b r) := fun l => ⟨ih l⟩
    unfold parseEdks
    mstep
    split
    · mm
    · rename_i e
      refine Keeps.bind' (push_drop l e (lostIn_edk e)) (by owns) (fun R hR r => ?_)
      mm
instance (n : Nat) (l : AList Edk) : HasKeeps b (parseEdks n l) (own b l) (fun r => own b r) := ⟨parseEdks_keeps n l⟩

instance : HasKeeps b parseTail 0 (fun r => own b r) := ⟨by unfold parseTail; mm⟩
instance (c : Ctx) (e : AList Edk) : HasKeeps b (parseSteps c e) (own b c + own b e) (fun r => own b r) := ⟨by unfold parseSteps; mm⟩
instance (h : Hdr) : HasKeeps b (hdrParse h) (own b h) (fun r => own b r) := ⟨by unfold hdrParse; mm⟩

instance (s : Session) : HasKeeps b (resetParts s) (own b s.hdr + own b s.copy + own b s.trace + own b s.sig) (fun r => own b r) := ⟨by
  unfold resetParts; mm⟩
instance (s : Session) : HasKeeps b (sessionReset s) (own b s) (fun r => own b r) := ⟨by unfold sessionReset; mm⟩
instance (a : Nat) (c : Ctx) (e : AList Edk) (t : AList Rec) :
    HasKeeps b (sessionFree a c e t) (own b a + own b c + own b e + own b t) (fun _ => 0) := ⟨by unfold sessionFree; mm⟩
instance : HasKeeps b sessionNew 0 (fun r => own b r) := ⟨by unfold sessionNew; mm⟩
instance (s : Session) : HasKeeps b (sessionDestroy s) (own b s) (fun _ => 0) := ⟨by unfold sessionDestroy; mm⟩
instance : Cleans b sessionDestroy := ⟨fun _ => HasKeeps.keeps⟩

instance : HasKeeps b headerBufs 0 (fun r => own b r) := ⟨by unfold headerBufs; mm⟩
instance (h : Hdr) (g : Buf) :
    HasKeeps b (signHeader h g) (own b h.edks + own b g) (fun r => own b r + own b h.edks + own b g) := ⟨by
  obtain ⟨c, ⟨d, n, es⟩, i, t, m, a⟩ := h
  unfold signHeader; mm⟩

instance (a : Nat) (c x : Ctx) (e : AList Edk) (t : AList Rec) (st : Stage) (m : EncMat) :
    HasKeeps b (takeMaterials ⟨a, ⟨c, e, none, none, none, none⟩, none, t, none, st⟩ x m)
      (own b a + own b e + own b t + own b x + own b m) (fun r => own b r) := ⟨by unfold takeMaterials; mm⟩

theorem genKey_keeps (kr : Kr) (caching : Bool) (a : Nat) (c : Ctx) (e : AList Edk) (t : AList Rec) (st : Stage) (cache : Option Cache) :
    Keeps b (genKey kr caching ⟨a, ⟨c, e, none, none, none, none⟩, none, t, none, st⟩ cache)
      (own b a + own b c + own b e + own b t + own b cache) (fun r => own b r) := by
  cases caching <;> cases cache <;> unfold genKey <;> mm

theorem fillLoop_keeps (n : Nat) : ∀ l : AList Unit, Keeps b (fillLoop n l) (own b l) (fun r => own b r) := by
  induction n with
  | zero => intro l; unfold fillLoop; mm
  | succ n ih =>
    intro l
    have : ∀ l, HasKeeps b (fillLoop n l) (own b l) (fun r => own b r) := fun l => ⟨ih l⟩
    unfold fillLoop
    mm
instance (n : Nat) (l : AList Unit) : HasKeeps b (fillLoop n l) (own b l) (fun r => own b r) := ⟨fillLoop_keeps n l⟩

theorem own_units (l : AList Unit) : own b l = own b l.data := by
  obtain ⟨d, n, xs⟩ := l
  rw [own_alist]
  have : own b xs = 0 := by
    induction xs with
    | nil => rfl
    | cons x xs ih => rw [own_cons, ih]; rfl
  rw [this]; rfl

instance (s : Session) : HasKeeps b (fillRequest s) 0 (fun r => own b r) := ⟨by
  unfold fillRequest
  mstep
  split
  · mm
  · mstep
    rename_i ok l'
    have := own_units (b := b) l'
    mm⟩

instance (a : Nat) (h : Hdr) (c : Buf) (t : AList Rec) (st : Stage) (m : DecMat) :
    HasKeeps b (takeDec ⟨a, h, c, t, none, st⟩ m) (own b a + own b h + own b c + own b t + own b m) (fun r => own b r) := ⟨by
  unfold takeDec; mm⟩

theorem unwrapKeys_keeps (kr : Kr) (caching : Bool) (a : Nat) (h : Hdr) (c : Buf) (t : AList Rec) (st : Stage) (cache : Option Cache) :
    Keeps b (unwrapKeys kr caching ⟨a, h, c, t, none, st⟩ cache) (own b a + own b h + own b c + own b t + own b cache)
      (fun r => own b r) := by
  obtain ⟨x, ⟨d, n, es⟩, i, g, m, y⟩ := h
  unfold unwrapKeys
  mstep
  split
  · mm
  · rename_i req
    have := own_units (b := b) req
    mm
instance (kr : Kr) (caching : Bool) (a : Nat) (h : Hdr) (c : Buf) (t : AList Rec) (st : Stage) (cache : Option Cache) :
    HasKeeps b (unwrapKeys kr caching ⟨a, h, c, t, none, st⟩ cache) (own b a + own b h + own b c + own b t + own b cache)
      (fun r => own b r) := ⟨unwrapKeys_keeps kr caching a h c t st cache⟩

theorem parseHeader_keeps (kr : Kr) (caching : Bool) (a : Nat) (h : Hdr) (t : AList Rec) (st : Stage) (cache : Option Cache) :
    Keeps b (parseHeader kr caching ⟨a, h, none, t, none, st⟩ cache) (own b a + own b h + own b t + own b cache)
      (fun r => own b r) := by
  unfold parseHeader; mm

instance (s : Session) : HasKeeps b (trailer s) (own b s) (fun r => own b r) := ⟨by
  obtain ⟨a, h, c, t, g, st⟩ := s
  cases g <;> unfold trailer <;> mm⟩
instance (s : Session) : HasKeeps b (readTrace s) (own b s.trace) (fun _ => own b s.trace) := ⟨by
  obtain ⟨a, h, c, ⟨d, n, xs⟩, g, st⟩ := s
  unfold readTrace; mm⟩
instance (s : Session) : HasKeeps b (userPut s) (own b s) (fun r => own b r) := ⟨by unfold userPut; mm⟩

end sessions

/-! Keyrings and caching CMMs as objects. -/
section objects
variable {b : Nat}

instance (r : Raw) : HasKeeps b (rawDestroy r) (own b r) (fun _ => 0) := ⟨by unfold rawDestroy; mm⟩
instance : Cleans b rawDestroy := ⟨fun _ => HasKeeps.keeps⟩
instance : HasKeeps b rawBegin 0 (fun r => own b r) := ⟨by unfold rawBegin; mm⟩
instance (s : Nat) (n ns : Buf) : HasKeeps b (rawUndo s n ns) (own b s + own b n + own b ns) (fun _ => 0) := ⟨by unfold rawUndo; mm⟩
instance : HasKeeps b aesNew 0 (fun r => own b r) := ⟨by unfold aesNew; mm⟩
instance (g : Bool) (ev : List Event) :
    HasKeeps b (rsaKey g ev) (lostIn b ev) (fun r => match r with | none => 0 | some q => own b q + lostIn b ev) := ⟨by
  unfold rsaKey; mm⟩
theorem lostIn_pub (x : Nat) : lostIn b [Event.publicKeyLost [x]] = own b x := by simp [lostIn, Event.lost, own, blocks]
instance (p q : Bool) : HasKeeps b (rsaNew p q) 0 (fun r => own b r) := ⟨by
  unfold rsaNew
  mstep
  split
  · mm
  · split
    · mstep
      split
      · mm
      · rename_i p
        cases p with
        | none => mm
        | some x => have := lostIn_pub (b := b) x; mm
    · mm⟩
instance (n : Bool) : HasKeeps b (partitionId n) 0 (fun r => own b r) := ⟨by unfold partitionId; mm⟩
theorem lostIn_pid (x : Nat) : lostIn b [Event.partitionIdLost [x]] = own b x := by simp [lostIn, Event.lost, own, blocks]
instance (n : Bool) : HasKeeps b (ccmmNew n) 0 (fun r => own b r) := ⟨by
  unfold ccmmNew
  mstep
  split
  · mm
  · rename_i x
    have := lostIn_pid (b := b) x; mm⟩
instance (c : CCmm) : HasKeeps b (ccmmDestroy c) (own b c) (fun _ => 0) := ⟨by unfold ccmmDestroy; mm⟩
instance : Cleans b ccmmDestroy := ⟨fun _ => HasKeeps.keeps⟩

theorem closeAll_keeps (o : Objs) : Keeps b (closeAll o) (own b o) (fun _ => 0) := by
  obtain ⟨s, c, r, m⟩ := o
  unfold closeAll; mm

end objects

/-! A session that is at its start has no buffers yet. -/

def Idle (s : Session) : Prop :=
  s.stage = .start → s.copy = none ∧ s.sig = none ∧ s.hdr.iv = none ∧ s.hdr.tag = none ∧ s.hdr.msgId = none ∧ s.hdr.suiteData = none

def Yields {α : Type} (f : MM α) (R : α → Prop) : Prop := ∀ h, R (f h).1

theorem Yields.pure' {α : Type} {a : α} {R : α → Prop} (h : R a) : Yields (pure a) R := fun _ => h
theorem Yields.bind' {α β : Type} {f : MM α} {g : α → MM β} {R : β → Prop} (h : ∀ r, Yields (g r) R) : Yields (f >>= g) R :=
  fun hp => h (f hp).1 (f hp).2
theorem Yields.bindOn {α β : Type} {f : MM α} {g : α → MM β} {Q : α → Prop} {R : β → Prop} (hf : Yields f Q)
    (h : ∀ r, Q r → Yields (g r) R) : Yields (f >>= g) R :=
  fun hp => h (f hp).1 (hf hp) (f hp).2

/-- All ends of a program are looked at. -/
macro "ends" : tactic => `(tactic| repeat' first
  | with_reducible refine Yields.pure' ?_
  | ((with_reducible refine Yields.bind' ?_); intro r)
  | split)

theorem sessionReset_idle (s : Session) : Yields (sessionReset s) Idle := by
  unfold sessionReset
  ends
  exact fun _ => ⟨rfl, rfl, rfl, rfl, rfl, rfl⟩

theorem sessionNew_idle : Yields sessionNew (fun r => ∀ s, r = some s → Idle s) := by
  unfold sessionNew
  ends
  all_goals intro s hs
  all_goals first | (cases hs; done) | (cases hs; exact fun _ => ⟨rfl, rfl, rfl, rfl, rfl, rfl⟩)

theorem takeMaterials_busy (s : Session) (x : Ctx) (m : EncMat) : Yields (takeMaterials s x m) (fun r => r.stage = .busy) := by
  unfold takeMaterials
  ends
  all_goals rfl

theorem genKey_idle (kr : Kr) (caching : Bool) (s : Session) (cache : Option Cache) :
    Yields (genKey kr caching s cache) (fun r => Idle r.1) := by
  unfold genKey
  split
  · refine Yields.bind' (fun r => ?_)
    split
    · exact Yields.pure' (fun h => by cases h)
    · refine Yields.bindOn (takeMaterials_busy _ _ _) (fun r hr => Yields.pure' (fun h => ?_))
      dsimp only at h
      rw [hr] at h; cases h
  · refine Yields.bind' (fun r => ?_)
    split
    · exact Yields.pure' (fun h => by cases h)
    · refine Yields.bindOn (takeMaterials_busy _ _ _) (fun r hr => Yields.pure' (fun h => ?_))
      dsimp only at h
      rw [hr] at h; cases h

theorem takeDec_stage (s : Session) (m : DecMat) : Yields (takeDec s m) (fun r => r.stage = s.stage) := by
  unfold takeDec
  ends
  all_goals rfl

theorem unwrapKeys_stage (kr : Kr) (caching : Bool) (s : Session) (cache : Option Cache) :
    Yields (unwrapKeys kr caching s cache) (fun r => r.1.stage = s.stage) := by
  unfold unwrapKeys
  refine Yields.bind' (fun r => ?_)
  split
  · exact Yields.pure' rfl
  · split
    · refine Yields.bind' (fun r => ?_)
      split
      · exact Yields.bind' (fun r => Yields.pure' rfl)
      · exact Yields.bindOn (takeDec_stage _ _) (fun r hr => Yields.bind' (fun r => Yields.pure' hr))
    · refine Yields.bind' (fun r => ?_)
      split
      · exact Yields.bind' (fun r => Yields.pure' rfl)
      · exact Yields.bindOn (takeDec_stage _ _) (fun r hr => Yields.bind' (fun r => Yields.pure' hr))

theorem hdrParse_empty (h : Hdr) : Yields (hdrParse h) (fun r => r.1 = false →
    r.2.iv = none ∧ r.2.tag = none ∧ r.2.msgId = none ∧ r.2.suiteData = none) := by
  unfold hdrParse
  refine Yields.bind' (fun r => ?_)
  refine Yields.bind' (fun r => ?_)
  split
  · exact Yields.pure' (fun h => by cases h)
  · exact Yields.bind' (fun r => Yields.pure' (fun _ => ⟨rfl, rfl, rfl, rfl⟩))

theorem parseHeader_idle (kr : Kr) (caching : Bool) (s : Session) (cache : Option Cache) (hs : Idle s) (h0 : s.stage = .start) :
    Yields (parseHeader kr caching s cache) (fun r => Idle r.1) := by
  unfold parseHeader
  refine Yields.bindOn (hdrParse_empty _) (fun r hr => ?_)
  split
  · obtain ⟨h1, h2, h3, h4⟩ := hr rfl
    refine Yields.bind' (fun r => ?_)
    split
    · exact Yields.pure' (fun _ => ⟨(hs h0).1, (hs h0).2.1, h1, h2, h3, h4⟩)
    · exact Yields.pure' (fun h => by cases h)
  · dsimp only
    refine Yields.bind' (fun r => ?_)
    split
    · exact Yields.pure' (fun h => by cases h)
    · intro h hh
      exact absurd ((unwrapKeys_stage kr caching _ cache h).symm.trans hh) (by intro h; cases h)

theorem trailer_idle (s : Session) (hs : Idle s) : Yields (trailer s) Idle := by
  unfold trailer
  split
  · exact Yields.pure' hs
  · rename_i g hg
    have hb : s.stage ≠ .start := fun h => by rw [(hs h).2.1] at hg; cases hg
    ends
    all_goals first | exact hs | exact fun h => absurd h hb

theorem userPut_idle (s : Session) (hs : Idle s) : Yields (userPut s) Idle := by
  unfold userPut
  ends
  all_goals first | exact hs | exact fun h => hs h

/-! Programs. -/

def Inv (o : Objs) : Prop := ∀ s ∈ o.sessions, Idle s

theorem withSession_inv (o : Objs) (i : Nat) (f : Session → Option Cache → MM (Session × Option Cache)) (ho : Inv o)
    (hf : ∀ s c, Idle s → Yields (f s c) (fun r => Idle r.1)) : Yields (withSession o i f) Inv := by
  unfold withSession
  split
  · exact Yields.pure' ho
  · rename_i s rest h
    have hm : ∀ x ∈ s :: rest, Idle x := fun x hx => ho x (List.mem_of_mem_drop (h ▸ hx))
    refine Yields.bindOn (hf s o.cache (hm s (List.mem_cons_self ..))) (fun r hr => Yields.pure' ?_)
    intro x hx
    rcases List.mem_append.mp hx with hx | hx
    · exact ho x (List.mem_of_mem_take hx)
    · rcases List.mem_cons.mp hx with hx | hx
      · rw [hx]; exact hr
      · exact hm x (List.mem_cons_of_mem _ hx)

theorem step_inv (o : Objs) (op : Op) (ho : Inv o) : Yields (step o op) Inv := by
  cases op <;> unfold step <;> dsimp only
  case newSession =>
    refine Yields.bindOn sessionNew_idle (fun r hr => ?_)
    split
    · exact Yields.pure' ho
    · refine Yields.pure' (fun x hx => ?_)
      rcases List.mem_cons.mp hx with hx | hx
      · rw [hx]; exact hr _ rfl
      · exact ho x hx
  case resetSession i =>
    exact withSession_inv o i _ ho (fun s c _ => Yields.bindOn (sessionReset_idle s) (fun r hr => Yields.pure' hr))
  case destroySession i =>
    split
    · exact Yields.pure' ho
    · rename_i s rest h
      refine Yields.bind' (fun _ => Yields.pure' (fun x hx => ?_))
      rcases List.mem_append.mp hx with hx | hx
      · exact ho x (List.mem_of_mem_take hx)
      · exact ho x (List.mem_of_mem_drop (h ▸ List.mem_cons_of_mem _ hx))
  case putContext i =>
    exact withSession_inv o i _ ho (fun s c hs => Yields.bindOn (userPut_idle s hs) (fun r hr => Yields.pure' hr))
  case encrypt i kr caching =>
    refine withSession_inv o i _ ho (fun s c hs => ?_)
    split
    · exact genKey_idle kr caching s c
    · exact Yields.pure' hs
  case decrypt i kr caching =>
    refine withSession_inv o i _ ho (fun s c hs => ?_)
    split
    · rename_i h0; exact parseHeader_idle kr caching s c hs h0
    · exact Yields.pure' hs
  case trailer i =>
    exact withSession_inv o i _ ho (fun s c hs => Yields.bindOn (trailer_idle s hs) (fun r hr => Yields.pure' hr))
  case readTrace i =>
    exact withSession_inv o i _ ho (fun s c hs => Yields.bind' (fun _ => Yields.pure' hs))
  all_goals (ends; all_goals exact ho)

theorem withSession_keeps {b : Nat} (o : Objs) (i : Nat) (f : Session → Option Cache → MM (Session × Option Cache)) (ho : Inv o)
    (hf : ∀ s c, Idle s → Keeps b (f s c) (own b s + own b c) (fun r => own b r)) :
    Keeps b (withSession o i f) (own b o) (fun r => own b r) := by
  obtain ⟨ss, c, rs, ms⟩ := o
  unfold withSession
  dsimp only
  split
  · mm
  · rename_i s rest h
    have hs : Idle s := ho s (List.mem_of_mem_drop (i := i) (h ▸ List.mem_cons_self ..))
    have h := own_drop (b := b) h
    refine Keeps.bind2 (hf s c hs) (by owns) (fun R hR x y => ?_)
    mm

theorem session_start {s : Session} (hs : Idle s) (h0 : s.stage = .start) :
    s = ⟨s.self, ⟨s.hdr.ctx, s.hdr.edks, none, none, none, none⟩, none, s.trace, none, .start⟩ := by
  obtain ⟨h1, h2, h3, h4, h5, h6⟩ := hs h0
  obtain ⟨a, ⟨c, e, i, t, m, d⟩, y, t, g, st⟩ := s
  dsimp only at *
  subst h1 h2 h3 h4 h5 h6 h0
  rfl

theorem own_replicate {b : Nat} (n : Nat) : own b (List.replicate n (Edk.mk none none none)) = 0 := by
  induction n with
  | zero => rfl
  | succ n ih => rw [List.replicate_succ, own_cons, ih]; rfl

theorem step_keeps {b : Nat} (o : Objs) (op : Op) (ho : Inv o) : Keeps b (step o op) (own b o) (fun r => own b r) := by
  cases op <;> unfold step <;> dsimp only
  case newSession => mm
  case resetSession i => exact withSession_keeps o i _ ho (fun s c _ => by mm)
  case destroySession i =>
    split
    · mm
    · rename_i h
      have h := own_drop (b := b) h
      mm
  case putContext i => exact withSession_keeps o i _ ho (fun s c _ => by mm)
  case encrypt i kr caching =>
    refine withSession_keeps o i _ ho (fun s c hs => ?_)
    split
    · rename_i h0
      rw [session_start hs h0]
      refine Keeps.last (genKey_keeps kr caching _ _ _ _ _ c) (by owns) (fun R hR r => by owns)
    · mm
  case decrypt i kr caching =>
    refine withSession_keeps o i _ ho (fun s c hs => ?_)
    split
    · rename_i h0
      rw [session_start hs h0]
      refine Keeps.last (parseHeader_keeps kr caching _ _ _ _ c) (by owns) (fun R hR r => by owns)
    · mm
  case trailer i => exact withSession_keeps o i _ ho (fun s c _ => by mm)
  case readTrace i => exact withSession_keeps o i _ ho (fun s c _ => by mm)
  case askDec kr caching n =>
    have := own_replicate (b := b) n
    obtain ⟨ss, c, rs, ms⟩ := o
    cases caching <;> cases c <;> mm
  case newCache =>
    obtain ⟨ss, c, rs, ms⟩ := o
    cases c <;> mm
  case clearCache =>
    obtain ⟨ss, c, rs, ms⟩ := o
    cases c <;> mm
  case destroyCache =>
    obtain ⟨ss, c, rs, ms⟩ := o
    cases c <;> mm
  case newAes => mm
  case newRsa p q => mm
  case destroyRaw i =>
    split
    · mm
    · rename_i h
      have h := own_drop (b := b) h
      mm
  case newCachingCmm n => mm
  case destroyCachingCmm i =>
    split
    · mm
    · rename_i h
      have h := own_drop (b := b) h
      mm

theorem run_keeps {b : Nat} (ops : List Op) : ∀ o, Inv o → Keeps b (run ops o) (own b o) (fun r => own b r) := by
  induction ops with
  | nil => intro o _; unfold run; mm
  | cons op ops ih =>
    intro o ho
    have hi := step_inv o op ho
    have hs : Keeps b (step o op) (own b o) (fun r => own b r) := step_keeps o op ho
    unfold run
    refine ⟨⟨fun h hh => ?_, fun h hh => ?_, fun h hh => ?_⟩, fun h F hb hc => ?_⟩
    · exact (ih _ (hi h)).corrupt _ (hs.corrupt h hh)
    · exact (ih _ (hi h)).excused _ (hs.excused h hh)
    · exact (ih _ (hi h)).fresh _ (hs.fresh h hh)
    · rcases hs.count h F hb hc with h1 | ⟨h1, h2⟩
      · exact Or.inl ((ih _ (hi h)).corrupt _ h1)
      · exact (ih _ (hi h)).count _ F h1 h2

end Verif.Memory
