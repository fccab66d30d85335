import Verif.Spec.Lifetime

/-!
Counting references: the count of an object is the number of references that the program owns, that were
lost, that other objects hold and that pending releases will give up.
-/

namespace Verif
namespace Proof.Lifetime

open Verif.Lifetime Spec.Lifetime

/-! ### The heap as a list -/

def ids (h : Heap) : List Nat := h.map (·.1)

/-- everything that objects hold -/
def refs (h : Heap) : List Nat := h.flatMap (·.2.holds)

def total (h : Heap) (x : Nat) : Nat := ((h.find x).map (·.count)).getD 0

theorem find_nil (x : Nat) : Heap.find [] x = none := rfl

theorem find_cons (y : Nat) (o : Obj) (h : Heap) (x : Nat) :
    Heap.find ((y, o) :: h) x = if y = x then some o else Heap.find h x := by
  unfold Heap.find
  by_cases e : y = x <;> simp [e]

theorem find_split {h : Heap} {x : Nat} {o : Obj} (e : h.find x = some o) :
    ∃ l r, h = l ++ (x, o) :: r ∧ x ∉ ids l := by
  induction h with
  | nil => simp [find_nil] at e
  | cons a h ih =>
    obtain ⟨y, oy⟩ := a
    rw [find_cons] at e
    by_cases hy : y = x
    · subst hy; simp at e; subst e; exact ⟨[], h, rfl, by simp [ids]⟩
    · simp [hy] at e
      obtain ⟨l, r, rfl, hl⟩ := ih e
      exact ⟨(y, oy) :: l, r, rfl, by simp [ids] at hl ⊢; exact ⟨fun q => hy q.symm, hl⟩⟩

theorem find_none {h : Heap} {x : Nat} : h.find x = none ↔ x ∉ ids h := by
  induction h with
  | nil => simp [find_nil, ids]
  | cons a h ih =>
    obtain ⟨y, oy⟩ := a
    rw [find_cons]
    by_cases hy : y = x
    · simp [hy, ids]
    · simp [hy, ids] at ih ⊢
      rw [ih]; constructor
      · intro q; exact ⟨fun w => hy w.symm, q⟩
      · intro q; exact q.2

theorem find_append {l r : Heap} {x : Nat} (hl : x ∉ ids l) : Heap.find (l ++ r) x = Heap.find r x := by
  induction l with
  | nil => rfl
  | cons a l ih =>
    obtain ⟨y, oy⟩ := a
    simp [ids] at hl
    simp only [List.cons_append, find_cons]
    rw [if_neg (fun q => hl.1 q.symm)]
    exact ih (by simpa [ids] using hl.2)

theorem find_mem {h : Heap} {x : Nat} {o : Obj} (e : h.find x = some o) : (x, o) ∈ h := by
  obtain ⟨l, r, rfl, _⟩ := find_split e; simp

theorem mem_find {h : Heap} (hn : (ids h).Nodup) {x : Nat} {o : Obj} (e : (x, o) ∈ h) : h.find x = some o := by
  induction h with
  | nil => simp at e
  | cons a h ih =>
    obtain ⟨y, oy⟩ := a
    simp [ids] at hn
    rw [find_cons]
    rcases List.mem_cons.1 e with q | q
    · injection q with q1 q2; simp [q1, q2]
    · have hne : y ≠ x := fun w => hn.1 o (w ▸ q)
      rw [if_neg hne]
      exact ih (by simpa [ids] using hn.2) q

theorem set_split {l r : Heap} {x : Nat} {o o' : Obj} (hl : x ∉ ids l) (hr : x ∉ ids r) :
    Heap.set (l ++ (x, o) :: r) x o' = l ++ (x, o') :: r := by
  have key : ∀ l : Heap, x ∉ ids l → l.map (fun e => if e.1 = x then (x, o') else e) = l := by
    intro l hl
    induction l with
    | nil => rfl
    | cons a l ih =>
      simp [ids] at hl
      simp only [List.map_cons]
      rw [if_neg (fun q => hl.1 q.symm), ih (by simpa [ids] using hl.2)]
  unfold Heap.set
  rw [List.map_append, List.map_cons, key l hl, key r hr]
  simp

theorem erase_split {l r : Heap} {x : Nat} {o : Obj} (hl : x ∉ ids l) (hr : x ∉ ids r) :
    Heap.erase (l ++ (x, o) :: r) x = l ++ r := by
  have key : ∀ l : Heap, x ∉ ids l → l.filter (fun e => decide (e.1 ≠ x)) = l := by
    intro l hl
    rw [List.filter_eq_self]
    intro a ha
    simp only [ids, List.mem_map, not_exists, not_and] at hl
    simpa using hl a ha
  unfold Heap.erase
  rw [List.filter_append, List.filter_cons, key l hl, key r hr]
  simp

/-- An object in a heap without repeated addresses. -/
theorem split {h : Heap} (hn : (ids h).Nodup) {x : Nat} {o : Obj} (e : h.find x = some o) :
    ∃ l r, h = l ++ (x, o) :: r ∧ x ∉ ids l ∧ x ∉ ids r := by
  obtain ⟨l, r, rfl, hl⟩ := find_split e
  refine ⟨l, r, rfl, hl, ?_⟩
  simp only [ids, List.map_append, List.map_cons, List.nodup_append, List.nodup_cons] at hn
  exact hn.2.1.1

/-! ### Pointers -/

/-- `x` holds `y`. -/
def Edge (h : Heap) (x y : Nat) : Prop := ∃ o, h.find x = some o ∧ y ∈ o.holds

/-- No object can be reached from what it holds. -/
def Acyclic (h : Heap) : Prop := ∀ x y, Edge h x y → ¬Reaches h y x

theorem Reaches.trans {h : Heap} {x y z : Nat} (a : Reaches h x y) (b : Reaches h y z) : Reaches h x z := by
  induction a with
  | refl => exact b
  | step e m _ ih => exact .step e m (ih b)

theorem Edge.reaches {h : Heap} {x y : Nat} (a : Edge h x y) : Reaches h x y := by
  obtain ⟨o, e, m⟩ := a; exact .step e m (.refl y)

theorem reaches_sub {h h' : Heap} (sub : ∀ x y, Edge h' x y → Edge h x y) {x y : Nat} (a : Reaches h' x y) :
    Reaches h x y := by
  induction a with
  | refl => exact .refl _
  | step e m _ ih => exact Reaches.trans (Edge.reaches (sub _ _ ⟨_, e, m⟩)) ih

theorem acyclic_sub {h h' : Heap} (sub : ∀ x y, Edge h' x y → Edge h x y) (a : Acyclic h) : Acyclic h' :=
  fun x y e r => a x y (sub x y e) (reaches_sub sub r)

/-- New pointers from `a` to objects from which `a` cannot be reached close no cycle. -/
theorem acyclic_add {h h' : Heap} {a : Nat} {B : List Nat}
    (sub : ∀ x y, Edge h' x y → Edge h x y ∨ (x = a ∧ y ∈ B)) (hB : ∀ b ∈ B, ¬Reaches h b a) (hA : Acyclic h) :
    Acyclic h' := by
  have key : ∀ x y, Reaches h' x y → Reaches h x y ∨ (Reaches h x a ∧ ∃ b ∈ B, Reaches h b y) := by
    intro x y r
    induction r with
    | refl => exact .inl (.refl _)
    | @step x x1 z o e m _ ih =>
      rcases sub x x1 ⟨o, e, m⟩ with q | ⟨rfl, q⟩
      · rcases ih with ih | ⟨ih1, ih2⟩
        · exact .inl (Reaches.trans q.reaches ih)
        · exact .inr ⟨Reaches.trans q.reaches ih1, ih2⟩
      · rcases ih with ih | ⟨_, ih2⟩
        · exact .inr ⟨.refl _, x1, q, ih⟩
        · exact .inr ⟨.refl _, ih2⟩
  intro x y e r
  rcases key _ _ r with q | ⟨q1, b, hb, q2⟩
  · rcases sub x y e with w | ⟨rfl, w⟩
    · exact hA x y w q
    · exact hB y w q
  · rcases sub x y e with w | ⟨rfl, w⟩
    · exact hB b hb (Reaches.trans q2 (Reaches.trans w.reaches q1))
    · exact hB b hb q2

/-! ### The invariant of the heap -/

/-- `T`: the references from outside the heap; `F`: the objects that pending destructors will free; `A`: are
cycles ruled out. -/
structure HInv (A : Prop) (h : Heap) (next : Nat) (T F : List Nat) (types : List (Nat × Kind)) : Prop where
  nodup : (ids h).Nodup
  fresh : ∀ x ∈ ids h, x < next
  count : ∀ x, total h x = T.count x + (refs h).count x
  dying : ∀ x o, h.find x = some o → F.count x = if o.count = 0 then 1 else 0
  gone : ∀ x, h.find x = none → F.count x = 0
  empty : ∀ x o, h.find x = some o → o.count = 0 → o.holds = []
  typed : ∀ x k, (x, k) ∈ types → x < next ∧ ∀ o, h.find x = some o → o.kind = k
  acyclic : A → Acyclic h

theorem HInv.congr {A h n T T' F F' ty} (hi : HInv A h n T F ty) (hT : ∀ x, T'.count x = T.count x)
    (hF : ∀ x, F'.count x = F.count x) : HInv A h n T' F' ty :=
  ⟨hi.nodup, hi.fresh, fun x => by rw [hi.count, hT], fun x o e => by rw [hF, hi.dying x o e],
    fun x e => by rw [hF, hi.gone x e], hi.empty, hi.typed, hi.acyclic⟩

theorem HInv.untype {A h n T F ty} (hi : HInv A h n T F ty) {ty'} (sub : ∀ p, p ∈ ty' → p ∈ ty) : HInv A h n T F ty' :=
  ⟨hi.nodup, hi.fresh, hi.count, hi.dying, hi.gone, hi.empty, fun x k q => hi.typed x k (sub _ q), hi.acyclic⟩

/-- What somebody refers to is alive. -/
theorem HInv.alive {A h n T F ty} (hi : HInv A h n T F ty) {x : Nat} (hx : x ∈ T ∨ x ∈ refs h) :
    ∃ o, h.find x = some o ∧ 0 < o.count := by
  have hpos : 0 < total h x := by
    rw [hi.count]
    rcases hx with q | q
    · have := List.count_pos_iff.2 q; omega
    · have := List.count_pos_iff.2 q; omega
  unfold total at hpos
  cases e : h.find x with
  | none => simp [e] at hpos
  | some o => simp [e] at hpos; exact ⟨o, rfl, hpos⟩

theorem HInv.next_free {A h n T F ty} (hi : HInv A h n T F ty) : h.find n = none := by
  rw [find_none]; intro q; exact Nat.lt_irrefl _ (hi.fresh n q)

theorem HInv.lt_next {A h n T F ty} (hi : HInv A h n T F ty) {x : Nat} (hx : x ∈ T ∨ x ∈ refs h) : x < n := by
  obtain ⟨o, e, _⟩ := hi.alive hx
  apply hi.fresh
  exact List.mem_map.2 ⟨(x, o), find_mem e, rfl⟩

/-- A new object takes over references. -/
theorem HInv.new {A h n T T' F ty} (hi : HInv A h n T F ty) (k : Kind) (fixed : List Nat)
    (hT : ∀ x, T.count x = fixed.count x + T'.count x) :
    HInv A ((n, { kind := k, count := 1, fixed := fixed }) :: h) (n + 1) (n :: T') F ((n, k) :: ty) := by
  have hnone := hi.next_free
  have hnT : ∀ x, x ∈ T → x ≠ n := fun x q w => Nat.lt_irrefl _ (w ▸ hi.lt_next (.inl q))
  have hn' : n ∉ T' := by
    intro q
    have := hT n
    have p := List.count_pos_iff.2 q
    exact hnT n (List.count_pos_iff.1 (by omega)) rfl
  refine ⟨?_, ?_, ?_, ?_, ?_, ?_, ?_, ?_⟩
  · simp only [ids, List.map_cons, List.nodup_cons]
    exact ⟨find_none.1 hnone, hi.nodup⟩
  · intro x hx
    simp only [ids, List.map_cons, List.mem_cons] at hx
    rcases hx with q | q
    · omega
    · have := hi.fresh x q; omega
  · intro x
    have hc := hi.count x
    unfold total at hc ⊢
    rw [find_cons]
    have hr : refs ((n, { kind := k, count := 1, fixed := fixed }) :: h) = fixed ++ refs h := by
      simp [refs, Obj.holds]
    rw [hr, List.count_append, List.count_cons]
    by_cases e : n = x
    · subst e
      have z := hT n
      rw [hnone] at hc
      simp at hc
      simp
      have : T'.count n = 0 := List.count_eq_zero.2 hn'
      omega
    · simp [e]
      rw [hc, hT x]
      omega
  · intro x o e
    rw [find_cons] at e
    by_cases q : n = x
    · subst q
      simp at e; subst e
      simp
      exact hi.gone n hnone
    · rw [if_neg q] at e; exact hi.dying x o e
  · intro x e
    rw [find_cons] at e
    by_cases q : n = x
    · simp [q] at e
    · rw [if_neg q] at e; exact hi.gone x e
  · intro x o e hz
    rw [find_cons] at e
    by_cases q : n = x
    · simp [q] at e; subst e; simp at hz
    · rw [if_neg q] at e; exact hi.empty x o e hz
  · intro x k' hm
    rcases List.mem_cons.1 hm with q | q
    · injection q with q1 q2
      subst q1; subst q2
      refine ⟨by omega, fun o e => ?_⟩
      rw [find_cons] at e; simp at e; subst e; rfl
    · obtain ⟨hlt, hk⟩ := hi.typed x k' q
      refine ⟨by omega, fun o e => ?_⟩
      rw [find_cons, if_neg (by omega)] at e
      exact hk o e
  · intro ha
    refine acyclic_add (a := n) (B := fixed) ?_ ?_ (hi.acyclic ha)
    · rintro x y ⟨o, e, m⟩
      rw [find_cons] at e
      by_cases q : n = x
      · subst q
        simp at e; subst e
        exact .inr ⟨rfl, by simpa [Obj.holds] using m⟩
      · rw [if_neg q] at e
        exact .inl ⟨o, e, m⟩
    · intro b hb r
      have hbT : b ∈ T := by
        have := hT b
        have p := List.count_pos_iff.2 hb
        exact List.count_pos_iff.1 (by omega)
      have key : ∀ x y, Reaches h x y → x < n → y < n := by
        intro x y r
        induction r with
        | refl => exact id
        | step e m _ ih =>
          intro _
          apply ih
          exact hi.lt_next (.inr (List.mem_flatMap.2 ⟨_, find_mem e, m⟩))
      exact Nat.lt_irrefl _ (key b n r (hi.lt_next (.inl hbT)))

/-- Finding in an updated heap. -/
theorem find_set {h : Heap} {x : Nat} {o o' : Obj} (hn : (ids h).Nodup) (e : h.find x = some o) (y : Nat) :
    (h.set x o').find y = if x = y then some o' else h.find y := by
  obtain ⟨l, r, rfl, hl, hr⟩ := split hn e
  rw [set_split hl hr]
  by_cases q : x = y
  · subst q; rw [find_append hl, find_cons]; simp
  · rw [if_neg q]
    by_cases hy : y ∈ ids l
    · clear e hn
      induction l with
      | nil => simp [ids] at hy
      | cons a l ih =>
        obtain ⟨z, oz⟩ := a
        simp only [List.cons_append, find_cons]
        by_cases w : z = y
        · simp [w]
        · rw [if_neg w, if_neg w]
          simp [ids] at hy hl
          rcases hy with hy | hy
          · exact absurd hy.symm w
          · exact ih (by simpa [ids] using hl.2) (by simpa [ids] using hy)
    · rw [find_append hy, find_append hy, find_cons, find_cons, if_neg q, if_neg q]

theorem ids_set {h : Heap} {x : Nat} {o o' : Obj} (hn : (ids h).Nodup) (e : h.find x = some o) :
    ids (h.set x o') = ids h := by
  obtain ⟨l, r, rfl, hl, hr⟩ := split hn e
  rw [set_split hl hr]; simp [ids]

theorem refs_set {h : Heap} {x : Nat} {o o' : Obj} (hn : (ids h).Nodup) (e : h.find x = some o) (y : Nat) :
    (refs (h.set x o')).count y + o.holds.count y = (refs h).count y + o'.holds.count y := by
  obtain ⟨l, r, rfl, hl, hr⟩ := split hn e
  rw [set_split hl hr]
  simp [refs, List.count_append]
  omega

/-- Changing an object: what it holds and its count change together with the references outside. -/
theorem HInv.set {A h n T T' F F' ty} (hi : HInv A h n T F ty) {x : Nat} {o o' : Obj} (e : h.find x = some o)
    (hk : o'.kind = o.kind)
    (hc : ∀ y, T'.count y + o'.holds.count y + (if x = y then o.count else 0) =
      T.count y + o.holds.count y + (if x = y then o'.count else 0))
    (hF : ∀ y, x ≠ y → F'.count y = F.count y) (hFx : F'.count x = if o'.count = 0 then 1 else 0)
    (hz : o'.count = 0 → o'.holds = []) (hA : A → Acyclic (h.set x o')) : HInv A (h.set x o') n T' F' ty := by
  refine ⟨by rw [ids_set hi.nodup e]; exact hi.nodup, by rw [ids_set hi.nodup e]; exact hi.fresh, ?_, ?_, ?_, ?_, ?_,
    hA⟩
  · intro y
    have h1 := hi.count y
    have h2 := refs_set (o' := o') hi.nodup e y
    have h3 := hc y
    unfold total at h1 ⊢
    rw [find_set hi.nodup e]
    by_cases q : x = y
    · subst q
      simp [e] at h1 h3 ⊢
      omega
    · simp [q] at h3 ⊢
      omega
  · intro y o2 e2
    rw [find_set hi.nodup e] at e2
    by_cases q : x = y
    · subst q; simp at e2; subst e2; exact hFx
    · rw [if_neg q] at e2; rw [hF y q]; exact hi.dying y o2 e2
  · intro y e2
    rw [find_set hi.nodup e] at e2
    by_cases q : x = y
    · simp [q] at e2
    · rw [if_neg q] at e2; rw [hF y q]; exact hi.gone y e2
  · intro y o2 e2
    rw [find_set hi.nodup e] at e2
    by_cases q : x = y
    · subst q; simp at e2; subst e2; exact hz
    · rw [if_neg q] at e2; exact hi.empty y o2 e2
  · intro y k hm
    obtain ⟨hlt, hk'⟩ := hi.typed y k hm
    refine ⟨hlt, fun o2 e2 => ?_⟩
    rw [find_set hi.nodup e] at e2
    by_cases q : x = y
    · subst q; simp at e2; subst e2; rw [hk]; exact hk' o e
    · rw [if_neg q] at e2; exact hk' o2 e2

theorem HInv.notDying {A h n T F ty} (hi : HInv A h n T F ty) {x : Nat} {o : Obj} (e : h.find x = some o)
    (hp : 0 < o.count) : F.count x = 0 := by
  rw [hi.dying x o e, if_neg (by omega)]

/-- An object that holds no more than before. -/
theorem edge_set {h : Heap} {x : Nat} {o o' : Obj} (hn : (ids h).Nodup) (e : h.find x = some o)
    (hs : ∀ y, y ∈ o'.holds → y ∈ o.holds) : ∀ a b, Edge (h.set x o') a b → Edge h a b := by
  rintro a b ⟨oa, ea, m⟩
  rw [find_set hn e] at ea
  by_cases q : x = a
  · subst q; simp at ea; subst ea; exact ⟨o, e, hs b m⟩
  · rw [if_neg q] at ea; exact ⟨oa, ea, m⟩

/-- One more reference. -/
theorem HInv.up {A h n T F ty} (hi : HInv A h n T F ty) {x : Nat} {o : Obj} (e : h.find x = some o)
    (hp : 0 < o.count) : HInv A (h.set x { o with count := o.count + 1 }) n (x :: T) F ty := by
  refine hi.set e rfl ?_ (fun _ _ => rfl) ?_ ?_ ?_
  · intro y
    simp only [Obj.holds, List.count_cons]
    by_cases q : x = y <;> simp [q] <;> omega
  · rw [hi.notDying e hp]; simp
  · intro q; simp at q
  · exact fun ha => acyclic_sub (edge_set hi.nodup e (fun _ q => q)) (hi.acyclic ha)

/-- One reference less, not the last. -/
theorem HInv.down {A h n T F ty} {x : Nat} (hi : HInv A h n (x :: T) F ty) {o : Obj} (e : h.find x = some o)
    (hp : 1 < o.count) : HInv A (h.set x { o with count := o.count - 1 }) n T F ty := by
  refine hi.set e rfl ?_ (fun _ _ => rfl) ?_ ?_ ?_
  · intro y
    simp only [Obj.holds, List.count_cons]
    by_cases q : x = y <;> simp [q] <;> omega
  · rw [hi.notDying e (by omega)]; simp; omega
  · intro q; simp at q; omega
  · exact fun ha => acyclic_sub (edge_set hi.nodup e (fun _ q => q)) (hi.acyclic ha)

/-- The last reference: the destructor begins. -/
theorem HInv.last {A h n T F ty} {x : Nat} (hi : HInv A h n (x :: T) F ty) {o : Obj} (e : h.find x = some o)
    (hp : o.count = 1) :
    HInv A (h.set x { o with count := 0, children := [], fixed := [] }) n (o.holds ++ T) (x :: F) ty := by
  refine hi.set e rfl ?_ ?_ ?_ ?_ ?_
  · intro y
    simp only [Obj.holds, List.count_cons, List.count_append, List.count_nil, List.append_nil]
    by_cases q : x = y <;> simp [q] <;> omega
  · intro y q; simp [q]
  · rw [List.count_cons]; simp; exact hi.notDying e (by omega)
  · intro _; rfl
  · exact fun ha => acyclic_sub (edge_set hi.nodup e (fun _ q => by simp [Obj.holds] at q)) (hi.acyclic ha)

/-- The destructor ends. -/
theorem HInv.freed {A h n T F ty} {x : Nat} (hi : HInv A h n T (x :: F) ty) {o : Obj} (e : h.find x = some o) :
    HInv A (h.erase x) n T F ty := by
  have hz : o.count = 0 := by
    have := hi.dying x o e
    simp at this
    by_cases q : o.count = 0
    · exact q
    · simp [q] at this
  have hF : F.count x = 0 := by
    have := hi.dying x o e
    simp [hz] at this
    exact this
  have hh := hi.empty x o e hz
  obtain ⟨l, r, rfl, hl, hr⟩ := split hi.nodup e
  rw [erase_split hl hr]
  have hnd : (ids (l ++ r)).Nodup := by
    have := hi.nodup
    simp only [ids, List.map_append, List.map_cons, List.nodup_append, List.nodup_cons] at this ⊢
    refine ⟨this.1, this.2.1.2, fun a ha b hb => this.2.2 a ha b (List.mem_cons_of_mem _ hb)⟩
  have hxn : Heap.find (l ++ r) x = none := by
    rw [find_none]
    simp only [ids, List.map_append, List.mem_append] at hl hr ⊢
    rintro (q | q)
    · exact hl q
    · exact hr q
  have hfind : ∀ y, x ≠ y → Heap.find (l ++ r) y = Heap.find (l ++ (x, o) :: r) y := by
    intro y q
    by_cases hy : y ∈ ids l
    · clear e hnd hxn hi
      induction l with
      | nil => simp [ids] at hy
      | cons a l ih =>
        obtain ⟨z, oz⟩ := a
        simp only [List.cons_append, find_cons]
        by_cases w : z = y
        · simp [w]
        · rw [if_neg w, if_neg w]
          simp [ids] at hy hl
          rcases hy with hy | hy
          · exact absurd hy.symm w
          · exact ih (by simpa [ids] using hl.2) (by simpa [ids] using hy)
    · rw [find_append hy, find_append hy, find_cons, if_neg q]
  have hrefs : refs (l ++ (x, o) :: r) = refs (l ++ r) := by
    simp [refs, hh]
  refine ⟨hnd, ?_, ?_, ?_, ?_, ?_, ?_, ?_⟩
  · intro y hy
    apply hi.fresh
    simp only [ids, List.map_append, List.map_cons, List.mem_append, List.mem_cons] at hy ⊢
    rcases hy with q | q
    · exact .inl q
    · exact .inr (.inr q)
  · intro y
    have h1 := hi.count y
    rw [hrefs] at h1
    unfold total at h1 ⊢
    by_cases q : x = y
    · subst q
      rw [e] at h1
      rw [hxn]
      simp [hz] at h1 ⊢
      exact h1
    · rw [hfind y q]; exact h1
  · intro y o2 e2
    by_cases q : x = y
    · subst q; rw [hxn] at e2; cases e2
    · rw [hfind y q] at e2
      have := hi.dying y o2 e2
      rwa [List.count_cons, if_neg (by simpa using q)] at this
  · intro y e2
    by_cases q : x = y
    · subst q; exact hF
    · rw [hfind y q] at e2
      have := hi.gone y e2
      rwa [List.count_cons, if_neg (by simpa using q)] at this
  · intro y o2 e2
    by_cases q : x = y
    · subst q; rw [hxn] at e2; cases e2
    · rw [hfind y q] at e2; exact hi.empty y o2 e2
  · intro y k hm
    obtain ⟨hlt, hk⟩ := hi.typed y k hm
    refine ⟨hlt, fun o2 e2 => ?_⟩
    by_cases q : x = y
    · subst q; rw [hxn] at e2; cases e2
    · rw [hfind y q] at e2; exact hk o2 e2
  · refine fun ha => acyclic_sub ?_ (hi.acyclic ha)
    rintro a b ⟨oa, ea, m⟩
    by_cases q : x = a
    · subst q; rw [hxn] at ea; cases ea
    · rw [hfind a q] at ea; exact ⟨oa, ea, m⟩

/-- A multi-keyring takes over the reference to a child. -/
theorem HInv.child {A h n T F ty} {c m : Nat} (hi : HInv A h n (c :: T) F ty) {om : Obj} (e : h.find m = some om)
    (hp : 0 < om.count) (hA : A → ¬Reaches h c m) :
    HInv A (h.set m { om with children := om.children ++ [c] }) n T F ty := by
  refine hi.set e rfl ?_ (fun _ _ => rfl) ?_ ?_ ?_
  · intro y
    simp only [Obj.holds, List.count_cons, List.count_append, List.count_nil]
    by_cases q : m = y <;> simp [q] <;> omega
  · rw [hi.notDying e hp]; simp; omega
  · intro q; simp at q; omega
  · intro ha
    refine acyclic_add (a := m) (B := [c]) ?_ (by simpa using hA ha) (hi.acyclic ha)
    rintro a b ⟨oa, ea, q⟩
    rw [find_set hi.nodup e] at ea
    by_cases w : m = a
    · subst w; simp at ea; subst ea
      simp only [Obj.holds, List.mem_append, List.mem_singleton] at q
      rcases q with (q | q) | q
      · exact .inl ⟨om, e, by simp [Obj.holds, q]⟩
      · exact .inr ⟨rfl, by simp [q]⟩
      · exact .inl ⟨om, e, by simp [Obj.holds, q]⟩
    · rw [if_neg w] at ea; exact .inl ⟨oa, ea, q⟩

/-! ### The invariant of the program -/

def relsOf (st : List Act) : List Nat := st.filterMap fun | .rel x => some x | .free _ => none
def freesOf (st : List Act) : List Nat := st.filterMap fun | .rel _ => none | .free x => some x
def rels (ts : List (List Act)) : List Nat := ts.flatMap relsOf
def frees (ts : List (List Act)) : List Nat := ts.flatMap freesOf

theorem set_flatMap (f : List Act → List Nat) (ts : List (List Act)) (i : Nat) (st st' : List Act)
    (e : ts[i]? = some st) (y : Nat) :
    ((ts.set i st').flatMap f).count y + (f st).count y = (ts.flatMap f).count y + (f st').count y := by
  induction ts generalizing i with
  | nil => simp at e
  | cons a ts ih =>
    cases i with
    | zero => simp at e; subst e; simp [List.count_append]; omega
    | succ i =>
      simp at e
      have := ih i e
      simp only [List.set_cons_succ, List.flatMap_cons, List.count_append]
      omega

theorem relsOf_rels (l : List Nat) : relsOf (l.map .rel) = l := by
  induction l with
  | nil => rfl
  | cons a l ih => simp only [relsOf, List.map_cons, List.filterMap_cons] at ih ⊢; rw [ih]

theorem freesOf_rels (l : List Nat) : freesOf (l.map .rel) = [] := by
  induction l with
  | nil => rfl
  | cons a l ih => simpa [freesOf] using ih

theorem relsOf_append (a b : List Act) : relsOf (a ++ b) = relsOf a ++ relsOf b := by simp [relsOf]
theorem freesOf_append (a b : List Act) : freesOf (a ++ b) = freesOf a ++ freesOf b := by simp [freesOf]

/-- `T`: the references of the program and the lost ones. -/
def Inv (A : Prop) (s : St) (T : List Nat) (types : List (Nat × Kind)) : Prop :=
  HInv A s.heap s.next (T ++ rels s.threads) (frees s.threads) types

theorem Inv.congr {A s T T' ty} (hi : Inv A s T ty) (hT : ∀ x, T'.count x = T.count x) : Inv A s T' ty :=
  HInv.congr hi (fun x => by rw [List.count_append, List.count_append, hT]) (fun _ => rfl)

theorem inv_init (A : Prop) (n : Nat) : Inv A (St.init n) [] [] := by
  have h1 : ∀ n, rels (List.replicate n []) = [] := by
    intro n; induction n with
    | zero => rfl
    | succ n ih => simp [rels, List.replicate_succ, relsOf] at ih ⊢
  have h2 : ∀ n, frees (List.replicate n []) = [] := by
    intro n; induction n with
    | zero => rfl
    | succ n ih => simp [frees, List.replicate_succ, freesOf] at ih ⊢
  unfold Inv St.init
  simp only [h1, h2]
  exact ⟨by simp [ids], by simp [ids], by simp [total, find_nil, refs], by simp [find_nil], by simp,
    by simp [find_nil], by simp, fun _ x y e => by obtain ⟨o, e, _⟩ := e; simp [find_nil] at e⟩

/-- A step of a thread does not fail. -/
theorem inv_tick {A s T ty} (hi : Inv A s T ty) (i : Nat) : ∃ s', s.tick i = .ok s' ∧ Inv A s' T ty := by
  unfold St.tick
  split
  · exact ⟨s, rfl, hi⟩
  · exact ⟨s, rfl, hi⟩
  · rename_i x st e
    have hr := fun st' y => set_flatMap relsOf s.threads i _ st' e y
    have hf := fun st' y => set_flatMap freesOf s.threads i _ st' e y
    have hx : x ∈ rels s.threads := by
      simp only [rels, List.mem_flatMap]
      exact ⟨_, List.mem_of_getElem? e, by simp [relsOf]⟩
    obtain ⟨o, eo, ho⟩ := HInv.alive hi (x := x) (.inl (List.mem_append.2 (.inr hx)))
    simp only [eo]
    rw [if_neg (by omega)]
    have h0 : HInv A s.heap s.next (x :: (T ++ rels (s.threads.set i st))) (frees (s.threads.set i st)) ty := by
      refine HInv.congr hi (fun y => ?_) (fun y => ?_)
      · have := hr st y
        have q : relsOf (.rel x :: st) = x :: relsOf st := rfl
        rw [q] at this
        simp only [List.count_cons, List.count_append] at this ⊢
        unfold rels
        omega
      · have := hf st y
        have q : freesOf (.rel x :: st) = freesOf st := rfl
        rw [q] at this
        unfold frees
        omega
    by_cases h1 : o.count = 1
    · rw [if_pos h1]
      refine ⟨_, rfl, ?_⟩
      have h2 := h0.last eo h1
      refine HInv.congr h2 (fun y => ?_) (fun y => ?_)
      · have a := hr st y
        have b := hr (o.holds.map .rel ++ .free x :: st) y
        have q : relsOf (o.holds.map .rel ++ .free x :: st) = o.holds ++ relsOf st := by
          rw [relsOf_append, relsOf_rels]; rfl
        rw [q] at b
        simp only [List.count_append] at b ⊢
        unfold rels
        omega
      · have a := hf st y
        have b := hf (o.holds.map .rel ++ .free x :: st) y
        have q : freesOf (o.holds.map .rel ++ .free x :: st) = x :: freesOf st := by
          rw [freesOf_append, freesOf_rels]; rfl
        rw [q] at b
        simp only [List.count_cons] at b ⊢
        unfold frees
        omega
    · rw [if_neg h1]
      exact ⟨_, rfl, h0.down eo (by omega)⟩
  · rename_i x st e
    have hr := fun st' y => set_flatMap relsOf s.threads i _ st' e y
    have hf := fun st' y => set_flatMap freesOf s.threads i _ st' e y
    have h0 : HInv A s.heap s.next (T ++ rels (s.threads.set i st)) (x :: frees (s.threads.set i st)) ty := by
      refine HInv.congr hi (fun y => ?_) (fun y => ?_)
      · have := hr st y
        have q : relsOf (.free x :: st) = relsOf st := rfl
        rw [q] at this
        simp only [List.count_append] at this ⊢
        unfold rels
        omega
      · have := hf st y
        have q : freesOf (.free x :: st) = x :: freesOf st := rfl
        rw [q] at this
        simp only [List.count_cons] at this ⊢
        unfold frees
        omega
    cases eo : s.heap.find x with
    | none => have := h0.gone x eo; simp at this
    | some o => exact ⟨_, rfl, h0.freed eo⟩

/-! ### Calls -/

theorem Inv.new {A s T ty} (hi : Inv A s T ty) (k : Kind) (fixed T' : List Nat)
    (hT : ∀ x, T.count x = fixed.count x + T'.count x) :
    Inv A (s.new k fixed).1 (s.next :: T') ((s.next, k) :: ty) := by
  unfold Inv St.new
  refine HInv.congr (HInv.new (T' := T' ++ rels s.threads) hi k fixed (fun x => ?_)) (fun x => rfl) (fun x => rfl)
  have := hT x
  simp only [List.count_append]; omega

/-- a new object that takes over nothing -/
theorem Inv.new0 {A s T ty} (hi : Inv A s T ty) (k : Kind) :
    Inv A (s.new k []).1 (s.next :: T) ((s.next, k) :: ty) := hi.new k [] T (by simp)

theorem Inv.owned {A s T ty} (hi : Inv A s T ty) {x : Nat} (hx : x ∈ T) : ∃ o, s.heap.find x = some o ∧ 0 < o.count :=
  HInv.alive hi (.inl (List.mem_append.2 (.inl hx)))

/-- retain succeeds -/
theorem Inv.retain {A s T ty} (hi : Inv A s T ty) {x : Nat} (hx : x ∈ T) (hr : Room s x) :
    ∃ o s', s.heap.find x = some o ∧ s.retain x = .ok s' ∧ Inv A s' (x :: T) ty ∧
      s' = { s with heap := s.heap.set x { o with count := o.count + 1 } } := by
  obtain ⟨o, e, ho⟩ := hi.owned hx
  have hlt := hr o e
  refine ⟨o, { s with heap := s.heap.set x { o with count := o.count + 1 } }, e, ?_, ?_, rfl⟩
  · unfold St.retain
    simp only [e]
    rw [if_neg (by omega), if_neg (by omega)]
  · exact HInv.up hi e ho

theorem Inv.push {A s T T' ty} (hi : Inv A s T ty) {i : Nat} {st : List Act} (hs : s.threads[i]? = some st)
    (l : List Nat) (hT : ∀ x, T.count x = l.count x + T'.count x) : Inv A (s.push i (l.map .rel)) T' ty := by
  unfold Inv St.push
  rw [hs]
  refine HInv.congr hi (fun x => ?_) (fun x => ?_)
  · have a := set_flatMap relsOf s.threads i st (l.map .rel ++ st) hs x
    rw [relsOf_append, relsOf_rels] at a
    have b := hT x
    simp only [Option.getD_some, List.count_append] at a ⊢
    unfold rels
    omega
  · have a := set_flatMap freesOf s.threads i st (l.map .rel ++ st) hs x
    rw [freesOf_append, freesOf_rels] at a
    simp only [Option.getD_some, List.nil_append] at a ⊢
    unfold frees
    omega

end Proof.Lifetime
end Verif
