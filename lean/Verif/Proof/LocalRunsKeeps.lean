import Verif.Proof.LocalRuns
/-
From the books about a local cache to the promises of a materials cache.
-/
namespace Verif.Proof
open Verif Verif.Spec

/-- What the books say about entries. -/
def entriesOf (G : List Row) : Entries where
  ent := fun k => (G[k]?.map Row.ent).getD 0
  born := fun e => (G[e]?.bind fun r => clockOf r.x.op).getD 0
  bytesAt := fun k => (G[k]?.map Row.time).getD 0
  messagesAt := fun k => k

theorem sum_range {G : List Row} {f : Nat → Nat} {g : Row → Nat} (h : ∀ (k : Nat) (row : Row), G[k]? = some row → f k = g row) :
    ((List.range G.length).map f).sum = (G.map g).sum := by
  congr 1
  apply List.ext_getElem
  · simp
  · intro i h1 h2
    simp only [List.length_map] at h2
    simp only [List.getElem_map, List.getElem_range]
    exact h i _ (by simp [List.getElem?_eq_getElem h2])

theorem sum_snoc (l : List Nat) (x : Nat) : (l ++ [x]).sum = l.sum + x := by simp [List.sum_append]

theorem sum_range_to {g : Row → Nat} {i : Nat} : ∀ {G : List Row} {f : Nat → Nat},
    (∀ (k : Nat) (row : Row), G[k]? = some row → f k = if k ≤ i then g row else 0) →
    ((List.range G.length).map f).sum = ((G.take (i + 1)).map g).sum := by
  intro G
  induction hk : G.length generalizing G with
  | zero => intro f _; cases G with
    | nil => rfl
    | cons => cases hk
  | succ k ih =>
    intro f h
    have hne : G ≠ [] := by intro hh; subst hh; cases hk
    obtain ⟨L, r, rfl⟩ : ∃ L r, G = L ++ [r] := ⟨G.dropLast, G.getLast hne, (List.dropLast_concat_getLast hne).symm⟩
    have hL : L.length = k := by simpa using hk
    have h1 := ih hL (f := f) fun j row hj => h j row (getElem?_append_some hj)
    have h2 := h k r (by rw [← hL]; simp)
    rw [List.range_succ, List.map_append, List.map_cons, List.map_nil, sum_snoc, h1, h2]
    by_cases hki : k ≤ i
    · rw [if_pos hki, List.take_of_length_le (by omega), List.take_of_length_le (by simp; omega), List.map_append, List.map_cons, List.map_nil, sum_snoc]
    · rw [if_neg hki, Nat.add_zero, List.take_append_of_le_length (by omega)]

theorem perm_sum {l l' : List Nat} (h : l.Perm l') : l.sum = l'.sum := by
  induction h with
  | nil => rfl
  | cons x _ ih => simp [ih]
  | swap x y l => simp; omega
  | trans _ _ h1 h2 => exact h1.trans h2

theorem asHistory_get {log : List LocalEvent} {G : List Row} (h : log = G.map Row.x) {i : Nat} {x : Nat × CacheEvent Nat}
    (hx : (asHistory log)[i]? = some x) : ∃ row, G[i]? = some row ∧ row ∈ G ∧ x = (row.x.t, row.x.ev) := by
  subst h
  unfold asHistory at hx
  rw [List.map_map, List.getElem?_map] at hx
  cases hr : G[i]? with
  | none => rw [hr] at hx; cases hx
  | some row =>
    rw [hr] at hx
    cases hx
    exact ⟨row, rfl, List.mem_of_getElem? hr, rfl⟩

theorem asHistory_of {log : List LocalEvent} {G : List Row} (h : log = G.map Row.x) {i : Nat} {row : Row} (hr : G[i]? = some row) :
    (asHistory log)[i]? = some (row.x.t, row.x.ev) := by
  subst h
  unfold asHistory
  rw [List.map_map, List.getElem?_map, hr]
  rfl

theorem LR.keeps {log asked s G pos pend led} (h : LR log asked s G pos pend led) :
    CacheKeepsAt (asHistory log) (entriesOf G) (fun _ => Settled s) := by
  have hlen : (asHistory log).length = G.length := by rw [h.log]; simp [asHistory]
  have hent : ∀ {i row}, G[i]? = some row → (entriesOf G).ent i = row.ent := by
    intro i row hr; simp [entriesOf, hr]
  refine ⟨?_, ?_, ?_, ?_, ?_, ?_, ?_, ?_⟩
  · intro i t id f n k hx
    obtain ⟨row, hr, hm, he⟩ := asHistory_get h.log hx
    injection he with he1 he2
    obtain ⟨h1, r', h2, h3⟩ := (h.books.rows i row hr).find id f n k he2.symm
    rw [hent hr]
    exact ⟨h1, _, asHistory_of h.log h2, h3⟩
  · intro i t e hx hst
    obtain ⟨row, hr, hm, he⟩ := asHistory_get h.log hx
    cases he
    rw [hent hr]
    exact (h.books.rows i row hr).put hst
  · intro i j t e e' n hji hj hg hi hu _
    obtain ⟨row, hr, hm, he⟩ := asHistory_get h.log hj
    obtain ⟨row', hr', hm', he'⟩ := asHistory_get h.log hi
    cases he
    injection he' with he1 he2
    subst he2
    rw [hent hr, hent hr', (h.books.names row hm n (.inl hg)).1, (h.books.names row' hm' n (.inr hu)).1]
  · intro i t n b m b' m' hx hset
    have hpend : pending s.num pend = [] := by
      unfold pending
      rw [List.flatMap_eq_nil_iff]
      intro t ht
      have hd := h.doing t (List.mem_range.1 ht)
      have hs := hset t
      generalize (s.thr t).doing = p at hd hs
      cases p with
      | addMessages n sum m => exact absurd rfl (hs n sum m (List.mem_range.1 ht))
      | idle => rw [show pend t = none from hd]; rfl
      | addBytes n b m => rw [hd.2]; rfl
      | hintLock n x push => rw [hd.2.1]; rfl
      | relLock n => rw [hd.2.1]; rfl
      | relHeld n => rw [hd.2.1]; rfl
      | relPlain n => obtain ⟨_, _, h2, _⟩ := hd; rw [h2]; rfl
    have hperm : led.Perm (G.map Row.use) := by
      have := h.books.perm
      rwa [hpend, List.append_nil] at this
    obtain ⟨row, hr, hm, he⟩ := asHistory_get h.log hx
    injection he with he1 he2
    obtain ⟨⟨r', h1, h2⟩, h3, h4, h5⟩ := (h.books.rows i row hr).usage n b m b' m' he2.symm
    have htime : ∀ {i row}, G[i]? = some row → (entriesOf G).bytesAt i = row.time := by
      intro i row hr; simp [entriesOf, hr]
    rw [hent hr]
    refine ⟨by rw [htime h1, htime hr]; exact h2, h3, ?_, ?_⟩
    · rw [h4]
      congr 1
      unfold total sumTo
      rw [hlen, perm_sum (hperm.map _), List.map_map]
      symm
      apply sum_range
      intro k rk hk
      rw [asHistory_of h.log hk, htime hr, hent hk, htime hk]
      rfl
    · rw [h5]
      congr 1
      unfold total msum
      rw [hlen]
      symm
      apply sum_range_to
      intro k rk hk
      rw [asHistory_of h.log hk, hent hk]
      show (if rk.ent = row.ent ∧ k ≤ i then _ else 0) = _
      by_cases hki : k ≤ i
      · simp [hki]
      · simp [hki]
  · intro i t n c c' m hx
    obtain ⟨row, hr, hm, he⟩ := asHistory_get h.log hx
    injection he with he1 he2
    obtain ⟨r', id, m0, b, k, ctx0, o, h1, h2, h3⟩ := (h.books.rows i row hr).enc n c c' m he2.symm
    rw [hent hr]
    exact ⟨_, id, m0, b, k, ctx0, o, by rw [asHistory_of h.log h1, h2], h3⟩
  · intro i t n m hx
    obtain ⟨row, hr, hm, he⟩ := asHistory_get h.log hx
    injection he with he1 he2
    obtain ⟨r', id, m0, o, h1, h2, h3⟩ := (h.books.rows i row hr).dec n m he2.symm
    rw [hent hr]
    exact ⟨_, id, m0, o, by rw [asHistory_of h.log h1, h2], h3⟩
  · intro i t n x hx
    obtain ⟨row, hr, hm, he⟩ := asHistory_get h.log hx
    injection he with he1 he2
    obtain ⟨r', h1, h2⟩ := (h.books.rows i row hr).creation n x he2.symm
    left
    rw [hent hr]
    simp [entriesOf, h1, h2]
  · intro e
    simp only [entriesOf]
    cases hr : G[e]? with
    | none => simp
    | some r =>
      cases hc : clockOf r.x.op with
      | none => simp [hc]
      | some x =>
        simp only [Option.bind_some, hc, Option.getD_some]
        exact h.books.clk r (List.mem_of_getElem? hr) x hc

theorem entriesOf_born {log : List LocalEvent} {G : List Row} (h : log = G.map Row.x) {e : Nat} {x : LocalEvent} (hx : log[e]? = some x) {c : Nat}
    (hc : clockOf x.op = some c) : (entriesOf G).born e = c := by
  subst h
  rw [List.getElem?_map] at hx
  cases hr : G[e]? with
  | none => rw [hr] at hx; cases hx
  | some r =>
    rw [hr] at hx
    cases hx
    simp [entriesOf, hr, hc]

end Verif.Proof
