import Verif.Proof.LocalRunsOps
/-
The books kept about a local cache used in threads: which put an entry comes from, and what has been added to its counters in which order.
-/
namespace Verif.Proof
open Verif Verif.Spec

/-- An addition to the bytes counter of an entry. -/
structure UseRec where
  ent : Nat
  ord : Nat
  amt : Nat

/-- An event, the position at which its entry was put, and when its bytes were added. -/
structure Row where
  x : LocalEvent
  ent : Nat
  time : Nat

def Row.use (r : Row) : UseRec := ⟨r.ent, r.time, (adds r.x.ev).1⟩

/-- Sums over the ledger. -/
def sumTo (e o : Nat) (l : List UseRec) : Nat := (l.map fun r => if r.ent = e ∧ r.ord ≤ o then r.amt else 0).sum
def sumAll (e : Nat) (l : List UseRec) : Nat := (l.map fun r => if r.ent = e then r.amt else 0).sum
def msum (e : Nat) (G : List Row) : Nat := (G.map fun r => if r.ent = e then (adds r.x.ev).2 else 0).sum

theorem sumTo_append (e o : Nat) (a b : List UseRec) : sumTo e o (a ++ b) = sumTo e o a + sumTo e o b := by
  simp [sumTo, List.sum_append]
theorem sumAll_append (e : Nat) (a b : List UseRec) : sumAll e (a ++ b) = sumAll e a + sumAll e b := by
  simp [sumAll, List.sum_append]
theorem msum_append (e : Nat) (a b : List Row) : msum e (a ++ b) = msum e a + msum e b := by
  simp [msum, List.sum_append]

theorem sumTo_all {e o : Nat} {l : List UseRec} (h : ∀ r ∈ l, r.ord ≤ o) : sumTo e o l = sumAll e l := by
  unfold sumTo sumAll
  congr 1
  apply List.map_congr_left
  intro r hr
  simp [h r hr]

theorem sum_zero {α : Type} (f : α → Nat) : ∀ {l : List α}, (∀ r ∈ l, f r = 0) → (l.map f).sum = 0 := by
  intro l
  induction l with
  | nil => intro _; rfl
  | cons a l ih =>
    intro h
    simp [h a (.head _), ih (fun r hr => h r (.tail _ hr))]

theorem sumAll_none {e : Nat} {l : List UseRec} (h : ∀ r ∈ l, r.ent ≠ e) : sumAll e l = 0 :=
  sum_zero _ fun r hr => if_neg (h r hr)
theorem msum_none {e : Nat} {G : List Row} (h : ∀ r ∈ G, r.ent ≠ e) : msum e G = 0 :=
  sum_zero _ fun r hr => if_neg (h r hr)

/-- What is right about the event at position `i`. -/
structure RowOk (G : List Row) (led : List UseRec) (i : Nat) (row : Row) : Prop where
  put : (stores row.x.ev.q).isSome = true → row.ent = i
  find : ∀ id f h k, row.x.ev = ⟨.find id, (f, some (h, k))⟩ → row.ent < i ∧ ∃ r', G[row.ent]? = some r' ∧ stores r'.x.ev.q = some (id, k)
  usage : ∀ h b n b' n', row.x.ev = ⟨.usage h b n, .ok (b', n')⟩ →
    (∃ r', G[row.ent]? = some r' ∧ r'.time ≤ row.time) ∧ row.ent ≤ i ∧ b' = sumTo row.ent row.time led % 2 ^ 64 ∧
      n' = msum row.ent (G.take (i + 1)) % 2 ^ 64
  enc : ∀ h c c' m, row.x.ev = ⟨.getEnc h c, (c', .ok m)⟩ → ∃ r' id m0 b n ctx0 o, G[row.ent]? = some r' ∧
    r'.x.ev = ⟨.putEnc id m0 b n ctx0, o⟩ ∧ m.alg = m0.alg ∧ m.dataKey = m0.dataKey ∧ m.edks = m0.edks ∧ m.trace = m0.trace ∧ SameMap c' ctx0
  signer : ∀ h c c' m, row.x.ev = ⟨.getEnc h c, (c', .ok m)⟩ → ∃ r' id m0 b n ctx0 env penv key, G[row.ent]? = some r' ∧
    r'.x.op = .putEnc penv id m0 b n ctx0 ∧ row.x.op = .getEnc env h c ∧ storedKey penv m0.signctx = some key ∧ startSig env m0.alg key = .ok m.signctx
  verifier : ∀ h m, row.x.ev = ⟨.getDec h, .ok m⟩ → ∃ r' id m0 env penv key, G[row.ent]? = some r' ∧
    r'.x.op = .putDec penv id m0 ∧ row.x.op = .getDec env h ∧ storedKey penv m0.signctx = some key ∧ startSig env m0.alg key = .ok m.signctx
  maps : ∀ h c c' r, row.x.ev = ⟨.getEnc h c, (c', r)⟩ → ∃ env, row.x.op = .getEnc env h c ∧ (env.cloneFails = some c' ∨ DistinctKeys c')
  dec : ∀ h m, row.x.ev = ⟨.getDec h, .ok m⟩ → ∃ r' id m0 o, G[row.ent]? = some r' ∧
    r'.x.ev = ⟨.putDec id m0, o⟩ ∧ m.alg = m0.alg ∧ m.dataKey = m0.dataKey ∧ m.trace = m0.trace
  creation : ∀ h x, row.x.ev = ⟨.creation h, x⟩ → ∃ r', G[row.ent]? = some r' ∧ clockOf r'.x.op = some x

theorem getElem?_append_some {α : Type} {l : List α} {i : Nat} {x y : α} (h : l[i]? = some x) : (l ++ [y])[i]? = some x := by
  rw [List.getElem?_append_left (List.getElem?_eq_some_iff.1 h).1]; exact h

theorem RowOk.row {G : List Row} {led : List UseRec} {i : Nat} {row : Row} (h : RowOk G led i row) (hi : i < G.length) (r : Row) :
    RowOk (G ++ [r]) led i row where
  put := h.put
  find := fun id f n k hr => by
    obtain ⟨h1, r', h2, h3⟩ := h.find id f n k hr
    exact ⟨h1, r', getElem?_append_some h2, h3⟩
  usage := fun n b m b' m' hr => by
    obtain ⟨⟨r', h1, h2⟩, h3, h4, h5⟩ := h.usage n b m b' m' hr
    refine ⟨⟨r', getElem?_append_some h1, h2⟩, h3, h4, ?_⟩
    rw [h5, List.take_append_of_le_length (by omega)]
  enc := fun n c c' m hr => by
    obtain ⟨r', id, m0, b, k, ctx0, o, h1, h2⟩ := h.enc n c c' m hr
    exact ⟨r', id, m0, b, k, ctx0, o, getElem?_append_some h1, h2⟩
  dec := fun n m hr => by
    obtain ⟨r', id, m0, o, h1, h2⟩ := h.dec n m hr
    exact ⟨r', id, m0, o, getElem?_append_some h1, h2⟩
  signer := fun n c c' m hr => by
    obtain ⟨r', id, m0, b, k, ctx0, env, penv, key, h1, h2⟩ := h.signer n c c' m hr
    exact ⟨r', id, m0, b, k, ctx0, env, penv, key, getElem?_append_some h1, h2⟩
  verifier := fun n m hr => by
    obtain ⟨r', id, m0, env, penv, key, h1, h2⟩ := h.verifier n m hr
    exact ⟨r', id, m0, env, penv, key, getElem?_append_some h1, h2⟩
  maps := h.maps
  creation := fun n x hr => by
    obtain ⟨r', h1, h2⟩ := h.creation n x hr
    exact ⟨r', getElem?_append_some h1, h2⟩

theorem RowOk.led {G : List Row} {led : List UseRec} {i : Nat} {row : Row} (h : RowOk G led i row) {u : UseRec} (hu : row.time < u.ord) :
    RowOk G (led ++ [u]) i row where
  put := h.put
  find := h.find
  usage := fun n b m b' m' hr => by
    obtain ⟨h1, h3, h4, h5⟩ := h.usage n b m b' m' hr
    refine ⟨h1, h3, ?_, h5⟩
    rw [h4, sumTo_append]
    have : sumTo row.ent row.time [u] = 0 := by
      simp only [sumTo, List.map_cons, List.map_nil, List.sum_cons, List.sum_nil, Nat.add_zero]
      rw [if_neg (by omega)]
    rw [this, Nat.add_zero]
  enc := h.enc
  signer := h.signer
  verifier := h.verifier
  maps := h.maps
  dec := h.dec
  creation := h.creation

/-- The row is the put that created the entry. -/
structure Stored (row : Row) (n : Nat) (e : Entry) : Prop where
  gives : gives row.x.ev = some n
  stores : stores row.x.ev.q = some (e.cacheId, e.isEncrypt)
  clock : clockOf row.x.op = some e.creation
  enc : ∀ m ctx, e.mat = .enc m ctx → DistinctKeys ctx ∧ ∃ id m0 b k o, row.x.ev = ⟨.putEnc id m0 b k ctx, o⟩ ∧ m = { m0 with signctx := none } ∧
    ∃ env, row.x.op = .putEnc env id m0 b k ctx ∧ storedKey env m0.signctx = some e.keyMat
  dec : ∀ m, e.mat = .dec m → ∃ id m0 o, row.x.ev = ⟨.putDec id m0, o⟩ ∧ m = { m0 with signctx := none } ∧
    ∃ env, row.x.op = .putDec env id m0 ∧ storedKey env m0.signctx = some e.keyMat

theorem Stored.same {row : Row} {n : Nat} {e e' : Entry} (h : Stored row n e) (hs : SameE e e') : Stored row n e' where
  gives := h.gives
  stores := by
    rw [h.stores, hs.id]
    unfold Entry.isEncrypt
    rw [hs.mat]
  clock := by rw [h.clock, hs.creation]
  enc := fun m ctx hm => by rw [hs.key]; exact h.enc m ctx (by rw [← hs.mat]; exact hm)
  dec := fun m hm => by rw [hs.key]; exact h.dec m (by rw [← hs.mat]; exact hm)

/-- Additions whose calls have not returned. -/
def pending (num : Nat) (pend : Nat → Option UseRec) : List UseRec := (List.range num).flatMap fun t => (pend t).toList

structure Books (G : List Row) (pos : Nat → Nat) (pend : Nat → Option UseRec) (led : List UseRec) (num : Nat) (c : Cache) : Prop where
  ord : ∀ (i : Nat) (r : UseRec), led[i]? = some r → r.ord = i
  lent : ∀ r ∈ led, r.ent < G.length
  rows : ∀ (i : Nat) (row : Row), G[i]? = some row → RowOk G led i row
  ent : ∀ row ∈ G, row.ent < G.length ∧ row.time < led.length
  names : ∀ row ∈ G, ∀ h, gives row.x.ev = some h ∨ uses row.x.ev.q = some h → row.ent = pos h ∧ h < c.next
  clk : ∀ row ∈ G, ∀ x, clockOf row.x.op = some x → x < 2 ^ 64
  mem : ∀ n e, c.mem n = some e → n < c.next ∧ ∃ row, G[pos n]? = some row ∧ Stored row n e
  sums : ∀ n e, c.mem n = some e → e.usageBytes % 2 ^ 64 = sumAll (pos n) led % 2 ^ 64 ∧ e.usageMessages % 2 ^ 64 = msum (pos n) G % 2 ^ 64
  perm : led.Perm (G.map Row.use ++ pending num pend)

section
variable {G : List Row} {pos : Nat → Nat} {pend : Nat → Option UseRec} {led : List UseRec} {num : Nat} {c c' : Cache}

theorem Books.ord_lt (h : Books G pos pend led num c) {r : UseRec} (hr : r ∈ led) : r.ord < led.length := by
  obtain ⟨i, hi⟩ := List.mem_iff_getElem?.1 hr
  rw [h.ord i r hi]
  exact (List.getElem?_eq_some_iff.1 hi).1

theorem Books.new (addr : Nat → Nat) (cap num : Nat) : Books [] (fun _ => 0) (fun _ => none) [] num (cacheNew addr cap) where
  ord := by simp
  lent := by simp
  rows := by simp
  ent := by simp
  names := by simp
  clk := by simp
  mem := fun n e h => by cases h
  sums := fun n e h => by cases h
  perm := by
    have : pending num (fun _ => none) = [] := by unfold pending; simp
    rw [this]; exact .refl _

theorem Books.same (h : Books G pos pend led num c) (hs : SameC c c') : Books G pos pend led num c' where
  ord := h.ord
  lent := h.lent
  rows := h.rows
  ent := h.ent
  names := fun r hr n hn => ⟨(h.names r hr n hn).1, Nat.lt_of_lt_of_le (h.names r hr n hn).2 hs.1⟩
  clk := h.clk
  mem := fun n e' he' => by
    obtain ⟨e, he, hse⟩ := hs.2 n e' he'
    obtain ⟨h1, row, h2, h3⟩ := h.mem n e he
    exact ⟨Nat.lt_of_lt_of_le h1 hs.1, row, h2, h3.same hse⟩
  sums := fun n e' he' => by
    obtain ⟨e, he, hse⟩ := hs.2 n e' he'
    rw [hse.bytes, hse.messages]
    exact h.sums n e he
  perm := h.perm

/-- An entry's put is not that of another entry. -/
theorem Books.inj (h : Books G pos pend led num c) {n m : Nat} {e f : Entry} (hn : c.mem n = some e) (hm : c.mem m = some f)
    (hp : pos n = pos m) : n = m := by
  obtain ⟨-, r, h1, h2⟩ := h.mem n e hn
  obtain ⟨-, r', h3, h4⟩ := h.mem m f hm
  rw [hp, h3] at h1
  cases h1
  have := h2.gives
  rw [h4.gives] at this
  cases this
  rfl

theorem Books.pos_lt (h : Books G pos pend led num c) {n : Nat} {e : Entry} (hn : c.mem n = some e) : pos n < G.length := by
  obtain ⟨-, r, h1, -⟩ := h.mem n e hn
  exact (List.getElem?_eq_some_iff.1 h1).1

theorem getElem?_snoc {α : Type} {l : List α} {i : Nat} {x y : α} (h : (l ++ [y])[i]? = some x) :
    l[i]? = some x ∨ (i = l.length ∧ x = y) := by
  by_cases hi : i < l.length
  · rw [List.getElem?_append_left hi] at h; exact .inl h
  · rw [List.getElem?_append_right (by omega)] at h
    right
    have hl := (List.getElem?_eq_some_iff.1 h).1
    simp at hl
    have : i - l.length = 0 := by omega
    rw [this] at h
    simp at h
    exact ⟨by omega, h.symm⟩

/-- An event whose additions, if any, are to no entry that is there. -/
theorem Books.event (h : Books G pos pend led num c) (x : LocalEvent) (e0 : Nat) (he0 : e0 ≤ G.length)
    (hrow : RowOk (G ++ [⟨x, e0, led.length⟩]) (led ++ [⟨e0, led.length, (adds x.ev).1⟩]) G.length ⟨x, e0, led.length⟩)
    (hname : ∀ n, gives x.ev = some n ∨ uses x.ev.q = some n → e0 = pos n ∧ n < c.next)
    (hclk : ∀ y, clockOf x.op = some y → y < 2 ^ 64)
    (hadd : ∀ n e, c.mem n = some e → pos n = e0 → adds x.ev = (0, 0)) :
    Books (G ++ [⟨x, e0, led.length⟩]) pos pend (led ++ [⟨e0, led.length, (adds x.ev).1⟩]) num c where
  ord := fun i r hr => by
    rcases getElem?_snoc hr with hr | ⟨hi, hr⟩
    · exact h.ord i r hr
    · subst hr; exact hi.symm
  lent := fun r hr => by
    rw [List.length_append, List.length_singleton]
    rcases List.mem_append.1 hr with hr | hr
    · have := h.lent r hr; omega
    · rw [List.mem_singleton] at hr; subst hr; simp only; omega
  rows := fun i row hr => by
    rcases getElem?_snoc hr with hr | ⟨hi, hr⟩
    · have := h.ent row (List.mem_of_getElem? hr)
      exact ((h.rows i row hr).row (List.getElem?_eq_some_iff.1 hr).1 _).led this.2
    · subst hr; subst hi; exact hrow
  ent := fun row hr => by
    rw [List.length_append, List.length_singleton, List.length_append, List.length_singleton]
    rcases List.mem_append.1 hr with hr | hr
    · have := h.ent row hr; omega
    · rw [List.mem_singleton] at hr; subst hr; simp only; omega
  names := fun row hr n hn => by
    rcases List.mem_append.1 hr with hr | hr
    · exact h.names row hr n hn
    · rw [List.mem_singleton] at hr; subst hr; exact hname n hn
  clk := fun row hr => by
    rcases List.mem_append.1 hr with hr | hr
    · exact h.clk row hr
    · rw [List.mem_singleton] at hr; subst hr; exact hclk
  mem := fun n e hm => by
    obtain ⟨h1, row, h2, h3⟩ := h.mem n e hm
    exact ⟨h1, row, getElem?_append_some h2, h3⟩
  sums := fun n e hm => by
    obtain ⟨h1, h2⟩ := h.sums n e hm
    rw [sumAll_append, msum_append, h1, h2]
    have h3 : sumAll (pos n) [⟨e0, led.length, (adds x.ev).1⟩] = 0 := by
      simp only [sumAll, List.map_cons, List.map_nil, List.sum_cons, List.sum_nil, Nat.add_zero]
      split
      · next hp => rw [hadd n e hm hp.symm]
      · rfl
    have h4 : msum (pos n) [⟨x, e0, led.length⟩] = 0 := by
      simp only [msum, List.map_cons, List.map_nil, List.sum_cons, List.sum_nil, Nat.add_zero]
      split
      · next hp => rw [hadd n e hm hp.symm]
      · rfl
    rw [h3, h4]
    exact ⟨rfl, rfl⟩
  perm := by
    rw [List.map_append, List.map_cons, List.map_nil]
    have h1 : (Row.use ⟨x, e0, led.length⟩) = ⟨e0, led.length, (adds x.ev).1⟩ := rfl
    rw [h1]
    have h2 := h.perm.append_right [⟨e0, led.length, (adds x.ev).1⟩]
    refine h2.trans ?_
    rw [List.append_assoc, List.append_assoc]
    exact List.Perm.append_left _ List.perm_append_comm

theorem Books.repos (h : Books G pos pend led num c) (pos' : Nat → Nat) (hp : ∀ n, n < c.next → pos' n = pos n) : Books G pos' pend led num c where
  ord := h.ord
  lent := h.lent
  rows := h.rows
  ent := h.ent
  names := fun r hr n hn => by
    obtain ⟨h1, h2⟩ := h.names r hr n hn
    rw [hp n h2]; exact ⟨h1, h2⟩
  clk := h.clk
  mem := fun n e hm => by
    obtain ⟨h1, h2⟩ := h.mem n e hm
    rw [hp n h1]; exact ⟨h1, h2⟩
  sums := fun n e hm => by
    rw [hp n (h.mem n e hm).1]; exact h.sums n e hm
  perm := h.perm

/-- More handle numbers than entries. -/
theorem Books.more (h : Books G pos pend led num c) (k : Nat) (hk : c.next ≤ k) : Books G pos pend led num { c with next := k } :=
  h.same ⟨hk, fun _ e he => ⟨e, he, .refl e⟩⟩

/-- A new entry `n` with its put event. -/
theorem Books.put (h : Books G pos pend led num c) (x : LocalEvent) {e0 : Entry} (hfree : c.mem c.next = none) (hnext : c.next < c'.next)
    (hg : gives x.ev = some c.next) (hu : uses x.ev.q = none) (hn : c'.mem c.next = some e0)
    (hst : Stored ⟨x, G.length, led.length⟩ c.next e0) (hclk : ∀ y, clockOf x.op = some y → y < 2 ^ 64)
    (hb : adds x.ev = (e0.usageBytes, e0.usageMessages))
    (hold : ∀ j e', j ≠ c.next → c'.mem j = some e' → ∃ e, c.mem j = some e ∧ SameE e e') :
    Books (G ++ [⟨x, G.length, led.length⟩]) (fun n => if n = c.next then G.length else pos n) pend
      (led ++ [⟨G.length, led.length, (adds x.ev).1⟩]) num c' := by
  have hq : (stores x.ev.q).isSome = true := by rw [hst.stores]; rfl
  have hpos : ∀ n, n < c.next → (if n = c.next then G.length else pos n) = pos n := fun n hn => if_neg (by omega)
  have h1 := h.repos (fun n => if n = c.next then G.length else pos n) hpos
  have h2 := h1.more c'.next (Nat.le_of_lt hnext)
  have h3 := Books.event h2 x G.length (Nat.le_refl _) (by
    constructor
    · exact fun _ => rfl
    · intro id f n k hr; exfalso; simp only at hr; rw [hr] at hq; cases hq
    · intro n b m b' m' hr; exfalso; simp only at hr; rw [hr] at hq; cases hq
    · intro n b m b' hr; exfalso; simp only at hr; rw [hr] at hq; cases hq
    · intro n b m b' hr; exfalso; simp only at hr; rw [hr] at hq; cases hq
    · intro n b hr; exfalso; simp only at hr; rw [hr] at hq; cases hq
    · intro n b m b' hr; exfalso; simp only at hr; rw [hr] at hq; cases hq
    · intro n b hr; exfalso; simp only at hr; rw [hr] at hq; cases hq
    · intro n b hr; exfalso; simp only at hr; rw [hr] at hq; cases hq) (by
      rintro n (hn' | hn')
      · rw [hg] at hn'
        cases hn'
        simp [hnext]
      · rw [hu] at hn'; cases hn') hclk (by
      intro n e hm hp
      exfalso
      have := h2.pos_lt hm
      omega)
  have hpn : ∀ n e, n ≠ c.next → c.mem n = some e → (if n = c.next then G.length else pos n) = pos n := fun n e hne _ => if_neg hne
  refine ⟨h3.ord, h3.lent, h3.rows, h3.ent, h3.names, h3.clk, fun n e' hm => ?_, fun n e' hm => ?_, h3.perm⟩
  · by_cases hne : n = c.next
    · subst hne
      rw [hn] at hm
      cases hm
      exact ⟨hnext, _, by simp, hst⟩
    · obtain ⟨e, he, hs⟩ := hold n e' hne hm
      obtain ⟨h4, row, h5, h6⟩ := h3.mem n e he
      exact ⟨h4, row, h5, h6.same hs⟩
  · by_cases hne : n = c.next
    · subst hne
      rw [hn] at hm
      cases hm
      simp only [if_true]
      rw [sumAll_append, msum_append, sumAll_none (fun r hr => by have := h.lent r hr; omega),
        msum_none (fun r hr => by have := (h.ent r hr).1; omega)]
      simp [sumAll, msum, hb]
    · obtain ⟨e, he, hs⟩ := hold n e' hne hm
      rw [hs.bytes, hs.messages]
      exact h3.sums n e he

/-! ### additions -/

def setPend (pend : Nat → Option UseRec) (t : Nat) (x : Option UseRec) : Nat → Option UseRec := fun i => if i = t then x else pend i

/-- The additions of the other threads. -/
def pendOthers (num t : Nat) (pend : Nat → Option UseRec) : List UseRec :=
  ((List.range num).filter (fun i => i ≠ t)).flatMap fun i => (pend i).toList

theorem flatMap_split {α : Type} {f : Nat → List α} {t : Nat} : ∀ {k : Nat}, t < k →
    ((List.range k).flatMap f).Perm (f t ++ ((List.range k).filter (fun i => i ≠ t)).flatMap f) := by
  intro k
  induction k with
  | zero => intro h; omega
  | succ k ih =>
    intro h
    rw [List.range_succ, List.flatMap_append, List.filter_append, List.flatMap_append]
    simp only [List.flatMap_cons, List.flatMap_nil, List.append_nil]
    by_cases hk : t = k
    · subst hk
      have h1 : (List.range t).filter (fun i => i ≠ t) = List.range t := by
        rw [List.filter_eq_self]; intro i hi; have := List.mem_range.1 hi; simp; omega
      have h2 : [t].filter (fun i => i ≠ t) = [] := by simp
      rw [h1, h2]
      simp only [List.flatMap_nil, List.append_nil]
      exact List.perm_append_comm
    · have h2 : [k].filter (fun i => i ≠ t) = [k] := by simp; omega
      rw [h2]
      simp only [List.flatMap_cons, List.flatMap_nil, List.append_nil]
      rw [← List.append_assoc]
      exact (ih (by omega)).append_right _

theorem pending_split {t : Nat} (ht : t < num) (x : Option UseRec) :
    (pending num (setPend pend t x)).Perm (x.toList ++ pendOthers num t pend) := by
  have h := flatMap_split (f := fun i => (setPend pend t x i).toList) ht
  unfold pending
  refine h.trans ?_
  have h1 : (setPend pend t x t).toList = x.toList := by simp [setPend]
  have h2 : ((List.range num).filter (fun i => i ≠ t)).flatMap (fun i => (setPend pend t x i).toList) = pendOthers num t pend := by
    unfold pendOthers
    rw [List.flatMap_def, List.flatMap_def]
    congr 1
    apply List.map_congr_left
    intro i hi
    have : i ≠ t := by simpa using (List.mem_filter.1 hi).2
    simp [setPend, this]
  rw [h1, h2]

theorem setPend_self (t : Nat) : setPend pend t (pend t) = pend := by
  funext i
  unfold setPend
  split
  · next h => rw [h]
  · rfl

theorem pending_self {t : Nat} (ht : t < num) : (pending num pend).Perm ((pend t).toList ++ pendOthers num t pend) := by
  have := pending_split (pend := pend) ht (pend t)
  rwa [setPend_self] at this

/-- The first addition of `update_usage_stats`. -/
theorem Books.addBytes (h : Books G pos pend led num c) {t n bytes : Nat} {e : Entry} (ht : t < num) (hp : pend t = none) (hm : c.mem n = some e) :
    Books G pos (setPend pend t (some ⟨pos n, led.length, bytes⟩)) (led ++ [⟨pos n, led.length, bytes⟩]) num
      (c.set n (some { e with usageBytes := u64 (e.usageBytes + bytes) })) ∧
    u64 (e.usageBytes + bytes) = sumTo (pos n) led.length (led ++ [⟨pos n, led.length, bytes⟩]) % 2 ^ 64 ∧
    ∃ row, G[pos n]? = some row ∧ row.time ≤ led.length := by
  obtain ⟨hn, row, hrow, hst⟩ := h.mem n e hm
  have hsum : u64 (e.usageBytes + bytes) = (sumAll (pos n) led + bytes) % 2 ^ 64 := by
    have := (h.sums n e hm).1
    unfold u64
    omega
  have hall : sumAll (pos n) (led ++ [⟨pos n, led.length, bytes⟩]) = sumAll (pos n) led + bytes := by
    rw [sumAll_append]
    simp [sumAll]
  refine ⟨⟨?_, ?_, ?_, ?_, h.names, h.clk, ?_, ?_, ?_⟩, ?_, row, hrow, Nat.le_of_lt (h.ent row (List.mem_of_getElem? hrow)).2⟩
  · intro i r hr
    rcases getElem?_snoc hr with hr | ⟨hi, hr⟩
    · exact h.ord i r hr
    · subst hr; exact hi.symm
  · intro r hr
    rcases List.mem_append.1 hr with hr | hr
    · exact h.lent r hr
    · rw [List.mem_singleton] at hr; subst hr; exact h.pos_lt hm
  · intro i r hr
    exact (h.rows i r hr).led (h.ent r (List.mem_of_getElem? hr)).2
  · intro r hr
    have := h.ent r hr
    rw [List.length_append, List.length_singleton]
    omega
  · intro m e' he'
    simp only [Cache.set] at he'
    split at he'
    · next hmn =>
      subst hmn
      cases he'
      exact ⟨hn, row, hrow, hst.gives, hst.stores, hst.clock, hst.enc, hst.dec⟩
    · exact h.mem m e' he'
  · intro m e' he'
    simp only [Cache.set] at he'
    split at he'
    · next hmn =>
      subst hmn
      cases he'
      simp only
      refine ⟨?_, (h.sums _ e hm).2⟩
      rw [hall, hsum, Nat.mod_mod]
    · next hmn =>
      obtain ⟨h1, h2⟩ := h.sums m e' he'
      refine ⟨?_, h2⟩
      rw [sumAll_append, h1]
      have : sumAll (pos m) [⟨pos n, led.length, bytes⟩] = 0 := by
        simp only [sumAll, List.map_cons, List.map_nil, List.sum_cons, List.sum_nil, Nat.add_zero]
        rw [if_neg]
        intro hp
        exact hmn (h.inj he' hm hp.symm)
      rw [this, Nat.add_zero]
  · have h1 := pending_self (pend := pend) ht
    rw [hp] at h1
    have h2 := pending_split (pend := pend) ht (some ⟨pos n, led.length, bytes⟩)
    simp only [Option.toList_none, List.nil_append, Option.toList_some, List.singleton_append] at h1 h2
    refine (h.perm.append_right _).trans ?_
    rw [List.append_assoc]
    refine List.Perm.append_left _ ?_
    refine (h1.append_right _).trans (List.Perm.trans ?_ h2.symm)
    exact List.perm_append_singleton _ _
  · rw [sumTo_all, hall, hsum]
    intro r hr
    rcases List.mem_append.1 hr with hr | hr
    · exact Nat.le_of_lt (h.ord_lt hr)
    · rw [List.mem_singleton] at hr; subst hr; exact Nat.le_refl _

/-- The second addition, with which the call returns. -/
theorem Books.addMessages (h : Books G pos pend led num c) {t n bytes messages o sum : Nat} {e : Entry} {op : CacheOp} {row : Row} (ht : t < num)
    (hp : pend t = some ⟨pos n, o, bytes⟩) (hm : c.mem n = some e) (hclk : clockOf op = none) (ho : o < led.length)
    (hsum : sum = sumTo (pos n) o led % 2 ^ 64) (hrow : G[pos n]? = some row) (hat : row.time ≤ o) :
    Books (G ++ [⟨⟨t, op, ⟨.usage n bytes messages, .ok (sum, u64 (e.usageMessages + messages))⟩⟩, pos n, o⟩]) pos (setPend pend t none) led num
      (c.set n (some { e with usageMessages := u64 (e.usageMessages + messages) })) := by
  obtain ⟨hn, row', hrow', hst⟩ := h.mem n e hm
  have hlt := h.pos_lt hm
  have hadd : ∀ b : Except Err (Nat × Nat), (∃ x, b = .ok x) → adds (⟨.usage n bytes messages, b⟩ : CacheEvent Nat) = (bytes, messages) := by
    rintro b ⟨x, rfl⟩; rfl
  have hmsum : u64 (e.usageMessages + messages) = (msum (pos n) G + messages) % 2 ^ 64 := by
    have := (h.sums n e hm).2
    unfold u64
    omega
  have hall : msum (pos n) (G ++ [⟨⟨t, op, ⟨.usage n bytes messages, .ok (sum, u64 (e.usageMessages + messages))⟩⟩, pos n, o⟩]) =
      msum (pos n) G + messages := by
    rw [msum_append]
    simp [msum, adds]
  refine ⟨h.ord, ?_, ?_, ?_, ?_, ?_, ?_, ?_, ?_⟩
  · intro r hr
    have := h.lent r hr
    rw [List.length_append, List.length_singleton]; omega
  · intro i r hr
    rcases getElem?_snoc hr with hr | ⟨hi, hr⟩
    · exact (h.rows i r hr).row (List.getElem?_eq_some_iff.1 hr).1 _
    · subst hr; subst hi
      constructor
      · intro hh; cases hh
      · intro id f n k hr; cases hr
      · intro n' b m b' m' hr
        cases hr
        refine ⟨⟨row, getElem?_append_some hrow, hat⟩, Nat.le_of_lt hlt, hsum, ?_⟩
        have : (G ++ [(⟨⟨t, op, ⟨.usage n bytes messages, .ok (sum, u64 (e.usageMessages + messages))⟩⟩, pos n, o⟩ : Row)]).take (G.length + 1) =
            G ++ [⟨⟨t, op, ⟨.usage n bytes messages, .ok (sum, u64 (e.usageMessages + messages))⟩⟩, pos n, o⟩] :=
          List.take_of_length_le (by simp)
        rw [this, hall, hmsum]
      all_goals (intros; rename_i hr; cases hr)
  · intro r hr
    rw [List.length_append, List.length_singleton]
    rcases List.mem_append.1 hr with hr | hr
    · have := h.ent r hr; omega
    · rw [List.mem_singleton] at hr; subst hr; simp only; omega
  · intro r hr k hk
    rcases List.mem_append.1 hr with hr | hr
    · exact h.names r hr k hk
    · rw [List.mem_singleton] at hr; subst hr
      rcases hk with hk | hk
      · cases hk
      · cases hk; exact ⟨rfl, hn⟩
  · intro r hr
    rcases List.mem_append.1 hr with hr | hr
    · exact h.clk r hr
    · rw [List.mem_singleton] at hr; subst hr
      intro y hy
      simp only at hy
      rw [hclk] at hy; cases hy
  · intro m e' he'
    simp only [Cache.set] at he'
    split at he'
    · next hmn =>
      subst hmn
      cases he'
      exact ⟨hn, row', getElem?_append_some hrow', hst.gives, hst.stores, hst.clock, hst.enc, hst.dec⟩
    · obtain ⟨h1, r, h2, h3⟩ := h.mem m e' he'
      exact ⟨h1, r, getElem?_append_some h2, h3⟩
  · intro m e' he'
    simp only [Cache.set] at he'
    split at he'
    · next hmn =>
      subst hmn
      cases he'
      simp only
      refine ⟨(h.sums _ e hm).1, ?_⟩
      rw [hall, hmsum, Nat.mod_mod]
    · next hmn =>
      obtain ⟨h1, h2⟩ := h.sums m e' he'
      refine ⟨h1, ?_⟩
      rw [msum_append, h2]
      have : msum (pos m) [⟨⟨t, op, ⟨.usage n bytes messages, .ok (sum, u64 (e.usageMessages + messages))⟩⟩, pos n, o⟩] = 0 := by
        simp only [msum, List.map_cons, List.map_nil, List.sum_cons, List.sum_nil, Nat.add_zero]
        rw [if_neg]
        intro hp
        exact hmn (h.inj he' hm hp.symm)
      rw [this, Nat.add_zero]
  · have h1 := pending_self (pend := pend) ht
    rw [hp] at h1
    have h2 := pending_split (pend := pend) ht none
    simp only [Option.toList_none, List.nil_append, Option.toList_some, List.singleton_append] at h1 h2
    rw [List.map_append, List.map_cons, List.map_nil]
    refine h.perm.trans ?_
    rw [List.append_assoc]
    refine List.Perm.append_left _ ?_
    rw [List.singleton_append]
    exact h1.trans (h2.symm.cons _)

end

end Verif.Proof
