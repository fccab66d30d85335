import Verif.Model.Containers
import Verif.Spec.Containers
import Verif.Proof.LocalCache
/-
C105: the functions that the local cache gives to the hash table and to the priority queue are what these containers need.
-/
namespace Verif.Props
open Verif Verif.Spec

theorem unbe_base256_aux (bs : Bytes) (a : Nat) :
    bs.foldl (fun a (b : UInt8) => a * 256 + b.toNat) a = a * 256 ^ bs.length + base256 bs := by
  induction bs generalizing a with
  | nil => simp [base256]
  | cons b bs ih =>
    simp only [List.foldl_cons, ih, base256, List.length_cons, Nat.pow_succ, Nat.add_mul]
    rw [show a * 256 * 256 ^ bs.length = a * (256 ^ bs.length * 256) by rw [Nat.mul_assoc, Nat.mul_comm 256]]
    omega

theorem unbe_base256 (bs : Bytes) : unbe bs = base256 bs := by
  have := unbe_base256_aux bs 0
  simpa [unbe] using this

theorem base256_append (a b : Bytes) : base256 (a ++ b) = base256 a * 256 ^ b.length + base256 b := by
  rw [← unbe_base256, ← unbe_base256, ← unbe_base256]
  simp only [unbe, List.foldl_append]
  rw [unbe_base256_aux b, unbe_base256 b |>.symm]
  simp [unbe]

theorem base256_lt (bs : Bytes) : base256 bs < 256 ^ bs.length := by
  induction bs with
  | nil => simp [base256]
  | cons b bs ih =>
    have hb : b.toNat < 256 := b.toNat_lt
    simp only [base256, List.length_cons, Nat.pow_succ]
    calc b.toNat * 256 ^ bs.length + base256 bs < b.toNat * 256 ^ bs.length + 256 ^ bs.length := by omega
      _ = (b.toNat + 1) * 256 ^ bs.length := by rw [Nat.add_mul, Nat.one_mul]
      _ ≤ 256 * 256 ^ bs.length := Nat.mul_le_mul_right _ hb
      _ = 256 ^ bs.length * 256 := Nat.mul_comm _ _

theorem base256_zeros (n : Nat) : base256 (List.replicate n 0) = 0 := by
  induction n with
  | zero => rfl
  | succ n ih => simp [List.replicate_succ, base256, ih]

theorem base256_inj {a b : Bytes} (hl : a.length = b.length) (h : base256 a = base256 b) : a = b := by
  induction a generalizing b with
  | nil => cases b with
    | nil => rfl
    | cons _ _ => simp at hl
  | cons x a ih => cases b with
    | nil => simp at hl
    | cons y b =>
      simp only [List.length_cons, Nat.add_right_cancel_iff] at hl
      simp only [base256, hl] at h
      have ha := base256_lt a
      have hb := base256_lt b
      rw [hl] at ha
      have hp : 0 < 256 ^ b.length := Nat.pow_pos (by decide)
      have hx : x.toNat = y.toNat := by
        have h1 : (x.toNat * 256 ^ b.length + base256 a) / 256 ^ b.length = x.toNat := by
          rw [Nat.mul_comm, Nat.mul_add_div hp, Nat.div_eq_of_lt ha, Nat.add_zero]
        have h2 : (y.toNat * 256 ^ b.length + base256 b) / 256 ^ b.length = y.toNat := by
          rw [Nat.mul_comm, Nat.mul_add_div hp, Nat.div_eq_of_lt hb, Nat.add_zero]
        rw [← h1, h, h2]
      rw [hx] at h
      have : base256 a = base256 b := by omega
      rw [ih hl this, UInt8.toNat_inj.mp hx]

theorem be_base256 (n : Nat) (bs : Bytes) (h : bs.length = n) : be n (base256 bs) = bs := by
  apply base256_inj
  · subst h
    generalize base256 bs = v
    induction bs.length generalizing v with
    | zero => rfl
    | succ n ih => simp [be, ih]
  · subst h
    have hl := base256_lt bs
    generalize base256 bs = v at *
    generalize bs.length = n at *
    induction n generalizing v with
    | zero => simp at hl; simp [be, base256, hl]
    | succ n ih =>
      simp only [be, base256_append]
      have hv : v / 256 < 256 ^ n := by
        rw [Nat.pow_succ] at hl
        exact Nat.div_lt_of_lt_mul (by omega)
      rw [ih _ hv]
      have : (UInt8.ofNat (v % 256)).toNat = v % 256 := by
        rw [UInt8.toNat_ofNat']
        omega
      simp [base256, this]
      omega

/-- **C105**, the hash: on hosts of either byte order it is the number that the first eight bytes of the id spell, and a 64-bit value. -/
theorem C105_hash (en : Endian) (k : IdBuf) :
    hashCacheId en k = base256 (k.bytes.take 8) ∧ hashCacheId en k < 2 ^ 64 := by
  have hmem : ∀ m : Bytes, m.length = 8 → ntoh64 en (readUint en m) = base256 m := by
    intro m hm
    cases en with
    | big => simp [ntoh64, readUint, unbe_base256]
    | little =>
      simp only [ntoh64, readUint, unbe_base256]
      rw [be_base256 8 m.reverse (by simpa using hm), List.reverse_reverse]
  have h : hashCacheId en k = base256 (k.bytes.take 8) := by
    unfold hashCacheId
    simp only []
    split
    · rename_i hgt
      rw [hmem _ (by simp; omega)]
      simp
    · rename_i hle
      rw [hmem _ (by simp; omega), base256_append, base256_zeros, List.take_of_length_le (Nat.le_refl _),
        List.take_of_length_le (by omega)]
      simp
  refine ⟨h, ?_⟩
  rw [h]
  have := base256_lt (k.bytes.take 8)
  refine Nat.lt_of_lt_of_le this ?_
  rw [show (2 : Nat) ^ 64 = 256 ^ 8 from by decide]
  exact Nat.pow_le_pow_right (by decide) (by simp; omega)

/-- Ids of the caching CMM are digests of 64 bytes: two of them have the same hash exactly if they agree in the first eight bytes. -/
theorem C105_hash_spreads (en : Endian) {a b : IdBuf} (ha : 8 ≤ a.bytes.length) (hb : 8 ≤ b.bytes.length) :
    hashCacheId en a = hashCacheId en b ↔ a.bytes.take 8 = b.bytes.take 8 := by
  rw [(C105_hash en a).1, (C105_hash en b).1]
  refine ⟨fun h => base256_inj (by simp; omega) h, fun h => by rw [h]⟩

theorem eqCacheId_iff (a b : IdBuf) : eqCacheId a b = true ↔ a.bytes = b.bytes := by
  simp only [eqCacheId, Bool.and_eq_true, beq_iff_eq]
  exact ⟨fun h => h.2, fun h => ⟨by rw [h], h⟩⟩

/-- **C105**, hash and equality of cache ids are what a hash table needs, and two buffers are equal exactly if their contents are. -/
theorem C105_contract (en : Endian) : HashContract (hashCacheId en) eqCacheId ∧ ∀ a b, eqCacheId a b = true ↔ a.bytes = b.bytes := by
  refine ⟨⟨?_, ?_, ?_, ?_⟩, eqCacheId_iff⟩
  · intro a; rw [eqCacheId_iff]
  · intro a b h; rw [eqCacheId_iff] at *; exact h.symm
  · intro a b c h h'; rw [eqCacheId_iff] at *; exact h.trans h'
  · intro a b h
    rw [eqCacheId_iff] at h
    rw [(C105_hash en a).1, (C105_hash en b).1, h]

/-- Any table with chains, given functions that meet the contract, is a map from classes of keys. -/
theorem chains_mapAfter {K V I : Type} [DecidableEq I] {hash : K → Nat} {eq : K → K → Bool} {id : K → I} (hc : HashContract hash eq)
    (he : ∀ a b, eq a b = true ↔ id a = id b) (n : Nat) (ops : List (TableOp K V)) (k : K) :
    Chains.find hash eq n (Chains.run hash eq n ops) k = mapAfter id ops (id k) := by
  suffices h : ∀ (t : Chains K V) (m : I → Option V), (∀ k, Chains.find hash eq n t k = m (id k)) →
      ∀ k, Chains.find hash eq n (ops.foldl (Chains.apply hash eq n) t) k =
        ops.foldl (mapStep id) m (id k) from
    h _ _ (by intro k; simp [Chains.find]) k
  induction ops with
  | nil => intro t m h k; exact h k
  | cons op ops ih =>
    intro t m h k
    simp only [List.foldl_cons]
    apply ih
    intro k
    have hfil : ∀ k0, id k ≠ id k0 → ∀ l : List (K × V),
        (l.filter (fun e => !eq e.1 k0)).find? (fun e => eq e.1 k) = l.find? (fun e => eq e.1 k) := by
      intro k0 hne l
      induction l with
      | nil => rfl
      | cons e l ihl =>
        by_cases h0 : eq e.1 k0 = true
        · have h1 : eq e.1 k = false := by
            cases hh : eq e.1 k with
            | false => rfl
            | true => exact absurd (((he _ _).mp hh).symm.trans ((he _ _).mp h0)) hne
          simp [h0, h1, ihl]
        · simp only [Bool.not_eq_true] at h0
          simp [h0, List.find?_cons, ihl]
    have hnone : ∀ k0, id k = id k0 → ∀ l : List (K × V), (l.filter (fun e => !eq e.1 k0)).find? (fun e => eq e.1 k) = none := by
      intro k0 heq l
      rw [List.find?_eq_none]
      intro e hm
      have := (List.mem_filter.mp hm).2
      simp only [Bool.not_eq_true'] at this
      intro hk
      rw [he] at hk
      rw [(he _ _).mpr (hk.trans heq)] at this
      cases this
    have hk := h k
    unfold Chains.find at hk ⊢
    cases op with
    | put k0 v =>
      simp only [Chains.apply, mapStep]
      by_cases hid : id k = id k0
      · have hh : hash k = hash k0 := hc.hash _ _ ((he _ _).mpr hid)
        have h1 : eq k0 k = true := (he _ _).mpr hid.symm
        simp [hid, hh, h1]
      · have h1 : eq k0 k = false := by
          cases hh : eq k0 k with
          | false => rfl
          | true => exact absurd ((he _ _).mp hh).symm hid
        simp only [hid, if_false]
        split
        · simp only [List.find?_cons, h1]
          rw [hfil k0 hid]; exact hk
        · exact hk
    | remove k0 =>
      simp only [Chains.apply, mapStep]
      by_cases hid : id k = id k0
      · have hh : hash k = hash k0 := hc.hash _ _ ((he _ _).mpr hid)
        simp only [hid, hh, if_true]
        rw [hnone k0 hid]; rfl
      · simp only [hid, if_false]
        split
        · rw [hfil k0 hid]; exact hk
        · exact hk

/-- How `insertEntry` and `invalidate` change the table of `Model/LocalCache`. -/
def modelStep (t : List (Bytes × Nat)) (op : TableOp IdBuf Nat) : List (Bytes × Nat) :=
  match op with
  | .put k v => (k.bytes, v) :: tableRemove t k.bytes
  | .remove k => tableRemove t k.bytes

/-- The table of `Model/LocalCache` after the changes `ops`. -/
def modelTable (ops : List (TableOp IdBuf Nat)) : List (Bytes × Nat) :=
  ops.foldl modelStep []

theorem lookup_tableRemove (t : List (Bytes × Nat)) (a b : Bytes) :
    (tableRemove t a).lookup b = if b = a then none else t.lookup b := by
  induction t with
  | nil => simp [tableRemove]
  | cons e t ih =>
    simp only [tableRemove] at ih ⊢
    by_cases h : e.1 = a
    · simp only [List.filter_cons, ne_eq, h, not_true_eq_false, decide_false, Bool.false_eq_true, if_false, ih]
      by_cases hb : b = a
      · simp [hb]
      · obtain ⟨e1, e2⟩ := e
        simp only at h
        subst h
        have : (b == e1) = false := by simpa using hb
        simp [hb, List.lookup_cons, this]
    · obtain ⟨e1, e2⟩ := e
      simp only at h
      simp only [List.filter_cons, ne_eq, h, not_false_eq_true, decide_true, if_true, List.lookup_cons, ih]
      by_cases hb : b = a
      · subst hb
        have : (b == e1) = false := by simp; exact fun x => h x.symm
        simp [this]
      · simp [hb]

/-- **C105**, the table: a hash table with any number of chains, with the functions of the local cache, finds for every id after any changes
what the last of them that concerns that id left, whatever the addresses of the buffers; and so does the table in `Model/LocalCache`. -/
theorem C105_table (en : Endian) (n : Nat) (ops : List (TableOp IdBuf Nat)) (k : IdBuf) :
    Chains.find (hashCacheId en) eqCacheId n (Chains.run (hashCacheId en) eqCacheId n ops) k = mapAfter IdBuf.bytes ops k.bytes ∧
    (modelTable ops).lookup k.bytes = mapAfter IdBuf.bytes ops k.bytes := by
  refine ⟨chains_mapAfter (C105_contract en).1 (C105_contract en).2 n ops k, ?_⟩
  suffices h : ∀ (t : List (Bytes × Nat)) (m : Bytes → Option Nat), (∀ i, t.lookup i = m i) →
      ∀ i, (ops.foldl modelStep t).lookup i = ops.foldl (mapStep IdBuf.bytes) m i from
    h [] (fun _ => none) (fun _ => rfl) k.bytes
  induction ops with
  | nil => intro t m h i; exact h i
  | cons op ops ih =>
    intro t m h i
    simp only [List.foldl_cons]
    apply ih
    intro i
    cases op with
    | put k v =>
      simp only [modelStep, mapStep, List.lookup_cons, lookup_tableRemove, ← h]
      by_cases hi : i = k.bytes
      · simp [hi]
      · have : (i == k.bytes) = false := by simpa using hi
        simp [hi, this]
    | remove k => simp only [modelStep, mapStep, lookup_tableRemove, ← h]

example : hashCacheId .little ⟨16, [1, 2]⟩ = 258 ∧ hashCacheId .big ⟨32, [1, 2]⟩ = 258 ∧
    hashCacheId .little ⟨0, [1, 2, 3, 4, 5, 6, 7, 8, 9]⟩ = 0x0102030405060708 ∧
    hashCacheId .little ⟨0, []⟩ = hashCacheId .little ⟨0, [0]⟩ ∧ eqCacheId ⟨0, []⟩ ⟨0, [0]⟩ = false ∧
    eqCacheId ⟨16, [7]⟩ ⟨32, [7]⟩ = true := by decide +kernel

/-- Ids in one chain and a key at another address: the last value is found. -/
example : Chains.find (hashCacheId .little) eqCacheId 4
    (Chains.run (hashCacheId .little) eqCacheId 4 [.put ⟨16, [1]⟩ 10, .put ⟨32, [5]⟩ 20, .put ⟨48, [1]⟩ 30, .remove ⟨64, [5]⟩]) ⟨80, [1]⟩ =
    some 30 ∧ mapAfter IdBuf.bytes [.put ⟨16, [1]⟩ 10, .put ⟨32, [5]⟩ 20, .put ⟨48, [1]⟩ 30, .remove ⟨64, [5]⟩] [5] = none := by decide +kernel

/-- The contract is needed: with the address as hash the table would lose what is looked up through another buffer. -/
theorem C105_address_hash_refuted : ∃ (ops : List (TableOp IdBuf Nat)) (k : IdBuf),
    Chains.find IdBuf.addr eqCacheId 8 (Chains.run IdBuf.addr eqCacheId 8 ops) k ≠ mapAfter IdBuf.bytes ops k.bytes :=
  ⟨[.put ⟨1, [7]⟩ 10], ⟨2, [7]⟩, by decide +kernel⟩

/-- **C105**, the order of the queue: on entries at different addresses it is a total order, by expiry time first. -/
theorem C105_order (c : Cache) (P : Nat → Prop) (hP : ∀ a b, P a → P b → c.addr a = c.addr b → a = b) :
    CmpContract P c.ttlCmp ∧ (∀ a b, P a → P b → (c.ttlKey a).1 < (c.ttlKey b).1 → c.ttlCmp a b < 0) ∧
    ∀ a b, P a → P b → (c.ttlLt a b = true ↔ c.ttlCmp a b < 0) := by
  have key : ∀ n, (c.ttlKey n).2 = c.addr n := by intro n; unfold Cache.ttlKey; split <;> rfl
  have same : ∀ a b, c.addr a = c.addr b → P a → P b → a = b := fun a b h ha hb => hP a b ha hb h
  have neg : ∀ a b, P a → P b → (c.ttlCmp a b < 0 ↔ ((c.ttlKey a).1 < (c.ttlKey b).1 ∨ (c.ttlKey a).1 = (c.ttlKey b).1 ∧ c.addr a < c.addr b)) := by
    intro a b ha hb
    unfold Cache.ttlCmp
    split
    · rename_i h
      cases same a b h ha hb
      simp
    · split
      · simp_all
      · split
        · constructor
          · intro h; omega
          · intro h; omega
        · split
          · constructor
            · intro _; right; omega
            · intro _; decide
          · constructor
            · intro h; omega
            · intro h; omega
  have pos : ∀ a b, P a → P b → (0 < c.ttlCmp a b ↔ ((c.ttlKey b).1 < (c.ttlKey a).1 ∨ (c.ttlKey b).1 = (c.ttlKey a).1 ∧ c.addr b < c.addr a)) := by
    intro a b ha hb
    unfold Cache.ttlCmp
    split
    · rename_i h
      cases same a b h ha hb
      simp
    · split
      · constructor
        · intro h; omega
        · intro h; omega
      · split
        · constructor
          · intro _; left; omega
          · intro _; decide
        · split
          · constructor
            · intro h; omega
            · intro h; omega
          · constructor
            · intro _; right; omega
            · intro _; decide
  refine ⟨⟨?_, ?_, ?_⟩, ?_, ?_⟩
  · intro a b ha hb
    constructor
    · intro h
      have h1 := neg a b ha hb
      have h2 := pos a b ha hb
      apply same a b ?_ ha hb
      rw [h] at h1 h2
      simp only [Int.lt_irrefl, false_iff] at h1 h2
      omega
    · rintro rfl
      simp [Cache.ttlCmp]
  · intro a b ha hb
    rw [neg a b ha hb, pos b a hb ha]
  · intro a b d ha hb hd h1 h2
    rw [neg _ _ ha hb] at h1
    rw [neg _ _ hb hd] at h2
    rw [neg _ _ ha hd]
    omega
  · intro a b ha hb h
    rw [neg _ _ ha hb]
    exact .inl h
  · intro a b ha hb
    rw [neg _ _ ha hb]
    simp only [Cache.ttlLt, decide_eq_true_eq, key]

/-- The entry at the top of the queue is the least one. -/
theorem ttlTop_least {c : Cache} {l : List Nat} {n : Nat} (h : c.ttlTop l = some n) : n ∈ l ∧ ∀ m ∈ l, c.ttlLt m n = false := by
  induction l generalizing n with
  | nil => cases h
  | cons a l ih =>
    simp only [Cache.ttlTop] at h
    split at h
    · rename_i h0
      rw [ttlTop_none] at h0
      subst h0
      cases h
      simp [Cache.ttlLt]
    · rename_i m hm
      obtain ⟨h1, h2⟩ := ih hm
      split at h
      · rename_i hlt
        cases h
        refine ⟨.tail _ h1, fun k hk => ?_⟩
        rcases List.mem_cons.mp hk with rfl | hk
        · simp only [Cache.ttlLt, decide_eq_true_eq, decide_eq_false_iff_not] at hlt ⊢
          omega
        · exact h2 k hk
      · rename_i hlt
        cases h
        refine ⟨.head _, fun k hk => ?_⟩
        rcases List.mem_cons.mp hk with rfl | hk
        · simp [Cache.ttlLt]
        · have := h2 k hk
          simp only [Cache.ttlLt, decide_eq_true_eq, decide_eq_false_iff_not] at hlt this ⊢
          omega

/-- **C105**, the queue: the entry that expires next is the one of them that comes first in that order, and it does not depend on how the
queue has arranged its entries. -/
theorem C105_top (c : Cache) {l l' : List Nat} (hp : l.Perm l') (hl : ∀ a b, a ∈ l → b ∈ l → c.addr a = c.addr b → a = b) :
    c.ttlTop l = c.ttlTop l' ∧ ∀ n, c.ttlTop l = some n → n ∈ l ∧ ∀ m ∈ l, m ≠ n → c.ttlCmp n m < 0 := by
  have ho := C105_order c (· ∈ l) hl
  have least : ∀ n, c.ttlTop l = some n → n ∈ l ∧ ∀ m ∈ l, m ≠ n → c.ttlCmp n m < 0 := by
    intro n hn
    obtain ⟨h1, h2⟩ := ttlTop_least hn
    refine ⟨h1, fun m hm hne => ?_⟩
    have h3 := h2 m hm
    have h4 : ¬ c.ttlCmp m n < 0 := by
      rw [← ho.2.2 m n hm h1, h3]; decide
    have h5 : c.ttlCmp m n ≠ 0 := fun h => hne ((ho.1.zero m n hm h1).mp h)
    rw [ho.1.flip n m h1 hm]
    omega
  refine ⟨?_, least⟩
  cases h : c.ttlTop l with
  | none =>
    rw [ttlTop_none] at h
    subst h
    rw [← hp.nil_eq]
    rfl
  | some n =>
    cases h' : c.ttlTop l' with
    | none =>
      rw [ttlTop_none] at h'
      subst h'
      rw [hp.eq_nil] at h
      cases h
    | some n' =>
      obtain ⟨h1, h2⟩ := least n h
      obtain ⟨h3, h4⟩ := ttlTop_least h'
      have h3' := hp.mem_iff.mpr h3
      have h5 := h4 n (hp.mem_iff.mp h1)
      by_cases hne : n' = n
      · rw [hne]
      · have := (ho.2.2 n n' h1 h3').mpr (h2 n' h3' hne)
        rw [h5] at this
        cases this

/-- A cache with entries 0 and 2 that expire together and 1 that expires later. -/
def C105_cache : Cache :=
  { cacheNew (fun n => 100 - n) 4 with
    mem := fun n => if n < 3 then some ⟨1, [], if n = 1 then 9 else 5, 0, .dec ⟨0x0014, [], [], none⟩, none, 0, 0, false⟩ else none }

example : C105_cache.ttlTop [0, 1, 2] = some 2 ∧ C105_cache.ttlTop [2, 1, 0] = some 2 ∧ C105_cache.ttlCmp 0 1 = -1 ∧
    C105_cache.ttlCmp 2 0 = -1 ∧ C105_cache.ttlCmp 0 2 = 1 ∧ C105_cache.ttlCmp 1 1 = 0 := by decide +kernel

end Verif.Props
