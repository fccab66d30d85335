import Verif.Model.EncCtx
import Verif.Proof.Bytes
namespace Verif

/-! ### the key order -/

theorem bytesLe_refl (a : Bytes) : bytesLe a a = true := by
  induction a with
  | nil => rfl
  | cons x xs ih => simp [bytesLe, ih]

theorem bytesLe_total (a b : Bytes) : bytesLe a b = true ∨ bytesLe b a = true := by
  induction a generalizing b with
  | nil => left; rfl
  | cons x xs ih =>
    cases b with
    | nil => right; rfl
    | cons y ys =>
      simp only [bytesLe]
      rcases Nat.lt_trichotomy x.toNat y.toNat with h | h | h
      · left; simp [UInt8.lt_iff_toNat_lt, h]
      · have : x = y := UInt8.toNat_inj.mp h
        subst this
        simpa [bytesLe] using ih ys
      · right; simp [UInt8.lt_iff_toNat_lt, h]

theorem bytesLe_antisymm {a b : Bytes} (h1 : bytesLe a b = true) (h2 : bytesLe b a = true) : a = b := by
  induction a generalizing b with
  | nil => cases b with
    | nil => rfl
    | cons => simp [bytesLe] at h2
  | cons x xs ih =>
    cases b with
    | nil => simp [bytesLe] at h1
    | cons y ys =>
      simp only [bytesLe, UInt8.lt_iff_toNat_lt] at h1 h2
      rcases Nat.lt_trichotomy x.toNat y.toNat with h | h | h
      · have h' : ¬ y.toNat < x.toNat := by omega
        simp [h, h'] at h2
      · have : x = y := UInt8.toNat_inj.mp h
        subst this
        simp at h1 h2
        rw [ih h1 h2]
      · have h' : ¬ x.toNat < y.toNat := by omega
        simp [h, h'] at h1

theorem bytesLe_trans {a b c : Bytes} (h1 : bytesLe a b = true) (h2 : bytesLe b c = true) :
    bytesLe a c = true := by
  induction a generalizing b c with
  | nil => rfl
  | cons x xs ih =>
    cases b with
    | nil => simp [bytesLe] at h1
    | cons y ys =>
      cases c with
      | nil => simp [bytesLe] at h2
      | cons z zs =>
        simp only [bytesLe, UInt8.lt_iff_toNat_lt] at *
        by_cases hxy : x.toNat < y.toNat
        · by_cases hyz : y.toNat < z.toNat
          · have : x.toNat < z.toNat := by omega
            simp [this]
          · by_cases hzy : z.toNat < y.toNat
            · simp [hyz, hzy] at h2
            · have : x.toNat < z.toNat := by omega
              simp [this]
        · by_cases hyx : y.toNat < x.toNat
          · simp [hxy, hyx] at h1
          · simp [hxy, hyx] at h1
            by_cases hyz : y.toNat < z.toNat
            · have : x.toNat < z.toNat := by omega
              simp [this]
            · by_cases hzy : z.toNat < y.toNat
              · simp [hyz, hzy] at h2
              · simp [hyz, hzy] at h2
                have h3 : ¬ x.toNat < z.toNat := by omega
                have h4 : ¬ z.toNat < x.toNat := by omega
                simp [h3, h4, ih h1 h2]

/-! ### sorting -/

theorem insertByKey_perm (e : Bytes × Bytes) (m : EncCtx) : (insertByKey e m).Perm (e :: m) := by
  induction m with
  | nil => exact List.Perm.refl _
  | cons f m ih =>
    simp only [insertByKey]
    split
    · exact List.Perm.refl _
    · exact (List.Perm.cons f ih).trans (List.Perm.swap e f m)

theorem sortByKey_perm (m : EncCtx) : (sortByKey m).Perm m := by
  induction m with
  | nil => exact List.Perm.refl _
  | cons e m ih => exact (insertByKey_perm e _).trans (List.Perm.cons e ih)

/-- Sorted by key. -/
def SortedByKey (m : EncCtx) : Prop := m.Pairwise (fun a b => bytesLe a.1 b.1 = true)

theorem insertByKey_sorted (e : Bytes × Bytes) {m : EncCtx} (h : SortedByKey m) : SortedByKey (insertByKey e m) := by
  induction m with
  | nil => simp [insertByKey, SortedByKey]
  | cons f m ih =>
    unfold SortedByKey at h
    rw [List.pairwise_cons] at h
    simp only [insertByKey]
    split
    · rename_i hle
      unfold SortedByKey
      rw [List.pairwise_cons, List.pairwise_cons]
      refine ⟨?_, h.1, h.2⟩
      intro a ha
      rcases List.mem_cons.mp ha with rfl | ha
      · exact hle
      · exact bytesLe_trans hle (h.1 a ha)
    · rename_i hle
      unfold SortedByKey
      rw [List.pairwise_cons]
      refine ⟨?_, ih h.2⟩
      intro a ha
      have := (insertByKey_perm e m).mem_iff.mp ha
      rcases List.mem_cons.mp this with rfl | ha
      · rcases bytesLe_total a.1 f.1 with h' | h'
        · exact absurd h' (by simpa using hle)
        · exact h'
      · exact h.1 a ha

theorem sortByKey_sorted (m : EncCtx) : SortedByKey (sortByKey m) := by
  induction m with
  | nil => exact List.Pairwise.nil
  | cons e m ih => exact insertByKey_sorted e ih

theorem WF_perm {m1 m2 : EncCtx} (h : m1.Perm m2) : EncCtx.WF m1 ↔ EncCtx.WF m2 :=
  (h.map Prod.fst).nodup_iff

theorem bytesLe_lt {a b : Bytes} (h : bytesLe a b = true) (hne : a ≠ b) : a < b := by
  induction a generalizing b with
  | nil =>
    cases b with
    | nil => exact absurd rfl hne
    | cons y ys => exact List.Lex.nil
  | cons x xs ih =>
    cases b with
    | nil => cases h
    | cons y ys =>
      simp only [bytesLe] at h
      by_cases h1 : x < y
      · exact List.Lex.rel h1
      · rw [if_neg h1] at h
        by_cases h2 : y < x
        · rw [if_pos h2] at h; cases h
        · rw [if_neg h2] at h
          have : x = y := UInt8.le_antisymm (UInt8.not_lt.1 h2) (UInt8.not_lt.1 h1)
          subst this
          exact List.Lex.cons (ih h (fun he => hne (by rw [he])))

theorem WF_sort {m : EncCtx} (h : m.WF) : (sortByKey m).WF := (WF_perm (sortByKey_perm m)).mpr h

theorem sortByKey_strict {m : EncCtx} (h : (m.map Prod.fst).Nodup) : (sortByKey m).Pairwise (fun e f => e.1 < f.1) := by
  have h1 := sortByKey_sorted m
  have h2 : ((sortByKey m).map Prod.fst).Nodup := WF_sort h
  rw [List.nodup_iff_pairwise_ne, List.pairwise_map] at h2
  exact h1.imp₂ (fun _ _ h h' => bytesLe_lt h h') h2

theorem WF_inj {m : EncCtx} (h : m.WF) {a b : Bytes × Bytes} (ha : a ∈ m) (hb : b ∈ m) (hk : a.1 = b.1) : a = b := by
  induction m with
  | nil => cases ha
  | cons e m ih =>
    simp only [EncCtx.WF, List.map_cons, List.nodup_cons, List.mem_map, not_exists, not_and] at h
    rcases List.mem_cons.mp ha with rfl | ha' <;> rcases List.mem_cons.mp hb with rfl | hb'
    · rfl
    · exact absurd hk.symm (h.1 b hb')
    · exact absurd hk (h.1 a ha')
    · exact ih h.2 ha' hb'

/-- Two sorted lists of distinct keys with the same elements are equal: every sorting algorithm gives the
same result. -/
theorem sortByKey_unique {m1 m2 : EncCtx} (hp : m1.Perm m2) (h1 : SortedByKey m1) (h2 : SortedByKey m2)
    (hw : m1.WF) : m1 = m2 := by
  refine List.Perm.eq_of_pairwise (le := fun (a b : Bytes × Bytes) => bytesLe a.1 b.1 = true) ?_ h1 h2 hp
  intro a b ha hb hab hba
  exact WF_inj hw ha (hp.mem_iff.mpr hb) (bytesLe_antisymm hab hba)

theorem sortByKey_eq_of_perm {m1 m2 : EncCtx} (hp : m1.Perm m2) (hw : m1.WF) : sortByKey m1 = sortByKey m2 :=
  sortByKey_unique (((sortByKey_perm m1).trans hp).trans (sortByKey_perm m2).symm)
    (sortByKey_sorted _) (sortByKey_sorted _) (WF_sort hw)

theorem length_sortByKey (m : EncCtx) : (sortByKey m).length = m.length := (sortByKey_perm m).length_eq

/-! ### size -/

/-- Total length of the entries. -/
def entriesLen (m : EncCtx) : Nat := (m.map entrySize).sum

/-- Serialised length. -/
def ctxLen (m : EncCtx) : Nat := if m = [] then 0 else 2 + entriesLen m

theorem entriesLen_cons (e : Bytes × Bytes) (m : EncCtx) : entriesLen (e :: m) = entrySize e + entriesLen m := by
  simp [entriesLen]

theorem length_le_entriesLen (m : EncCtx) : 4 * m.length ≤ entriesLen m := by
  induction m with
  | nil => simp [entriesLen]
  | cons e m ih => rw [entriesLen_cons]; simp [entrySize]; omega

theorem entriesLen_perm {m1 m2 : EncCtx} (h : m1.Perm m2) : entriesLen m1 = entriesLen m2 :=
  (h.map entrySize).sum_nat

theorem encCtxSizeLoop_ok {acc n : Nat} {m : EncCtx} (ha : acc ≤ 65535) :
    encCtxSizeLoop acc m = .ok n ↔ n = acc + entriesLen m ∧ n ≤ 65535 := by
  induction m generalizing acc with
  | nil => simp [encCtxSizeLoop, entriesLen]; omega
  | cons e m ih =>
    rw [encCtxSizeLoop, entriesLen_cons]
    split
    · simp; omega
    · split
      · simp; omega
      · rw [ih (by omega)]; omega

theorem encCtxSize_ok {m : EncCtx} {n : Nat} : encCtxSize m = .ok n ↔ n = ctxLen m ∧ n ≤ 65535 := by
  unfold encCtxSize ctxLen
  have hl := length_le_entriesLen m
  split
  · have : m ≠ [] := by rintro rfl; simp at *
    simp [this]; omega
  · split
    · rename_i h0
      have : m = [] := List.length_eq_zero_iff.mp h0
      simp [this]; omega
    · rename_i h0
      have : m ≠ [] := by rintro rfl; simp at *
      simp only [this, if_false]
      rw [encCtxSizeLoop_ok (by omega)]

theorem encCtxSizeLoop_limit {acc : Nat} {m : EncCtx} (ha : acc ≤ 65535)
    (hfit : ∀ e ∈ m, entrySize e < 2 ^ 64 - 65536) (hbig : acc + entriesLen m > 65535) :
    encCtxSizeLoop acc m = .error .limitExceeded := by
  induction m generalizing acc with
  | nil => simp [entriesLen] at hbig; omega
  | cons e m ih =>
    rw [entriesLen_cons] at hbig
    rw [encCtxSizeLoop]
    have := hfit e (by simp)
    split
    · omega
    · split
      · rfl
      · exact ih (by omega) (fun e he => hfit e (by simp [he])) (by omega)

/-! ### serialisation -/

/-- Bytes of one entry. -/
def entryBytes (e : Bytes × Bytes) : Bytes := be 2 e.1.length ++ e.1 ++ be 2 e.2.length ++ e.2

/-- Bytes of a list of entries. -/
def entriesBytes (m : EncCtx) : Bytes := (m.map entryBytes).flatten

/-- The canonical serialisation of a context. -/
def ctxBytes (m : EncCtx) : Bytes := if m = [] then [] else be 2 m.length ++ entriesBytes (sortByKey m)

theorem length_entryBytes (e : Bytes × Bytes) : (entryBytes e).length = entrySize e := by
  simp [entryBytes, entrySize]; omega

theorem entriesBytes_cons (e : Bytes × Bytes) (m : EncCtx) : entriesBytes (e :: m) = entryBytes e ++ entriesBytes m := by
  simp [entriesBytes]

theorem length_entriesBytes (m : EncCtx) : (entriesBytes m).length = entriesLen m := by
  induction m with
  | nil => rfl
  | cons e m ih => rw [entriesBytes_cons, List.length_append, ih, length_entryBytes, entriesLen_cons]

theorem length_ctxBytes (m : EncCtx) : (ctxBytes m).length = ctxLen m := by
  unfold ctxBytes ctxLen
  split
  · rfl
  · simp [length_entriesBytes, entriesLen_perm (sortByKey_perm m)]

theorem OBuf.write_some {b b' : OBuf} {x : Bytes} : b.write x = some b' ↔
    b.data.length + x.length ≤ b.cap ∧ b' = { b with data := b.data ++ x } := by
  unfold OBuf.write
  split
  · rename_i h; simp [h, eq_comm]
  · rename_i h; simp [h]

theorem OBuf.write_none {b : OBuf} {x : Bytes} : b.write x = none ↔ b.cap < b.data.length + x.length := by
  unfold OBuf.write
  split <;> simp <;> omega

theorem OBuf.write_write {b : OBuf} {x y : Bytes} :
    (b.write x).bind (fun b => b.write y) = b.write (x ++ y) := by
  unfold OBuf.write
  by_cases h : b.data.length + x.length ≤ b.cap
  · simp only [h, if_true, Option.bind]
    simp [Nat.add_assoc]
  · simp only [h, if_false, Option.bind]
    rw [if_neg]; simp; omega

theorem encCtxWriteEntries_eq (b : OBuf) (m : EncCtx) (hb : b.data.length ≤ b.cap) :
    encCtxWriteEntries b m = b.write (entriesBytes m) := by
  induction m generalizing b with
  | nil => simp [encCtxWriteEntries, entriesBytes, OBuf.write, hb]
  | cons e m ih =>
    obtain ⟨k, v⟩ := e
    have key : ((((b.write (be 2 k.length)).bind fun b => b.write k).bind fun b => b.write (be 2 v.length)).bind
        fun b => b.write v).bind (fun b => encCtxWriteEntries b m) = b.write (entriesBytes ((k, v) :: m)) := by
      rw [OBuf.write_write, OBuf.write_write, OBuf.write_write]
      rw [entriesBytes_cons, ← OBuf.write_write (y := entriesBytes m)]
      show (b.write (entryBytes (k, v))).bind _ = _
      cases h : b.write (entryBytes (k, v)) with
      | none => rfl
      | some b' =>
        simp only [Option.bind]
        have := OBuf.write_some.mp h
        exact ih b' (by rw [this.2]; simpa using this.1)
    rw [← key]
    simp only [encCtxWriteEntries, Option.bind_eq_bind, Option.bind_assoc]

/-- Serialisation succeeds exactly when the context is within the limit and fits, and then appends the
canonical bytes. -/
theorem encCtxSerialize_ok {b b' : OBuf} {m : EncCtx} (hb : b.data.length ≤ b.cap) :
    encCtxSerialize b m = (b', .ok ()) ↔
      ctxLen m ≤ 65535 ∧ b.data.length + ctxLen m ≤ b.cap ∧ b' = { b with data := b.data ++ ctxBytes m } := by
  unfold encCtxSerialize
  have hl := length_le_entriesLen m
  split
  · have : m ≠ [] := by rintro rfl; simp at *
    simp [ctxLen, this]; omega
  · cases hs : encCtxSize m with
    | error e =>
      simp only [Prod.mk.injEq, reduceCtorEq, and_false, false_iff]
      rintro ⟨h1, -⟩
      have := encCtxSize_ok.mpr ⟨rfl, h1⟩
      rw [hs] at this; cases this
    | ok len =>
      obtain ⟨rfl, hle⟩ := encCtxSize_ok.mp hs
      simp only [hle, true_and]
      split
      · rename_i h0
        have : m = [] := by
          unfold ctxLen at h0
          split at h0
          · assumption
          · omega
        subst this
        simp [ctxLen, ctxBytes, hb]; exact eq_comm
      · rename_i h0
        have hne : m ≠ [] := by rintro rfl; simp [ctxLen] at h0
        have hcl : ctxLen m = 2 + entriesLen m := by simp [ctxLen, hne]
        split
        · simp; omega
        · cases hw : b.write (be 2 m.length) with
          | none =>
            rw [OBuf.write_none] at hw
            simp at hw ⊢
            omega
          | some b1 =>
            obtain ⟨h1, rfl⟩ := OBuf.write_some.mp hw
            simp only []
            rw [encCtxWriteEntries_eq _ _ (by simpa using h1)]
            have hlen : (entriesBytes (sortByKey m)).length = entriesLen m := by
              rw [length_entriesBytes, entriesLen_perm (sortByKey_perm m)]
            cases hw2 : OBuf.write _ (entriesBytes (sortByKey m)) with
            | none =>
              rw [OBuf.write_none] at hw2
              simp [hlen] at hw2 ⊢
              omega
            | some b2 =>
              obtain ⟨h2, rfl⟩ := OBuf.write_some.mp hw2
              simp [hlen] at h2
              simp [ctxBytes, hne, eq_comm]
              intro _
              omega

theorem encCtxSerialize_err {b b' : OBuf} {m : EncCtx} {e : Err} (h : encCtxSerialize b m = (b', .error e)) :
    b' = b ∨ b' = { cap := 0, data := [] } := by
  unfold encCtxSerialize at h
  split at h
  · simp at h; exact Or.inl h.1.symm
  · split at h
    · simp at h; exact Or.inl h.1.symm
    · split at h
      · simp at h
      · split at h
        · simp at h; exact Or.inl h.1.symm
        · split at h
          · simp at h; exact Or.inr h.1.symm
          · split at h
            · simp at h; exact Or.inr h.1.symm
            · simp at h

/-! ### parsing -/

theorem find_cons (k' v : Bytes) (m : EncCtx) (k : Bytes) :
    EncCtx.find ((k', v) :: m) k = if k = k' then some v else EncCtx.find m k := by
  simp only [EncCtx.find, List.lookup_cons]
  by_cases h : k = k'
  · subst h; simp
  · rw [if_neg h]
    have : (k == k') = false := by simpa using h
    rw [this]


theorem find_eq_none {m : EncCtx} {k : Bytes} : m.find k = none ↔ ∀ e ∈ m, e.1 ≠ k := by
  induction m with
  | nil => simp [EncCtx.find]
  | cons e m ih =>
    obtain ⟨k', v⟩ := e
    rw [find_cons]
    by_cases h : k = k'
    · subst h; simp
    · have h' : ¬ k' = k := fun hc => h hc.symm
      simp [h, h', ih]

theorem encCtxReadEntries_bytes (m m0 : EncCtx) (t : Bytes) (hw : (m0 ++ m).WF)
    (hl : ∀ e ∈ m, e.1.length < 65536 ∧ e.2.length < 65536) :
    encCtxReadEntries m.length m0 (entriesBytes m ++ t) = .ok (m0 ++ m, t) := by
  induction m generalizing m0 with
  | nil => simp [encCtxReadEntries, entriesBytes, P.pure_def]
  | cons e m ih =>
    obtain ⟨k, v⟩ := e
    obtain ⟨hk1, hv1⟩ : k.length < 65536 ∧ v.length < 65536 := hl (k, v) (by simp)
    have hk : EncCtx.find m0 k = none := by
      rw [find_eq_none]
      intro e' he' hc
      simp only [EncCtx.WF, List.map_append, List.map_cons] at hw
      rw [List.nodup_append] at hw
      exact hw.2.2 e'.1 (List.mem_map_of_mem he') k (by simp) hc
    rw [entriesBytes_cons]
    simp only [entryBytes, List.append_assoc, List.length_cons, encCtxReadEntries]
    rw [P.bind_ok (rdBE_append (by simp only [Nat.reducePow]; omega) _), P.bind_ok (rdN_append rfl _),
      P.bind_ok (rdBE_append (by simp only [Nat.reducePow]; omega) _), P.bind_ok (rdN_append rfl _)]
    simp only [hk, Option.isSome_none]
    have := ih (m0 ++ [(k, v)]) (by simpa using hw) (fun e he => hl e (by simp [he]))
    simpa using this

theorem mem_entriesLen {m : EncCtx} {e : Bytes × Bytes} (h : e ∈ m) : entrySize e ≤ entriesLen m := by
  induction m with
  | nil => cases h
  | cons f m ih =>
    rw [entriesLen_cons]
    rcases List.mem_cons.mp h with rfl | h
    · omega
    · have := ih h; omega

theorem encCtxParse_ctxBytes {m : EncCtx} (hw : m.WF) (hle : ctxLen m ≤ 65535) :
    encCtxParse (ctxBytes m) = .ok (sortByKey m, []) := by
  unfold encCtxParse
  by_cases hne : m = []
  · subst hne; simp [ctxBytes, sortByKey]
  · have hlen := length_le_entriesLen m
    have hcl : ctxLen m = 2 + entriesLen m := by simp [ctxLen, hne]
    have h0 : 0 < m.length := List.length_pos_iff.mpr hne
    rw [length_ctxBytes, if_neg (by omega)]
    simp only [ctxBytes, hne, if_false]
    rw [P.bind_ok (rdBE_append (by simp only [Nat.reducePow]; omega) _), if_neg (by omega)]
    have := encCtxReadEntries_bytes (sortByKey m) [] [] (by simpa using WF_sort hw) (by
      intro e he
      have h1 := mem_entriesLen he
      rw [entriesLen_perm (sortByKey_perm m)] at h1
      simp [entrySize] at h1
      omega)
    simpa [length_sortByKey] using this

/-- What a successful parse of `n` entries says about the bytes. -/
theorem encCtxReadEntries_ok {n : Nat} {m0 m : EncCtx} {bs r : Bytes} (h0 : m0.WF)
    (h : encCtxReadEntries n m0 bs = .ok (m, r)) :
    ∃ m1, m = m0 ++ m1 ∧ m1.length = n ∧ bs = entriesBytes m1 ++ r ∧ m.WF ∧
      ∀ e ∈ m1, e.1.length < 65536 ∧ e.2.length < 65536 := by
  induction n generalizing m0 bs with
  | zero =>
    simp [encCtxReadEntries, P.pure_def] at h
    obtain ⟨rfl, rfl⟩ := h
    exact ⟨[], by simp, rfl, by simp [entriesBytes], h0, by simp⟩
  | succ n ih =>
    simp only [encCtxReadEntries] at h
    obtain ⟨klen, r1, h1, g1⟩ := P.bind_eq_ok.mp h
    obtain ⟨k, r2, h2, g2⟩ := P.bind_eq_ok.mp g1
    obtain ⟨vlen, r3, h3, g3⟩ := P.bind_eq_ok.mp g2
    obtain ⟨v, r4, h4, g4⟩ := P.bind_eq_ok.mp g3
    clear h g1 g2 g3
    obtain ⟨rfl, hk⟩ := rdBE_ok h1
    obtain ⟨rfl, rfl⟩ := rdN_ok h2
    obtain ⟨rfl, hv⟩ := rdBE_ok h3
    obtain ⟨rfl, rfl⟩ := rdN_ok h4
    split at g4
    · cases g4
    · rename_i hf
      have hf : EncCtx.find m0 k = none := by simpa using hf
      have hw : EncCtx.WF (m0 ++ [(k, v)]) := by
        simp only [EncCtx.WF, List.map_append, List.map_cons, List.map_nil]
        rw [List.nodup_append]
        refine ⟨h0, by simp, ?_⟩
        intro a ha b hb
        simp at hb; subst hb
        obtain ⟨e, he, rfl⟩ := List.mem_map.mp ha
        exact (find_eq_none.mp hf) e he
      obtain ⟨m1, rfl, rfl, rfl, hw', hl⟩ := ih hw g4
      refine ⟨(k, v) :: m1, by simp, by simp, by simp [entriesBytes_cons, entryBytes], by simpa using hw', ?_⟩
      intro e he
      rcases List.mem_cons.mp he with rfl | he
      · exact ⟨by simpa using hk, by simpa using hv⟩
      · exact hl e he

theorem encCtxParse_ok {bs r : Bytes} {m : EncCtx} (h : encCtxParse bs = .ok (m, r)) :
    m.WF ∧ ((m = [] ∧ bs = [] ∧ r = []) ∨
      (m ≠ [] ∧ m.length < 65536 ∧ bs = be 2 m.length ++ entriesBytes m ++ r ∧
        ∀ e ∈ m, e.1.length < 65536 ∧ e.2.length < 65536)) := by
  unfold encCtxParse at h
  split at h
  · rename_i h0
    simp at h
    obtain ⟨rfl, rfl⟩ := h
    have : bs = [] := List.length_eq_zero_iff.mp h0
    exact ⟨by simp [EncCtx.WF], Or.inl ⟨rfl, this, this⟩⟩
  · obtain ⟨n, r1, h1, g⟩ := P.bind_eq_ok.mp h
    clear h
    obtain ⟨rfl, hn⟩ := rdBE_ok h1
    split at g
    · cases g
    · obtain ⟨m1, rfl, rfl, rfl, hw, hl⟩ := encCtxReadEntries_ok (by simp [EncCtx.WF]) g
      refine ⟨hw, Or.inr ⟨?_, ?_, by simp, by simpa using hl⟩⟩
      · intro hc; simp_all
      · simpa using hn

/-! ### maps -/

theorem find_eq_some {m : EncCtx} (hw : m.WF) {k v : Bytes} : m.find k = some v ↔ (k, v) ∈ m := by
  induction m with
  | nil => simp [EncCtx.find]
  | cons e m ih =>
    obtain ⟨k', v'⟩ := e
    simp only [EncCtx.WF, List.map_cons, List.nodup_cons, List.mem_map, not_exists, not_and] at hw
    have ih := ih hw.2
    rw [find_cons]
    by_cases h : k = k'
    · subst h
      simp
      constructor
      · rintro rfl; exact Or.inl rfl
      · rintro (h | h)
        · exact h.symm
        · exact absurd rfl (hw.1 _ h)
    · simp [h, ih]

theorem nodup_of_WF {m : EncCtx} (hw : m.WF) : m.Nodup := by
  induction m with
  | nil => exact List.nodup_nil
  | cons e m ih =>
    simp only [EncCtx.WF, List.map_cons, List.nodup_cons, List.mem_map, not_exists, not_and] at hw
    rw [List.nodup_cons]
    exact ⟨fun h => hw.1 e h rfl, ih hw.2⟩

/-- Two contexts (with distinct keys) that agree on every key are permutations of each other. -/
theorem perm_of_find {m1 m2 : EncCtx} (h1 : m1.WF) (h2 : m2.WF) (h : ∀ k, m1.find k = m2.find k) : m1.Perm m2 := by
  rw [List.perm_ext_iff_of_nodup (nodup_of_WF h1) (nodup_of_WF h2)]
  rintro ⟨k, v⟩
  rw [← find_eq_some h1, ← find_eq_some h2, h]

theorem find_perm {m1 m2 : EncCtx} (h1 : m1.WF) (hp : m1.Perm m2) (k : Bytes) : m1.find k = m2.find k := by
  have h2 := (WF_perm hp).mp h1
  cases h : m2.find k with
  | none =>
    rw [find_eq_none] at h ⊢
    intro e he; exact h e (hp.mem_iff.mp he)
  | some v =>
    rw [find_eq_some h2] at h
    rw [find_eq_some h1]
    exact hp.mem_iff.mpr h

theorem WF_put {m : EncCtx} (h : m.WF) (k v : Bytes) : (m.put k v).WF := by
  unfold EncCtx.put EncCtx.remove EncCtx.WF
  rw [List.map_append, List.nodup_append]
  refine ⟨?_, by simp, ?_⟩
  · exact h.sublist (List.filter_sublist.map _)
  · intro a ha b hb
    simp at hb; subst hb
    simp at ha
    exact fun hc => ha.2 hc

theorem find_put {m : EncCtx} (h : m.WF) (k v k' : Bytes) :
    (m.put k v).find k' = if k' = k then some v else m.find k' := by
  have hw := WF_put h k v
  split
  · rename_i he; subst he
    rw [find_eq_some hw]; simp [EncCtx.put]
  · rename_i he
    cases hm : m.find k' with
    | none =>
      rw [find_eq_none] at hm ⊢
      intro e hee
      simp [EncCtx.put, EncCtx.remove] at hee
      rcases hee with hee | rfl
      · exact hm e hee.1
      · exact fun h => he h.symm
    | some w =>
      rw [find_eq_some h] at hm
      rw [find_eq_some hw]
      simp [EncCtx.put, EncCtx.remove, hm, he]

theorem find_append_single {m : EncCtx} (k v k' : Bytes) (hk : m.find k = none) :
    EncCtx.find (m ++ [(k, v)]) k' = if k' = k then some v else m.find k' := by
  induction m with
  | nil => simp [find_cons]
  | cons e m ih =>
    obtain ⟨a, b⟩ := e
    have hk' : EncCtx.find m k = none := by
      rw [find_eq_none] at hk ⊢; exact fun e he => hk e (by simp [he])
    have hak : a ≠ k := (find_eq_none.mp hk) (a, b) (by simp)
    rw [List.cons_append, find_cons, find_cons, ih hk']
    by_cases h : k' = a
    · subst h; simp [hak]
    · simp [h]

/-! ### the table-mutating deserialiser agrees with the parser -/

theorem put_of_find_none {m : EncCtx} {k v : Bytes} (h : m.find k = none) : m.put k v = m ++ [(k, v)] := by
  rw [find_eq_none] at h
  unfold EncCtx.put EncCtx.remove
  congr 1
  rw [List.filter_eq_self]
  intro a ha
  simpa using h a ha

theorem encCtxReadLoop_eq (n : Nat) (t : EncCtx) (bs : Bytes) :
    (∃ m r, encCtxReadEntries n t bs = .ok (m, r) ∧ encCtxReadLoop n t bs = (m, .ok r)) ∨
    (∃ e t', encCtxReadEntries n t bs = .error e ∧ encCtxReadLoop n t bs = (t', .error e)) := by
  induction n generalizing t bs with
  | zero => left; exact ⟨t, bs, rfl, rfl⟩
  | succ n ih =>
    simp only [encCtxReadEntries, encCtxReadLoop, P.bind_def, rdBE, rdN]
    cases h1 : rd 2 bs with
    | none => right; exact ⟨_, _, rfl, rfl⟩
    | some x =>
      obtain ⟨kl, bs1⟩ := x
      simp only []
      cases h2 : rd (unbe kl) bs1 with
      | none => right; exact ⟨_, _, rfl, rfl⟩
      | some x =>
        obtain ⟨k, bs2⟩ := x
        simp only []
        cases h3 : rd 2 bs2 with
        | none => right; exact ⟨_, _, rfl, rfl⟩
        | some x =>
          obtain ⟨vl, bs3⟩ := x
          simp only []
          cases h4 : rd (unbe vl) bs3 with
          | none => right; exact ⟨_, _, rfl, rfl⟩
          | some x =>
            obtain ⟨v, bs4⟩ := x
            simp only []
            cases hf : t.find k with
            | some w => right; exact ⟨_, _, rfl, rfl⟩
            | none =>
              simp only [Option.isSome_none, Option.isNone_none, if_true]
              rw [put_of_find_none hf]
              exact ih _ _

theorem encCtxDeserialize_eq (old : EncCtx) (bs : Bytes) :
    encCtxDeserialize old bs =
      match encCtxParse bs with
      | .ok (m, r) => (m, .ok r)
      | .error e => ([], .error e) := by
  unfold encCtxDeserialize encCtxParse
  by_cases h0 : bs.length = 0
  · simp [h0, encCtxClear]
  · simp only [h0, if_false, P.bind_def, rdBE]
    cases h1 : rd 2 bs with
    | none => rfl
    | some x =>
      obtain ⟨c, r⟩ := x
      simp only []
      by_cases hc : unbe c = 0
      · simp [hc, encCtxClear, P.fail]
      · simp only [hc, if_false]
        rcases encCtxReadLoop_eq (unbe c) [] r with ⟨m, r', h2, h3⟩ | ⟨e, t', h2, h3⟩
        · simp only [encCtxClear, h2, h3]
        · simp only [encCtxClear, h2, h3]

/-! ### clone -/

theorem cloneStep_spec {dest : EncCtx} (hd : dest.WF) (e : Bytes × Bytes) :
    (cloneStep dest e).WF ∧ ∀ k, (cloneStep dest e).find k = if k = e.1 then some e.2 else dest.find k := by
  unfold cloneStep
  split
  · rename_i v hv
    split
    · -- in-place update
      let f : Bytes × Bytes → Bytes × Bytes := fun d => if d.1 = e.1 then (d.1, e.2) else d
      have hf1 : ∀ d, (f d).1 = d.1 := by intro d; simp only [f]; split <;> rfl
      have hkeys : (dest.map f).map Prod.fst = dest.map Prod.fst := by
        rw [List.map_map]; congr 1; funext d; exact hf1 d
      have hw : EncCtx.WF (dest.map f) := by unfold EncCtx.WF; rw [hkeys]; exact hd
      refine ⟨hw, ?_⟩
      intro k
      split
      · rename_i hk; subst hk
        rw [find_eq_some hw, List.mem_map]
        rw [find_eq_some hd] at hv
        exact ⟨_, hv, by simp [f]⟩
      · rename_i hk
        cases hm : dest.find k with
        | none =>
          rw [find_eq_none] at hm ⊢
          intro d hdm
          obtain ⟨d', hd', rfl⟩ := List.mem_map.mp hdm
          rw [hf1]; exact hm d' hd'
        | some w =>
          rw [find_eq_some hd] at hm
          rw [find_eq_some hw, List.mem_map]
          exact ⟨_, hm, by simp [f, hk]⟩
    · rename_i hve
      have hve : v = e.2 := by simpa using hve
      subst hve
      refine ⟨hd, ?_⟩
      intro k
      split
      · rename_i hk; subst hk; exact hv
      · rfl
  · exact ⟨WF_put hd _ _, fun k => find_put hd _ _ _⟩

theorem encCtxClone_spec {dest src : EncCtx} (hd : dest.WF) (hs : src.WF) :
    (encCtxClone dest src).WF ∧ ∀ k, (encCtxClone dest src).find k = src.find k := by
  have hfold : ∀ (l : EncCtx) (d : EncCtx), d.WF → l.WF →
      (l.foldl cloneStep d).WF ∧ ∀ k, (l.foldl cloneStep d).find k =
        match l.find k with
        | some v => some v
        | none => d.find k := by
    intro l
    induction l with
    | nil => intro d hd _; exact ⟨hd, fun k => rfl⟩
    | cons e l ih =>
      intro d hd hl
      simp only [EncCtx.WF, List.map_cons, List.nodup_cons, List.mem_map, not_exists, not_and] at hl
      obtain ⟨h1, h2⟩ := cloneStep_spec hd e
      obtain ⟨h3, h4⟩ := ih _ h1 hl.2
      refine ⟨h3, ?_⟩
      intro k
      rw [List.foldl_cons, h4 k, h2 k]
      have hfc : EncCtx.find (e :: l) k = if k = e.1 then some e.2 else EncCtx.find l k := find_cons _ _ _ _
      rw [hfc]
      by_cases hk : k = e.1
      · have : EncCtx.find l k = none := by
          rw [find_eq_none]; intro d hd' hc; exact hl.1 d hd' (hc.trans hk)
        rw [this]; simp [hk]
      · simp [hk]
  have hd0 : (cloneDropStale dest src).WF := by
    unfold EncCtx.WF
    exact hd.sublist (List.filter_sublist.map _)
  obtain ⟨h1, h2⟩ := hfold src _ hd0 hs
  refine ⟨h1, ?_⟩
  intro k
  unfold encCtxClone
  rw [h2 k]
  cases hk : src.find k with
  | some v => rfl
  | none =>
    simp only []
    rw [find_eq_none]
    intro e he hc
    simp only [cloneDropStale, List.mem_filter] at he
    rw [hc, hk] at he
    simp at he

end Verif
