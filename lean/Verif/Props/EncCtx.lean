import Verif.Proof.EncCtx
import Verif.Spec.EncCtx
/-
C06-C10: encryption contexts.
-/
namespace Verif
open Spec

/-! Bridges between the specification and the model's helpers. -/

theorem u16_eq_be (n : Nat) : u16 n = be 2 n := by
  simp [u16, be]
  apply UInt8.toNat_inj.mp
  simp

theorem wireEntry_eq (e : Bytes × Bytes) : wireEntry e = entryBytes e := by
  simp [wireEntry, entryBytes, u16_eq_be]

theorem wireCtx_eq (m : EncCtx) : wireCtx m = if m = [] then [] else be 2 m.length ++ entriesBytes m := by
  have : (wireEntry : Bytes × Bytes → Bytes) = entryBytes := funext wireEntry_eq
  simp [wireCtx, u16_eq_be, entriesBytes, this]

theorem wireLen_eq (m : EncCtx) : wireLen m = ctxLen m := by
  have : (fun e : Bytes × Bytes => 4 + e.1.length + e.2.length) = entrySize := by
    funext e; simp [entrySize]; omega
  simp [wireLen, ctxLen, entriesLen, this]

theorem wireCtx_sorted (m : EncCtx) : wireCtx (sortByKey m) = ctxBytes m := by
  rw [wireCtx_eq]
  unfold ctxBytes
  have : sortByKey m = [] ↔ m = [] := by
    rw [← List.length_eq_zero_iff, length_sortByKey, List.length_eq_zero_iff]
  simp [this, length_sortByKey]

theorem distinctKeys_iff (m : EncCtx) : DistinctKeys m ↔ m.WF := Iff.rfl

/-! ### C06 -/

/-- C06.  For every context (a list of pairs with distinct keys, in any hash-table order), every output
buffer and every destination table: if serialisation succeeds, the bytes it appended deserialise to the same
map, all of them are consumed, and the previous contents of the destination are gone. -/
theorem C06_enc_ctx_round_trip (m old : EncCtx) (b b' : OBuf) (hm : DistinctKeys m)
    (hb : b.data.length ≤ b.cap) (h : encCtxSerialize b m = (b', .ok ())) :
    ∃ bytes m', b'.data = b.data ++ bytes ∧ b'.cap = b.cap ∧ encCtxDeserialize old bytes = (m', .ok []) ∧
      DistinctKeys m' ∧ SameMap m m' := by
  obtain ⟨hle, hfit, rfl⟩ := (encCtxSerialize_ok hb).mp h
  refine ⟨ctxBytes m, sortByKey m, rfl, rfl, ?_, WF_sort hm, ?_⟩
  · rw [encCtxDeserialize_eq, encCtxParse_ctxBytes hm hle]
  · intro k; exact find_perm hm (sortByKey_perm m).symm k

/-- C06, the other half: serialisation does succeed for every context within the size limit when the buffer
has room. -/
theorem C06_enc_ctx_serialize_succeeds (m : EncCtx) (b : OBuf) (hb : b.data.length ≤ b.cap)
    (hlim : wireLen m ≤ 65535) (hroom : b.data.length + wireLen m ≤ b.cap) :
    ∃ b', encCtxSerialize b m = (b', .ok ()) := by
  rw [wireLen_eq] at hlim hroom
  exact ⟨_, (encCtxSerialize_ok hb).mpr ⟨hlim, hroom, rfl⟩⟩

/-- Non-vacuity: a two-entry context with its keys out of order, in a buffer that already holds a byte. -/
example : ∃ b', encCtxSerialize { cap := 20, data := [7] } [([2], [5, 6]), ([1], [])] = (b', .ok ()) ∧
    b'.data = [7, 0, 2, 0, 1, 1, 0, 0, 0, 1, 2, 0, 2, 5, 6] ∧ DistinctKeys [([2], [5, 6]), ([1], [])] := by
  refine ⟨_, rfl, by decide, by unfold DistinctKeys; decide⟩

/-! ### C07 -/

/-- C07.  Whatever the hash-table order, two contexts serialise to the same bytes exactly when they are the
same map. -/
theorem C07_enc_ctx_canonical (m1 m2 : EncCtx) (cap : Nat) (b1 b2 : OBuf)
    (h1 : DistinctKeys m1) (h2 : DistinctKeys m2)
    (hs1 : encCtxSerialize { cap := cap, data := [] } m1 = (b1, .ok ()))
    (hs2 : encCtxSerialize { cap := cap, data := [] } m2 = (b2, .ok ())) :
    b1.data = b2.data ↔ SameMap m1 m2 := by
  obtain ⟨hl1, -, rfl⟩ := (encCtxSerialize_ok (by simp)).mp hs1
  obtain ⟨hl2, -, rfl⟩ := (encCtxSerialize_ok (by simp)).mp hs2
  simp only [List.nil_append]
  constructor
  · intro h
    have e1 := encCtxParse_ctxBytes h1 hl1
    have e2 := encCtxParse_ctxBytes h2 hl2
    rw [h, e2] at e1
    simp at e1
    have hp : m1.Perm m2 := ((sortByKey_perm m1).symm.trans (by rw [e1])).trans (sortByKey_perm m2)
    exact fun k => find_perm h1 hp k
  · intro h
    have hp := perm_of_find h1 h2 h
    unfold ctxBytes
    rw [sortByKey_eq_of_perm hp h1, hp.length_eq]
    have : m1 = [] ↔ m2 = [] := by
      rw [← List.length_eq_zero_iff, hp.length_eq, List.length_eq_zero_iff]
    simp [this]

/-- C07, order half without assuming success: two tables with the same contents in different iteration order
give the same buffer and the same result. -/
theorem C07_enc_ctx_order_irrelevant (m1 m2 : EncCtx) (b : OBuf) (h1 : DistinctKeys m1) (h2 : DistinctKeys m2)
    (hb : b.data.length ≤ b.cap) (h : SameMap m1 m2) :
    ((encCtxSerialize b m1).2 = .ok () ↔ (encCtxSerialize b m2).2 = .ok ()) ∧
    ((encCtxSerialize b m1).2 = .ok () → (encCtxSerialize b m1).1 = (encCtxSerialize b m2).1) := by
  have hp := perm_of_find h1 h2 h
  have hnil : m1 = [] ↔ m2 = [] := by
    rw [← List.length_eq_zero_iff, hp.length_eq, List.length_eq_zero_iff]
  have hlen : ctxLen m1 = ctxLen m2 := by simp [ctxLen, hnil, entriesLen_perm hp]
  have hby : ctxBytes m1 = ctxBytes m2 := by
    unfold ctxBytes; rw [sortByKey_eq_of_perm hp h1, hp.length_eq]; simp [hnil]
  have key : ∀ b', encCtxSerialize b m1 = (b', .ok ()) ↔ encCtxSerialize b m2 = (b', .ok ()) := by
    intro b'; rw [encCtxSerialize_ok hb, encCtxSerialize_ok hb, hlen, hby]
  have e1 : ∀ m : EncCtx, (encCtxSerialize b m).2 = .ok () → encCtxSerialize b m = ((encCtxSerialize b m).1, .ok ()) := by
    intro m h; rw [← h]
  refine ⟨⟨fun h => ?_, fun h => ?_⟩, fun h => ?_⟩
  · rw [(key _).mp (e1 _ h)]
  · rw [(key _).mpr (e1 _ h)]
  · rw [(key _).mp (e1 _ h)]

example : SameMap [([1], [2]), ([3], [4])] [([3], [4]), ([1], [2])] ∧ ¬ SameMap [([1], [2])] [([1], [3])] := by
  constructor
  · refine fun k => find_perm (m1 := [([1], [2]), ([3], [4])]) (by unfold EncCtx.WF; decide) (List.Perm.swap _ _ _) k
  · intro h; have := h [1]; revert this; decide

/-! ### C08 -/

/-- C08.  Exact acceptance set of the deserialiser: it succeeds with table `m` and remaining bytes `r` iff the
input is empty (then `m` is empty) or is the wire form of the non-empty `m`, with distinct keys and lengths that
fit, followed by `r`.  In every other case it fails and the table is left empty. -/
theorem C08_deserialize_exact (old : EncCtx) (bs : Bytes) :
    (∀ m r, encCtxDeserialize old bs = (m, .ok r) ↔
        (bs = [] ∧ m = [] ∧ r = []) ∨
        (m ≠ [] ∧ DistinctKeys m ∧ FieldsFit m ∧ bs = wireCtx m ++ r)) ∧
    (∀ m e, encCtxDeserialize old bs = (m, .error e) → m = [] ∧ (e = .shortBuffer ∨ e = .badCiphertext)) := by
  constructor
  · intro m r
    rw [encCtxDeserialize_eq]
    constructor
    · intro h
      cases hp : encCtxParse bs with
      | error e => rw [hp] at h; simp at h
      | ok x =>
        obtain ⟨m', r'⟩ := x
        rw [hp] at h
        simp at h
        obtain ⟨rfl, rfl⟩ := h
        obtain ⟨hw, h | ⟨h1, h2, h3, h4⟩⟩ := encCtxParse_ok hp
        · exact Or.inl ⟨h.2.1, h.1, h.2.2⟩
        · refine Or.inr ⟨h1, hw, ⟨h2, h4⟩, ?_⟩
          rw [h3, wireCtx_eq, if_neg h1]
    · rintro (⟨rfl, rfl, rfl⟩ | ⟨h1, h2, ⟨h3, h4⟩, rfl⟩)
      · rfl
      · have hpos : 0 < m.length := List.length_pos_iff.mpr h1
        have : encCtxParse (wireCtx m ++ r) = .ok (m, r) := by
          rw [wireCtx_eq, if_neg h1]
          unfold encCtxParse
          rw [if_neg (by simp), List.append_assoc,
            P.bind_ok (rdBE_append (by simp only [Nat.reducePow]; omega) _), if_neg (by omega)]
          simpa using encCtxReadEntries_bytes m [] r (by simp only [List.nil_append]; exact h2) h4
        rw [this]
  · intro m e h
    rw [encCtxDeserialize_eq] at h
    cases hp : encCtxParse bs with
    | ok x => rw [hp] at h; simp at h
    | error e' =>
      rw [hp] at h
      simp at h
      obtain ⟨rfl, rfl⟩ := h
      refine ⟨rfl, ?_⟩
      have hloop : ∀ n t bs e, encCtxReadEntries n t bs = .error e → e = .shortBuffer ∨ e = .badCiphertext := by
        intro n
        induction n with
        | zero => intro t bs e h; cases h
        | succ n ih =>
          intro t bs e h
          simp only [encCtxReadEntries, P.bind_def, rdBE, rdN] at h
          repeat' split at h
          all_goals first
            | exact ih _ _ _ h
            | (cases h; exact Or.inl rfl)
            | (cases h; exact Or.inr rfl)
            | simp_all
            | skip
          all_goals grind
      unfold encCtxParse at hp
      split at hp
      · cases hp
      · simp only [P.bind_def, rdBE] at hp
        cases h1 : rd 2 bs with
        | none => rw [h1] at hp; cases hp; exact Or.inl rfl
        | some x =>
          rw [h1] at hp
          simp only [] at hp
          split at hp
          · cases hp; exact Or.inr rfl
          · exact hloop _ _ _ _ hp

/-- C08: a repeated key is refused. -/
theorem C08_duplicate_key_rejected (old m : EncCtx) (r : Bytes) (hfit : FieldsFit m) (hdup : ¬ DistinctKeys m) :
    ∃ e, encCtxDeserialize old (wireCtx m ++ r) = ([], .error e) := by
  have hne : m ≠ [] := by rintro rfl; exact hdup (by simp [DistinctKeys])
  obtain ⟨hex, herr⟩ := C08_deserialize_exact old (wireCtx m ++ r)
  cases h : encCtxDeserialize old (wireCtx m ++ r) with
  | mk m' res =>
    cases res with
    | error e => obtain ⟨rfl, -⟩ := herr _ _ h; exact ⟨e, rfl⟩
    | ok r' =>
      exfalso
      rcases (hex m' r').mp h with ⟨h1, -⟩ | ⟨h1, h2, ⟨h3, h4⟩, h5⟩
      · rw [wireCtx_eq, if_neg hne] at h1
        have := congrArg List.length h1
        simp at this
      · -- the wire form determines the entries
        rw [wireCtx_eq, wireCtx_eq, if_neg hne, if_neg h1, List.append_assoc, List.append_assoc] at h5
        have hc := List.append_inj h5 (by simp)
        have hlen := be_inj (by simpa using hfit.1) (by simpa using h3) hc.1
        have hinj : ∀ (a b : EncCtx), a.length = b.length → (∀ e ∈ a, e.1.length < 65536 ∧ e.2.length < 65536) →
            (∀ e ∈ b, e.1.length < 65536 ∧ e.2.length < 65536) → ∀ r r', entriesBytes a ++ r = entriesBytes b ++ r' →
            a = b := by
          intro a
          induction a with
          | nil => intro b hb _ _ _ _ _; exact (List.length_eq_zero_iff.mp hb.symm).symm
          | cons x a ih =>
            intro b hb ha hb' r r' h
            cases b with
            | nil => simp at hb
            | cons y b =>
              simp only [entriesBytes_cons, entryBytes, List.append_assoc] at h
              have hx := ha x (by simp)
              have hy := hb' y (by simp)
              have g1 := List.append_inj h (by simp)
              have l1 := be_inj (by simpa using hx.1) (by simpa using hy.1) g1.1
              have g2 := List.append_inj g1.2 l1
              have g3 := List.append_inj g2.2 (by simp)
              have l3 := be_inj (by simpa using hx.2) (by simpa using hy.2) g3.1
              have g4 := List.append_inj g3.2 l3
              rw [ih b (by simpa using hb) (fun e he => ha e (by simp [he])) (fun e he => hb' e (by simp [he])) _ _ g4.2]
              congr 1
              exact Prod.ext g2.1 g4.1
        exact hdup (hinj m m' hlen hfit.2 h4 _ _ hc.2 ▸ h2)

/-- C08: a zero entry count is refused. -/
theorem C08_zero_count_rejected (old : EncCtx) (r : Bytes) :
    encCtxDeserialize old (u16 0 ++ r) = ([], .error .badCiphertext) := by
  rw [u16_eq_be]
  unfold encCtxDeserialize
  rw [if_neg (by simp), rd_append' (by simp)]
  simp [unbe_be, encCtxClear]

theorem Streaming.encCtxReadEntries (n : Nat) (m : EncCtx) : Streaming (Verif.encCtxReadEntries n m) := by
  induction n generalizing m with
  | zero => exact Streaming.pure _
  | succ n ih =>
    unfold Verif.encCtxReadEntries
    refine (Streaming.rdBE _).bind fun kl => (Streaming.rdN _).bind fun k => (Streaming.rdBE _).bind fun vl =>
      (Streaming.rdN _).bind fun v => ?_
    exact Streaming.ite Streaming.fail (ih _)

/-- C08: a context from which bytes are missing is refused with SHORT_BUFFER (every non-empty proper prefix of
a valid serialisation). -/
theorem C08_missing_bytes_rejected (old m : EncCtx) (p t : Bytes) (hm : DistinctKeys m) (hfit : FieldsFit m)
    (hpre : wireCtx m = p ++ t) (hp : p ≠ []) (ht : t ≠ []) :
    encCtxDeserialize old p = ([], .error .shortBuffer) := by
  have hne : m ≠ [] := by rintro rfl; simp [wireCtx] at hpre; exact hp hpre.1
  have hpos : 0 < m.length := List.length_pos_iff.mpr hne
  have hplen : 0 < p.length := List.length_pos_iff.mpr hp
  rw [wireCtx_eq, if_neg hne] at hpre
  have hst : Streaming (do
      let n ← Verif.rdBE 2
      if n = 0 then P.fail .badCiphertext else encCtxReadEntries n [] : P EncCtx) :=
    (Streaming.rdBE _).bind fun n => Streaming.ite Streaming.fail (Streaming.encCtxReadEntries _ _)
  have hok : (do
      let n ← Verif.rdBE 2
      if n = 0 then P.fail .badCiphertext else encCtxReadEntries n [] : P EncCtx)
      (be 2 m.length ++ entriesBytes m ++ []) = .ok (m, []) := by
    have h3 := hfit.1
    rw [List.append_assoc, P.bind_ok (rdBE_append (by simp only [Nat.reducePow]; omega) _), if_neg (by omega)]
    simpa using encCtxReadEntries_bytes m [] [] (by simp only [List.nil_append]; exact hm) hfit.2
  obtain ⟨c, hc, -, hsh⟩ := hst.ok _ _ _ hok
  simp at hc
  have := hsh p t (by rw [← hc]; simpa using hpre) ht
  rw [encCtxDeserialize_eq]
  unfold encCtxParse
  rw [if_neg (by omega), this]

example : encCtxDeserialize [([9], [9])] (wireCtx [([1], [2]), ([1], [3])]) = ([], .error .badCiphertext) := by decide
example : FieldsFit [([1], [2]), ([1], [3])] ∧ ¬ DistinctKeys [([1], [2]), ([1], [3])] := by
  constructor
  · simp [FieldsFit]
  · simp [DistinctKeys]

/-! ### C09 -/

/-- C09.  The size function returns exactly the wire length when that is at most 65535, and otherwise fails with
LIMIT_EXCEEDED.  (Hypothesis: the strings exist in a 64-bit address space, so that one entry cannot by itself
overflow `size_t`.) -/
theorem C09_enc_ctx_size (m : EncCtx) (hmem : ∀ e ∈ m, 4 + e.1.length + e.2.length < 2 ^ 64 - 65536) :
    (wireLen m ≤ 65535 → encCtxSize m = .ok (wireLen m)) ∧
    (65535 < wireLen m → encCtxSize m = .error .limitExceeded) := by
  rw [wireLen_eq]
  refine ⟨fun h => encCtxSize_ok.mpr ⟨rfl, h⟩, fun h => ?_⟩
  have hne : m ≠ [] := by rintro rfl; simp [ctxLen] at h
  have hl : ctxLen m = 2 + entriesLen m := by simp [ctxLen, hne]
  have hpos : 0 < m.length := List.length_pos_iff.mpr hne
  unfold encCtxSize
  split
  · rfl
  · rw [if_neg (by omega)]
    refine encCtxSizeLoop_limit (by omega) ?_ (by omega)
    intro e he
    have := hmem e he
    simp [entrySize]; omega

/-- C09: whatever is serialised is exactly the reported size, and no length field is truncated: the bytes are the
wire form, in which every 16-bit field holds the true length.  The entries are in the lexicographic order of their keys. -/
theorem C09_enc_ctx_serialize_exact (m : EncCtx) (b b' : OBuf) (hb : b.data.length ≤ b.cap) (hm : DistinctKeys m)
    (h : encCtxSerialize b m = (b', .ok ())) :
    ∃ m', m'.Perm m ∧ m'.Pairwise (fun e f => e.1 < f.1) ∧ FieldsFit m' ∧ b'.data = b.data ++ wireCtx m' ∧
      encCtxSize m = .ok (wireCtx m').length := by
  obtain ⟨hle, hfit, rfl⟩ := (encCtxSerialize_ok hb).mp h
  refine ⟨sortByKey m, sortByKey_perm m, sortByKey_strict hm, ⟨?_, ?_⟩, ?_, ?_⟩
  · have := length_le_entriesLen m
    rw [length_sortByKey]
    by_cases hne : m = []
    · simp [hne]
    · simp [ctxLen, hne] at hle; omega
  · intro e he
    have hmem := (sortByKey_perm m).mem_iff.mp he
    have h1 := mem_entriesLen hmem
    have hne : m ≠ [] := by rintro rfl; cases hmem
    simp [ctxLen, hne] at hle
    simp [entrySize] at h1
    omega
  · rw [wireCtx_sorted]
  · rw [wireCtx_sorted, length_ctxBytes]; exact encCtxSize_ok.mpr ⟨rfl, hle⟩

/-- C09: a context over the limit is never serialised, and the buffer is untouched. -/
theorem C09_over_limit_not_serialized (m : EncCtx) (b : OBuf)
    (hmem : ∀ e ∈ m, 4 + e.1.length + e.2.length < 2 ^ 64 - 65536) (h : 65535 < wireLen m) :
    encCtxSerialize b m = (b, .error .limitExceeded) := by
  have := (C09_enc_ctx_size m hmem).2 h
  unfold encCtxSerialize
  split
  · rfl
  · rw [this]

/-- Non-vacuity: a context of exactly 65535 bytes is accepted and one of 65536 bytes is refused. -/
example : wireLen [(List.replicate 65529 (0 : UInt8), [])] = 65535 ∧
    wireLen [(List.replicate 65530 (0 : UInt8), [])] = 65536 := by
  unfold wireLen
  rw [if_neg (List.cons_ne_nil _ _), if_neg (List.cons_ne_nil _ _)]
  simp only [List.map_cons, List.map_nil, List.length_replicate, List.length_nil, List.sum_cons, List.sum_nil]
  omega

/-! ### C10 -/

/-- C10.  Whatever the destination held and in whatever order the tables are iterated, after a clone the
destination is the same map as the source (and still has distinct keys).  The source is an input of the model
and cannot change. -/
theorem C10_clone_equals_source (dest src : EncCtx) (hd : DistinctKeys dest) (hs : DistinctKeys src) :
    DistinctKeys (encCtxClone dest src) ∧ SameMap (encCtxClone dest src) src :=
  encCtxClone_spec hd hs

/-- C10: cloning onto any two destinations gives the same map and the same number of entries. -/
theorem C10_clone_size (dest src : EncCtx) (hd : DistinctKeys dest) (hs : DistinctKeys src) :
    (encCtxClone dest src).length = src.length :=
  (perm_of_find (encCtxClone_spec hd hs).1 hs (encCtxClone_spec hd hs).2).length_eq

example : encCtxClone [([1], [1]), ([2], [2])] [([2], [5]), ([3], [3])] = [([2], [5]), ([3], [3])] := by decide

end Verif
