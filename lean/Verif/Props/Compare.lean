import Verif.Model.Compare
import Verif.Spec.Compare
import Verif.Proof.EncCtx
import Verif.Props.Keyring
/-
C106: comparisons of encrypted data keys and traces are equality of contents; what is copied compares equal; the context that is sent to
KMS is the same map as the table.
-/
namespace Verif.Props
open Verif Verif.Spec

/-- **C106**, encrypted data keys. -/
theorem C106_edk (a b : Edk) :
    edkEq a b = true ↔ a.providerId = b.providerId ∧ a.providerInfo = b.providerInfo ∧ a.ciphertext = b.ciphertext := by
  simp only [edkEq, Bool.and_eq_true, beq_iff_eq]
  exact ⟨fun h => ⟨h.2, h.1.2, h.1.1⟩, fun h => ⟨⟨h.2.2, h.2.1⟩, h.1⟩⟩

theorem traceRecordEq_iff (a b : TraceRec) : traceRecordEq a b = true ↔ a = b := by
  simp only [traceRecordEq, Bool.and_eq_true, beq_iff_eq]
  constructor
  · rintro ⟨⟨h1, h2⟩, h3⟩
    cases a; cases b; simp_all
  · rintro rfl
    exact ⟨⟨rfl, rfl⟩, rfl⟩

theorem traceEqLoop_ok (a b : List TraceRec) (hl : a.length = b.length) (k idx : Nat) (hk : k + idx = a.length) :
    traceEqLoop a b k idx = some (decide (a.drop idx = b.drop idx)) := by
  induction k generalizing idx with
  | zero =>
    rw [List.drop_of_length_le (by omega), List.drop_of_length_le (by omega)]
    simp [traceEqLoop]
  | succ k ih =>
    have ha : idx < a.length := by omega
    have hb : idx < b.length := by omega
    have hd : a.drop idx = b.drop idx ↔ a[idx] = b[idx] ∧ a.drop (idx + 1) = b.drop (idx + 1) := by
      rw [List.drop_eq_getElem_cons ha, List.drop_eq_getElem_cons hb, List.cons.injEq]
    simp only [hd, traceEqLoop, List.getElem?_eq_getElem ha, List.getElem?_eq_getElem hb]
    by_cases h : a[idx] = b[idx]
    · rw [(traceRecordEq_iff _ _).mpr h]
      simp only [Bool.not_true, Bool.false_eq_true, if_false]
      rw [ih (idx + 1) (by omega)]
      simp [h]
    · have : traceRecordEq a[idx] b[idx] = false := by
        cases hh : traceRecordEq a[idx] b[idx] with
        | false => rfl
        | true => exact absurd ((traceRecordEq_iff _ _).mp hh) h
      simp [this, h]

/-- **C106**, traces: the comparison never aborts, and it holds exactly for equal lists of records. -/
theorem C106_trace (a b : List TraceRec) : traceEq a b = some (decide (a = b)) := by
  unfold traceEq
  split
  · rename_i h
    have : a ≠ b := fun h' => h (by rw [h'])
    simp [this]
  · rename_i h
    have h : a.length = b.length := by simpa using h
    rw [traceEqLoop_ok a b h a.length 0 (by omega)]
    simp

/-- **C106**, copies: when a trace or a list of encrypted data keys was copied to an empty list, the copy compares equal to the original. -/
theorem C106_copies (al : Nat → Nat → Bool) (tmp : Bool) :
    (∀ src dest : List TraceRec,
      listCopyAll tmp (fun j => traceClone (al j 0) (al j 1)) (fun j => al j 2) [] src = (dest, true) → traceEq dest src = some true) ∧
    (∀ src dest : List Edk,
      listCopyAll tmp (fun j => edkClone (al j 0) (al j 1) (al j 2)) (fun j => al j 3) [] src = (dest, true) →
        dest.length = src.length ∧ ∀ (j : Nat) (x y : Edk), dest[j]? = some x → src[j]? = some y → edkEq x y = true) := by
  refine ⟨fun src dest h => ?_, fun src dest h => ?_⟩
  · have := (C52_trace_copy al tmp [] src dest true h).1
    simp only [if_true, List.nil_append] at this
    rw [this, C106_trace]
    simp
  · have := (C52_edk_list_copy al tmp [] src dest true h).1
    simp only [if_true, List.nil_append] at this
    subst this
    refine ⟨rfl, fun j x y hx hy => ?_⟩
    rw [hx] at hy
    cases hy
    rw [C106_edk]
    exact ⟨rfl, rfl, rfl⟩

/-- **C106**, suites: properties are valid exactly if their six numbers are those of a suite of the library and the pointers are set; so
those of the library are. -/
theorem C106_suite (p : AlgProps) (ptrs : AlgPtrs) :
    (algPropertiesIsValid (some (p, ptrs)) = true ↔ (p.mdName ≠ none ∧ ptrs.cipherName = true ∧ ptrs.algName = true ∧ ptrs.impl = true) ∧
      ∃ q, algProps p.algId = some q ∧ p.dataKeyLen = q.dataKeyLen ∧ p.contentKeyLen = q.contentKeyLen ∧ p.ivLen = q.ivLen ∧
        p.tagLen = q.tagLen ∧ p.signatureLen = q.signatureLen) ∧
    algPropertiesIsValid none = false ∧
    ∀ a, algProps a = some p → algPropertiesIsValid (some (p, ⟨true, true, true⟩)) = true := by
  have known : ∀ a q, algProps a = some q → q.algId = a ∧ q.mdName.isSome = true := by
    intro a q h
    unfold algProps at h
    split at h <;> first | (cases h; exact ⟨rfl, rfl⟩) | cases h
  refine ⟨?_, rfl, ?_⟩
  · unfold algPropertiesIsValid
    cases hq : algProps p.algId with
    | none => simp only [hq]; simp
    | some q =>
      have := (known _ _ hq).1
      simp only [hq]
      simp only [Bool.and_eq_true, algPropertiesEqual, beq_iff_eq, Option.some.injEq, ← Option.isSome_iff_ne_none]
      constructor
      · rintro ⟨⟨⟨⟨h1, h2⟩, h3⟩, h4⟩, ⟨⟨⟨⟨h5, h6⟩, h7⟩, h8⟩, h9⟩, -⟩
        exact ⟨⟨h1, h2, h3, h4⟩, q, rfl, h5, h6, h7, h8, h9⟩
      · rintro ⟨⟨h1, h2, h3, h4⟩, q', rfl, h5, h6, h7, h8, h9⟩
        exact ⟨⟨⟨⟨h1, h2⟩, h3⟩, h4⟩, ⟨⟨⟨⟨h5, h6⟩, h7⟩, h8⟩, h9⟩, this.symm⟩
  · intro a h
    obtain ⟨h1, h2⟩ := known a p h
    subst h1
    simp [algPropertiesIsValid, h, h2, algPropertiesEqual]

/-- Validity does not say that the other numbers are those of the suite: a committing suite without commitment passes. -/
theorem C106_suite_valid_but_other : ∃ p q : AlgProps, ∃ ptrs, algProps p.algId = some q ∧ algPropertiesIsValid (some (p, ptrs)) = true ∧
    p.commitmentLen = 0 ∧ q.commitmentLen = 32 ∧ p.msgFormatVersion ≠ q.msgFormatVersion :=
  ⟨{ staticAlgProps 0x0478 1 "sha512" 256 0 0 0 with algId := 0x0478 }, _, ⟨true, true, true⟩, rfl, by decide +kernel, rfl, rfl, by decide⟩

theorem cppMapSet_perm (k v : Bytes) (m : List (Bytes × Bytes)) (h : k ∉ m.map (·.1)) : (cppMapSet k v m).Perm ((k, v) :: m) := by
  induction m with
  | nil => exact .refl _
  | cons e m ih =>
    simp only [List.map_cons, List.mem_cons, not_or] at h
    simp only [cppMapSet, if_neg (Ne.symm h.1)]
    split
    · exact .refl _
    · exact ((ih h.2).cons e).trans (.swap _ _ _)

theorem cppMapSet_sorted (k v : Bytes) (m : List (Bytes × Bytes)) (hs : SortedByKey m) (h : k ∉ m.map (·.1)) :
    SortedByKey (cppMapSet k v m) := by
  induction m with
  | nil => simp [cppMapSet, SortedByKey]
  | cons e m ih =>
    have hp := cppMapSet_perm k v m (by simp only [List.map_cons, List.mem_cons, not_or] at h; exact h.2)
    simp only [List.map_cons, List.mem_cons, not_or] at h
    simp only [cppMapSet, if_neg (Ne.symm h.1)]
    have hs' := List.pairwise_cons.mp hs
    split
    · rename_i hle
      refine List.pairwise_cons.mpr ⟨fun a ha => ?_, hs⟩
      rcases List.mem_cons.mp ha with rfl | ha
      · exact hle
      · exact bytesLe_trans hle (hs'.1 a ha)
    · rename_i hle
      refine List.pairwise_cons.mpr ⟨fun a ha => ?_, ih hs'.2 h.2⟩
      rcases List.mem_cons.mp (hp.mem_iff.mp ha) with rfl | ha
      · rcases bytesLe_total k e.1 with h' | h'
        · exact absurd h' hle
        · exact h'
      · exact hs'.1 a ha

theorem mapFromTable_ok (t m : List (Bytes × Bytes)) (hs : SortedByKey m) (hn : ((t ++ m).map (·.1)).Nodup) :
    (t.foldl (fun m e => cppMapSet e.1 e.2 m) m).Perm (t ++ m) ∧ SortedByKey (t.foldl (fun m e => cppMapSet e.1 e.2 m) m) := by
  induction t generalizing m with
  | nil => exact ⟨.refl _, hs⟩
  | cons e t ih =>
    simp only [List.foldl_cons]
    simp only [List.cons_append, List.map_cons, List.nodup_cons, List.map_append, List.mem_append, not_or] at hn
    have hp := cppMapSet_perm e.1 e.2 m hn.1.2
    have hp' : (t ++ cppMapSet e.1 e.2 m).Perm (e :: (t ++ m)) := (hp.append_left t).trans List.perm_middle
    obtain ⟨h1, h2⟩ := ih (cppMapSet e.1 e.2 m) (cppMapSet_sorted e.1 e.2 m hs hn.1.2) (by
      rw [(hp'.map (·.1)).nodup_iff]
      simp only [List.map_cons, List.nodup_cons, List.map_append, List.mem_append, not_or]
      exact hn)
    exact ⟨h1.trans hp', h2⟩

/-- **C106**, contexts: the map that is sent to KMS has the pairs of the table, in the order of the keys; two tables give the same map
exactly if they have the same pairs, in whatever order they are stored.  No table is the empty map. -/
theorem C106_context (t : List (Bytes × Bytes)) (ht : OneValue t) :
    SamePairs (mapFromTable (some t)) t ∧ KeysInOrder (mapFromTable (some t)) ∧ mapFromTable none = [] ∧
    ∀ t', OneValue t' → (mapFromTable (some t) = mapFromTable (some t') ↔ SamePairs t t') := by
  have main : ∀ t : List (Bytes × Bytes), OneValue t → (mapFromTable (some t)).Perm t ∧ SortedByKey (mapFromTable (some t)) := by
    intro t ht
    have := mapFromTable_ok t [] .nil (by rw [List.append_nil]; exact ht)
    simpa [mapFromTable] using this
  obtain ⟨h1, h2⟩ := main t ht
  refine ⟨fun e => h1.mem_iff, ?_, rfl, fun t' ht' => ?_⟩
  · have hn : ((mapFromTable (some t)).map (·.1)).Nodup := ((h1.map Prod.fst).nodup_iff).mpr ht
    have hn := List.pairwise_map.mp hn
    exact (h2.and hn).imp (fun h => bytesLe_lt h.1 h.2)
  · obtain ⟨h1', h2'⟩ := main t' ht'
    constructor
    · intro h e
      rw [← h1.mem_iff, h, h1'.mem_iff]
    · intro h
      have nd : ∀ l : List (Bytes × Bytes), OneValue l → l.Nodup := fun l hl => by
        have := List.pairwise_map.mp hl
        exact this.imp (fun hne h => hne (by rw [h]))
      have hp : t.Perm t' := (List.perm_ext_iff_of_nodup (nd t ht) (nd t' ht')).mpr h
      exact sortByKey_unique ((h1.trans hp).trans h1'.symm) h2 h2' (((h1.map Prod.fst).nodup_iff).mpr ht)

example : edkEq ⟨[1], [2], [3]⟩ ⟨[1], [2], [3]⟩ = true ∧ edkEq ⟨[1], [2], [3]⟩ ⟨[1, 2], [], [3]⟩ = false ∧
    traceEq [⟨[1], [2], 3⟩, ⟨[4], [5], 6⟩] [⟨[1], [2], 3⟩, ⟨[4], [5], 6⟩] = some true ∧
    traceEq [⟨[1], [2], 3⟩, ⟨[4], [5], 6⟩] [⟨[1], [2], 3⟩, ⟨[4], [5], 7⟩] = some false ∧
    traceEq [⟨[1], [2], 3⟩] [⟨[1], [2], 3⟩, ⟨[4], [5], 7⟩] = some false ∧
    listCopyAll true (fun _ => traceClone true true) (fun _ => true) [] [⟨[1], [2], 3⟩] = ([⟨[1], [2], 3⟩], true) := by decide +kernel

/-- Keys with zero bytes, one a prefix of the other, in two orders of the table. -/
example : mapFromTable (some [([1, 0], [5]), ([1], [6, 0]), ([], [7])]) = [([], [7]), ([1], [6, 0]), ([1, 0], [5])] ∧
    mapFromTable (some [([], [7]), ([1, 0], [5]), ([1], [6, 0])]) = [([], [7]), ([1], [6, 0]), ([1, 0], [5])] ∧
    OneValue [([1, 0], [5]), ([1], [6, 0]), ([], [7])] := by unfold OneValue; decide +kernel

end Verif.Props
