import Verif.Proof.Memory

/-
C92: memory of EDKs, keyring traces, headers, encryption contexts, materials, cache entries, request digests, raw keyrings, caching CMMs and
sessions is released exactly once, whatever allocations fail.

Partial: the code refutes the claim in six places.  In two of them memory is released twice (or read after release), in four it is lost; all six are
proved below as facts about the model, and the general theorems say that nothing else goes wrong anywhere.
-/
namespace Verif.Memory

/-- A program, and what it leaves. -/
def after (ops : List Op) (answers : List Nat) : Objs × Heap := run ops {} (start answers)

/-- The same program, which destroys all its objects at the end. -/
def atEnd (ops : List Op) (answers : List Nat) : Heap :=
  (closeAll (after ops answers).1 (after ops answers).2).2

theorem start_inv : Inv ({} : Objs) := fun _ h => by cases h

theorem fresh_start (answers : List Nat) : Fresh (start answers) := ⟨List.nodup_nil, fun _ h => by cases h⟩

theorem run_count (ops : List Op) (answers : List Nat) (b : Nat) :
    Corrupt (after ops answers).2 ∨ (b ∉ (after ops answers).2.faults ∧
      (after ops answers).2.live.count b = own b (after ops answers).1 + 0 + lostIn b (after ops answers).2.events) :=
  (run_keeps (b := b) ops {} start_inv).count (start answers) 0 (by intro h; cases h) rfl

theorem end_count (ops : List Op) (answers : List Nat) (b : Nat) :
    Corrupt (atEnd ops answers) ∨ (b ∉ (atEnd ops answers).faults ∧
      (atEnd ops answers).live.count b = 0 + 0 + lostIn b (atEnd ops answers).events) := by
  rcases run_count ops answers b with h | ⟨h1, h2⟩
  · exact Or.inl ((closeAll_keeps (b := b) (after ops answers).1).corrupt _ h)
  · exact (closeAll_keeps (b := b) (after ops answers).1).count _ 0 h1 h2

theorem end_excused (ops : List Op) (answers : List Nat) : Excused (atEnd ops answers) :=
  (closeAll_keeps (b := 0) (after ops answers).1).excused _ ((run_keeps (b := 0) ops {} start_inv).excused (start answers) (Or.inl rfl))

theorem bind_run {α β : Type} (f : MM α) (g : α → MM β) (h : Heap) : (f >>= g) h = g (f h).1 (f h).2 := rfl

theorem transferLoop_fits {α : Type} (xs : List α) : ∀ (first : Bool) (d : AList α) (h : Heap), d.items.length + xs.length ≤ d.cap →
    transferLoop first xs d h = ((true, { d with items := d.items ++ xs }), h) := by
  induction xs with
  | nil => intro first d h _; simp only [transferLoop, List.append_nil]; rfl
  | cons x xs ih =>
    intro first d h hf
    simp only [List.length_cons] at hf
    have hp : push d x (if first then [] else [Event.transferPartly]) h = (some { d with items := d.items ++ [x] }, h) := by
      unfold push
      rw [if_pos (by omega)]; rfl
    have : transferLoop first (x :: xs) d h = transferLoop false xs { d with items := d.items ++ [x] } h := by
      conv => lhs; unfold transferLoop
      rw [bind_run, hp]
    rw [this, ih false _ h (by simp only [List.length_append, List.length_cons, List.length_nil]; omega)]
    simp

end Verif.Memory

namespace Verif.Props
open Verif.Memory

/-- At any time of any program, with any failures: unless one of the two dangerous things has happened before, no block was released twice
or read after release, and the live blocks are exactly those that the objects of the program own and those lost so far, each with one owner. -/
theorem C92_one_owner_partial (ops : List Op) (answers : List Nat) :
    let r := after ops answers
    r.2.live.Nodup ∧ (Corrupt r.2 ∨ (r.2.faults = [] ∧ r.2.live.Perm (blocks r.1 ++ lost r.2) ∧ (blocks r.1 ++ lost r.2).Nodup)) := by
  intro r
  have hn : r.2.live.Nodup := ((run_keeps (b := 0) ops {} start_inv).fresh (start answers) (fresh_start answers)).1
  refine ⟨hn, ?_⟩
  by_cases hc : Corrupt r.2
  · exact Or.inl hc
  · have hb : ∀ b, b ∉ r.2.faults ∧ r.2.live.count b = own b r.1 + 0 + lostIn b r.2.events :=
      fun b => (run_count ops answers b).resolve_left hc
    have hp : r.2.live.Perm (blocks r.1 ++ lost r.2) := by
      rw [List.perm_iff_count]
      intro b
      rw [List.count_append, (hb b).2]
      rfl
    exact Or.inr ⟨List.eq_nil_iff_forall_not_mem.mpr (fun b => (hb b).1), hp, hp.nodup_iff.mp hn⟩

/-- After all objects are destroyed, only lost blocks are live. -/
theorem C92_all_released_partial (ops : List Op) (answers : List Nat) :
    Corrupt (atEnd ops answers) ∨ ((atEnd ops answers).faults = [] ∧ (atEnd ops answers).live.Perm (lost (atEnd ops answers))) := by
  by_cases hc : Corrupt (atEnd ops answers)
  · exact Or.inl hc
  · have hb := fun b => (end_count ops answers b).resolve_left hc
    refine Or.inr ⟨List.eq_nil_iff_forall_not_mem.mpr (fun b => (hb b).1), ?_⟩
    rw [List.perm_iff_count]
    intro b
    rw [(hb b).2]
    simp [lostIn, lost]

/-- Unless an allocation or a digest call fails or an EDK field is too long for hashing, every block is released exactly once, whatever else
fails: parsing, key providers, signatures, checks. -/
theorem C92_released_once (ops : List Op) (answers : List Nat) (hf : (atEnd ops answers).failed = false)
    (ho : (atEnd ops answers).oversize = false) : (atEnd ops answers).faults = [] ∧ (atEnd ops answers).live = [] := by
  have he : (atEnd ops answers).events = [] := by
    rcases end_excused ops answers with h | h | h
    · exact h
    · rw [hf] at h; cases h
    · rw [ho] at h; cases h
  rcases C92_all_released_partial ops answers with ⟨e, h, _⟩ | ⟨h1, h2⟩
  · rw [he] at h; cases h
  · refine ⟨h1, ?_⟩
    rw [lost, he] at h2
    exact List.perm_nil.mp h2

/-- Failing allocations are harmless wherever none of the six things happens. -/
theorem C92_released_without_events (ops : List Op) (answers : List Nat) (he : (atEnd ops answers).events = []) :
    (atEnd ops answers).faults = [] ∧ (atEnd ops answers).live = [] := by
  rcases C92_all_released_partial ops answers with ⟨e, h, _⟩ | ⟨h1, h2⟩
  · rw [he] at h; cases h
  · refine ⟨h1, ?_⟩
    rw [lost, he] at h2
    exact List.perm_nil.mp h2

/-! Examples: sessions with a caching CMM over a multi-keyring, all going well; with a bad header; with a failing allocation. -/

/-- Two messages encrypted with a caching CMM, the second with the cached key. -/
def Example.memOps : List Op :=
  [.newSession, .putContext 0, .newCache, .encrypt 0 (.multiGen (.kms 2) (.cons .rsa .nil)) true, .readTrace 0, .trailer 0,
   .newSession, .encrypt 0 (.multiGen (.kms 2) (.cons .rsa .nil)) true, .readTrace 0, .resetSession 0, .decrypt 0 .aes true]

example : (after Example.memOps []).2.faults = [] ∧ (after Example.memOps []).2.live.length = 49 ∧
    (atEnd Example.memOps []).failed = false ∧ (atEnd Example.memOps []).oversize = false ∧ (atEnd Example.memOps []).next = 145 := by
  decide +kernel

example : (after [.newSession, .decrypt 0 .aes false] (List.replicate 7 0 ++ [5] ++ List.replicate 23 0 ++ [2])).2.failed = true ∧
    (atEnd [.newSession, .decrypt 0 .aes false] (List.replicate 7 0 ++ [5] ++ List.replicate 23 0 ++ [2])).events = [] ∧
    (atEnd [.newSession, .decrypt 0 .aes false] (List.replicate 7 0 ++ [5] ++ List.replicate 23 0 ++ [2])).next = 19 := by decide +kernel

/-- A transfer for which the target has room (an EDK list has room for four, a trace for ten records) moves everything, acquires nothing and cannot fail. -/
theorem C92_small_transfers {α : Type} (d s : AList α) (h : Heap) (hfit : d.items.length + s.items.length ≤ d.cap) :
    (transfer d s h).1 = (true, { d with items := d.items ++ s.items }, { s with items := [] }) ∧
    (transfer d s h).2.events = h.events ∧ (transfer d s h).2.live = h.live ∧ (transfer d s h).2.failed = h.failed := by
  have key : ∀ h', transferLoop true s.items d h' = ((true, { d with items := d.items ++ s.items }), h') :=
    fun h' => transferLoop_fits s.items true d h' hfit
  have : transfer d s h = ((true, { d with items := d.items ++ s.items }, { s with items := [] }), (useBuf s.data h).2) := by
    unfold transfer
    rw [bind_run, bind_run, key]
    rfl
  rw [this]
  refine ⟨rfl, ?_⟩
  cases s.data with
  | none => exact ⟨rfl, rfl, rfl⟩
  | some x => unfold useBuf use; dsimp only; split <;> exact ⟨rfl, rfl, rfl⟩

example : (transfer (⟨some 0, 4, []⟩ : AList Edk) ⟨some 1, 4, List.replicate 4 ⟨none, none, none⟩⟩ { (start [2]) with live := [0, 1] }).1.1 = true := by
  decide +kernel

/-! The six places. -/

/-- `n` things go well, the next one does not. -/
def Example.failAt (n : Nat) : List Nat := List.replicate n 0 ++ [2]

/-- aws_cryptosdk_transfer_list: with more than four EDKs, a failing allocation makes blocks be released twice. -/
theorem C92_refuted_transfer : let h := atEnd [.newSession, .encrypt 0 (.kms 6) false] (Example.failAt 66)
    h.faults.length = 12 ∧ h.events = [Event.transferPartly] := by decide +kernel

/-- The same with a multi-keyring of raw AES keyrings. -/
theorem C92_refuted_transfer_multi :
    let h := atEnd [.newSession, .encrypt 0 (.multiGen .aes (.cons .aes (.cons .aes (.cons .aes (.cons .aes .nil))))) false] (Example.failAt 80)
    h.faults.length = 12 ∧ h.events = [Event.transferPartly] := by decide +kernel

/-- hash_dec_request: asked for the decryption of an EDK with a field of more than 65535 bytes, a caching CMM releases a digest context twice; no
allocation fails. -/
theorem C92_refuted_stale_digest : let h := atEnd [.newCache, .askDec .aes true 1] (Example.failAt 18)
    h.faults.length = 2 ∧ h.failed = false ∧ h.oversize = true := by decide +kernel

/-- aws_cryptosdk_hdr_parse: the fifth EDK of a header is lost if the list cannot grow. -/
theorem C92_refuted_header : let h := atEnd [.newSession, .decrypt 0 .aes false] (List.replicate 7 0 ++ [5] ++ Example.failAt 25)
    h.faults = [] ∧ h.live.length = 3 := by decide +kernel

/-- aws_cryptosdk_raw_rsa_keyring_new: the public key is lost if the private key cannot be copied. -/
theorem C92_refuted_rsa : let h := atEnd [.newRsa true true] (Example.failAt 4)
    h.faults = [] ∧ h.live.length = 1 := by decide +kernel

/-- aws_cryptosdk_caching_cmm_new_from_cmm: the partition id is lost if the object cannot be had. -/
theorem C92_refuted_caching_cmm : let h := atEnd [.newCachingCmm true] (Example.failAt 6)
    h.faults = [] ∧ h.live.length = 1 := by decide +kernel

/-- hash_enc_request: the first digest context is lost if the second cannot be had. -/
theorem C92_refuted_hash_enc : let h := atEnd [.newSession, .newCache, .encrypt 0 .aes true] (Example.failAt 13)
    h.faults = [] ∧ h.live.length = 2 := by decide +kernel

end Verif.Props
