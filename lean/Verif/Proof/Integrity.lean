import Verif.Spec.Integrity
import Verif.Props.SessionAuth
/-
Lemmas for the integrity of messages: headers and frames are never sealed with the same additional data, and the
authenticated part of a header determines its version and its message identifier.
-/
namespace Verif.Proof
open Verif Verif.Spec Verif.Props

theorem label_len (t : FrameType) : ((frameLabel t).toList.map (fun c => UInt8.ofNat c.toNat)).length =
    match t with | .frame => 28 | .final => 34 | .single => 35 := by cases t <;> decide

theorem row_version {row : SuiteRow} (h : row ∈ suiteTable) : row.version = 1 ∨ row.version = 2 := by
  revert row; decide

theorem row_v1_commitment {row : SuiteRow} (h : row ∈ suiteTable) (hv : row.version = 1) : row.commitment = 0 := by
  revert row; decide

theorem u16_len (n : Nat) : (u16 n).length = 2 := rfl
theorem u32_len (n : Nat) : (u32 n).length = 4 := rfl
theorem u64be_len (n : Nat) : (u64be n).length = 8 := rfl

theorem bodyAad_length (mid : Bytes) (t : FrameType) (i n : Nat) : (bodyAad mid t i n).length ≤ mid.length + 47 := by
  unfold bodyAad
  simp only [List.length_append, label_len, u32_len, u64be_len]
  cases t <;> simp

/-- The byte of the label at a position that all labels share. -/
theorem bodyAad_label (mid : Bytes) (t : FrameType) (i n j : Nat) (hj : j < 22) :
    (bodyAad mid t i n)[mid.length + j]? = ("AWSKMSEncryptionClient".toList.map (fun c => UInt8.ofNat c.toNat))[j]? := by
  unfold bodyAad
  have hl := label_len t
  have hl' : 28 ≤ ((frameLabel t).toList.map (fun c => UInt8.ofNat c.toNat)).length := by rw [hl]; cases t <;> simp
  rw [List.append_assoc, List.append_assoc, List.getElem?_append_right (by omega), Nat.add_sub_cancel_left,
    List.getElem?_append_left (by omega)]
  have : ∀ t : FrameType, ∀ j : Fin 22, ((frameLabel t).toList.map (fun c => UInt8.ofNat c.toNat))[j.1]? =
      ("AWSKMSEncryptionClient".toList.map (fun c => UInt8.ofNat c.toNat))[j.1]? := by
    intro t; cases t <;> decide
  exact this t ⟨j, hj⟩

/-- The first byte of the length of the encryption context in the authenticated part of a header bounds the length of all of it. -/
theorem auth_ctxLen {version : Nat} {h : Hdr} (hv : version = 1 ∨ version = 2)
    (hmid : h.messageId.length = if version = 1 then 16 else 32) {b : UInt8}
    (hb : (wireAuthPart version h)[if version = 1 then 20 else 35]? = some b) : b.toNat * 256 ≤ (wireAuthPart version h).length := by
  have key : ∃ pre L rest, wireAuthPart version h = pre ++ u16 L ++ rest ∧ L ≤ rest.length ∧ pre.length = if version = 1 then 20 else 35 := by
    refine ⟨(if version = 1 then [1, 0x80] else [2]) ++ u16 h.algId ++ h.messageId, (wireCtx h.encCtx).length,
      wireCtx h.encCtx ++ u16 h.edks.length ++ (h.edks.map wireEdk).flatten ++ wireContentType h.frameLen ++
      (if version = 1 then [0, 0, 0, 0] ++ [12] else []) ++ u32 h.frameLen ++ h.algSuiteData, ?_, ?_, ?_⟩
    · simp only [wireAuthPart, List.append_assoc]
    · simp only [List.length_append]; omega
    · rcases hv with rfl | rfl <;> simp [hmid, u16_len]
  obtain ⟨pre, L, rest, h1, h2, h3⟩ := key
  rw [h1, List.append_assoc, List.getElem?_append_right (by omega), ← h3, Nat.sub_self] at hb
  simp only [u16, List.cons_append, List.getElem?_cons_zero, Option.some.injEq] at hb
  subst hb
  rw [h1]
  simp only [List.length_append, u16_len]
  have : (UInt8.ofNat (L / 256)).toNat ≤ L / 256 := by
    rw [UInt8.toNat_ofNat']
    exact Nat.mod_le _ _
  omega

/-- The additional data of a header are never those of a frame. -/
theorem auth_ne_aad {version : Nat} {h : Hdr} (hv : version = 1 ∨ version = 2)
    (hmid : h.messageId.length = if version = 1 then 16 else 32) (hsd : version = 1 → h.algSuiteData = [])
    {mid : Bytes} (hm : mid.length = 16 ∨ mid.length = 32) (t : FrameType) (i n : Nat) (hn : n < 2 ^ 32 ∨ i % 256 ≠ 0) :
    wireAuthPart version h ≠ bodyAad mid t i n := by
  intro heq
  have hlen := bodyAad_length mid t i n
  have big : ∀ {j : Nat} {b : UInt8}, (if version = 1 then 20 else 35) = mid.length + j → j < 22 →
      ("AWSKMSEncryptionClient".toList.map (fun c => UInt8.ofNat c.toNat))[j]? = some b → 1 ≤ b.toNat → False := by
    intro j b hj hj2 hb hb1
    have h1 := bodyAad_label mid t i n j hj2
    rw [← hj, ← heq, hb] at h1
    have h2 := auth_ctxLen hv hmid h1
    rw [heq] at h2
    omega
  rcases hv with rfl | rfl
  · rcases hm with hm | hm
    · exact big (j := 4) (b := 77) (by simp [hm]) (by omega) (by decide) (by decide)
    · unfold wireAuthPart bodyAad u64be at heq
      rw [hsd rfl, List.append_nil, ← List.append_assoc, if_pos rfl, if_pos rfl] at heq
      have h1 := (List.append_inj' heq rfl).1
      rcases hn with hn | hn
      · have h2 : n / 4294967296 = 0 := by omega
        rw [h2] at h1
        have h3 : u32 0 = [0, 0, 0] ++ [0] := rfl
        rw [h3, ← List.append_assoc, ← List.append_assoc] at h1
        have h4 := (List.append_inj' h1 rfl).2
        exact absurd h4 (by decide)
      · have h3 : ([0, 0, 0, 0] ++ [12] : Bytes) = [0] ++ [0, 0, 0, 12] := rfl
        rw [h3, ← List.append_assoc] at h1
        have h4 := (List.append_inj' h1 rfl).1
        have h5 : u32 i = [UInt8.ofNat (i / 16777216), UInt8.ofNat (i / 65536 % 256), UInt8.ofNat (i / 256 % 256)] ++ [UInt8.ofNat (i % 256)] := rfl
        rw [h5, ← List.append_assoc] at h4
        have h6 := (List.append_inj' h4 rfl).2
        simp only [List.cons.injEq, and_true] at h6
        have h7 := congrArg UInt8.toNat h6
        rw [UInt8.toNat_ofNat'] at h7
        simp at h7
        omega
  · rcases hm with hm | hm
    · exact big (j := 19) (b := 101) (by simp [hm]) (by omega) (by decide) (by decide)
    · exact big (j := 3) (b := 75) (by simp [hm]) (by omega) (by decide) (by decide)

/-- The authenticated part of a header determines the version, the suite and the message identifier. -/
theorem auth_mid {v v' : Nat} {h h' : Hdr} (hv : v = 1 ∨ v = 2) (hv' : v' = 1 ∨ v' = 2)
    (hm : h.messageId.length = if v = 1 then 16 else 32) (hm' : h'.messageId.length = if v' = 1 then 16 else 32)
    (ha : h.algId < 65536) (ha' : h'.algId < 65536)
    (heq : wireAuthPart v h = wireAuthPart v' h') : v = v' ∧ h.algId = h'.algId ∧ h.messageId = h'.messageId := by
  have hvv : v = v' := by
    have := congrArg List.head? heq
    rcases hv with rfl | rfl <;> rcases hv' with rfl | rfl <;> simp [wireAuthPart] at this ⊢
  subst hvv
  refine ⟨rfl, ?_⟩
  unfold wireAuthPart at heq
  simp only [List.append_assoc] at heq
  have h1 := List.append_cancel_left heq
  obtain ⟨h0, h2⟩ := List.append_inj h1 rfl
  refine ⟨?_, (List.append_inj h2 (by rw [hm, hm'])).1⟩
  rw [u16_eq_be, u16_eq_be] at h0
  exact be_inj (n := 2) (by simpa using ha) (by simpa using ha') h0

theorem row_small {row : SuiteRow} (h : row ∈ suiteTable) : row.id < 65536 := by
  revert row; decide

end Verif.Proof
