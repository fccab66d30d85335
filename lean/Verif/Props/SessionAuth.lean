import Verif.Props.Session
/-
C19: what a decrypting session releases was authenticated, frame by frame and in order.
-/
namespace Verif.Props
open Verif Verif.Spec

/-- Everything a decrypting session has consumed and released, whatever its state: nothing, or a verified header followed by
frames that were opened under the content key, with additional data that bind message id, frame type, position and length. -/
theorem C19_released_was_opened (E : Env → Prop) (pol : Policy) (v : View) (h : Reach E pol v) (hm : v.s.mode.isDecrypt = true) :
    (v.consumed = [] ∧ v.released = []) ∨
    ∃ row hd m k fr tr, Decrypted E row hd m k fr tr v.consumed v.released ∧ (Ongoing fr ∨ Complete fr) := by
  rcases decrypted_of h.hinv hm with ⟨h1, h2, -⟩ | ⟨row, hd, m, k, fr, tr, h1, -, h2, -⟩
  · exact Or.inl ⟨h1, h2⟩
  · exact Or.inr ⟨row, hd, m, k, fr, tr, h1, h2⟩

example : (run (Example.decNew .decrypt) (Example.decHist.take 2)).released = [1, 2, 3, 4] := by decide +kernel

/-! ### under the assumption that the AEAD is unforgeable -/

/-- What honest senders sealed as message bodies under a key: for each message id the frames of the message, as pairs of frame
type and plaintext.  A message consists of intermediate frames and one last frame of another type, and message ids have the
length the suite prescribes. -/
structure Honest where
  frames : Bytes → List (FrameType × Bytes)
  whole : ∀ mid, frames mid ≠ [] → ∃ init last, frames mid = init ++ [last] ∧ (∀ x ∈ init, x.1 = .frame) ∧ last.1 ≠ .frame
  midLen : ∀ mid, frames mid ≠ [] → mid.length = 16 ∨ mid.length = 32
  small : ∀ mid, (frames mid).length < 2 ^ 32 ∧ ∀ x ∈ frames mid, x.2.length < 2 ^ 64

/-- The plaintext of an honest message. -/
def Honest.plaintext (H : Honest) (mid : Bytes) : Bytes := ((H.frames mid).map Prod.snd).flatten

/-- The pairs of additional data and plaintext that honest senders gave to the AEAD for message bodies. -/
def Honest.sealed (H : Honest) (aad pt : Bytes) : Prop :=
  ∃ mid i t, (H.frames mid)[i]? = some (t, pt) ∧ aad = bodyAad mid t (i + 1) pt.length

/-- Integrity of the AEAD under the key `k`: whatever opens with additional data of a body frame was sealed by an honest
sender with the same additional data and plaintext. -/
def Unforgeable (E : Env → Prop) (k : Bytes) (H : Honest) : Prop :=
  ∀ e, E e → ∀ iv mid t i n ct tag pt, (mid.length = 16 ∨ mid.length = 32) → i < 2 ^ 32 → n < 2 ^ 64 →
    e.crypto.aeadOpen k iv (bodyAad mid t i n) ct tag = .ok pt → H.sealed (bodyAad mid t i n) pt

theorem bodyAad_inj {mid mid' : Bytes} {t t' : FrameType} {s s' n n' : Nat} (hm : mid.length = 16 ∨ mid.length = 32)
    (hm' : mid'.length = 16 ∨ mid'.length = 32) (hs : s < 2 ^ 32) (hs' : s' < 2 ^ 32) (hn : n < 2 ^ 64) (hn' : n' < 2 ^ 64)
    (h : bodyAad mid t s n = bodyAad mid' t' s' n') : mid = mid' ∧ t = t' ∧ s = s' ∧ n = n' := by
  have h1 := (C15_aad_injective mid mid' t t' s s' n n' hm hm' hs hs' hn hn').2
  rw [frameAad_eq_bodyAad hs hn, frameAad_eq_bodyAad hs' hn'] at h1
  exact h1 h

theorem prefix_flatten {α : Type} {a b : List (List α)} (h : a <+: b) : a.flatten <+: b.flatten := by
  obtain ⟨c, rfl⟩ := h
  rw [List.flatten_append]
  exact List.prefix_append _ _

/-- If the AEAD is unforgeable under the content key of the message, what a decrypting session releases is a prefix of the
plaintext of the honest message with the message id in the header, and all of it when the session is done: frames cannot be
reordered, duplicated, dropped, truncated or taken from another message. -/
theorem C19_no_reordering_or_splicing (E : Env → Prop) (pol : Policy) (v : View) (h : Reach E pol v) (hm : v.s.mode.isDecrypt = true) :
    (v.consumed = [] ∧ v.released = []) ∨
    ∃ row hd m k rest, (∃ e, E e ∧ HeaderVerified e row hd m k) ∧ v.consumed = wireHeader row.version hd ++ rest ∧
      ∀ H : Honest, Unforgeable E k H →
        v.released <+: H.plaintext hd.messageId ∧ (isDone v.s = true → v.released = H.plaintext hd.messageId) := by
  rcases decrypted_of h.hinv hm with ⟨h1, h2, -⟩ | ⟨row, hd, m, k, fr, tr, h1, -, h2, h3⟩
  · exact Or.inl ⟨h1, h2⟩
  · refine Or.inr ⟨row, hd, m, k, bodyBytes fr ++ tr, h1.header, by rw [h1.consumed, List.append_assoc], fun H hH => ?_⟩
    obtain ⟨e, -, hv⟩ := h1.header
    have hmid : hd.messageId.length = 16 ∨ hd.messageId.length = 32 := by
      have h5 := hv.ok.messageId
      split at h5 <;> omega
    have key : ∀ i (hi : i < fr.length), (H.frames hd.messageId)[i]? = some (fr[i].1.type, fr[i].2) := by
      intro i hi
      have ho := h1.frames i hi
      obtain ⟨e, he, hopen⟩ := ho.opened
      have hq := ho.ok.seqno
      rw [ho.seqno] at hq
      have hcl : fr[i].1.ciphertext.length < 2 ^ 64 := by
        have h5 := ho.ok.shape
        cases ht : fr[i].1.type <;> simp only [ht] at h5 <;> have h6 := hv.ok.frameLen <;> omega
      obtain ⟨mid, j, t, hj, haad⟩ := hH e he _ _ _ _ _ _ _ _ hmid hq hcl hopen
      have hne : H.frames mid ≠ [] := by intro h0; rw [h0] at hj; simp at hj
      obtain ⟨hjl, hje⟩ := List.getElem?_eq_some_iff.mp hj
      have hsm := H.small mid
      have hmem : (t, fr[i].2) ∈ H.frames mid := by rw [← hje]; exact List.getElem_mem hjl
      have hpl := hsm.2 _ hmem
      have hlen := ho.len
      simp only at hpl
      obtain ⟨a1, a2, a3, a4⟩ := bodyAad_inj hmid (H.midLen mid hne) hq (by omega) (by omega) hpl haad
      have : i = j := by omega
      subst this
      rw [a1, a2]; exact hj
    have hpre : fr.map (fun x => (x.1.type, x.2)) <+: H.frames hd.messageId := by
      rw [List.prefix_iff_eq_take]
      apply List.ext_getElem?
      intro i
      by_cases hi : i < fr.length
      · rw [List.length_map, List.getElem?_take_of_lt hi, key i hi]
        simp [hi]
      · rw [List.getElem?_eq_none (by simpa using hi), List.getElem?_eq_none]
        simp only [List.length_map, List.length_take]; omega
    have hrel : v.released = ((fr.map (fun x => (x.1.type, x.2))).map Prod.snd).flatten := by
      rw [h1.released]; simp [bodyText, Function.comp_def]
    constructor
    · rw [hrel]
      exact prefix_flatten (hpre.map _)
    · intro hdone
      have hst : v.s.state = .done := by simpa [isDone] using hdone
      obtain ⟨init, last, hfr, -, hlast⟩ := (h3 hst).1
      rw [hrel]
      unfold Honest.plaintext
      congr 2
      apply hpre.eq_of_length_le
      apply Nat.le_of_not_lt
      intro hlt
      rw [List.length_map] at hlt
      have hfl : 0 < fr.length := by rw [hfr]; simp
      have hne : H.frames hd.messageId ≠ [] := by intro h0; rw [h0] at hlt; simp at hlt
      obtain ⟨hi, hl, hw, hwi, -⟩ := H.whole hd.messageId hne
      have h7 := key (fr.length - 1) (by omega)
      have h8 : fr[fr.length - 1]'(by omega) = last := by
        have : fr.length - 1 = init.length := by rw [hfr]; simp
        simp only [hfr]
        rw [List.getElem_append_right (by simp)]
        simp
      rw [h8] at h7
      rw [hw] at hlt h7
      simp only [List.length_append, List.length_singleton] at hlt
      rw [List.getElem?_append_left (by omega)] at h7
      exact hlast (hwi _ (List.mem_of_getElem? h7))

/-- An unforgeable toy AEAD for one honest message: it opens exactly what was sealed. -/
def C19_honest : Honest where
  frames mid := if mid = List.replicate 32 6 then [(.frame, [1, 2, 3, 4]), (.final, [5, 6])] else []
  whole mid h := by
    split at h
    · exact ⟨[(.frame, [1, 2, 3, 4])], (.final, [5, 6]), by rw [if_pos (by assumption)]; rfl, by simp, by simp⟩
    · exact absurd rfl h
  midLen mid h := by
    split at h
    · rename_i h1; rw [h1]; simp
    · exact absurd rfl h
  small mid := by
    split
    · exact ⟨by simp, by simp⟩
    · exact ⟨by simp, by simp⟩

/-- Opening compares the additional data and the ciphertext with those of the two honest frames; anything but a frame (the
header) opens as in `Example.crypto`. -/
def C19_open (aad ct tag : Bytes) : Except Err Bytes :=
  if aad = bodyAad (List.replicate 32 6) .frame 1 4 then (if ct = [1, 2, 3, 4] then .ok ct else .error .badCiphertext)
  else if aad = bodyAad (List.replicate 32 6) .final 2 2 then (if ct = [5, 6] then .ok ct else .error .badCiphertext)
  else if ct = [] ∧ tag = List.replicate 16 7 ∧ (aad.drop 16).take 6 ≠ [65, 87, 83, 75, 77, 83] ∧
    (aad.drop 32).take 6 ≠ [65, 87, 83, 75, 77, 83] then .ok ct
  else .error .badCiphertext

def C19_env : Env :=
  { Example.env with crypto := { Example.crypto with
      aeadOpen := fun _ _ aad ct tag => C19_open aad ct tag
      aeadOpen_len := by
        intro _ _ aad ct tag pt h
        unfold C19_open at h
        repeat' split at h
        all_goals (cases h; try rfl) } }

theorem C19_env_unforgeable (k : Bytes) : Unforgeable (· = C19_env) k C19_honest := by
  rintro e rfl iv mid t i n ct tag pt hm hi hn h
  have h : C19_open (bodyAad mid t i n) ct tag = .ok pt := h
  have hf : C19_honest.frames (List.replicate 32 6) = [(.frame, [1, 2, 3, 4]), (.final, [5, 6])] := by simp [C19_honest]
  unfold C19_open at h
  split at h
  · rename_i h1
    split at h
    · cases h; subst_vars; exact ⟨_, 0, .frame, by rw [hf]; rfl, h1⟩
    · cases h
  · split at h
    · rename_i h1
      split at h
      · cases h; subst_vars; exact ⟨_, 1, .final, by rw [hf]; rfl, h1⟩
      · cases h
    · split at h
      · rename_i h1
        exfalso
        have hl : ∀ t, ((frameLabel t).toList.map (fun c => UInt8.ofNat c.toNat)).take 6 = [65, 87, 83, 75, 77, 83] := by
          intro t; cases t <;> decide
        have hlen : ∀ t, 6 ≤ ((frameLabel t).toList.map (fun c => UInt8.ofNat c.toNat)).length := by
          intro t; cases t <;> decide
        have hd : ((bodyAad mid t i n).drop mid.length).take 6 = [65, 87, 83, 75, 77, 83] := by
          unfold bodyAad
          rw [List.append_assoc, List.append_assoc, List.drop_left, List.take_append_of_le_length (hlen t), hl]
        rcases hm with hm | hm <;> rw [hm] at hd
        · exact h1.2.2.1 hd
        · exact h1.2.2.2 hd
      · cases h

/-- With this AEAD the example message is decrypted completely; with its two frames exchanged, or the final frame presented first,
nothing but an error comes out. -/
example : (run (Example.decNew .decrypt) [(C19_env, .process (Example.zeros 50) (some Example.msg))]).released = [1, 2, 3, 4, 5, 6] ∧
    isDone (run (Example.decNew .decrypt) [(C19_env, .process (Example.zeros 50) (some Example.msg))]).s = true ∧
    (run (Example.decNew .decrypt) [(C19_env, .process (Example.zeros 50)
      (some (Example.msg.take 109 ++ Example.msg.drop 145)))]).s.state = .error := by decide +kernel

end Verif.Props
