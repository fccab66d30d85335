import Verif.Proof.Crypto
/-
C15, C34, C35 and the comparison half of C23.
-/
namespace Verif
open Spec

/-! ### C15 -/

/-- C15.  What the cipher authenticates with a body frame is the published format, and it determines the message id, the
kind, the sequence number and the length: for message ids of either format version. -/
theorem C15_aad_injective (mid mid' : Bytes) (t t' : FrameType) (s s' n n' : Nat)
    (hm : mid.length = 16 ∨ mid.length = 32) (hm' : mid'.length = 16 ∨ mid'.length = 32)
    (hs : s < 2 ^ 32) (hs' : s' < 2 ^ 32) (hn : n < 2 ^ 64) (hn' : n' < 2 ^ 64) :
    frameAad mid t s n = bodyAad mid t s n ∧
    (frameAad mid t s n = frameAad mid' t' s' n' → mid = mid' ∧ t = t' ∧ s = s' ∧ n = n') := by
  refine ⟨frameAad_eq_bodyAad hs hn, fun h => ?_⟩
  have hlen := congrArg List.length h
  unfold frameAad at h hlen
  simp only [List.length_append, length_be] at hlen
  have l1 : (aadString .single).length = 35 := rfl
  have l2 : (aadString .frame).length = 28 := rfl
  have l3 : (aadString .final).length = 34 := rfl
  have hlt : mid.length = mid'.length ∧ t = t' := by
    cases t <;> cases t' <;> simp only [l1, l2, l3] at hlen <;> refine ⟨by omega, ?_⟩ <;> first | rfl | omega
  obtain ⟨hml, rfl⟩ := hlt
  simp only [List.append_assoc] at h
  obtain ⟨rfl, h'⟩ := List.append_inj h hml
  have h'' := List.append_cancel_left h'
  obtain ⟨h1, h2⟩ := List.append_inj h'' (by simp)
  obtain ⟨h3, h4⟩ := List.append_inj h2 (by simp)
  have e1 := be_inj (n := 4) (by omega) (by omega) h1
  have e2 := be_inj (n := 4) (by omega) (by omega) h3
  have e3 := be_inj (n := 4) (by omega) (by omega) h4
  exact ⟨rfl, rfl, e1, by omega⟩

example : frameAad (List.replicate 16 1) .frame 1 5 ≠ frameAad (List.replicate 16 1) .final 1 5 := fun h =>
  absurd ((C15_aad_injective _ _ _ _ _ _ _ _ (Or.inl rfl) (Or.inl rfl) (by decide) (by decide) (by decide) (by decide)).2 h).2.1
    (by decide)

/-! ### C23: the comparison -/

/-- C23 (comparison).  The accumulate-differences comparison accepts two equal 32-byte values (or two empty ones) and
nothing else. -/
theorem C23_commitment_comparison (a b : Bytes) :
    commitmentEq a b = true ↔ a = b ∧ (a = [] ∨ a.length = 32) := by
  rw [commitmentEq_iff, List.length_eq_zero_iff]

example : commitmentEq (List.replicate 31 7 ++ [1]) (List.replicate 31 7 ++ [1]) = true ∧
    commitmentEq (List.replicate 31 7 ++ [1]) (List.replicate 31 7 ++ [2]) = false ∧
    commitmentEq (0 :: List.replicate 31 7) (1 :: List.replicate 31 7) = false ∧
    commitmentEq [1] [1] = false := by decide

/-! ### C34 -/

theorem contentKdfInput_v1 {a : Nat} {mid : Bytes} : contentKdfInput 1 a mid = ([], kdfInfoV1 a mid) := by
  simp [contentKdfInput, kdfInfoV1, u16_eq_be]

theorem contentKdfInput_v2 {a : Nat} {mid : Bytes} : contentKdfInput 2 a mid = (mid, kdfInfoV2 a) := by
  simp only [contentKdfInput, kdfInfoV2, u16_eq_be]; rfl

/-- C34.  Which KDF inputs are used: for every suite and every successful derivation, the content key is either the data
key itself (suites without a KDF) or the HKDF output for the data key with the salt and info of the specification; and the
commitment, when there is one, is the HKDF output for the same data key with the commitment label. -/
theorem C34_derivation (hk : HkdfFn) (a : Nat) (p : AlgProps) (dataKey mid k c : Bytes) (cl : Nat)
    (hp : algProps a = some p) (hd : dataKey.length = p.dataKeyLen) (h : deriveKey hk p dataKey mid cl = .ok k c) :
    (whichSha a = .nosha ∧ k = dataKey ∨
     whichSha a ≠ .nosha ∧
      hk (whichSha a) (contentKdfInput p.msgFormatVersion a mid).1 dataKey (contentKdfInput p.msgFormatVersion a mid).2
        p.contentKeyLen = .ok k) ∧
    (if p.msgFormatVersion = 2 then
      hk (whichSha a) (commitKdfInput mid).1 dataKey (commitKdfInput mid).2 p.commitmentLen = .ok c
     else c = []) ∧
    mid.length = (if p.msgFormatVersion = 1 then 16 else 32) := by
  have hid : p.algId = a := (suiteFacts hp).id
  have htk : dataKey.take p.dataKeyLen = dataKey := by rw [← hd, List.take_length]
  unfold deriveKey at h
  split at h
  · rename_i hv
    rw [hv]
    split at h
    · cases h
    · unfold deriveKeyV1 at h
      split at h
      · cases h
      · rename_i hm
        simp only [ne_eq, Decidable.not_not] at hm
        rw [hid, htk] at h
        split at h
        · rename_i hsha
          cases h
          exact ⟨Or.inl ⟨hsha, rfl⟩, by simp, by simpa using hm⟩
        · rename_i hsha
          split at h
          · cases h
          · rename_i k' hk'
            cases h
            refine ⟨Or.inr ⟨hsha, ?_⟩, by simp, by simpa using hm⟩
            rw [contentKdfInput_v1]
            exact hk'
  · rename_i hv1
    split at h
    · rename_i hv
      rw [hv]
      unfold deriveKeyV2 at h
      split at h
      · cases h
      · split at h
        · cases h
        · rename_i hm
          simp only [ne_eq, Decidable.not_not] at hm
          rw [hid, htk] at h
          split at h
          · cases h
          · rename_i hsha
            split at h
            · cases h
            · rename_i c' hc'
              split at h
              · cases h
              · rename_i k' hk'
                cases h
                refine ⟨Or.inr ⟨hsha, ?_⟩, ?_, by simpa using hm⟩
                · rw [contentKdfInput_v2]; exact hk'
                · rw [if_pos rfl]; exact hc'
    · cases h

/-- C34.  Domain separation: salt and info determine the suite and the message id, across both format versions, and the
commitment label is never used for a content key. -/
theorem C34_domain_separation (a a' : Nat) (p p' : AlgProps) (mid mid' mid'' : Bytes)
    (hp : algProps a = some p) (hp' : algProps a' = some p')
    (hm : mid.length = if p.msgFormatVersion = 1 then 16 else 32)
    (hm' : mid'.length = if p'.msgFormatVersion = 1 then 16 else 32) :
    (contentKdfInput p.msgFormatVersion a mid = contentKdfInput p'.msgFormatVersion a' mid' → a = a' ∧ mid = mid') ∧
    (contentKdfInput p.msgFormatVersion a mid).2 ≠ (commitKdfInput mid'').2 := by
  have key : ∀ {a : Nat} {p : AlgProps}, algProps a = some p →
      (p.msgFormatVersion = 1 ∨ p.msgFormatVersion = 2) ∧ a < 65536 :=
    fun hp => ⟨(suiteFacts hp).version, (suiteFacts hp).small⟩
  obtain ⟨hv, ha⟩ := key hp
  obtain ⟨hv', ha'⟩ := key hp'
  have hinj : ∀ x y : Bytes, u16 a ++ x = u16 a' ++ y → a = a' ∧ x = y := by
    intro x y h
    rw [u16_eq_be, u16_eq_be] at h
    obtain ⟨h1, h2⟩ := List.append_inj h (by simp)
    exact ⟨be_inj (n := 2) (by simpa using ha) (by simpa using ha') h1, h2⟩
  constructor
  · intro h
    rcases hv with hv | hv <;> rcases hv' with hv' | hv' <;> rw [hv] at hm h <;> rw [hv'] at hm' h <;>
      simp only [contentKdfInput, if_true, Prod.mk.injEq, true_and] at h
    · exact hinj _ _ h
    · exfalso; rw [if_neg (by decide)] at h; simp only [Prod.mk.injEq] at h
      rw [← h.1] at hm'; simp at hm'
    · exfalso; rw [if_neg (by decide)] at h; simp only [Prod.mk.injEq] at h
      rw [h.1] at hm; simp at hm
    · rw [if_neg (by decide), if_neg (by decide)] at h
      simp only [Prod.mk.injEq] at h
      exact ⟨(hinj _ _ h.2).1, h.1⟩
  · intro h
    have hl := congrArg List.length h
    rcases hv with hv | hv <;> rw [hv] at hm hl
    · simp [contentKdfInput, commitKdfInput, u16, hm] at hl
    · simp [contentKdfInput, commitKdfInput, u16] at hl

/-- A toy HKDF for the non-vacuity examples: constant output of the requested length. -/
def exHkdf : HkdfFn := fun _ _ _ _ n => .ok (List.replicate n 5)

example : ∃ p, algProps 0x0578 = some p ∧ ∃ k c,
    deriveKey exHkdf p (List.replicate 32 1) (List.replicate 32 2) 32 = .ok k c := ⟨_, rfl, _, _, rfl⟩
example : ∃ p, algProps 0x0178 = some p ∧ ∃ k c,
    deriveKey exHkdf p (List.replicate 32 1) (List.replicate 16 2) 0 = .ok k c := ⟨_, rfl, _, _, rfl⟩

/-- C15.  A frame is sealed under its own IV and additional data, and only if its sequence number is not 0 and the ciphertext buffer has
exactly the size of the plaintext; it is opened under the same additional data. -/
theorem C15_body_cipher (c : Crypto) (p : AlgProps) (key messageId : Bytes) (type : FrameType) (seqno : Nat) (pt : Bytes) (outCap : Nat)
    (f : Frame) :
    (pt.length ≠ outCap → encryptBody c p key messageId type seqno pt outCap = .error .shortBuffer) ∧
    (pt.length = outCap → seqno = 0 → encryptBody c p key messageId type seqno pt outCap = .error .cryptoUnknown) ∧
    (pt.length = outCap → seqno ≠ 0 → 8 ≤ p.ivLen → encryptBody c p key messageId type seqno pt outCap =
      match c.aeadSeal key (List.replicate (p.ivLen - 8) 0 ++ be 8 seqno) (frameAad messageId type seqno pt.length) pt with
      | some (ct, tag) => .ok (List.replicate (p.ivLen - 8) 0 ++ be 8 seqno, ct, tag)
      | none => .error .cryptoUnknown) ∧
    (f.ciphertext.length ≠ outCap → decryptBody c key messageId f outCap = .error .shortBuffer) ∧
    (f.ciphertext.length = outCap → decryptBody c key messageId f outCap =
      c.aeadOpen key f.iv (frameAad messageId f.type f.seqno f.ciphertext.length) f.ciphertext f.authtag) := by
  refine ⟨fun h => ?_, fun h h0 => ?_, fun h h0 h8 => ?_, fun h => ?_, fun h => ?_⟩
  · simp [encryptBody, h]
  · simp [encryptBody, h, h0]
  · simp only [encryptBody, h, h0, ne_eq, not_true, if_false, show ¬ p.ivLen < 8 by omega, frameIv]
    split <;> rename_i heq <;> rw [heq]
  · simp [decryptBody, h]
  · simp [decryptBody, h]

/-! ### C35 -/

/-- C35.  With a working HMAC the output buffer holds exactly the RFC 5869 output of its length, for every length from 1
to 255 hash blocks; for a longer (or empty) buffer the call fails and the buffer is zeroed. -/
theorem C35_hkdf_rfc5869 (H : Hmac) (sha : Sha) (f : Bytes → Bytes → Bytes) (hsha : sha ≠ .nosha)
    (hf : ∀ k m, H.mac sha k m = some (f k m)) (salt ikm info old : Bytes) :
    (1 ≤ old.length → old.length ≤ 255 * hashLen sha →
      hkdf H sha salt ikm info old = (hkdfRfc f (hashLen sha) salt ikm info old.length, .ok ()) ∧
      (hkdfRfc f (hashLen sha) salt ikm info old.length).length = old.length) ∧
    (255 * hashLen sha < old.length → hkdf H sha salt ikm info old = (List.replicate old.length 0, .error .cryptoUnknown)) ∧
    (old.length = 0 → ∃ o, hkdf H sha salt ikm info old = (o, .error .cryptoUnknown)) := by
  have hpos : 0 < hashLen sha := by cases sha <;> simp_all [hashLen]
  have hsalt : (if salt.length ≠ 0 then salt else List.replicate (hashLen sha) 0) =
      (if salt = [] then List.replicate (hashLen sha) 0 else salt) := by
    cases salt <;> simp
  have hex : hkdfExtract H sha salt ikm = .ok (hkdfExtractRfc f (hashLen sha) salt ikm) := by
    unfold hkdfExtract hkdfExtractRfc
    rw [if_neg hsha]
    simp only [hsalt, hf]
    have := H.mac_len sha _ _ _ (hf (if salt = [] then List.replicate (hashLen sha) 0 else salt) ikm)
    rw [if_neg (by omega)]
  have hprk : (hkdfExtractRfc f (hashLen sha) salt ikm).length ≠ 0 := by
    have := H.mac_len sha _ _ _ (hf (if salt = [] then List.replicate (hashLen sha) 0 else salt) ikm)
    unfold hkdfExtractRfc
    omega
  have hdiv : ∀ L, L ≤ (L + hashLen sha - 1) / hashLen sha * hashLen sha := by
    intro L
    have h1 := Nat.div_add_mod (L + hashLen sha - 1) (hashLen sha)
    have h2 := Nat.mod_lt (L + hashLen sha - 1) hpos
    rw [Nat.mul_comm] at h1
    omega
  refine ⟨?_, ?_, ?_⟩
  · intro h1 h2
    have hn : ¬ ((old.length + hashLen sha - 1) / hashLen sha > 255) := by
      have : (old.length + hashLen sha - 1) / hashLen sha < 256 := by
        rw [Nat.div_lt_iff_lt_mul hpos]; omega
      omega
    have hloop := hkdfExpandLoop_eq H sha f hf (hkdfExtractRfc f (hashLen sha) salt ikm) info
      ((old.length + hashLen sha - 1) / hashLen sha) 0 old.length [] (hdiv _)
    rw [show hkdfT f (hkdfExtractRfc f (hashLen sha) salt ikm) info 0 = [] from rfl, List.nil_append] at hloop
    have e : hkdf H sha salt ikm info old = (hkdfRfc f (hashLen sha) salt ikm info old.length, .ok ()) := by
      unfold hkdf
      rw [hex]
      simp only [hkdfExpand]
      rw [if_neg hsha, if_neg (by omega), if_neg hn, hloop]
      simp only [hkdfRfc, hkdfExpandRfc, List.range_eq_range']
    refine ⟨e, ?_⟩
    have := hkdfExpandLoop_none_or_len H sha _ info _ _ _ _ [] (hdiv _) _ hloop
    unfold hkdfRfc hkdfExpandRfc
    rw [List.range_eq_range', this]
    simp
  · intro h1
    have hn : (old.length + hashLen sha - 1) / hashLen sha > 255 := by
      have : 256 ≤ (old.length + hashLen sha - 1) / hashLen sha := by
        rw [Nat.le_div_iff_mul_le hpos]; omega
      omega
    unfold hkdf
    rw [hex]
    simp only [hkdfExpand]
    rw [if_neg hsha, if_neg (by omega), if_pos hn]
  · intro h1
    unfold hkdf
    rw [hex]
    simp only [hkdfExpand]
    rw [if_neg hsha, if_pos (Or.inl h1)]
    exact ⟨_, rfl⟩

/-- C35.  Whatever HMAC does: the call never writes a partial or shorter result.  It succeeds with a full-length output, or
fails leaving the buffer all zero or untouched. -/
theorem C35_hkdf_all_or_nothing (H : Hmac) (sha : Sha) (salt ikm info old out : Bytes) (r : Except Err Unit)
    (h : hkdf H sha salt ikm info old = (out, r)) :
    out.length = old.length ∧ (r = .ok () ∨ (∃ e, r = .error e) ∧ (out = old ∨ out = List.replicate old.length 0)) := by
  unfold hkdf at h
  split at h
  · cases h; exact ⟨rfl, Or.inr ⟨⟨_, rfl⟩, Or.inl rfl⟩⟩
  · simp only [hkdfExpand] at h
    split at h
    · cases h; exact ⟨rfl, Or.inr ⟨⟨_, rfl⟩, Or.inl rfl⟩⟩
    · rename_i hsha
      split at h
      · cases h; exact ⟨by simp, Or.inr ⟨⟨_, rfl⟩, Or.inr rfl⟩⟩
      · split at h
        · cases h; exact ⟨by simp, Or.inr ⟨⟨_, rfl⟩, Or.inr rfl⟩⟩
        · split at h
          · cases h; exact ⟨by simp, Or.inr ⟨⟨_, rfl⟩, Or.inr rfl⟩⟩
          · rename_i okm hl
            cases h
            have hpos : 0 < hashLen sha := by cases sha <;> simp_all [hashLen]
            have hdiv : old.length ≤ (old.length + hashLen sha - 1) / hashLen sha * hashLen sha := by
              have h1 := Nat.div_add_mod (old.length + hashLen sha - 1) (hashLen sha)
              have h2 := Nat.mod_lt (old.length + hashLen sha - 1) hpos
              rw [Nat.mul_comm] at h1
              omega
            have := hkdfExpandLoop_none_or_len H sha _ info _ _ _ _ [] hdiv _ hl
            exact ⟨by simpa using this, Or.inl rfl⟩

/-- The loop fails only if HMAC does. -/
theorem expandLoop_none (H : Hmac) (sha : Sha) (prk info : Bytes) : ∀ (n idx : Nat) (t : Bytes) (remaining : Nat) (okm : Bytes),
    hkdfExpandLoop H sha prk info n idx t remaining okm = none → ∃ k m, H.mac sha k m = none
  | 0, _, _, _, _, h => by simp [hkdfExpandLoop] at h
  | n + 1, idx, t, remaining, okm, h => by
    simp only [hkdfExpandLoop] at h
    split at h
    · next h1 => exact ⟨_, _, h1⟩
    · exact expandLoop_none H sha prk info n _ _ _ _ h

/-- C35.  The error tells what is wrong: without a digest the suite cannot derive keys, and nothing is written; otherwise it is a
cryptographic error, because HMAC failed, or because of an empty output or one longer than 255 blocks. -/
theorem C35_hkdf_errors (H : Hmac) (sha : Sha) (salt ikm info old out : Bytes) (e : Err) (h : hkdf H sha salt ikm info old = (out, .error e)) :
    (sha = .nosha ∧ e = .unsupportedFormat ∧ out = old) ∨
    (sha ≠ .nosha ∧ e = .cryptoUnknown ∧ ((∃ k m, H.mac sha k m = none) ∨ old.length = 0 ∨ 255 * hashLen sha < old.length)) := by
  by_cases hsha : sha = .nosha
  · left
    subst hsha
    simp [hkdf, hkdfExtract] at h
    exact ⟨rfl, h.2.symm, h.1.symm⟩
  · right
    refine ⟨hsha, ?_⟩
    have hpos : 0 < hashLen sha := by cases sha <;> simp_all [hashLen]
    unfold hkdf hkdfExtract at h
    rw [if_neg hsha] at h
    simp only at h
    cases hm : H.mac sha (if salt.length ≠ 0 then salt else List.replicate (hashLen sha) 0) ikm with
    | none =>
      rw [hm] at h
      cases h
      exact ⟨rfl, .inl ⟨_, _, hm⟩⟩
    | some prk =>
      have hl := H.mac_len _ _ _ _ hm
      rw [hm] at h
      simp only [show ¬ prk.length = 0 by omega, if_false, hkdfExpand, if_neg hsha] at h
      split at h
      · next h1 =>
        cases h
        exact ⟨rfl, .inr (.inl (by rcases h1 with h1 | h1 <;> simp_all))⟩
      · split at h
        · next h2 =>
          cases h
          refine ⟨rfl, .inr (.inr ?_)⟩
          have h3 : 256 * hashLen sha ≤ old.length + hashLen sha - 1 := (Nat.le_div_iff_mul_le hpos).1 h2
          omega
        · split at h
          · next h3 =>
            cases h
            refine ⟨rfl, .inl ?_⟩
            exact expandLoop_none H sha _ info _ _ _ _ _ h3
          · cases h

/-- A toy HMAC: the last bytes of key and message. -/
def exHmac : Hmac where
  mac sha k m := some (((k ++ m).reverse ++ List.replicate (hashLen sha) 0).take (hashLen sha))
  mac_len := by
    intro sha k m t h
    simp only [Option.some.injEq] at h
    subst h
    simp only [List.length_take, List.length_append, List.length_replicate]
    omega

example : (∃ f : Bytes → Bytes → Bytes, ∀ k m, exHmac.mac .sha256 k m = some (f k m)) ∧
    (hkdf exHmac .sha256 [] [1, 2, 3] [9] (List.replicate 40 0)).2 = .ok () ∧ 40 ≤ 255 * hashLen .sha256 :=
  ⟨⟨_, fun _ _ => rfl⟩, by decide, by decide⟩

example : hkdf exHmac .nosha [] [1] [] [7] = ([7], .error .unsupportedFormat) ∧ hkdf exHmac .sha256 [] [1] [] [] = ([], .error .cryptoUnknown) := by decide

end Verif
