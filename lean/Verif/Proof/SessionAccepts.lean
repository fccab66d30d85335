import Verif.Spec.SessionAccepts
import Verif.Proof.SessionRead
/-
A message is readable, and a session that is done has read one.
-/
namespace Verif
open Spec

theorem length_wireCtx (m : EncCtx) : (wireCtx m).length = ctxLen m := by
  rw [wireCtx_eq]
  unfold ctxLen
  split <;> simp [length_entriesBytes]

theorem length_wireHeader_sorted (ver : Nat) (h : Hdr) : (wireHeader ver h.sorted).length = (wireHeader ver h).length := by
  have hnil : sortByKey h.encCtx = [] ↔ h.encCtx = [] := by
    rw [← List.length_eq_zero_iff, length_sortByKey, List.length_eq_zero_iff]
  have hl : ctxLen (sortByKey h.encCtx) = ctxLen h.encCtx := by
    simp only [ctxLen, hnil, entriesLen_perm (sortByKey_perm h.encCtx)]
  have hw : (wireCtx (sortByKey h.encCtx)).length = (wireCtx h.encCtx).length := by rw [length_wireCtx, length_wireCtx, hl]
  unfold wireHeader wireAuthPart Hdr.sorted
  simp only [List.length_append, hw]

theorem edks_bound (es : List Edk) (h : ∀ e ∈ es, e.providerId.length < 65536 ∧ e.providerInfo.length < 65536 ∧ e.ciphertext.length < 65536) :
    ((es.map wireEdk).flatten).length ≤ es.length * 262144 := by
  induction es with
  | nil => simp
  | cons e es ih =>
    have h1 := h e (by simp)
    have h2 := ih (fun x hx => h x (by simp [hx]))
    have h3 : ∀ n, (u16 n).length = 2 := fun n => by simp [u16]
    simp only [List.map_cons, List.flatten_cons, List.length_append, List.length_cons, wireEdk, h3]
    omega

/-- A header is stored with its size iff it is shorter than 2^31 bytes. -/
theorem size_iff_small {row : SuiteRow} {h : Hdr} (hok : HeaderOK row h) :
    intToSize (hdrSize h) = (wireHeader row.version h).length ↔ (wireHeader row.version h).length < 2 ^ 31 := by
  obtain ⟨p, hp⟩ := algProps_of_row hok.suite
  have hf := rowFacts hok.suite hp
  have hp' : algProps h.algId = some p := by rw [hok.id]; exact hp
  constructor
  · intro hs
    have hb := edks_bound h.edks hok.edksFit
    have hc := hok.edksCount
    have hcx := hok.ctxFits
    rw [wireLen_eq] at hcx
    have hcl := length_wireCtx h.encCtx
    change (wireCtx h.encCtx).length = _ at hcl
    have hbig : (wireHeader row.version h).length < 2 ^ 63 := by
      have h1 := hok.messageId
      have h2 := hok.suiteData
      have h3 := hok.iv
      have h4 := hok.tag
      have h5 : row.commitment ≤ 32 := by
        have : ∀ r ∈ suiteTable, r.commitment ≤ 32 := by decide
        exact this row hok.suite
      have h6 : ∀ n, (u16 n).length = 2 := fun n => by simp [u16]
      have h7 : ∀ n, (u32 n).length = 4 := fun n => by simp [u32]
      have h8 : (wireContentType h.frameLen).length = 1 := by unfold wireContentType; split <;> rfl
      unfold wireHeader wireAuthPart
      change ctxLen h.encCtx ≤ 65535 at hcx
      by_cases hv : row.version = 1
      · simp only [hv, if_true] at h1 h3 ⊢
        simp only [List.length_append, h6, h7, h8, h1, h2, h3, h4, hcl, List.length_cons, List.length_nil]
        omega
      · simp only [hv, if_false] at h1 h3 ⊢
        simp only [List.length_append, h6, h7, h8, h1, h2, h4, hcl, List.length_cons, List.length_nil]
        omega
    have hr : -(2 ^ 31) ≤ hdrSize h ∧ hdrSize h < 2 ^ 31 := by
      have ht : ∀ n, -(2 ^ 31) ≤ toInt32 n ∧ toInt32 n < 2 ^ 31 := by
        intro n; unfold toInt32; split <;> omega
      unfold hdrSize
      split
      · decide
      · split
        · decide
        · split
          · decide
          · simp only
            split
            · decide
            · exact ht _
    unfold intToSize at hs
    omega
  · intro hs
    have he := hdrBytes_eq_wire hok
    have hl : (hdrBytes p.msgFormatVersion h).length = (wireHeader row.version h).length := by
      rw [hf.version, he, length_wireHeader_sorted]
    have hz := hdrSize_eq hp' (by have := hok.ctxFits; rw [wireLen_eq] at this; exact this)
      (fun h1 => by have := hok.iv; rw [hf.version] at h1; rwa [if_pos h1] at this) hok.tag (by rw [hl]; exact hs)
    rw [hz, hl]
    unfold intToSize
    omega

theorem row_of_props {a : Nat} {p : AlgProps} (hp : algProps a = some p) : ∃ r ∈ suiteTable, r.id = a ∧ (p.signatureLen = 0 ↔ r.curveBits = 0) := by
  obtain ⟨r, hr, hid⟩ := algProps_row hp
  rw [← hid] at hp
  exact ⟨r, hr, hid, (rowFacts hr hp).sig⟩

/-- A message can be read. -/
theorem readable_of_parts {e : Env} (hn : NothingFails e) {pol : Policy} {mx : Nat} {mode : Mode} {msg pt : Bytes} {row : SuiteRow} {h : Hdr}
    {m : DecMaterials} {k : Bytes} {fr : List (Frame × Bytes)} {tr : Bytes} (hv : MessageParts e pol mx mode msg pt row h m k fr tr) :
    Readable (· = e) row h k fr tr := by
  refine ⟨?_, ?_, hv.header.ok, (size_iff_small hv.header.ok).mpr hv.small, ?_, ?_, Or.inr hv.complete, ?_⟩
  · rintro e a rfl; exact hn.1 a
  · rintro e c x rfl; exact hn.2 c x
  · rintro e rfl
    obtain ⟨r, hr, hid, -⟩ := hv.suite
    obtain ⟨mp, hmp⟩ := algProps_of_row hr
    refine ⟨m, hv.header, hv.dataKey, ⟨mp, by rw [← hid]; exact hmp⟩, fun h0 => ?_⟩
    have hs := hv.signature
    unfold SignatureVerified at hs
    rw [if_neg h0] at hs
    obtain ⟨_, ctx, sig, rfl, h1, h2, h3, h4⟩ := hs
    refine ⟨ctx, h1, fun _ e' he' => ⟨sig, h3, h4, ?_⟩⟩
    rw [he']; exact h2
  · rintro e rfl; exact hv.frames
  · intro h0
    have hs := hv.signature
    unfold SignatureVerified at hs
    rwa [if_pos h0] at hs

/-- A session that is done has read a message. -/
theorem parts_of_done {e : Env} {pol : Policy} {v : View} (h : HInv (· = e) pol v) (hm : v.s.mode.isDecrypt = true) (hd : v.s.state = .done) :
    ValidMessage e pol v.s.maxEdks v.s.mode v.consumed v.released := by
  have hl := h.live (by simp [hd])
  rcases decrypted_of_live h.inv hl hm with ⟨-, -, h3⟩ | ⟨row, hh, m, k, fr, tr, p, hb, hlog, h1, h2, h3⟩
  · rw [hd] at h3; simp at h3
  · obtain ⟨a1, a2, a3, ⟨_, rfl, a4⟩, a5, a6, -⟩ := decLog_facts hlog
    obtain ⟨env, s, s', inp, rest, sg, rfl, hk, k1, k2, k3⟩ := hlog.hdr
    obtain ⟨c1, c2⟩ := h3 hd
    have hf := rowFacts a3 a2
    have hdk := hk.dataKey
    have hpp := hk.props
    rw [hk.ok.id, a2] at hpp
    refine ⟨row, hh, m, k, fr, tr, a4, ?_, ?_, a6, a5, ?_, hlog.frames, c1, c2, h1.consumed, h1.released⟩
    · have hs := hk.size
      rw [hk.bytes] at hs
      exact (size_iff_small hk.ok).mp hs
    · cases hpp
      rw [← hf.dataKey]; exact hdk
    · obtain ⟨mp, q1, q2⟩ := hk.malg
      obtain ⟨r, r1, r2, r3⟩ := row_of_props q1
      exact ⟨r, r1, r2, fun hmode => r3.mp (q2 (k2.trans hmode))⟩

/-- A session before its first call has no history. -/
theorem hinv_start {e : Env} {pol : Policy} {v : View} (hI : Inv v.s) (hp : v.s.policy.isValid = true → v.s.policy = pol)
    (hc : v.s.state = .config) (h1 : v.consumed = []) (h2 : v.released = []) : HInv (· = e) pol v := by
  have hst := hI.st
  unfold StInv at hst
  simp only [hc] at hst
  refine ⟨hI, hp, Or.inl ?_, by rw [hst.2.nonces]; exact NonceOK.nil, ?_⟩
  · simp only [LiveLog, hc]
    exact ⟨h1, h2, hst.2.nonces⟩
  · intro _ h
    rw [hst.2.cmmSuccess] at h; cases h

end Verif
