import Verif.Spec.SessionComplete
import Verif.Proof.SessionRead
/-
A message that was written can be read by whoever opens what the writer seals.
-/
namespace Verif
open Spec

/-- A message that was written, complete or not. -/
structure Msg (E1 : Env → Prop) (row : SuiteRow) (hd : Hdr) (m : EncMaterials) (k : Bytes) (fr : List (Frame × Bytes)) (tr : Bytes) : Prop where
  made : ∃ e, E1 e ∧ HeaderMade e row hd m k
  enc : EncMade E1 hd m
  ok : HeaderOK row (hd.received row.version)
  frames : AllFrames (SealedFrame E1 k hd.messageId hd.frameLen) fr
  body : (Ongoing fr ∧ tr = []) ∨ (Complete fr ∧ (tr = [] ∨ Signed E1 row m (wireHeader row.version hd ++ bodyBytes fr) tr))

theorem derivedKey_mono {hk hk' : HkdfFn} (hh : ∀ sha salt ikm info n x, hk sha salt ikm info n = .ok x → hk' sha salt ikm info n = .ok x)
    {row : SuiteRow} {dk mid k c : Bytes} (h : DerivedKey hk row dk mid k c) : DerivedKey hk' row dk mid k c := by
  obtain ⟨h1, h2⟩ := h
  constructor
  · split
    · rename_i h0; rw [if_pos h0] at h1; exact h1
    · rename_i h0; rw [if_neg h0] at h1
      obtain ⟨s, e1, e2⟩ := h1
      exact ⟨s, e1, hh _ _ _ _ _ _ e2⟩
  · split
    · rename_i h0; rw [if_pos h0] at h2; exact h2
    · rename_i h0; rw [if_neg h0] at h2
      obtain ⟨s, e1, e2⟩ := h2
      exact ⟨s, e1, hh _ _ _ _ _ _ e2⟩

/-- What was written can be read. -/
theorem readable_of_msg {R : DecRequest → Prop} {E1 E2 : Env → Prop} (ho : OpensFor R E1 E2) {row : SuiteRow} {hd : Hdr} {m : EncMaterials}
    {k : Bytes} {fr : List (Frame × Bytes)} {tr : Bytes} (hM : Msg E1 row hd m k fr tr) (hR : R ⟨hd.encCtx, hd.edks, hd.algId⟩) :
    Readable E2 row (hd.received row.version) k fr tr := by
  have hw := wireHeader_received row.version hd
  obtain ⟨e1, he1, hmade⟩ := hM.made
  obtain ⟨e3, req, ctx, he3, ht, hgen, hsort, -⟩ := hM.enc.ctx
  obtain ⟨p, hp⟩ := algProps_of_row hmade.suite
  have hrf := rowFacts hmade.suite hp
  have hp' : algProps hd.algId = some p := by rw [hmade.alg.1]; exact hp
  obtain ⟨d1, d2⟩ := hM.enc.dataKey p hp'
  refine ⟨fun e a he => ho.alloc e a he, fun e c x he => ho.digest e c x he, hM.ok, ?_, fun e he => ?_, fun e he i hi => ?_, ?_, ?_⟩
  · rw [hw]
    exact hM.enc.size row hmade.suite hmade.alg.1.symm
  · obtain ⟨m', c1, c2, c3, c4⟩ := ho.answers e3 e req ctx hd.encCtx m he3 he ht hgen (by rw [hsort]; exact (sortByKey_perm ctx).symm)
      (by rw [hmade.edks, hmade.alg.1, ← hmade.alg.2] at hR; exact hR)
    have hkd := derivedKey_mono (fun _ _ _ _ _ _ h => ho.hkdf e1 e _ _ _ _ _ _ he1 he h) hmade.key
    refine ⟨m', ⟨hM.ok, ?_, by rw [c2]; exact hkd, ?_⟩, by rw [c2, d1, hrf.dataKey], ⟨p, by rw [c3, hmade.alg.2]; exact hp⟩, ?_⟩
    · have : DecRequest.mk hd.encCtx hd.edks hd.algId = DecRequest.mk hd.encCtx m.edks m.alg := by
        rw [hmade.edks, hmade.alg.1, hmade.alg.2]
      exact (congrArg e.cmm.decrypt this).trans c1
    · obtain ⟨ct, hct⟩ := hmade.tag
      have := ho.aead e1 e _ _ _ _ _ _ he1 he hct
      have hiv : (if row.version = 1 then (hd.received row.version).iv else List.replicate 12 0) = List.replicate 12 0 := by
        unfold Hdr.received
        by_cases hv : row.version = 1
        · simp only [hv, if_true]; exact hmade.iv hv
        · simp only [hv, if_false]
      have hct0 : ct = [] := List.eq_nil_of_length_eq_zero (e1.crypto.aeadSeal_len _ _ _ _ _ _ hct).1
      subst hct0
      refine ⟨[], ?_⟩
      rw [← hiv] at this
      exact this
    · intro h0
      obtain ⟨c, hc⟩ := Option.isSome_iff_exists.mp (d2.mp (fun h => h0 (hrf.sig.mp h)))
      obtain ⟨c', hc', hv⟩ := c4 c hc
      refine ⟨c', hc', fun htr e2 he2 => ?_⟩
      rcases hM.body with ⟨-, h⟩ | ⟨-, h | h⟩
      · exact absurd h htr
      · exact absurd h htr
      · unfold Signed at h
        rw [if_neg h0] at h
        obtain ⟨e4, c1, sig, h1, h2, h3, h4⟩ := h
        rw [hc] at h2
        cases h2
        exact ⟨sig, h4, ho.sigLen _ _ _ h1 h3, by rw [hw]; exact hv e4 e2 _ _ h1 he2 h3⟩
  · have hsf := hM.frames i hi
    obtain ⟨e4, he4, hs4⟩ := hsf.sealed
    refine ⟨hsf.ok, hsf.seqno, hsf.len, e, rfl, ?_⟩
    rw [hsf.iv, hsf.len]
    exact ho.aead e4 e _ _ _ _ _ _ he4 he hs4
  · rcases hM.body with h | ⟨h, -⟩
    · exact Or.inl h
    · exact Or.inr h
  · intro h0
    rcases hM.body with ⟨-, h⟩ | ⟨-, h | h⟩
    · exact h
    · exact h
    · unfold Signed at h; rw [if_pos h0] at h; exact h

end Verif
