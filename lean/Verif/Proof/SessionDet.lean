import Verif.Proof.SessionFacts
/-
Uniqueness: what a message and an environment determine.
-/
namespace Verif
open Spec

/-! ### headers -/

/-- The header without the bookkeeping field `authLen`, which is not on the wire. -/
def Hdr.bare (h : Hdr) : Hdr := { h with authLen := 0 }

theorem header_unique {r1 r2 : SuiteRow} {h1 h2 : Hdr} {x1 x2 : Bytes} (ok1 : HeaderOK r1 h1) (ok2 : HeaderOK r2 h2)
    (h : wireHeader r1.version h1 ++ x1 = wireHeader r2.version h2 ++ x2) : r1 = r2 ∧ h1.bare = h2.bare ∧ x1 = x2 := by
  have key : ∀ (r : SuiteRow) (h : Hdr) (x : Bytes), HeaderOK r h →
      hdrParse 0 (wireHeader r.version h ++ x) = .ok ({ h with authLen := (wireAuthPart r.version h).length }, x) := by
    intro r h x ok
    exact hdrParse_iff.mpr ⟨r, ⟨ok.suite, ok.id, ok.messageId, ok.suiteData, ok.iv, ok.tag, ok.frameLen, ok.edksNonempty, ok.edksCount,
      ok.edksFit, ok.ctxKeys, ok.ctxFits⟩, Or.inl rfl, rfl, rfl⟩
  have a1 := key r1 h1 x1 ok1
  have a2 := key r2 h2 x2 ok2
  rw [h, a2] at a1
  simp only [Except.ok.injEq, Prod.mk.injEq] at a1
  obtain ⟨a1, rfl⟩ := a1
  have hb : h1.bare = h2.bare := by
    have := congrArg Hdr.bare a1
    exact this.symm
  refine ⟨row_unique' ok1.suite ok2.suite ?_, hb, rfl⟩
  rw [← ok1.id, ← ok2.id]
  have : h1.bare.algId = h2.bare.algId := by rw [hb]
  exact this

theorem hashLen_inj {a b : Sha} (h : hashLen a = hashLen b) : a = b := by
  cases a <;> cases b <;> simp [hashLen] at h <;> rfl

theorem derivedKey_agree {hk hk' : HkdfFn} (hh : ∀ sha salt ikm info n x y, hk sha salt ikm info n = .ok x → hk' sha salt ikm info n = .ok y → x = y)
    {row : SuiteRow} {dk mid k k' c c' : Bytes} (h : DerivedKey hk row dk mid k c) (h' : DerivedKey hk' row dk mid k' c') : k = k' ∧ c = c' := by
  obtain ⟨h1, h2⟩ := h
  obtain ⟨h1', h2'⟩ := h'
  constructor
  · split at h1
    · rename_i h0; rw [if_pos h0] at h1'; rw [h1, h1']
    · rename_i h0
      rw [if_neg h0] at h1'
      obtain ⟨s, e1, e2⟩ := h1
      obtain ⟨s', e1', e2'⟩ := h1'
      have : s = s' := hashLen_inj (by omega)
      subst this
      exact hh _ _ _ _ _ _ _ e2 e2'
  · split at h2
    · rename_i h0; rw [if_pos h0] at h2'; rw [h2, h2']
    · rename_i h0
      rw [if_neg h0] at h2'
      obtain ⟨s, e1, e2⟩ := h2
      obtain ⟨s', e1', e2'⟩ := h2'
      have : s = s' := hashLen_inj (by omega)
      subst this
      exact hh _ _ _ _ _ _ _ e2 e2'

theorem derivedKey_unique {hk : HkdfFn} {row : SuiteRow} {dk mid k k' c c' : Bytes} (h : DerivedKey hk row dk mid k c)
    (h' : DerivedKey hk row dk mid k' c') : k = k' ∧ c = c' :=
  derivedKey_agree (fun _ _ _ _ _ _ _ h h' => by rw [h] at h'; exact Except.ok.inj h') h h'

/-! ### frames -/

theorem frame_unique {fs : Nat} (hfs : fs < 2 ^ 32) {f1 f2 : Frame} {x1 x2 : Bytes} (ok1 : FrameOK fs f1) (ok2 : FrameOK fs f2)
    (h : wireFrame f1 ++ x1 = wireFrame f2 ++ x2) : f1 = f2 ∧ x1 = x2 := by
  have a1 : frameParser fs (wireFrame f1 ++ x1) = .ok (f1, x1) := (frameParser_iff hfs).mpr ⟨ok1, rfl⟩
  have a2 : frameParser fs (wireFrame f2 ++ x2) = .ok (f2, x2) := (frameParser_iff hfs).mpr ⟨ok2, rfl⟩
  rw [h, a2] at a1
  simp only [Except.ok.injEq, Prod.mk.injEq] at a1
  exact ⟨a1.1.symm, a1.2.symm⟩

/-- A body whose last frame, at most, ends it. -/
def Body (fr : List (Frame × Bytes)) : Prop := ∀ i (h : i + 1 < fr.length), fr[i].1.type = .frame

theorem body_of {fr : List (Frame × Bytes)} (h : Ongoing fr ∨ Complete fr) : Body fr := by
  intro i hi
  rcases h with h | ⟨init, last, rfl, h, -⟩
  · exact h _ (List.getElem_mem _)
  · simp only [List.length_append, List.length_singleton] at hi
    have hi' : i < init.length := by omega
    rw [List.getElem_append_left hi']
    exact h _ (List.getElem_mem _)

theorem complete_last {fr : List (Frame × Bytes)} (h : Complete fr) : ∃ hl : fr.length - 1 < fr.length, fr[fr.length - 1].1.type ≠ .frame := by
  obtain ⟨init, last, rfl, -, hl⟩ := h
  refine ⟨by simp, ?_⟩
  simpa using hl

theorem prefix_of_getElem {α : Type} {a b : List α} (hle : a.length ≤ b.length)
    (h : ∀ i (h1 : i < a.length) (h2 : i < b.length), a[i] = b[i]) : a <+: b := by
  rw [List.prefix_iff_eq_take]
  apply List.ext_getElem
  · rw [List.length_take]; omega
  · intro i h1 h2
    rw [List.getElem_take]
    exact h i h1 (by omega)

/-- A body that agrees with a complete one as far as both go is a prefix of it. -/
theorem prefix_of_complete {fr1 fr2 : List (Frame × Bytes)} (h1 : Body fr1) (h2 : Complete fr2)
    (h : ∀ i (h1 : i < fr1.length) (h2 : i < fr2.length), fr1[i] = fr2[i]) : fr1 <+: fr2 := by
  refine prefix_of_getElem ?_ h
  apply Nat.le_of_not_lt
  intro hlt
  obtain ⟨hl, ht⟩ := complete_last h2
  have := h1 (fr2.length - 1) (by omega)
  rw [h (fr2.length - 1) (by omega) hl] at this
  exact ht this

theorem bodyBytes_take_succ {fr : List (Frame × Bytes)} {i : Nat} (h : i < fr.length) :
    bodyBytes fr = bodyBytes (fr.take i) ++ (wireFrame fr[i].1 ++ bodyBytes (fr.drop (i + 1))) := by
  have : fr = fr.take i ++ fr[i] :: fr.drop (i + 1) := by
    rw [← List.drop_eq_getElem_cons h, List.take_append_drop]
  have h2 := congrArg bodyBytes this
  rw [h2]
  simp only [bodyBytes, List.map_append, List.map_cons, List.flatten_append, List.flatten_cons]

theorem bodyText_take_succ {fr : List (Frame × Bytes)} {i : Nat} (h : i < fr.length) :
    bodyText fr = bodyText (fr.take i) ++ (fr[i].2 ++ bodyText (fr.drop (i + 1))) := by
  have : fr = fr.take i ++ fr[i] :: fr.drop (i + 1) := by
    rw [← List.drop_eq_getElem_cons h, List.take_append_drop]
  have h2 := congrArg bodyText this
  rw [h2]
  simp only [bodyText, List.map_append, List.map_cons, List.flatten_append, List.flatten_cons]

/-- Two bodies with the same bytes agree as far as both go, if equal frames have equal texts. -/
theorem frames_agree {P1 P2 : Nat → Frame → Bytes → Prop} {fs : Nat} (hfs : fs < 2 ^ 32) {fr1 fr2 : List (Frame × Bytes)} {x1 x2 : Bytes}
    (ok1 : ∀ i f pt, P1 i f pt → FrameOK fs f) (ok2 : ∀ i f pt, P2 i f pt → FrameOK fs f)
    (det : ∀ i f p1 p2, P1 i f p1 → P2 i f p2 → p1 = p2)
    (h1 : AllFrames P1 fr1) (h2 : AllFrames P2 fr2)
    (h : bodyBytes fr1 ++ x1 = bodyBytes fr2 ++ x2) :
    ∀ i (hi1 : i < fr1.length) (hi2 : i < fr2.length), fr1[i] = fr2[i] := by
  intro i
  induction i using Nat.strongRecOn with
  | _ i ih =>
    intro hi1 hi2
    have ht : fr1.take i = fr2.take i := by
      apply List.ext_getElem
      · simp; omega
      · intro j h3 h4
        rw [List.getElem_take, List.getElem_take]
        simp only [List.length_take] at h3
        exact ih j (by omega) _ _
    rw [bodyBytes_take_succ hi1, bodyBytes_take_succ hi2, ht] at h
    simp only [List.append_assoc, List.append_cancel_left_eq] at h
    have o1 := h1 i hi1
    have o2 := h2 i hi2
    obtain ⟨hf, -⟩ := frame_unique hfs (ok1 _ _ _ o1) (ok2 _ _ _ o2) h
    rw [hf] at o1
    have hp := det _ _ _ _ o1 o2
    exact Prod.ext hf hp

/-- Two opened bodies of the same bytes agree as far as both go. -/
theorem opened_agree {E1 E2 : Env → Prop} {k mid : Bytes} {fs : Nat} (hfs : fs < 2 ^ 32) {fr1 fr2 : List (Frame × Bytes)} {x1 x2 : Bytes}
    (hE : ∀ e1 e2, E1 e1 → E2 e2 → e1.crypto.aeadOpen = e2.crypto.aeadOpen)
    (h1 : AllFrames (OpenedFrame E1 k mid fs) fr1) (h2 : AllFrames (OpenedFrame E2 k mid fs) fr2)
    (h : bodyBytes fr1 ++ x1 = bodyBytes fr2 ++ x2) :
    ∀ i (hi1 : i < fr1.length) (hi2 : i < fr2.length), fr1[i] = fr2[i] := by
  refine frames_agree hfs (fun _ _ _ h => h.ok) (fun _ _ _ h => h.ok) ?_ h1 h2 h
  intro i f p1 p2 o1 o2
  obtain ⟨e1, he1, ho1⟩ := o1.opened
  obtain ⟨e2, he2, ho2⟩ := o2.opened
  rw [hE e1 e2 he1 he2, ho2] at ho1
  exact (Except.ok.inj ho1).symm

theorem bodyText_prefix {a b : List (Frame × Bytes)} (h : a <+: b) : bodyText a <+: bodyText b := by
  obtain ⟨c, rfl⟩ := h
  simp [bodyText]

theorem bodyBytes_prefix {a b : List (Frame × Bytes)} (h : a <+: b) : bodyBytes a <+: bodyBytes b := by
  obtain ⟨c, rfl⟩ := h
  simp [bodyBytes]

/-! ### encryption -/

/-- Two sealed bodies of prefixes of the same plaintext agree as far as both go; a final frame or a single block occurs only at
the end of the plaintext. -/
theorem sealed_agree {E1 E2 : Env → Prop} {k mid : Bytes} {fs : Nat} {fr1 fr2 : List (Frame × Bytes)} {P : Bytes}
    (hE : ∀ e1 e2, E1 e1 → E2 e2 → e1.crypto.aeadSeal = e2.crypto.aeadSeal)
    (h1 : AllFrames (SealedFrame E1 k mid fs) fr1) (h2 : AllFrames (SealedFrame E2 k mid fs) fr2)
    (hp1 : bodyText fr1 <+: P) (hp2 : bodyText fr2 <+: P)
    (ho1 : Ongoing fr1 ∨ (Complete fr1 ∧ (bodyText fr1).length = P.length))
    (ho2 : Ongoing fr2 ∨ (Complete fr2 ∧ (bodyText fr2).length = P.length)) :
    ∀ i (hi1 : i < fr1.length) (hi2 : i < fr2.length), fr1[i] = fr2[i] := by
  have hlast : ∀ (fr : List (Frame × Bytes)) (_ : Ongoing fr ∨ (Complete fr ∧ (bodyText fr).length = P.length)) (i : Nat) (hi : i < fr.length),
      fr[i].1.type ≠ .frame → (bodyText (fr.take i)).length + fr[i].2.length = P.length := by
    intro fr ho i hi ht
    rcases ho with ho | ⟨⟨init, last, rfl, hi1, hl⟩, hlen⟩
    · exact absurd (ho _ (List.getElem_mem hi)) ht
    · have : i = init.length := by
        apply Decidable.byContradiction
        intro hne
        simp only [List.length_append, List.length_singleton] at hi
        have hi' : i < init.length := by omega
        rw [List.getElem_append_left hi'] at ht
        exact ht (hi1 _ (List.getElem_mem _))
      subst this
      rw [← hlen]
      simp [bodyText]
  intro i
  induction i using Nat.strongRecOn with
  | _ i ih =>
    intro hi1 hi2
    have ht : fr1.take i = fr2.take i := by
      apply List.ext_getElem
      · simp; omega
      · intro j h3 h4
        rw [List.getElem_take, List.getElem_take]
        simp only [List.length_take] at h3
        exact ih j (by omega) _ _
    have s1 := h1 i hi1
    have s2 := h2 i hi2
    have t1 := bodyText_take_succ hi1
    have t2 := bodyText_take_succ hi2
    have l1 := hlast fr1 ho1 i hi1
    have l2 := hlast fr2 ho2 i hi2
    rw [ht] at t1 l1
    have g1 := hp1.length_le
    have g2 := hp2.length_le
    rw [t1, List.length_append, List.length_append] at g1
    rw [t2, List.length_append, List.length_append] at g2
    have hshape : fr1[i].1.type = fr2[i].1.type ∧ fr1[i].2.length = fr2[i].2.length := by
      have a1 := s1.ok.shape
      have a2 := s2.ok.shape
      have b1 := s1.short
      have b2 := s2.short
      have c1 := s1.len
      have c2 := s2.len
      cases hty1 : fr1[i].1.type <;> cases hty2 : fr2[i].1.type <;> rw [hty1] at a1 b1 l1 <;> rw [hty2] at a2 b2 l2 <;>
        simp only [ne_eq, reduceCtorEq, not_false_eq_true, not_true_eq_false, forall_const, false_implies] at a1 a2 b1 b2 l1 l2 ⊢ <;>
        simp only [true_and, false_and] <;> omega
    have hpt : fr1[i].2 = fr2[i].2 := by
      rw [t1] at hp1
      rw [t2] at hp2
      obtain ⟨y1, rfl⟩ := hp1
      obtain ⟨y2, hy⟩ := hp2
      simp only [List.append_assoc, List.append_cancel_left_eq] at hy
      exact (List.append_inj hy hshape.2.symm).1.symm
    obtain ⟨e1, he1, x1⟩ := s1.sealed
    obtain ⟨e2, he2, x2⟩ := s2.sealed
    rw [hE e1 e2 he1 he2, hshape.1, hpt, x2] at x1
    have q1 := s1.seqno
    have q2 := s2.seqno
    have v1 := s1.iv
    have v2 := s2.iv
    cases hfi : fr1[i] with
    | mk a b =>
      cases hfj : fr2[i] with
      | mk c d =>
        rw [hfi, hfj] at hshape hpt
        rw [hfi] at q1 v1
        rw [hfj] at q2 v2
        rw [hfi, hfj] at x1
        cases a; cases c
        simp only [Option.some.injEq, Prod.mk.injEq] at *
        obtain ⟨x3, x4⟩ := x1
        simp only [Frame.mk.injEq]
        exact ⟨⟨hshape.1, by rw [q1, q2], by rw [v1, v2], x3.symm, x4.symm⟩, hpt⟩

/-- The header of an encryption is determined by the materials, the primitives and the frame size. -/
theorem headerMade_unique {E1 E2 : Env → Prop} {C : Crypto} {ctx : EncCtx} {m m1 m2 : EncMaterials} {row1 row2 : SuiteRow} {h1 h2 : Hdr} {k1 k2 : Bytes}
    (hE1 : ∀ e, E1 e → (∀ req, e.cmm.generate req = (ctx, .ok m)) ∧ e.crypto = C)
    (hE2 : ∀ e, E2 e → (∀ req, e.cmm.generate req = (ctx, .ok m)) ∧ e.crypto = C)
    (a1 : ∃ e, E1 e ∧ HeaderMade e row1 h1 m1 k1) (a2 : ∃ e, E2 e ∧ HeaderMade e row2 h2 m2 k2)
    (b1 : EncMade E1 h1 m1) (b2 : EncMade E2 h2 m2) (hf : h1.frameLen = h2.frameLen) :
    m1 = m2 ∧ row1 = row2 ∧ k1 = k2 ∧ h1.messageId = h2.messageId ∧ wireHeader row1.version h1 = wireHeader row2.version h2 := by
  obtain ⟨e1, he1, a1⟩ := a1
  obtain ⟨e2, he2, a2⟩ := a2
  obtain ⟨e3, req3, c3, he3, -, x3, y3, -⟩ := b1.ctx
  obtain ⟨e4, req4, c4, he4, -, x4, y4, -⟩ := b2.ctx
  rw [(hE1 e3 he3).1] at x3
  rw [(hE2 e4 he4).1] at x4
  simp only [Prod.mk.injEq, Except.ok.injEq] at x3 x4
  obtain ⟨rfl, rfl⟩ := x3
  obtain ⟨rfl, rfl⟩ := x4
  have hrow : row1 = row2 := row_unique' a1.suite a2.suite (by rw [← a1.alg.2, ← a2.alg.2])
  subst hrow
  have hmid : h1.messageId = h2.messageId := by
    have q1 := a1.messageId
    have q2 := a2.messageId
    rw [(hE1 e1 he1).2] at q1
    rw [(hE2 e2 he2).2, q1] at q2
    exact Option.some.inj q2
  have hd : k1 = k2 ∧ h1.algSuiteData = h2.algSuiteData := by
    have q1 := a1.key
    have q2 := a2.key
    rw [(hE1 e1 he1).2, hmid] at q1
    rw [(hE2 e2 he2).2] at q2
    exact derivedKey_unique q1 q2
  obtain ⟨rfl, hasd⟩ := hd
  have hauth : wireAuthPart row1.version h1 = wireAuthPart row1.version h2 := by
    unfold wireAuthPart
    rw [a1.alg.1, a2.alg.1, hmid, y3, y4, a1.edks, a2.edks, hf, hasd]
  refine ⟨rfl, rfl, rfl, hmid, ?_⟩
  have htag : h1.authTag = h2.authTag := by
    obtain ⟨ct1, q1⟩ := a1.tag
    obtain ⟨ct2, q2⟩ := a2.tag
    rw [(hE1 e1 he1).2, hauth] at q1
    rw [(hE2 e2 he2).2, q1] at q2
    simp only [Option.some.injEq, Prod.mk.injEq] at q2
    exact q2.2
  unfold wireHeader
  rw [hauth, htag]
  by_cases hv : row1.version = 1
  · rw [if_pos hv, if_pos hv, a1.iv hv, a2.iv hv]
  · rw [if_neg hv, if_neg hv]

/-- The header as a decrypting session will see it: format version 2 has no IV field. -/
def Hdr.received (version : Nat) (h : Hdr) : Hdr := { h with iv := if version = 1 then h.iv else [] }

theorem wireHeader_received (version : Nat) (h : Hdr) : wireHeader version (h.received version) = wireHeader version h := by
  unfold wireHeader Hdr.received
  by_cases hv : version = 1
  · simp only [hv, if_true]
  · simp only [hv, if_false]
    rfl

/-- A header that was made is well formed, provided that the encrypted data keys fit their length fields and the CMM returned a map. -/
theorem headerOK_of_made {E : Env → Prop} {e : Env} {row : SuiteRow} {h : Hdr} {m : EncMaterials} {k : Bytes} (hm : HeaderMade e row h m k)
    (hb : EncMade E h m) (hc : ∀ e req ctx, E e → DistinctKeys req.encCtx → e.cmm.generate req = (ctx, .ok m) → DistinctKeys ctx) (hn : m.edks.length < 65536)
    (hf : ∀ x ∈ m.edks, x.providerId.length < 65536 ∧ x.providerInfo.length < 65536 ∧ x.ciphertext.length < 65536) :
    HeaderOK row (h.received row.version) := by
  obtain ⟨e', req, ctx, he', ht, hg, hctx, hlen⟩ := hb.ctx
  refine ⟨hm.suite, hm.alg.1, e.crypto.random_len _ _ hm.messageId, ?_, ?_, ?_, hb.frame, hb.edks, ?_, ?_, ?_, ?_⟩
  · show h.algSuiteData.length = row.commitment
    have := hm.key.2
    split at this
    · rename_i h0; rw [this, h0]; rfl
    · obtain ⟨sha, -, h2⟩ := this
      exact e.crypto.hkdf_len _ _ _ _ _ _ h2
  · show (if row.version = 1 then h.iv else []).length = _
    by_cases hv : row.version = 1
    · rw [if_pos hv, if_pos hv, hm.iv hv]; rfl
    · rw [if_neg hv, if_neg hv]; rfl
  · obtain ⟨ct, hct⟩ := hm.tag
    exact (e.crypto.aeadSeal_len _ _ _ _ _ _ hct).2
  · show h.edks.length < 65536
    rw [hm.edks]; exact hn
  · show ∀ x ∈ h.edks, _
    rw [hm.edks]; exact hf
  · show DistinctKeys h.encCtx
    rw [hctx]; exact WF_sort (hc e' req ctx he' ht hg)
  · show wireLen h.encCtx ≤ 65535
    rw [hctx, wireLen_eq]
    have hnil : sortByKey ctx = [] ↔ ctx = [] := by
      rw [← List.length_eq_zero_iff, length_sortByKey, List.length_eq_zero_iff]
    simpa [ctxLen, hnil, entriesLen_perm (sortByKey_perm ctx)] using hlen

theorem signed_unique {E1 E2 : Env → Prop} {C : Crypto} {row : SuiteRow} {m : EncMaterials} {signed t1 t2 : Bytes}
    (hE1 : ∀ e, E1 e → e.crypto = C) (hE2 : ∀ e, E2 e → e.crypto = C) (h1 : Signed E1 row m signed t1) (h2 : Signed E2 row m signed t2) :
    t1 = t2 := by
  unfold Signed at h1 h2
  split at h1
  · rename_i h; rw [if_pos h] at h2; rw [h1, h2]
  · rename_i h
    rw [if_neg h] at h2
    obtain ⟨e1, c1, g1, a1, a2, a3, rfl⟩ := h1
    obtain ⟨e2, c2, g2, b1, b2, b3, rfl⟩ := h2
    rw [a2] at b2
    cases b2
    rw [hE1 e1 a1] at a3
    rw [hE2 e2 b1, a3] at b3
    cases b3; rfl

/-- Bytes of a sealed body are bounded by the length of the text. -/
theorem sealed_bytes_le {E : Env → Prop} {k mid : Bytes} {fs : Nat} {fr : List (Frame × Bytes)}
    (h : AllFrames (SealedFrame E k mid fs) fr) (ho : Body fr) :
    (bodyBytes fr).length ≤ 41 * (bodyText fr).length + 40 := by
  have key : ∀ n (hn : n ≤ fr.length), n < fr.length ∨ n = fr.length → (n < fr.length → (bodyBytes (fr.take n)).length ≤ 41 * (bodyText (fr.take n)).length) := by
    intro n
    induction n with
    | zero => intro _ _ _; simp [bodyBytes, bodyText]
    | succ n ih =>
      intro h1 _ h3
      have := ih (by omega) (Or.inl (by omega)) (by omega)
      have hlt : n < fr.length := by omega
      rw [List.take_succ_eq_append_getElem hlt]
      simp only [bodyBytes, bodyText, List.map_append, List.flatten_append, List.length_append, List.map_cons, List.map_nil,
        List.flatten_cons, List.flatten_nil, List.length_nil] at this ⊢
      have hs := h n hlt
      have hty := ho n h3
      have hsh := hs.ok.shape
      rw [hty] at hsh
      have hl := hs.len
      have hw : (wireFrame fr[n].1).length = fr[n].2.length + 32 := by
        unfold wireFrame
        rw [hty]
        simp only [List.length_append, u32, List.length_cons, List.length_nil, hs.ok.iv, hs.ok.tag, hl]
        omega
      simp only at hsh
      omega
  by_cases hne : fr = []
  · subst hne; simp [bodyBytes]
  · have hpos : 0 < fr.length := List.length_pos_iff.mpr hne
    have hlt : fr.length - 1 < fr.length := by omega
    have := key (fr.length - 1) (by omega) (Or.inl hlt) hlt
    have hs := h (fr.length - 1) hlt
    rw [bodyBytes_take_succ hlt, bodyText_take_succ hlt]
    have hd : fr.drop (fr.length - 1 + 1) = [] := List.drop_eq_nil_of_le (by omega)
    rw [hd]
    have hw : (wireFrame fr[fr.length - 1].1).length ≤ fr[fr.length - 1].2.length + 40 := by
      have hl := hs.len
      unfold wireFrame
      split <;> simp only [List.length_append, u32, u64be, List.length_cons, List.length_nil, hs.ok.iv, hs.ok.tag, hl] <;> omega
    simp only [List.length_append, bodyText, bodyBytes, List.map_nil, List.flatten_nil, List.length_nil] at this ⊢
    omega

/-! ### chains of prefixes -/

/-- A family of byte strings of bounded length, pairwise comparable by prefix, has a largest element. -/
theorem chain_max (S : Bytes → Prop) (hc : ∀ a b, S a → S b → a <+: b ∨ b <+: a) (N : Nat) (hN : ∀ a, S a → a.length ≤ N) :
    ∃ X, (∀ a, S a → a <+: X) ∧ ((∃ a, S a) → S X) := by
  by_cases hne : ∃ a, S a
  · have : ∀ n a, S a → N - a.length ≤ n → ∃ X, (∀ a, S a → a <+: X) ∧ S X := by
      intro n
      induction n with
      | zero =>
        intro a ha hn
        refine ⟨a, fun b hb => ?_, ha⟩
        rcases hc b a hb ha with h | h
        · exact h
        · have := hN b hb
          rw [h.eq_of_length_le (by omega)]
          exact List.prefix_refl _
      | succ n ih =>
        intro a ha hn
        by_cases hx : ∃ b, S b ∧ a.length < b.length
        · obtain ⟨b, hb, hl⟩ := hx
          exact ih b hb (by omega)
        · refine ⟨a, fun b hb => ?_, ha⟩
          rcases hc b a hb ha with h | h
          · exact h
          · have : ¬ a.length < b.length := fun hl => hx ⟨b, hb, hl⟩
            rw [h.eq_of_length_le (by omega)]
            exact List.prefix_refl _
    obtain ⟨a, ha⟩ := hne
    obtain ⟨X, h1, h2⟩ := this _ a ha (Nat.le_refl _)
    exact ⟨X, h1, fun _ => h2⟩
  · exact ⟨[], fun a ha => absurd ⟨a, ha⟩ hne, fun h => absurd h hne⟩

/-- The text of a body is no longer than its bytes. -/
theorem bodyText_le_bodyBytes {P : Nat → Frame → Bytes → Prop} {fr : List (Frame × Bytes)} (h : AllFrames P fr)
    (hP : ∀ i f pt, P i f pt → pt.length ≤ (wireFrame f).length) : (bodyText fr).length ≤ (bodyBytes fr).length := by
  have key : ∀ x ∈ fr, x.2.length ≤ (wireFrame x.1).length := by
    intro x hx
    obtain ⟨i, hi, rfl⟩ := List.getElem_of_mem hx
    exact hP _ _ _ (h i hi)
  clear h
  induction fr with
  | nil => simp [bodyText]
  | cons a l ih =>
    have h1 := key a (by simp)
    have h2 := ih (fun x hx => key x (by simp [hx]))
    simp only [bodyText, bodyBytes, List.map_cons, List.flatten_cons, List.length_append] at h2 ⊢
    omega

theorem wireFrame_ge {f : Frame} : f.ciphertext.length ≤ (wireFrame f).length := by
  unfold wireFrame
  split <;> simp only [List.length_append] <;> omega

end Verif
