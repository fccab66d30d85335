import Verif.Proof.HeaderErrors
/-
Why a step of a decrypting session fails.
-/
namespace Verif
open Spec

/-! ### header -/

/-- The size computed for a header is its length, converted to `int`. -/
theorem hdrSize_wire {row : SuiteRow} {h : Hdr} (hok : HeaderOK row h) : hdrSize h = toInt32 (wireHeader row.version h).length := by
  obtain ⟨p, hp0⟩ := algProps_of_row hok.suite
  have hf := rowFacts hok.suite hp0
  have hp : algProps h.algId = some p := by rw [hok.id]; exact hp0
  obtain ⟨row', hrow', hid', e1, e2, e3, e4, e5, e6, e7, e8⟩ := suite_facts hp0
  have hcx := hok.ctxFits
  rw [wireLen_eq] at hcx
  change ctxLen h.encCtx ≤ 65535 at hcx
  have hsz := encCtxSize_ok.mpr ⟨rfl, hcx⟩
  have hlen : (wireHeader row.version h).length =
      (staticFieldsLen p.msgFormatVersion).toNat + (h.messageId.length + h.algSuiteData.length) + authtagLen p +
      ctxLen h.encCtx + (h.edks.map edkLen).sum := by
    have h1 := hok.iv
    have h2 := hok.tag
    have h6 : ∀ n, (u16 n).length = 2 := fun n => by simp [u16]
    have h7 : ∀ n, (u32 n).length = 4 := fun n => by simp [u32]
    have h8 : (wireContentType h.frameLen).length = 1 := by unfold wireContentType; split <;> rfl
    have h9 : ((h.edks.map wireEdk).flatten).length = (h.edks.map edkLen).sum := by
      have : ∀ es : List Edk, ((es.map wireEdk).flatten).length = (es.map edkLen).sum := by
        intro es
        induction es with
        | nil => rfl
        | cons e es ih => simp [wireEdk, edkLen, h6, ih]; omega
      exact this _
    have hcl := length_wireCtx h.encCtx
    change (wireCtx h.encCtx).length = _ at hcl
    have hv : p.msgFormatVersion = row.version := hf.version
    unfold wireHeader wireAuthPart
    rw [e6, hv]
    rcases hf.versions with hv1 | hv1
    · have : (staticFieldsLen 1).toNat = 18 := rfl
      have hrv : row'.version = 1 := by rw [← e1, hv, hv1]
      simp only [hv1, if_true] at h1 ⊢
      simp only [hrv, if_true, List.length_append, h6, h7, h8, h9, hcl, h1, h2, this, List.length_cons, List.length_nil]
      omega
    · have : (staticFieldsLen 2).toNat = 12 := rfl
      have hrv : row'.version = 2 := by rw [← e1, hv, hv1]
      have h21 : ¬ (2 = 1) := by decide
      simp only [hv1, h21, if_false] at h1 ⊢
      simp only [hrv, h21, if_false, List.length_append, h6, h7, h8, h9, hcl, h2, this, List.length_cons, List.length_nil]
      omega
  have hst : staticFieldsLen p.msgFormatVersion ≠ -1 := by
    rw [hf.version]; rcases hf.versions with hv | hv <;> rw [hv] <;> decide
  have hbig : (wireHeader row.version h).length < 2 ^ 63 := by
    have hb := edks_bound h.edks hok.edksFit
    have hc := hok.edksCount
    have hcl := length_wireCtx h.encCtx
    change (wireCtx h.encCtx).length = _ at hcl
    have h1 := hok.messageId
    have h2 := hok.suiteData
    have h3 := hok.iv
    have h4 := hok.tag
    have h5 : row.commitment ≤ 32 := by
      have : ∀ r ∈ suiteTable, r.commitment ≤ 32 := by decide
      exact this row hok.suite
    have h6 : ∀ n, (u16 n).length = 2 := fun n => by simp [u16]
    have h7 : ∀ n, (u32 n).length = 4 := fun n => by simp [u32]
    have h8 : (wireContentType h.frameLen).length = 1 := by unfold wireContentType; split <;> rfl
    unfold wireHeader wireAuthPart
    by_cases hv : row.version = 1
    · simp only [hv, if_true] at h1 h3 ⊢
      simp only [List.length_append, h6, h7, h8, h1, h2, h3, h4, hcl, List.length_cons, List.length_nil]
      omega
    · simp only [hv, if_false] at h1 h3 ⊢
      simp only [List.length_append, h6, h7, h8, h1, h2, h4, hcl, List.length_cons, List.length_nil]
      omega
  unfold hdrSize
  rw [hp]
  simp only [hst, if_false, hsz]
  rw [hlen] at hbig ⊢
  have hm : ∀ n, n < 2 ^ 63 → u64 n = n := by
    intro n hn; unfold u64; exact Nat.mod_eq_of_lt (by omega)
  rw [hm ((staticFieldsLen p.msgFormatVersion).toNat + (h.messageId.length + h.algSuiteData.length) + authtagLen p)
    (by omega), hm _ (by omega)]
  rw [hdrSizeEdks_exact _ _ (by omega), if_neg (by omega)]

theorem intToSize_toInt32 (n : Nat) : intToSize (toInt32 n) = 0 ↔ n % 2 ^ 32 = 0 := by
  unfold intToSize toInt32
  split <;> omega

theorem verifyHeader_eq (c : Crypto) {a : Nat} {p : AlgProps} (hp : algProps a = some p) (k iv tag hd : Bytes) (htag : tag.length = 16)
    (hiv : iv.length = if p.msgFormatVersion = 1 then 12 else 0) {e : Err} (h : verifyHeader c p k (iv ++ tag) hd = .error e) :
    c.aeadOpen k (if p.msgFormatVersion = 1 then iv else List.replicate 12 0) hd [] tag = .error e := by
  have f := suiteFacts hp
  unfold verifyHeader at h
  rcases f.version with hv | hv
  · simp only [hv, if_true] at hiv h ⊢
    rw [if_neg (by simp [f.iv, f.tag, hiv, htag]), f.iv, List.take_left' hiv, List.drop_left' hiv] at h
    split at h
    · rename_i e' he; cases h; exact he
    · cases h
  · have h1 : ¬ p.msgFormatVersion = 1 := by omega
    rw [if_neg h1] at hiv
    have : iv = [] := List.eq_nil_of_length_eq_zero hiv
    subst this
    rw [if_neg h1, if_pos hv, List.nil_append, if_neg (by simp [f.tag, htag])] at h
    rw [if_neg h1]
    split at h
    · rename_i e' he; cases h; exact he
    · cases h

/-- Key derivation for a header fails only if HKDF does. -/
theorem deriveKey_raised {hk : HkdfFn} {row : SuiteRow} (hr : row ∈ suiteTable) {p : AlgProps} (hp : algProps row.id = some p)
    {dk mid : Bytes} (hmid : mid.length = if row.version = 1 then 16 else 32) {e : Err} :
    deriveKey hk p dk mid p.commitmentLen ≠ .code e := by
  have hf := rowFacts hr hp
  have f := suiteFacts hp
  intro h
  unfold deriveKey at h
  rcases hf.versions with hv | hv
  · rw [if_pos (by rw [hf.version]; exact hv), if_neg (by rw [hf.commit]; simpa using hf.commit2.mpr hv)] at h
    unfold deriveKeyV1 at h
    rw [if_pos hv] at hmid
    rw [if_neg (by simpa using hmid)] at h
    split at h
    · cases h
    · split at h <;> cases h
  · have hv1 : ¬ row.version = 1 := by omega
    rw [if_neg (by rw [hf.version]; exact hv1), if_pos (by rw [hf.version]; exact hv)] at h
    have hn : whichSha row.id ≠ .nosha := f.sha (by rw [hf.version]; exact hv)
    rw [if_neg hv1] at hmid
    unfold deriveKeyV2 at h
    rw [if_neg (by omega), if_neg (by simpa using hmid), f.id, if_neg hn] at h
    split at h
    · cases h
    · split at h <;> cases h

theorem sigUpdate_error {c : Crypto} {ctx : SigCtx} {x : Bytes} {e : Err} (h : c.sigUpdate ctx x = .error e) : c.sigFail ctx x = some e := by
  unfold Crypto.sigUpdate at h
  split at h
  · rename_i e' he; cases h; exact he
  · cases h

theorem allowed_of_may_row {row : SuiteRow} {p : AlgProps} {pol : Policy} (hr : row ∈ suiteTable) (hp : algProps row.id = some p)
    (h : MayDecrypt pol row) : allowedForDecrypt row.id pol = true := by
  have hf := rowFacts hr hp
  cases pol <;> simp_all [allowedForDecrypt, MayDecrypt] <;> exact hf.committing.mpr h

/-- Why the header step fails. -/
theorem tryParseHeader_err {env : Env} {s : Session} (hst : s.state = .readHeader) (hm : s.mode.isDecrypt = true)
    {mem inp : Bytes} {c : Err} (hres : (tryParseHeader env s ⟨mem, 0⟩ inp).res = .err c) :
    HeaderMalformed s.maxEdks inp c ∨
    (∃ row h rest, HeaderOK row h ∧ (s.maxEdks = 0 ∨ h.edks.length ≤ s.maxEdks) ∧ inp = wireHeader row.version h ++ rest ∧
      HeaderRejected env s.policy s.mode row h c) ∨ OutsideFails env c := by
  unfold tryParseHeader hdrParseInto at hres
  cases hps : hdrParse s.maxEdks inp with
  | error e =>
    rw [hps] at hres
    simp only at hres
    by_cases he : e = .shortBuffer
    · rw [if_pos he] at hres; cases hres
    · rw [if_neg he] at hres
      cases hres
      exact Or.inl (hdrParse_malformed hps he)
  | ok x =>
    obtain ⟨h, rest⟩ := x
    rw [hps] at hres
    obtain ⟨row, hok, hlim, hal, hinp⟩ := hdrParse_iff.mp hps
    right
    suffices HeaderRejected env s.policy s.mode row h c ∨ OutsideFails env c from
      this.imp (fun h' => ⟨row, h, rest, hok, hlim, hinp, h'⟩) id
    obtain ⟨p, hp0⟩ := algProps_of_row hok.suite
    have hrf := rowFacts hok.suite hp0
    have hv := (row_props hok.suite hp0).1
    have hp := hp0
    rw [← hok.id] at hp
    have f := suiteFacts hp
    simp only at hres
    unfold parsedHeader at hres
    simp only at hres
    have hsz := hdrSize_wire hok
    have hcons : inp.length - rest.length = (wireHeader row.version h).length := by rw [hinp]; simp
    rw [hcons] at hres
    have hiff := size_iff_small hok
    by_cases hlong : 2 ^ 31 ≤ (wireHeader row.version h).length
    · left
      have hne : intToSize (hdrSize h) ≠ (wireHeader row.version h).length := fun h' => by have := hiff.mp h'; omega
      by_cases h0 : intToSize (hdrSize h) = 0
      · rw [if_pos h0] at hres
        have := HeaderRejected.tooLong (e := env) (pol := s.policy) (mode := s.mode) (row := row) (h := h) hlong
        rw [hsz, intToSize_toInt32] at h0
        rw [if_pos h0] at this
        cases hres; exact this
      · rw [if_neg h0, if_pos hne] at hres
        have := HeaderRejected.tooLong (e := env) (pol := s.policy) (mode := s.mode) (row := row) (h := h) hlong
        rw [hsz, intToSize_toInt32] at h0
        rw [if_neg h0] at this
        cases hres; exact this
    have hsmall : (wireHeader row.version h).length < 2 ^ 31 := by omega
    have hz := hiff.mpr hsmall
    have hpos : 0 < (wireHeader row.version h).length := by
      unfold wireHeader
      have := hok.tag
      simp only [List.length_append]; omega
    rw [hz, if_neg (by omega), if_neg (by simp)] at hres
    cases ha : env.alloc .headerCopy with
    | false => rw [ha] at hres; cases hres; exact Or.inr (.headerCopy ha)
    | true =>
      rw [ha] at hres
      simp only [Bool.not_true, Bool.false_eq_true, if_false] at hres
      have hcs : ∀ s1 : Session, s1.state = .readHeader → s1.mode.isDecrypt = true → s1.headerCopy.isSome = true → s1.headerSize ≠ 0 →
          changeState s1 .unwrapKey = some { s1 with state := .unwrapKey } := by
        intro s1 a1 a2 a3 a4
        simp [changeState, legalChange, a1, a2, a3, a4]
      have htk : inp.take (wireHeader row.version h).length = wireHeader row.version h := by rw [hinp, List.take_left]
      rw [hcs _ (by exact hst) (by exact hm) rfl (by show (wireHeader row.version h).length ≠ 0; omega), htk] at hres
      simp only at hres
      unfold unwrapKeys at hres
      simp only [hp] at hres
      cases ha2 : env.alloc .edkList with
      | false => rw [ha2] at hres; cases hres; exact Or.inr (.edkList ha2)
      | true =>
        rw [ha2] at hres
        simp only [Bool.not_true, Bool.false_eq_true, if_false, f.id] at hres
        cases hcm : env.cmm.decrypt { encCtx := h.encCtx, edks := h.edks, alg := h.algId } with
        | error e => rw [hcm] at hres; cases hres; exact Or.inl (.cmm hsmall hcm)
        | ok m =>
          rw [hcm] at hres
          simp only at hres
          unfold unwrapWith at hres
          simp only at hres
          cases hmp : algProps m.alg with
          | none =>
            rw [hmp] at hres
            cases hres
            refine Or.inl (.suite hsmall hcm ?_)
            intro r hr hid
            obtain ⟨q, hq⟩ := algProps_of_row hr
            rw [hid, hmp] at hq; cases hq
          | some mp =>
            rw [hmp] at hres
            simp only at hres
            obtain ⟨r, hr, hrid, hrs⟩ := row_of_props hmp
            by_cases hu : s.mode = .decryptUnsigned ∧ mp.signatureLen ≠ 0
            · rw [if_pos hu] at hres
              cases hres
              exact Or.inl (.signed hsmall hcm hr hrid hu.1 (fun h0 => hu.2 (hrs.mpr h0)))
            rw [if_neg hu] at hres
            have hmat : MaterialsOK env s.mode row h m :=
              ⟨hsmall, hcm, r, hr, hrid, fun hmd => hrs.mp (Decidable.byContradiction fun hne => hu ⟨hmd, hne⟩)⟩
            unfold unwrapValidate deriveDataKey at hres
            simp only at hres
            by_cases hdk : m.dataKey.length ≠ p.dataKeyLen
            · rw [if_pos hdk] at hres
              cases hres
              exact Or.inl (.dataKey hmat (by rw [← hrf.dataKey]; exact hdk))
            rw [if_neg hdk] at hres
            have hdk' : m.dataKey.length = p.dataKeyLen := Decidable.not_not.mp hdk
            have hdk2 : m.dataKey.length = row.keyBits / 8 := by rw [← hrf.dataKey]; exact hdk'
            cases hall : allowedForDecrypt p.algId s.policy with
            | false =>
              rw [hall] at hres
              cases hres
              refine Or.inl (.policy hmat hdk2 fun hmay => ?_)
              have := allowed_of_may_row hok.suite hp0 hmay
              rw [f.id, hok.id, this] at hall; cases hall
            | true =>
              rw [hall] at hres
              simp only [Bool.not_true, Bool.false_eq_true, if_false] at hres
              have hmay : MayDecrypt s.policy row := mayDecrypt_of hok.suite hp0 (by rw [← hok.id, ← f.id]; exact hall)
              cases hd : deriveKey env.crypto.hkdf p m.dataKey h.messageId p.commitmentLen with
              | raised e =>
                rw [hd] at hres
                cases hres
                refine Or.inl (.kdf hmat hdk2 hmay ?_)
                rintro ⟨k, c, hk⟩
                have := deriveKey_of hok.suite hp0 hdk' hok.messageId hk
                rw [hd] at this; cases this
              | code e => exact absurd hd (deriveKey_raised hok.suite hp0 hok.messageId)
              | ok k c' =>
                have hder := derivedKey hok.suite hp0 hdk' hd
                rw [hd] at hres
                simp only at hres
                cases hce : commitmentEq c' h.algSuiteData with
                | false =>
                  rw [hce] at hres
                  cases hres
                  refine Or.inl (.commitment hmat hdk2 hmay hder ?_)
                  intro heq
                  have hl : c'.length = 0 ∨ c'.length = 32 := by
                    rw [heq, hok.suiteData]
                    have : ∀ r ∈ suiteTable, r.commitment = 0 ∨ r.commitment = 32 := by decide
                    exact this row hok.suite
                  rw [(commitmentEq_iff _ _).mpr ⟨heq, hl⟩] at hce; cases hce
                | true =>
                  obtain ⟨hceq, -⟩ := (commitmentEq_iff _ _).mp hce
                  subst hceq
                  rw [hce] at hres
                  simp only [Bool.not_true, Bool.false_eq_true, if_false] at hres
                  have hwl : (wireHeader row.version h).length = h.authLen + authtagLen p := by
                    unfold wireHeader
                    have e1 := hok.iv
                    have e2 := hok.tag
                    rw [List.length_append, List.length_append, ← hal, f.authtag, hv, e2]
                    split <;> rename_i hh <;> simp only [hh, if_true, if_false] at e1 <;> simp [e1] <;> omega
                  have hdrop : ((wireHeader row.version h).drop h.authLen).take (authtagLen p) =
                      (if row.version = 1 then h.iv else []) ++ h.authTag := by
                    rw [hal]
                    unfold wireHeader
                    rw [List.append_assoc, List.drop_left, List.take_of_length_le]
                    rw [f.authtag, hv, List.length_append, hok.tag]
                    have e1 := hok.iv
                    split <;> rename_i hh <;> simp only [hh, if_true, if_false] at e1 <;> simp [e1]
                  have htake : (wireHeader row.version h).take h.authLen = wireAuthPart row.version h := by
                    rw [hal]
                    unfold wireHeader
                    rw [List.append_assoc, List.take_left]
                  have hivl : (if row.version = 1 then h.iv else []).length = if p.msgFormatVersion = 1 then 12 else 0 := by
                    rw [hv]
                    have e1 := hok.iv
                    split <;> rename_i hh <;> simp only [hh, if_true, if_false] at e1 <;> simp [e1]
                  have hver := verifyHeader_iff env.crypto hp k (if row.version = 1 then h.iv else []) h.authTag
                    (wireAuthPart row.version h) hok.tag hivl
                  have hif : (if p.msgFormatVersion = 1 then (if row.version = 1 then h.iv else []) else List.replicate 12 0) =
                      (if row.version = 1 then h.iv else List.replicate 12 0 : Bytes) := by
                    rw [hv]; split <;> rfl
                  rw [hif] at hver
                  unfold validateHeader at hres
                  simp only at hres
                  have hsub : u64sub (wireHeader row.version h).length h.authLen = authtagLen p := by
                    rw [hwl]
                    rw [hwl] at hsmall
                    unfold u64sub
                    rw [Nat.mod_eq_of_lt (a := h.authLen) (by omega)]
                    omega
                  rw [hz, if_neg (by simp), if_neg (by omega), if_neg (by simpa using hsub)] at hres
                  simp only [hdrop, htake] at hres
                  cases hvh : verifyHeader env.crypto p k ((if row.version = 1 then h.iv else []) ++ h.authTag) (wireAuthPart row.version h) with
                  | error e =>
                    rw [hvh] at hres
                    cases hres
                    have := verifyHeader_eq env.crypto hp k _ h.authTag _ hok.tag hivl hvh
                    rw [hif] at this
                    exact Or.inl (.tag hmat hdk2 hmay hder this)
                  | ok u =>
                    rw [hvh] at hres
                    simp only at hres
                    have hauth := hver.mp hvh
                    have hverd : HeaderVerified env row h m k := ⟨hok, hcm, hder, hauth⟩
                    unfold unwrapSig at hres
                    by_cases hsl : p.signatureLen ≠ 0
                    · rw [if_pos hsl] at hres
                      cases hsc : m.signctx with
                      | none =>
                        rw [hsc] at hres
                        cases hres
                        exact Or.inl (.noKey hmat hdk2 hmay hverd (fun h0 => hsl (hrf.sig.mpr h0)) hsc)
                      | some ctx =>
                        rw [hsc] at hres
                        simp only [Option.getD_some] at hres
                        cases hsu : env.crypto.sigUpdate ctx (wireHeader row.version h) with
                        | error e =>
                          rw [hsu] at hres
                          cases hres
                          exact Or.inr (.digest (sigUpdate_error hsu))
                        | ok ctx' =>
                          rw [hsu] at hres
                          simp only at hres
                          rw [unwrapEnd_eq rfl rfl] at hres
                          cases hres
                    · rw [if_neg hsl, unwrapEnd_eq rfl rfl] at hres
                      cases hres

/-! ### body -/

theorem sigFeed_error {c : Crypto} {o : Option SigCtx} {x : Bytes} {e : Err} (h : sigFeed c o x = .error e) : ∃ ctx, c.sigFail ctx x = some e := by
  unfold sigFeed at h
  split at h
  · cases h
  · rename_i ctx
    split at h
    · rename_i e' he
      cases h
      exact ⟨ctx, sigUpdate_error he⟩
    · cases h

/-- Why a body step fails. -/
theorem tryDecryptBody_err {env : Env} {s : Session} {a : Nat} {p : AlgProps} (hp : algProps a = some p) (hsp : s.algProps = some p)
    (hst : s.state = .decryptBody) (hfs : s.frameSize < 2 ^ 32) {mem inp : Bytes} {c : Err}
    (hres : (tryDecryptBody env s ⟨mem, 0⟩ inp).res = .err c) :
    FrameRejected env s.contentKey s.header.messageId s.frameSize s.seqno inp c ∨ OutsideFails env c := by
  have hpar := deserializeFrame_eq_parser hp hfs inp
  have hpl := fun f => deserializeFrame_plaintextSize hp hfs (bs := inp) (f := f)
  obtain ⟨er, mo, st, po, hc, ps, sb, ds, pk, hco, hsz, hd, fs, tr, ie, oe, sq, ap, ck, sgc, cs, me, no⟩ := s
  simp only at hsp hst hfs hpar hpl
  subst hsp hst
  unfold tryDecryptBody at hres
  simp only at hres ⊢
  generalize hdz : deserializeFrame p fs inp = d at *
  obtain ⟨res, cz, pz, rest⟩ := d
  simp only [DeserResult.toParse] at hpar hpl hres
  cases res with
  | error e =>
    simp only at hpar hres
    by_cases he : e = .shortBuffer
    · rw [if_pos he] at hres; cases hres
    · rw [if_neg he] at hres
      cases hres
      obtain ⟨rfl, h2⟩ := frameParser_noFrame hfs hpar.symm he
      exact Or.inl (.bytes h2)
  | ok f =>
    simp only at hpar hres
    have hpz := hpl f rfl
    subst hpz
    obtain ⟨hok, hinp⟩ := (frameParser_iff hfs).mp hpar.symm
    by_cases hsq : sq ≠ f.seqno
    · rw [if_pos hsq] at hres
      cases hres
      exact Or.inl (.number hok hinp (fun h => hsq h.symm))
    rw [if_neg hsq] at hres
    have hsq' : f.seqno = sq := (Decidable.not_not.mp hsq).symm
    by_cases hroom : mem.length - 0 < f.ciphertext.length
    · rw [if_pos hroom] at hres; cases hres
    rw [if_neg hroom] at hres
    unfold decryptFrame decryptBody at hres
    simp only at hres
    rw [if_neg (by simp)] at hres
    have hl : f.ciphertext.length < 2 ^ 64 := by
      have := hok.shape
      revert this
      cases f.type <;> simp only <;> omega
    have haad : frameAad hd.messageId f.type f.seqno f.ciphertext.length = bodyAad hd.messageId f.type sq f.ciphertext.length := by
      rw [frameAad_eq_bodyAad hok.seqno hl, hsq']
    cases ho : env.crypto.aeadOpen ck f.iv (frameAad hd.messageId f.type f.seqno f.ciphertext.length) f.ciphertext f.authtag with
    | error e =>
      rw [ho] at hres
      cases hres
      rw [haad] at ho
      exact Or.inl (.tag hok hinp hsq' ho)
    | ok pt =>
      rw [ho] at hres
      simp only at hres
      cases hf : sigFeed env.crypto sgc (inp.take (inp.length - rest.length)) with
      | error e =>
        rw [hf] at hres
        cases hres
        obtain ⟨ctx, h⟩ := sigFeed_error hf
        exact Or.inr (.digest h)
      | ok sg =>
        rw [hf] at hres
        simp only at hres
        split at hres
        · unfold enter at hres
          split at hres <;> cases hres
        · cases hres

/-! ### trailer -/

theorem checkTrailer_err {env : Env} {s : Session} {mem inp : Bytes} {c : Err}
    (hres : (checkTrailer env s ⟨mem, 0⟩ inp).res = .err c) :
    (∃ ctx sig rest, s.signctx = some ctx ∧ inp = wireTrailer sig ++ rest ∧ sig.length < 65536 ∧ env.crypto.verify ctx sig = .error c) ∨
    OutsideFails env c := by
  unfold checkTrailer at hres
  simp only at hres
  cases hs : s.signctx with
  | none =>
    rw [hs] at hres
    simp only at hres
    unfold enter at hres
    split at hres <;> cases hres
  | some ctx =>
    rw [hs] at hres
    simp only at hres
    cases hr : readTrailer inp with
    | error n => rw [hr] at hres; cases hres
    | ok x =>
      obtain ⟨sig, rest⟩ := x
      obtain ⟨hinp, hsl⟩ := readTrailer_ok hr
      rw [hr] at hres
      simp only at hres
      cases ha : env.alloc .sigString with
      | false => rw [ha] at hres; cases hres; exact Or.inr (.sigString ha)
      | true =>
        rw [ha] at hres
        simp only [Bool.not_true, Bool.false_eq_true, if_false] at hres
        cases hv : env.crypto.verify ctx sig with
        | ok u => rw [hv] at hres; cases hres
        | error e =>
          rw [hv] at hres
          cases hres
          exact Or.inl ⟨ctx, sig, rest, rfl, by rw [hinp, wireTrailer, u16_eq_be], hsl, hv⟩

end Verif
