import Verif.Spec.SessionWrites
import Verif.Proof.SessionProgress
import Verif.Proof.SessionAsked
/-
An encrypting session in an environment in which nothing fails.
-/
namespace Verif
open Spec

theorem wireLen_ctxLen (m : EncCtx) : wireLen m = ctxLen m := wireLen_eq m

/-- The bytes of the header have the length of the format. -/
theorem length_hdrBytes {row : SuiteRow} (hr : row ∈ suiteTable) {p : AlgProps} (hp : algProps row.id = some p) {h : Hdr}
    (hmid : h.messageId.length = if row.version = 1 then 16 else 32) (hsd : h.algSuiteData.length = row.commitment)
    (hiv : h.iv.length = 12) (htag : h.authTag.length = 16) :
    (hdrBytes p.msgFormatVersion h).length = headerLen row h.encCtx h.edks := by
  have f := rowFacts hr hp
  unfold hdrBytes hdrBytesPre hdrBytesPost headerLen headerBytes
  rw [show edkWire = fun e => 6 + e.providerId.length + e.providerInfo.length + e.ciphertext.length from rfl]
  have e : (h.edks.map fun e => 6 + e.providerId.length + e.providerInfo.length + e.ciphertext.length).sum = (h.edks.map edkLen).sum := rfl
  rw [f.version, e, wireLen_ctxLen]
  rcases f.versions with hv | hv
  · simp only [hv, if_true] at hmid ⊢
    simp only [List.length_append, length_be, length_flatten_edkBytes, length_ctxBytes, hiv, htag, hmid, hsd, List.length_cons, List.length_nil]
    omega
  · have h21 : ¬ (2 = 1) := by decide
    simp only [hv, h21, if_false] at hmid ⊢
    simp only [List.length_append, length_be, length_flatten_edkBytes, length_ctxBytes, htag, hmid, hsd, List.length_nil]
    omega

theorem sigFeed_works {c : Crypto} (h : ∀ ctx x, c.sigFail ctx x = none) (o : Option SigCtx) (x : Bytes) : sigFeed c o x = .ok (absorbed o x) := by
  cases o with
  | none => rfl
  | some ctx => simp [sigFeed, Crypto.sigUpdate, h, absorbed]

theorem signHeaderStep_works (env : Env) (s : Session) {row : SuiteRow} (hr : row ∈ suiteTable) {p : AlgProps} (hp : algProps row.id = some p)
    (hid : s.header.algId = row.id) (hmid : s.header.messageId.length = if row.version = 1 then 16 else 32)
    (hsd : s.header.algSuiteData.length = row.commitment) (hiv : s.header.iv.length = 12) (htag : s.header.authTag.length = 16)
    (hst : s.state = .genKey) (hm : s.mode = .encrypt) (hctx : wireLen s.header.encCtx ≤ 65535)
    (hfit : headerLen row s.header.encCtx s.header.edks < 2 ^ 31) (halloc : env.alloc .headerCopy = true)
    (hseal : ∀ aad pt, ∃ ct tag, env.crypto.aeadSeal s.contentKey (List.replicate 12 0) aad pt = some (ct, tag))
    (hdig : ∀ ctx x, env.crypto.sigFail ctx x = none) : (signHeaderStep env s p).2 = .ok := by
  have f := suiteFacts hp
  have hlen : ∀ iv tag : Bytes, iv.length = 12 → tag.length = 16 →
      (hdrBytes p.msgFormatVersion { s.header with iv := iv, authTag := tag }).length = headerLen row s.header.encCtx s.header.edks := by
    intro iv tag h1 h2
    exact length_hdrBytes hr hp (h := { s.header with iv := iv, authTag := tag }) hmid hsd h1 h2
  have hsize : hdrSize s.header = (headerLen row s.header.encCtx s.header.edks : Int) := by
    have h1 := length_hdrBytes hr hp hmid hsd hiv htag
    rw [← h1]
    exact hdrSize_eq (by rw [hid]; exact hp) (by rw [← wireLen_ctxLen]; exact hctx) (fun _ => hiv) htag (by rw [h1]; exact hfit)
  have hts : intToSize (hdrSize s.header) = headerLen row s.header.encCtx s.header.edks := by
    rw [hsize]; unfold intToSize; omega
  have hpos : headerLen row s.header.encCtx s.header.edks ≠ 0 := by unfold headerLen headerBytes; omega
  have hw : ∀ iv tag : Bytes, iv.length = 12 → tag.length = 16 → ∀ mem : Bytes, mem.length = headerLen row s.header.encCtx s.header.edks →
      hdrWrite { s.header with iv := iv, authTag := tag } mem =
      (hdrBytes p.msgFormatVersion { s.header with iv := iv, authTag := tag }, headerLen row s.header.encCtx s.header.edks, .ok ()) := by
    intro iv tag h1 h2 mem hmem
    refine hdrWrite_ok.mpr ⟨p, by rw [hid]; exact hp, by rw [← wireLen_ctxLen]; exact hctx, (hlen iv tag h1 h2).symm, by omega, ?_⟩
    rw [List.drop_of_length_le (by omega), List.append_nil]
  unfold signHeaderStep
  simp only [hts]
  rw [if_neg hpos, halloc]
  simp only [Bool.not_true, Bool.false_eq_true, if_false]
  rw [hw _ _ (by simp [hiv]) (by simp [htag]) _ (by simp)]
  simp only [ne_eq, not_true, if_false]
  unfold signHeaderTag
  simp only
  rcases signHeader_cases env.crypto hp s.contentKey ((hdrBytes p.msgFormatVersion { s.header with iv := List.replicate s.header.iv.length 0x42, authTag := List.replicate s.header.authTag.length 0xDE }).take
      (headerLen row s.header.encCtx s.header.edks - authtagLen p)) with ⟨h1, h2⟩ | ⟨ct, tag, h1, h2, h3⟩
  · obtain ⟨ct, tag, h⟩ := hseal ((hdrBytes p.msgFormatVersion { s.header with iv := List.replicate s.header.iv.length 0x42, authTag := List.replicate s.header.authTag.length 0xDE }).take
      (headerLen row s.header.encCtx s.header.edks - authtagLen p)) []
    rw [h2] at h; cases h
  · rw [h3]
    simp only
    have hh : ∃ iv tg : Bytes, iv.length = 12 ∧ tg.length = 16 ∧ (if p.msgFormatVersion = 1 then
          { s.header with
            iv := List.take (List.replicate s.header.iv.length (0x42 : UInt8)).length ((if p.msgFormatVersion = 1 then List.replicate 12 0 else []) ++ tag),
            authTag := List.take (List.replicate s.header.authTag.length (0xDE : UInt8)).length (List.drop (List.replicate s.header.iv.length (0x42 : UInt8)).length
              ((if p.msgFormatVersion = 1 then List.replicate 12 0 else []) ++ tag)) }
        else { s.header with
          iv := List.replicate s.header.iv.length 66,
          authTag := List.take (List.replicate s.header.authTag.length (0xDE : UInt8)).length ((if p.msgFormatVersion = 1 then List.replicate 12 0 else []) ++ tag) }) =
        { s.header with iv := iv, authTag := tg } := by
      rcases f.version with hv | hv
      · exact ⟨List.replicate 12 0, tag, by simp, h2, by
          simp only [hv, if_true, hiv, htag, List.length_replicate]
          rw [List.take_left' (by simp), List.drop_left' (by simp), List.take_of_length_le (by omega)]⟩
      · have : ¬ p.msgFormatVersion = 1 := by omega
        exact ⟨List.replicate 12 66, tag, by simp, h2, by
          simp only [this, if_false, hiv, htag, List.nil_append, List.length_replicate]
          rw [List.take_of_length_le (by omega)]⟩
    obtain ⟨iv, tg, h4, h5, h6⟩ := hh
    simp only [h6]
    rw [hw iv tg h4 h5 _ (hlen _ _ (by simp [hiv]) (by simp [htag]))]
    simp only [ne_eq, not_true, if_false]
    rw [signHeaderEnd_eq _ _ _ (by exact hst) (by exact hm) (by exact hpos)]
    simp only
    rw [sigFeed_works hdig]

theorem hkdf_len_ok {row : SuiteRow} (hr : row ∈ suiteTable) (h : row.kdfBits ≠ 0) :
    row.keyBits / 8 ≤ 255 * hashLen (whichSha row.id) ∧ row.commitment ≤ 255 * hashLen (whichSha row.id) ∧ whichSha row.id ≠ .nosha := by
  revert h; revert row; decide

theorem key_aes {row : SuiteRow} (hr : row ∈ suiteTable) : row.keyBits / 8 = 16 ∨ row.keyBits / 8 = 24 ∨ row.keyBits / 8 = 32 := by
  revert row; decide

theorem row_sig {row : SuiteRow} (hr : row ∈ suiteTable) {p : AlgProps} (hp : algProps row.id = some p) : p.signatureLen = sigBytes row := by
  have key : ∀ r ∈ suiteTable, ∀ p, algProps r.id = some p → p.signatureLen = sigBytes r := by
    intro r hr p hp
    simp only [suiteTable, List.mem_cons, List.not_mem_nil, or_false] at hr
    rcases hr with rfl | rfl | rfl | rfl | rfl | rfl | rfl | rfl | rfl | rfl | rfl <;>
      (simp only [algProps, Option.some.injEq] at hp; subst hp; decide)
  exact key row hr p hp

theorem deriveKey_works {hk : HkdfFn} {row : SuiteRow} (hr : row ∈ suiteTable) {p : AlgProps} (hp : algProps row.id = some p) {dk mid : Bytes}
    (hh : ∀ sha salt ikm info n, sha ≠ .nosha → 0 < n → n ≤ 255 * hashLen sha → ∃ k, hk sha salt ikm info n = .ok k)
    (hlen : ∀ sha salt ikm info n k, hk sha salt ikm info n = .ok k → k.length = n)
    (hd : dk.length = row.keyBits / 8) (hmid : mid.length = if row.version = 1 then 16 else 32) :
    ∃ k c, deriveKey hk p dk mid row.commitment = .ok k c ∧ k.length = row.keyBits / 8 ∧ c.length = row.commitment := by
  have hf := rowFacts hr hp
  have f := suiteFacts hp
  have htake : dk.take p.dataKeyLen = dk := by rw [hf.dataKey, ← hd, List.take_length]
  unfold deriveKey
  rcases hf.versions with hv | hv
  · rw [if_pos (by rw [hf.version]; exact hv)]
    have hc0 := hf.commit2.mpr hv
    rw [if_neg (by simpa using hc0)]
    unfold deriveKeyV1
    rw [if_pos hv] at hmid
    rw [if_neg (by simpa using hmid), f.id, htake]
    by_cases h0 : row.kdfBits = 0
    · rw [if_pos (hf.nosha.mpr h0)]
      exact ⟨dk, [], rfl, hd, hc0.symm⟩
    · rw [if_neg (fun hn => h0 (hf.nosha.mp hn)), hf.key]
      obtain ⟨b1, b2, b3⟩ := hkdf_len_ok hr h0
      obtain ⟨k, hk'⟩ := hh (whichSha row.id) [] dk (kdfInfoV1 row.id mid) (row.keyBits / 8) b3 (by have := key_aes hr; omega) b1
      rw [hk']
      exact ⟨k, [], rfl, hlen _ _ _ _ _ _ hk', hc0.symm⟩
  · have hv1 : ¬ row.version = 1 := by omega
    rw [if_neg (by rw [hf.version]; exact hv1), if_pos (by rw [hf.version]; exact hv)]
    have hn : whichSha row.id ≠ .nosha := f.sha (by rw [hf.version]; exact hv)
    rw [if_neg hv1] at hmid
    obtain ⟨b1, b2, b3⟩ := hkdf_len_ok hr (fun h => hn (hf.nosha.mpr h))
    unfold deriveKeyV2
    rw [if_neg (by rw [hf.commit]; omega), if_neg (by simpa using hmid), f.id, if_neg hn, htake, hf.commit, hf.key]
    obtain ⟨c, hc⟩ := hh (whichSha row.id) mid dk commitInfo row.commitment b3 (by have := hf.commit2; omega) b2
    obtain ⟨k, hk'⟩ := hh (whichSha row.id) mid dk (kdfInfoV2 row.id) (row.keyBits / 8) b3 (by have := key_aes hr; omega) b1
    rw [hc]
    simp only
    rw [hk']
    exact ⟨k, c, rfl, hlen _ _ _ _ _ _ hk', hlen _ _ _ _ _ _ hc⟩

theorem allowed_of_may {row : SuiteRow} (hr : row ∈ suiteTable) {pol : Policy} (h : MayEncrypt pol row) : allowedForEncrypt row.id pol = true := by
  cases pol <;> simp only [MayEncrypt] at h <;> (revert h; revert row; decide)

theorem mustCommit_of_may {row : SuiteRow} (hr : row ∈ suiteTable) {pol : Policy} (h : MayEncrypt pol row) (p : AlgProps) (hp : algProps row.id = some p) :
    (if pol.encryptMustIncludeCommitment then p.commitmentLen else 0) = row.commitment := by
  have f := rowFacts hr hp
  cases pol <;> simp only [MayEncrypt] at h <;> simp [Policy.encryptMustIncludeCommitment, f.commit, h]

theorem tryGenKey_works (env : Env) (s : Session) {row : SuiteRow} {ctx : EncCtx} {m : EncMaterials} (hW : ∃ E, Works E ∧ E env)
    (hst : s.state = .genKey) (hm : s.mode = .encrypt) (hsd : s.header.algSuiteData = []) (hfs : s.frameSize < 2 ^ 32)
    (hg : env.cmm.generate (encRequest s) = (ctx, .ok m)) (hu : Usable s.policy s.maxEdks row ctx m) : (tryGenKey env s).2 = .ok := by
  obtain ⟨E, hW, he⟩ := hW
  obtain ⟨p, hp⟩ := algProps_of_row hu.suite
  have hf := rowFacts hu.suite hp
  have f := suiteFacts hp
  unfold tryGenKey
  simp only
  rw [show (⟨s.header.encCtx, 0, if s.preciseKnown then s.preciseSize else s.sizeBound, s.policy⟩ : EncRequest) =
    encRequest s from rfl, hg]
  simp only
  unfold genKeyWith
  simp only [hu.alg, hp]
  have hc : genKeyCheck { s with header := { s.header with encCtx := ctx }, algProps := some p } p m = none := by
    unfold genKeyCheck
    rw [if_neg (by rw [hu.dataKey, hf.dataKey]; simp), if_neg (by rw [List.length_eq_zero_iff]; exact hu.edks),
      if_neg (by simp only; have := hu.limit; omega), if_neg (by simp only [ne_eq, hf.sig, hu.signs, Classical.not_not]), if_neg]
    simp only [hu.alg, allowed_of_may hu.suite hu.admitted]
    simp
  rw [hc]
  simp only
  unfold genKeyMessageId
  rw [hW.alloc env he]
  simp only [Bool.not_true, Bool.false_eq_true, if_false]
  obtain ⟨mid, hmid⟩ := hW.random env he (messageIdLen p)
  rw [hmid]
  have hml : mid.length = if row.version = 1 then 16 else 32 := by
    rw [env.crypto.random_len _ _ hmid, f.midLen, hf.version]
  simp only
  unfold genKeyDerive
  simp only [hsd, List.length_nil, mustCommit_of_may hu.suite hu.admitted p hp]
  obtain ⟨k, c, hd, hk, hcl⟩ := deriveKey_works hu.suite hp (hW.hkdf env he) env.crypto.hkdf_len hu.dataKey hml
  rw [hd]
  simp only
  unfold buildHeader
  simp only
  rw [if_neg (by omega), hW.alloc env he]
  simp only [Bool.not_true, Bool.false_eq_true, if_false]
  rw [hW.alloc env he]
  simp only [Bool.not_true, Bool.false_eq_true, if_false]
  refine signHeaderStep_works env _ hu.suite hp ?_ ?_ ?_ ?_ ?_ ?_ ?_ ?_ ?_ (hW.alloc env he _) ?_ (hW.digest env he)
  · simp only [f.id]
  · exact hml
  · simp only
    have := mustCommit_of_may hu.suite hu.admitted p hp
    split
    · exact hcl
    · rename_i hn; rw [if_neg hn] at this; simpa using this
  · simp [f.iv]
  · simp [f.tag]
  · exact hst
  · exact hm
  · exact hu.ctxFits
  · exact hu.fits
  · intro aad pt
    simp only
    exact hW.aead env he _ _ _ _ (by rw [hk]; exact key_aes hu.suite) (by simp)

theorem tryEncryptBody_works (env : Env) (s : Session) {a : Nat} {p : AlgProps} (hp : algProps a = some p)
    (hsp : s.algProps = some p) (hst : s.state = .encryptBody) (hq0 : s.seqno ≠ 0) (mem inp : Bytes) (inNull : Bool)
    (hlim : ∀ type n, nextFrame s = some (type, n) → s.seqno < 2 ^ 32 ∧ WriteOK type s.seqno n)
    (hseal : ∀ iv aad pt, iv.length = 12 → ∃ ct tag, env.crypto.aeadSeal s.contentKey iv aad pt = some (ct, tag))
    (hdig : ∀ ctx x, env.crypto.sigFail ctx x = none) : (tryEncryptBody env s ⟨mem, 0⟩ inp inNull).res = .ok := by
  have f := suiteFacts hp
  unfold tryEncryptBody
  cases hn : nextFrame s with
  | none => rfl
  | some x =>
    obtain ⟨type, n⟩ := x
    obtain ⟨hq, hw⟩ := hlim type n hn
    simp only
    rw [encryptBodyFrame_eq env s hsp, if_neg (by omega)]
    simp only
    by_cases hroom : frameSize type n ≤ mem.length
    · obtain ⟨mem', i, c, t, he, hpatch⟩ := serializeFrame_room hp hw (buf := ⟨mem, 0⟩) (by simpa using hroom)
      rw [he]
      simp only [Option.getD_some]
      unfold encryptBodyFill
      cases inNull with
      | true => rfl
      | false =>
        simp only [Bool.false_eq_true, if_false]
        cases hr : rd n inp with
        | none => rfl
        | some x =>
          obtain ⟨pt, rest⟩ := x
          obtain ⟨hinp, hptn⟩ := rd_some hr
          subst hptn
          simp only
          unfold encryptBody
          rw [if_neg (by simp), if_neg hq0, if_neg (by rw [f.iv]; omega)]
          obtain ⟨ct, tag, hs⟩ := hseal (frameIv p s.seqno) (frameAad s.header.messageId type s.seqno pt.length) pt (length_frameIv hp _)
          rw [hs]
          simp only
          unfold encryptBodyEnd
          simp only
          rw [sigFeed_works hdig]
          cases type <;> simp [enter, changeState, legalChange, hst]
    · rw [serializeFrame_short hp hw (Nat.zero_le _) (by simp only; omega)]
      simp

theorem writeTrailer_works (env : Env) (s : Session) {p : AlgProps} (hsp : s.algProps = some p) (hst : s.state = .writeTrailer)
    (hsig : p.signatureLen ≠ 0 → ∃ ctx sig, s.signctx = some ctx ∧ env.crypto.sign ctx = .ok sig ∧ sig.length ≤ p.signatureLen) (mem inp : Bytes) :
    (writeTrailer env s ⟨mem, 0⟩ inp).res = .ok := by
  obtain ⟨_, _, _, _, _, _, _, _, _, _, _, _, _, _, _, _, _, ap, _, sgc, _, _, _⟩ := s
  simp only at hsp hst hsig
  subst hsp hst
  unfold writeTrailer
  simp only
  by_cases h0 : p.signatureLen = 0
  · rw [if_pos h0]
    simp [enter, changeState, legalChange]
  rw [if_neg h0]
  by_cases hroom : mem.length - 0 < 2 + p.signatureLen
  · rw [if_pos hroom]
  rw [if_neg hroom]
  obtain ⟨ctx, sig, h1, h2, h3⟩ := hsig h0
  rw [h1]
  simp only [h2]
  unfold writeTrailerSig WBuf.write
  simp only [length_be]
  rw [if_pos (by omega)]
  simp only
  have hl : (patchAt mem 0 (be 2 sig.length)).length = mem.length := length_patchAt (by simp; omega)
  rw [hl, if_pos (by omega)]
  simp [enter, changeState, legalChange]

end Verif
