import Verif.Spec.EncryptErrors
import Verif.Proof.KeyringErrors
import Verif.Proof.SessionFinishes
import Verif.Proof.SessionErrors
/-
Lemmas for C80.
-/
namespace Verif
open Spec

/-- The checks decide how a call ends. -/
def Ends (checks : List Check) (r : Res) : Prop := (r = .ok ∧ NoneFails checks) ∨ ∃ c, r = .err c ∧ FirstFails checks c

theorem Ends.ok : Ends [] .ok := Or.inl ⟨rfl, noneFails_nil⟩

theorem Ends.check {q : Check} {ps : List Check} {r : Res} (h1 : ∀ c, q c → r = .err c) (h2 : (∀ c, ¬ q c) → Ends ps r) : Ends (q :: ps) r := by
  by_cases hq : ∃ c, q c
  · obtain ⟨c, hc⟩ := hq
    exact Or.inr ⟨c, h1 c hc, firstFails_cons.mpr (Or.inl hc)⟩
  · have hq : ∀ c, ¬ q c := fun c hc => hq ⟨c, hc⟩
    rcases h2 hq with ⟨h, h'⟩ | ⟨c, h, h'⟩
    · exact Or.inl ⟨h, noneFails_cons.mpr ⟨hq, h'⟩⟩
    · exact Or.inr ⟨c, h, firstFails_cons.mpr (Or.inr ⟨hq, h'⟩)⟩

theorem Ends.cons {p : Prop} {e : Err} {ps : List Check} {r : Res} (h1 : p → r = .err e) (h2 : ¬ p → Ends ps r) : Ends (failsIf p e :: ps) r :=
  .check (fun c h => by rw [h.2]; exact h1 h.1) (fun h => h2 (failsIf_none.mp h))

theorem Ends.iff {checks : List Check} {r : Res} (hf : Functional checks) (h : Ends checks r) :
    (r = .ok ↔ NoneFails checks) ∧ ∀ c, (r = .err c ↔ FirstFails checks c) := by
  rcases h with ⟨rfl, h⟩ | ⟨c, rfl, h⟩
  · exact ⟨by simp [h], fun c => by simp [h.not_first]⟩
  · refine ⟨by simp; exact fun h' => h'.not_first h, fun c' => ?_⟩
    simp only [Res.err.injEq]
    exact ⟨fun e => e ▸ h, fun h' => h.unique hf h'⟩

theorem encCtxSize_big {m : EncCtx} (hmem : ∀ e ∈ m, 4 + e.1.length + e.2.length < 2 ^ 64 - 65536) (h : 65535 < wireLen m) :
    encCtxSize m = .error .limitExceeded := by
  rw [wireLen_eq] at h
  have hne : m ≠ [] := by rintro rfl; simp [ctxLen] at h
  have hl : ctxLen m = 2 + entriesLen m := by simp [ctxLen, hne]
  have hpos : 0 < m.length := List.length_pos_iff.mpr hne
  unfold encCtxSize
  split
  · rfl
  · rw [if_neg (by omega)]
    refine encCtxSizeLoop_limit (by omega) ?_ (by omega)
    intro e he
    have := hmem e he
    simp [entrySize]; omega

theorem signHeaderStep_ends (env : Env) (s : Session) {row : SuiteRow} (hr : row ∈ suiteTable) {p : AlgProps} (hp : algProps row.id = some p)
    (hid : s.header.algId = row.id) (hmid : s.header.messageId.length = if row.version = 1 then 16 else 32)
    (hsd : s.header.algSuiteData.length = row.commitment) (hiv : s.header.iv.length = 12) (htag : s.header.authTag.length = 16)
    (hst : s.state = .genKey) (hm : s.mode = .encrypt) (hfit : headerLen row s.header.encCtx s.header.edks < 2 ^ 31) :
    Ends [failsIf (65535 < wireLen s.header.encCtx) .limitExceeded,
      failsIf (env.alloc .headerCopy = false) .oom,
      failsIf (env.crypto.aeadSeal s.contentKey (List.replicate 12 0) (hdrAuthBytes p.msgFormatVersion s.header) [] = none) .cryptoUnknown,
      fun c => ∃ ct tag sctx, env.crypto.aeadSeal s.contentKey (List.replicate 12 0) (hdrAuthBytes p.msgFormatVersion s.header) [] = some (ct, tag) ∧
        s.signctx = some sctx ∧ env.crypto.sigFail sctx (hdrBytes p.msgFormatVersion (signedHeader s.header p tag)) = some c]
      (signHeaderStep env s p).2 := by
  have f := suiteFacts hp
  have hlen : ∀ iv tag : Bytes, iv.length = 12 → tag.length = 16 →
      (hdrBytes p.msgFormatVersion { s.header with iv := iv, authTag := tag }).length = headerLen row s.header.encCtx s.header.edks := by
    intro iv tag h1 h2
    exact length_hdrBytes hr hp (h := { s.header with iv := iv, authTag := tag }) hmid hsd h1 h2
  refine .cons (fun hbig => ?_) (fun hctx => ?_)
  · have : hdrSize s.header = 0 := by
      unfold hdrSize
      rw [hid, hp]
      have hmem : ∀ e ∈ s.header.encCtx, 4 + e.1.length + e.2.length < 2 ^ 64 - 65536 := by
        intro e he
        have h1 : wireLen s.header.encCtx < 2 ^ 31 := by
          have := hfit
          unfold headerLen headerBytes at this
          omega
        have h2 : 4 + e.1.length + e.2.length ≤ wireLen s.header.encCtx := by
          have := mem_entriesLen he
          rw [wireLen_ctxLen]
          unfold ctxLen
          unfold entrySize at this
          have hne : s.header.encCtx ≠ [] := fun h0 => by rw [h0] at he; cases he
          rw [if_neg hne]
          omega
        omega
      rw [encCtxSize_big hmem hbig]
      simp only [ite_self]
    unfold signHeaderStep
    simp only [this]
    rfl
  have hctx : wireLen s.header.encCtx ≤ 65535 := by omega
  have hsize : hdrSize s.header = (headerLen row s.header.encCtx s.header.edks : Int) := by
    have h1 := length_hdrBytes hr hp hmid hsd hiv htag
    rw [← h1]
    exact hdrSize_eq (by rw [hid]; exact hp) (by rw [← wireLen_ctxLen]; exact hctx) (fun _ => hiv) htag (by rw [h1]; exact hfit)
  have hts : intToSize (hdrSize s.header) = headerLen row s.header.encCtx s.header.edks := by
    rw [hsize]; unfold intToSize; omega
  have hpos : headerLen row s.header.encCtx s.header.edks ≠ 0 := by unfold headerLen headerBytes; omega
  have hw : ∀ iv tag : Bytes, iv.length = 12 → tag.length = 16 → ∀ mem : Bytes, mem.length = headerLen row s.header.encCtx s.header.edks →
      hdrWrite { s.header with iv := iv, authTag := tag } mem =
      (hdrBytes p.msgFormatVersion { s.header with iv := iv, authTag := tag }, headerLen row s.header.encCtx s.header.edks, .ok ()) := by
    intro iv tag h1 h2 mem hmem
    refine hdrWrite_ok.mpr ⟨p, by rw [hid]; exact hp, by rw [← wireLen_ctxLen]; exact hctx, (hlen iv tag h1 h2).symm, by omega, ?_⟩
    rw [List.drop_of_length_le (by omega), List.append_nil]
  unfold signHeaderStep
  simp only [hts]
  rw [if_neg hpos]
  refine .cons (fun ha => by rw [ha]; rfl) (fun ha => ?_)
  rw [Bool.not_eq_false] at ha
  rw [ha]
  simp only [Bool.not_true, Bool.false_eq_true, if_false]
  rw [hw _ _ (by simp [hiv]) (by simp [htag]) _ (by simp)]
  simp only [ne_eq, not_true, if_false]
  unfold signHeaderTag
  simp only
  have hA : (hdrBytes p.msgFormatVersion { s.header with iv := List.replicate s.header.iv.length 0x42, authTag := List.replicate s.header.authTag.length 0xDE }).take
      (headerLen row s.header.encCtx s.header.edks - authtagLen p) = hdrAuthBytes p.msgFormatVersion s.header := by
    rw [← hlen (List.replicate s.header.iv.length 0x42) (List.replicate s.header.authTag.length 0xDE) (by simp [hiv]) (by simp [htag]),
      hdrAuth_take f.version (by simp [hiv]) (by simp [htag]) (by rw [f.authtag]), hdrAuthBytes_congr _ _ _ _ (by simp)]
  rw [hA]
  rcases signHeader_cases env.crypto hp s.contentKey (hdrAuthBytes p.msgFormatVersion s.header) with ⟨h1, h2⟩ | ⟨ct, tag, h1, h2, h3⟩
  · exact .cons (fun _ => by rw [h1]) (fun hn => absurd h2 hn)
  · refine .cons (fun hn => by rw [h1] at hn; cases hn) (fun _ => ?_)
    rw [h3]
    simp only
    have hh : (if p.msgFormatVersion = 1 then
          { s.header with
            iv := List.take (List.replicate s.header.iv.length (0x42 : UInt8)).length ((if p.msgFormatVersion = 1 then List.replicate 12 0 else []) ++ tag),
            authTag := List.take (List.replicate s.header.authTag.length (0xDE : UInt8)).length (List.drop (List.replicate s.header.iv.length (0x42 : UInt8)).length
              ((if p.msgFormatVersion = 1 then List.replicate 12 0 else []) ++ tag)) }
        else { s.header with
          iv := List.replicate s.header.iv.length 66,
          authTag := List.take (List.replicate s.header.authTag.length (0xDE : UInt8)).length ((if p.msgFormatVersion = 1 then List.replicate 12 0 else []) ++ tag) }) =
        signedHeader s.header p tag := by
      unfold signedHeader
      rcases f.version with hv | hv
      · simp only [hv, if_true, hiv, htag, List.length_replicate]
        rw [List.take_left' (by simp), List.drop_left' (by simp), List.take_of_length_le (by omega)]
      · have : ¬ p.msgFormatVersion = 1 := by omega
        simp only [this, if_false, hiv, htag, List.nil_append, List.length_replicate]
        rw [List.take_of_length_le (by omega)]
    simp only [hh]
    have hsl : (if p.msgFormatVersion = 1 then List.replicate 12 (0 : UInt8) else List.replicate 12 0x42).length = 12 := by split <;> simp
    have hw2 : ∀ mem : Bytes, mem.length = headerLen row s.header.encCtx s.header.edks →
        hdrWrite (signedHeader s.header p tag) mem = (hdrBytes p.msgFormatVersion (signedHeader s.header p tag), headerLen row s.header.encCtx s.header.edks, .ok ()) :=
      hw _ tag hsl h2
    rw [hw2 _ (hlen _ _ (by simp [hiv]) (by simp [htag]))]
    simp only [ne_eq, not_true, if_false]
    rw [signHeaderEnd_eq _ _ _ (by exact hst) (by exact hm) (by exact hpos)]
    simp only
    refine .check (fun c hc => ?_) (fun hc => ?_)
    · obtain ⟨ct', tag', sctx, a1, a2, a3⟩ := hc
      rw [h1] at a1
      cases a1
      rw [a2]
      simp [sigFeed, Crypto.sigUpdate, a3]
    · cases hsg : s.signctx with
      | none => exact .ok
      | some sctx =>
        have : env.crypto.sigFail sctx (hdrBytes p.msgFormatVersion (signedHeader s.header p tag)) = none := by
          cases hf : env.crypto.sigFail sctx (hdrBytes p.msgFormatVersion (signedHeader s.header p tag)) with
          | none => rfl
          | some c => exact absurd ⟨ct, tag, sctx, h1, hsg, hf⟩ (hc c)
        simp only [sigFeed, Crypto.sigUpdate, this]
        exact .ok
/-! ### the checks -/

theorem kdfFails_iff {e : Env} {row : SuiteRow} (hr : row ∈ suiteTable) {p : AlgProps} (hp : algProps row.id = some p) {dk : Bytes} {io : Bytes × Bytes}
    {n : Nat} {c : Err} : KdfFails e row dk io n c ↔ e.crypto.hkdf (whichSha row.id) io.1 dk io.2 n = .error c := by
  have hf := rowFacts hr hp
  constructor
  · rintro ⟨sha, hs, h⟩
    have : sha = whichSha row.id := by
      have := hf.sha
      exact hashLen_inj (by omega)
    rw [← this]; exact h
  · exact fun h => ⟨_, hf.sha, h⟩

/-- How key derivation ends, when the lengths are right. -/
theorem deriveKey_ends {e : Env} {row : SuiteRow} (hr : row ∈ suiteTable) {p : AlgProps} (hp : algProps row.id = some p) {dk mid : Bytes}
    (hd : dk.length = row.keyBits / 8) (hmid : mid.length = if row.version = 1 then 16 else 32) :
    (∃ c, row.commitment ≠ 0 ∧ KdfFails e row dk (commitKdfInput mid) row.commitment c ∧ deriveKey e.crypto.hkdf p dk mid row.commitment = .raised c) ∨
    ((∀ c, row.commitment ≠ 0 → ¬ KdfFails e row dk (commitKdfInput mid) row.commitment c) ∧
      ((∃ c, row.kdfBits ≠ 0 ∧ KdfFails e row dk (contentKdfInput row.version row.id mid) (row.keyBits / 8) c ∧
          deriveKey e.crypto.hkdf p dk mid row.commitment = .raised c) ∨
       ((∀ c, row.kdfBits ≠ 0 → ¬ KdfFails e row dk (contentKdfInput row.version row.id mid) (row.keyBits / 8) c) ∧
          ∃ k c, deriveKey e.crypto.hkdf p dk mid row.commitment = .ok k c ∧ c.length = row.commitment))) := by
  have hf := rowFacts hr hp
  have f := suiteFacts hp
  have htake : dk.take p.dataKeyLen = dk := by rw [hf.dataKey, ← hd, List.take_length]
  simp only [kdfFails_iff hr hp]
  unfold deriveKey
  rcases hf.versions with hv | hv
  · rw [if_pos (by rw [hf.version]; exact hv)]
    have hc0 := hf.commit2.mpr hv
    rw [if_neg (by simpa using hc0)]
    unfold deriveKeyV1
    rw [if_pos hv] at hmid
    rw [if_neg (by simpa using hmid), f.id, htake]
    refine Or.inr ⟨fun c h => absurd hc0 h, ?_⟩
    by_cases h0 : row.kdfBits = 0
    · rw [if_pos (hf.nosha.mpr h0)]
      exact Or.inr ⟨fun c h => absurd h0 h, dk, [], rfl, hc0.symm⟩
    · rw [if_neg (fun hn => h0 (hf.nosha.mp hn)), hf.key]
      have : contentKdfInput row.version row.id mid = ([], kdfInfoV1 row.id mid) := by
        simp [hv, contentKdfInput, kdfInfoV1, u16_eq_be]
      rw [this]
      simp only
      cases hk : e.crypto.hkdf (whichSha row.id) [] dk (kdfInfoV1 row.id mid) (row.keyBits / 8) with
      | error c => exact Or.inl ⟨c, h0, rfl, rfl⟩
      | ok k => exact Or.inr ⟨fun c _ h => (by cases h), k, [], rfl, hc0.symm⟩
  · have hv1 : ¬ row.version = 1 := by omega
    rw [if_neg (by rw [hf.version]; exact hv1), if_pos (by rw [hf.version]; exact hv)]
    have hn : whichSha row.id ≠ .nosha := f.sha (by rw [hf.version]; exact hv)
    have hc0 : ¬ row.commitment = 0 := fun h => hv1 (hf.commit2.mp h)
    have h0 : row.kdfBits ≠ 0 := fun h => hn (hf.nosha.mpr h)
    rw [if_neg hv1] at hmid
    unfold deriveKeyV2
    rw [if_neg (by rw [hf.commit]; omega), if_neg (by simpa using hmid), f.id, if_neg hn, htake, hf.commit, hf.key]
    have e1 : contentKdfInput row.version row.id mid = (mid, kdfInfoV2 row.id) := by
      have : ascii "DERIVEKEY" = [0x44, 0x45, 0x52, 0x49, 0x56, 0x45, 0x4B, 0x45, 0x59] := by decide
      simp [hv, contentKdfInput, kdfInfoV2, u16_eq_be, this]
    have e2 : commitKdfInput mid = (mid, commitInfo) := by
      have : commitInfo = [0x43, 0x4F, 0x4D, 0x4D, 0x49, 0x54, 0x4B, 0x45, 0x59] := by decide
      simp [commitKdfInput, this]
    rw [e1, e2]
    simp only
    cases hc : e.crypto.hkdf (whichSha row.id) mid dk commitInfo row.commitment with
    | error c => exact Or.inl ⟨c, hc0, rfl, rfl⟩
    | ok c =>
      refine Or.inr ⟨fun c _ h => (by cases h), ?_⟩
      simp only
      cases hk : e.crypto.hkdf (whichSha row.id) mid dk (kdfInfoV2 row.id) (row.keyBits / 8) with
      | error c => exact Or.inl ⟨c, h0, rfl, rfl⟩
      | ok k => exact Or.inr ⟨fun c _ h => (by cases h), k, c, rfl, e.crypto.hkdf_len _ _ _ _ _ _ hc⟩

/-- A draft is determined by the session and the materials, up to its tag. -/
theorem Spec.Draft.unique {e : Env} {s : Session} {row : SuiteRow} {ctx : EncCtx} {m : EncMaterials} {h h' : Hdr} {k k' : Bytes}
    (hw : DistinctKeys ctx) (h1 : Draft e s.frameSize row ctx m h k) (h2 : Draft e s.frameSize row ctx m h' k') :
    k' = k ∧ wireAuthPart row.version h' = wireAuthPart row.version h ∧
      (h'.authTag = h.authTag → wireHeader row.version h' = wireHeader row.version h) := by
  have e1 : h'.messageId = h.messageId := by
    have := h1.messageId
    rw [h2.messageId] at this
    exact Option.some.inj this
  have hk := h2.key
  rw [e1] at hk
  obtain ⟨e2, e3⟩ := derivedKey_unique hk h1.key
  have e4 : h'.encCtx = h.encCtx := by
    refine List.Perm.eq_of_pairwise (le := fun (a b : Bytes × Bytes) => a.1 ≤ b.1) ?_ h2.sorted h1.sorted (h2.perm.trans h1.perm.symm)
    intro a b ha hb hab hba
    have hw1 : EncCtx.WF h'.encCtx := (h2.perm.map Prod.fst).nodup_iff.mpr hw
    exact WF_inj hw1 ha ((h2.perm.trans h1.perm.symm).mem_iff.mpr hb) (List.le_antisymm hab hba)
  have e5 := h1.alg
  have e6 := h1.length
  have e7 := h1.edks
  rw [← h2.alg] at e5
  rw [← h2.length] at e6
  rw [← h2.edks] at e7
  have hA : wireAuthPart row.version h' = wireAuthPart row.version h := by
    unfold wireAuthPart
    rw [e1, e3, e4, e5, e6, e7]
  refine ⟨e2, hA, fun ht => ?_⟩
  unfold wireHeader
  rw [hA, ht]
  by_cases hv : row.version = 1
  · rw [h1.iv hv, h2.iv hv]
  · rw [if_neg hv, if_neg hv]

/-- How the header step of an encrypting session ends, once the CMM has answered. -/
theorem tryGenKey_ends (env : Env) (s : Session) {row : SuiteRow} {ctx : EncCtx} {m : EncMaterials} (hr : row ∈ suiteTable) (ha : row.id = m.alg)
    (hst : s.state = .genKey) (hm : s.mode = .encrypt) (hh : s.header = { encCtx := s.header.encCtx }) (hfs : s.frameSize < 2 ^ 32)
    (hg : env.cmm.generate (keyRequest s) = (ctx, .ok m)) (hfit : headerLen row ctx m.edks < 2 ^ 31) (hw : DistinctKeys ctx) :
    Ends (headerChecks env s row ctx m) (tryGenKey env s).2 := by
  obtain ⟨p, hp⟩ := algProps_of_row hr
  have hf := rowFacts hr hp
  have f := suiteFacts hp
  have hsd : s.header.algSuiteData = [] := by rw [hh]
  unfold tryGenKey
  simp only
  rw [show (⟨s.header.encCtx, 0, if s.preciseKnown then s.preciseSize else s.sizeBound, s.policy⟩ : EncRequest) =
    keyRequest s from rfl, hg]
  simp only
  unfold genKeyWith
  simp only [← ha, hp]
  unfold genKeyCheck
  simp only [hf.dataKey, List.length_eq_zero_iff, gt_iff_lt, ← ha]
  unfold headerChecks
  refine .cons (fun h => by rw [if_pos h]) (fun h1 => ?_)
  rw [if_neg h1]
  refine .cons (fun h => by rw [if_pos h]) (fun h2 => ?_)
  rw [if_neg h2]
  refine .cons (fun h => by rw [if_pos h]) (fun h3 => ?_)
  rw [if_neg h3]
  have hsg : ((p.signatureLen ≠ 0) ≠ (m.signctx.isSome = true)) ↔ ¬ (m.signctx.isSome = true ↔ row.curveBits ≠ 0) := by
    rw [ne_eq (p.signatureLen ≠ 0), eq_iff_iff, ne_eq, hf.sig]
    exact not_congr ⟨fun h => h.symm, fun h => h.symm⟩
  refine .cons (fun h => by rw [if_pos (hsg.mpr h)]) (fun h4 => ?_)
  rw [if_neg (fun h => h4 (hsg.mp h))]
  have hpol : (!allowedForEncrypt row.id s.policy) = true ↔ ¬ MayEncrypt s.policy row := by
    rw [Bool.not_eq_true']
    constructor
    · intro h h'; rw [allowed_of_may hr h'] at h; cases h
    · intro h
      cases h' : allowedForEncrypt row.id s.policy with
      | false => rfl
      | true => exact absurd (mayEncrypt_of hr hp h') h
  refine .cons (fun h => by rw [if_pos (hpol.mpr h)]) (fun h5 => ?_)
  rw [if_neg (fun h => h5 (hpol.mp h))]
  have hmay : MayEncrypt s.policy row := Classical.not_not.mp h5
  simp only
  unfold genKeyMessageId
  rw [f.midLen, hf.version]
  refine .cons (fun h => ?_) (fun h6 => ?_)
  · rcases h with h | h
    · rw [h]; rfl
    · rw [h]; split <;> rfl
  have h6a : env.alloc .messageId = true := by
    cases hx : env.alloc .messageId with
    | false => exact absurd (Or.inl hx) h6
    | true => rfl
  rw [h6a]
  simp only [Bool.not_true, Bool.false_eq_true, if_false]
  cases hmid : env.crypto.random (if row.version = 1 then 16 else 32) with
  | none => exact absurd (Or.inr hmid) h6
  | some mid =>
    have hml : mid.length = if row.version = 1 then 16 else 32 := env.crypto.random_len _ _ hmid
    simp only
    unfold genKeyDerive
    simp only [hsd, List.length_nil, mustCommit_of_may hr hmay p hp]
    have hdk : m.dataKey.length = row.keyBits / 8 := Classical.not_not.mp h1
    have key := deriveKey_ends (e := env) hr hp hdk hml
    refine .check (fun c hc => ?_) (fun h7 => ?_)
    · obtain ⟨mid', hm', hc0, hc⟩ := hc
      cases hm'
      rcases key with ⟨c', k1, k2, k3⟩ | ⟨k1, -⟩
      · rw [k3]
        rw [kdfFails_iff hr hp] at hc k2
        rw [hc] at k2
        cases k2; rfl
      · exact absurd hc (k1 c hc0)
    have h7' : ∀ c, row.commitment ≠ 0 → ¬ KdfFails env row m.dataKey (commitKdfInput mid) row.commitment c := fun c h0 hc => h7 c ⟨mid, rfl, h0, hc⟩
    rcases key with ⟨c, k1, k2, -⟩ | ⟨-, key⟩
    · exact absurd k2 (h7' c k1)
    refine .check (fun c hc => ?_) (fun h8 => ?_)
    · obtain ⟨mid', hm', hc0, hc⟩ := hc
      cases hm'
      rcases key with ⟨c', k1, k2, k3⟩ | ⟨k1, -⟩
      · rw [k3]
        rw [kdfFails_iff hr hp] at hc k2
        rw [hc] at k2
        cases k2; rfl
      · exact absurd hc (k1 c hc0)
    rcases key with ⟨c, k1, k2, -⟩ | ⟨-, k, c, hd, hcl⟩
    · exact absurd ⟨mid, rfl, k1, k2⟩ (h8 c)
    rw [hd]
    simp only
    have hdk' := derivedKey hr hp (by rw [hf.dataKey]; exact hdk) hd
    unfold buildHeader
    simp only
    rw [if_neg (by omega)]
    refine .cons (fun h => ?_) (fun h9 => ?_)
    · rcases h with h | h
      · rw [h]; rfl
      · rw [h]; split <;> rfl
    have ha1 : env.alloc .iv = true := by
      cases hx : env.alloc .iv with
      | false => exact absurd (Or.inl hx) h9
      | true => rfl
    have ha2 : env.alloc .tag = true := by
      cases hx : env.alloc .tag with
      | false => exact absurd (Or.inr hx) h9
      | true => rfl
    rw [ha1, ha2]
    simp only [Bool.not_true, Bool.false_eq_true, if_false]
    generalize hs1 : (Session.mk _ _ _ _ _ _ _ _ _ _ _ _ _ _ _ _ _ _ _ _ _ _ _ : Session) = s1
    have hcs : (if s.policy.encryptMustIncludeCommitment then c else []) = c := by
      have := mustCommit_of_may hr hmay p hp
      split
      · rfl
      · rename_i hn
        rw [if_neg hn] at this
        rw [← this] at hcl
        exact (List.eq_nil_of_length_eq_zero hcl).symm
    have hh1 : s1.header = { s.header with
        algId := p.algId, frameLen := s.frameSize, edks := m.edks, iv := List.replicate p.ivLen 0
        authTag := List.replicate p.tagLen 0, messageId := mid, encCtx := ctx, algSuiteData := c } := by
      rw [← hs1]
      simp only [hcs]
    have hk1 : s1.contentKey = k := by rw [← hs1]
    have hg1 : s1.signctx = m.signctx := by rw [← hs1]
    have hx1 : s1.header.encCtx = ctx := by rw [hh1]
    have key := signHeaderStep_ends env s1 hr hp (by rw [hh1]; exact f.id) (by rw [hh1]; exact hml) (by rw [hh1]; exact hcl) (by rw [hh1]; simp [f.iv])
      (by rw [hh1]; simp [f.tag]) (by rw [← hs1]; exact hst) (by rw [← hs1]; exact hm) (by rw [hh1]; exact hfit)
    have hiv : (s1.header.iv).length = 12 := by rw [hh1]; simp [f.iv]
    have hA : hdrAuthBytes p.msgFormatVersion s1.header = wireAuthPart row.version s1.header.sorted := by
      rw [hdrAuthBytes_eq_wire f.version (by rw [hh1]; exact hfs) (fun _ => hiv), hf.version]
    have draft : ∀ tag, Draft env s.frameSize row ctx m (signedHeader s1.header p tag).sorted k := by
      intro tag
      refine ⟨?_, ?_, ?_, ?_, ?_, ?_, ?_, ?_⟩
      · show s1.header.algId = _; rw [hh1]; exact f.id
      · show s1.header.frameLen = _; rw [hh1]
      · show s1.header.edks = _; rw [hh1]
      · show _ = some s1.header.messageId; rw [hh1]; exact hmid
      · show (sortByKey s1.header.encCtx).Perm ctx; rw [hx1]; exact sortByKey_perm ctx
      · show (sortByKey s1.header.encCtx).Pairwise _
        rw [hx1]
        exact (sortByKey_strict hw).imp (fun h => List.le_of_lt h)
      · show DerivedKey _ row m.dataKey s1.header.messageId k s1.header.algSuiteData
        rw [hh1]; exact hdk'
      · intro hv
        simp [signedHeader, Hdr.sorted, hf.version, hv]
    have hauth : ∀ tag, wireAuthPart row.version (signedHeader s1.header p tag).sorted = wireAuthPart row.version s1.header.sorted := fun tag => rfl
    have hwire : ∀ tag, hdrBytes p.msgFormatVersion (signedHeader s1.header p tag) = wireHeader row.version (signedHeader s1.header p tag).sorted := by
      intro tag
      rw [hdrBytes_eq_wire' f.version (by show s1.header.frameLen < _; rw [hh1]; exact hfs) (fun hv => by simp [signedHeader, hv]), hf.version]
    rw [hA, hk1, hg1, hx1] at key
    have e3 : failsIf (env.crypto.aeadSeal k (List.replicate 12 0) (wireAuthPart row.version s1.header.sorted) [] = none) .cryptoUnknown =
        failsIf (∃ h k, Draft env s.frameSize row ctx m h k ∧ env.crypto.aeadSeal k (List.replicate 12 0) (wireAuthPart row.version h) [] = none) .cryptoUnknown := by
      congr 1
      apply propext
      constructor
      · exact fun h => ⟨_, k, draft [], h⟩
      · rintro ⟨h, k', hd', h'⟩
        obtain ⟨u1, u2, -⟩ := (draft []).unique hw hd'
        rw [u1, u2] at h'
        exact h'
    have e4 : (fun c => ∃ ct tag sctx, env.crypto.aeadSeal k (List.replicate 12 0) (wireAuthPart row.version s1.header.sorted) [] = some (ct, tag) ∧
          m.signctx = some sctx ∧ env.crypto.sigFail sctx (hdrBytes p.msgFormatVersion (signedHeader s1.header p tag)) = some c) =
        (fun c => ∃ h k ct sctx, Draft env s.frameSize row ctx m h k ∧
          env.crypto.aeadSeal k (List.replicate 12 0) (wireAuthPart row.version h) [] = some (ct, h.authTag) ∧
          m.signctx = some sctx ∧ env.crypto.sigFail sctx (wireHeader row.version h) = some c) := by
      funext c
      apply propext
      constructor
      · rintro ⟨ct, tag, sctx, a1, a2, a3⟩
        rw [hwire] at a3
        exact ⟨_, k, ct, sctx, draft tag, a1, a2, a3⟩
      · rintro ⟨h, k', ct, sctx, hd', a1, a2, a3⟩
        obtain ⟨u1, u2, u3⟩ := (draft h.authTag).unique hw hd'
        rw [u1, u2] at a1
        rw [u3 rfl, ← hwire] at a3
        exact ⟨ct, h.authTag, sctx, a1, a2, a3⟩
    rw [e3, e4] at key
    exact key

theorem headerChecks_functional {e : Env} {s : Session} {row : SuiteRow} {ctx : EncCtx} {m : EncMaterials} (hr : row ∈ suiteTable) (hw : DistinctKeys ctx) :
    Functional (headerChecks e s row ctx m) := by
  obtain ⟨p, hp⟩ := algProps_of_row hr
  have K : ∀ {dk io n c c'}, KdfFails e row dk io n c → KdfFails e row dk io n c' → c = c' := by
    intro dk io n c c' h1 h2
    rw [kdfFails_iff hr hp] at h1 h2
    rw [h1] at h2
    exact Except.error.inj h2
  unfold headerChecks
  simp only [functional_cons, functional_nil, and_true]
  refine ⟨functional_failsIf, functional_failsIf, functional_failsIf, functional_failsIf, functional_failsIf, functional_failsIf,
    ?_, ?_, functional_failsIf, functional_failsIf, functional_failsIf, functional_failsIf, ?_⟩
  · rintro c c' ⟨mid, h1, h2, h3⟩ ⟨mid', h1', h2', h3'⟩
    rw [h1] at h1'; cases h1'
    exact K h3 h3'
  · rintro c c' ⟨mid, h1, h2, h3⟩ ⟨mid', h1', h2', h3'⟩
    rw [h1] at h1'; cases h1'
    exact K h3 h3'
  · rintro c c' ⟨h, k, ct, sctx, h1, h2, h3, h4⟩ ⟨h', k', ct', sctx', h1', h2', h3', h4'⟩
    obtain ⟨u1, u2, u3⟩ := h1.unique hw h1'
    rw [u1, u2, h2] at h2'
    simp only [Option.some.injEq, Prod.mk.injEq] at h2'
    rw [h3] at h3'
    cases h3'
    rw [u3 h2'.2.symm, h4] at h4'
    exact Option.some.inj h4'

/-! ### body and trailer -/

theorem sigFeed_err {c : Crypto} {o : Option SigCtx} {x : Bytes} {e : Err} (h : sigFeed c o x = .error e) :
    ∃ ctx, o = some ctx ∧ c.sigFail ctx x = some e := by
  unfold sigFeed at h
  cases o with
  | none => cases h
  | some ctx =>
    refine ⟨ctx, rfl, ?_⟩
    simp only [Crypto.sigUpdate] at h
    cases hf : c.sigFail ctx x with
    | none => rw [hf] at h; cases h
    | some e' => rw [hf] at h; cases h; rfl

/-- Why a body step fails. -/
theorem tryEncryptBody_err (env : Env) (s : Session) {a : Nat} {p : AlgProps} (hp : algProps a = some p)
    (hsp : s.algProps = some p) (hst : s.state = .encryptBody) (hq0 : s.seqno ≠ 0) {mem inp : Bytes} {inNull : Bool} {c : Err}
    (hres : (tryEncryptBody env s ⟨mem, 0⟩ inp inNull).res = .err c) :
    ∃ type n, nextFrame s = some (type, n) ∧
      (2 ^ 32 - 1 < s.seqno ∨ (c = .cryptoUnknown ∧ s.seqno < 2 ^ 32 ∧ (¬ WriteOK type s.seqno n ∨
        (WriteOK type s.seqno n ∧ ∃ pt rest, inp = pt ++ rest ∧ pt.length = n ∧
          (env.crypto.aeadSeal s.contentKey (frameIv p s.seqno) (frameAad s.header.messageId type s.seqno pt.length) pt = none ∨
           ∃ ct tag ctx c', env.crypto.aeadSeal s.contentKey (frameIv p s.seqno) (frameAad s.header.messageId type s.seqno pt.length) pt = some (ct, tag) ∧
             s.signctx = some ctx ∧ env.crypto.sigFail ctx (wireFrame (encFrame s p type ct tag)) = some c'))))) := by
  have f := suiteFacts hp
  unfold tryEncryptBody at hres
  cases hn : nextFrame s with
  | none => rw [hn] at hres; cases hres
  | some x =>
    obtain ⟨type, n⟩ := x
    refine ⟨type, n, rfl, ?_⟩
    simp only [hn] at hres
    rw [encryptBodyFrame_eq env s hsp] at hres
    by_cases hq : s.seqno > 2 ^ 32 - 1
    · exact Or.inl hq
    rw [if_neg hq] at hres
    refine Or.inr ?_
    simp only at hres
    by_cases hw : WriteOK type s.seqno n
    · by_cases hroom : frameSize type n ≤ mem.length
      · obtain ⟨mem', i, cc, t, he, hpatch⟩ := serializeFrame_room hp hw (buf := ⟨mem, 0⟩) (by simpa using hroom)
        rw [he] at hres
        simp only [Option.getD_some] at hres
        unfold encryptBodyFill at hres
        cases inNull with
        | true => cases hres
        | false =>
          simp only [Bool.false_eq_true, if_false] at hres
          cases hr : rd n inp with
          | none => rw [hr] at hres; cases hres
          | some x =>
            obtain ⟨pt, rest⟩ := x
            obtain ⟨hinp, hptn⟩ := rd_some hr
            subst hptn
            simp only [hr] at hres
            unfold encryptBody at hres
            rw [if_neg (by simp), if_neg hq0, if_neg (by rw [f.iv]; omega)] at hres
            cases hs : env.crypto.aeadSeal s.contentKey (frameIv p s.seqno)
                (frameAad s.header.messageId type s.seqno pt.length) pt with
            | none =>
              rw [hs] at hres
              cases hres
              exact ⟨rfl, by omega, Or.inr ⟨hw, pt, rest, hinp, rfl, Or.inl hs⟩⟩
            | some x =>
              obtain ⟨ct, tag⟩ := x
              obtain ⟨hct, htag⟩ := env.crypto.aeadSeal_len _ _ _ _ _ _ hs
              simp only [hs] at hres
              have hwl : (wireFrame (encFrame s p type ct tag)).length = frameSize type pt.length := by
                rw [length_wireFrame' (length_frameIv hp _) htag]; simp [encFrame, hct]
              have hwb := wireFrame_be (f := encFrame s p type ct tag) (by simp only [encFrame]; omega)
                (by simp only [encFrame]; rw [hct]; exact hw)
              have hpm := hpatch (frameIv p s.seqno) ct tag (length_frameIv hp _) hct htag
              simp only [encFrame, hct] at hwb
              have hpm2 : patchAt (patchAt (patchAt mem' i (frameIv p s.seqno)) cc ct) t tag =
                  wireFrame (encFrame s p type ct tag) ++ mem.drop (frameSize type pt.length) := by
                rw [hpm]
                simp only [encFrame]
                rw [hwb]
                cases type <;> simp
              rw [hpm2, Nat.zero_add] at hres
              have hee := fun s' h1 h2 => encryptBodyEnd_eq env (s := s') h1 h2 type pt.length mem (wireFrame (encFrame s p type ct tag))
                (mem.drop (frameSize type pt.length)) inp rest
              rw [hwl] at hee
              have := hee { s with outEst := frameSize type pt.length, inEst := pt.length, nonces := s.nonces ++ [(s.contentKey, frameIv p s.seqno)] } hst (by simp only; omega)
              rw [this] at hres
              simp only at hres
              cases hf : sigFeed env.crypto s.signctx (wireFrame (encFrame s p type ct tag)) with
              | error e =>
                rw [hf] at hres
                simp only [Res.err.injEq] at hres
                subst hres
                obtain ⟨ctx, h1, h2⟩ := sigFeed_err hf
                exact ⟨rfl, by omega, Or.inr ⟨hw, pt, rest, hinp, rfl, Or.inr ⟨ct, tag, ctx, e, hs, h1, h2⟩⟩⟩
              | ok sg => rw [hf] at hres; cases hres
      · rw [serializeFrame_short hp hw (Nat.zero_le _) (by simp only; omega)] at hres
        simp at hres
    · obtain ⟨e, c', he⟩ := serializeFrame_not_writeOK (p := p) hw ⟨mem, 0⟩
      have hne : e ≠ .shortBuffer := by
        rintro rfl
        exact serializeFrame_not_writeOK_err hw he
      rw [he] at hres
      simp only [if_neg hne] at hres
      cases hres
      exact ⟨rfl, by omega, Or.inl hw⟩

/-- Why the trailer step fails. -/
theorem writeTrailer_err (env : Env) (s : Session) {p : AlgProps} (hsp : s.algProps = some p) (hst : s.state = .writeTrailer)
    (hsig : p.signatureLen ≠ 0 → s.signctx.isSome = true) {mem inp : Bytes} {c : Err} (hres : (writeTrailer env s ⟨mem, 0⟩ inp).res = .err c) :
    p.signatureLen ≠ 0 ∧ ∃ ctx, s.signctx = some ctx ∧
      (env.crypto.sign ctx = .error c ∨ ∃ sig, env.crypto.sign ctx = .ok sig ∧ p.signatureLen < sig.length ∧ c = .cryptoUnknown) := by
  obtain ⟨_, _, _, _, _, _, _, _, _, _, _, _, _, _, _, _, _, ap, _, sgc, _, _, _⟩ := s
  simp only at hsp hst hsig
  subst hsp hst
  unfold writeTrailer at hres
  simp only at hres
  by_cases h0 : p.signatureLen = 0
  · rw [if_pos h0] at hres
    simp [enter, changeState, legalChange] at hres
  rw [if_neg h0] at hres
  refine ⟨h0, ?_⟩
  by_cases hroom : mem.length - 0 < 2 + p.signatureLen
  · rw [if_pos hroom] at hres
    cases hres
  rw [if_neg hroom] at hres
  cases sgc with
  | none => exact absurd (hsig h0) (by simp)
  | some ctx =>
    refine ⟨ctx, rfl, ?_⟩
    simp only at hres
    cases hs : env.crypto.sign ctx with
    | error e => rw [hs] at hres; cases hres; exact Or.inl rfl
    | ok sig =>
      simp only [hs] at hres
      refine Or.inr ⟨sig, rfl, ?_⟩
      unfold writeTrailerSig WBuf.write at hres
      simp only [length_be] at hres
      rw [if_pos (by omega)] at hres
      simp only at hres
      have hl : (patchAt mem 0 (be 2 sig.length)).length = mem.length := length_patchAt (by simp; omega)
      rw [hl] at hres
      by_cases h2 : sig.length ≤ mem.length - (0 + 2)
      · rw [if_pos h2] at hres
        simp [enter, changeState, legalChange] at hres
      · rw [if_neg h2] at hres
        cases hres
        exact ⟨by omega, rfl⟩

/-- The next frame, in terms of what has been read. -/
theorem nextPiece_of {E : Env → Prop} {pol : Policy} {v : View} (hI : Inv v.s) {h : Hdr} {m : EncMaterials} {p : AlgProps} {k hb : Bytes}
    {fr : List (Frame × Bytes)} (hl : EncLog E pol v h m p k hb fr) (ho : Ongoing fr) {t : FrameType} {n : Nat} (hn : nextFrame v.s = some (t, n)) :
    v.s.seqno < 2 ^ 32 ∧ NextPiece v.s (bodyText fr).length t n := by
  obtain ⟨a, b, c⟩ := ongoing_lengths hl.frames ho
  have hfs := hI.frameSize
  have hps := hI.preciseSize
  have hsq := hl.seqno
  have hnum : fr.length < 2 ^ 32 - 1 := by
    rcases List.eq_nil_or_concat fr with rfl | ⟨fr', ⟨f, pt⟩, rfl⟩
    · simp
    · have h2 := hl.frames fr'.length (by simp)
      simp at h2
      have ht : f.type = .frame := ho (f, pt) (by simp)
      have hsh := h2.ok.shape
      rw [ht] at hsh
      simp only at hsh
      have := h2.ok.seqno
      have hq := h2.seqno
      simp
      omega
  have hlen : (bodyText fr).length ≤ (2 ^ 32 - 2) * (2 ^ 32 - 1) := by
    rw [a]
    exact Nat.mul_le_mul (by omega) (by omega)
  have hsf : v.s.dataSoFar = (bodyText fr).length := by
    rw [hl.sofar]; exact Nat.mod_eq_of_lt (by omega)
  refine ⟨by omega, ?_⟩
  unfold nextFrame at hn
  rw [hsf] at hn
  by_cases h0 : v.s.frameSize ≠ 0
  · rw [if_pos h0] at hn
    by_cases h1 : v.s.preciseKnown = true ∧ u64sub v.s.preciseSize (bodyText fr).length < v.s.frameSize
    · rw [if_pos h1] at hn
      simp only [Option.some.injEq, Prod.mk.injEq] at hn
      obtain ⟨rfl, rfl⟩ := hn
      have hle : (bodyText fr).length ≤ v.s.preciseSize := by
        apply Nat.le_of_not_lt
        intro hlt
        have := h1.2
        unfold u64sub at this
        omega
      have hsub : u64sub v.s.preciseSize (bodyText fr).length = v.s.preciseSize - (bodyText fr).length := by
        unfold u64sub; omega
      rw [hsub] at h1 ⊢
      exact .final h0 h1.1 hle h1.2
    · rw [if_neg h1] at hn
      simp only [Option.some.injEq, Prod.mk.injEq] at hn
      obtain ⟨rfl, rfl⟩ := hn
      refine .frame h0 (fun hk hh => h1 ⟨hk, ?_⟩)
      have hsub : u64sub v.s.preciseSize (bodyText fr).length = v.s.preciseSize - (bodyText fr).length := by
        unfold u64sub; omega
      rw [hsub]; exact hh.2
  · rw [if_neg h0] at hn
    by_cases hk : v.s.preciseKnown = true
    · simp only [hk, Bool.not_true, Bool.false_eq_true, if_false, Option.some.injEq, Prod.mk.injEq] at hn
      obtain ⟨rfl, rfl⟩ := hn
      exact .single (Classical.not_not.mp h0) hk
    · simp only [hk, Bool.not_false, if_true] at hn
      cases hn

/-- Why a step of an encrypting session fails, after the header. -/
theorem enc_step_err {e : Env} {pol : Policy} {v : View} (h : HInv (· = e) pol v) (hs : SetUpEnc v.s) (hcm : v.s.hasCmm = true)
    {mem inp : Bytes} {inNull : Bool} {c : Err} (hres : (sessionStep e v.s ⟨mem, 0⟩ inp inNull).res = .err c) :
    (v.s.state = .genKey ∧ (tryGenKey e v.s).2 = .err c) ∨ (v.s.state ≠ .config ∧ v.s.state ≠ .genKey ∧ EncryptFails e v inp c) := by
  have hl := h.live hs.live
  have hst := h.inv.st
  have hne : ¬ v.s.mode.isDecrypt = true := fun hd => by rw [hs.mode] at hd; cases hd
  unfold LiveLog at hl
  unfold StInv at hst
  unfold sessionStep at hres
  cases hstate : v.s.state <;> simp only [hstate] at hl hst hres
  · -- config
    rw [if_neg (by simp [hcm, hs.policy]), if_pos hs.mode] at hres
    unfold enter at hres
    split at hres <;> cases hres
  · cases hres
  · exact absurd hst.1 hne
  · exact absurd hst.1 hne
  · exact absurd hst.1 hne
  · exact Or.inl ⟨rfl, hres⟩
  · -- writeHeader
    obtain ⟨hm, -, hq, -, ⟨c', hc, hcl, hc0⟩, p, hsp, hp, -⟩ := hst
    rcases tryWriteHeader_cases (mem := mem) (inp := inp) hstate hc (by rw [hsp]; rfl) (by omega) with ⟨h1, h2⟩ | ⟨h1, h2⟩ <;>
      (rw [h2] at hres; cases hres)
  · -- encryptBody
    refine Or.inr ⟨by simp, by simp, ?_⟩
    obtain ⟨hd, m, p, k, hb, fr, a1, a2, a3, a4⟩ := hl
    obtain ⟨hm, -, hq, p', hsp, hp, -⟩ := hst
    have hpp : p' = p := by
      have := a1.props
      rw [hsp] at this
      exact Option.some.inj this
    subst hpp
    obtain ⟨row, b1, b2, ⟨e', he', b3⟩, b4, b5, -, -⟩ := encLog_facts a1
    cases he'
    have hfs : v.s.frameSize < 2 ^ 32 := h.inv.frameSize
    obtain ⟨type, n, hn, hcase⟩ := tryEncryptBody_err e v.s hp hsp hstate hq hres
    obtain ⟨hsq, hnp⟩ := nextPiece_of h.inv a1 a2 hn
    have hseq := a1.seqno
    have hfr : AllFrames (SealedFrame (· = e) k hd.sorted.messageId hd.sorted.frameLen) fr := by
      show AllFrames (SealedFrame (· = e) k hd.messageId hd.frameLen) fr
      rw [b5]; exact a1.frames
    refine .frame (row := row) (h := hd.sorted) (m := m) (k := k) (fr := fr) (rest := inp) b3 hfr a2 (by rw [a1.consumed]) (by rw [a3, b4]; exact List.prefix_rfl) ?_
    rcases hcase with hbig | ⟨rfl, -, hw | ⟨hw, pt, rest, hinp, hpt, hcase⟩⟩
    · omega
    · have e1 : maxFrameSize = 4294967295 := rfl
      have e2 : maxUnframedPlaintextSize = 68719476704 := rfl
      have e3 : lastFrameMark = 4294967295 := rfl
      rcases nextFrame_cases hn with ⟨rfl, rfl, h0, hk⟩ | ⟨rfl, h0, hk, rfl, hlt⟩ | ⟨rfl, h0, hk, rfl⟩
      · refine .number hnp ?_
        simp only [WriteOK] at hw
        omega
      · simp only [WriteOK] at hw
        omega
      · refine .size hnp ?_
        simp only [WriteOK] at hw
        omega
    · subst hpt
      have hl64 : pt.length < 2 ^ 64 := by have := writeOK_len hw; omega
      have hiv := frameIv_eq_bodyIv hp (n := v.s.seqno) (by omega)
      rcases hcase with hcase | ⟨ct, tag, ctx, c', h1, h2, h3⟩
      · rw [hiv, frameAad_eq_bodyAad (by omega) (by omega), a1.key, a1.header, hseq] at hcase
        exact .aead hnp hinp hcase
      · have hlens := e.crypto.aeadSeal_len _ _ _ _ _ _ h1
        have hsf := sealedFrame_of_encFrameOK (E := (· = e)) (env := e) rfl (s := { v.s with signctx := none }) (p := p') (t := type) (pt := pt) (ct := ct) (tag := tag)
          (sg := none) hp hfs ⟨hn, hsq, hq, hw, h1, hlens.1, hlens.2, rfl⟩ (fun h0 => by
            show v.s.seqno = 1
            rw [hseq]
            have := (ongoing_lengths a1.frames a2).2.2
            cases fr with
            | nil => rfl
            | cons x l => exact absurd h0 (this (by simp)))
        rw [a4] at h2
        cases hms : m.signctx with
        | none => rw [hms] at h2; cases h2
        | some ctx0 =>
          rw [hms] at h2
          simp only [absorbed, Option.map_some, Option.some.injEq] at h2
          subst h2
          have hsf2 : SealedFrame (· = e) k hd.sorted.messageId hd.sorted.frameLen (fr.length + 1) (encFrame v.s p' type ct tag) pt := by
            show SealedFrame (· = e) k hd.messageId hd.frameLen (fr.length + 1) (encFrame v.s p' type ct tag) pt
            rw [b5, ← hseq, ← a1.key, ← a1.header]
            exact hsf
          exact .digest (f := encFrame v.s p' type ct tag) hnp hinp hsf2 hms (by rw [← b4]; exact h3)
  · -- writeTrailer
    refine Or.inr ⟨by simp, by simp, ?_⟩
    obtain ⟨hd, m, p, k, hb, fr, a1, a2, a3, a4, -⟩ := hl
    obtain ⟨hm, -, p', hsp, hp, hsg⟩ := hst
    have hpp : p' = p := by
      have := a1.props
      rw [hsp] at this
      exact Option.some.inj this
    subst hpp
    obtain ⟨row, b1, b2, ⟨e', he', b3⟩, b4, b5, -, -⟩ := encLog_facts a1
    cases he'
    have hfr : AllFrames (SealedFrame (· = e) k hd.sorted.messageId hd.sorted.frameLen) fr := by
      show AllFrames (SealedFrame (· = e) k hd.messageId hd.frameLen) fr
      rw [b5]; exact a1.frames
    refine .signature (row := row) (h := hd.sorted) (m := m) (k := k) (fr := fr) (rest := inp) b3 hfr a2 (by rw [a1.consumed]) (by rw [a3, b4]; exact List.prefix_rfl) ?_
    obtain ⟨h0, ctx, h1, hcase⟩ := writeTrailer_err e v.s hsp hstate hsg.mp hres
    have hcurve : row.curveBits ≠ 0 := fun h' => h0 ((rowFacts b3.suite b1).sig.mpr h')
    rw [a4] at h1
    cases hms : m.signctx with
    | none => rw [hms] at h1; cases h1
    | some ctx0 =>
      rw [hms] at h1
      simp only [absorbed, Option.map_some, Option.some.injEq] at h1
      subst h1
      rw [b4] at hcase
      rcases hcase with hcase | ⟨sig, hcase, hlong, rfl⟩
      · exact .sign hcurve hms hcase
      · exact .long hcurve hms hcase (by rw [← row_sig b3.suite b1]; exact hlong)
  all_goals first | exact absurd hst.1 hne | exact absurd hl (by simp) | (exact absurd hstate hs.live)

/-! ### calls -/

/-- How the header step ends. -/
theorem tryGenKey_iff (env : Env) (s : Session) (hst : s.state = .genKey) (hm : s.mode = .encrypt) (hh : s.header = { encCtx := s.header.encCtx })
    (hfs : s.frameSize < 2 ^ 32) (hsm : HeaderSmall env s) :
    ((tryGenKey env s).2 = .ok ↔ HeaderWorks env s) ∧ ∀ c, ((tryGenKey env s).2 = .err c ↔ HeaderFails env s c) := by
  cases hg : env.cmm.generate (keyRequest s) with
  | mk ctx r =>
    cases r with
    | error c =>
      have : (tryGenKey env s).2 = .err c := by
        unfold tryGenKey
        simp only
        rw [show (⟨s.header.encCtx, 0, if s.preciseKnown then s.preciseSize else s.sizeBound, s.policy⟩ : EncRequest) = keyRequest s from rfl, hg]
      rw [this]
      refine ⟨⟨fun h => (by cases h), fun ⟨row, ctx', m', h, _⟩ => (by rw [hg] at h; cases h)⟩, fun c' => ⟨fun h => (by cases h; exact .cmm hg), fun h => ?_⟩⟩
      cases h with
      | cmm h => rw [hg] at h; cases h; rfl
      | suite h => rw [hg] at h; cases h
      | check h => rw [hg] at h; cases h
    | ok m =>
      by_cases hex : ∃ row ∈ suiteTable, row.id = m.alg
      · obtain ⟨row, hr, ha⟩ := hex
        obtain ⟨hfit, hw⟩ := hsm row ctx m hg hr ha
        have key := (tryGenKey_ends env s hr ha hst hm hh hfs hg hfit hw).iff (headerChecks_functional hr hw)
        constructor
        · rw [key.1]
          constructor
          · exact fun h => ⟨row, ctx, m, hg, hr, ha, h⟩
          · rintro ⟨row', ctx', m', h1, h2, h3, h4⟩
            rw [hg] at h1; cases h1
            have : row' = row := row_unique' h2 hr (h3.trans ha.symm)
            subst this
            exact h4
        · intro c
          rw [key.2 c]
          constructor
          · exact fun h => .check hg hr ha h
          · intro h
            cases h with
            | cmm h => rw [hg] at h; cases h
            | suite h hu => rw [hg] at h; cases h; exact absurd ha (hu row hr)
            | @check row' ctx' m' c h hr' ha' hc =>
              rw [hg] at h; cases h
              have : row' = row := row_unique' hr' hr (ha'.trans ha.symm)
              subst this
              exact hc
      · have hnone : algProps m.alg = none := by
          cases hp : algProps m.alg with
          | none => rfl
          | some p =>
            obtain ⟨row, hr, hid⟩ := algProps_row hp
            exact absurd ⟨row, hr, hid⟩ hex
        have : (tryGenKey env s).2 = .err .cryptoUnknown := by
          unfold tryGenKey
          simp only
          rw [show (⟨s.header.encCtx, 0, if s.preciseKnown then s.preciseSize else s.sizeBound, s.policy⟩ : EncRequest) = keyRequest s from rfl, hg]
          simp only
          unfold genKeyWith
          simp only [hnone]
        rw [this]
        refine ⟨⟨fun h => (by cases h), fun ⟨row, ctx', m', h, hr, ha, _⟩ => (by rw [hg] at h; cases h; exact absurd ⟨row, hr, ha⟩ hex)⟩,
          fun c' => ⟨fun h => (by cases h; exact .suite hg (fun row hr ha => hex ⟨row, hr, ha⟩)), fun h => ?_⟩⟩
        cases h with
        | cmm h => rw [hg] at h; cases h
        | suite h => rfl
        | check h hr ha => rw [hg] at h; cases h; exact absurd ⟨_, hr, ha⟩ hex

theorem Spec.SetUpEnc.step {e : Env} {s : Session} (hI : Inv s) (hs : SetUpEnc s) (mem inp : Bytes) (inNull : Bool) :
    SetUpEnc (sessionStep e s ⟨mem, 0⟩ inp inNull).s := by
  have hk := sessionStep_keeps e s hI mem inp inNull
  exact ⟨by rw [hk.mode]; exact hs.mode, sessionStep_not_error e s hI hs.live mem inp inNull, by rw [hk.policy]; exact hs.policy⟩

theorem Spec.SetUpEnc.steps {e : Env} {s s' : Session} {inNull : Bool} {inp inp' o : Bytes} (hI : Inv s) (hs : SetUpEnc s) (h : Steps e inNull s inp o s' inp') :
    SetUpEnc s' :=
  h.induct (I := fun s _ _ => SetUpEnc s) (fun _ _ _ _ hI h _ => h.step hI _ _ _) hI [] hs

theorem steps_rank {e : Env} {s s' : Session} {inNull : Bool} {inp inp' o : Bytes} (h : Steps e inNull s inp o s' inp') (hI : Inv s) :
    s'.state.rank ≤ s.state.rank := by
  induction h with
  | refl => exact Nat.le_refl _
  | @step s inp mem r out s' inp' hr hok h ih =>
    subst hr
    have h1 := ih ((sessionStep_ok e s hI mem inp inNull).inv hok)
    rcases sessionStep_rank e s hI mem inp inNull hok with h2 | h2
    · rw [h2] at h1; exact h1
    · omega

theorem genStep_state {e : Env} {s : Session} {mem inp : Bytes} {inNull : Bool} (hI : Inv s) (hst : s.state = .genKey)
    (hok : (sessionStep e s ⟨mem, 0⟩ inp inNull).res = .ok) : (sessionStep e s ⟨mem, 0⟩ inp inNull).s.state = .writeHeader := by
  have hc := sessionStep_cases e s hI mem inp inNull
  generalize sessionStep e s ⟨mem, 0⟩ inp inNull = r at hc hok ⊢
  cases hc with
  | gen _ hc =>
    cases hc with
    | fail e hr => rw [hr] at hok; cases hok
    | ok ctx m p mid k c ct tag sg hr hgk => rw [hgk.result]
  | cfgFail h | cfgEnc h | cfgDec h | parse h | dec h | check h | header h | body _ h | trailer _ h | done h | error h => rw [hst] at h; cases h

/-- The steps of an encrypting session from its configuration: it is still there, it is about to make the header, or it has made it. -/
theorem steps_from_config {e : Env} {s s' : Session} {inNull : Bool} {inp inp' o : Bytes} (h : Steps e inNull s inp o s' inp') (hI : Inv s)
    (hm : s.mode = .encrypt) :
    (s.state = .config → s' = s ∨ s' = { s with state := .genKey } ∨ (s'.state.rank < 4 ∧ (tryGenKey e { s with state := .genKey }).2 = .ok)) ∧
    (s.state = .genKey → s' = s ∨ (s'.state.rank < 4 ∧ (tryGenKey e s).2 = .ok)) := by
  induction h with
  | refl => exact ⟨fun _ => .inl rfl, fun _ => .inl rfl⟩
  | @step s inp mem r out s' inp' hr hok h ih =>
    subst hr
    have hI' := (sessionStep_ok e s hI mem inp inNull).inv hok
    have hk := sessionStep_keeps e s hI mem inp inNull
    have hrk := steps_rank h hI'
    have hc := sessionStep_cases e s hI mem inp inNull
    have ih := ih hI' (hk.mode.trans hm)
    constructor
    · intro hst
      generalize sessionStep e s ⟨mem, 0⟩ inp inNull = r at hc hok ih
      cases hc with
      | cfgFail _ hr => subst hr; cases hok
      | cfgEnc _ _ _ _ hr =>
        subst hr
        exact .inr (ih.2 rfl)
      | cfgDec _ hd _ _ _ => rw [hm] at hd; cases hd
      | parse h | dec h | check h | gen h | header h | body _ h | trailer _ h | done h | error h => rw [hst] at h; cases h
    · intro hst
      refine .inr ⟨?_, ?_⟩
      · rw [genStep_state hI hst hok] at hrk
        exact Nat.lt_of_le_of_lt hrk (by decide)
      · unfold sessionStep at hok
        simp only [hst] at hok
        exact hok

theorem steps_hasCmm {e : Env} {s s' : Session} {inNull : Bool} {inp inp' o : Bytes} (h : Steps e inNull s inp o s' inp') (hI : Inv s)
    (hc : s.hasCmm = true) : s'.hasCmm = true :=
  h.induct (I := fun s _ _ => s.hasCmm = true) (fun _ _ _ _ hI h _ => (sessionStep_hasCmm _ _ hI _ _ _).trans h) hI [] hc

theorem genKey_inv {s : Session} (hI : Inv s) (hst : s.state = .config) : s.header = { encCtx := s.header.encCtx } := by
  have := hI.st
  unfold StInv at this
  simp only [hst] at this
  exact this.2.header

theorem gen_of_config {e : Env} {s : Session} (hI : Inv s) (hst : s.state = .config) (hm : s.mode = .encrypt) (hsm : HeaderSmall e s) :
    ((tryGenKey e { s with state := .genKey }).2 = .ok ↔ HeaderWorks e s) ∧ ∀ c, ((tryGenKey e { s with state := .genKey }).2 = .err c ↔ HeaderFails e s c) := by
  have key := tryGenKey_iff e { s with state := .genKey } rfl hm (show s.header = _ from genKey_inv hI hst) hI.frameSize hsm
  have conv : ∀ c, HeaderFails e { s with state := .genKey } c ↔ HeaderFails e s c := by
    intro c
    constructor
    · intro h
      cases h with
      | cmm h => exact .cmm h
      | suite h hu => exact .suite h hu
      | check h hr ha hc => exact .check h hr ha hc
    · intro h
      cases h with
      | cmm h => exact .cmm h
      | suite h hu => exact .suite h hu
      | check h hr ha hc => exact .check h hr ha hc
  exact ⟨key.1, fun c => (key.2 c).trans (conv c)⟩

theorem Spec.EncryptFails.earlier {e : Env} {v : View} {s1 : Session} {b o inp inp1 : Bytes} {c : Err} (hk : Keeps v.s s1) (hm : v.s.mode = .encrypt)
    (hb : inp = b ++ inp1) (hne : s1.state ≠ .config) (h : EncryptFails e ⟨s1, v.consumed ++ b, v.released ++ o⟩ inp1 c) : EncryptFails e v inp c := by
  have np : ∀ {n t l}, NextPiece s1 n t l → NextPiece v.s n t l := by
    intro n t l h
    have e1 := hk.frameSize hm
    have e2 := hk.preciseKnown
    have e3 := hk.preciseSize
    cases h with
    | single h0 h1 => rw [e3]; exact .single (by rw [← e1]; exact h0) (by rw [← e2]; exact h1)
    | final h0 h1 h2 h3 =>
      rw [e3] at h2 h3 ⊢
      exact .final (by rw [← e1]; exact h0) (by rw [← e2]; exact h1) h2 (by rw [← e1]; exact h3)
    | frame h0 h1 =>
      rw [e1, e2, e3] at h1
      rw [e1]
      exact .frame (by rw [← e1]; exact h0) h1
  cases h with
  | header hst h => exact absurd hst hne
  | frame hh hf ho hx hl hr =>
    refine .frame hh hf ho (by rw [hb, ← hx, List.append_assoc]) ((List.prefix_append _ _).trans hl) ?_
    cases hr with
    | number hn hl => exact .number (np hn) hl
    | size hn hl => exact .size (np hn) hl
    | aead hn hr hs => exact .aead (np hn) hr hs
    | digest hn hr hs hm hd => exact .digest (np hn) hr hs hm hd
  | signature hh hf hc hx hl hr =>
    exact .signature hh hf hc (by rw [hb, ← hx, List.append_assoc]) ((List.prefix_append _ _).trans hl) hr

/-- Why a call of `process` of an encrypting session fails. -/
theorem enc_process_err {e : Env} {pol : Policy} {v : View} (h : HInv (· = e) pol v) (hs : SetUpEnc v.s) (hcm : v.s.hasCmm = true) (hng : v.s.state ≠ .genKey)
    (hsm : v.s.state = .config → HeaderSmall e v.s) {mem inp : Bytes} {inNull : Bool} {c : Err} (hres : (process e v.s mem inp inNull).res = .err c) :
    EncryptFails e v inp c ∧ (v.s.state = .config → HeaderFails e v.s c ∨ HeaderWorks e v.s) := by
  have hc := process_cases e v.s h.inv mem inp inNull
  generalize process e v.s mem inp inNull = o at hc hres
  cases hc with
  | ok rest hr => rw [hr] at hres; cases hres
  | err c' out inp1 mem1 s1 hr hmem hw hrl hI hst hsteps hI1 hfail hso =>
    have hs1 := hs.steps h.inv hsteps
    obtain ⟨b, hb, h1⟩ := hsteps.hinv (E := (· = e)) rfl (C := v.consumed) (R := v.released) h
    have hk := hsteps.keeps h.inv
    have hcm1 : s1.hasCmm = true := steps_hasCmm hsteps h.inv hcm
    have hcc : c = c' := by
      rcases hso with ⟨-, h2⟩ | ⟨h2, -⟩
      · exact absurd h2 hs1.live
      · rw [hr, h2] at hres
        exact (Res.err.inj hres).symm
    subst hcc
    have hfc := steps_from_config hsteps h.inv hs.mode
    rcases enc_step_err h1 hs1 hcm1 hfail with ⟨g1, g2⟩ | ⟨g1, g2, g3⟩
    · simp only at g1 g2
      have hvc : v.s.state = .config := by
        have hle := steps_rank hsteps h.inv
        have hst1 := h.inv.st
        unfold StInv at hst1
        rw [g1] at hle
        cases hv : v.s.state <;> simp only [hv] at hst1 hle
        all_goals first
          | rfl
          | (exfalso; have hm := hs.mode; rw [hm] at hst1; exact absurd hst1.1 (by decide))
          | exact absurd hle (by decide)
          | exact absurd hv hng
      have hs1e : s1 = { v.s with state := .genKey } := by
        rcases hfc.1 hvc with h2 | h2 | ⟨h2, -⟩
        · rw [h2, hvc] at g1; cases g1
        · exact h2
        · rw [g1] at h2; exact absurd h2 (by decide)
      rw [hs1e] at g2
      have hf := ((gen_of_config h.inv hvc hs.mode (hsm hvc)).2 c).mp g2
      exact ⟨.header hvc hf, fun _ => .inl hf⟩
    · refine ⟨g3.earlier hk hs.mode hb g1, fun hvc => .inr ?_⟩
      rcases hfc.1 hvc with h2 | h2 | ⟨-, h2⟩
      · rw [h2] at g1; exact absurd hvc g1
      · rw [h2] at g2; exact absurd rfl g2
      · exact (gen_of_config h.inv hvc hs.mode (hsm hvc)).1.mp h2

/-- If no header can be written, the first call fails with that error. -/
theorem enc_process_header {e : Env} {pol : Policy} {v : View} (h : HInv (· = e) pol v) (hs : SetUpEnc v.s) (hcm : v.s.hasCmm = true)
    (hvc : v.s.state = .config) (hsm : HeaderSmall e v.s) {mem inp : Bytes} {inNull : Bool} {c : Err} (hf : HeaderFails e v.s c) :
    (process e v.s mem inp inNull).res = .err c := by
  have hgen := gen_of_config h.inv hvc hs.mode hsm
  have hgc := (hgen.2 c).mpr hf
  have hc := process_cases e v.s h.inv mem inp inNull
  have hnot : ∀ {c'}, (process e v.s mem inp inNull).res = .err c' → c' = c := by
    intro c' h'
    rcases (enc_process_err h hs hcm (by rw [hvc]; simp) (fun _ => hsm) h').2 hvc with h2 | h2
    · have := (hgen.2 c').mpr h2
      rw [hgc] at this
      exact (Res.err.inj this).symm
    · have := hgen.1.mpr h2
      rw [hgc] at this; cases this
  generalize process e v.s mem inp inNull = o at hc hnot
  cases hc with
  | ok rest hr hml hw hread hrl hI hne hsteps hstall =>
    exfalso
    rcases (steps_from_config hsteps h.inv hs.mode).1 hvc with h2 | h2 | ⟨-, h2⟩
    · exact stalled_begun hstall (by rw [h2]; exact hvc)
    · obtain ⟨s1, mem, hI, hroom, hok, hs1, hb, hinp, hstate⟩ := hstall
      rw [h2] at hstate hs1
      have := genStep_state hI hstate.symm hok
      rw [hs1] at this; cases this
    · rw [hgc] at h2; cases h2
  | err c' out inp1 mem1 s1 hr => rw [hr, hnot hr]

end Verif
