import Verif.Proof.SessionDet
import Verif.Proof.SessionProgress
/-
A decrypting session that is fed a message from its beginning: what it has done at every point, and that no step fails.
-/
namespace Verif
open Spec

theorem deriveKey_of {hk : HkdfFn} {row : SuiteRow} (hr : row ∈ suiteTable) {p : AlgProps} (hp : algProps row.id = some p)
    {dk mid k c : Bytes} (hd : dk.length = p.dataKeyLen) (hmid : mid.length = if row.version = 1 then 16 else 32)
    (h : DerivedKey hk row dk mid k c) : deriveKey hk p dk mid p.commitmentLen = .ok k c := by
  have hf := rowFacts hr hp
  have f := suiteFacts hp
  obtain ⟨h1, h2⟩ := h
  have htake : dk.take p.dataKeyLen = dk := by rw [← hd, List.take_length]
  have hsha : ∀ sha, 8 * hashLen sha = row.kdfBits → sha = whichSha row.id := by
    intro sha hs
    have := hf.sha
    exact hashLen_inj (by omega)
  unfold deriveKey
  rcases hf.versions with hv | hv
  · rw [if_pos (by rw [hf.version]; exact hv)]
    have hc0 := hf.commit2.mpr hv
    rw [if_pos hc0] at h2
    rw [if_neg (by rw [hf.commit]; simpa using hc0)]
    unfold deriveKeyV1
    rw [if_pos hv] at hmid
    rw [if_neg (by simpa using hmid), f.id, htake]
    by_cases h0 : row.kdfBits = 0
    · rw [if_pos h0] at h1
      rw [if_pos (hf.nosha.mpr h0), h1, h2]
    · rw [if_neg h0] at h1
      obtain ⟨sha, hs, h1⟩ := h1
      rw [hsha sha hs, hv] at h1
      rw [if_neg (fun hn => h0 (hf.nosha.mp hn)), hf.key]
      have : contentKdfInput 1 row.id mid = ([], kdfInfoV1 row.id mid) := by
        simp [contentKdfInput, kdfInfoV1, u16_eq_be]
      rw [this] at h1
      simp only at h1
      rw [h1, h2]
  · have hv1 : ¬ row.version = 1 := by omega
    rw [if_neg (by rw [hf.version]; exact hv1), if_pos (by rw [hf.version]; exact hv)]
    have hc0 : ¬ row.commitment = 0 := fun h => hv1 (hf.commit2.mp h)
    rw [if_neg hc0] at h2
    obtain ⟨sha2, hs2, h2⟩ := h2
    rw [hsha sha2 hs2] at h2
    have hn : whichSha row.id ≠ .nosha := f.sha (by rw [hf.version]; exact hv)
    rw [if_neg (fun h => hn (hf.nosha.mpr h))] at h1
    obtain ⟨sha1, hs1, h1⟩ := h1
    rw [hsha sha1 hs1, hv] at h1
    rw [if_neg hv1] at hmid
    unfold deriveKeyV2
    rw [if_neg (by omega), if_neg (by simpa using hmid), f.id, if_neg hn, htake, hf.commit, hf.key]
    have e1 : contentKdfInput 2 row.id mid = (mid, kdfInfoV2 row.id) := by
      have : ascii "DERIVEKEY" = [0x44, 0x45, 0x52, 0x49, 0x56, 0x45, 0x4B, 0x45, 0x59] := by decide
      simp [contentKdfInput, kdfInfoV2, u16_eq_be, this]
    have e2 : commitKdfInput mid = (mid, commitInfo) := by
      have : commitInfo = [0x43, 0x4F, 0x4D, 0x4D, 0x49, 0x54, 0x4B, 0x45, 0x59] := by decide
      simp [commitKdfInput, this]
    rw [e1] at h1
    rw [e2] at h2
    simp only at h1 h2
    rw [h2]
    simp only
    rw [h1]

/-- A header that is as it should be is accepted. -/
theorem tryParseHeader_opens {env : Env} {s : Session} (hst : s.state = .readHeader) (hm : s.mode.isDecrypt = true)
    {mem inp rest : Bytes} {h : Hdr} {row : SuiteRow} {p mp : AlgProps} {m : DecMaterials} {k : Bytes}
    (hps : hdrParse s.maxEdks inp = .ok (h, rest)) (hok : HeaderOK row h) (hal : h.authLen = (wireAuthPart row.version h).length)
    (hinp : inp = wireHeader row.version h ++ rest) (hsz : intToSize (hdrSize h) = (wireHeader row.version h).length)
    (hp : algProps h.algId = some p) (halloc : ∀ a, env.alloc a = true) (hdig : ∀ c x, env.crypto.sigFail c x = none)
    (hcm : env.cmm.decrypt { encCtx := h.encCtx, edks := h.edks, alg := h.algId } = .ok m)
    (hmp : algProps m.alg = some mp) (hmode : s.mode = .decryptUnsigned → mp.signatureLen = 0)
    (hdk : m.dataKey.length = p.dataKeyLen) (hall : allowedForDecrypt h.algId s.policy = true)
    (hd : deriveKey env.crypto.hkdf p m.dataKey h.messageId p.commitmentLen = .ok k h.algSuiteData)
    (hauth : ∃ x, env.crypto.aeadOpen k (if row.version = 1 then h.iv else List.replicate 12 0)
      (wireAuthPart row.version h) [] h.authTag = .ok x)
    (hsig : p.signatureLen ≠ 0 → ∃ c, m.signctx = some c) :
    (tryParseHeader env s ⟨mem, 0⟩ inp).res = .ok := by
  have hp' := hp
  rw [hok.id] at hp'
  have hrf := rowFacts hok.suite hp'
  have hv := hrf.version
  have f := suiteFacts hp
  have hwl : (wireHeader row.version h).length = h.authLen + authtagLen p := by
    unfold wireHeader
    have e1 := hok.iv
    have e2 := hok.tag
    rw [List.length_append, List.length_append, ← hal, f.authtag, hv, e2]
    split <;> rename_i hh <;> simp only [hh, if_true, if_false] at e1 <;> simp [e1] <;> omega
  have hpos : 0 < authtagLen p := by rw [f.authtag]; split <;> decide
  have h0 : ¬ intToSize (hdrSize h) = 0 := by omega
  have hsmall : (wireHeader row.version h).length < 2 ^ 64 := by
    rw [← hsz]; unfold intToSize; omega
  have hcons : intToSize (hdrSize h) = inp.length - rest.length := by rw [hsz, hinp]; simp
  have htk : inp.take (intToSize (hdrSize h)) = wireHeader row.version h := by rw [hsz, hinp, List.take_left]
  have hcs : ∀ s1 : Session, s1.state = .readHeader → s1.mode.isDecrypt = true → s1.headerCopy.isSome = true → s1.headerSize ≠ 0 →
      changeState s1 .unwrapKey = some { s1 with state := .unwrapKey } := by
    intro s1 a1 a2 a3 a4
    simp [changeState, legalChange, a1, a2, a3, a4]
  have hdrop : ((wireHeader row.version h).drop h.authLen).take (authtagLen p) =
      (if row.version = 1 then h.iv else []) ++ h.authTag := by
    rw [hal]
    unfold wireHeader
    rw [List.append_assoc, List.drop_left, List.take_of_length_le]
    rw [f.authtag, hv, List.length_append, hok.tag]
    have e1 := hok.iv
    split <;> rename_i hh <;> simp only [hh, if_true, if_false] at e1 <;> simp [e1]
  have htake : (wireHeader row.version h).take h.authLen = wireAuthPart row.version h := by
    rw [hal]
    unfold wireHeader
    rw [List.append_assoc, List.take_left]
  have hsub : u64sub (intToSize (hdrSize h)) h.authLen = authtagLen p := by
    rw [hsz, hwl]
    rw [hwl] at hsmall
    unfold u64sub
    rw [Nat.mod_eq_of_lt (a := h.authLen) (by omega)]
    omega
  have hver : verifyHeader env.crypto p k ((if row.version = 1 then h.iv else []) ++ h.authTag) (wireAuthPart row.version h) = .ok () := by
    refine (verifyHeader_iff env.crypto hp k _ h.authTag _ hok.tag ?_).mpr ?_
    · rw [hv]
      have e1 := hok.iv
      split <;> rename_i hh <;> simp only [hh, if_true, if_false] at e1 <;> simp [e1]
    · obtain ⟨x, hx⟩ := hauth
      refine ⟨x, ?_⟩
      rw [hv, ← hx]
      split <;> simp
  have hce : commitmentEq h.algSuiteData h.algSuiteData = true :=
    (commitmentEq_iff _ _).mpr ⟨rfl, by
      rw [hok.suiteData, ← hrf.commit, f.commit]
      split <;> simp⟩
  unfold tryParseHeader hdrParseInto
  rw [hps]
  simp only
  unfold parsedHeader
  simp only
  rw [if_neg h0, if_neg (by simpa using hcons), halloc]
  simp only [Bool.not_true, Bool.false_eq_true, if_false]
  rw [hcs _ (by exact hst) (by exact hm) rfl (by exact h0), htk]
  simp only
  unfold unwrapKeys
  simp only [hp, halloc, Bool.not_true, Bool.false_eq_true, if_false, f.id, hcm]
  unfold unwrapWith
  simp only [hmp]
  rw [if_neg (fun hc => hc.2 (hmode hc.1))]
  unfold unwrapValidate deriveDataKey
  simp only
  rw [if_neg (by simpa using hdk), f.id, hall]
  simp only [Bool.not_true, Bool.false_eq_true, if_false, hd, hce]
  unfold validateHeader
  simp only
  rw [if_neg (by simp), if_neg h0, if_neg (by simpa using hsub)]
  simp only [hdrop, htake, hver]
  unfold unwrapSig
  by_cases hsl : p.signatureLen ≠ 0
  · obtain ⟨c, hc⟩ := hsig hsl
    rw [if_pos hsl, hc]
    simp only [Crypto.sigUpdate, hdig, Option.getD_some]
    rw [unwrapEnd_eq rfl rfl]
  · rw [if_neg hsl, unwrapEnd_eq rfl rfl]

theorem tryParseHeader_short {env : Env} {s : Session} {mem inp : Bytes} (hps : hdrParse s.maxEdks inp = .error .shortBuffer) :
    (tryParseHeader env s ⟨mem, 0⟩ inp).res = .ok := by
  unfold tryParseHeader hdrParseInto
  rw [hps]
  simp only [if_true]

/-- A frame that is as it should be, or only part of one, does not make a decrypting session fail. -/
theorem tryDecryptBody_opens {env : Env} {s : Session} {a : Nat} {p : AlgProps} (hp : algProps a = some p)
    (hsp : s.algProps = some p) (hst : s.state = .decryptBody) (hfs : s.frameSize < 2 ^ 32) {mem inp : Bytes}
    (hdig : ∀ c x, env.crypto.sigFail c x = none)
    (h : frameParser s.frameSize inp = .error .shortBuffer ∨
      ∃ f rest pt, frameParser s.frameSize inp = .ok (f, rest) ∧ f.seqno = s.seqno ∧
        env.crypto.aeadOpen s.contentKey f.iv (frameAad s.header.messageId f.type f.seqno f.ciphertext.length)
          f.ciphertext f.authtag = .ok pt) :
    (tryDecryptBody env s ⟨mem, 0⟩ inp).res = .ok := by
  have hpar := deserializeFrame_eq_parser hp hfs inp
  have hpl := fun f => deserializeFrame_plaintextSize hp hfs (bs := inp) (f := f)
  obtain ⟨er, mo, st, po, hc, ps, sb, ds, pk, hco, hsz, hd, fs, tr, ie, oe, sq, ap, ck, sgc, cs, me, no⟩ := s
  simp only at hsp hst hfs hpar hpl h
  subst hsp hst
  unfold tryDecryptBody
  simp only
  generalize hdz : deserializeFrame p fs inp = d at *
  obtain ⟨res, cz, pz, rest⟩ := d
  simp only [DeserResult.toParse] at hpar hpl ⊢
  cases res with
  | error e =>
    simp only at hpar ⊢
    rcases h with h | ⟨f, r, pt, h, -⟩
    · rw [h] at hpar
      cases hpar
      rw [if_pos rfl]
    · rw [h] at hpar; cases hpar
  | ok f =>
    simp only at hpar ⊢
    have hpz := hpl f rfl
    subst hpz
    rcases h with h | ⟨f', r, pt, h, hq, ho⟩
    · rw [h] at hpar; cases hpar
    · rw [h] at hpar
      cases hpar
      rw [if_neg (by simpa using hq.symm)]
      by_cases hroom : mem.length - 0 < f.ciphertext.length
      · rw [if_pos hroom]
      · rw [if_neg hroom]
        unfold decryptFrame decryptBody
        simp only
        rw [if_neg (by simp), ho]
        simp only
        cases sgc with
        | none => cases hft : f.type <;> simp [hft, sigFeed, enter, changeState, legalChange]
        | some c => cases hft : f.type <;> simp [hft, sigFeed, Crypto.sigUpdate, hdig, enter, changeState, legalChange]

theorem checkTrailer_opens {env : Env} {s : Session} (hst : s.state = .checkTrailer) {mem inp : Bytes}
    (halloc : ∀ a, env.alloc a = true)
    (h : ∀ c sig rest, s.signctx = some c → readTrailer inp = .ok (sig, rest) → env.crypto.verify c sig = .ok ()) :
    (checkTrailer env s ⟨mem, 0⟩ inp).res = .ok := by
  have hc := checkTrailer_cases env s hst mem inp
  obtain ⟨er, mo, st, po, hc', ps, sb, ds, pk, hco, hsz, hd, fs, tr, ie, oe, sq, ap, ck, sgc, cs, me, no⟩ := s
  simp only at hst h
  subst hst
  unfold checkTrailer
  simp only
  cases sgc with
  | none => simp [enter, changeState, legalChange]
  | some ctx =>
    simp only
    cases hr : readTrailer inp with
    | error n => rfl
    | ok x =>
      obtain ⟨sig, rest⟩ := x
      simp only [halloc, Bool.not_true, Bool.false_eq_true, if_false, h ctx sig rest rfl hr]

/-! ### following a message -/

/-- The signature in the trailer `tr`, if there is a trailer, is accepted by the context `c` for a message that consists of `signed`. -/
def Accepts (E : Env → Prop) (signed tr : Bytes) (c : SigCtx) : Prop :=
  tr ≠ [] → ∀ e, E e → ∃ sig, tr = wireTrailer sig ∧ sig.length < 65536 ∧ e.crypto.verify { c with data := c.data ++ signed } sig = .ok ()

/-- A message that can be read, complete or not. -/
structure Readable (E : Env → Prop) (row : SuiteRow) (hd : Hdr) (k : Bytes) (fr : List (Frame × Bytes)) (tr : Bytes) : Prop where
  alloc : ∀ e a, E e → e.alloc a = true
  digest : ∀ e c x, E e → e.crypto.sigFail c x = none
  ok : HeaderOK row hd
  size : intToSize (hdrSize hd) = (wireHeader row.version hd).length
  header : ∀ e, E e → ∃ m, HeaderVerified e row hd m k ∧ m.dataKey.length = row.keyBits / 8 ∧ (∃ mp, algProps m.alg = some mp) ∧
    (row.curveBits ≠ 0 → ∃ c, m.signctx = some c ∧ Accepts E (wireHeader row.version hd ++ bodyBytes fr) tr c)
  frames : ∀ e, E e → AllFrames (OpenedFrame (· = e) k hd.messageId hd.frameLen) fr
  body : (Ongoing fr ∧ tr = []) ∨ Complete fr
  unsigned : row.curveBits = 0 → tr = []

/-- The reader's signature context after `data`. -/
def SigAt (E : Env → Prop) (row : SuiteRow) (signed tr data : Bytes) (sg : Option SigCtx) : Prop :=
  if row.curveBits = 0 then sg = none
  else ∃ c : SigCtx, Accepts E signed tr c ∧ sg = some { c with data := c.data ++ data }

/-- Where a reader of a message stands: `rem` is still to come, `out` was released. -/
inductive Follows (E : Env → Prop) (row : SuiteRow) (hd : Hdr) (k : Bytes) (fr : List (Frame × Bytes)) (tr : Bytes)
    (s : Session) (rem out : Bytes) : Prop where
  | start (hst : s.state = .config ∨ s.state = .readHeader) (hsg : s.signctx = none) (hcmm : s.hasCmm = true)
      (hpv : s.policy.isValid = true)
      (hpol : allowedForDecrypt hd.algId s.policy = true) (hlim : s.maxEdks = 0 ∨ hd.edks.length ≤ s.maxEdks)
      (hmode : s.mode = .decrypt ∨ (s.mode = .decryptUnsigned ∧ ∀ e m, E e →
        e.cmm.decrypt { encCtx := hd.encCtx, edks := hd.edks, alg := hd.algId } = .ok m → ∃ mp, algProps m.alg = some mp ∧ mp.signatureLen = 0))
      (hrem : rem = wireHeader row.version hd ++ (bodyBytes fr ++ tr)) (hout : out = [])
  | body (fr1 fr2 : List (Frame × Bytes)) (hst : s.state = .decryptBody) (hfr : fr = fr1 ++ fr2) (hon : Ongoing fr1)
      (hkey : s.contentKey = k) (hmid : s.header.messageId = hd.messageId) (hfs : s.frameSize = hd.frameLen)
      (hseq : s.seqno = fr1.length + 1) (hsig : SigAt E row (wireHeader row.version hd ++ bodyBytes fr) tr (wireHeader row.version hd ++ bodyBytes fr1) s.signctx)
      (hrem : rem = bodyBytes fr2 ++ tr) (hout : out = bodyText fr1)
  | trailer (hst : s.state = .checkTrailer) (hcomp : Complete fr) (hout : out = bodyText fr)
      (hsig : (SigAt E row (wireHeader row.version hd ++ bodyBytes fr) tr (wireHeader row.version hd ++ bodyBytes fr) s.signctx ∧ rem = tr) ∨ (s.signctx = none ∧ rem = []))
  | done (hst : s.state = .done) (hcomp : Complete fr) (hout : out = bodyText fr) (hrem : rem = [])

theorem prefix_split {α : Type} {inp later a b : List α} (h : inp ++ later = a ++ b) :
    (∃ r, inp = a ++ r ∧ r ++ later = b) ∨ (∃ t, t ≠ [] ∧ a = inp ++ t ∧ later = t ++ b) := by
  rcases List.append_eq_append_iff.mp h with ⟨t, h1, h2⟩ | ⟨t, h1, h2⟩
  · by_cases ht : t = []
    · subst ht
      exact Or.inl ⟨[], by simpa using h1.symm, by simpa using h2⟩
    · exact Or.inr ⟨t, ht, h1, h2⟩
  · exact Or.inl ⟨t, h1, h2.symm⟩

theorem sigAt_feed {E : Env → Prop} {row : SuiteRow} {signed tr data x : Bytes} {sg sg' : Option SigCtx} {env : Env}
    (h : SigAt E row signed tr data sg) (hf : sigFeed env.crypto sg x = .ok sg') : SigAt E row signed tr (data ++ x) sg' := by
  unfold SigAt at h ⊢
  split at h
  · rename_i h0
    rw [if_pos h0]
    subst h
    simp only [sigFeed] at hf
    cases hf; rfl
  · rename_i h0
    rw [if_neg h0]
    obtain ⟨c, h1, rfl⟩ := h
    refine ⟨c, h1, ?_⟩
    simp only [sigFeed, Crypto.sigUpdate] at hf
    cases hsf : env.crypto.sigFail { c with data := c.data ++ data } x with
    | some e => rw [hsf] at hf; cases hf
    | none =>
      rw [hsf] at hf
      cases hf
      simp

theorem complete_split {fr1 fr2 : List (Frame × Bytes)} {x : Frame × Bytes} (h : Complete (fr1 ++ x :: fr2)) :
    (x.1.type ≠ .frame → fr2 = []) ∧ (x.1.type = .frame → fr2 ≠ []) := by
  obtain ⟨init, last, h1, h2, h3⟩ := h
  rcases List.eq_nil_or_concat fr2 with rfl | ⟨ys, y, rfl⟩
  · refine ⟨fun _ => rfl, fun hx => ?_⟩
    have := (List.append_inj' h1 rfl).2
    simp only [List.cons.injEq, and_true] at this
    subst this
    exact absurd hx h3
  · refine ⟨fun hx => ?_, fun _ => by simp⟩
    have h4 : (fr1 ++ x :: ys) ++ [y] = init ++ [last] := by rw [← h1]; simp
    have := (List.append_inj' h4 rfl).1
    subst this
    exact absurd (h2 x (by simp)) hx

/-- The outcome of a step of a reader that has been given `inp` of the remaining message `inp ++ later`. -/
structure FollowStep (E : Env → Prop) (row : SuiteRow) (hd : Hdr) (k : Bytes) (fr : List (Frame × Bytes)) (tr : Bytes)
    (s : Session) (mem inp later out : Bytes) (r : Step) : Prop where
  ok : r.res = .ok
  next : Follows E row hd k fr tr r.s (r.inp ++ later) (out ++ r.buf.mem.take r.buf.len)
  stall : r.buf.len = 0 → r.inp = inp → r.s.state = s.state → s.state = .done ∨ later ≠ [] ∨
    mem.length + out.length < (bodyText fr).length ∨ ¬ Complete fr ∨ (row.curveBits ≠ 0 ∧ tr = [])

theorem follow_step {E : Env → Prop} {row : SuiteRow} {hd : Hdr} {k : Bytes}
    {fr : List (Frame × Bytes)} {tr : Bytes} (hM : Readable E row hd k fr tr) {env : Env} (he : E env) {s : Session} (hI : Inv s)
    {mem inp later out : Bytes} (hF : Follows E row hd k fr tr s (inp ++ later) out) :
    FollowStep E row hd k fr tr s mem inp later out (sessionStep env s ⟨mem, 0⟩ inp false) := by
  have hc := sessionStep_cases env s hI mem inp false
  cases hF with
  | start hst hsg hcmm hpv hpol hlim hmode hrem hout =>
    have hdec : s.mode.isDecrypt = true := by rcases hmode with h | ⟨h, -⟩ <;> rw [h] <;> rfl
    rcases hst with hst | hst
    · have hstep : sessionStep env s ⟨mem, 0⟩ inp false = ⟨{ s with state := .readHeader }, ⟨mem, 0⟩, inp, .ok⟩ := by
        have hne : ¬ s.mode = .encrypt := fun h => by rw [h] at hdec; cases hdec
        unfold sessionStep
        simp [hst, hcmm, hpv, hne, enter, changeState, legalChange, hdec]
      rw [hstep]
      refine ⟨rfl, .start (Or.inr rfl) hsg hcmm hpv hpol hlim hmode hrem (by simp [hout]), fun _ _ h => ?_⟩
      rw [hst] at h; cases h
    · have hstep : sessionStep env s ⟨mem, 0⟩ inp false = tryParseHeader env s ⟨mem, 0⟩ inp := by
        unfold sessionStep; simp only [hst]
      rw [hstep]
      have hpc := tryParseHeader_cases env s hst hdec mem inp
      have hpf : ∀ t, hdrParse s.maxEdks (wireHeader row.version hd ++ t) =
          .ok ({ hd with authLen := (wireAuthPart row.version hd).length }, t) := by
        intro t
        refine hdrParse_iff.mpr ⟨row, ⟨hM.ok.suite, hM.ok.id, hM.ok.messageId, hM.ok.suiteData, hM.ok.iv, hM.ok.tag, hM.ok.frameLen,
          hM.ok.edksNonempty, hM.ok.edksCount, hM.ok.edksFit, hM.ok.ctxKeys, hM.ok.ctxFits⟩, hlim, rfl, rfl⟩
      rcases prefix_split hrem with ⟨r, h1, h2⟩ | ⟨t, ht, h1, h2⟩
      · obtain ⟨m', hver, hdk, ⟨mp, hmp⟩, hctx⟩ := hM.header env he
        obtain ⟨p, hp⟩ := algProps_of_row hM.ok.suite
        have hrf := rowFacts hM.ok.suite hp
        have hp' : algProps hd.algId = some p := by rw [hM.ok.id]; exact hp
        rw [← hrf.dataKey] at hdk
        have hder := deriveKey_of hM.ok.suite hp hdk hM.ok.messageId hver.key
        have hres := tryParseHeader_opens (env := env) (mem := mem) (inp := inp) hst hdec (rest := r)
          (h := { hd with authLen := (wireAuthPart row.version hd).length }) (row := row) (p := p) (mp := mp)
          (m := m') (k := k) (by rw [h1]; exact hpf r)
          ⟨hM.ok.suite, hM.ok.id, hM.ok.messageId, hM.ok.suiteData, hM.ok.iv, hM.ok.tag, hM.ok.frameLen,
            hM.ok.edksNonempty, hM.ok.edksCount, hM.ok.edksFit, hM.ok.ctxKeys, hM.ok.ctxFits⟩ rfl h1 hM.size
          hp' (fun a => hM.alloc env a he) (fun c x => hM.digest env c x he) hver.cmm hmp
          (by
            intro hu
            rcases hmode with hmode | ⟨-, hmode⟩
            · rw [hmode] at hu; cases hu
            · obtain ⟨mp', h3, h4⟩ := hmode env m' he hver.cmm
              rw [hmp] at h3; cases h3; exact h4)
          hdk hpol hder hver.tag
          (by
            intro hs0
            obtain ⟨c, hc, -⟩ := hctx (fun h0 => hs0 (hrf.sig.mpr h0))
            exact ⟨c, hc⟩)
        generalize tryParseHeader env s ⟨mem, 0⟩ inp = st at hres hpc ⊢
        cases hpc with
        | fail e hr => rw [hr] at hres; cases hres
        | stall est hr hbuf hinp hs why hest => rw [h1, hpf] at why; cases why
        | opened hb h row' p' m'' k' sg hr hbuf hok =>
          have e1 := hok.parse
          rw [h1, hpf] at e1
          have e2 := (Prod.mk.inj (Except.ok.inj e1)).1
          have e3 := (Prod.mk.inj (Except.ok.inj e1)).2
          subst e2
          have hrow : row' = row := row_unique' hok.ok.suite hM.ok.suite (hok.ok.id.symm.trans hM.ok.id)
          subst hrow
          have hpp := hok.props
          have hp'' : algProps hd.algId = some p' := hpp
          rw [hp'] at hp''
          cases hp''
          have hm'' : m'' = m' := Except.ok.inj (hok.cmm.symm.trans hver.cmm)
          subst hm''
          have hkk : k' = k := by
            have h7 := hok.derive.symm.trans hder
            cases h7; rfl
          subst hkk
          have hwb : hb = wireHeader row'.version hd := hok.bytes
          refine ⟨hr, ?_, fun _ hi _ => ?_⟩
          · rw [hbuf, hok.result, ← e3]
            refine .body [] fr rfl rfl (by intro x hx; cases hx) rfl rfl rfl rfl ?_ h2 (by simp [hout, bodyText])
            unfold SigAt
            rcases hok.sig with ⟨g1, g2⟩ | ⟨g1, c0, c1', g2, g3, g4⟩
            · rw [if_pos (hrf.sig.mp g1)]; exact g2.trans hsg
            · rw [if_neg (fun h0 => g1 (hrf.sig.mpr h0))]
              obtain ⟨c, hc, hv⟩ := hctx (fun h0 => g1 (hrf.sig.mpr h0))
              rw [hc] at g2
              have g5 := Option.some.inj g2
              subst g5
              refine ⟨c, hv, ?_⟩
              rw [Crypto.sigUpdate, hM.digest env _ _ he] at g3
              cases g3
              show sg = _
              rw [g4, hwb]
              simp [bodyBytes]
          · exfalso
            have := congrArg List.length (hok.input.symm.trans hi.symm)
            have hwl : 0 < hb.length := by
              rw [hwb]; unfold wireHeader
              have : hd.authTag.length = 16 := hok.ok.tag
              simp only [List.length_append]; omega
            simp only [List.length_append] at this
            omega
      · have hshort : hdrParse s.maxEdks inp = .error .shortBuffer := by
          obtain ⟨c, h3, -, h4⟩ := (Streaming.hdrParse s.maxEdks).ok _ _ _ (hpf [])
          rw [List.append_nil, List.append_nil] at h3
          subst h3
          exact h4 inp t h1 ht
        have hres := tryParseHeader_short (env := env) (s := s) (mem := mem) hshort
        generalize tryParseHeader env s ⟨mem, 0⟩ inp = r at hres hpc ⊢
        cases hpc with
        | fail e hr => rw [hr] at hres; cases hres
        | stall est hr hbuf hinp hs why hest =>
          refine ⟨hr, ?_, fun _ _ _ => Or.inr (Or.inl ?_)⟩
          · rw [hinp, hbuf, hs]
            exact .start (Or.inr hst) hsg hcmm hpv hpol hlim hmode hrem (by simp [hout])
          · rw [h2]; simp [ht]
        | opened hb h row' p m' k' sg hr hbuf hok => rw [hok.parse] at hshort; cases hshort
  | body fr1 fr2 hst hfr hon hkey hmid hfs hseq hsig hrem hout =>
    have hstep : sessionStep env s ⟨mem, 0⟩ inp false = tryDecryptBody env s ⟨mem, 0⟩ inp := by
      unfold sessionStep; simp only [hst]
    rw [hstep]
    have hsi := hI.st
    unfold StInv at hsi
    simp only [hst] at hsi
    obtain ⟨-, -, p, hsp, hp⟩ := hsi
    have hdc := tryDecryptBody_cases env s hp hsp hst hI.frameSize mem inp
    cases fr2 with
    | nil =>
      -- all frames were read, but the message goes on
      rw [List.append_nil] at hfr
      subst hfr
      have hnc : ¬ Complete fr := by
        rintro ⟨init, last, h1, -, h3⟩
        exact h3 (hon last (by rw [h1]; simp))
      have htr : tr = [] := by
        rcases hM.body with ⟨-, h⟩ | h
        · exact h
        · exact absurd h hnc
      have hnil : inp = [] ∧ later = [] := by
        rw [htr] at hrem
        simpa [bodyBytes] using hrem
      obtain ⟨rfl, rfl⟩ := hnil
      have hshort : frameParser s.frameSize [] = .error .shortBuffer := by
        unfold frameParser
        split
        · exact P.bind_err (rdBE_short (by simp))
        · exact P.bind_err (rdN_short (by simp))
      have hres := tryDecryptBody_opens (env := env) (mem := mem) hp hsp hst hI.frameSize (fun c x => hM.digest env c x he) (Or.inl hshort)
      generalize tryDecryptBody env s ⟨mem, 0⟩ [] = st at hres hdc ⊢
      cases hdc with
      | fail e i o q sg hr => rw [hr] at hres; cases hres
      | stall i o hr hs hbuf hinp why =>
        refine ⟨hr, ?_, fun _ _ _ => Or.inr (Or.inr (Or.inr (Or.inl hnc)))⟩
        rw [hinp, hbuf, hs]
        exact .body fr [] hst (by simp) hon hkey hmid hfs hseq hsig (by simp [htr, bodyBytes]) (by simp [hout])
      | opened f pt sg i hr hparse => rw [hshort] at hparse; cases hparse
    | cons x fr2 =>
      obtain ⟨f, pt⟩ := x
      have hsf : OpenedFrame (· = env) k hd.messageId hd.frameLen (fr1.length + 1) f pt := by
        have := hM.frames env he fr1.length (by rw [hfr]; simp)
        simp only [hfr, List.getElem_append_right (Nat.le_refl _), Nat.sub_self, List.getElem_cons_zero] at this
        exact this
      have hqs : f.seqno < 2 ^ 32 := hsf.ok.seqno
      have hrem' : inp ++ later = wireFrame f ++ (bodyBytes fr2 ++ tr) := by
        rw [hrem]; simp [bodyBytes]
      have hpf : ∀ t, frameParser s.frameSize (wireFrame f ++ t) = .ok (f, t) := by
        intro t
        rw [hfs]
        exact (frameParser_iff hM.ok.frameLen).mpr ⟨hsf.ok, rfl⟩
      have hopen : env.crypto.aeadOpen s.contentKey f.iv (frameAad s.header.messageId f.type f.seqno f.ciphertext.length)
          f.ciphertext f.authtag = .ok pt := by
        obtain ⟨e1, rfl, hs1⟩ := hsf.opened
        have hlen : f.ciphertext.length < 2 ^ 64 := by
          have h3 := hsf.ok.shape
          have h4 := hM.ok.frameLen
          cases hft : f.type <;> rw [hft] at h3 <;> simp only at h3 <;> omega
        rw [hkey, hmid, hsf.seqno, frameAad_eq_bodyAad (by rw [← hsf.seqno]; exact hqs) hlen]
        exact hs1
      rcases prefix_split hrem' with ⟨r, h1, h2⟩ | ⟨t, ht, h1, h2⟩
      · have hres := tryDecryptBody_opens (env := env) (mem := mem) (inp := inp) hp hsp hst hI.frameSize (fun c x => hM.digest env c x he)
          (Or.inr ⟨f, r, pt, by rw [h1]; exact hpf r, by rw [hsf.seqno, hseq], hopen⟩)
        generalize tryDecryptBody env s ⟨mem, 0⟩ inp = st at hres hdc ⊢
        cases hdc with
        | fail e i o q sg hr => rw [hr] at hres; cases hres
        | stall i o hr hs hbuf hinp why =>
          rcases why with ⟨hw, -⟩ | ⟨f', r', hw, -, ho', hroom⟩
          · rw [h1, hpf] at hw; cases hw
          · rw [h1, hpf] at hw
            cases hw
            refine ⟨hr, ?_, fun _ _ _ => Or.inr (Or.inr (Or.inl ?_))⟩
            · rw [hinp, hbuf, hs]
              exact .body fr1 ((f, pt) :: fr2) hst hfr hon hkey hmid hfs hseq hsig hrem (by simp [hout])
            · rw [hfr, hout]
              rw [ho', hsf.len] at hroom
              simp only [bodyText, List.map_append, List.map_cons, List.flatten_append, List.flatten_cons, List.length_append]
              omega
        | opened f' pt' sg i hr hparse hok hinp hq hop hpt hroom hfeed hs hbuf =>
          rw [h1, hpf] at hparse
          have e1 := (Prod.mk.inj (Except.ok.inj hparse)).1
          have e2 := (Prod.mk.inj (Except.ok.inj hparse)).2
          subst e1
          rw [hopen] at hop
          cases hop
          have hsig' := sigAt_feed hsig hfeed
          have hbb : bodyBytes (fr1 ++ [(f, pt)]) = bodyBytes fr1 ++ wireFrame f := by simp [bodyBytes]
          have hbt : bodyText (fr1 ++ [(f, pt)]) = bodyText fr1 ++ pt := by simp [bodyText]
          rw [List.append_assoc, ← hbb] at hsig'
          have hout' : out ++ st.buf.mem.take st.buf.len = bodyText (fr1 ++ [(f, pt)]) := by
            rw [hbuf, hbt, hout]; simp
          refine ⟨hr, ?_, fun _ hi _ => ?_⟩
          · rw [hout', ← e2, hs]
            by_cases hft : f.type = .frame
            · refine .body (fr1 ++ [(f, pt)]) fr2 (by simp [decFrameState, hft]) (by simp [hfr]) ?_ hkey hmid hfs ?_ hsig' h2 rfl
              · intro x hx
                rcases List.mem_append.mp hx with hx | hx
                · exact hon x hx
                · simp only [List.mem_singleton] at hx; rw [hx]; exact hft
              · show u64 (s.seqno + 1) = _
                rw [hseq]
                have : fr1.length + 1 < 2 ^ 32 := by rw [← hsf.seqno]; exact hqs
                simp only [u64, List.length_append, List.length_cons, List.length_nil]
                omega
            · have hcomp : Complete fr := by
                rcases hM.body with ⟨h, -⟩ | h
                · exact absurd (h (f, pt) (by rw [hfr]; simp)) hft
                · exact h
              have h3 : fr2 = [] := (complete_split (hfr ▸ hcomp)).1 hft
              subst h3
              have : fr1 ++ [(f, pt)] = fr := hfr.symm
              rw [this] at hsig' ⊢
              exact .trailer (by simp [decFrameState, hft]) hcomp rfl (Or.inl ⟨hsig', by rw [h2]; simp [bodyBytes]⟩)
          · exfalso
            have := length_wireFrame hsf.ok
            have h3 := congrArg List.length (hinp.symm.trans hi.symm)
            simp only [List.length_append] at h3
            cases hft : f.type <;> simp only [hft, frameSize] at this <;> omega
      · have hshort : frameParser s.frameSize inp = .error .shortBuffer := by
          obtain ⟨c, h3, -, h4⟩ := (Streaming.frameParser s.frameSize).ok _ _ _ (hpf [])
          rw [List.append_nil, List.append_nil] at h3
          subst h3
          exact h4 inp t h1 ht
        have hres := tryDecryptBody_opens (env := env) (mem := mem) (inp := inp) hp hsp hst hI.frameSize (fun c x => hM.digest env c x he) (Or.inl hshort)
        generalize tryDecryptBody env s ⟨mem, 0⟩ inp = st at hres hdc ⊢
        cases hdc with
        | fail e i o q sg hr => rw [hr] at hres; cases hres
        | stall i o hr hs hbuf hinp why =>
          refine ⟨hr, ?_, fun _ _ _ => Or.inr (Or.inl (by rw [h2]; simp [ht]))⟩
          rw [hinp, hbuf, hs]
          exact .body fr1 ((f, pt) :: fr2) hst hfr hon hkey hmid hfs hseq hsig hrem (by simp [hout])
        | opened f' pt' sg i hr hparse => rw [hshort] at hparse; cases hparse
  | trailer hst hcomp hout hsig =>
    have hstep : sessionStep env s ⟨mem, 0⟩ inp false = checkTrailer env s ⟨mem, 0⟩ inp := by
      unfold sessionStep; simp only [hst]
    rw [hstep]
    have htc := checkTrailer_cases env s hst mem inp
    rcases hsig with ⟨hsig, hrem⟩ | ⟨hsig, hrem⟩
    · unfold SigAt at hsig
      split at hsig
      · rename_i h0
        have htr : tr = [] := hM.unsigned h0
        have hres := checkTrailer_opens (env := env) (mem := mem) (inp := inp) hst (fun a => hM.alloc env a he)
          (fun c _ _ hc => by rw [hsig] at hc; cases hc)
        generalize checkTrailer env s ⟨mem, 0⟩ inp = st at hres htc ⊢
        cases htc with
        | fail e ctx sg hr => rw [hr] at hres; cases hres
        | stall n ctx hr hctx => rw [hsig] at hctx; cases hctx
        | noSig hr hctx hs hbuf hinp =>
          refine ⟨hr, ?_, fun _ _ h => ?_⟩
          · rw [hinp, hbuf, hs]
            exact .done rfl hcomp (by simp [hout]) (by rw [hrem, htr])
          · rw [hs, hst] at h; cases h
        | verified ctx sig hr hctx => rw [hsig] at hctx; cases hctx
      · rename_i h0
        obtain ⟨c, g1, g2⟩ := hsig
        have htr : tr = [] ∨ ∃ sig, tr = be 2 sig.length ++ sig ∧ sig.length < 65536 ∧
            env.crypto.verify { c with data := c.data ++ (wireHeader row.version hd ++ bodyBytes fr) } sig = .ok () := by
          by_cases h : tr = []
          · exact Or.inl h
          · obtain ⟨sig, h1, h2, h3⟩ := g1 h env he
            exact Or.inr ⟨sig, by rw [h1, wireTrailer, u16_eq_be], h2, h3⟩
        have hread : ∀ sig rest, readTrailer inp = .ok (sig, rest) → rest = [] ∧ later = [] ∧
            env.crypto.verify { c with data := c.data ++ (wireHeader row.version hd ++ bodyBytes fr) } sig = .ok () := by
          intro sig rest hrt
          obtain ⟨h1, h2⟩ := readTrailer_ok hrt
          rcases htr with htr | ⟨sig0, k3, k4, k1⟩
          · exfalso
            have h3 := congrArg List.length hrem
            rw [htr, h1] at h3
            simp only [List.length_append, length_be, List.length_nil] at h3
            omega
          · rw [k3, h1, List.append_assoc, List.append_assoc] at hrem
            obtain ⟨h3, h4⟩ := List.append_inj hrem (by simp)
            have hl : sig.length = sig0.length := by
              have := congrArg unbe h3
              rwa [unbe_be (by simpa using h2), unbe_be (by simpa using k4)] at this
            have h5 : sig = sig0 ∧ rest ++ later = [] := by
              have h6 : sig ++ (rest ++ later) = sig0 ++ [] := by rw [List.append_nil]; simpa using h4
              exact List.append_inj h6 hl
            obtain ⟨rfl, h5⟩ := h5
            have h7 := List.append_eq_nil_iff.mp h5
            exact ⟨h7.1, h7.2, k1⟩
        have hres := checkTrailer_opens (env := env) (mem := mem) (inp := inp) hst (fun a => hM.alloc env a he)
          (fun ct sig rest hc hrt => by
            rw [g2] at hc
            cases hc
            exact (hread sig rest hrt).2.2)
        have hwhole : ∀ sig, tr = be 2 sig.length ++ sig → sig.length < 65536 → later = [] → readTrailer inp = .ok (sig, []) := by
          intro sig k3 k4 hl
          rw [hl, List.append_nil, k3] at hrem
          rw [hrem]
          unfold readTrailer
          rw [rd_append' (length_be 2 _)]
          simp only
          rw [unbe_be (by simpa using k4)]
          have := rd_append sig []
          rw [List.append_nil] at this
          rw [this]
        generalize checkTrailer env s ⟨mem, 0⟩ inp = st at hres htc ⊢
        cases htc with
        | fail e ctx sg hr => rw [hr] at hres; cases hres
        | stall n ctx hr hctx hs hbuf hinp why =>
          refine ⟨hr, ?_, fun _ _ _ => ?_⟩
          · rw [hinp, hbuf, hs]
            refine .trailer hst hcomp (by simp [hout]) (Or.inl ⟨?_, hrem⟩)
            unfold SigAt
            rw [if_neg h0]
            exact ⟨c, g1, g2⟩
          · rcases htr with htr | ⟨sig0, k3, k4, k1⟩
            · exact Or.inr (Or.inr (Or.inr (Or.inr ⟨h0, htr⟩)))
            · refine Or.inr (Or.inl fun hl => ?_)
              rw [hwhole sig0 k3 k4 hl] at why
              cases why
        | noSig hr hctx => rw [g2] at hctx; cases hctx
        | verified ctx sig hr hctx hver hs hbuf hinp hl =>
          have hrt : st.inp = [] ∧ later = [] := by
            rcases htr with htr | ⟨sig0, k3, k4, k1⟩
            · exfalso
              have h3 := congrArg List.length hrem
              rw [htr, hinp] at h3
              simp only [List.length_append, length_be, List.length_nil] at h3
              omega
            · rw [k3, hinp, List.append_assoc, List.append_assoc] at hrem
              obtain ⟨h3, h4⟩ := List.append_inj hrem (by simp)
              have hl : sig.length = sig0.length := by
                have := congrArg unbe h3
                rwa [unbe_be (by simpa using hl), unbe_be (by simpa using k4)] at this
              have h6 : sig ++ (st.inp ++ later) = sig0 ++ [] := by rw [List.append_nil]; simpa using h4
              exact List.append_eq_nil_iff.mp (List.append_inj h6 hl).2
          refine ⟨hr, ?_, fun _ hi _ => ?_⟩
          · rw [hbuf, hs, hrt.1, hrt.2]
            exact .trailer hst hcomp (by simp [hout]) (Or.inr ⟨rfl, rfl⟩)
          · exfalso
            have h3 := congrArg List.length (hinp.symm.trans hi.symm)
            simp only [List.length_append, length_be] at h3
            omega
    · have hres := checkTrailer_opens (env := env) (mem := mem) (inp := inp) hst (fun a => hM.alloc env a he)
        (fun c _ _ hc => by rw [hsig] at hc; cases hc)
      generalize checkTrailer env s ⟨mem, 0⟩ inp = st at hres htc ⊢
      cases htc with
      | fail e ctx sg hr => rw [hr] at hres; cases hres
      | stall n ctx hr hctx => rw [hsig] at hctx; cases hctx
      | noSig hr hctx hs hbuf hinp =>
        refine ⟨hr, ?_, fun _ _ h => ?_⟩
        · rw [hinp, hbuf, hs]
          exact .done rfl hcomp (by simp [hout]) hrem
        · rw [hs, hst] at h; cases h
      | verified ctx sig hr hctx => rw [hsig] at hctx; cases hctx
  | done hst hcomp hout hrem =>
    have hstep : sessionStep env s ⟨mem, 0⟩ inp false = ⟨s, ⟨mem, 0⟩, inp, .ok⟩ := by
      unfold sessionStep; simp only [hst]
    rw [hstep]
    exact ⟨rfl, .done hst hcomp (by simp [hout]) hrem, fun _ _ _ => Or.inl hst⟩

/-- How a call ends for a reader that has been given `inp` of the remaining message `inp ++ later`. -/
structure FollowEnd (E : Env → Prop) (row : SuiteRow) (hd : Hdr) (k : Bytes) (fr : List (Frame × Bytes)) (tr : Bytes)
    (later out : Bytes) (r : Step) : Prop where
  ok : r.res = .ok
  inv : Inv r.s
  next : Follows E row hd k fr tr r.s (r.inp ++ later) out
  stall : r.s.state = .done ∨ later ≠ [] ∨ (r.buf.mem.length - r.buf.len) + out.length < (bodyText fr).length ∨ ¬ Complete fr ∨
    (row.curveBits ≠ 0 ∧ tr = [])

theorem follow_loop {E : Env → Prop} {row : SuiteRow} {hd : Hdr} {k : Bytes}
    {fr : List (Frame × Bytes)} {tr : Bytes} (hM : Readable E row hd k fr tr) {env : Env} (he : E env) (later out0 : Bytes) (fuel : Nat) :
    ∀ (s : Session) (out : WBuf) (inp : Bytes), Inv s → out.len ≤ out.mem.length →
      Follows E row hd k fr tr s (inp ++ later) (out0 ++ out.mem.take out.len) →
      (processLoop env false fuel s out inp).res ≠ .diverge →
      FollowEnd E row hd k fr tr later (out0 ++ (processLoop env false fuel s out inp).buf.mem.take (processLoop env false fuel s out inp).buf.len)
        (processLoop env false fuel s out inp) := by
  induction fuel with
  | zero => intro s out inp _ _ _ h; exact absurd rfl h
  | succ n ih =>
    intro s out inp hI hb hF hdv
    have hok := sessionStep_ok env s hI (out.mem.drop out.len) inp false
    have hfs := follow_step hM he hI (mem := out.mem.drop out.len) hF
    unfold processLoop at hdv ⊢
    simp only at hdv ⊢
    generalize sessionStep env s ⟨out.mem.drop out.len, 0⟩ inp false = r at hok hfs hdv ⊢
    rw [hfs.ok] at hdv ⊢
    simp only at hdv ⊢
    have hl1 : (out.mem.take out.len).length = out.len := by simp; omega
    have hl2 : (out.mem.take out.len ++ r.buf.mem).length = out.mem.length := by
      have := hok.memLen
      simp only [List.length_append, List.length_drop] at this ⊢
      omega
    have htk : (out.mem.take out.len ++ r.buf.mem).take (out.len + r.buf.len) = out.mem.take out.len ++ r.buf.mem.take r.buf.len := by
      rw [List.take_append, hl1, List.take_of_length_le (by omega), Nat.add_sub_cancel_left]
    have hbl : out.len + r.buf.len ≤ out.mem.length := by
      have := hok.bufLen
      simp only [List.length_drop] at this
      omega
    have hnext := hfs.next
    rw [List.append_assoc, ← htk] at hnext
    split
    · rename_i hprog
      rw [if_pos hprog] at hdv
      exact ih _ _ _ (hok.inv hfs.ok) (by simp only [hl2]; exact hbl) hnext hdv
    · rename_i hprog
      simp only [not_or, Decidable.not_not] at hprog
      obtain ⟨h1, h2, h3⟩ := hprog
      have hinp : r.inp = inp := by
        obtain ⟨c, hc⟩ := hok.suffix hfs.ok
        have h4 := congrArg List.length hc
        rw [List.length_append] at h4
        have : c = [] := List.eq_nil_of_length_eq_zero (by omega)
        rw [hc, this]; rfl
      refine ⟨rfl, hok.inv hfs.ok, hnext, ?_⟩
      have hst := hfs.stall h1 hinp h3.symm
      simp only
      rw [← h3, hl2, h1, Nat.add_zero, htk, h1] at *
      rcases hst with h | h | h | h | h
      · exact Or.inl h
      · exact Or.inr (Or.inl h)
      · refine Or.inr (Or.inr (Or.inl ?_))
        simp only [List.length_append, List.length_drop, List.length_take] at h ⊢
        omega
      · exact Or.inr (Or.inr (Or.inr (Or.inl h)))
      · exact Or.inr (Or.inr (Or.inr (Or.inr h)))

/-- A call of `process` by a reader that is given the next part of the message. -/
theorem follow_process {E : Env → Prop} {row : SuiteRow} {hd : Hdr} {k : Bytes}
    {fr : List (Frame × Bytes)} {tr : Bytes} (hM : Readable E row hd k fr tr) {env : Env} (he : E env) {s : Session} (hI : Inv s)
    {mem inp later out0 : Bytes} (hF : Follows E row hd k fr tr s (inp ++ later) out0) :
    (process env s mem inp false).res = .ok ∧ Inv (process env s mem inp false).s ∧
    (∃ rest, inp = inp.take (process env s mem inp false).read ++ rest ∧ (process env s mem inp false).read ≤ inp.length ∧
      Follows E row hd k fr tr (process env s mem inp false).s (rest ++ later)
        (out0 ++ (process env s mem inp false).mem.take (process env s mem inp false).written)) ∧
    (later = [] → (bodyText fr).length ≤ out0.length + mem.length → Complete fr → (row.curveBits ≠ 0 → tr ≠ []) →
      (process env s mem inp false).s.state = .done) := by
  have hrank : s.state.rank ≤ 5 := by cases s.state <;> decide
  have hlo := processLoop_ok env false (processFuel mem inp) s ⟨mem, 0⟩ inp hI (Nat.zero_le _)
    (by unfold processFuel; simp only; omega)
  have hfo := follow_loop hM he later out0 (processFuel mem inp) s ⟨mem, 0⟩ inp hI (Nat.zero_le _) (by simpa using hF)
    (by rcases hlo.cases with ⟨h, -⟩ | ⟨e, _, _, _, _, h, -⟩ <;> rw [h] <;> simp)
  have hpc := process_cases env s hI mem inp false
  have hres : (process env s mem inp false).res = .ok ∧ (process env s mem inp false).s = (processLoop env false (processFuel mem inp) s ⟨mem, 0⟩ inp).s ∧
      (process env s mem inp false).mem = (processLoop env false (processFuel mem inp) s ⟨mem, 0⟩ inp).buf.mem ∧
      (process env s mem inp false).written = (processLoop env false (processFuel mem inp) s ⟨mem, 0⟩ inp).buf.len ∧
      (process env s mem inp false).read = inp.length - (processLoop env false (processFuel mem inp) s ⟨mem, 0⟩ inp).inp.length := by
    have hne : (processLoop env false (processFuel mem inp) s ⟨mem, 0⟩ inp).s.state ≠ .error := by
      intro h
      cases hfo.next with
      | start hst => rw [h] at hst; simp at hst
      | body _ _ hst => rw [h] at hst; cases hst
      | trailer hst => rw [h] at hst; cases hst
      | done hst => rw [h] at hst; cases hst
    unfold process
    simp only [hfo.ok, if_neg hne]
    simp
  obtain ⟨r1, r2, r3, r4, r5⟩ := hres
  have hsuf : ∃ c, inp = c ++ (processLoop env false (processFuel mem inp) s ⟨mem, 0⟩ inp).inp := by
    rcases hlo.cases with ⟨-, -, -, o, hs, -⟩ | ⟨e, _, _, _, _, h, -⟩
    · exact hs.suffix hI
    · rw [hfo.ok] at h; cases h
  obtain ⟨c, hc⟩ := hsuf
  refine ⟨r1, by rw [r2]; exact hfo.inv, ⟨(processLoop env false (processFuel mem inp) s ⟨mem, 0⟩ inp).inp, ?_, ?_, ?_⟩, ?_⟩
  · rw [r5]
    have : inp.take (inp.length - (processLoop env false (processFuel mem inp) s ⟨mem, 0⟩ inp).inp.length) = c := by
      generalize (processLoop env false (processFuel mem inp) s ⟨mem, 0⟩ inp).inp = x at hc
      rw [hc]
      simp
    rw [this]
    exact hc
  · rw [r5]; omega
  · rw [r2, r3, r4]; exact hfo.next
  · intro hl hroom hcomp hsig
    rw [r2]
    rcases hfo.stall with h | h | h | h | h
    · exact h
    · exact absurd hl h
    · exfalso
      have h1 := hlo.memLen
      have h2 := hlo.bufLen
      simp only [List.length_append, List.length_take] at h h1
      omega
    · exact absurd hcomp h
    · exact absurd h.2 (hsig h.1)

end Verif
