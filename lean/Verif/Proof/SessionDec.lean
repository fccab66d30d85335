import Verif.Proof.SessionBody
/-
What each phase of a decrypting session does.
-/
namespace Verif
open Spec

/-! ### header and keys -/

/-- A successful header phase: the input starts with the header bytes `hb` of the header `h`, the CMM returned the materials
`m`, the key `k` derived from them matches the commitment and opens the header tag. -/
structure UnwrapOK (env : Env) (s s' : Session) (inp rest hb : Bytes) (h : Hdr) (row : SuiteRow) (p : AlgProps) (m : DecMaterials)
    (k : Bytes) (sg : Option SigCtx) : Prop where
  parse : hdrParse s.maxEdks inp = .ok (h, rest)
  ok : HeaderOK row h
  bytes : hb = wireHeader row.version h
  input : inp = hb ++ rest
  size : intToSize (hdrSize h) = hb.length
  props : algProps h.algId = some p
  version : p.msgFormatVersion = row.version
  limit : s.maxEdks = 0 ∨ h.edks.length ≤ s.maxEdks
  cmm : env.cmm.decrypt { encCtx := h.encCtx, edks := h.edks, alg := h.algId } = .ok m
  malg : ∃ mp, algProps m.alg = some mp ∧ (s.mode = .decryptUnsigned → mp.signatureLen = 0)
  dataKey : m.dataKey.length = p.dataKeyLen
  allowed : allowedForDecrypt h.algId s.policy = true
  derive : deriveKey env.crypto.hkdf p m.dataKey h.messageId p.commitmentLen = .ok k h.algSuiteData
  auth : ∃ x, env.crypto.aeadOpen k (if row.version = 1 then h.iv else List.replicate 12 0)
    (wireAuthPart row.version h) [] h.authTag = .ok x
  sig : (p.signatureLen = 0 ∧ sg = s.signctx) ∨
    (p.signatureLen ≠ 0 ∧ ∃ ctx ctx', m.signctx = some ctx ∧ env.crypto.sigUpdate ctx hb = .ok ctx' ∧ sg = some ctx')
  result : s' = { s with
    state := .decryptBody, header := h, headerSize := hb.length, headerCopy := some hb, algProps := some p
    trace := s.trace ++ m.trace, cmmSuccess := true, contentKey := k, signctx := sg, seqno := 1, frameSize := h.frameLen }

/-- What a failed header phase leaves alone. -/
structure UnwrapFrame (env : Env) (s s' : Session) : Prop where
  mode : s'.mode = s.mode
  policy : s'.policy = s.policy
  hasCmm : s'.hasCmm = s.hasCmm
  maxEdks : s'.maxEdks = s.maxEdks
  nonces : s'.nonces = s.nonces
  dataSoFar : s'.dataSoFar = s.dataSoFar
  preciseSize : s'.preciseSize = s.preciseSize
  preciseKnown : s'.preciseKnown = s.preciseKnown
  sizeBound : s'.sizeBound = s.sizeBound
  frameSize : s'.frameSize = s.frameSize ∨ s'.frameSize < 2 ^ 32
  state : s'.state ≠ .error ∧ s'.state ≠ .done
  visible : s'.cmmSuccess = s.cmmSuccess ∨
    ∃ m, env.cmm.decrypt { encCtx := s'.header.encCtx, edks := s'.header.edks, alg := s'.header.algId } = .ok m

/-- Outcomes of a header step. -/
inductive ParseCase (env : Env) (s : Session) (mem inp : Bytes) (r : Step) : Prop where
  | fail (e : Err) (hr : r.res = .err e) (hbuf : r.buf = ⟨mem, 0⟩) (hinp : r.inp.length ≤ inp.length)
      (hs : UnwrapFrame env s r.s)
  | stall (est : Nat) (hr : r.res = .ok) (hbuf : r.buf = ⟨mem, 0⟩) (hinp : r.inp = inp)
      (hs : r.s = { s with header := {}, inEst := est, outEst := 0 })
      (why : hdrParse s.maxEdks inp = .error .shortBuffer)
      (hest : est = if inp.length ≥ s.inEst then
          (if u64 (inp.length + 128) < inp.length then 2 ^ 64 - 1 else u64 (inp.length + 128)) else s.inEst)
  | opened (hb : Bytes) (h : Hdr) (row : SuiteRow) (p : AlgProps) (m : DecMaterials) (k : Bytes) (sg : Option SigCtx)
      (hr : r.res = .ok) (hbuf : r.buf = ⟨mem, 0⟩) (hok : UnwrapOK env s r.s inp r.inp hb h row p m k sg)

theorem unwrapEnd_eq {s : Session} (hst : s.state = .unwrapKey) (hp : s.algProps.isSome = true) :
    unwrapEnd s = ({ s with seqno := 1, frameSize := s.header.frameLen, state := .decryptBody }, .ok) := by
  simp [unwrapEnd, changeState, legalChange, hst, hp]

theorem verifyHeader_iff (c : Crypto) {a : Nat} {p : AlgProps} (hp : algProps a = some p) (k iv tag hd : Bytes) (htag : tag.length = 16)
    (hiv : iv.length = if p.msgFormatVersion = 1 then 12 else 0) :
    verifyHeader c p k (iv ++ tag) hd = .ok () ↔
      ∃ x, c.aeadOpen k (if p.msgFormatVersion = 1 then iv else List.replicate 12 0) hd [] tag = .ok x := by
  have f := suiteFacts hp
  unfold verifyHeader
  rcases f.version with hv | hv
  · simp only [hv, if_true] at hiv ⊢
    rw [if_neg (by simp [f.iv, f.tag, hiv, htag]), f.iv, List.take_left' hiv, List.drop_left' hiv]
    cases c.aeadOpen k iv hd [] tag <;> simp
  · have h1 : ¬ p.msgFormatVersion = 1 := by omega
    rw [if_neg h1] at hiv
    have : iv = [] := List.eq_nil_of_length_eq_zero hiv
    subst this
    rw [if_neg h1, if_pos hv, if_neg h1, List.nil_append, if_neg (by simp [f.tag, htag])]
    cases c.aeadOpen k (List.replicate 12 0) hd [] tag <;> simp

theorem tryParseHeader_cases (env : Env) (s : Session) (hst : s.state = .readHeader) (hm : s.mode.isDecrypt = true)
    (mem inp : Bytes) : ParseCase env s mem inp (tryParseHeader env s ⟨mem, 0⟩ inp) := by
  unfold tryParseHeader hdrParseInto
  cases hps : hdrParse s.maxEdks inp with
  | error e =>
    simp only
    by_cases he : e = .shortBuffer
    · subst he
      rw [if_pos rfl]
      exact .stall _ rfl rfl rfl rfl hps rfl
    · rw [if_neg he]
      exact .fail e rfl rfl (Nat.le_refl _)
        ⟨rfl, rfl, rfl, rfl, rfl, rfl, rfl, rfl, rfl, Or.inl rfl, by simp [hst], Or.inl rfl⟩
  | ok x =>
    obtain ⟨h, rest⟩ := x
    obtain ⟨row, hok, hlim, hal, hinp⟩ := hdrParse_iff.mp hps
    obtain ⟨p, hp⟩ := algProps_of_row hok.suite
    have hv := (row_props hok.suite hp).1
    rw [← hok.id] at hp
    have f := suiteFacts hp
    simp only
    unfold parsedHeader
    simp only
    have hrl : rest.length ≤ inp.length := by rw [hinp]; simp
    have F : ∀ (st : St) (hh : Hdr) (n : Nat) (o : Option Bytes) (ap : Option AlgProps),
        st ≠ .error → st ≠ .done → UnwrapFrame env s { s with header := hh, headerSize := n, headerCopy := o, algProps := ap, state := st } :=
      fun st _ _ _ _ h1 h2 => ⟨rfl, rfl, rfl, rfl, rfl, rfl, rfl, rfl, rfl, Or.inl rfl, ⟨h1, h2⟩, Or.inl rfl⟩
    by_cases h0 : intToSize (hdrSize h) = 0
    · rw [if_pos h0]
      exact .fail _ rfl rfl hrl ⟨rfl, rfl, rfl, rfl, rfl, rfl, rfl, rfl, rfl, Or.inl rfl, by simp [hst], Or.inl rfl⟩
    rw [if_neg h0]
    by_cases h1 : intToSize (hdrSize h) ≠ inp.length - rest.length
    · rw [if_pos h1]
      exact .fail _ rfl rfl hrl ⟨rfl, rfl, rfl, rfl, rfl, rfl, rfl, rfl, rfl, Or.inl rfl, by simp [hst], Or.inl rfl⟩
    rw [if_neg h1]
    cases ha : env.alloc .headerCopy with
    | false =>
      exact .fail _ rfl rfl hrl ⟨rfl, rfl, rfl, rfl, rfl, rfl, rfl, rfl, rfl, Or.inl rfl, by simp [hst], Or.inl rfl⟩
    | true =>
      simp only [Bool.not_true, Bool.false_eq_true, if_false]
      have hsz : intToSize (hdrSize h) = (wireHeader row.version h).length := by
        have : inp.length - rest.length = (wireHeader row.version h).length := by rw [hinp]; simp
        rw [← this]; exact Decidable.not_not.mp h1
      have htk : inp.take (intToSize (hdrSize h)) = wireHeader row.version h := by
        rw [hsz, hinp, List.take_left]
      have hcs : ∀ s1 : Session, s1.state = .readHeader → s1.mode.isDecrypt = true → s1.headerCopy.isSome = true → s1.headerSize ≠ 0 →
          changeState s1 .unwrapKey = some { s1 with state := .unwrapKey } := by
        intro s1 a1 a2 a3 a4
        simp [changeState, legalChange, a1, a2, a3, a4]
      rw [hcs _ (by exact hst) (by exact hm) rfl (by exact h0), htk]
      simp only
      unfold unwrapKeys
      simp only [hp]
      cases ha2 : env.alloc .edkList with
      | false => exact .fail _ rfl rfl hrl (F .unwrapKey _ _ _ _ (by decide) (by decide))
      | true =>
        simp only [Bool.not_true, Bool.false_eq_true, if_false, f.id]
        cases hcm : env.cmm.decrypt { encCtx := h.encCtx, edks := h.edks, alg := h.algId } with
        | error e => exact .fail _ rfl rfl hrl (F .unwrapKey _ _ _ _ (by decide) (by decide))
        | ok m =>
          have G : ∀ (st : St) (n q : Nat) (o : Option Bytes) (ap : Option AlgProps) (t : List TraceRec) (b : Bool) (k : Bytes) (sg : Option SigCtx) ,
              st ≠ .error → st ≠ .done → UnwrapFrame env s { s with header := h, headerSize := n, headerCopy := o, algProps := ap, state := st, trace := t, cmmSuccess := b, contentKey := k, signctx := sg, seqno := q } :=
            fun st _ _ _ _ _ _ _ _ h1 h2 => ⟨rfl, rfl, rfl, rfl, rfl, rfl, rfl, rfl, rfl, Or.inl rfl, ⟨h1, h2⟩, Or.inr ⟨m, hcm⟩⟩
          simp only
          unfold unwrapWith
          simp only
          cases hmp : algProps m.alg with
          | none => exact .fail _ rfl rfl hrl (G .unwrapKey _ _ _ _ _ _ _ _ (by decide) (by decide))
          | some mp =>
            simp only
            by_cases hu : s.mode = .decryptUnsigned ∧ mp.signatureLen ≠ 0
            · rw [if_pos hu]
              exact .fail _ rfl rfl hrl (G .unwrapKey _ _ _ _ _ _ _ _ (by decide) (by decide))
            rw [if_neg hu]
            unfold unwrapValidate deriveDataKey
            simp only
            by_cases hdk : m.dataKey.length ≠ p.dataKeyLen
            · rw [if_pos hdk]
              exact .fail _ rfl rfl hrl (G .unwrapKey _ _ _ _ _ _ _ _ (by decide) (by decide))
            rw [if_neg hdk]
            cases hall : allowedForDecrypt p.algId s.policy with
            | false => exact .fail _ rfl rfl hrl (G .unwrapKey _ _ _ _ _ _ _ _ (by decide) (by decide))
            | true =>
              simp only [Bool.not_true, Bool.false_eq_true, if_false]
              cases hd : deriveKey env.crypto.hkdf p m.dataKey h.messageId p.commitmentLen with
              | raised e => exact .fail _ rfl rfl hrl (G .unwrapKey _ _ _ _ _ _ _ _ (by decide) (by decide))
              | code e => exact .fail _ rfl rfl hrl (G .unwrapKey _ _ _ _ _ _ _ _ (by decide) (by decide))
              | ok k c =>
                simp only
                cases hce : commitmentEq c h.algSuiteData with
                | false => exact .fail _ rfl rfl hrl (G .unwrapKey _ _ _ _ _ _ _ _ (by decide) (by decide))
                | true =>
                  obtain ⟨hceq, -⟩ := (commitmentEq_iff _ _).mp hce
                  subst hceq
                  simp only [Bool.not_true, Bool.false_eq_true, if_false]
                  have hwl : (wireHeader row.version h).length = h.authLen + authtagLen p := by
                    unfold wireHeader
                    have e1 := hok.iv
                    have e2 := hok.tag
                    rw [List.length_append, List.length_append, ← hal, f.authtag, hv, e2]
                    split <;> rename_i hh <;> simp only [hh, if_true, if_false] at e1 <;> simp [e1] <;> omega
                  have hsmall : (wireHeader row.version h).length < 2 ^ 64 := by
                    rw [← hsz]; unfold intToSize; omega
                  have hdrop : ((wireHeader row.version h).drop h.authLen).take (authtagLen p) =
                      (if row.version = 1 then h.iv else []) ++ h.authTag := by
                    rw [hal]
                    unfold wireHeader
                    rw [List.append_assoc, List.drop_left, List.take_of_length_le]
                    rw [f.authtag, hv, List.length_append, hok.tag]
                    have e1 := hok.iv
                    split <;> rename_i hh <;> simp only [hh, if_true, if_false] at e1 <;> simp [e1]
                  have htake : (wireHeader row.version h).take h.authLen = wireAuthPart row.version h := by
                    rw [hal]
                    unfold wireHeader
                    rw [List.append_assoc, List.take_left]
                  have hver := verifyHeader_iff env.crypto hp k (if row.version = 1 then h.iv else []) h.authTag
                    (wireAuthPart row.version h) hok.tag (by
                      rw [hv]
                      have e1 := hok.iv
                      split <;> rename_i hh <;> simp only [hh, if_true, if_false] at e1 <;> simp [e1])
                  rw [hv] at hver
                  unfold validateHeader
                  simp only
                  rw [if_neg (by simp), if_neg h0]
                  have hsub : u64sub (intToSize (hdrSize h)) h.authLen = authtagLen p := by
                    rw [hsz, hwl]
                    rw [hwl] at hsmall
                    unfold u64sub
                    rw [Nat.mod_eq_of_lt (a := h.authLen) (by omega)]
                    omega
                  rw [if_neg (by simpa using hsub)]
                  simp only [hdrop, htake]
                  cases hvh : verifyHeader env.crypto p k ((if row.version = 1 then h.iv else []) ++ h.authTag) (wireAuthPart row.version h) with
                  | error e => exact .fail _ rfl rfl hrl (G .unwrapKey _ _ _ _ _ _ _ _ (by decide) (by decide))
                  | ok u =>
                    have hauth := hver.mp hvh
                    have hauth' : ∃ x, env.crypto.aeadOpen k (if row.version = 1 then h.iv else List.replicate 12 0)
                        (wireAuthPart row.version h) [] h.authTag = .ok x := by
                      obtain ⟨x, hx⟩ := hauth
                      refine ⟨x, ?_⟩
                      rw [← hx]
                      split <;> simp
                    simp only
                    have hmalg : ∃ mp, algProps m.alg = some mp ∧ (s.mode = .decryptUnsigned → mp.signatureLen = 0) :=
                      ⟨mp, hmp, fun hmd => Decidable.byContradiction fun hne => hu ⟨hmd, hne⟩⟩
                    have hall' : allowedForDecrypt h.algId s.policy = true := by rw [← f.id]; exact hall
                    unfold unwrapSig
                    by_cases hsl : p.signatureLen ≠ 0
                    · rw [if_pos hsl]
                      cases hsc : m.signctx with
                      | none => exact .fail _ rfl rfl hrl (G .unwrapKey _ _ _ _ _ _ _ _ (by decide) (by decide))
                      | some ctx =>
                        simp only [Option.getD_some]
                        cases hsu : env.crypto.sigUpdate ctx (wireHeader row.version h) with
                        | error e => exact .fail _ rfl rfl hrl (G .unwrapKey _ _ _ _ _ _ _ _ (by decide) (by decide))
                        | ok ctx' =>
                          simp only
                          rw [unwrapEnd_eq rfl rfl]
                          simp only
                          refine .opened _ h row p m k (some ctx') rfl rfl ⟨hps, hok, rfl, hinp, hsz, hp, hv, hlim, hcm, hmalg,
                            Decidable.not_not.mp hdk, hall', hd, hauth', Or.inr ⟨hsl, ctx, ctx', hsc, hsu, rfl⟩, ?_⟩
                          simp only [hsz]
                    · rw [if_neg hsl, unwrapEnd_eq rfl rfl]
                      simp only
                      refine .opened _ h row p m k s.signctx rfl rfl ⟨hps, hok, rfl, hinp, hsz, hp, hv, hlim, hcm, hmalg,
                        Decidable.not_not.mp hdk, hall', hd, hauth', Or.inl ⟨Decidable.not_not.mp hsl, rfl⟩, ?_⟩
                      simp only [hsz]

/-! ### body -/

/-- The session after decrypting a frame. -/
def decFrameState (s : Session) (f : Frame) (inEst : Nat) (sg : Option SigCtx) : Session :=
  { s with
    inEst := inEst, outEst := f.ciphertext.length, seqno := u64 (s.seqno + 1), signctx := sg
    state := if f.type = .frame then .decryptBody else .checkTrailer }

/-- Outcomes of a body step. -/
inductive DecCase (env : Env) (s : Session) (mem inp : Bytes) (r : Step) : Prop where
  | fail (e : Err) (i o q : Nat) (sg : Option SigCtx) (hr : r.res = .err e)
      (hs : r.s = { s with inEst := i, outEst := o, seqno := q, signctx := sg })
      (hml : r.buf.mem.length = mem.length) (hbl : r.buf.len ≤ mem.length) (hinp : r.inp.length ≤ inp.length)
  | stall (i o : Nat) (hr : r.res = .ok) (hs : r.s = { s with inEst := i, outEst := o })
      (hbuf : r.buf = ⟨mem, 0⟩) (hinp : r.inp = inp)
      (why : (frameParser s.frameSize inp = .error .shortBuffer ∧ inp.length < i) ∨
        ∃ f rest, frameParser s.frameSize inp = .ok (f, rest) ∧ f.seqno = s.seqno ∧ o = f.ciphertext.length ∧ mem.length < o)
  | opened (f : Frame) (pt : Bytes) (sg : Option SigCtx) (i : Nat) (hr : r.res = .ok)
      (hparse : frameParser s.frameSize inp = .ok (f, r.inp)) (hok : FrameOK s.frameSize f) (hinp : inp = wireFrame f ++ r.inp)
      (hseq : f.seqno = s.seqno)
      (hopen : env.crypto.aeadOpen s.contentKey f.iv
        (frameAad s.header.messageId f.type f.seqno f.ciphertext.length) f.ciphertext f.authtag = .ok pt)
      (hpt : pt.length = f.ciphertext.length) (hroom : pt.length ≤ mem.length)
      (hfeed : sigFeed env.crypto s.signctx (wireFrame f) = .ok sg)
      (hs : r.s = decFrameState s f i sg)
      (hbuf : r.buf = ⟨pt ++ mem.drop pt.length, pt.length⟩)

theorem deserializeFrame_plaintextSize {a : Nat} {p : AlgProps} (hp : algProps a = some p) {fs : Nat} (hfs : fs < 2 ^ 32)
    {bs : Bytes} {f : Frame} (h : (deserializeFrame p fs bs).res = .ok f) :
    (deserializeFrame p fs bs).plaintextSize = f.ciphertext.length := by
  by_cases h0 : fs = 0
  · subst h0
    rcases deserializeFrame_single hp bs with ⟨hl, e⟩ | ⟨iv, n, r2, hbs, hn, hiv, ⟨hge, e⟩ | ⟨hlt, hl, e⟩ | ⟨hlt, ct, tag, r, hr, hc, ht, e⟩⟩ <;>
      rw [e] at h ⊢ <;> first | (cases h; done) | (cases h; exact hc.symm)
  · rcases deserializeFrame_framed hp h0 hfs bs with ⟨hl, e⟩ | ⟨mark, r1, hbs, hm, hm', ⟨hl, e⟩ | ⟨iv, ct, tag, r, hr, hiv, hc, ht, e⟩⟩ | hfin
    · rw [e] at h; cases h
    · rw [e] at h; cases h
    · rw [e] at h ⊢; cases h; exact hc.symm
    · obtain ⟨r1, hbs, ⟨hl, e⟩ | ⟨q, iv, n, r2, hr1, hq, hn, hiv, ⟨hg, e⟩ | ⟨hle, hl, e⟩ | ⟨hle, ct, tag, r, hr2, hc, ht, e⟩⟩⟩ := hfin <;>
        rw [e] at h ⊢ <;> first | (cases h; done) | (cases h; exact hc.symm)

theorem frameParser_shortBuffer {a : Nat} {p : AlgProps} (hp : algProps a = some p) {fs : Nat} (hfs : fs < 2 ^ 32)
    {bs : Bytes} (h : (deserializeFrame p fs bs).res = .error .shortBuffer) :
    bs.length < (deserializeFrame p fs bs).ciphertextSize := by
  by_cases h0 : fs = 0
  · subst h0
    rcases deserializeFrame_single hp bs with ⟨hl, e⟩ | ⟨iv, n, r2, hbs, hn, hiv, ⟨hge, e⟩ | ⟨hlt, hl, e⟩ | ⟨hlt, ct, tag, r, hr, hc, ht, e⟩⟩ <;>
      rw [e] at h ⊢ <;> first | (cases h; done) | (simp only; omega)
  · rcases deserializeFrame_framed hp h0 hfs bs with ⟨hl, e⟩ | ⟨mark, r1, hbs, hm, hm', ⟨hl, e⟩ | ⟨iv, ct, tag, r, hr, hiv, hc, ht, e⟩⟩ | hfin
    · rw [e]; simp only; omega
    · rw [e]; simp only; omega
    · rw [e] at h; cases h
    · obtain ⟨r1, hbs, ⟨hl, e⟩ | ⟨q, iv, n, r2, hr1, hq, hn, hiv, ⟨hg, e⟩ | ⟨hle, hl, e⟩ | ⟨hle, ct, tag, r, hr2, hc, ht, e⟩⟩⟩ := hfin <;>
        rw [e] at h ⊢ <;> first | (cases h; done) | (simp only; omega)

theorem tryDecryptBody_cases (env : Env) (s : Session) {a : Nat} {p : AlgProps} (hp : algProps a = some p)
    (hsp : s.algProps = some p) (hst : s.state = .decryptBody) (hfs : s.frameSize < 2 ^ 32) (mem inp : Bytes) :
    DecCase env s mem inp (tryDecryptBody env s ⟨mem, 0⟩ inp) := by
  have hpar := deserializeFrame_eq_parser hp hfs inp
  have hpl := fun f => deserializeFrame_plaintextSize hp hfs (bs := inp) (f := f)
  have hshort := frameParser_shortBuffer hp hfs (bs := inp)
  obtain ⟨er, mo, st, po, hc, ps, sb, ds, pk, hco, hsz, hd, fs, tr, ie, oe, sq, ap, ck, sgc, cs, me, no⟩ := s
  simp only at hsp hst hfs hpar hpl hshort
  subst hsp hst
  unfold tryDecryptBody
  simp only
  generalize hdz : deserializeFrame p fs inp = d at *
  obtain ⟨res, cz, pz, rest⟩ := d
  simp only [DeserResult.toParse] at hpar hpl hshort ⊢
  cases res with
  | error e =>
    simp only at hpar ⊢
    by_cases he : e = .shortBuffer
    · subst he
      rw [if_pos rfl]
      exact .stall cz pz rfl rfl rfl rfl (Or.inl ⟨hpar.symm, hshort rfl⟩)
    · rw [if_neg he]
      exact .fail e cz pz sq sgc rfl rfl rfl (Nat.zero_le _) (Nat.le_refl _)
  | ok f =>
    simp only at hpar ⊢
    have hpz := hpl f rfl
    subst hpz
    obtain ⟨hok, hinp⟩ := (frameParser_iff hfs).mp hpar.symm
    have hrl : rest.length ≤ inp.length := by rw [hinp]; simp
    by_cases hsq : sq ≠ f.seqno
    · rw [if_pos hsq]
      exact .fail _ cz _ sq sgc rfl rfl rfl (Nat.zero_le _) hrl
    rw [if_neg hsq]
    have hsq' : f.seqno = sq := (Decidable.not_not.mp hsq).symm
    by_cases hroom : mem.length - 0 < f.ciphertext.length
    · rw [if_pos hroom]
      exact .stall cz _ rfl rfl rfl rfl (Or.inr ⟨f, rest, hpar.symm, hsq', rfl, by omega⟩)
    rw [if_neg hroom]
    unfold decryptFrame decryptBody
    simp only
    rw [if_neg (by simp)]
    cases ho : env.crypto.aeadOpen ck f.iv (frameAad hd.messageId f.type f.seqno f.ciphertext.length) f.ciphertext f.authtag with
    | error e => exact .fail e cz _ sq sgc rfl rfl rfl (by simp; omega) hrl
    | ok pt =>
      have hpt := env.crypto.aeadOpen_len _ _ _ _ _ _ ho
      simp only
      have htk : inp.take (inp.length - rest.length) = wireFrame f := by
        rw [hinp, List.length_append, Nat.add_sub_cancel, List.take_left]
      rw [htk]
      have hml : (patchAt mem 0 pt).length = mem.length := length_patchAt (by omega)
      cases hf : sigFeed env.crypto sgc (wireFrame f) with
      | error e => exact .fail e cz _ _ sgc rfl rfl hml (by simp; omega) hrl
      | ok sg =>
        refine .opened f pt sg cz ?_ ?_ hok ?_ hsq' ho hpt (by omega) hf ?_ ?_ <;>
          cases hft : f.type <;> simp [hft, enter, changeState, legalChange, decFrameState, patchAt, hpt, hinp] <;>
          first | (rw [← hinp]; exact hpar.symm) | skip

/-! ### trailer -/

/-- Outcomes of the trailer step. -/
inductive CheckCase (env : Env) (s : Session) (mem inp : Bytes) (r : Step) : Prop where
  | fail (e : Err) (ctx : SigCtx) (sg : Option SigCtx) (hr : r.res = .err e) (hctx : s.signctx = some ctx)
      (hs : r.s = { s with inEst := 0, outEst := 0, signctx := sg })
      (hbuf : r.buf = ⟨mem, 0⟩) (hinp : r.inp.length ≤ inp.length)
  | stall (n : Nat) (ctx : SigCtx) (hr : r.res = .ok) (hctx : s.signctx = some ctx)
      (hs : r.s = { s with outEst := 0, inEst := 2 + n }) (hbuf : r.buf = ⟨mem, 0⟩) (hinp : r.inp = inp)
      (why : readTrailer inp = .error n)
  | noSig (hr : r.res = .ok) (hctx : s.signctx = none) (hs : r.s = { s with inEst := 0, outEst := 0, state := .done })
      (hbuf : r.buf = ⟨mem, 0⟩) (hinp : r.inp = inp)
  | verified (ctx : SigCtx) (sig : Bytes) (hr : r.res = .ok) (hctx : s.signctx = some ctx)
      (hver : env.crypto.verify ctx sig = .ok ()) (hs : r.s = { s with inEst := 0, outEst := 0, signctx := none })
      (hbuf : r.buf = ⟨mem, 0⟩) (hinp : inp = be 2 sig.length ++ sig ++ r.inp) (hl : sig.length < 65536)

theorem readTrailer_ok {inp sig rest : Bytes} (h : readTrailer inp = .ok (sig, rest)) :
    inp = be 2 sig.length ++ sig ++ rest ∧ sig.length < 65536 := by
  unfold readTrailer at h
  cases h1 : rd 2 inp with
  | none => rw [h1] at h; cases h
  | some x =>
    obtain ⟨l, r⟩ := x
    rw [h1] at h
    simp only at h
    obtain ⟨rfl, hl⟩ := rd_some h1
    cases h2 : rd (unbe l) r with
    | none => rw [h2] at h; cases h
    | some y =>
      obtain ⟨sig', r'⟩ := y
      rw [h2] at h
      cases h
      obtain ⟨rfl, hs⟩ := rd_some h2
      have := be_unbe l
      rw [hl] at this
      rw [hs, this, List.append_assoc]
      exact ⟨rfl, by have := unbe_lt l; rw [hl] at this; simpa using this⟩

theorem checkTrailer_cases (env : Env) (s : Session) (hst : s.state = .checkTrailer) (mem inp : Bytes) :
    CheckCase env s mem inp (checkTrailer env s ⟨mem, 0⟩ inp) := by
  obtain ⟨er, mo, st, po, hc, ps, sb, ds, pk, hco, hsz, hd, fs, tr, ie, oe, sq, ap, ck, sgc, cs, me, no⟩ := s
  simp only at hst
  subst hst
  unfold checkTrailer
  simp only
  cases sgc with
  | none => refine .noSig ?_ rfl ?_ ?_ ?_ <;> simp [enter, changeState, legalChange]
  | some ctx =>
    simp only
    cases hr : readTrailer inp with
    | error n => exact .stall n ctx rfl rfl rfl rfl rfl hr
    | ok x =>
      obtain ⟨sig, rest⟩ := x
      obtain ⟨hinp, hsl⟩ := readTrailer_ok hr
      have hrl : rest.length ≤ inp.length := by rw [hinp]; simp; omega
      simp only
      cases ha : env.alloc .sigString with
      | false => exact .fail _ ctx (some ctx) rfl rfl rfl rfl hrl
      | true =>
        simp only [Bool.not_true, Bool.false_eq_true, if_false]
        cases hv : env.crypto.verify ctx sig with
        | error e => exact .fail e ctx none rfl rfl rfl rfl hrl
        | ok u => exact .verified ctx sig rfl rfl hv rfl rfl hinp hsl

end Verif
