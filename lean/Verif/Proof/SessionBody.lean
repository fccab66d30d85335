import Verif.Proof.SessionEnc
/-
What the header, body and trailer phases of an encrypting session do.
-/
namespace Verif
open Spec

theorem serializeFrame_not_writeOK_err {p : AlgProps} {type : FrameType} {seqno pt : Nat} (h : ¬ WriteOK type seqno pt)
    {buf : WBuf} {c : Option Nat} {b : WBuf} : serializeFrame p type seqno pt buf ≠ ⟨.error .shortBuffer, c, b⟩ := by
  unfold serializeFrame
  cases type with
  | frame =>
    by_cases h1 : pt > maxFrameSize
    · rw [if_pos (Or.inr ⟨by decide, h1⟩)]; simp
    · have h2 : seqno = lastFrameMark := by
        by_cases h2 : seqno = lastFrameMark
        · exact h2
        · exact absurd ⟨Nat.not_lt.mp h1, h2⟩ h
      simp [serdeFramedWr, h2, h1]
  | final =>
    have h1 : pt > maxFrameSize := Nat.not_le.mp h
    rw [if_pos (Or.inr ⟨by decide, h1⟩)]; simp
  | single =>
    have h2 : pt ≥ maxUnframedPlaintextSize := Nat.not_lt.mp h
    by_cases h1 : pt > maxUnframedPlaintextSize
    · rw [if_pos (Or.inl ⟨rfl, h1⟩)]; simp
    · simp [serdeNonframedWr, h1, h2]

/-- The bytes of a frame within the limits, in the form in which the serialiser writes them. -/
theorem wireFrame_be {f : Frame} (hq : f.seqno < 2 ^ 32) (hw : WriteOK f.type f.seqno f.ciphertext.length) :
    wireFrame f = (match (generalizing := false) f.type with
      | .frame => be 4 f.seqno ++ (f.iv ++ (f.ciphertext ++ f.authtag))
      | .final => be 4 lastFrameMark ++ (be 4 f.seqno ++ (f.iv ++ (be 4 f.ciphertext.length ++ (f.ciphertext ++ f.authtag))))
      | .single => f.iv ++ (be 8 f.ciphertext.length ++ (f.ciphertext ++ f.authtag))) := by
  obtain ⟨type, seqno, iv, ct, tag⟩ := f
  have hmk : be 4 lastFrameMark = [0xFF, 0xFF, 0xFF, 0xFF] := by decide
  have h1 : maxFrameSize = 4294967295 := rfl
  have h2 : maxUnframedPlaintextSize = 68719476704 := rfl
  cases type with
  | frame =>
    simp only [wireFrame] at hq ⊢
    rw [u32_eq_be _ (by omega)]; simp
  | final =>
    simp only [wireFrame, WriteOK, h1] at hq hw ⊢
    rw [u32_eq_be _ (by omega), u32_eq_be _ (by omega), hmk]; simp
  | single =>
    simp only [wireFrame, WriteOK, h2] at hq hw ⊢
    rw [u64be_eq_be _ (by omega)]; simp

theorem length_wireFrame' {f : Frame} (hiv : f.iv.length = 12) (htag : f.authtag.length = 16) :
    (wireFrame f).length = frameSize f.type f.ciphertext.length := by
  unfold wireFrame frameSize
  cases f.type <;> simp [u32, u64be, hiv, htag] <;> omega

/-! ### header -/

theorem tryWriteHeader_cases {s : Session} {c mem inp : Bytes} (hst : s.state = .writeHeader) (hc : s.headerCopy = some c)
    (hp : s.algProps.isSome = true) (hq : s.seqno ≠ 0) :
    (c.length ≤ mem.length ∧ tryWriteHeader s ⟨mem, 0⟩ inp =
      ⟨{ s with outEst := s.headerSize, state := .encryptBody }, ⟨c ++ mem.drop c.length, c.length⟩, inp, .ok⟩) ∨
    (mem.length < c.length ∧ tryWriteHeader s ⟨mem, 0⟩ inp = ⟨{ s with outEst := s.headerSize }, ⟨mem, 0⟩, inp, .ok⟩) := by
  unfold tryWriteHeader
  simp only [hc, WBuf.write]
  by_cases h : c.length ≤ mem.length
  · left
    refine ⟨h, ?_⟩
    rw [if_pos (by omega)]
    simp [enter, changeState, legalChange, hst, hp, hq, patchAt]
  · right
    refine ⟨by omega, ?_⟩
    rw [if_neg (by omega)]

/-! ### body -/

/-- The frame that a body step writes. -/
def encFrame (s : Session) (p : AlgProps) (type : FrameType) (ct tag : Bytes) : Frame :=
  ⟨type, s.seqno, frameIv p s.seqno, ct, tag⟩

/-- A body step that writes a frame. -/
structure EncFrameOK (env : Env) (s : Session) (p : AlgProps) (type : FrameType) (pt ct tag : Bytes)
    (sg : Option SigCtx) : Prop where
  next : nextFrame s = some (type, pt.length)
  seqno : s.seqno < 2 ^ 32
  seqno0 : s.seqno ≠ 0
  limits : WriteOK type s.seqno pt.length
  sealed : env.crypto.aeadSeal s.contentKey (frameIv p s.seqno)
    (frameAad s.header.messageId type s.seqno pt.length) pt = some (ct, tag)
  ctLen : ct.length = pt.length
  tagLen : tag.length = 16
  feed : sigFeed env.crypto s.signctx (wireFrame (encFrame s p type ct tag)) = .ok sg

/-- The session after writing a frame. -/
def encFrameState (s : Session) (p : AlgProps) (type : FrameType) (n : Nat) (sg : Option SigCtx) : Session :=
  { s with
    outEst := frameSize type n, inEst := n, nonces := s.nonces ++ [(s.contentKey, frameIv p s.seqno)], signctx := sg
    dataSoFar := u64 (s.dataSoFar + n), seqno := s.seqno + 1
    state := if type = .frame then .encryptBody else .writeTrailer }

/-- A body step that does nothing: the reason and the estimates. -/
def EncStall (s : Session) (mem inp : Bytes) (inNull : Bool) (o i : Nat) : Prop :=
  (nextFrame s = none ∧ o = 0 ∧ i = 0) ∨
  ∃ type n, nextFrame s = some (type, n) ∧ s.seqno < 2 ^ 32 ∧ WriteOK type s.seqno n ∧ o = frameSize type n ∧ i = n ∧
    (mem.length < frameSize type n ∨ inNull = true ∨ inp.length < n)

/-- Outcomes of a body step. -/
inductive BodyCase (env : Env) (s : Session) (p : AlgProps) (mem inp : Bytes) (inNull : Bool) (r : Step) : Prop where
  | fail (e : Err) (o i : Nat) (ns : List (Bytes × Bytes)) (hr : r.res = .err e) (hinp : r.inp = inp)
      (hs : r.s = { s with outEst := o, inEst := i, nonces := ns })
      (hns : ns = s.nonces ∨ (ns = s.nonces ++ [(s.contentKey, frameIv p s.seqno)] ∧ mem ≠ [] ∧ s.seqno < 2 ^ 32))
      (hml : r.buf.mem.length = mem.length) (hbl : r.buf.len = 0)
  | stall (o i : Nat) (hr : r.res = .ok) (hinp : r.inp = inp) (hs : r.s = { s with outEst := o, inEst := i })
      (hml : r.buf.mem.length = mem.length) (hbl : r.buf.len = 0) (why : EncStall s mem inp inNull o i)
  | wrote (type : FrameType) (pt ct tag : Bytes) (sg : Option SigCtx) (hr : r.res = .ok)
      (hok : EncFrameOK env s p type pt ct tag sg) (hinp : inp = pt ++ r.inp) (hnull : inNull = false)
      (hs : r.s = encFrameState s p type pt.length sg)
      (hroom : frameSize type pt.length ≤ mem.length)
      (hbuf : r.buf = ⟨wireFrame (encFrame s p type ct tag) ++ mem.drop (frameSize type pt.length), frameSize type pt.length⟩)

theorem length_frameIv {a : Nat} {p : AlgProps} (hp : algProps a = some p) (q : Nat) : (frameIv p q).length = 12 := by
  simp [frameIv, (suiteFacts hp).iv]

theorem encryptBodyEnd_eq (env : Env) {s : Session} (hst : s.state = .encryptBody) (hq : s.seqno < 2 ^ 32) (type : FrameType) (n : Nat)
    (mem : Bytes) (wire tail inp inRest : Bytes) :
    encryptBodyEnd env s type n ⟨mem, 0⟩ ⟨wire ++ tail, wire.length⟩ inp inRest =
      match sigFeed env.crypto s.signctx wire with
      | .error _ => ⟨s, ⟨List.replicate wire.length 0 ++ tail, 0⟩, inp, .err .cryptoUnknown⟩
      | .ok sg => ⟨{ s with signctx := sg, dataSoFar := u64 (s.dataSoFar + n), seqno := s.seqno + 1, state := if type = .frame then .encryptBody else .writeTrailer },
          ⟨wire ++ tail, wire.length⟩, inRest, .ok⟩ := by
  unfold encryptBodyEnd
  have e : ((wire ++ tail).take wire.length).drop 0 = wire := by simp
  simp only [e]
  have hu : u64 (s.seqno + 1) = s.seqno + 1 := by simp only [u64]; omega
  cases sigFeed env.crypto s.signctx wire with
  | error e => simp [patchAt]
  | ok sg =>
    simp only [hu]
    cases type <;> simp [enter, changeState, legalChange, hst]

theorem encryptBodyFrame_eq (env : Env) (s : Session) {p : AlgProps} (hsp : s.algProps = some p) (type : FrameType) (n : Nat)
    (buf : WBuf) (inp : Bytes) (inNull : Bool) : encryptBodyFrame env s type n buf inp inNull =
      if s.seqno > 2 ^ 32 - 1 then ⟨s, buf, inp, .err .limitExceeded⟩
      else
        let r := serializeFrame p type s.seqno n buf
        let s' := { s with outEst := r.ciphertextSize.getD env.uninit, inEst := n }
        match r.res with
        | .error e => if e = .shortBuffer then ⟨s', ⟨r.buf.mem, buf.len⟩, inp, .ok⟩
          else ⟨s', ⟨r.buf.mem, buf.len⟩, inp, .err .cryptoUnknown⟩
        | .ok loc => encryptBodyFill env s' p type n buf inp inNull loc r.buf := by
  obtain ⟨_, _, _, _, _, _, _, _, _, _, _, _, _, _, _, _, _, ap, _, _, _, _, _⟩ := s
  simp only at hsp
  subst hsp
  rfl

theorem tryEncryptBody_cases (env : Env) (s : Session) {a : Nat} {p : AlgProps} (hp : algProps a = some p)
    (hsp : s.algProps = some p) (hst : s.state = .encryptBody) (hq0 : s.seqno ≠ 0) (mem inp : Bytes) (inNull : Bool) :
    BodyCase env s p mem inp inNull (tryEncryptBody env s ⟨mem, 0⟩ inp inNull) := by
  have f := suiteFacts hp
  unfold tryEncryptBody
  cases hn : nextFrame s with
  | none => exact .stall 0 0 rfl rfl rfl rfl rfl (Or.inl ⟨hn, rfl, rfl⟩)
  | some x =>
    obtain ⟨type, n⟩ := x
    simp only
    rw [encryptBodyFrame_eq env s hsp]
    by_cases hq : s.seqno > 2 ^ 32 - 1
    · rw [if_pos hq]
      exact .fail _ s.outEst s.inEst _ rfl rfl rfl (Or.inl rfl) rfl rfl
    rw [if_neg hq]
    simp only
    by_cases hw : WriteOK type s.seqno n
    · by_cases hroom : frameSize type n ≤ mem.length
      · obtain ⟨mem', i, c, t, he, hpatch⟩ := serializeFrame_room hp hw (buf := ⟨mem, 0⟩) (by simpa using hroom)
        rw [he]
        have hmem0 : mem ≠ [] := by
          rintro rfl
          cases type <;> simp [frameSize] at hroom
        simp only [Option.getD_some]
        unfold encryptBodyFill
        have hmem' : mem'.length = mem.length := by
          have h1 := (wrEnd_step hp type s.seqno n ⟨0, ⟨mem, 0⟩, false⟩ (Nat.zero_le _)).mem
          have h2 := serializeFrame_writeOK (p := p) hw ⟨mem, 0⟩
          rw [he] at h2
          simp only at h2
          split at h2
          · simp at h2
          · simp only [SerResult.mk.injEq] at h2
            rw [← h2.2.2] at h1
            exact h1
        cases inNull with
        | true =>
          simp only [if_true]
          exact .stall _ _ rfl rfl rfl hmem' rfl (Or.inr ⟨type, n, hn, by omega, hw, rfl, rfl, Or.inr (Or.inl rfl)⟩)
        | false =>
          simp only [Bool.false_eq_true, if_false]
          cases hr : rd n inp with
          | none =>
            exact .stall _ _ rfl rfl rfl hmem' rfl
              (Or.inr ⟨type, n, hn, by omega, hw, rfl, rfl, Or.inr (Or.inr (rd_none.mp hr))⟩)
          | some x =>
            obtain ⟨pt, rest⟩ := x
            obtain ⟨hinp, hptn⟩ := rd_some hr
            subst hptn
            simp only
            unfold encryptBody
            rw [if_neg (by simp), if_neg hq0, if_neg (by rw [f.iv]; omega)]
            cases hs : env.crypto.aeadSeal s.contentKey (frameIv p s.seqno)
                (frameAad s.header.messageId type s.seqno pt.length) pt with
            | none => exact .fail _ _ _ _ rfl rfl rfl (Or.inr ⟨rfl, hmem0, by omega⟩) (by simp [WBuf.secureZero]) rfl
            | some x =>
              obtain ⟨ct, tag⟩ := x
              obtain ⟨hct, htag⟩ := env.crypto.aeadSeal_len _ _ _ _ _ _ hs
              simp only
              have hwl : (wireFrame (encFrame s p type ct tag)).length = frameSize type pt.length := by
                rw [length_wireFrame' (length_frameIv hp _) htag]; simp [encFrame, hct]
              have hwb := wireFrame_be (f := encFrame s p type ct tag) (by simp only [encFrame]; omega)
                (by simp only [encFrame]; rw [hct]; exact hw)
              have hpm := hpatch (frameIv p s.seqno) ct tag (length_frameIv hp _) hct htag
              simp only [encFrame, hct] at hwb
              have hpm2 : patchAt (patchAt (patchAt mem' i (frameIv p s.seqno)) c ct) t tag =
                  wireFrame (encFrame s p type ct tag) ++ mem.drop (frameSize type pt.length) := by
                rw [hpm]
                simp only [encFrame]
                rw [hwb]
                cases type <;> simp
              rw [hpm2, Nat.zero_add]
              have hee := fun s' h1 h2 => encryptBodyEnd_eq env (s := s') h1 h2 type pt.length mem (wireFrame (encFrame s p type ct tag))
                (mem.drop (frameSize type pt.length)) inp rest
              rw [hwl] at hee
              have := hee { s with outEst := frameSize type pt.length, inEst := pt.length, nonces := s.nonces ++ [(s.contentKey, frameIv p s.seqno)] } hst (by simp only; omega)
              rw [this]
              simp only
              cases hf : sigFeed env.crypto s.signctx (wireFrame (encFrame s p type ct tag)) with
              | error e =>
                simp only
                exact .fail _ _ _ _ rfl rfl rfl (Or.inr ⟨rfl, hmem0, by omega⟩) (by simp; omega) rfl
              | ok sg =>
                have hf' := hf
                simp only
                exact .wrote type pt ct tag sg rfl ⟨hn, by omega, hq0, hw, hs, hct, htag, hf'⟩ hinp rfl rfl hroom rfl
      · rw [serializeFrame_short hp hw (Nat.zero_le _) (by simp only; omega)]
        exact .stall _ _ rfl rfl rfl (by simp [WBuf.secureZero]) rfl
          (Or.inr ⟨type, n, hn, by omega, hw, rfl, rfl, Or.inl (by omega)⟩)
    · obtain ⟨e, c, he⟩ := serializeFrame_not_writeOK (p := p) hw ⟨mem, 0⟩
      have hne : e ≠ .shortBuffer := by
        rintro rfl
        exact serializeFrame_not_writeOK_err hw he
      rw [he]
      simp only [if_neg hne]
      exact .fail _ _ _ _ rfl rfl rfl (Or.inl rfl) (by simp [WBuf.secureZero]) rfl

/-! ### trailer -/

/-- Outcomes of the trailer step. -/
inductive TrailerCase (env : Env) (s : Session) (p : AlgProps) (mem inp : Bytes) (r : Step) : Prop where
  | fail (e : Err) (hr : r.res = .err e) (hinp : r.inp = inp) (hsig : p.signatureLen ≠ 0)
      (hs : r.s = { s with inEst := 0, outEst := 0, signctx := none })
      (hml : r.buf.mem.length = mem.length) (hbl : r.buf.len ≤ mem.length)
  | stall (hr : r.res = .ok) (hinp : r.inp = inp) (hs : r.s = { s with inEst := 0, outEst := 2 + p.signatureLen })
      (hbuf : r.buf = ⟨mem, 0⟩) (hsig : p.signatureLen ≠ 0) (why : mem.length < 2 + p.signatureLen)
  | unsigned (hr : r.res = .ok) (hinp : r.inp = inp) (hs : r.s = { s with inEst := 0, outEst := 0, state := .done })
      (hsig : p.signatureLen = 0) (hbuf : r.buf = ⟨mem, 0⟩)
  | signed (ctx : SigCtx) (sig : Bytes) (hr : r.res = .ok) (hinp : r.inp = inp) (hsig : p.signatureLen ≠ 0)
      (hctx : s.signctx = some ctx) (hsign : env.crypto.sign ctx = .ok sig)
      (hs : r.s = { s with inEst := 0, outEst := 0, signctx := none, state := .done })
      (hroom : 2 + sig.length ≤ mem.length)
      (hroom' : 2 + p.signatureLen ≤ mem.length)
      (hbuf : r.buf = ⟨be 2 sig.length ++ sig ++ mem.drop (2 + sig.length), 2 + sig.length⟩)

theorem writeTrailer_cases (env : Env) (s : Session) {p : AlgProps} (hsp : s.algProps = some p) (hst : s.state = .writeTrailer)
    (hsig : p.signatureLen ≠ 0 → s.signctx.isSome = true) (mem inp : Bytes) :
    TrailerCase env s p mem inp (writeTrailer env s ⟨mem, 0⟩ inp) := by
  obtain ⟨_, _, _, _, _, _, _, _, _, _, _, _, _, _, _, _, _, ap, _, sgc, _, _, _⟩ := s
  simp only at hsp hst hsig
  subst hsp hst
  unfold writeTrailer
  simp only
  by_cases h0 : p.signatureLen = 0
  · rw [if_pos h0]
    refine .unsigned ?_ ?_ ?_ h0 ?_ <;> simp [enter, changeState, legalChange]
  rw [if_neg h0]
  by_cases hroom : mem.length - 0 < 2 + p.signatureLen
  · rw [if_pos hroom]
    exact .stall rfl rfl rfl rfl h0 (by omega)
  rw [if_neg hroom]
  cases sgc with
  | none => exact absurd (hsig h0) (by simp)
  | some ctx =>
    simp only
    cases hs : env.crypto.sign ctx with
    | error e => exact .fail e rfl rfl h0 rfl rfl (Nat.zero_le _)
    | ok sig =>
      simp only
      unfold writeTrailerSig WBuf.write
      simp only [length_be]
      rw [if_pos (by omega)]
      simp only
      have hl : (patchAt mem 0 (be 2 sig.length)).length = mem.length := length_patchAt (by simp; omega)
      rw [hl]
      by_cases h2 : sig.length ≤ mem.length - (0 + 2)
      · rw [if_pos h2]
        refine .signed ctx sig ?_ ?_ h0 rfl hs ?_ (by omega) (by omega) ?_ <;>
          simp [enter, changeState, legalChange]
        have e : mem = mem.take 2 ++ (mem.drop 2).take sig.length ++ mem.drop (2 + sig.length) := by
          rw [List.append_assoc, ← List.drop_drop, List.take_append_drop, List.take_append_drop]
        simp only [patchAt, List.take_zero, List.nil_append, length_be, Nat.zero_add]
        rw [List.take_left' (by simp), List.append_assoc, List.drop_append, List.drop_of_length_le (by simp), List.nil_append,
          List.drop_drop]
        simp
      · rw [if_neg h2]
        exact .fail _ rfl rfl h0 rfl hl (by simp; omega)

end Verif
