import Verif.Proof.SessionDec
/-
The invariant of sessions, what one step does, and what a call of `process` does as a sequence of steps.
-/
namespace Verif
open Spec

/-- A session that has not started on a message. -/
structure Fresh (s : Session) : Prop where
  signctx : s.signctx = none
  cmmSuccess : s.cmmSuccess = false
  nonces : s.nonces = []
  seqno : s.seqno = 0
  dataSoFar : s.dataSoFar = 0
  algProps : s.algProps = none
  headerCopy : s.headerCopy = none
  headerSize : s.headerSize = 0
  trace : s.trace = []
  contentKey : s.contentKey = []
  header : s.header = { encCtx := s.header.encCtx }
  decHeader : s.mode.isDecrypt = true → s.header = {}
  table : DistinctKeys s.header.encCtx

/-- What holds in each state. -/
def StInv (s : Session) : Prop :=
  match s.state with
  | .config => s.mode.isValid = true ∧ Fresh s
  | .readHeader => s.mode.isDecrypt = true ∧ Fresh s
  | .genKey => s.mode = .encrypt ∧ Fresh s
  | .unwrapKey => False
  | .decryptBody | .checkTrailer =>
    s.mode.isDecrypt = true ∧ s.cmmSuccess = true ∧ ∃ p, s.algProps = some p ∧ algProps s.header.algId = some p
  | .writeHeader => s.mode = .encrypt ∧ s.cmmSuccess = true ∧ s.seqno = 1 ∧ s.dataSoFar = 0 ∧
    (∃ c, s.headerCopy = some c ∧ c.length = s.headerSize ∧ s.headerSize ≠ 0) ∧
    ∃ p, s.algProps = some p ∧ algProps s.header.algId = some p ∧ (p.signatureLen ≠ 0 ↔ s.signctx.isSome = true)
  | .encryptBody => s.mode = .encrypt ∧ s.cmmSuccess = true ∧ s.seqno ≠ 0 ∧
    ∃ p, s.algProps = some p ∧ algProps s.header.algId = some p ∧ (p.signatureLen ≠ 0 ↔ s.signctx.isSome = true)
  | .writeTrailer => s.mode = .encrypt ∧ s.cmmSuccess = true ∧
    ∃ p, s.algProps = some p ∧ algProps s.header.algId = some p ∧ (p.signatureLen ≠ 0 ↔ s.signctx.isSome = true)
  | .done => s.mode.isValid = true ∧ s.cmmSuccess = true
  | .error => True

/-- The invariant of every session. -/
structure Inv (s : Session) : Prop where
  frameSize : s.frameSize < 2 ^ 32
  preciseSize : s.preciseSize < 2 ^ 64
  sizeBound : s.sizeBound < 2 ^ 64
  dataSoFar : s.dataSoFar < 2 ^ 64
  precise : s.preciseKnown = true → s.preciseSize ≤ s.sizeBound
  st : StInv s

/-! ### one step -/

/-- Outcomes of the key generation step. -/
inductive GenCase (env : Env) (s : Session) (mem inp : Bytes) (r : Step) : Prop where
  | fail (e : Err) (hr : r.res = .err e) (hs : GenFrame s r.s) (hbuf : r.buf = ⟨mem, 0⟩) (hinp : r.inp = inp)
  | ok (ctx : EncCtx) (m : EncMaterials) (p : AlgProps) (mid k c ct tag : Bytes) (sg : Option SigCtx) (hr : r.res = .ok)
      (hok : GenOK env s r.s ctx m p mid k c ct tag sg) (hbuf : r.buf = ⟨mem, 0⟩) (hinp : r.inp = inp)

/-- Outcomes of the header writing step. -/
inductive HeaderCase (s : Session) (mem inp : Bytes) (r : Step) : Prop where
  | wrote (c : Bytes) (hc : s.headerCopy = some c) (hroom : c.length ≤ mem.length) (hr : r =
      ⟨{ s with outEst := s.headerSize, state := .encryptBody }, ⟨c ++ mem.drop c.length, c.length⟩, inp, .ok⟩)
  | stall (c : Bytes) (hc : s.headerCopy = some c) (hroom : mem.length < c.length)
      (hr : r = ⟨{ s with outEst := s.headerSize }, ⟨mem, 0⟩, inp, .ok⟩)

/-- Outcomes of a step from a state satisfying the invariant. -/
inductive StepCase (env : Env) (s : Session) (mem inp : Bytes) (inNull : Bool) (r : Step) : Prop where
  | cfgFail (hst : s.state = .config) (hr : r = ⟨s, ⟨mem, 0⟩, inp, .err .badState⟩)
  | cfgEnc (hst : s.state = .config) (hm : s.mode = .encrypt) (hcmm : s.hasCmm = true) (hpol : s.policy.isValid = true)
      (hr : r = ⟨{ s with state := .genKey }, ⟨mem, 0⟩, inp, .ok⟩)
  | cfgDec (hst : s.state = .config) (hm : s.mode.isDecrypt = true) (hcmm : s.hasCmm = true) (hpol : s.policy.isValid = true)
      (hr : r = ⟨{ s with state := .readHeader }, ⟨mem, 0⟩, inp, .ok⟩)
  | parse (hst : s.state = .readHeader) (h : ParseCase env s mem inp r)
  | dec (hst : s.state = .decryptBody) (h : DecCase env s mem inp r)
  | check (hst : s.state = .checkTrailer) (h : CheckCase env s mem inp r)
  | gen (hst : s.state = .genKey) (h : GenCase env s mem inp r)
  | header (hst : s.state = .writeHeader) (h : HeaderCase s mem inp r)
  | body (p : AlgProps) (hst : s.state = .encryptBody) (hsp : s.algProps = some p) (hp : algProps s.header.algId = some p)
      (h : BodyCase env s p mem inp inNull r)
  | trailer (p : AlgProps) (hst : s.state = .writeTrailer) (hsp : s.algProps = some p) (hp : algProps s.header.algId = some p)
      (h : TrailerCase env s p mem inp r)
  | done (hst : s.state = .done) (hr : r = ⟨s, ⟨mem, 0⟩, inp, .ok⟩)
  | error (hst : s.state = .error) (hr : r = ⟨s, ⟨mem, 0⟩, inp, .err s.error⟩)

theorem sessionStep_cases (env : Env) (s : Session) (hI : Inv s) (mem inp : Bytes) (inNull : Bool) :
    StepCase env s mem inp inNull (sessionStep env s ⟨mem, 0⟩ inp inNull) := by
  have hst := hI.st
  unfold StInv at hst
  unfold sessionStep
  cases h : s.state <;> simp only [h] at hst ⊢
  · by_cases hc : (!s.hasCmm || !s.policy.isValid) = true
    · rw [if_pos hc]
      exact .cfgFail h rfl
    · rw [if_neg hc]
      simp only [Bool.or_eq_true, Bool.not_eq_true', not_or, Bool.not_eq_false] at hc
      by_cases hm : s.mode = .encrypt
      · rw [if_pos hm]
        exact .cfgEnc h hm hc.1 hc.2 (by simp [enter, changeState, legalChange, h, hm])
      · rw [if_neg hm]
        have hd : s.mode.isDecrypt = true := by
          have := hst.1
          cases hmm : s.mode <;> simp_all [Mode.isValid, Mode.isDecrypt]
        exact .cfgDec h hd hc.1 hc.2 (by simp [enter, changeState, legalChange, h, hd])
  · exact .error h rfl
  · exact .done h rfl
  · exact .parse h (tryParseHeader_cases env s h hst.1 mem inp)
  · obtain ⟨hm, -, p, hsp, hp⟩ := hst
    exact .dec h (tryDecryptBody_cases env s hp hsp h hI.frameSize mem inp)
  · exact .check h (checkTrailer_cases env s h mem inp)
  · rcases tryGenKey_cases env s h hst.1 with ⟨e, h1, h2⟩ | ⟨h1, ctx, m, p, mid, k, c, ct, tag, sg, h2⟩
    · exact .gen h (.fail e h1 h2 rfl rfl)
    · exact .gen h (.ok ctx m p mid k c ct tag sg h1 h2 rfl rfl)
  · obtain ⟨hm, -, hq, -, ⟨c, hc, hcl, hc0⟩, p, hsp, hp, -⟩ := hst
    rcases tryWriteHeader_cases (mem := mem) (inp := inp) h hc (by rw [hsp]; rfl) (by omega) with ⟨h1, h2⟩ | ⟨h1, h2⟩
    · exact .header h (.wrote c hc h1 h2)
    · exact .header h (.stall c hc h1 h2)
  · obtain ⟨hm, -, hq, p, hsp, hp, -⟩ := hst
    exact .body p h hsp hp (tryEncryptBody_cases env s hp hsp h hq mem inp inNull)
  · obtain ⟨hm, -, p, hsp, hp, hsg⟩ := hst
    exact .trailer p h hsp hp (writeTrailer_cases env s hsp h hsg.mp mem inp)

theorem sigFeed_isSome {c : Crypto} {o o' : Option SigCtx} {x : Bytes} (h : sigFeed c o x = .ok o') : o'.isSome = o.isSome := by
  unfold sigFeed at h
  cases o with
  | none => simp only at h; cases h; rfl
  | some ctx =>
    simp only at h
    split at h
    · cases h
    · cases h; rfl

/-- Every step ends normally or with an error, keeps its buffer within bounds, only consumes input, and a successful step
keeps the invariant. -/
structure StepOK (s : Session) (mem inp : Bytes) (r : Step) : Prop where
  res : r.res = .ok ∨ ∃ e, r.res = .err e
  memLen : r.buf.mem.length = mem.length
  bufLen : r.buf.len ≤ mem.length
  inpLe : r.inp.length ≤ inp.length
  suffix : r.res = .ok → ∃ c, inp = c ++ r.inp
  inv : r.res = .ok → Inv r.s
  errInv : r.s.frameSize < 2 ^ 32 ∧ r.s.preciseSize < 2 ^ 64 ∧ r.s.sizeBound < 2 ^ 64 ∧ r.s.dataSoFar < 2 ^ 64 ∧
    (r.s.preciseKnown = true → r.s.preciseSize ≤ r.s.sizeBound)

theorem sessionStep_ok (env : Env) (s : Session) (hI : Inv s) (mem inp : Bytes) (inNull : Bool) :
    StepOK s mem inp (sessionStep env s ⟨mem, 0⟩ inp inNull) := by
  have hst := hI.st
  obtain ⟨i1, i2, i3, i4, i5, -⟩ := hI
  have hc := sessionStep_cases env s ⟨i1, i2, i3, i4, i5, hst⟩ mem inp inNull
  generalize sessionStep env s ⟨mem, 0⟩ inp inNull = r at hc ⊢
  have hu : ∀ n, u64 n < 2 ^ 64 := fun n => by simp only [u64]; omega
  unfold StInv at hst
  cases hc with
  | cfgFail h hr =>
    subst hr
    exact ⟨Or.inr ⟨_, rfl⟩, rfl, Nat.zero_le _, Nat.le_refl _, by simp, by simp, i1, i2, i3, i4, i5⟩
  | cfgEnc h hm h1 h2 hr =>
    subst hr
    simp only [h] at hst
    refine ⟨Or.inl rfl, rfl, Nat.zero_le _, Nat.le_refl _, fun _ => ⟨[], rfl⟩, fun _ => ⟨i1, i2, i3, i4, i5, ?_⟩, i1, i2, i3, i4, i5⟩
    obtain ⟨-, a1, a2, a3, a4, a5, a6, a7, a8, a9, a10, a11, a12, a13⟩ := hst
    exact ⟨hm, a1, a2, a3, a4, a5, a6, a7, a8, a9, a10, a11, a12, a13⟩
  | cfgDec h hm h1 h2 hr =>
    subst hr
    simp only [h] at hst
    refine ⟨Or.inl rfl, rfl, Nat.zero_le _, Nat.le_refl _, fun _ => ⟨[], rfl⟩, fun _ => ⟨i1, i2, i3, i4, i5, ?_⟩, i1, i2, i3, i4, i5⟩
    obtain ⟨-, a1, a2, a3, a4, a5, a6, a7, a8, a9, a10, a11, a12, a13⟩ := hst
    exact ⟨hm, a1, a2, a3, a4, a5, a6, a7, a8, a9, a10, a11, a12, a13⟩
  | done h hr =>
    subst hr
    simp only [h] at hst
    refine ⟨Or.inl rfl, rfl, Nat.zero_le _, Nat.le_refl _, fun _ => ⟨[], rfl⟩, fun _ => ⟨i1, i2, i3, i4, i5, ?_⟩, i1, i2, i3, i4, i5⟩
    unfold StInv
    simp only [h]
    exact hst
  | error h hr =>
    subst hr
    exact ⟨Or.inr ⟨_, rfl⟩, rfl, Nat.zero_le _, Nat.le_refl _, by simp, by simp, i1, i2, i3, i4, i5⟩
  | parse h hc =>
    simp only [h] at hst
    obtain ⟨hm, a1, a2, a3, a4, a5, a6, a7, a8, a9, a10, a11, a12, a13⟩ := hst
    cases hc with
    | fail e hr hbuf hinp hs =>
      refine ⟨Or.inr ⟨e, hr⟩, by rw [hbuf], by rw [hbuf]; exact Nat.zero_le _, hinp, by simp [hr], by simp [hr], ?_, ?_, ?_, ?_, ?_⟩
      · rcases hs.frameSize with hf | hf
        · omega
        · exact hf
      · rw [hs.preciseSize]; exact i2
      · rw [hs.sizeBound]; exact i3
      · rw [hs.dataSoFar]; exact i4
      · rw [hs.preciseKnown, hs.preciseSize, hs.sizeBound]; exact i5
    | stall est hr hbuf hinp hs why hest =>
      refine ⟨Or.inl hr, by rw [hbuf], by rw [hbuf]; exact Nat.zero_le _, by rw [hinp]; exact Nat.le_refl _, fun _ => ⟨[], hinp.symm⟩, fun _ => ?_, by rw [hs]; exact ⟨i1, i2, i3, i4, i5⟩⟩
      rw [hs]
      refine ⟨i1, i2, i3, i4, i5, ?_⟩
      unfold StInv
      simp only [h]
      exact ⟨hm, a1, a2, a3, a4, a5, a6, a7, a8, a9, a10, rfl, fun _ => rfl, List.nodup_nil⟩
    | opened hb hd row p m k sg hr hbuf hok =>
      have hfl : hd.frameLen < 2 ^ 32 := hok.ok.frameLen
      refine ⟨Or.inl hr, by rw [hbuf], by rw [hbuf]; exact Nat.zero_le _, ?_, fun _ => ⟨hb, hok.input⟩, fun _ => ?_, by rw [hok.result]; exact ⟨hfl, i2, i3, i4, i5⟩⟩
      · have := congrArg List.length hok.input
        rw [List.length_append] at this; omega
      · have hpp := hok.props
        rw [hok.result]
        exact ⟨hfl, i2, i3, i4, i5, hm, rfl, p, rfl, hpp⟩
  | dec h hc =>
    simp only [h] at hst
    cases hc with
    | fail e i o q sg hr hs hml hbl hinp =>
      exact ⟨Or.inr ⟨e, hr⟩, hml, hbl, hinp, by simp [hr], by simp [hr], by rw [hs]; exact ⟨i1, i2, i3, i4, i5⟩⟩
    | stall i o hr hs hbuf hinp why =>
      refine ⟨Or.inl hr, by rw [hbuf], by rw [hbuf]; exact Nat.zero_le _, by rw [hinp]; exact Nat.le_refl _, fun _ => ⟨[], hinp.symm⟩, fun _ => ?_, by rw [hs]; exact ⟨i1, i2, i3, i4, i5⟩⟩
      rw [hs]
      refine ⟨i1, i2, i3, i4, i5, ?_⟩
      unfold StInv
      simp only [h]
      exact hst
    | opened f pt sg i hr hparse hok hinp hseq hopen hpt hroom hfeed hs hbuf =>
      refine ⟨Or.inl hr, ?_, ?_, ?_, fun _ => ⟨_, hinp⟩, fun _ => ?_, by rw [hs]; exact ⟨i1, i2, i3, i4, i5⟩⟩
      · rw [hbuf]; simp; omega
      · rw [hbuf]; exact hroom
      · rw [congrArg List.length hinp]; simp
      · rw [hs]
        refine ⟨i1, i2, i3, i4, i5, ?_⟩
        unfold StInv decFrameState
        by_cases hft : f.type = .frame
        · simp only [hft, if_true]; exact hst
        · simp only [hft, if_false]; exact hst
  | check h hc =>
    simp only [h] at hst
    obtain ⟨hm, hcs, hp⟩ := hst
    cases hc with
    | fail e ctx sg hr hctx hs hbuf hinp =>
      exact ⟨Or.inr ⟨e, hr⟩, by rw [hbuf], by rw [hbuf]; exact Nat.zero_le _, hinp, by simp [hr], by simp [hr], by rw [hs]; exact ⟨i1, i2, i3, i4, i5⟩⟩
    | stall n ctx hr hctx hs hbuf hinp why =>
      refine ⟨Or.inl hr, by rw [hbuf], by rw [hbuf]; exact Nat.zero_le _, by rw [hinp]; exact Nat.le_refl _, fun _ => ⟨[], hinp.symm⟩, fun _ => ?_, by rw [hs]; exact ⟨i1, i2, i3, i4, i5⟩⟩
      rw [hs]
      refine ⟨i1, i2, i3, i4, i5, ?_⟩
      unfold StInv
      simp only [h]
      exact ⟨hm, hcs, hp⟩
    | noSig hr hctx hs hbuf hinp =>
      refine ⟨Or.inl hr, by rw [hbuf], by rw [hbuf]; exact Nat.zero_le _, by rw [hinp]; exact Nat.le_refl _, fun _ => ⟨[], hinp.symm⟩, fun _ => ?_, by rw [hs]; exact ⟨i1, i2, i3, i4, i5⟩⟩
      rw [hs]
      refine ⟨i1, i2, i3, i4, i5, ?_, hcs⟩
      show s.mode.isValid = true
      cases hmm : s.mode <;> simp_all [Mode.isValid, Mode.isDecrypt]
    | verified ctx sig hr hctx hver hs hbuf hinp hl =>
      refine ⟨Or.inl hr, by rw [hbuf], by rw [hbuf]; exact Nat.zero_le _, ?_, fun _ => ⟨_, hinp⟩, fun _ => ?_, by rw [hs]; exact ⟨i1, i2, i3, i4, i5⟩⟩
      · rw [congrArg List.length hinp]; simp; omega
      · rw [hs]
        refine ⟨i1, i2, i3, i4, i5, ?_⟩
        unfold StInv
        simp only [h]
        exact ⟨hm, hcs, hp⟩
  | gen h hc =>
    simp only [h] at hst
    cases hc with
    | fail e hr hs hbuf hinp =>
      refine ⟨Or.inr ⟨e, hr⟩, by rw [hbuf], by rw [hbuf]; exact Nat.zero_le _, by rw [hinp]; exact Nat.le_refl _, by simp [hr], by simp [hr], ?_, ?_, ?_, ?_, ?_⟩
      · rw [hs.frameSize]; exact i1
      · rw [hs.preciseSize]; exact i2
      · rw [hs.sizeBound]; exact i3
      · rw [hs.dataSoFar]; exact i4
      · rw [hs.preciseKnown, hs.preciseSize, hs.sizeBound]; exact i5
    | ok ctx m p mid k c ct tag sg hr hok hbuf hinp =>
      refine ⟨Or.inl hr, by rw [hbuf], by rw [hbuf]; exact Nat.zero_le _, by rw [hinp]; exact Nat.le_refl _, fun _ => ⟨[], hinp.symm⟩, fun _ => ?_, by rw [hok.result]; exact ⟨i1, i2, i3, i4, i5⟩⟩
      have hid : p.algId = m.alg := (suiteFacts hok.props).id
      have hsg := sigFeed_isSome hok.feed
      rw [hok.result]
      refine ⟨i1, i2, i3, i4, i5, hst.1, rfl, rfl, hst.2.dataSoFar, ⟨_, rfl, rfl, ?_⟩, p, rfl, ?_, ?_⟩
      · show (hdrBytes p.msgFormatVersion (encHeader s ctx m p mid c tag)).length ≠ 0
        simp [hdrBytes, hdrBytesPre]
      · show algProps p.algId = some p
        rw [hid]; exact hok.props
      · show p.signatureLen ≠ 0 ↔ sg.isSome = true
        rw [hsg]; exact hok.sig
  | header h hc =>
    simp only [h] at hst
    obtain ⟨hm, hcs, hq, hds, hcc, p, hsp, hp, hsg⟩ := hst
    cases hc with
    | wrote c hcp hroom hr =>
      subst hr
      refine ⟨Or.inl rfl, by simp; omega, hroom, Nat.le_refl _, fun _ => ⟨[], rfl⟩, fun _ => ⟨i1, i2, i3, i4, i5, ?_⟩, i1, i2, i3, i4, i5⟩
      exact ⟨hm, hcs, by show s.seqno ≠ 0; omega, p, hsp, hp, hsg⟩
    | stall c hcp hroom hr =>
      subst hr
      refine ⟨Or.inl rfl, rfl, Nat.zero_le _, Nat.le_refl _, fun _ => ⟨[], rfl⟩, fun _ => ⟨i1, i2, i3, i4, i5, ?_⟩, i1, i2, i3, i4, i5⟩
      unfold StInv
      simp only [h]
      exact ⟨hm, hcs, hq, hds, hcc, p, hsp, hp, hsg⟩
  | body p h hsp hp hc =>
    simp only [h] at hst
    obtain ⟨hm, hcs, hq, p', hsp', hp', hsg⟩ := hst
    cases hc with
    | fail e o i ns hr hinp hs hns hml hbl =>
      exact ⟨Or.inr ⟨e, hr⟩, hml, by omega, by rw [hinp]; exact Nat.le_refl _, by simp [hr], by simp [hr], by rw [hs]; exact ⟨i1, i2, i3, i4, i5⟩⟩
    | stall o i hr hinp hs hml hbl why =>
      refine ⟨Or.inl hr, hml, by omega, by rw [hinp]; exact Nat.le_refl _, fun _ => ⟨[], hinp.symm⟩, fun _ => ?_, by rw [hs]; exact ⟨i1, i2, i3, i4, i5⟩⟩
      rw [hs]
      refine ⟨i1, i2, i3, i4, i5, ?_⟩
      unfold StInv
      simp only [h]
      exact ⟨hm, hcs, hq, p', hsp', hp', hsg⟩
    | wrote type pt ct tag sg hr hok hinp hnull hs hroom hbuf =>
      have hwl : (wireFrame (encFrame s p type ct tag)).length = frameSize type pt.length := by
        rw [length_wireFrame' (length_frameIv hp _) hok.tagLen]; simp [encFrame, hok.ctLen]
      have hsg' := sigFeed_isSome hok.feed
      refine ⟨Or.inl hr, ?_, ?_, ?_, fun _ => ⟨_, hinp⟩, fun _ => ?_, by rw [hs]; exact ⟨i1, i2, i3, hu _, i5⟩⟩
      · rw [hbuf]; simp; omega
      · rw [hbuf]; exact hroom
      · rw [congrArg List.length hinp]; simp
      · rw [hs]
        refine ⟨i1, i2, i3, hu _, i5, ?_⟩
        unfold StInv encFrameState
        by_cases hft : type = .frame
        · simp only [hft, if_true]; exact ⟨hm, hcs, by omega, p', hsp', hp', by rw [hsg']; exact hsg⟩
        · simp only [hft, if_false]; exact ⟨hm, hcs, p', hsp', hp', by rw [hsg']; exact hsg⟩
  | trailer p h hsp hp hc =>
    simp only [h] at hst
    obtain ⟨hm, hcs, p', hsp', hp', hsg⟩ := hst
    cases hc with
    | fail e hr hinp hsig hs hml hbl =>
      exact ⟨Or.inr ⟨e, hr⟩, hml, hbl, by rw [hinp]; exact Nat.le_refl _, by simp [hr], by simp [hr], by rw [hs]; exact ⟨i1, i2, i3, i4, i5⟩⟩
    | stall hr hinp hs hbuf hsig why =>
      refine ⟨Or.inl hr, by rw [hbuf], by rw [hbuf]; exact Nat.zero_le _, by rw [hinp]; exact Nat.le_refl _, fun _ => ⟨[], hinp.symm⟩, fun _ => ?_, by rw [hs]; exact ⟨i1, i2, i3, i4, i5⟩⟩
      rw [hs]
      refine ⟨i1, i2, i3, i4, i5, ?_⟩
      unfold StInv
      simp only [h]
      exact ⟨hm, hcs, p', hsp', hp', hsg⟩
    | unsigned hr hinp hs hsig hbuf =>
      refine ⟨Or.inl hr, by rw [hbuf], by rw [hbuf]; exact Nat.zero_le _, by rw [hinp]; exact Nat.le_refl _, fun _ => ⟨[], hinp.symm⟩, fun _ => ?_, by rw [hs]; exact ⟨i1, i2, i3, i4, i5⟩⟩
      rw [hs]
      exact ⟨i1, i2, i3, i4, i5, by show s.mode.isValid = true; rw [hm]; rfl, hcs⟩
    | signed ctx sig hr hinp hsig hctx hsign hs hroom hroom' hbuf =>
      refine ⟨Or.inl hr, ?_, ?_, by rw [hinp]; exact Nat.le_refl _, fun _ => ⟨[], hinp.symm⟩, fun _ => ?_, by rw [hs]; exact ⟨i1, i2, i3, i4, i5⟩⟩
      · rw [hbuf]; simp; omega
      · rw [hbuf]; exact hroom
      · rw [hs]
        exact ⟨i1, i2, i3, i4, i5, by show s.mode.isValid = true; rw [hm]; rfl, hcs⟩

end Verif
