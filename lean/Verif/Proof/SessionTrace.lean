import Verif.Proof.SessionHist
import Verif.Spec.Trace
/-
The trace of a session is that of the materials.
-/
namespace Verif
open Spec

/-- Nothing about the trace changes. -/
def Quiet (s s' : Session) : Prop := s'.trace = s.trace ∧ s'.cmmSuccess = s.cmmSuccess ∧ s'.header.encCtx = s.header.encCtx

theorem Quiet.trans {s s' s'' : Session} (h : Quiet s s') (h' : Quiet s' s'') : Quiet s s'' :=
  ⟨h'.1.trans h.1, h'.2.1.trans h.2.1, h'.2.2.trans h.2.2⟩

theorem changeState_some {s s' : Session} {st : St} (h : changeState s st = some s') : s' = { s with state := st } := by
  unfold changeState at h
  repeat' split at h
  all_goals first
    | (cases h; done)
    | (next h1 => subst h1; exact (Option.some.inj h).symm)
    | exact (Option.some.inj h).symm

theorem signHeaderEnd_quiet (env : Env) (s : Session) (copy : Bytes) : Quiet s (signHeaderEnd env s copy).1 := by
  unfold signHeaderEnd
  simp only
  split
  · exact ⟨rfl, rfl, rfl⟩
  · split
    · next h => rw [changeState_some h]; exact ⟨rfl, rfl, rfl⟩
    · exact ⟨rfl, rfl, rfl⟩

theorem signHeaderTag_quiet (env : Env) (s : Session) (p : AlgProps) (copy : Bytes) : Quiet s (signHeaderTag env s p copy).1 := by
  unfold signHeaderTag
  simp only
  have hh : ∀ (h : Hdr) (authtag : Bytes), (if p.msgFormatVersion = 1 then
        { h with iv := authtag.take h.iv.length, authTag := (authtag.drop h.iv.length).take h.authTag.length }
      else { h with authTag := authtag.take h.authTag.length }).encCtx = h.encCtx := by
    intro h t; split <;> rfl
  split
  · exact ⟨rfl, rfl, rfl⟩
  · next t ht =>
    generalize hx : (if p.msgFormatVersion = 1 then
        { s.header with iv := t.take s.header.iv.length, authTag := (t.drop s.header.iv.length).take s.header.authTag.length }
      else { s.header with authTag := t.take s.header.authTag.length } : Hdr) = x
    have hc : x.encCtx = s.header.encCtx := by rw [← hx]; exact hh _ _
    split
    · split
      · exact ⟨rfl, rfl, hc⟩
      · exact Quiet.trans (s' := { s with nonces := s.nonces ++ [(s.contentKey, List.replicate p.ivLen 0)], header := x }) ⟨rfl, rfl, hc⟩ (signHeaderEnd_quiet _ _ _)
    · exact ⟨rfl, rfl, hc⟩

theorem signHeaderStep_quiet (env : Env) (s : Session) (p : AlgProps) : Quiet s (signHeaderStep env s p).1 := by
  unfold signHeaderStep
  simp only
  repeat' split
  all_goals first | exact ⟨rfl, rfl, rfl⟩ | exact signHeaderTag_quiet _ _ _ _

theorem genKeyMessageId_quiet (env : Env) (s : Session) (p : AlgProps) (m : EncMaterials) : Quiet s (genKeyMessageId env s p m).1 := by
  unfold genKeyMessageId genKeyDerive buildHeader
  simp only
  repeat' split
  all_goals first | exact ⟨rfl, rfl, rfl⟩ | exact signHeaderStep_quiet _ _ _

theorem algProps_key_pos {a : Nat} {p : AlgProps} (h : algProps a = some p) : p.dataKeyLen ≠ 0 := by
  unfold algProps at h
  split at h <;> first | (cases h; done) | (simp only [Option.some.injEq] at h; subst h; decide)

theorem tryGenKey_trace (env : Env) {s : Session} (hs : s.cmmSuccess = false) (ht : s.trace = []) (h : (tryGenKey env s).1.cmmSuccess = true) :
    ∃ req m, req.encCtx = s.header.encCtx ∧ env.cmm.generate req = ((tryGenKey env s).1.header.encCtx, .ok m) ∧ (tryGenKey env s).1.trace = m.trace ∧
      m.dataKey ≠ [] := by
  unfold tryGenKey at h ⊢
  simp only at h ⊢
  generalize hreq : ({ encCtx := s.header.encCtx, requestedAlg := 0, plaintextSize := if s.preciseKnown then s.preciseSize else s.sizeBound, policy := s.policy } : EncRequest) = req at h ⊢
  have he : req.encCtx = s.header.encCtx := by subst hreq; rfl
  cases hg : env.cmm.generate req with
  | mk ctx x =>
    rw [hg] at h
    refine ⟨req, ?_⟩
    rw [hg]
    cases x with
    | error e => simp only at h; rw [hs] at h; cases h
    | ok m =>
      simp only at h ⊢
      refine ⟨m, he, ?_⟩
      unfold genKeyWith at h ⊢
      simp only at h ⊢
      cases hp : algProps m.alg with
      | none => simp only [hp] at h; rw [hs] at h; cases h
      | some p =>
        simp only [hp] at h ⊢
        split at h
        · simp only at h; rw [hs] at h; cases h
        · next hck =>
          have q := genKeyMessageId_quiet env { s with header := { s.header with encCtx := ctx }, algProps := some p, signctx := m.signctx, trace := s.trace ++ m.trace, cmmSuccess := true } p m
          refine ⟨by rw [q.2.2], by rw [q.1, ht]; rfl, fun h0 => ?_⟩
          have := algProps_key_pos hp
          unfold genKeyCheck at hck
          rw [h0] at hck
          simp [Ne.symm this] at hck

theorem unwrapValidate_quiet (env : Env) (s : Session) (p : AlgProps) (m : DecMaterials) :
    (unwrapValidate env s p m).1.trace = s.trace ∧ (unwrapValidate env s p m).1.header = s.header := by
  have hd : (deriveDataKey env s p m).1.trace = s.trace ∧ (deriveDataKey env s p m).1.header = s.header := by
    unfold deriveDataKey
    simp only
    repeat' split
    all_goals exact ⟨rfl, rfl⟩
  have hu : ∀ s, (unwrapSig env s p m).1.trace = s.trace ∧ (unwrapSig env s p m).1.header = s.header := by
    intro s
    have he : ∀ s, (unwrapEnd s).1.trace = s.trace ∧ (unwrapEnd s).1.header = s.header := by
      intro s
      unfold unwrapEnd
      simp only
      split
      · next h => rw [changeState_some h]; exact ⟨rfl, rfl⟩
      · exact ⟨rfl, rfl⟩
    unfold unwrapSig
    repeat' split
    all_goals first | exact ⟨rfl, rfl⟩ | exact he _
  unfold unwrapValidate
  cases hx : deriveDataKey env s p m with
  | mk s1 x =>
    rw [hx] at hd
    cases x with
    | error e => exact hd
    | ok u =>
      simp only
      split
      · exact ⟨(hu s1).1.trans hd.1, (hu s1).2.trans hd.2⟩
      · exact hd

theorem unwrapKeys_trace (env : Env) {s : Session} (hs : s.cmmSuccess = false) (ht : s.trace = []) (h : (unwrapKeys env s).1.cmmSuccess = true) :
    ∃ m, env.cmm.decrypt { encCtx := (unwrapKeys env s).1.header.encCtx, edks := (unwrapKeys env s).1.header.edks, alg := (unwrapKeys env s).1.header.algId } = .ok m ∧
      (unwrapKeys env s).1.trace = m.trace ∧ (unwrapKeys env s).1.header = s.header := by
  unfold unwrapKeys at h ⊢
  simp only at h ⊢
  cases hp : algProps s.header.algId with
  | none => simp only [hp] at h; rw [hs] at h; cases h
  | some p =>
    simp only [hp] at h ⊢
    split at h
    · simp only at h; rw [hs] at h; cases h
    · next ha =>
      rw [if_neg ha]
      have hid := (suiteFacts hp).id
      split at h
      · simp only at h; rw [hs] at h; cases h
      · next m hm =>
        have hw : (unwrapWith env { s with algProps := some p } p m).1.trace = m.trace ∧ (unwrapWith env { s with algProps := some p } p m).1.header = s.header := by
          unfold unwrapWith
          simp only
          split
          · exact ⟨by simp [ht], rfl⟩
          · split
            · exact ⟨by simp [ht], rfl⟩
            · obtain ⟨a, b⟩ := unwrapValidate_quiet env { s with algProps := some p, trace := s.trace ++ m.trace, cmmSuccess := true } p m
              exact ⟨by rw [a]; simp [ht], b⟩
        exact ⟨m, by rw [hw.2, ← hm, hid], hw.1, hw.2⟩

theorem tryParseHeader_trace (env : Env) {s : Session} (hs : s.cmmSuccess = false) (ht : s.trace = []) (buf : WBuf) (inp : Bytes)
    (h : (tryParseHeader env s buf inp).s.cmmSuccess = true) :
    ∃ m, env.cmm.decrypt
        { encCtx := (tryParseHeader env s buf inp).s.header.encCtx
          edks := (tryParseHeader env s buf inp).s.header.edks
          alg := (tryParseHeader env s buf inp).s.header.algId } = .ok m ∧
      (tryParseHeader env s buf inp).s.trace = m.trace ∧ DistinctKeys (tryParseHeader env s buf inp).s.header.encCtx := by
  unfold tryParseHeader hdrParseInto at h ⊢
  cases hp : hdrParse s.maxEdks inp with
  | error e =>
    simp only [hp] at h
    split at h <;> simp only at h <;> rw [hs] at h <;> cases h
  | ok x =>
    obtain ⟨hd, rest⟩ := x
    obtain ⟨row, hok, -⟩ := hdrParse_iff.mp hp
    simp only [hp] at h ⊢
    unfold parsedHeader at h ⊢
    simp only at h ⊢
    split at h
    · simp only at h; rw [hs] at h; cases h
    split at h
    · simp only at h; rw [hs] at h; cases h
    split at h
    · simp only at h; rw [hs] at h; cases h
    next h0 h1 h2 =>
    rw [if_neg h0, if_neg h1, if_neg h2]
    split at h
    · simp only at h; rw [hs] at h; cases h
    · next s1 hc =>
      have e := changeState_some hc
      obtain ⟨m, a, b, c⟩ := unwrapKeys_trace env (s := s1) (by rw [e]; exact hs) (by rw [e]; exact ht) h
      refine ⟨m, a, b, ?_⟩
      rw [c, e]
      exact hok.ctxKeys

/-- Where the trace of a session comes from. -/
def TraceInv (E : Env → Prop) (s : Session) : Prop := s.cmmSuccess = true → TraceOf E s s.trace

theorem TraceInv.of_false {E : Env → Prop} {s : Session} (h : s.cmmSuccess = false) : TraceInv E s := fun h' => by rw [h] at h'; cases h'

theorem TraceInv.congr {E : Env → Prop} {s s' : Session} (h : TraceInv E s) (h1 : s'.cmmSuccess = s.cmmSuccess) (h2 : s'.mode = s.mode) (h3 : s'.header = s.header)
    (h4 : s'.trace = s.trace) (h5 : s'.state ≠ .error → s.state ≠ .error) : TraceInv E s' := by
  intro hc
  rw [h1] at hc
  obtain ⟨e, he, hx⟩ := h hc
  refine ⟨e, he, ?_⟩
  rw [h2, h3, h4]
  rcases hx with ⟨a, req, m, b, c, d, f, g⟩ | hx
  · exact .inl ⟨a, req, m, b, c, d, f, fun hn => g (h5 hn)⟩
  · exact .inr hx

theorem TraceInv.step {E : Env → Prop} {env : Env} (he : E env) {s : Session} (hI : Inv s) (h : TraceInv E s) (mem inp : Bytes) (inNull : Bool) :
    ((sessionStep env s ⟨mem, 0⟩ inp inNull).res = .ok → TraceInv E (sessionStep env s ⟨mem, 0⟩ inp inNull).s) ∧
    TraceInv E { (sessionStep env s ⟨mem, 0⟩ inp inNull).s with state := .error } := by
  have hc := sessionStep_cases env s hI mem inp inNull
  have hst := hI.st
  unfold StInv at hst
  by_cases hr : s.state = .readHeader
  · rw [hr] at hst
    have e : sessionStep env s ⟨mem, 0⟩ inp inNull = tryParseHeader env s ⟨mem, 0⟩ inp := by simp only [sessionStep, hr]
    have hk : (sessionStep env s ⟨mem, 0⟩ inp inNull).s.mode = s.mode := (sessionStep_keeps env s hI mem inp inNull).mode
    have hx : ∀ st, TraceInv E { (sessionStep env s ⟨mem, 0⟩ inp inNull).s with state := st } := by
      intro st hcs
      simp only at hcs
      obtain ⟨m, a, b, c⟩ := tryParseHeader_trace env hst.2.cmmSuccess hst.2.trace ⟨mem, 0⟩ inp (e ▸ hcs)
      rw [← e] at a b c
      exact ⟨env, he, .inr ⟨by simp only [hk]; exact hst.1, m, a, b, c⟩⟩
    exact ⟨fun _ => hx (sessionStep env s ⟨mem, 0⟩ inp inNull).s.state, hx _⟩
  by_cases hg : s.state = .genKey
  · rw [hg] at hst
    have e : sessionStep env s ⟨mem, 0⟩ inp inNull = ⟨(tryGenKey env s).1, ⟨mem, 0⟩, inp, (tryGenKey env s).2⟩ := by simp only [sessionStep, hg]
    have hk : (sessionStep env s ⟨mem, 0⟩ inp inNull).s.mode = s.mode := (sessionStep_keeps env s hI mem inp inNull).mode
    refine ⟨fun hok hcs => ?_, fun hcs => ?_⟩
    · cases hc with
      | gen _ hc =>
        cases hc with
        | fail e' hr => rw [hr] at hok; cases hok
        | ok ctx m p mid k c ct tag sg hr hok =>
          refine ⟨env, he, .inl ⟨by rw [hk]; exact hst.1, encRequest s, m, hst.2.table, ?_, ?_, ?_, fun _ => ?_⟩⟩
          · rw [hok.result]; exact hok.gen
          · rw [hok.result]; simp [hst.2.trace]
          · intro h0
            have := algProps_key_pos hok.props
            have hl := hok.dataKey
            rw [h0] at hl
            exact this hl.symm
          · rw [hok.result]; rfl
      | cfgFail hs => rw [hg] at hs; cases hs
      | cfgEnc hs => rw [hg] at hs; cases hs
      | cfgDec hs => rw [hg] at hs; cases hs
      | parse hs => rw [hg] at hs; cases hs
      | dec hs => rw [hg] at hs; cases hs
      | check hs => rw [hg] at hs; cases hs
      | header hs => rw [hg] at hs; cases hs
      | body p hs => rw [hg] at hs; cases hs
      | trailer p hs => rw [hg] at hs; cases hs
      | done hs => rw [hg] at hs; cases hs
      | error hs => rw [hg] at hs; cases hs
    · simp only at hcs
      rw [e] at hcs hk
      simp only at hcs hk
      obtain ⟨req, m, a, b, c, d⟩ := tryGenKey_trace env hst.2.cmmSuccess hst.2.trace hcs
      refine ⟨env, he, .inl ⟨?_, req, m, by rw [a]; exact hst.2.table, ?_, ?_, d, fun hn => absurd rfl hn⟩⟩
      · rw [e]; simp only [hk]; exact hst.1
      · rw [e]; exact b
      · rw [e]; exact c
  have key : ∀ r : Step, r.s.cmmSuccess = s.cmmSuccess → r.s.mode = s.mode → r.s.header = s.header → r.s.trace = s.trace →
      (r.s.state ≠ .error → s.state ≠ .error) → (r.res = .ok → TraceInv E r.s) ∧ TraceInv E { r.s with state := .error } :=
    fun r a b c d f => ⟨fun _ => h.congr a b c d f, h.congr (s' := { r.s with state := .error }) a b c d (fun hn => absurd rfl hn)⟩
  generalize sessionStep env s ⟨mem, 0⟩ inp inNull = r at hc ⊢
  cases hc with
  | cfgFail h hr => subst hr; exact key _ rfl rfl rfl rfl id
  | cfgEnc h _ _ _ hr => subst hr; exact key _ rfl rfl rfl rfl (by simp [h])
  | cfgDec h _ _ _ hr => subst hr; exact key _ rfl rfl rfl rfl (by simp [h])
  | done h hr => subst hr; exact key _ rfl rfl rfl rfl id
  | error h hr => subst hr; exact key _ rfl rfl rfl rfl id
  | parse hs => exact absurd hs hr
  | gen hs => exact absurd hs hg
  | dec hs hc =>
    cases hc with
    | fail e i o q sg _ hx => exact key _ (by rw [hx]) (by rw [hx]) (by rw [hx]) (by rw [hx]) (by simp [hs])
    | stall i o _ hx => exact key _ (by rw [hx]) (by rw [hx]) (by rw [hx]) (by rw [hx]) (by simp [hs])
    | opened f pt sg i _ _ _ _ _ _ _ _ _ hx =>
      exact key _ (by rw [hx]; rfl) (by rw [hx]; rfl) (by rw [hx]; rfl) (by rw [hx]; rfl) (by simp [hs])
  | check hs hc =>
    cases hc with
    | fail e ctx sg _ _ hx => exact key _ (by rw [hx]) (by rw [hx]) (by rw [hx]) (by rw [hx]) (by simp [hs])
    | stall n ctx _ _ hx => exact key _ (by rw [hx]) (by rw [hx]) (by rw [hx]) (by rw [hx]) (by simp [hs])
    | noSig _ _ hx => exact key _ (by rw [hx]) (by rw [hx]) (by rw [hx]) (by rw [hx]) (by simp [hs])
    | verified ctx sig _ _ _ hx => exact key _ (by rw [hx]) (by rw [hx]) (by rw [hx]) (by rw [hx]) (by simp [hs])
  | header hs hc =>
    cases hc with
    | wrote c _ _ hx => subst hx; exact key _ rfl rfl rfl rfl (by simp [hs])
    | stall c _ _ hx => subst hx; exact key _ rfl rfl rfl rfl (by simp [hs])
  | body p hs _ _ hc =>
    cases hc with
    | fail e o i ns _ _ hx => exact key _ (by rw [hx]) (by rw [hx]) (by rw [hx]) (by rw [hx]) (by simp [hs])
    | stall o i _ _ hx => exact key _ (by rw [hx]) (by rw [hx]) (by rw [hx]) (by rw [hx]) (by simp [hs])
    | wrote type pt ct tag sg _ _ _ _ hx =>
      exact key _ (by rw [hx]; rfl) (by rw [hx]; rfl) (by rw [hx]; rfl) (by rw [hx]; rfl) (by simp [hs])
  | trailer p hs _ _ hc =>
    cases hc with
    | fail e _ _ _ hx => exact key _ (by rw [hx]) (by rw [hx]) (by rw [hx]) (by rw [hx]) (by simp [hs])
    | stall _ _ hx => exact key _ (by rw [hx]) (by rw [hx]) (by rw [hx]) (by rw [hx]) (by simp [hs])
    | unsigned _ _ hx => exact key _ (by rw [hx]) (by rw [hx]) (by rw [hx]) (by rw [hx]) (by simp [hs])
    | signed ctx sig _ _ _ _ _ hx => exact key _ (by rw [hx]) (by rw [hx]) (by rw [hx]) (by rw [hx]) (by simp [hs])

theorem Steps.tinv {E : Env → Prop} {env : Env} {inNull : Bool} {s s' : Session} {inp inp' o : Bytes} (h : Steps env inNull s inp o s' inp') (he : E env)
    (hI : Inv s) (ht : TraceInv E s) : TraceInv E s' := by
  induction h with
  | refl => exact ht
  | @step s inp mem r out s' inp' hr hok h ih =>
    subst hr
    exact ih ((sessionStep_ok env s hI mem inp inNull).inv hok) ((ht.step he hI mem inp inNull).1 hok)

theorem TraceInv.process {E : Env → Prop} {env : Env} (he : E env) {s : Session} (hI : Inv s) (h : TraceInv E s) (mem inp : Bytes) (inNull : Bool) :
    TraceInv E (process env s mem inp inNull).s := by
  have hc := process_cases env s hI mem inp inNull
  generalize Verif.process env s mem inp inNull = o at hc ⊢
  cases hc with
  | ok rest hr hml hw hread hrl hI' hne hsteps hstall => exact hsteps.tinv he hI h
  | err e out inp1 mem1 s1 hr hmem hw hrl hI' hst hsteps hI1 hfail hs =>
    have h1 := (hsteps.tinv he hI h).step he hI1 mem1 inp1 inNull
    rcases hs with ⟨hs, -⟩ | ⟨hs, -⟩
    · exact h1.2.congr (by rw [hs]) (by rw [hs]) (by rw [hs]) (by rw [hs]) (fun hn => absurd hst hn)
    · exact h1.2.congr (by rw [hs]) (by rw [hs]) (by rw [hs]) (by rw [hs]) (fun hn => absurd hst hn)

theorem TraceInv.failSession {E : Env → Prop} {s : Session} (h : TraceInv E s) (e : Err) : TraceInv E (failSession s e).1 := by
  obtain ⟨h1, h2⟩ := failSession_error s e
  generalize (Verif.failSession s e).1 = s' at h1 h2 ⊢
  exact h.congr (by rw [h2]) (by rw [h2]) (by rw [h2]) (by rw [h2]) (fun hn => absurd h1 hn)

theorem TraceInv.setMessageSize {E : Env → Prop} {s : Session} (env : Env) (hI : Inv s) (h : TraceInv E s) (n : Nat) : TraceInv E (setMessageSize env s n).1 := by
  rcases setMessageSize_cases env s hI n with ⟨e, s', h1, h2⟩ | ⟨hm, hk, hb, o, i, h1⟩
  · rw [h1]
    rcases h2 with rfl | rfl
    · exact h
    · exact h.failSession e
  · rw [h1]; exact h.congr rfl rfl rfl rfl id

theorem tinv_reset {E : Env → Prop} (s : Session) (m : Mode) : TraceInv E (reset s m).1 := by
  unfold reset
  simp only
  split
  · exact .of_false rfl
  · exact TraceInv.failSession (.of_false rfl) _

theorem tinv_apply {E : Env → Prop} {v : View} {env : Env} (hI : Inv v.s) (h : TraceInv E v.s) (he : E env) (op : Op) : TraceInv E (apply env v op).1.s := by
  cases op with
  | reset m => exact tinv_reset _ _
  | setFrameSize n =>
    simp only [apply, setFrameSize]
    split
    · exact h
    · exact h.congr rfl rfl rfl rfl id
  | setMessageSize n => exact h.setMessageSize env hI n
  | setMessageBound n =>
    simp only [apply, setMessageBound]
    repeat' split
    · exact h
    · exact h.failSession _
    · exact h.congr rfl rfl rfl rfl id
    · exact h
  | setPolicy p =>
    simp only [apply, setCommitmentPolicy]
    repeat' split
    all_goals first
      | exact TraceInv.failSession (s := { v.s with policy := p }) (h.congr rfl rfl rfl rfl id) _
      | exact h.congr rfl rfl rfl rfl id
  | setMaxEdks n =>
    simp only [apply, setMaxEdks]
    repeat' split
    all_goals first
      | exact h
      | exact h.failSession _
      | exact h.congr rfl rfl rfl rfl id
  | editCtx f hf =>
    simp only [apply, editEncCtx]
    split
    · next hc =>
      have := hI.st
      simp only [StInv, hc.2] at this
      exact .of_false this.2.cmmSuccess
    · exact h
  | process mem inp =>
    simp only [apply]
    split
    · exact h.process he hI mem _ _
    · exact h.process he hI mem _ _
  | processFull mem inp old =>
    have key : TraceInv E (processFull env v.s mem (inp.getD []) inp.isNone old).s := by
      unfold processFull
      by_cases h1 : v.s.state ≠ .config
      · rw [if_pos h1]; exact h
      rw [if_neg h1]
      have hset : TraceInv E (if v.s.mode = .encrypt then Verif.setMessageSize env v.s (inp.getD []).length else (v.s, .ok)).1 ∧
          Inv (if v.s.mode = .encrypt then Verif.setMessageSize env v.s (inp.getD []).length else (v.s, .ok)).1 := by
        have hst := hI.st
        have h1' : v.s.state = .config := Decidable.not_not.mp h1
        simp only [StInv, h1'] at hst
        have hh : HInv E v.s.policy ⟨v.s, [], []⟩ := hinv_config hI h1' (fun _ => rfl)
        split
        · exact ⟨h.setMessageSize env hI _, (hinv_setMessageSize env hh _).1.inv⟩
        · exact ⟨h, hI⟩
      simp only
      generalize (if v.s.mode = .encrypt then Verif.setMessageSize env v.s (inp.getD []).length else (v.s, .ok)) = r at hset ⊢
      obtain ⟨s1, res⟩ := r
      obtain ⟨ht, hi⟩ := hset
      have hp := ht.process he hi mem (inp.getD []) inp.isNone
      simp only at hp ⊢
      repeat' split
      all_goals first
        | exact ht
        | exact hp
        | exact hp.congr rfl rfl rfl rfl (fun hn => absurd rfl hn)
    simp only [apply]
    split <;> exact key

theorem Spec.Reach.tinv {E : Env → Prop} {pol : Policy} {v : View} (h : Reach E pol v) : TraceInv E v.s := by
  induction h with
  | new h =>
    obtain ⟨h1, h2, h3⟩ := sessionNew_inv h
    have := h1.st
    simp only [StInv, h2] at this
    exact .of_false this.2.cmmSuccess
  | call op h he ih => exact tinv_apply h.hinv.inv ih he op
  | restart env mode h ih => exact tinv_reset _ _

end Verif
