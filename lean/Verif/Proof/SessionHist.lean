import Verif.Proof.SessionProcess
import Verif.Spec.Session
/-
The invariant of histories of API calls: what a session has accepted and released.
-/
namespace Verif
open Spec

/-! ### signature contexts and frame lists -/

/-- A signature context after absorbing `x`. -/
def absorbed (o : Option SigCtx) (x : Bytes) : Option SigCtx := o.map (fun t => { t with data := t.data ++ x })

theorem sigFeed_eq {c : Crypto} {o o' : Option SigCtx} {x : Bytes} (h : sigFeed c o x = .ok o') : o' = absorbed o x := by
  unfold sigFeed at h
  cases o with
  | none => simp only at h; cases h; rfl
  | some ctx =>
    simp only [Crypto.sigUpdate] at h
    cases hf : c.sigFail ctx x with
    | some e => rw [hf] at h; cases h
    | none => rw [hf] at h; simp only at h; cases h; rfl

theorem absorbed_append (o : Option SigCtx) (x y : Bytes) : absorbed (absorbed o x) y = absorbed o (x ++ y) := by
  cases o <;> simp [absorbed]

theorem allFrames_nil {P : Nat → Frame → Bytes → Prop} : AllFrames P [] := fun i h => absurd h (Nat.not_lt_zero i)

theorem allFrames_snoc {P : Nat → Frame → Bytes → Prop} {fr : List (Frame × Bytes)} {f : Frame} {pt : Bytes} (h : AllFrames P fr)
    (hf : P (fr.length + 1) f pt) : AllFrames P (fr ++ [(f, pt)]) := by
  intro i hi
  rw [List.length_append, List.length_singleton] at hi
  by_cases h1 : i < fr.length
  · rw [List.getElem_append_left h1]; exact h i h1
  · have : i = fr.length := by omega
    subst this
    simpa using hf

theorem bodyBytes_snoc (fr : List (Frame × Bytes)) (f : Frame) (pt : Bytes) :
    bodyBytes (fr ++ [(f, pt)]) = bodyBytes fr ++ wireFrame f := by simp [bodyBytes]

theorem bodyText_snoc (fr : List (Frame × Bytes)) (f : Frame) (pt : Bytes) :
    bodyText (fr ++ [(f, pt)]) = bodyText fr ++ pt := by simp [bodyText]

theorem ongoing_snoc {fr : List (Frame × Bytes)} {f : Frame} {pt : Bytes} (h : Ongoing fr) (hf : f.type = .frame) :
    Ongoing (fr ++ [(f, pt)]) := by
  intro x hx
  rcases List.mem_append.mp hx with hx | hx
  · exact h x hx
  · simp only [List.mem_singleton] at hx; subst hx; exact hf

/-! ### what a session has done -/

/-- The header of a message being encrypted. -/
structure EncHdr (E : Env → Prop) (pol : Policy) (maxEdks fs : Nat) (h : Hdr) (m : EncMaterials) (p : AlgProps) (k hb : Bytes) :
    Prop where
  gen : ∃ env s s' ctx mid c ct tag sg, E env ∧ GenOK env s s' ctx m p mid k c ct tag sg ∧ s.policy = pol ∧
    s.maxEdks = maxEdks ∧ s.frameSize = fs ∧ s.header = { encCtx := s.header.encCtx } ∧ DistinctKeys s.header.encCtx ∧ h = encHeader s ctx m p mid c tag
  bytes : hb = hdrBytes p.msgFormatVersion h

/-- A message being encrypted. -/
structure EncLog (E : Env → Prop) (pol : Policy) (v : View) (h : Hdr) (m : EncMaterials) (p : AlgProps) (k hb : Bytes)
    (fr : List (Frame × Bytes)) : Prop where
  mode : v.s.mode = .encrypt
  hdr : EncHdr E pol v.s.maxEdks v.s.frameSize h m p k hb
  header : v.s.header = h
  props : v.s.algProps = some p
  key : v.s.contentKey = k
  frames : AllFrames (SealedFrame E k h.messageId v.s.frameSize) fr
  consumed : v.consumed = bodyText fr
  nonces : v.s.nonces = (k, List.replicate 12 0) :: (List.range fr.length).map (fun i => (k, bodyIv (i + 1)))
  seqno : v.s.seqno = fr.length + 1
  sofar : v.s.dataSoFar = u64 (bodyText fr).length

/-- The trailer of an encrypted message. -/
def EncTrailer (E : Env → Prop) (m : EncMaterials) (p : AlgProps) (signed tr : Bytes) : Prop :=
  (p.signatureLen = 0 ∧ tr = []) ∨
  (p.signatureLen ≠ 0 ∧ ∃ e ctx sig, E e ∧ absorbed m.signctx signed = some ctx ∧ e.crypto.sign ctx = .ok sig ∧ tr = wireTrailer sig)

/-- The header of a message being decrypted. -/
def DecHdr (E : Env → Prop) (pol : Policy) (maxEdks : Nat) (mode : Mode) (hb : Bytes) (h : Hdr) (row : SuiteRow) (p : AlgProps)
    (m : DecMaterials) (k : Bytes) : Prop :=
  ∃ env s s' inp rest sg, E env ∧ UnwrapOK env s s' inp rest hb h row p m k sg ∧ s.maxEdks = maxEdks ∧ s.mode = mode ∧ s.policy = pol

/-- A message being decrypted. -/
structure DecLog (E : Env → Prop) (pol : Policy) (v : View) (hb : Bytes) (h : Hdr) (row : SuiteRow) (p : AlgProps) (m : DecMaterials)
    (k : Bytes) (fr : List (Frame × Bytes)) : Prop where
  mode : v.s.mode.isDecrypt = true
  hdr : DecHdr E pol v.s.maxEdks v.s.mode hb h row p m k
  header : v.s.header = h
  props : v.s.algProps = some p
  key : v.s.contentKey = k
  frameSize : v.s.frameSize = h.frameLen
  frames : AllFrames (OpenedFrame E k h.messageId h.frameLen) fr
  released : v.released = bodyText fr
  seqno : v.s.seqno = fr.length + 1
  nonces : v.s.nonces = []

/-- The signature context of a decrypting session that has seen `signed`. -/
def DecSig (s : Session) (m : DecMaterials) (p : AlgProps) (signed : Bytes) : Prop :=
  (p.signatureLen = 0 ∧ s.signctx = none) ∨
  (p.signatureLen ≠ 0 ∧ m.signctx.isSome = true ∧ s.signctx = absorbed m.signctx signed)

/-- A trailer that was checked. -/
def DecTrailer (E : Env → Prop) (m : DecMaterials) (p : AlgProps) (signed tr : Bytes) : Prop :=
  (p.signatureLen = 0 ∧ tr = []) ∨
  (p.signatureLen ≠ 0 ∧ ∃ e ctx sig, E e ∧ absorbed m.signctx signed = some ctx ∧ e.crypto.verify ctx sig = .ok () ∧ tr = wireTrailer sig ∧
    sig.length < 65536)

/-- What a session that has not failed has done. -/
def LiveLog (E : Env → Prop) (pol : Policy) (v : View) : Prop :=
  match v.s.state with
  | .config | .genKey | .readHeader => v.consumed = [] ∧ v.released = [] ∧ v.s.nonces = []
  | .writeHeader => ∃ h m p k hb, EncLog E pol v h m p k hb [] ∧ v.released = [] ∧ v.s.headerCopy = some hb ∧
      v.s.signctx = absorbed m.signctx hb
  | .encryptBody => ∃ h m p k hb fr, EncLog E pol v h m p k hb fr ∧ Ongoing fr ∧ v.released = hb ++ bodyBytes fr ∧
      v.s.signctx = absorbed m.signctx (hb ++ bodyBytes fr)
  | .writeTrailer => ∃ h m p k hb fr, EncLog E pol v h m p k hb fr ∧ Complete fr ∧ v.released = hb ++ bodyBytes fr ∧
      v.s.signctx = absorbed m.signctx (hb ++ bodyBytes fr) ∧ v.s.preciseKnown = true ∧ v.consumed.length = v.s.preciseSize
  | .done =>
    (∃ h m p k hb fr tr, EncLog E pol v h m p k hb fr ∧ Complete fr ∧ v.released = hb ++ bodyBytes fr ++ tr ∧
      EncTrailer E m p (hb ++ bodyBytes fr) tr ∧ v.s.preciseKnown = true ∧ v.consumed.length = v.s.preciseSize) ∨
    (∃ hb h row p m k fr tr, DecLog E pol v hb h row p m k fr ∧ Complete fr ∧ v.consumed = hb ++ bodyBytes fr ++ tr ∧
      DecTrailer E m p (hb ++ bodyBytes fr) tr)
  | .decryptBody => ∃ hb h row p m k fr, DecLog E pol v hb h row p m k fr ∧ Ongoing fr ∧ v.consumed = hb ++ bodyBytes fr ∧
      DecSig v.s m p (hb ++ bodyBytes fr)
  | .checkTrailer => ∃ hb h row p m k fr, DecLog E pol v hb h row p m k fr ∧ Complete fr ∧
      ((v.consumed = hb ++ bodyBytes fr ∧ DecSig v.s m p (hb ++ bodyBytes fr)) ∨
       (∃ tr, v.consumed = hb ++ bodyBytes fr ++ tr ∧ v.s.signctx = none ∧ DecTrailer E m p (hb ++ bodyBytes fr) tr))
  | .unwrapKey | .error => False

/-- IVs are distinct and there is one key. -/
def NonceOK (l : List (Bytes × Bytes)) : Prop := (l.map Prod.snd).Nodup ∧ ∀ x ∈ l, ∀ y ∈ l, x.1 = y.1

/-- The encryption context is visible only if the CMM has accepted it. -/
def Visible (E : Env → Prop) (s : Session) : Prop :=
  s.mode.isDecrypt = true → s.cmmSuccess = true →
    ∃ e m, E e ∧ e.cmm.decrypt { encCtx := s.header.encCtx, edks := s.header.edks, alg := s.header.algId } = .ok m

/-- What a session has done. -/
def Log (E : Env → Prop) (pol : Policy) (v : View) : Prop :=
  LiveLog E pol v ∨
  (v.s.state = .error ∧ ((v.consumed = [] ∧ v.released = []) ∨
    ∃ s0 pol0, LiveLog E pol0 ⟨s0, v.consumed, v.released⟩ ∧ Inv s0 ∧ s0.mode = v.s.mode ∧
    s0.maxEdks = v.s.maxEdks ∧ (s0.mode = .encrypt → s0.frameSize = v.s.frameSize) ∧
    (s0.preciseKnown = true → v.s.preciseKnown = true ∧ v.s.preciseSize = s0.preciseSize)))

/-- The invariant of histories. -/
structure HInv (E : Env → Prop) (pol : Policy) (v : View) : Prop where
  inv : Inv v.s
  polOk : v.s.policy.isValid = true → v.s.policy = pol
  log : Log E pol v
  nonces : NonceOK v.s.nonces
  visible : Visible E v.s

/-! ### nonces -/

theorem bodyIv_inj {i j : Nat} (hi : i < 2 ^ 64) (hj : j < 2 ^ 64) (h : bodyIv i = bodyIv j) : i = j := by
  unfold bodyIv at h
  rw [u64be_eq_be _ hi, u64be_eq_be _ hj] at h
  exact be_inj (n := 8) (by omega) (by omega) (List.append_cancel_left h)

theorem nonceOK_frames (k : Bytes) (n : Nat) (hn : n < 2 ^ 64 - 1) :
    NonceOK ((k, List.replicate 12 0) :: (List.range n).map (fun i => (k, bodyIv (i + 1)))) := by
  constructor
  · simp only [List.map_cons, List.map_map, List.nodup_cons]
    constructor
    · intro h
      obtain ⟨i, hi, e⟩ := List.mem_map.mp h
      rw [List.mem_range] at hi
      simp only [Function.comp] at e
      have : (List.replicate 12 0 : Bytes) = bodyIv 0 := by decide
      rw [this] at e
      have := bodyIv_inj (by omega) (by omega) e
      omega
    · rw [List.nodup_iff_pairwise_ne, List.pairwise_map]
      refine List.Pairwise.imp_of_mem ?_ (List.nodup_iff_pairwise_ne.mp (List.nodup_range (n := n)))
      intro a b ha hb hne e
      rw [List.mem_range] at ha hb
      simp only [Function.comp] at e
      have := bodyIv_inj (by omega) (by omega) e
      omega
  · intro x hx y hy
    have key : ∀ x ∈ (k, List.replicate 12 0) :: (List.range n).map (fun i => (k, bodyIv (i + 1))), x.1 = k := by
      intro x hx
      rcases List.mem_cons.mp hx with rfl | hx
      · rfl
      · obtain ⟨i, -, rfl⟩ := List.mem_map.mp hx
        rfl
    rw [key x hx, key y hy]

theorem NonceOK.nil : NonceOK [] := ⟨List.nodup_nil, by simp⟩

/-! ### one step -/

theorem allFrames_count {E : Env → Prop} {k mid : Bytes} {fs : Nat} {fr : List (Frame × Bytes)}
    (h : AllFrames (SealedFrame E k mid fs) fr) : fr.length < 2 ^ 32 := by
  by_cases h0 : fr.length = 0
  · omega
  · have := h (fr.length - 1) (by omega)
    have h1 := this.ok.seqno
    rw [this.seqno] at h1
    omega

theorem withinLimits_of_writeOK {t : FrameType} {q n : Nat} (h : WriteOK t q n) : WithinLimits t q n := by
  cases t <;> exact h

theorem writeOK_len {t : FrameType} {q n : Nat} (h : WriteOK t q n) : n < 2 ^ 36 := by
  have h1 : maxFrameSize = 4294967295 := rfl
  have h2 : maxUnframedPlaintextSize = 68719476704 := rfl
  cases t <;> simp only [WriteOK, h1, h2] at h <;> omega

/-- What the next frame is. -/
theorem nextFrame_cases {s : Session} {t : FrameType} {n : Nat} (h : nextFrame s = some (t, n)) :
    (t = .frame ∧ n = s.frameSize ∧ s.frameSize ≠ 0 ∧ (s.preciseKnown = true → s.frameSize ≤ u64sub s.preciseSize s.dataSoFar)) ∨
    (t = .final ∧ s.frameSize ≠ 0 ∧ s.preciseKnown = true ∧ n = u64sub s.preciseSize s.dataSoFar ∧ n < s.frameSize) ∨
    (t = .single ∧ s.frameSize = 0 ∧ s.preciseKnown = true ∧ n = s.preciseSize) := by
  unfold nextFrame at h
  by_cases h0 : s.frameSize ≠ 0
  · rw [if_pos h0] at h
    by_cases h1 : s.preciseKnown = true ∧ u64sub s.preciseSize s.dataSoFar < s.frameSize
    · rw [if_pos h1] at h
      simp only [Option.some.injEq, Prod.mk.injEq] at h
      exact Or.inr (Or.inl ⟨h.1.symm, h0, h1.1, h.2.symm, by omega⟩)
    · rw [if_neg h1] at h
      simp only [Option.some.injEq, Prod.mk.injEq] at h
      refine Or.inl ⟨h.1.symm, h.2.symm, h0, fun hk => ?_⟩
      exact Nat.le_of_not_lt fun hl => h1 ⟨hk, hl⟩
  · rw [if_neg h0] at h
    by_cases h1 : (!s.preciseKnown) = true
    · rw [if_pos h1] at h; cases h
    · rw [if_neg h1] at h
      simp only [Option.some.injEq, Prod.mk.injEq] at h
      exact Or.inr (Or.inr ⟨h.1.symm, by omega, by simpa using h1, h.2.symm⟩)

theorem sealedFrame_of_encFrameOK {E : Env → Prop} {env : Env} (he : E env) {s : Session} {p : AlgProps} {t : FrameType} {pt ct tag : Bytes}
    {sg : Option SigCtx} {a : Nat} (hp : algProps a = some p) (hfs : s.frameSize < 2 ^ 32) (h : EncFrameOK env s p t pt ct tag sg)
    (h1 : s.frameSize = 0 → s.seqno = 1) :
    SealedFrame E s.contentKey s.header.messageId s.frameSize s.seqno (encFrame s p t ct tag) pt := by
  have hl := writeOK_len h.limits
  have hq := h.seqno
  have hiv := frameIv_eq_bodyIv hp (n := s.seqno) (by omega)
  have hw := h.limits
  have e1 : maxFrameSize = 4294967295 := rfl
  have e2 : maxUnframedPlaintextSize = 68719476704 := rfl
  refine ⟨⟨length_frameIv hp _, h.tagLen, hq, ?_⟩, rfl, hiv, h.ctLen, withinLimits_of_writeOK h.limits, fun ht => ?_, env, he, ?_⟩
  · have hct := h.ctLen
    rcases nextFrame_cases h.next with ⟨rfl, hn, h0, -⟩ | ⟨rfl, h0, -, hn, hn'⟩ | ⟨rfl, h0, -, hn⟩
    · simp only [WriteOK, lastFrameMark] at hw
      exact ⟨h0, by show ct.length = _; omega, hw.2⟩
    · exact ⟨h0, by show ct.length ≤ _; omega⟩
    · simp only [WriteOK, e2] at hw
      exact ⟨h0, by show ct.length < _; omega, h1 h0⟩
  · rcases nextFrame_cases h.next with ⟨rfl, -⟩ | ⟨rfl, h0, -, hn, hn'⟩ | ⟨rfl, -⟩
    · cases ht
    · omega
    · cases ht
  · have := h.sealed
    rw [hiv, frameAad_eq_bodyAad (by omega) (by omega)] at this
    exact this

theorem openedFrame_of {E : Env → Prop} {env : Env} (he : E env) {s : Session} {f : Frame} {pt : Bytes} (hfs : s.frameSize < 2 ^ 32)
    (hok : FrameOK s.frameSize f) (hseq : f.seqno = s.seqno)
    (hopen : env.crypto.aeadOpen s.contentKey f.iv
        (frameAad s.header.messageId f.type f.seqno f.ciphertext.length) f.ciphertext f.authtag = .ok pt)
    (hpt : pt.length = f.ciphertext.length) :
    OpenedFrame E s.contentKey s.header.messageId s.frameSize s.seqno f pt := by
  have h1 := hok.shape
  have hl : f.ciphertext.length < 2 ^ 64 := by
    cases ht : f.type <;> simp only [ht] at h1 <;> omega
  refine ⟨hok, hseq, hpt.symm, env, he, ?_⟩
  rw [frameAad_eq_bodyAad hok.seqno hl, hseq] at hopen
  exact hopen

theorem trailer_bytes (sig : Bytes) : be 2 sig.length ++ sig = wireTrailer sig := by
  unfold wireTrailer; rw [u16_eq_be]

/-- In a state that has not failed, the log is that of a live session. -/
theorem HInv.live {E : Env → Prop} {pol : Policy} {v : View} (h : HInv E pol v) (hne : v.s.state ≠ .error) : LiveLog E pol v := by
  rcases h.log with h | ⟨h, -⟩
  · exact h
  · exact absurd h hne

/-- What one successful step adds. -/
theorem HInv.step {E : Env → Prop} {pol : Policy} {v : View} {env : Env} (h : HInv E pol v) (he : E env) (mem inp : Bytes) (inNull : Bool)
    (hok : (sessionStep env v.s ⟨mem, 0⟩ inp inNull).res = .ok) :
    ∃ c, inp = c ++ (sessionStep env v.s ⟨mem, 0⟩ inp inNull).inp ∧
      HInv E pol ⟨(sessionStep env v.s ⟨mem, 0⟩ inp inNull).s, v.consumed ++ c,
        v.released ++ (sessionStep env v.s ⟨mem, 0⟩ inp inNull).buf.mem.take (sessionStep env v.s ⟨mem, 0⟩ inp inNull).buf.len⟩ := by
  have hc := sessionStep_cases env v.s h.inv mem inp inNull
  have hI' := (sessionStep_ok env v.s h.inv mem inp inNull).inv hok
  generalize sessionStep env v.s ⟨mem, 0⟩ inp inNull = r at hc hI' hok ⊢
  obtain ⟨s, C, R⟩ := v
  simp only at hc hI' ⊢
  have hpol := h.polOk
  have hvis := h.visible
  have hnon := h.nonces
  have hfs := h.inv.frameSize
  simp only at hpol hvis hnon hfs
  cases hc with
  | cfgFail hst hr => subst hr; cases hok
  | cfgEnc hst hm _ _ hr =>
    subst hr
    have hl := h.live (by simp [hst])
    simp only [LiveLog, hst] at hl
    exact ⟨[], rfl, hI', hpol, Or.inl (by simpa [LiveLog] using hl), hnon, hvis⟩
  | cfgDec hst hm _ _ hr =>
    subst hr
    have hl := h.live (by simp [hst])
    simp only [LiveLog, hst] at hl
    exact ⟨[], rfl, hI', hpol, Or.inl (by simpa [LiveLog] using hl), hnon, hvis⟩
  | done hst hr =>
    subst hr
    have hl := h.live (by simp [hst])
    exact ⟨[], rfl, hI', hpol, Or.inl (by simpa using hl), hnon, hvis⟩
  | error hst hr => subst hr; cases hok
  | parse hst hc =>
    have hl := h.live (by simp [hst])
    have hI := h.inv.st
    simp only [LiveLog, StInv, hst] at hl hI
    obtain ⟨rfl, rfl, hn⟩ := hl
    cases hc with
    | fail e hr => rw [hr] at hok; cases hok
    | stall est hr hbuf hinp hs =>
      refine ⟨[], hinp.symm, hI', by rw [hs]; exact hpol, Or.inl ?_, by rw [hs]; exact hnon, ?_⟩
      · rw [hs, hbuf]; simp [LiveLog, hst, hn]
      · rw [hs]
        intro _ hcs
        have := hI.2.cmmSuccess
        simp only at hcs this
        rw [this] at hcs; cases hcs
    | opened hb hd row p m k sg hr hbuf hk =>
      have hsp : s.policy = pol := by
        have := hk.allowed
        apply hpol
        cases hpp : s.policy <;> simp_all [allowedForDecrypt, Policy.isValid]
      refine ⟨hb, hk.input, hI', by rw [hk.result]; exact hpol, Or.inl ?_, by rw [hk.result]; exact hnon, ?_⟩
      · have hD : DecHdr E pol s.maxEdks s.mode hb hd row p m k := ⟨env, s, r.s, inp, r.inp, sg, he, hk, rfl, rfl, hsp⟩
        have hres := hk.result
        rw [hbuf]
        simp only [LiveLog, hres]
        refine ⟨hb, hd, row, p, m, k, [], ⟨hI.1, hD, rfl, rfl, rfl, rfl, allFrames_nil, by simp [bodyText], rfl, hn⟩, by simp [Ongoing],
          by simp [bodyBytes], ?_⟩
        rcases hk.sig with ⟨h1, h2⟩ | ⟨h1, ctx, ctx', h2, h3, h4⟩
        · exact Or.inl ⟨h1, by rw [h2]; exact hI.2.signctx⟩
        · refine Or.inr ⟨h1, by rw [h2]; rfl, ?_⟩
          have : sigFeed env.crypto m.signctx hb = .ok sg := by
            rw [h2, h4]; simp only [sigFeed, h3]
          simpa [bodyBytes] using sigFeed_eq this
      · rw [hk.result]
        intro _ _
        exact ⟨env, m, he, hk.cmm⟩
  | dec hst hc =>
    have hl := h.live (by simp [hst])
    simp only [LiveLog, hst] at hl
    obtain ⟨hb, hd, row, p, m, k, fr, hd1, hon, hcon, hsig⟩ := hl
    cases hc with
    | fail e i o q sg hr => rw [hr] at hok; cases hok
    | stall i o hr hs hbuf hinp =>
      refine ⟨[], hinp.symm, hI', by rw [hs]; exact hpol, Or.inl ?_, by rw [hs]; exact hnon, by rw [hs]; exact hvis⟩
      rw [hbuf, hs]
      simp only [LiveLog, hst, List.append_nil, List.take_zero]
      obtain ⟨a1, a2, a3, a4, a5, a6, a7, a8, a9, a10⟩ := hd1
      exact ⟨hb, hd, row, p, m, k, fr, ⟨a1, a2, a3, a4, a5, a6, a7, a8, a9, a10⟩, hon, hcon, hsig⟩
    | opened f pt sg i hr hparse hfok hinp hseq hopen hpt hroom hfeed hs hbuf =>
      have hof := openedFrame_of he hfs hfok hseq hopen hpt
      obtain ⟨a1, a2, a3, a4, a5, a6, a7, a8, a9, a10⟩ := hd1
      simp only at a1 a2 a3 a4 a5 a6 a7 a8 a9 a10 hcon hsig
      rw [a3, a5, a6, a9] at hof
      have hqlt := hfok.seqno
      have hsnoc := allFrames_snoc a7 hof
      have hds : DecSig { s with signctx := sg } m p (hb ++ bodyBytes (fr ++ [(f, pt)])) := by
        have := sigFeed_eq hfeed
        rw [bodyBytes_snoc]
        rcases hsig with ⟨b1, b2⟩ | ⟨b1, b2, b3⟩
        · rw [b2] at this; exact Or.inl ⟨b1, this⟩
        · rw [b3, absorbed_append] at this; exact Or.inr ⟨b1, b2, by simpa using this⟩
      refine ⟨wireFrame f, hinp, hI', by rw [hs]; exact hpol, Or.inl ?_, by rw [hs]; exact hnon, by rw [hs]; exact hvis⟩
      rw [hbuf, hs]
      unfold decFrameState
      simp only [List.take_left]
      by_cases hft : f.type = .frame
      · simp only [hft, if_true, LiveLog]
        refine ⟨hb, hd, row, p, m, k, fr ++ [(f, pt)], ⟨a1, a2, a3, a4, a5, a6, hsnoc, by rw [a8, bodyText_snoc], ?_, a10⟩, ongoing_snoc hon hft, ?_, hds⟩
        · simp only [List.length_append, List.length_singleton, u64]; omega
        · rw [hcon, bodyBytes_snoc, List.append_assoc]
      · simp only [hft, if_false, LiveLog]
        refine ⟨hb, hd, row, p, m, k, fr ++ [(f, pt)], ⟨a1, a2, a3, a4, a5, a6, hsnoc, by rw [a8, bodyText_snoc], ?_, a10⟩, ⟨fr, (f, pt), rfl, hon, hft⟩, Or.inl ⟨?_, hds⟩⟩
        · simp only [List.length_append, List.length_singleton, u64]; omega
        · rw [hcon, bodyBytes_snoc, List.append_assoc]
  | check hst hc =>
    have hl := h.live (by simp [hst])
    simp only [LiveLog, hst] at hl
    obtain ⟨hb, hd, row, p, m, k, fr, ⟨a1, a2, a3, a4, a5, a6, a7, a8, a9, a10⟩, hon, hcs⟩ := hl
    simp only at a1 a2 a3 a4 a5 a6 a7 a8 a9 a10 hcs
    cases hc with
    | fail e ctx sg hr => rw [hr] at hok; cases hok
    | stall n ctx hr hctx hs hbuf hinp =>
      refine ⟨[], hinp.symm, hI', by rw [hs]; exact hpol, Or.inl ?_, by rw [hs]; exact hnon, by rw [hs]; exact hvis⟩
      rw [hbuf, hs]
      simp only [LiveLog, hst, List.append_nil, List.take_zero]
      exact ⟨hb, hd, row, p, m, k, fr, ⟨a1, a2, a3, a4, a5, a6, a7, a8, a9, a10⟩, hon, hcs⟩
    | noSig hr hctx hs hbuf hinp =>
      refine ⟨[], hinp.symm, hI', by rw [hs]; exact hpol, Or.inl ?_, by rw [hs]; exact hnon, by rw [hs]; exact hvis⟩
      rw [hbuf, hs]
      simp only [LiveLog, List.append_nil, List.take_zero]
      right
      rcases hcs with ⟨b1, b2⟩ | ⟨tr, b1, b2, b3⟩
      · refine ⟨hb, hd, row, p, m, k, fr, [], ⟨a1, a2, a3, a4, a5, a6, a7, a8, a9, a10⟩, hon, by simpa using b1, ?_⟩
        rcases b2 with ⟨c1, c2⟩ | ⟨c1, c2, c3⟩
        · exact Or.inl ⟨c1, rfl⟩
        · rw [hctx] at c3
          cases hms : m.signctx <;> rw [hms] at c2 c3
          · cases c2
          · cases c3
      · exact ⟨hb, hd, row, p, m, k, fr, tr, ⟨a1, a2, a3, a4, a5, a6, a7, a8, a9, a10⟩, hon, b1, b3⟩
    | verified ctx sig hr hctx hver hs hbuf hinp hlt =>
      refine ⟨be 2 sig.length ++ sig, hinp, hI', by rw [hs]; exact hpol, Or.inl ?_, by rw [hs]; exact hnon, by rw [hs]; exact hvis⟩
      rw [hbuf, hs]
      simp only [LiveLog, hst, List.append_nil, List.take_zero]
      refine ⟨hb, hd, row, p, m, k, fr, ⟨a1, a2, a3, a4, a5, a6, a7, a8, a9, a10⟩, hon, Or.inr ⟨wireTrailer sig, ?_, trivial, ?_⟩⟩
      · rcases hcs with ⟨b1, b2⟩ | ⟨tr, b1, b2, b3⟩
        · rw [b1, trailer_bytes]
        · rw [hctx] at b2; cases b2
      · rcases hcs with ⟨b1, b2⟩ | ⟨tr, b1, b2, b3⟩
        · rcases b2 with ⟨c1, c2⟩ | ⟨c1, c2, c3⟩
          · rw [hctx] at c2; cases c2
          · exact Or.inr ⟨c1, env, ctx, sig, he, by rw [← c3, hctx], hver, rfl, hlt⟩
        · rw [hctx] at b2; cases b2
  | gen hst hc =>
    have hl := h.live (by simp [hst])
    have hI := h.inv.st
    simp only [LiveLog, StInv, hst] at hl hI
    obtain ⟨rfl, rfl, hn⟩ := hl
    cases hc with
    | fail e hr => rw [hr] at hok; cases hok
    | ok ctx m p mid k c ct tag sg hr hk hbuf hinp =>
      have hsp : s.policy = pol := by
        have := hk.allowed
        apply hpol
        cases hpp : s.policy <;> simp_all [allowedForEncrypt, Policy.isValid]
      have hnn : r.s.nonces = [(k, List.replicate 12 0)] := by rw [hk.result]; simp [hn]
      refine ⟨[], hinp.symm, hI', by rw [hk.result]; exact hpol, Or.inl ?_, ?_, ?_⟩
      · have hE : EncHdr E pol s.maxEdks s.frameSize (encHeader s ctx m p mid c tag) m p k
            (hdrBytes p.msgFormatVersion (encHeader s ctx m p mid c tag)) :=
          ⟨⟨env, s, r.s, ctx, mid, c, ct, tag, sg, he, hk, hsp, rfl, rfl, hI.2.header, hI.2.table, rfl⟩, rfl⟩
        have hfe := sigFeed_eq hk.feed
        have hres := hk.result
        have hds : s.dataSoFar = 0 := hI.2.dataSoFar
        rw [hbuf]
        simp only [LiveLog, hres]
        refine ⟨_, m, p, k, _, ⟨hI.1, hE, rfl, rfl, rfl, allFrames_nil, by simp [bodyText], by simp [hn], rfl, ?_⟩, by simp, rfl, hfe⟩
        simp [bodyText, hds, u64]
      · show NonceOK r.s.nonces
        rw [hnn]
        exact nonceOK_frames k 0 (by omega)
      · intro hm
        rw [hk.result] at hm
        have := hI.1
        simp only at hm
        rw [this] at hm; cases hm
  | header hst hc =>
    have hl := h.live (by simp [hst])
    simp only [LiveLog, hst] at hl
    obtain ⟨hd, m, p, k, hb, ⟨a1, a2, a3, a4, a5, a6, a7, a8, a9, a10⟩, hrel, hcp, hsg⟩ := hl
    simp only at a1 a2 a3 a4 a5 a6 a7 a8 a9 a10
    cases hc with
    | wrote c hcp' hroom hr =>
      subst hr
      rw [hcp] at hcp'
      cases hcp'
      refine ⟨[], rfl, hI', hpol, Or.inl ?_, hnon, hvis⟩
      simp only [LiveLog, List.take_left, List.append_nil]
      refine ⟨hd, m, p, k, hb, [], ⟨a1, a2, a3, a4, a5, a6, a7, a8, a9, a10⟩, by simp [Ongoing], by rw [hrel]; simp [bodyBytes], ?_⟩
      simpa [bodyBytes] using hsg
    | stall c hcp' hroom hr =>
      subst hr
      refine ⟨[], rfl, hI', hpol, Or.inl ?_, hnon, hvis⟩
      simp only [LiveLog, hst, List.take_zero, List.append_nil]
      exact ⟨hd, m, p, k, hb, ⟨a1, a2, a3, a4, a5, a6, a7, a8, a9, a10⟩, hrel, hcp, hsg⟩
  | body p hst hsp hp hc =>
    have hl := h.live (by simp [hst])
    simp only [LiveLog, hst] at hl
    obtain ⟨hd, m, p', k, hb, fr, ⟨a1, a2, a3, a4, a5, a6, a7, a8, a9, a10⟩, hon, hrel, hsg⟩ := hl
    simp only at a1 a2 a3 a4 a5 a6 a7 a8 a9 a10 hrel hsg
    have hpp : p' = p := by rw [hsp] at a4; cases a4; rfl
    subst hpp
    cases hc with
    | fail e o i ns hr => rw [hr] at hok; cases hok
    | stall o i hr hinp hs hml hbl why =>
      refine ⟨[], hinp.symm, hI', by rw [hs]; exact hpol, Or.inl ?_, by rw [hs]; exact hnon, by rw [hs]; exact hvis⟩
      rw [hbl, hs]
      simp only [LiveLog, hst, List.append_nil, List.take_zero]
      exact ⟨hd, m, p', k, hb, fr, ⟨a1, a2, a3, a4, a5, a6, a7, a8, a9, a10⟩, hon, hrel, hsg⟩
    | wrote type pt ct tag sg hr hk hinp hnull hs hroom hbuf =>
      have hwl : (wireFrame (encFrame s p' type ct tag)).length = frameSize type pt.length := by
        rw [length_wireFrame' (length_frameIv hp _) hk.tagLen]; simp [encFrame, hk.ctLen]
      have hfr0 : s.frameSize = 0 → fr = [] := by
        intro h0
        cases hfe : fr with
        | nil => rfl
        | cons x l =>
          have h1 := (a6 0 (by rw [hfe]; simp)).ok.shape
          have h2 := hon (fr[0]'(by rw [hfe]; simp)) (List.getElem_mem _)
          rw [h2] at h1
          exact absurd h0 h1.1
      have hsf := sealedFrame_of_encFrameOK he hp hfs hk (by intro h0; rw [a9, hfr0 h0]; rfl)
      rw [a3, a5, a9] at hsf
      have hsnoc := allFrames_snoc a6 hsf
      have hcnt := allFrames_count hsnoc
      have hlen : (fr ++ [(encFrame s p' type ct tag, pt)]).length = fr.length + 1 := by simp
      rw [hlen] at hcnt
      have hiv := frameIv_eq_bodyIv hp (n := s.seqno) (by have := hk.seqno; omega)
      have hnn : s.nonces ++ [(s.contentKey, frameIv p' s.seqno)] =
          (k, List.replicate 12 0) :: (List.range (fr ++ [(encFrame s p' type ct tag, pt)]).length).map (fun i => (k, bodyIv (i + 1))) := by
        rw [hlen, List.range_succ, List.map_append, a8, hiv, a5, a9]; simp
      have hsg' : sg = absorbed m.signctx (hb ++ bodyBytes (fr ++ [(encFrame s p' type ct tag, pt)])) := by
        have := sigFeed_eq hk.feed
        rw [hsg, absorbed_append] at this
        rw [this, bodyBytes_snoc, List.append_assoc]
      have hsof : u64 (s.dataSoFar + pt.length) = u64 (bodyText (fr ++ [(encFrame s p' type ct tag, pt)])).length := by
        rw [bodyText_snoc, List.length_append, a10]
        simp only [u64]; omega
      refine ⟨pt, hinp, hI', by rw [hs]; exact hpol, Or.inl ?_, ?_, by rw [hs]; exact hvis⟩
      · rw [hbuf, hs]
        unfold encFrameState
        simp only [List.take_left' hwl]
        by_cases hft : type = .frame
        · simp only [hft, if_true, LiveLog]
          rw [hft] at hsnoc hnn hsg' hsof
          refine ⟨hd, m, p', k, hb, _, ⟨a1, a2, a3, a4, a5, hsnoc, ?_, hnn, ?_, hsof⟩, ongoing_snoc hon rfl, ?_, hsg'⟩
          · rw [bodyText_snoc, a7]
          · simp only [List.length_append, List.length_singleton]; omega
          · rw [hrel, bodyBytes_snoc, List.append_assoc]
        · simp only [hft, if_false, LiveLog]
          have hlenC : s.preciseKnown = true ∧ (C ++ pt).length = s.preciseSize := by
            have hb1 : ∀ l : List (Frame × Bytes), (∀ x ∈ l, x.2.length = s.frameSize) → (bodyText l).length = l.length * s.frameSize := by
              intro l hl
              induction l with
              | nil => simp [bodyText]
              | cons x l ih =>
                have h1 := hl x (by simp)
                have h2 := ih (fun y hy => hl y (by simp [hy]))
                simp only [bodyText, List.map_cons, List.flatten_cons, List.length_append, List.length_cons] at h2 ⊢
                rw [h1, h2, Nat.add_mul]; omega
            have hb2 : (bodyText fr).length = fr.length * s.frameSize := by
              apply hb1
              intro x hx
              obtain ⟨i, hi, rfl⟩ := List.getElem_of_mem hx
              have h1 := a6 i hi
              have h2 := h1.ok.shape
              rw [hon _ (List.getElem_mem hi)] at h2
              rw [← h1.len]; exact h2.2.1
            have hb3 : fr.length * s.frameSize ≤ (2 ^ 32 - 2) * (2 ^ 32 - 1) := Nat.mul_le_mul (by omega) (by omega)
            have hu : s.dataSoFar = (bodyText fr).length := by
              rw [a10, hb2]; simp only [u64]; omega
            have hps := h.inv.preciseSize
            simp only at hps
            rcases nextFrame_cases hk.next with ⟨h1, -⟩ | ⟨-, h0, hkn, hn, hn'⟩ | ⟨-, h0, hkn, hn⟩
            · exact absurd h1 hft
            · refine ⟨hkn, ?_⟩
              rw [List.length_append, a7, hn, hu]
              rw [hu] at hn
              simp only [u64sub] at hn ⊢
              omega
            · refine ⟨hkn, ?_⟩
              rw [List.length_append, a7, hn, hfr0 h0]; simp [bodyText]
          refine ⟨hd, m, p', k, hb, _, ⟨a1, a2, a3, a4, a5, hsnoc, ?_, hnn, ?_, hsof⟩, ⟨fr, _, rfl, hon, hft⟩, ?_, hsg', hlenC.1, hlenC.2⟩
          · rw [bodyText_snoc, a7]
          · simp only [List.length_append, List.length_singleton]; omega
          · rw [hrel, bodyBytes_snoc, List.append_assoc]
      · show NonceOK r.s.nonces
        rw [hs]
        show NonceOK (s.nonces ++ [(s.contentKey, frameIv p' s.seqno)])
        rw [hnn]
        exact nonceOK_frames k _ (by rw [hlen]; omega)
  | trailer p hst hsp hp hc =>
    have hl := h.live (by simp [hst])
    simp only [LiveLog, hst] at hl
    obtain ⟨hd, m, p', k, hb, fr, ⟨a1, a2, a3, a4, a5, a6, a7, a8, a9, a10⟩, hon, hrel, hsg, hkn, hlen⟩ := hl
    simp only at a1 a2 a3 a4 a5 a6 a7 a8 a9 a10 hrel hsg hkn hlen
    have hpp : p' = p := by rw [hsp] at a4; cases a4; rfl
    subst hpp
    cases hc with
    | fail e hr => rw [hr] at hok; cases hok
    | stall hr hinp hs hbuf hsig why =>
      refine ⟨[], hinp.symm, hI', by rw [hs]; exact hpol, Or.inl ?_, by rw [hs]; exact hnon, by rw [hs]; exact hvis⟩
      rw [hbuf, hs]
      simp only [LiveLog, hst, List.append_nil, List.take_zero]
      exact ⟨hd, m, p', k, hb, fr, ⟨a1, a2, a3, a4, a5, a6, a7, a8, a9, a10⟩, hon, hrel, hsg, hkn, hlen⟩
    | unsigned hr hinp hs hsig hbuf =>
      refine ⟨[], hinp.symm, hI', by rw [hs]; exact hpol, Or.inl ?_, by rw [hs]; exact hnon, by rw [hs]; exact hvis⟩
      rw [hbuf, hs]
      simp only [LiveLog, List.append_nil, List.take_zero]
      exact Or.inl ⟨hd, m, p', k, hb, fr, [], ⟨a1, a2, a3, a4, a5, a6, a7, a8, a9, a10⟩, hon, by simpa using hrel, Or.inl ⟨hsig, rfl⟩, hkn, hlen⟩
    | signed ctx sig hr hinp hsig hctx hsign hs hroom hroom' hbuf =>
      refine ⟨[], hinp.symm, hI', by rw [hs]; exact hpol, Or.inl ?_, by rw [hs]; exact hnon, by rw [hs]; exact hvis⟩
      have ht : r.buf.mem.take r.buf.len = wireTrailer sig := by
        rw [hbuf, ← trailer_bytes]; exact List.take_left' (by simp)
      rw [ht, hs]
      simp only [LiveLog, List.append_nil]
      exact Or.inl ⟨hd, m, p', k, hb, fr, wireTrailer sig, ⟨a1, a2, a3, a4, a5, a6, a7, a8, a9, a10⟩, hon, by rw [hrel],
        Or.inr ⟨hsig, env, ctx, sig, he, by rw [← hsg, hctx], hsign, rfl⟩, hkn, hlen⟩

/-! ### calls -/

/-- What processing leaves alone. -/
structure Keeps (s s' : Session) : Prop where
  mode : s'.mode = s.mode
  policy : s'.policy = s.policy
  maxEdks : s'.maxEdks = s.maxEdks
  preciseKnown : s'.preciseKnown = s.preciseKnown
  preciseSize : s'.preciseSize = s.preciseSize
  sizeBound : s'.sizeBound = s.sizeBound
  frameSize : s.mode = .encrypt → s'.frameSize = s.frameSize

theorem Keeps.refl (s : Session) : Keeps s s := ⟨rfl, rfl, rfl, rfl, rfl, rfl, fun _ => rfl⟩

theorem Keeps.trans {s s' s'' : Session} (h : Keeps s s') (h' : Keeps s' s'') : Keeps s s'' :=
  ⟨h'.mode.trans h.mode, h'.policy.trans h.policy, h'.maxEdks.trans h.maxEdks, h'.preciseKnown.trans h.preciseKnown,
   h'.preciseSize.trans h.preciseSize, h'.sizeBound.trans h.sizeBound,
   fun hm => (h'.frameSize (by rw [h.mode]; exact hm)).trans (h.frameSize hm)⟩

theorem sessionStep_keeps (env : Env) (s : Session) (hI : Inv s) (mem inp : Bytes) (inNull : Bool) :
    Keeps s (sessionStep env s ⟨mem, 0⟩ inp inNull).s := by
  have hc := sessionStep_cases env s hI mem inp inNull
  have hst := hI.st
  unfold StInv at hst
  generalize sessionStep env s ⟨mem, 0⟩ inp inNull = r at hc ⊢
  cases hc with
  | cfgFail h hr => subst hr; exact .refl _
  | cfgEnc h _ _ _ hr => subst hr; exact ⟨rfl, rfl, rfl, rfl, rfl, rfl, fun _ => rfl⟩
  | cfgDec h _ _ _ hr => subst hr; exact ⟨rfl, rfl, rfl, rfl, rfl, rfl, fun _ => rfl⟩
  | done h hr => subst hr; exact .refl _
  | error h hr => subst hr; exact .refl _
  | parse h hc =>
    simp only [h] at hst
    have hne : s.mode = .encrypt → False := fun he => by rw [he] at hst; cases hst.1
    cases hc with
    | fail e hr hbuf hinp hs => exact ⟨hs.mode, hs.policy, hs.maxEdks, hs.preciseKnown, hs.preciseSize, hs.sizeBound, fun he => (hne he).elim⟩
    | stall est hr hbuf hinp hs => rw [hs]; exact ⟨rfl, rfl, rfl, rfl, rfl, rfl, fun _ => rfl⟩
    | opened hb hd row p m k sg hr hbuf hk => rw [hk.result]; exact ⟨rfl, rfl, rfl, rfl, rfl, rfl, fun he => (hne he).elim⟩
  | dec h hc =>
    cases hc with
    | fail e i o q sg hr hs => rw [hs]; exact ⟨rfl, rfl, rfl, rfl, rfl, rfl, fun _ => rfl⟩
    | stall i o hr hs => rw [hs]; exact ⟨rfl, rfl, rfl, rfl, rfl, rfl, fun _ => rfl⟩
    | opened f pt sg i hr _ _ _ _ _ _ _ _ hs => rw [hs]; exact ⟨rfl, rfl, rfl, rfl, rfl, rfl, fun _ => rfl⟩
  | check h hc =>
    cases hc with
    | fail e ctx sg hr hctx hs => rw [hs]; exact ⟨rfl, rfl, rfl, rfl, rfl, rfl, fun _ => rfl⟩
    | stall n ctx hr hctx hs => rw [hs]; exact ⟨rfl, rfl, rfl, rfl, rfl, rfl, fun _ => rfl⟩
    | noSig hr hctx hs => rw [hs]; exact ⟨rfl, rfl, rfl, rfl, rfl, rfl, fun _ => rfl⟩
    | verified ctx sig hr hctx hver hs => rw [hs]; exact ⟨rfl, rfl, rfl, rfl, rfl, rfl, fun _ => rfl⟩
  | gen h hc =>
    cases hc with
    | fail e hr hs => exact ⟨hs.mode, hs.policy, hs.maxEdks, hs.preciseKnown, hs.preciseSize, hs.sizeBound, fun _ => hs.frameSize⟩
    | ok ctx m p mid k c ct tag sg hr hk => rw [hk.result]; exact ⟨rfl, rfl, rfl, rfl, rfl, rfl, fun _ => rfl⟩
  | header h hc =>
    cases hc with
    | wrote c hcp hroom hr => subst hr; exact ⟨rfl, rfl, rfl, rfl, rfl, rfl, fun _ => rfl⟩
    | stall c hcp hroom hr => subst hr; exact ⟨rfl, rfl, rfl, rfl, rfl, rfl, fun _ => rfl⟩
  | body p h hsp hp hc =>
    cases hc with
    | fail e o i ns hr hinp hs => rw [hs]; exact ⟨rfl, rfl, rfl, rfl, rfl, rfl, fun _ => rfl⟩
    | stall o i hr hinp hs => rw [hs]; exact ⟨rfl, rfl, rfl, rfl, rfl, rfl, fun _ => rfl⟩
    | wrote type pt ct tag sg hr hk hinp hnull hs => rw [hs]; exact ⟨rfl, rfl, rfl, rfl, rfl, rfl, fun _ => rfl⟩
  | trailer p h hsp hp hc =>
    cases hc with
    | fail e hr hinp hsig hs => rw [hs]; exact ⟨rfl, rfl, rfl, rfl, rfl, rfl, fun _ => rfl⟩
    | stall hr hinp hs => rw [hs]; exact ⟨rfl, rfl, rfl, rfl, rfl, rfl, fun _ => rfl⟩
    | unsigned hr hinp hs => rw [hs]; exact ⟨rfl, rfl, rfl, rfl, rfl, rfl, fun _ => rfl⟩
    | signed ctx sig hr hinp hsig hctx hsign hs => rw [hs]; exact ⟨rfl, rfl, rfl, rfl, rfl, rfl, fun _ => rfl⟩

/-- What a failing step leaves. -/
theorem HInv.fail {E : Env → Prop} {pol : Policy} {v : View} {env : Env} (h : HInv E pol v) (he : E env) (mem inp : Bytes) (inNull : Bool)
    {e : Err} (hf : (sessionStep env v.s ⟨mem, 0⟩ inp inNull).res = .err e) :
    NonceOK (sessionStep env v.s ⟨mem, 0⟩ inp inNull).s.nonces ∧ Visible E (sessionStep env v.s ⟨mem, 0⟩ inp inNull).s := by
  have hc := sessionStep_cases env v.s h.inv mem inp inNull
  generalize sessionStep env v.s ⟨mem, 0⟩ inp inNull = r at hc hf ⊢
  obtain ⟨s, C, R⟩ := v
  simp only at hc ⊢
  have hvis := h.visible
  have hnon := h.nonces
  simp only at hvis hnon
  cases hc with
  | cfgFail hst hr => subst hr; exact ⟨hnon, hvis⟩
  | cfgEnc hst hm _ _ hr => subst hr; cases hf
  | cfgDec hst hm _ _ hr => subst hr; cases hf
  | done hst hr => subst hr; cases hf
  | error hst hr => subst hr; exact ⟨hnon, hvis⟩
  | parse hst hc =>
    have hI := h.inv.st
    simp only [StInv, hst] at hI
    cases hc with
    | fail e' hr hbuf hinp hs =>
      refine ⟨by rw [hs.nonces]; exact hnon, fun _ hcs => ?_⟩
      rcases hs.visible with h1 | ⟨m, h1⟩
      · rw [hcs, hI.2.cmmSuccess] at h1; cases h1
      · exact ⟨env, m, he, h1⟩
    | stall est hr => rw [hr] at hf; cases hf
    | opened hb hd row p m k sg hr => rw [hr] at hf; cases hf
  | dec hst hc =>
    cases hc with
    | fail e' i o q sg hr hs => rw [hs]; exact ⟨hnon, hvis⟩
    | stall i o hr => rw [hr] at hf; cases hf
    | opened f pt sg i hr => rw [hr] at hf; cases hf
  | check hst hc =>
    cases hc with
    | fail e' ctx sg hr hctx hs => rw [hs]; exact ⟨hnon, hvis⟩
    | stall n ctx hr => rw [hr] at hf; cases hf
    | noSig hr => rw [hr] at hf; cases hf
    | verified ctx sig hr => rw [hr] at hf; cases hf
  | gen hst hc =>
    have hl := h.live (by simp [hst])
    have hI := h.inv.st
    simp only [LiveLog, StInv, hst] at hl hI
    cases hc with
    | fail e' hr hs =>
      constructor
      · rcases hs.nonces with h1 | ⟨k, h1⟩
        · rw [h1]; exact hnon
        · rw [h1, hl.2.2]; exact nonceOK_frames k 0 (by omega)
      · intro hm
        rw [hs.mode, hI.1] at hm; cases hm
    | ok ctx m p mid k c ct tag sg hr => rw [hr] at hf; cases hf
  | header hst hc =>
    cases hc with
    | wrote c hcp hroom hr => subst hr; cases hf
    | stall c hcp hroom hr => subst hr; cases hf
  | body p hst hsp hp hc =>
    have hl := h.live (by simp [hst])
    simp only [LiveLog, hst] at hl
    obtain ⟨hd, m, p', k, hb, fr, ⟨a1, a2, a3, a4, a5, a6, a7, a8, a9, a10⟩, hon, hrel, hsg⟩ := hl
    simp only at a1 a2 a3 a4 a5 a6 a7 a8 a9 a10 hrel hsg
    cases hc with
    | fail e' o i ns hr hinp hs hns =>
      rw [hs]
      refine ⟨?_, hvis⟩
      show NonceOK ns
      rcases hns with rfl | ⟨rfl, -, hq⟩
      · exact hnon
      · have hiv := frameIv_eq_bodyIv hp (n := s.seqno) (by omega)
        have := nonceOK_frames k (fr.length + 1) (by omega)
        rw [List.range_succ, List.map_append] at this
        rw [a8, hiv, a5, a9]
        simpa using this
    | stall o i hr => rw [hr] at hf; cases hf
    | wrote type pt ct tag sg hr => rw [hr] at hf; cases hf
  | trailer p hst hsp hp hc =>
    cases hc with
    | fail e' hr hinp hsig hs => rw [hs]; exact ⟨hnon, hvis⟩
    | stall hr => rw [hr] at hf; cases hf
    | unsigned hr => rw [hr] at hf; cases hf
    | signed ctx sig hr => rw [hr] at hf; cases hf

theorem Steps.keeps {env : Env} {inNull : Bool} {s s' : Session} {inp inp' o : Bytes} (h : Steps env inNull s inp o s' inp')
    (hI : Inv s) : Keeps s s' := by
  induction h with
  | refl => exact .refl _
  | @step s inp mem r out s' inp' hr hok h ih =>
    subst hr
    exact (sessionStep_keeps env s hI mem inp inNull).trans (ih ((sessionStep_ok env s hI mem inp inNull).inv hok))

theorem Steps.hinv {E : Env → Prop} {pol : Policy} {env : Env} {inNull : Bool} {s s' : Session} {inp inp' o : Bytes}
    (h : Steps env inNull s inp o s' inp') (he : E env) {C R : Bytes} (hH : HInv E pol ⟨s, C, R⟩) :
    ∃ c, inp = c ++ inp' ∧ HInv E pol ⟨s', C ++ c, R ++ o⟩ := by
  induction h generalizing C R with
  | refl => exact ⟨[], rfl, by simpa using hH⟩
  | @step s inp mem r out s' inp' hr hok h ih =>
    subst hr
    obtain ⟨c, hc, h1⟩ := hH.step he mem inp inNull hok
    obtain ⟨d, hd, h2⟩ := ih h1
    exact ⟨c ++ d, by rw [hc, hd, List.append_assoc], by rw [← List.append_assoc, ← List.append_assoc]; exact h2⟩

/-- A session that has been put into the error state. -/
theorem HInv.toError {E : Env → Prop} {pol pol' : Policy} {v : View} (h : HInv E pol v) {s' : Session} (hst : s'.state = .error)
    (hI : Inv s') (hk : s'.mode = v.s.mode ∧ s'.maxEdks = v.s.maxEdks ∧ (v.s.mode = .encrypt → s'.frameSize = v.s.frameSize) ∧
      (v.s.preciseKnown = true → s'.preciseKnown = true ∧ s'.preciseSize = v.s.preciseSize))
    (hp : s'.policy.isValid = true → s'.policy = pol') (hn : NonceOK s'.nonces) (hv : Visible E s') :
    HInv E pol' ⟨s', v.consumed, v.released⟩ := by
  obtain ⟨k1, k2, k3, k4⟩ := hk
  refine ⟨hI, hp, Or.inr ⟨hst, ?_⟩, hn, hv⟩
  rcases h.log with hl | ⟨-, b0 | ⟨s0, pol0, b1, b2, b3, b4, b5, b6⟩⟩
  · exact Or.inr ⟨v.s, pol, hl, h.inv, k1.symm, k2.symm, fun hm => (k3 hm).symm, k4⟩
  · exact Or.inl b0
  · refine Or.inr ⟨s0, pol0, b1, b2, b3.trans k1.symm, b4.trans k2.symm, fun hm => (b5 hm).trans (k3 (b3 ▸ hm)).symm, fun hkn => ?_⟩
    obtain ⟨c1, c2⟩ := b6 hkn
    obtain ⟨d1, d2⟩ := k4 c1
    exact ⟨d1, d2.trans c2⟩

/-- What a call of `process` does to the invariant. -/
theorem hinv_process {E : Env → Prop} {pol : Policy} {v : View} {env : Env} (h : HInv E pol v) (he : E env) (mem inp : Bytes) (inNull : Bool) :
    let o := process env v.s mem inp inNull
    Keeps v.s o.s ∧
    ((o.res = .ok ∧ o.s.state ≠ .error ∧ HInv E pol ⟨o.s, v.consumed ++ inp.take o.read, v.released ++ o.mem.take o.written⟩) ∨
     (o.res = .err o.s.error ∧ o.s.state = .error ∧ HInv E pol ⟨o.s, v.consumed, v.released⟩)) := by
  simp only
  have hc := process_cases env v.s h.inv mem inp inNull
  generalize process env v.s mem inp inNull = o at hc ⊢
  cases hc with
  | ok rest hr hml hw hread hrl hI hne hsteps hstall =>
    obtain ⟨c, hc, h1⟩ := hsteps.hinv he (C := v.consumed) (R := v.released) h
    have : inp.take o.read = c := List.append_cancel_right (hread.symm.trans hc)
    rw [this]
    exact ⟨hsteps.keeps h.inv, Or.inl ⟨hr, hne, h1⟩⟩
  | err e out inp1 mem1 s1 hr hmem hw hrl hI hst hsteps hI1 hfail hs =>
    obtain ⟨c, hc, h1⟩ := hsteps.hinv he (C := v.consumed) (R := v.released) h
    obtain ⟨hn, hv⟩ := h1.fail he mem1 inp1 inNull hfail
    have hk := (hsteps.keeps h.inv).trans (sessionStep_keeps env s1 hI1 mem1 inp1 inNull)
    simp only at hn hv
    have hk' : Keeps v.s o.s ∧ NonceOK o.s.nonces ∧ Visible E o.s := by
      rcases hs with ⟨hs, -⟩ | ⟨hs, -⟩
      · rw [hs]; exact ⟨hk, hn, hv⟩
      · rw [hs]; obtain ⟨a1, a2, a3, a4, a5, a6, a7⟩ := hk; exact ⟨⟨a1, a2, a3, a4, a5, a6, a7⟩, hn, hv⟩
    obtain ⟨hk, hn, hv⟩ := hk'
    refine ⟨hk, Or.inr ⟨hr, hst, h.toError hst hI ⟨hk.mode, hk.maxEdks, hk.frameSize, fun hkn => ⟨?_, hk.preciseSize⟩⟩ ?_ hn hv⟩⟩
    · rw [hk.preciseKnown]; exact hkn
    · rw [hk.policy]; exact h.polOk

/-- A session in the configuration state. -/
theorem hinv_config {E : Env → Prop} {pol : Policy} {s : Session} (hI : Inv s) (hst : s.state = .config)
    (hp : s.policy.isValid = true → s.policy = pol) : HInv E pol ⟨s, [], []⟩ := by
  have hf := hI.st
  simp only [StInv, hst] at hf
  refine ⟨hI, hp, Or.inl ?_, by rw [hf.2.nonces]; exact NonceOK.nil, fun _ hcs => ?_⟩
  · simp only [LiveLog, hst]; exact ⟨trivial, trivial, hf.2.nonces⟩
  · rw [hf.2.cmmSuccess] at hcs; cases hcs

theorem reset_inv (s : Session) (hfs : s.frameSize < 2 ^ 32) (m : Mode) : Inv (reset s m).1 := by
  unfold reset
  simp only
  by_cases hv : m.isValid = true
  · rw [if_pos hv]
    exact ⟨hfs, by simp, by simp, by simp, by simp, hv, rfl, rfl, rfl, rfl, rfl, rfl, rfl, rfl, rfl, rfl, rfl, fun _ => rfl, List.nodup_nil⟩
  · rw [if_neg hv]
    exact ⟨hfs, by simp [failSession], by simp [failSession], by simp [failSession], by simp [failSession], trivial⟩

theorem hinv_reset {E : Env → Prop} {pol : Policy} {s : Session} (hI : Inv s) (hp : s.policy.isValid = true → s.policy = pol) (m : Mode) :
    HInv E pol ⟨(reset s m).1, [], []⟩ := by
  have hi := reset_inv s hI.frameSize m
  by_cases hv : m.isValid = true
  · apply hinv_config hi
    · simp [reset, hv]
    · simp only [reset, hv, if_true]; exact hp
  · have e : (reset s m).1.state = .error := by simp [reset, hv, failSession]
    refine ⟨hi, ?_, Or.inr ⟨e, Or.inl ⟨rfl, rfl⟩⟩, ?_, ?_⟩
    · simp [reset, hv, failSession]; exact hp
    · simp [reset, hv, failSession]; exact NonceOK.nil
    · intro _ hcs
      simp [reset, hv, failSession] at hcs

theorem sessionNew_inv {mode : Mode} {s : Session} (h : sessionNew mode = some s) :
    Inv s ∧ s.state = .config ∧ s.policy = .requireRequire := by
  unfold sessionNew at h
  split at h
  · rename_i hv
    cases h
    exact ⟨⟨by simp, by simp, by simp, by simp, by simp, hv, rfl, rfl, rfl, rfl, rfl, rfl, rfl, rfl, rfl, rfl, rfl, fun _ => rfl, List.nodup_nil⟩, rfl, rfl⟩
  · cases h

theorem failSession_error (s : Session) (e : Err) : (failSession s e).1.state = .error ∧
    (failSession s e).1 = { s with error := (failSession s e).1.error, state := .error } := by
  unfold failSession
  by_cases h : s.state ≠ .error
  · rw [if_pos h]; exact ⟨rfl, rfl⟩
  · rw [if_neg h]
    have h : s.state = .error := Decidable.not_not.mp h
    obtain ⟨er, mo, st, po, hc, ps, sb, ds, pk, hco, hsz, hd, fs, tr, ie, oe, sq, ap, ck, sgc, cs, me, no⟩ := s
    simp only at h
    subst h
    exact ⟨rfl, rfl⟩

theorem inv_error {s : Session} (hI : Inv s) (e : Err) : Inv { s with error := e, state := .error } :=
  ⟨hI.1, hI.2, hI.3, hI.4, hI.5, trivial⟩

/-- The session fails. -/
theorem HInv.failSession {E : Env → Prop} {pol : Policy} {v : View} (h : HInv E pol v) (e : Err) :
    HInv E pol { v with s := (failSession v.s e).1 } := by
  obtain ⟨h1, h2⟩ := failSession_error v.s e
  generalize (Verif.failSession v.s e).1 = s' at h1 h2 ⊢
  have h3 : Inv s' := by rw [h2]; exact inv_error h.inv _
  exact h.toError h1 h3 (by rw [h2]; exact ⟨rfl, rfl, fun _ => rfl, fun hk => ⟨hk, rfl⟩⟩) (by rw [h2]; exact h.polOk)
    (by rw [h2]; exact h.nonces) (by rw [h2]; exact h.visible)

/-- Changing fields that the invariant of a live session does not mention. -/
theorem liveLog_congr {E : Env → Prop} {pol : Policy} {v : View} {s' : Session} (h : LiveLog E pol v)
    (hs : s' = { v.s with outEst := s'.outEst, inEst := s'.inEst, sizeBound := s'.sizeBound, preciseSize := s'.preciseSize,
                          preciseKnown := s'.preciseKnown, policy := s'.policy, error := s'.error })
    (hp : v.s.preciseKnown = true → s'.preciseKnown = true ∧ s'.preciseSize = v.s.preciseSize) :
    LiveLog E pol { v with s := s' } := by
  obtain ⟨s, C, R⟩ := v
  obtain ⟨er, mo, st, po, hc, ps, sb, ds, pk, hco, hsz, hd, fs, tr, ie, oe, sq, ap, ck, sgc, cs, me, no⟩ := s
  obtain ⟨er', mo', st', po', hc', ps', sb', ds', pk', hco', hsz', hd', fs', tr', ie', oe', sq', ap', ck', sgc', cs', me', no'⟩ := s'
  simp only [Session.mk.injEq, true_and] at hs
  obtain ⟨rfl, rfl, rfl, rfl, rfl, rfl, rfl, rfl, rfl, rfl, rfl, rfl, rfl, rfl, rfl, rfl⟩ := hs
  simp only at hp
  unfold LiveLog at h ⊢
  cases st' <;> simp only at h ⊢
  · exact h
  · rcases h with ⟨h, m, p, k, hb, fr, tr, ⟨a1, a2, a3, a4, a5, a6, a7, a8, a9, a10⟩, b1, b2, b3, b4, b5⟩ |
      ⟨hb, h, row, p, m, k, fr, tr, ⟨a1, a2, a3, a4, a5, a6, a7, a8, a9, a10⟩, b1, b2, b3⟩
    · obtain ⟨c1, c2⟩ := hp b4
      exact Or.inl ⟨h, m, p, k, hb, fr, tr, ⟨a1, a2, a3, a4, a5, a6, a7, a8, a9, a10⟩, b1, b2, b3, c1, by rw [c2]; exact b5⟩
    · exact Or.inr ⟨hb, h, row, p, m, k, fr, tr, ⟨a1, a2, a3, a4, a5, a6, a7, a8, a9, a10⟩, b1, b2, b3⟩
  · exact h
  · obtain ⟨hb, h, row, p, m, k, fr, ⟨a1, a2, a3, a4, a5, a6, a7, a8, a9, a10⟩, b⟩ := h
    exact ⟨hb, h, row, p, m, k, fr, ⟨a1, a2, a3, a4, a5, a6, a7, a8, a9, a10⟩, b⟩
  · obtain ⟨hb, h, row, p, m, k, fr, ⟨a1, a2, a3, a4, a5, a6, a7, a8, a9, a10⟩, b⟩ := h
    exact ⟨hb, h, row, p, m, k, fr, ⟨a1, a2, a3, a4, a5, a6, a7, a8, a9, a10⟩, b⟩
  · exact h
  · obtain ⟨h, m, p, k, hb, ⟨a1, a2, a3, a4, a5, a6, a7, a8, a9, a10⟩, b⟩ := h
    exact ⟨h, m, p, k, hb, ⟨a1, a2, a3, a4, a5, a6, a7, a8, a9, a10⟩, b⟩
  · obtain ⟨h, m, p, k, hb, fr, ⟨a1, a2, a3, a4, a5, a6, a7, a8, a9, a10⟩, b⟩ := h
    exact ⟨h, m, p, k, hb, fr, ⟨a1, a2, a3, a4, a5, a6, a7, a8, a9, a10⟩, b⟩
  · obtain ⟨h, m, p, k, hb, fr, ⟨a1, a2, a3, a4, a5, a6, a7, a8, a9, a10⟩, b1, b2, b3, b4, b5⟩ := h
    obtain ⟨c1, c2⟩ := hp b4
    exact ⟨h, m, p, k, hb, fr, ⟨a1, a2, a3, a4, a5, a6, a7, a8, a9, a10⟩, b1, b2, b3, c1, by rw [c2]; exact b5⟩

theorem stInv_congr {s s' : Session} (h : StInv s)
    (hs : s' = { s with outEst := s'.outEst, inEst := s'.inEst, sizeBound := s'.sizeBound, preciseSize := s'.preciseSize,
                          preciseKnown := s'.preciseKnown, policy := s'.policy, error := s'.error, maxEdks := s'.maxEdks, frameSize := s'.frameSize }) :
    StInv s' := by
  obtain ⟨er, mo, st, po, hc, ps, sb, ds, pk, hco, hsz, hd, fs, tr, ie, oe, sq, ap, ck, sgc, cs, me, no⟩ := s
  obtain ⟨er', mo', st', po', hc', ps', sb', ds', pk', hco', hsz', hd', fs', tr', ie', oe', sq', ap', ck', sgc', cs', me', no'⟩ := s'
  simp only [Session.mk.injEq, true_and] at hs
  obtain ⟨rfl, rfl, rfl, rfl, rfl, rfl, rfl, rfl, rfl, rfl, rfl, rfl, rfl, rfl⟩ := hs
  unfold StInv at h ⊢
  have hf : ∀ {s s' : Session}, Fresh s → s'.signctx = s.signctx → s'.cmmSuccess = s.cmmSuccess → s'.nonces = s.nonces →
      s'.seqno = s.seqno → s'.dataSoFar = s.dataSoFar → s'.algProps = s.algProps → s'.headerCopy = s.headerCopy →
      s'.headerSize = s.headerSize → s'.trace = s.trace → s'.contentKey = s.contentKey → s'.header = s.header → s'.mode = s.mode →
      Fresh s' := by
    rintro s s' ⟨a1, a2, a3, a4, a5, a6, a7, a8, a9, a10, a11, a12, a13⟩ e1 e2 e3 e4 e5 e6 e7 e8 e9 e10 e11 e12
    exact ⟨e1.trans a1, e2.trans a2, e3.trans a3, e4.trans a4, e5.trans a5, e6.trans a6, e7.trans a7, e8.trans a8, e9.trans a9,
      e10.trans a10, by rw [e11]; exact a11, by rw [e12, e11]; exact a12, by rw [e11]; exact a13⟩
  cases st' <;> simp only at h ⊢ <;>
    first
      | exact h
      | exact ⟨h.1, hf h.2 rfl rfl rfl rfl rfl rfl rfl rfl rfl rfl rfl rfl⟩

/-- Changing fields that the invariant does not mention, or the sizes. -/
theorem HInv.congr {E : Env → Prop} {pol pol' : Policy} {v : View} {s' : Session} (h : HInv E pol v)
    (hs : s' = { v.s with outEst := s'.outEst, inEst := s'.inEst, sizeBound := s'.sizeBound, preciseSize := s'.preciseSize,
                          preciseKnown := s'.preciseKnown, policy := s'.policy, error := s'.error })
    (hp : v.s.preciseKnown = true → s'.preciseKnown = true ∧ s'.preciseSize = v.s.preciseSize)
    (h1 : s'.preciseSize < 2 ^ 64) (h2 : s'.sizeBound < 2 ^ 64) (h3 : s'.preciseKnown = true → s'.preciseSize ≤ s'.sizeBound)
    (hpol : s'.policy.isValid = true → s'.policy = pol') (hlive : v.s.state ≠ .error → pol' = pol) : HInv E pol' { v with s := s' } := by
  have hI : Inv s' := by
    refine ⟨?_, h1, h2, ?_, h3, stInv_congr h.inv.st (by
      obtain ⟨er', mo', st', po', hc', ps', sb', ds', pk', hco', hsz', hd', fs', tr', ie', oe', sq', ap', ck', sgc', cs', me', no'⟩ := s'
      simp only [Session.mk.injEq, true_and] at hs ⊢
      obtain ⟨rfl, rfl, rfl, rfl, rfl, rfl, rfl, rfl, rfl, rfl, rfl, rfl, rfl, rfl, rfl, rfl⟩ := hs
      simp)⟩
    · rw [hs]; exact h.inv.frameSize
    · rw [hs]; exact h.inv.dataSoFar
  have hn : NonceOK s'.nonces := by rw [hs]; exact h.nonces
  have hv : Visible E s' := by rw [hs]; exact h.visible
  by_cases he : v.s.state = .error
  · exact h.toError (by rw [hs]; exact he) hI ⟨by rw [hs], by rw [hs], fun _ => by rw [hs], hp⟩ hpol hn hv
  · have := hlive he
    subst this
    exact ⟨hI, hpol, Or.inl (liveLog_congr (h.live he) hs hp), hn, hv⟩

theorem computeBodyEstimate_eq (env : Env) {s : Session} (h : StInv s) :
    ∃ o i, computeBodyEstimate env s = ({ s with outEst := o, inEst := i }, .ok) := by
  unfold computeBodyEstimate
  by_cases hst : s.state ≠ .encryptBody
  · rw [if_pos hst]; exact ⟨s.outEst, s.inEst, rfl⟩
  · rw [if_neg hst]
    have hst : s.state = .encryptBody := Decidable.not_not.mp hst
    simp only [StInv, hst] at h
    obtain ⟨hm, -, hq, p, hsp, hp, -⟩ := h
    have hc := tryEncryptBody_cases env s hp hsp hst hq [] [] false
    simp only
    generalize tryEncryptBody env s ⟨[], 0⟩ [] false = r at hc ⊢
    cases hc with
    | fail e o i ns hr hinp hs hns =>
      rcases hns with rfl | ⟨-, h1, -⟩
      · exact ⟨o, i, by rw [hs, hr]⟩
      · exact absurd rfl h1
    | stall o i hr hinp hs => exact ⟨o, i, by rw [hs, hr]⟩
    | wrote type pt ct tag sg hr hk hinp hnull hs hroom =>
      cases type <;> simp [frameSize] at hroom

/-- A call that only changes the configuration of a session that has not started. -/
theorem HInv.configure {E : Env → Prop} {pol pol' : Policy} {v : View} {s' : Session} (h : HInv E pol v) (hst : v.s.state = .config)
    (hI : Inv s') (hst' : s'.state = .config) (hp : s'.policy.isValid = true → s'.policy = pol') : HInv E pol' { v with s := s' } := by
  have hl := h.live (by rw [hst]; simp)
  simp only [LiveLog, hst] at hl
  obtain ⟨h1, h2, -⟩ := hl
  obtain ⟨s, C, R⟩ := v
  simp only at h1 h2
  subst h1 h2
  exact hinv_config hI hst' hp

theorem setMessageSize_cases (env : Env) (s : Session) (hI : Inv s) (n : Nat) :
    (∃ e s', setMessageSize env s n = (s', .err e) ∧ (s' = s ∨ s' = (failSession s e).1)) ∨
    (s.mode = .encrypt ∧ s.preciseKnown = false ∧ u64 n ≤ s.sizeBound ∧
      ∃ o i, setMessageSize env s n = ({ s with preciseSize := u64 n, preciseKnown := true, outEst := o, inEst := i }, .ok)) := by
  unfold setMessageSize
  by_cases h1 : s.mode ≠ .encrypt
  · rw [if_pos h1]; exact Or.inl ⟨_, _, rfl, Or.inl rfl⟩
  rw [if_neg h1]
  by_cases h2 : s.preciseKnown = true
  · rw [if_pos h2]
    exact Or.inl ⟨.badState, _, by unfold failSession; split <;> rfl, Or.inr rfl⟩
  rw [if_neg h2]
  by_cases h3 : s.sizeBound < u64 n
  · rw [if_pos h3]
    exact Or.inl ⟨.limitExceeded, _, by unfold failSession; split <;> rfl, Or.inr rfl⟩
  rw [if_neg h3]
  right
  obtain ⟨o, i, h⟩ := computeBodyEstimate_eq env (s := { s with preciseSize := u64 n, preciseKnown := true })
    (stInv_congr hI.st rfl)
  exact ⟨Decidable.not_not.mp h1, by simpa using h2, by omega, o, i, h⟩

theorem hinv_setMessageSize {E : Env → Prop} {pol : Policy} {v : View} (env : Env) (h : HInv E pol v) (n : Nat) :
    HInv E pol { v with s := (setMessageSize env v.s n).1 } ∧
    ((setMessageSize env v.s n).2 = .ok ∨ ∃ e, (setMessageSize env v.s n).2 = .err e) := by
  rcases setMessageSize_cases env v.s h.inv n with ⟨e, s', h1, h2⟩ | ⟨hm, hk, hb, o, i, h1⟩
  · rw [h1]
    refine ⟨?_, Or.inr ⟨e, rfl⟩⟩
    rcases h2 with rfl | rfl
    · exact h
    · exact h.failSession e
  · rw [h1]
    refine ⟨?_, Or.inl rfl⟩
    refine h.congr rfl (fun hkk => by rw [hk] at hkk; cases hkk) (by simp only [u64]; omega) h.inv.sizeBound (fun _ => hb) h.polOk (fun _ => rfl)

theorem hinv_setMessageBound {E : Env → Prop} {pol : Policy} {v : View} (h : HInv E pol v) (n : Nat) :
    HInv E pol { v with s := (setMessageBound v.s n).1 } ∧
    ((setMessageBound v.s n).2 = .ok ∨ ∃ e, (setMessageBound v.s n).2 = .err e) := by
  unfold setMessageBound
  by_cases h1 : v.s.mode ≠ .encrypt
  · rw [if_pos h1]; exact ⟨h, Or.inr ⟨_, rfl⟩⟩
  rw [if_neg h1]
  by_cases h2 : v.s.preciseKnown = true ∧ v.s.preciseSize > u64 n
  · rw [if_pos h2]
    exact ⟨h.failSession _, Or.inr ⟨.limitExceeded, by unfold failSession; split <;> rfl⟩⟩
  rw [if_neg h2]
  by_cases h3 : v.s.sizeBound > u64 n
  · rw [if_pos h3]
    refine ⟨?_, Or.inl rfl⟩
    refine h.congr rfl (fun hk => ⟨hk, rfl⟩) h.inv.preciseSize (by simp only [u64]; omega) (fun hk => ?_) h.polOk (fun _ => rfl)
    simp only at hk ⊢
    exact Nat.le_of_not_lt fun hl => h2 ⟨hk, hl⟩
  · rw [if_neg h3]; exact ⟨h, Or.inl rfl⟩

theorem hinv_setPolicy {E : Env → Prop} {pol : Policy} {v : View} (h : HInv E pol v) (p : Policy) :
    HInv E (polAfter pol (.setPolicy p)) { v with s := (setCommitmentPolicy v.s p).1 } ∧
    ((setCommitmentPolicy v.s p).2 = .ok ∨ ∃ e, (setCommitmentPolicy v.s p).2 = .err e) := by
  unfold setCommitmentPolicy polAfter
  simp only
  by_cases h1 : (!p.isValid) = true
  · rw [if_pos h1]
    have h1' : p.isValid = false := by simpa using h1
    rw [if_neg (by rw [h1']; simp)]
    refine ⟨?_, Or.inr ⟨_, rfl⟩⟩
    refine h.congr rfl (fun hk => ⟨hk, rfl⟩) h.inv.preciseSize h.inv.sizeBound h.inv.precise (fun hv => ?_) (fun _ => rfl)
    simp only at hv
    rw [h1'] at hv; cases hv
  rw [if_neg h1]
  have h1' : p.isValid = true := by simpa using h1
  rw [if_pos h1']
  by_cases h2 : v.s.state ≠ .config
  · rw [if_pos h2]
    refine ⟨?_, Or.inr ⟨.badState, by unfold failSession; split <;> rfl⟩⟩
    obtain ⟨e1, e2⟩ := failSession_error { v.s with policy := p } .badState
    generalize (Verif.failSession { v.s with policy := p } .badState).1 = s' at e1 e2 ⊢
    have hI : Inv s' := by
      rw [e2]; exact ⟨h.inv.1, h.inv.2, h.inv.3, h.inv.4, h.inv.5, trivial⟩
    exact h.toError e1 hI (by rw [e2]; exact ⟨rfl, rfl, fun _ => rfl, fun hk => ⟨hk, rfl⟩⟩) (by rw [e2]; exact fun _ => rfl)
      (by rw [e2]; exact h.nonces) (by rw [e2]; exact h.visible)
  · rw [if_neg h2]
    have h2 : v.s.state = .config := Decidable.not_not.mp h2
    exact ⟨h.configure h2 ⟨h.inv.1, h.inv.2, h.inv.3, h.inv.4, h.inv.5, stInv_congr h.inv.st rfl⟩ h2 (fun _ => rfl), Or.inl rfl⟩

theorem hinv_setMaxEdks {E : Env → Prop} {pol : Policy} {v : View} (h : HInv E pol v) (n : Nat) :
    HInv E pol { v with s := (setMaxEdks v.s n).1 } ∧ ((setMaxEdks v.s n).2 = .ok ∨ ∃ e, (setMaxEdks v.s n).2 = .err e) := by
  unfold setMaxEdks
  by_cases h2 : v.s.state ≠ .config
  · rw [if_pos h2]
    exact ⟨h.failSession _, Or.inr ⟨.badState, by unfold failSession; split <;> rfl⟩⟩
  rw [if_neg h2]
  have h2 : v.s.state = .config := Decidable.not_not.mp h2
  by_cases h3 : n = 0
  · rw [if_pos h3]; exact ⟨h, Or.inr ⟨_, rfl⟩⟩
  · rw [if_neg h3]
    exact ⟨h.configure h2 ⟨h.inv.1, h.inv.2, h.inv.3, h.inv.4, h.inv.5, stInv_congr h.inv.st rfl⟩ h2 h.polOk, Or.inl rfl⟩

theorem hinv_setFrameSize {E : Env → Prop} {pol : Policy} {v : View} (h : HInv E pol v) (n : Nat) :
    HInv E pol { v with s := (setFrameSize v.s n).1 } ∧ ((setFrameSize v.s n).2 = .ok ∨ ∃ e, (setFrameSize v.s n).2 = .err e) := by
  unfold setFrameSize
  by_cases h2 : v.s.mode ≠ .encrypt ∨ v.s.state ≠ .config
  · rw [if_pos h2]; exact ⟨h, Or.inr ⟨_, rfl⟩⟩
  rw [if_neg h2]
  simp only [not_or, Decidable.not_not] at h2
  refine ⟨h.configure h2.2 ⟨?_, h.inv.2, h.inv.3, h.inv.4, h.inv.5, stInv_congr h.inv.st rfl⟩ h2.2 h.polOk, Or.inl rfl⟩
  simp only; omega

theorem hinv_editCtx {E : Env → Prop} {pol : Policy} {v : View} (h : HInv E pol v) (f : EncCtx → EncCtx) (hf : KeepsTable f) :
    HInv E pol { v with s := editEncCtx v.s f } := by
  unfold editEncCtx
  by_cases h2 : v.s.mode = .encrypt ∧ v.s.state = .config
  · rw [if_pos h2]
    have hst := h.inv.st
    simp only [StInv, h2.2] at hst
    obtain ⟨hm, a1, a2, a3, a4, a5, a6, a7, a8, a9, a10, a11, a12, a13⟩ := hst
    refine h.configure h2.2 ⟨h.inv.1, h.inv.2, h.inv.3, h.inv.4, h.inv.5, ?_⟩ h2.2 h.polOk
    simp only [StInv, h2.2]
    refine ⟨hm, a1, a2, a3, a4, a5, a6, a7, a8, a9, a10, ?_, fun hd => ?_, hf _ a13⟩
    · simp only; rw [a11]
    · simp only [h2.1, Mode.isDecrypt] at hd; cases hd
  · rw [if_neg h2]; exact h

theorem hinv_processFull {E : Env → Prop} {pol : Policy} {v : View} {env : Env} (h : HInv E pol v) (he : E env) (mem inp : Bytes)
    (inNull : Bool) (old : Nat) :
    let o := processFull env v.s mem inp inNull old
    (o.res = .ok ∧ o.s.state = .done ∧ HInv E pol ⟨o.s, v.consumed ++ inp.take o.read, v.released ++ o.mem.take o.written⟩) ∨
    ((∃ e, o.res = .err e) ∧ HInv E pol ⟨o.s, v.consumed, v.released⟩) := by
  simp only
  unfold processFull
  by_cases h1 : v.s.state ≠ .config
  · rw [if_pos h1]; exact Or.inr ⟨⟨_, rfl⟩, h⟩
  rw [if_neg h1]
  have hset : HInv E pol { v with s := (if v.s.mode = .encrypt then setMessageSize env v.s inp.length else (v.s, .ok)).1 } ∧
      ((if v.s.mode = .encrypt then setMessageSize env v.s inp.length else (v.s, .ok)).2 = .ok ∨
       ∃ e, (if v.s.mode = .encrypt then setMessageSize env v.s inp.length else (v.s, .ok)).2 = .err e) := by
    split
    · exact hinv_setMessageSize env h inp.length
    · exact ⟨h, Or.inl rfl⟩
  simp only
  generalize (if v.s.mode = .encrypt then setMessageSize env v.s inp.length else (v.s, .ok)) = r at hset ⊢
  obtain ⟨s1, res⟩ := r
  obtain ⟨hh, hres⟩ := hset
  simp only at hh hres ⊢
  rcases hres with rfl | ⟨e, rfl⟩
  · simp only
    obtain ⟨hk, hp⟩ := hinv_process hh he mem inp inNull
    simp only at hk hp
    generalize process env s1 mem inp inNull = o at hk hp ⊢
    rcases hp with ⟨h1, h2, h3⟩ | ⟨h1, h2, h3⟩
    · rw [h1]
      simp only
      by_cases hd : o.s.state = .done ∧ o.read = inp.length
      · rw [if_pos hd]; exact Or.inl ⟨h1, hd.1, h3⟩
      · rw [if_neg hd]
        refine Or.inr ⟨⟨_, rfl⟩, ?_⟩
        refine hh.toError rfl (inv_error h3.inv _) ⟨hk.mode, hk.maxEdks, hk.frameSize, fun hkn => ⟨?_, hk.preciseSize⟩⟩ ?_ h3.nonces h3.visible
        · show o.s.preciseKnown = true
          rw [hk.preciseKnown]; exact hkn
        · show o.s.policy.isValid = true → o.s.policy = pol
          rw [hk.policy]; exact hh.polOk
    · rw [h1]
      exact Or.inr ⟨⟨_, rfl⟩, h3⟩
  · exact Or.inr ⟨⟨_, rfl⟩, hh⟩

/-- Every call keeps the invariant and ends normally or with an error. -/
theorem hinv_apply {E : Env → Prop} {pol : Policy} {v : View} {env : Env} (h : HInv E pol v) (he : E env) (op : Op) :
    HInv E (polAfter pol op) (apply env v op).1 ∧ ((apply env v op).2 = .ok ∨ ∃ e, (apply env v op).2 = .err e) := by
  cases op with
  | reset m =>
    refine ⟨hinv_reset h.inv h.polOk m, ?_⟩
    simp only [apply, reset]
    split
    · exact Or.inl rfl
    · exact Or.inr ⟨.unimplemented, by unfold failSession; split <;> rfl⟩
  | setFrameSize n => exact hinv_setFrameSize h n
  | setMessageSize n => exact hinv_setMessageSize env h n
  | setMessageBound n => exact hinv_setMessageBound h n
  | setPolicy p => exact hinv_setPolicy h p
  | setMaxEdks n => exact hinv_setMaxEdks h n
  | editCtx f hf => exact ⟨hinv_editCtx h f hf, Or.inl rfl⟩
  | process mem inp =>
    have hp := (hinv_process h he mem (inp.getD []) inp.isNone).2
    simp only [apply, polAfter]
    generalize process env v.s mem (inp.getD []) inp.isNone = o at hp ⊢
    rcases hp with ⟨h1, h2, h3⟩ | ⟨h1, h2, h3⟩
    · rw [if_pos h1]; exact ⟨h3, Or.inl h1⟩
    · rw [if_neg (by rw [h1]; simp)]; exact ⟨h3, Or.inr ⟨_, h1⟩⟩
  | processFull mem inp old =>
    have hp := hinv_processFull h he mem (inp.getD []) inp.isNone old
    simp only [apply, polAfter]
    generalize processFull env v.s mem (inp.getD []) inp.isNone old = o at hp ⊢
    rcases hp with ⟨h1, h2, h3⟩ | ⟨⟨e, h1⟩, h3⟩
    · rw [if_pos h1]; exact ⟨h3, Or.inl h1⟩
    · rw [if_neg (by rw [h1]; simp)]; exact ⟨h3, Or.inr ⟨_, h1⟩⟩

/-- Every reachable view satisfies the invariant. -/
theorem Spec.Reach.hinv {E : Env → Prop} {pol : Policy} {v : View} (h : Reach E pol v) : HInv E pol v := by
  induction h with
  | new h =>
    obtain ⟨h1, h2, h3⟩ := sessionNew_inv h
    exact hinv_config h1 h2 (fun _ => h3)
  | call op h he ih => exact (hinv_apply ih he op).1
  | restart env mode h ih => exact hinv_reset ih.inv ih.polOk mode

end Verif
