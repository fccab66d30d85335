import Verif.Proof.SessionWrites
import Verif.Proof.SessionDeclared
/-
An encrypting session in an environment in which nothing fails does not fail, and finishes.
-/
namespace Verif
open Spec

/-! ### the CMM stays -/

theorem sessionStep_hasCmm (env : Env) (s : Session) (hI : Inv s) (mem inp : Bytes) (inNull : Bool) :
    (sessionStep env s ⟨mem, 0⟩ inp inNull).s.hasCmm = s.hasCmm := by
  have hc := sessionStep_cases env s hI mem inp inNull
  generalize sessionStep env s ⟨mem, 0⟩ inp inNull = r at hc ⊢
  cases hc with
  | cfgFail h hr => subst hr; rfl
  | cfgEnc h _ _ _ hr => subst hr; rfl
  | cfgDec h _ _ _ hr => subst hr; rfl
  | done h hr => subst hr; rfl
  | error h hr => subst hr; rfl
  | parse h hc =>
    cases hc with
    | fail e hr hbuf hinp hs => exact hs.hasCmm
    | stall est hr hbuf hinp hs => rw [hs]
    | opened hb hd row p m k sg hr hbuf hk => rw [hk.result]
  | dec h hc =>
    cases hc with
    | fail e i o q sg hr hs => rw [hs]
    | stall i o hr hs => rw [hs]
    | opened f pt sg i hr _ _ _ _ _ _ _ _ hs => rw [hs]; rfl
  | check h hc =>
    cases hc with
    | fail e ctx sg hr hctx hs => rw [hs]
    | stall n ctx hr hctx hs => rw [hs]
    | noSig hr hctx hs => rw [hs]
    | verified ctx sig hr hctx hver hs => rw [hs]
  | gen h hc =>
    cases hc with
    | fail e hr hs => exact hs.hasCmm
    | ok ctx m p mid k c ct tag sg hr hk => rw [hk.result]
  | header h hc =>
    cases hc with
    | wrote c hcp hroom hr => subst hr; rfl
    | stall c hcp hroom hr => subst hr; rfl
  | body p h hsp hp hc =>
    cases hc with
    | fail e o i ns hr hinp hs => rw [hs]
    | stall o i hr hinp hs => rw [hs]
    | wrote type pt ct tag sg hr hk hinp hnull hs => rw [hs]; rfl
  | trailer p h hsp hp hc =>
    cases hc with
    | fail e hr hinp hsig hs => rw [hs]
    | stall hr hinp hs => rw [hs]
    | unsigned hr hinp hs => rw [hs]
    | signed ctx sig hr hinp hsig hctx hsign hs => rw [hs]

theorem process_hasCmm (env : Env) (s : Session) (hI : Inv s) (mem inp : Bytes) (inNull : Bool) :
    (process env s mem inp inNull).s.hasCmm = s.hasCmm := by
  have steps : ∀ {s s' : Session} {inp inp' o : Bytes}, Steps env inNull s inp o s' inp' → Inv s → s'.hasCmm = s.hasCmm := by
    intro s s' inp inp' o h
    induction h with
    | refl => intro _; rfl
    | @step s inp mem r out s' inp' hr hok h ih =>
      intro hI
      subst hr
      exact (ih ((sessionStep_ok env s hI mem inp inNull).inv hok)).trans (sessionStep_hasCmm env s hI mem inp inNull)
  have hc := process_cases env s hI mem inp inNull
  generalize process env s mem inp inNull = o at hc ⊢
  cases hc with
  | ok rest hr hml hw hread hrl hI' hne hsteps hstall => exact steps hsteps hI
  | err e out inp1 mem1 s1 hr hmem hw hrl hI' hst hsteps hI1 hfail hs =>
    have h1 := sessionStep_hasCmm env s1 hI1 mem1 inp1 inNull
    have h2 := steps hsteps hI
    rcases hs with ⟨hs, -⟩ | ⟨hs, -⟩ <;> rw [hs] <;> exact h1.trans h2

theorem setMessageSize_hasCmm (env : Env) (s : Session) (hI : Inv s) (n : Nat) : (setMessageSize env s n).1.hasCmm = s.hasCmm := by
  rcases setMessageSize_cases env s hI n with ⟨e, s', h1, h2⟩ | ⟨hm, hk, hb, o, i, h1⟩
  · rw [h1]
    rcases h2 with rfl | rfl
    · rfl
    · unfold failSession; split <;> rfl
  · rw [h1]

/-- A session that was made by the API has a CMM, always. -/
theorem Spec.Reach.hasCmm {E : Env → Prop} {pol : Policy} {v : View} (h : Reach E pol v) : v.s.hasCmm = true := by
  have fail : ∀ (s : Session) (e : Err), (failSession s e).1.hasCmm = s.hasCmm := by
    intro s e; unfold failSession; split <;> rfl
  have rst : ∀ (s : Session) (m : Mode), (reset s m).1.hasCmm = s.hasCmm := by
    intro s m
    unfold reset
    split
    · rfl
    · rw [fail]
  induction h with
  | new h =>
    unfold sessionNew at h
    split at h
    · cases h; rfl
    · cases h
  | restart env mode h ih => exact (rst _ _).trans ih
  | call op h he ih =>
    rename_i env
    cases op with
    | reset m => exact (rst _ _).trans ih
    | setFrameSize n =>
      simp only [apply, setFrameSize]
      split <;> exact ih
    | setMessageSize n => exact (setMessageSize_hasCmm env _ h.hinv.inv n).trans ih
    | setMessageBound n =>
      simp only [apply, setMessageBound]
      split
      · exact ih
      · split
        · rw [fail]; exact ih
        · split <;> exact ih
    | setPolicy p =>
      simp only [apply, setCommitmentPolicy]
      split
      · exact ih
      · split
        · rw [fail]; exact ih
        · exact ih
    | setMaxEdks n =>
      simp only [apply, setMaxEdks]
      split
      · rw [fail]; exact ih
      · split <;> exact ih
    | editCtx f hf =>
      simp only [apply, editEncCtx]
      split <;> exact ih
    | process mem inp =>
      have := process_hasCmm env _ h.hinv.inv mem (inp.getD []) inp.isNone
      simp only [apply]
      split <;> exact this.trans ih
    | processFull mem inp old =>
      rename_i pol' v
      have key : (processFull env v.s mem (inp.getD []) inp.isNone old).s.hasCmm = v.s.hasCmm := by
        unfold processFull
        by_cases h1 : v.s.state ≠ .config
        · rw [if_pos h1]
        rw [if_neg h1]
        have hset : Inv (if v.s.mode = .encrypt then setMessageSize env v.s (inp.getD []).length else (v.s, .ok)).1 ∧
            (if v.s.mode = .encrypt then setMessageSize env v.s (inp.getD []).length else (v.s, .ok)).1.hasCmm = v.s.hasCmm := by
          split
          · exact ⟨(hinv_setMessageSize env h.hinv _).1.inv, setMessageSize_hasCmm env v.s h.hinv.inv _⟩
          · exact ⟨h.hinv.inv, rfl⟩
        simp only
        generalize (if v.s.mode = .encrypt then setMessageSize env v.s (inp.getD []).length else (v.s, .ok)) = r at hset ⊢
        obtain ⟨s1, res⟩ := r
        obtain ⟨hh, hres⟩ := hset
        simp only at hh hres ⊢
        have hp := (process_hasCmm env s1 hh mem (inp.getD []) inp.isNone).trans hres
        cases res with
        | ok =>
          simp only
          split
          · split
            · exact hp
            · exact hp
          · exact hp
          · exact hp
        | _ => exact hres
      simp only [apply]
      split <;> exact key.trans ih

/-! ### lengths -/

theorem ongoing_lengths {E : Env → Prop} {k mid : Bytes} {fs : Nat} {fr : List (Frame × Bytes)} (h : AllFrames (SealedFrame E k mid fs) fr)
    (ho : Ongoing fr) : (bodyText fr).length = fr.length * fs ∧ (bodyBytes fr).length = fr.length * (fs + 32) ∧ (fr ≠ [] → fs ≠ 0) := by
  generalize hn : fr.length = n
  induction n generalizing fr with
  | zero =>
    rw [List.length_eq_zero_iff] at hn
    subst hn
    simp [bodyText, bodyBytes]
  | succ n ih =>
    rcases List.eq_nil_or_concat fr with rfl | ⟨fr, ⟨f, pt⟩, rfl⟩
    · simp at hn
    rw [List.concat_eq_append] at *
    have hn' : fr.length = n := by simpa using hn
    subst hn'
    have h1 : AllFrames (SealedFrame E k mid fs) fr := by
      intro i hi
      have := h i (by rw [List.length_append, List.length_singleton]; omega)
      rw [List.getElem_append_left hi] at this
      exact this
    obtain ⟨a, b, c⟩ := ih h1 (fun x hx => ho x (List.mem_append_left _ hx)) rfl
    have h2 : SealedFrame E k mid fs (fr.length + 1) f pt := by simpa using h fr.length (by simp)
    have ht : f.type = .frame := ho (f, pt) (by simp)
    have hsh := h2.ok.shape
    rw [ht] at hsh
    simp only at hsh
    have hl := h2.len
    have hw := length_wireFrame h2.ok
    rw [ht] at hw
    simp only [frameSize] at hw
    rw [bodyText_snoc, bodyBytes_snoc, List.length_append, List.length_append, a, b, hw, Nat.add_mul, Nat.add_mul]
    exact ⟨by omega, by omega, fun _ => hsh.1⟩

theorem complete_lengths {E : Env → Prop} {k mid : Bytes} {fs : Nat} {fr : List (Frame × Bytes)} (h : AllFrames (SealedFrame E k mid fs) fr)
    (ho : Complete fr) : (bodyBytes fr).length = bodyLen fs (bodyText fr).length := by
  obtain ⟨init, ⟨f, pt⟩, rfl, h1, h2⟩ := ho
  simp only at h2
  have h3 : AllFrames (SealedFrame E k mid fs) init := by
    intro i hi
    have := h i (by rw [List.length_append, List.length_singleton]; omega)
    rw [List.getElem_append_left hi] at this
    exact this
  obtain ⟨a, b, c⟩ := ongoing_lengths h3 h1
  have h4 : SealedFrame E k mid fs (init.length + 1) f pt := by simpa using h init.length (by simp)
  have hsh := h4.ok.shape
  have hl := h4.len
  have hw := length_wireFrame h4.ok
  rw [bodyText_snoc, bodyBytes_snoc, List.length_append, List.length_append, a, b, hw, hl]
  unfold bodyLen
  cases ht : f.type with
  | frame => exact absurd ht h2
  | final =>
    rw [ht] at hsh
    simp only at hsh
    have hs := h4.short ht
    have e1 : (init.length * fs + pt.length) / fs = init.length := by
      rw [Nat.add_comm, Nat.mul_comm, Nat.add_mul_div_left _ _ (by omega), Nat.div_eq_of_lt hs, Nat.zero_add]
    have e2 : (init.length * fs + pt.length) % fs = pt.length := by
      rw [Nat.add_comm, Nat.mul_comm, Nat.add_mul_mod_self_left, Nat.mod_eq_of_lt hs]
    rw [if_neg hsh.1, e1, e2]
    rfl
  | single =>
    rw [ht] at hsh
    simp only at hsh
    rw [if_pos hsh.1]
    have : init = [] := by
      cases init with
      | nil => rfl
      | cons x l => exact absurd hsh.1 (c (by simp))
    subst this
    simp [frameSize]

/-- What the log of a header says about lengths. -/
structure EncLens (E : Env → Prop) (fs : Nat) (h : Hdr) (m : EncMaterials) (p : AlgProps) (k hb : Bytes) (row : SuiteRow) : Prop where
  suite : row ∈ suiteTable
  props : algProps row.id = some p
  alg : row.id = m.alg
  id : h.algId = row.id
  header : hb.length = headerLen row h.encCtx h.edks
  key : k.length = row.keyBits / 8
  gen : ∃ e req ctx, E e ∧ e.cmm.generate req = (ctx, .ok m)
  frame : h.frameLen = fs

theorem encLens {E : Env → Prop} {pol : Policy} {maxEdks fs : Nat} {h : Hdr} {m : EncMaterials} {p : AlgProps} {k hb : Bytes}
    (hl : EncHdr E pol maxEdks fs h m p k hb) : ∃ row, EncLens E fs h m p k hb row := by
  obtain ⟨⟨env, s, s', ctx, mid, c, ct, tag, sg, he, hk, h1, h2, h3, h4, ht, h5⟩, hb⟩ := hl
  obtain ⟨row, a1, a2, a3, a4, a5⟩ := headerMade_of hk h4
  have hr := a4.suite
  have f := rowFacts hr a2
  have hmid : mid.length = if row.version = 1 then 16 else 32 := env.crypto.random_len _ _ a4.messageId
  have hkey := a4.key
  have hc : (encHeader s ctx m p mid c tag).algSuiteData.length = row.commitment := by
    have := hkey.2
    split at this
    · rename_i h0
      have h9 : (encHeader s ctx m p mid c tag).algSuiteData = [] := this
      rw [h9, h0]; rfl
    · obtain ⟨sha, -, h9⟩ := this
      exact env.crypto.hkdf_len _ _ _ _ _ _ h9
  have hkl : k.length = row.keyBits / 8 := by
    have := hkey.1
    split at this
    · rw [this, hk.dataKey, f.dataKey]
    · obtain ⟨sha, -, h9⟩ := this
      exact env.crypto.hkdf_len _ _ _ _ _ _ h9
  subst h5
  refine ⟨row, hr, a2, a4.alg.2.symm, a4.alg.1, ?_, hkl, ⟨env, _, ctx, he, hk.gen⟩, h3⟩
  rw [hb]
  exact length_hdrBytes hr a2 hmid hc (by simp only [encHeader]; split <;> simp) hk.tagLen

theorem trailer_length {E : Env → Prop} (hW : Works E) {fs : Nat} {h : Hdr} {m : EncMaterials} {p : AlgProps} {k hb : Bytes} {row : SuiteRow}
    (hl : EncLens E fs h m p k hb row) {signed tr : Bytes} (ht : EncTrailer E m p signed tr) : tr.length = trailerLen row := by
  have f := rowFacts hl.suite hl.props
  unfold trailerLen
  rcases ht with ⟨h0, rfl⟩ | ⟨h0, e, ctx, sig, he, h1, h2, rfl⟩
  · rw [if_pos (f.sig.mp h0)]; rfl
  · rw [if_neg (fun hc => h0 (f.sig.mpr hc))]
    unfold absorbed at h1
    cases hm : m.signctx with
    | none => rw [hm] at h1; cases h1
    | some c =>
      rw [hm] at h1
      simp only [Option.map_some, Option.some.injEq] at h1
      subst h1
      obtain ⟨e', req, ctx', he', hg⟩ := hl.gen
      obtain ⟨sig', h3, h4⟩ := hW.sign e e' he he' req ctx' m row c signed hg hl.suite hl.alg hm
      rw [h3] at h2
      cases h2
      unfold wireTrailer
      rw [List.length_append, h4]
      rw [show (u16 (sigBytes row)).length = 2 from rfl]

/-! ### no step fails -/

/-- What a step needs: the parts of `CanWrite` that steps keep. -/
structure Going (E : Env → Prop) (v : View) (inp : Bytes) : Prop where
  mode : v.s.mode = .encrypt
  alive : v.s.state ≠ .error
  policy : v.s.policy.isValid = true
  cmm : v.s.hasCmm = true
  answers : v.s.state = .config ∨ v.s.state = .genKey → ∀ e, E e → ∃ row ctx m, e.cmm.generate (encRequest v.s) = (ctx, .ok m) ∧
    Usable v.s.policy v.s.maxEdks row ctx m
  room : RoomFor v inp

theorem next_ok {E : Env → Prop} {pol : Policy} {v : View} {inp : Bytes} (hI : Inv v.s) {h : Hdr} {m : EncMaterials} {p : AlgProps} {k hb : Bytes}
    {fr : List (Frame × Bytes)} (hl : EncLog E pol v h m p k hb fr) (ho : Ongoing fr) (hr : RoomFor v inp) {t : FrameType} {n : Nat}
    (hn : nextFrame v.s = some (t, n)) :
    v.s.seqno < 2 ^ 32 ∧ WriteOK t v.s.seqno n ∧
    (v.s.preciseKnown = true → v.consumed.length + n ≤ v.s.preciseSize ∧
      (bodyBytes fr).length + frameSize t n ≤ bodyLen v.s.frameSize v.s.preciseSize ∧
      (t ≠ .frame → v.consumed.length + n = v.s.preciseSize)) := by
  obtain ⟨a, b, c⟩ := ongoing_lengths hl.frames ho
  have e1 : maxFrameSize = 4294967295 := rfl
  have e2 : maxUnframedPlaintextSize = 68719476704 := rfl
  have e3 : lastFrameMark = 4294967295 := rfl
  have hfs := hI.frameSize
  have hps := hI.preciseSize
  have hsq := hl.seqno
  have hcons := hl.consumed
  have hcl : v.consumed.length = fr.length * v.s.frameSize := by rw [hcons, a]
  have hsub : v.s.preciseKnown = true → u64sub v.s.preciseSize v.s.dataSoFar = v.s.preciseSize - v.consumed.length ∧ v.consumed.length ≤ v.s.preciseSize := by
    intro hk
    unfold RoomFor at hr
    rw [if_pos hk] at hr
    rw [hl.sofar, ← hcons]
    have : u64 v.consumed.length = v.consumed.length := Nat.mod_eq_of_lt (by omega)
    rw [this]
    unfold u64sub
    omega
  unfold RoomFor at hr
  rcases nextFrame_cases hn with ⟨rfl, rfl, h0, hk⟩ | ⟨rfl, h0, hk, rfl, hlt⟩ | ⟨rfl, h0, hk, rfl⟩
  · have key : fr.length + 1 < 4294967295 ∧ (v.s.preciseKnown = true → v.consumed.length + v.s.frameSize ≤ v.s.preciseSize ∧
        fr.length + 1 ≤ v.s.preciseSize / v.s.frameSize) := by
      by_cases hkn : v.s.preciseKnown = true
      · rw [if_pos hkn] at hr
        obtain ⟨h1, h2⟩ := hsub hkn
        have h3 := hk hkn
        rw [h1] at h3
        have h4 := hr.2
        unfold SizeOK at h4
        rw [if_neg h0] at h4
        have h5 : v.consumed.length + v.s.frameSize ≤ v.s.preciseSize := by omega
        have h6 : fr.length + 1 ≤ v.s.preciseSize / v.s.frameSize := by
          rw [Nat.le_div_iff_mul_le (by omega), Nat.add_mul]
          omega
        exact ⟨by omega, fun _ => ⟨h5, h6⟩⟩
      · rw [if_neg hkn] at hr
        rcases hr with hr | hr
        · exact absurd hr h0
        · have : fr.length ≤ (v.consumed.length + inp.length) / v.s.frameSize := by
            rw [Nat.le_div_iff_mul_le (by omega), hcl]
            omega
          exact ⟨by omega, fun h => absurd h hkn⟩
    refine ⟨by omega, ⟨by omega, by omega⟩, fun hkn => ?_⟩
    obtain ⟨h1, h2⟩ := key.2 hkn
    refine ⟨h1, ?_, fun h => absurd rfl h⟩
    unfold bodyLen
    rw [if_neg h0, b]
    have : (fr.length + 1) * (v.s.frameSize + 32) ≤ v.s.preciseSize / v.s.frameSize * (v.s.frameSize + 32) := Nat.mul_le_mul_right _ h2
    rw [Nat.add_mul] at this
    simp only [frameSize]
    omega
  · rw [if_pos hk] at hr
    obtain ⟨h1, h2⟩ := hsub hk
    rw [h1] at hlt ⊢
    have h4 := hr.2
    unfold SizeOK at h4
    rw [if_neg h0] at h4
    have h5 : v.s.preciseSize / v.s.frameSize = fr.length := by
      have : v.s.preciseSize = (v.s.preciseSize - v.consumed.length) + v.s.frameSize * fr.length := by
        rw [Nat.mul_comm]; omega
      rw [this, Nat.add_mul_div_left _ _ (by omega), Nat.div_eq_of_lt hlt, Nat.zero_add]
    have h6 : v.s.preciseSize % v.s.frameSize = v.s.preciseSize - v.consumed.length := by
      have : v.s.preciseSize = (v.s.preciseSize - v.consumed.length) + v.s.frameSize * fr.length := by
        rw [Nat.mul_comm]; omega
      conv => lhs; rw [this]
      rw [Nat.add_mul_mod_self_left, Nat.mod_eq_of_lt hlt]
    refine ⟨by omega, by show _ ≤ _; omega, fun _ => ⟨by omega, ?_, fun _ => by omega⟩⟩
    unfold bodyLen
    rw [if_neg h0, b, h5, h6]
    simp [frameSize]
  · rw [if_pos hk] at hr
    have h4 := hr.2
    unfold SizeOK at h4
    rw [if_pos h0] at h4
    have : fr = [] := by
      cases fr with
      | nil => rfl
      | cons x l => exact absurd h0 (c (by simp))
    subst this
    simp only [List.length_nil] at hsq hcl
    refine ⟨by omega, by show _ < _; omega, fun _ => ⟨by omega, ?_, fun _ => by omega⟩⟩
    unfold bodyLen
    rw [if_pos h0]
    simp [bodyBytes]

theorem going_step_ok {E : Env → Prop} (hW : Works E) {pol : Policy} {v : View} {inp : Bytes} (h : HInv E pol v) (hg : Going E v inp) {env : Env}
    (he : E env) (mem : Bytes) (inNull : Bool) : (sessionStep env v.s ⟨mem, 0⟩ inp inNull).res = .ok := by
  have hI := h.inv
  have hst := hI.st
  have hl := h.live hg.alive
  unfold StInv at hst
  unfold LiveLog at hl
  have hne : ¬ v.s.mode.isDecrypt = true := fun hd => by rw [hg.mode] at hd; cases hd
  unfold sessionStep
  cases hs : v.s.state <;> simp only [hs] at hst hl ⊢
  · simp [hg.cmm, hg.policy, hg.mode, enter, changeState, legalChange, hs]
  · exact absurd hst.1 hne
  · exact absurd hst.1 hne
  · exact absurd hst.1 hne
  · obtain ⟨row, ctx, m, h1, h2⟩ := hg.answers (Or.inr hs) env he
    refine tryGenKey_works env v.s ⟨E, hW, he⟩ hs hg.mode ?_ hI.frameSize h1 h2
    rw [hst.2.header]
  · obtain ⟨-, -, h3, -, ⟨c, h1, -⟩, p, h2, -⟩ := hst
    have := tryWriteHeader_cases (mem := mem) (inp := inp) hs h1 (by rw [h2]; rfl) (by omega)
    rcases this with ⟨-, h4⟩ | ⟨-, h4⟩ <;> rw [h4]
  · obtain ⟨hd, m, p, k, hb, fr, hlog, ho, -, -⟩ := hl
    obtain ⟨-, -, hq0, p', hp1, hp2, -⟩ := hst
    obtain ⟨row, hlens⟩ := encLens hlog.hdr
    have hpp := hlog.props
    refine tryEncryptBody_works env v.s hlens.props hpp hs hq0 mem inp inNull (fun type n hn => ?_) (fun iv aad pt hiv => ?_) (hW.digest env he)
    · obtain ⟨h1, h2, -⟩ := next_ok hI hlog ho hg.room hn
      exact ⟨h1, h2⟩
    · rw [hlog.key]
      exact hW.aead env he _ _ _ _ (by rw [hlens.key]; exact key_aes hlens.suite) hiv
  · obtain ⟨hd, m, p, k, hb, fr, hlog, ho, -, hsg, -, -⟩ := hl
    obtain ⟨-, -, p', hp1, hp2, hp3⟩ := hst
    obtain ⟨row, hlens⟩ := encLens hlog.hdr
    have hpp := hlog.props
    rw [hpp] at hp1
    cases hp1
    refine writeTrailer_works env v.s hpp hs (fun h0 => ?_) mem inp
    have hsome := hp3.mp h0
    obtain ⟨e', req, ctx', he', hgen⟩ := hlens.gen
    unfold absorbed at hsg
    cases hm : m.signctx with
    | none => rw [hsg, hm] at hsome; cases hsome
    | some c =>
      rw [hm] at hsg
      obtain ⟨sig, h3, h4⟩ := hW.sign env e' he he' req ctx' m row c (hb ++ bodyBytes fr) hgen hlens.suite hlens.alg hm
      exact ⟨_, sig, hsg, h3, by rw [h4, row_sig hlens.suite hlens.props]; exact Nat.le_refl _⟩

theorem going_step {E : Env → Prop} {pol : Policy} {v : View} {inp : Bytes} (h : HInv E pol v) (hg : Going E v inp) {env : Env}
    (mem : Bytes) (inNull : Bool) (hok : (sessionStep env v.s ⟨mem, 0⟩ inp inNull).res = .ok) {c R : Bytes}
    (hc : inp = c ++ (sessionStep env v.s ⟨mem, 0⟩ inp inNull).inp) :
    Going E ⟨(sessionStep env v.s ⟨mem, 0⟩ inp inNull).s, v.consumed ++ c, R⟩ (sessionStep env v.s ⟨mem, 0⟩ inp inNull).inp := by
  have hk := sessionStep_keeps env v.s h.inv mem inp inNull
  have hne := sessionStep_not_error env v.s h.inv hg.alive mem inp inNull
  have hcm := sessionStep_hasCmm env v.s h.inv mem inp inNull
  have hcase := sessionStep_cases env v.s h.inv mem inp inNull
  have hst := h.inv.st
  unfold StInv at hst
  have hdec : ¬ v.s.mode.isDecrypt = true := fun hd => by rw [hg.mode] at hd; cases hd
  refine ⟨hk.mode.trans hg.mode, hne, by rw [hk.policy]; exact hg.policy, hcm.trans hg.cmm, ?_, ?_⟩
  · simp only
    intro hs' e he
    generalize sessionStep env v.s ⟨mem, 0⟩ inp inNull = r at *
    cases hcase with
    | cfgFail hs hr => subst hr; cases hok
    | cfgEnc hs _ _ _ hr => subst hr; exact hg.answers (Or.inl hs) e he
    | cfgDec hs hm => exact absurd hm hdec
    | done hs hr => subst hr; rw [hs] at hs'; rcases hs' with h | h <;> cases h
    | error hs hr => exact absurd hs hg.alive
    | parse hs => simp only [hs] at hst; exact absurd hst.1 hdec
    | dec hs => simp only [hs] at hst; exact absurd hst.1 hdec
    | check hs => simp only [hs] at hst; exact absurd hst.1 hdec
    | gen hs hc =>
      cases hc with
      | fail e hr => rw [hr] at hok; cases hok
      | ok ctx m p mid k c ct tag sg hr hk => rw [hk.result] at hs'; rcases hs' with h | h <;> cases h
    | header hs hc =>
      cases hc with
      | wrote c hcp hroom hr => subst hr; rcases hs' with h | h <;> cases h
      | stall c hcp hroom hr => subst hr; simp only [hs] at hs'; rcases hs' with h | h <;> cases h
    | body p hs hsp hp hc =>
      cases hc with
      | fail e o i ns hr => rw [hr] at hok; cases hok
      | stall o i hr hinp hs2 => rw [hs2] at hs'; simp only [hs] at hs'; rcases hs' with h | h <;> cases h
      | wrote type pt ct tag sg hr hk hinp hnull hs2 =>
        rw [hs2] at hs'
        unfold encFrameState at hs'
        simp only at hs'
        split at hs' <;> rcases hs' with h | h <;> cases h
    | trailer p hs hsp hp hc =>
      cases hc with
      | fail e hr => rw [hr] at hok; cases hok
      | stall hr hinp hs2 => rw [hs2] at hs'; simp only [hs] at hs'; rcases hs' with h | h <;> cases h
      | unsigned hr hinp hs2 => rw [hs2] at hs'; rcases hs' with h | h <;> cases h
      | signed ctx sig hr hinp hsig hctx hsign hs2 => rw [hs2] at hs'; rcases hs' with h | h <;> cases h
  · have hroom := hg.room
    unfold RoomFor at hroom ⊢
    simp only
    rw [hk.preciseKnown, hk.preciseSize, hk.frameSize hg.mode]
    by_cases hkn : v.s.preciseKnown = true
    · rw [if_pos hkn] at hroom ⊢
      refine ⟨?_, hroom.2⟩
      have hlen := congrArg List.length hc
      rw [List.length_append] at hlen
      rw [List.length_append]
      have same : (sessionStep env v.s ⟨mem, 0⟩ inp inNull).inp = inp → v.consumed.length + c.length ≤ v.s.preciseSize := by
        intro hi
        rw [hi] at hlen
        omega
      have hl := h.live hg.alive
      unfold LiveLog at hl
      generalize sessionStep env v.s ⟨mem, 0⟩ inp inNull = r at *
      cases hcase with
      | cfgFail hs hr => subst hr; cases hok
      | cfgEnc hs _ _ _ hr => subst hr; exact same rfl
      | cfgDec hs hm => exact absurd hm hdec
      | done hs hr => subst hr; exact same rfl
      | error hs hr => exact absurd hs hg.alive
      | parse hs => simp only [hs] at hst; exact absurd hst.1 hdec
      | dec hs => simp only [hs] at hst; exact absurd hst.1 hdec
      | check hs => simp only [hs] at hst; exact absurd hst.1 hdec
      | gen hs hc =>
        cases hc with
        | fail e hr => rw [hr] at hok; cases hok
        | ok ctx m p mid k c ct tag sg hr hk hbuf hinp => exact same hinp
      | header hs hc =>
        cases hc with
        | wrote c hcp hroom hr => subst hr; exact same rfl
        | stall c hcp hroom hr => subst hr; exact same rfl
      | body p hs hsp hp hc' =>
        cases hc' with
        | fail e o i ns hr => rw [hr] at hok; cases hok
        | stall o i hr hinp hs2 => exact same hinp
        | wrote type pt ct tag sg hr hk hinp hnull hs2 =>
          simp only [hs] at hl
          obtain ⟨hd, m, p', k, hb, fr, hlog, ho, -, -⟩ := hl
          have := (next_ok h.inv hlog ho hg.room hk.next).2.2 hkn
          have h2 := congrArg List.length hinp
          rw [List.length_append] at h2
          omega
      | trailer p hs hsp hp hc =>
        cases hc with
        | fail e hr => rw [hr] at hok; cases hok
        | stall hr hinp hs2 => exact same hinp
        | unsigned hr hinp hs2 => exact same hinp
        | signed ctx sig hr hinp hsig hctx hsign hs2 => exact same hinp
    · rw [if_neg hkn] at hroom ⊢
      rcases hroom with h0 | h0
      · exact Or.inl h0
      · right
        have hlen := congrArg List.length hc
        rw [List.length_append] at hlen
        rw [List.length_append, show v.consumed.length + c.length + (sessionStep env v.s ⟨mem, 0⟩ inp inNull).inp.length = v.consumed.length + inp.length by omega]
        exact h0

theorem going_steps {E : Env → Prop} {pol : Policy} {env : Env} {inNull : Bool} {s s' : Session} {inp inp' o : Bytes}
    (h : Steps env inNull s inp o s' inp') (he : E env) {C R : Bytes} (hH : HInv E pol ⟨s, C, R⟩) (hg : Going E ⟨s, C, R⟩ inp) :
    ∃ c, inp = c ++ inp' ∧ HInv E pol ⟨s', C ++ c, R ++ o⟩ ∧ Going E ⟨s', C ++ c, R ++ o⟩ inp' := by
  induction h generalizing C R with
  | refl => exact ⟨[], rfl, by simpa using hH, by simpa using hg⟩
  | @step s inp mem r out s' inp' hr hok h ih =>
    subst hr
    obtain ⟨c, hc, h1⟩ := hH.step he mem inp inNull hok
    obtain ⟨d, hd, h2, h3⟩ := ih h1 (going_step (v := ⟨s, C, R⟩) hH hg mem inNull hok hc)
    exact ⟨c ++ d, by rw [hc, hd, List.append_assoc], by rw [← List.append_assoc, ← List.append_assoc]; exact h2,
      by rw [← List.append_assoc, ← List.append_assoc]; exact h3⟩

/-- A session that can go on does not fail, and can go on afterwards. -/
theorem going_process {E : Env → Prop} (hW : Works E) {pol : Policy} {v : View} {inp : Bytes} (h : HInv E pol v) (hg : Going E v inp) {env : Env}
    (he : E env) (mem : Bytes) (inNull : Bool) :
    let o := process env v.s mem inp inNull
    o.res = .ok ∧ ∃ rest, inp = inp.take o.read ++ rest ∧ o.read ≤ inp.length ∧ o.written ≤ mem.length ∧ o.mem.length = mem.length ∧
      Stalled env inNull o.s rest (mem.length - o.written) ∧
      HInv E pol ⟨o.s, v.consumed ++ inp.take o.read, v.released ++ o.mem.take o.written⟩ ∧
      Going E ⟨o.s, v.consumed ++ inp.take o.read, v.released ++ o.mem.take o.written⟩ rest := by
  simp only
  have hc := process_cases env v.s h.inv mem inp inNull
  generalize process env v.s mem inp inNull = o at hc ⊢
  cases hc with
  | ok rest hr hml hw hread hrl hI hne hsteps hstall =>
    obtain ⟨c, hc, h1, h2⟩ := going_steps hsteps he (C := v.consumed) (R := v.released) h hg
    have : inp.take o.read = c := List.append_cancel_right (hread.symm.trans hc)
    rw [this]
    exact ⟨hr, rest, hc, hrl, hw, hml, hstall, h1, h2⟩
  | err e out inp1 mem1 s1 hr hmem hw hrl hI hst hsteps hI1 hfail hs =>
    obtain ⟨c, hc, h1, h2⟩ := going_steps hsteps he (C := v.consumed) (R := v.released) h hg
    have := going_step_ok hW h1 h2 he mem1 inNull
    rw [hfail] at this
    cases this

/-- A session that stops has begun its message. -/
theorem stalled_begun {env : Env} {inNull : Bool} {s : Session} {rest : Bytes} {room : Nat} (hst : Stalled env inNull s rest room) :
    s.state ≠ .config := by
  obtain ⟨s1, mem, hI, hroom, hok, hs, hb, hinp, hstate⟩ := hst
  have hc := sessionStep_cases env s1 hI mem rest inNull
  generalize sessionStep env s1 ⟨mem, 0⟩ rest inNull = r at hc hok hs hb hinp
  rw [hstate]
  cases hc with
  | cfgFail h hr => rw [hr] at hok; cases hok
  | cfgEnc h _ _ _ hr => subst hr; rw [← hs, h] at hstate; cases hstate
  | cfgDec h _ _ _ hr => subst hr; rw [← hs, h] at hstate; cases hstate
  | done h | error h | parse h | dec h | check h | gen h | header h | body _ h | trailer _ h => rw [h]; simp

/-- A session that has all the input and stops before the end was short of output space. -/
theorem stalled_short {E : Env → Prop} {pol : Policy} {w : View} {rest : Bytes} (h : HInv E pol w) (hgm : w.s.mode = .encrypt)
    (hga : w.s.state ≠ .error) (hgr : RoomFor w rest) {env : Env} {room : Nat}
    (hst : Stalled env false w.s rest room) (hk : w.s.preciseKnown = true) (hall : w.consumed.length + rest.length = w.s.preciseSize) :
    w.s.state = .done ∨ ∃ row ∈ suiteTable, getAlgId w.s = .ok row.id ∧
      w.released.length + room < messageLen row w.s.header.encCtx w.s.header.edks w.s.frameSize w.s.preciseSize := by
  obtain ⟨s1, mem, hI, hroom, hok, hs, hb, hinp, hstate⟩ := hst
  have hc := sessionStep_cases env s1 hI mem rest false
  generalize sessionStep env s1 ⟨mem, 0⟩ rest false = r at hc hok hs hb hinp
  obtain ⟨s, C, R⟩ := w
  simp only at *
  have hl := h.live hga
  have hstI := h.inv.st
  unfold LiveLog at hl
  unfold StInv at hstI
  have hdec : ¬ s.mode.isDecrypt = true := fun hd => by rw [hgm] at hd; cases hd
  simp only at hl hstI
  have algId : ∀ {p : AlgProps} {row : SuiteRow}, s.algProps = some p → algProps row.id = some p → getAlgId s = .ok row.id := by
    intro p row h1 h2
    unfold getAlgId
    rw [h1]
    simp only
    rw [(suiteFacts h2).id]
  cases hc with
  | cfgFail h hr => rw [hr] at hok; cases hok
  | cfgEnc h _ _ _ hr => subst hr; rw [← hs, h] at hstate; cases hstate
  | cfgDec h _ _ _ hr => subst hr; rw [← hs, h] at hstate; cases hstate
  | done h hr => exact Or.inl (by rw [hstate]; exact h)
  | error h hr => rw [hr] at hok; cases hok
  | parse hq => rw [hstate] at hstI; simp only [hq] at hstI; exact absurd hstI.1 hdec
  | dec hq => rw [hstate] at hstI; simp only [hq] at hstI; exact absurd hstI.1 hdec
  | check hq => rw [hstate] at hstI; simp only [hq] at hstI; exact absurd hstI.1 hdec
  | gen hq hc =>
    cases hc with
    | fail e hr => rw [hr] at hok; cases hok
    | ok ctx m p mid k c ct tag sg hr hk => rw [← hs, hk.result, hq] at hstate; cases hstate
  | header hq hc =>
    rw [hstate] at hl
    simp only [hq] at hl
    cases hc with
    | wrote c hcp hrm hr => subst hr; rw [← hs, hq] at hstate; cases hstate
    | stall c hcp hrm hr =>
      obtain ⟨hd, m, p, k, hb, hlog, h1, h2, -⟩ := hl
      obtain ⟨row, hlens⟩ := encLens hlog.hdr
      refine Or.inr ⟨row, hlens.suite, algId hlog.props hlens.props, ?_⟩
      have h3 : s.headerCopy = some c := by subst hr; rw [← hs]; exact hcp
      rw [h3] at h2
      cases h2
      have h4 := hlens.header
      have h5 : s.header = hd := hlog.header
      rw [← h5] at h4
      rw [h1]
      unfold messageLen
      simp only [List.length_nil]
      omega
  | body p hq hsp hp hc =>
    rw [hstate] at hl
    simp only [hq] at hl
    obtain ⟨hd, m, p', k, hb', fr, hlog, ho, hrel, -⟩ := hl
    obtain ⟨row, hlens⟩ := encLens hlog.hdr
    refine Or.inr ⟨row, hlens.suite, algId hlog.props hlens.props, ?_⟩
    have h4 := hlens.header
    have h5 : s.header = hd := hlog.header
    rw [← h5] at h4
    cases hc with
    | fail e o i ns hr => rw [hr] at hok; cases hok
    | wrote type pt ct tag sg hr hk' hinp' hnull hs' hrm hbuf =>
      rw [hbuf] at hb
      have hpos : 0 < frameSize type pt.length := by cases type <;> simp [frameSize]
      simp only at hb
      omega
    | stall o i hr hinp' hs' hml hbl why =>
      have hnf : nextFrame s = nextFrame s1 := by rw [← hs, hs']; rfl
      rcases why with ⟨w1, -, -⟩ | ⟨type, n, w1, w2, w3, w4, w5, w6⟩
      · rw [← hnf] at w1
        unfold nextFrame at w1
        split at w1
        · split at w1 <;> cases w1
        · split at w1
          · rename_i h0 h1; rw [hk] at h1; cases h1
          · cases w1
      · rw [← hnf] at w1
        obtain ⟨-, -, h6⟩ := next_ok h.inv hlog ho hgr w1
        obtain ⟨h7, h8, -⟩ := h6 hk
        simp only at h7 h8
        rcases w6 with w6 | w6 | w6
        · rw [hrel, List.length_append]
          unfold messageLen
          omega
        · cases w6
        · omega
  | trailer p hq hsp hp hc =>
    rw [hstate] at hl
    simp only [hq] at hl
    obtain ⟨hd, m, p', k, hb', fr, hlog, ho, hrel, -, -, hlen⟩ := hl
    obtain ⟨row, hlens⟩ := encLens hlog.hdr
    refine Or.inr ⟨row, hlens.suite, algId hlog.props hlens.props, ?_⟩
    have h4 := hlens.header
    have h5 : s.header = hd := hlog.header
    rw [← h5] at h4
    cases hc with
    | fail e hr => rw [hr] at hok; cases hok
    | unsigned hr hinp hs' => rw [← hs, hs', hq] at hstate; cases hstate
    | signed ctx sig hr hinp hsig hctx hsign hs' => rw [← hs, hs', hq] at hstate; cases hstate
    | stall hr hinp' hs' hbuf hsig why =>
      have hp' : p' = p := by
        have h6 : s.algProps = s1.algProps := by rw [← hs, hs']
        have h7 := hlog.props
        simp only at h7
        rw [h6, hsp] at h7
        cases h7; rfl
      subst hp'
      have f := rowFacts hlens.suite hlens.props
      have h8 := row_sig hlens.suite hlens.props
      have h9 := complete_lengths hlog.frames ho
      have h10 : C = bodyText fr := hlog.consumed
      simp only at h9
      rw [← h10, hlen] at h9
      rw [hrel, List.length_append, h9]
      unfold messageLen trailerLen
      rw [if_neg (fun hz => hsig (f.sig.mpr hz))]
      omega

/-! ### what is in the header -/

/-- After the header is made, steps of an encrypting session keep it. -/
theorem step_header {env : Env} {s : Session} (hI : Inv s) (hm : s.mode = .encrypt) (mem inp : Bytes) (inNull : Bool)
    (hok : (sessionStep env s ⟨mem, 0⟩ inp inNull).res = .ok) (hlate : ¬ Early s) :
    (sessionStep env s ⟨mem, 0⟩ inp inNull).s.header = s.header ∧ (sessionStep env s ⟨mem, 0⟩ inp inNull).s.algProps = s.algProps ∧
    ¬ Early (sessionStep env s ⟨mem, 0⟩ inp inNull).s := by
  have hc := sessionStep_cases env s hI mem inp inNull
  have hst := hI.st
  unfold StInv at hst
  have hdec : ¬ s.mode.isDecrypt = true := fun hd => by rw [hm] at hd; cases hd
  generalize sessionStep env s ⟨mem, 0⟩ inp inNull = r at hc hok ⊢
  have early : ∀ s' : Session, s'.state = .writeHeader ∨ s'.state = .encryptBody ∨ s'.state = .writeTrailer ∨ s'.state = .done → ¬ Early s' := by
    intro s' h1 h2
    unfold Early at h2
    rcases h1 with h | h | h | h <;> rw [h] at h2 <;> rcases h2 with h2 | h2 | h2 <;> cases h2
  cases hc with
  | cfgFail h hr => exact absurd (.inl h) hlate
  | cfgEnc h => exact absurd (.inl h) hlate
  | cfgDec h => exact absurd (.inl h) hlate
  | done h hr => subst hr; exact ⟨rfl, rfl, hlate⟩
  | error h hr => exact absurd (.inr (.inr h)) hlate
  | parse h => simp only [h] at hst; exact absurd hst.1 hdec
  | dec h => simp only [h] at hst; exact absurd hst.1 hdec
  | check h => simp only [h] at hst; exact absurd hst.1 hdec
  | gen h => exact absurd (.inr (.inl h)) hlate
  | header h hc =>
    cases hc with
    | wrote c hcp hroom hr => subst hr; exact ⟨rfl, rfl, early _ (.inr (.inl rfl))⟩
    | stall c hcp hroom hr => subst hr; exact ⟨rfl, rfl, early _ (.inl h)⟩
  | body p h hsp hp hc =>
    cases hc with
    | fail e o i ns hr => rw [hr] at hok; cases hok
    | stall o i hr hinp hs => rw [hs]; exact ⟨rfl, rfl, early _ (.inr (.inl h))⟩
    | wrote type pt ct tag sg hr hk hinp hnull hs =>
      rw [hs]
      refine ⟨rfl, rfl, early _ ?_⟩
      unfold encFrameState
      simp only
      split
      · exact .inr (.inl rfl)
      · exact .inr (.inr (.inl rfl))
  | trailer p h hsp hp hc =>
    cases hc with
    | fail e hr => rw [hr] at hok; cases hok
    | stall hr hinp hs => rw [hs]; exact ⟨rfl, rfl, early _ (.inr (.inr (.inl h)))⟩
    | unsigned hr hinp hs => rw [hs]; exact ⟨rfl, rfl, early _ (.inr (.inr (.inr rfl)))⟩
    | signed ctx sig hr hinp hsig hctx hsign hs => rw [hs]; exact ⟨rfl, rfl, early _ (.inr (.inr (.inr rfl)))⟩

theorem steps_header {env : Env} {inNull : Bool} {s s' : Session} {inp inp' o : Bytes} (h : Steps env inNull s inp o s' inp')
    (hI : Inv s) (hm : s.mode = .encrypt) (hlate : ¬ Early s) : s'.header = s.header ∧ s'.algProps = s.algProps := by
  induction h with
  | refl => exact ⟨rfl, rfl⟩
  | @step s inp mem r out s' inp' hr hok h ih =>
    subst hr
    obtain ⟨h1, h2, h3⟩ := step_header hI hm mem inp inNull hok hlate
    obtain ⟨h4, h5⟩ := ih ((sessionStep_ok env s hI mem inp inNull).inv hok) ((sessionStep_keeps env s hI mem inp inNull).mode.trans hm) h3
    exact ⟨h4.trans h1, h5.trans h2⟩

/-- The header holds what the CMM answered to the request of the session. -/
theorem steps_answer {env : Env} {inNull : Bool} {s s' : Session} {inp inp' o : Bytes} (h : Steps env inNull s inp o s' inp')
    (hI : Inv s) (hm : s.mode = .encrypt) (hearly : s.state = .config ∨ s.state = .genKey) (hlate : ¬ Early s') :
    ∃ ctx m p, env.cmm.generate (encRequest s) = (ctx, .ok m) ∧ s'.header.encCtx = ctx ∧ s'.header.edks = m.edks ∧ s'.algProps = some p ∧
      algProps m.alg = some p := by
  induction h with
  | refl => exact absurd (hearly.elim .inl (fun h => .inr (.inl h))) hlate
  | @step s inp mem r out s' inp' hr hok h ih =>
    subst hr
    have hI' := (sessionStep_ok env s hI mem inp inNull).inv hok
    have hk := sessionStep_keeps env s hI mem inp inNull
    have hc := sessionStep_cases env s hI mem inp inNull
    generalize sessionStep env s ⟨mem, 0⟩ inp inNull = r at hc hok hI' hk h ih
    rcases hearly with hst | hst
    · cases hc with
      | cfgFail _ hr => subst hr; cases hok
      | cfgEnc _ _ _ _ hr => subst hr; exact ih hI' hm (.inr rfl) hlate
      | cfgDec _ hd _ _ _ => rw [hm] at hd; cases hd
      | parse h => rw [hst] at h; cases h
      | dec h => rw [hst] at h; cases h
      | check h => rw [hst] at h; cases h
      | gen h => rw [hst] at h; cases h
      | header h => rw [hst] at h; cases h
      | body _ h => rw [hst] at h; cases h
      | trailer _ h => rw [hst] at h; cases h
      | done h => rw [hst] at h; cases h
      | error h => rw [hst] at h; cases h
    · cases hc with
      | gen _ hc =>
        cases hc with
        | fail e hr => rw [hr] at hok; cases hok
        | ok ctx m p mid k c ct tag sg hr hgk =>
          have hl : ¬ Early r.s := by
            rw [hgk.result]
            intro h
            rcases h with h | h | h <;> cases h
          obtain ⟨h1, h2⟩ := steps_header h hI' (hk.mode.trans hm) hl
          refine ⟨ctx, m, p, hgk.gen, ?_, ?_, ?_, hgk.props⟩
          · rw [h1, hgk.result]; rfl
          · rw [h1, hgk.result]; rfl
          · rw [h2, hgk.result]
      | cfgFail h => rw [hst] at h; cases h
      | cfgEnc h => rw [hst] at h; cases h
      | cfgDec h => rw [hst] at h; cases h
      | parse h => rw [hst] at h; cases h
      | dec h => rw [hst] at h; cases h
      | check h => rw [hst] at h; cases h
      | header h => rw [hst] at h; cases h
      | body _ h => rw [hst] at h; cases h
      | trailer _ h => rw [hst] at h; cases h
      | done h => rw [hst] at h; cases h
      | error h => rw [hst] at h; cases h

/-- An encrypting session before its first call, in whatever environment the calls so far were made. -/
theorem HInv.fresh {E E' : Env → Prop} {pol : Policy} {v : View} (h : HInv E pol v) (hst : v.s.state = .config) (hm : v.s.mode = .encrypt) :
    HInv E' pol v := by
  have hl := h.live (by rw [hst]; simp)
  unfold LiveLog at hl
  simp only [hst] at hl
  refine ⟨h.inv, h.polOk, Or.inl ?_, h.nonces, fun hd => by rw [hm] at hd; cases hd⟩
  unfold LiveLog
  simp only [hst]
  exact hl

end Verif
