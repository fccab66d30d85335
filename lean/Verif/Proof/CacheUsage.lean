import Verif.Proof.SessionDeclared
import Verif.Proof.SessionAsked
import Verif.Proof.SessionFinishes
import Verif.Spec.CacheUsage
/-
Sessions that share a cache.
-/
namespace Verif
open Spec

/-! ### sizes known from the beginning -/

/-- The session has taken in no more than the size it knows. -/
structure Sized (v : View) : Prop where
  mode : v.s.mode = .encrypt
  known : v.s.preciseKnown = true
  le : v.consumed.length ≤ v.s.preciseSize

theorem sized_step {E : Env → Prop} {pol : Policy} {s : Session} {C R : Bytes} {env : Env} (h : HInv E pol ⟨s, C, R⟩) (mem inp : Bytes)
    (inNull : Bool) (hs : Sized ⟨s, C, R⟩) (hok : (sessionStep env s ⟨mem, 0⟩ inp inNull).res = .ok) (c : Bytes)
    (hc : inp = c ++ (sessionStep env s ⟨mem, 0⟩ inp inNull).inp) (o : Bytes) :
    Sized ⟨(sessionStep env s ⟨mem, 0⟩ inp inNull).s, C ++ c, o⟩ := by
  have hk := sessionStep_keeps env s h.inv mem inp inNull
  have hcs := sessionStep_cases env s h.inv mem inp inNull
  generalize sessionStep env s ⟨mem, 0⟩ inp inNull = r at hok hc hk hcs
  obtain ⟨h1, h2, h3⟩ := hs
  simp only at h1 h2 h3
  refine ⟨hk.mode.trans h1, hk.preciseKnown.trans h2, ?_⟩
  simp only [hk.preciseSize, List.length_append]
  have none : r.inp = inp → C.length + c.length ≤ s.preciseSize := by
    intro e
    rw [e] at hc
    have := congrArg List.length hc
    rw [List.length_append] at this
    omega
  cases hcs with
  | cfgFail _ hr => exact none (by subst hr; rfl)
  | cfgEnc _ _ _ _ hr => exact none (by subst hr; rfl)
  | cfgDec _ hd _ _ _ => rw [h1] at hd; cases hd
  | parse hst _ => have := h.inv.st; unfold StInv at this; simp only [hst, h1] at this; exact absurd this.1 (by decide)
  | dec hst _ => have := h.inv.st; unfold StInv at this; simp only [hst, h1] at this; exact absurd this.1 (by decide)
  | check hst _ => have := h.inv.st; unfold StInv at this; simp only [hst, h1] at this; exact absurd this.1 (by decide)
  | gen _ hg =>
    cases hg with
    | fail _ _ _ _ hi => exact none hi
    | ok _ _ _ _ _ _ _ _ _ _ _ _ hi => exact none hi
  | header _ hh =>
    cases hh with
    | wrote _ _ _ hr => exact none (by subst hr; rfl)
    | stall _ _ _ hr => exact none (by subst hr; rfl)
  | trailer _ _ _ _ ht =>
    cases ht with
    | fail _ _ hi => exact none hi
    | stall _ hi => exact none hi
    | unsigned _ hi => exact none hi
    | signed _ _ _ hi => exact none hi
  | done _ hr => exact none (by subst hr; rfl)
  | error _ hr => exact none (by subst hr; rfl)
  | body p hst hsp hp hb =>
    cases hb with
    | fail _ _ _ _ _ hi => exact none hi
    | stall _ _ _ hi => exact none hi
    | wrote type pt ct tag sg hr hf hi hnull hs hroom hbuf =>
      have hpt : c = pt := List.append_cancel_right (hc.symm.trans hi)
      subst hpt
      have hl := h.live (by simp [hst])
      simp only [LiveLog, hst] at hl
      obtain ⟨hd, m, p', k, hb, fr, hlog, hon, -, -⟩ := hl
      obtain ⟨a, -, b⟩ := ongoing_lengths hlog.frames hon
      have hcons : C = bodyText fr := hlog.consumed
      have hsof : s.dataSoFar = u64 (bodyText fr).length := hlog.sofar
      have hps := h.inv.preciseSize
      simp only at hps
      have hu : s.dataSoFar = C.length := by
        rw [hsof, ← hcons]; simp only [u64]; omega
      rcases nextFrame_cases hf.next with ⟨-, hn, h0, hle⟩ | ⟨-, h0, -, hn, -⟩ | ⟨-, h0, -, hn⟩
      · have := hle h2
        rw [hu] at this
        simp only [u64sub] at this
        omega
      · rw [hu] at hn
        simp only [u64sub] at hn
        omega
      · have : fr = [] := Decidable.byContradiction fun hne => b hne h0
        rw [this] at hcons
        rw [hcons]
        simp [bodyText, hn]

theorem sized_steps {E : Env → Prop} {pol : Policy} {env : Env} {inNull : Bool} {s s' : Session} {inp inp' o : Bytes}
    (h : Steps env inNull s inp o s' inp') (he : E env) {C R : Bytes} (hH : HInv E pol ⟨s, C, R⟩) (hs : Sized ⟨s, C, R⟩) (c : Bytes)
    (hc : inp = c ++ inp') (o' : Bytes) : Sized ⟨s', C ++ c, o'⟩ := by
  induction h generalizing C R c with
  | refl s inp =>
    have : c = [] := by
      have := congrArg List.length hc
      rw [List.length_append] at this
      exact List.eq_nil_of_length_eq_zero (by omega)
    subst this
    exact ⟨hs.mode, hs.known, by simpa using hs.le⟩
  | @step s inp mem r out s' inp' hr hok h ih =>
    subst hr
    obtain ⟨d, hd, h1⟩ := hH.step he mem inp inNull hok
    have h2 := sized_step hH mem inp inNull hs hok d hd (R ++ (sessionStep env s ⟨mem, 0⟩ inp inNull).buf.mem.take (sessionStep env s ⟨mem, 0⟩ inp inNull).buf.len)
    obtain ⟨c', hc', -⟩ := h.hinv he h1
    have : c = d ++ c' := by
      apply List.append_cancel_right (bs := inp')
      rw [← hc, hd, List.append_assoc, ← hc']
    subst this
    rw [← List.append_assoc]
    exact ih h1 h2 c' hc'

/-- The view after a call of `process`. -/
theorem sized_process {E : Env → Prop} {pol : Policy} {v : View} {env : Env} (h : HInv E pol v) (he : E env) (hs : Sized v) (mem : Bytes)
    (inp : Option Bytes) : Sized (apply env v (.process mem inp)).1 := by
  have hk := (hinv_process h he mem (inp.getD []) inp.isNone).1
  have hc := process_cases env v.s h.inv mem (inp.getD []) inp.isNone
  simp only [apply]
  generalize process env v.s mem (inp.getD []) inp.isNone = o at hk hc
  cases hc with
  | ok rest hr hml hw hread hrl hI hne hsteps hstall =>
    rw [if_pos hr]
    exact sized_steps hsteps he (C := v.consumed) (R := v.released) h hs _ hread _
  | err e out inp1 mem1 s1 hr hmem hw hrl hI hst hsteps hI1 hfail hs' =>
    rw [if_neg (by rw [hr]; simp)]
    exact ⟨hk.mode.trans hs.mode, hk.preciseKnown.trans hs.known, by simp only [hk.preciseSize]; exact hs.le⟩

/-- What `process_full` leaves of a session that is encrypting. -/
theorem processFull_enc {E : Env → Prop} {pol : Policy} {v : View} {env : Env} (h : HInv E pol v) (he : E env) (hm : v.s.mode = .encrypt) (mem : Bytes)
    (inp : Option Bytes) (old : Nat) :
    ((apply env v (.processFull mem inp old)).1.s.state = .done ∧ Sized (apply env v (.processFull mem inp old)).1) ∨
    ((apply env v (.processFull mem inp old)).1.consumed = v.consumed ∧
      ((apply env v (.processFull mem inp old)).1.s.state = .error ∨ (apply env v (.processFull mem inp old)).1.s = v.s ∧ v.s.state ≠ .config)) := by
  have hf := hinv_processFull h he mem (inp.getD []) inp.isNone old
  have key : (processFull env v.s mem (inp.getD []) inp.isNone old).res ≠ .ok →
      (processFull env v.s mem (inp.getD []) inp.isNone old).s.state = .error ∨
      (processFull env v.s mem (inp.getD []) inp.isNone old).s = v.s ∧ v.s.state ≠ .config := by
    unfold processFull
    by_cases hst : v.s.state ≠ .config
    · rw [if_pos hst]; exact fun _ => .inr ⟨rfl, hst⟩
    · rw [if_neg hst]
      simp only [hm, if_true]
      rcases setMessageSize_cases env v.s h.inv (inp.getD []).length with ⟨e, s', h1, h2⟩ | ⟨_, hk0, _, o, i, h1⟩
      · rw [h1]
        simp only
        intro _
        rcases h2 with rfl | rfl
        · exfalso
          have : (setMessageSize env v.s (inp.getD []).length) ≠ (v.s, .err e) := by
            unfold setMessageSize
            rw [if_neg (by simp [hm])]
            split
            · intro h; have := (failSession_error v.s .badState).1; rw [h] at this; simp only at this; rw [this] at hst; simp at hst
            · split
              · intro h; have := (failSession_error v.s .limitExceeded).1; rw [h] at this; simp only at this; rw [this] at hst; simp at hst
              · unfold computeBodyEstimate
                simp only [ne_eq, Decidable.not_not] at hst
                simp [hst]
          exact this h1
        · exact .inl (failSession_error _ _).1
      · have hh := (hinv_setMessageSize env h (inp.getD []).length).1
        rw [h1] at hh ⊢
        simp only at hh ⊢
        have hres := (hinv_process hh he mem (inp.getD []) inp.isNone).2
        simp only at hres
        generalize process env _ mem (inp.getD []) inp.isNone = o at hres
        rcases hres with ⟨hr, _⟩ | ⟨hr, hst', _⟩
        · rw [hr]
          simp only
          split
          · intro h; exact absurd hr h
          · intro _; exact .inl rfl
        · rw [hr]; intro _; exact .inl hst'
  have hmode := (apply_keeps h he (.processFull mem inp old) rfl).mode
  simp only [apply] at hmode ⊢
  simp only at hf
  generalize processFull env v.s mem (inp.getD []) inp.isNone old = o at hf key hmode
  rcases hf with ⟨h1, h2, h3⟩ | ⟨⟨e, h1⟩, h3⟩
  · left
    rw [if_pos h1] at hmode ⊢
    refine ⟨h2, ?_⟩
    have hl := h3.live (by simp [h2])
    simp only [LiveLog, h2] at hl
    rcases hl with ⟨hd, m, p, k, hb, fr, tr, a1, -, -, -, a3, a2⟩ | ⟨hb, hd, row, p, m, k, fr, tr, a1, -⟩
    · exact ⟨a1.mode, a3, Nat.le_of_eq a2⟩
    · have hmd := a1.mode
      simp only at hmd hmode
      rw [hmode, hm] at hmd; cases hmd
  · right
    rw [if_neg (by rw [h1]; simp)]
    exact ⟨rfl, key (by rw [h1]; simp)⟩

theorem sized_apply {E : Env → Prop} {pol : Policy} {v : View} {env : Env} (h : HInv E pol v) (he : E env) (op : Op) (hn : op.notReset = true)
    (hs : Sized v) : Sized (apply env v op).1 := by
  have hk := apply_keeps h he op hn
  obtain ⟨h1, h2⟩ := hk.precise hs.known
  have same : (apply env v op).1.consumed = v.consumed → Sized (apply env v op).1 :=
    fun e => ⟨hk.mode.trans hs.mode, h1, by rw [e, h2]; exact hs.le⟩
  cases op with
  | reset m => cases hn
  | process mem inp => exact sized_process h he hs mem inp
  | processFull mem inp old =>
    rcases processFull_enc h he hs.mode mem inp old with ⟨-, h3⟩ | ⟨h3, -⟩
    · exact h3
    · exact same h3
  | _ => exact same rfl

/-! ### which calls ask -/

/-- Once the data key was asked for, no call of an encrypting session calls the CMM. -/
theorem quiet_later {E : Env → Prop} {pol : Policy} {v : View} (h : HInv E pol v) (hm : v.s.mode = .encrypt) (hst : v.s.state ≠ .config)
    (hg : v.s.state ≠ .genKey) (env : Env) (op : Op) : Quiet env v op := by
  intro cmm
  cases op with
  | process mem inp =>
    simp only [apply]
    rw [process_same_enc env cmm v.s h.inv hm hg (fun h0 => absurd h0 (by simp [hst, hg]))]
  | processFull mem inp old =>
    simp only [apply, processFull, if_pos hst]
  | _ => rfl

theorem process_not_config (env : Env) (s : Session) (hI : Inv s) (mem inp : Bytes) (inNull : Bool) :
    (process env s mem inp inNull).s.state ≠ .config := by
  have hc := process_cases env s hI mem inp inNull
  generalize process env s mem inp inNull = o at hc
  cases hc with
  | ok rest hr hml hw hread hrl hI hne hsteps hstall =>
    intro hst
    obtain ⟨s1, mem, hI1, -, hok, hs, -, -, heq⟩ := hstall
    rw [hst] at heq
    have hc := sessionStep_cases env s1 hI1 mem rest inNull
    generalize sessionStep env s1 ⟨mem, 0⟩ rest inNull = r at hok hs hc
    cases hc with
    | cfgFail _ hr => subst hr; cases hok
    | cfgEnc _ _ _ _ hr => subst hr; rw [← hs] at hst; cases hst
    | cfgDec _ _ _ _ hr => subst hr; rw [← hs] at hst; cases hst
    | parse h | dec h | check h | gen h | header h | body _ h | trailer _ h | done h | error h => rw [h] at heq; cases heq
  | err _ _ _ _ _ _ _ _ _ _ hst => rw [hst]; simp

/-- A call that asks leaves the configuration state. -/
theorem asks_not_config {E : Env → Prop} {pol : Policy} {v : View} {env : Env} (h : HInv E pol v) (he : E env) (hm : v.s.mode = .encrypt) (op : Op)
    (hq : ¬ Quiet env v op) : (apply env v op).1.s.state ≠ .config := by
  cases op with
  | process mem inp =>
    have := process_not_config env v.s h.inv mem (inp.getD []) inp.isNone
    simp only [apply]
    split <;> exact this
  | processFull mem inp old =>
    rcases processFull_enc h he hm mem inp old with ⟨h3, -⟩ | ⟨-, h3 | ⟨h3, h4⟩⟩
    · rw [h3]; simp
    · rw [h3]; simp
    · rw [h3]; exact h4
  | _ => exact absurd (fun _ => rfl) hq

theorem stays_out_of_config {E : Env → Prop} {pol : Policy} {v : View} {env : Env} (h : HInv E pol v) (he : E env) (hm : v.s.mode = .encrypt) (op : Op)
    (hn : op.notReset = true) (hst : v.s.state ≠ .config) : (apply env v op).1.s.state ≠ .config := by
  have hf : ∀ e, (failSession v.s e).1.state ≠ .config := fun e => by rw [(failSession_error v.s e).1]; simp
  cases op with
  | reset m => cases hn
  | setFrameSize n => simp only [apply, setFrameSize]; split <;> exact hst
  | setMessageSize n =>
    simp only [apply]
    rcases setMessageSize_cases env v.s h.inv n with ⟨e, s', h1, h2 | h2⟩ | ⟨hm, hk, hb, o, i, h1⟩
    · rw [h1, h2]; exact hst
    · rw [h1, h2]; exact hf e
    · rw [h1]; exact hst
  | setMessageBound n =>
    simp only [apply, setMessageBound]
    split
    · exact hst
    · split
      · exact hf _
      · split <;> exact hst
  | setPolicy p =>
    simp only [apply, setCommitmentPolicy]
    split
    · exact hst
    · rw [(failSession_error _ _).1]; simp
  | setMaxEdks n =>
    simp only [apply, setMaxEdks]
    rw [if_pos hst]
    exact hf _
  | editCtx f hf => simp only [apply, editEncCtx]; split <;> exact hst
  | process mem inp =>
    have := process_not_config env v.s h.inv mem (inp.getD []) inp.isNone
    simp only [apply]
    split <;> exact this
  | processFull mem inp old =>
    rcases processFull_enc h he hm mem inp old with ⟨h3, -⟩ | ⟨-, h3 | ⟨h3, h4⟩⟩
    · rw [h3]; simp
    · rw [h3]; simp
    · rw [h3]; exact h4

theorem Spec.Reach.mono {E E' : Env → Prop} (hE : ∀ e, E e → E' e) {pol : Policy} {v : View} (h : Reach E pol v) : Reach E' pol v := by
  induction h generalizing E' with
  | new h => exact .new h
  | call op h he ih => exact .call op (ih hE) (hE _ he)
  | restart env mode h ih => exact .restart env mode h

/-! ### messages -/

/-- The CMMs that serve a message answer as the event says. -/
def ServedBy (W : Crypto → Prop) (ev : Option CmmEvent) (e : Env) : Prop :=
  W e.crypto ∧ ∀ req ctx m, e.cmm.generate req = (ctx, .ok m) → ∃ cmm genv up, ev = some (.gen cmm genv req ⟨ctx, .ok m, up⟩)

/-- A CMM that has nothing. -/
def noCmm : Cmm := ⟨fun req => (req.encCtx, .error .unknown), fun _ => .error .unknown⟩

/-- A CMM that answers one request. -/
def oneCmm (req : EncRequest) (x : EncCtx × Except Err EncMaterials) : Cmm :=
  ⟨fun r => if r = req then x else (r.encCtx, .error .unknown), fun _ => .error .unknown⟩

theorem servedBy_noCmm {W : Crypto → Prop} (ev : Option CmmEvent) {env : Env} (hw : W env.crypto) : ServedBy W ev { env with cmm := noCmm } := by
  refine ⟨hw, ?_⟩
  intro req ctx m h; cases h

theorem servedBy_oneCmm {W : Crypto → Prop} {cmm : CachingCmm} {genv : GenEnv} {req : EncRequest} {out : GenOut} {env : Env} (hw : W env.crypto) :
    ServedBy W (some (.gen cmm genv req out)) { env with cmm := oneCmm req (out.ctx, out.res) } := by
  refine ⟨hw, ?_⟩
  intro r ctx m h
  simp only [oneCmm] at h
  split at h
  · next hr =>
    subst hr
    obtain ⟨ctx', res, up⟩ := out
    simp only [Prod.mk.injEq] at h
    exact ⟨cmm, genv, up, by rw [h.1, h.2]⟩
  · cases h

/-- What is known about a message. -/
structure MessageOk (W : Crypto → Prop) (x : Message) : Prop where
  mode : x.v.s.mode = .encrypt
  reach : ∃ pol, Reach (ServedBy W x.served) pol x.v
  asked : x.served ≠ none → x.v.s.state ≠ .config
  event : ∀ ev, x.served = some ev → ∃ cmm genv req out, ev = .gen cmm genv req out
  size : x.sizeFirst = true → (x.v.consumed = [] ∧ x.v.s.state = .error) ∨ (Sized x.v ∧
    ∃ cmm genv req out, x.served = some (.gen cmm genv req out) ∧ x.v.s.preciseSize ≤ req.plaintextSize)

theorem messageOk_fresh {W : Crypto → Prop} {v : View} {pol : Policy} (h : Reach (ServedBy W none) pol v) (hm : v.s.mode = .encrypt) : MessageOk W (.fresh v) :=
  ⟨hm, ⟨pol, h⟩, fun h => absurd rfl h, (fun ev h => by cases h), (fun h => by cases h)⟩

theorem consumed_error {env : Env} {v : View} (h : v.s.state = .error) (op : Op) (hn : op.notReset = true) : (apply env v op).1.consumed = v.consumed := by
  cases op with
  | reset m => cases hn
  | process mem inp => simp [apply, process_error h]
  | processFull mem inp old => simp [apply, processFull, h]
  | _ => rfl

theorem MessageOk.quiet {W : Crypto → Prop} {x : Message} (hx : MessageOk W x) {env : Env} (hw : W env.crypto) {op : Op} (hn : op.notReset = true) (hq : Quiet env x.v op) :
    MessageOk W { x with v := (apply env x.v op).1 } := by
  obtain ⟨pol, hr⟩ := hx.reach
  have hq' := hq noCmm
  have hE := servedBy_noCmm x.served hw
  have hr' := Reach.call op hr hE
  have hk := apply_keeps hr.hinv hE op hn
  rw [hq'] at hr' hk
  refine ⟨hk.mode.trans hx.mode, ⟨_, hr'⟩, fun h => ?_, hx.event, fun h => ?_⟩
  · have := stays_out_of_config hr.hinv hE hx.mode op hn (hx.asked h)
    rw [hq'] at this
    exact this
  · rcases hx.size h with ⟨h1, h2⟩ | ⟨h1, cmm, genv, req, out, h2, h3⟩
    · exact .inl ⟨(consumed_error h2 op hn).trans h1, (hk.error h2).1⟩
    · right
      have := sized_apply hr.hinv hE op hn h1
      rw [hq'] at this
      refine ⟨this, cmm, genv, req, out, h2, ?_⟩
      simp only [(hk.precise h1.known).2]
      exact h3

theorem consumed_to_error {E : Env → Prop} {pol : Policy} {v : View} {env : Env} (h : HInv E pol v) (he : E env) (hm : v.s.mode = .encrypt) (op : Op)
    (hq : ¬ Quiet env v op) (herr : (apply env v op).1.s.state = .error) : (apply env v op).1.consumed = v.consumed := by
  cases op with
  | process mem inp =>
    have hp := (hinv_process h he mem (inp.getD []) inp.isNone).2
    simp only [apply] at hp herr ⊢
    generalize process env v.s mem (inp.getD []) inp.isNone = o at hp herr
    rcases hp with ⟨h1, h2, -⟩ | ⟨h1, -⟩
    · rw [if_pos h1] at herr; exact absurd herr h2
    · rw [if_neg (by rw [h1]; simp)]
  | processFull mem inp old =>
    rcases processFull_enc h he hm mem inp old with ⟨h3, -⟩ | ⟨h3, -⟩
    · rw [h3] at herr; cases herr
    · exact h3
  | _ => exact absurd (fun _ => rfl) hq

theorem MessageOk.asks {W : Crypto → Prop} {x : Message} (hx : MessageOk W x) {env : Env} (hw : W env.crypto) {op : Op} (hn : op.notReset = true) {req : EncRequest}
    (hq : AsksFor req env x.v op) (cmm : CachingCmm) (genv : GenEnv) {out : GenOut} (ho : env.cmm.generate req = (out.ctx, out.res)) :
    x.served = none ∧
    MessageOk W ⟨(apply env x.v op).1, some (.gen cmm genv req out), x.v.s.preciseKnown || op.bringsSize, false⟩ := by
  obtain ⟨pol, hr⟩ := hx.reach
  have hcfg : x.v.s.state = .config := Decidable.byContradiction fun h => hq.1 (quiet_later hr.hinv hx.mode h hr.not_genKey env op)
  have hnone : x.served = none := Decidable.byContradiction fun h => hx.asked h hcfg
  have hr1 : Reach (ServedBy W (some (.gen cmm genv req out))) pol x.v := by
    refine hr.mono ?_
    intro e he
    refine ⟨he.1, fun r ctx m hg => ?_⟩
    obtain ⟨_, _, _, h⟩ := he.2 r ctx m hg
    rw [hnone] at h; cases h
  have hE := servedBy_oneCmm (cmm := cmm) (genv := genv) (req := req) (out := out) hw
  have heq : apply { env with cmm := oneCmm req (out.ctx, out.res) } x.v op = apply env x.v op := hq.2 _ (by rw [ho]; simp [oneCmm])
  have hq' : ¬ Quiet { env with cmm := oneCmm req (out.ctx, out.res) } x.v op := by
    intro h
    apply hq.1
    intro c
    have := h c
    rw [heq] at this
    exact this
  have hr' := Reach.call op hr1 hE
  have hk := apply_keeps hr1.hinv hE op hn
  have hnc := asks_not_config hr1.hinv hE hx.mode op hq'
  have hng := hr'.not_genKey
  have hc0 : x.v.consumed = [] := by
    have := hr.hinv.live (by simp [hcfg])
    simp only [LiveLog, hcfg] at this
    exact this.1
  have herr := consumed_to_error hr1.hinv hE hx.mode op hq'
  have hdec := apply_declared hr1.hinv hE op hn hx.mode (.inl hcfg)
  have hsz : x.v.s.preciseKnown = true → Sized (apply { env with cmm := oneCmm req (out.ctx, out.res) } x.v op).1 :=
    fun h => sized_apply hr1.hinv hE op hn ⟨hx.mode, h, by rw [hc0]; exact Nat.zero_le _⟩
  have hfull : op.bringsSize = true → (apply { env with cmm := oneCmm req (out.ctx, out.res) } x.v op).1.s.state ≠ .error →
      Sized (apply { env with cmm := oneCmm req (out.ctx, out.res) } x.v op).1 := by
    intro h hne
    cases op with
    | processFull mem inp old =>
      rcases processFull_enc hr1.hinv hE hx.mode mem inp old with ⟨-, h3⟩ | ⟨-, h3 | ⟨-, h4⟩⟩
      · exact h3
      · exact absurd h3 hne
      · exact absurd hcfg h4
    | _ => cases h
  rw [heq] at hr' hk hnc hng herr hdec hsz hfull
  refine ⟨hnone, hk.mode.trans hx.mode, ⟨_, hr'⟩, fun _ => hnc, fun ev h => ?_, fun h => ?_⟩
  · cases h; exact ⟨cmm, genv, req, out, rfl⟩
  · by_cases hst : (apply env x.v op).1.s.state = .error
    · exact .inl ⟨(herr hst).trans hc0, hst⟩
    · right
      have hs : Sized (apply env x.v op).1 := by
        simp only [Bool.or_eq_true] at h
        rcases h with h | h
        · exact hsz h
        · exact hfull h hst
      obtain ⟨r, ctx, m, h1, h2, -⟩ := hdec (by unfold Early; simp [hnc, hng, hst])
      obtain ⟨_, _, up, h3⟩ := hE.2 r ctx m h1
      cases h3
      refine ⟨hs, cmm, genv, _, _, rfl, ?_⟩
      simpa [declared, hs.known] using h2

/-! ### histories -/

theorem shared_history {W : Crypto → Prop} {sha : Bytes → Bytes} {addr : Nat → Nat} {cap : Nat} {log : List CmmEvent} {c : Cache} {ms : List Message}
    (h : Shared W sha addr cap log c ms) : CmmHistory sha addr cap log c := by
  induction h with
  | new => exact .new
  | other _ h ih => exact h ih
  | start _ _ ih => exact ih
  | reset _ _ _ ih => exact ih
  | quiet _ _ _ _ _ _ _ ih => exact ih
  | asks _ _ _ _ _ _ _ hv hr _ ih => exact .gen ih hv hr

theorem shared_messages {W : Crypto → Prop} {sha : Bytes → Bytes} {addr : Nat → Nat} {cap : Nat} {log : List CmmEvent} {c : Cache} {ms : List Message}
    (h : Shared W sha addr cap log c ms) : ∀ x ∈ ms, MessageOk W x := by
  induction h with
  | new => intro x hx; cases hx
  | other _ h ih => exact ih
  | start _ hs ih =>
    intro x hx
    rcases List.mem_cons.mp hx with rfl | hx
    · exact messageOk_fresh (.new hs) (by cases hs; rfl)
    · exact ih x hx
  | @reset _ _ pre x0 post env h ho ih =>
    have h0 := ih x0 (by simp)
    intro x hx
    rcases List.mem_cons.mp hx with rfl | hx
    · obtain ⟨pol, hr⟩ := h0.reach
      exact messageOk_fresh (.restart env .encrypt hr) rfl
    · rcases List.mem_append.mp hx with hx | hx
      · exact ih x (by simp [hx])
      · rcases List.mem_cons.mp hx with rfl | hx
        · exact ⟨h0.mode, h0.reach, h0.asked, h0.event, h0.size⟩
        · exact ih x (by simp [hx])
  | @quiet _ _ pre x0 post env op h ho hw hn hq ih =>
    have h0 := ih x0 (by simp)
    intro x hx
    rcases List.mem_append.mp hx with hx | hx
    · exact ih x (by simp [hx])
    · rcases List.mem_cons.mp hx with rfl | hx
      · exact h0.quiet hw hn hq
      · exact ih x (by simp [hx])
  | @asks _ _ pre x0 post cmm genv req _ out env op h ho hw hn hq hv hr hg ih =>
    have h0 := ih x0 (by simp)
    intro x hx
    rcases List.mem_append.mp hx with hx | hx
    · exact ih x (by simp [hx])
    · rcases List.mem_cons.mp hx with rfl | hx
      · exact (h0.asks hw hn hq cmm genv hg).2
      · exact ih x (by simp [hx])

/-- The calls of the CMM for messages under `k`, in the order of the messages. -/
def callsUnder (k : Bytes) (ms : List Message) : List CmmEvent := (ms.filter (fun x => x.key = some k)).filterMap (·.served)

theorem callsUnder_append (k : Bytes) (a b : List Message) : callsUnder k (a ++ b) = callsUnder k a ++ callsUnder k b := by
  simp [callsUnder]

theorem callsUnder_cons (k : Bytes) (x : Message) (ms : List Message) : callsUnder k (x :: ms) = callsUnder k [x] ++ callsUnder k ms := by
  rw [← callsUnder_append]; rfl

theorem callsUnder_congr (k : Bytes) {x y : Message} (h : x.served = y.served) : callsUnder k [x] = callsUnder k [y] := by
  have hk : x.key = y.key := by unfold Message.key; rw [h]
  by_cases hy : y.key = some k
  · have hx := hk.trans hy
    simp [callsUnder, hx, hy, List.filterMap_cons, h]
  · have hx : ¬ x.key = some k := by rw [hk]; exact hy
    simp [callsUnder, hx, hy]

theorem callsUnder_none (k : Bytes) {x : Message} (h : x.served = none) : callsUnder k [x] = [] := by
  simp [callsUnder, Message.key, h]

/-- Every message under `k` has its own call of the CMM. -/
theorem shared_calls {W : Crypto → Prop} {sha : Bytes → Bytes} {addr : Nat → Nat} {cap : Nat} {log : List CmmEvent} {c : Cache} {ms : List Message}
    (h : Shared W sha addr cap log c ms) (k : Bytes) : ∃ rest, (callsUnder k ms ++ rest).Perm (servedWith k log) := by
  induction h with
  | new => exact ⟨[], .refl _⟩
  | @other _ _ _ ev _ _ _ ih =>
    obtain ⟨rest, ih⟩ := ih
    by_cases hk : servedKey ev = some k
    · refine ⟨ev :: rest, ?_⟩
      simp only [servedWith, List.filter_cons, hk, decide_true, if_true]
      exact List.perm_middle.trans (ih.cons ev)
    · refine ⟨rest, ?_⟩
      simp only [servedWith, List.filter_cons, hk, decide_false, Bool.false_eq_true, if_false]
      exact ih
  | start _ hs ih =>
    rw [callsUnder_cons, callsUnder_none k rfl]
    exact ih
  | @reset _ _ pre x0 post env h ho ih =>
    rw [callsUnder_cons, callsUnder_none k rfl, List.nil_append, callsUnder_append, callsUnder_cons,
      callsUnder_congr k (x := { x0 with over := true }) (y := x0) rfl, ← callsUnder_cons, ← callsUnder_append]
    exact ih
  | @quiet _ _ pre x0 post env op h ho hw hn hq ih =>
    rw [callsUnder_append, callsUnder_cons, callsUnder_congr k (x := { x0 with v := (apply env x0.v op).1 }) (y := x0) rfl, ← callsUnder_cons,
      ← callsUnder_append]
    exact ih
  | @asks _ _ pre x0 post cmm genv req _ out env op h ho hw hn hq hv hr hg ih =>
    have h0 := (shared_messages h x0 (by simp)).asks hw hn hq cmm genv hg
    rw [callsUnder_append, callsUnder_cons, callsUnder_none k h0.1, List.nil_append] at ih
    obtain ⟨rest, ih⟩ := ih
    refine ⟨rest, ?_⟩
    rw [callsUnder_append, callsUnder_cons]
    by_cases hk : servedKey (.gen cmm genv req out) = some k
    · have h1 : callsUnder k [⟨(apply env x0.v op).1, some (.gen cmm genv req out), x0.v.s.preciseKnown || op.bringsSize, false⟩] = [.gen cmm genv req out] := by
        simp [callsUnder, Message.key, hk]
      rw [h1]
      simp only [servedWith, List.filter_cons, hk, decide_true, if_true]
      refine List.Perm.trans ?_ (ih.cons _)
      simp only [List.append_assoc, List.cons_append]
      exact List.perm_middle
    · have h1 : callsUnder k [⟨(apply env x0.v op).1, some (.gen cmm genv req out), x0.v.s.preciseKnown || op.bringsSize, false⟩] = [] := by
        simp [callsUnder, Message.key, hk]
      rw [h1]
      simp only [servedWith, List.filter_cons, hk, decide_false, Bool.false_eq_true, if_false]
      simpa [servedWith] using ih

/-! ### counting -/

theorem key_served {x : Message} {k : Bytes} (h : x.key = some k) : ∃ ev, x.served = some ev ∧ servedKey ev = some k := by
  unfold Message.key at h
  cases hs : x.served with
  | none => rw [hs] at h; cases h
  | some ev => rw [hs] at h; exact ⟨ev, rfl, h⟩

theorem callsUnder_length (k : Bytes) (ms : List Message) : (callsUnder k ms).length = messagesUnder k ms := by
  unfold callsUnder messagesUnder
  induction ms with
  | nil => rfl
  | cons x ms ih =>
    by_cases hk : x.key = some k
    · obtain ⟨ev, h1, -⟩ := key_served hk
      simp [hk, h1, ih]
    · simp [hk, ih]

/-- No message counts for more bytes than were declared for it. -/
theorem MessageOk.bytes_le {W : Crypto → Prop} {x : Message} (hx : MessageOk W x) {ev : CmmEvent} (he : x.served = some ev) :
    x.bytes ≤ declaredSize ev := by
  unfold Message.bytes
  split
  · next h =>
    obtain ⟨pol, hr⟩ := hx.reach
    have hpos : x.sizeFirst = true → x.v.consumed.length ≤ declaredSize ev := by
      intro hsf
      rcases hx.size hsf with ⟨h1, -⟩ | ⟨h1, cmm, genv, req, out, h2, h3⟩
      · rw [h1]; exact Nat.zero_le _
      · rw [h2] at he; cases he
        exact Nat.le_trans h1.le h3
    rcases h with hd | hsf
    · have hst : x.v.s.state = .done := by simpa [isDone] using hd
      have hP : ∀ env, ServedBy W x.served env → ∀ req ctx m, env.cmm.generate req = (ctx, .ok m) → req.plaintextSize = declaredSize ev := by
        intro env hE req ctx m hg
        obtain ⟨_, _, _, h⟩ := hE.2 req ctx m hg
        rw [he] at h; cases h; rfl
      rcases declared_reach (P := (· = declaredSize ev)) hP hr hx.mode with he | ⟨n, hn, hle⟩
      · unfold Early at he; rw [hst] at he; simp at he
      · have hl := hr.hinv.live (by simp [hst])
        simp only [LiveLog, hst] at hl
        rcases hl with ⟨hd, m, p, k, hb, fr, tr, a1, -, -, -, a3, a2⟩ | ⟨hb, hd, row, p, m, k, fr, tr, a1, -⟩
        · rw [declared, if_pos a3] at hle
          rw [a2]; omega
        · have := a1.mode
          rw [hx.mode] at this; cases this
    · exact hpos hsf
  · exact Nat.zero_le _

theorem bytesUnder_le {W : Crypto → Prop} (k : Bytes) (ms : List Message) (h : ∀ x ∈ ms, MessageOk W x) :
    bytesUnder k ms ≤ ((callsUnder k ms).map declaredSize).sum := by
  unfold callsUnder bytesUnder
  induction ms with
  | nil => exact Nat.le_refl _
  | cons x ms ih =>
    have ih := ih (fun y hy => h y (by simp [hy]))
    by_cases hk : x.key = some k
    · obtain ⟨ev, h1, -⟩ := key_served hk
      have := (h x (by simp)).bytes_le h1
      simp only [List.filter_cons, hk, decide_true, if_true, List.map_cons, List.sum_cons, List.filterMap_cons, h1]
      omega
    · simpa [List.filter_cons, hk] using ih

theorem sum_perm {l l' : List Nat} (h : l.Perm l') : l.sum = l'.sum := by
  induction h with
  | nil => rfl
  | cons x _ ih => simp [ih]
  | swap x y l => simp only [List.sum_cons]; omega
  | trans _ _ ih1 ih2 => exact ih1.trans ih2

/-- The messages of a history count for no more than the calls. -/
theorem shared_counts {W : Crypto → Prop} {sha : Bytes → Bytes} {addr : Nat → Nat} {cap : Nat} {log : List CmmEvent} {c : Cache} {ms : List Message}
    (h : Shared W sha addr cap log c ms) (k : Bytes) : messagesUnder k ms ≤ messagesWith k log ∧ bytesUnder k ms ≤ bytesWith k log := by
  obtain ⟨rest, hp⟩ := shared_calls h k
  constructor
  · have := hp.length_eq
    rw [List.length_append, callsUnder_length] at this
    unfold messagesWith
    omega
  · refine Nat.le_trans (bytesUnder_le k ms (shared_messages h)) ?_
    unfold bytesWith
    rw [← sum_perm (hp.map declaredSize), List.map_append, List.sum_append]
    exact Nat.le_add_right _ _

theorem allFrames_imp {P Q : Nat → Frame → Bytes → Prop} (h : ∀ i f x, P i f x → Q i f x) {fr : List (Frame × Bytes)} (hp : AllFrames P fr) : AllFrames Q fr :=
  fun i hi => h _ _ _ (hp i hi)

/-- Whatever was written, was written under the data key of the message. -/
theorem MessageOk.written {W : Crypto → Prop} {x : Message} (hx : MessageOk W x) (hne : x.v.consumed ≠ [] ∨ x.v.released ≠ []) :
    ∃ k, x.key = some k ∧ WrittenUnder W k x.v := by
  obtain ⟨pol, hr⟩ := hx.reach
  rcases encrypted_of hr.hinv hx.mode with ⟨h1, h2⟩ | ⟨row, hd, m, ck, fr, tr, he, -⟩
  · rcases hne with h | h
    · exact absurd h1 h
    · exact absurd h2 h
  · obtain ⟨e, hE, hmade⟩ := he.header
    obtain ⟨req, ctx, hg, -⟩ := hmade.cmm
    obtain ⟨cmm, genv, up, hs⟩ := hE.2 req ctx m hg
    refine ⟨m.dataKey, by simp [Message.key, hs, servedKey], row, hd, m, ck, fr, tr, ⟨⟨e, hE.1, hmade⟩, ?_, he.consumed, he.released⟩, rfl⟩
    refine allFrames_imp (fun i f y hy => ?_) he.frames
    obtain ⟨b1, b2, b3, b4, b5, b6, e', he', b7⟩ := hy
    exact ⟨b1, b2, b3, b4, b5, b6, e', he'.1, b7⟩

end Verif
