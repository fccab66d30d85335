import Verif.Proof.SessionFacts
/-
What the size estimates say after a call that could not finish.
-/
namespace Verif
open Spec

/-- Why a step did nothing: it is done, or the estimates now exceed what it was given, or it is encryption in one of the two
situations in which it cannot tell. -/
inductive StallCase (s : Session) (room : Nat) (inp : Bytes) (inNull : Bool) : Prop where
  | done (h : s.state = .done)
  | input (h : inp.length < s.inEst)
  | room (h : room < s.outEst)
  | noSize (hst : s.state = .encryptBody) (h : s.frameSize = 0 ∧ s.preciseKnown = false) (he : s.inEst = 0 ∧ s.outEst = 0)
  | null (hst : s.state = .encryptBody) (h : inNull = true ∧ s.inEst = 0)

theorem readTrailer_short {inp : Bytes} {n : Nat} (h : readTrailer inp = .error n) : inp.length < 2 + n := by
  unfold readTrailer at h
  cases h1 : rd 2 inp with
  | none => rw [h1] at h; cases h; exact rd_none.mp h1
  | some x =>
    obtain ⟨l, r⟩ := x
    rw [h1] at h
    simp only at h
    cases h2 : rd (unbe l) r with
    | none =>
      rw [h2] at h
      cases h
      have := rd_none.mp h2
      unfold rd at h1
      split at h1
      · simp only [Option.some.injEq, Prod.mk.injEq] at h1
        rw [← h1.2, List.length_drop] at this
        omega
      · cases h1
    | some y => rw [h2] at h; cases h

theorem stall_case {env : Env} {inNull : Bool} {s : Session} {inp : Bytes} {room : Nat} (hlen : inp.length < 2 ^ 63)
    (hn : inNull = true → inp = []) (h : Stalled env inNull s inp room) : StallCase s room inp inNull := by
  obtain ⟨s1, mem, hI, hroom, hok, hs, hb, hinp, hst⟩ := h
  have hc := sessionStep_cases env s1 hI mem inp inNull
  generalize sessionStep env s1 ⟨mem, 0⟩ inp inNull = r at *
  subst hs
  cases hc with
  | cfgFail h hr => rw [hr] at hok; cases hok
  | cfgEnc h _ _ _ hr => rw [hr, h] at hst; cases hst
  | cfgDec h _ _ _ hr => rw [hr, h] at hst; cases hst
  | done h hr => exact .done (by rw [hst]; exact h)
  | error h hr => rw [hr] at hok; cases hok
  | parse h hc =>
    cases hc with
    | fail e hr => rw [hr] at hok; cases hok
    | stall est hr hbuf hinp' hs why hest =>
      refine .input ?_
      rw [hs]
      simp only
      have h1 : u64 (inp.length + 128) = inp.length + 128 := Nat.mod_eq_of_lt (by omega)
      rw [hest, h1, if_neg (by omega : ¬ inp.length + 128 < inp.length)]
      split <;> omega
    | opened hb hd row p m k sg hr hbuf hk => rw [hk.result, h] at hst; cases hst
  | dec h hc =>
    cases hc with
    | fail e i o q sg hr hs => rw [hr] at hok; cases hok
    | stall i o hr hs hbuf hinp' why =>
      rw [hs]
      rcases why with ⟨-, w⟩ | ⟨f, rest, -, -, -, w⟩
      · exact .input w
      · exact .room (by rw [← hroom]; exact w)
    | opened f pt sg i hr hparse hok' hinp' =>
      exfalso
      rw [hinp] at hinp'
      have := congrArg List.length hinp'
      rw [List.length_append, length_wireFrame hok'] at this
      have hpos : 0 < frameSize f.type f.ciphertext.length := by cases f.type <;> simp [frameSize]
      omega
  | check h hc =>
    cases hc with
    | fail e ctx sg hr => rw [hr] at hok; cases hok
    | stall n ctx hr hctx hs hbuf hinp' why =>
      rw [hs]
      exact .input (readTrailer_short why)
    | noSig hr hctx hs => rw [hs, h] at hst; cases hst
    | verified ctx sig hr hctx hver hs hbuf hinp' =>
      exfalso
      rw [hinp] at hinp'
      have := congrArg List.length hinp'
      simp only [List.length_append, length_be] at this
      omega
  | gen h hc =>
    cases hc with
    | fail e hr => rw [hr] at hok; cases hok
    | ok ctx m p mid k c ct tag sg hr hk => rw [hk.result, h] at hst; cases hst
  | header h hc =>
    cases hc with
    | wrote c hcp hroom hr => rw [hr, h] at hst; cases hst
    | stall c hcp hroom' hr =>
      have hsi := hI.st
      unfold StInv at hsi
      simp only [h] at hsi
      obtain ⟨-, -, -, -, ⟨c', h1, h2, -⟩, -⟩ := hsi
      rw [h1] at hcp
      cases hcp
      rw [hr]
      exact .room (by simp only; omega)
  | body p h hsp hp hc =>
    cases hc with
    | fail e o i ns hr => rw [hr] at hok; cases hok
    | stall o i hr hinp' hs hml hbl why =>
      rw [hs]
      rcases why with ⟨w1, w2, w3⟩ | ⟨type, n, w1, w2, w3, w4, w5, w6⟩
      · refine .noSize h ?_ ⟨w3, w2⟩
        unfold nextFrame at w1
        split at w1
        · split at w1 <;> cases w1
        · rename_i h0
          split at w1
          · rename_i h1
            exact ⟨by simpa using h0, by simpa using h1⟩
          · cases w1
      · rcases w6 with w6 | w6 | w6
        · exact .room (by simp only; omega)
        · by_cases h0 : n = 0
          · exact .null h ⟨w6, by simp only; omega⟩
          · refine .input ?_
            rw [hn w6]
            simp only [List.length_nil]
            omega
        · exact .input (by simp only; omega)
    | wrote type pt ct tag sg hr hk hinp' hnull hs hroom' hbuf =>
      exfalso
      rw [hbuf] at hb
      have hpos : 0 < frameSize type pt.length := by cases type <;> simp [frameSize]
      simp only at hb
      omega
  | trailer p h hsp hp hc =>
    cases hc with
    | fail e hr => rw [hr] at hok; cases hok
    | stall hr hinp' hs hbuf hsig why =>
      rw [hs]; exact .room (by simp only; omega)
    | unsigned hr hinp' hs => rw [hs, h] at hst; cases hst
    | signed ctx sig hr hinp' hsig hctx hsign hs => rw [hs, h] at hst; cases hst

/-! ### encryption: the estimates are exact -/

/-- The estimates of an encrypting session are what its next step needs. -/
def EstOK (s : Session) : Prop :=
  match s.state with
  | .writeHeader => s.outEst = s.headerSize
  | .encryptBody => ∀ t n, nextFrame s = some (t, n) → s.seqno < 2 ^ 32 → WriteOK t s.seqno n → s.outEst = frameSize t n ∧ s.inEst = n
  | .writeTrailer => ∀ p, s.algProps = some p → p.signatureLen ≠ 0 → s.outEst = 2 + p.signatureLen
  | _ => True

theorem est_of_stalled {env : Env} {inNull : Bool} {s : Session} {inp : Bytes} {room : Nat}
    (h : Stalled env inNull s inp room) : EstOK s := by
  obtain ⟨s1, mem, hI, hroom, hok, hs, hb, hinp, hst⟩ := h
  have hc := sessionStep_cases env s1 hI mem inp inNull
  generalize sessionStep env s1 ⟨mem, 0⟩ inp inNull = r at *
  subst hs
  unfold EstOK
  cases hc with
  | header h hc =>
    rw [hst, h]
    cases hc with
    | wrote c hcp hroom hr => rw [hr, h] at hst; cases hst
    | stall c hcp hroom' hr => rw [hr]
  | body p h hsp hp hc =>
    rw [hst, h]
    simp only
    cases hc with
    | fail e o i ns hr => rw [hr] at hok; cases hok
    | stall o i hr hinp' hs hml hbl why =>
      rw [hs]
      intro t n hn hq hw
      have hn' : nextFrame s1 = some (t, n) := hn
      simp only
      rcases why with ⟨w1, w2, w3⟩ | ⟨type, n', w1, w2, w3, w4, w5, w6⟩
      · rw [w1] at hn'; cases hn'
      · rw [w1] at hn'; cases hn'
        exact ⟨w4, w5⟩
    | wrote type pt ct tag sg hr hk hinp' hnull hs hroom' hbuf =>
      exfalso
      rw [hbuf] at hb
      have hpos : 0 < frameSize type pt.length := by cases type <;> simp [frameSize]
      simp only at hb
      omega
  | trailer p h hsp hp hc =>
    rw [hst, h]
    simp only
    cases hc with
    | fail e hr => rw [hr] at hok; cases hok
    | stall hr hinp' hs hbuf hsig why =>
      rw [hs]
      intro p' hp' _
      simp only at hp' ⊢
      rw [hsp] at hp'
      cases hp'; rfl
    | unsigned hr hinp' hs => rw [hs, h] at hst; cases hst
    | signed ctx sig hr hinp' hsig hctx hsign hs => rw [hs, h] at hst; cases hst
  | cfgFail h hr => rw [hr] at hok; cases hok
  | error h hr => rw [hr] at hok; cases hok
  | _ => rw [hst, ‹s1.state = _›]; trivial

theorem est_computed (env : Env) {s : Session} (hI : StInv s) : EstOK (computeBodyEstimate env s).1 ∨ s.state ≠ .encryptBody := by
  by_cases hst : s.state = .encryptBody
  · left
    have hsi := hI
    unfold StInv at hsi
    simp only [hst] at hsi
    obtain ⟨-, -, -, p, hsp, hp, -⟩ := hsi
    obtain ⟨o, i, h⟩ := computeBodyEstimate_eq env hI
    have hs : (computeBodyEstimate env s).1 = { s with outEst := o, inEst := i } := by rw [h]
    rw [hs]
    unfold EstOK
    simp only [hst]
    intro t n hn hq hw
    have hn' : nextFrame s = some (t, n) := hn
    have hpos : 0 < frameSize t n := by cases t <;> simp [frameSize]
    have : computeBodyEstimate env s = ({ s with outEst := frameSize t n, inEst := n }, .ok) := by
      unfold computeBodyEstimate tryEncryptBody encryptBodyFrame
      rw [if_neg (by rw [hst]; simp), hn']
      simp only
      rw [if_neg (by omega), hsp]
      simp only
      rw [serializeFrame_short hp hw (buf := ⟨[], 0⟩) (by simp) (by simpa using hpos)]
      simp
    rw [this] at h
    simp only [Prod.mk.injEq, and_true] at h
    have h1 := congrArg Session.outEst h
    have h2 := congrArg Session.inEst h
    simp only at h1 h2
    exact ⟨h1.symm, h2.symm⟩
  · exact Or.inr hst

theorem est_process {E : Env → Prop} {pol : Policy} {v : View} (h : HInv E pol v) (env : Env) (mem inp : Bytes) (inNull : Bool) :
    EstOK (process env v.s mem inp inNull).s := by
  cases process_cases env v.s h.inv mem inp inNull with
  | ok rest hr hml hw hread hrl hI hne hsteps hstall => exact est_of_stalled hstall
  | err e out inp1 mem1 s1 hr hmem hw hrl hI hst => unfold EstOK; rw [hst]; trivial

theorem EstOK.congr {s s' : Session} (h : EstOK s) (h1 : s'.state = s.state) (h2 : s'.outEst = s.outEst) (h3 : s'.inEst = s.inEst)
    (h4 : s'.headerSize = s.headerSize) (h5 : nextFrame s' = nextFrame s) (h6 : s'.seqno = s.seqno) (h7 : s'.algProps = s.algProps) :
    EstOK s' := by
  unfold EstOK at h ⊢
  rw [h1, h2, h3, h4, h5, h6, h7]; exact h

theorem est_failSession {s : Session} (h : EstOK s) (e : Err) : EstOK (failSession s e).1 := by
  unfold failSession
  split
  · unfold EstOK; trivial
  · exact h

theorem est_setMessageSize {s : Session} (h : EstOK s) (hI : Inv s) (env : Env) (n : Nat) : EstOK (setMessageSize env s n).1 := by
  unfold setMessageSize
  split
  · exact h
  · split
    · exact est_failSession h _
    · split
      · exact est_failSession h _
      · rcases est_computed env (s := { s with preciseSize := u64 n, preciseKnown := true }) (stInv_congr hI.st rfl) with h1 | h1
        · exact h1
        · simp only at h1
          unfold computeBodyEstimate
          simp only
          rw [if_pos h1]
          simp only
          unfold EstOK at h ⊢
          simp only
          cases hst : s.state <;> rw [hst] at h <;> first | trivial | exact h | exact absurd hst h1

theorem est_processFull {E : Env → Prop} {pol : Policy} {v : View} (h : HInv E pol v) (ih : EstOK v.s) (env : Env) (mem inp : Bytes)
    (inNull : Bool) (old : Nat) : EstOK (processFull env v.s mem inp inNull old).s := by
  unfold processFull
  split
  · exact ih
  · have hset : EstOK (if v.s.mode = .encrypt then setMessageSize env v.s inp.length else (v.s, .ok)).1 ∧
        ∃ w, HInv E pol w ∧ w.s = (if v.s.mode = .encrypt then setMessageSize env v.s inp.length else (v.s, .ok)).1 := by
      split
      · exact ⟨est_setMessageSize ih h.inv _ _, _, (hinv_setMessageSize env h _).1, rfl⟩
      · exact ⟨ih, _, h, rfl⟩
    simp only
    generalize (if v.s.mode = .encrypt then setMessageSize env v.s inp.length else (v.s, .ok)) = r at hset ⊢
    obtain ⟨s1, res⟩ := r
    obtain ⟨h1, w, hw, hws⟩ := hset
    simp only at h1 hws ⊢
    cases res with
    | ok =>
      simp only
      have hp := est_process hw env mem inp inNull
      rw [hws] at hp
      split
      · split
        · exact hp
        · unfold EstOK; trivial
      · exact hp
      · exact hp
    | _ => exact h1

/-- In every reachable session the estimates are what the next step of encryption needs. -/
theorem Spec.Reach.estOK {E : Env → Prop} {pol : Policy} {v : View} (h : Reach E pol v) : EstOK v.s := by
  have cfg : ∀ s : Session, s.state = .config → EstOK s := by intro s hs; unfold EstOK; rw [hs]; trivial
  have rst : ∀ (s : Session) (m : Mode), EstOK s → EstOK (reset s m).1 := by
    intro s m hs
    unfold reset
    split
    · exact cfg _ (by rfl)
    · exact est_failSession (cfg _ (by rfl)) _
  induction h with
  | new h =>
    refine cfg _ ?_
    unfold sessionNew at h
    split at h
    · cases h; rfl
    · cases h
  | restart env mode h ih => exact rst _ _ ih
  | call op h he ih =>
    rename_i env
    cases op with
    | reset m => exact rst _ _ ih
    | setFrameSize n =>
      simp only [apply, setFrameSize]
      split
      · exact ih
      · rename_i h1; exact cfg _ (by simp only [not_or, Decidable.not_not] at h1; exact h1.2)
    | setMessageSize n => exact est_setMessageSize ih h.hinv.inv _ n
    | setMessageBound n =>
      simp only [apply, setMessageBound]
      split
      · exact ih
      · split
        · exact est_failSession ih _
        · split
          · exact ih.congr rfl rfl rfl rfl rfl rfl rfl
          · exact ih
    | setPolicy p =>
      simp only [apply, setCommitmentPolicy]
      have h1 : EstOK { (_ : View).s with policy := p } := ih.congr rfl rfl rfl rfl rfl rfl rfl
      split
      · exact h1
      · split
        · exact est_failSession h1 _
        · exact h1
    | setMaxEdks n =>
      simp only [apply, setMaxEdks]
      split
      · exact est_failSession ih _
      · split
        · exact ih
        · exact ih.congr rfl rfl rfl rfl rfl rfl rfl
    | editCtx f hf =>
      simp only [apply, editEncCtx]
      split
      · exact ih.congr rfl rfl rfl rfl rfl rfl rfl
      · exact ih
    | process mem inp =>
      have hp := est_process h.hinv env mem (inp.getD []) inp.isNone
      simp only [apply]
      split <;> exact hp
    | processFull mem inp old =>
      have hp := est_processFull h.hinv ih env mem (inp.getD []) inp.isNone old
      simp only [apply]
      split <;> exact hp

/-- A successful call begins with a successful step; what that step writes and reads is part of the call. -/
theorem process_first {env : Env} {s : Session} (hI : Inv s) {mem inp : Bytes} {inNull : Bool}
    (h : (process env s mem inp inNull).res = .ok) :
    (sessionStep env s ⟨mem, 0⟩ inp inNull).res = .ok ∧
    (sessionStep env s ⟨mem, 0⟩ inp inNull).buf.len ≤ (process env s mem inp inNull).written ∧
    ∃ o rest, Steps env inNull (sessionStep env s ⟨mem, 0⟩ inp inNull).s (sessionStep env s ⟨mem, 0⟩ inp inNull).inp o
      (process env s mem inp inNull).s rest := by
  have hok := sessionStep_ok env s hI mem inp inNull
  have hrk := sessionStep_rank env s hI mem inp inNull
  have hml := hok.memLen
  have hbl := hok.bufLen
  have hle := hok.inpLe
  have hfuel : processFuel mem inp = (mem.length + inp.length + 7) + 1 := rfl
  have hrank : s.state.rank ≤ 7 := by cases s.state <;> decide
  unfold process at h ⊢
  rw [hfuel] at h ⊢
  unfold processLoop at h ⊢
  simp only [List.drop_zero, List.take_zero, List.nil_append, Nat.zero_add] at h ⊢
  generalize sessionStep env s ⟨mem, 0⟩ inp inNull = r at *
  rcases hok.res with hr | ⟨e, hr⟩
  · rw [hr] at h ⊢
    simp only at h ⊢
    by_cases hp : r.buf.len ≠ 0 ∨ r.inp.length ≠ inp.length ∨ s.state ≠ r.s.state
    · rw [if_pos hp] at h ⊢
      have hL := processLoop_ok env inNull (mem.length + inp.length + 7) r.s ⟨r.buf.mem, r.buf.len⟩ r.inp (hok.inv hr) (by simp only; omega)
        (by
          simp only
          rcases hrk hr with h1 | h1
          · have : s.state.rank = r.s.state.rank := by rw [h1]
            rcases hp with h3 | h3 | h3
            · omega
            · omega
            · exact absurd h1.symm h3
          · omega)
      generalize processLoop env inNull (mem.length + inp.length + 7) r.s ⟨r.buf.mem, r.buf.len⟩ r.inp = l at hL h ⊢
      rcases hL.cases with ⟨a1, a2, a3, o, a4, a5⟩ | ⟨e, o, s1, inp1, mem1, a1, -⟩
      · rw [a1] at h ⊢
        simp only at h ⊢
        refine ⟨trivial, ?_, o, l.inp, a4⟩
        have := congrArg List.length a5
        rw [List.length_take, List.length_append, List.length_take] at this
        have := hL.memLen
        have := hL.bufLen
        simp only at *
        omega
      · rw [a1] at h; cases h
    · rw [if_neg hp] at h ⊢
      exact ⟨trivial, Nat.le_refl _, [], r.inp, .refl _ _⟩
  · rw [hr] at h; cases h

theorem steps_done {env : Env} {inNull : Bool} {s s' : Session} {inp inp' o : Bytes} (h : Steps env inNull s inp o s' inp')
    (hd : s.state = .done) : s' = s := by
  induction h with
  | refl => rfl
  | @step s inp mem r out s' inp' hr hok h ih =>
    have : r.s = s := by rw [hr]; unfold sessionStep; simp only [hd]
    rw [ih (by rw [this]; exact hd), this]

end Verif
