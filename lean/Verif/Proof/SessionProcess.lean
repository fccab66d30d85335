import Verif.Proof.SessionLoop
/-
A call of `process` as a sequence of steps.
-/
namespace Verif
open Spec

/-- Position of a state on the way to the end of a message. -/
def St.rank : St → Nat
  | .config => 5
  | .genKey | .readHeader => 4
  | .writeHeader | .unwrapKey => 3
  | .encryptBody | .decryptBody => 2
  | .writeTrailer | .checkTrailer => 1
  | .done | .error => 0

theorem sessionStep_rank (env : Env) (s : Session) (hI : Inv s) (mem inp : Bytes) (inNull : Bool)
    (hok : (sessionStep env s ⟨mem, 0⟩ inp inNull).res = .ok) :
    (sessionStep env s ⟨mem, 0⟩ inp inNull).s.state = s.state ∨
    (sessionStep env s ⟨mem, 0⟩ inp inNull).s.state.rank < s.state.rank := by
  have hc := sessionStep_cases env s hI mem inp inNull
  generalize sessionStep env s ⟨mem, 0⟩ inp inNull = r at hc hok ⊢
  cases hc with
  | cfgFail h hr => subst hr; cases hok
  | cfgEnc h _ _ _ hr => subst hr; right; rw [h]; simp [St.rank]
  | cfgDec h _ _ _ hr => subst hr; right; rw [h]; simp [St.rank]
  | done h hr => subst hr; left; rfl
  | error h hr => subst hr; cases hok
  | parse h hc =>
    cases hc with
    | fail e hr => rw [hr] at hok; cases hok
    | stall est hr hbuf hinp hs => left; rw [hs]
    | opened hb hd row p m k sg hr hbuf hk => right; rw [hk.result, h]; simp [St.rank]
  | dec h hc =>
    cases hc with
    | fail e i o q sg hr => rw [hr] at hok; cases hok
    | stall i o hr hs => left; rw [hs]
    | opened f pt sg i hr _ _ _ _ _ _ _ _ hs =>
      rw [hs]; unfold decFrameState
      by_cases hft : f.type = .frame
      · left; simp [hft, h]
      · right; simp only [hft, if_false, h]; simp [St.rank]
  | check h hc =>
    cases hc with
    | fail e ctx sg hr => rw [hr] at hok; cases hok
    | stall n ctx hr hctx hs => left; rw [hs]
    | noSig hr hctx hs => right; rw [hs, h]; simp [St.rank]
    | verified ctx sig hr hctx hver hs => left; rw [hs]
  | gen h hc =>
    cases hc with
    | fail e hr => rw [hr] at hok; cases hok
    | ok ctx m p mid k c ct tag sg hr hk => right; rw [hk.result, h]; simp [St.rank]
  | header h hc =>
    cases hc with
    | wrote c hcp hroom hr => subst hr; right; rw [h]; simp [St.rank]
    | stall c hcp hroom hr => subst hr; left; rfl
  | body p h hsp hp hc =>
    cases hc with
    | fail e o i ns hr => rw [hr] at hok; cases hok
    | stall o i hr hinp hs => left; rw [hs]
    | wrote type pt ct tag sg hr hk hinp hnull hs =>
      rw [hs]; unfold encFrameState
      by_cases hft : type = .frame
      · left; simp [hft, h]
      · right; simp only [hft, if_false, h]; simp [St.rank]
  | trailer p h hsp hp hc =>
    cases hc with
    | fail e hr => rw [hr] at hok; cases hok
    | stall hr hinp hs => left; rw [hs]
    | unsigned hr hinp hs => right; rw [hs, h]; simp [St.rank]
    | signed ctx sig hr hinp hsig hctx hsign hs => right; rw [hs, h]; simp [St.rank]

/-- A sequence of successful steps: from session and input to session and remaining input, with the output produced. -/
inductive Steps (env : Env) (inNull : Bool) : Session → Bytes → Bytes → Session → Bytes → Prop where
  | refl (s : Session) (inp : Bytes) : Steps env inNull s inp [] s inp
  | step {s : Session} {inp : Bytes} (mem : Bytes) {r : Step} {out : Bytes} {s' : Session} {inp' : Bytes}
      (hr : r = sessionStep env s ⟨mem, 0⟩ inp inNull) (hok : r.res = .ok) (h : Steps env inNull r.s r.inp out s' inp') :
      Steps env inNull s inp (r.buf.mem.take r.buf.len ++ out) s' inp'

/-- The last iteration of the loop did nothing. -/
def Stalled (env : Env) (inNull : Bool) (s : Session) (inp : Bytes) (room : Nat) : Prop :=
  ∃ s1 mem1, Inv s1 ∧ mem1.length = room ∧ (sessionStep env s1 ⟨mem1, 0⟩ inp inNull).res = .ok ∧
    (sessionStep env s1 ⟨mem1, 0⟩ inp inNull).s = s ∧ (sessionStep env s1 ⟨mem1, 0⟩ inp inNull).buf.len = 0 ∧
    (sessionStep env s1 ⟨mem1, 0⟩ inp inNull).inp = inp ∧ s.state = s1.state

/-- How the loop ends. -/
structure LoopOK (env : Env) (inNull : Bool) (s : Session) (out : WBuf) (inp : Bytes) (r : Step) : Prop where
  memLen : r.buf.mem.length = out.mem.length
  bufLen : r.buf.len ≤ r.buf.mem.length
  inpLe : r.inp.length ≤ inp.length
  cases : (r.res = .ok ∧ Inv r.s ∧ Stalled env inNull r.s r.inp (r.buf.mem.length - r.buf.len) ∧
      ∃ o, Steps env inNull s inp o r.s r.inp ∧ r.buf.mem.take r.buf.len = out.mem.take out.len ++ o) ∨
    (∃ e o s1 inp1 mem1, r.res = .err e ∧ Steps env inNull s inp o s1 inp1 ∧ Inv s1 ∧
      (sessionStep env s1 ⟨mem1, 0⟩ inp1 inNull).res = .err e ∧ (sessionStep env s1 ⟨mem1, 0⟩ inp1 inNull).s = r.s ∧
      (sessionStep env s1 ⟨mem1, 0⟩ inp1 inNull).inp = r.inp)

theorem processLoop_ok (env : Env) (inNull : Bool) (fuel : Nat) (s : Session) (out : WBuf) (inp : Bytes) (hI : Inv s)
    (hb : out.len ≤ out.mem.length) (hf : (out.mem.length - out.len) + inp.length + s.state.rank < fuel) :
    LoopOK env inNull s out inp (processLoop env inNull fuel s out inp) := by
  induction fuel generalizing s out inp with
  | zero => omega
  | succ n ih =>
    unfold processLoop
    simp only
    have hs := sessionStep_ok env s hI (out.mem.drop out.len) inp inNull
    have hrk := sessionStep_rank env s hI (out.mem.drop out.len) inp inNull
    generalize hr : sessionStep env s ⟨out.mem.drop out.len, 0⟩ inp inNull = r at hs hrk ⊢
    have hml := hs.memLen
    have hbl := hs.bufLen
    rw [List.length_drop] at hml hbl
    have hlen : (out.mem.take out.len ++ r.buf.mem).length = out.mem.length := by
      rw [List.length_append, List.length_take, hml]; omega
    have htake : (out.mem.take out.len ++ r.buf.mem).take (out.len + r.buf.len) = out.mem.take out.len ++ r.buf.mem.take r.buf.len := by
      have : out.len = (out.mem.take out.len).length := by rw [List.length_take]; omega
      rw [List.take_append, List.take_of_length_le (by rw [List.length_take]; omega)]
      congr 2
      omega
    rcases hs.res with hok | ⟨e, he⟩
    · rw [hok]
      simp only
      have hI' := hs.inv hok
      obtain ⟨c, hc⟩ := hs.suffix hok
      by_cases hp : r.buf.len ≠ 0 ∨ r.inp.length ≠ inp.length ∨ s.state ≠ r.s.state
      · rw [if_pos hp]
        have hle := hs.inpLe
        have := ih r.s ⟨out.mem.take out.len ++ r.buf.mem, out.len + r.buf.len⟩ r.inp hI'
          (by simp only; rw [hlen]; omega)
          (by
            simp only
            rw [hlen]
            rcases hrk hok with h1 | h1
            · have h2 : s.state.rank = r.s.state.rank := by rw [h1]
              rcases hp with h3 | h3 | h3
              · omega
              · omega
              · exact absurd h1.symm h3
            · omega)
        obtain ⟨a1, a2, a3, a4⟩ := this
        refine ⟨by rw [a1]; exact hlen, a2, by omega, ?_⟩
        rcases a4 with ⟨b1, b2, b3, o, b4, b5⟩ | ⟨e, o, s1, inp1, mem1, b1, b2, b3, b4, b5, b6⟩
        · refine Or.inl ⟨b1, b2, b3, r.buf.mem.take r.buf.len ++ o, .step (out.mem.drop out.len) hr.symm hok b4, ?_⟩
          rw [b5]
          simp only
          rw [htake, List.append_assoc]
        · exact Or.inr ⟨e, r.buf.mem.take r.buf.len ++ o, s1, inp1, mem1, b1, .step (out.mem.drop out.len) hr.symm hok b2, b3, b4, b5, b6⟩
      · rw [if_neg hp]
        simp only [not_or, Decidable.not_not] at hp
        obtain ⟨p1, p2, p3⟩ := hp
        have hci : c = [] := by
          have := congrArg List.length hc
          rw [List.length_append] at this
          exact List.eq_nil_of_length_eq_zero (by omega)
        subst hci
        have hinp : r.inp = inp := by simpa using hc.symm
        refine ⟨hlen, by simp only; rw [hlen]; omega, by simp only; omega, Or.inl ⟨rfl, hI', ?_, ?_⟩⟩
        · refine ⟨s, out.mem.drop out.len, hI, ?_, ?_⟩
          · simp only [hlen, p1, Nat.add_zero, List.length_drop]
          · simp only
            rw [hinp, hr]
            exact ⟨hok, rfl, p1, hinp, p3.symm⟩
        · refine ⟨r.buf.mem.take r.buf.len ++ [], .step (out.mem.drop out.len) hr.symm hok (.refl _ _), ?_⟩
          simp only
          rw [htake, List.append_nil]
    · rw [he]
      simp only
      exact ⟨hlen, by simp only; rw [hlen]; omega, hs.inpLe,
        Or.inr ⟨e, [], s, inp, out.mem.drop out.len, rfl, .refl _ _, hI, by rw [hr]; exact he, by rw [hr], by rw [hr]⟩⟩

theorem Steps.inv {env : Env} {inNull : Bool} {s s' : Session} {inp inp' o : Bytes} (h : Steps env inNull s inp o s' inp')
    (hI : Inv s) : Inv s' := by
  induction h with
  | refl => exact hI
  | step mem hr hok h ih => exact ih (by subst hr; exact (sessionStep_ok env _ hI mem _ inNull).inv hok)

theorem Steps.suffix {env : Env} {inNull : Bool} {s s' : Session} {inp inp' o : Bytes} (h : Steps env inNull s inp o s' inp')
    (hI : Inv s) : ∃ c, inp = c ++ inp' := by
  induction h with
  | refl s inp => exact ⟨[], rfl⟩
  | @step s inp mem r out s' inp' hr hok h ih =>
    subst hr
    have := sessionStep_ok env s hI mem inp inNull
    obtain ⟨c, hc⟩ := ih (this.inv hok)
    obtain ⟨d, hd⟩ := this.suffix hok
    exact ⟨d ++ c, by rw [hd, hc, List.append_assoc]⟩

/-- Induction over successful steps. -/
theorem Steps.induct {env : Env} {inNull : Bool} {I : Session → Bytes → Bytes → Prop}
    (hstep : ∀ s mem inp out, Inv s → I s out inp → (sessionStep env s ⟨mem, 0⟩ inp inNull).res = .ok →
      I (sessionStep env s ⟨mem, 0⟩ inp inNull).s (out ++ (sessionStep env s ⟨mem, 0⟩ inp inNull).buf.mem.take
        (sessionStep env s ⟨mem, 0⟩ inp inNull).buf.len) (sessionStep env s ⟨mem, 0⟩ inp inNull).inp)
    {s s' : Session} {inp inp' o : Bytes} (h : Steps env inNull s inp o s' inp') (hI : Inv s) (out : Bytes) (h0 : I s out inp) :
    I s' (out ++ o) inp' := by
  induction h generalizing out with
  | refl => rw [List.append_nil]; exact h0
  | step mem hr hok h ih =>
    subst hr
    rw [← List.append_assoc]
    exact ih ((sessionStep_ok env _ hI mem _ inNull).inv hok) _ (hstep _ _ _ _ hI h0 hok)

/-- What a call of `process` does. -/
inductive ProcCase (env : Env) (s : Session) (mem inp : Bytes) (inNull : Bool) (o : ProcOut) : Prop where
  | ok (rest : Bytes) (hr : o.res = .ok) (hml : o.mem.length = mem.length) (hw : o.written ≤ mem.length)
      (hread : inp = inp.take o.read ++ rest) (hrl : o.read ≤ inp.length) (hI : Inv o.s) (hne : o.s.state ≠ .error)
      (hsteps : Steps env inNull s inp (o.mem.take o.written) o.s rest)
      (hstall : Stalled env inNull o.s rest (mem.length - o.written))
  | err (e : Err) (out inp1 mem1 : Bytes) (s1 : Session) (hr : o.res = .err o.s.error) (hmem : o.mem = List.replicate mem.length 0)
      (hw : o.written = 0) (hrl : o.read ≤ inp.length) (hI : Inv o.s) (hst : o.s.state = .error)
      (hsteps : Steps env inNull s inp out s1 inp1) (hI1 : Inv s1)
      (hfail : (sessionStep env s1 ⟨mem1, 0⟩ inp1 inNull).res = .err e)
      (hs : o.s = (sessionStep env s1 ⟨mem1, 0⟩ inp1 inNull).s ∧ s1.state = .error ∨
        o.s = { (sessionStep env s1 ⟨mem1, 0⟩ inp1 inNull).s with error := e, state := .error } ∧ s1.state ≠ .error)

theorem sessionStep_not_error (env : Env) (s : Session) (hI : Inv s) (hne : s.state ≠ .error) (mem inp : Bytes) (inNull : Bool) :
    (sessionStep env s ⟨mem, 0⟩ inp inNull).s.state ≠ .error := by
  have hc := sessionStep_cases env s hI mem inp inNull
  generalize sessionStep env s ⟨mem, 0⟩ inp inNull = r at hc ⊢
  cases hc with
  | cfgFail h hr => subst hr; exact hne
  | cfgEnc h _ _ _ hr => subst hr; simp
  | cfgDec h _ _ _ hr => subst hr; simp
  | done h hr => subst hr; exact hne
  | error h hr => exact absurd h hne
  | parse h hc =>
    cases hc with
    | fail e hr hbuf hinp hs => exact hs.state.1
    | stall est hr hbuf hinp hs => rw [hs]; exact hne
    | opened hb hd row p m k sg hr hbuf hk => rw [hk.result]; simp
  | dec h hc =>
    cases hc with
    | fail e i o q sg hr hs => rw [hs]; exact hne
    | stall i o hr hs => rw [hs]; exact hne
    | opened f pt sg i hr _ _ _ _ _ _ _ _ hs => rw [hs]; unfold decFrameState; simp only; split <;> simp
  | check h hc =>
    cases hc with
    | fail e ctx sg hr hctx hs => rw [hs]; exact hne
    | stall n ctx hr hctx hs => rw [hs]; exact hne
    | noSig hr hctx hs => rw [hs]; simp
    | verified ctx sig hr hctx hver hs => rw [hs]; exact hne
  | gen h hc =>
    cases hc with
    | fail e hr hs => rw [hs.state]; exact hne
    | ok ctx m p mid k c ct tag sg hr hk => rw [hk.result]; simp
  | header h hc =>
    cases hc with
    | wrote c hcp hroom hr => subst hr; simp
    | stall c hcp hroom hr => subst hr; exact hne
  | body p h hsp hp hc =>
    cases hc with
    | fail e o i ns hr hinp hs => rw [hs]; exact hne
    | stall o i hr hinp hs => rw [hs]; exact hne
    | wrote type pt ct tag sg hr hk hinp hnull hs => rw [hs]; unfold encFrameState; simp only; split <;> simp
  | trailer p h hsp hp hc =>
    cases hc with
    | fail e hr hinp hsig hs => rw [hs]; exact hne
    | stall hr hinp hs => rw [hs]; exact hne
    | unsigned hr hinp hs => rw [hs]; simp
    | signed ctx sig hr hinp hsig hctx hsign hs => rw [hs]; simp

theorem process_cases (env : Env) (s : Session) (hI : Inv s) (mem inp : Bytes) (inNull : Bool) :
    ProcCase env s mem inp inNull (process env s mem inp inNull) := by
  have hrank : s.state.rank ≤ 5 := by cases s.state <;> decide
  have h := processLoop_ok env inNull (processFuel mem inp) s ⟨mem, 0⟩ inp hI (Nat.zero_le _)
    (by unfold processFuel; simp only; omega)
  unfold process
  simp only
  generalize processLoop env inNull (processFuel mem inp) s ⟨mem, 0⟩ inp = r at h ⊢
  obtain ⟨a1, a2, a3, a4⟩ := h
  simp only at a1
  rcases a4 with ⟨b1, b2, b3, o, b4, b5⟩ | ⟨e, o, s1, inp1, mem1, b1, b2, b3, b4, b5, b6⟩
  · rw [b1]
    simp only
    have hne : r.s.state ≠ .error := by
      obtain ⟨s1, mem1, c0, -, c1, c2, -, -, c3⟩ := b3
      rw [c3]
      intro he
      have := sessionStep_cases env s1 c0 mem1 r.inp inNull
      simp only [sessionStep, he] at c1
      cases c1
    rw [if_neg hne]
    simp only [List.take_zero, List.nil_append] at b5
    obtain ⟨c, hc⟩ := b4.suffix hI
    refine .ok r.inp rfl a1 (by simp only; omega) ?_ (by simp only; omega) b2 hne ?_ (by simp only; rw [← a1]; exact b3)
    · simp only
      have : inp.length - r.inp.length = c.length := by rw [congrArg List.length hc]; simp
      rw [this, hc, List.take_left]
    · simp only
      rw [b5]; exact b4
  · rw [b1]
    simp only
    have hso := sessionStep_ok env s1 b3 mem1 inp1 inNull
    obtain ⟨f1, f2, f3, f4, f5⟩ := hso.errInv
    rw [b5] at f1 f2 f3 f4 f5
    by_cases he : s1.state = .error
    · have h1 : sessionStep env s1 ⟨mem1, 0⟩ inp1 inNull = ⟨s1, ⟨mem1, 0⟩, inp1, .err s1.error⟩ := by
        simp only [sessionStep, he]
      rw [h1] at b5
      simp only at b5
      have hre : r.s.state = .error := by rw [← b5]; exact he
      rw [if_neg (by simpa using hre)]
      refine .err e o inp1 mem1 s1 rfl rfl rfl (by simp only; omega) (by rw [← b5]; exact b3) hre b2 b3 b4 (Or.inl ⟨by rw [h1]; exact b5.symm, he⟩)
    · have hne := sessionStep_not_error env s1 b3 he mem1 inp1 inNull
      rw [b5] at hne
      rw [if_pos hne]
      exact .err e o inp1 mem1 s1 rfl rfl rfl (by simp only; omega) ⟨f1, f2, f3, f4, f5, trivial⟩ rfl b2 b3 b4
        (Or.inr ⟨by rw [b5], he⟩)

end Verif
