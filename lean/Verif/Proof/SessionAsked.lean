import Verif.Proof.SessionFacts
/-
What a session asks its CMM: two CMMs that agree on one request cannot be told apart.
-/
namespace Verif
open Spec

/-- The request that an encrypting session in this state would make. -/
def request (s : Session) : EncRequest :=
  ⟨s.header.encCtx, 0, if s.preciseKnown then s.preciseSize else s.sizeBound, s.policy⟩

theorem step_same_enc (env : Env) (cmm : Cmm) (s : Session) (hI : Inv s) (hm : s.mode = .encrypt) (buf : WBuf) (inp : Bytes) (inNull : Bool)
    (h : s.state = .genKey → env.cmm.generate (request s) = cmm.generate (request s)) :
    sessionStep { env with cmm := cmm } s buf inp inNull = sessionStep env s buf inp inNull := by
  have hst := hI.st
  unfold StInv at hst
  unfold sessionStep
  cases hs : s.state <;> simp only [hs] at hst ⊢
  case genKey =>
    have := h hs
    unfold request at this
    simp only [tryGenKey, ← this]
    rfl
  case readHeader => rw [hm] at hst; exact absurd hst.1 (by decide)
  all_goals rfl

theorem step_same_dec (env : Env) (cmm : Cmm) (s : Session) (hI : Inv s) (hm : s.mode.isDecrypt = true) (buf : WBuf) (inp : Bytes) (inNull : Bool)
    (h : cmm.decrypt = env.cmm.decrypt) :
    sessionStep { env with cmm := cmm } s buf inp inNull = sessionStep env s buf inp inNull := by
  have hst := hI.st
  unfold StInv at hst
  unfold sessionStep
  cases hs : s.state <;> simp only [hs] at hst ⊢
  case genKey => rw [hst.1] at hm; cases hm
  case readHeader =>
    obtain ⟨⟨g, d⟩, _, _, _, _⟩ := env
    obtain ⟨g', d'⟩ := cmm
    simp only at h
    subst h
    rfl
  all_goals rfl

/-- Agreement of the two CMMs on the requests that the session may make from here on. -/
def AskAlike (env : Env) (cmm : Cmm) (s : Session) : Prop :=
  (s.state = .config ∨ s.state = .genKey) → s.policy.isValid = true → env.cmm.generate (request s) = cmm.generate (request s)

theorem loop_same_enc (env : Env) (cmm : Cmm) (inNull : Bool) (fuel : Nat) (s : Session) (hI : Inv s) (hm : s.mode = .encrypt) (out : WBuf) (inp : Bytes)
    (h : s.state = .genKey → s.policy.isValid = true) (ha : AskAlike env cmm s) :
    processLoop { env with cmm := cmm } inNull fuel s out inp = processLoop env inNull fuel s out inp := by
  induction fuel generalizing s out inp with
  | zero => rfl
  | succ n ih =>
    unfold processLoop
    rw [step_same_enc env cmm s hI hm _ inp inNull (fun hs => ha (.inr hs) (h hs))]
    have hI' := (sessionStep_ok env s hI (out.mem.drop out.len) inp inNull).inv
    have hk := sessionStep_keeps env s hI (out.mem.drop out.len) inp inNull
    have hrk := sessionStep_rank env s hI (out.mem.drop out.len) inp inNull
    have hc := sessionStep_cases env s hI (out.mem.drop out.len) inp inNull
    generalize sessionStep env s ⟨out.mem.drop out.len, 0⟩ inp inNull = r at hI' hk hrk hc
    cases hres : r.res with
    | ok =>
      have key : processLoop { env with cmm := cmm } inNull n r.s ⟨out.mem.take out.len ++ r.buf.mem, out.len + r.buf.len⟩ r.inp =
            processLoop env inNull n r.s ⟨out.mem.take out.len ++ r.buf.mem, out.len + r.buf.len⟩ r.inp := by
        have hlate : ∀ {st : St}, s.state = st → st.rank < 4 → r.s.state ≠ .config ∧ r.s.state ≠ .genKey := by
          intro st hst hlt
          have h0 := hrk hres
          rw [hst] at h0
          refine ⟨fun h1 => ?_, fun h1 => ?_⟩ <;> rw [h1] at h0 <;> rcases h0 with h2 | h2
          · rw [← h2] at hlt; simp [St.rank] at hlt
          · have h3 := Nat.lt_trans h2 hlt; simp [St.rank] at h3
          · rw [← h2] at hlt; simp [St.rank] at hlt
          · have h3 := Nat.lt_trans h2 hlt; simp [St.rank] at h3
        have done : (r.s.state ≠ .config ∧ r.s.state ≠ .genKey) →
            processLoop { env with cmm := cmm } inNull n r.s ⟨out.mem.take out.len ++ r.buf.mem, out.len + r.buf.len⟩ r.inp =
            processLoop env inNull n r.s ⟨out.mem.take out.len ++ r.buf.mem, out.len + r.buf.len⟩ r.inp := by
          rintro ⟨h1, h2⟩
          exact ih r.s (hI' hres) (hk.mode.trans hm) _ _ (fun h3 => absurd h3 h2) (fun h3 => absurd h3 (by simp [h1, h2]))
        cases hc with
        | cfgFail _ hr => subst hr; cases hres
        | cfgEnc hst _ _ hpol hr =>
          subst hr
          exact ih _ (hI' hres) (hk.mode.trans hm) _ _ (fun _ => hpol) (fun _ hv => ha (.inl hst) hv)
        | cfgDec _ hd _ _ _ => rw [hm] at hd; cases hd
        | parse hst _ => have := hI.st; unfold StInv at this; rw [hst, hm] at this; exact absurd this.1 (by decide)
        | gen hst hg =>
          cases hg with
          | fail e hr => rw [hr] at hres; cases hres
          | ok ctx m p mid k c ct tag sg hr hk => exact done (by rw [hk.result]; simp)
        | dec hst => exact done (hlate hst (by decide))
        | check hst => exact done (hlate hst (by decide))
        | header hst => exact done (hlate hst (by decide))
        | body _ hst => exact done (hlate hst (by decide))
        | trailer _ hst => exact done (hlate hst (by decide))
        | done hst => exact done (hlate hst (by decide))
        | error hst => exact done (hlate hst (by decide))
      simp only [key]
    | _ => simp only [hres]

theorem loop_same_dec (env : Env) (cmm : Cmm) (inNull : Bool) (fuel : Nat) (s : Session) (hI : Inv s) (hm : s.mode.isDecrypt = true) (out : WBuf)
    (inp : Bytes) (h : cmm.decrypt = env.cmm.decrypt) :
    processLoop { env with cmm := cmm } inNull fuel s out inp = processLoop env inNull fuel s out inp := by
  induction fuel generalizing s out inp with
  | zero => rfl
  | succ n ih =>
    unfold processLoop
    rw [step_same_dec env cmm s hI hm _ inp inNull h]
    have hI' := (sessionStep_ok env s hI (out.mem.drop out.len) inp inNull).inv
    have hk := sessionStep_keeps env s hI (out.mem.drop out.len) inp inNull
    generalize sessionStep env s ⟨out.mem.drop out.len, 0⟩ inp inNull = r at hI' hk
    cases hres : r.res with
    | ok =>
      simp only [ih _ (hI' hres) (by rw [hk.mode]; exact hm) _ _]
    | _ => simp only [hres]

/-! ### no call ends in the middle of the request -/

theorem stalled_not_genKey {env : Env} {inNull : Bool} {s : Session} {inp : Bytes} {room : Nat} (h : Stalled env inNull s inp room) :
    s.state ≠ .genKey := by
  intro hst
  obtain ⟨s1, mem, hI1, -, hok, hs, -, -, heq⟩ := h
  rw [hst] at heq
  have hc := sessionStep_cases env s1 hI1 mem inp inNull
  generalize sessionStep env s1 ⟨mem, 0⟩ inp inNull = r at hok hs hc
  cases hc with
  | gen _ hg =>
    cases hg with
    | fail e hr => rw [hr] at hok; cases hok
    | ok ctx m p mid k c ct tag sg hr hk => rw [hk.result] at hs; rw [← hs] at hst; cases hst
  | cfgFail h | cfgEnc h | cfgDec h | parse h | dec h | check h | header h | body _ h | trailer _ h | done h | error h =>
    rw [h] at heq; cases heq

theorem failSession_not_genKey (s : Session) (e : Err) : (failSession s e).1.state ≠ .genKey := by
  unfold failSession
  split
  · simp
  · rename_i h; intro h1; simp only [ne_eq, Decidable.not_not] at h; rw [h] at h1; cases h1

theorem process_not_genKey (env : Env) (s : Session) (hI : Inv s) (mem inp : Bytes) (inNull : Bool) :
    (process env s mem inp inNull).s.state ≠ .genKey := by
  have hc := process_cases env s hI mem inp inNull
  generalize process env s mem inp inNull = o at hc
  cases hc with
  | ok rest hr hml hw hread hrl hI hne hsteps hstall => exact stalled_not_genKey hstall
  | err _ _ _ _ _ _ _ _ _ _ hst => rw [hst]; simp

theorem setMessageSize_not_genKey (env : Env) (s : Session) (hI : Inv s) (hst : s.state ≠ .genKey) (n : Nat) :
    (setMessageSize env s n).1.state ≠ .genKey := by
  rcases setMessageSize_cases env s hI n with ⟨e, s', h1, h2 | h2⟩ | ⟨hm, hk, hb, o, i, h1⟩
  · rw [h1, h2]; exact hst
  · rw [h1, h2]; exact failSession_not_genKey s e
  · rw [h1]; exact hst

theorem processFull_not_genKey (env : Env) {E : Env → Prop} {pol : Policy} {v : View} (h : HInv E pol v) (hst : v.s.state ≠ .genKey) (mem inp : Bytes)
    (inNull : Bool) (old : Nat) : (processFull env v.s mem inp inNull old).s.state ≠ .genKey := by
  unfold processFull
  split
  · exact hst
  · have h1 : (if v.s.mode = .encrypt then setMessageSize env v.s inp.length else (v.s, .ok)).1.state ≠ .genKey := by
      split
      · exact setMessageSize_not_genKey env v.s h.inv hst _
      · exact hst
    have h2 : Inv (if v.s.mode = .encrypt then setMessageSize env v.s inp.length else (v.s, .ok)).1 := by
      split
      · exact (hinv_setMessageSize env h _).1.inv
      · exact h.inv
    generalize (if v.s.mode = .encrypt then setMessageSize env v.s inp.length else (v.s, .ok)) = r at h1 h2
    cases hr : r.2 <;> simp only [hr] <;> try exact h1
    have h3 := process_not_genKey env r.1 h2 mem inp inNull
    generalize process env r.1 mem inp inNull = o at h3
    cases o.res <;> simp only <;> try exact h3
    split
    · exact h3
    · simp

theorem apply_not_genKey (env : Env) {E : Env → Prop} {pol : Policy} {v : View} (h : HInv E pol v) (hst : v.s.state ≠ .genKey) (op : Op) :
    (apply env v op).1.s.state ≠ .genKey := by
  cases op with
  | reset m =>
    simp only [apply, reset]
    split
    · simp
    · exact failSession_not_genKey _ _
  | setFrameSize n => simp only [apply, setFrameSize]; split <;> exact hst
  | setMessageSize n => exact setMessageSize_not_genKey env v.s h.inv hst n
  | setMessageBound n =>
    simp only [apply, setMessageBound]
    split
    · exact hst
    · split
      · exact failSession_not_genKey _ _
      · split <;> exact hst
  | setPolicy p => 
    simp only [apply, setCommitmentPolicy]
    split
    · exact hst
    · split
      · exact failSession_not_genKey _ _
      · exact hst
  | setMaxEdks n => 
    simp only [apply, setMaxEdks]
    split
    · exact failSession_not_genKey _ _
    · split <;> exact hst
  | editCtx f hf => simp only [apply, editEncCtx]; split <;> exact hst
  | process mem inp =>
    have := process_not_genKey env v.s h.inv mem (inp.getD []) inp.isNone
    simp only [apply]
    split <;> exact this
  | processFull mem inp old =>
    have := processFull_not_genKey env h hst mem (inp.getD []) inp.isNone old
    simp only [apply]
    split <;> exact this

theorem Spec.Reach.not_genKey {E : Env → Prop} {pol : Policy} {v : View} (h : Reach E pol v) : v.s.state ≠ .genKey := by
  induction h with
  | new h =>
    simp only [sessionNew] at h
    split at h
    · cases h; simp
    · cases h
  | call op h he ih => exact apply_not_genKey _ h.hinv ih op
  | restart env mode h ih => exact apply_not_genKey env h.hinv ih _

/-! ### calls -/

theorem process_same_enc (env : Env) (cmm : Cmm) (s : Session) (hI : Inv s) (hm : s.mode = .encrypt) (hst : s.state ≠ .genKey)
    (ha : AskAlike env cmm s) (mem inp : Bytes) (inNull : Bool) :
    process { env with cmm := cmm } s mem inp inNull = process env s mem inp inNull := by
  unfold process
  rw [loop_same_enc env cmm inNull _ s hI hm _ inp (fun h => absurd h hst) ha]

theorem process_same_dec (env : Env) (cmm : Cmm) (s : Session) (hI : Inv s) (hm : s.mode.isDecrypt = true) (h : cmm.decrypt = env.cmm.decrypt)
    (mem inp : Bytes) (inNull : Bool) : process { env with cmm := cmm } s mem inp inNull = process env s mem inp inNull := by
  unfold process
  rw [loop_same_dec env cmm inNull _ s hI hm _ inp h]

theorem setMessageSize_same (env : Env) (cmm : Cmm) (s : Session) (n : Nat) : setMessageSize { env with cmm := cmm } s n = setMessageSize env s n := rfl

theorem processFull_same (env : Env) (cmm : Cmm) {E : Env → Prop} {pol : Policy} {v : View} (h : HInv E pol v) (mem inp : Bytes) (inNull : Bool)
    (old : Nat) (same : ∀ s', Inv s' → s'.mode = v.s.mode → s'.header = v.s.header → s'.policy = v.s.policy → s'.state = .config →
      process { env with cmm := cmm } s' mem inp inNull = process env s' mem inp inNull) :
    processFull { env with cmm := cmm } v.s mem inp inNull old = processFull env v.s mem inp inNull old := by
  unfold processFull
  split
  · rfl
  · rename_i hst
    simp only [ne_eq, Decidable.not_not] at hst
    by_cases hm : v.s.mode = .encrypt
    · simp only [hm, if_true, setMessageSize_same]
      rcases setMessageSize_cases env v.s h.inv inp.length with ⟨e, s', h1, _⟩ | ⟨hm, hk, hb, o, i, h1⟩
      · simp only [h1]
      · have hI := (hinv_setMessageSize env h inp.length).1.inv
        rw [h1] at hI
        simp only [h1]
        rw [same _ hI rfl rfl rfl hst]
    · simp only [hm, if_false]
      rw [same v.s h.inv rfl rfl rfl hst]

theorem askAlike_of {env : Env} {cmm : Cmm} {ctx : EncCtx} {pol : Policy} {s : Session} (hc : s.header.encCtx = ctx)
    (hp : s.policy.isValid = true → s.policy = pol) (ha : ∀ n, env.cmm.generate ⟨ctx, 0, n, pol⟩ = cmm.generate ⟨ctx, 0, n, pol⟩) :
    AskAlike env cmm s := by
  intro _ hv
  unfold request
  rw [hc, hp hv]
  exact ha _

theorem apply_same_enc (env : Env) (cmm : Cmm) {E : Env → Prop} {pol : Policy} {v : View} (h : HInv E pol v) (hst : v.s.state ≠ .genKey)
    (hm : v.s.mode = .encrypt) (ha : ∀ n, env.cmm.generate ⟨v.s.header.encCtx, 0, n, pol⟩ = cmm.generate ⟨v.s.header.encCtx, 0, n, pol⟩)
    (op : Op) : apply { env with cmm := cmm } v op = apply env v op := by
  cases op with
  | process mem inp =>
    simp only [apply, process_same_enc env cmm v.s h.inv hm hst (askAlike_of rfl h.polOk ha)]
  | processFull mem inp old =>
    simp only [apply]
    rw [processFull_same env cmm h]
    intro s' h1 h2 h3 h4 h5
    exact process_same_enc env cmm s' h1 (h2.trans hm) (by rw [h5]; simp) (askAlike_of (by rw [h3]) (by rw [h4]; exact h.polOk) ha) _ _ _
  | _ => rfl

theorem apply_same_dec (env : Env) (cmm : Cmm) {E : Env → Prop} {pol : Policy} {v : View} (h : HInv E pol v)
    (hm : v.s.mode.isDecrypt = true) (ha : cmm.decrypt = env.cmm.decrypt) (op : Op) : apply { env with cmm := cmm } v op = apply env v op := by
  cases op with
  | process mem inp =>
    simp only [apply, process_same_dec env cmm v.s h.inv hm ha]
  | processFull mem inp old =>
    simp only [apply]
    rw [processFull_same env cmm h]
    intro s' h1 h2 _ _ _
    exact process_same_dec env cmm s' h1 (by rw [h2]; exact hm) ha _ _ _
  | _ => rfl

end Verif
