import Verif.Proof.SessionFacts
/-
The size that a session declares to its CMM.
-/
namespace Verif
open Spec

/-- The size that the session would declare. -/
def declared (s : Session) : Nat := if s.preciseKnown then s.preciseSize else s.sizeBound

/-- Before the data key. -/
def Early (s : Session) : Prop := s.state = .config ∨ s.state = .genKey ∨ s.state = .error

theorem declared_keeps {s s' : Session} (h : Keeps s s') : declared s' = declared s := by
  unfold declared
  rw [h.preciseKnown, h.preciseSize, h.sizeBound]

theorem declared_opKeeps {s s' : Session} (h : OpKeeps s s') (hI : Inv s') : declared s' ≤ declared s := by
  unfold declared
  cases hk : s.preciseKnown with
  | true =>
    obtain ⟨h1, h2⟩ := h.precise hk
    simp [h1, h2]
  | false =>
    cases hk' : s'.preciseKnown with
    | true => simpa using Nat.le_trans (hI.precise hk') h.bound
    | false => simpa using h.bound

/-- Steps of an encrypting session from before the data key to after it. -/
theorem steps_declared {env : Env} {inNull : Bool} {s s' : Session} {inp inp' o : Bytes} (h : Steps env inNull s inp o s' inp')
    (hI : Inv s) (hm : s.mode = .encrypt) (hearly : Early s) (hlate : ¬ Early s') :
    ∃ req ctx m, env.cmm.generate req = (ctx, .ok m) ∧ req.plaintextSize = declared s := by
  induction h with
  | refl => exact absurd hearly hlate
  | @step s inp mem r out s' inp' hr hok h ih =>
    subst hr
    have hI' := (sessionStep_ok env s hI mem inp inNull).inv hok
    have hk := sessionStep_keeps env s hI mem inp inNull
    have hc := sessionStep_cases env s hI mem inp inNull
    have next : Early (sessionStep env s ⟨mem, 0⟩ inp inNull).s →
        ∃ req ctx m, env.cmm.generate req = (ctx, .ok m) ∧ req.plaintextSize = declared s := by
      intro he
      obtain ⟨req, ctx, m, h1, h2⟩ := ih hI' (hk.mode.trans hm) he hlate
      exact ⟨req, ctx, m, h1, h2.trans (declared_keeps hk)⟩
    generalize sessionStep env s ⟨mem, 0⟩ inp inNull = r at hc hok next
    rcases hearly with hst | hst | hst
    · cases hc with
      | cfgFail _ hr => subst hr; cases hok
      | cfgEnc _ _ _ _ hr => exact next (by subst hr; exact .inr (.inl rfl))
      | cfgDec _ hd _ _ _ => rw [hm] at hd; cases hd
      | parse h => rw [hst] at h; cases h
      | dec h => rw [hst] at h; cases h
      | check h => rw [hst] at h; cases h
      | gen h => rw [hst] at h; cases h
      | header h => rw [hst] at h; cases h
      | body _ h => rw [hst] at h; cases h
      | trailer _ h => rw [hst] at h; cases h
      | done h => rw [hst] at h; cases h
      | error h => rw [hst] at h; cases h
    · cases hc with
      | gen _ hc =>
        cases hc with
        | fail e hr => rw [hr] at hok; cases hok
        | ok ctx m p mid k c ct tag sg hr hk => exact ⟨encRequest s, ctx, m, hk.gen, rfl⟩
      | cfgFail h => rw [hst] at h; cases h
      | cfgEnc h => rw [hst] at h; cases h
      | cfgDec h => rw [hst] at h; cases h
      | parse h => rw [hst] at h; cases h
      | dec h => rw [hst] at h; cases h
      | check h => rw [hst] at h; cases h
      | header h => rw [hst] at h; cases h
      | body _ h => rw [hst] at h; cases h
      | trailer _ h => rw [hst] at h; cases h
      | done h => rw [hst] at h; cases h
      | error h => rw [hst] at h; cases h
    · cases hc with
      | error _ hr => subst hr; cases hok
      | cfgFail h => rw [hst] at h; cases h
      | cfgEnc h => rw [hst] at h; cases h
      | cfgDec h => rw [hst] at h; cases h
      | parse h => rw [hst] at h; cases h
      | dec h => rw [hst] at h; cases h
      | check h => rw [hst] at h; cases h
      | gen h => rw [hst] at h; cases h
      | header h => rw [hst] at h; cases h
      | body _ h => rw [hst] at h; cases h
      | trailer _ h => rw [hst] at h; cases h
      | done h => rw [hst] at h; cases h

/-- The same for a call of `process`. -/
theorem process_declared {E : Env → Prop} {pol : Policy} {v : View} {env : Env} (h : HInv E pol v) (mem inp : Bytes) (inNull : Bool)
    (hm : v.s.mode = .encrypt) (hearly : Early v.s) (hlate : ¬ Early (process env v.s mem inp inNull).s) :
    ∃ req ctx m, env.cmm.generate req = (ctx, .ok m) ∧ req.plaintextSize = declared v.s := by
  have hc := process_cases env v.s h.inv mem inp inNull
  generalize process env v.s mem inp inNull = o at hc hlate
  cases hc with
  | ok rest hr hml hw hread hrl hI hne hsteps hstall => exact steps_declared hsteps h.inv hm hearly hlate
  | err e out inp1 mem1 s1 hr hmem hw hrl hI hst => exact absurd (.inr (.inr hst)) hlate

theorem early_fail (s : Session) (e : Err) : Early (failSession s e).1 := .inr (.inr (failSession_error s e).1)

/-- The same for every call but `reset`. -/
theorem apply_declared {E : Env → Prop} {pol : Policy} {v : View} {env : Env} (h : HInv E pol v) (he : E env) (op : Op) (hn : op.notReset = true)
    (hm : v.s.mode = .encrypt) (hearly : Early v.s) (hlate : ¬ Early (apply env v op).1.s) :
    ∃ req ctx m, env.cmm.generate req = (ctx, .ok m) ∧ declared (apply env v op).1.s ≤ req.plaintextSize ∧
      (v.s.preciseKnown = true → req.plaintextSize = v.s.preciseSize) := by
  have hk := apply_keeps h he op hn
  have hI' := (hinv_apply h he op).1.inv
  have hdecl := declared_opKeeps hk hI'
  have early_of : ∀ {s' : Session}, s'.state = v.s.state → Early s' := by
    intro s' hs
    unfold Early at hearly ⊢
    rw [hs]; exact hearly
  cases op with
  | reset m => cases hn
  | setFrameSize n =>
    refine absurd ?_ hlate
    simp only [apply, setFrameSize]
    split
    · exact hearly
    · exact early_of rfl
  | setMessageSize n =>
    refine absurd ?_ hlate
    simp only [apply]
    rcases setMessageSize_cases env v.s h.inv n with ⟨e, s', h1, h2⟩ | ⟨_, _, _, o, i, h1⟩
    · rw [h1]
      rcases h2 with rfl | rfl
      · exact hearly
      · exact early_fail _ _
    · rw [h1]; exact early_of rfl
  | setMessageBound n =>
    refine absurd ?_ hlate
    simp only [apply, setMessageBound]
    split
    · exact hearly
    · split
      · exact early_fail _ _
      · split
        · exact early_of rfl
        · exact hearly
  | setPolicy p =>
    refine absurd ?_ hlate
    simp only [apply, setCommitmentPolicy]
    split
    · exact early_of rfl
    · split
      · exact early_fail _ _
      · exact early_of rfl
  | setMaxEdks n =>
    refine absurd ?_ hlate
    simp only [apply, setMaxEdks]
    split
    · exact early_fail _ _
    · split
      · exact hearly
      · exact early_of rfl
  | editCtx f hf =>
    refine absurd ?_ hlate
    simp only [apply, editEncCtx]
    split
    · exact early_of rfl
    · exact hearly
  | process mem inp =>
    have hs : (apply env v (.process mem inp)).1.s = (process env v.s mem (inp.getD []) inp.isNone).s := by
      simp only [apply]; split <;> rfl
    rw [hs] at hlate
    obtain ⟨req, ctx, m, h1, h2⟩ := process_declared h mem (inp.getD []) inp.isNone hm hearly hlate
    refine ⟨req, ctx, m, h1, by rw [h2]; exact hdecl, fun hp => ?_⟩
    rw [h2, declared, if_pos hp]
  | processFull mem inp old =>
    have hs : (apply env v (.processFull mem inp old)).1.s = (processFull env v.s mem (inp.getD []) inp.isNone old).s := by
      simp only [apply]; split <;> rfl
    rw [hs] at hlate hdecl hk hI' ⊢
    unfold processFull at hlate hdecl ⊢
    split at hlate
    · exact absurd hearly hlate
    · next hst =>
      rw [if_neg hst] at hdecl ⊢
      simp only [hm, if_true] at hlate hdecl ⊢
      rcases setMessageSize_cases env v.s h.inv (inp.getD []).length with ⟨e, s', h1, h2⟩ | ⟨_, hk0, _, o, i, h1⟩
      · rw [h1] at hlate
        refine absurd ?_ hlate
        rcases h2 with rfl | rfl
        · exact hearly
        · exact early_fail _ _
      · have hh := (hinv_setMessageSize env h (inp.getD []).length).1
        rw [h1] at hlate hdecl hh ⊢
        simp only at hlate hdecl hh ⊢
        have hproc := (hinv_process hh he mem (inp.getD []) inp.isNone).1
        have hd' := declared_keeps hproc
        have hres := (hinv_process hh he mem (inp.getD []) inp.isNone).2
        have hearly' : ∀ o i, Early { v.s with preciseSize := u64 (inp.getD []).length, preciseKnown := true, outEst := o, inEst := i } :=
          fun _ _ => early_of rfl
        have key : ¬ Early (process env { v.s with preciseSize := u64 (inp.getD []).length, preciseKnown := true, outEst := o, inEst := i }
            mem (inp.getD []) inp.isNone).s → ∃ req ctx m, env.cmm.generate req = (ctx, .ok m) ∧
              declared (process env { v.s with preciseSize := u64 (inp.getD []).length, preciseKnown := true, outEst := o, inEst := i }
                mem (inp.getD []) inp.isNone).s ≤ req.plaintextSize := by
          intro hl
          obtain ⟨req, ctx, m, h1, h2⟩ := process_declared hh mem (inp.getD []) inp.isNone hm (hearly' o i) hl
          exact ⟨req, ctx, m, h1, by rw [hd', h2]; exact Nat.le_refl _⟩
        have hnk : ¬ v.s.preciseKnown = true := by simp [hk0]
        rcases hres with ⟨hr, _⟩ | ⟨hr, hst', _⟩
        · rw [hr] at hlate hdecl ⊢
          simp only at hlate hdecl ⊢
          split at hlate
          · next hd =>
            rw [if_pos hd]
            obtain ⟨req, ctx, m, h1, h2⟩ := key hlate
            exact ⟨req, ctx, m, h1, h2, fun hp => absurd hp hnk⟩
          · exact absurd (.inr (.inr rfl)) hlate
        · rw [hr] at hlate
          exact absurd (.inr (.inr hst')) hlate

/-- What the sizes accepted by the CMM say about a session. -/
theorem declared_reach {E : Env → Prop} {P : Nat → Prop}
    (hcmm : ∀ env, E env → ∀ req ctx m, env.cmm.generate req = (ctx, .ok m) → P req.plaintextSize) {pol : Policy} {v : View}
    (h : Reach E pol v) : v.s.mode = .encrypt → Early v.s ∨ ∃ n, P n ∧ declared v.s ≤ n := by
  induction h with
  | new h =>
    intro _
    exact .inl (.inl (sessionNew_inv h).2.1)
  | @restart E E' pol v env mode h ih =>
    intro _
    left
    simp only [apply, reset]
    split
    · exact .inl rfl
    · exact early_fail _ _
  | @call E pol v env op h he ih =>
    intro hm
    cases hn : op.notReset with
    | false =>
      cases op with
      | reset m =>
        left
        simp only [apply, reset]
        split
        · exact .inl rfl
        · exact early_fail _ _
      | _ => cases hn
    | true =>
      have hk := apply_keeps h.hinv he op hn
      have hI := (hinv_apply h.hinv he op).1.inv
      have hm' : v.s.mode = .encrypt := hk.mode.symm.trans hm
      by_cases hl : Early (apply env v op).1.s
      · exact .inl hl
      · rcases ih hcmm hm' with hearly | ⟨n, hP, hle⟩
        · obtain ⟨req, ctx, m, h1, h2, _⟩ := apply_declared h.hinv he op hn hm' hearly hl
          exact .inr ⟨_, hcmm env he req ctx m h1, h2⟩
        · exact .inr ⟨n, hP, Nat.le_trans (declared_opKeeps hk hI) hle⟩

end Verif
