import Verif.Proof.EncryptErrors
import Verif.Props.SessionErrors
import Verif.Props.SessionWrites
/-
C80: why encryption fails, and with which error.
-/
namespace Verif.Props
open Spec

/-- The first call of a new encryption fails with the error of the first check that fails while the header is made; if no check
fails, then the first call does not fail because of the header. -/
theorem C80_header (pol : Policy) (e : Env) (v : View) (h : Reach (· = e) pol v) (hs : SetUpEnc v.s) (hc : v.s.state = .config)
    (hsm : HeaderSmall e v.s) (mem : Bytes) (inp : Option Bytes) (c : Err) :
    (HeaderFails e v.s c → (apply e v (.process mem inp)).2 = .err c) ∧
    ((apply e v (.process mem inp)).2 = .err c → HeaderFails e v.s c ∨ HeaderWorks e v.s) := by
  rw [apply_process_res]
  exact ⟨enc_process_header h.hinv hs h.hasCmm hc hsm,
    fun hr => (enc_process_err h.hinv hs h.hasCmm h.not_genKey (fun _ => hsm) hr).2 hc⟩

/-- Any call of an encryption fails only for one of the listed reasons, with its error. -/
theorem C80_why_encryption_fails (pol : Policy) (e : Env) (v : View) (h : Reach (· = e) pol v) (hs : SetUpEnc v.s)
    (hsm : v.s.state = .config → HeaderSmall e v.s) (mem : Bytes) (inp : Option Bytes) (c : Err)
    (hc : (apply e v (.process mem inp)).2 = .err c) : EncryptFails e v (inp.getD []) c := by
  rw [apply_process_res] at hc
  exact (enc_process_err h.hinv hs h.hasCmm h.not_genKey hsm hc).1

/-- There is one reason at most why no header can be made, and then the header does not work. -/
theorem C80_one_reason (e : Env) (s : Session) (hsm : HeaderSmall e s) (c : Err) (h : HeaderFails e s c) :
    (∀ c', HeaderFails e s c' → c = c') ∧ ¬ HeaderWorks e s := by
  cases h with
  | cmm h =>
    refine ⟨fun c' h' => ?_, fun ⟨row, ctx, m, h', _⟩ => by rw [h] at h'; cases h'⟩
    cases h' with
    | cmm h' => rw [h] at h'; cases h'; rfl
    | suite h' => rw [h] at h'; cases h'
    | check h' => rw [h] at h'; cases h'
  | suite h hu =>
    refine ⟨fun c' h' => ?_, fun ⟨row, ctx, m, h', hr, ha, _⟩ => by rw [h] at h'; cases h'; exact hu row hr ha⟩
    cases h' with
    | cmm h' => rw [h] at h'; cases h'
    | suite h' => rfl
    | check h' hr ha => rw [h] at h'; cases h'; exact absurd ha (hu _ hr)
  | @check row ctx m c h hr ha hc =>
    have hw := (hsm row ctx m h hr ha).2
    constructor
    · intro c' h'
      cases h' with
      | cmm h' => rw [h] at h'; cases h'
      | suite h' hu => rw [h] at h'; cases h'; exact absurd ha (hu _ hr)
      | @check row' ctx' m' c' h' hr' ha' hc' =>
        rw [h] at h'; cases h'
        have : row' = row := row_unique' hr' hr (ha'.trans ha.symm)
        subst this
        exact hc.unique (headerChecks_functional hr hw) hc'
    · rintro ⟨row', ctx', m', h', hr', ha', hn⟩
      rw [h] at h'; cases h'
      have : row' = row := row_unique' hr' hr (ha'.trans ha.symm)
      subst this
      exact hn.not_first hc

/-- The calls that configure a session fail with the error of their first check that fails, and succeed if there is none. -/
theorem C80_setters (E : Env → Prop) (pol : Policy) (e : Env) (v : View) (hv : Reach E pol v) (op : Op) (ho : ConfigCall op) :
    ((apply e v op).2 = .ok ↔ NoneFails (setterChecks v.s op)) ∧ ∀ c, ((apply e v op).2 = .err c ↔ FirstFails (setterChecks v.s op) c) := by
  have fs : ∀ s c, (failSession s c).2 = .err c := by intro s c; unfold failSession; split <;> rfl
  have hf : Functional (setterChecks v.s op) := by
    cases op <;> simp only [setterChecks, functional_cons, functional_nil, and_true] <;> (try exact functional_failsIf) <;>
      (try exact ⟨functional_failsIf, functional_failsIf⟩)
  refine Ends.iff hf ?_
  cases op with
  | setFrameSize n =>
    simp only [apply, setterChecks]
    unfold setFrameSize
    exact .cons (fun h => by rw [if_pos h]) (fun h => by rw [if_neg h]; exact .ok)
  | setMessageSize n =>
    have hu : u64 n = n := Nat.mod_eq_of_lt ho
    simp only [apply, setterChecks]
    unfold setMessageSize
    rw [hu]
    refine .cons (fun h => ?_) (fun h => .cons (fun h2 => ?_) (fun h2 => ?_))
    · by_cases hm : v.s.mode ≠ .encrypt
      · rw [if_pos hm]
      · rw [if_neg hm, if_pos (h.resolve_left hm)]; exact fs _ _
    · rw [if_neg (fun h' => h (.inl h')), if_neg (fun h' => h (.inr h')), if_pos h2]; exact fs _ _
    · rw [if_neg (fun h' => h (.inl h')), if_neg (fun h' => h (.inr h')), if_neg h2]
      obtain ⟨o, i, h'⟩ := computeBodyEstimate_eq e (s := { v.s with preciseSize := n, preciseKnown := true }) (stInv_congr hv.hinv.inv.st rfl)
      rw [h']; exact .ok
  | setMessageBound n =>
    have hu : u64 n = n := Nat.mod_eq_of_lt ho
    simp only [apply, setterChecks]
    unfold setMessageBound
    rw [hu]
    refine .cons (fun h => by rw [if_pos h]) (fun h => .cons (fun h2 => ?_) (fun h2 => ?_))
    · rw [if_neg h, if_pos h2]; exact fs _ _
    · rw [if_neg h, if_neg h2]
      split <;> exact .ok
  | setPolicy p =>
    simp only [apply, setterChecks]
    unfold setCommitmentPolicy
    simp only
    refine .cons (fun h => by rw [h]; rfl) (fun h => .cons (fun h2 => ?_) (fun h2 => ?_))
    · rw [if_neg (by simpa using h), if_pos h2]; exact fs _ _
    · rw [if_neg (by simpa using h), if_neg h2]; exact .ok
  | setMaxEdks n =>
    simp only [apply, setterChecks]
    unfold setMaxEdks
    refine .cons (fun h => by rw [if_pos h]; exact fs _ _) (fun h => .cons (fun h2 => ?_) (fun h2 => ?_))
    · rw [if_neg h, if_pos h2]
    · rw [if_neg h, if_neg h2]; exact .ok
  | reset _ => exact ho.elim
  | editCtx _ _ => exact ho.elim
  | process _ _ => exact ho.elim
  | processFull _ _ _ => exact ho.elim

/-- What a failed configuration call leaves: a session in the error state with this error, or a session whose state is as before. -/
theorem C80_failed_setter (E : Env → Prop) (pol : Policy) (e : Env) (v : View) (h : Reach E pol v) (hl : v.s.state ≠ .error) (op : Op)
    (ho : ConfigCall op) (c : Err) (hc : (apply e v op).2 = .err c) :
    (FailureBreaks v.s op → (apply e v op).1.s.state = .error ∧ (apply e v op).1.s.error = c) ∧
    (¬ FailureBreaks v.s op → (apply e v op).1.s.state = v.s.state ∧ (apply e v op).1.s.error = v.s.error) := by
  have fs : ∀ s c', (failSession s c').2 = .err c → s.state ≠ .error → (failSession s c').1.state = .error ∧ (failSession s c').1.error = c := by
    intro s c' h hs
    unfold failSession at h ⊢
    rw [if_pos hs] at h ⊢
    exact ⟨rfl, Res.err.inj h⟩
  cases op with
  | setFrameSize n =>
    simp only [apply, FailureBreaks] at hc ⊢
    unfold setFrameSize at hc ⊢
    split at hc
    · rename_i h; rw [if_pos h]; exact ⟨fun h => h.elim, fun _ => ⟨rfl, rfl⟩⟩
    · cases hc
  | setMessageSize n =>
    simp only [apply, FailureBreaks] at hc ⊢
    unfold setMessageSize at hc ⊢
    split at hc
    · rename_i h; rw [if_pos h]; exact ⟨fun h' => absurd h' h, fun _ => ⟨rfl, rfl⟩⟩
    · rename_i hm
      rw [if_neg hm]
      refine ⟨fun _ => ?_, fun h => absurd (Decidable.not_not.mp hm) h⟩
      split at hc
      · rename_i h; rw [if_pos h]; exact fs _ _ hc hl
      · rename_i hk
        rw [if_neg hk]
        split at hc
        · rename_i h; rw [if_pos h]; exact fs _ _ hc hl
        · obtain ⟨o, i, h'⟩ := computeBodyEstimate_eq e (s := { v.s with preciseSize := u64 n, preciseKnown := true }) (stInv_congr h.hinv.inv.st rfl)
          rw [h'] at hc; cases hc
  | setMessageBound n =>
    simp only [apply, FailureBreaks] at hc ⊢
    unfold setMessageBound at hc ⊢
    split at hc
    · rename_i h; rw [if_pos h]; exact ⟨fun h' => absurd h' h, fun _ => ⟨rfl, rfl⟩⟩
    · rename_i hm
      rw [if_neg hm]
      refine ⟨fun _ => ?_, fun h => absurd (Decidable.not_not.mp hm) h⟩
      split at hc
      · rename_i h; rw [if_pos h]; exact fs _ _ hc hl
      · split at hc <;> cases hc
  | setPolicy p =>
    simp only [apply, FailureBreaks] at hc ⊢
    unfold setCommitmentPolicy at hc ⊢
    simp only at hc ⊢
    split at hc
    · rename_i h; rw [if_pos h]; exact ⟨fun h' => (by rw [h'] at h; cases h), fun _ => ⟨rfl, rfl⟩⟩
    · rename_i hp
      rw [if_neg hp]
      refine ⟨fun _ => ?_, fun h => absurd (by simpa using hp) h⟩
      split at hc
      · rename_i h; rw [if_pos h]; exact fs _ _ hc hl
      · cases hc
  | setMaxEdks n =>
    simp only [apply, FailureBreaks] at hc ⊢
    unfold setMaxEdks at hc ⊢
    split at hc
    · rename_i h; rw [if_pos h]; exact ⟨fun _ => fs _ _ hc hl, fun h' => absurd h h'⟩
    · rename_i h
      rw [if_neg h]
      refine ⟨fun h' => absurd h' h, fun _ => ?_⟩
      split at hc
      · rename_i h; rw [if_pos h]; exact ⟨rfl, rfl⟩
      · cases hc
  | reset _ => exact ho.elim
  | editCtx _ _ => exact ho.elim
  | process _ _ => exact ho.elim
  | processFull _ _ _ => exact ho.elim

/-- A call with the whole input that fails breaks the session, and later calls fail with the same error. -/
theorem C80_failed_full_call (E : Env → Prop) (pol : Policy) (e : Env) (v : View) (h : Reach E pol v) (hst : v.s.state = .config)
    (mem : Bytes) (inp : Option Bytes) (old : Nat) (c : Err) (hc : (apply e v (.processFull mem inp old)).2 = .err c) :
    let v' := (apply e v (.processFull mem inp old)).1
    v'.s.state = .error ∧ v'.s.error = c ∧ v'.released = v.released ∧
    ∀ e' mem' inp', (apply e' v' (.process mem' inp')).2 = .err c ∧ (apply e' v' (.process mem' inp')).1.released = v.released := by
  have hres : (processFull e v.s mem (inp.getD []) inp.isNone old).res = .err c := by
    simp only [apply] at hc
    split at hc <;> exact hc
  have happ : (apply e v (.processFull mem inp old)).1 = { v with s := (processFull e v.s mem (inp.getD []) inp.isNone old).s } := by
    simp only [apply]
    rw [if_neg (by rw [hres]; simp)]
  have key : (processFull e v.s mem (inp.getD []) inp.isNone old).s.state = .error ∧ (processFull e v.s mem (inp.getD []) inp.isNone old).s.error = c := by
    clear happ hc
    revert hres
    unfold processFull
    rw [if_neg (by simp [hst])]
    have hset : ∀ r : Session × Res, (r = if v.s.mode = .encrypt then setMessageSize e v.s (inp.getD []).length else (v.s, .ok)) →
        (r.2 = .ok ∧ Inv r.1) ∨ ∃ c, r = ({ v.s with error := c, state := .error }, .err c) := by
      rintro r rfl
      by_cases hm : v.s.mode = .encrypt
      · rw [if_pos hm]
        have fs : ∀ c, failSession v.s c = ({ v.s with error := c, state := .error }, .err c) := by
          intro c; unfold failSession; rw [if_pos (by simp [hst])]
        have hinv := (hinv_setMessageSize e h.hinv (inp.getD []).length).1.inv
        unfold setMessageSize at hinv ⊢
        rw [if_neg (by simp [hm])] at hinv ⊢
        split
        · exact Or.inr ⟨_, fs _⟩
        · rename_i h1
          rw [if_neg h1] at hinv
          split
          · exact Or.inr ⟨_, fs _⟩
          · rename_i h2
            rw [if_neg h2] at hinv
            refine Or.inl ⟨?_, hinv⟩
            obtain ⟨o, i, h'⟩ := computeBodyEstimate_eq e (s := { v.s with preciseSize := u64 (inp.getD []).length, preciseKnown := true }) (stInv_congr h.hinv.inv.st rfl)
            rw [h']
      · rw [if_neg hm]; exact Or.inl ⟨rfl, h.hinv.inv⟩
    have hset := hset _ rfl
    simp only
    generalize (if v.s.mode = .encrypt then setMessageSize e v.s (inp.getD []).length else (v.s, .ok)) = r at hset
    rcases hset with ⟨h1, h2⟩ | ⟨c', rfl⟩
    · rw [h1]
      simp only
      have hp := process_cases e r.1 h2 mem (inp.getD []) inp.isNone
      generalize process e r.1 mem (inp.getD []) inp.isNone = o at hp
      cases hp with
      | ok rest hr =>
        rw [hr]
        simp only
        split
        · intro h'; rw [hr] at h'; cases h'
        · intro h'; cases h'; exact ⟨rfl, rfl⟩
      | err c' out inp1 mem1 s1 hr hmem hw hrl hI hst =>
        rw [hr]
        simp only
        intro h'
        exact ⟨hst, Res.err.inj h'⟩
    · simp only
      intro h'
      cases h'
      exact ⟨trivial, rfl⟩
  simp only [happ]
  obtain ⟨k1, k2⟩ := key
  refine ⟨k1, k2, trivial, fun e' mem' inp' => ?_⟩
  have hr : (process e' (processFull e v.s mem (inp.getD []) inp.isNone old).s mem' (inp'.getD []) inp'.isNone).res = .err c := by
    rw [process_error k1, k2]
  simp only [apply]
  rw [if_neg (by rw [hr]; simp)]
  exact ⟨hr, rfl⟩

/-- The session after its message size has been set. -/
abbrev sized (v : View) (n : Nat) : View := { v with s := { v.s with preciseSize := n, preciseKnown := true } }

theorem C80_answer {e : Env} {pol : Policy} {v : View} (hI : HInv (· = e) pol v) (hm : v.s.mode = .encrypt) (hst : v.s.state = .config)
    (hcr : v.consumed = [] ∧ v.released = []) {mem inp : Bytes} (hk : v.s.preciseKnown = true) (hps : v.s.preciseSize = inp.length)
    (hr : (process e v.s mem inp false).res = .ok) (hsz : SizeOK v.s.frameSize inp.length)
    (hnd : ¬ ((process e v.s mem inp false).s.state = .done ∧ (process e v.s mem inp false).read = inp.length)) :
    ∃ row ctx m, e.cmm.generate (keyRequest v.s) = (ctx, .ok m) ∧ row ∈ suiteTable ∧ row.id = m.alg ∧
      mem.length < messageLen row ctx m.edks v.s.frameSize inp.length := by
  have hp := process_cases e v.s hI.inv mem inp false
  have hkp := hinv_process hI (rfl : e = e) mem inp false
  generalize process e v.s mem inp false = o at hp hkp hr hnd
  cases hp with
  | err c' out inp1 mem1 s1 hr' => rw [hr'] at hr; cases hr
  | ok rest hr' hml hw hread hrl hI' hne hsteps hstall =>
    obtain ⟨hkeep, hkp⟩ := hkp
    rcases hkp with ⟨-, -, hH⟩ | ⟨h', -⟩
    case inr => rw [hr] at h'; cases h'
    have hrest : rest.length = inp.length - o.read := by
      have := congrArg List.length hread
      rw [List.length_append, List.length_take] at this
      omega
    have hfs := hkeep.frameSize hm
    have hps' : o.s.preciseSize = inp.length := hkeep.preciseSize.trans hps
    have hkn' : o.s.preciseKnown = true := hkeep.preciseKnown.trans hk
    have hcl : (v.consumed ++ inp.take o.read).length = o.read := by
      rw [hcr.1, List.nil_append, List.length_take]; omega
    have hroom : RoomFor ⟨o.s, v.consumed ++ inp.take o.read, v.released ++ o.mem.take o.written⟩ rest := by
      unfold RoomFor
      simp only [hkn', if_true, hcl, hps', hfs]
      exact ⟨hrl, hsz⟩
    have key := stalled_short hH (hkeep.mode.trans hm) hne hroom hstall hkn' (by simp only [hcl, hps', hrest]; omega)
    simp only at key
    rcases key with h1 | ⟨row, h1, h2, h3⟩
    · exfalso
      refine hnd ⟨h1, ?_⟩
      have hl := hH.live hne
      unfold LiveLog at hl
      simp only [h1] at hl
      rcases hl with ⟨hd', m', p', k, hb', fr, tr, hlog, h2, h3, h4, -, h5⟩ | ⟨_, _, _, _, _, _, _, _, h5, _⟩
      · rw [hcl, hps'] at h5
        exact h5
      · have h6 : o.s.mode.isDecrypt = true := h5.mode
        rw [hkeep.mode, hm] at h6
        cases h6
    · have hlate : ¬ Early o.s := by
        intro hE
        have hst' := hH.inv.st
        unfold StInv at hst'
        simp only at hst'
        rcases hE with hE | hE | hE
        · simp only [hE] at hst'
          unfold getAlgId at h2
          rw [hst'.2.algProps] at h2
          cases h2
        · simp only [hE] at hst'
          unfold getAlgId at h2
          rw [hst'.2.algProps] at h2
          cases h2
        · exact hne hE
      obtain ⟨ctx, m, p, a1, a2, a3, a4, a5⟩ := steps_answer hsteps hI.inv hm (Or.inl hst) hlate
      refine ⟨row, ctx, m, a1, h1, ?_, ?_⟩
      · unfold getAlgId at h2
        rw [a4] at h2
        simp only [Except.ok.injEq] at h2
        rw [← h2, (suiteFacts a5).id]
      · rw [a2, a3, hps', hfs, hcr.2, List.length_append, List.length_nil, List.length_take, hml] at h3
        omega

/-- Why a call that encrypts the whole input fails: its length may not be set, one of the reasons listed for `process`, or the output buffer is
shorter than the message. -/
theorem C80_why_full_call_fails (pol : Policy) (e : Env) (v : View) (h : Reach (· = e) pol v) (hs : SetUpEnc v.s) (hst : v.s.state = .config)
    (inp : Option Bytes) (hsm : HeaderSmall e (sized v (inp.getD []).length).s)
    (mem : Bytes) (old : Nat) (hn : (inp.getD []).length < 2 ^ 64) (c : Err)
    (hc : (apply e v (.processFull mem inp old)).2 = .err c) :
    FirstFails (setterChecks v.s (.setMessageSize (inp.getD []).length)) c ∨
    EncryptFails e (sized v (inp.getD []).length) (inp.getD []) c ∨
    (c = .badCiphertext ∧ (inp ≠ none → SizeOK v.s.frameSize (inp.getD []).length →
      ∃ row ctx m, e.cmm.generate (keyRequest (sized v (inp.getD []).length).s) = (ctx, .ok m) ∧ row ∈ suiteTable ∧ row.id = m.alg ∧
        mem.length < messageLen row ctx m.edks v.s.frameSize (inp.getD []).length)) := by
  have hsetter := C80_setters _ pol e v h (.setMessageSize (inp.getD []).length) hn
  have hres : (processFull e v.s mem (inp.getD []) inp.isNone old).res = .err c := by
    simp only [apply] at hc
    split at hc <;> exact hc
  clear hc
  revert hres
  unfold processFull
  rw [if_neg (by simp [hst])]
  simp only [hs.mode, if_true]
  simp only [apply] at hsetter
  have hI := (hinv_setMessageSize e h.hinv (inp.getD []).length).1
  have hcases := setMessageSize_cases e v.s h.hinv.inv (inp.getD []).length
  cases hr : (setMessageSize e v.s (inp.getD []).length).2 with
  | err c' =>
    simp only
    intro h'
    exact Or.inl ((hsetter.2 c).mp (hr.trans h'))
  | ok =>
    simp only
    intro hres
    right
    have hu : u64 (inp.getD []).length = (inp.getD []).length := Nat.mod_eq_of_lt hn
    have h1 : (setMessageSize e v.s (inp.getD []).length).1 = (sized v (inp.getD []).length).s := by
      unfold setMessageSize at hr ⊢
      rw [if_neg (by simp [hs.mode])] at hr ⊢
      have fs : ∀ s c, (failSession s c).2 = .err c := by intro s c; unfold failSession; split <;> rfl
      split at hr
      · rw [fs] at hr; cases hr
      · rename_i h1
        rw [if_neg h1]
        split at hr
        · rw [fs] at hr; cases hr
        · rename_i h2
          rw [if_neg h2, hu]
          unfold computeBodyEstimate
          rw [if_pos (by simp [hst])]
    rw [h1] at hres hI
    have hcr : v.consumed = [] ∧ v.released = [] := by
      have hl := h.hinv.live (by rw [hst]; simp)
      unfold LiveLog at hl
      simp only [hst] at hl
      exact ⟨hl.1, hl.2.1⟩
    have hperr := enc_process_err (v := sized v (inp.getD []).length) hI ⟨hs.mode, hs.live, hs.policy⟩ h.hasCmm (by simp [hst]) (fun _ => hsm)
      (mem := mem) (inp := inp.getD []) (inNull := inp.isNone) (c := c)
    have hp := process_cases e (sized v (inp.getD []).length).s hI.inv mem (inp.getD []) inp.isNone
    have hkp := (hinv_process hI (rfl : e = e) mem (inp.getD []) inp.isNone)
    have hstall := C80_answer hI hs.mode hst hcr (mem := mem) (inp := inp.getD []) rfl rfl
    cases hp with
    | err c' out inp1 mem1 s1 hr' hmem hw hrl hI' hst' =>
      rw [hr'] at hres
      simp only at hres
      exact Or.inl (hperr (hr'.trans hres)).1
    | ok rest hr' =>
      right
      rw [hr'] at hres
      simp only at hres
      split at hres
      · rw [hr'] at hres; cases hres
      · rename_i hnd
        cases hres
        refine ⟨rfl, fun hsome hsz => ?_⟩
        have hnull : inp.isNone = false := Bool.eq_false_iff.mpr (fun h => hsome (Option.isNone_iff_eq_none.mp h))
        rw [hnull] at hr' hnd
        exact hstall hr' hsz hnd
  | abort => intro h'; cases h'
  | ub => intro h'; cases h'
  | diverge => intro h'; cases h'

/-! ### the hypotheses can be met -/

/-- A session that forbids commitment, with a CMM that answers with a committing suite. -/
def C80_forbid : View := (apply Example.env writeView (.setPolicy .forbidAllow)).1

theorem C80_forbid_reach : Reach (· = Example.env) .forbidAllow C80_forbid :=
  Reach.call (env := Example.env) (.setPolicy .forbidAllow) writeView_reach rfl

theorem C80_forbid_small (v : View) (h : v.s.header.encCtx = [([1], [2])]) : HeaderSmall Example.env v.s := by
  intro row ctx m hg hr ha
  have hc : ctx = [([1], [2])] := by
    have := congrArg Prod.fst hg
    exact this.symm.trans h
  have hm : m.edks = [Example.edk] ∧ m.alg = 0x0578 := by
    have := congrArg Prod.snd hg
    cases this
    exact ⟨rfl, rfl⟩
  rw [hc, hm.1]
  rw [hm.2] at ha
  refine ⟨?_, by unfold DistinctKeys; decide⟩
  revert row
  decide

/-- Its first call fails: the sixth of the reasons, a suite that the policy does not admit. -/
example : HeaderFails Example.env C80_forbid.s .policyViolation ∧
    (apply Example.env C80_forbid (.process (Example.zeros 300) (some [1, 2]))).2 = .err .policyViolation := by
  have hf : HeaderFails Example.env C80_forbid.s .policyViolation := by
    refine .check (row := exampleRow) (ctx := [([1], [2])]) (m := ⟨0x0578, List.replicate 32 1, [Example.edk], [], some ⟨⟨0, none, none⟩, []⟩⟩) rfl
      (by decide) rfl ?_
    unfold headerChecks
    refine firstFails_cons.mpr (.inr ⟨fun c hc => hc.1 (by decide), firstFails_cons.mpr (.inr ⟨fun c hc => absurd hc.1 (by decide),
      firstFails_cons.mpr (.inr ⟨fun c hc => absurd hc.1.1 (by decide), firstFails_cons.mpr (.inr ⟨fun c hc => hc.1 (by decide),
      firstFails_cons.mpr (.inl ⟨?_, rfl⟩)⟩)⟩)⟩)⟩)
    show ¬ exampleRow.commitment = 0
    decide
  exact ⟨hf, (C80_header _ _ _ C80_forbid_reach ⟨rfl, by decide, rfl⟩ rfl (C80_forbid_small _ rfl) _ _ _).1 hf⟩

/-- Primitives that do not encrypt anything but the empty text. -/
def C80_crypto : Crypto where
  hkdf _ _ _ _ n := .ok (List.replicate n 5)
  aeadSeal _ _ _ pt := if pt = [] then some (pt, List.replicate 16 7) else none
  aeadOpen _ _ _ ct tag := if tag = List.replicate 16 7 then .ok ct else .error .badCiphertext
  sigFail _ _ := none
  sign _ := .ok (List.replicate 103 3)
  verify _ sig := if sig = List.replicate 103 3 then .ok () else .error .badCiphertext
  random n := some (List.replicate n 6)
  hkdf_len := by intro _ _ _ _ n k h; cases h; simp
  aeadSeal_len := by
    intro _ _ _ pt ct tag h
    split at h <;> cases h
    simp
  aeadOpen_len := by
    intro _ _ _ ct tag pt h
    split at h <;> cases h
    rfl
  random_len := by intro n b h; cases h; simp

def C80_env : Env := { Example.env with crypto := C80_crypto }

/-- With them the header is written and the first frame is not: there is a reason, and it is not the header. -/
example : Reach (· = C80_env) .requireRequire Example.encNew ∧ SetUpEnc Example.encNew.s ∧
    (∃ v, Reach (· = C80_env) .requireRequire v ∧ SetUpEnc v.s ∧ v.s.state ≠ .config ∧ v.released.length = 101 ∧
      (apply C80_env v (.process (Example.zeros 300) (some (List.replicate 300 1)))).2 = .err .cryptoUnknown ∧
      EncryptFails C80_env v (List.replicate 300 1) .cryptoUnknown) := by
  have h0 : Reach (· = C80_env) .requireRequire Example.encNew := .new (mode := .encrypt) rfl
  have h1 := Reach.call (env := C80_env) (.setFrameSize 4) h0 rfl
  have h2 := Reach.call (env := C80_env) (.process (Example.zeros 102) (some [])) h1 rfl
  refine ⟨h0, ⟨rfl, by decide, rfl⟩, _, h2, ⟨by decide +kernel, by decide +kernel, by decide +kernel⟩, by decide +kernel, by decide +kernel,
    by decide +kernel, ?_⟩
  have := C80_why_encryption_fails _ C80_env _ h2 ⟨by decide +kernel, by decide +kernel, by decide +kernel⟩
    (fun h => absurd h (by decide +kernel)) (Example.zeros 300) (some (List.replicate 300 1)) .cryptoUnknown (by decide +kernel)
  exact this

/-- Calls that configure: on a new session, and after the size has been declared. -/
example : let v := (apply Example.env Example.encNew (.setMessageSize 5)).1
    FirstFails (setterChecks v.s (.setMessageSize 5)) .badState ∧ FirstFails (setterChecks v.s (.setMessageBound 4)) .limitExceeded ∧
    NoneFails (setterChecks v.s (.setMessageBound 5)) ∧ FirstFails (setterChecks v.s (.setMaxEdks 0)) .invalidArgument ∧
    (apply Example.env v (.setMessageBound 4)).1.s.state = .error ∧ (apply Example.env v (.setMaxEdks 0)).1.s.state = .config := by
  have h0 : Reach (· = Example.env) .requireRequire Example.encNew := .new (mode := .encrypt) rfl
  have h1 := Reach.call (env := Example.env) (.setMessageSize 5) h0 rfl
  refine ⟨?_, ?_, ?_, ?_, by decide +kernel, by decide +kernel⟩
  · exact ((C80_setters _ _ Example.env _ h1 (.setMessageSize 5) (by decide : 5 < 2 ^ 64)).2 _).mp (by decide +kernel)
  · exact ((C80_setters _ _ Example.env _ h1 (.setMessageBound 4) (by decide : 4 < 2 ^ 64)).2 _).mp (by decide +kernel)
  · exact (C80_setters _ _ Example.env _ h1 (.setMessageBound 5) (by decide : 5 < 2 ^ 64)).1.mp (by decide +kernel)
  · exact ((C80_setters _ _ Example.env _ h1 (.setMaxEdks 0) trivial).2 _).mp (by decide +kernel)

/-- A call with the whole input and one byte too little for the message. -/
example : (apply Example.env writeView (.processFull (Example.zeros 290) (some [1, 2, 3, 4, 5]) 0)).2 = .err .badCiphertext ∧
    (apply Example.env writeView (.processFull (Example.zeros 291) (some [1, 2, 3, 4, 5]) 0)).2 = .ok ∧
    HeaderSmall Example.env (sized writeView 5).s ∧ SizeOK writeView.s.frameSize 5 :=
  ⟨by decide +kernel, by decide +kernel, C80_forbid_small (sized writeView 5) rfl, by unfold SizeOK; decide⟩

end Verif.Props
