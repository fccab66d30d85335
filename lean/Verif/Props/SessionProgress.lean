import Verif.Proof.SessionProgress
import Verif.Spec.SessionExample
/-
Properties of sessions, continued: what following the size estimates achieves.
-/
namespace Verif.Props
open Verif Verif.Spec

/-! ### C28: following the estimates makes progress

The documentation of `aws_cryptosdk_session_estimate_buf` (session.h, lines 284-294) promises that supplying the estimated amounts
makes progress, where a mere increase of the estimates counts as progress.  That promise is proved for all reachable sessions
except in two situations in which it is false: input given as a NULL pointer, and unframed encryption before the message size is
known. -/

/-- After a successful call that does not finish the message, the estimates ask for more than what the call left over: the
unread input is shorter than the input estimate, or the unused output space is smaller than the output estimate. -/
theorem C28_estimates_exceed_leftovers_partial (pol : Policy) (v : View) (h : Reach (fun _ => True) pol v) (env : Env)
    (mem inp : Bytes) (hlen : inp.length < 2 ^ 63)
    (hok : (process env v.s mem inp false).res = .ok)
    (hsz : v.s.mode = .encrypt → v.s.frameSize ≠ 0 ∨ v.s.preciseKnown = true) :
    let o := process env v.s mem inp false
    isDone o.s = true ∨ inp.length - o.read < (estimateBuf o.s).2 ∨ mem.length - o.written < (estimateBuf o.s).1 := by
  have hc := process_cases env v.s h.hinv.inv mem inp false
  have hk := (hinv_process (env := env) h.hinv trivial mem inp false).1
  generalize process env v.s mem inp false = o at hc hk hok ⊢
  simp only [estimateBuf, isDone, decide_eq_true_eq]
  cases hc with
  | err e out inp1 mem1 s1 hr => rw [hr] at hok; cases hok
  | ok rest hr hml hw hread hrl hI hne hsteps hstall =>
    have hl : rest.length = inp.length - o.read := by
      have := congrArg List.length hread
      rw [List.length_append, List.length_take] at this
      omega
    cases stall_case (by omega) (by simp) hstall with
    | done h => exact Or.inl h
    | input h => exact Or.inr (Or.inl (by omega))
    | room h => exact Or.inr (Or.inr h)
    | null _ h => exact absurd h.1 (by simp)
    | noSize hst hn he =>
      exfalso
      have hm := hI.st
      unfold StInv at hm
      simp only [hst] at hm
      have hme : v.s.mode = .encrypt := by rw [← hk.mode]; exact hm.1
      rcases hsz hme with h1 | h1
      · exact h1 (by rw [← hk.frameSize hme]; exact hn.1)
      · rw [← hk.preciseKnown, hn.2] at h1; cases h1

/-- Decrypting 50 of 292 bytes: nothing can be done yet, and 178 bytes are asked for. -/
example : (process Example.env (Example.decNew .decrypt).s (Example.zeros 5) (Example.msg.take 50) false).res = .ok ∧
    estimateBuf (process Example.env (Example.decNew .decrypt).s (Example.zeros 5) (Example.msg.take 50) false).s = (0, 178) := by
  decide +kernel

/-- The documented promise: given at least the estimated input and output space, a call fails, finishes the message, reads, writes,
or raises an estimate. -/
theorem C28_documented_progress_partial (pol : Policy) (v : View) (h : Reach (fun _ => True) pol v) (env : Env)
    (mem inp : Bytes) (hlen : inp.length < 2 ^ 63)
    (hout : (estimateBuf v.s).1 ≤ mem.length) (hin : (estimateBuf v.s).2 ≤ inp.length)
    (hsz : v.s.mode = .encrypt → v.s.frameSize ≠ 0 ∨ v.s.preciseKnown = true) :
    let o := process env v.s mem inp false
    o.res ≠ .ok ∨ isDone o.s = true ∨ 0 < o.read ∨ 0 < o.written ∨
      (estimateBuf v.s).1 < (estimateBuf o.s).1 ∨ (estimateBuf v.s).2 < (estimateBuf o.s).2 := by
  simp only
  by_cases hok : (process env v.s mem inp false).res = .ok
  · have := C28_estimates_exceed_leftovers_partial pol v h env mem inp hlen hok hsz
    simp only at this
    generalize process env v.s mem inp false = o at *
    rcases this with h1 | h1 | h1
    · exact Or.inr (Or.inl h1)
    · omega
    · omega
  · exact Or.inl hok

/-- Giving those 178 bytes makes progress: the header and the first frame are read. -/
example : (process Example.env (run (Example.decNew .decrypt) [(Example.env, .process (Example.zeros 5) (some (Example.msg.take 50)))]).s
      (Example.zeros 5) (Example.msg.take 178) false).read = 145 := by decide +kernel

/-- Encryption does better: once the suite is known (the first call has succeeded), the estimates are exact, and a call given that
much fails, finishes the message or writes. -/
theorem C28_encryption_progress_partial (pol : Policy) (v : View) (h : Reach (fun _ => True) pol v) (env : Env)
    (mem inp : Bytes) (a : Nat) (hmode : v.s.mode = .encrypt) (hid : getAlgId v.s = .ok a)
    (hout : (estimateBuf v.s).1 ≤ mem.length) (hin : (estimateBuf v.s).2 ≤ inp.length)
    (hsz : v.s.frameSize ≠ 0 ∨ v.s.preciseKnown = true) :
    let o := process env v.s mem inp false
    o.res ≠ .ok ∨ isDone o.s = true ∨ 0 < o.written := by
  simp only
  by_cases hok : (process env v.s mem inp false).res ≠ .ok
  · exact Or.inl hok
  rw [Decidable.not_not] at hok
  refine Or.inr ?_
  have hI := h.hinv.inv
  obtain ⟨hs, hw, out, rest, hsteps⟩ := process_first hI hok
  have hest := h.estOK
  have hc := sessionStep_cases env v.s hI mem inp false
  have hdone : (sessionStep env v.s ⟨mem, 0⟩ inp false).s.state = .done → isDone (process env v.s mem inp false).s = true := by
    intro hd
    rw [steps_done hsteps hd]
    simpa [isDone] using hd
  generalize process env v.s mem inp false = o at *
  generalize sessionStep env v.s ⟨mem, 0⟩ inp false = r at *
  have hst := hI.st
  unfold StInv at hst
  simp only [estimateBuf] at hout hin
  have hfresh : Fresh v.s → False := by
    intro hf
    rw [getAlgId, show v.s.algProps = none from hf.algProps] at hid
    cases hid
  cases hc with
  | cfgFail h hr => rw [hr] at hs; cases hs
  | cfgEnc h _ _ _ hr => simp only [h] at hst; exact (hfresh hst.2).elim
  | cfgDec h _ _ _ hr => simp only [h] at hst; exact (hfresh hst.2).elim
  | parse h hc => simp only [h] at hst; exact (hfresh hst.2).elim
  | gen h hc => simp only [h] at hst; exact (hfresh hst.2).elim
  | dec h hc => simp only [h, hmode] at hst; exact absurd hst.1 (by decide)
  | check h hc => simp only [h, hmode] at hst; exact absurd hst.1 (by decide)
  | done h hr => exact Or.inl (hdone (by rw [hr]; exact h))
  | error h hr => rw [hr] at hs; cases hs
  | header h hc =>
    simp only [h] at hst
    obtain ⟨-, -, -, -, ⟨c', hc1, hc2, hc3⟩, -⟩ := hst
    unfold EstOK at hest
    simp only [h] at hest
    cases hc with
    | wrote c hcp hroom hr =>
      rw [hcp] at hc1; cases hc1
      rw [hr] at hw
      simp only at hw
      exact Or.inr (by omega)
    | stall c hcp hroom hr =>
      rw [hcp] at hc1; cases hc1
      omega
  | body p h hsp hp hc =>
    unfold EstOK at hest
    simp only [h] at hest
    cases hc with
    | fail e o i ns hr => rw [hr] at hs; cases hs
    | wrote type pt ct tag sg hr hk hinp' hnull hs hroom' hbuf =>
      rw [hbuf] at hw
      have hpos : 0 < frameSize type pt.length := by cases type <;> simp [frameSize]
      simp only at hw
      exact Or.inr (by omega)
    | stall o i hr hinp' hs hml hbl why =>
      exfalso
      rcases why with ⟨w1, w2, w3⟩ | ⟨type, n', w1, w2, w3, w4, w5, w6⟩
      · unfold nextFrame at w1
        split at w1
        · split at w1 <;> cases w1
        · rename_i hf
          split at w1
          · rename_i hp
            rcases hsz with h1 | h1
            · exact hf h1
            · rw [h1] at hp; cases hp
          · cases w1
      · obtain ⟨e1, e2⟩ := hest _ _ w1 w2 w3
        rcases w6 with h1 | h1 | h1
        · omega
        · cases h1
        · omega
  | trailer p h hsp hp hc =>
    unfold EstOK at hest
    simp only [h] at hest
    cases hc with
    | fail e hr => rw [hr] at hs; cases hs
    | stall hr hinp' hs hbuf hsig why =>
      have := hest p hsp hsig
      omega
    | unsigned hr hinp' hs => exact Or.inl (hdone (by rw [hs]))
    | signed ctx sig hr hinp' hsig hctx hsign hs => exact Or.inl (hdone (by rw [hs]))

/-- After five of six bytes: the final frame of two bytes needs 42 bytes of space. -/
def C28_midway : View := run Example.encNew (Example.encHist.take 4)

example : Reach (fun _ => True) .requireRequire C28_midway :=
  Example.reach_hist (v := Example.encNew) (.new (mode := .encrypt) rfl) (Example.encHist.take 4) (fun _ _ => trivial)

example : C28_midway.s.mode = .encrypt ∧ getAlgId C28_midway.s = .ok 0x0578 ∧ estimateBuf C28_midway.s = (42, 2) ∧
    C28_midway.s.frameSize ≠ 0 ∧ (process Example.env C28_midway.s (Example.zeros 42) [5, 6] false).written = 42 := by
  decide +kernel

/-- What is missing, first: with unframed encryption and no message size, the estimates are zero and a call with any amount of
input and space does nothing, although neither failure nor the end of the message has been reached.  (Setting the message size
cures this.) -/
theorem C28_refuted_unframed_without_size :
    let v := run Example.encNew [(Example.env, .setFrameSize 0), (Example.env, .process (Example.zeros 200) (some [1, 2, 3]))]
    Reach (fun _ => True) .requireRequire v ∧ estimateBuf v.s = (0, 0) ∧
      ∀ mem inp inNull, process Example.env v.s mem inp inNull = ⟨v.s, mem, 0, 0, .ok⟩ ∧ isDone v.s = false := by
  simp only
  refine ⟨Example.reach_hist (v := Example.encNew) (.new (mode := .encrypt) rfl) [(Example.env, .setFrameSize 0), (Example.env, .process (Example.zeros 200) (some [1, 2, 3]))]
    (fun _ _ => trivial), by decide +kernel, ?_⟩
  have h1 : (run Example.encNew [(Example.env, .setFrameSize 0), (Example.env, .process (Example.zeros 200) (some [1, 2, 3]))]).s.state =
      .encryptBody := by decide +kernel
  have h2 : nextFrame (run Example.encNew [(Example.env, .setFrameSize 0), (Example.env, .process (Example.zeros 200) (some [1, 2, 3]))]).s =
      none := by decide +kernel
  have h3 : (run Example.encNew [(Example.env, .setFrameSize 0), (Example.env, .process (Example.zeros 200) (some [1, 2, 3]))]).s.outEst =
      0 := by decide +kernel
  have h4 : (run Example.encNew [(Example.env, .setFrameSize 0), (Example.env, .process (Example.zeros 200) (some [1, 2, 3]))]).s.inEst =
      0 := by decide +kernel
  generalize (run Example.encNew [(Example.env, .setFrameSize 0), (Example.env, .process (Example.zeros 200) (some [1, 2, 3]))]).s = s at *
  intro mem inp inNull
  refine ⟨?_, by simp [isDone, h1]⟩
  have hs : { s with outEst := 0, inEst := 0, state := .encryptBody } = s := by
    obtain ⟨⟩ := s
    simp only at h1 h3 h4
    rw [h1, h3, h4]
  have hstep : sessionStep Example.env s ⟨mem, 0⟩ inp inNull = ⟨s, ⟨mem, 0⟩, inp, .ok⟩ := by
    unfold sessionStep tryEncryptBody
    simp only [h1, h2]
    rw [hs]
  unfold process
  rw [show processFuel mem inp = (mem.length + inp.length + 7) + 1 from rfl]
  unfold processLoop
  simp [hstep, h1]

/-- Second: a final frame that is empty needs no input, and the input estimate is zero; but with a NULL input pointer the frame is
not written however much space there is. -/
theorem C28_refuted_null_input :
    let v := run Example.encNew [(Example.env, .setFrameSize 4), (Example.env, .setMessageSize 0), (Example.env, .process (Example.zeros 200) none)]
    Reach (fun _ => True) .requireRequire v ∧ estimateBuf v.s = (40, 0) ∧ isDone v.s = false ∧
      (let o := process Example.env v.s (Example.zeros 200) [] true
       o.res = .ok ∧ o.written = 0 ∧ o.s = v.s) ∧
      (let o := process Example.env v.s (Example.zeros 200) [] false
       o.res = .ok ∧ isDone o.s = true ∧ o.written = 145) := by
  simp only
  exact ⟨Example.reach_hist (v := Example.encNew) (.new (mode := .encrypt) rfl)
    [(Example.env, .setFrameSize 4), (Example.env, .setMessageSize 0), (Example.env, .process (Example.zeros 200) none)]
    (fun _ _ => trivial), by decide +kernel⟩

/-- Third: in decryption following the estimates may take several calls that only raise them, as documented: the header of the
example message has 109 bytes, but a new session asks for one byte. -/
theorem C28_refuted_without_estimate_growth :
    let v := Example.decNew .decrypt
    let o := process Example.env v.s (Example.zeros 1) (Example.msg.take 1) false
    estimateBuf v.s = (1, 1) ∧ o.res = .ok ∧ o.read = 0 ∧ o.written = 0 ∧ isDone o.s = false ∧ estimateBuf o.s = (0, 129) := by
  decide +kernel

end Verif.Props
