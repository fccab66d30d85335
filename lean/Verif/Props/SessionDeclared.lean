import Verif.Proof.SessionDeclared
import Verif.Props.SessionSafety
/-
C65: the size that a session declares to its CMM bounds what it encrypts.
-/
namespace Verif.Props
open Verif Verif.Spec

/-- **C65.**  The size that an encrypting session declares to its CMM is an upper bound of what it encrypts: if the CMM gives materials
only to requests that declare at most `L` bytes, a session that is done has consumed at most `L` bytes, whatever calls were made. -/
theorem C65_declared_bounds_consumed (E : Env → Prop) (L : Nat)
    (hcmm : ∀ env, E env → ∀ req ctx m, env.cmm.generate req = (ctx, .ok m) → req.plaintextSize ≤ L) (pol : Policy) (v : View)
    (h : Reach E pol v) (hm : v.s.mode = .encrypt) (hd : isDone v.s = true) : v.consumed.length ≤ L := by
  obtain ⟨h1, h2, _⟩ := C29_done_needs_size E pol v h hm hd
  have hst : v.s.state = .done := by simpa [isDone] using hd
  rcases declared_reach (P := (· ≤ L)) hcmm h hm with he | ⟨n, hP, hle⟩
  · unfold Early at he
    rw [hst] at he
    simp at he
  · rw [declared, if_pos h1] at hle
    rw [h2]
    exact Nat.le_trans hle hP

/-- A CMM that gives materials only for messages of at most six bytes. -/
def smallEnv : Env := { Example.env with cmm := { Example.env.cmm with
  generate := fun req => if req.plaintextSize ≤ 6 then Example.env.cmm.generate req else (req.encCtx, .error .limitExceeded) } }

example : (∀ req ctx m, smallEnv.cmm.generate req = (ctx, .ok m) → req.plaintextSize ≤ 6) ∧
    isDone (run Example.encNew [(smallEnv, .setFrameSize 4), (smallEnv, .setMessageBound 6),
      (smallEnv, .process (Example.zeros 300) (some [1, 2, 3, 4, 5])), (smallEnv, .setMessageSize 5),
      (smallEnv, .process (Example.zeros 300) (some [5]))]).s = true := by
  refine ⟨?_, by decide +kernel⟩
  intro req ctx m h
  simp only [smallEnv] at h
  split at h
  · assumption
  · cases h

/-- **C65.**  If the size was set before the data key was asked for, it is the size declared: with a CMM that gives no materials to requests
that declare it, the session is never done. -/
theorem C65_declared_is_size (E : Env → Prop) (n : Nat) (hn : n < 2 ^ 64)
    (hcmm : ∀ env, E env → ∀ req ctx m, env.cmm.generate req = (ctx, .ok m) → req.plaintextSize ≠ n) (pol : Policy) (v : View)
    (h : Reach E pol v) (hst : v.s.state = .config) (env : Env) (he : E env) (hset : (apply env v (.setMessageSize n)).2 = .ok)
    (hist : List (Env × Op)) (hE : ∀ c ∈ hist, E c.1) (hnr : NoReset hist) :
    isDone (run (apply env v (.setMessageSize n)).1 hist).s = false := by
  have hu : u64 n = n := by simp only [u64]; omega
  have start : HInv E (polAfter pol (.setMessageSize n)) (apply env v (.setMessageSize n)).1 := (hinv_apply h.hinv he _).1
  have hs : (apply env v (.setMessageSize n)).1.s.mode = .encrypt ∧ (apply env v (.setMessageSize n)).1.s.preciseKnown = true ∧
      (apply env v (.setMessageSize n)).1.s.preciseSize = n ∧ Early (apply env v (.setMessageSize n)).1.s := by
    simp only [apply] at hset ⊢
    rcases setMessageSize_cases env v.s h.hinv.inv n with ⟨e, s', h1, h2⟩ | ⟨hm, _, _, o, i, h1⟩
    · rw [h1] at hset; cases hset
    · rw [h1]; exact ⟨hm, rfl, hu, .inl hst⟩
  generalize (apply env v (.setMessageSize n)).1 = w at start hs
  generalize polAfter pol (.setMessageSize n) = pol' at start
  suffices ∀ w pol', HInv E pol' w → w.s.mode = .encrypt → w.s.preciseKnown = true → w.s.preciseSize = n → Early w.s →
      Early (run w hist).s by
    have := this w pol' start hs.1 hs.2.1 hs.2.2.1 hs.2.2.2
    simp only [isDone]
    rcases this with h | h | h <;> rw [h] <;> rfl
  clear start hs w pol'
  induction hist with
  | nil => intro w _ _ _ _ _ h; exact h
  | cons c r ih =>
    intro w pol' hw hm hk hsz hearly
    have hnc := hnr c (by simp)
    have hEc := hE c (by simp)
    have hkeep := apply_keeps hw hEc c.2 hnc
    have hp := hkeep.precise hk
    refine ih (fun x hx => hE x (by simp [hx])) (fun x hx => hnr x (by simp [hx])) (apply c.1 w c.2).1 _ (hinv_apply hw hEc c.2).1
      (hkeep.mode.trans hm) hp.1 (hp.2.trans hsz) ?_
    by_cases hl : Early (apply c.1 w c.2).1.s
    · exact hl
    · obtain ⟨req, ctx, m, h1, _, h3⟩ := apply_declared hw hEc c.2 hnc hm hearly hl
      exact absurd ((h3 hk).trans hsz) (hcmm c.1 hEc req ctx m h1)

example : (apply Example.env Example.encNew (.setMessageSize 7)).2 = .ok ∧
    isDone (run (apply Example.env Example.encNew (.setMessageSize 7)).1
      [(Example.env, .process (Example.zeros 600) (some [1, 2, 3, 4, 5, 6, 7]))]).s = true ∧
    isDone (run (apply smallEnv Example.encNew (.setMessageSize 7)).1
      [(smallEnv, .process (Example.zeros 600) (some [1, 2, 3, 4, 5, 6, 7]))]).s = false := by
  decide +kernel

end Verif.Props
