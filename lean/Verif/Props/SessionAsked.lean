import Verif.Proof.SessionAsked
import Verif.Props.SessionSafety
/-
C72: a session asks its CMM for exactly what the caller configured.
-/
namespace Verif.Props
open Verif Verif.Spec

/-- **C72.**  An encrypting session asks its CMM only for materials for the encryption context that the caller sees, with no particular suite
and under the commitment policy in force: no call can tell apart two CMMs that answer those requests alike, and no call depends on how the CMM
decrypts.  (C65 says which size is declared.) -/
theorem C72_encrypt_asks_what_was_configured (E : Env → Prop) (pol : Policy) (v : View) (h : Reach E pol v) (hm : v.s.mode = .encrypt)
    (ctx : EncCtx) (hc : getEncCtx v.s = some ctx) (env : Env) (cmm : Cmm)
    (same : ∀ n, env.cmm.generate { encCtx := ctx, requestedAlg := 0, plaintextSize := n, policy := pol } =
      cmm.generate { encCtx := ctx, requestedAlg := 0, plaintextSize := n, policy := pol }) (op : Op) :
    apply { env with cmm := cmm } v op = apply env v op := by
  have he : v.s.header.encCtx = ctx := by
    simp only [getEncCtx, hm, Mode.isDecrypt] at hc
    simpa using hc
  subst he
  exact apply_same_enc env cmm h.hinv h.not_genKey hm same op

/-- A CMM that answers only requests for the context `[([1], [2])]`, no particular suite and the given policy; it cannot decrypt. -/
def onlyCmm (ctx : EncCtx) (pol : Policy) : Cmm where
  generate := fun req => if req.encCtx = ctx ∧ req.requestedAlg = 0 ∧ req.policy = pol then Example.env.cmm.generate req else (req.encCtx, .error .limitExceeded)
  decrypt := fun _ => .error .limitExceeded

/-- The session of an example, configured. -/
def askedView : View := (apply Example.env (apply Example.env Example.encNew (.editCtx (fun _ => [([1], [2])]) (fun _ _ => by simp [DistinctKeys]))).1
  (.setFrameSize 4)).1

example : Reach (· = Example.env) .requireRequire askedView ∧ askedView.s.mode = .encrypt ∧ getEncCtx askedView.s = some [([1], [2])] ∧
    (∀ n, Example.env.cmm.generate ⟨[([1], [2])], 0, n, .requireRequire⟩ =
      (onlyCmm [([1], [2])] .requireRequire).generate ⟨[([1], [2])], 0, n, .requireRequire⟩) ∧
    (apply Example.env askedView (.processFull (Example.zeros 300) (some [1, 2, 3, 4, 5]) 0)).2 = .ok ∧
    (apply { Example.env with cmm := onlyCmm [([1], [2])] .forbidAllow } askedView (.processFull (Example.zeros 300) (some [1, 2, 3, 4, 5]) 0)).2 ≠ .ok := by
  refine ⟨?_, rfl, rfl, fun n => rfl, by decide +kernel, by decide +kernel⟩
  have h0 : Reach (· = Example.env) .requireRequire Example.encNew := .new (mode := .encrypt) rfl
  have h1 := Reach.call (env := Example.env) (.editCtx (fun _ => [([1], [2])]) (fun _ _ => by simp [DistinctKeys])) h0 rfl
  exact Reach.call (env := Example.env) (.setFrameSize 4) h1 rfl

/-- **C72.**  A decrypting session never asks its CMM for encryption materials: no call depends on how the CMM would answer. -/
theorem C72_decrypt_asks_only_to_decrypt (E : Env → Prop) (pol : Policy) (v : View) (h : Reach E pol v) (hm : v.s.mode.isDecrypt = true)
    (env : Env) (cmm : Cmm) (same : cmm.decrypt = env.cmm.decrypt) (op : Op) : apply { env with cmm := cmm } v op = apply env v op :=
  apply_same_dec env cmm h.hinv hm same op

example : Reach (· = Example.env) .requireRequire (Example.decNew .decrypt) ∧ (Example.decNew .decrypt).s.mode.isDecrypt = true ∧
    (apply { Example.env with cmm := { Example.env.cmm with generate := fun req => (req.encCtx, .error .limitExceeded) } } (Example.decNew .decrypt)
      (.processFull (Example.zeros 50) (some Example.msg) 0)).2 = .ok :=
  ⟨.new (mode := .decrypt) rfl, rfl, by decide +kernel⟩

/-- **C72.**  The encryption context that the caller sees, and that C72 says is asked for, is the one the caller made: a new encrypting session has
none, an edit before processing changes it as the caller says, an edit later changes nothing, and no setter changes it. -/
theorem C72_context_is_what_the_caller_made :
    (∀ s, sessionNew .encrypt = some s → getEncCtx s = some []) ∧
    (∀ v : View, ∀ f hf env, v.s.mode = .encrypt → v.s.state = .config →
      getEncCtx (apply env v (.editCtx f hf)).1.s = (getEncCtx v.s).map f) ∧
    (∀ v : View, ∀ f hf env, v.s.state ≠ .config → (apply env v (.editCtx f hf)).1 = v) ∧
    (∀ v : View, ∀ E pol, Reach E pol v → v.s.mode = .encrypt → ∀ env op, (∃ n, op = .setFrameSize n ∨ op = .setMessageSize n ∨ op = .setMessageBound n ∨ op = .setMaxEdks n) ∨
      (∃ p, op = .setPolicy p) → getEncCtx (apply env v op).1.s = getEncCtx v.s) ∧
    (∀ v : View, ∀ env, getEncCtx (apply env v (.reset .encrypt)).1.s = some []) := by
  have fs : ∀ (s : Session) (e : Err), getEncCtx (failSession s e).1 = getEncCtx s := by
    intro s e; unfold failSession; split <;> rfl
  refine ⟨?_, ?_, ?_, ?_, fun v env => rfl⟩
  · intro s h; cases h; rfl
  · intro v f hf env hm hst
    simp [apply, editEncCtx, hm, hst, getEncCtx, Mode.isDecrypt]
  · intro v f hf env hst
    simp [apply, editEncCtx, hst]
  · rintro v E pol h hm env op (⟨n, rfl | rfl | rfl | rfl⟩ | ⟨p, rfl⟩)
    · simp only [apply, setFrameSize]; split <;> rfl
    · simp only [apply]
      rcases setMessageSize_cases env v.s h.hinv.inv n with ⟨e, s', h1, h2 | h2⟩ | ⟨_, hk, hb, o, i, h1⟩
      · rw [h1, h2]
      · rw [h1, h2]; exact fs _ _
      · rw [h1]; rfl
    · simp only [apply, setMessageBound]
      split
      · rfl
      · split
        · exact fs _ _
        · split <;> rfl
    · simp only [apply, setMaxEdks]
      split
      · exact fs _ _
      · split <;> rfl
    · simp only [apply, setCommitmentPolicy]
      split
      · rfl
      · split
        · exact fs _ _
        · rfl

end Verif.Props
