import Verif.Proof.SessionCongr
import Verif.Spec.SessionExample
/-
Properties of sessions.  `Reach E pol v` says that the view `v` (session, input accepted, output released) is reached by some
history of API calls in which every call since the last reset has an environment (CMM, crypto, allocator) in `E`, with `pol` the
last valid commitment policy set.
-/
namespace Verif.Props
open Verif Verif.Spec

/-! ### C05: the limit on encrypted data keys -/

/-- Whatever an encrypting session with a limit has written starts with a header with at most that many EDKs. -/
theorem C05_encrypt_within_limit (E : Env → Prop) (pol : Policy) (v : View) (h : Reach E pol v) (hm : v.s.mode = .encrypt)
    (hmax : v.s.maxEdks ≠ 0) (hr : v.released ≠ []) :
    ∃ row hd rest, row ∈ suiteTable ∧ v.released = wireHeader row.version hd ++ rest ∧ hd.edks.length ≤ v.s.maxEdks := by
  rcases encrypted_of h.hinv hm with ⟨-, h2⟩ | ⟨row, hd, m, k, fr, tr, h1, h2, -⟩
  · exact absurd h2 hr
  · obtain ⟨e, -, he⟩ := h1.header
    refine ⟨row, hd, bodyBytes fr ++ tr, he.suite, by rw [h1.released, List.append_assoc], ?_⟩
    rcases h2.limit with h | h
    · exact absurd h hmax
    · exact h

/-- Whatever a decrypting session with a limit has consumed starts with a header with at most that many EDKs; in particular
it has not released anything from another message. -/
theorem C05_decrypt_within_limit (E : Env → Prop) (pol : Policy) (v : View) (h : Reach E pol v) (hm : v.s.mode.isDecrypt = true)
    (hmax : v.s.maxEdks ≠ 0) :
    (v.consumed = [] ∧ v.released = []) ∨
    ∃ row hd rest, HeaderOK row hd ∧ v.consumed = wireHeader row.version hd ++ rest ∧ hd.edks.length ≤ v.s.maxEdks := by
  rcases decrypted_of h.hinv hm with ⟨h1, h2, -⟩ | ⟨row, hd, m, k, fr, tr, h1, h2, -⟩
  · exact Or.inl ⟨h1, h2⟩
  · obtain ⟨e, -, he⟩ := h1.header
    refine Or.inr ⟨row, hd, bodyBytes fr ++ tr, he.ok, by rw [h1.consumed, List.append_assoc], ?_⟩
    rcases h2.limit with h | h
    · exact absurd h hmax
    · exact h

/-- The CMM is never asked about a message with more EDKs than the limit: a CMM that answers differently for such requests only
cannot make any difference to a `process` call. -/
theorem C05_cmm_not_asked_beyond_limit (E : Env → Prop) (pol : Policy) (v : View) (h : Reach E pol v) (hmax : v.s.maxEdks ≠ 0)
    (env env' : Env) (henv : env' = { env with cmm := { env.cmm with decrypt := env'.cmm.decrypt } })
    (hsame : ∀ req, req.edks.length ≤ v.s.maxEdks → env.cmm.decrypt req = env'.cmm.decrypt req) (mem inp : Bytes) (inNull : Bool) :
    process env' v.s mem inp inNull = process env v.s mem inp inNull := by
  have := process_withDecrypt env env'.cmm.decrypt v.s h.hinv.inv hmax hsame mem inp inNull
  rw [henv]; exact this

/-- A limit that was accepted is the limit in force. -/
theorem C05_limit_set (s : Session) (n : Nat) (h : (setMaxEdks s n).2 = .ok) : (setMaxEdks s n).1.maxEdks = n ∧ n ≠ 0 := by
  unfold setMaxEdks at h ⊢
  split at h
  · unfold failSession at h; split at h <;> cases h
  · split at h
    · cases h
    · rename_i h1 h2; rw [if_neg h1, if_neg h2]; exact ⟨rfl, h2⟩

/-- No other call changes the limit, and a call that is refused does not either. -/
theorem C05_limit_stays (E : Env → Prop) (pol : Policy) (v : View) (h : Reach E pol v) (env : Env) (he : E env) (op : Op)
    (hop : ∀ n, op = .setMaxEdks n → (apply env v op).2 ≠ .ok) : (apply env v op).1.s.maxEdks = v.s.maxEdks := by
  have hfail : ∀ (s : Session) (e : Err), (failSession s e).1.maxEdks = s.maxEdks := by
    intro s e; unfold failSession; split <;> rfl
  have hset : ∀ n, (setMessageSize env v.s n).1.maxEdks = v.s.maxEdks := by
    intro n
    rcases setMessageSize_cases env v.s h.hinv.inv n with ⟨e, s', h1, h2⟩ | ⟨hm, hk, hb, o, i, h1⟩
    · rw [h1]
      rcases h2 with rfl | rfl
      · rfl
      · exact hfail _ _
    · rw [h1]
  cases op with
  | reset m => simp only [apply, reset]; split <;> simp [hfail]
  | setFrameSize n => simp only [apply, setFrameSize]; split <;> rfl
  | setMessageSize n => exact hset n
  | setMessageBound n =>
    simp only [apply, setMessageBound]
    split
    · rfl
    · split
      · exact hfail _ _
      · split <;> rfl
  | setPolicy p =>
    simp only [apply, setCommitmentPolicy]
    split
    · rfl
    · split
      · exact hfail _ _
      · rfl
  | setMaxEdks n =>
    have := hop n rfl
    simp only [apply, setMaxEdks] at this ⊢
    split
    · exact hfail _ _
    · split
      · rfl
      · rename_i h1 h2; rw [if_neg h1, if_neg h2] at this; simp at this
  | editCtx f hf => simp only [apply, editEncCtx]; split <;> rfl
  | process mem inp =>
    have := ((hinv_process h.hinv he mem (inp.getD []) inp.isNone).1).maxEdks
    simp only [apply]
    split <;> exact this
  | processFull mem inp old =>
    have : (processFull env v.s mem (inp.getD []) inp.isNone old).s.maxEdks = v.s.maxEdks := by
      unfold processFull
      split
      · rfl
      · have hs : (if v.s.mode = .encrypt then setMessageSize env v.s (inp.getD []).length else (v.s, .ok)).1.maxEdks = v.s.maxEdks := by
          split
          · exact hset _
          · rfl
        have hh : HInv E pol { v with s := (if v.s.mode = .encrypt then setMessageSize env v.s (inp.getD []).length else (v.s, .ok)).1 } := by
          split
          · exact (hinv_setMessageSize env h.hinv _).1
          · exact h.hinv
        simp only
        generalize (if v.s.mode = .encrypt then setMessageSize env v.s (inp.getD []).length else (v.s, .ok)) = r at hs hh ⊢
        obtain ⟨s1, res⟩ := r
        simp only at hs hh ⊢
        have hp := ((hinv_process hh he mem (inp.getD []) inp.isNone).1).maxEdks
        simp only at hp
        cases res <;> simp only <;> try exact hs
        split
        · split
          · exact hp.trans hs
          · exact hp.trans hs
        · exact hp.trans hs
        · exact hp.trans hs
    simp only [apply]
    split <;> exact this

/-- The history used below: an encryption with a limit of two EDKs. -/
def C05_hist : List (Env × Op) := (Example.env, .setMaxEdks 2) :: Example.encHist

example : ∃ pol v, Reach (· = Example.env) pol v ∧ v.s.mode = .encrypt ∧ v.s.maxEdks = 2 ∧ v.released.length > 100 ∧ isDone v.s = true :=
  ⟨_, _, reach_run (.new (mode := .encrypt) rfl) C05_hist (by simp [C05_hist, Example.encHist]), by decide +kernel⟩

/-! ### C14: nonces -/

/-- The (key, IV) pairs given to the AEAD since the session was created or reset have one key and pairwise distinct IVs. -/
theorem C14_nonces_distinct (E : Env → Prop) (pol : Policy) (v : View) (h : Reach E pol v) :
    (v.s.nonces.map Prod.snd).Nodup ∧ (∀ x ∈ v.s.nonces, ∀ y ∈ v.s.nonces, x.1 = y.1) :=
  h.hinv.nonces

/-- The record is complete: a `process` call can depend on the AEAD only through the recorded (key, IV) pairs. -/
theorem C14_record_complete (E : Env → Prop) (pol : Policy) (v : View) (h : Reach E pol v) (env : Env)
    (f : Bytes → Bytes → Bytes → Bytes → Option (Bytes × Bytes))
    (hf : ∀ key iv aad pt ct tag, f key iv aad pt = some (ct, tag) → ct.length = pt.length ∧ tag.length = 16) (mem inp : Bytes)
    (inNull : Bool)
    (hagree : ∀ x ∈ (process env v.s mem inp inNull).s.nonces, ∀ aad pt, env.crypto.aeadSeal x.1 x.2 aad pt = f x.1 x.2 aad pt) :
    process { env with crypto := { env.crypto with aeadSeal := f, aeadSeal_len := hf } } v.s mem inp inNull =
      process env v.s mem inp inNull :=
  process_withSeal env f hf v.s mem inp inNull h.hinv.inv hagree

/-- In terms of the message written: the header tag is sealed under the all-zero IV and frame number `i` under the IV `i`,
all under one key, and these IVs are pairwise distinct. -/
theorem C14_message_nonces (E : Env → Prop) (pol : Policy) (v : View) (h : Reach E pol v) (hm : v.s.mode = .encrypt)
    (hr : v.released ≠ []) :
    ∃ row hd m k fr tr, Encrypted E row hd m k fr tr v.consumed v.released ∧
      (List.replicate 12 0 :: fr.map (fun x => x.1.iv)).Nodup := by
  rcases encrypted_of h.hinv hm with ⟨-, h2⟩ | ⟨row, hd, m, k, fr, tr, h1, -⟩
  · exact absurd h2 hr
  · refine ⟨row, hd, m, k, fr, tr, h1, ?_⟩
    have hc := allFrames_count h1.frames
    have hn := (nonceOK_frames k fr.length (by omega)).1
    have : fr.map (fun x => x.1.iv) = (List.range fr.length).map (fun i => bodyIv (i + 1)) := by
      apply List.ext_getElem (by simp)
      intro i h2 h3
      simp only [List.getElem_map, List.getElem_range]
      exact (h1.frames i (by simpa using h2)).iv
    rw [this]
    simpa [Function.comp_def] using hn

example : (run Example.encNew Example.encHist).s.nonces.length = 3 := by decide +kernel

/-! ### C20 and C60: complete messages -/

/-- A decrypting session reports done only for a whole message: a verified header, all frames up to a final one opened in
order, and, for a signing suite, a verified signature over exactly header and body. -/
theorem C20_done_means_verified (E : Env → Prop) (pol : Policy) (v : View) (h : Reach E pol v) (hm : v.s.mode.isDecrypt = true)
    (hd : isDone v.s = true) :
    ∃ row hd m k fr tr, Decrypted E row hd m k fr tr v.consumed v.released ∧ Complete fr ∧
      SignatureVerified E row m (wireHeader row.version hd ++ bodyBytes fr) tr := by
  have hst : v.s.state = .done := by simpa [isDone] using hd
  rcases decrypted_of h.hinv hm with ⟨-, -, h3⟩ | ⟨row, hd, m, k, fr, tr, h1, -, -, h2⟩
  · rw [hst] at h3; simp at h3
  · exact ⟨row, hd, m, k, fr, tr, h1, h2 hst⟩

example : Reach (· = Example.env) .requireRequire (run (Example.decNew .decrypt) Example.decHist) ∧
    isDone (run (Example.decNew .decrypt) Example.decHist).s = true ∧
    (run (Example.decNew .decrypt) Example.decHist).released = [1, 2, 3, 4, 5, 6] :=
  ⟨Example.decHist_reach .decrypt (Or.inl rfl), by decide +kernel⟩

/-- A finished encryption has written a whole message: header, sealed frames up to a final one that together carry the input,
and the signature trailer of the suite. -/
theorem C60_done_means_complete (E : Env → Prop) (pol : Policy) (v : View) (h : Reach E pol v) (hm : v.s.mode = .encrypt)
    (hd : isDone v.s = true) :
    ∃ row hd m k fr tr, Encrypted E row hd m k fr tr v.consumed v.released ∧ Complete fr ∧
      Signed E row m (wireHeader row.version hd ++ bodyBytes fr) tr ∧ hd.frameLen = v.s.frameSize := by
  have hst : v.s.state = .done := by simpa [isDone] using hd
  rcases h.hinv.log with hl | ⟨he, -⟩
  · rcases encrypted_of_live h.hinv.inv hl hm with ⟨-, -, h3⟩ | ⟨hd, m, p, k, hb, fr, h1, h2⟩
    · rw [hst] at h3; simp at h3
    · rcases encrypted_of h.hinv hm with ⟨hc, hr⟩ | ⟨row, hd, m, k, fr, tr, h1, h2, -, h3⟩
      · exfalso
        rcases h2 with ⟨h, -⟩ | ⟨h, -⟩ | ⟨h, -⟩ | ⟨-, tr, -, h4, -⟩
        · rw [hst] at h; cases h
        · rw [hst] at h; cases h
        · rw [hst] at h; cases h
        · rw [hr] at h4
          obtain ⟨row, -, -, ⟨e, -, hmade⟩, hbw, -⟩ := encLog_facts h1
          have : hb = [] := by
            have := congrArg List.length h4
            simp only [List.length_append, List.length_nil] at this
            exact List.eq_nil_of_length_eq_zero (by omega)
          rw [this] at hbw
          have hl := congrArg List.length hbw
          have hsf := hmade.tag
          obtain ⟨ct, hct⟩ := hsf
          have ht := (e.crypto.aeadSeal_len _ _ _ _ _ _ hct).2
          unfold wireHeader at hl
          simp only [List.length_append, List.length_nil] at hl
          omega
      · exact ⟨row, hd, m, k, fr, tr, h1, (h3 hst).1, (h3 hst).2, h2.frameLen⟩
  · rw [hst] at he; cases he

example : Reach (· = Example.env) .requireRequire (run Example.encNew Example.encHist) ∧
    isDone (run Example.encNew Example.encHist).s = true ∧ (run Example.encNew Example.encHist).consumed = [1, 2, 3, 4, 5, 6] :=
  ⟨Example.encHist_reach, by decide +kernel⟩

end Verif.Props
