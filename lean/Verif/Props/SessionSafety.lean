import Verif.Props.Session
/-
Properties of sessions, continued: failures, policies, accessors, sizes, reset.
-/
namespace Verif.Props
open Verif Verif.Spec

/-! ### C21: failures -/

/-- A failing `process` call reports no output and zeroes the caller's buffer; until the next reset, every later `process` call
fails with the same error and does the same. -/
theorem C21_failure_is_zeroed_and_sticky (E : Env → Prop) (pol : Policy) (v : View) (h : Reach E pol v) (env : Env) (he : E env)
    (mem inp : Bytes) (inNull : Bool) (hf : (process env v.s mem inp inNull).res ≠ .ok) :
    ∃ e, (process env v.s mem inp inNull).res = .err e ∧ (process env v.s mem inp inNull).written = 0 ∧
      (process env v.s mem inp inNull).mem = List.replicate mem.length 0 ∧
      ∀ (c r : Bytes) (hist : List (Env × Op)), (∀ x ∈ hist, E x.1) → NoReset hist →
        ∀ (env' : Env) (mem' inp' : Bytes) (inNull' : Bool),
          let o := process env' (run ⟨(process env v.s mem inp inNull).s, c, r⟩ hist).s mem' inp' inNull'
          o.res = .err e ∧ o.written = 0 ∧ o.mem = List.replicate mem'.length 0 := by
  have hc := process_cases env v.s h.hinv.inv mem inp inNull
  have hi := (hinv_process h.hinv he mem inp inNull).2
  generalize process env v.s mem inp inNull = o at hc hi hf ⊢
  cases hc with
  | ok rest hr => exact absurd hr hf
  | err e out inp1 mem1 s1 hr hmem hw hrl hI hst hsteps hI1 hfail hs =>
    rcases hi with ⟨h1, -⟩ | ⟨-, -, hh⟩
    · exact absurd h1 hf
    · refine ⟨o.s.error, hr, hw, hmem, fun c r hist hE hn env' mem' inp' inNull' => ?_⟩
      have key : ∀ (hist : List (Env × Op)) (c r c' r' : Bytes) (s : Session), (run ⟨s, c, r⟩ hist).s = (run ⟨s, c', r'⟩ hist).s := by
        intro hist
        induction hist with
        | nil => intros; rfl
        | cons x l ih =>
          intro c r c' r' s
          obtain ⟨en, op⟩ := x
          have hr : ∀ (v : View), run v ((en, op) :: l) = run (apply en v op).1 l := fun _ => rfl
          rw [hr, hr]
          have : (apply en ⟨s, c, r⟩ op).1.s = (apply en ⟨s, c', r'⟩ op).1.s := by
            cases op <;> simp only [apply] <;> split <;> rfl
          generalize (apply en ⟨s, c, r⟩ op).1 = v1 at this ⊢
          generalize (apply en ⟨s, c', r'⟩ op).1 = v2 at this ⊢
          obtain ⟨s1, c1, r1⟩ := v1
          obtain ⟨s2, c2, r2⟩ := v2
          simp only at this
          subst this
          exact ih _ _ _ _ _
      rw [key hist c r v.consumed v.released o.s]
      have hk := (run_keeps hh hist hE hn).error hst
      simp only
      rw [process_error hk.1, hk.2]
      exact ⟨rfl, rfl, rfl⟩

/-- Corrupting the last byte of the final frame's tag: the first slice succeeds, the second fails. -/
def C21_bad : Bytes := Example.msg.take 186 ++ [0] ++ Example.msg.drop 187

example : (process Example.env (run (Example.decNew .decrypt)
      [(Example.env, .process (Example.zeros 5) (some (C21_bad.take 145)))]).s (Example.zeros 5) (C21_bad.drop 145) false).res =
    .err .badCiphertext := by decide +kernel

/-! ### C22: commitment policies -/

/-- The message an encrypting session that has not failed is writing has a suite admitted by the policy in force. -/
theorem C22_encrypt_policy (E : Env → Prop) (pol : Policy) (v : View) (h : Reach E pol v) (hm : v.s.mode = .encrypt)
    (hne : v.s.state ≠ .error) (hr : v.released ≠ []) :
    ∃ row hd rest, row ∈ suiteTable ∧ hd.algId = row.id ∧ v.released = wireHeader row.version hd ++ rest ∧ MayEncrypt pol row := by
  rcases encrypted_of h.hinv hm with ⟨-, h2⟩ | ⟨row, hd, m, k, fr, tr, h1, h2, -⟩
  · exact absurd h2 hr
  · obtain ⟨e, -, he⟩ := h1.header
    obtain ⟨pol', hp, hpe⟩ := h2.policy
    exact ⟨row, hd, bodyBytes fr ++ tr, he.suite, he.alg.1, by rw [h1.released, List.append_assoc], by rw [← hpe hne]; exact hp⟩

/-- A decrypting session that has not failed has consumed nothing and released nothing, or its message has a suite admitted by
the policy in force. -/
theorem C22_decrypt_policy (E : Env → Prop) (pol : Policy) (v : View) (h : Reach E pol v) (hm : v.s.mode.isDecrypt = true)
    (hne : v.s.state ≠ .error) :
    (v.consumed = [] ∧ v.released = []) ∨
    ∃ row hd rest, HeaderOK row hd ∧ v.consumed = wireHeader row.version hd ++ rest ∧ MayDecrypt pol row := by
  rcases decrypted_of h.hinv hm with ⟨h1, h2, -⟩ | ⟨row, hd, m, k, fr, tr, h1, h2, -⟩
  · exact Or.inl ⟨h1, h2⟩
  · obtain ⟨e, -, he⟩ := h1.header
    obtain ⟨pol', hp, hpe⟩ := h2.policy
    exact Or.inr ⟨row, hd, bodyBytes fr ++ tr, he.ok, by rw [h1.consumed, List.append_assoc], by rw [← hpe hne]; exact hp⟩

/-- Whatever happened later, the message was admitted by a policy in force when its header was handled: never by an invalid
one. -/
theorem C22_some_policy (E : Env → Prop) (pol : Policy) (v : View) (h : Reach E pol v) (hr : v.released ≠ []) :
    ∃ row hd rest pol', row ∈ suiteTable ∧
      ((v.s.mode = .encrypt ∧ v.released = wireHeader row.version hd ++ rest ∧ MayEncrypt pol' row) ∨
       (v.s.mode.isDecrypt = true ∧ v.consumed = wireHeader row.version hd ++ rest ∧ MayDecrypt pol' row)) := by
  by_cases hm : v.s.mode = .encrypt
  · rcases encrypted_of h.hinv hm with ⟨-, h2⟩ | ⟨row, hd, m, k, fr, tr, h1, h2, -⟩
    · exact absurd h2 hr
    · obtain ⟨e, -, he⟩ := h1.header
      obtain ⟨pol', hp, -⟩ := h2.policy
      exact ⟨row, hd, bodyBytes fr ++ tr, pol', he.suite, Or.inl ⟨hm, by rw [h1.released, List.append_assoc], hp⟩⟩
  · cases hd : v.s.mode.isDecrypt with
    | false =>
      exfalso
      have hl : v.s.state = .error := by
        apply Decidable.byContradiction
        intro hne
        have hst := h.hinv.inv.st
        unfold StInv at hst
        cases hs : v.s.state <;> simp only [hs, ne_eq, not_true_eq_false, reduceCtorEq] at hst hne <;>
          (cases hmm : v.s.mode <;> simp_all [Mode.isDecrypt, Mode.isValid])
      rcases h.hinv.log with hl' | ⟨-, ⟨-, h2⟩ | ⟨s0, pol0, hl', hI, h1, -⟩⟩
      · simp only [LiveLog, hl] at hl'
      · exact hr h2
      · have hst := hI.st
        unfold StInv at hst
        unfold LiveLog at hl'
        rw [← h1] at hm hd
        clear h1
        cases hs : s0.state <;> simp only [hs] at hst hl' <;>
          (cases hmm : s0.mode <;> rw [hmm] at hst hm hd <;> simp_all [Mode.isDecrypt, Mode.isValid])
    | true =>
      rcases decrypted_of h.hinv hd with ⟨-, h2, -⟩ | ⟨row, hh, m, k, fr, tr, h1, h2, -⟩
      · exact absurd h2 hr
      · obtain ⟨e, -, he⟩ := h1.header
        obtain ⟨pol', hp, -⟩ := h2.policy
        exact ⟨row, hh, bodyBytes fr ++ tr, pol', he.ok.suite, Or.inr ⟨rfl, by rw [h1.consumed, List.append_assoc], hp⟩⟩

example : MayEncrypt .requireRequire ⟨0x0578, 2, 256, 512, 384, 32⟩ ∧ ¬ MayEncrypt .forbidAllow ⟨0x0578, 2, 256, 512, 384, 32⟩ ∧
    ⟨0x0578, 2, 256, 512, 384, 32⟩ ∈ suiteTable := by
  refine ⟨by simp [MayEncrypt], by simp [MayEncrypt], by decide⟩

/-- Under the policy that forbids commitment, the same environment produces nothing. -/
example : (run Example.encNew ((Example.env, .setPolicy .forbidAllow) :: Example.encHist)).released = [] ∧
    (run Example.encNew ((Example.env, .setPolicy .requireAllow) :: Example.encHist)).released.length = 292 := by decide +kernel

/-! ### C23: key commitment in sessions -/

/-- Plaintext is released from a message with a committing suite only if the stored commitment is the one derived from the data
key the CMM returned. -/
theorem C23_released_only_if_committed (E : Env → Prop) (pol : Policy) (v : View) (h : Reach E pol v)
    (hm : v.s.mode.isDecrypt = true) (hr : v.released ≠ []) :
    ∃ row hd rest m e, E e ∧ HeaderOK row hd ∧ v.consumed = wireHeader row.version hd ++ rest ∧
      e.cmm.decrypt { encCtx := hd.encCtx, edks := hd.edks, alg := hd.algId } = .ok m ∧
      (row.commitment ≠ 0 → ∃ sha, 8 * hashLen sha = row.kdfBits ∧
        e.crypto.hkdf sha (commitKdfInput hd.messageId).1 m.dataKey (commitKdfInput hd.messageId).2 row.commitment =
          .ok hd.algSuiteData) := by
  rcases decrypted_of h.hinv hm with ⟨-, h2, -⟩ | ⟨row, hd, m, k, fr, tr, h1, h2, -⟩
  · exact absurd h2 hr
  · obtain ⟨e, hE, he⟩ := h1.header
    refine ⟨row, hd, bodyBytes fr ++ tr, m, e, hE, he.ok, by rw [h1.consumed, List.append_assoc], he.cmm, fun hc => ?_⟩
    have := he.key.2
    rw [if_neg hc] at this
    exact this

/-- With one byte of the stored commitment changed, nothing is released. -/
example : (run (Example.decNew .decrypt) [(Example.env, .process (Example.zeros 50) (some Example.msg))]).released = [1, 2, 3, 4, 5, 6] ∧
    (run (Example.decNew .decrypt) [(Example.env, .process (Example.zeros 50)
      (some (Example.msg.take 70 ++ [9] ++ Example.msg.drop 71)))]).released = [] := by decide +kernel

/-! ### C24: unsigned-only decryption -/

/-- In unsigned-only mode, nothing is consumed or released of a message with a signing suite, if the CMM returns materials for the
suite it was asked about. -/
theorem C24_unsigned_only (E : Env → Prop) (pol : Policy) (v : View) (h : Reach E pol v) (hm : v.s.mode = .decryptUnsigned)
    (hcmm : ∀ e, E e → ∀ req m, e.cmm.decrypt req = .ok m → m.alg = req.alg) :
    (v.consumed = [] ∧ v.released = []) ∨
    ∃ row hd rest, HeaderOK row hd ∧ v.consumed = wireHeader row.version hd ++ rest ∧ row.curveBits = 0 := by
  rcases decrypted_of h.hinv (by rw [hm]; rfl) with ⟨h1, h2, -⟩ | ⟨row, hd, m, k, fr, tr, h1, h2, -⟩
  · exact Or.inl ⟨h1, h2⟩
  · obtain ⟨e, hE, he⟩ := h1.header
    obtain ⟨mp, h3, h4⟩ := h2.unsigned hm
    refine Or.inr ⟨row, hd, bodyBytes fr ++ tr, he.ok, by rw [h1.consumed, List.append_assoc], ?_⟩
    have := hcmm e hE _ _ he.cmm
    simp only at this
    rw [this, he.ok.id] at h3
    exact (rowFacts he.ok.suite h3).sig.mp h4

/-- A CMM that answers with materials for another suite. -/
def C24_env : Env :=
  { Example.env with cmm := { Example.env.cmm with decrypt := fun _ => .ok ⟨0x0478, List.replicate 32 1, [], some ⟨⟨0, none, none⟩, []⟩⟩ } }

/-- The header of the example message, as parsed. -/
def C24_header : Hdr := (run (Example.decNew .decrypt) Example.decHist).s.header

/-- Without the proviso the code does release plaintext of a signed message: it looks at the suite of the materials, not at the one
in the header. -/
theorem C24_proviso_needed : ∃ v rest hd, Reach (· = C24_env) .requireRequire v ∧ v.s.mode = .decryptUnsigned ∧
    v.released = [1, 2, 3, 4, 5, 6] ∧ v.consumed = wireHeader 2 hd ++ rest ∧ hd.algId = 0x0578 := by
  have key : hdrParse 0 Example.msg = .ok (C24_header, Example.msg.drop 109) := by decide +kernel
  obtain ⟨row, hok, -, -, hw⟩ := hdrParse_iff.mp key
  refine ⟨run (Example.decNew .decryptUnsigned) [(C24_env, .process (Example.zeros 50) (some Example.msg))], Example.msg.drop 109,
    C24_header, reach_run (E := (· = C24_env)) (Example.decNew_reach _ _ (Or.inr rfl))
      [(C24_env, .process (Example.zeros 50) (some Example.msg))] (by simp), by decide +kernel, by decide +kernel, ?_,
    by decide +kernel⟩
  have hv : row.version = 2 := by
    have h1 := hok.id
    have h2 : C24_header.algId = 0x0578 := by decide +kernel
    rw [h2] at h1
    exact congrArg SuiteRow.version (row_unique' hok.suite (show (⟨0x0578, 2, 256, 512, 384, 32⟩ : SuiteRow) ∈ suiteTable by decide) h1.symm)
  rw [← hv, ← hw]
  decide +kernel

example : (∀ req m, Example.env.cmm.decrypt req = .ok m → m.alg = req.alg) ∧
    (∀ req m, Example.envU.cmm.decrypt req = .ok m → m.alg = req.alg) ∧
    (run (Example.decNew .decryptUnsigned) Example.decHist).consumed = [] ∧
    (run (Example.decNew .decryptUnsigned) Example.decHist).s.error = .signedNotAllowed ∧
    (run (Example.decNew .decryptUnsigned) [(Example.envU, .process (Example.zeros 50)
      (some (run Example.encNew (Example.encHist.map (fun c => (Example.envU, c.2)))).released))]).released = [1, 2, 3, 4, 5, 6] := by
  refine ⟨?_, ?_, by decide +kernel⟩ <;> (intro req m h; cases h; rfl)

/-! ### C25: visibility of the encryption context -/

/-- While decrypting, the context accessor returns a context only if the CMM has returned materials for a message with that
context, since the last reset. -/
theorem C25_visible_only_after_cmm (E : Env → Prop) (pol : Policy) (v : View) (h : Reach E pol v) (hm : v.s.mode.isDecrypt = true)
    (ctx : EncCtx) (hc : getEncCtx v.s = some ctx) :
    ∃ e req m, E e ∧ req.encCtx = ctx ∧ e.cmm.decrypt req = .ok m := by
  unfold getEncCtx at hc
  rw [hm] at hc
  simp only [true_and] at hc
  split at hc
  · cases hc
  · rename_i h1
    obtain ⟨e, m, hE, he⟩ := h.hinv.visible hm (by simpa using h1)
    cases hc
    exact ⟨e, _, m, hE, rfl, he⟩

/-- Once the header has been consumed and until a failure, it returns the context in the header. -/
theorem C25_visible_is_header (E : Env → Prop) (pol : Policy) (v : View) (h : Reach E pol v) (hm : v.s.mode.isDecrypt = true)
    (hne : v.s.state ≠ .error) (hc : v.consumed ≠ []) :
    ∃ row hd rest, HeaderOK row hd ∧ v.consumed = wireHeader row.version hd ++ rest ∧ getEncCtx v.s = some hd.encCtx := by
  rcases decrypted_of h.hinv hm with ⟨h1, -⟩ | ⟨row, hd, m, k, fr, tr, h1, h2, -⟩
  · exact absurd h1 hc
  · obtain ⟨e, hE, he⟩ := h1.header
    refine ⟨row, hd, bodyBytes fr ++ tr, he.ok, by rw [h1.consumed, List.append_assoc], ?_⟩
    obtain ⟨h3, h4, -⟩ := h2.shown hne
    simp [getEncCtx, h3, h4]

example : getEncCtx (run (Example.decNew .decrypt) (Example.decHist.take 1)).s = none ∧
    getEncCtx (run (Example.decNew .decrypt) (Example.decHist.take 2)).s = some [([1], [2])] := by decide +kernel

/-! ### C61: the suite accessor -/

/-- When a session is done, the suite accessor succeeds and names the suite of the message. -/
theorem C61_alg_id_when_done (E : Env → Prop) (pol : Policy) (v : View) (h : Reach E pol v) (hd : isDone v.s = true) :
    ∃ row hd rest, row ∈ suiteTable ∧ hd.algId = row.id ∧ getAlgId v.s = .ok row.id ∧
      ((v.s.mode = .encrypt ∧ v.released = wireHeader row.version hd ++ rest) ∨
       (v.s.mode.isDecrypt = true ∧ v.consumed = wireHeader row.version hd ++ rest)) := by
  have hst : v.s.state = .done := by simpa [isDone] using hd
  have hl := h.hinv.live (by simp [hst])
  simp only [LiveLog, hst] at hl
  rcases hl with ⟨hd, m, p, k, hb, fr, tr, h1, -, h3, -⟩ | ⟨hb, hd, row, p, m, k, fr, tr, h1, -, h3, -⟩
  · obtain ⟨row, a1, -, ⟨e, -, hmade⟩, hbw, -⟩ := encLog_facts h1
    refine ⟨row, hd.sorted, bodyBytes fr ++ tr, hmade.suite, hmade.alg.1, ?_, Or.inl ⟨h1.mode, by rw [← hbw, h3, List.append_assoc]⟩⟩
    simp [getAlgId, h1.props, (suiteFacts a1).id]
  · obtain ⟨a1, a2, a3, ⟨e, -, hv⟩, -⟩ := decLog_facts h1
    refine ⟨row, hd, bodyBytes fr ++ tr, a3, hv.ok.id, ?_, Or.inr ⟨h1.mode, by rw [← a1, h3, List.append_assoc]⟩⟩
    simp [getAlgId, h1.props, (suiteFacts a2).id]

example : getAlgId (run (Example.decNew .decrypt) Example.decHist).s = .ok 0x0578 ∧
    getAlgId (run (Example.decNew .decrypt) (Example.decHist.take 1)).s = .error .badState := by decide +kernel

/-! ### C26 and C27: no abort, no endless loop -/

/-- No call in any history aborts, dereferences NULL or loops forever: it succeeds or returns an error. -/
theorem C26_no_abort (E : Env → Prop) (pol : Policy) (v : View) (h : Reach E pol v) (env : Env) (he : E env) (op : Op) :
    (apply env v op).2 = .ok ∨ ∃ e, (apply env v op).2 = .err e :=
  (hinv_apply h.hinv he op).2

/-- In debug builds there is an exception: the commitment check `assert`s that the policy is valid
(source/session.c:617-660), and an invalid policy set while the header is being read, although refused, is in force when the check
is reached. -/
theorem C26_invalid_policy_reaches_check : ∃ v, Reach (· = Example.env) .requireRequire v ∧ v.s.policy = .other 7 ∧
    (process Example.env v.s (Example.zeros 50) Example.msg false).res = .err .policyViolation :=
  ⟨_, reach_run (Example.decNew_reach _ .decrypt (Or.inl rfl))
    [(Example.env, .process (Example.zeros 2) (some (Example.msg.take 50))), (Example.env, .setPolicy (.other 7))] (by simp), by decide +kernel⟩

example : (apply Example.env (run (Example.decNew .decrypt) (Example.decHist.take 2)) (.setMaxEdks 3)).2 = .err .badState := by decide +kernel

/-- A `process` call ends after at most (output capacity) + (input length) + 6 iterations of its loop. -/
theorem C27_process_terminates (E : Env → Prop) (pol : Policy) (v : View) (h : Reach E pol v) (env : Env) (mem inp : Bytes)
    (inNull : Bool) (fuel : Nat) (hfuel : mem.length + inp.length + 6 ≤ fuel) :
    (processLoop env inNull fuel v.s ⟨mem, 0⟩ inp).res ≠ .diverge ∧
    processLoop env inNull fuel v.s ⟨mem, 0⟩ inp = processLoop env inNull (mem.length + inp.length + 6) v.s ⟨mem, 0⟩ inp := by
  have hrank : v.s.state.rank ≤ 5 := by cases v.s.state <;> decide
  have key : ∀ f, mem.length + inp.length + 6 ≤ f → (processLoop env inNull f v.s ⟨mem, 0⟩ inp).res ≠ .diverge := by
    intro f hf
    have := processLoop_ok env inNull f v.s ⟨mem, 0⟩ inp h.hinv.inv (Nat.zero_le _) (by simp only; omega)
    rcases this.cases with ⟨h, -⟩ | ⟨e, o, s1, inp1, mem1, h, -⟩ <;> rw [h] <;> simp
  have mono : ∀ (f : Nat) (s : Session) (out : WBuf) (inp : Bytes), (processLoop env inNull f s out inp).res ≠ .diverge →
      ∀ d, processLoop env inNull (f + d) s out inp = processLoop env inNull f s out inp := by
    intro f
    induction f with
    | zero => intro s out inp h; exact absurd rfl h
    | succ n ih =>
      intro s out inp h d
      rw [Nat.succ_add]
      unfold processLoop at h ⊢
      simp only at h ⊢
      generalize sessionStep env s ⟨out.mem.drop out.len, 0⟩ inp inNull = r at h ⊢
      cases hr : r.res <;> simp only [hr] at h ⊢
      split at h
      · rename_i hp
        rw [if_pos hp, if_pos hp]
        exact ih _ _ _ h d
      · rename_i hp
        rw [if_neg hp, if_neg hp]
  refine ⟨key fuel hfuel, ?_⟩
  obtain ⟨d, rfl⟩ := Nat.exists_eq_add_of_le hfuel
  exact mono _ _ _ _ (key _ (Nat.le_refl _)) d

example : (processLoop Example.env false 357 (Example.decNew .decrypt).s ⟨Example.zeros 50, 0⟩ Example.msg).res = .ok := by decide +kernel

/-! ### C29 and C30: declared sizes -/

/-- If a session is done, it has consumed exactly the size that was declared. -/
theorem C29_size (E : Env → Prop) (pol : Policy) (v : View) (h : Reach E pol v) (env : Env) (he : E env) (n : Nat) (hn : n < 2 ^ 64)
    (hset : (apply env v (.setMessageSize n)).2 = .ok) (hist : List (Env × Op)) (hE : ∀ c ∈ hist, E c.1) (hnr : NoReset hist)
    (hd : isDone (run (apply env v (.setMessageSize n)).1 hist).s = true) :
    (run (apply env v (.setMessageSize n)).1 hist).consumed.length = n := by
  have h1 := Reach.call (.setMessageSize n) h he
  have h2 := reach_run h1 hist hE
  have hk := run_keeps h1.hinv hist hE hnr
  have hs : (apply env v (.setMessageSize n)).1.s.mode = .encrypt ∧ (apply env v (.setMessageSize n)).1.s.preciseKnown = true ∧
      (apply env v (.setMessageSize n)).1.s.preciseSize = n := by
    simp only [apply] at hset ⊢
    rcases setMessageSize_cases env v.s h.hinv.inv n with ⟨e, s', h1, -⟩ | ⟨hm, hk, hb, o, i, h1⟩
    · rw [h1] at hset; cases hset
    · rw [h1]
      exact ⟨hm, rfl, by simp only [u64]; omega⟩
  generalize run (apply env v (.setMessageSize n)).1 hist = w at h2 hk hd ⊢
  have hst : w.s.state = .done := by simpa [isDone] using hd
  obtain ⟨h3, h4⟩ := hk.precise hs.2.1
  have hl := h2.hinv.live (by simp [hst])
  simp only [LiveLog, hst] at hl
  rcases hl with ⟨hd, m, p, k, hb, fr, tr, a1, -, -, -, -, a2⟩ | ⟨hb, hd, row, p, m, k, fr, tr, a1, -⟩
  · rw [a2, h4, hs.2.2]
  · have := a1.mode
    rw [hk.mode, hs.1] at this; cases this

/-- If a session is done, it has consumed no more than any bound that was accepted. -/
theorem C29_bound (E : Env → Prop) (pol : Policy) (v : View) (h : Reach E pol v) (env : Env) (he : E env) (n : Nat) (hn : n < 2 ^ 64)
    (hset : (apply env v (.setMessageBound n)).2 = .ok) (hist : List (Env × Op)) (hE : ∀ c ∈ hist, E c.1) (hnr : NoReset hist)
    (hd : isDone (run (apply env v (.setMessageBound n)).1 hist).s = true) :
    (run (apply env v (.setMessageBound n)).1 hist).consumed.length ≤ n := by
  have h1 := Reach.call (.setMessageBound n) h he
  have h2 := reach_run h1 hist hE
  have hk := run_keeps h1.hinv hist hE hnr
  have hs : (apply env v (.setMessageBound n)).1.s.mode = .encrypt ∧ (apply env v (.setMessageBound n)).1.s.sizeBound ≤ n := by
    have hu : u64 n = n := by simp only [u64]; omega
    simp only [apply, setMessageBound, hu] at hset ⊢
    split at hset
    · cases hset
    · rename_i hm
      split at hset
      · unfold failSession at hset; split at hset <;> cases hset
      · rename_i h0
        rw [if_neg hm, if_neg h0]
        have hm : v.s.mode = .encrypt := Decidable.not_not.mp hm
        split
        · exact ⟨hm, Nat.le_refl _⟩
        · exact ⟨hm, by simp only; omega⟩
  generalize run (apply env v (.setMessageBound n)).1 hist = w at h2 hk hd ⊢
  have hst : w.s.state = .done := by simpa [isDone] using hd
  have hl := h2.hinv.live (by simp [hst])
  simp only [LiveLog, hst] at hl
  rcases hl with ⟨hd, m, p, k, hb, fr, tr, a1, -, -, -, a3, a2⟩ | ⟨hb, hd, row, p, m, k, fr, tr, a1, -⟩
  · have := h2.hinv.inv.precise a3
    have := hk.bound
    have := hs.2
    omega
  · have := a1.mode
    rw [hk.mode, hs.1] at this; cases this

/-- An encrypting session is done only if its size was declared. -/
theorem C29_done_needs_size (E : Env → Prop) (pol : Policy) (v : View) (h : Reach E pol v) (hm : v.s.mode = .encrypt)
    (hd : isDone v.s = true) : v.s.preciseKnown = true ∧ v.consumed.length = v.s.preciseSize ∧ v.s.preciseSize ≤ v.s.sizeBound := by
  have hst : v.s.state = .done := by simpa [isDone] using hd
  have hl := h.hinv.live (by simp [hst])
  simp only [LiveLog, hst] at hl
  rcases hl with ⟨hd, m, p, k, hb, fr, tr, a1, -, -, -, a3, a2⟩ | ⟨hb, hd, row, p, m, k, fr, tr, a1, -⟩
  · exact ⟨a3, a2, h.hinv.inv.precise a3⟩
  · have := a1.mode
    rw [hm] at this; cases this

/-- A history that declares a bound, processes, declares the size and finishes. -/
def C29_hist : List (Env × Op) :=
  [(Example.env, .process (Example.zeros 300) (some [1, 2, 3, 4, 5])), (Example.env, .setMessageSize 6),
   (Example.env, .process (Example.zeros 300) (some [5, 6]))]

example : (apply Example.env (run Example.encNew [(Example.env, .setFrameSize 4)]) (.setMessageBound 6)).2 = .ok ∧
    isDone (run (apply Example.env (run Example.encNew [(Example.env, .setFrameSize 4)]) (.setMessageBound 6)).1 C29_hist).s = true ∧
    (run (apply Example.env (run Example.encNew [(Example.env, .setFrameSize 4)]) (.setMessageBound 6)).1 C29_hist).consumed.length = 6 := by
  decide +kernel

/-- What is consumed only grows. -/
theorem consumed_grows (v : View) (hist : List (Env × Op)) (hn : NoReset hist) : v.consumed <+: (run v hist).consumed := by
  induction hist generalizing v with
  | nil => exact List.prefix_refl _
  | cons c r ih =>
    refine List.IsPrefix.trans ?_ (ih (apply c.1 v c.2).1 (fun x hx => hn x (by simp [hx])))
    have := hn c (by simp)
    obtain ⟨en, op⟩ := c
    cases op <;> simp only [apply] <;> (try exact List.prefix_refl _)
    · cases this
    · split <;> simp
    · split <;> simp

/-- The documentation says that declaring a size smaller than what was processed is an error.  It is not: the code accepts any
size up to the bound, whatever was processed.  -/
theorem C30_never_checked (E : Env → Prop) (pol : Policy) (v : View) (h : Reach E pol v) (env : Env) (n : Nat)
    (hm : v.s.mode = .encrypt) (hk : v.s.preciseKnown = false) (hb : n ≤ v.s.sizeBound) :
    (apply env v (.setMessageSize n)).2 = .ok := by
  have hn := h.hinv.inv.sizeBound
  have hu : u64 n = n := by simp only [u64]; omega
  simp only [apply]
  rcases setMessageSize_cases env v.s h.hinv.inv n with ⟨e, s', h1, h2⟩ | ⟨-, -, -, o, i, h1⟩
  · exfalso
    have hcb : ∀ (s : Session), (computeBodyEstimate env s).2 = .abort ∨ (computeBodyEstimate env s).2 = .ub ∨
        (computeBodyEstimate env s).2 = .diverge ∨ (computeBodyEstimate env s).2 = .ok := by
      intro s
      unfold computeBodyEstimate
      split
      · simp
      · simp only
        split <;> simp
    have h3 : setMessageSize env v.s n = computeBodyEstimate env { v.s with preciseSize := u64 n, preciseKnown := true } := by
      unfold setMessageSize
      rw [if_neg (by simp [hm]), if_neg (by simp [hk]), if_neg (by omega)]
    have h4 := hcb { v.s with preciseSize := u64 n, preciseKnown := true }
    rw [← h3, h1] at h4
    simp at h4
  · rw [h1]

/-- A concrete history: eight bytes have been processed, then a size of 2 is accepted, and further bytes are still processed. -/
theorem C30_refuted : ∃ v v', Reach (· = Example.env) .requireRequire v ∧ v.consumed.length = 8 ∧
    v' = (apply Example.env v (.setMessageSize 2)).1 ∧ (apply Example.env v (.setMessageSize 2)).2 = .ok ∧
    (apply Example.env v' (.process (Example.zeros 300) (some [1, 2, 3, 4]))).1.consumed.length = 12 :=
  ⟨_, _, reach_run (.new (mode := .encrypt) rfl)
    [(Example.env, .setFrameSize 4), (Example.env, .process (Example.zeros 300) (some [1, 2, 3, 4, 5, 6, 7, 8]))] (by simp),
    by decide +kernel, rfl, by decide +kernel⟩

/-- The same for bounds: a bound of 2 does not stop a session from writing eight bytes. -/
theorem C30_bound_refuted : ∃ v, Reach (· = Example.env) .requireRequire v ∧
    (apply Example.env v (.setMessageBound 2)).2 = .ok ∧
    (run v [(Example.env, .setMessageBound 2), (Example.env, .process (Example.zeros 300) (some [1, 2, 3, 4, 5, 6, 7, 8]))]).consumed.length = 8 ∧
    (run v [(Example.env, .setMessageBound 2), (Example.env, .process (Example.zeros 300) (some [1, 2, 3, 4, 5, 6, 7, 8]))]).s.state ≠ .error :=
  ⟨_, reach_run (.new (mode := .encrypt) rfl) [(Example.env, .setFrameSize 4)] (by simp), by decide +kernel⟩

/-- What does hold: such a session never reports done.  (Missing: the error the documentation promises.) -/
theorem C30_never_done_partial (E : Env → Prop) (pol : Policy) (v : View) (h : Reach E pol v) (env : Env) (he : E env) (n : Nat)
    (hn : n < v.consumed.length) (hn64 : n < 2 ^ 64) (hset : (apply env v (.setMessageSize n)).2 = .ok) (hist : List (Env × Op))
    (hE : ∀ c ∈ hist, E c.1) (hnr : NoReset hist) : isDone (run (apply env v (.setMessageSize n)).1 hist).s = false := by
  cases hd : isDone (run (apply env v (.setMessageSize n)).1 hist).s with
  | false => rfl
  | true =>
    exfalso
    have h1 := C29_size E pol v h env he n hn64 hset hist hE hnr hd
    have h2 := (consumed_grows (apply env v (.setMessageSize n)).1 hist hnr).length_le
    have h3 : (apply env v (.setMessageSize n)).1.consumed = v.consumed := rfl
    rw [h3] at h2
    omega

/-! ### C31: reset -/

/-- After a reset the session is a new session, except for what is documented to survive: CMM, commitment policy, EDK limit and
frame size.  The rest of the previous life of the session has no influence. -/
theorem C31_reset_is_fresh (env : Env) (v : View) (mode : Mode) (new : Session) (hnew : sessionNew mode = some new) :
    apply env v (.reset mode) =
      (⟨{ new with policy := v.s.policy, hasCmm := v.s.hasCmm, maxEdks := v.s.maxEdks, frameSize := v.s.frameSize }, [], []⟩, .ok) := by
  unfold sessionNew at hnew
  split at hnew
  · rename_i hm
    cases hnew
    simp only [apply, reset, if_pos hm]
    rfl
  · cases hnew

/-- In terms of calls only: resetting to encryption is the same as a new session that is then configured. -/
theorem C31_reset_equals_new (E : Env → Prop) (pol : Policy) (v : View) (h : Reach E pol v) (env env' : Env) (new : Session)
    (hnew : sessionNew .encrypt = some new) (hp : v.s.policy.isValid = true) (hm : v.s.maxEdks ≠ 0) (hc : v.s.hasCmm = true)
    (hist : List (Env × Op)) :
    run (apply env v (.reset .encrypt)).1 hist =
      run ⟨new, [], []⟩ ((env', .setPolicy v.s.policy) :: (env', .setMaxEdks v.s.maxEdks) :: (env', .setFrameSize v.s.frameSize) :: hist) := by
  rw [C31_reset_is_fresh env v .encrypt new hnew]
  have hf := h.hinv.inv.frameSize
  cases hnew
  have e1 : v.s.frameSize % 2 ^ 32 = v.s.frameSize := Nat.mod_eq_of_lt hf
  simp only [run, List.foldl_cons, apply, setCommitmentPolicy, setMaxEdks, setFrameSize, hp]
  simp only [Bool.not_true, Bool.false_eq_true, if_false, ne_eq, not_true_eq_false, hm, or_self, e1, hc]

/-- An invalid mode is refused and leaves the session unusable until it is reset again. -/
theorem C31_reset_invalid (env : Env) (v : View) (n : Nat) :
    (apply env v (.reset (.invalid n))).2 = .err .unimplemented ∧ (apply env v (.reset (.invalid n))).1.s.state = .error := by
  simp [apply, reset, Mode.isValid, failSession]

/-- The frame size is documented to survive a reset ("frame size to use for encryption"); but a decryption in between replaces it
by the frame size of the decrypted message. -/
theorem C31_frame_size_refuted :
    (run Example.encNew [(Example.env, .setFrameSize 4096), (Example.env, .reset .decrypt), (Example.env, .reset .encrypt)]).s.frameSize = 4096 ∧
    (run Example.encNew [(Example.env, .setFrameSize 4096), (Example.env, .reset .decrypt),
      (Example.env, .process (Example.zeros 50) (some Example.msg)), (Example.env, .reset .encrypt)]).s.frameSize = 4 := by decide +kernel

example : ∃ pol v, Reach (· = Example.env) pol v ∧ v.s.policy.isValid = true ∧ v.s.maxEdks ≠ 0 ∧ v.s.hasCmm = true ∧ isDone v.s = true :=
  ⟨_, _, reach_run (.new (mode := .encrypt) rfl) C05_hist (by simp [C05_hist, Example.encHist]), by decide +kernel⟩

/-! ### C32: processing a message in one call -/

/-- `process_full` succeeds only if the session is done and the whole input was consumed; what it reports is all the session
released. -/
theorem C32_full_ok (E : Env → Prop) (pol : Policy) (v : View) (h : Reach E pol v) (env : Env) (mem : Bytes)
    (inp : Option Bytes) (old : Nat) (hok : (apply env v (.processFull mem inp old)).2 = .ok) :
    isDone (apply env v (.processFull mem inp old)).1.s = true ∧
    (apply env v (.processFull mem inp old)).1.consumed = inp.getD [] ∧
    (apply env v (.processFull mem inp old)).1.released =
      (processFull env v.s mem (inp.getD []) inp.isNone old).mem.take (processFull env v.s mem (inp.getD []) inp.isNone old).written := by
  simp only [apply] at hok ⊢
  by_cases hres : (processFull env v.s mem (inp.getD []) inp.isNone old).res = .ok
  · rw [if_pos hres]
    by_cases hst : v.s.state ≠ .config
    · unfold processFull at hres; rw [if_pos hst] at hres; cases hres
    have hl := h.hinv.live (by simp [Decidable.not_not.mp hst])
    simp only [LiveLog, Decidable.not_not.mp hst] at hl
    have key : isDone (processFull env v.s mem (inp.getD []) inp.isNone old).s = true ∧
        (processFull env v.s mem (inp.getD []) inp.isNone old).read = (inp.getD []).length := by
      unfold processFull at hres ⊢
      rw [if_neg hst] at hres ⊢
      simp only at hres ⊢
      generalize (if v.s.mode = .encrypt then setMessageSize env v.s (inp.getD []).length else (v.s, .ok)) = r at hres ⊢
      obtain ⟨s1, res⟩ := r
      cases res <;> simp only at hres ⊢ <;> try (cases hres; done)
      generalize process env s1 mem (inp.getD []) inp.isNone = o at hres ⊢
      cases ho : o.res <;> simp only [ho] at hres ⊢ <;> try (cases hres; done)
      · split at hres
        · rename_i hd; rw [if_pos hd]; exact ⟨by simp [isDone, hd.1], hd.2⟩
        · cases hres
      all_goals rw [ho] at hres; cases hres
    refine ⟨key.1, ?_, ?_⟩
    · simp only [key.2, List.take_length, hl.1, List.nil_append]
    · simp only [hl.2.1, List.nil_append]
  · rw [if_neg hres] at hok; exact absurd hok hres

/-- If processing is attempted (the session is unused and the message size is accepted) and fails, no output is reported and the
buffer is zeroed. -/
theorem C32_full_error (E : Env → Prop) (pol : Policy) (v : View) (h : Reach E pol v) (env : Env) (mem inp : Bytes)
    (inNull : Bool) (old : Nat) (hst : v.s.state = .config)
    (hsize : v.s.mode = .encrypt → (setMessageSize env v.s inp.length).2 = .ok)
    (hf : (processFull env v.s mem inp inNull old).res ≠ .ok) :
    (∃ e, (processFull env v.s mem inp inNull old).res = .err e) ∧ (processFull env v.s mem inp inNull old).written = 0 ∧
    (processFull env v.s mem inp inNull old).mem = List.replicate mem.length 0 := by
  unfold processFull at hf ⊢
  rw [if_neg (by simp [hst])] at hf ⊢
  have hr : (if v.s.mode = .encrypt then setMessageSize env v.s inp.length else (v.s, .ok)).2 = .ok := by
    split
    · rename_i hm; exact hsize hm
    · rfl
  have hh : HInv E pol { v with s := (if v.s.mode = .encrypt then setMessageSize env v.s inp.length else (v.s, .ok)).1 } := by
    split
    · exact (hinv_setMessageSize env h.hinv _).1
    · exact h.hinv
  simp only at hf ⊢
  generalize (if v.s.mode = .encrypt then setMessageSize env v.s inp.length else (v.s, .ok)) = r at hf hr hh ⊢
  obtain ⟨s1, res⟩ := r
  simp only at hr hh
  subst hr
  simp only at hf ⊢
  have hc := process_cases env s1 hh.inv mem inp inNull
  generalize process env s1 mem inp inNull = o at hc hf ⊢
  cases hc with
  | ok rest hres => 
    simp only [hres] at hf ⊢
    split
    · rename_i hd; rw [if_pos hd] at hf; exact absurd hres hf
    · exact ⟨⟨_, rfl⟩, rfl, rfl⟩
  | err e out inp1 mem1 s2 hres => simp only [hres]; exact ⟨⟨_, rfl⟩, by trivial, by trivial⟩

/-- The documentation promises a zeroed buffer for every error.  If the session is in use, the call returns an error and leaves the
caller's buffer and output count as they were. -/
theorem C32_zeroed_refuted (env : Env) (s : Session) (mem inp : Bytes) (inNull : Bool) (old : Nat) (hs : s.state ≠ .config) :
    processFull env s mem inp inNull old = ⟨s, mem, old, 0, .err .badState⟩ := by
  unfold processFull; rw [if_pos hs]

example : (processFull Example.env (run (Example.decNew .decrypt) Example.decHist).s [1, 2, 3] [] false 77).mem = [1, 2, 3] ∧
    (processFull Example.env (run (Example.decNew .decrypt) Example.decHist).s [1, 2, 3] [] false 77).written = 77 := by decide +kernel

example : (processFull Example.env (Example.decNew .decrypt).s (Example.zeros 50) Example.msg false 77).res = .ok ∧
    (processFull Example.env (Example.decNew .decrypt).s (Example.zeros 50) Example.msg false 77).written = 6 ∧
    (processFull Example.env (Example.decNew .decrypt).s (List.replicate 3 8) Example.msg false 77).mem = [0, 0, 0] := by decide +kernel

end Verif.Props
