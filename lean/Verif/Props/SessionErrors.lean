import Verif.Proof.SessionRejects2
import Verif.Props.SessionAccepts
/-
C78: why decryption fails, with which error, and that there is only one reason.
-/
namespace Verif.Props
open Spec

theorem apply_process_res (e : Env) (v : View) (mem : Bytes) (inp : Option Bytes) :
    (apply e v (.process mem inp)).2 = (process e v.s mem (inp.getD []) inp.isNone).res := by
  simp only [apply]
  split <;> rfl

/-- A call of a decrypting session fails with error `c` only if the bytes it has been given so far are turned down with `c`, or if
something outside fails with `c`. -/
theorem C78_why_decryption_fails (pol : Policy) (e : Env) (v : View) (h : Reach (· = e) pol v) (hs : SetUp v.s) (mem : Bytes) (inp : Option Bytes)
    (c : Err) (hc : (apply e v (.process mem inp)).2 = .err c) :
    Rejected e pol v.s.maxEdks v.s.mode (v.consumed ++ inp.getD []) c ∨ OutsideFails e c := by
  rw [apply_process_res] at hc
  exact process_err h.hinv hs hc

theorem nothing_outside {e : Env} (hn : NothingFails e) {c : Err} : ¬ OutsideFails e c := by
  intro h1
  cases h1 with
  | headerCopy h => rw [hn.1] at h; cases h
  | edkList h => rw [hn.1] at h; cases h
  | sigString h => rw [hn.1] at h; cases h
  | digest h => rw [hn.2] at h; cases h

/-- A call that has been given bytes that are turned down fails with their error, if there are enough of them to tell and the output
buffer is not smaller than the input. -/
theorem C78_rejects (pol : Policy) (e : Env) (hn : NothingFails e) (v : View) (h : Reach (· = e) pol v) (hs : SetUp v.s) (mem : Bytes)
    (inp : Option Bytes) (hroom : (inp.getD []).length ≤ mem.length) (c : Err) (hd : Decided e pol v.s.mode (v.consumed ++ inp.getD []))
    (hr : Rejected e pol v.s.maxEdks v.s.mode (v.consumed ++ inp.getD []) c) : (apply e v (.process mem inp)).2 = .err c := by
  rw [apply_process_res]
  exact process_rejects hn h.hinv hs hroom hd hr

/-- Bytes are turned down for one reason only. -/
theorem C78_one_reason (e : Env) (pol : Policy) (mx : Nat) (mode : Mode) (x : Bytes) (c c' : Err) (h : Rejected e pol mx mode x c)
    (h' : Rejected e pol mx mode x c') : c = c' := h.unique h'

/-- A message is not turned down, whatever follows it. -/
theorem C78_message_not_rejected (e : Env) (pol : Policy) (mx : Nat) (mode : Mode) (msg pt later : Bytes) (c : Err)
    (h : ValidMessage e pol mx mode msg pt) : ¬ Rejected e pol mx mode (msg ++ later) c := by
  obtain ⟨row, hh, m, k, fr, tr, hp⟩ := h
  have hacc : HeaderAccepted e pol mode row hh m k := by
    refine ⟨⟨hp.small, hp.header.cmm, hp.suite⟩, hp.dataKey, hp.policy, hp.header, fun h0 => ?_⟩
    have hs := hp.signature
    unfold SignatureVerified at hs
    rw [if_neg h0] at hs
    obtain ⟨_, ctx, sig, rfl, h1, h2, h3, h4⟩ := hs
    exact ⟨ctx, h1⟩
  have hfs : hh.frameLen < 2 ^ 32 := hacc.verified.ok.frameLen
  have hc : msg ++ later = wireHeader row.version hh ++ (bodyBytes fr ++ (tr ++ later)) := by
    rw [hp.bytes]; simp only [List.append_assoc]
  rw [hc]
  intro hr
  have same : ∀ {row' h' m' k'} {x x' : Bytes}, HeaderAccepted e pol mode row' h' m' k' →
      wireHeader row.version hh ++ x = wireHeader row'.version h' ++ x' → row = row' ∧ m = m' ∧ k = k' ∧ h'.frameLen = hh.frameLen ∧
        h'.messageId = hh.messageId ∧ wireHeader row.version hh = wireHeader row'.version h' ∧ x = x' := by
    intro row' h' m' k' x x' h2 heq
    obtain ⟨rfl, hb, h3⟩ := header_unique hacc.verified.ok h2.verified.ok heq
    have h1' := hacc.bare
    rw [hb] at h1'
    obtain ⟨rfl, rfl⟩ := h1'.unique h2.bare
    exact ⟨rfl, rfl, rfl, by have := congrArg Hdr.frameLen hb.symm; exact this, by have := congrArg Hdr.messageId hb.symm; exact this,
      by subst h3; exact List.append_cancel_right heq, h3⟩
  cases hr with
  | malformed hm => exact header_of_rejected hacc.verified.ok hp.limit rfl hm
  | header hok hlim hx hr =>
    obtain ⟨rfl, hb, h3⟩ := header_unique hacc.verified.ok hok hx
    have h1 := hacc.bare
    rw [hb] at h1
    exact h1.not_rejected hr.bare
  | @frame row' h' m' k' fr' rest' c' hl' ha' hf' ho' hx' hr' =>
    rw [List.append_assoc] at hx'
    obtain ⟨rfl, rfl, rfl, e1, e2, e3, e4⟩ := same ha' hx'
    rw [e1, e2] at hf' hr'
    exact frame_signature_clash hfs hf' hp.frames e4.symm hr' ho' hp.complete
  | @signature row' h' m' k' fr' ctx sig rest' c' hl' ha' hf' hc' hsg hm' hsl hx' hv' =>
    rw [List.append_assoc, List.append_assoc] at hx'
    obtain ⟨rfl, rfl, rfl, e1, e2, e3, e4⟩ := same ha' hx'
    rw [e1, e2] at hf'
    have hag := opened_agree hfs (fun e1 e2 h1 h2 => by rw [h1, h2]) hp.frames hf' e4
    have l1 := (prefix_of_complete (body_of (Or.inr hp.complete)) hc' hag).length_le
    have l2 := (prefix_of_complete (body_of (Or.inr hc')) hp.complete (fun i h1 h2 => (hag i h2 h1).symm)).length_le
    obtain ⟨rfl, h5⟩ := (position_agree hfs hp.frames hf' e4).2 (by omega)
    have hs := hp.signature
    unfold SignatureVerified at hs
    rw [if_neg hsg] at hs
    obtain ⟨_, ctx', sig', rfl, h1, h2, h3, h4⟩ := hs
    subst h3
    obtain ⟨rfl, -⟩ := wireTrailer_unique h4 hsl h5
    rw [hm'] at h1
    cases h1
    rw [e3, hv'] at h2
    cases h2

theorem message_longer {e : Env} {pol : Policy} {mx : Nat} {mode : Mode} {msg pt : Bytes} (h : ValidMessage e pol mx mode msg pt) :
    pt.length ≤ msg.length := by
  obtain ⟨row, hh, m, k, fr, tr, hp⟩ := h
  have := bodyText_le_bodyBytes hp.frames (fun i f pt h => by have := h.len; have := wireFrame_ge (f := f); omega)
  rw [hp.text, hp.bytes]
  simp only [List.length_append]
  omega

/-- One call with the whole input: the error is that of the input, or, for input that is neither a message nor turned down (there
is something missing, or something after its end), `BAD_CIPHERTEXT`. -/
theorem C78_full_call_errors (E : Env → Prop) (pol : Policy) (e : Env) (hn : NothingFails e) (v0 : View) (h0 : Reach E pol v0)
    (hr : ReadyToDecrypt v0) (hpol : v0.s.policy.isValid = true) (mem msg : Bytes) (old : Nat) (hroom : msg.length ≤ mem.length)
    (hd : Decided e v0.s.policy v0.s.mode msg) (c : Err) :
    (apply e v0 (.processFull mem (some msg) old)).2 = .err c ↔
    Rejected e v0.s.policy v0.s.maxEdks v0.s.mode msg c ∨
    (c = .badCiphertext ∧ (∀ c', ¬ Rejected e v0.s.policy v0.s.maxEdks v0.s.mode msg c') ∧
      ∀ pt, ¬ ValidMessage e v0.s.policy v0.s.maxEdks v0.s.mode msg pt) := by
  have hnc : ¬ v0.s.mode = .encrypt := fun h => by have := hr.mode; rw [h] at this; cases this
  have hpe := h0.hinv.polOk hpol
  have hh0 : HInv (· = e) v0.s.policy v0 := hinv_start h0.hinv.inv (fun _ => rfl) hr.start.1 hr.start.2.1 hr.start.2.2
  have hset : SetUp v0.s := ⟨hr.mode, by rw [hr.start.1]; simp, hpol, fun _ => hr.hasCmm⟩
  have hx : v0.consumed ++ msg = msg := by rw [hr.start.2.1]; rfl
  have hacc := fun pt => C75_accepts_exactly E pol e hn v0 h0 hr mem msg pt old
  have fwd : ∀ c, (process e v0.s mem msg false).res = .err c → Rejected e v0.s.policy v0.s.maxEdks v0.s.mode msg c := by
    intro c h
    rcases process_err hh0 hset h with h | h
    · rwa [hx] at h
    · exact absurd h (nothing_outside hn)
  have bwd : ∀ c, Rejected e v0.s.policy v0.s.maxEdks v0.s.mode msg c → (process e v0.s mem msg false).res = .err c := by
    intro c h
    exact process_rejects hn hh0 hset hroom (by rw [hx]; exact hd) (by rw [hx]; exact h)
  have hres : (apply e v0 (.processFull mem (some msg) old)).2 = (processFull e v0.s mem msg false old).res := by
    simp only [apply, Option.getD_some, Option.isNone_some]
    split <;> rfl
  have hfull : (processFull e v0.s mem msg false old).res = (match (process e v0.s mem msg false).res with
      | .ok => if (process e v0.s mem msg false).s.state = .done ∧ (process e v0.s mem msg false).read = msg.length then .ok else .err .badCiphertext
      | r => r) := by
    unfold processFull
    rw [if_neg (by simp [hr.start.1])]
    simp only [hnc, if_false]
    cases ho : (process e v0.s mem msg false).res <;> simp only
    · split
      · exact ho
      · rfl
    all_goals exact ho
  rw [hres]
  constructor
  · intro h
    have hne : ∀ pt, ¬ ValidMessage e v0.s.policy v0.s.maxEdks v0.s.mode msg pt := by
      intro pt hv
      have := ((hacc pt).mpr ⟨hv, Nat.le_trans (message_longer hv) hroom⟩).1
      rw [hres, h] at this; cases this
    rw [hfull] at h
    cases ho : (process e v0.s mem msg false).res with
    | err c' =>
      rw [ho] at h
      cases h
      exact Or.inl (fwd _ ho)
    | ok =>
      rw [ho] at h
      simp only at h
      split at h
      · cases h
      · cases h
        exact Or.inr ⟨rfl, fun c' hc' => (by have := bwd _ hc'; rw [ho] at this; cases this), hne⟩
    | _ => rw [ho] at h; cases h
  · rintro (h | ⟨rfl, h1, h2⟩)
    · rw [hfull, bwd _ h]
    · rw [hfull]
      cases ho : (process e v0.s mem msg false).res with
      | err c' => exact absurd (fwd _ ho) (h1 _)
      | ok =>
        simp only
        by_cases hdone : (process e v0.s mem msg false).s.state = .done ∧ (process e v0.s mem msg false).read = msg.length
        · exfalso
          refine h2 _ ((hacc _).mp ⟨?_, rfl⟩).1
          have hk : (apply e v0 (.processFull mem (some msg) old)).2 = .ok := by
            rw [hres, hfull, ho]; simp only [hdone, and_self, if_true]
          exact hk
        · rw [if_neg hdone]
      | _ =>
        have hcs := process_cases e v0.s h0.hinv.inv mem msg false
        cases hcs with
        | ok _ hr => rw [hr] at ho; cases ho
        | err _ _ _ _ _ hr => rw [hr] at ho; cases ho

/-- Bytes whose header is turned down are enough to tell. -/
theorem C78_header_decides (e : Env) (pol : Policy) (mode : Mode) (row : SuiteRow) (h : Hdr) (rest : Bytes) (c : Err) (hok : HeaderOK row h)
    (hr : HeaderRejected e pol mode row h c) : Decided e pol mode (wireHeader row.version h ++ rest) := by
  constructor
  · intro hn
    exact absurd (by rw [List.append_nil]) (hn row h [] rest hok)
  · intro row' h' m k fr rest' ha hf ho hx
    rw [List.append_assoc] at hx
    obtain ⟨rfl, hb, h3⟩ := header_unique hok ha.verified.ok hx
    have h1 := hr.bare
    rw [hb] at h1
    exact (ha.bare.not_rejected h1).elim

/-- A signed message given to a session that does not take signed messages: its header is turned down. -/
example : ∃ row h rest, HeaderOK row h ∧ Example.msg = wireHeader row.version h ++ rest ∧
    HeaderRejected Example.env .requireRequire .decryptUnsigned row h .signedNotAllowed ∧
    (apply Example.env (Example.decNew .decryptUnsigned) (.process (Example.zeros 300) (some Example.msg))).2 = .err .signedNotAllowed := by
  have key : hdrParse 0 Example.msg = .ok (C24_header, Example.msg.drop 109) := by decide +kernel
  obtain ⟨row, hok, -, -, hx⟩ := hdrParse_iff.mp key
  have hl : (wireHeader row.version C24_header).length < 2 ^ 31 := by
    have := congrArg List.length hx
    rw [List.length_append] at this
    have h1 : Example.msg.length = 292 := by decide +kernel
    omega
  have hcm : ∃ m, Example.env.cmm.decrypt { encCtx := C24_header.encCtx, edks := C24_header.edks, alg := C24_header.algId } = .ok m ∧ m.alg = 0x0578 :=
    ⟨_, rfl, by decide +kernel⟩
  obtain ⟨m, hm, ha⟩ := hcm
  have hr : HeaderRejected Example.env .requireRequire .decryptUnsigned row C24_header .signedNotAllowed :=
    .signed hl hm (r := ⟨0x0578, 2, 256, 512, 384, 32⟩) (by decide) ha.symm rfl (by decide)
  refine ⟨row, C24_header, _, hok, hx, hr, ?_⟩
  have hc : (Example.decNew .decryptUnsigned).consumed ++ (some Example.msg).getD [] = Example.msg := by
    rw [Option.getD_some]; exact List.nil_append _
  refine C78_rejects .requireRequire Example.env ⟨fun _ => rfl, fun _ _ => rfl⟩ (Example.decNew .decryptUnsigned)
    (Example.decNew_reach _ _ (Or.inr rfl)) ⟨rfl, by decide, rfl, fun _ => rfl⟩ _ _
    (by show Example.msg.length ≤ (Example.zeros 300).length; decide +kernel) _ ?_ ?_
  · rw [hc]
    have := C78_header_decides Example.env .requireRequire .decryptUnsigned row C24_header (Example.msg.drop 109) _ hok hr
    rwa [← hx] at this
  · rw [hc]
    exact .header hok (Or.inl rfl) hx hr

/-- A message with a wrong byte in its second frame, in its signature, in its first byte, and one without its last byte. -/
example : Rejected Example.env .requireRequire 0 .decrypt (Example.msg.take 180 ++ [0] ++ Example.msg.drop 181) .badCiphertext ∧
    Rejected Example.env .requireRequire 0 .decrypt (Example.msg.take 290 ++ [0] ++ Example.msg.drop 291) .badCiphertext ∧
    Rejected Example.env .requireRequire 0 .decrypt (3 :: Example.msg.drop 1) .badCiphertext ∧
    ∀ c, ¬ Rejected Example.env .requireRequire 0 .decrypt Example.msg c := by
  have hn : NothingFails Example.env := ⟨fun _ => rfl, fun _ _ => rfl⟩
  have key : ∀ x c, (apply Example.env (Example.decNew .decrypt) (.process (Example.zeros 300) (some x))).2 = .err c →
      Rejected Example.env .requireRequire 0 .decrypt x c := by
    intro x c h
    rcases C78_why_decryption_fails .requireRequire Example.env (Example.decNew .decrypt) (Example.decNew_reach _ _ (Or.inl rfl))
      ⟨rfl, by decide, rfl, fun _ => rfl⟩ _ _ c h with h | h
    · exact h
    · exact absurd h (nothing_outside hn)
  refine ⟨key _ _ (by decide +kernel), key _ _ (by decide +kernel), key _ _ (by decide +kernel), ?_⟩
  intro c h
  have hv : ∃ pt, ValidMessage Example.env .requireRequire 0 .decrypt Example.msg pt :=
    ⟨[1, 2, 3, 4, 5, 6], ((C75_accepts_exactly _ _ _ hn _ (Example.decNew_reach (· = Example.env) .decrypt (Or.inl rfl))
      (⟨⟨rfl, rfl, rfl⟩, rfl, rfl⟩ : ReadyToDecrypt (Example.decNew .decrypt)) (Example.zeros 50) Example.msg [1, 2, 3, 4, 5, 6] 0).mp (by decide +kernel)).1⟩
  obtain ⟨pt, hv⟩ := hv
  exact C78_message_not_rejected _ _ _ _ _ _ [] c hv (by rw [List.append_nil]; exact h)

/-- A session without CMM, or with a policy that does not exist, fails at its first call. -/
theorem C78_not_set_up (e : Env) (v : View) (hst : v.s.state = .config) (h : v.s.hasCmm = false ∨ v.s.policy.isValid = false) (mem : Bytes)
    (inp : Option Bytes) : (apply e v (.process mem inp)).2 = .err .badState := by
  rw [apply_process_res]
  unfold process processFuel processLoop sessionStep
  rcases h with h | h <;> simp [hst, h]

example : (apply Example.env { (Example.decNew .decrypt) with s := { (Example.decNew .decrypt).s with hasCmm := false } }
    (.process (Example.zeros 4) (some [1, 2]))).2 = .err .badState :=
  C78_not_set_up _ _ rfl (Or.inl rfl) _ _

end Verif.Props
