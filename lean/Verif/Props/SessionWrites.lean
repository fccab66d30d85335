import Verif.Proof.SessionFinishes
import Verif.Spec.SessionExample
/-
C73: encryption succeeds when nothing outside fails, and the message has the length of the format.
-/
namespace Verif.Props
open Verif Verif.Spec

theorem going_of {E : Env → Prop} {pol : Policy} {v : View} (h : Reach E pol v) {inp : Bytes} (hc : CanWrite E v inp) : Going E v inp := by
  refine ⟨hc.mode, hc.alive, hc.policy, h.hasCmm, fun hs => ?_, hc.room⟩
  rcases hs with hs | hs
  · exact hc.answers hs
  · exact absurd hs h.not_genKey

/-- **C73.**  An encrypting session that is set up, whose CMM answers with usable materials, in an environment in which nothing fails, and with a
message within the limits of the format, never fails to process input, however it is sliced and whatever the output buffers; and what was true of
it is true of it after the call. -/
theorem C73_encryption_does_not_fail (E : Env → Prop) (hW : Works E) (pol : Policy) (v : View) (h : Reach E pol v) (inp : Bytes)
    (hc : CanWrite E v inp) (env : Env) (he : E env) (mem : Bytes) :
    (apply env v (.process mem (some inp))).2 = .ok ∧
    ∀ inp', RoomFor (apply env v (.process mem (some inp))).1 inp' → CanWrite E (apply env v (.process mem (some inp))).1 inp' := by
  obtain ⟨hok, rest, -, -, -, -, hst, -, hg⟩ := going_process hW h.hinv (going_of h hc) he mem false
  have e : (apply env v (.process mem (some inp))).1 = ⟨(process env v.s mem inp false).s, v.consumed ++ inp.take (process env v.s mem inp false).read,
      v.released ++ (process env v.s mem inp false).mem.take (process env v.s mem inp false).written⟩ := by
    simp only [apply, Option.getD_some, Option.isNone_some]
    rw [if_pos hok]
  refine ⟨?_, fun inp' hr => ?_⟩
  · simp only [apply, Option.getD_some, Option.isNone_some]
    rw [if_pos hok]
    exact hok
  · rw [e] at hr ⊢
    exact ⟨hg.mode, hg.alive, hg.policy, fun hs => hg.answers (Or.inl hs), hr⟩

/-- **C73.**  A complete message has exactly the length of the format for its suite, encryption context, encrypted data keys, frame size and
plaintext. -/
theorem C73_message_length (E : Env → Prop) (hW : Works E) (pol : Policy) (v : View) (h : Reach E pol v) (hm : v.s.mode = .encrypt)
    (hd : isDone v.s = true) :
    ∃ row ∈ suiteTable, getAlgId v.s = .ok row.id ∧
      v.released.length = messageLen row v.s.header.encCtx v.s.header.edks v.s.frameSize v.consumed.length := by
  have hd : v.s.state = .done := by simpa [isDone] using hd
  have hl := h.hinv.live (by rw [hd]; simp)
  rcases encrypted_of_live h.hinv.inv hl hm with ⟨-, -, h1⟩ | ⟨hd', m, p, k, hb, fr, hlog, h1⟩
  · rw [hd] at h1; rcases h1 with h1 | h1 <;> cases h1
  · obtain ⟨row, hlens⟩ := encLens hlog.hdr
    refine ⟨row, hlens.suite, ?_, ?_⟩
    · unfold getAlgId
      rw [hlog.props]
      simp only
      rw [(suiteFacts hlens.props).id]
    · rw [hd] at h1
      rcases h1 with ⟨h1, -⟩ | ⟨h1, -⟩ | ⟨h1, -⟩ | ⟨-, tr, h2, h3, h4, -⟩
      · cases h1
      · cases h1
      · cases h1
      · rw [h3, List.length_append, List.length_append, trailer_length hW hlens h4, complete_lengths hlog.frames h2, hlens.header,
          ← hlog.consumed, hlog.header]
        rfl

/-- **C73.**  Given all the rest of a message whose size was declared, a call finishes the message unless the output buffers so far are shorter than
the message: then it has read and written what it could and the message is too long for them. -/
theorem C73_all_input_completes (E : Env → Prop) (hW : Works E) (pol : Policy) (v : View) (h : Reach E pol v) (inp : Bytes)
    (hc : CanWrite E v inp) (hk : v.s.preciseKnown = true) (hall : v.consumed.length + inp.length = v.s.preciseSize)
    (env : Env) (he : E env) (mem : Bytes) :
    let r := apply env v (.process mem (some inp))
    r.2 = .ok ∧
    ((isDone r.1.s = true ∧ r.1.consumed = v.consumed ++ inp) ∨
     ∃ row ∈ suiteTable, getAlgId r.1.s = .ok row.id ∧
       v.released.length + mem.length < messageLen row r.1.s.header.encCtx r.1.s.header.edks r.1.s.frameSize r.1.s.preciseSize) := by
  obtain ⟨hok, rest, hread, hrl, hw, hml, hst, hH, hg⟩ := going_process hW h.hinv (going_of h hc) he mem false
  have hkp := (hinv_process h.hinv he mem inp false).1
  simp only [apply, Option.getD_some, Option.isNone_some]
  rw [if_pos hok]
  refine ⟨hok, ?_⟩
  simp only
  have hrest : rest.length = inp.length - (process env v.s mem inp false).read := by
    have := congrArg List.length hread
    rw [List.length_append, List.length_take] at this
    omega
  generalize process env v.s mem inp false = o at *
  have hall' : (v.consumed ++ inp.take o.read).length + rest.length = o.s.preciseSize := by
    rw [hkp.preciseSize, ← hall, List.length_append, List.length_take]
    omega
  rcases stalled_short hH hg.mode hg.alive hg.room hst (by simp only; rw [hkp.preciseKnown]; exact hk) hall' with h1 | ⟨row, h1, h2, h3⟩
  · left
    simp only at h1
    refine ⟨by simpa [isDone] using h1, ?_⟩
    have hl := hH.live (by simp only; rw [h1]; simp)
    have hlen : (v.consumed ++ inp.take o.read).length = o.s.preciseSize := by
      unfold LiveLog at hl
      simp only [h1] at hl
      rcases hl with ⟨_, _, _, _, _, _, _, _, _, _, _, _, h5⟩ | ⟨_, _, _, _, _, _, _, _, h5, _⟩
      · exact h5
      · have h6 := h5.mode
        simp only at h6
        rw [hkp.mode, hc.mode] at h6
        cases h6
    rw [List.take_of_length_le]
    have := hall'
    omega
  · right
    refine ⟨row, h1, h2, ?_⟩
    simp only at h3
    rw [List.length_append, List.length_take] at h3
    omega

/-- **C73.**  Encryption in one call: the output buffer is long enough for the message that the CMM's answer leads to, so the call succeeds, reads
everything and writes exactly that many bytes. -/
theorem C73_one_call (E : Env → Prop) (pol : Policy) (v : View) (h : Reach E pol v) (hm : v.s.mode = .encrypt) (hst : v.s.state = .config)
    (hp : v.s.policy.isValid = true) (hk : v.s.preciseKnown = false) (env : Env) (hW : Works (· = env)) (mem inp : Bytes) (old : Nat)
    (hb : inp.length ≤ v.s.sizeBound) (hsz : SizeOK v.s.frameSize inp.length) (row : SuiteRow) (ctx : EncCtx) (m : EncMaterials)
    (hg : env.cmm.generate ⟨v.s.header.encCtx, 0, inp.length, v.s.policy⟩ = (ctx, .ok m)) (hu : Usable v.s.policy v.s.maxEdks row ctx m)
    (hroom : messageLen row ctx m.edks v.s.frameSize inp.length ≤ mem.length) :
    let o := processFull env v.s mem inp false old
    o.res = .ok ∧ isDone o.s = true ∧ o.read = inp.length ∧ o.written = messageLen row ctx m.edks v.s.frameSize inp.length ∧
      getAlgId o.s = .ok row.id ∧ o.mem.length = mem.length ∧ o.s.mode = .encrypt ∧ o.s.header.algId = row.id ∧ o.s.header.edks = m.edks ∧
      o.s.header.encCtx = ctx := by
  have hH0 : HInv (· = env) pol v := h.hinv.fresh hst hm
  have hcr : v.consumed = [] ∧ v.released = [] := by
    have hl := hH0.live (by rw [hst]; simp)
    unfold LiveLog at hl
    simp only [hst] at hl
    exact ⟨hl.1, hl.2.1⟩
  have hfs := h.hinv.inv.frameSize
  have hlen : inp.length < 2 ^ 64 := Nat.lt_of_le_of_lt hb h.hinv.inv.sizeBound
  have hu64 : u64 inp.length = inp.length := Nat.mod_eq_of_lt hlen
  have hset : setMessageSize env v.s inp.length = ({ v.s with preciseSize := inp.length, preciseKnown := true }, .ok) := by
    unfold setMessageSize
    rw [if_neg (by simp [hm]), if_neg (by simp [hk]), hu64, if_neg (by omega)]
    unfold computeBodyEstimate
    rw [if_pos (by simp [hst])]
  have hH1 : HInv (· = env) pol ⟨{ v.s with preciseSize := inp.length, preciseKnown := true }, v.consumed, v.released⟩ := by
    have := (hinv_setMessageSize env hH0 inp.length).1
    rw [hset] at this
    exact this
  have hG : Going (· = env) ⟨{ v.s with preciseSize := inp.length, preciseKnown := true }, v.consumed, v.released⟩ inp := by
    refine ⟨hm, by simp [hst], hp, h.hasCmm, fun _ e he => ?_, ?_⟩
    · subst he
      exact ⟨row, ctx, m, hg, hu⟩
    · unfold RoomFor
      simp only [if_true]
      exact ⟨by rw [hcr.1]; exact Nat.zero_le _, hsz⟩
  have hfields : ({ v.s with preciseSize := inp.length, preciseKnown := true } : Session).mode = .encrypt ∧
      ({ v.s with preciseSize := inp.length, preciseKnown := true } : Session).state = .config ∧
      ({ v.s with preciseSize := inp.length, preciseKnown := true } : Session).preciseSize = inp.length ∧
      ({ v.s with preciseSize := inp.length, preciseKnown := true } : Session).preciseKnown = true ∧
      ({ v.s with preciseSize := inp.length, preciseKnown := true } : Session).frameSize = v.s.frameSize ∧
      encRequest { v.s with preciseSize := inp.length, preciseKnown := true } = ⟨v.s.header.encCtx, 0, inp.length, v.s.policy⟩ :=
    ⟨hm, hst, rfl, rfl, rfl, rfl⟩
  generalize ({ v.s with preciseSize := inp.length, preciseKnown := true } : Session) = s1 at *
  obtain ⟨hm1, hst1, hps1, hkn1, hfs1, hreq1⟩ := hfields
  obtain ⟨hok, rest, hread, hrl, hw, hml, hstall, hH, hg'⟩ := going_process hW hH1 hG rfl mem false
  have hkp := (hinv_process hH1 (rfl : env = env) mem inp false).1
  have hcases := process_cases env s1 hH1.inv mem inp false
  simp only at hok hread hrl hw hml hstall hH hg' hkp
  have hrest : rest.length = inp.length - (process env s1 mem inp false).read := by
    have := congrArg List.length hread
    rw [List.length_append, List.length_take] at this
    omega
  simp only
  unfold processFull
  rw [if_neg (by simp [hst])]
  simp only [hm, if_true, hset]
  generalize process env s1 mem inp false = o at *
  rw [hok]
  simp only
  have hps : o.s.preciseSize = inp.length := hkp.preciseSize.trans hps1
  have hfs' : o.s.frameSize = v.s.frameSize := (hkp.frameSize hm1).trans hfs1
  have hsteps : ∃ rest', Steps env false s1 inp (o.mem.take o.written) o.s rest' := by
    cases hcases with
    | ok rest' _ _ _ _ _ _ _ hs _ => exact ⟨rest', hs⟩
    | err e out inp1 mem1 s1 hr => rw [hr] at hok; cases hok
  obtain ⟨rest', hsteps⟩ := hsteps
  have answer : ¬ Early o.s → o.s.header.encCtx = ctx ∧ o.s.header.edks = m.edks ∧ getAlgId o.s = .ok row.id := by
    intro hl
    obtain ⟨ctx', m', p', a1, a2, a3, a4, a5⟩ := steps_answer hsteps hH1.inv hm1 (Or.inl hst1) hl
    rw [hreq1, hg] at a1
    cases a1
    refine ⟨a2, a3, ?_⟩
    unfold getAlgId
    rw [a4]
    simp only
    rw [(suiteFacts a5).id, hu.alg]
  have hall' : (v.consumed ++ inp.take o.read).length + rest.length = o.s.preciseSize := by
    rw [hps, hcr.1, List.nil_append, List.length_take]
    omega
  have late : ∀ {a : Nat}, getAlgId o.s = .ok a → ¬ Early o.s := by
    intro a ha hE
    have hst' := hH.inv.st
    unfold StInv at hst'
    simp only at hst'
    rcases hE with hE | hE | hE
    · simp only [hE] at hst'
      unfold getAlgId at ha
      rw [hst'.2.algProps] at ha
      cases ha
    · simp only [hE] at hst'
      unfold getAlgId at ha
      rw [hst'.2.algProps] at ha
      cases ha
    · exact hg'.alive hE
  rcases stalled_short hH hg'.mode hg'.alive hg'.room hstall (hkp.preciseKnown.trans hkn1) hall' with h1 | ⟨row', h1, h2, h3⟩
  · simp only at h1
    have hnE : ¬ Early o.s := by
      intro hE
      unfold Early at hE
      rw [h1] at hE
      rcases hE with hE | hE | hE <;> cases hE
    obtain ⟨a1, a2, a3⟩ := answer hnE
    have hl := hH.live hg'.alive
    unfold LiveLog at hl
    simp only [h1] at hl
    rcases hl with ⟨hd', m', p', k, hb', fr, tr, hlog, h2, h3, h4, -, h5⟩ | ⟨_, _, _, _, _, _, _, _, h5, _⟩
    · obtain ⟨row', hlens⟩ := encLens hlog.hdr
      have hrow : row' = row := by
        refine row_unique' hlens.suite hu.suite ?_
        have hpp := hlog.props
        simp only at hpp
        unfold getAlgId at a3
        rw [hpp] at a3
        simp only [Except.ok.injEq] at a3
        rw [← a3, (suiteFacts hlens.props).id]
      subst hrow
      have hread' : o.read = inp.length := by
        have h6 := h5
        rw [hps, hcr.1, List.nil_append, List.length_take] at h6
        omega
      rw [if_pos ⟨h1, hread'⟩]
      refine ⟨hok, by simpa [isDone] using h1, hread', ?_, a3, hml, hkp.mode.trans hm1, ?_, a2, a1⟩
      · have h6 := congrArg List.length h3
        rw [List.length_append, List.length_append, List.length_append, trailer_length hW hlens h4, complete_lengths hlog.frames h2, hlens.header,
          ← hlog.consumed, ← hlog.header, hcr.1, hcr.2, List.length_take, hml] at h6
        simp only at h6
        rw [a1, a2, hfs', List.nil_append, List.length_take, hread', Nat.min_self] at h6
        unfold messageLen
        simp only [List.length_nil] at h6
        omega
      · have hh := hlog.header
        simp only at hh
        rw [hh]
        exact hlens.id
    · have h6 : o.s.mode.isDecrypt = true := h5.mode
      rw [hkp.mode, hm1] at h6
      cases h6
  · exfalso
    obtain ⟨a1, a2, a3⟩ := answer (late h2)
    rw [a3] at h2
    have : row' = row := row_unique' h1 hu.suite (by simp only [Except.ok.injEq] at h2; exact h2.symm)
    subst this
    rw [a1, a2, hps, hfs', hcr.2, List.length_append, List.length_nil, List.length_take, hml] at h3
    omega

/-! ### the hypotheses can be met -/

/-- In the environment of the examples nothing fails. -/
theorem example_works : Works (· = Example.env) := by
  refine ⟨?_, ?_, ?_, ?_, ?_, ?_⟩
  · rintro e rfl site; rfl
  · rintro e rfl n; exact ⟨_, rfl⟩
  · rintro e rfl sha salt ikm info n - - -; exact ⟨_, rfl⟩
  · rintro e rfl k iv aad pt - -; exact ⟨_, _, rfl⟩
  · rintro e rfl ctx x; rfl
  · rintro e e' rfl rfl req ctx m row c data hg hr hid hc
    cases hg
    refine ⟨List.replicate 103 3, rfl, ?_⟩
    have key : ∀ r ∈ suiteTable, r.id = 0x0578 → 103 = sigBytes r := by decide
    rw [List.length_replicate]
    exact key row hr hid

/-- Suite 0x0578. -/
def exampleRow : SuiteRow := (suiteTable.find? (·.id == 0x0578)).get rfl

/-- Its CMM answers with usable materials. -/
theorem example_usable (req : EncRequest) (hr : req.encCtx = [([1], [2])]) (n : Nat) (hn : n = 0 ∨ 1 ≤ n) : ∃ ctx m,
    Example.env.cmm.generate req = (ctx, .ok m) ∧ Usable .requireRequire n exampleRow ctx m ∧ messageLen exampleRow ctx m.edks 4 5 = 291 := by
  refine ⟨req.encCtx, _, rfl, ⟨by decide, rfl, by simp only [MayEncrypt]; decide, by decide, by decide, hn, by decide, ?_, ?_⟩, ?_⟩
  all_goals (rw [hr]; decide)

/-- A session with a context and frames of four bytes. -/
def writeView : View := (apply Example.env (apply Example.env Example.encNew (.editCtx (fun _ => [([1], [2])]) (fun _ _ => by simp [DistinctKeys]))).1
  (.setFrameSize 4)).1

theorem writeView_reach : Reach (· = Example.env) .requireRequire writeView := by
  have h0 : Reach (· = Example.env) .requireRequire Example.encNew := .new (mode := .encrypt) rfl
  have h1 := Reach.call (env := Example.env) (.editCtx (fun _ => [([1], [2])]) (fun _ _ => by simp [DistinctKeys])) h0 rfl
  exact Reach.call (env := Example.env) (.setFrameSize 4) h1 rfl

/-- It can write: the hypotheses of the first theorem hold. -/
theorem writeView_can (inp : Bytes) (h : inp.length < 1000) : CanWrite (· = Example.env) writeView inp := by
  refine ⟨rfl, by decide, rfl, fun _ e he => ?_, ?_⟩
  · subst he
    obtain ⟨ctx, m, h1, h2, -⟩ := example_usable ⟨writeView.s.header.encCtx, 0, if writeView.s.preciseKnown then writeView.s.preciseSize else
      writeView.s.sizeBound, writeView.s.policy⟩ rfl 0 (.inl rfl)
    exact ⟨exampleRow, ctx, m, h1, h2⟩
  · show RoomFor writeView inp
    unfold RoomFor
    rw [if_neg (by decide)]
    right
    rw [show writeView.consumed.length = 0 from rfl, show writeView.s.frameSize = 4 from rfl]
    omega

/-- So it can after it has been given part of a message. -/
example : Works (· = Example.env) ∧ Reach (· = Example.env) .requireRequire writeView ∧ CanWrite (· = Example.env) writeView [1, 2, 3, 4, 5] ∧
    CanWrite (· = Example.env) (apply Example.env writeView (.process (Example.zeros 200) (some [1, 2, 3, 4, 5]))).1 [5, 6] ∧
    (apply Example.env writeView (.process (Example.zeros 200) (some [1, 2, 3, 4, 5]))).1.consumed = [1, 2, 3, 4] := by
  refine ⟨example_works, writeView_reach, writeView_can _ (by decide), ?_, by decide +kernel⟩
  refine (C73_encryption_does_not_fail _ example_works _ _ writeView_reach _ (writeView_can _ (by decide)) _ rfl _).2 _ ?_
  unfold RoomFor
  rw [if_neg (by decide +kernel)]
  decide +kernel

/-- A finished message: 109 bytes of header, frames of 36 and 42 bytes, and 105 bytes of trailer. -/
example : isDone (run Example.encNew Example.encHist).s = true ∧ (run Example.encNew Example.encHist).released.length = 292 ∧
    messageLen exampleRow [([1], [2])] [Example.edk] 4 6 = 292 := by decide +kernel

/-- The same session with the size declared, one byte short of output space and with enough. -/
example : let v := (apply Example.env writeView (.setMessageSize 5)).1
    v.s.preciseKnown = true ∧ v.consumed.length + [1, 2, 3, 4, 5].length = v.s.preciseSize ∧
    isDone (apply Example.env v (.process (Example.zeros 290) (some [1, 2, 3, 4, 5]))).1.s = false ∧
    isDone (apply Example.env v (.process (Example.zeros 291) (some [1, 2, 3, 4, 5]))).1.s = true := by decide +kernel

/-- In one call. -/
example : ∃ ctx m, Example.env.cmm.generate ⟨writeView.s.header.encCtx, 0, [1, 2, 3, 4, 5].length, writeView.s.policy⟩ = (ctx, .ok m) ∧
    Usable writeView.s.policy writeView.s.maxEdks exampleRow ctx m ∧ messageLen exampleRow ctx m.edks writeView.s.frameSize 5 ≤ (Example.zeros 291).length ∧
    [1, 2, 3, 4, 5].length ≤ writeView.s.sizeBound ∧ SizeOK writeView.s.frameSize 5 ∧ writeView.s.preciseKnown = false ∧
    (processFull Example.env writeView.s (Example.zeros 291) [1, 2, 3, 4, 5] false 0).written = 291 := by
  obtain ⟨ctx, m, h1, h2, h3⟩ := example_usable ⟨writeView.s.header.encCtx, 0, [1, 2, 3, 4, 5].length, writeView.s.policy⟩ rfl 0 (.inl rfl)
  refine ⟨ctx, m, h1, h2, ?_, by decide, by unfold SizeOK; decide, rfl, by decide +kernel⟩
  rw [show writeView.s.frameSize = 4 from rfl, h3, show (Example.zeros 291).length = 291 from List.length_replicate ..]
  exact Nat.le_refl _

end Verif.Props
