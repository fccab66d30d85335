import Verif.Proof.SessionAccepts
import Verif.Props.SessionComplete
import Verif.Props.SessionSafety
/-
C75: decryption accepts exactly the messages of the published format.
-/
namespace Verif.Props
open Spec

theorem follows_start_parts {e : Env} {mx : Nat} {mode : Mode} {msg pt : Bytes} {row : SuiteRow} {h : Hdr}
    {m : DecMaterials} {k : Bytes} {fr : List (Frame × Bytes)} {tr : Bytes} {v0 : View} (hI : Inv v0.s) (hr : ReadyToDecrypt v0)
    (hmx : mx = v0.s.maxEdks) (hmd : mode = v0.s.mode) (hv : MessageParts e v0.s.policy mx mode msg pt row h m k fr tr) :
    Follows (· = e) row h k fr tr v0.s (wireHeader row.version h ++ (bodyBytes fr ++ tr)) [] := by
  subst hmx hmd
  have hmay := hv.policy
  have hok := hv.header.ok
  obtain ⟨p, hp⟩ := algProps_of_row hok.suite
  have hf := rowFacts hok.suite hp
  have hsi := hI.st
  unfold StInv at hsi
  rw [hr.start.1] at hsi
  refine .start (Or.inl hr.start.1) hsi.2.signctx hr.hasCmm ?_ ?_ hv.limit ?_ rfl rfl
  · cases hpol : v0.s.policy <;> rw [hpol] at hmay <;> simp_all [MayDecrypt, Policy.isValid]
  · rw [hok.id]
    cases hpol : v0.s.policy <;> rw [hpol] at hmay <;> simp_all [MayDecrypt, allowedForDecrypt]
    exact hf.committing.mpr hmay
  · cases hmode : v0.s.mode with
    | decrypt => exact Or.inl rfl
    | decryptUnsigned =>
      refine Or.inr ⟨rfl, ?_⟩
      rintro e' m' rfl hc
      have := Except.ok.inj (hc.symm.trans hv.header.cmm)
      subst this
      obtain ⟨r, r1, r2, r3⟩ := hv.suite
      obtain ⟨mp, hmp⟩ := algProps_of_row r1
      refine ⟨mp, by rw [← r2]; exact hmp, (rowFacts r1 hmp).sig.mpr (r3 hmode)⟩
    | _ => have := hr.mode; rw [hmode] at this; cases this

/-- A session that is given a message from its beginning, in whatever slices and with whatever output buffers, never fails, and
what it releases is a prefix of the plaintext. -/
theorem C75_reading_never_fails (E : Env → Prop) (pol : Policy) (e : Env) (hn : NothingFails e) (v0 v : View) (h0 : Reach E pol v0)
    (hr : ReadyToDecrypt v0) (msg pt : Bytes) (hmsg : ValidMessage e v0.s.policy v0.s.maxEdks v0.s.mode msg pt)
    (hv : Reading (· = e) msg v0 v) (mem inp : Bytes) (hinp : v.consumed ++ inp <+: msg) :
    (apply e v (.process mem (some inp))).2 = .ok ∧ (apply e v (.process mem (some inp))).1.released <+: pt := by
  obtain ⟨row, h, m, k, fr, tr, hp⟩ := hmsg
  have hM := readable_of_parts hn hp
  have hF := follows_start_parts h0.hinv.inv hr rfl rfl hp
  have hb := hp.bytes
  rw [List.append_assoc] at hb
  rw [hb] at hv hinp
  obtain ⟨c1, rem, c2, c3⟩ := follows_of_reading hM h0.hinv.inv hr.start.2.1 hr.start.2.2 hF hv
  obtain ⟨later, hl⟩ := hinp
  have hrem : rem = inp ++ later := by
    rw [← c2, List.append_assoc] at hl
    exact (List.append_cancel_left hl).symm
  subst hrem
  obtain ⟨p1, p2, ⟨rest, p3, p4, p5⟩, -⟩ := follow_process hM rfl c1 (mem := mem) c3
  have hap : apply e v (.process mem (some inp)) = (⟨(process e v.s mem inp false).s,
      v.consumed ++ inp.take (process e v.s mem inp false).read,
      v.released ++ (process e v.s mem inp false).mem.take (process e v.s mem inp false).written⟩, (process e v.s mem inp false).res) := by
    show (if (process e v.s mem inp false).res = .ok then _ else _ : View × Res) = _
    rw [if_pos p1]
    rfl
  rw [hap]
  exact ⟨p1, by rw [hp.text]; exact follows_released p5⟩

/-- When it is given all that remains, with room for the rest of the plaintext, one call reads the message to its end. -/
theorem C75_reads_to_the_end (E : Env → Prop) (pol : Policy) (e : Env) (hn : NothingFails e) (v0 v : View) (h0 : Reach E pol v0)
    (hr : ReadyToDecrypt v0) (msg pt : Bytes) (hmsg : ValidMessage e v0.s.policy v0.s.maxEdks v0.s.mode msg pt)
    (hv : Reading (· = e) msg v0 v) (mem inp : Bytes) (hinp : v.consumed ++ inp = msg) (hroom : pt.length ≤ v.released.length + mem.length) :
    (apply e v (.process mem (some inp))).2 = .ok ∧ isDone (apply e v (.process mem (some inp))).1.s = true ∧
    (apply e v (.process mem (some inp))).1.consumed = msg ∧ (apply e v (.process mem (some inp))).1.released = pt := by
  obtain ⟨row, h, m, k, fr, tr, hp⟩ := hmsg
  have hM := readable_of_parts hn hp
  have hF := follows_start_parts h0.hinv.inv hr rfl rfl hp
  have hb := hp.bytes
  rw [List.append_assoc] at hb
  subst hb
  obtain ⟨c1, rem, c2, c3⟩ := follows_of_reading hM h0.hinv.inv hr.start.2.1 hr.start.2.2 hF hv
  have hrem : rem = inp ++ [] := by
    rw [← c2] at hinp
    rw [List.append_nil]; exact (List.append_cancel_left hinp).symm
  subst hrem
  obtain ⟨p1, p2, ⟨rest, p3, p4, p5⟩, p6⟩ := follow_process hM rfl c1 (mem := mem) c3
  have hdone := p6 rfl (by rw [← hp.text]; exact hroom) hp.complete (by
    intro h0 htr
    have hs := hp.signature
    unfold SignatureVerified at hs
    rw [if_neg h0, htr] at hs
    obtain ⟨_, _, sig, _, _, _, h, _⟩ := hs
    have := congrArg List.length h
    simp [wireTrailer, u16] at this)
  have hap : apply e v (.process mem (some inp)) = (⟨(process e v.s mem inp false).s,
      v.consumed ++ inp.take (process e v.s mem inp false).read,
      v.released ++ (process e v.s mem inp false).mem.take (process e v.s mem inp false).written⟩, (process e v.s mem inp false).res) := by
    show (if (process e v.s mem inp false).res = .ok then _ else _ : View × Res) = _
    rw [if_pos p1]
    rfl
  rw [hap]
  have hfin : rest = [] ∧ v.released ++ (process e v.s mem inp false).mem.take (process e v.s mem inp false).written = bodyText fr := by
    cases p5 with
    | start hst => rw [hdone] at hst; simp at hst
    | body _ _ hst => rw [hdone] at hst; cases hst
    | trailer hst => rw [hdone] at hst; cases hst
    | done hst _ hout hrem => exact ⟨by simpa using hrem, hout⟩
  refine ⟨p1, by simp [isDone, hdone], ?_, by rw [hp.text]; exact hfin.2⟩
  show v.consumed ++ inp.take (process e v.s mem inp false).read = _
  rw [hfin.1, List.append_nil] at p3
  rw [← p3]; exact hinp

/-- A decrypting session that is done, whatever the calls, has read a message and released its plaintext. -/
theorem C75_done_means_valid (pol : Policy) (e : Env) (v : View) (h : Reach (· = e) pol v) (hm : v.s.mode.isDecrypt = true)
    (hd : isDone v.s = true) : ValidMessage e pol v.s.maxEdks v.s.mode v.consumed v.released :=
  parts_of_done h.hinv hm (by simpa [isDone] using hd)

/-- One call with the whole input succeeds with the plaintext `pt` exactly if the input is a message with this plaintext and the
buffer has room for it. -/
theorem C75_accepts_exactly (E : Env → Prop) (pol : Policy) (e : Env) (hn : NothingFails e) (v0 : View) (h0 : Reach E pol v0)
    (hr : ReadyToDecrypt v0) (mem msg pt : Bytes) (old : Nat) :
    ((apply e v0 (.processFull mem (some msg) old)).2 = .ok ∧ (apply e v0 (.processFull mem (some msg) old)).1.released = pt) ↔
    ValidMessage e v0.s.policy v0.s.maxEdks v0.s.mode msg pt ∧ pt.length ≤ mem.length := by
  have hnc : ¬ v0.s.mode = .encrypt := fun h => by have := hr.mode; rw [h] at this; cases this
  constructor
  · rintro ⟨hok, hrel⟩
    obtain ⟨d1, d2, d3⟩ := C32_full_ok E pol v0 h0 e mem (some msg) old hok
    have hh0 : HInv (· = e) pol v0 := hinv_start h0.hinv.inv h0.hinv.polOk hr.start.1 hr.start.2.1 hr.start.2.2
    have hh := (hinv_apply hh0 rfl (.processFull mem (some msg) old)).1
    change HInv (· = e) pol _ at hh
    have hfull : processFull e v0.s mem msg false old = process e v0.s mem msg false := by
      have hres : (processFull e v0.s mem msg false old).res = .ok := by
        simp only [apply, Option.getD_some, Option.isNone_some] at hok
        split at hok
        · assumption
        · exact hok
      unfold processFull at hres ⊢
      rw [if_neg (by simp [hr.start.1])] at hres ⊢
      simp only [hnc, if_false] at hres ⊢
      cases ho : (process e v0.s mem msg false).res <;> simp only [ho] at hres ⊢
      · split at hres
        · rename_i hc; rw [if_pos hc]
        · cases hres
      all_goals cases hres
    have hkeep := (hinv_process hh0 rfl mem msg false).1
    have hpr : (process e v0.s mem msg false).res = .ok := by
      simp only [apply, Option.getD_some, Option.isNone_some, hfull] at hok
      split at hok
      · assumption
      · exact hok
    have hs : (apply e v0 (.processFull mem (some msg) old)).1.s = (process e v0.s mem msg false).s := by
      simp only [apply, Option.getD_some, Option.isNone_some, hfull, hpr, if_true]
    have hvm := parts_of_done hh (by rw [hs, hkeep.mode]; exact hr.mode) (by simpa [isDone] using d1)
    rw [hs, hkeep.mode, hkeep.maxEdks, d2, hrel] at hvm
    have hpol : v0.s.policy = pol := by
      apply h0.hinv.polOk
      -- a session with an invalid policy does not get past its first step
      cases hpv : v0.s.policy.isValid with
      | true => rfl
      | false =>
        exfalso
        unfold process processFuel processLoop sessionStep at hpr
        simp [hr.start.1, hr.hasCmm, hpv] at hpr
    rw [hpol]
    refine ⟨hvm, ?_⟩
    rw [← hrel, d3]
    simp only [Option.getD_some, Option.isNone_some, hfull]
    cases process_cases e v0.s h0.hinv.inv mem msg false with
    | ok rest hr hml hw => simp only [List.length_take]; omega
    | err _ _ _ _ _ hr => rw [hr] at hpr; cases hpr
  · rintro ⟨hmsg, hroom⟩
    have h := C75_reads_to_the_end E pol e hn v0 v0 h0 hr msg pt hmsg .start mem msg (by rw [hr.start.2.1]; rfl)
      (by rw [hr.start.2.2]; simpa using hroom)
    have hpr : (process e v0.s mem msg false).res = .ok := by
      cases hp : (process e v0.s mem msg false).res with
      | ok => rfl
      | _ =>
        have := h.1
        simp only [apply, Option.getD_some, Option.isNone_some, hp] at this
        cases this
    simp only [apply, Option.getD_some, Option.isNone_some, hpr, if_true] at h
    have hread : (process e v0.s mem msg false).read = msg.length := by
      have h3 := h.2.2.1
      rw [hr.start.2.1, List.nil_append] at h3
      have h4 := congrArg List.length h3
      rw [List.length_take] at h4
      cases process_cases e v0.s h0.hinv.inv mem msg false with
      | ok rest hr hml hw hread hrl => omega
      | err e out inp1 mem1 s1 hr => rw [hr] at hpr; cases hpr
    have hfull : processFull e v0.s mem msg false old = process e v0.s mem msg false := by
      unfold processFull
      rw [if_neg (by simp [hr.start.1])]
      simp only [hnc, if_false, hpr]
      rw [if_pos ⟨by simpa [isDone] using h.2.1, hread⟩]
    simp only [apply, Option.getD_some, Option.isNone_some, hfull, hpr, if_true]
    exact ⟨trivial, h.2.2.2⟩

/-- A message this library would not write: the only frame is a final frame that is full, and its IV is not the frame number. -/
def foreignMsg : Bytes :=
  Example.msg.take 109 ++ wireFrame ⟨.final, 1, List.replicate 12 8, [1, 2, 3, 4], List.replicate 16 7⟩ ++ Example.msg.drop 187

/-- It is a message all the same, so it is read in any slices; without its last byte it is not. -/
example : NothingFails Example.env ∧ Reach (· = Example.env) .requireRequire (Example.decNew .decrypt) ∧ ReadyToDecrypt (Example.decNew .decrypt) ∧
    ValidMessage Example.env .requireRequire 0 .decrypt foreignMsg [1, 2, 3, 4] ∧
    Reading (· = Example.env) foreignMsg (Example.decNew .decrypt)
      (apply Example.env (Example.decNew .decrypt) (.process (Example.zeros 2) (some (foreignMsg.take 50)))).1 ∧
    ¬ ∃ pt, ValidMessage Example.env .requireRequire 0 .decrypt foreignMsg.dropLast pt ∧ pt.length ≤ 300 := by
  have hn : NothingFails Example.env := ⟨fun _ => rfl, fun _ _ => rfl⟩
  have hr := Example.decNew_reach (· = Example.env) .decrypt (Or.inl rfl)
  have hd : ReadyToDecrypt (Example.decNew .decrypt) := ⟨⟨rfl, rfl, rfl⟩, rfl, rfl⟩
  refine ⟨hn, hr, hd, ((C75_accepts_exactly _ _ _ hn _ hr hd (Example.zeros 50) foreignMsg [1, 2, 3, 4] 0).mp (by decide +kernel)).1,
    .call .start rfl ⟨foreignMsg.drop 50, by decide +kernel⟩, ?_⟩
  rintro ⟨pt, h⟩
  have := ((C75_accepts_exactly _ _ _ hn _ hr hd (Example.zeros 300) foreignMsg.dropLast pt 0).mpr ⟨h.1, by rw [Example.zeros, List.length_replicate]; exact h.2⟩).1
  revert this
  decide +kernel

end Verif.Props
