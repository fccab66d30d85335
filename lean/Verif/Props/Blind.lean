import Verif.Spec.Blind
import Verif.Proof.SessionFacts
import Verif.Spec.SessionExample
/-
C107: an encrypting session uses the bytes of the plaintext for nothing but to seal them.
-/
namespace Verif.Props
open Verif Verif.Spec

theorem zeros_append (a b : Bytes) : zeros (a ++ b) = zeros a ++ zeros b := by
  simp [zeros, List.replicate_append_replicate]

theorem zeros_take (n : Nat) (a : Bytes) : zeros (a.take n) = (zeros a).take n := by
  simp [zeros, List.take_replicate]

theorem zeros_drop (n : Nat) (a : Bytes) : zeros (a.drop n) = (zeros a).drop n := by
  simp [zeros, List.drop_replicate]

theorem zeros_getD (x : Option Bytes) : (x.map zeros).getD [] = zeros (x.getD []) := by
  cases x <;> rfl

theorem rd_zeros (n : Nat) (x : Bytes) : rd n (zeros x) = (rd n x).map (fun r => (zeros r.1, zeros r.2)) := by
  unfold rd
  rw [length_zeros]
  split <;> simp [zeros_take, zeros_drop]

/-- A step, except that zeros are left to read. -/
def blindStep (r : Step) : Step := { r with inp := zeros r.inp }

theorem signHeader_blind (c : Crypto) : signHeader (blindCrypto c) = signHeader c := rfl

theorem sigFeed_blind (c : Crypto) : sigFeed (blindCrypto c) = sigFeed c := rfl

theorem encryptBody_blind (c : Crypto) (p : AlgProps) (key mid : Bytes) (type : FrameType) (seqno : Nat) (pt : Bytes) (cap : Nat) :
    encryptBody (blindCrypto c) p key mid type seqno pt cap = encryptBody c p key mid type seqno (zeros pt) cap := by
  unfold encryptBody
  rw [length_zeros]
  rfl

theorem enter_blind (s : Session) (st : St) (buf : WBuf) (inp : Bytes) : blindStep (enter s st buf inp) = enter s st buf (zeros inp) := by
  unfold enter
  split <;> rfl

theorem tryGenKey_blind (e : Env) (s : Session) : tryGenKey (blindEnv e) s = tryGenKey e s := rfl

theorem tryWriteHeader_blind (s : Session) (buf : WBuf) (inp : Bytes) :
    blindStep (tryWriteHeader s buf inp) = tryWriteHeader s buf (zeros inp) := by
  unfold tryWriteHeader
  simp only []
  split
  · rfl
  · split
    · exact enter_blind _ _ _ _
    · rfl

theorem encryptBodyEnd_blind (e : Env) (s : Session) (type : FrameType) (n : Nat) (buf out : WBuf) (inp rest : Bytes) :
    blindStep (encryptBodyEnd (blindEnv e) s type n buf out inp rest) = encryptBodyEnd e s type n buf out (zeros inp) (zeros rest) := by
  unfold encryptBodyEnd
  rw [show (blindEnv e).crypto = blindCrypto e.crypto from rfl, sigFeed_blind]
  split
  · rfl
  · simp only []
    split
    · exact enter_blind _ _ _ _
    · rfl

theorem encryptBodyFill_blind (e : Env) (s : Session) (p : AlgProps) (type : FrameType) (n : Nat) (buf : WBuf) (inp : Bytes) (inNull : Bool)
    (loc : FrameLoc) (out : WBuf) :
    blindStep (encryptBodyFill (blindEnv e) s p type n buf inp inNull loc out) =
      encryptBodyFill e s p type n buf (zeros inp) inNull loc out := by
  unfold encryptBodyFill
  rw [show (blindEnv e).crypto = blindCrypto e.crypto from rfl]
  cases inNull with
  | true => rfl
  | false =>
    simp only [Bool.false_eq_true, if_false, rd_zeros]
    cases rd n inp with
    | none => rfl
    | some r =>
      obtain ⟨pt, rest⟩ := r
      simp only [Option.map_some, encryptBody_blind]
      split
      · rfl
      · split
        · exact encryptBodyEnd_blind _ _ _ _ _ _ _ _
        · rfl

theorem tryEncryptBody_blind (e : Env) (s : Session) (buf : WBuf) (inp : Bytes) (inNull : Bool) :
    blindStep (tryEncryptBody (blindEnv e) s buf inp inNull) = tryEncryptBody e s buf (zeros inp) inNull := by
  unfold tryEncryptBody
  split
  · rfl
  · unfold encryptBodyFrame
    split
    · rfl
    · split
      · rfl
      · simp only []
        split
        · split <;> rfl
        · exact encryptBodyFill_blind _ _ _ _ _ _ _ _ _ _

theorem writeTrailer_blind (e : Env) (s : Session) (buf : WBuf) (inp : Bytes) :
    blindStep (writeTrailer (blindEnv e) s buf inp) = writeTrailer e s buf (zeros inp) := by
  unfold writeTrailer
  simp only []
  split
  · rfl
  · split
    · exact enter_blind _ _ _ _
    · split
      · rfl
      · split
        · rfl
        · rw [show (blindEnv e).crypto.sign = e.crypto.sign from rfl]
          split
          · rfl
          · unfold writeTrailerSig
            split
            · rfl
            · split
              · rfl
              · exact enter_blind _ _ _ _

theorem sessionStep_blind (e : Env) (s : Session) (hI : Inv s) (hm : s.mode = .encrypt) (buf : WBuf) (inp : Bytes) (inNull : Bool) :
    blindStep (sessionStep (blindEnv e) s buf inp inNull) = sessionStep e s buf (zeros inp) inNull := by
  have hst := hI.st
  unfold StInv at hst
  unfold sessionStep
  cases hs : s.state <;> simp only [hs] at hst ⊢
  case config =>
    split
    · rfl
    · exact enter_blind _ _ _ _
  case readHeader => rw [hm] at hst; exact absurd hst.1 (by decide)
  case decryptBody => rw [hm] at hst; exact absurd hst.1 (by decide)
  case checkTrailer => rw [hm] at hst; exact absurd hst.1 (by decide)
  case genKey => rfl
  case writeHeader => exact tryWriteHeader_blind _ _ _
  case encryptBody => exact tryEncryptBody_blind _ _ _ _ _
  case writeTrailer => exact writeTrailer_blind _ _ _ _
  case done => rfl
  case error => rfl

theorem processLoop_blind (e : Env) (inNull : Bool) (fuel : Nat) (s : Session) (hI : Inv s) (hm : s.mode = .encrypt) (out : WBuf) (inp : Bytes) :
    blindStep (processLoop (blindEnv e) inNull fuel s out inp) = processLoop e inNull fuel s out (zeros inp) := by
  induction fuel generalizing s out inp with
  | zero => rfl
  | succ n ih =>
    have hI' := (sessionStep_ok (blindEnv e) s hI (out.mem.drop out.len) inp inNull).inv
    have hk := sessionStep_keeps (blindEnv e) s hI (out.mem.drop out.len) inp inNull
    have hb := sessionStep_blind e s hI hm ⟨out.mem.drop out.len, 0⟩ inp inNull
    unfold processLoop
    rw [← hb]
    generalize sessionStep (blindEnv e) s ⟨out.mem.drop out.len, 0⟩ inp inNull = r at hI' hk
    simp only [blindStep, length_zeros]
    cases hres : r.res <;> simp only []
    split
    · exact ih r.s (hI' hres) (hk.mode.trans hm) _ _
    · rfl

theorem process_blind (e : Env) (s : Session) (hI : Inv s) (hm : s.mode = .encrypt) (mem inp : Bytes) (inNull : Bool) :
    process (blindEnv e) s mem inp inNull = process e s mem (zeros inp) inNull := by
  unfold process processFuel
  rw [length_zeros, ← processLoop_blind e inNull _ s hI hm]
  generalize processLoop (blindEnv e) inNull _ s ⟨mem, 0⟩ inp = r
  obtain ⟨s', buf, rest, res⟩ := r
  cases res <;> simp only [blindStep, length_zeros] <;> rfl

theorem computeBodyEstimate_blind (e : Env) (s : Session) : computeBodyEstimate (blindEnv e) s = computeBodyEstimate e s := by
  unfold computeBodyEstimate
  have h := tryEncryptBody_blind e s ⟨[], 0⟩ [] false
  rw [show zeros [] = [] from rfl] at h
  rw [← h]
  rfl

theorem setMessageSize_blind (e : Env) (s : Session) (n : Nat) : setMessageSize (blindEnv e) s n = setMessageSize e s n := by
  unfold setMessageSize
  simp only [computeBodyEstimate_blind]

theorem processFull_blind (e : Env) {E : Env → Prop} {pol : Policy} {v : View} (h : HInv E pol v) (hm : v.s.mode = .encrypt) (mem inp : Bytes)
    (inNull : Bool) (old : Nat) : processFull (blindEnv e) v.s mem inp inNull old = processFull e v.s mem (zeros inp) inNull old := by
  unfold processFull
  split
  · rfl
  · simp only [length_zeros, setMessageSize_blind]
    have hI := (hinv_setMessageSize e h inp.length).1.inv
    have hk := (setMessageSize_keeps e v.s h.inv inp.length).mode
    generalize setMessageSize e v.s inp.length = r at hI hk
    rw [process_blind e r.1 hI (hk.trans hm)]

theorem apply_blind (e : Env) {E : Env → Prop} {pol : Policy} {v : View} (h : HInv E pol v) (hm : v.s.mode = .encrypt) (op : Op) :
    apply e (blindView v) (blindOp op) = (blindView (apply (blindEnv e) v op).1, (apply (blindEnv e) v op).2) := by
  cases op with
  | process mem inp =>
    simp only [apply, blindOp, zeros_getD, Option.isNone_map]
    rw [show (blindView v).s = v.s from rfl, process_blind e v.s h.inv hm]
    split
    · simp only [blindView, zeros_append, zeros_take]
    · rfl
  | processFull mem inp old =>
    simp only [apply, blindOp, zeros_getD, Option.isNone_map]
    rw [show (blindView v).s = v.s from rfl, processFull_blind e h hm]
    split
    · simp only [blindView, zeros_append, zeros_take]
    · rfl
  | setMessageSize n => simp only [apply, blindOp, blindView, setMessageSize_blind]
  | _ => rfl

theorem apply_stays {E : Env → Prop} {pol : Policy} {v : View} {env : Env} (h : HInv E pol v) (he : E env) (hm : v.s.mode = .encrypt) (op : Op)
    (hop : op.staysEncrypting) : (apply env v op).1.s.mode = .encrypt := by
  by_cases hn : op.notReset = true
  · exact (apply_keeps h he op hn).mode.trans hm
  · cases op with
    | reset m => cases hop; rfl
    | _ => simp [Op.notReset] at hn

theorem run_blind (hist : List (Env × Op)) (hs : ∀ c ∈ hist, c.2.staysEncrypting) {pol : Policy} {v : View} (h : Reach (fun _ => True) pol v)
    (hm : v.s.mode = .encrypt) :
    run (blindView v) (blindOps hist) = blindView (run v (blindEnvs hist)) ∧
    results (blindView v) (blindOps hist) = results v (blindEnvs hist) := by
  induction hist generalizing pol v with
  | nil => exact ⟨rfl, rfl⟩
  | cons c hist ih =>
    have ha := apply_blind c.1 h.hinv hm c.2
    have := ih (fun x hx => hs x (List.mem_cons_of_mem _ hx)) (h.call c.2 trivial (env := blindEnv c.1))
      (apply_stays h.hinv trivial hm c.2 (hs c List.mem_cons_self))
    simp only [blindOps, blindEnvs, List.map_cons, run, List.foldl_cons, results, ha] at this ⊢
    exact ⟨this.1, by rw [this.2]⟩

theorem blindEnv_self {e : Env} (h : HidesPlaintext e.crypto) : blindEnv e = e := by
  have : blindCrypto e.crypto = e.crypto := by
    have hf : (fun k iv aad pt => e.crypto.aeadSeal k iv aad (zeros pt)) = e.crypto.aeadSeal := by
      funext k iv aad pt
      exact h _ _ _ _ _ (length_zeros pt)
    unfold blindCrypto
    cases hc : e.crypto
    simp only [hc] at hf ⊢
    congr 1
  unfold blindEnv
  rw [this]

/-- **C107, one call.**  For every encrypting session that can arise, every output buffer, input and environment, `process`
with an AEAD that seals zeros in place of what it is given does the same as `process` on zeros of the same length: the session, the
whole output buffer, both counts and the result are equal.  So the bytes of the plaintext are used for nothing but to seal them. -/
theorem C107_process {pol : Policy} {v : View} (h : Reach (fun _ => True) pol v) (hm : v.s.mode = .encrypt) (e : Env) (mem inp : Bytes)
    (inNull : Bool) : process (blindEnv e) v.s mem inp inNull = process e v.s mem (zeros inp) inNull :=
  process_blind e v.s h.hinv.inv hm mem inp inNull

/-- **C107, one call of `process_full`.** -/
theorem C107_process_full {pol : Policy} {v : View} (h : Reach (fun _ => True) pol v) (hm : v.s.mode = .encrypt) (e : Env) (mem inp : Bytes)
    (inNull : Bool) (old : Nat) : processFull (blindEnv e) v.s mem inp inNull old = processFull e v.s mem (zeros inp) inNull old :=
  processFull_blind e h.hinv hm mem inp inNull old

/-- **C107, histories.**  Whatever calls are made of a new encrypting session, with whatever environments: with AEADs that seal
zeros, the session, the released bytes and how each call ends are those for zeros of the same lengths. -/
theorem C107_history {s : Session} (hn : sessionNew .encrypt = some s) (hist : List (Env × Op)) (hs : ∀ c ∈ hist, c.2.staysEncrypting) :
    let real := run ⟨s, [], []⟩ (blindEnvs hist)
    let zero := run ⟨s, [], []⟩ (blindOps hist)
    zero.s = real.s ∧ zero.released = real.released ∧ zero.consumed = zeros real.consumed ∧
    results ⟨s, [], []⟩ (blindOps hist) = results ⟨s, [], []⟩ (blindEnvs hist) := by
  have hr : Reach (fun _ => True) .requireRequire ⟨s, [], []⟩ := .new hn
  have hm : s.mode = .encrypt := by cases hn; rfl
  obtain ⟨h1, h2⟩ := run_blind hist hs hr hm
  rw [show blindView ⟨s, [], []⟩ = ⟨s, [], []⟩ from rfl] at h1 h2
  simp only [h1, h2]
  exact ⟨rfl, rfl, rfl, trivial⟩

/-- **C107, plaintexts of equal length.**  If the AEADs hide everything but the length, two histories that differ only in the
bytes of their inputs leave equal sessions, release equal bytes and end alike in every call. -/
theorem C107_only_lengths {s : Session} (hn : sessionNew .encrypt = some s) (calls : List (Env × Op × Op))
    (hc : ∀ c ∈ calls, HidesPlaintext c.1.crypto ∧ c.2.1.staysEncrypting ∧ SameButInput c.2.1 c.2.2) :
    let a := calls.map (fun c => (c.1, c.2.1))
    let b := calls.map (fun c => (c.1, c.2.2))
    (run ⟨s, [], []⟩ a).s = (run ⟨s, [], []⟩ b).s ∧ (run ⟨s, [], []⟩ a).released = (run ⟨s, [], []⟩ b).released ∧
    results ⟨s, [], []⟩ a = results ⟨s, [], []⟩ b := by
  intro a b
  have stays : ∀ {x y : Op}, SameButInput x y → x.staysEncrypting → y.staysEncrypting := by
    intro x y hxy hx
    unfold SameButInput at hxy
    cases x <;> cases y <;> simp_all [blindOp, Op.staysEncrypting]
  have ea : blindEnvs a = a := by
    simp only [a, blindEnvs, List.map_map]
    refine List.map_congr_left fun c h => ?_
    simp only [Function.comp, blindEnv_self (hc c h).1]
  have eb : blindEnvs b = b := by
    simp only [b, blindEnvs, List.map_map]
    refine List.map_congr_left fun c h => ?_
    simp only [Function.comp, blindEnv_self (hc c h).1]
  have eab : blindOps a = blindOps b := by
    simp only [a, b, blindOps, List.map_map]
    refine List.map_congr_left fun c h => ?_
    have := (hc c h).2.2
    unfold SameButInput at this
    simp only [Function.comp, this]
  have ha := C107_history hn a (fun c h => by
    obtain ⟨d, hd, rfl⟩ := List.mem_map.mp h
    exact (hc d hd).2.1)
  have hb := C107_history hn b (fun c h => by
    obtain ⟨d, hd, rfl⟩ := List.mem_map.mp h
    exact stays (hc d hd).2.2 (hc d hd).2.1)
  simp only [ea, eab] at ha
  simp only [eb] at hb
  exact ⟨ha.1.symm.trans hb.1, ha.2.1.symm.trans hb.2.1, ha.2.2.2.symm.trans hb.2.2.2⟩

/-- The AEAD that seals zeros hides the plaintext, and a message is written with it. -/
example : HidesPlaintext (blindEnv Example.env).crypto ∧ (∀ c ∈ Example.encHist, c.2.staysEncrypting) ∧
    isDone (run Example.encNew (blindEnvs Example.encHist)).s = true ∧ (run Example.encNew (blindEnvs Example.encHist)).released.length = 292 := by
  refine ⟨fun k iv aad p q h => ?_, ?_, by decide +kernel, by decide +kernel⟩
  · simp only [blindEnv, blindCrypto, zeros, h]
  · simp [Example.encHist, Op.staysEncrypting]

/-- With the AEAD of the example the message does depend on the plaintext: the seal is where it enters. -/
example : (run Example.encNew Example.encHist).released ≠ (run Example.encNew (blindOps Example.encHist)).released := by decide +kernel

/-- Two calls that differ in the input only; an input of another length is another call. -/
example : SameButInput (.process [0] (some [1, 2])) (.process [0] (some [3, 4])) ∧
    ¬ SameButInput (.process [0] (some [1, 2])) (.process [0] (some [3])) := by
  constructor
  · rfl
  · intro h
    simp [SameButInput, blindOp, zeros] at h

end Verif.Props
