import Verif.Spec.Mask
import Verif.Proof.SessionFacts
import Verif.Spec.SessionExample
/-
C112: a decrypting session uses the bytes of the plaintext for nothing but to give them out.
-/
namespace Verif.Props
open Verif Verif.Spec

theorem maskMem_zero (g : UInt8 → UInt8) (m : Bytes) : maskMem g 0 m = m := by simp [maskMem]

theorem verifyHeader_mask (g : UInt8 → UInt8) (c : Crypto) : verifyHeader (maskCrypto g c) = verifyHeader c := by
  funext p key tag hdr
  unfold verifyHeader
  simp only [maskCrypto]
  split
  · split
    · rfl
    · cases c.aeadOpen key (tag.take p.ivLen) hdr [] (tag.drop p.ivLen) <;> rfl
  · split
    · split
      · rfl
      · cases c.aeadOpen key (List.replicate 12 0) hdr [] tag <;> rfl
    · rfl

theorem decryptBody_mask (g : UInt8 → UInt8) (c : Crypto) (key mid : Bytes) (f : Frame) (n : Nat) :
    decryptBody (maskCrypto g c) key mid f n = (decryptBody c key mid f n).map (List.map g) := by
  unfold decryptBody
  split <;> rfl

/-- What a step does with that AEAD, `r'`, and without, `r`. -/
structure Masked (g : UInt8 → UInt8) (r r' : Step) : Prop where
  s : r'.s = r.s
  inp : r'.inp = r.inp
  res : r'.res = r.res
  len : r'.buf.len = r.buf.len
  mem : (∀ e, r.res ≠ .err e) → r'.buf.mem = maskMem g r.buf.len r.buf.mem

theorem Masked.same {g : UInt8 → UInt8} {r : Step} (h : r.buf.len = 0) : Masked g r r where
  s := rfl
  inp := rfl
  res := rfl
  len := rfl
  mem _ := by rw [h, maskMem_zero]

theorem enter_len (s : Session) (st : St) (buf : WBuf) (inp : Bytes) : (enter s st buf inp).buf = buf := by
  unfold enter
  split <;> rfl

theorem unwrapKeys_mask (g : UInt8 → UInt8) (e : Env) (s : Session) : unwrapKeys (maskEnv g e) s = unwrapKeys e s := by
  unfold unwrapKeys unwrapWith unwrapValidate validateHeader
  simp only [show (maskEnv g e).crypto = maskCrypto g e.crypto from rfl, verifyHeader_mask]
  rfl

theorem tryParseHeader_mask (g : UInt8 → UInt8) (e : Env) (s : Session) (buf : WBuf) (inp : Bytes) :
    tryParseHeader (maskEnv g e) s buf inp = tryParseHeader e s buf inp := by
  unfold tryParseHeader parsedHeader
  simp only [unwrapKeys_mask]
  rfl

theorem parsedHeader_buf (e : Env) (s : Session) (buf : WBuf) (inp rest : Bytes) : (parsedHeader e s buf inp rest).buf = buf := by
  unfold parsedHeader
  simp only []
  repeat' split
  all_goals rfl

theorem tryParseHeader_buf (e : Env) (s : Session) (buf : WBuf) (inp : Bytes) : (tryParseHeader e s buf inp).buf = buf := by
  unfold tryParseHeader
  split
  · simp only []
    split <;> rfl
  · exact parsedHeader_buf _ _ _ _ _

theorem checkTrailer_buf (e : Env) (s : Session) (buf : WBuf) (inp : Bytes) : (checkTrailer e s buf inp).buf = buf := by
  unfold checkTrailer
  simp only []
  split
  · exact enter_len _ _ _ _
  · split
    · rfl
    · split
      · rfl
      · split <;> rfl

theorem patch_mask (g : UInt8 → UInt8) (m pt : Bytes) {n : Nat} (h : pt.length = n) :
    patchAt m 0 (pt.map g) = maskMem g (0 + n) (patchAt m 0 pt) := by
  subst h
  simp [patchAt, maskMem]

theorem decryptFrame_mask (g : UInt8 → UInt8) (e : Env) (s : Session) (f : Frame) (m inp rest : Bytes) :
    Masked g (decryptFrame e s f ⟨m, 0⟩ inp rest) (decryptFrame (maskEnv g e) s f ⟨m, 0⟩ inp rest) := by
  unfold decryptFrame
  simp only [show (maskEnv g e).crypto = maskCrypto g e.crypto from rfl, decryptBody_mask,
    show sigFeed (maskCrypto g e.crypto) = sigFeed e.crypto from rfl]
  cases hd : decryptBody e.crypto s.contentKey s.header.messageId f s.outEst with
  | error x => exact ⟨rfl, rfl, rfl, rfl, fun h => absurd rfl (h x)⟩
  | ok pt =>
    have hl : pt.length = s.outEst := by
      unfold decryptBody at hd
      split at hd
      · cases hd
      · rename_i h
        rw [e.crypto.aeadOpen_len _ _ _ _ _ _ hd]
        exact Decidable.not_not.mp h
    simp only [Except.map]
    split
    · rename_i x _
      exact ⟨rfl, rfl, rfl, rfl, fun h => absurd rfl (h x)⟩
    · split
      · have hp := patch_mask g m pt hl
        refine ⟨?_, ?_, ?_, ?_, fun _ => ?_⟩
        · unfold enter; split <;> rfl
        · unfold enter; split <;> rfl
        · unfold enter; split <;> rfl
        · simp only [enter_len]
        · simp only [enter_len]
          exact hp
      · exact ⟨rfl, rfl, rfl, rfl, fun _ => patch_mask g m pt hl⟩

theorem tryDecryptBody_mask (g : UInt8 → UInt8) (e : Env) (s : Session) (m inp : Bytes) :
    Masked g (tryDecryptBody e s ⟨m, 0⟩ inp) (tryDecryptBody (maskEnv g e) s ⟨m, 0⟩ inp) := by
  unfold tryDecryptBody
  split
  · exact .same rfl
  · simp only []
    split
    · split <;> exact .same rfl
    · split
      · exact .same rfl
      · split
        · exact .same rfl
        · exact decryptFrame_mask _ _ _ _ _ _ _

theorem sessionStep_mask (g : UInt8 → UInt8) (e : Env) (s : Session) (hI : Inv s) (hm : s.mode.isDecrypt = true) (m inp : Bytes) (inNull : Bool) :
    Masked g (sessionStep e s ⟨m, 0⟩ inp inNull) (sessionStep (maskEnv g e) s ⟨m, 0⟩ inp inNull) := by
  have hst := hI.st
  unfold StInv at hst
  have hne : s.mode ≠ .encrypt := by intro h; rw [h] at hm; cases hm
  unfold sessionStep
  cases hs : s.state <;> simp only [hs] at hst ⊢
  case config =>
    split
    · exact .same rfl
    · exact .same (by rw [enter_len])
  case readHeader =>
    rw [tryParseHeader_mask]
    exact .same (by rw [tryParseHeader_buf])
  case decryptBody => exact tryDecryptBody_mask _ _ _ _ _
  case checkTrailer =>
    have : checkTrailer (maskEnv g e) s ⟨m, 0⟩ inp = checkTrailer e s ⟨m, 0⟩ inp := rfl
    rw [this]
    exact .same (by rw [checkTrailer_buf])
  case genKey => exact absurd hst.1 hne
  case writeHeader => exact absurd hst.1 hne
  case encryptBody => exact absurd hst.1 hne
  case writeTrailer => exact absurd hst.1 hne
  case done => exact .same rfl
  case error => exact .same rfl

theorem processLoop_mask (g : UInt8 → UInt8) (e : Env) (inNull : Bool) (fuel : Nat) (s : Session) (hI : Inv s) (hm : s.mode.isDecrypt = true)
    (out : WBuf) (hout : out.len ≤ out.mem.length) (inp : Bytes) :
    Masked g (processLoop e inNull fuel s out inp) (processLoop (maskEnv g e) inNull fuel s ⟨maskMem g out.len out.mem, out.len⟩ inp) := by
  induction fuel generalizing s out inp with
  | zero => exact ⟨rfl, rfl, rfl, rfl, fun _ => rfl⟩
  | succ n ih =>
    have hok := sessionStep_ok e s hI (out.mem.drop out.len) inp inNull
    have hk := sessionStep_keeps e s hI (out.mem.drop out.len) inp inNull
    have hb := sessionStep_mask g e s hI hm (out.mem.drop out.len) inp inNull
    have h1 : (maskMem g out.len out.mem).drop out.len = out.mem.drop out.len := by
      unfold maskMem
      rw [List.drop_append_of_le_length (by simp; omega)]
      simp
    have h2 : (maskMem g out.len out.mem).take out.len = (out.mem.take out.len).map g := by
      unfold maskMem
      rw [List.take_append_of_le_length (by simp; omega)]
      exact List.take_of_length_le (by simp; omega)
    unfold processLoop
    simp only [h1, h2]
    generalize sessionStep e s ⟨out.mem.drop out.len, 0⟩ inp inNull = r at hok hk hb
    generalize sessionStep (maskEnv g e) s ⟨out.mem.drop out.len, 0⟩ inp inNull = r' at hb
    obtain ⟨s', buf', inp', res'⟩ := r'
    obtain ⟨q1, q2, q3, q4, q5⟩ := hb
    simp only at q1 q2 q3 q4 q5
    subst q1 q2 q3
    have hmem : (∀ x, r.res ≠ .err x) → (out.mem.take out.len).map g ++ buf'.mem =
        maskMem g (out.len + r.buf.len) (out.mem.take out.len ++ r.buf.mem) := by
      intro h
      rw [q5 h]
      have hl : (out.mem.take out.len).length = out.len := by rw [List.length_take]; omega
      simp only [maskMem]
      rw [show out.len + r.buf.len = (out.mem.take out.len).length + r.buf.len by rw [hl], List.take_length_add_append, List.drop_length_add_append]
      simp
    have hlen : out.len + r.buf.len ≤ (out.mem.take out.len ++ r.buf.mem).length := by
      have := hok.memLen
      have := hok.bufLen
      simp only [List.length_append, List.length_take, List.length_drop] at *
      omega
    cases hres : r.res with
    | ok =>
      simp only [q4]
      have hm' := hmem (by rw [hres]; simp)
      rw [hm']
      split
      · exact ih r.s (hok.inv hres) (hk.mode ▸ hm) ⟨out.mem.take out.len ++ r.buf.mem, out.len + r.buf.len⟩ hlen r.inp
      · exact ⟨rfl, rfl, rfl, rfl, fun _ => rfl⟩
    | err x => exact ⟨rfl, rfl, rfl, by simp only [q4], fun h => absurd rfl (h x)⟩
    | _ => exact ⟨rfl, rfl, rfl, by simp only [q4], fun _ => hmem (by rw [hres]; simp)⟩

theorem process_mask (g : UInt8 → UInt8) (e : Env) (s : Session) (hI : Inv s) (hm : s.mode.isDecrypt = true) (mem inp : Bytes) (inNull : Bool) :
    process (maskEnv g e) s mem inp inNull = maskOut g (process e s mem inp inNull) := by
  have h := processLoop_mask g e inNull (processFuel mem inp) s hI hm ⟨mem, 0⟩ (Nat.zero_le _) inp
  simp only [maskMem_zero] at h
  unfold process
  generalize processLoop e inNull (processFuel mem inp) s ⟨mem, 0⟩ inp = r at h
  generalize processLoop (maskEnv g e) inNull (processFuel mem inp) s ⟨mem, 0⟩ inp = r' at h
  obtain ⟨s', buf', inp', res'⟩ := r'
  obtain ⟨q1, q2, q3, q4, q5⟩ := h
  simp only at q1 q2 q3 q4 q5
  subst q1 q2 q3
  obtain ⟨s', buf, inp', res⟩ := r
  cases res with
  | err x => exact congrArg (fun m => (⟨_, m, 0, _, _⟩ : ProcOut)) (maskMem_zero g _).symm
  | _ =>
    have hx := q5 (by simp)
    simp only at hx q4
    simp only [maskOut, hx, q4]

theorem setMessageSize_decrypt (e e' : Env) (s : Session) (hm : s.mode.isDecrypt = true) (n : Nat) : setMessageSize e s n = setMessageSize e' s n := by
  have hne : s.mode ≠ .encrypt := by intro h; rw [h] at hm; cases hm
  unfold setMessageSize
  rw [if_pos hne, if_pos hne]

/-- The end of `process_full`. -/
def fullEnd (mem inp : Bytes) (o : ProcOut) : ProcOut :=
  match o.res with
  | .ok =>
    if o.s.state = .done ∧ o.read = inp.length then o
    else ⟨{ o.s with error := .badCiphertext, state := .error }, List.replicate mem.length 0, 0, o.read, .err .badCiphertext⟩
  | .err e => ⟨o.s, List.replicate mem.length 0, 0, o.read, .err e⟩
  | _ => o

theorem processFull_eq (e : Env) (s : Session) (hm : s.mode.isDecrypt = true) (hs : s.state = .config) (mem inp : Bytes) (inNull : Bool) (old : Nat) :
    processFull e s mem inp inNull old = fullEnd mem inp (process e s mem inp inNull) := by
  have hne : s.mode ≠ .encrypt := by intro h; rw [h] at hm; cases hm
  unfold processFull fullEnd
  rw [if_neg (fun h => h hs), if_neg hne]
  rfl

theorem fullEnd_mask (g : UInt8 → UInt8) (mem inp : Bytes) (o : ProcOut) : fullEnd mem inp (maskOut g o) = maskOut g (fullEnd mem inp o) := by
  obtain ⟨os, om, ow, orr, ores⟩ := o
  cases ores with
  | ok =>
    by_cases h : os.state = .done ∧ orr = inp.length
    · simp [fullEnd, maskOut, h]
    · simp [fullEnd, maskOut, h, maskMem_zero]
  | err x => simp [fullEnd, maskOut, maskMem_zero]
  | _ => rfl

theorem processFull_mask (g : UInt8 → UInt8) (e : Env) (s : Session) (hI : Inv s) (hm : s.mode.isDecrypt = true) (mem inp : Bytes) (inNull : Bool)
    (old : Nat) : processFull (maskEnv g e) s mem inp inNull old =
      if s.state = .config then maskOut g (processFull e s mem inp inNull old) else processFull e s mem inp inNull old := by
  by_cases hs : s.state = .config
  · rw [if_pos hs, processFull_eq _ s hm hs, processFull_eq _ s hm hs, process_mask g e s hI hm, fullEnd_mask]
  · rw [if_neg hs]
    unfold processFull
    rw [if_pos hs, if_pos hs]

theorem take_maskMem (g : UInt8 → UInt8) (n : Nat) (m : Bytes) : (maskMem g n m).take n = (m.take n).map g := by
  unfold maskMem
  by_cases h : n ≤ m.length
  · rw [List.take_append_of_le_length (by simp; omega), List.take_of_length_le (by simp; omega)]
  · rw [List.drop_of_length_le (by omega), List.append_nil, List.take_of_length_le (by simp; omega)]

theorem apply_mask (g : UInt8 → UInt8) (e : Env) (v : View) (hI : Inv v.s) (hm : v.s.mode.isDecrypt = true) (op : Op) :
    apply (maskEnv g e) (maskView g v) op = (maskView g (apply e v op).1, (apply e v op).2) := by
  cases op with
  | process mem inp =>
    simp only [apply]
    rw [show (maskView g v).s = v.s from rfl, process_mask g e v.s hI hm]
    rw [show (maskOut g (process e v.s mem (inp.getD []) inp.isNone)).res = (process e v.s mem (inp.getD []) inp.isNone).res from rfl]
    split
    · simp only [maskView, maskOut, take_maskMem, List.map_append]
    · rfl
  | processFull mem inp old =>
    simp only [apply]
    rw [show (maskView g v).s = v.s from rfl, processFull_mask g e v.s hI hm]
    by_cases hs : v.s.state = .config
    · rw [if_pos hs]
      rw [show (maskOut g (processFull e v.s mem (inp.getD []) inp.isNone old)).res =
        (processFull e v.s mem (inp.getD []) inp.isNone old).res from rfl]
      split
      · simp only [maskView, maskOut, take_maskMem, List.map_append]
      · rfl
    · have : (processFull e v.s mem (inp.getD []) inp.isNone old).res = .err .badState := by
        unfold processFull
        rw [if_pos hs]
      rw [if_neg hs, if_neg (by rw [this]; simp), if_neg (by rw [this]; simp)]
      rfl
  | setMessageSize n =>
    simp only [apply]
    rw [show (maskView g v).s = v.s from rfl, setMessageSize_decrypt (maskEnv g e) e v.s hm]
    rfl
  | _ => rfl

theorem apply_staysDecrypting {E : Env → Prop} {pol : Policy} {v : View} {env : Env} (h : HInv E pol v) (he : E env)
    (hm : v.s.mode.isDecrypt = true) (op : Op) (hop : op.staysDecrypting) : (apply env v op).1.s.mode.isDecrypt = true := by
  by_cases hn : op.notReset = true
  · rw [(apply_keeps h he op hn).mode]; exact hm
  · cases op with
    | reset m =>
      have hop : m.isDecrypt = true := hop
      cases m <;> first | rfl | cases hop
    | _ => simp [Op.notReset] at hn

theorem run_mask (g : UInt8 → UInt8) (hist : List (Env × Op)) (hs : ∀ c ∈ hist, c.2.staysDecrypting) {pol : Policy} {v : View}
    (h : Reach (fun _ => True) pol v) (hm : v.s.mode.isDecrypt = true) :
    run (maskView g v) (maskEnvs g hist) = maskView g (run v hist) ∧ outcomes (maskView g v) (maskEnvs g hist) = outcomes v hist := by
  induction hist generalizing pol v with
  | nil => exact ⟨rfl, rfl⟩
  | cons c hist ih =>
    have ha := apply_mask g c.1 v h.hinv.inv hm c.2
    have := ih (fun x hx => hs x (List.mem_cons_of_mem _ hx)) (h.call c.2 trivial (env := c.1))
      (apply_staysDecrypting h.hinv trivial hm c.2 (hs c List.mem_cons_self))
    simp only [maskEnvs, List.map_cons, run, List.foldl_cons, outcomes, ha] at this ⊢
    refine ⟨this.1, ?_⟩
    rw [this.2]
    simp [maskView]

/-- **C112, one call.**  For every decrypting session that can arise, every output buffer, input and environment, and every replacement `g` of bytes:
`process` with an AEAD that opens to the replaced bytes does the same as `process`, except that the bytes that are written are replaced.  The session,
both counts, the result and the rest of the output buffer are equal.  So the bytes of the plaintext are used for nothing but to give them out. -/
theorem C112_process {pol : Policy} {v : View} (h : Reach (fun _ => True) pol v) (hm : v.s.mode.isDecrypt = true) (g : UInt8 → UInt8) (e : Env)
    (mem inp : Bytes) (inNull : Bool) : process (maskEnv g e) v.s mem inp inNull = maskOut g (process e v.s mem inp inNull) :=
  process_mask g e v.s h.hinv.inv hm mem inp inNull

/-- **C112, one call of `process_full`.**  The same if the session is new or reset, and else the call is refused and nothing differs. -/
theorem C112_process_full {pol : Policy} {v : View} (h : Reach (fun _ => True) pol v) (hm : v.s.mode.isDecrypt = true) (g : UInt8 → UInt8) (e : Env)
    (mem inp : Bytes) (inNull : Bool) (old : Nat) : processFull (maskEnv g e) v.s mem inp inNull old =
      if v.s.state = .config then maskOut g (processFull e v.s mem inp inNull old) else processFull e v.s mem inp inNull old :=
  processFull_mask g e v.s h.hinv.inv hm mem inp inNull old

/-- **C112, histories.**  Whatever calls are made of a new decrypting session, with whatever environments: with AEADs that open to the replaced bytes,
the bytes released are replaced, and nothing else differs after any of the calls: results, sessions (with the estimates), bytes consumed, numbers of
bytes released. -/
theorem C112_history {mode : Mode} {s : Session} (hn : sessionNew mode = some s) (hm : mode.isDecrypt = true) (g : UInt8 → UInt8)
    (hist : List (Env × Op)) (hs : ∀ c ∈ hist, c.2.staysDecrypting) :
    let real := run ⟨s, [], []⟩ hist
    let masked := run ⟨s, [], []⟩ (maskEnvs g hist)
    masked.released = real.released.map g ∧ masked.consumed = real.consumed ∧ masked.s = real.s ∧
    outcomes ⟨s, [], []⟩ (maskEnvs g hist) = outcomes ⟨s, [], []⟩ hist := by
  have hr : Reach (fun _ => True) .requireRequire ⟨s, [], []⟩ := .new hn
  have hm' : s.mode.isDecrypt = true := by cases mode <;> cases hn <;> first | exact hm | cases hm
  obtain ⟨h1, h2⟩ := run_mask g hist hs hr hm'
  rw [show maskView g ⟨s, [], []⟩ = ⟨s, [], []⟩ from rfl] at h1 h2
  simp only [h1, h2]
  exact ⟨rfl, rfl, rfl, trivial⟩

/-- **C112, plaintexts of equal length.**  Two histories of the same calls, whose environments differ only in the bytes that the AEADs open, end alike
in every call and leave equal sessions; as many bytes are consumed and released. -/
theorem C112_only_lengths {mode : Mode} {s : Session} (hn : sessionNew mode = some s) (hm : mode.isDecrypt = true) (calls : List (Env × Env × Op))
    (hc : ∀ c ∈ calls, SameButOpened c.1 c.2.1 ∧ c.2.2.staysDecrypting) :
    let a := calls.map (fun c => (c.1, c.2.2))
    let b := calls.map (fun c => (c.2.1, c.2.2))
    outcomes ⟨s, [], []⟩ a = outcomes ⟨s, [], []⟩ b ∧ (run ⟨s, [], []⟩ a).s = (run ⟨s, [], []⟩ b).s ∧
    (run ⟨s, [], []⟩ a).consumed = (run ⟨s, [], []⟩ b).consumed ∧
    (run ⟨s, [], []⟩ a).released.length = (run ⟨s, [], []⟩ b).released.length := by
  intro a b
  have eab : maskEnvs (fun _ => 0) a = maskEnvs (fun _ => 0) b := by
    simp only [a, b, maskEnvs, List.map_map]
    refine List.map_congr_left fun c h => ?_
    have := (hc c h).1
    unfold SameButOpened at this
    simp only [Function.comp, this]
  have ha := C112_history hn hm (fun _ => 0) a (fun c h => by
    obtain ⟨d, hd, rfl⟩ := List.mem_map.mp h
    exact (hc d hd).2)
  have hb := C112_history hn hm (fun _ => 0) b (fun c h => by
    obtain ⟨d, hd, rfl⟩ := List.mem_map.mp h
    exact (hc d hd).2)
  simp only [eab] at ha
  refine ⟨ha.2.2.2.symm.trans hb.2.2.2, ha.2.2.1.symm.trans hb.2.2.1, ha.2.1.symm.trans hb.2.1, ?_⟩
  have := congrArg List.length (ha.1.symm.trans hb.1)
  simpa using this

/-- A message is read with the bytes replaced: the session comes to its end, and the bytes are replaced. -/
example : (∀ c ∈ Example.decHist, c.2.staysDecrypting) ∧ (run (Example.decNew .decrypt) Example.decHist).released = [1, 2, 3, 4, 5, 6] ∧
    isDone (run (Example.decNew .decrypt) (maskEnvs (· + 1) Example.decHist)).s = true ∧
    (run (Example.decNew .decrypt) (maskEnvs (· + 1) Example.decHist)).released = [2, 3, 4, 5, 6, 7] := by
  refine ⟨?_, by decide +kernel, by decide +kernel, by decide +kernel⟩
  simp [Example.decHist, Op.staysDecrypting]

/-- Environments that differ in what is opened. -/
example : SameButOpened Example.env (maskEnv (· + 1) Example.env) ∧
    (maskEnv (· + 1) Example.env).crypto.aeadOpen ≠ Example.env.crypto.aeadOpen := by
  constructor
  · unfold SameButOpened maskEnv maskCrypto
    simp only [Env.mk.injEq, Crypto.mk.injEq, true_and, and_true]
    funext k iv aad ct tag
    cases Example.env.crypto.aeadOpen k iv aad ct tag <;> simp [Except.map]
  · intro h
    have h1 : ((Example.env.crypto.aeadSeal [] [] [] [1]).map fun r => (maskEnv (· + 1) Example.env).crypto.aeadOpen [] [] [] r.1 r.2) =
      (Example.env.crypto.aeadSeal [] [] [] [1]).map fun r => Example.env.crypto.aeadOpen [] [] [] r.1 r.2 := by rw [h]
    revert h1
    decide +kernel

end Verif.Props
