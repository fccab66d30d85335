import Verif.Proof.Frame
namespace Verif
open Spec

/-! ### writing -/

theorem patchAt_mid {a x b y : Bytes} {n : Nat} (hn : a.length = n) (h : x.length = y.length) :
    patchAt (a ++ (x ++ b)) n y = a ++ (y ++ b) := by
  subst hn
  have h1 : (a ++ (x ++ b)).take a.length = a := by simp
  have h2 : (a ++ (x ++ b)).drop (a.length + y.length) = b := by
    rw [← h, ← List.append_assoc, ← List.length_append]
    simp
  rw [patchAt, h1, h2, List.append_assoc]

theorem length_patchAt {m y : Bytes} {n : Nat} (h : n + y.length ≤ m.length) : (patchAt m n y).length = m.length := by
  simp only [patchAt, List.length_append, List.length_take, List.length_drop]
  omega

theorem wrField_ok {n v : Nat} {s : WrState} (h : s.tooSmall = false) (hc : s.buf.len + n ≤ s.buf.mem.length) :
    wrField n v s = ⟨u64 (s.ciphertextSize + n), ⟨patchAt s.buf.mem s.buf.len (be n v), s.buf.len + n⟩, false⟩ := by
  have : n ≤ s.buf.mem.length - s.buf.len := by omega
  simp [wrField, h, this]

theorem wrSized_ok {n : Nat} {s : WrState} (hc : s.buf.len + n ≤ s.buf.mem.length) :
    wrSized n s = (some s.buf.len, ⟨u64 (s.ciphertextSize + n), ⟨s.buf.mem, s.buf.len + n⟩, s.tooSmall⟩) := by
  have : n ≤ s.buf.mem.length - s.buf.len := by omega
  simp [wrSized, this]

/-- What a write leaves unchanged or only increases, and what it needs in order not to set `tooSmall`. -/
structure WrStep (n : Nat) (s s' : WrState) : Prop where
  size : s'.ciphertextSize = u64 (s.ciphertextSize + n)
  mem : s'.buf.mem.length = s.buf.mem.length
  ok : s'.tooSmall = false → s.tooSmall = false ∧ s'.buf.len = s.buf.len + n ∧ s.buf.len + n ≤ s.buf.mem.length
  le : s.buf.len ≤ s.buf.mem.length → s'.buf.len ≤ s'.buf.mem.length

theorem wrField_step (n v : Nat) (s : WrState) (hl : s.buf.len ≤ s.buf.mem.length) : WrStep n s (wrField n v s) := by
  cases ht : s.tooSmall with
  | true =>
    have e : wrField n v s = { s with ciphertextSize := u64 (s.ciphertextSize + n) } := by simp [wrField, ht]
    rw [e]
    exact ⟨rfl, rfl, fun h => (by simp [ht] at h), fun h => h⟩
  | false =>
    by_cases hc : s.buf.len + n ≤ s.buf.mem.length
    · rw [wrField_ok ht hc]
      have hm := length_patchAt (m := s.buf.mem) (n := s.buf.len) (y := be n v) (by rw [length_be]; exact hc)
      exact ⟨rfl, hm, fun _ => ⟨ht, rfl, hc⟩, fun _ => by simp only [hm]; exact hc⟩
    · have : ¬ n ≤ s.buf.mem.length - s.buf.len := by omega
      have e : wrField n v s = { s with ciphertextSize := u64 (s.ciphertextSize + n), tooSmall := true } := by
        simp [wrField, ht, this]
      rw [e]
      exact ⟨rfl, rfl, fun h => (by simp at h), fun h => h⟩

theorem wrSized_step (n : Nat) (s : WrState) (hl : s.buf.len ≤ s.buf.mem.length) : WrStep n s (wrSized n s).2 := by
  by_cases hc : s.buf.len + n ≤ s.buf.mem.length
  · rw [wrSized_ok hc]
    exact ⟨rfl, rfl, fun h => ⟨h, rfl, hc⟩, fun _ => hc⟩
  · have : ¬ n ≤ s.buf.mem.length - s.buf.len := by omega
    have e : wrSized n s = (none, { s with ciphertextSize := u64 (s.ciphertextSize + n), tooSmall := true }) := by
      simp [wrSized, this]
    rw [e]
    exact ⟨rfl, rfl, fun h => (by simp at h), fun h => h⟩

theorem WrStep.trans {m n : Nat} {s t u : WrState} (h1 : WrStep m s t) (h2 : WrStep n t u) : WrStep (m + n) s u := by
  refine ⟨?_, h2.mem.trans h1.mem, fun h => ?_, fun h => h2.le (h1.le h)⟩
  · rw [h2.size, h1.size]
    simp only [u64]
    omega
  · obtain ⟨a1, a2, a3⟩ := h2.ok h
    obtain ⟨b1, b2, b3⟩ := h1.ok a1
    rw [h1.mem] at a3
    exact ⟨b1, by omega, by omega⟩

theorem serdeTailWr_step (p : AlgProps) (pt : Nat) (iv : Option Nat) (s : WrState) (hl : s.buf.len ≤ s.buf.mem.length) :
    WrStep (pt + p.tagLen) s (serdeTailWr p pt iv s).1 := by
  have h1 := wrSized_step pt s hl
  exact h1.trans (wrSized_step p.tagLen (wrSized pt s).2 (h1.le hl))

/-- The state at the end of writing a frame of a given type, when the type-specific limits hold. -/
def wrEnd (p : AlgProps) (type : FrameType) (seqno pt : Nat) (s : WrState) : WrState × FrameLoc :=
  match type with
  | .frame =>
    let b := wrSized p.ivLen (wrField 4 seqno s)
    serdeTailWr p pt b.1 b.2
  | .final =>
    let b := wrSized p.ivLen (wrField 4 seqno (wrField 4 lastFrameMark s))
    serdeTailWr p pt b.1 (wrField 4 pt b.2)
  | .single =>
    let b := wrSized p.ivLen s
    serdeTailWr p pt b.1 (wrField 8 pt b.2)

theorem wrEnd_step {a : Nat} {p : AlgProps} (hp : algProps a = some p) (type : FrameType) (seqno pt : Nat) (s : WrState)
    (hl : s.buf.len ≤ s.buf.mem.length) : WrStep (frameSize type pt) s (wrEnd p type seqno pt s).1 := by
  obtain ⟨hiv, htag⟩ := suite_iv_tag hp
  cases type with
  | frame =>
    have h1 := wrField_step 4 seqno s hl
    have h2 := h1.trans (wrSized_step p.ivLen _ (h1.le hl))
    have h3 := h2.trans (serdeTailWr_step p pt (wrSized p.ivLen (wrField 4 seqno s)).1 _ (h2.le hl))
    have e : 4 + p.ivLen + (pt + p.tagLen) = frameSize .frame pt := by simp only [hiv, htag, frameSize]; omega
    rw [e] at h3
    exact h3
  | final =>
    have h0 := wrField_step 4 lastFrameMark s hl
    have h1 := h0.trans (wrField_step 4 seqno _ (h0.le hl))
    have h2 := h1.trans (wrSized_step p.ivLen _ (h1.le hl))
    have h2' := h2.trans (wrField_step 4 pt _ (h2.le hl))
    have h3 := h2'.trans (serdeTailWr_step p pt (wrSized p.ivLen (wrField 4 seqno (wrField 4 lastFrameMark s))).1 _ (h2'.le hl))
    have e : 4 + 4 + p.ivLen + 4 + (pt + p.tagLen) = frameSize .final pt := by simp only [hiv, htag, frameSize]; omega
    rw [e] at h3
    exact h3
  | single =>
    have h2 := wrSized_step p.ivLen s hl
    have h2' := h2.trans (wrField_step 8 pt _ (h2.le hl))
    have h3 := h2'.trans (serdeTailWr_step p pt (wrSized p.ivLen s).1 _ (h2'.le hl))
    have e : p.ivLen + 8 + (pt + p.tagLen) = frameSize .single pt := by simp only [hiv, htag, frameSize]; omega
    rw [e] at h3
    exact h3

/-- What the sequence number and content size must satisfy. -/
def WriteOK (type : FrameType) (seqno pt : Nat) : Prop :=
  match type with
  | .frame => pt ≤ maxFrameSize ∧ seqno ≠ lastFrameMark
  | .final => pt ≤ maxFrameSize
  | .single => pt < maxUnframedPlaintextSize

theorem serializeFrame_writeOK {p : AlgProps} {type : FrameType} {seqno pt : Nat} (h : WriteOK type seqno pt)
    (buf : WBuf) : serializeFrame p type seqno pt buf =
      (let r := wrEnd p type seqno pt ⟨0, buf, false⟩
       if r.1.tooSmall then ⟨.error .shortBuffer, some r.1.ciphertextSize, buf.secureZero⟩
       else ⟨.ok r.2, some r.1.ciphertextSize, r.1.buf⟩) := by
  unfold serializeFrame
  cases type with
  | frame =>
    have h1 : ¬ (pt > maxFrameSize) := Nat.not_lt.mpr h.1
    simp only [serdeFramedWr, reduceCtorEq, if_false, h.2, h1, false_and, and_false, or_self]
    rfl
  | final =>
    have h1 : ¬ (pt > maxFrameSize) := Nat.not_lt.mpr h
    simp only [serdeFramedWr, serdeLastFrameWr, reduceCtorEq, if_false, if_true, h1, false_and, and_false, or_self]
    rfl
  | single =>
    have h1 : ¬ (pt > maxUnframedPlaintextSize) := Nat.not_lt.mpr (Nat.le_of_lt h)
    have h2 : ¬ (pt ≥ maxUnframedPlaintextSize) := Nat.not_le.mpr h
    simp only [serdeNonframedWr, if_true, h1, h2, and_false, ne_eq, not_true_eq_false, false_and, or_self, if_false]
    rfl

theorem serializeFrame_not_writeOK {p : AlgProps} {type : FrameType} {seqno pt : Nat} (h : ¬ WriteOK type seqno pt)
    (buf : WBuf) : ∃ e c, serializeFrame p type seqno pt buf = ⟨.error e, c, buf.secureZero⟩ := by
  unfold serializeFrame
  cases type with
  | frame =>
    by_cases h1 : pt > maxFrameSize
    · exact ⟨_, _, by rw [if_pos (Or.inr ⟨by decide, h1⟩)]⟩
    · have h2 : seqno = lastFrameMark := by
        by_cases h2 : seqno = lastFrameMark
        · exact h2
        · exact absurd ⟨Nat.not_lt.mp h1, h2⟩ h
      simp only [serdeFramedWr, reduceCtorEq, if_false, if_true, h2, h1, false_and, and_false, or_self]
      exact ⟨_, _, rfl⟩
  | final =>
    have h1 : pt > maxFrameSize := Nat.not_le.mp h
    exact ⟨_, _, by rw [if_pos (Or.inr ⟨by decide, h1⟩)]⟩
  | single =>
    have h2 : pt ≥ maxUnframedPlaintextSize := Nat.not_lt.mp h
    by_cases h1 : pt > maxUnframedPlaintextSize
    · exact ⟨_, _, by rw [if_pos (Or.inl ⟨rfl, h1⟩)]⟩
    · simp only [serdeNonframedWr, if_true, h1, h2, and_false, ne_eq, not_true_eq_false, false_and, or_self, if_false]
      exact ⟨_, _, rfl⟩

theorem u64_frameSize {type : FrameType} {seqno pt : Nat} (h : WriteOK type seqno pt) :
    u64 (0 + frameSize type pt) = frameSize type pt := by
  have h1 : maxFrameSize = 4294967295 := rfl
  have h2 : maxUnframedPlaintextSize = 68719476704 := rfl
  cases type <;> simp only [WriteOK, h1, h2] at h <;> simp only [u64, frameSize] <;> omega

/-- Insufficient room. -/
theorem serializeFrame_short {a : Nat} {p : AlgProps} (hp : algProps a = some p) {type : FrameType} {seqno pt : Nat}
    (h : WriteOK type seqno pt) {buf : WBuf} (hl : buf.len ≤ buf.mem.length)
    (hc : buf.mem.length < buf.len + frameSize type pt) :
    serializeFrame p type seqno pt buf = ⟨.error .shortBuffer, some (frameSize type pt), buf.secureZero⟩ := by
  rw [serializeFrame_writeOK h]
  have st := wrEnd_step hp type seqno pt ⟨0, buf, false⟩ hl
  have ht : (wrEnd p type seqno pt ⟨0, buf, false⟩).1.tooSmall = true := by
    cases ht : (wrEnd p type seqno pt ⟨0, buf, false⟩).1.tooSmall with
    | true => rfl
    | false =>
      have h3 := (st.ok ht).2.2
      simp only at h3
      omega
  simp only [ht, if_true, st.size, u64_frameSize h]

theorem wrField_lit {n v c l : Nat} {m : Bytes} (hc : l + n ≤ m.length) :
    wrField n v ⟨c, ⟨m, l⟩, false⟩ = ⟨u64 (c + n), ⟨patchAt m l (be n v), l + n⟩, false⟩ := wrField_ok rfl hc

theorem wrSized_lit {n c l : Nat} {m : Bytes} (hc : l + n ≤ m.length) :
    wrSized n ⟨c, ⟨m, l⟩, false⟩ = (some l, ⟨u64 (c + n), ⟨m, l + n⟩, false⟩) := wrSized_ok hc

theorem serdeTailWr_lit {p : AlgProps} (ht : p.tagLen = 16) {n c l : Nat} {m : Bytes} {iv : Option Nat}
    (hc : l + n + 16 ≤ m.length) : serdeTailWr p n iv ⟨c, ⟨m, l⟩, false⟩ =
      (⟨u64 (u64 (c + n) + 16), ⟨m, l + n + 16⟩, false⟩, ⟨iv, some l, some (l + n)⟩) := by
  unfold serdeTailWr
  rw [wrSized_lit (by omega), ht]
  simp only []
  rw [wrSized_lit (by omega)]

/-- Sufficient room: the memory after the write, and where the caller has to put IV, ciphertext and tag. -/
theorem serializeFrame_room {a : Nat} {p : AlgProps} (hp : algProps a = some p) {type : FrameType} {seqno pt : Nat}
    (h : WriteOK type seqno pt) {buf : WBuf} (hc : buf.len + frameSize type pt ≤ buf.mem.length) :
    ∃ mem' i c t, serializeFrame p type seqno pt buf =
        ⟨.ok ⟨some i, some c, some t⟩, some (frameSize type pt), ⟨mem', buf.len + frameSize type pt⟩⟩ ∧
      ∀ iv ct tag : Bytes, iv.length = 12 → ct.length = pt → tag.length = 16 →
        patchAt (patchAt (patchAt mem' i iv) c ct) t tag =
          buf.mem.take buf.len ++ ((match (generalizing := false) type with
            | .frame => be 4 seqno ++ (iv ++ (ct ++ tag))
            | .final => be 4 lastFrameMark ++ (be 4 seqno ++ (iv ++ (be 4 pt ++ (ct ++ tag))))
            | .single => iv ++ (be 8 pt ++ (ct ++ tag))) ++ buf.mem.drop (buf.len + frameSize type pt)) := by
  obtain ⟨hiv, htag⟩ := suite_iv_tag hp
  rw [serializeFrame_writeOK h]
  have hsz := u64_frameSize h
  obtain ⟨mem, len⟩ := buf
  simp only at hc ⊢
  have split : ∀ (m : Bytes) (k : Nat), k ≤ m.length → ∃ x y, m = x ++ y ∧ x.length = k := fun m k hk =>
    ⟨m.take k, m.drop k, (List.take_append_drop k m).symm, by rw [List.length_take]; omega⟩
  cases type with
  | frame =>
    simp only [frameSize] at hc
    have st := wrEnd_step hp .frame seqno pt ⟨0, ⟨mem, len⟩, false⟩ (by simp only; omega)
    have hm : (patchAt mem len (be 4 seqno)).length = mem.length := length_patchAt (by rw [length_be]; omega)
    have e : ∃ c, wrEnd p .frame seqno pt ⟨0, ⟨mem, len⟩, false⟩ =
        (⟨c, ⟨patchAt mem len (be 4 seqno), len + 4 + 12 + pt + 16⟩, false⟩,
          ⟨some (len + 4), some (len + 4 + 12), some (len + 4 + 12 + pt)⟩) := by
      unfold wrEnd
      simp only []
      rw [wrField_lit (by omega), hiv, wrSized_lit (by omega)]
      simp only []
      rw [serdeTailWr_lit htag (by omega)]
      exact ⟨_, rfl⟩
    obtain ⟨c, e⟩ := e
    have hs := st.size
    rw [e] at hs
    simp only [hsz] at hs
    subst hs
    rw [e]
    simp only [Bool.false_eq_true, if_false]
    rw [show len + 4 + 12 + pt + 16 = len + frameSize .frame pt by simp only [frameSize]; omega]
    refine ⟨_, _, _, _, rfl, ?_⟩
    intro iv ct tag h1 h2 h3
    obtain ⟨pre, m1, rfl, hpre⟩ := split mem len (by omega)
    simp only [List.length_append] at hc hm
    obtain ⟨w1, m2, rfl, hw1⟩ := split m1 4 (by omega)
    simp only [List.length_append] at hc
    obtain ⟨w2, m3, rfl, hw2⟩ := split m2 12 (by omega)
    simp only [List.length_append] at hc
    obtain ⟨w3, m4, rfl, hw3⟩ := split m3 pt (by omega)
    simp only [List.length_append] at hc
    obtain ⟨w4, post, rfl, hw4⟩ := split m4 16 (by omega)
    rw [patchAt_mid hpre (by rw [hw1, length_be])]
    rw [show pre ++ (be 4 seqno ++ (w2 ++ (w3 ++ (w4 ++ post)))) = (pre ++ be 4 seqno) ++ (w2 ++ (w3 ++ (w4 ++ post))) by simp,
      patchAt_mid (by simp [hpre]) (by rw [hw2, h1])]
    rw [show (pre ++ be 4 seqno) ++ (iv ++ (w3 ++ (w4 ++ post))) = (pre ++ be 4 seqno ++ iv) ++ (w3 ++ (w4 ++ post)) by simp,
      patchAt_mid (by simp [hpre, h1]) (by rw [hw3, h2])]
    rw [show (pre ++ be 4 seqno ++ iv) ++ (ct ++ (w4 ++ post)) = (pre ++ be 4 seqno ++ iv ++ ct) ++ (w4 ++ post) by simp,
      patchAt_mid (by simp only [List.length_append, length_be, hpre, h1, h2]) (by rw [hw4, h3])]
    have t1 : (pre ++ (w1 ++ (w2 ++ (w3 ++ (w4 ++ post))))).take len = pre := by rw [← hpre]; simp
    have t2 : (pre ++ (w1 ++ (w2 ++ (w3 ++ (w4 ++ post))))).drop (len + frameSize .frame pt) = post := by
      rw [show pre ++ (w1 ++ (w2 ++ (w3 ++ (w4 ++ post)))) = (pre ++ w1 ++ w2 ++ w3 ++ w4) ++ post by simp]
      exact List.drop_left' (by simp [hpre, hw1, hw2, hw3, hw4, frameSize]; omega)
    rw [t1, t2]
    simp
  | final =>
    simp only [frameSize] at hc
    have st := wrEnd_step hp .final seqno pt ⟨0, ⟨mem, len⟩, false⟩ (by simp only; omega)
    have hm : (patchAt mem len (be 4 lastFrameMark)).length = mem.length := length_patchAt (by rw [length_be]; omega)
    have hm1 : (patchAt (patchAt mem len (be 4 lastFrameMark)) (len + 4) (be 4 seqno)).length = mem.length := by
      rw [length_patchAt (by rw [length_be, hm]; omega), hm]
    have hm2 : (patchAt (patchAt (patchAt mem len (be 4 lastFrameMark)) (len + 4) (be 4 seqno)) (len + 4 + 4 + 12) (be 4 pt)).length = mem.length := by
      rw [length_patchAt (by rw [length_be, hm1]; omega), hm1]
    have e : ∃ c, wrEnd p .final seqno pt ⟨0, ⟨mem, len⟩, false⟩ =
        (⟨c, ⟨patchAt (patchAt (patchAt mem len (be 4 lastFrameMark)) (len + 4) (be 4 seqno)) (len + 4 + 4 + 12) (be 4 pt), len + 4 + 4 + 12 + 4 + pt + 16⟩, false⟩,
          ⟨some (len + 4 + 4), some (len + 4 + 4 + 12 + 4), some (len + 4 + 4 + 12 + 4 + pt)⟩) := by
      unfold wrEnd
      simp only []
      rw [wrField_lit (by omega), wrField_lit (by omega), hiv, wrSized_lit (by omega)]
      simp only []
      rw [wrField_lit (by omega), serdeTailWr_lit htag (by omega)]
      exact ⟨_, rfl⟩
    obtain ⟨c, e⟩ := e
    have hs := st.size
    rw [e] at hs
    simp only [hsz] at hs
    subst hs
    rw [e]
    simp only [Bool.false_eq_true, if_false]
    rw [show len + 4 + 4 + 12 + 4 + pt + 16 = len + frameSize .final pt by simp only [frameSize]; omega]
    refine ⟨_, _, _, _, rfl, ?_⟩
    intro iv ct tag h1 h2 h3
    clear e st
    obtain ⟨pre, m1, rfl, hpre⟩ := split mem len (by omega)
    simp only [List.length_append] at hc
    obtain ⟨w0, m1, rfl, hw0⟩ := split m1 4 (by omega)
    simp only [List.length_append] at hc
    obtain ⟨w1, m2, rfl, hw1⟩ := split m1 4 (by omega)
    simp only [List.length_append] at hc
    obtain ⟨w2, m3, rfl, hw2⟩ := split m2 12 (by omega)
    simp only [List.length_append] at hc
    obtain ⟨w5, m3, rfl, hw5⟩ := split m3 4 (by omega)
    simp only [List.length_append] at hc
    obtain ⟨w3, m4, rfl, hw3⟩ := split m3 pt (by omega)
    simp only [List.length_append] at hc
    obtain ⟨w4, post, rfl, hw4⟩ := split m4 16 (by omega)
    rw [patchAt_mid hpre (by rw [hw0, length_be])]
    rw [show ∀ z : Bytes, pre ++ (be 4 lastFrameMark ++ (w1 ++ z)) = (pre ++ be 4 lastFrameMark) ++ (w1 ++ z) by simp,
      patchAt_mid (by simp [hpre]) (by rw [hw1, length_be])]
    rw [show ∀ z : Bytes, (pre ++ be 4 lastFrameMark) ++ (be 4 seqno ++ (w2 ++ (w5 ++ z))) =
        (pre ++ be 4 lastFrameMark ++ be 4 seqno ++ w2) ++ (w5 ++ z) by simp,
      patchAt_mid (by simp [hpre, hw2]) (by rw [hw5, length_be])]
    rw [show ∀ z : Bytes, (pre ++ be 4 lastFrameMark ++ be 4 seqno ++ w2) ++ z =
        (pre ++ be 4 lastFrameMark ++ be 4 seqno) ++ (w2 ++ z) by simp,
      patchAt_mid (by simp [hpre]) (by rw [hw2, h1])]
    rw [show ∀ z : Bytes, (pre ++ be 4 lastFrameMark ++ be 4 seqno) ++ (iv ++ (be 4 pt ++ z)) =
        (pre ++ be 4 lastFrameMark ++ be 4 seqno ++ iv ++ be 4 pt) ++ z by simp,
      patchAt_mid (by simp [hpre, h1]) (by rw [hw3, h2])]
    rw [show ∀ z : Bytes, (pre ++ be 4 lastFrameMark ++ be 4 seqno ++ iv ++ be 4 pt) ++ (ct ++ z) =
        (pre ++ be 4 lastFrameMark ++ be 4 seqno ++ iv ++ be 4 pt ++ ct) ++ z by simp,
      patchAt_mid (by simp only [List.length_append, length_be, hpre, h1, h2]) (by rw [hw4, h3])]
    have t1 : (pre ++ (w0 ++ (w1 ++ (w2 ++ (w5 ++ (w3 ++ (w4 ++ post))))))).take len = pre := by rw [← hpre]; simp
    have t2 : (pre ++ (w0 ++ (w1 ++ (w2 ++ (w5 ++ (w3 ++ (w4 ++ post))))))).drop (len + frameSize .final pt) = post := by
      rw [show pre ++ (w0 ++ (w1 ++ (w2 ++ (w5 ++ (w3 ++ (w4 ++ post)))))) = (pre ++ w0 ++ w1 ++ w2 ++ w5 ++ w3 ++ w4) ++ post by simp]
      exact List.drop_left' (by simp [hpre, hw0, hw1, hw2, hw3, hw4, hw5, frameSize]; omega)
    rw [t1, t2]
    simp
  | single =>
    simp only [frameSize] at hc
    have st := wrEnd_step hp .single seqno pt ⟨0, ⟨mem, len⟩, false⟩ (by simp only; omega)
    have hm : (patchAt mem (len + 12) (be 8 pt)).length = mem.length := length_patchAt (by rw [length_be]; omega)
    have e : ∃ c, wrEnd p .single seqno pt ⟨0, ⟨mem, len⟩, false⟩ =
        (⟨c, ⟨patchAt mem (len + 12) (be 8 pt), len + 12 + 8 + pt + 16⟩, false⟩,
          ⟨some len, some (len + 12 + 8), some (len + 12 + 8 + pt)⟩) := by
      unfold wrEnd
      simp only []
      rw [hiv, wrSized_lit (by omega)]
      simp only []
      rw [wrField_lit (by omega), serdeTailWr_lit htag (by omega)]
      exact ⟨_, rfl⟩
    obtain ⟨c, e⟩ := e
    have hs := st.size
    rw [e] at hs
    simp only [hsz] at hs
    subst hs
    rw [e]
    simp only [Bool.false_eq_true, if_false]
    rw [show len + 12 + 8 + pt + 16 = len + frameSize .single pt by simp only [frameSize]; omega]
    refine ⟨_, _, _, _, rfl, ?_⟩
    intro iv ct tag h1 h2 h3
    clear e st
    obtain ⟨pre, m1, rfl, hpre⟩ := split mem len (by omega)
    simp only [List.length_append] at hc
    obtain ⟨w2, m3, rfl, hw2⟩ := split m1 12 (by omega)
    simp only [List.length_append] at hc
    obtain ⟨w5, m3, rfl, hw5⟩ := split m3 8 (by omega)
    simp only [List.length_append] at hc
    obtain ⟨w3, m4, rfl, hw3⟩ := split m3 pt (by omega)
    simp only [List.length_append] at hc
    obtain ⟨w4, post, rfl, hw4⟩ := split m4 16 (by omega)
    rw [show ∀ z : Bytes, pre ++ (w2 ++ (w5 ++ z)) = (pre ++ w2) ++ (w5 ++ z) by simp,
      patchAt_mid (by simp [hpre, hw2]) (by rw [hw5, length_be])]
    rw [show ∀ z : Bytes, (pre ++ w2) ++ z = pre ++ (w2 ++ z) by simp,
      patchAt_mid hpre (by rw [hw2, h1])]
    rw [show ∀ z : Bytes, pre ++ (iv ++ (be 8 pt ++ z)) = (pre ++ iv ++ be 8 pt) ++ z by simp,
      patchAt_mid (by simp [hpre, h1]) (by rw [hw3, h2])]
    rw [show ∀ z : Bytes, (pre ++ iv ++ be 8 pt) ++ (ct ++ z) = (pre ++ iv ++ be 8 pt ++ ct) ++ z by simp,
      patchAt_mid (by simp only [List.length_append, length_be, hpre, h1, h2]) (by rw [hw4, h3])]
    have t1 : (pre ++ w2 ++ (w5 ++ (w3 ++ (w4 ++ post)))).take len = pre := by rw [← hpre]; simp
    have t2 : (pre ++ w2 ++ (w5 ++ (w3 ++ (w4 ++ post)))).drop (len + frameSize .single pt) = post := by
      rw [show pre ++ w2 ++ (w5 ++ (w3 ++ (w4 ++ post))) = (pre ++ w2 ++ w5 ++ w3 ++ w4) ++ post by simp]
      exact List.drop_left' (by simp [hpre, hw2, hw3, hw4, hw5, frameSize]; omega)
    rw [t1, t2]
    simp

/-- A write changes only the bytes from the old length up to `n` bytes further. -/
structure Outside (b n : Nat) (m m' : Bytes) : Prop where
  before : m'.take b = m.take b
  after : m'.drop (b + n) = m.drop (b + n)

theorem patchAt_outside {m y : Bytes} {b n l : Nat} (h1 : b ≤ l) (h2 : l + y.length ≤ b + n) (h3 : l + y.length ≤ m.length) :
    Outside b n m (patchAt m l y) := by
  constructor
  · rw [patchAt, List.append_assoc, List.take_append_of_le_length (by rw [List.length_take]; omega), List.take_take]
    congr 1; omega
  · have hk : b + n = (m.take l ++ y).length + (b + n - (l + y.length)) := by
      simp only [List.length_append, List.length_take]; omega
    have : (patchAt m l y).drop (b + n) = (m.drop (l + y.length)).drop (b + n - (l + y.length)) := by
      rw [patchAt]
      conv => lhs; rw [hk]
      rw [← List.drop_drop, List.drop_left]
    rw [this, List.drop_drop]
    congr 1; omega

theorem Outside.trans {b n : Nat} {m m' m'' : Bytes} (h1 : Outside b n m m') (h2 : Outside b n m' m'') : Outside b n m m'' :=
  ⟨h2.before.trans h1.before, h2.after.trans h1.after⟩

theorem wrEnd_mem {a : Nat} {p : AlgProps} (hp : algProps a = some p) (type : FrameType) (seqno pt : Nat) (mem : Bytes) (len : Nat)
    (hc : len + frameSize type pt ≤ mem.length) : (wrEnd p type seqno pt ⟨0, ⟨mem, len⟩, false⟩).1.buf.mem =
      match type with
      | .frame => patchAt mem len (be 4 seqno)
      | .final => patchAt (patchAt (patchAt mem len (be 4 lastFrameMark)) (len + 4) (be 4 seqno)) (len + 4 + 4 + 12) (be 4 pt)
      | .single => patchAt mem (len + 12) (be 8 pt) := by
  obtain ⟨hiv, htag⟩ := suite_iv_tag hp
  unfold wrEnd
  cases type with
  | frame =>
    simp only [frameSize] at hc
    have hm : (patchAt mem len (be 4 seqno)).length = mem.length := length_patchAt (by rw [length_be]; omega)
    simp only []
    rw [wrField_lit (by omega), hiv, wrSized_lit (by omega)]
    simp only []
    rw [serdeTailWr_lit htag (by omega)]
  | final =>
    simp only [frameSize] at hc
    have hm : (patchAt mem len (be 4 lastFrameMark)).length = mem.length := length_patchAt (by rw [length_be]; omega)
    have hm1 : (patchAt (patchAt mem len (be 4 lastFrameMark)) (len + 4) (be 4 seqno)).length = mem.length := by
      rw [length_patchAt (by rw [length_be, hm]; omega), hm]
    have hm2 : (patchAt (patchAt (patchAt mem len (be 4 lastFrameMark)) (len + 4) (be 4 seqno)) (len + 4 + 4 + 12) (be 4 pt)).length = mem.length := by
      rw [length_patchAt (by rw [length_be, hm1]; omega), hm1]
    simp only []
    rw [wrField_lit (by omega), wrField_lit (by omega), hiv, wrSized_lit (by omega)]
    simp only []
    rw [wrField_lit (by omega), serdeTailWr_lit htag (by omega)]
  | single =>
    simp only [frameSize] at hc
    have hm : (patchAt mem (len + 12) (be 8 pt)).length = mem.length := length_patchAt (by rw [length_be]; omega)
    simp only []
    rw [hiv, wrSized_lit (by omega)]
    simp only []
    rw [wrField_lit (by omega), serdeTailWr_lit htag (by omega)]

theorem wrEnd_outside {a : Nat} {p : AlgProps} (hp : algProps a = some p) (type : FrameType) (seqno pt : Nat) (s : WrState)
    (hc : s.buf.len + frameSize type pt ≤ s.buf.mem.length) (h0 : s = ⟨0, s.buf, false⟩ := by rfl) :
    (wrEnd p type seqno pt s).1.buf.mem.take s.buf.len = s.buf.mem.take s.buf.len ∧
    (wrEnd p type seqno pt s).1.buf.mem.drop (s.buf.len + frameSize type pt) = s.buf.mem.drop (s.buf.len + frameSize type pt) := by
  obtain ⟨c, ⟨mem, len⟩, t⟩ := s
  simp only [WrState.mk.injEq, true_and] at h0
  obtain ⟨rfl, rfl⟩ := h0
  simp only at hc ⊢
  rw [wrEnd_mem hp type seqno pt mem len hc]
  have key : Outside len (frameSize type pt) mem (match type with
      | .frame => patchAt mem len (be 4 seqno)
      | .final => patchAt (patchAt (patchAt mem len (be 4 lastFrameMark)) (len + 4) (be 4 seqno)) (len + 4 + 4 + 12) (be 4 pt)
      | .single => patchAt mem (len + 12) (be 8 pt)) := by
    cases type with
    | frame =>
      simp only [frameSize] at hc ⊢
      exact patchAt_outside (by omega) (by rw [length_be]; omega) (by rw [length_be]; omega)
    | final =>
      simp only [frameSize] at hc ⊢
      have hm : (patchAt mem len (be 4 lastFrameMark)).length = mem.length := length_patchAt (by rw [length_be]; omega)
      have hm1 : (patchAt (patchAt mem len (be 4 lastFrameMark)) (len + 4) (be 4 seqno)).length = mem.length := by
        rw [length_patchAt (by rw [length_be, hm]; omega), hm]
      exact ((patchAt_outside (by omega) (by rw [length_be]; omega) (by rw [length_be]; omega)).trans
        (patchAt_outside (by omega) (by rw [length_be]; omega) (by rw [length_be]; omega))).trans
        (patchAt_outside (by omega) (by rw [length_be]; omega) (by rw [length_be]; omega))
    | single =>
      simp only [frameSize] at hc ⊢
      exact patchAt_outside (by omega) (by rw [length_be]; omega) (by rw [length_be]; omega)
  exact ⟨key.before, key.after⟩

theorem serializeFrame_frame_mem {a : Nat} {p : AlgProps} (hp : algProps a = some p) {seqno pt : Nat}
    (h : WriteOK .frame seqno pt) {buf : WBuf} (hc : buf.len + frameSize .frame pt ≤ buf.mem.length) :
    (serializeFrame p .frame seqno pt buf).buf.mem = patchAt buf.mem buf.len (be 4 seqno) := by
  obtain ⟨mem', i, c, t, e, -⟩ := serializeFrame_room hp h hc
  have hmem := wrEnd_mem hp .frame seqno pt buf.mem buf.len hc
  simp only [] at hmem
  rw [← hmem]
  rw [serializeFrame_writeOK h] at e ⊢
  simp only [] at e ⊢
  split at e
  · cases e
  · rename_i hts
    rw [if_neg hts]

end Verif
