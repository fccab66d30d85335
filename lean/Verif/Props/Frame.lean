import Verif.Proof.FrameWrite
/-
C11, C12, C13: message-body frames.
-/
namespace Verif
open Spec

/-- Frames used as examples. -/
def exFrame1 : Frame := ⟨.frame, 7, List.replicate 12 1, [10, 20, 30], List.replicate 16 9⟩
def exFrame2 : Frame := ⟨.final, 8, List.replicate 12 2, [40], List.replicate 16 8⟩
def exFrame3 : Frame := ⟨.single, 1, List.replicate 12 3, [], List.replicate 16 7⟩

theorem exFrame1_ok : FrameOK 3 exFrame1 := ⟨by decide, by decide, by decide, by simp [exFrame1]⟩
theorem exFrame2_ok : FrameOK 3 exFrame2 := ⟨by decide, by decide, by decide, by simp [exFrame2]⟩
theorem exFrame3_ok : FrameOK 0 exFrame3 := ⟨by decide, by decide, by decide, by simp [exFrame3]⟩

theorem writeOK_iff (type : FrameType) (seqno n : Nat) : WriteOK type seqno n ↔ WithinLimits type seqno n := by
  cases type <;> exact Iff.rfl

theorem frameOK_writeOK {fs : Nat} (hfs : fs < 2 ^ 32) {f : Frame} (h : FrameOK fs f) :
    WriteOK f.type f.seqno f.ciphertext.length := by
  have hs := h.shape
  rw [writeOK_iff]
  cases ht : f.type <;> rw [ht] at hs <;> simp only [WithinLimits] at hs ⊢ <;> omega

theorem wireFrame_bytes {fs : Nat} (hfs : fs < 2 ^ 32) {f : Frame} (h : FrameOK fs f) :
    wireFrame f = (match f.type with
      | .frame => be 4 f.seqno ++ (f.iv ++ (f.ciphertext ++ f.authtag))
      | .final => be 4 lastFrameMark ++ (be 4 f.seqno ++ (f.iv ++ (be 4 f.ciphertext.length ++ (f.ciphertext ++ f.authtag))))
      | .single => f.iv ++ (be 8 f.ciphertext.length ++ (f.ciphertext ++ f.authtag))) := by
  have hs := h.shape
  have hq := h.seqno
  have hmk : be 4 lastFrameMark = [0xFF, 0xFF, 0xFF, 0xFF] := by decide
  unfold wireFrame
  cases ht : f.type <;> rw [ht] at hs <;> simp only [] at hs ⊢
  · rw [u64be_eq_be _ (by omega)]; simp
  · rw [u32_eq_be _ (by omega)]; simp
  · rw [u32_eq_be _ (by omega), u32_eq_be _ (by omega), hmk]; simp

/-- **C11.** For every well-formed frame of a message with any frame length, and every output buffer with room for it:
serialisation succeeds and reports the size of the frame; it reserves three places such that filling in IV, ciphertext
and tag makes the output exactly the wire format of the frame, with everything before and after it in the buffer
unchanged; and the parser splits these bytes, whatever follows them, into the same frame, consuming exactly the
reported size. -/
theorem C11_frame_round_trip {a : Nat} {p : AlgProps} (hp : algProps a = some p) {fs : Nat} (hfs : fs < 2 ^ 32)
    {f : Frame} (hf : FrameOK fs f) (buf : WBuf) (hroom : buf.len + frameSize f.type f.ciphertext.length ≤ buf.mem.length) :
    (∃ i c t mem',
      serializeFrame p f.type f.seqno f.ciphertext.length buf =
        ⟨.ok ⟨some i, some c, some t⟩, some (wireFrame f).length, ⟨mem', buf.len + (wireFrame f).length⟩⟩ ∧
      fillIn mem' i c t f = buf.mem.take buf.len ++ wireFrame f ++ buf.mem.drop (buf.len + (wireFrame f).length)) ∧
    ∀ trailing, deserializeFrame p fs (wireFrame f ++ trailing) =
      ⟨.ok f, (wireFrame f).length, f.ciphertext.length, trailing⟩ := by
  have hlen := length_wireFrame hf
  constructor
  · obtain ⟨mem', i, c, t, e, hfill⟩ := serializeFrame_room hp (frameOK_writeOK hfs hf) hroom
    rw [hlen]
    refine ⟨i, c, t, mem', e, ?_⟩
    have := hfill f.iv f.ciphertext f.authtag hf.iv rfl hf.tag
    rw [wireFrame_bytes hfs hf, List.append_assoc]
    exact this
  · intro t
    have h1 : (deserializeFrame p fs (wireFrame f ++ t)).toParse = .ok (f, t) := by
      rw [deserializeFrame_eq_parser hp hfs, frameParser_iff hfs]; exact ⟨hf, rfl⟩
    obtain ⟨hres, hrest⟩ := DeserResult.toParse_ok.mp h1
    have hlen' := hlen
    have hs := hf.shape
    by_cases h0 : fs = 0
    · subst h0
      rcases deserializeFrame_single hp (wireFrame f ++ t) with ⟨_, e⟩ | ⟨iv, n, r2, hbs, hn, hiv, ⟨_, e⟩ | ⟨_, _, e⟩ | ⟨_, ct, tag, r, _, hc, ht, e⟩⟩ <;>
        rw [e] at hres hrest ⊢ <;> first | (cases hres; done) | skip
      simp only [Except.ok.injEq] at hres
      subst hres
      simp only at hrest ⊢
      rw [hrest, hlen, hc]; rfl
    · rcases deserializeFrame_framed hp h0 hfs (wireFrame f ++ t) with ⟨_, e⟩ | ⟨mark, r1, _, hmk, hne, ⟨_, e⟩ | ⟨iv, ct, tag, r, _, hiv, hc, ht, e⟩⟩ |
        ⟨r1, _, ⟨_, e⟩ | ⟨seqno, iv, n, r2, _, hsq, hn, hiv, ⟨_, e⟩ | ⟨hle, _, e⟩ | ⟨hle, ct, tag, r, _, hc, ht, e⟩⟩⟩ <;>
        rw [e] at hres hrest ⊢ <;> first | (cases hres; done) | skip
      all_goals
        simp only [Except.ok.injEq] at hres
        subst hres
        simp only at hrest ⊢
        rw [hrest, hlen, hc]; rfl

/-- The hypotheses are met, for each frame type (here with bytes already in the buffer and spare room after). -/
example : algProps 0x0578 ≠ none ∧ FrameOK 3 exFrame1 ∧ FrameOK 3 exFrame2 ∧ FrameOK 0 exFrame3 ∧
    (⟨List.replicate 60 5, 10⟩ : WBuf).len + frameSize exFrame2.type exFrame2.ciphertext.length ≤ 60 :=
  ⟨by decide, exFrame1_ok, exFrame2_ok, exFrame3_ok, by decide⟩

/-- **C11 (only this).** The parser accepts nothing but well-formed frames in wire format: whatever it returns was, in
these bytes, at the front of the input. -/
theorem C11_parse_exact {a : Nat} {p : AlgProps} (hp : algProps a = some p) {fs : Nat} (hfs : fs < 2 ^ 32) (bs : Bytes)
    (f : Frame) :
    (deserializeFrame p fs bs).res = .ok f ↔ ∃ rest, FrameOK fs f ∧ bs = wireFrame f ++ rest := by
  have h := deserializeFrame_eq_parser hp hfs bs
  constructor
  · intro hr
    rw [DeserResult.toParse_ok.mpr ⟨hr, rfl⟩] at h
    exact ⟨_, (frameParser_iff hfs).mp h.symm⟩
  · rintro ⟨rest, hf⟩
    rw [(frameParser_iff hfs).mpr hf] at h
    exact (DeserResult.toParse_ok.mp h).1

example : (deserializeFrame (staticAlgProps 0x0578 2 "sha512" 256 103 256 256) 3 (wireFrame exFrame2 ++ [1, 2])).res = .ok exFrame2 := by
  decide

/-- The parser does not consume input unless it succeeds. -/
theorem deserializeFrame_err_rest (p : AlgProps) (fs : Nat) (bs : Bytes) (e : Err)
    (h : (deserializeFrame p fs bs).res = .error e) : (deserializeFrame p fs bs).rest = bs := by
  rw [deserializeFrame_eq p fs bs _ _ rfl] at h ⊢
  split at h
  · rfl
  · rename_i f _
    split at h
    · rename_i h1; rw [if_pos h1]
    · rename_i h1
      rw [if_neg h1]
      obtain ⟨t, sq, iv, ct, tag⟩ := f
      cases iv <;> cases ct <;> cases tag <;> first | rfl | cases h

/-- **C12.** For every well-formed frame and every proper prefix of its wire format, the parser reports "short
buffer", consumes nothing, and its ciphertext-size estimate is more than what was supplied and at most the size of the
real frame.

The full statement has no side condition.  `hknown` is needed: it asks that the frame is not a final frame of which
fewer than four bytes were supplied (see `C12_estimate_too_large`).  Hence the suffix. -/
theorem C12_prefix_and_estimate_partial {a : Nat} {p : AlgProps} (hp : algProps a = some p) {fs : Nat} (hfs : fs < 2 ^ 32)
    {f : Frame} (hf : FrameOK fs f) {xs ys : Bytes} (hsplit : wireFrame f = xs ++ ys) (hys : ys ≠ []) :
    (deserializeFrame p fs xs).res = .error .shortBuffer ∧ (deserializeFrame p fs xs).rest = xs ∧
    xs.length < (deserializeFrame p fs xs).ciphertextSize ∧
    (f.type = .final → 4 ≤ xs.length → (deserializeFrame p fs xs).ciphertextSize ≤ (wireFrame f).length) ∧
    (f.type ≠ .final → (deserializeFrame p fs xs).ciphertextSize ≤ (wireFrame f).length) := by
  have hlen := length_wireFrame hf
  have hl2 : (wireFrame f).length = xs.length + ys.length := by rw [hsplit, List.length_append]
  have hpos : 0 < ys.length := by cases ys with | nil => exact absurd rfl hys | cons => simp
  have hs := hf.shape
  have hpre : (deserializeFrame p fs xs).toParse = .error .shortBuffer := by
    rw [deserializeFrame_eq_parser hp hfs]
    have hfull : frameParser fs (xs ++ ys) = .ok (f, []) := by
      rw [← hsplit]
      exact (frameParser_iff hfs).mpr ⟨hf, by simp⟩
    rcases (Streaming.frameParser fs).prefix_cases hfull with ⟨r', h, hr⟩ | h
    · exfalso
      have : ys = [] := by
        have := congrArg List.length hr
        simp at this
        exact List.length_eq_zero_iff.mp (by omega)
      exact hys this
    · exact h
  have hres : (deserializeFrame p fs xs).res = .error .shortBuffer := DeserResult.toParse_error.mp hpre
  refine ⟨hres, deserializeFrame_err_rest p fs xs _ hres, ?_⟩
  by_cases h0 : fs = 0
  · subst h0
    have htype : f.type = .single := by
      cases ht : f.type with
      | single => rfl
      | frame => rw [ht] at hs; exact absurd rfl hs.1
      | final => rw [ht] at hs; exact absurd rfl hs.1
    rw [htype] at hlen hs
    simp only [frameSize] at hlen hs
    rcases deserializeFrame_single hp xs with ⟨hlt, e⟩ | ⟨iv, n, r2, hbs, hn, hiv, ⟨_, e⟩ | ⟨hn', hlt, e⟩ | ⟨_, ct, tag, r, _, hc, ht, e⟩⟩
    · rw [e]; simp only [htype]; refine ⟨by omega, ⟨fun h => (by cases h), fun _ => by omega⟩⟩
    · rw [e] at hres; cases hres
    · rw [e]; simp only [htype]
      have hn2 : n = f.ciphertext.length := by
        rw [wireFrame_bytes hfs hf, htype, hbs] at hsplit
        simp only [List.append_assoc] at hsplit
        have h1 := List.append_inj hsplit (by rw [hf.iv, hiv])
        have h2 := List.append_inj h1.2 (by simp)
        exact (be_inj (by simp only [Nat.reducePow]; omega) (by simp only [Nat.reducePow]; omega) h2.1).symm
      refine ⟨by omega, ⟨fun h => (by cases h), fun _ => by omega⟩⟩
    · rw [e] at hres; cases hres
  · rcases deserializeFrame_framed hp h0 hfs xs with ⟨hlt, e⟩ | ⟨mark, r1, hbs, hmk, hne, ⟨hlt, e⟩ | ⟨iv, ct, tag, r, _, hiv, hc, ht, e⟩⟩ |
        ⟨r1, hbs, ⟨hlt, e⟩ | ⟨seqno, iv, n, r2, hr1, hsq, hn, hiv, ⟨_, e⟩ | ⟨hle, hlt, e⟩ | ⟨hle, ct, tag, r, _, hc, ht, e⟩⟩⟩
    · rw [e]; simp only
      refine ⟨by omega, fun _ h4 => by omega, fun hn => ?_⟩
      cases ht : f.type with
      | single => rw [ht] at hs; exact absurd hs.1 h0
      | final => exact absurd ht hn
      | frame => rw [ht] at hs hlen; simp only [frameSize] at hlen hs; omega
    · rw [e]; simp only
      have hfr : f.type = .frame := by
        cases ht : f.type with
        | single => rw [ht] at hs; exact absurd hs.1 h0
        | frame => rfl
        | final =>
          rw [wireFrame_bytes hfs hf, ht, hbs, List.append_assoc] at hsplit
          have h1 := List.append_inj hsplit (by simp)
          exact absurd (be_inj (by decide) (by simpa using hmk) h1.1).symm hne
      rw [hfr] at hs hlen
      simp only [frameSize] at hlen hs
      exact ⟨by omega, fun h => (by rw [hfr] at h; cases h), fun _ => by omega⟩
    · rw [e] at hres; cases hres
    · have hfr : f.type = .final := by
        cases ht : f.type with
        | single => rw [ht] at hs; exact absurd hs.1 h0
        | final => rfl
        | frame =>
          rw [ht] at hs
          rw [wireFrame_bytes hfs hf, ht, hbs, List.append_assoc] at hsplit
          have h1 := List.append_inj hsplit (by simp)
          exact absurd (be_inj (by simpa using hf.seqno) (by decide) h1.1) hs.2.2
      rw [e]; simp only [hfr]
      rw [hfr] at hs hlen
      simp only [frameSize] at hlen hs
      exact ⟨by omega, fun _ _ => by omega, fun h => absurd rfl h⟩
    · rw [e] at hres; cases hres
    · have hfr : f.type = .final := by
        cases ht : f.type with
        | single => rw [ht] at hs; exact absurd hs.1 h0
        | final => rfl
        | frame =>
          rw [ht] at hs
          rw [wireFrame_bytes hfs hf, ht, hbs, List.append_assoc] at hsplit
          have h1 := List.append_inj hsplit (by simp)
          exact absurd (be_inj (by simpa using hf.seqno) (by decide) h1.1) hs.2.2
      rw [e]; simp only [hfr]
      rw [hfr] at hs hlen
      simp only [frameSize] at hlen hs
      have hn2 : n = f.ciphertext.length := by
        rw [wireFrame_bytes hfs hf, hfr, hbs, hr1] at hsplit
        simp only [List.append_assoc] at hsplit
        have h1 := List.append_inj hsplit (by simp)
        have h2 := List.append_inj h1.2 (by simp)
        have h3 := List.append_inj h2.2 (by rw [hf.iv, hiv])
        have h4 := List.append_inj h3.2 (by simp)
        exact (be_inj (by simp only [Nat.reducePow]; omega) (by simp only [Nat.reducePow]; omega) h4.1).symm
      exact ⟨by omega, fun _ _ => by omega, fun h => absurd rfl h⟩
    · rw [e] at hres; cases hres

example : wireFrame exFrame2 = (wireFrame exFrame2).take 30 ++ (wireFrame exFrame2).drop 30 ∧ (wireFrame exFrame2).drop 30 ≠ [] := by
  decide

/-- **C12, refuted part.** The documentation of `aws_cryptosdk_deserialize_frame` promises a *lower bound* on the frame
size.  With the first two bytes of this final frame (41 bytes in all, of a message with 100-byte frames) the
estimate is 132. -/
theorem C12_estimate_too_large :
    ∃ (p : AlgProps) (f : Frame) (xs ys : Bytes), algProps 0x0178 = some p ∧ FrameOK 100 f ∧ wireFrame f = xs ++ ys ∧ ys ≠ [] ∧
      (wireFrame f).length < (deserializeFrame p 100 xs).ciphertextSize :=
  ⟨_, exFrame2, [0xFF, 0xFF], (wireFrame exFrame2).drop 2, rfl, ⟨by decide, by decide, by decide, by simp [exFrame2]⟩,
    by decide, by decide, by decide⟩

/-- **C12 (rejection is final).** If the parser rejects an input with anything but "short buffer", it rejects every
continuation of it in the same way, so waiting for more input is never useful then. -/
theorem C12_rejection_is_final {a : Nat} {p : AlgProps} (hp : algProps a = some p) {fs : Nat} (hfs : fs < 2 ^ 32)
    (bs more : Bytes) (e : Err) (he : e ≠ .shortBuffer) (h : (deserializeFrame p fs bs).res = .error e) :
    (deserializeFrame p fs (bs ++ more)).res = .error e ∧ (deserializeFrame p fs (bs ++ more)).rest = bs ++ more := by
  have h1 := deserializeFrame_eq_parser hp hfs bs
  rw [DeserResult.toParse_error.mpr h] at h1
  have h2 := (Streaming.frameParser fs).bad _ _ h1.symm he more
  have h3 := deserializeFrame_eq_parser hp hfs (bs ++ more)
  rw [h2] at h3
  have h4 : (deserializeFrame p fs (bs ++ more)).res = .error e := DeserResult.toParse_error.mp h3
  exact ⟨h4, deserializeFrame_err_rest _ _ _ _ h4⟩

example : (deserializeFrame (staticAlgProps 0x0178 1 "sha256" 256 0 0 0) 3
    ([0xFF, 0xFF, 0xFF, 0xFF, 0, 0, 0, 1] ++ List.replicate 12 0 ++ [0, 0, 0, 4])).res = .error .badCiphertext := by decide

/-- **C13.** For every type, sequence number, content size and output buffer (whose length is within its capacity):
serialisation succeeds exactly when the format's limits hold and the frame fits in the remaining capacity.  It never
changes the size of the memory; on success the length grows by exactly the frame size and stays within the capacity;
on failure the buffer is left empty and its whole capacity zeroed. -/
theorem C13_write_exact {a : Nat} {p : AlgProps} (hp : algProps a = some p) (type : FrameType) (seqno n : Nat) (buf : WBuf)
    (hbuf : buf.len ≤ buf.mem.length) :
    ((∃ l, (serializeFrame p type seqno n buf).res = .ok l) ↔
      WithinLimits type seqno n ∧ frameSize type n ≤ buf.mem.length - buf.len) ∧
    (serializeFrame p type seqno n buf).buf.mem.length = buf.mem.length ∧
    (∀ l, (serializeFrame p type seqno n buf).res = .ok l →
      (serializeFrame p type seqno n buf).buf.len = buf.len + frameSize type n ∧
      (serializeFrame p type seqno n buf).buf.len ≤ buf.mem.length ∧
      (serializeFrame p type seqno n buf).buf.mem.take buf.len = buf.mem.take buf.len ∧
      (serializeFrame p type seqno n buf).buf.mem.drop (buf.len + frameSize type n) = buf.mem.drop (buf.len + frameSize type n)) ∧
    (∀ e, (serializeFrame p type seqno n buf).res = .error e →
      (serializeFrame p type seqno n buf).buf = ⟨List.replicate buf.mem.length 0, 0⟩) := by
  by_cases hw : WriteOK type seqno n
  · by_cases hc : buf.len + frameSize type n ≤ buf.mem.length
    · obtain ⟨mem', i, c, t, e, hfill⟩ := serializeFrame_room hp hw hc
      have hfill' := hfill
      have st := wrEnd_step hp type seqno n ⟨0, buf, false⟩ hbuf
      have hm : mem'.length = buf.mem.length := by
        rw [serializeFrame_writeOK hw] at e
        simp only [] at e
        split at e
        · cases e
        · rename_i hts
          have := st.mem
          simp only [SerResult.mk.injEq] at e
          rw [e.2.2] at this
          exact this
      rw [e]
      refine ⟨⟨fun _ => ⟨(writeOK_iff _ _ _).mp hw, by omega⟩, fun _ => ⟨_, rfl⟩⟩, hm, fun l _ => ⟨rfl, hc, ?_⟩, fun e h => (by cases h)⟩
      have e' : mem' = (wrEnd p type seqno n ⟨0, buf, false⟩).1.buf.mem := by
        rw [serializeFrame_writeOK hw] at e
        simp only [] at e
        split at e
        · cases e
        · simp only [SerResult.mk.injEq] at e
          rw [e.2.2]
      simp only
      rw [e']
      exact wrEnd_outside hp type seqno n ⟨0, buf, false⟩ hc
    · rw [serializeFrame_short hp hw hbuf (by omega)]
      exact ⟨⟨fun ⟨l, h⟩ => (by cases h), fun h => by omega⟩, by simp [WBuf.secureZero], fun l h => (by cases h),
        fun e _ => rfl⟩
  · obtain ⟨e, c, h⟩ := serializeFrame_not_writeOK (p := p) hw buf
    rw [h]
    exact ⟨⟨fun ⟨l, h⟩ => (by cases h), fun h => absurd ((writeOK_iff _ _ _).mpr h.1) hw⟩, by simp [WBuf.secureZero],
      fun l h => (by cases h), fun e _ => rfl⟩

/-- Both directions occur. -/
example : WithinLimits .frame 4294967294 3 ∧ ¬ WithinLimits .frame 4294967295 3 ∧ WithinLimits .final 4294967295 3 ∧
    frameSize .frame 3 ≤ (⟨List.replicate 40 1, 5⟩ : WBuf).mem.length - 5 := by
  refine ⟨⟨by decide, by decide⟩, fun h => h.2 rfl, by simp [WithinLimits], by decide⟩

/-- **C13 (marker).** A successfully serialised intermediate frame does not begin with the final-frame marker. -/
theorem C13_no_marker_in_intermediate {a : Nat} {p : AlgProps} (hp : algProps a = some p) (seqno n : Nat)
    (hseq : seqno < 2 ^ 32) (buf : WBuf) (hbuf : buf.len ≤ buf.mem.length) (l : FrameLoc)
    (h : (serializeFrame p .frame seqno n buf).res = .ok l) :
    ((serializeFrame p .frame seqno n buf).buf.mem.drop buf.len).take 4 ≠ [0xFF, 0xFF, 0xFF, 0xFF] := by
  have h1 := ((C13_write_exact hp .frame seqno n buf hbuf).1).mp ⟨l, h⟩
  have hw := (writeOK_iff _ _ _).mpr h1.1
  have hc : buf.len + frameSize .frame n ≤ buf.mem.length := by omega
  rw [serializeFrame_frame_mem hp hw hc]
  have hlen : buf.len + 4 ≤ buf.mem.length := by simp only [frameSize] at hc; omega
  have : (patchAt buf.mem buf.len (be 4 seqno)).drop buf.len = be 4 seqno ++ buf.mem.drop (buf.len + 4) := by
    rw [patchAt, length_be, List.append_assoc]
    exact List.drop_left' (by rw [List.length_take]; omega)
  rw [this, List.take_left' (by simp), show [0xFF, 0xFF, 0xFF, 0xFF] = be 4 4294967295 by decide]
  intro hb
  exact h1.1.2 (be_inj (by simpa using hseq) (by decide) hb)

/-- **C13, disagreement with the documentation.** framefmt.h says of `ciphertext_size` "always set".  It is not set when
the content is over the size limit, so a caller that reads it then reads an uninitialised variable. -/
theorem C13_size_output_not_always_set {p : AlgProps} {type : FrameType} (ht : type ≠ .single) {seqno n : Nat}
    (hn : 4294967295 < n) (buf : WBuf) : (serializeFrame p type seqno n buf).ciphertextSize = none := by
  unfold serializeFrame
  rw [if_pos (Or.inr ⟨ht, hn⟩)]

example : (4294967295 : Nat) < 4294967296 := by decide

end Verif
