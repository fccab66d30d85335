import Verif.Proof.Header
import Verif.Spec.Frame
namespace Verif
open Spec

theorem u64be_eq_be (n : Nat) (h : n < 2 ^ 64) : u64be n = be 8 n := by
  have e1 : u64be n = be 4 (n / 4294967296) ++ be 4 (n % 4294967296) := by
    unfold u64be
    rw [u32_eq_be _ (by omega), u32_eq_be _ (by omega)]
  rw [e1]
  simp only [be, List.nil_append, List.append_assoc, List.cons_append]
  have a : n / 4294967296 = n / 256 / 256 / 256 / 256 := by omega
  simp only [a]
  have b0 : n % 4294967296 % 256 = n % 256 := by omega
  have b1 : n % 4294967296 / 256 % 256 = n / 256 % 256 := by omega
  have b2 : n % 4294967296 / 256 / 256 % 256 = n / 256 / 256 % 256 := by omega
  have b3 : n % 4294967296 / 256 / 256 / 256 % 256 = n / 256 / 256 / 256 % 256 := by omega
  rw [b0, b1, b2, b3]

theorem suite_iv_tag {a : Nat} {p : AlgProps} (hp : algProps a = some p) : p.ivLen = 12 ∧ p.tagLen = 16 := by
  unfold algProps at hp
  split at hp <;> first | (cases hp; exact ⟨rfl, rfl⟩) | cases hp

/-! ### reading -/

/-- The frame grammar as a parser. -/
def frameParser (fs : Nat) : P Frame :=
  if fs ≠ 0 then do
    let mark ← rdBE 4
    if mark = lastFrameMark then do
      let seqno ← rdBE 4
      let iv ← rdN 12
      let n ← rdBE 4
      if n > fs then P.fail .badCiphertext
      else do
        let ct ← rdN n
        let tag ← rdN 16
        pure ⟨.final, seqno, iv, ct, tag⟩
    else do
      let iv ← rdN 12
      let ct ← rdN fs
      let tag ← rdN 16
      pure ⟨.frame, mark, iv, ct, tag⟩
  else do
    let iv ← rdN 12
    let n ← rdBE 8
    if n ≥ maxUnframedPlaintextSize then P.fail .badCiphertext
    else do
      let ct ← rdN n
      let tag ← rdN 16
      pure ⟨.single, 1, iv, ct, tag⟩

theorem Streaming.frameParser (fs : Nat) : Streaming (frameParser fs) := by
  unfold Verif.frameParser
  refine Streaming.ite ?_ ?_
  · refine Streaming.bind (Streaming.rdBE _) fun mark => Streaming.ite ?_ ?_
    · exact Streaming.bind (Streaming.rdBE _) fun _ => Streaming.bind (Streaming.rdN _) fun _ =>
        Streaming.bind (Streaming.rdBE _) fun _ => Streaming.ite Streaming.fail (Streaming.bind (Streaming.rdN _) fun _ =>
        Streaming.bind (Streaming.rdN _) fun _ => Streaming.pure _)
    · exact Streaming.bind (Streaming.rdN _) fun _ => Streaming.bind (Streaming.rdN _) fun _ =>
        Streaming.bind (Streaming.rdN _) fun _ => Streaming.pure _
  · exact Streaming.bind (Streaming.rdN _) fun _ => Streaming.bind (Streaming.rdBE _) fun _ =>
        Streaming.ite Streaming.fail (Streaming.bind (Streaming.rdN _) fun _ =>
        Streaming.bind (Streaming.rdN _) fun _ => Streaming.pure _)

/-- Result and rest of the cursor, parser style. -/
def DeserResult.toParse (d : DeserResult) : Except Err (Frame × Bytes) :=
  match d.res with
  | .ok f => .ok (f, d.rest)
  | .error e => .error e

theorem DeserResult.toParse_ok {d : DeserResult} {f : Frame} {r : Bytes} :
    d.toParse = .ok (f, r) ↔ d.res = .ok f ∧ d.rest = r := by
  obtain ⟨res, c, p, rest⟩ := d
  cases res <;> simp [DeserResult.toParse]

theorem DeserResult.toParse_error {d : DeserResult} {e : Err} : d.toParse = .error e ↔ d.res = .error e := by
  obtain ⟨res, c, p, rest⟩ := d
  cases res <;> simp [DeserResult.toParse]

theorem rd_zero (bs : Bytes) : rd 0 bs = some ([], bs) := by simp [rd]

theorem rdField_small {n : Nat} {s : RdState} (h : s.tooSmall = true) :
    rdField n s = (0, { s with ciphertextSize := u64 (s.ciphertextSize + n) }) := by simp [rdField, h]

theorem rdField_some {n : Nat} {s : RdState} {x r : Bytes} (h : s.tooSmall = false) (hr : rd n s.cursor = some (x, r)) :
    rdField n s = (unbe x, { s with ciphertextSize := u64 (s.ciphertextSize + n), cursor := r }) := by
  simp [rdField, h, hr]

theorem rdField_none {n : Nat} {s : RdState} (h : s.tooSmall = false) (hr : rd n s.cursor = none) :
    rdField n s = (0, { s with ciphertextSize := u64 (s.ciphertextSize + n), tooSmall := true }) := by
  simp [rdField, h, hr]

theorem rdSized_some {n : Nat} {s : RdState} {x r : Bytes} (hr : rd n s.cursor = some (x, r)) :
    rdSized n s = (some x, { s with ciphertextSize := u64 (s.ciphertextSize + n), cursor := r }) := by
  simp [rdSized, hr]

theorem rdSized_none {n : Nat} {s : RdState} (hr : rd n s.cursor = none) :
    rdSized n s = (none, { s with ciphertextSize := u64 (s.ciphertextSize + n), tooSmall := true }) := by
  simp [rdSized, hr]

theorem rdSized_small {n : Nat} {s : RdState} (h : s.tooSmall = true) :
    ∃ x r, rdSized n s = (x, { s with ciphertextSize := u64 (s.ciphertextSize + n), cursor := r, tooSmall := true }) := by
  cases hr : rd n s.cursor with
  | none => exact ⟨none, s.cursor, rdSized_none hr⟩
  | some x => exact ⟨some x.1, x.2, by rw [rdSized_some hr, h]⟩

/-- The last two fields. -/
def tailRd (p : AlgProps) (n : Nat) (s : RdState) : Option Bytes × Option Bytes × RdState :=
  let (ct, s) := rdSized n s
  let (tag, s) := rdSized p.tagLen s
  (ct, tag, s)

theorem tailRd_small {p : AlgProps} {n : Nat} {s : RdState} (h : s.tooSmall = true) :
    ∃ c t r, tailRd p n s = (c, t, { s with ciphertextSize := u64 (u64 (s.ciphertextSize + n) + p.tagLen), cursor := r, tooSmall := true }) := by
  obtain ⟨x, r, h1⟩ := rdSized_small (n := n) h
  unfold tailRd
  rw [h1]
  obtain ⟨x', r', h2⟩ := rdSized_small (n := p.tagLen)
    (s := { s with ciphertextSize := u64 (s.ciphertextSize + n), cursor := r, tooSmall := true }) rfl
  simp only [] at h2 ⊢
  rw [h2]
  exact ⟨_, _, _, rfl⟩

theorem tailRd_ok {p : AlgProps} {n : Nat} {s : RdState} (h : s.tooSmall = false) :
    (s.cursor.length < n + p.tagLen ∧ ∃ c t r, tailRd p n s =
      (c, t, { s with ciphertextSize := u64 (u64 (s.ciphertextSize + n) + p.tagLen), cursor := r, tooSmall := true })) ∨
    (∃ c t r, s.cursor = c ++ (t ++ r) ∧ c.length = n ∧ t.length = p.tagLen ∧ tailRd p n s =
      (some c, some t, { s with ciphertextSize := u64 (u64 (s.ciphertextSize + n) + p.tagLen), cursor := r })) := by
  unfold tailRd
  cases h1 : rd n s.cursor with
  | none =>
    refine Or.inl ⟨by rw [rd_none] at h1; omega, ?_⟩
    rw [rdSized_none h1]
    obtain ⟨x', r', h2⟩ := rdSized_small (n := p.tagLen)
      (s := { s with ciphertextSize := u64 (s.ciphertextSize + n), tooSmall := true }) rfl
    simp only [] at h2 ⊢
    rw [h2]
    exact ⟨_, _, _, rfl⟩
  | some x =>
    obtain ⟨c, r1⟩ := x
    obtain ⟨e1, e2⟩ := rd_some h1
    rw [rdSized_some h1]
    cases h2 : rd p.tagLen r1 with
    | none =>
      refine Or.inl ⟨by rw [rd_none] at h2; rw [e1, List.length_append]; omega, ?_⟩
      simp only []
      rw [rdSized_none (by exact h2)]
      exact ⟨_, _, _, rfl⟩
    | some y =>
      obtain ⟨t, r2⟩ := y
      obtain ⟨e3, e4⟩ := rd_some h2
      refine Or.inr ⟨c, t, r2, by rw [e1, e3], e2, e4, ?_⟩
      simp only []
      rw [rdSized_some (by exact h2)]

theorem serdeLastFrameRd_eq (p : AlgProps) (fs : Nat) (s : RdState) : serdeLastFrameRd p fs s =
    (let a := rdField 4 s
     let b := rdSized p.ivLen a.2
     let c := rdField 4 b.2
     let s := { c.2 with plaintextSize := c.1 }
     if c.1 > fs then (s, .error .badCiphertext)
     else let d := tailRd p c.1 s
       (d.2.2, .ok ⟨.final, a.1, b.1, d.1, d.2.1⟩)) := rfl

theorem serdeFramedRd_eq (p : AlgProps) (fs : Nat) (s : RdState) : serdeFramedRd p fs s =
    (let a := rdField 4 s
     if a.1 = lastFrameMark then serdeLastFrameRd p fs a.2
     else
       let b := rdSized p.ivLen { a.2 with plaintextSize := fs }
       let d := tailRd p b.2.plaintextSize b.2
       (d.2.2, .ok ⟨.frame, a.1, b.1, d.1, d.2.1⟩)) := rfl

theorem serdeNonframedRd_eq (p : AlgProps) (s : RdState) : serdeNonframedRd p s =
    (let b := rdSized p.ivLen s
     let c := rdField 8 b.2
     let s := { c.2 with plaintextSize := c.1 }
     if c.1 ≥ maxUnframedPlaintextSize then (s, .error .badCiphertext)
     else let d := tailRd p c.1 s
       (d.2.2, .ok ⟨.single, 1, b.1, d.1, d.2.1⟩)) := rfl

theorem deserializeFrame_eq (p : AlgProps) (fs : Nat) (bs : Bytes) (s : RdState) (r : Except Err RdFrame)
    (h : (if fs ≠ 0 then serdeFramedRd p fs ⟨0, 0, bs, false⟩ else serdeNonframedRd p ⟨0, 0, bs, false⟩) = (s, r)) :
    deserializeFrame p fs bs = match (generalizing := false) r with
      | .error e => ⟨.error e, s.ciphertextSize, s.plaintextSize, bs⟩
      | .ok f =>
        if s.tooSmall then ⟨.error .shortBuffer, s.ciphertextSize, s.plaintextSize, bs⟩
        else match (generalizing := false) f.iv, f.ciphertext, f.authtag with
          | some iv, some ct, some tag => ⟨.ok ⟨f.type, f.seqno, iv, ct, tag⟩, s.ciphertextSize, s.plaintextSize, s.cursor⟩
          | _, _, _ => ⟨.error .unknown, s.ciphertextSize, s.plaintextSize, bs⟩ := by
  unfold deserializeFrame
  simp only [h]
  cases r <;> rfl

theorem u64_small {n : Nat} (h : n < 2 ^ 64) : u64 n = n := Nat.mod_eq_of_lt h

/-- Everything about reading one frame of a framed message. -/
theorem deserializeFrame_framed {a : Nat} {p : AlgProps} (hp : algProps a = some p) {fs : Nat} (h0 : fs ≠ 0)
    (hfs : fs < 2 ^ 32) (bs : Bytes) :
    -- the mark is not there yet
    (bs.length < 4 ∧ deserializeFrame p fs bs = ⟨.error .shortBuffer, fs + 32, fs, bs⟩) ∨
    (∃ mark r1, bs = be 4 mark ++ r1 ∧ mark < 2 ^ 32 ∧ mark ≠ lastFrameMark ∧
      ((bs.length < fs + 32 ∧ deserializeFrame p fs bs = ⟨.error .shortBuffer, fs + 32, fs, bs⟩) ∨
       ∃ iv ct tag r, r1 = iv ++ (ct ++ (tag ++ r)) ∧ iv.length = 12 ∧ ct.length = fs ∧ tag.length = 16 ∧
        deserializeFrame p fs bs = ⟨.ok ⟨.frame, mark, iv, ct, tag⟩, fs + 32, fs, r⟩)) ∨
    (∃ r1, bs = be 4 lastFrameMark ++ r1 ∧
      ((bs.length < 24 ∧ deserializeFrame p fs bs = ⟨.error .shortBuffer, 40, 0, bs⟩) ∨
       ∃ seqno iv n r2, r1 = be 4 seqno ++ (iv ++ (be 4 n ++ r2)) ∧ seqno < 2 ^ 32 ∧ n < 2 ^ 32 ∧ iv.length = 12 ∧
        ((n > fs ∧ deserializeFrame p fs bs = ⟨.error .badCiphertext, 24, n, bs⟩) ∨
         (n ≤ fs ∧ bs.length < n + 40 ∧ deserializeFrame p fs bs = ⟨.error .shortBuffer, n + 40, n, bs⟩) ∨
         (n ≤ fs ∧ ∃ ct tag r, r2 = ct ++ (tag ++ r) ∧ ct.length = n ∧ tag.length = 16 ∧
          deserializeFrame p fs bs = ⟨.ok ⟨.final, seqno, iv, ct, tag⟩, n + 40, n, r⟩)))) := by
  obtain ⟨hiv, htag⟩ := suite_iv_tag hp
  have u1 : u64 (0 + 4) = 4 := rfl
  have u2 : u64 (4 + 12) = 16 := rfl
  have u3 : ∀ n, n < 2 ^ 33 → u64 (u64 (16 + n) + 16) = n + 32 := fun n hn => by
    simp only [u64]; omega
  have v1 : u64 (4 + 4) = 8 := rfl
  have v2 : u64 (8 + 12) = 20 := rfl
  have v3 : u64 (20 + 4) = 24 := rfl
  have v4 : ∀ n, n < 2 ^ 33 → u64 (u64 (24 + n) + 16) = n + 40 := fun n hn => by
    simp only [u64]; omega
  have hz : ¬ (0 = lastFrameMark) := by decide
  cases h1 : rd 4 bs with
  | none =>
    left
    refine ⟨rd_none.mp h1, ?_⟩
    obtain ⟨x, r, e2⟩ := rdSized_small (n := 12) (s := ⟨fs, 4, bs, true⟩) rfl
    obtain ⟨c, t, r', e3⟩ := tailRd_small (p := p) (n := fs) (s := ⟨fs, 16, r, true⟩) rfl
    rw [deserializeFrame_eq p fs bs ⟨fs, fs + 32, r', true⟩ (.ok ⟨.frame, 0, x, c, t⟩)]
    · rfl
    · rw [if_pos h0, serdeFramedRd_eq, rdField_none rfl h1]
      simp only [u1, hz, if_false, hiv]
      rw [e2]
      simp only [u2]
      rw [e3]
      simp only [htag, u3 fs (by omega)]
  | some x1 =>
    right
    obtain ⟨m, r1⟩ := x1
    obtain ⟨rfl, em⟩ := rd_some h1
    have hbe : m = be 4 (unbe m) := by rw [← em, be_unbe]
    have hlt : unbe m < 2 ^ 32 := by have := unbe_lt m; rw [em] at this; simpa using this
    by_cases hm : unbe m = lastFrameMark
    · right
      refine ⟨r1, by rw [← hm, ← hbe], ?_⟩
      cases h2 : rd 4 r1 with
      | none =>
        left
        refine ⟨by rw [rd_none] at h2; rw [List.length_append]; omega, ?_⟩
        obtain ⟨x, r, e2⟩ := rdSized_small (n := 12) (s := ⟨0, 8, r1, true⟩) rfl
        obtain ⟨c, t, r', e3⟩ := tailRd_small (p := p) (n := 0) (s := ⟨0, 24, r, true⟩) rfl
        rw [deserializeFrame_eq p fs (m ++ r1) ⟨0, 40, r', true⟩ (.ok ⟨.final, 0, x, c, t⟩)]
        · rfl
        · rw [if_pos h0, serdeFramedRd_eq, rdField_some rfl h1]
          simp only [u1, hm, if_true]
          rw [serdeLastFrameRd_eq, rdField_none rfl h2]
          simp only [v1, hiv]
          rw [e2]
          simp only []
          rw [rdField_small rfl]
          simp only [v2, v3, Nat.not_lt_zero, gt_iff_lt, if_false]
          rw [e3]
          simp only [htag, v4 0 (by omega)]
      | some x2 =>
        obtain ⟨sq, r2⟩ := x2
        obtain ⟨rfl, esq⟩ := rd_some h2
        have hbesq : sq = be 4 (unbe sq) := by rw [← esq, be_unbe]
        have hltsq : unbe sq < 2 ^ 32 := by have := unbe_lt sq; rw [esq] at this; simpa using this
        cases h3 : rd 12 r2 with
        | none =>
          left
          refine ⟨by rw [rd_none] at h3; rw [List.length_append, List.length_append]; omega, ?_⟩
          obtain ⟨c, t, r', e3⟩ := tailRd_small (p := p) (n := 0) (s := ⟨0, 24, r2, true⟩) rfl
          rw [deserializeFrame_eq p fs (m ++ (sq ++ r2)) ⟨0, 40, r', true⟩ (.ok ⟨.final, unbe sq, none, c, t⟩)]
          · rfl
          · rw [if_pos h0, serdeFramedRd_eq, rdField_some rfl h1]
            simp only [u1, hm, if_true]
            rw [serdeLastFrameRd_eq, rdField_some rfl h2]
            simp only [v1, hiv]
            rw [rdSized_none h3]
            simp only []
            rw [rdField_small rfl]
            simp only [v2, v3, Nat.not_lt_zero, gt_iff_lt, if_false]
            rw [e3]
            simp only [htag, v4 0 (by omega)]
        | some x3 =>
          obtain ⟨iv, r3⟩ := x3
          obtain ⟨rfl, eiv⟩ := rd_some h3
          cases h4 : rd 4 r3 with
          | none =>
            left
            refine ⟨by rw [rd_none] at h4; simp only [List.length_append]; omega, ?_⟩
            obtain ⟨c, t, r', e3⟩ := tailRd_small (p := p) (n := 0) (s := ⟨0, 24, r3, true⟩) rfl
            rw [deserializeFrame_eq p fs (m ++ (sq ++ (iv ++ r3))) ⟨0, 40, r', true⟩ (.ok ⟨.final, unbe sq, some iv, c, t⟩)]
            · rfl
            · rw [if_pos h0, serdeFramedRd_eq, rdField_some rfl h1]
              simp only [u1, hm, if_true]
              rw [serdeLastFrameRd_eq, rdField_some rfl h2]
              simp only [v1, hiv]
              rw [rdSized_some h3]
              simp only []
              rw [rdField_none rfl h4]
              simp only [v2, v3, Nat.not_lt_zero, gt_iff_lt, if_false]
              rw [e3]
              simp only [htag, v4 0 (by omega)]
          | some x4 =>
            right
            obtain ⟨n, r4⟩ := x4
            obtain ⟨rfl, en⟩ := rd_some h4
            have hben : n = be 4 (unbe n) := by rw [← en, be_unbe]
            have hltn : unbe n < 2 ^ 32 := by have := unbe_lt n; rw [en] at this; simpa using this
            refine ⟨unbe sq, iv, unbe n, r4, by rw [← hbesq, ← hben], hltsq, hltn, eiv, ?_⟩
            by_cases hn : unbe n > fs
            · left
              refine ⟨hn, ?_⟩
              rw [deserializeFrame_eq p fs (m ++ (sq ++ (iv ++ (n ++ r4)))) ⟨unbe n, 24, r4, false⟩ (.error .badCiphertext)]
              rw [if_pos h0, serdeFramedRd_eq, rdField_some rfl h1]
              simp only [u1, hm, if_true]
              rw [serdeLastFrameRd_eq, rdField_some rfl h2]
              simp only [v1, hiv]
              rw [rdSized_some h3]
              simp only []
              rw [rdField_some rfl h4]
              simp only [v2, v3, hn, if_true]
            · right
              rcases tailRd_ok (p := p) (n := unbe n) (s := ⟨unbe n, 24, r4, false⟩) rfl with ⟨hs, c, t, r', e3⟩ | ⟨c, t, r', hr, hc, ht, e3⟩
              · left
                simp only [htag] at hs
                refine ⟨by omega, by simp only [List.length_append]; omega, ?_⟩
                rw [deserializeFrame_eq p fs (m ++ (sq ++ (iv ++ (n ++ r4)))) ⟨unbe n, unbe n + 40, r', true⟩
                  (.ok ⟨.final, unbe sq, some iv, c, t⟩)]
                · rfl
                · rw [if_pos h0, serdeFramedRd_eq, rdField_some rfl h1]
                  simp only [u1, hm, if_true]
                  rw [serdeLastFrameRd_eq, rdField_some rfl h2]
                  simp only [v1, hiv]
                  rw [rdSized_some h3]
                  simp only []
                  rw [rdField_some rfl h4]
                  simp only [v2, v3, hn, if_false]
                  rw [e3]
                  simp only [htag, v4 _ (show unbe n < 2 ^ 33 by omega)]
              · right
                refine ⟨by omega, c, t, r', hr, hc, by rw [ht, htag], ?_⟩
                rw [deserializeFrame_eq p fs (m ++ (sq ++ (iv ++ (n ++ r4)))) ⟨unbe n, unbe n + 40, r', false⟩
                  (.ok ⟨.final, unbe sq, some iv, some c, some t⟩)]
                · rfl
                · rw [if_pos h0, serdeFramedRd_eq, rdField_some rfl h1]
                  simp only [u1, hm, if_true]
                  rw [serdeLastFrameRd_eq, rdField_some rfl h2]
                  simp only [v1, hiv]
                  rw [rdSized_some h3]
                  simp only []
                  rw [rdField_some rfl h4]
                  simp only [v2, v3, hn, if_false]
                  rw [e3]
                  simp only [htag, v4 _ (show unbe n < 2 ^ 33 by omega)]
    · left
      refine ⟨unbe m, r1, by rw [← hbe], hlt, hm, ?_⟩
      cases h3 : rd 12 r1 with
      | none =>
        left
        refine ⟨by rw [rd_none] at h3; rw [List.length_append]; omega, ?_⟩
        obtain ⟨c, t, r', e3⟩ := tailRd_small (p := p) (n := fs) (s := ⟨fs, 16, r1, true⟩) rfl
        rw [deserializeFrame_eq p fs (m ++ r1) ⟨fs, fs + 32, r', true⟩ (.ok ⟨.frame, unbe m, none, c, t⟩)]
        · rfl
        · rw [if_pos h0, serdeFramedRd_eq, rdField_some rfl h1]
          simp only [u1, hm, if_false, hiv]
          rw [rdSized_none h3]
          simp only [u2]
          rw [e3]
          simp only [htag, u3 fs (by omega)]
      | some x3 =>
        obtain ⟨iv, r3⟩ := x3
        obtain ⟨rfl, eiv⟩ := rd_some h3
        rcases tailRd_ok (p := p) (n := fs) (s := ⟨fs, 16, r3, false⟩) rfl with ⟨hs, c, t, r', e3⟩ | ⟨c, t, r', hr, hc, ht, e3⟩
        · left
          simp only [htag] at hs
          refine ⟨by simp only [List.length_append]; omega, ?_⟩
          rw [deserializeFrame_eq p fs (m ++ (iv ++ r3)) ⟨fs, fs + 32, r', true⟩ (.ok ⟨.frame, unbe m, some iv, c, t⟩)]
          · rfl
          · rw [if_pos h0, serdeFramedRd_eq, rdField_some rfl h1]
            simp only [u1, hm, if_false, hiv]
            rw [rdSized_some h3]
            simp only [u2]
            rw [e3]
            simp only [htag, u3 fs (by omega)]
        · right
          simp only [] at hr
          refine ⟨iv, c, t, r', by rw [hr], eiv, hc, by rw [ht, htag], ?_⟩
          rw [deserializeFrame_eq p fs (m ++ (iv ++ r3)) ⟨fs, fs + 32, r', false⟩ (.ok ⟨.frame, unbe m, some iv, some c, some t⟩)]
          · rfl
          · rw [if_pos h0, serdeFramedRd_eq, rdField_some rfl h1]
            simp only [u1, hm, if_false, hiv]
            rw [rdSized_some h3]
            simp only [u2]
            rw [e3]
            simp only [htag, u3 fs (by omega)]

/-- Everything about reading the body of a non-framed message. -/
theorem deserializeFrame_single {a : Nat} {p : AlgProps} (hp : algProps a = some p) (bs : Bytes) :
    (bs.length < 20 ∧ deserializeFrame p 0 bs = ⟨.error .shortBuffer, 36, 0, bs⟩) ∨
    (∃ iv n r2, bs = iv ++ (be 8 n ++ r2) ∧ n < 2 ^ 64 ∧ iv.length = 12 ∧
      ((n ≥ maxUnframedPlaintextSize ∧ deserializeFrame p 0 bs = ⟨.error .badCiphertext, 20, n, bs⟩) ∨
       (n < maxUnframedPlaintextSize ∧ bs.length < n + 36 ∧ deserializeFrame p 0 bs = ⟨.error .shortBuffer, n + 36, n, bs⟩) ∨
       (n < maxUnframedPlaintextSize ∧ ∃ ct tag r, r2 = ct ++ (tag ++ r) ∧ ct.length = n ∧ tag.length = 16 ∧
          deserializeFrame p 0 bs = ⟨.ok ⟨.single, 1, iv, ct, tag⟩, n + 36, n, r⟩))) := by
  obtain ⟨hiv, htag⟩ := suite_iv_tag hp
  have hmx : maxUnframedPlaintextSize = 68719476704 := rfl
  have hz : ¬ (0 ≥ maxUnframedPlaintextSize) := by decide
  have v2 : u64 (0 + 12) = 12 := rfl
  have v3 : u64 (12 + 8) = 20 := rfl
  have v4 : ∀ n, n < maxUnframedPlaintextSize → u64 (u64 (20 + n) + 16) = n + 36 := fun n hn => by
    simp only [u64]; omega
  have h00 : ¬ (0 ≠ 0) := by decide
  cases h3 : rd 12 bs with
  | none =>
    left
    refine ⟨by rw [rd_none] at h3; omega, ?_⟩
    obtain ⟨c, t, r', e3⟩ := tailRd_small (p := p) (n := 0) (s := ⟨0, 20, bs, true⟩) rfl
    rw [deserializeFrame_eq p 0 bs ⟨0, 36, r', true⟩ (.ok ⟨.single, 1, none, c, t⟩)]
    · rfl
    · rw [if_neg h00, serdeNonframedRd_eq, hiv, rdSized_none h3]
      simp only []
      rw [rdField_small rfl]
      simp only [v2, v3, hz, if_false]
      rw [e3]
      simp only [htag, v4 0 (by omega)]
  | some x3 =>
    obtain ⟨iv, r3⟩ := x3
    obtain ⟨rfl, eiv⟩ := rd_some h3
    cases h4 : rd 8 r3 with
    | none =>
      left
      refine ⟨by rw [rd_none] at h4; simp only [List.length_append]; omega, ?_⟩
      obtain ⟨c, t, r', e3⟩ := tailRd_small (p := p) (n := 0) (s := ⟨0, 20, r3, true⟩) rfl
      rw [deserializeFrame_eq p 0 (iv ++ r3) ⟨0, 36, r', true⟩ (.ok ⟨.single, 1, some iv, c, t⟩)]
      · rfl
      · rw [if_neg h00, serdeNonframedRd_eq, hiv, rdSized_some h3]
        simp only []
        rw [rdField_none rfl h4]
        simp only [v2, v3, hz, if_false]
        rw [e3]
        simp only [htag, v4 0 (by omega)]
    | some x4 =>
      right
      obtain ⟨n, r4⟩ := x4
      obtain ⟨rfl, en⟩ := rd_some h4
      have hben : n = be 8 (unbe n) := by rw [← en, be_unbe]
      have hltn : unbe n < 2 ^ 64 := by have := unbe_lt n; rw [en] at this; simpa using this
      refine ⟨iv, unbe n, r4, by rw [← hben], hltn, eiv, ?_⟩
      by_cases hn : unbe n ≥ maxUnframedPlaintextSize
      · left
        refine ⟨hn, ?_⟩
        rw [deserializeFrame_eq p 0 (iv ++ (n ++ r4)) ⟨unbe n, 20, r4, false⟩ (.error .badCiphertext)]
        rw [if_neg h00, serdeNonframedRd_eq, hiv, rdSized_some h3]
        simp only []
        rw [rdField_some rfl h4]
        simp only [v2, v3, hn, if_true]
      · right
        rcases tailRd_ok (p := p) (n := unbe n) (s := ⟨unbe n, 20, r4, false⟩) rfl with ⟨hs, c, t, r', e3⟩ | ⟨c, t, r', hr, hc, ht, e3⟩
        · left
          simp only [htag] at hs
          refine ⟨by omega, by simp only [List.length_append]; omega, ?_⟩
          rw [deserializeFrame_eq p 0 (iv ++ (n ++ r4)) ⟨unbe n, unbe n + 36, r', true⟩ (.ok ⟨.single, 1, some iv, c, t⟩)]
          · rfl
          · rw [if_neg h00, serdeNonframedRd_eq, hiv, rdSized_some h3]
            simp only []
            rw [rdField_some rfl h4]
            simp only [v2, v3, hn, if_false]
            rw [e3]
            simp only [htag, v4 _ (show unbe n < maxUnframedPlaintextSize by omega)]
        · right
          refine ⟨by omega, c, t, r', hr, hc, by rw [ht, htag], ?_⟩
          rw [deserializeFrame_eq p 0 (iv ++ (n ++ r4)) ⟨unbe n, unbe n + 36, r', false⟩ (.ok ⟨.single, 1, some iv, some c, some t⟩)]
          · rfl
          · rw [if_neg h00, serdeNonframedRd_eq, hiv, rdSized_some h3]
            simp only []
            rw [rdField_some rfl h4]
            simp only [v2, v3, hn, if_false]
            rw [e3]
            simp only [htag, v4 _ (show unbe n < maxUnframedPlaintextSize by omega)]

theorem P.bind_err {α β : Type} {p : P α} {f : α → P β} {bs : Bytes} {e : Err} (h : p bs = .error e) :
    (p >>= f) bs = .error e := by rw [P.bind_def, h]

theorem rdN_short {n : Nat} {bs : Bytes} (h : bs.length < n) : rdN n bs = .error .shortBuffer := by
  unfold rdN; rw [rd_none.mpr h]

theorem rdBE_short {n : Nat} {bs : Bytes} (h : bs.length < n) : rdBE n bs = .error .shortBuffer := by
  unfold rdBE; rw [rd_none.mpr h]

theorem split_at {n : Nat} {bs : Bytes} : bs.length < n ∨ ∃ x r, bs = x ++ r ∧ x.length = n := by
  cases h : rd n bs with
  | none => exact Or.inl (rd_none.mp h)
  | some x => exact Or.inr ⟨x.1, x.2, rd_some h⟩

theorem tail_short {n : Nat} {bs : Bytes} (h : bs.length < n + 16) (g : Bytes → Bytes → Frame) :
    (do let ct ← rdN n
        let tag ← rdN 16
        pure (g ct tag) : P Frame) bs = .error .shortBuffer := by
  rcases split_at (n := n) (bs := bs) with h1 | ⟨x, r, rfl, h1⟩
  · exact P.bind_err (rdN_short h1)
  · rw [P.bind_ok (rdN_append h1 _)]
    exact P.bind_err (rdN_short (by rw [List.length_append] at h; omega))

/-- `deserialize_frame` agrees with the frame grammar. -/
theorem deserializeFrame_eq_parser {a : Nat} {p : AlgProps} (hp : algProps a = some p) {fs : Nat} (hfs : fs < 2 ^ 32)
    (bs : Bytes) : (deserializeFrame p fs bs).toParse = frameParser fs bs := by
  have hmarklt : lastFrameMark < 256 ^ 4 := by decide
  by_cases h0 : fs = 0
  · subst h0
    unfold frameParser
    rw [if_neg (by decide)]
    rcases deserializeFrame_single hp bs with ⟨hl, e⟩ | ⟨iv, n, r2, rfl, hn, hiv, ⟨hge, e⟩ | ⟨hlt, hl, e⟩ | ⟨hlt, ct, tag, r, rfl, hc, ht, e⟩⟩
    · rw [e]
      rcases split_at (n := 12) (bs := bs) with h1 | ⟨x, r, rfl, h1⟩
      · rw [P.bind_err (rdN_short h1)]; rfl
      · rw [P.bind_ok (rdN_append h1 _), P.bind_err (rdBE_short (by rw [List.length_append] at hl; omega))]; rfl
    · rw [e, P.bind_ok (rdN_append hiv _), P.bind_ok (rdBE_append (by simpa using hn) _), if_pos hge]; rfl
    · rw [e, P.bind_ok (rdN_append hiv _), P.bind_ok (rdBE_append (by simpa using hn) _), if_neg (by omega)]
      simp only [List.length_append, length_be] at hl
      rw [tail_short (by omega)]; rfl
    · rw [e, P.bind_ok (rdN_append hiv _), P.bind_ok (rdBE_append (by simpa using hn) _), if_neg (by omega),
        P.bind_ok (rdN_append hc _), P.bind_ok (rdN_append ht _)]; rfl
  · unfold frameParser
    rw [if_pos h0]
    rcases deserializeFrame_framed hp h0 hfs bs with ⟨hl, e⟩ | ⟨mark, r1, rfl, hmk, hne, ⟨hl, e⟩ | ⟨iv, ct, tag, r, rfl, hiv, hc, ht, e⟩⟩ |
      ⟨r1, rfl, ⟨hl, e⟩ | ⟨seqno, iv, n, r2, rfl, hsq, hn, hiv, ⟨hgt, e⟩ | ⟨hle, hl, e⟩ | ⟨hle, ct, tag, r, rfl, hc, ht, e⟩⟩⟩
    · rw [e, P.bind_err (rdBE_short hl)]; rfl
    · rw [e, P.bind_ok (rdBE_append (by simpa using hmk) _), if_neg hne]
      simp only [List.length_append, length_be] at hl
      rcases split_at (n := 12) (bs := r1) with h1 | ⟨x, r, rfl, h1⟩
      · rw [P.bind_err (rdN_short h1)]; rfl
      · rw [P.bind_ok (rdN_append h1 _), tail_short (by rw [List.length_append] at hl; omega)]; rfl
    · rw [e, P.bind_ok (rdBE_append (by simpa using hmk) _), if_neg hne, P.bind_ok (rdN_append hiv _),
        P.bind_ok (rdN_append hc _), P.bind_ok (rdN_append ht _)]; rfl
    · rw [e, P.bind_ok (rdBE_append hmarklt _), if_pos rfl]
      simp only [List.length_append, length_be] at hl
      rcases split_at (n := 4) (bs := r1) with h1 | ⟨x, r, rfl, h1⟩
      · rw [P.bind_err (rdBE_short h1)]; rfl
      · have hx : x = be 4 (unbe x) := by rw [← h1, be_unbe]
        rw [hx, P.bind_ok (rdBE_append (by have := unbe_lt x; rw [h1] at this; exact this) _)]
        rcases split_at (n := 12) (bs := r) with h2 | ⟨y, r', rfl, h2⟩
        · rw [P.bind_err (rdN_short h2)]; rfl
        · simp only [List.length_append] at hl
          rw [P.bind_ok (rdN_append h2 _), P.bind_err (rdBE_short (by omega))]; rfl
    · rw [e, P.bind_ok (rdBE_append hmarklt _), if_pos rfl, P.bind_ok (rdBE_append (by simpa using hsq) _),
        P.bind_ok (rdN_append hiv _), P.bind_ok (rdBE_append (by simpa using hn) _), if_pos hgt]; rfl
    · rw [e, P.bind_ok (rdBE_append hmarklt _), if_pos rfl, P.bind_ok (rdBE_append (by simpa using hsq) _),
        P.bind_ok (rdN_append hiv _), P.bind_ok (rdBE_append (by simpa using hn) _), if_neg (by omega)]
      simp only [List.length_append, length_be] at hl
      rw [tail_short (by omega)]; rfl
    · rw [e, P.bind_ok (rdBE_append hmarklt _), if_pos rfl, P.bind_ok (rdBE_append (by simpa using hsq) _),
        P.bind_ok (rdN_append hiv _), P.bind_ok (rdBE_append (by simpa using hn) _), if_neg (by omega),
        P.bind_ok (rdN_append hc _), P.bind_ok (rdN_append ht _)]; rfl

/-- The frame parser accepts exactly the well-formed frames. -/
theorem frameParser_iff {fs : Nat} (hfs : fs < 2 ^ 32) {bs rest : Bytes} {f : Frame} :
    frameParser fs bs = .ok (f, rest) ↔ FrameOK fs f ∧ bs = wireFrame f ++ rest := by
  have hmark : be 4 lastFrameMark = [0xFF, 0xFF, 0xFF, 0xFF] := by decide
  unfold frameParser
  by_cases h0 : fs ≠ 0
  · rw [if_pos h0, P.bind_eq_ok]
    constructor
    · rintro ⟨mark, r1, h1, h2⟩
      obtain ⟨m1, rfl⟩ := rdBE_iff.mp h1
      split at h2
      · rename_i hm
        obtain ⟨sq, r2, g2, h3⟩ := P.bind_eq_ok.mp h2
        obtain ⟨iv, r3, g3, h4⟩ := P.bind_eq_ok.mp h3
        obtain ⟨n, r4, g4, h5⟩ := P.bind_eq_ok.mp h4
        split at h5
        · cases h5
        · rename_i hn
          obtain ⟨ct, r5, g5, h6⟩ := P.bind_eq_ok.mp h5
          obtain ⟨tag, r6, g6, h7⟩ := P.bind_eq_ok.mp h6
          obtain ⟨a1, rfl⟩ := rdBE_iff.mp g2
          obtain ⟨a2, rfl⟩ := rdN_iff.mp g3
          obtain ⟨a3, rfl⟩ := rdBE_iff.mp g4
          obtain ⟨a4, rfl⟩ := rdN_iff.mp g5
          obtain ⟨a5, rfl⟩ := rdN_iff.mp g6
          rw [P.pure_def] at h7
          simp only [Except.ok.injEq, Prod.mk.injEq] at h7
          obtain ⟨rfl, rfl⟩ := h7
          simp only [Nat.reducePow] at a1 a3
          refine ⟨⟨a2, a5, a1, ⟨h0, by show ct.length ≤ fs; omega⟩⟩, ?_⟩
          simp only [wireFrame]
          rw [u32_eq_be _ (by omega), u32_eq_be _ (by omega), ← hmark, hm, a4]
          simp only [List.append_assoc]
      · rename_i hm
        obtain ⟨iv, r3, g3, h4⟩ := P.bind_eq_ok.mp h2
        obtain ⟨ct, r5, g5, h6⟩ := P.bind_eq_ok.mp h4
        obtain ⟨tag, r6, g6, h7⟩ := P.bind_eq_ok.mp h6
        obtain ⟨a2, rfl⟩ := rdN_iff.mp g3
        obtain ⟨a4, rfl⟩ := rdN_iff.mp g5
        obtain ⟨a5, rfl⟩ := rdN_iff.mp g6
        rw [P.pure_def] at h7
        simp only [Except.ok.injEq, Prod.mk.injEq] at h7
        obtain ⟨rfl, rfl⟩ := h7
        simp only [Nat.reducePow] at m1
        refine ⟨⟨a2, a5, m1, ⟨h0, a4, hm⟩⟩, ?_⟩
        simp only [wireFrame]
        rw [u32_eq_be _ (by omega)]
        simp only [List.append_assoc]
    · rintro ⟨⟨hiv, htag, hseq, hshape⟩, rfl⟩
      obtain ⟨ty, sq, iv, ct, tag⟩ := f
      cases ty with
      | single => exact absurd hshape.1 h0
      | frame =>
        simp only at hiv htag hseq hshape
        refine ⟨sq, iv ++ (ct ++ (tag ++ rest)), rdBE_iff.mpr ⟨by simpa using hseq, ?_⟩, ?_⟩
        · simp only [wireFrame]; rw [u32_eq_be _ (by omega)]; simp only [List.append_assoc]
        · rw [if_neg (show ¬ sq = lastFrameMark from hshape.2.2)]
          rw [P.bind_ok (rdN_iff.mpr ⟨hiv, rfl⟩), P.bind_ok (rdN_iff.mpr ⟨hshape.2.1, rfl⟩), P.bind_ok (rdN_iff.mpr ⟨htag, rfl⟩)]
          rfl
      | final =>
        simp only at hiv htag hseq hshape
        refine ⟨lastFrameMark, be 4 sq ++ (iv ++ (be 4 ct.length ++ (ct ++ (tag ++ rest)))),
          rdBE_iff.mpr ⟨by decide, ?_⟩, ?_⟩
        · simp only [wireFrame]; rw [u32_eq_be _ (by omega), u32_eq_be _ (by omega), hmark]; simp only [List.append_assoc]
        · rw [if_pos rfl]
          rw [P.bind_ok (rdBE_iff.mpr ⟨by simpa using hseq, rfl⟩), P.bind_ok (rdN_iff.mpr ⟨hiv, rfl⟩),
            P.bind_ok (rdBE_iff.mpr ⟨by simp only [Nat.reducePow]; omega, rfl⟩)]
          rw [if_neg (by omega)]
          rw [P.bind_ok (rdN_iff.mpr ⟨rfl, rfl⟩), P.bind_ok (rdN_iff.mpr ⟨htag, rfl⟩)]
          rfl
  · rw [if_neg h0, P.bind_eq_ok]
    have h0' : fs = 0 := by omega
    constructor
    · rintro ⟨iv, r3, g3, h4⟩
      obtain ⟨n, r4, g4, h5⟩ := P.bind_eq_ok.mp h4
      split at h5
      · cases h5
      · rename_i hn
        obtain ⟨ct, r5, g5, h6⟩ := P.bind_eq_ok.mp h5
        obtain ⟨tag, r6, g6, h7⟩ := P.bind_eq_ok.mp h6
        obtain ⟨a2, rfl⟩ := rdN_iff.mp g3
        obtain ⟨a3, rfl⟩ := rdBE_iff.mp g4
        obtain ⟨a4, rfl⟩ := rdN_iff.mp g5
        obtain ⟨a5, rfl⟩ := rdN_iff.mp g6
        rw [P.pure_def] at h7
        simp only [Except.ok.injEq, Prod.mk.injEq] at h7
        obtain ⟨rfl, rfl⟩ := h7
        simp only [Nat.reducePow] at a3
        have hmx : maxUnframedPlaintextSize = 68719476704 := rfl
        refine ⟨⟨a2, a5, by show 1 < _; omega, ⟨h0', by show ct.length < _; omega, rfl⟩⟩, ?_⟩
        simp only [wireFrame]
        rw [u64be_eq_be _ (by omega), a4]
        simp only [List.append_assoc]
    · rintro ⟨⟨hiv, htag, hseq, hshape⟩, rfl⟩
      obtain ⟨ty, sq, iv, ct, tag⟩ := f
      cases ty with
      | frame => exact absurd h0' hshape.1
      | final => exact absurd h0' hshape.1
      | single =>
        simp only at hiv htag hseq hshape
        obtain ⟨-, hlt, rfl⟩ := hshape
        have hmx : maxUnframedPlaintextSize = 68719476704 := rfl
        refine ⟨iv, be 8 ct.length ++ (ct ++ (tag ++ rest)), rdN_iff.mpr ⟨hiv, ?_⟩, ?_⟩
        · simp only [wireFrame]; rw [u64be_eq_be _ (by omega)]; simp only [List.append_assoc]
        · rw [P.bind_ok (rdBE_iff.mpr ⟨by simp only [Nat.reducePow]; omega, rfl⟩)]
          rw [if_neg (by omega)]
          rw [P.bind_ok (rdN_iff.mpr ⟨rfl, rfl⟩), P.bind_ok (rdN_iff.mpr ⟨htag, rfl⟩)]
          rfl

theorem length_wireFrame {fs : Nat} {f : Frame} (h : FrameOK fs f) :
    (wireFrame f).length = frameSize f.type f.ciphertext.length := by
  obtain ⟨hiv, htag, -, -⟩ := h
  unfold wireFrame frameSize
  cases f.type <;> simp [u32, u64be, hiv, htag] <;> omega

end Verif
