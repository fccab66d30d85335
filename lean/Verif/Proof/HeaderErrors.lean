import Verif.Spec.SessionErrors
import Verif.Proof.SessionAccepts
/-
Which errors the header parser gives, and why; how much input it needs at most.
-/
namespace Verif
open Spec

/-! ### which errors parsers give -/

/-- The only errors of the parser are a lack of input and bad ciphertext. -/
def Plain (p : P α) : Prop := ∀ bs e, p bs = .error e → e = .shortBuffer ∨ e = .badCiphertext

namespace Plain

theorem pure (a : α) : Plain (Pure.pure a : P α) := by intro bs e h; cases h

theorem fail : Plain (P.fail .badCiphertext : P α) := by
  intro bs e h; cases h; exact Or.inr rfl

theorem bind {p : P α} {f : α → P β} (hp : Plain p) (hf : ∀ a, Plain (f a)) : Plain (p >>= f) := by
  intro bs e h
  rw [P.bind_def] at h
  split at h
  · rename_i e' he
    cases h
    exact hp _ _ he
  · exact hf _ _ _ h

theorem rdN (n : Nat) : Plain (rdN n) := by
  intro bs e h
  unfold Verif.rdN at h
  split at h <;> cases h
  exact Or.inl rfl

theorem rdBE (n : Nat) : Plain (rdBE n) := by
  intro bs e h
  unfold Verif.rdBE at h
  split at h <;> cases h
  exact Or.inl rfl

theorem ite {c : Prop} [Decidable c] {p q : P α} (hp : Plain p) (hq : Plain q) : Plain (if c then p else q) := by
  split <;> assumption

end Plain

/-! ### how much input parsers need -/

/-- The parser asks for less than `C` bytes and takes at most `C`. -/
def Bounded (p : P α) (C : Nat) : Prop :=
  ∀ bs, (p bs = .error .shortBuffer → bs.length < C) ∧ ∀ a r, p bs = .ok (a, r) → bs.length ≤ r.length + C

namespace Bounded

theorem pure (a : α) : Bounded (Pure.pure a : P α) 0 := by
  intro bs
  constructor
  · intro h; cases h
  · intro b r h
    rw [P.pure_def] at h
    cases h; exact Nat.le_refl _

theorem fail {e : Err} (he : e ≠ .shortBuffer) : Bounded (P.fail e : P α) 0 := by
  intro bs
  constructor
  · intro h; exact absurd (Except.error.inj h) he
  · intro b r h; cases h

theorem mono {p : P α} {C D : Nat} (h : Bounded p C) (hl : C ≤ D) : Bounded p D := by
  intro bs
  obtain ⟨h1, h2⟩ := h bs
  exact ⟨fun h => by have := h1 h; omega, fun a r h => by have := h2 a r h; omega⟩

theorem bind {p : P α} {f : α → P β} {C D : Nat} (hp : Bounded p C) (hf : ∀ a bs r, p bs = .ok (a, r) → Bounded (f a) D) :
    Bounded (p >>= f) (C + D) := by
  intro bs
  constructor
  · intro h
    rw [P.bind_def] at h
    split at h
    · rename_i e' he
      cases h
      have := (hp bs).1 he
      omega
    · rename_i a r he
      have h1 := (hp bs).2 _ _ he
      have h2 := (hf a _ _ he r).1 h
      omega
  · intro b t h
    rw [P.bind_def] at h
    split at h
    · cases h
    · rename_i a r he
      have h1 := (hp bs).2 _ _ he
      have h2 := (hf a _ _ he r).2 _ _ h
      omega

theorem rdN (n : Nat) : Bounded (rdN n) n := by
  intro bs
  constructor
  · intro h
    unfold Verif.rdN at h
    split at h
    · cases h
    · rename_i hn; exact rd_none.mp hn
  · intro a r h
    obtain ⟨h1, rfl⟩ := rdN_iff.mp h
    simp; omega

theorem rdBE (n : Nat) : Bounded (rdBE n) n := by
  intro bs
  constructor
  · intro h
    unfold Verif.rdBE at h
    split at h
    · cases h
    · rename_i hn; exact rd_none.mp hn
  · intro a r h
    obtain ⟨h1, rfl⟩ := rdBE_iff.mp h
    simp; omega

theorem ite {c : Prop} [Decidable c] {p q : P α} {C : Nat} (hp : Bounded p C) (hq : Bounded q C) : Bounded (if c then p else q) C := by
  split <;> assumption

/-- A 16-bit length and that many bytes. -/
theorem sized {f : Bytes → P β} {D : Nat} (hf : ∀ x, Bounded (f x) D) :
    Bounded (Verif.rdBE 2 >>= fun n => Verif.rdN n >>= f) (65537 + D) := by
  refine (bind (rdBE 2) (D := 65535 + D) fun n bs r h => ?_).mono (by omega)
  have hn := (rdBE_iff.mp h).1
  exact (bind (rdN n) fun x _ _ _ => hf x).mono (by omega)

end Bounded

/-! ### the header -/

theorem plain_edkN (n : Nat) : Plain (parseEdkN n) := by
  induction n with
  | zero => exact .pure _
  | succ n ih =>
    exact .bind (.bind (.rdBE _) fun _ => .bind (.rdN _) fun _ => .bind (.rdBE _) fun _ => .bind (.rdN _) fun _ => .bind (.rdBE _) fun _ =>
      .bind (.rdN _) fun _ => .pure _) fun _ => .bind ih fun _ => .pure _

theorem plain_algId (ver : Nat) : Plain (parseAlgId ver) := by
  refine .bind (.rdBE _) fun a => ?_
  split
  · exact .fail
  · rename_i hk
    cases hp : algProps a with
    | none =>
      have : algorithmIsKnown a = true := by simpa using hk
      obtain ⟨p, hp'⟩ := algProps_of_known.mp this
      rw [hp] at hp'; cases hp'
    | some p =>
      simp only
      exact .ite .fail (.pure _)

theorem plain_aad : Plain parseAad := by
  refine .bind (.rdBE _) fun n => .ite (.pure _) (.bind (.rdN _) fun x => ?_)
  split
  · exact .fail
  · exact .ite .fail (.pure _)

theorem plain_hdrParse : Plain (hdrParse 0) := by
  have hauth : Plain (hdrParseAuthPart 0) := by
    refine .bind (.bind (.rdBE _) fun v => .ite (.pure _) .fail) fun ver => ?_
    refine .bind (.ite (.bind (.rdBE _) fun t => .ite .fail (.pure _)) (.pure _)) fun _ => ?_
    refine .bind (plain_algId ver) fun x => ?_
    obtain ⟨a, p⟩ := x
    refine .bind (.rdN _) fun _ => .bind plain_aad fun _ => ?_
    refine .bind (.bind (.rdBE _) fun n => .ite .fail ?_) fun _ => ?_
    · rw [if_neg (by simp)]; exact plain_edkN n
    refine .bind (.bind (.rdBE _) fun v => .ite (.pure _) .fail) fun _ => ?_
    refine .bind (.ite (.bind (.bind (.rdBE _) fun v => .ite .fail (.pure _)) fun _ => .bind (.rdBE _) fun _ => .ite .fail (.pure _))
      (.pure _)) fun _ => ?_
    refine .bind (.bind (.rdBE _) fun v => .ite .fail (.pure _)) fun _ => ?_
    refine .bind (.ite (.ite (.pure _) (.rdN _)) (.pure _)) fun _ => .pure _
  refine .bind ?_ fun x => ?_
  · intro bs e h
    unfold P.counted at h
    split at h
    · rename_i e' he; cases h; exact hauth _ _ he
    · cases h
  · obtain ⟨⟨ver, il, h⟩, al⟩ := x
    exact .bind (.ite (.rdN _) (.pure _)) fun _ => .bind (.rdN _) fun _ => .pure _

theorem bounded_edkN (n : Nat) : Bounded (parseEdkN n) (n * 196611) := by
  induction n with
  | zero => exact (Bounded.pure _).mono (by omega)
  | succ n ih =>
    have h1 : Bounded parseEdk 196611 :=
      (Bounded.sized fun _ => Bounded.sized fun _ => Bounded.sized fun _ => Bounded.pure _).mono (by omega)
    exact (Bounded.bind h1 fun _ _ _ _ => Bounded.bind ih fun _ _ _ _ => Bounded.pure _).mono (by omega)

theorem bounded_aad : Bounded parseAad 65537 := by
  refine (Bounded.bind (Bounded.rdBE 2) (D := 65535) fun n bs r h => ?_).mono (by omega)
  have hn := (rdBE_iff.mp h).1
  refine .ite ((Bounded.pure _).mono (by omega)) ?_
  refine (Bounded.bind (Bounded.rdN n) (D := 0) fun x _ _ _ => ?_).mono (by omega)
  split
  · exact .fail (by simp)
  · exact .ite (.fail (by simp)) (.pure _)

/-- No more than 2^34 bytes are needed to see whether the input begins with a header. -/
theorem bounded_hdrParse (mx : Nat) : Bounded (hdrParse mx) (2 ^ 34) := by
  have hf : ∀ {α : Type} {e : Err} {C : Nat}, e ≠ .shortBuffer → Bounded (P.fail e : P α) C := fun he => (Bounded.fail he).mono (by omega)
  have hpu : ∀ {α : Type} {C : Nat} (a : α), Bounded (Pure.pure a : P α) C := fun a => (Bounded.pure a).mono (by omega)
  have hauth : Bounded (hdrParseAuthPart mx) (2 ^ 34 - 1000) := by
    refine (Bounded.bind (C := 1) ((Bounded.bind (D := 0) (.rdBE _) fun v _ _ _ => .ite (hpu _) (hf (by simp))).mono (by omega)) (D := 2 ^ 34 - 1001) fun ver _ _ hver => ?_).mono (by omega)
    refine (Bounded.bind (C := 1) (.ite ((Bounded.bind (D := 0) (.rdBE _) fun v _ _ _ => .ite (hf (by simp)) (hpu _)).mono (by omega)) (hpu _)) (D := 2 ^ 34 - 1002) fun _ _ _ _ => ?_).mono (by omega)
    refine (Bounded.bind (C := 2) (?_) (D := 2 ^ 34 - 1004) fun x _ _ hx => ?_).mono (by omega)
    · refine (Bounded.bind (D := 0) (.rdBE _) fun v _ _ _ => ?_).mono (by omega)
      split
      · exact hf (by simp)
      · split
        · exact hf (by simp)
        · exact .ite (hf (by simp)) (hpu _)
    obtain ⟨a, p⟩ := x
    obtain ⟨hp, -, -⟩ := parseAlgId_iff.mp hx
    obtain ⟨row, hrow, hid, e1, e2, e3, e4, e5, e6, e7, e8⟩ := suite_facts hp
    have hml : messageIdLen p ≤ 32 := by rw [e3]; split <;> omega
    have hsd : p.algSuiteDataLen ≤ 32 := by
      rw [e4]
      have : ∀ r ∈ suiteTable, r.commitment ≤ 32 := by decide
      exact this row hrow
    simp only
    refine (Bounded.bind (C := 32) ((Bounded.rdN _).mono hml) (D := 2 ^ 34 - 1036) fun _ _ _ _ => ?_).mono (by omega)
    refine (Bounded.bind bounded_aad (D := 2 ^ 34 - 66573) fun _ _ _ _ => ?_).mono (by omega)
    refine (Bounded.bind (C := 12884902000) ?_ (D := 1000) fun _ _ _ _ => ?_).mono (by omega)
    · refine (Bounded.bind (Bounded.rdBE 2) (D := 65535 * 196611) fun n bs r h => ?_).mono (by omega)
      have hn := (rdBE_iff.mp h).1
      refine .ite (hf (by simp)) (.ite (hf (by simp)) ((bounded_edkN n).mono ?_))
      exact Nat.mul_le_mul_right _ (by omega)
    refine (Bounded.bind (C := 1) ((Bounded.bind (D := 0) (.rdBE _) fun v _ _ _ => .ite (hpu _) (hf (by simp))).mono (by omega)) (D := 900) fun _ _ _ _ => ?_).mono (by omega)
    refine (Bounded.bind (C := 5) (.ite ((Bounded.bind (C := 4) (D := 1) ((Bounded.bind (D := 0) (.rdBE _) fun v _ _ _ => .ite (hf (by simp)) (hpu _)).mono (by omega)) fun _ _ _ _ =>
      (Bounded.bind (D := 0) (.rdBE _) fun v _ _ _ => .ite (hf (by simp)) (hpu _)).mono (by omega)).mono (by omega)) (hpu _)) (D := 800) fun _ _ _ _ => ?_).mono (by omega)
    refine (Bounded.bind (C := 4) ((Bounded.bind (D := 0) (.rdBE _) fun v _ _ _ => .ite (hf (by simp)) (hpu _)).mono (by omega)) (D := 700) fun _ _ _ _ => ?_).mono (by omega)
    refine (Bounded.bind (C := 32) (.ite (.ite (hpu _) ((Bounded.rdN _).mono hsd)) (hpu _)) (D := 0) fun _ _ _ _ => hpu _).mono (by omega)
  refine (Bounded.bind (C := 2 ^ 34 - 1000) ?_ (D := 500) fun x bs r hx => ?_).mono (by omega)
  · intro bs
    constructor
    · intro h
      unfold P.counted at h
      split at h
      · rename_i e' he; cases h; exact (hauth _).1 he
      · cases h
    · intro a r h
      unfold P.counted at h
      split at h
      · cases h
      · rename_i x r' hx
        cases h
        exact (hauth _).2 _ _ hx
  · obtain ⟨⟨ver, il, h⟩, al⟩ := x
    simp only
    have hx' : ∃ rr, hdrParseAuthPart mx bs = .ok ((ver, il, h), rr) := by
      unfold P.counted at hx
      split at hx
      · cases hx
      · rename_i y r' hy
        cases hx
        exact ⟨_, hy⟩
    obtain ⟨rr, hx'⟩ := hx'
    obtain ⟨row, hrow, hid, hver, hil, -⟩ := hdrParseAuthPart_iff.mp hx'
    have h12 : il ≤ 12 := by rw [hil]; split <;> omega
    obtain ⟨p, hp⟩ := algProps_of_row hrow
    obtain ⟨row', hrow', hid', e1, e2, e3, e4, e5, e6, e7, e8⟩ := suite_facts hp
    refine (Bounded.bind (C := 12) (.ite ((Bounded.rdN _).mono h12) (hpu _)) (D := 16) fun _ _ _ _ => ?_).mono (by omega)
    refine (Bounded.bind (C := 16) ((Bounded.rdN _).mono ?_) (D := 0) fun _ _ _ _ => hpu _).mono (by omega)
    rw [hid, e5]; exact Nat.le_refl _

/-- The part of a header before the encrypted data keys is read the same whatever the limit. -/
theorem wireFront_parse {row : SuiteRow} {h : Hdr} (hok : HeaderOK row h) {mx n : Nat} (hn : n < 65536) (rest : Bytes) (h0 : mx ≠ 0) (hlt : mx < n) :
    hdrParse mx (wireFront row.version h ++ u16 n ++ rest) = .error .limitExceeded := by
  obtain ⟨p, hp⟩ := algProps_of_row hok.suite
  obtain ⟨row', hrow', hid', e1, e2, e3, e4, e5, e6, e7, e8⟩ := suite_facts hp
  have := row_unique hrow' hok.suite hid'
  subst this
  have hb1 : be 1 1 ++ be 1 0x80 = ([1, 0x80] : Bytes) := by decide
  have hb2 : be 1 2 = ([2] : Bytes) := by decide
  have hauth : hdrParseAuthPart mx (wireFront row'.version h ++ u16 n ++ rest) = .error .limitExceeded := by
    unfold hdrParseAuthPart wireFront
    simp only [u16_eq_be, List.append_assoc]
    have s1 : parseHeaderVersion ((if row'.version = 1 then [1, 0x80] else [2]) ++ (be 2 h.algId ++ (h.messageId ++ (be 2 (wireCtx h.encCtx).length ++
        (wireCtx h.encCtx ++ (be 2 n ++ rest)))))) = .ok (row'.version, (if row'.version = 1 then be 1 0x80 else []) ++ (be 2 h.algId ++ (h.messageId ++ (be 2 (wireCtx h.encCtx).length ++
        (wireCtx h.encCtx ++ (be 2 n ++ rest)))))) := by
      refine parseHeaderVersion_iff.mpr ⟨e2, ?_⟩
      rcases e2 with hv | hv
      · simp [hv, ← hb1]
      · simp [hv, ← hb2]
    rw [P.bind_ok s1]
    have s2 : ∀ t, parseMessageTypeV1 row'.version ((if row'.version = 1 then be 1 0x80 else []) ++ t) = .ok ((), t) := by
      intro t
      unfold parseMessageTypeV1
      split
      · exact parseMessageType_iff.mpr rfl
      · rfl
    rw [P.bind_ok (s2 _), P.bind_ok (parseAlgId_iff.mpr ⟨by rw [hok.id]; exact hp, e1, rfl⟩)]
    simp only
    have hmid : ∀ t, parseMessageId p (h.messageId ++ t) = .ok (h.messageId, t) := fun t => rdN_iff.mpr ⟨by rw [e3]; exact hok.messageId, rfl⟩
    rw [P.bind_ok (hmid _), P.bind_ok (parseAad_iff.mpr ⟨hok.ctxKeys, hok.ctxFits, (List.append_assoc _ _ _).symm⟩)]
    apply P.bind_err
    unfold parseEdks
    rw [P.bind_ok (rdBE_iff.mpr ⟨by omega, rfl⟩), if_neg (by omega), if_pos ⟨h0, hlt⟩]
    rfl
  unfold hdrParse
  apply P.bind_err
  unfold P.counted
  rw [hauth]

/-- The limit on encrypted data keys is the only difference it makes. -/
theorem hdrParse_limit (mx : Nat) (x : Bytes) :
    hdrParse mx x = hdrParse 0 x ∨ (hdrParse mx x = .error .limitExceeded ∧ TooManyEdks mx x) := by
  have hauth : hdrParseAuthPart mx x = hdrParseAuthPart 0 x ∨ (hdrParseAuthPart mx x = .error .limitExceeded ∧ TooManyEdks mx x) := by
    unfold hdrParseAuthPart
    cases h1 : parseHeaderVersion x with
    | error e => left; rw [P.bind_err h1, P.bind_err h1]
    | ok y1 =>
      obtain ⟨ver, r1⟩ := y1
      rw [P.bind_ok h1, P.bind_ok h1]
      cases h2 : parseMessageTypeV1 ver r1 with
      | error e => left; rw [P.bind_err h2, P.bind_err h2]
      | ok y2 =>
        obtain ⟨_u, r2⟩ := y2
        rw [P.bind_ok h2, P.bind_ok h2]
        cases h3 : parseAlgId ver r2 with
        | error e => left; rw [P.bind_err h3, P.bind_err h3]
        | ok y3 =>
          obtain ⟨⟨a, p⟩, r3⟩ := y3
          rw [P.bind_ok h3, P.bind_ok h3]
          simp only
          cases h4 : parseMessageId p r3 with
          | error e => left; rw [P.bind_err h4, P.bind_err h4]
          | ok y4 =>
            obtain ⟨mid, r4⟩ := y4
            rw [P.bind_ok h4, P.bind_ok h4]
            cases h5 : parseAad r4 with
            | error e => left; rw [P.bind_err h5, P.bind_err h5]
            | ok y5 =>
              obtain ⟨ctx, r5⟩ := y5
              rw [P.bind_ok h5, P.bind_ok h5]
              cases h6 : rdBE 2 r5 with
              | error e =>
                left
                have : ∀ m, parseEdks m r5 = .error e := fun m => by unfold parseEdks; rw [P.bind_err h6]
                rw [P.bind_err (this mx), P.bind_err (this 0)]
              | ok y6 =>
                obtain ⟨n, r6⟩ := y6
                by_cases hlim : mx ≠ 0 ∧ n > mx
                · right
                  have hn0 : ¬ n = 0 := by omega
                  have hpe : parseEdks mx r5 = .error .limitExceeded := by
                    unfold parseEdks
                    rw [P.bind_ok h6, if_neg hn0, if_pos hlim]; rfl
                  refine ⟨P.bind_err hpe, ?_⟩
                  unfold parseMessageTypeV1 at h2
                  obtain ⟨hv, rfl⟩ := parseHeaderVersion_iff.mp h1
                  obtain ⟨hp, hpv, rfl⟩ := parseAlgId_iff.mp h3
                  obtain ⟨row, hrow, rfl, e1, e2, e3, e4, e5, e6, e7, e8⟩ := suite_facts hp
                  obtain ⟨lm, rfl⟩ := rdN_iff.mp h4
                  obtain ⟨c1, c2, rfl⟩ := parseAad_iff.mp h5
                  obtain ⟨k1, rfl⟩ := rdBE_iff.mp h6
                  rw [e3] at lm
                  have hver : ver = row.version := by rw [← hpv, e1]
                  subst hver
                  let h : Hdr := { algId := row.id, messageId := mid, encCtx := ctx, algSuiteData := List.replicate row.commitment 0,
                                   iv := List.replicate (if row.version = 1 then 12 else 0) 0, authTag := List.replicate 16 0,
                                   edks := [⟨[], [], []⟩], frameLen := 0 }
                  refine ⟨row, h, n, r6, ⟨hrow, rfl, lm, ?_, ?_, ?_, ?_, ?_, ?_, ?_, c1, c2⟩, ?_, by omega, hlim.1, hlim.2⟩
                  · simp [h]
                  · simp [h]
                  · simp [h]
                  · simp [h]
                  · simp [h]
                  · simp [h]
                  · intro e he; simp only [h, List.mem_singleton] at he; subst he; simp
                  · simp only [wireFront, u16_eq_be, List.append_assoc, h]
                    have hb1 : be 1 1 ++ be 1 0x80 = ([1, 0x80] : Bytes) := by decide
                    have hb2 : be 1 2 = ([2] : Bytes) := by decide
                    rcases hv with hv | hv
                    · rw [if_pos hv] at h2
                      have e := parseMessageType_iff.mp h2
                      subst e
                      simp [hv, ← hb1]
                    · rw [if_neg (by omega)] at h2
                      rw [P.pure_def] at h2; simp at h2
                      subst h2
                      simp [hv, ← hb2]
                · left
                  have : parseEdks mx r5 = parseEdks 0 r5 := by
                    unfold parseEdks
                    rw [P.bind_ok h6, P.bind_ok h6, if_neg hlim, if_neg (by simp : ¬ (0 ≠ 0 ∧ n > 0))]
                  rw [P.bind_def, P.bind_def, this]
  rcases hauth with h | ⟨h, h'⟩
  · left
    unfold hdrParse
    rw [P.bind_def, P.bind_def]
    unfold P.counted
    rw [h]
  · right
    refine ⟨?_, h'⟩
    unfold hdrParse
    apply P.bind_err
    unfold P.counted
    rw [h]

theorem hdrParse_tooMany {mx : Nat} {x : Bytes} (h : TooManyEdks mx x) : hdrParse mx x = .error .limitExceeded := by
  obtain ⟨row, hd, n, rest, hok, rfl, hn, h0, hlt⟩ := h
  exact wireFront_parse hok hn rest h0 hlt

/-- Why the header parser fails. -/
theorem hdrParse_malformed {mx : Nat} {x : Bytes} {c : Err} (h : hdrParse mx x = .error c) (hc : c ≠ .shortBuffer) : HeaderMalformed mx x c := by
  rcases hdrParse_limit mx x with h1 | ⟨h1, h2⟩
  · have hno : ¬ TooManyEdks mx x := by
      intro ht
      have := hdrParse_tooMany ht
      rw [this] at h1
      rcases plain_hdrParse x _ h1.symm with h3 | h3 <;> cases h3
    rw [h] at h1
    rcases plain_hdrParse x _ h1.symm with h3 | h3
    · exact absurd h3 hc
    · subst h3
      refine .bytes hno ?_
      intro row hd more rest hok heq
      have h3 := (Streaming.hdrParse 0).bad _ _ h1.symm (by simp) more
      have h4 : hdrParse 0 (x ++ more) = .ok ({ hd with authLen := (wireAuthPart row.version hd).length }, rest) := by
        rw [heq]
        exact hdrParse_iff.mpr ⟨row, ⟨hok.suite, hok.id, hok.messageId, hok.suiteData, hok.iv, hok.tag, hok.frameLen, hok.edksNonempty,
          hok.edksCount, hok.edksFit, hok.ctxKeys, hok.ctxFits⟩, Or.inl rfl, rfl, rfl⟩
      rw [h3] at h4; cases h4
  · rw [h] at h1
    cases h1
    exact .edks h2

/-- A malformed header makes the parser fail, with the error that goes with it, or there is not enough input to tell. -/
theorem hdrParse_of_malformed {mx : Nat} {x : Bytes} {c : Err} (h : HeaderMalformed mx x c) :
    hdrParse mx x = .error c ∨ (hdrParse mx x = .error .shortBuffer ∧ x.length < 2 ^ 34 ∧ ¬ TooManyEdks mx x) := by
  cases h with
  | edks h => exact Or.inl (hdrParse_tooMany h)
  | bytes h1 h2 =>
    rcases hdrParse_limit mx x with h3 | ⟨-, h3⟩
    · cases h4 : hdrParse mx x with
      | error e =>
        rw [h4] at h3
        rcases plain_hdrParse x _ h3.symm with rfl | rfl
        · exact Or.inr ⟨rfl, (bounded_hdrParse mx x).1 h4, h1⟩
        · exact Or.inl rfl
      | ok y =>
        obtain ⟨hd, rest⟩ := y
        obtain ⟨row, hok, -, -, hx⟩ := hdrParse_iff.mp h4
        exact absurd (by rw [List.append_nil]; exact hx) (h2 row hd [] rest hok)
    · exact absurd h3 h1

/-- A header is read. -/
theorem hdrParse_wire {row : SuiteRow} {hd : Hdr} (hok : HeaderOK row hd) {mx : Nat} (hl : mx = 0 ∨ hd.edks.length ≤ mx) (rest : Bytes) :
    hdrParse mx (wireHeader row.version hd ++ rest) = .ok ({ hd with authLen := (wireAuthPart row.version hd).length }, rest) :=
  hdrParse_iff.mpr ⟨row, ⟨hok.suite, hok.id, hok.messageId, hok.suiteData, hok.iv, hok.tag, hok.frameLen, hok.edksNonempty,
    hok.edksCount, hok.edksFit, hok.ctxKeys, hok.ctxFits⟩, hl, rfl, rfl⟩

/-! ### frames -/

theorem plain_frameParser (fs : Nat) : Plain (frameParser fs) := by
  unfold frameParser
  refine .ite ?_ ?_
  · exact .bind (.rdBE _) fun _ => .ite (.bind (.rdBE _) fun _ => .bind (.rdN _) fun _ => .bind (.rdBE _) fun _ => .ite .fail
      (.bind (.rdN _) fun _ => .bind (.rdN _) fun _ => .pure _)) (.bind (.rdN _) fun _ => .bind (.rdN _) fun _ => .bind (.rdN _) fun _ => .pure _)
  · exact .bind (.rdN _) fun _ => .bind (.rdBE _) fun _ => .ite .fail (.bind (.rdN _) fun _ => .bind (.rdN _) fun _ => .pure _)

theorem bounded_frameParser (fs : Nat) : Bounded (frameParser fs) (frameBound fs) := by
  have hf : ∀ {α : Type} {e : Err} {C : Nat}, e ≠ .shortBuffer → Bounded (P.fail e : P α) C := fun he => (Bounded.fail he).mono (by omega)
  unfold frameParser frameBound
  by_cases h0 : fs = 0
  · rw [if_neg (by simpa using h0), if_pos h0]
    refine (Bounded.bind (.rdN _) (D := 2 ^ 36 + 24) fun _ _ _ _ => ?_).mono (by omega)
    refine (Bounded.bind (.rdBE _) (D := 2 ^ 36 + 16) fun n _ _ _ => ?_).mono (by omega)
    by_cases hn : n ≥ maxUnframedPlaintextSize
    · rw [if_pos hn]; exact hf (by simp)
    · rw [if_neg hn]
      have : maxUnframedPlaintextSize ≤ 2 ^ 36 := by decide
      exact (Bounded.bind (.rdN _) fun _ _ _ _ => Bounded.bind (.rdN _) fun _ _ _ _ => .pure _).mono (by omega)
  · rw [if_pos h0, if_neg h0]
    refine (Bounded.bind (.rdBE _) (D := fs + 36) fun mark _ _ _ => .ite ?_ ?_).mono (by omega)
    · refine (Bounded.bind (.rdBE _) (D := fs + 32) fun n _ _ _ => ?_).mono (by omega)
      refine (Bounded.bind (.rdN _) (D := fs + 20) fun n _ _ _ => ?_).mono (by omega)
      refine (Bounded.bind (.rdBE _) (D := fs + 16) fun n _ _ _ => ?_).mono (by omega)
      by_cases hn : n > fs
      · rw [if_pos hn]; exact hf (by simp)
      · rw [if_neg hn]
        exact (Bounded.bind (.rdN _) fun _ _ _ _ => Bounded.bind (.rdN _) fun _ _ _ _ => .pure _).mono (by omega)
    · exact (Bounded.bind (.rdN _) fun _ _ _ _ => Bounded.bind (.rdN _) fun _ _ _ _ => Bounded.bind (.rdN _) fun _ _ _ _ => .pure _).mono (by omega)

/-- Why the frame parser fails. -/
theorem frameParser_noFrame {fs : Nat} (hfs : fs < 2 ^ 32) {x : Bytes} {c : Err} (h : frameParser fs x = .error c) (hc : c ≠ .shortBuffer) :
    c = .badCiphertext ∧ NoFrame fs x := by
  rcases plain_frameParser fs x c h with h1 | rfl
  · exact absurd h1 hc
  · refine ⟨rfl, ?_⟩
    intro f more rest hok heq
    have h3 := (Streaming.frameParser fs).bad _ _ h (by simp) more
    have h4 := (frameParser_iff hfs).mpr ⟨hok, heq⟩
    rw [h3] at h4; cases h4

theorem frameParser_of_noFrame {fs : Nat} (hfs : fs < 2 ^ 32) {x : Bytes} (h : NoFrame fs x) :
    frameParser fs x = .error .badCiphertext ∨ (frameParser fs x = .error .shortBuffer ∧ x.length < frameBound fs) := by
  cases h4 : frameParser fs x with
  | error e =>
    rcases plain_frameParser fs x _ h4 with rfl | rfl
    · exact Or.inr ⟨rfl, (bounded_frameParser fs x).1 h4⟩
    · exact Or.inl rfl
  | ok y =>
    obtain ⟨f, rest⟩ := y
    obtain ⟨hok, hx⟩ := (frameParser_iff hfs).mp h4
    exact absurd (by rw [List.append_nil]; exact hx) (h f [] rest hok)

end Verif
