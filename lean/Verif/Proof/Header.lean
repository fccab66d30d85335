import Verif.Props.EncCtx
import Verif.Props.Alg
import Verif.Spec.Header
namespace Verif
open Spec

theorem u32_eq_be (n : Nat) (h : n < 2 ^ 32) : u32 n = be 4 n := by
  simp [u32, be, Nat.div_div_eq_div_mul]
  apply UInt8.toNat_inj.mp
  simp

theorem Streaming.counted {p : P α} (hp : Streaming p) : Streaming (P.counted p) where
  ok := by
    intro xs a r h
    unfold P.counted at h
    split at h
    · cases h
    · rename_i b r' hb
      simp at h
      obtain ⟨rfl, rfl⟩ := h
      obtain ⟨c, rfl, ok1, sh⟩ := hp.ok _ _ _ hb
      refine ⟨c, rfl, ?_, ?_⟩
      · intro t
        unfold P.counted
        rw [ok1]
        simp
      · intro q t hq ht
        unfold P.counted
        rw [sh q t hq ht]
  bad := by
    intro xs e h he t
    unfold P.counted at h ⊢
    split at h
    · rename_i e' h'
      cases h
      rw [hp.bad _ _ h' he]
    · cases h

theorem Streaming.encCtxSlice (n : Nat) : Streaming (do
    let aad ← Verif.rdN n
    match encCtxParse aad with
    | .error _ => P.fail .badCiphertext
    | .ok (m, r) => if r.length ≠ 0 then P.fail .badCiphertext else Pure.pure m : P EncCtx) := by
  refine (Streaming.rdN n).bind fun aad => ?_
  cases encCtxParse aad with
  | error e => exact Streaming.fail
  | ok x =>
    obtain ⟨m, r⟩ := x
    exact Streaming.ite Streaming.fail (Streaming.pure _)

theorem Streaming.parseEdk : Streaming parseEdk :=
  (Streaming.rdBE _).bind fun _ => (Streaming.rdN _).bind fun _ => (Streaming.rdBE _).bind fun _ =>
  (Streaming.rdN _).bind fun _ => (Streaming.rdBE _).bind fun _ => (Streaming.rdN _).bind fun _ => Streaming.pure _

theorem Streaming.parseEdkN (n : Nat) : Streaming (parseEdkN n) := by
  induction n with
  | zero => exact Streaming.pure _
  | succ n ih => exact Streaming.parseEdk.bind fun _ => ih.bind fun _ => Streaming.pure _

theorem Streaming.parseAlgId (v : Nat) : Streaming (parseAlgId v) := by
  refine (Streaming.rdBE _).bind fun a => ?_
  split
  · exact Streaming.fail
  · split
    · exact Streaming.fail
    · exact Streaming.ite Streaming.fail (Streaming.pure _)

theorem Streaming.hdrParseAuthPart (mx : Nat) : Streaming (hdrParseAuthPart mx) := by
  unfold Verif.hdrParseAuthPart
  refine ((Streaming.rdBE _).bind fun _ => Streaming.ite (Streaming.pure _) Streaming.fail).bind fun ver => ?_
  have hmt : Streaming (parseMessageTypeV1 ver) := by
    unfold parseMessageTypeV1 parseMessageType
    exact Streaming.ite ((Streaming.rdBE _).bind fun _ => Streaming.ite Streaming.fail (Streaming.pure _)) (Streaming.pure _)
  refine hmt.bind fun _ => ?_
  refine (Streaming.parseAlgId ver).bind fun ap => ?_
  refine (Streaming.rdN _).bind fun mid => ?_
  refine Streaming.bind ((Streaming.rdBE _).bind fun n => Streaming.ite (Streaming.pure _) (Streaming.encCtxSlice n))
    fun ctx => ?_
  refine Streaming.bind ((Streaming.rdBE _).bind fun n => Streaming.ite Streaming.fail
    (Streaming.ite Streaming.fail (Streaming.parseEdkN n))) fun edks => ?_
  refine Streaming.bind ((Streaming.rdBE _).bind fun n => Streaming.ite (Streaming.pure _) Streaming.fail) fun ct => ?_
  have hri : Streaming (parseReservedIvLenV1 ver ap.1) := by
    unfold parseReservedIvLenV1 parseReserved parseIvLen
    exact Streaming.ite (Streaming.bind ((Streaming.rdBE _).bind fun n =>
      Streaming.ite Streaming.fail (Streaming.pure _)) fun _ => (Streaming.rdBE _).bind fun n =>
      Streaming.ite Streaming.fail (Streaming.pure _)) (Streaming.pure _)
  refine hri.bind fun ivl => ?_
  refine Streaming.bind ((Streaming.rdBE _).bind fun n => Streaming.ite Streaming.fail (Streaming.pure _)) fun fl => ?_
  have hsd : Streaming (parseAlgSuiteDataV2 ver ap.2) := by
    unfold parseAlgSuiteDataV2 parseAlgSuiteData
    exact Streaming.ite (Streaming.ite (Streaming.pure _) (Streaming.rdN _)) (Streaming.pure _)
  refine hsd.bind fun sd => ?_
  exact Streaming.pure _

/-- `aws_cryptosdk_hdr_parse` is a streaming parser. -/
theorem Streaming.hdrParse (mx : Nat) : Streaming (hdrParse mx) := by
  unfold Verif.hdrParse
  refine (Streaming.hdrParseAuthPart mx).counted.bind fun x => ?_
  have hiv : Streaming (parseIvV1 x.1.1 x.1.2.1) := by
    unfold parseIvV1
    exact Streaming.ite (Streaming.rdN _) (Streaming.pure _)
  refine hiv.bind fun iv => ?_
  exact (Streaming.rdN _).bind fun _ => Streaming.pure _

/-! ### Exact acceptance -/

theorem rdBE_iff {n v : Nat} {bs r : Bytes} : rdBE n bs = .ok (v, r) ↔ v < 256 ^ n ∧ bs = be n v ++ r := by
  constructor
  · intro h; exact (rdBE_ok h).symm
  · rintro ⟨h, rfl⟩; exact rdBE_append h r

theorem rdN_iff {n : Nat} {bs x r : Bytes} : rdN n bs = .ok (x, r) ↔ x.length = n ∧ bs = x ++ r := by
  constructor
  · intro h; exact (rdN_ok h).symm
  · rintro ⟨h, rfl⟩; exact rdN_append h r

theorem parseHeaderVersion_iff {bs r : Bytes} {v : Nat} :
    parseHeaderVersion bs = .ok (v, r) ↔ (v = 1 ∨ v = 2) ∧ bs = be 1 v ++ r := by
  unfold parseHeaderVersion
  rw [P.bind_eq_ok]
  constructor
  · rintro ⟨a, r1, h1, h2⟩
    obtain ⟨-, rfl⟩ := rdBE_iff.mp h1
    split at h2
    · rename_i hk
      rw [P.pure_def] at h2; simp at h2
      obtain ⟨rfl, rfl⟩ := h2
      simp [headerVersionIsKnown] at hk
      exact ⟨hk, rfl⟩
    · cases h2
  · rintro ⟨hv, rfl⟩
    refine ⟨v, r, rdBE_append (by rcases hv with rfl | rfl <;> decide) _, ?_⟩
    rw [if_pos (by simpa [headerVersionIsKnown] using hv)]; rfl

theorem parseMessageType_iff {bs r : Bytes} {u : Unit} :
    parseMessageType bs = .ok (u, r) ↔ bs = be 1 0x80 ++ r := by
  unfold parseMessageType
  rw [P.bind_eq_ok]
  constructor
  · rintro ⟨a, r1, h1, h2⟩
    obtain ⟨-, rfl⟩ := rdBE_iff.mp h1
    split at h2
    · cases h2
    · rename_i hk
      rw [P.pure_def] at h2; simp at h2 hk
      subst h2 hk; rfl
  · rintro rfl
    exact ⟨0x80, r, rdBE_append (by decide) _, rfl⟩

theorem algProps_of_known {a : Nat} : algorithmIsKnown a = true ↔ ∃ p, algProps a = some p := by
  constructor
  · intro h
    unfold algorithmIsKnown at h
    split at h <;> first | exact ⟨_, rfl⟩ | cases h
  · rintro ⟨p, hp⟩
    obtain ⟨r, hr, rfl⟩ := algProps_isSome hp
    obtain ⟨p', -, h⟩ := suiteTable_agrees r hr
    exact h.2.2.2.2.2.2.2.2.2.2.2.2.2.2.2.2.1

theorem parseAlgId_iff {v : Nat} {bs r : Bytes} {a : Nat} {p : AlgProps} :
    parseAlgId v bs = .ok ((a, p), r) ↔ algProps a = some p ∧ p.msgFormatVersion = v ∧ bs = be 2 a ++ r := by
  unfold parseAlgId
  rw [P.bind_eq_ok]
  constructor
  · rintro ⟨a', r1, h1, h2⟩
    obtain ⟨-, rfl⟩ := rdBE_iff.mp h1
    split at h2
    · cases h2
    · cases hp' : algProps a' with
      | none => rw [hp'] at h2; cases h2
      | some p' =>
        rw [hp'] at h2
        simp only [] at h2
        split at h2
        · cases h2
        · rename_i hv
          rw [P.pure_def] at h2
          simp at h2 hv
          obtain ⟨⟨rfl, rfl⟩, rfl⟩ := h2
          exact ⟨hp', hv, rfl⟩
  · rintro ⟨hp, hv, rfl⟩
    have ha : a < 256 ^ 2 := by
      obtain ⟨row, hr, rfl⟩ := algProps_isSome hp
      revert hr; clear hp hv
      revert row; decide
    refine ⟨a, r, rdBE_append ha _, ?_⟩
    have := algProps_of_known.mpr ⟨p, hp⟩
    simp [this, hp, hv, P.pure_def]

theorem parseAad_iff {bs r : Bytes} {m : EncCtx} :
    parseAad bs = .ok (m, r) ↔ DistinctKeys m ∧ wireLen m ≤ 65535 ∧
      bs = be 2 (wireCtx m).length ++ wireCtx m ++ r := by
  have hwl : ∀ m : EncCtx, (wireCtx m).length = wireLen m := by
    intro m
    rw [wireCtx_eq, wireLen_eq]
    unfold ctxLen
    split
    · rfl
    · simp [length_entriesBytes]
  unfold parseAad
  rw [P.bind_eq_ok]
  constructor
  · rintro ⟨n, r1, h1, h2⟩
    obtain ⟨hn, rfl⟩ := rdBE_iff.mp h1
    split at h2
    · rename_i h0
      rw [P.pure_def] at h2
      simp at h2
      obtain ⟨rfl, rfl⟩ := h2
      subst h0
      exact ⟨by simp [DistinctKeys], by simp [wireLen], by simp [wireCtx]⟩
    · rename_i h0
      obtain ⟨aad, r2, h3, h4⟩ := P.bind_eq_ok.mp h2
      obtain ⟨rfl, rfl⟩ := rdN_iff.mp h3
      cases hp : encCtxParse aad with
      | error e => rw [hp] at h4; cases h4
      | ok x =>
        obtain ⟨m', rr⟩ := x
        rw [hp] at h4
        simp only [] at h4
        split at h4
        · cases h4
        · rename_i hrr
          rw [P.pure_def] at h4
          simp at h4 hrr
          obtain ⟨rfl, rfl⟩ := h4
          subst hrr
          obtain ⟨hw, h | ⟨g1, g2, g3, g4⟩⟩ := encCtxParse_ok hp
          · simp [h.2.1] at h0
          · have : aad = wireCtx m' := by rw [wireCtx_eq, if_neg g1]; simpa using g3
            subst this
            refine ⟨hw, ?_, by simp⟩
            rw [← hwl]; simp at hn; omega
  · rintro ⟨hd, hl, rfl⟩
    refine ⟨(wireCtx m).length, wireCtx m ++ r, ?_, ?_⟩
    · rw [List.append_assoc]
      exact rdBE_append (by rw [hwl]; simp; omega) _
    · by_cases hm : m = []
      · subst hm; simp [wireCtx, P.pure_def]
      · have hne : ¬ (wireCtx m).length = 0 := by
          rw [hwl]; simp [wireLen, hm]
        rw [if_neg hne, P.bind_ok (rdN_append rfl _)]
        have hfit : FieldsFit m := by
          have h1 := length_le_entriesLen m
          rw [wireLen_eq] at hl
          simp [ctxLen, hm] at hl
          refine ⟨by omega, fun e he => ?_⟩
          have h2 := mem_entriesLen he
          simp [entrySize] at h2
          omega
        have := ((C08_deserialize_exact [] (wireCtx m)).1 m []).mpr (Or.inr ⟨hm, hd, hfit, by simp⟩)
        rw [encCtxDeserialize_eq] at this
        cases hp : encCtxParse (wireCtx m) with
        | error e => rw [hp] at this; simp at this
        | ok x =>
          obtain ⟨m', r'⟩ := x
          rw [hp] at this
          simp at this
          obtain ⟨rfl, rfl⟩ := this
          simp [P.pure_def]

/-- The 16-bit limits of an EDK. -/
def EdkFits (e : Edk) : Prop :=
  e.providerId.length < 65536 ∧ e.providerInfo.length < 65536 ∧ e.ciphertext.length < 65536

theorem parseEdk_iff {bs r : Bytes} {e : Edk} :
    parseEdk bs = .ok (e, r) ↔ EdkFits e ∧ bs = wireEdk e ++ r := by
  unfold parseEdk EdkFits wireEdk
  simp only [u16_eq_be]
  constructor
  · intro h
    obtain ⟨l1, r1, h1, g1⟩ := P.bind_eq_ok.mp h
    obtain ⟨a, r2, h2, g2⟩ := P.bind_eq_ok.mp g1
    obtain ⟨l2, r3, h3, g3⟩ := P.bind_eq_ok.mp g2
    obtain ⟨b, r4, h4, g4⟩ := P.bind_eq_ok.mp g3
    obtain ⟨l3, r5, h5, g5⟩ := P.bind_eq_ok.mp g4
    obtain ⟨c, r6, h6, g6⟩ := P.bind_eq_ok.mp g5
    clear h g1 g2 g3 g4 g5
    obtain ⟨b1, rfl⟩ := rdBE_iff.mp h1
    obtain ⟨rfl, rfl⟩ := rdN_iff.mp h2
    obtain ⟨b3, rfl⟩ := rdBE_iff.mp h3
    obtain ⟨rfl, rfl⟩ := rdN_iff.mp h4
    obtain ⟨b5, rfl⟩ := rdBE_iff.mp h5
    obtain ⟨rfl, rfl⟩ := rdN_iff.mp h6
    rw [P.pure_def] at g6
    simp at g6
    obtain ⟨rfl, rfl⟩ := g6
    exact ⟨⟨by simpa using b1, by simpa using b3, by simpa using b5⟩, by simp⟩
  · rintro ⟨⟨h1, h2, h3⟩, rfl⟩
    simp only [List.append_assoc]
    rw [P.bind_ok (rdBE_append (by simpa using h1) _), P.bind_ok (rdN_append rfl _),
      P.bind_ok (rdBE_append (by simpa using h2) _), P.bind_ok (rdN_append rfl _),
      P.bind_ok (rdBE_append (by simpa using h3) _), P.bind_ok (rdN_append rfl _)]
    rfl

theorem parseEdkN_iff {n : Nat} {bs r : Bytes} {es : List Edk} :
    parseEdkN n bs = .ok (es, r) ↔ es.length = n ∧ (∀ e ∈ es, EdkFits e) ∧ bs = (es.map wireEdk).flatten ++ r := by
  induction n generalizing bs es with
  | zero =>
    simp only [parseEdkN, P.pure_def]
    constructor
    · intro h; simp at h; obtain ⟨rfl, rfl⟩ := h; simp
    · rintro ⟨h, -, rfl⟩
      have := List.length_eq_zero_iff.mp h
      subst this; simp
  | succ n ih =>
    simp only [parseEdkN]
    rw [P.bind_eq_ok]
    constructor
    · rintro ⟨e, r1, h1, h2⟩
      obtain ⟨es', r2, h3, h4⟩ := P.bind_eq_ok.mp h2
      rw [P.pure_def] at h4
      simp at h4
      obtain ⟨rfl, rfl⟩ := h4
      obtain ⟨f1, rfl⟩ := parseEdk_iff.mp h1
      obtain ⟨rfl, f2, rfl⟩ := ih.mp h3
      refine ⟨by simp, ?_, by simp⟩
      intro e' he'
      rcases List.mem_cons.mp he' with rfl | he'
      · exact f1
      · exact f2 _ he'
    · rintro ⟨hl, hf, rfl⟩
      cases es with
      | nil => simp at hl
      | cons e es =>
        refine ⟨e, (es.map wireEdk).flatten ++ r, parseEdk_iff.mpr ⟨hf e (by simp), by simp⟩, ?_⟩
        rw [P.bind_eq_ok]
        exact ⟨es, r, ih.mpr ⟨by simpa using hl, fun e' he' => hf e' (by simp [he']), rfl⟩, rfl⟩

theorem parseEdks_iff {mx : Nat} {bs r : Bytes} {es : List Edk} :
    parseEdks mx bs = .ok (es, r) ↔ es ≠ [] ∧ es.length < 65536 ∧ (mx = 0 ∨ es.length ≤ mx) ∧ (∀ e ∈ es, EdkFits e) ∧
      bs = be 2 es.length ++ (es.map wireEdk).flatten ++ r := by
  unfold parseEdks
  rw [P.bind_eq_ok]
  constructor
  · rintro ⟨n, r1, h1, h2⟩
    obtain ⟨hn, rfl⟩ := rdBE_iff.mp h1
    split at h2
    · cases h2
    · rename_i h0
      split at h2
      · cases h2
      · rename_i hmx
        obtain ⟨rfl, hf, rfl⟩ := parseEdkN_iff.mp h2
        refine ⟨?_, by simpa using hn, ?_, hf, by simp⟩
        · rintro rfl; simp at h0
        · omega
  · rintro ⟨hne, hn, hmx, hf, rfl⟩
    have h0 : 0 < es.length := List.length_pos_iff.mpr hne
    refine ⟨es.length, (es.map wireEdk).flatten ++ r, ?_, ?_⟩
    · rw [List.append_assoc]; exact rdBE_append (by simpa using hn) _
    · rw [if_neg (by omega), if_neg (by omega)]
      exact parseEdkN_iff.mpr ⟨rfl, hf, rfl⟩

theorem parseContentType_iff {bs r : Bytes} {t : Nat} :
    parseContentType bs = .ok (t, r) ↔ (t = 1 ∨ t = 2) ∧ bs = be 1 t ++ r := by
  unfold parseContentType
  rw [P.bind_eq_ok]
  constructor
  · rintro ⟨a, r1, h1, h2⟩
    obtain ⟨-, rfl⟩ := rdBE_iff.mp h1
    split at h2
    · rename_i hk
      rw [P.pure_def] at h2; simp at h2
      obtain ⟨rfl, rfl⟩ := h2
      exact ⟨hk, rfl⟩
    · cases h2
  · rintro ⟨hv, rfl⟩
    refine ⟨t, r, rdBE_append (by rcases hv with rfl | rfl <;> decide) _, ?_⟩
    rw [if_pos hv]; rfl

theorem parseReserved_iff {bs r : Bytes} {u : Unit} :
    parseReserved bs = .ok (u, r) ↔ bs = [0, 0, 0, 0] ++ r := by
  have h00 : be 4 0 = [0, 0, 0, 0] := by decide
  unfold parseReserved
  rw [P.bind_eq_ok]
  constructor
  · rintro ⟨a, r1, h1, h2⟩
    obtain ⟨-, rfl⟩ := rdBE_iff.mp h1
    split at h2
    · cases h2
    · rename_i hk
      rw [P.pure_def] at h2; simp at h2 hk
      subst h2 hk; rw [h00]
  · rintro rfl
    refine ⟨0, r, ?_, rfl⟩
    rw [← h00]; exact rdBE_append (by decide) _

theorem parseIvLen_iff {a : Nat} {p : AlgProps} (hp : algProps a = some p) {bs r : Bytes} {n : Nat} :
    parseIvLen a bs = .ok (n, r) ↔ n = 12 ∧ bs = be 1 12 ++ r := by
  have hk : algorithmIvLen a = 12 := by
    simp [algorithmIvLen, algProps_of_known.mpr ⟨p, hp⟩]
  unfold parseIvLen
  rw [P.bind_eq_ok, hk]
  constructor
  · rintro ⟨m, r1, h1, h2⟩
    obtain ⟨-, rfl⟩ := rdBE_iff.mp h1
    split at h2
    · cases h2
    · rename_i hk
      rw [P.pure_def] at h2; simp at h2 hk
      obtain ⟨rfl, rfl⟩ := h2
      have : m = 12 := by omega
      subst this
      exact ⟨rfl, rfl⟩
  · rintro ⟨rfl, rfl⟩
    exact ⟨12, r, rdBE_append (by decide) _, rfl⟩

theorem parseFrameLen_iff {ct : Nat} (hct : ct = 1 ∨ ct = 2) {bs r : Bytes} {n : Nat} :
    parseFrameLen ct bs = .ok (n, r) ↔ n < 2 ^ 32 ∧ be 1 ct = wireContentType n ∧ bs = be 4 n ++ r := by
  unfold parseFrameLen
  rw [P.bind_eq_ok]
  constructor
  · rintro ⟨m, r1, h1, h2⟩
    obtain ⟨hm, rfl⟩ := rdBE_iff.mp h1
    split at h2
    · cases h2
    · rename_i hk
      rw [P.pure_def] at h2; simp at h2
      obtain ⟨rfl, rfl⟩ := h2
      refine ⟨by simpa using hm, ?_, rfl⟩
      unfold wireContentType
      rcases hct with rfl | rfl
      · have : m = 0 := by omega
        simp [this]; decide
      · have : m ≠ 0 := by omega
        simp [this]; decide
  · rintro ⟨hn, hw, rfl⟩
    refine ⟨n, r, rdBE_append (by simpa using hn) _, ?_⟩
    rw [if_neg]
    · rfl
    · unfold wireContentType at hw
      rcases hct with rfl | rfl
      · by_cases h0 : n = 0
        · omega
        · simp [h0] at hw; exact absurd hw (by decide)
      · by_cases h0 : n = 0
        · simp [h0] at hw; exact absurd hw (by decide)
        · omega

theorem parseAlgSuiteData_iff {p : AlgProps} {bs r x : Bytes} :
    parseAlgSuiteData p bs = .ok (x, r) ↔ x.length = p.algSuiteDataLen ∧ bs = x ++ r := by
  unfold parseAlgSuiteData
  split
  · rename_i h
    rw [P.pure_def, h]
    constructor
    · intro h; simp at h; obtain ⟨rfl, rfl⟩ := h; simp
    · rintro ⟨h, rfl⟩
      have := List.length_eq_zero_iff.mp h
      subst this; rfl
  · exact rdN_iff

/-- Facts about a supported suite, in the form used below. -/
theorem suite_facts {a : Nat} {p : AlgProps} (hp : algProps a = some p) :
    ∃ r ∈ suiteTable, r.id = a ∧ p.msgFormatVersion = r.version ∧ (r.version = 1 ∨ r.version = 2) ∧
      messageIdLen p = (if r.version = 1 then 16 else 32) ∧ p.algSuiteDataLen = r.commitment ∧
      (algorithmTagLen a).toNat = 16 ∧ authtagLen p = (if r.version = 1 then 28 else 16) ∧
      (r.version = 1 → r.commitment = 0) ∧ a < 65536 := by
  obtain ⟨r, hr, rfl⟩ := algProps_isSome hp
  obtain ⟨p', hp', h⟩ := suiteTable_agrees r hr
  rw [hp] at hp'
  cases hp'
  obtain ⟨a1, a2, a3, a4, a5, a6, a7, a8, a9, a10, a11, a12, a13, a14, a15, a16, a17, a18, a19⟩ := h
  have h : True := trivial
  refine ⟨r, hr, rfl, a2, ?_, a13, a8, ?_, a19, ?_, ?_⟩
  · revert hr; clear h hp a1 a2 a3 a4 a7 a8 a9 a10 a11 a12 a13 a14 a15 a16 a17 a18 a19; revert r; decide
  · rw [a15, a6]; rfl
  · clear a1 a2 a3 a4 a7 a8 a9 a10 a11 a12 a13 a14 a15 a16 a17 a18 a19
    revert hr; clear h hp; revert r; decide
  · clear a1 a2 a3 a4 a7 a8 a9 a10 a11 a12 a13 a14 a15 a16 a17 a18 a19
    revert hr; clear h hp; revert r; decide

theorem algProps_of_row {r : SuiteRow} (hr : r ∈ suiteTable) : ∃ p, algProps r.id = some p :=
  let ⟨p, hp, _⟩ := suiteTable_agrees r hr
  ⟨p, hp⟩

theorem row_unique {r r' : SuiteRow} (h : r ∈ suiteTable) (h' : r' ∈ suiteTable) (hid : r.id = r'.id) : r = r' := by
  have key : ∀ r ∈ suiteTable, ∀ r' ∈ suiteTable, r.id = r'.id → r = r' := by decide
  exact key r h r' h' hid

/-- The authenticated part, exactly. -/
theorem hdrParseAuthPart_iff {mx : Nat} {bs rest : Bytes} {ver ivLen : Nat} {h : Hdr} :
    hdrParseAuthPart mx bs = .ok ((ver, ivLen, h), rest) ↔
      ∃ r ∈ suiteTable, h.algId = r.id ∧ ver = r.version ∧ ivLen = (if ver = 1 then 12 else 0) ∧
        h.messageId.length = (if r.version = 1 then 16 else 32) ∧ h.algSuiteData.length = r.commitment ∧
        h.iv = [] ∧ h.authTag = [] ∧ h.authLen = 0 ∧ h.frameLen < 2 ^ 32 ∧ h.edks ≠ [] ∧ h.edks.length < 65536 ∧
        (mx = 0 ∨ h.edks.length ≤ mx) ∧ (∀ e ∈ h.edks, EdkFits e) ∧ DistinctKeys h.encCtx ∧ wireLen h.encCtx ≤ 65535 ∧
        bs = wireAuthPart r.version h ++ rest := by
  have hb1 : be 1 1 ++ be 1 0x80 = ([1, 0x80] : Bytes) := by decide
  have hb2 : be 1 2 = ([2] : Bytes) := by decide
  have hb12 : be 1 12 = ([12] : Bytes) := by decide
  unfold hdrParseAuthPart
  constructor
  · intro hh
    obtain ⟨v, r1, h1, g1⟩ := P.bind_eq_ok.mp hh
    obtain ⟨_u, r2, h2, g2⟩ := P.bind_eq_ok.mp g1
    obtain ⟨⟨a, p⟩, r3, h3, g3⟩ := P.bind_eq_ok.mp g2
    obtain ⟨mid, r4, h4, g4⟩ := P.bind_eq_ok.mp g3
    obtain ⟨ctx, r5, h5, g5⟩ := P.bind_eq_ok.mp g4
    obtain ⟨edks, r6, h6, g6⟩ := P.bind_eq_ok.mp g5
    obtain ⟨ct, r7, h7, g7⟩ := P.bind_eq_ok.mp g6
    obtain ⟨ivl, r8, h8, g8⟩ := P.bind_eq_ok.mp g7
    obtain ⟨fl, r9, h9, g9⟩ := P.bind_eq_ok.mp g8
    obtain ⟨sd, r10, h10, g10⟩ := P.bind_eq_ok.mp g9
    clear hh g1 g2 g3 g4 g5 g6 g7 g8 g9
    unfold parseMessageTypeV1 at h2
    unfold parseReservedIvLenV1 at h8
    unfold parseAlgSuiteDataV2 at h10
    rw [P.pure_def] at g10
    simp only [Except.ok.injEq, Prod.mk.injEq] at g10
    obtain ⟨⟨rfl, rfl, rfl⟩, rfl⟩ := g10
    obtain ⟨hv, rfl⟩ := parseHeaderVersion_iff.mp h1
    obtain ⟨hp, hpv, rfl⟩ := parseAlgId_iff.mp h3
    obtain ⟨row, hrow, rfl, e1, e2, e3, e4, e5, e6, e7, e8⟩ := suite_facts hp
    obtain ⟨lm, rfl⟩ := rdN_iff.mp h4
    obtain ⟨c1, c2, rfl⟩ := parseAad_iff.mp h5
    obtain ⟨k1, k2, k3, k4, rfl⟩ := parseEdks_iff.mp h6
    obtain ⟨t1, rfl⟩ := parseContentType_iff.mp h7
    obtain ⟨f1, f2, rfl⟩ := (parseFrameLen_iff t1).mp h9
    rw [e3] at lm
    have hver : v = row.version := by rw [← hpv, e1]
    subst hver
    refine ⟨row, hrow, rfl, rfl, ?_, lm, ?_, rfl, rfl, rfl, f1, k1, k2, k3, k4, c1, c2, ?_⟩
    · rcases hv with hv | hv
      · rw [if_pos hv] at h8 ⊢
        obtain ⟨_u2, r8', h8a, h8b⟩ := P.bind_eq_ok.mp h8
        exact ((parseIvLen_iff hp).mp h8b).1
      · rw [if_neg (by omega)] at h8 ⊢
        rw [P.pure_def] at h8; simp at h8; exact h8.1.symm
    · rcases hv with hv | hv
      · rw [if_neg (by omega)] at h10
        rw [P.pure_def] at h10; simp at h10
        obtain ⟨hsd, -⟩ := h10
        show sd.length = _
        rw [e7 hv]
        exact List.length_eq_zero_iff.mpr hsd
      · rw [if_pos hv] at h10
        rw [(parseAlgSuiteData_iff.mp h10).1, e4]
    · simp only [wireAuthPart, u16_eq_be, u32_eq_be _ f1]
      rcases hv with hv | hv
      · rw [if_pos hv] at h2 h8
        rw [if_neg (by omega)] at h10
        obtain ⟨_u2, r8', h8a, h8b⟩ := P.bind_eq_ok.mp h8
        have e := parseReserved_iff.mp h8a
        subst e
        obtain ⟨-, rfl⟩ := (parseIvLen_iff hp).mp h8b
        rw [P.pure_def] at h10; simp at h10
        obtain ⟨rfl, rfl⟩ := h10
        have e := parseMessageType_iff.mp h2
        subst e
        simp [hv, ← hb1, ← f2, hb12]
      · rw [if_neg (by omega)] at h2 h8
        rw [if_pos hv] at h10
        obtain ⟨-, rfl⟩ := parseAlgSuiteData_iff.mp h10
        rw [P.pure_def] at h2 h8; simp at h2 h8
        obtain ⟨rfl, rfl⟩ := h8
        subst h2
        simp [hv, ← hb2, ← f2]
  · rintro ⟨row, hrow, hid, rfl, hivl, lm, lsd, i1, i2, i3, f1, k1, k2, k3, k4, c1, c2, rfl⟩
    obtain ⟨p, hp⟩ := algProps_of_row hrow
    obtain ⟨row', hrow', hid', e1, e2, e3, e4, e5, e6, e7, e8⟩ := suite_facts hp
    have := row_unique hrow' hrow hid'
    subst this
    obtain ⟨alg, frameLen, iv, tag, mid, sd, ctx, edks, al⟩ := h
    simp only at hid lm lsd i1 i2 i3 f1 k1 k2 k3 k4 c1 c2
    subst hid i1 i2 i3 hivl
    simp only [wireAuthPart, u16_eq_be, u32_eq_be _ f1, List.append_assoc]
    have hct : ∃ ct, (ct = 1 ∨ ct = 2) ∧ be 1 ct = wireContentType frameLen := by
      unfold wireContentType
      split
      · exact ⟨1, Or.inl rfl, by decide⟩
      · exact ⟨2, Or.inr rfl, by decide⟩
    obtain ⟨ct, hct, hctw⟩ := hct
    rw [P.bind_eq_ok]
    refine ⟨row'.version, (if row'.version = 1 then be 1 0x80 else []) ++ (be 2 row'.id ++ (mid ++ (be 2 (wireCtx ctx).length ++
        (wireCtx ctx ++ (be 2 edks.length ++ ((edks.map wireEdk).flatten ++ (wireContentType frameLen ++
        ((if row'.version = 1 then [0, 0, 0, 0] ++ [12] else []) ++ (be 4 frameLen ++ (sd ++ rest)))))))))),
        parseHeaderVersion_iff.mpr ⟨e2, ?_⟩, ?_⟩
    · rcases e2 with hv | hv
      · simp [hv, ← hb1]
      · simp [hv, ← hb2]
    rw [P.bind_eq_ok]
    refine ⟨(), be 2 row'.id ++ (mid ++ (be 2 (wireCtx ctx).length ++
        (wireCtx ctx ++ (be 2 edks.length ++ ((edks.map wireEdk).flatten ++ (wireContentType frameLen ++
        ((if row'.version = 1 then [0, 0, 0, 0] ++ [12] else []) ++ (be 4 frameLen ++ (sd ++ rest))))))))), ?_, ?_⟩
    · unfold parseMessageTypeV1
      split
      · exact parseMessageType_iff.mpr rfl
      · rfl
    rw [P.bind_ok (parseAlgId_iff.mpr ⟨hp, e1, rfl⟩)]
    simp only []
    have hmid : ∀ t, parseMessageId p (mid ++ t) = .ok (mid, t) := fun t => rdN_iff.mpr ⟨by rw [e3]; exact lm, rfl⟩
    rw [P.bind_ok (hmid _)]
    rw [P.bind_ok (parseAad_iff.mpr ⟨c1, c2, (List.append_assoc _ _ _).symm⟩)]
    rw [P.bind_ok (parseEdks_iff.mpr ⟨k1, k2, k3, k4, (List.append_assoc _ _ _).symm⟩)]
    rw [← hctw, P.bind_ok (parseContentType_iff.mpr ⟨hct, rfl⟩)]
    rw [P.bind_eq_ok]
    refine ⟨if row'.version = 1 then 12 else 0, be 4 frameLen ++ (sd ++ rest), ?_, ?_⟩
    · unfold parseReservedIvLenV1
      split
      · rw [P.bind_eq_ok]
        refine ⟨(), [12] ++ (be 4 frameLen ++ (sd ++ rest)), parseReserved_iff.mpr (by simp), ?_⟩
        exact (parseIvLen_iff hp).mpr ⟨rfl, by rw [hb12]⟩
      · rfl
    rw [P.bind_ok ((parseFrameLen_iff hct).mpr ⟨f1, hctw, rfl⟩)]
    rw [P.bind_eq_ok]
    refine ⟨sd, rest, ?_, rfl⟩
    unfold parseAlgSuiteDataV2
    split
    · exact parseAlgSuiteData_iff.mpr ⟨by rw [e4]; exact lsd, rfl⟩
    · have hv : row'.version = 1 := by omega
      rw [e7 hv] at lsd
      have := List.length_eq_zero_iff.mp lsd
      subst this; rfl

/-- The header parser, exactly. -/
theorem hdrParse_iff {mx : Nat} {bs rest : Bytes} {h : Hdr} :
    hdrParse mx bs = .ok (h, rest) ↔
      ∃ r, HeaderOK r h ∧ (mx = 0 ∨ h.edks.length ≤ mx) ∧ h.authLen = (wireAuthPart r.version h).length ∧
        bs = wireHeader r.version h ++ rest := by
  unfold hdrParse
  rw [P.bind_eq_ok]
  constructor
  · rintro ⟨⟨⟨ver, ivLen, h0⟩, al⟩, r1, h1, h2⟩
    unfold P.counted at h1
    split at h1
    · cases h1
    · rename_i x r' hx
      simp only [Except.ok.injEq, Prod.mk.injEq] at h1
      obtain ⟨⟨rfl, rfl⟩, rfl⟩ := h1
      obtain ⟨r, hr, hid, rfl, rfl, lm, lsd, i1, i2, i3, f1, k1, k2, k3, k4, c1, c2, rfl⟩ := hdrParseAuthPart_iff.mp hx
      obtain ⟨iv, r2, h3, g3⟩ := P.bind_eq_ok.mp h2
      obtain ⟨tag, r3, h4, g4⟩ := P.bind_eq_ok.mp g3
      unfold parseIvV1 at h3
      rw [P.pure_def] at g4
      simp only [Except.ok.injEq, Prod.mk.injEq] at g4
      obtain ⟨rfl, rfl⟩ := g4
      obtain ⟨p, hp⟩ := algProps_of_row hr
      obtain ⟨row', hrow', hid', e1, e2, e3, e4, e5, e6, e7, e8⟩ := suite_facts hp
      have := row_unique hrow' hr hid'
      subst this
      obtain ⟨lt, rfl⟩ := rdN_iff.mp h4
      rw [hid, e5] at lt
      have hw : ∀ x y z, wireAuthPart row'.version { h0 with iv := x, authTag := y, authLen := z } =
          wireAuthPart row'.version h0 := fun _ _ _ => rfl
      refine ⟨row', ⟨hr, hid, lm, lsd, ?_, lt, f1, k1, k2, k4, c1, c2⟩, k3, ?_, ?_⟩
      · split at h3
        · rename_i hv
          show iv.length = _
          rw [if_pos hv]
          exact (rdN_iff.mp h3).1
        · rename_i hv
          rw [P.pure_def] at h3; simp at h3
          simp [hv, ← h3.1]
      · simp [hw]
      · simp only [wireHeader, hw]
        split at h3
        · rename_i hv
          rw [(rdN_iff.mp h3).2]; simp [hv]
        · rename_i hv
          rw [P.pure_def] at h3; simp at h3
          simp [hv, h3.2]
  · rintro ⟨r, ⟨hr, hid, lm, lsd, liv, lt, f1, k1, k2, k4, c1, c2⟩, k3, hal, rfl⟩
    obtain ⟨p, hp⟩ := algProps_of_row hr
    obtain ⟨row', hrow', hid', e1, e2, e3, e4, e5, e6, e7, e8⟩ := suite_facts hp
    have := row_unique hrow' hr hid'
    subst this
    let h0 : Hdr := { h with iv := [], authTag := [], authLen := 0 }
    have hw : wireAuthPart row'.version h0 = wireAuthPart row'.version h := rfl
    refine ⟨((row'.version, (if row'.version = 1 then 12 else 0), h0), (wireAuthPart row'.version h).length),
      (if row'.version = 1 then h.iv else []) ++ h.authTag ++ rest, ?_, ?_⟩
    · have : hdrParseAuthPart mx (wireHeader row'.version h ++ rest) =
          .ok ((row'.version, (if row'.version = 1 then 12 else 0), h0),
            (if row'.version = 1 then h.iv else []) ++ h.authTag ++ rest) :=
        hdrParseAuthPart_iff.mpr ⟨row', hr, hid, rfl, rfl, lm, lsd, rfl, rfl, rfl, f1, k1, k2, k3, k4, c1, c2,
          by simp [wireHeader, hw]⟩
      unfold P.counted
      rw [this]
      simp only [wireHeader, List.append_assoc, List.length_append, Except.ok.injEq, Prod.mk.injEq, and_true, true_and]
      omega
    · simp only []
      rw [P.bind_eq_ok]
      refine ⟨h.iv, h.authTag ++ rest, ?_, ?_⟩
      · unfold parseIvV1
        split
        · rename_i hv
          exact rdN_iff.mpr ⟨by rw [liv, if_pos hv], by simp⟩
        · rename_i hv
          rw [if_neg hv] at liv
          rw [List.length_eq_zero_iff.mp liv]; rfl
      · unfold parseAuthTag
        rw [P.bind_ok (rdN_iff.mpr ⟨by rw [lt]; show 16 = (algorithmTagLen h.algId).toNat; rw [hid, e5], rfl⟩)]
        rw [P.pure_def]
        obtain ⟨alg, frameLen, iv, tag, mid, sd, ctx, edks, al⟩ := h
        simp only at hal
        simp only [Except.ok.injEq, Prod.mk.injEq, and_true, h0]
        rw [← hal]

end Verif
