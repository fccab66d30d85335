import Verif.Proof.Integrity
import Verif.Proof.SessionDet
/-
C100: a reader accepts only what one session of a writer wrote.
-/
namespace Verif.Props
open Verif Verif.Spec Verif.Proof

/-- **C100** (writers): every encrypting session that has written something wrote a message. -/
theorem C100_sessions_write_messages (E : Env → Prop) (pol : Policy) (w : View) (h : Reach E pol w) (hm : w.s.mode = .encrypt)
    (hr : w.released ≠ []) : ∃ a, Wrote E w a := by
  rcases encrypted_of h.hinv hm with ⟨-, h2⟩ | ⟨row, hd, m, k, fr, tr, h1, -, h3, -⟩
  · exact absurd h2 hr
  · refine ⟨⟨row, hd, m, k, fr, tr⟩, h1, ?_⟩
    rcases h3 with h3 | ⟨h3, -, -, h4⟩
    · exact Or.inl h3
    · exact Or.inr ⟨h3, h4⟩

example : ∃ a, Wrote (· = Example.env) (run Example.encNew Example.encHist) a :=
  C100_sessions_write_messages _ _ _ Example.encHist_reach (by decide +kernel) (by decide +kernel)

/-- **C15** (separation): what a header is sealed with is never what a frame is sealed with, whatever the message identifiers, the
suites, the context and the encrypted data keys.  Frames other than single blocks hold less than 2^32 bytes, and single blocks have
number 1. -/
theorem C15_header_is_no_frame (row : SuiteRow) (h : Hdr) (hok : HeaderOK row h) (mid : Bytes)
    (hm : mid.length = 16 ∨ mid.length = 32) (t : FrameType) (i n : Nat) (hn : t ≠ .single → n < 2 ^ 32) (hi : t = .single → i = 1) :
    wireAuthPart row.version h ≠ bodyAad mid t i n :=
  auth_ne_aad (row_version hok.suite) hok.messageId
    (fun hv => List.length_eq_zero_iff.mp (by rw [hok.suiteData, row_v1_commitment hok.suite hv])) hm t i n (by
      by_cases ht : t = .single
      · right; rw [hi ht]; decide
      · exact Or.inl (hn ht))

/-- A well-formed header of version 1. -/
example : ∃ row ∈ suiteTable, row.version = 1 ∧ ∃ h, HeaderOK row h ∧ h.messageId = List.replicate 16 1 := by
  refine ⟨_, List.mem_cons_self, rfl, { algId := 0x0014, frameLen := 4, iv := List.replicate 12 0, authTag := List.replicate 16 0, messageId := List.replicate 16 1, edks := [Example.edk] }, ?_, rfl⟩
  constructor <;> first | decide | simp [DistinctKeys]

theorem prefix_map {α β : Type} (f : α → β) {a b : List α} (h : a <+: b) : a.map f <+: b.map f := by
  obtain ⟨c, rfl⟩ := h
  rw [List.map_append]
  exact List.prefix_append _ _

/-- **C100**: a decrypting session, given whatever bytes, has accepted nothing, or what it has accepted is, up to the trailer, byte
for byte the beginning of what one writer wrote, and what it has released is the beginning of what that writer was given; when
the session is done it is all of it.  The keys that the CMM of the reader returns must be keys under which only the writers seal. -/
theorem C100_only_what_was_written (E : Env → Prop) (pol : Policy) (v : View) (h : Reach E pol v) (hm : v.s.mode.isDecrypt = true)
    (M : View → WrittenMessage → Prop) (hM : HonestWriters M) (hI : KeysIntact E M) :
    (v.consumed = [] ∧ v.released = []) ∨ ∃ w a x tr, M w a ∧ Accepted v w a x tr := by
  rcases decrypted_of h.hinv hm with ⟨h1, h2, -⟩ | ⟨row, hd, m, k, fr, tr, h1, hfacts, h2, h3⟩
  · exact Or.inl ⟨h1, h2⟩
  right
  obtain ⟨e0, he0, hv⟩ := h1.header
  have hint : Intact E k M := hI e0 he0 _ m hv.cmm row hd.messageId k _ hv.ok.suite hv.key
  have hmid : hd.messageId.length = 16 ∨ hd.messageId.length = 32 := by
    have h5 := hv.ok.messageId
    split at h5 <;> omega
  -- facts about writers
  have wf : ∀ w a, M w a → (a.row.version = 1 ∨ a.row.version = 2) ∧
      (a.hd.messageId.length = if a.row.version = 1 then 16 else 32) ∧ (a.row.version = 1 → a.hd.algSuiteData = []) ∧
      (a.row.version = 1 → a.hd.iv = List.replicate 12 0) ∧ a.row ∈ suiteTable ∧ a.hd.algId = a.row.id := by
    intro w a ha
    obtain ⟨Ew, polw, -, -, hw⟩ := hM.wrote w a ha
    obtain ⟨ew, -, hmade⟩ := hw.encrypted.header
    refine ⟨row_version hmade.suite, ew.crypto.random_len _ _ hmade.messageId, fun h1 => ?_, hmade.iv, hmade.suite, hmade.alg.1⟩
    have := hmade.key.2
    rw [if_pos (row_v1_commitment hmade.suite h1)] at this
    exact this
  have wmid : ∀ w a, M w a → a.hd.messageId.length = 16 ∨ a.hd.messageId.length = 32 := by
    intro w a ha
    have := (wf w a ha).2.1
    split at this <;> omega
  -- the header
  obtain ⟨x0, hx0⟩ := hv.tag
  obtain ⟨w, a, ha, hak, hseal⟩ := hint e0 he0 _ _ _ _ _ hx0
  have hrv := row_version hv.ok.suite
  have hsd : row.version = 1 → hd.algSuiteData = [] := fun h1 =>
    List.length_eq_zero_iff.mp (by rw [hv.ok.suiteData, row_v1_commitment hv.ok.suite h1])
  have hhead : wireHeader row.version hd = wireHeader a.row.version a.hd ∧ hd.messageId = a.hd.messageId ∧ row = a.row := by
    rcases hseal with ⟨b1, b2, -, b4⟩ | ⟨i, f, c1, -, c3, c4, -⟩
    · obtain ⟨d1, d2, d3, d4, d5, d6⟩ := wf w a ha
      obtain ⟨e1, e3, e2⟩ := auth_mid hrv d1 hv.ok.messageId d2 (by rw [hv.ok.id]; exact row_small hv.ok.suite)
        (by rw [d6]; exact row_small d5) b2
      refine ⟨?_, e2, row_unique' hv.ok.suite d5 (by rw [← hv.ok.id, e3, d6])⟩
      unfold wireHeader
      rw [b2, b4, e1]
      by_cases hv1 : a.row.version = 1
      · rw [if_pos hv1, if_pos hv1, d4 hv1]
        rw [e1, if_pos hv1] at b1
        rw [b1]
      · rw [if_neg hv1, if_neg hv1]
    · exfalso
      have hpt := e0.crypto.aeadOpen_len _ _ _ _ _ _ hx0
      simp only [List.length_nil] at hpt
      rw [hpt] at c3
      exact auth_ne_aad hrv hv.ok.messageId hsd (wmid w a ha) _ _ 0 (Or.inl (by omega)) c3
  obtain ⟨hwire, hmeq, hrow⟩ := hhead
  obtain ⟨Ew, polw, -, -, hw⟩ := hM.wrote w a ha
  have hcount := allFrames_count hw.encrypted.frames
  -- the frames
  have key : ∀ i (hi : i < fr.length), a.fr[i]? = some fr[i] := by
    intro i hi
    have ho := h1.frames i hi
    obtain ⟨e, he, hopen⟩ := ho.opened
    have hq := ho.ok.seqno
    rw [ho.seqno] at hq
    have hcl : fr[i].1.ciphertext.length < 2 ^ 64 := by
      have h5 := ho.ok.shape
      cases ht : fr[i].1.type <;> simp only [ht] at h5 <;> have h6 := hv.ok.frameLen <;> omega
    obtain ⟨w', b, hb, hbk, hs⟩ := hint e he _ _ _ _ _ hopen
    rcases hs with ⟨-, b2, b3, -⟩ | ⟨j, f, c1, c2, c3, c4, c5⟩
    · exfalso
      rw [b3] at b2
      obtain ⟨d1, d2, d3, -⟩ := wf w' b hb
      exact auth_ne_aad d1 d2 d3 hmid _ _ _ (Or.inl (by simp)) b2.symm
    · obtain ⟨Ew', polw', -, -, hw'⟩ := hM.wrote w' b hb
      obtain ⟨hjl, hje⟩ := List.getElem?_eq_some_iff.mp c1
      have hsf := hw'.encrypted.frames j hjl
      rw [hje] at hsf
      have hq' := hsf.ok.seqno
      rw [hsf.seqno] at hq'
      have hpl : fr[i].2.length < 2 ^ 64 := by rw [← ho.len]; exact hcl
      obtain ⟨a1, a2, a3, a4⟩ := bodyAad_inj hmid (wmid w' b hb) hq hq' hcl hpl c3
      have hij : i = j := by omega
      subst hij
      obtain ⟨rfl, rfl⟩ := hM.fresh w w' a b ha hb (by rw [hak, hbk]) (by rw [← hmeq, a1])
      rw [c1]
      have hf : f = fr[i].1 := by
        have e1 := hsf.seqno
        have e2 := ho.seqno
        simp only at e1
        cases f
        cases hfr : fr[i].1
        simp only [hfr] at a2 c2 c4 c5 e1 e2
        simp only [Frame.mk.injEq]
        exact ⟨a2.symm, by omega, c2.symm, c4.symm, c5.symm⟩
      rw [hf]
  have hpre : fr <+: a.fr := by
    rw [List.prefix_iff_eq_take]
    apply List.ext_getElem?
    intro i
    by_cases hi : i < fr.length
    · rw [List.getElem?_take_of_lt hi, key i hi, List.getElem?_eq_getElem hi]
    · rw [List.getElem?_eq_none (by omega), List.getElem?_eq_none]
      simp only [List.length_take]; omega
  have hbytes : bodyBytes fr <+: bodyBytes a.fr := prefix_flatten (prefix_map _ hpre)
  have htext : bodyText fr <+: bodyText a.fr := prefix_flatten (prefix_map _ hpre)
  refine ⟨w, a, wireHeader a.row.version a.hd ++ bodyBytes fr, tr, ha, ?_, List.prefix_append _ _, ?_, ?_, fun hne => ?_, fun hne hok => ?_, ?_⟩
  · rw [h1.consumed, hwire]
  · rw [hw.encrypted.released, List.append_assoc]
    obtain ⟨c, hc⟩ := hbytes
    rw [← hc]
    exact ⟨c ++ a.tr, by simp only [List.append_assoc]⟩
  · rw [h1.released, hw.encrypted.consumed]
    exact htext
  · obtain ⟨-, -, p, q1, q2⟩ := hfacts.shown hne
    unfold getAlgId
    rw [q1]
    simp only [(suiteFacts q2).id, hrow, (wf w a ha).2.2.2.2.2]
  · obtain ⟨q1, q2, -⟩ := hfacts.shown hne
    have hh := header_unique (x1 := []) (x2 := []) hv.ok hok (by
      rw [hwire]; exact congrArg (· ++ []) (wireHeader_received a.row.version a.hd).symm)
    unfold getEncCtx
    rw [if_neg (by simp [q2]), q1]
    have := congrArg Hdr.encCtx hh.2.1
    exact congrArg some this
  · intro hdone
    have hst : v.s.state = .done := by simpa [isDone] using hdone
    obtain ⟨⟨init, last, hfr, hinit, hlast⟩, hsig⟩ := h3 hst
    have hall : fr = a.fr := by
      obtain ⟨c, hc⟩ := hpre
      rcases hw.body with ⟨hon, -⟩ | ⟨⟨init', last', hfr', hinit', hlast'⟩, -⟩
      · exfalso
        refine hlast (hon last ?_)
        rw [← hc, hfr]; simp
      · rcases List.eq_nil_or_concat c with rfl | ⟨c', y, rfl⟩
        · simpa using hc
        · exfalso
          rw [hfr', List.concat_eq_append, ← List.append_assoc] at hc
          have := (List.append_inj' hc rfl).1
          refine hlast (hinit' last ?_)
          rw [← this, hfr]; simp
    refine ⟨by rw [h1.released, hw.encrypted.consumed, hall], hall ▸ ⟨init, last, hfr, hinit, hlast⟩, by rw [hall], fun hc => ?_⟩
    have ht : tr = [] := by
      unfold SignatureVerified at hsig
      rw [hrow, if_pos hc] at hsig
      exact hsig
    have hta : a.tr = [] := by
      rcases hw.body with ⟨-, h0⟩ | ⟨-, h0 | h0⟩
      · exact h0
      · exact h0
      · unfold Signed at h0
        rw [if_pos hc] at h0
        exact h0
    rw [h1.consumed, hw.encrypted.released, ht, hta, hwire, hall]

/-! ### a reader with an AEAD that opens what was sealed and nothing else -/

/-- The seals of a message: key, nonce, additional data, ciphertext, tag and plaintext. -/
def WrittenMessage.sealList (a : WrittenMessage) : List ((Bytes × Bytes × Bytes × Bytes × Bytes) × Bytes) :=
  ((a.k, List.replicate 12 0, wireAuthPart a.row.version a.hd, [], a.hd.authTag), []) ::
    a.fr.zipIdx.map (fun x => ((a.k, x.1.1.iv, bodyAad a.hd.messageId x.1.1.type (x.2 + 1) x.1.2.length, x.1.1.ciphertext,
      x.1.1.authtag), x.1.2))

def tableOpen (ms : List WrittenMessage) (k iv aad ct tag : Bytes) : Except Err Bytes :=
  match (ms.flatMap WrittenMessage.sealList).find? (fun x => x.1 == (k, iv, aad, ct, tag) && x.2.length == ct.length) with
  | some x => .ok x.2
  | none => .error .badCiphertext

/-- The environment `e`, but with an AEAD that opens the seals of the messages and nothing else. -/
def tableEnv (e : Env) (ms : List WrittenMessage) : Env :=
  { e with crypto := { e.crypto with
      aeadOpen := tableOpen ms
      aeadOpen_len := by
        intro k iv aad ct tag pt h
        unfold tableOpen at h
        split at h
        · rename_i x hx
          have := List.find?_some hx
          simp only [Bool.and_eq_true, beq_iff_eq] at this
          cases h
          exact this.2
        · cases h } }

theorem tableEnv_intact (e : Env) (ps : List (View × WrittenMessage)) (k : Bytes) :
    Intact (· = tableEnv e (ps.map Prod.snd)) k (fun w a => (w, a) ∈ ps) := by
  rintro _ rfl iv aad ct tag pt h
  have h : tableOpen (ps.map Prod.snd) k iv aad ct tag = .ok pt := h
  unfold tableOpen at h
  split at h
  · rename_i x hx
    have h1 := List.find?_some hx
    have h2 := List.mem_of_find?_eq_some hx
    simp only [Bool.and_eq_true, beq_iff_eq] at h1
    cases h
    obtain ⟨a, ha, hxa⟩ := List.mem_flatMap.mp h2
    obtain ⟨⟨w, a'⟩, hp, rfl⟩ := List.mem_map.mp ha
    simp only at hxa
    unfold WrittenMessage.sealList at hxa
    rcases List.mem_cons.mp hxa with rfl | hxa
    · simp only [Prod.mk.injEq] at h1
      exact ⟨w, a', hp, h1.1.1, Or.inl ⟨h1.1.2.1.symm, h1.1.2.2.1.symm, h1.1.2.2.2.1.symm, h1.1.2.2.2.2.symm⟩⟩
    · obtain ⟨y, hy, rfl⟩ := List.mem_map.mp hxa
      simp only [Prod.mk.injEq] at h1
      refine ⟨w, a', hp, h1.1.1, Or.inr ⟨y.2, y.1.1, ?_, h1.1.2.1.symm, h1.1.2.2.1.symm, h1.1.2.2.2.1.symm, h1.1.2.2.2.2.symm⟩⟩
      have := List.mem_zipIdx_iff_getElem?.mp hy
      simpa using this
  · cases h

theorem tableEnv_keysIntact (e : Env) (ps : List (View × WrittenMessage)) :
    KeysIntact (· = tableEnv e (ps.map Prod.snd)) (fun w a => (w, a) ∈ ps) :=
  fun _ _ _ _ _ _ _ k _ _ _ => tableEnv_intact e ps k

/-- A session that writes `t` in frames of four. -/
def writerHist (t : Bytes) : List (Env × Op) :=
  [(Example.envU, .setFrameSize 4), (Example.envU, .setMessageSize 6), (Example.envU, .process (Example.zeros 300) (some t))]

def writer (t : Bytes) : View := run Example.encNew (writerHist t)

/-- What it wrote. -/
def written (t : Bytes) : WrittenMessage where
  row := ⟨0x0478, 2, 256, 512, 0, 32⟩
  hd := (writer t).s.header.sorted
  m := ⟨0x0478, List.replicate 32 1, [Example.edk], [], none⟩
  k := List.replicate 32 5
  fr := [(⟨.frame, 1, bodyIv 1, t.take 4, List.replicate 16 7⟩, t.take 4), (⟨.final, 2, bodyIv 2, t.drop 4, List.replicate 16 7⟩, t.drop 4)]
  tr := []

theorem writer_reach (t : Bytes) : Reach (· = Example.envU) .requireRequire (writer t) :=
  Example.reach_hist (.new (mode := .encrypt) rfl) (writerHist t) (by simp [writerHist])

theorem written_wrote (t : Bytes) (ht : t = [1, 2, 3, 4, 5, 6] ∨ t = [7, 8, 9, 10, 11, 12]) : Wrote (· = Example.envU) (writer t) (written t) := by
  have hfl : (written t).hd.frameLen = 4 := by rcases ht with rfl | rfl <;> decide +kernel
  have hl : t.length = 6 := by rcases ht with rfl | rfl <;> rfl
  refine ⟨⟨⟨_, rfl, ?_⟩, ?_, ?_, ?_⟩, Or.inr ⟨⟨[_], _, rfl, ?_, ?_⟩, Or.inl rfl⟩⟩
  · have hmid : (written t).hd.messageId = List.replicate 32 6 := by rcases ht with rfl | rfl <;> decide +kernel
    have hctx : (written t).hd.encCtx = [] := by rcases ht with rfl | rfl <;> decide +kernel
    have hsd : (written t).hd.algSuiteData = List.replicate 32 5 := by rcases ht with rfl | rfl <;> decide +kernel
    refine ⟨by simp [written, suiteTable], ?_, ⟨⟨[], 0, 0, .requireRequire⟩, [], rfl, by rw [hctx]⟩, ?_, by rw [hmid]; rfl, ⟨?_, ?_⟩,
      ⟨[], ?_⟩, fun h => by simp [written] at h⟩
    · rcases ht with rfl | rfl <;> decide +kernel
    · rcases ht with rfl | rfl <;> decide +kernel
    · exact ⟨.sha512, rfl, by simp [written, Example.envU, Example.crypto]⟩
    · rw [hsd]; exact ⟨.sha512, rfl, rfl⟩
    · have : (written t).hd.authTag = List.replicate 16 7 := by rcases ht with rfl | rfl <;> decide +kernel
      rw [this]; rfl
  · intro i hi
    rw [hfl]
    have hi : i < 2 := hi
    rcases i with _ | _ | i
    · exact ⟨⟨rfl, rfl, by simp [written], ⟨by decide, by simp [written, hl], by simp [written]⟩⟩, rfl, rfl, rfl, ⟨by simp [written, hl], by decide⟩,
        fun h => by simp [written] at h, ⟨_, rfl, rfl⟩⟩
    · exact ⟨⟨rfl, rfl, by simp [written], ⟨by decide, by simp [written, hl]⟩⟩, rfl, rfl, rfl, by simp [WithinLimits, written, hl],
        fun h => by simp [written, hl], ⟨_, rfl, rfl⟩⟩
    · omega
  · rcases ht with rfl | rfl <;> decide +kernel
  · rcases ht with rfl | rfl <;> decide +kernel
  · intro x hx
    rw [List.mem_singleton.mp hx]
  · simp

theorem writer_encrypts (t : Bytes) (ht : t = [1, 2, 3, 4, 5, 6] ∨ t = [7, 8, 9, 10, 11, 12]) : ∃ E pol, Reach E pol (writer t) ∧
    (writer t).s.mode = .encrypt ∧ Wrote E (writer t) (written t) :=
  ⟨(· = Example.envU), .requireRequire, writer_reach t, by rcases ht with rfl | rfl <;> decide +kernel, written_wrote t ht⟩

attribute [local irreducible] writer written

theorem one_writer : HonestWriters (fun w a => (w, a) ∈ [(writer [1, 2, 3, 4, 5, 6], written [1, 2, 3, 4, 5, 6])]) where
  wrote w a h := by
    simp only [List.mem_singleton, Prod.mk.injEq] at h
    obtain ⟨rfl, rfl⟩ := h
    exact writer_encrypts [1, 2, 3, 4, 5, 6] (Or.inl rfl)
  fresh w w' a b h h' _ _ := by
    simp only [List.mem_singleton, Prod.mk.injEq] at h h'
    exact ⟨by rw [h.1, h'.1], by rw [h.2, h'.2]⟩

/-- One call of a new decrypting session. -/
theorem one_call (e : Env) (inp : Bytes) :
    Reach (· = e) .requireRequire (run (Example.decNew .decrypt) [(e, .process (Example.zeros 50) (some inp))]) :=
  Reach.call (.process (Example.zeros 50) (some inp)) (Example.decNew_reach (· = e) .decrypt (Or.inl rfl)) rfl

/-- A reader of that message, whose AEAD opens what is in it and nothing else. -/
def reader (inp : Bytes) : View :=
  run (Example.decNew .decrypt) [(tableEnv Example.envU [written [1, 2, 3, 4, 5, 6]], .process (Example.zeros 50) (some inp))]

/-- The hypotheses hold, and the reader accepts the message; with one bit of it changed, in the header or in a frame, it does not. -/
example : HonestWriters (fun w a => (w, a) ∈ [(writer [1, 2, 3, 4, 5, 6], written [1, 2, 3, 4, 5, 6])]) ∧
    KeysIntact (· = tableEnv Example.envU [written [1, 2, 3, 4, 5, 6]]) (fun w a => (w, a) ∈ [(writer [1, 2, 3, 4, 5, 6], written [1, 2, 3, 4, 5, 6])]) ∧
    Reach (· = tableEnv Example.envU [written [1, 2, 3, 4, 5, 6]]) .requireRequire (reader (writer [1, 2, 3, 4, 5, 6]).released) ∧
    isDone (reader (writer [1, 2, 3, 4, 5, 6]).released).s = true ∧
    (reader (writer [1, 2, 3, 4, 5, 6]).released).released = [1, 2, 3, 4, 5, 6] ∧
    (reader ((writer [1, 2, 3, 4, 5, 6]).released.set 50 1)).s.state = .error ∧
    (reader ((writer [1, 2, 3, 4, 5, 6]).released.set 118 1)).s.state = .error :=
  ⟨one_writer, tableEnv_keysIntact Example.envU [(writer [1, 2, 3, 4, 5, 6], written [1, 2, 3, 4, 5, 6])], one_call _ _, by decide +kernel, by decide +kernel, by decide +kernel, by decide +kernel⟩

/-- **C100** (message identifiers must differ): when two sessions write under one content key with one message identifier, a reader
whose AEAD opens nothing but their seals accepts a message that neither of them wrote. -/
theorem C100_fresh_identifiers_needed : ∃ (ps : List (View × WrittenMessage)) (v : View),
    (∀ p ∈ ps, ∃ E pol, Reach E pol p.1 ∧ p.1.s.mode = .encrypt ∧ Wrote E p.1 p.2) ∧
    Reach (· = tableEnv Example.envU (ps.map Prod.snd)) .requireRequire v ∧ v.s.mode.isDecrypt = true ∧
    KeysIntact (· = tableEnv Example.envU (ps.map Prod.snd)) (fun w a => (w, a) ∈ ps) ∧ isDone v.s = true ∧
    ∀ p ∈ ps, v.released ≠ p.1.consumed := by
  refine ⟨[(writer [1, 2, 3, 4, 5, 6], written [1, 2, 3, 4, 5, 6]), (writer [7, 8, 9, 10, 11, 12], written [7, 8, 9, 10, 11, 12])],
    run (Example.decNew .decrypt) [(tableEnv Example.envU [written [1, 2, 3, 4, 5, 6], written [7, 8, 9, 10, 11, 12]],
      .process (Example.zeros 50) (some ((writer [1, 2, 3, 4, 5, 6]).released.take
        ((wireHeader 2 (written [1, 2, 3, 4, 5, 6]).hd).length + 36) ++ (writer [7, 8, 9, 10, 11, 12]).released.drop
        ((wireHeader 2 (written [1, 2, 3, 4, 5, 6]).hd).length + 36))))], ?_, ?_, ?_, tableEnv_keysIntact _ _, ?_, ?_⟩
  · intro p hp
    simp only [List.mem_cons, List.not_mem_nil, or_false] at hp
    rcases hp with rfl | rfl
    · exact writer_encrypts [1, 2, 3, 4, 5, 6] (Or.inl rfl)
    · exact writer_encrypts [7, 8, 9, 10, 11, 12] (Or.inr rfl)
  · exact one_call _ _
  · decide +kernel
  · decide +kernel
  · decide +kernel

end Verif.Props
