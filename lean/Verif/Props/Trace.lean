import Verif.Spec.Trace
import Verif.Proof.Trace
import Verif.Proof.SessionTrace
import Verif.Props.KeyringTree
/-
The keyring trace tells the truth about which wrapping keys protect a message and which one opened it, and where there is memory it
tells all of it.
-/
namespace Verif.Props
open Spec

/-- A keyring that succeeds in encrypting: all wrapping keys in it made one encrypted data key each, in the order of the tree, and the
trace has for each of them in this order at most the record that belongs to it; the first of them made the data key, if there was none
before.  With memory for the records, none is missing. -/
theorem C93_encrypt {a : Around} (hz : GivesKeys1 a) (t : KrTree) {ctx : EncCtx} {alg : Nat} (hd : DistinctKeys ctx) {s s' : EncState} {k : KeyBuf}
    (hk : ∀ k, s.key = some k → RightLength alg k.bytes) (h : keyringOnEncrypt (t.keyring a []) ctx alg s = (.ok, s')) (hs : s'.key = some k) :
    (∃ recs, s'.trace = s.trace ++ recs ∧ recs.Sublist (wrapRecords s.key.isNone ((sources [] t).map Prod.snd)) ∧
      (TraceMemory a → recs = wrapRecords s.key.isNone ((sources [] t).map Prod.snd))) ∧
    ∃ es, s'.edks = s.edks ++ es ∧ InOrder (EdkOf a ctx k.bytes) (sources [] t) es := by
  have ht := tree_told hz hd t [] s s' hk h
  obtain ⟨recs, h1, h2⟩ := ht.trace
  obtain ⟨es, h3, h4⟩ := ht.edks
  rw [hs] at h4
  exact ⟨⟨recs, h1, h2.sub, h2.all⟩, es, h3, h4⟩

/-- A keyring that is asked to decrypt: if KMS does not answer with empty plaintexts, the trace stays as it was if there is no data key
afterwards, and otherwise gets one record: one of the keyrings, named by it, unwrapped this data key from one of the encrypted data
keys.  It can only be missing for lack of memory. -/
theorem C93_decrypt {a : Around} (ho : OpensKeys a) (t : KrTree) {edks : List Edk} {ctx : EncCtx} {alg : Nat} (hd : DistinctKeys ctx) {s s' : DecState}
    {r : KRet} (hk : s.key = none) (h : keyringOnDecrypt (t.keyring a []) edks ctx alg s = (r, s')) (hr : r ≠ .ub) :
    (s'.key = none → s'.trace = s.trace) ∧
    ∀ k, s'.key = some k → ∃ x ∈ leaves [] t, ∃ r, Unwrapped a edks ctx alg k.bytes x r ∧
      (s'.trace = s.trace ++ [r] ∨ s'.trace = s.trace ∧ ¬ TraceMemory a) := by
  obtain ⟨extra, last, h1, h2, h3⟩ := tree_opened hd t [] hk h hr
  have hx : extra = [] := by
    cases extra with
    | nil => rfl
    | cons y ys =>
      obtain ⟨p, kr, -, hu⟩ := h2 y (by simp)
      cases hu with
      | kms _ _ _ h => exact absurd rfl (ho _ _ _ _ _ _ h)
  subst hx
  refine ⟨fun hn => ?_, fun k hs => ?_⟩
  · rw [hn] at h3; subst h3; simp [h1]
  · rw [hs] at h3
    obtain ⟨x, hx, r, hu, rfl | ⟨rfl, hm⟩⟩ := h3
    · exact ⟨x, hx, r, hu, .inl (by simp [h1])⟩
    · exact ⟨x, hx, r, hu, .inr ⟨by simp [h1], hm⟩⟩

/-- The same without the assumption about KMS: before that record there may be records of KMS keyrings to which KMS gave an empty
plaintext. -/
theorem C93_decrypt_any {a : Around} (t : KrTree) {edks : List Edk} {ctx : EncCtx} {alg : Nat} (hd : DistinctKeys ctx) {s s' : DecState}
    {r : KRet} (hk : s.key = none) (h : keyringOnDecrypt (t.keyring a []) edks ctx alg s = (r, s')) (hr : r ≠ .ub) :
    OpenedBy a edks ctx alg (leaves [] t) s s' := tree_opened hd t [] hk h hr

/-- The trace that a session shows, whatever CMM it has, is the one that came with the materials for the present message. -/
theorem C93_session {E : Env → Prop} {pol : Policy} {v : View} (h : Reach E pol v) {tr : List TraceRec} (ht : getTrace v.s = some tr) :
    TraceOf E v.s tr := by
  unfold getTrace at ht
  split at ht
  · next hc => cases ht; exact h.tinv hc
  · cases ht

/-- A finished session shows a trace. -/
theorem C93_available {E : Env → Prop} {pol : Policy} {v : View} (h : Reach E pol v) (hd : isDone v.s = true) : ∃ tr, getTrace v.s = some tr := by
  have hst := h.hinv.inv.st
  have hs : v.s.state = .done := by simpa [isDone] using hd
  simp only [StInv, hs] at hst
  exact ⟨v.s.trace, by simp [getTrace, hst.2]⟩

/-- After a reset a session shows no trace, until it has materials for the next message. -/
theorem C93_reset (s : Session) (m : Mode) : getTrace (reset s m).1 = none := by
  have := tinv_reset (E := fun _ => False) s m
  unfold getTrace
  split
  · next hc => exact absurd (this hc) (fun ⟨_, h, _⟩ => h)
  · rfl

/-- An encryption session with a default CMM and a keyring of the library: the trace has in the order of the tree at most one record for
each wrapping key, the first says that the data key was made there; and with memory for the records it has all.  If the session has not
failed, the header has the encrypted data keys that these wrapping keys made of one data key, in the same order. -/
theorem C93_session_encrypt {A : Around → Prop} (hA : ∀ a, A a → GivesKeys1 a) {t : KrTree} {da : Option Nat} {pol : Policy} {v : View}
    (h : Reach (TreeSessions A t da) pol v) (hm : v.s.mode = .encrypt) {tr : List TraceRec} (ht : getTrace v.s = some tr) :
    ∃ a, A a ∧ tr.Sublist (wrapRecords true ((sources [] t).map Prod.snd)) ∧
      (TraceMemory a → tr = wrapRecords true ((sources [] t).map Prod.snd)) ∧
      (v.s.state ≠ .error → ∃ key, key ≠ [] ∧ InOrder (EdkOf a v.s.header.encCtx key) (sources [] t) v.s.header.edks) := by
  obtain ⟨_, ⟨a, ha, rfl⟩, ⟨-, req, m, hd, hg, rfl, hk0, hedks⟩ | ⟨hx, -⟩⟩ := C93_session h ht
  · have hg' := envWith_generate hg
    have hdc : DistinctKeys v.s.header.encCtx := by
      have := generate_distinct (env := a.world.cmmEnv) (c := ⟨t.keyring a [], da⟩) hd
      rw [hg'] at this
      exact this
    obtain ⟨-, -, row, hrow, hid, -, -, s, g5, g6, g7, g8, g9⟩ := C51_generate _ _ _ _ _ hg'
    cases hk : s.key with
    | none => exact absurd (g9 hk) hk0
    | some k =>
      obtain ⟨a1, a2⟩ := g8 k hk
      obtain ⟨⟨recs, h1, h2, h3⟩, es, h4, h5⟩ := C93_encrypt (hA a ha) t hdc (by simp) g5 hk
      simp only [List.nil_append] at h1 h4
      subst h4
      refine ⟨a, ha, by rw [g7, h1]; exact h2, fun hmem => by rw [g7, h1]; exact h3 hmem, fun hne => ⟨k.bytes, by rw [← a1]; exact hk0, ?_⟩⟩
      rw [hedks hne, g6]
      exact h5
  · rw [hm] at hx; cases hx

/-- A decryption session with a default CMM and a keyring of the library: the trace has one record, and that is of a keyring of the tree
that unwrapped a data key of the length that the suite needs from one of the encrypted data keys in the header. -/
theorem C93_session_decrypt {A : Around → Prop} (hA : ∀ a, A a → OpensKeys a) {t : KrTree} {da : Option Nat} {pol : Policy} {v : View}
    (h : Reach (TreeSessions A t da) pol v) (hm : v.s.mode.isDecrypt = true) {tr : List TraceRec} (ht : getTrace v.s = some tr) :
    ∃ a, A a ∧ ∃ x ∈ leaves [] t, ∃ key r, RightLength v.s.header.algId key ∧
      Unwrapped a v.s.header.edks v.s.header.encCtx v.s.header.algId key x r ∧ (tr = [r] ∨ tr = [] ∧ ¬ TraceMemory a) := by
  obtain ⟨_, ⟨a, ha, rfl⟩, ⟨hx, -⟩ | ⟨-, m, hg, rfl, hdc⟩⟩ := C93_session h ht
  · rw [hx] at hm; cases hm
  · have hx : (DefaultCmm.decrypt a.world.cmmEnv ⟨t.keyring a [], da⟩
        { encCtx := v.s.header.encCtx, edks := v.s.header.edks, alg := v.s.header.algId }).toExcept = .ok m := hg
    cases hdec : DefaultCmm.decrypt a.world.cmmEnv ⟨t.keyring a [], da⟩
        { encCtx := v.s.header.encCtx, edks := v.s.header.edks, alg := v.s.header.algId } with
    | err e => rw [hdec] at hx; cases hx
    | ub => rw [hdec] at hx; cases hx
    | ok y =>
      rw [hdec] at hx; cases hx
      have hmat : a.world.cmmEnv.allocMat = true := by
        cases hm : a.world.cmmEnv.allocMat with
        | true => rfl
        | false => simp [DefaultCmm.decrypt, hm] at hdec
      rw [C51_decrypt _ _ _ _ hmat] at hdec
      obtain ⟨s, k, row, d1, d2, -, -, -, d6, d7, d8, -⟩ := hdec
      obtain ⟨x, hx, r, hu, hl⟩ := (C93_decrypt (hA a ha) t hdc rfl d1 (by simp)).2 k d2
      refine ⟨a, ha, x, hx, k.bytes, r, d6 ▸ d7, hu, ?_⟩
      rw [d8]
      simpa using hl

/-! ### Examples -/

theorem C93_gives (n : Bool) : GivesKeys1 (C89_around n) := by
  intro p c r keyId ct pt hn h h0
  simp only [C89_around, Example.kmsEnv, Option.some.injEq, Prod.mk.injEq] at h
  rw [← h.2.2] at h0
  exact hn (by simpa using congrArg List.length h0)

/-- A KMS that refuses to give empty plaintexts. -/
def C93_around : Around :=
  { C89_around false with kms := fun _ => { Example.kmsEnv with
      decrypt := fun i c r => (Example.kmsEnv.decrypt i c r).bind fun x => if x.2 = [] then none else some x } }

theorem C93_opens : OpensKeys C93_around := by
  intro p i c r keyId pt h
  simp only [C93_around, Option.bind_eq_some_iff] at h
  obtain ⟨⟨x, y⟩, -, h⟩ := h
  simp only [Option.ite_none_left_eq_some, Option.some.injEq, Prod.mk.injEq] at h
  rw [← h.2.2]
  exact h.1

theorem C93_memory (n : Bool) : TraceMemory (C89_around n) where
  raw p := by simp [C89_around, C71_krEnv, Example.krEnv]
  kms p i := by simp [C89_around, Example.kmsEnv]
  multi p i := by simp [C89_around, Example.multiAlloc]

/-- The writer of C89: the MRK of KMS made the data key and encrypted it, then the AES key and two keys of KMS encrypted it.  The
assumptions of the theorems hold (`C93_gives`, `C93_memory`, `C93_opens`). -/
example : Reach (TreeSessions (· = C89_around true) C89_writer none) .requireRequire C89_written ∧ C89_written.s.mode = .encrypt ∧
    isDone C89_written.s = true ∧
    getTrace C89_written.s = some [⟨ascii "aws-kms", Example.mrkWest, 1 + 2 + 8⟩, ⟨Example.aes.ns, Example.aes.name, 2 + 8⟩,
      ⟨ascii "aws-kms", Example.arn1, 2 + 8⟩, ⟨ascii "aws-kms", Example.arn2, 2 + 8⟩] ∧
    wrapRecords true ((sources [] C89_writer).map Prod.snd) = [⟨ascii "aws-kms", Example.mrkWest, 1 + 2 + 8⟩,
      ⟨Example.aes.ns, Example.aes.name, 2 + 8⟩, ⟨ascii "aws-kms", Example.arn1, 2 + 8⟩, ⟨ascii "aws-kms", Example.arn2, 2 + 8⟩] := by
  refine ⟨?_, by decide +kernel, by decide +kernel, by decide +kernel, by rw [C89_sources]; decide +kernel⟩
  exact Example.reach_hist (E := TreeSessions (· = C89_around true) C89_writer none) (v := Example.encNew) (.new (mode := .encrypt) rfl) C89_hist
    (by simp [C89_hist, TreeSessions, C89_around])

/-- The reader of C89 shows the name of the key in the writer's region, though it used its own replica. -/
def C93_read : View :=
  (apply ((C71_world false).envWith (C89_reader.keyring C93_around []) none) (Example.decNew .decrypt)
    (.process (Example.zeros 6) (some C89_written.released))).1

example : Reach (TreeSessions (· = C93_around) C89_reader none) .requireRequire C93_read ∧ C93_read.s.mode.isDecrypt = true ∧
    isDone C93_read.s = true ∧ getTrace C93_read.s = some [⟨ascii "aws-kms", Example.mrkWest, 4 + 16⟩] := by
  refine ⟨?_, by decide +kernel, by decide +kernel, by decide +kernel⟩
  exact Reach.call (E := TreeSessions (· = C93_around) C89_reader none) (v := Example.decNew .decrypt) (pol := .requireRequire)
    (.process (Example.zeros 6) (some C89_written.released))
    (.new (mode := .decrypt) rfl) ⟨C93_around, rfl, rfl⟩

/-- The environment of the toys without memory for records of raw keyrings. -/
def C93_poor : Around := { C89_around true with kr := fun _ => { C71_krEnv 0 with alloc := fun x => x != .traceRecord } }

/-- Without memory for the record, the AES keyring succeeds without one: the claim "every wrapping key that encrypted the data key has a
record" is refuted. -/
theorem C93_refuted_record_missing : ∃ s', keyringOnEncrypt ((KrTree.leaf (.raw (.aes Example.aes))).keyring C93_poor []) [] 0x0178
    ⟨none, [], [], .unknown⟩ = (.ok, s') ∧ s'.edks.length = 1 ∧ s'.trace = [] :=
  ⟨_, Prod.ext (by decide +kernel : _ = KRet.ok) rfl, by decide +kernel, by decide +kernel⟩

def C93_alias : Bytes := ascii "arn:aws:kms:us-west-2:1234:alias/x"

/-- In this KMS, `C93_alias` is another name of the key `arn1`. -/
def C93_aliases : Around :=
  { C89_around true with kms := fun _ => { Example.kmsEnv with
      generate := fun c r => if r.keyId = C93_alias then Example.kmsEnv.generate c { r with keyId := Example.arn1 } else none } }

/-- For a key of KMS that is configured by an alias, the record has the alias, and the encrypted data key the name of the key: the claim
"the record names the key as the encrypted data key does" is refuted. -/
theorem C93_refuted_alias : ∃ s', keyringOnEncrypt ((KrTree.leaf (.kms ⟨[C93_alias], [], none⟩)).keyring C93_aliases []) [] 0x0178
    ⟨none, [], [], .unknown⟩ = (.ok, s') ∧ s'.trace.map (·.name) = [C93_alias] ∧ s'.edks.map (·.providerInfo) = [Example.arn1] :=
  ⟨_, Prod.ext (by decide +kernel : _ = KRet.ok) rfl, by decide +kernel, by decide +kernel⟩

/-- KMS answers with an empty plaintext, then the AES keyring opens its encrypted data key: there are two records of unwrapping, but
only one keyring unwrapped the data key.  The assumption `OpensKeys` of `C93_decrypt` is needed. -/
theorem C93_refuted_empty_plaintext :
    let e : Edk := ⟨ascii "aws-kms", Example.arn1, [Example.arn1.getLast?.getD 0]⟩
    let made := (keyringOnEncrypt ((KrTree.leaf (.raw (.aes Example.aes))).keyring (C89_around true) []) [] 0x0178 ⟨none, [], [], .unknown⟩).2
    let s' := (keyringOnDecrypt ((KrTree.multi [.leaf (.kms Example.kmsStrict), .leaf (.raw (.aes Example.aes))]).keyring (C89_around false) [])
      (e :: made.edks) [] 0x0178 ⟨none, [], .unknown⟩).2
    s'.key.isSome = true ∧ s'.trace = [⟨ascii "aws-kms", Example.arn1, 4 + 16⟩, ⟨Example.aes.ns, Example.aes.name, 4 + 16⟩] := by
  decide +kernel

end Verif.Props
