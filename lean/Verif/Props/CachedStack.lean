import Verif.Proof.CachedStack
import Verif.Props.Stack
/-
C83: the round trip through the whole library with caching CMMs and local caches on both sides.
-/
namespace Verif.Props
open Verif Verif.Spec

theorem sameRequest_message (v : View) : SameRequest (messageRequest v) ⟨v.s.header.sorted.encCtx, v.s.header.edks, v.s.header.algId⟩ :=
  ⟨sortByKey_perm _, rfl, rfl⟩

/-- The context of a message that was begun fits its header. -/
theorem message_fits {E1 : Env → Prop} {pol : Policy} {v1 : View} (hs : Storable E1) (h1 : Reach E1 pol v1) (hm : v1.s.mode = .encrypt)
    (hne : v1.s.state ≠ .error) (hnil : v1.released ≠ []) : wireLen v1.s.header.sorted.encCtx ≤ 65535 := by
  rcases msg_of hs h1 hm hne with ⟨-, h⟩ | ⟨row, hd, m, k, fr, tr, hM, -, -, b3, -⟩
  · exact absurd h hnil
  · subst b3
    exact hM.ok.ctxFits

section
variable {Pair : Curve → Nat → Nat → Prop} {RsaPair : Bytes → Bytes → Prop} {W1 W2 W3 : World → Prop} {sha : Bytes → Bytes}

/-- C83: a message written by a session with or without a cache, whatever the caches went through before, is read without error by a
session with or without a cache of a user who has a key for it, unless the digest collides on strings for the reader's requests. -/
theorem C83_reading_never_fails (hsha : ∀ x, (sha x).length = 64) (hP : Primitives Pair RsaPair W1 W2) (hh : ∀ w, W2 w → Healthy w)
    (kr1 kr2 : UserKr) (hc : CanRead RsaPair kr1 kr2) (hn : (members kr1).length < 65536) (hs : ∀ r ∈ members kr1, ShortNames r)
    (da1 da2 : Option Nat) (pol1 pol2 : Policy) (v1 v0 v : View) (h1 : Reach (Writers sha W1 kr1 da1) pol1 v1) (hm1 : v1.s.mode = .encrypt)
    (hne : v1.s.state ≠ .error) (hnil : v1.released ≠ []) (h0 : Reach (SteadyReaders sha (messageRequest v1) W2 kr2 da2) pol2 v0)
    (hr : ReadyToRead v1.s.header.algId v1.s.header.edks.length v0)
    (hv : Reading (SteadyReaders sha (messageRequest v1) W2 kr2 da2) v1.released v0 v)
    (env : Env) (he : SteadyReaders sha (messageRequest v1) W2 kr2 da2 env) (mem inp : Bytes) (hinp : v.consumed ++ inp <+: v1.released) :
    (apply env v (.process mem (some inp))).2 = .ok ∧ (apply env v (.process mem (some inp))).1.released <+: v1.consumed :=
  have hst := cached_storable (sha := sha) hP hn hs da1
  reading_never_fails_for (cached_opens hsha hP hh hc hn hs da1 da2 (messageRequest v1)) hst pol1 pol2 v1 v0 v h1 hm1
    ⟨sameRequest_message v1, message_fits hst h1 hm1 hne hnil⟩ hne hnil h0 hr hv env he mem inp hinp

theorem released_of_done {E1 : Env → Prop} {pol : Policy} {v1 : View} (h1 : Reach E1 pol v1) (hm : v1.s.mode = .encrypt)
    (hd1 : isDone v1.s = true) : v1.s.state ≠ .error ∧ v1.released ≠ [] := by
  have hst1 : v1.s.state = .done := by simpa [isDone] using hd1
  refine ⟨by rw [hst1]; simp, fun hr => ?_⟩
  obtain ⟨row, hd, m, k, fr, tr, a1, -⟩ := full_of_done h1 hm hd1
  have h := a1.released
  rw [hr] at h
  have hl := congrArg List.length h
  obtain ⟨e, -, hmade⟩ := a1.header
  obtain ⟨ct, hct⟩ := hmade.tag
  have ht := (e.crypto.aeadSeal_len _ _ _ _ _ _ hct).2
  unfold wireHeader at hl
  simp only [List.length_append, List.length_nil] at hl
  omega

/-- C83: once the writer is done, giving the reader the rest of the message and enough room ends with the whole plaintext. -/
theorem C83_reads_to_the_end (hsha : ∀ x, (sha x).length = 64) (hP : Primitives Pair RsaPair W1 W2) (hh : ∀ w, W2 w → Healthy w)
    (kr1 kr2 : UserKr) (hc : CanRead RsaPair kr1 kr2) (hn : (members kr1).length < 65536) (hs : ∀ r ∈ members kr1, ShortNames r)
    (da1 da2 : Option Nat) (pol1 pol2 : Policy) (v1 v0 v : View) (h1 : Reach (Writers sha W1 kr1 da1) pol1 v1) (hm1 : v1.s.mode = .encrypt)
    (hd1 : isDone v1.s = true) (h0 : Reach (SteadyReaders sha (messageRequest v1) W2 kr2 da2) pol2 v0)
    (hr : ReadyToRead v1.s.header.algId v1.s.header.edks.length v0)
    (hv : Reading (SteadyReaders sha (messageRequest v1) W2 kr2 da2) v1.released v0 v)
    (env : Env) (he : SteadyReaders sha (messageRequest v1) W2 kr2 da2 env) (mem inp : Bytes) (hinp : v.consumed ++ inp = v1.released)
    (hroom : v1.consumed.length ≤ v.released.length + mem.length) :
    (apply env v (.process mem (some inp))).2 = .ok ∧ isDone (apply env v (.process mem (some inp))).1.s = true ∧
    (apply env v (.process mem (some inp))).1.consumed = v1.released ∧
    (apply env v (.process mem (some inp))).1.released = v1.consumed :=
  have hst := cached_storable (sha := sha) hP hn hs da1
  have hx := released_of_done h1 hm1 hd1
  reads_to_the_end_for (cached_opens hsha hP hh hc hn hs da1 da2 (messageRequest v1)) hst pol1 pol2 v1 v0 v h1 hm1
    ⟨sameRequest_message v1, message_fits hst h1 hm1 hx.1 hx.2⟩ hd1 h0 hr hv env he mem inp hinp hroom

/-- C83: one call of `aws_cryptosdk_session_process_full` decrypts the message. -/
theorem C83_process_full (hsha : ∀ x, (sha x).length = 64) (hP : Primitives Pair RsaPair W1 W2) (hh : ∀ w, W2 w → Healthy w)
    (kr1 kr2 : UserKr) (hc : CanRead RsaPair kr1 kr2) (hn : (members kr1).length < 65536) (hs : ∀ r ∈ members kr1, ShortNames r)
    (da1 da2 : Option Nat) (pol1 pol2 : Policy) (v1 v0 : View) (h1 : Reach (Writers sha W1 kr1 da1) pol1 v1) (hm1 : v1.s.mode = .encrypt)
    (hd1 : isDone v1.s = true) (h0 : Reach (SteadyReaders sha (messageRequest v1) W2 kr2 da2) pol2 v0)
    (hr : ReadyToRead v1.s.header.algId v1.s.header.edks.length v0)
    (env : Env) (he : SteadyReaders sha (messageRequest v1) W2 kr2 da2 env) (mem : Bytes) (old : Nat) (hroom : v1.consumed.length ≤ mem.length) :
    (apply env v0 (.processFull mem (some v1.released) old)).2 = .ok ∧
    (apply env v0 (.processFull mem (some v1.released) old)).1.released = v1.consumed :=
  have hst := cached_storable (sha := sha) hP hn hs da1
  have hx := released_of_done h1 hm1 hd1
  process_full_for (cached_opens hsha hP hh hc hn hs da1 da2 (messageRequest v1)) hst pol1 pol2 v1 v0 h1 hm1
    ⟨sameRequest_message v1, message_fits hst h1 hm1 hx.1 hx.2⟩ hd1 h0 hr env he mem old hroom

/-- C83: even when calls of the reader fail (signature functions, clocks, digests, copies, storing in the cache), it never releases anything
but a prefix of the plaintext, and all of it, with the same encryption context, if it says that it is done. -/
theorem C83_round_trip (hsha : ∀ x, (sha x).length = 64) (hP : Primitives Pair RsaPair W1 W2) (kr1 kr2 : UserKr)
    (hc : CanRead RsaPair kr1 kr2) (hn : (members kr1).length < 65536) (hs : ∀ r ∈ members kr1, ShortNames r) (da1 da2 : Option Nat)
    (pol1 pol2 : Policy) (v1 v2 : View) (h1 : Reach (Writers sha W1 kr1 da1) pol1 v1)
    (h2 : Reach (Readers sha (messageRequest v1) W2 kr2 da2) pol2 v2) (hm1 : v1.s.mode = .encrypt) (hm2 : v2.s.mode.isDecrypt = true)
    (hd1 : isDone v1.s = true) (hpre : v2.consumed <+: v1.released) :
    v2.released <+: v1.consumed ∧
    (isDone v2.s = true → v2.released = v1.consumed ∧
      ∃ ctx1 ctx2, getEncCtx v1.s = some ctx1 ∧ getEncCtx v2.s = some ctx2 ∧ ctx1.Perm ctx2) :=
  round_trip_for (cached_undoes hsha hP hc da1 da2 (messageRequest v1)) (cached_storable hP hn hs da1) pol1 pol2 v1 v2 h1 h2
    (sameRequest_message v1) hm1 hm2 hd1 hpre

/-- C83: a cache does not help a reader none of whose keyrings is addressed by the message: it takes nothing of it and releases nothing. -/
theorem C83_strangers_read_nothing (hsha : ∀ x, (sha x).length = 64) (hP : Primitives Pair RsaPair W1 W3) (kr1 kr2 : UserKr)
    (hc : ∀ r ∈ members kr1, ∀ r' ∈ members kr2, NotFor r r') (hn : (members kr1).length < 65536)
    (hs : ∀ r ∈ members kr1, ShortNames r) (da1 da2 : Option Nat) (pol1 pol2 : Policy) (v1 v2 : View)
    (h1 : Reach (Writers sha W1 kr1 da1) pol1 v1) (h2 : Reach (Readers sha (messageRequest v1) W2 kr2 da2) pol2 v2)
    (hm1 : v1.s.mode = .encrypt) (hne : v1.s.state ≠ .error) (hm2 : v2.s.mode.isDecrypt = true) (hpre : v2.consumed <+: v1.released) :
    v2.consumed = [] ∧ v2.released = [] :=
  refused_reads_nothing_for (R := SameRequest (messageRequest v1)) (cached_storable hP hn hs da1)
    (fun _ _ _ _ _ _ _ he1 he2 hd h hp hR h' => cached_refuses hsha hc da1 da2 _ he1 he2 hd h hp hR h') h1 h2 hm1 (.inl hne)
    (sameRequest_message v1) hm2 hpre

end

/-- C83: no call of a caching CMM over a default CMM with raw keyrings runs into undefined behaviour, whatever its cache went through, if
suites are those of the table and, for decryption, the digests of the encrypted data keys do not fail. -/
theorem C83_no_undefined_behaviour {sha : Bytes → Bytes} {addr : Nat → Nat} {cap : Nat} {log : List CmmEvent} {c : Cache}
    (h : CmmHistory sha addr cap log c) (cmm : CachingCmm) (t : CacheTurn) (kr : UserKr) (da : Option Nat) :
    (∀ req, (req.requestedAlg = 0 ∨ ∃ row ∈ suiteTable, row.id = req.requestedAlg) →
      ∃ c' out, cachingGenerate sha cmm (t.genEnv kr da) req c = .ok (c', out)) ∧
    (∀ r, (∃ row ∈ suiteTable, row.id = r.alg) →
      (∀ e ∈ r.edks, e.providerId.length ≤ 65535 ∧ e.providerInfo.length ≤ 65535 ∧ e.ciphertext.length ≤ 65535) → t.ids.decEdkFails = none →
      ∃ c' out, cachingDecrypt sha cmm (t.decEnv kr da) r c = .ok (c', out)) ∧
    (∀ req, (DefaultCmm.generate t.up.cmmEnv ⟨kr.keyring t.up, da⟩ req).2 ≠ .ub) ∧
    (∀ req, (∃ row ∈ suiteTable, row.id = req.alg) → DefaultCmm.decrypt t.up.cmmEnv ⟨kr.keyring t.up, da⟩ req ≠ .ub) := by
  obtain ⟨h1, h2, -⟩ := C62_calls_return_partial h cmm
  refine ⟨fun req hreq => h1 _ req hreq ?_, fun r hr he hf => h2 _ r hr he hf, C71_no_undefined_behaviour t.up kr da⟩
  intro r ctx m hm
  exact (suite_of_generate (w := t.up) (kr := kr) (da := da) hm).1

/-! ### Examples -/

/-- A call of a caching CMM at which nothing fails, at time `now`. -/
def C83_turn (w : World) (now : Nat) : CacheTurn :=
  ⟨w, w, w, CmmExample.ids, some now, some now, true, true, none, some now, true, some now, true, true⟩

/-- The first message: its context, and a declared size of six bytes. -/
def C83_req : EncRequest := { encCtx := [([1], [2])], requestedAlg := 0, plaintextSize := 6, policy := .requireRequire }

/-- The cache of the writer after the first message. -/
def C83_cache1 : Option (List CmmEvent × Cache) :=
  CmmExample.play CmmExample.tsha [.gen CmmExample.cmm ((C83_turn (C71_world true) 10).genEnv C71_writer none) C83_req] ([], cacheNew (fun n => 8 * n) 4)

/-- The writer's environment for the second message. -/
def C83_writerEnv : Env :=
  match C83_cache1 with
  | some (_, c) => (C71_world true).cachedEnv CmmExample.tsha CmmExample.cmm (C83_turn (C71_world true) 11) C71_writer none c
  | none => (C71_world true).env C71_writer none

/-- The second message, in two slices. -/
def C83_hist : List (Env × Op) :=
  [(C83_writerEnv, .setFrameSize 4), (C83_writerEnv, .editCtx (fun _ => [([1], [2])]) (by simp [KeepsTable, DistinctKeys])),
   (C83_writerEnv, .setMessageSize 6), (C83_writerEnv, .process (Example.zeros 600) (some [1, 2, 3, 4, 5])),
   (C83_writerEnv, .process (Example.zeros 300) (some [5, 6]))]

def C83_written : View := run Example.encNew C83_hist

/-- The cache of the reader after a message with the same keys. -/
def C83_cache2 : Option (List CmmEvent × Cache) :=
  CmmExample.play CmmExample.tsha [.dec CmmExample.cmm ((C83_turn (C71_world false) 20).decEnv C71_reader none) (messageRequest C83_written)]
    ([], cacheNew (fun n => 8 * n) 4)

def C83_readerEnv : Env :=
  match C83_cache2 with
  | some (_, c) => (C71_world false).cachedEnv CmmExample.tsha CmmExample.cmm (C83_turn (C71_world false) 21) C71_reader none c
  | none => (C71_world false).env C71_reader none

theorem perm_two {α : Type} {s l : List α} (h : s.Perm l) (hl : l.length = 2) : s = l ∨ s = l.reverse := by
  match l, hl with
  | [a, b], _ =>
    match s, h.length_eq with
    | [x, y], _ =>
      have hx : x = a ∨ x = b := by simpa using h.mem_iff.mp (List.mem_cons_self (a := x) (l := [y]))
      rcases hx with rfl | rfl
      · have := (List.perm_cons x).mp h
        left; rw [List.perm_singleton.mp this]
      · have := (List.perm_cons x).mp (h.trans (List.Perm.swap _ _ _))
        right; rw [List.perm_singleton.mp this]; rfl

/-- The strings digested for a request with two entries in its context and two encrypted data keys. -/
def C83_strings (sha : Bytes → Bytes) (p : Bytes) (r : DecRequest) : List Bytes :=
  let cs := [wireCtx r.encCtx, wireCtx r.encCtx.reverse]
  let d := r.edks.map (fun e => sha (wireEdk e))
  cs ++ r.edks.map wireEdk ++
    cs.flatMap (fun y => [d, d.reverse].map (fun d => p ++ u16 r.alg ++ d.flatten ++ List.replicate 64 0 ++ sha y))

theorem C83_strings_all {sha : Bytes → Bytes} {p : Bytes} {r : DecRequest} (h1 : r.encCtx.length = 2) (h2 : r.edks.length = 2) {x : Bytes}
    (h : DecStrings sha p r x) : x ∈ C83_strings sha p r := by
  have hc : ∀ {y}, CtxString r.encCtx y → y = wireCtx r.encCtx ∨ y = wireCtx r.encCtx.reverse := by
    rintro y ⟨s, hs, rfl⟩
    rcases perm_two hs h1 with rfl | rfl
    · exact .inl rfl
    · exact .inr rfl
  unfold C83_strings
  simp only [List.mem_append]
  rcases h with h | ⟨e, he, rfl⟩ | ⟨y, ds, hy, hd, rfl⟩
  · rcases hc h with rfl | rfl <;> simp
  · exact .inl (.inr (List.mem_map_of_mem he))
  · right
    have hd' := perm_two hd (by simpa using h2)
    rw [List.mem_flatMap]
    refine ⟨y, by rcases hc hy with rfl | rfl <;> simp, ?_⟩
    rw [List.mem_map]
    exact ⟨ds, by rcases hd' with rfl | rfl <;> simp, rfl⟩

/-- The toy digest does not collide on the strings for the message. -/
theorem C83_no_collision : ¬ Collides CmmExample.tsha (DecStrings CmmExample.tsha CmmExample.cmm.partition (messageRequest C83_written))
    (DecStrings CmmExample.tsha CmmExample.cmm.partition (messageRequest C83_written)) := by
  rintro ⟨x, y, hx, hy, hne, heq⟩
  have h1 : (messageRequest C83_written).encCtx.length = 2 := by decide +kernel
  have h2 : (messageRequest C83_written).edks.length = 2 := by decide +kernel
  have key : ∀ x ∈ C83_strings CmmExample.tsha CmmExample.cmm.partition (messageRequest C83_written),
      ∀ y ∈ C83_strings CmmExample.tsha CmmExample.cmm.partition (messageRequest C83_written),
      CmmExample.tsha x = CmmExample.tsha y → x = y := by decide +kernel
  exact hne (key x (C83_strings_all h1 h2 hx) y (C83_strings_all h1 h2 hy) heq)

theorem C83_turn_good (nul : Bool) (now : Nat) (W : World → Prop) (h : W (C71_world nul)) : Turn W (C83_turn (C71_world nul) now) :=
  ⟨h, h, h, fun _ h => by cases h⟩

theorem C83_cmm_valid : CmmExample.cmm.Valid := ⟨by decide, by decide, by decide⟩

theorem C83_writerEnv_good : Writers CmmExample.tsha (· = C71_world true) C71_writer none C83_writerEnv := by
  have hs : C83_cache1.isSome = true := by decide +kernel
  unfold C83_writerEnv
  cases hr : cachingGenerate CmmExample.tsha CmmExample.cmm ((C83_turn (C71_world true) 10).genEnv C71_writer none) C83_req (cacheNew (fun n => 8 * n) 4) with
  | error f => unfold C83_cache1 at hs; simp only [CmmExample.play, hr] at hs; cases hs
  | ok x =>
    obtain ⟨c, out⟩ := x
    have hc : C83_cache1 = some ([.gen CmmExample.cmm ((C83_turn (C71_world true) 10).genEnv C71_writer none) C83_req out], c) := by
      unfold C83_cache1; simp only [CmmExample.play, hr]
    rw [hc]
    refine .inr ⟨_, _, _, c, _, _, _, .gen .new C83_cmm_valid hr, ?_, C83_cmm_valid, C83_turn_good true 11 _ rfl, rfl, trivial, rfl⟩
    intro ev hev
    rw [List.mem_singleton.mp hev]
    exact ⟨⟨_, C83_turn_good true 10 _ rfl, rfl⟩, by decide, by unfold DistinctKeys; decide⟩

theorem C83_readerEnv_good :
    SteadyReaders CmmExample.tsha (messageRequest C83_written) (fun w => ∃ n, w = C71_world n) C71_reader none C83_readerEnv := by
  have hs : C83_cache2.isSome = true := by decide +kernel
  unfold C83_readerEnv
  cases hr : cachingDecrypt CmmExample.tsha CmmExample.cmm ((C83_turn (C71_world false) 20).decEnv C71_reader none) (messageRequest C83_written)
    (cacheNew (fun n => 8 * n) 4) with
  | error f => unfold C83_cache2 at hs; simp only [CmmExample.play, hr] at hs; cases hs
  | ok x =>
    obtain ⟨c, out⟩ := x
    have hc : C83_cache2 =
        some ([.dec CmmExample.cmm ((C83_turn (C71_world false) 20).decEnv C71_reader none) (messageRequest C83_written) out], c) := by
      unfold C83_cache2; simp only [CmmExample.play, hr]
    rw [hc]
    refine .inr ⟨_, _, _, c, _, _, _, .dec .new C83_cmm_valid hr, ?_, C83_cmm_valid, C83_turn_good false 21 _ ⟨false, rfl⟩, ⟨false, rfl⟩,
      ⟨?_, rfl, rfl, rfl⟩, rfl⟩
    · intro ev hev
      rw [List.mem_singleton.mp hev]
      exact ⟨⟨_, C83_turn_good false 20 _ ⟨false, rfl⟩, rfl⟩, by decide +kernel, by unfold DistinctKeys; decide +kernel⟩
    · intro cmm' env req' out' hm
      have := List.mem_singleton.mp hm
      cases this
      exact C83_no_collision

/-- Where the answers of both caching CMMs come from. -/
def C83_upstream : Option Bool × Option Bool :=
  (match C83_cache1 with
    | none => none
    | some (_, c) =>
      match cachingGenerate CmmExample.tsha CmmExample.cmm ((C83_turn (C71_world true) 11).genEnv C71_writer none) C83_req c with
      | .error _ => none
      | .ok (_, out) => some out.upstream,
   match C83_cache2 with
    | none => none
    | some (_, c) =>
      match cachingDecrypt CmmExample.tsha CmmExample.cmm ((C83_turn (C71_world false) 21).decEnv C71_reader none) (messageRequest C83_written) c with
      | .error _ => none
      | .ok (_, out) => some out.upstream)

/-- All hypotheses of the theorems above hold for the users of C71 with a cache each (`C71_primitives` and the example there give the rest):
the writer's session writes six bytes with a key from its cache under the signing suite `0x0578`, and a new session of the reader gets the
key from its cache and reads the message. -/
example : (∀ x, (CmmExample.tsha x).length = 64) ∧ C83_upstream = (some false, some false) ∧
    Reach (Writers CmmExample.tsha (· = C71_world true) C71_writer none) .requireRequire C83_written ∧ C83_written.s.mode = .encrypt ∧
    isDone C83_written.s = true ∧ C83_written.consumed = [1, 2, 3, 4, 5, 6] ∧ C83_written.s.header.algId = 0x0578 ∧
    ReadyToRead C83_written.s.header.algId C83_written.s.header.edks.length (Example.decNew .decrypt) ∧
    SteadyReaders CmmExample.tsha (messageRequest C83_written) (fun w => ∃ n, w = C71_world n) C71_reader none C83_readerEnv ∧
    Reading (SteadyReaders CmmExample.tsha (messageRequest C83_written) (fun w => ∃ n, w = C71_world n) C71_reader none) C83_written.released
      (Example.decNew .decrypt)
      (apply C83_readerEnv (Example.decNew .decrypt) (.process (Example.zeros 2) (some (C83_written.released.take 100)))).1 ∧
    (apply C83_readerEnv (Example.decNew .decrypt) (.process (Example.zeros 6) (some C83_written.released))).1.released = [1, 2, 3, 4, 5, 6] := by
  have hid : C83_written.s.header.algId = 0x0578 := by decide +kernel
  refine ⟨fun x => by unfold CmmExample.tsha; rw [length_be], by decide +kernel, ?_, by decide +kernel, by decide +kernel, by decide +kernel, hid,
    ⟨by decide +kernel, by decide +kernel, ?_, by decide +kernel, Or.inl (by decide +kernel)⟩, C83_readerEnv_good,
    .call .start C83_readerEnv_good ⟨C83_written.released.drop 100, by decide +kernel⟩, by decide +kernel⟩
  · refine Example.reach_hist (E := Writers CmmExample.tsha (· = C71_world true) C71_writer none) (v := Example.encNew) (.new (mode := .encrypt) rfl)
      C83_hist ?_
    have h : ∀ x ∈ C83_hist, x.1 = C83_writerEnv := by simp [C83_hist]
    intro x hx
    rw [h x hx]
    exact C83_writerEnv_good
  · rw [hid]
    have hp : (Example.decNew .decrypt).s.policy = .requireRequire := by decide +kernel
    rw [hp]
    simp [suiteTable, MayDecrypt]

end Verif.Props
