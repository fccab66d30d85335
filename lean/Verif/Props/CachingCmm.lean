import Verif.Proof.CachingCmmInv
import Verif.Proof.CacheId
import Verif.Props.Crypto
import Verif.Props.Session
/-
C36, C37, C38, C39, C40, C59, C62 and C63: caching CMMs.
-/
namespace Verif.Props
open Verif Verif.Spec

variable {sha : Bytes → Bytes} {addr : Nat → Nat} {cap : Nat} {log : List CmmEvent} {c : Cache}

/-! ## a concrete history for the examples -/

namespace CmmExample

/-- A toy digest. -/
def tsha (x : Bytes) : Bytes := be 64 (unbe (1 :: x) % (2 ^ 512 - 569))

inductive Call where
  | gen (cmm : CachingCmm) (env : GenEnv) (req : EncRequest)
  | dec (cmm : CachingCmm) (env : DecEnv) (req : DecRequest)
  | clear

/-- The history that a list of calls makes. -/
def play (sha : Bytes → Bytes) : List Call → List CmmEvent × Cache → Option (List CmmEvent × Cache)
  | [], s => some s
  | .gen cmm env req :: cs, (log, c) =>
    match cachingGenerate sha cmm env req c with
    | .error _ => none
    | .ok (c, out) => play sha cs (.gen cmm env req out :: log, c)
  | .dec cmm env req :: cs, (log, c) =>
    match cachingDecrypt sha cmm env req c with
    | .error _ => none
    | .ok (c, out) => play sha cs (.dec cmm env req out :: log, c)
  | .clear :: cs, (log, c) =>
    match cacheClear c with
    | .error _ => none
    | .ok c => play sha cs (.clear :: log, c)

def Call.ok : Call → Prop
  | .gen cmm _ _ => cmm.Valid
  | .dec cmm _ _ => cmm.Valid
  | .clear => True

theorem play_history {calls : List Call} {log' : List CmmEvent} {c' : Cache} (h : CmmHistory sha addr cap log c)
    (hv : ∀ x ∈ calls, x.ok) (hp : play sha calls (log, c) = some (log', c')) : CmmHistory sha addr cap log' c' := by
  induction calls generalizing log c with
  | nil => cases hp; exact h
  | cons x xs ih =>
    have hx := hv x (.head _)
    have hxs := fun y hy => hv y (.tail _ hy)
    cases x with
    | gen cmm env req =>
      simp only [play] at hp
      cases hr : cachingGenerate sha cmm env req c with
      | error f => rw [hr] at hp; cases hp
      | ok r => rw [hr] at hp; exact ih (.gen h hx hr) hxs hp
    | dec cmm env req =>
      simp only [play] at hp
      cases hr : cachingDecrypt sha cmm env req c with
      | error f => rw [hr] at hp; cases hp
      | ok r => rw [hr] at hp; exact ih (.dec h hx hr) hxs hp
    | clear =>
      simp only [play] at hp
      cases hr : cacheClear c with
      | error f => rw [hr] at hp; cases hp
      | ok r => rw [hr] at hp; exact ih (.clear h hr) hxs hp

def ids : IdEnv := ⟨none, none, none, none⟩
def put (now : Nat) : PutEnv := ⟨some now, true, some now, true, fun _ => some [7]⟩
def get : GetEnv := ⟨true, none, fun a k => .ok ⟨⟨a, some (unbe k), none⟩, []⟩⟩
def edk : Edk := ⟨[1], [2], [3]⟩

/-- The upstream CMM answers with data key `key` for suite `alg`; the clock reads `now`. -/
def genv (alg now : Nat) (key : Bytes) : GenEnv :=
  ⟨ids, some now, some now, true, get, fun r => (r.encCtx, .ok ⟨alg, key, [edk], [], none⟩), put now, true⟩
def denv (now : Nat) (key : Bytes) : DecEnv := ⟨ids, some now, some now, true, get, fun r => .ok ⟨r.alg, key, [], none⟩, put now, true⟩

/-- Three messages, hundred bytes, fifty nanoseconds. -/
def cmm : CachingCmm := ⟨List.replicate 64 1, 3, 100, 50⟩
def cmm2 : CachingCmm := ⟨List.replicate 64 2, 2 ^ 32, 2 ^ 63 - 1, 2 ^ 64 - 1⟩

def req (size : Nat) : EncRequest := { encCtx := [([1], [2])], requestedAlg := 0, plaintextSize := size, policy := .forbidAllow }
def dreq : DecRequest := { encCtx := [([1], [2])], edks := [edk, ⟨[4], [], [5]⟩], alg := 0x0178 }
def dreq' : DecRequest := { encCtx := [([1], [2])], edks := [⟨[4], [], [5]⟩, edk], alg := 0x0178 }

/-- A miss and a hit for encryption, the same for decryption (with the encrypted data keys in another order), another partition, a
message that is too long for the cache, and an expired entry. -/
def calls : List Call :=
  [.gen cmm (genv 0x0178 10 [1, 1]) (req 30), .gen cmm (genv 0x0178 20 [2, 2]) (req 40), .dec cmm (denv 21 [1, 1]) dreq,
   .dec cmm (denv 22 [9, 9]) dreq', .gen cmm2 (genv 0x0178 23 [3, 3]) (req 30), .gen cmm (genv 0x0178 24 [4, 4]) (req 101),
   .gen cmm (genv 0x0178 61 [5, 5]) (req 1), .gen cmm (genv 0x0178 62 [6, 6]) (req 99)]

theorem valid : cmm.Valid ∧ cmm2.Valid := by
  refine ⟨⟨?_, ?_, rfl⟩, ⟨?_, ?_, rfl⟩⟩ <;> decide

/-- What of a history can be checked by evaluation. -/
def summary (log : List CmmEvent) : List (Option Bytes × Bool) :=
  log.map fun
    | .gen _ _ _ out => (match out.res with | .ok m => some m.dataKey | .error _ => none, out.upstream)
    | .dec _ _ _ out => (match out.res with | .ok m => some m.dataKey | .error _ => none, out.upstream)
    | .clear => (none, false)

theorem calls_ok : ∀ x ∈ calls, x.ok := by
  intro x hx
  simp only [calls, List.mem_cons, List.mem_nil_iff, or_false] at hx
  rcases hx with rfl | rfl | rfl | rfl | rfl | rfl | rfl | rfl <;> first | exact valid.1 | exact valid.2

theorem history : ∃ log c, CmmHistory tsha id 16 log c ∧
    summary log = [(some [5, 5], false), (some [5, 5], true), (some [4, 4], true), (some [3, 3], true), (some [1, 1], false),
      (some [1, 1], true), (some [1, 1], false), (some [1, 1], true)] := by
  have h : ((play tsha calls ([], cacheNew id 16)).map (fun x => summary x.1)) =
      some [(some [5, 5], false), (some [5, 5], true), (some [4, 4], true), (some [3, 3], true), (some [1, 1], false),
        (some [1, 1], true), (some [1, 1], false), (some [1, 1], true)] := by decide +kernel
  cases hp : play tsha calls ([], cacheNew id 16) with
  | none => rw [hp] at h; cases h
  | some x =>
    rw [hp] at h
    exact ⟨x.1, x.2, play_history .new calls_ok hp, Option.some.inj h⟩

end CmmExample

/-! ## configuration -/

/-- Constructor and setters of a caching CMM only produce limits between 1 and 2^32 messages and of at most 2^63 - 1 bytes. -/
theorem C36_config_valid (hsha : ∀ x, (sha x).length = 64) :
    (∀ name random ttl unit cmm, random.length = 64 → cachingCmmNew sha name random ttl unit = .ok cmm → cmm.Valid) ∧
    (∀ cmm : CachingCmm, cmm.Valid → ∀ n, (cmm.setLimitBytes n).1.Valid ∧
      ((cmm.setLimitBytes n).2 = .ok () → (cmm.setLimitBytes n).1 = { cmm with limitBytes := n }) ∧
      ((cmm.setLimitBytes n).2 ≠ .ok () → (cmm.setLimitBytes n).1 = cmm)) ∧
    (∀ cmm : CachingCmm, cmm.Valid → ∀ n, (cmm.setLimitMessages n).1.Valid ∧
      ((cmm.setLimitMessages n).2 = .ok () → (cmm.setLimitMessages n).1 = { cmm with limitMessages := n }) ∧
      ((cmm.setLimitMessages n).2 ≠ .ok () → (cmm.setLimitMessages n).1 = cmm)) ∧
    (∀ cmm : CachingCmm, cmm.Valid → ∀ t u, (cmm.setTtl t u).1.Valid) := by
  refine ⟨?_, ?_, ?_, ?_⟩
  · intro name random ttl unit cmm hr h
    unfold cachingCmmNew at h
    split at h
    · cases h
    · cases h
      refine ⟨by simp [maxLimitMessages], Nat.le_refl _, ?_⟩
      cases name with
      | none => exact hr
      | some s => exact hsha s
  · intro cmm hv n
    unfold CachingCmm.setLimitBytes
    by_cases hn : n > 2 ^ 63 - 1
    · rw [if_pos hn]; exact ⟨hv, by simp, by simp⟩
    · rw [if_neg hn]; exact ⟨⟨hv.messages, by simp only; omega, hv.partition⟩, by simp, by simp⟩
  · intro cmm hv n
    unfold CachingCmm.setLimitMessages maxLimitMessages
    by_cases hn : n = 0 ∨ n > 2 ^ 32
    · rw [if_pos hn]; exact ⟨hv, by simp, by simp⟩
    · rw [if_neg hn]; exact ⟨⟨by simp only; omega, hv.bytes, hv.partition⟩, by simp, by simp⟩
  · intro cmm hv t u
    unfold CachingCmm.setTtl
    split
    · exact hv
    · exact ⟨hv.messages, hv.bytes, hv.partition⟩

/-! ## C36: messages -/

/-- When a caching CMM answers an encryption request, the data key of the answer has been used, including this time, for at most the
configured number of messages. -/
theorem C36_message_limit {cmm : CachingCmm} {env : GenEnv} {req : EncRequest} {out : GenOut}
    (h : CmmHistory sha addr cap (.gen cmm env req out :: log) c) (hf : FreshKeys (.gen cmm env req out :: log)) (m : EncMaterials)
    (hm : out.res = .ok m) : messagesWith m.dataKey (.gen cmm env req out :: log) ≤ cmm.limitMessages := by
  cases h with
  | gen hh hv hr => exact ((CmmHistory.count_gen hh.ok (hh.count (freshKeys_tail hf)) hv hr hf).2 m hm).1

/-- No data key is ever used for more messages than the largest limit in force. -/
theorem C36_message_limit_total (h : CmmHistory sha addr cap log c) (hf : FreshKeys log) (L : Nat)
    (hL : ∀ cmm env req out, .gen cmm env req out ∈ log → cmm.limitMessages ≤ L) (k : Bytes) : messagesWith k log ≤ L := by
  induction h with
  | new => exact Nat.zero_le _
  | @gen log c cmm env req c' out hh hv hr ih =>
    by_cases hs : servedKey (.gen cmm env req out) = some k
    · cases hres : out.res with
      | error e => simp [servedKey, hres] at hs
      | ok m =>
        have hk : m.dataKey = k := by simpa [servedKey, hres] using hs
        have := C36_message_limit (.gen hh hv hr) hf m hres
        rw [hk] at this
        exact Nat.le_trans this (hL cmm env req out (.head _))
    · rw [messagesWith_cons, if_neg hs, Nat.zero_add]
      exact ih (freshKeys_tail hf) (fun a b c d hm => hL a b c d (.tail _ hm))
  | dec hh hv hr ih =>
    rw [messagesWith_cons, if_neg (by simp [servedKey]), Nat.zero_add]
    exact ih (freshKeys_tail hf) (fun a b c d hm => hL a b c d (.tail _ hm))
  | clear hh hr ih =>
    rw [messagesWith_cons, if_neg (by simp [servedKey]), Nat.zero_add]
    exact ih (freshKeys_tail hf) (fun a b c d hm => hL a b c d (.tail _ hm))

/-! ## C37: bytes -/

/-- When a caching CMM answers an encryption request, the declared sizes of all messages served with the data key of the answer sum up
to at most the configured limit; or else this is the first message with this key, and it is itself longer than the limit. -/
theorem C37_byte_limit {cmm : CachingCmm} {env : GenEnv} {req : EncRequest} {out : GenOut}
    (h : CmmHistory sha addr cap (.gen cmm env req out :: log) c) (hf : FreshKeys (.gen cmm env req out :: log)) (m : EncMaterials)
    (hm : out.res = .ok m) : bytesWith m.dataKey (.gen cmm env req out :: log) ≤ cmm.limitBytes ∨
      (messagesWith m.dataKey log = 0 ∧ cmm.limitBytes < req.plaintextSize) := by
  cases h with
  | gen hh hv hr => exact ((CmmHistory.count_gen hh.ok (hh.count (freshKeys_tail hf)) hv hr hf).2 m hm).2

/-- For every data key: the declared sizes of the messages served with it sum up to at most the largest limit in force, or it served
just one message, longer than the limit at the time. -/
theorem C37_byte_limit_total (h : CmmHistory sha addr cap log c) (hf : FreshKeys log) (L : Nat)
    (hL : ∀ cmm env req out, .gen cmm env req out ∈ log → cmm.limitBytes ≤ L) (k : Bytes) :
    bytesWith k log ≤ L ∨ ∃ cmm env req out, servedWith k log = [.gen cmm env req out] ∧ cmm.limitBytes < req.plaintextSize := by
  have skip : ∀ x (log : List CmmEvent), servedKey x ≠ some k → servedWith k (x :: log) = servedWith k log := by
    intro x log hs; unfold servedWith; rw [List.filter_cons]; simp [hs]
  have skipb : ∀ x (log : List CmmEvent), servedKey x ≠ some k → bytesWith k (x :: log) = bytesWith k log := by
    intro x log hs; unfold bytesWith; rw [skip x log hs]
  induction h with
  | new => exact .inl (Nat.zero_le _)
  | @gen log c cmm env req c' out hh hv hr ih =>
    by_cases hs : servedKey (.gen cmm env req out) = some k
    · cases hres : out.res with
      | error e => simp [servedKey, hres] at hs
      | ok m =>
        have hk : m.dataKey = k := by simpa [servedKey, hres] using hs
        have := C37_byte_limit (.gen hh hv hr) hf m hres
        rw [hk] at this
        rcases this with h1 | ⟨h1, h2⟩
        · exact .inl (Nat.le_trans h1 (hL cmm env req out (.head _)))
        · refine .inr ⟨cmm, env, req, out, ?_, h2⟩
          unfold messagesWith at h1
          have h3 := List.length_eq_zero_iff.mp h1
          unfold servedWith at h3 ⊢
          rw [List.filter_cons, h3]; simp [hs]
    · rw [skip _ _ hs, skipb _ _ hs]
      exact ih (freshKeys_tail hf) (fun a b c d hm => hL a b c d (.tail _ hm))
  | dec hh hv hr ih =>
    rw [skip _ _ (by simp [servedKey]), skipb _ _ (by simp [servedKey])]
    exact ih (freshKeys_tail hf) (fun a b c d hm => hL a b c d (.tail _ hm))
  | clear hh hr ih =>
    rw [skip _ _ (by simp [servedKey]), skipb _ _ (by simp [servedKey])]
    exact ih (freshKeys_tail hf) (fun a b c d hm => hL a b c d (.tail _ hm))

/-! ## C38: time -/

/-- The time to live is the configured one in nanoseconds, at most 2^64 - 1 (which stands for no limit); zero and unknown units are
refused. -/
theorem C38_configured_ttl (cmm : CachingCmm) (ttl perSecond : Nat) :
    (ttl ≠ 0 → perSecond ∈ [1, 1000, 1000000, 1000000000] →
      cmm.setTtl ttl perSecond = ({ cmm with ttl := min (ttl * (1000000000 / perSecond)) (2 ^ 64 - 1) }, .ok ())) ∧
    (ttl = 0 ∨ perSecond ∉ [1, 1000, 1000000, 1000000000] → cmm.setTtl ttl perSecond = (cmm, .error .invalidArgument)) := by
  unfold CachingCmm.setTtl convertTtl
  constructor
  · intro h0 hu
    simp only [List.mem_cons, List.mem_nil_iff, or_false] at hu
    have hne : ¬ (ttl = 0 ∨ (perSecond ≠ 1 ∧ perSecond ≠ 1000 ∧ perSecond ≠ 1000000 ∧ perSecond ≠ 1000000000)) := by omega
    rw [if_neg hne]
    have hpos : min (1000000000 / perSecond * ttl) (2 ^ 64 - 1) ≠ 0 := by
      rcases hu with rfl | rfl | rfl | rfl <;> simp only [Nat.reduceDiv] <;> omega
    rw [if_neg hpos, Nat.mul_comm]
  · intro h
    simp only [List.mem_cons, List.mem_nil_iff, or_false] at h
    have hc : ttl = 0 ∨ (perSecond ≠ 1 ∧ perSecond ≠ 1000 ∧ perSecond ≠ 1000000 ∧ perSecond ≠ 1000000000) := by omega
    rw [if_pos hc, if_pos rfl]

/-- The constructor takes the same times to live, refuses the same, and begins with the widest limits and a partition of its own or that
of the given name. -/
theorem C38_configured_ttl_new (sha : Bytes → Bytes) (name : Option Bytes) (random : Bytes) (ttl perSecond : Nat) :
    (ttl ≠ 0 → perSecond ∈ [1, 1000, 1000000, 1000000000] → cachingCmmNew sha name random ttl perSecond =
      .ok ⟨(match name with | some s => sha s | none => random), 2 ^ 32, 2 ^ 63 - 1, min (ttl * (1000000000 / perSecond)) (2 ^ 64 - 1)⟩) ∧
    (ttl = 0 ∨ perSecond ∉ [1, 1000, 1000000, 1000000000] → cachingCmmNew sha name random ttl perSecond = .error .invalidArgument) := by
  unfold cachingCmmNew convertTtl
  constructor
  · intro h0 hu
    simp only [List.mem_cons, List.mem_nil_iff, or_false] at hu
    have hne : ¬ (ttl = 0 ∨ (perSecond ≠ 1 ∧ perSecond ≠ 1000 ∧ perSecond ≠ 1000000 ∧ perSecond ≠ 1000000000)) := by omega
    rw [if_neg hne]
    have hpos : min (1000000000 / perSecond * ttl) (2 ^ 64 - 1) ≠ 0 := by
      rcases hu with rfl | rfl | rfl | rfl <;> simp only [Nat.reduceDiv] <;> omega
    rw [if_neg hpos, Nat.mul_comm]
    rfl
  · intro h
    simp only [List.mem_cons, List.mem_nil_iff, or_false] at h
    have hc : ttl = 0 ∨ (perSecond ≠ 1 ∧ perSecond ≠ 1000 ∧ perSecond ≠ 1000000 ∧ perSecond ≠ 1000000000) := by omega
    rw [if_pos hc, if_pos rfl]

/-- Both cases occur. -/
example : (cachingCmmNew id none [1] 5 1000).toOption.map CachingCmm.ttl = some 5000000 ∧ cachingCmmNew id none [1] 0 1 = .error .invalidArgument := by
  decide +kernel

/-- An encryption request served from the cache is served with materials that the upstream CMM gave for an earlier request of the
history and that were stored at a time `t` after which less than the time to live has passed. -/
theorem C38_encrypt {cmm : CachingCmm} {env : GenEnv} {req : EncRequest} {out : GenOut} {m : EncMaterials}
    (h : CmmHistory sha addr cap (.gen cmm env req out :: log) c) (hu : out.upstream = false) (hm : out.res = .ok m) :
    ∃ cmm0 env0 req0 out0 m0 t, .gen cmm0 env0 req0 out0 ∈ log ∧ out0.upstream = true ∧ out0.res = .ok m0 ∧ m0.dataKey = m.dataKey ∧
      env0.put.clkNew = some t ∧ WithinTtl cmm.ttl env.clkTtl t := by
  cases h with
  | gen hh hv hr =>
    cases (cachingGenerate_ok hh.ok hr).2 with
    | bypass _ ho _ => rw [ho] at hu; cases hu
    | noId _ e he _ => rw [he] at hm; cases hm
    | missFail _ _ _ _ h1 _ => rw [hu] at h1; cases h1
    | miss _ _ _ _ _ _ _ h1 _ _ => rw [hu] at h1; cases h1
    | hit id hid hs _ m' hres n e m0 ectx hh' =>
      rw [hm] at hres; cases hres
      have hp := hh.prov n e hh'.mem
      unfold Prov at hp
      rw [hh'.mat] at hp
      obtain ⟨cmm0, env0, req0, out0, m1, h1, h2, h3, h4, h5, h6, h7, h8⟩ := hp
      obtain ⟨sc, -, h9⟩ := hh'.sig
      exact ⟨cmm0, env0, req0, out0, m1, e.creation, h1, h2, h3, by rw [h9, h4], h7, hh'.ttl⟩

/-- The same for decryption requests. -/
theorem C38_decrypt {cmm : CachingCmm} {env : DecEnv} {req : DecRequest} {out : DecOut} {m : DecMaterials}
    (h : CmmHistory sha addr cap (.dec cmm env req out :: log) c) (hu : out.upstream = false) (hm : out.res = .ok m) :
    ∃ cmm0 env0 req0 out0 m0 t, .dec cmm0 env0 req0 out0 ∈ log ∧ out0.upstream = true ∧ out0.res = .ok m0 ∧ m0.dataKey = m.dataKey ∧
      env0.put.clkNew = some t ∧ WithinTtl cmm.ttl env.clkTtl t := by
  cases h with
  | dec hh hv hr =>
    cases (cachingDecrypt_ok hh.ok hr).2 with
    | bypass _ ho _ => rw [ho] at hu; cases hu
    | noId _ e he _ => rw [he] at hm; cases hm
    | missFail _ _ _ h1 _ => rw [hu] at h1; cases h1
    | miss _ _ _ _ _ h1 _ => rw [hu] at h1; cases h1
    | hit id hid _ m' hres n e m0 hh' _ =>
      rw [hm] at hres; cases hres
      have hp := hh.prov n e hh'.mem
      unfold Prov at hp
      rw [hh'.mat] at hp
      obtain ⟨cmm0, env0, req0, out0, m1, h1, h2, h3, h4, h6, h7, h8⟩ := hp
      obtain ⟨sc, -, h9⟩ := hh'.sig
      exact ⟨cmm0, env0, req0, out0, m1, e.creation, h1, h2, h3, by rw [h9, h4], h7, hh'.ttl⟩

/-! ## C39: bypass -/

/-- A request longer than the byte limit goes to the upstream CMM; the cache is neither read nor changed. -/
theorem C39_oversize_bypass_partial (cmm : CachingCmm) (env : GenEnv) (req : EncRequest) (hs : cmm.limitBytes < req.plaintextSize) :
    cachingGenerate sha cmm env req c = .ok (c, ⟨(env.up req).1, (env.up req).2, true⟩) := by
  unfold cachingGenerate genBypass
  rw [if_pos hs]

/-- So does one of unknown length, which the library represents as 2^64 - 1. -/
theorem C39_unknown_size_bypass (cmm : CachingCmm) (hv : cmm.Valid) (env : GenEnv) (req : EncRequest) (hs : req.plaintextSize = 2 ^ 64 - 1) :
    cachingGenerate sha cmm env req c = .ok (c, ⟨(env.up req).1, (env.up req).2, true⟩) := by
  have := hv.bytes
  exact C39_oversize_bypass_partial cmm env req (by omega)

/-! ## C40: isolation -/

/-- Encryption requests with the same cache identifier agree in partition, requested algorithm and encryption context, or the hash
function collides on strings digested for them. -/
theorem C40_encrypt_ids (hsha : ∀ x, (sha x).length = 64) {v1 v2 : IdEnv} {cmm1 cmm2 : CachingCmm} {r1 r2 : EncRequest} {id : Bytes}
    (hv1 : cmm1.Valid) (hv2 : cmm2.Valid) (h1 : hashEnc sha v1 cmm1.partition r1 = .ok id) (h2 : hashEnc sha v2 cmm2.partition r2 = .ok id)
    (ha1 : r1.requestedAlg < 65536) (ha2 : r2.requestedAlg < 65536) (d1 : DistinctKeys r1.encCtx) (d2 : DistinctKeys r2.encCtx) :
    Collides sha (EncStrings sha cmm1.partition r1) (EncStrings sha cmm2.partition r2) ∨
    (cmm1.partition = cmm2.partition ∧ r1.requestedAlg = r2.requestedAlg ∧ SameMap r1.encCtx r2.encCtx) :=
  Classical.or_iff_not_imp_left.mpr (encIds_inj hsha h1 h2 hv1.partition hv2.partition ha1 ha2 d1 d2)

/-- Decryption requests with the same cache identifier agree in partition, algorithm, encryption context and encrypted data keys (up to
their order), or the hash function collides on strings digested for them. -/
theorem C40_decrypt_ids (hsha : ∀ x, (sha x).length = 64) {v1 v2 : IdEnv} {cmm1 cmm2 : CachingCmm} {r1 r2 : DecRequest} {id : Bytes}
    (hv1 : cmm1.Valid) (hv2 : cmm2.Valid) (h1 : hashDec sha v1 cmm1.partition r1 = .ok (.ok id))
    (h2 : hashDec sha v2 cmm2.partition r2 = .ok (.ok id)) (ha1 : r1.alg < 65536) (ha2 : r2.alg < 65536) (d1 : DistinctKeys r1.encCtx)
    (d2 : DistinctKeys r2.encCtx) :
    Collides sha (DecStrings sha cmm1.partition r1) (DecStrings sha cmm2.partition r2) ∨
    (cmm1.partition = cmm2.partition ∧ r1.alg = r2.alg ∧ SameMap r1.encCtx r2.encCtx ∧ r1.edks.Perm r2.edks) :=
  Classical.or_iff_not_imp_left.mpr (decIds_inj hsha h1 h2 hv1.partition hv2.partition ha1 ha2 d1 d2)

/-- An encryption and a decryption request have the same cache identifier only if the hash function collides on strings digested for
them. -/
theorem C40_kinds (hsha : ∀ x, (sha x).length = 64) {v1 v2 : IdEnv} {cmm1 cmm2 : CachingCmm} {r1 : EncRequest} {r2 : DecRequest}
    {id : Bytes} (hv1 : cmm1.Valid) (hv2 : cmm2.Valid) (h1 : hashEnc sha v1 cmm1.partition r1 = .ok id)
    (h2 : hashDec sha v2 cmm2.partition r2 = .ok (.ok id)) :
    Collides sha (EncStrings sha cmm1.partition r1) (DecStrings sha cmm2.partition r2) :=
  kinds_collide hsha h1 h2 hv1.partition hv2.partition

/-- Every configuration in a history is valid. -/
theorem CmmHistory.valid (h : CmmHistory sha addr cap log c) : (∀ cmm env req out, .gen cmm env req out ∈ log → cmm.Valid) ∧
    (∀ cmm env req out, .dec cmm env req out ∈ log → cmm.Valid) := by
  induction h with
  | new => exact ⟨by simp, by simp⟩
  | gen hh hv hr ih =>
    refine ⟨fun a b c d hm => ?_, fun a b c d hm => ?_⟩
    · rcases List.mem_cons.mp hm with hm | hm
      · cases hm; exact hv
      · exact ih.1 a b c d hm
    · rcases List.mem_cons.mp hm with hm | hm
      · cases hm
      · exact ih.2 a b c d hm
  | dec hh hv hr ih =>
    refine ⟨fun a b c d hm => ?_, fun a b c d hm => ?_⟩
    · rcases List.mem_cons.mp hm with hm | hm
      · cases hm
      · exact ih.1 a b c d hm
    · rcases List.mem_cons.mp hm with hm | hm
      · cases hm; exact hv
      · exact ih.2 a b c d hm
  | clear hh hr ih =>
    refine ⟨fun a b c d hm => ?_, fun a b c d hm => ?_⟩
    · rcases List.mem_cons.mp hm with hm | hm
      · cases hm
      · exact ih.1 a b c d hm
    · rcases List.mem_cons.mp hm with hm | hm
      · cases hm
      · exact ih.2 a b c d hm

/-- C40.  An entry is never used as one of the other kind: asking for encryption materials of a decryption entry fails and leaves the
encryption context, and the other way round. -/
theorem C40_wrong_kind (env : GetEnv) {n : Nat} {c : Cache} {e : Entry} (he : c.mem n = some e) (ctx : EncCtx) :
    (e.isEncrypt = false → cacheGetEnc env n ctx c = .ok (ctx, .error .badState)) ∧
    (e.isEncrypt = true → cacheGetDec env n c = .ok (.error .badState)) := by
  unfold Entry.isEncrypt
  constructor <;> intro h <;> cases hm : e.mat <;> rw [hm] at h <;> simp_all [cacheGetEnc, cacheGetDec, Cache.entry]

/-- An encryption request served from the cache gets exactly what the upstream CMM gave for an earlier request of the history with the
same partition, requested algorithm and encryption context: suite, data key, encrypted data keys and trace, and the encryption context
as upstream left it; the signature context is started anew from the stored key.  Otherwise the hash function collides on strings
digested for these two requests. -/
theorem C40_encrypt_hit (hsha : ∀ x, (sha x).length = 64) {cmm : CachingCmm} {env : GenEnv} {req : EncRequest} {out : GenOut}
    {m : EncMaterials} (h : CmmHistory sha addr cap (.gen cmm env req out :: log) c) (hu : out.upstream = false) (hm : out.res = .ok m)
    (hreq : ∀ cmm' env' req' out', .gen cmm' env' req' out' ∈ (.gen cmm env req out :: log) →
      req'.requestedAlg < 65536 ∧ DistinctKeys req'.encCtx ∧ DistinctKeys out'.ctx) :
    ∃ cmm0 env0 req0 out0 m0 key, .gen cmm0 env0 req0 out0 ∈ log ∧ out0.upstream = true ∧ out0.res = .ok m0 ∧
      m.alg = m0.alg ∧ m.dataKey = m0.dataKey ∧ m.edks = m0.edks ∧ m.trace = m0.trace ∧ SameMap out.ctx out0.ctx ∧
      storedKey env0.put m0.signctx = some key ∧ startSig env.get m0.alg key = .ok m.signctx ∧
      (Collides sha (EncStrings sha cmm0.partition req0) (EncStrings sha cmm.partition req) ∨
        (cmm0.partition = cmm.partition ∧ req0.requestedAlg = req.requestedAlg ∧ SameMap req0.encCtx req.encCtx)) := by
  have hvall := CmmHistory.valid h
  cases h with
  | gen hh hv hr =>
    cases (cachingGenerate_ok hh.ok hr).2 with
    | bypass _ ho _ => rw [ho] at hu; cases hu
    | noId _ e he _ => rw [he] at hm; cases hm
    | missFail _ _ _ _ h1 _ => rw [hu] at h1; cases h1
    | miss _ _ _ _ _ _ _ h1 _ _ => rw [hu] at h1; cases h1
    | hit id hid hs _ m' hres n e m0 ectx hh' =>
      rw [hm] at hres; cases hres
      have hp := hh.prov n e hh'.mem
      unfold Prov at hp
      rw [hh'.mat] at hp
      obtain ⟨cmm0, env0, req0, out0, m1, h1, h2, h3, h4, h5, h6, h7, h8⟩ := hp
      obtain ⟨sc, hsc, h9⟩ := hh'.sig
      have q0 := hreq cmm0 env0 req0 out0 (.tail _ h1)
      have q := hreq cmm env req out (.head _)
      refine ⟨cmm0, env0, req0, out0, m1, e.keyMat, h1, h2, h3, by rw [h9, h4], by rw [h9, h4], by rw [h9, h4], by rw [h9, h4], ?_, h8, ?_, ?_⟩
      · rw [hh'.ctx, h5]
        exact (encCtxClone_spec q.2.1 q0.2.2).2
      · rw [h9]; rw [h4] at hsc; exact hsc
      · rw [hh'.id] at h6
        exact C40_encrypt_ids hsha (hvall.1 cmm0 env0 req0 out0 (.tail _ h1)) hv h6 hid q0.1 q.1 q0.2.1 q.2.1

/-- A decryption request served from the cache gets exactly what the upstream CMM gave for an earlier request of the history with the
same partition, algorithm, encryption context and encrypted data keys, or the hash function collides. -/
theorem C40_decrypt_hit (hsha : ∀ x, (sha x).length = 64) {cmm : CachingCmm} {env : DecEnv} {req : DecRequest} {out : DecOut}
    {m : DecMaterials} (h : CmmHistory sha addr cap (.dec cmm env req out :: log) c) (hu : out.upstream = false) (hm : out.res = .ok m)
    (hreq : ∀ cmm' env' req' out', .dec cmm' env' req' out' ∈ (.dec cmm env req out :: log) →
      req'.alg < 65536 ∧ DistinctKeys req'.encCtx) :
    ∃ cmm0 env0 req0 out0 m0 key, .dec cmm0 env0 req0 out0 ∈ log ∧ out0.upstream = true ∧ out0.res = .ok m0 ∧
      m.alg = m0.alg ∧ m.dataKey = m0.dataKey ∧ m.trace = m0.trace ∧
      storedKey env0.put m0.signctx = some key ∧ startSig env.get m0.alg key = .ok m.signctx ∧
      (Collides sha (DecStrings sha cmm0.partition req0) (DecStrings sha cmm.partition req) ∨
        (cmm0.partition = cmm.partition ∧ req0.alg = req.alg ∧ SameMap req0.encCtx req.encCtx ∧ req0.edks.Perm req.edks)) := by
  have hvall := CmmHistory.valid h
  cases h with
  | dec hh hv hr =>
    cases (cachingDecrypt_ok hh.ok hr).2 with
    | bypass _ ho _ => rw [ho] at hu; cases hu
    | noId _ e he _ => rw [he] at hm; cases hm
    | missFail _ _ _ h1 _ => rw [hu] at h1; cases h1
    | miss _ _ _ _ _ h1 _ => rw [hu] at h1; cases h1
    | hit id hid _ m' hres n e m0 hh' _ =>
      rw [hm] at hres; cases hres
      have hp := hh.prov n e hh'.mem
      unfold Prov at hp
      rw [hh'.mat] at hp
      obtain ⟨cmm0, env0, req0, out0, m1, h1, h2, h3, h4, h6, h7, h8⟩ := hp
      obtain ⟨sc, hsc, h9⟩ := hh'.sig
      have q0 := hreq cmm0 env0 req0 out0 (.tail _ h1)
      have q := hreq cmm env req out (.head _)
      refine ⟨cmm0, env0, req0, out0, m1, e.keyMat, h1, h2, h3, by rw [h9, h4], by rw [h9, h4], by rw [h9, h4], h8, ?_, ?_⟩
      · rw [h9]; rw [h4] at hsc; exact hsc
      · rw [hh'.id] at h6
        exact C40_decrypt_ids hsha (hvall.2 cmm0 env0 req0 out0 (.tail _ h1)) hv h6 hid q0.1 q.1 q0.2 q.2

end Verif.Props
