import Verif.Props.CachingCmm
import Verif.Spec.SessionExample
/-
C39 (refutation), C59, C62 and C63, and concrete cases for the theorems about caching CMMs.
-/
namespace Verif.Props
open Verif Verif.Spec

variable {sha : Bytes → Bytes} {addr : Nat → Nat} {cap : Nat} {log : List CmmEvent} {c : Cache}

/-! ## C39: suites without key derivation -/

/-- The test whether a suite may be cached succeeds for every suite. -/
theorem C39_every_suite_cacheable (row : SuiteRow) (hr : row ∈ suiteTable) : canCache row.id = .ok true := by
  have key : ∀ r ∈ suiteTable, canCache r.id = .ok true := by decide
  exact key row hr

namespace CmmExample

/-- Two encryption requests and two decryption requests with the suite 0x0014, which has no key derivation. -/
def noKdfCalls : List Call :=
  [.gen cmm (genv 0x0014 10 (List.replicate 16 1)) (req 5), .gen cmm (genv 0x0014 11 (List.replicate 16 2)) (req 6),
   .dec cmm (denv 12 (List.replicate 16 1)) { dreq with alg := 0x0014 },
   .dec cmm (denv 13 (List.replicate 16 2)) { dreq with alg := 0x0014 }]

/-- Suite and origin of the answers. -/
def suites (log : List CmmEvent) : List (Option Nat × Bool) :=
  log.map fun
    | .gen _ _ _ out => (match out.res with | .ok m => some m.alg | .error _ => none, out.upstream)
    | .dec _ _ _ out => (match out.res with | .ok m => some m.alg | .error _ => none, out.upstream)
    | .clear => (none, false)

theorem noKdf_ok : ∀ x ∈ noKdfCalls, x.ok := by
  intro x hx
  simp only [noKdfCalls, List.mem_cons, List.mem_nil_iff, or_false] at hx
  rcases hx with rfl | rfl | rfl | rfl <;> exact valid.1

end CmmExample

/-- The intended half of C39 about suites without key derivation is false: there is a history in which both an encryption and a decryption
request with such a suite are served from the cache. -/
theorem C39_no_kdf_refuted : ∃ row ∈ suiteTable, row.kdfBits = 0 ∧ ∃ log c, CmmHistory CmmExample.tsha id 16 log c ∧
    CmmExample.suites log = [(some row.id, false), (some row.id, true), (some row.id, false), (some row.id, true)] := by
  refine ⟨(suiteTable.find? (fun r => r.id = 0x0014)).get (by decide), by decide, by decide, ?_⟩
  have h : ((CmmExample.play CmmExample.tsha CmmExample.noKdfCalls ([], cacheNew id 16)).map (fun x => CmmExample.suites x.1)) =
      some [(some 0x0014, false), (some 0x0014, true), (some 0x0014, false), (some 0x0014, true)] := by decide +kernel
  cases hp : CmmExample.play CmmExample.tsha CmmExample.noKdfCalls ([], cacheNew id 16) with
  | none => rw [hp] at h; cases h
  | some x =>
    rw [hp] at h
    exact ⟨x.1, x.2, CmmExample.play_history .new CmmExample.noKdf_ok hp, Option.some.inj h⟩

/-! ## C59: (key, IV) pairs of messages that share a data key -/

/-- The (key, IV) pairs under which header and frames of a message are sealed. -/
def SealedUnder (k : Bytes) (fr : List (Frame × Bytes)) (x : Bytes × Bytes) : Prop :=
  x = (k, List.replicate 12 0) ∨ ∃ f ∈ fr, x = (k, f.1.iv)

/-- Two messages written by encrypting sessions (`C14_message_nonces`: every released message is of this form) with the same data key,
suites with key derivation and different message ids have no (key, IV) pair in common, or the KDF gives the same key for two different
pairs of salt and info. -/
theorem C59_kdf_suites_partial (hk : HkdfFn) {E E' : Env → Prop} (hE : ∀ e, E e → e.crypto.hkdf = hk) (hE' : ∀ e, E' e → e.crypto.hkdf = hk)
    {row row' : SuiteRow} {hd hd' : Hdr} {m m' : EncMaterials} {k k' : Bytes} {fr fr' : List (Frame × Bytes)}
    {tr tr' consumed consumed' released released' : Bytes} (h : Encrypted E row hd m k fr tr consumed released)
    (h' : Encrypted E' row' hd' m' k' fr' tr' consumed' released') (hkey : m.dataKey = m'.dataKey) (hkdf : row.kdfBits ≠ 0)
    (hkdf' : row'.kdfBits ≠ 0) (hmid : hd.messageId ≠ hd'.messageId) :
    (∀ x, SealedUnder k fr x → ¬ SealedUnder k' fr' x) ∨
    ∃ s s', contentKdfInput row.version row.id hd.messageId ≠ contentKdfInput row'.version row'.id hd'.messageId ∧
      hk s (contentKdfInput row.version row.id hd.messageId).1 m.dataKey (contentKdfInput row.version row.id hd.messageId).2
        (row.keyBits / 8) = .ok k ∧
      hk s' (contentKdfInput row'.version row'.id hd'.messageId).1 m.dataKey (contentKdfInput row'.version row'.id hd'.messageId).2
        (row'.keyBits / 8) = .ok k := by
  by_cases hkk : k = k'
  · right
    subst hkk
    obtain ⟨e, he, hm⟩ := h.header
    obtain ⟨e', he', hm'⟩ := h'.header
    have d := hm.key.1
    have d' := hm'.key.1
    rw [if_neg hkdf] at d
    rw [if_neg hkdf'] at d'
    obtain ⟨s, -, d⟩ := d
    obtain ⟨s', -, d'⟩ := d'
    rw [hE e he] at d
    rw [hE' e' he', ← hkey] at d'
    obtain ⟨p, hp⟩ := algProps_of_row hm.suite
    obtain ⟨p', hp'⟩ := algProps_of_row hm'.suite
    have v := (rowFacts hm.suite hp).version
    have v' := (rowFacts hm'.suite hp').version
    refine ⟨s, s', fun heq => hmid ?_, d, d'⟩
    rw [← v, ← v'] at heq
    refine ((C34_domain_separation row.id row'.id p p' hd.messageId hd'.messageId [] hp hp' ?_ ?_).1 heq).2
    · rw [v]; exact e.crypto.random_len _ _ hm.messageId
    · rw [v']; exact e'.crypto.random_len _ _ hm'.messageId
  · left
    intro x hx hx'
    have h1 : x.1 = k := by rcases hx with rfl | ⟨f, -, rfl⟩ <;> rfl
    have h2 : x.1 = k' := by rcases hx' with rfl | ⟨f, -, rfl⟩ <;> rfl
    exact hkk (h1.symm.trans h2)

namespace CmmExample

/-- An environment whose CMM gives the answer `out` and whose random generator gives bytes `b`. -/
def answering (out : GenOut) (b : UInt8) : Env :=
  ⟨{ generate := fun _ => (out.ctx, out.res), decrypt := fun _ => .error .unknown },
   { Example.crypto with random := fun n => some (List.replicate n b), random_len := by intro n x h; cases h; simp },
   fun _ => true, 0, .unknown⟩

def buf : Bytes := List.replicate 400 0

/-- Encrypts `pt` in frames of four bytes. -/
def encryptOps (pt : Bytes) : List Op :=
  [.setPolicy .forbidAllow, .setFrameSize 4, .setMessageSize pt.length, .process buf (some pt)]

/-- The first two answers of a history, latest first. -/
def answers (log : List CmmEvent) : List GenOut :=
  log.filterMap fun
    | .gen _ _ _ out => some out
    | _ => none

def noKdfEnc : List Call :=
  [.gen cmm (genv 0x0014 10 (List.replicate 16 1)) { req 5 with encCtx := [] }, .gen cmm (genv 0x0014 11 (List.replicate 16 2)) { req 6 with encCtx := [] }]

/-- The session that encrypts `pt` with the answer `out`. -/
def session (out : GenOut) (b : UInt8) (pt : Bytes) : View :=
  run Example.encNew ((encryptOps pt).map fun op => (answering out b, op))

/-- Everything the refutation says, checked by evaluation. -/
def reuse (log : List CmmEvent) : Bool :=
  match log with
  | [.gen _ _ _ o2, .gen _ _ _ o1] =>
    !o2.upstream && o1.upstream &&
    isDone (session o1 1 [1, 2, 3, 4, 5]).s && isDone (session o2 2 [9, 8, 7, 6, 5, 4]).s &&
    decide ((session o1 1 [1, 2, 3, 4, 5]).s.header.messageId ≠ (session o2 2 [9, 8, 7, 6, 5, 4]).s.header.messageId) &&
    decide ((session o1 1 [1, 2, 3, 4, 5]).s.nonces = (session o2 2 [9, 8, 7, 6, 5, 4]).s.nonces) &&
    decide ((session o1 1 [1, 2, 3, 4, 5]).s.nonces.length = 3) &&
    decide ((session o1 1 [1, 2, 3, 4, 5]).s.mode = .encrypt) && decide ((session o2 2 [9, 8, 7, 6, 5, 4]).s.mode = .encrypt) &&
    decide ((session o1 1 [1, 2, 3, 4, 5]).consumed ≠ (session o2 2 [9, 8, 7, 6, 5, 4]).consumed)
  | _ => false

theorem session_reach (out : GenOut) (b : UInt8) (pt : Bytes) : Reach (· = answering out b) .forbidAllow (session out b pt) := by
  have h := Example.reach_hist (E := (· = answering out b)) (pol := .requireRequire) (v := Example.encNew) (.new (mode := .encrypt) rfl)
    ((encryptOps pt).map fun op => (answering out b, op)) (by simp)
  have hp : ((encryptOps pt).map fun op => (answering out b, op)).foldl (fun p c => polAfter p c.2) .requireRequire = .forbidAllow := by
    simp [encryptOps, polAfter, Policy.isValid]
  rw [hp] at h
  exact h

theorem play_two {cmm1 cmm2 : CachingCmm} {env1 env2 : GenEnv} {req1 req2 : EncRequest} {c0 : Cache} {r : List CmmEvent × Cache}
    (hp : play sha [.gen cmm1 env1 req1, .gen cmm2 env2 req2] ([], c0) = some r) :
    ∃ o1 o2, r.1 = [.gen cmm2 env2 req2 o2, .gen cmm1 env1 req1 o1] := by
  simp only [play] at hp
  cases hg : cachingGenerate sha cmm1 env1 req1 c0 with
  | error f => rw [hg] at hp; cases hp
  | ok r1 =>
    rw [hg] at hp
    obtain ⟨c1, o1⟩ := r1
    simp only at hp
    cases hg2 : cachingGenerate sha cmm2 env2 req2 c1 with
    | error f => rw [hg2] at hp; cases hp
    | ok r2 => rw [hg2] at hp; cases hp; exact ⟨o1, r2.2, rfl⟩

theorem noKdfEnc_ok : ∀ x ∈ noKdfEnc, x.ok := by
  intro x hx
  simp only [noKdfEnc, List.mem_cons, List.mem_nil_iff, or_false] at hx
  rcases hx with rfl | rfl <;> exact valid.1

end CmmExample

open CmmExample in
/-- C59 is false for suites without key derivation: a caching CMM serves two requests with the same materials, and the two sessions that
encrypt different messages with them, under different message ids, run to completion with exactly the same (key, IV) pairs. -/
theorem C59_no_kdf_refuted : ∃ cmm env1 env2 req1 req2 out1 out2 c,
    CmmHistory tsha id 16 [.gen cmm env2 req2 out2, .gen cmm env1 req1 out1] c ∧ out1.upstream = true ∧ out2.upstream = false ∧
    ∃ E1 E2 v1 v2, Reach E1 .forbidAllow v1 ∧ Reach E2 .forbidAllow v2 ∧
      (∀ e, E1 e → ∀ r, e.cmm.generate r = (out1.ctx, out1.res)) ∧ (∀ e, E2 e → ∀ r, e.cmm.generate r = (out2.ctx, out2.res)) ∧
      v1.s.mode = .encrypt ∧ v2.s.mode = .encrypt ∧ isDone v1.s = true ∧ isDone v2.s = true ∧ v1.consumed ≠ v2.consumed ∧
      v1.s.header.messageId ≠ v2.s.header.messageId ∧ v1.s.nonces.length = 3 ∧ v1.s.nonces = v2.s.nonces := by
  have h : ((play tsha noKdfEnc ([], cacheNew id 16)).map (fun x => reuse x.1)) = some true := by decide +kernel
  cases hp : play tsha noKdfEnc ([], cacheNew id 16) with
  | none => rw [hp] at h; cases h
  | some x =>
    rw [hp] at h
    have hh := play_history .new noKdfEnc_ok hp
    have hr : reuse x.1 = true := Option.some.inj h
    obtain ⟨o1, o2, hx⟩ := play_two hp
    rw [hx] at hr hh
    simp only [reuse, Bool.and_eq_true, Bool.not_eq_true', decide_eq_true_eq] at hr
    obtain ⟨⟨⟨⟨⟨⟨⟨⟨⟨r1, r2⟩, r3⟩, r4⟩, r5⟩, r6⟩, r7⟩, r8⟩, r9⟩, r10⟩ := hr
    exact ⟨_, _, _, _, _, o1, o2, _, hh, r2, r1, _, _, _, _, session_reach o1 1 [1, 2, 3, 4, 5], session_reach o2 2 [9, 8, 7, 6, 5, 4],
      fun e he r => by rw [he]; simp only [answering], fun e he r => by rw [he]; simp only [answering], r8, r9, r3, r4, r10, r5, r7, r6⟩

/-! ## C62: undefined behaviour -/

/-- Requests with known suites, encrypted data keys that fit the message format, and no failing digest while these are hashed, never lead
to undefined behaviour: every such call returns. -/
theorem C62_calls_return_partial (h : CmmHistory sha addr cap log c) (cmm : CachingCmm) :
    (∀ (env : GenEnv) (req : EncRequest), (req.requestedAlg = 0 ∨ ∃ row ∈ suiteTable, row.id = req.requestedAlg) →
      (∀ r ctx m, env.up r = (ctx, .ok m) → ∃ row ∈ suiteTable, row.id = m.alg) →
      ∃ c' out, cachingGenerate sha cmm env req c = .ok (c', out)) ∧
    (∀ (env : DecEnv) (req : DecRequest), (∃ row ∈ suiteTable, row.id = req.alg) →
      (∀ e ∈ req.edks, e.providerId.length ≤ 65535 ∧ e.providerInfo.length ≤ 65535 ∧ e.ciphertext.length ≤ 65535) →
      env.ids.decEdkFails = none → ∃ c' out, cachingDecrypt sha cmm env req c = .ok (c', out)) ∧
    (∃ c', cacheClear c = .ok c') := by
  have hok := h.ok
  refine ⟨?_, ?_, ?_⟩
  · intro env req halg hup
    have hcached : ∃ c' out, genCached sha cmm env req c = .ok (c', out) := by
      unfold genCached
      cases hid : hashEnc sha env.ids cmm.partition req with
      | error e => exact ⟨_, _, rfl⟩
      | ok id =>
        simp only
        obtain ⟨c1, ctx1, r1, ht, hok1, -⟩ := genTry_ok hok cmm env id req
        rw [ht]
        cases r1 with
        | some m => exact ⟨_, _, rfl⟩
        | none =>
          simp only
          unfold genMiss
          cases hu : env.up { req with encCtx := ctx1 } with
          | mk ctx2 r2 =>
            cases r2 with
            | error e => exact ⟨_, _, rfl⟩
            | ok m =>
              simp only
              obtain ⟨row, hr, hrid⟩ := hup _ _ _ hu
              have hp := algProps_of_row hr
              rw [hrid] at hp
              obtain ⟨c3, h3, -⟩ := genStore_ok hok1 cmm env id req.plaintextSize ctx2 m hp
              rw [h3]
              exact ⟨_, _, rfl⟩
    unfold cachingGenerate
    split
    · exact ⟨_, _, rfl⟩
    · rcases halg with h0 | ⟨row, hr, hrid⟩
      · rw [if_pos h0]; exact hcached
      · split
        · exact hcached
        · rw [← hrid, C39_every_suite_cacheable row hr]
          exact hcached
  · intro env req ⟨row, hr, hrid⟩ hfit hfail
    unfold cachingDecrypt
    rw [← hrid, C39_every_suite_cacheable row hr]
    simp only
    unfold decCached
    have hh : ∃ r, hashDec sha env.ids cmm.partition req = .ok r := by
      unfold hashDec
      cases hb : idCtxBytes req.encCtx with
      | error e => exact ⟨_, rfl⟩
      | ok b =>
        simp only
        cases h1 : env.ids.decCtxFails with
        | some e => exact ⟨_, rfl⟩
        | none =>
          simp only
          rw [hfail, hashEdks_fit hfit]
          simp only
          cases h4 : env.ids.decEndFails with
          | some e => exact ⟨_, rfl⟩
          | none => exact ⟨_, rfl⟩
    obtain ⟨r, hr'⟩ := hh
    rw [hr']
    cases r with
    | error e => exact ⟨_, _, rfl⟩
    | ok id =>
      simp only
      obtain ⟨c1, r1, ht, hok1, -⟩ := decTry_ok hok cmm env id
      rw [ht]
      cases r1 with
      | some m => exact ⟨_, _, rfl⟩
      | none =>
        simp only
        cases hu : env.up req with
        | error e => exact ⟨_, _, rfl⟩
        | ok m =>
          simp only
          obtain ⟨c3, h3, -⟩ := decStore_ok hok1 cmm env id m
          rw [h3]
          exact ⟨_, _, rfl⟩
  · obtain ⟨c', h1, -⟩ := cacheClear_spec hok
    exact ⟨c', h1⟩

/-- C62 is false for a request that names an unknown algorithm: a null pointer is dereferenced, in every state of the cache. -/
theorem C62_unknown_algorithm_refuted (cmm : CachingCmm) :
    (∀ (env : GenEnv) (req : EncRequest), (¬ ∃ row ∈ suiteTable, row.id = req.requestedAlg) → req.requestedAlg ≠ 0 →
      req.plaintextSize ≤ cmm.limitBytes → cachingGenerate sha cmm env req c = .error .nullDeref) ∧
    (∀ (env : DecEnv) (req : DecRequest), (¬ ∃ row ∈ suiteTable, row.id = req.alg) →
      cachingDecrypt sha cmm env req c = .error .nullDeref) := by
  have key : ∀ a, (¬ ∃ row ∈ suiteTable, row.id = a) → canCache a = .error .nullDeref := by
    intro a ha
    unfold canCache
    cases hp : algProps a with
    | none => rfl
    | some p => exact absurd (algProps_isSome hp) ha
  constructor
  · intro env req hn h0 hs
    unfold cachingGenerate
    rw [if_neg (by omega), if_neg h0, key _ hn]
  · intro env req hn
    unfold cachingDecrypt
    rw [key _ hn]

/-- C62 is false for a decryption request with an encrypted data key that has a field of more than 65535 bytes: memory is freed twice, in
every state of the cache and whatever else the request holds (as long as its context can be serialized). -/
theorem C62_oversize_edk_refuted (cmm : CachingCmm) (env : DecEnv) (req : DecRequest) (hk : ∃ row ∈ suiteTable, row.id = req.alg)
    (hctx : wireLen req.encCtx ≤ 65535) (hok : env.ids.decCtxFails = none)
    (hbig : ∃ e ∈ req.edks, 65535 < e.providerId.length ∨ 65535 < e.providerInfo.length ∨ 65535 < e.ciphertext.length) :
    cachingDecrypt sha cmm env req c = .error .doubleFree := by
  obtain ⟨row, hr, hrid⟩ := hk
  unfold cachingDecrypt
  rw [← hrid, C39_every_suite_cacheable row hr]
  simp only
  unfold decCached hashDec
  have hc : ∃ b, idCtxBytes req.encCtx = .ok b := by
    unfold idCtxBytes
    have hlen : ctxLen req.encCtx = wireLen req.encCtx := by
      have hf : entrySize = fun e => 4 + e.1.length + e.2.length := by funext e; unfold entrySize; omega
      unfold ctxLen wireLen entriesLen
      rw [hf]
    rw [encCtxSize_ok.mpr ⟨rfl, by rw [hlen]; exact hctx⟩]
    simp only
    rw [(encCtxSerialize_ok (b' := ⟨ctxLen req.encCtx, ctxBytes req.encCtx⟩) (by simp)).mpr
      ⟨by rw [hlen]; exact hctx, by simp [length_ctxBytes], by simp⟩]
    exact ⟨_, rfl⟩
  obtain ⟨b, hb⟩ := hc
  rw [hb]
  simp only [hok]
  have he : ∃ e, hashEdks sha req.edks = .error e := by
    cases hh : hashEdks sha req.edks with
    | error e => exact ⟨e, rfl⟩
    | ok hs =>
      obtain ⟨e, hm, hbig⟩ := hbig
      have := (hashEdks_ok hh).2 e hm
      unfold EdkFit at this
      omega
  obtain ⟨e, he⟩ := he
  rw [he]
  cases env.ids.decEdkFails <;> rfl

/-! ## C63: commitment policy -/

/-- If all encryption requests of a history have the same commitment policy and the upstream CMM respects it, so does the caching CMM. -/
theorem C63_same_policy_partial (pol : Policy) (h : CmmHistory sha addr cap log c)
    (hup : ∀ cmm env req out m, .gen cmm env req out ∈ log → out.upstream = true → out.res = .ok m →
      ∃ row ∈ suiteTable, row.id = m.alg ∧ MayEncrypt pol row) :
    ∀ cmm env req out m, .gen cmm env req out ∈ log → out.res = .ok m → ∃ row ∈ suiteTable, row.id = m.alg ∧ MayEncrypt pol row := by
  induction h with
  | new => intro a b c d m hm; cases hm
  | @gen log c cmm env req c' out hh hv hr ih =>
    have ih := ih (fun a b c d m hm => hup a b c d m (.tail _ hm))
    intro cmm' env' req' out' m hm hres
    rcases List.mem_cons.mp hm with hq | hq
    · cases hq
      cases hu : out.upstream with
      | true => exact hup _ _ _ _ m (.head _) hu hres
      | false =>
        cases (cachingGenerate_ok hh.ok hr).2 with
        | bypass _ ho _ => rw [ho] at hu; cases hu
        | noId _ e he _ => rw [he] at hres; cases hres
        | missFail _ _ _ _ h1 _ => rw [hu] at h1; cases h1
        | miss _ _ _ _ _ _ _ h1 _ _ => rw [hu] at h1; cases h1
        | hit id hid hs _ m' hres' n e m0 ectx hh' =>
          rw [hres] at hres'; cases hres'
          have hp := hh.prov n e hh'.mem
          unfold Prov at hp
          rw [hh'.mat] at hp
          obtain ⟨cmm0, env0, req0, out0, m1, h1, h2, h3, h4, -⟩ := hp
          obtain ⟨sc, -, h9⟩ := hh'.sig
          have := ih cmm0 env0 req0 out0 m1 h1 h3
          rw [h9, h4]; exact this
    · exact ih _ _ _ _ m hq hres
  | @dec log c cmm env req c' out hh hv hr ih =>
    intro cmm' env' req' out' m hm hres
    rcases List.mem_cons.mp hm with hq | hq
    · cases hq
    · exact ih (fun a b c d m hm => hup a b c d m (.tail _ hm)) _ _ _ _ m hq hres
  | @clear log c c' hh hr ih =>
    intro cmm' env' req' out' m hm hres
    rcases List.mem_cons.mp hm with hq | hq
    · cases hq
    · exact ih (fun a b c d m hm => hup a b c d m (.tail _ hm)) _ _ _ _ m hq hres

namespace CmmExample

/-- Two requests that differ in their commitment policy. -/
def policyCalls : List Call :=
  [.gen cmm (genv 0x0178 10 (List.replicate 16 1)) (req 5), .gen cmm (genv 0x0478 11 (List.replicate 16 2)) { req 6 with policy := .requireRequire }]

theorem policyCalls_ok : ∀ x ∈ policyCalls, x.ok := by
  intro x hx
  simp only [policyCalls, List.mem_cons, List.mem_nil_iff, or_false] at hx
  rcases hx with rfl | rfl <;> exact valid.1

end CmmExample

open CmmExample in
/-- C63 is false in general: a request made under the policy that requires commitment is answered with materials of a suite without
commitment, which the upstream CMM had given to a request under another policy. -/
theorem C63_other_policy_refuted : ∃ cmm env1 env2 req1 req2 out1 out2 c m,
    CmmHistory tsha id 16 [.gen cmm env2 req2 out2, .gen cmm env1 req1 out1] c ∧ req2.policy = .requireRequire ∧
    (∀ r, ∃ ctx m', env2.up r = (ctx, .ok m') ∧ ∃ row ∈ suiteTable, row.id = m'.alg ∧ MayEncrypt req2.policy row) ∧
    out2.res = .ok m ∧ ∃ row ∈ suiteTable, row.id = m.alg ∧ ¬ MayEncrypt req2.policy row := by
  have h : ((play tsha policyCalls ([], cacheNew id 16)).map (fun x => (suites x.1).head?)) = some (some (some 0x0178, false)) := by
    decide +kernel
  cases hp : play tsha policyCalls ([], cacheNew id 16) with
  | none => rw [hp] at h; cases h
  | some x =>
    rw [hp] at h
    have hh := play_history .new policyCalls_ok hp
    have hr : (suites x.1).head? = some (some 0x0178, false) := Option.some.inj h
    obtain ⟨o1, o2, hx⟩ := play_two hp
    rw [hx] at hr hh
    simp only [suites, List.map_cons, List.head?_cons, Option.some.injEq, Prod.mk.injEq] at hr
    cases hres : o2.res with
    | error e => rw [hres] at hr; cases hr.1
    | ok m =>
      rw [hres] at hr
      have ha : m.alg = 0x0178 := Option.some.inj hr.1
      refine ⟨_, _, _, _, _, o1, o2, _, m, hh, rfl, ?_, hres, ?_⟩
      · intro r
        exact ⟨_, _, rfl, (suiteTable.find? (fun r => r.id = 0x0478)).get (by decide), by decide, by decide, by simp only [MayEncrypt]; decide⟩
      · rw [ha]
        exact ⟨(suiteTable.find? (fun r => r.id = 0x0178)).get (by decide), by decide, by decide, by simp only [MayEncrypt]; decide⟩

/-! ## concrete cases -/

namespace CmmExample

/-- Whether a history has fresh keys, computed. -/
def freshB : List CmmEvent → Bool
  | [] => true
  | .gen _ _ _ out :: log =>
    (match out.upstream, out.res with
     | true, .ok m => messagesWith m.dataKey log == 0
     | _, _ => true) && freshB log
  | .dec _ _ _ _ :: log => freshB log
  | .clear :: log => freshB log

theorem freshB_ok {log : List CmmEvent} (h : freshB log = true) : FreshKeys log := by
  induction log with
  | nil => trivial
  | cons x log ih =>
    cases x with
    | gen cmm env req out =>
      simp only [freshB, Bool.and_eq_true] at h
      refine ⟨fun m hu hres => ?_, ih h.2⟩
      have := h.1
      rw [hu, hres] at this
      simpa using this
    | dec cmm env req out => exact ih h
    | clear => exact ih h

/-- The history of the examples has fresh keys; one data key was used for two messages of together 70 bytes, another one for a single
message that is longer than the limit of 100. -/
theorem fresh_history : ∃ log c, CmmHistory tsha id 16 log c ∧ FreshKeys log ∧ messagesWith [1, 1] log = 2 ∧ bytesWith [1, 1] log = 70 ∧
    messagesWith [4, 4] log = 1 ∧ bytesWith [4, 4] log = 101 ∧ messagesWith [5, 5] log = 2 ∧ bytesWith [5, 5] log = 100 := by
  have h : ((play tsha calls ([], cacheNew id 16)).map (fun x => (freshB x.1, [messagesWith [1, 1] x.1, bytesWith [1, 1] x.1,
      messagesWith [4, 4] x.1, bytesWith [4, 4] x.1, messagesWith [5, 5] x.1, bytesWith [5, 5] x.1]))) =
      some (true, [2, 70, 1, 101, 2, 100]) := by decide +kernel
  cases hp : play tsha calls ([], cacheNew id 16) with
  | none => rw [hp] at h; cases h
  | some x =>
    rw [hp] at h
    simp only [Option.map_some, Option.some.injEq, Prod.mk.injEq, List.cons.injEq, and_true] at h
    exact ⟨x.1, x.2, play_history .new calls_ok hp, freshB_ok h.1, h.2⟩

end CmmExample

/-- The limit is reached: a fourth message with the same data key does not get it, nor does one that would exceed the byte limit. -/
example : ((CmmExample.play CmmExample.tsha [.gen CmmExample.cmm (CmmExample.genv 0x0178 10 [1]) (CmmExample.req 0),
    .gen CmmExample.cmm (CmmExample.genv 0x0178 10 [2]) (CmmExample.req 0), .gen CmmExample.cmm (CmmExample.genv 0x0178 10 [3]) (CmmExample.req 0),
    .gen CmmExample.cmm (CmmExample.genv 0x0178 10 [4]) (CmmExample.req 60), .gen CmmExample.cmm (CmmExample.genv 0x0178 10 [5]) (CmmExample.req 60)]
    ([], cacheNew id 16)).map (fun x => CmmExample.summary x.1)) =
    some [(some [5], true), (some [4], true), (some [1], false), (some [1], false), (some [1], true)] := by decide +kernel

/-- The digest of the examples has 64 bytes, and their identifiers are computed. -/
example : (∀ x, (CmmExample.tsha x).length = 64) ∧
    (hashEnc CmmExample.tsha CmmExample.ids CmmExample.cmm.partition (CmmExample.req 5)).toOption.isSome = true ∧
    (hashDec CmmExample.tsha CmmExample.ids CmmExample.cmm.partition CmmExample.dreq).toOption =
      (hashDec CmmExample.tsha CmmExample.ids CmmExample.cmm.partition CmmExample.dreq').toOption :=
  ⟨fun x => by unfold CmmExample.tsha; rw [length_be], by decide +kernel, by decide +kernel⟩

/-- Two messages of a session with key derivation (`C59_kdf_suites_partial`). -/
example : ∃ row hd m k fr tr, Encrypted (· = Example.env) row hd m k fr tr (run Example.encNew Example.encHist).consumed
    (run Example.encNew Example.encHist).released ∧ row.id = 0x0578 := by
  obtain ⟨row, hd, m, k, fr, tr, h, -⟩ := C14_message_nonces (· = Example.env) _ _ Example.encHist_reach (by decide +kernel) (by decide +kernel)
  refine ⟨row, hd, m, k, fr, tr, h, ?_⟩
  obtain ⟨e, he, hm⟩ := h.header
  obtain ⟨req, ctx, hc, -⟩ := hm.cmm
  rw [he] at hc
  have := (Prod.mk.inj hc).2
  rw [← hm.alg.2]
  cases this
  rfl

/-- An encrypted data key that does not fit (`C62_oversize_edk_refuted`), and an unknown algorithm (`C62_unknown_algorithm_refuted`). -/
example : wireLen CmmExample.dreq.encCtx ≤ 65535 ∧ (∃ row ∈ suiteTable, row.id = CmmExample.dreq.alg) ∧
    65535 < (List.replicate 65536 (0 : UInt8)).length ∧ (¬ ∃ row ∈ suiteTable, row.id = 1) :=
  ⟨by decide, by decide, by rw [List.length_replicate]; decide, by decide⟩

end Verif.Props
