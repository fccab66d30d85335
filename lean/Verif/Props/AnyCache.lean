import Verif.Proof.AnyCacheSums
import Verif.Proof.AnyCacheLocal
import Verif.Props.CachingCmm
/-
C95: caching CMMs over a materials cache of any kind, which may be an application's own and is shared by any number of threads.
-/
namespace Verif.Props
open Verif Verif.Spec Verif.Proof

variable {η : Type} {sha : Bytes → Bytes} {vt : CacheVt} {cmm : CachingCmm} {calls : List AnyCall} {H : List (Nat × CacheEvent η)} {E : Entries}

/-! ## handles -/

/-- C95: whatever the cache answers, an encryption call uses and returns only handles that it was given and has not returned, and has
returned all of them at its end. -/
theorem C95_handles_encrypt [DecidableEq η] (hrel : vt.has .release = true) {env : AnyGenEnv} {req : EncRequest} {es : List (CacheEvent η)}
    {o : Option GenOut} (hp : Path (anyGenerate sha vt cmm env req) es o) :
    (heldHandles [] es).isSome = true ∧ (o.isSome = true → heldHandles [] es = some []) := by
  obtain ⟨x, h1, h2⟩ := holds_generate hrel es o hp
  refine ⟨by rw [h1]; rfl, fun ho => ?_⟩
  obtain ⟨a, rfl⟩ := Option.isSome_iff_exists.1 ho
  rw [h1, h2 a rfl]

/-- C95: so does a decryption call. -/
theorem C95_handles_decrypt [DecidableEq η] (hrel : vt.has .release = true) {env : AnyDecEnv} {req : DecRequest} {es : List (CacheEvent η)}
    {o : Option DecOut} (hp : Path (anyDecrypt sha vt cmm env req) es o) :
    (heldHandles [] es).isSome = true ∧ (o.isSome = true → heldHandles [] es = some []) := by
  obtain ⟨x, h1, h2⟩ := holds_decrypt hrel es o hp
  refine ⟨by rw [h1]; rfl, fun ho => ?_⟩
  obtain ⟨a, rfl⟩ := Option.isSome_iff_exists.1 ho
  rw [h1, h2 a rfl]

/-! ## one call -/

/-- C95: an encryption request that is answered without the upstream CMM.  The identifier of the request was looked up; an entry for
encryption was found; besides creation time and hints, the usage was updated and lies within the limits; the answer is what the cache then
gave; the entry is given back, with the wish to invalidate it exactly if the message limit has been reached. -/
theorem C95_served_encrypt {env : AnyGenEnv} {req : EncRequest} {es : List (CacheEvent η)} {out : GenOut} {m : EncMaterials}
    (hp : Path (anyGenerate sha vt cmm env req) es (some out)) (hu : out.upstream = false) (hm : out.res = .ok m) :
    ∃ id h mid bytes messages, hashEnc sha env.ids cmm.partition req = .ok id ∧
      es = ⟨.find id, (false, some (h, true))⟩ :: (mid ++ ⟨.usage h req.plaintextSize 1, .ok (bytes, messages)⟩ ::
        ⟨.getEnc h req.encCtx, (out.ctx, .ok m)⟩ ::
        (if vt.has .release then [⟨.release h (messages = cmm.limitMessages), ()⟩] else [])) ∧
      (∀ e ∈ mid, (∃ t, e = ⟨.creation h, t⟩) ∨ ∃ t, e = ⟨.hint h t, ()⟩) ∧
      bytes ≤ cmm.limitBytes ∧ messages ≤ cmm.limitMessages := by
  obtain ⟨id, hid, hp⟩ := gen_hit hp hu hm
  obtain ⟨h, mid, bytes, messages, rel, hes, ⟨hmid, -⟩, hb, hn, rfl⟩ := path_try hp
  exact ⟨id, h, mid, bytes, messages, hid, hes, hmid, hb, hn⟩

/-- C95: the same for a decryption request. -/
theorem C95_served_decrypt {env : AnyDecEnv} {req : DecRequest} {es : List (CacheEvent η)} {out : DecOut} {m : DecMaterials}
    (hp : Path (anyDecrypt sha vt cmm env req) es (some out)) (hu : out.upstream = false) (hm : out.res = .ok m) :
    ∃ id h mid, hashDec sha env.ids cmm.partition req = .ok (.ok id) ∧
      es = ⟨.find id, (false, some (h, false))⟩ :: (mid ++ ⟨.getDec h, .ok m⟩ ::
        (if vt.has .release then [⟨.release h false, ()⟩] else [])) ∧
      (∀ e ∈ mid, (∃ t, e = ⟨.creation h, t⟩) ∨ ∃ t, e = ⟨.hint h t, ()⟩) := by
  obtain ⟨id, hid, hp⟩ := dec_hit hp hu hm
  obtain ⟨h, mid, rel, hes, ⟨hmid, -⟩, rfl⟩ := path_decTry hp
  exact ⟨id, h, mid, hid, hes, hmid⟩

/-- C95: an encryption request that is passed on gets exactly the upstream CMM's answer to it; its encryption context can differ from the
caller's only by what a failed attempt of the cache to give materials left.  Either the cache is not asked at all (more bytes than the
limit, or a suite that is not cached), or cacheable materials are put under the request's identifier, counted as one message with its bytes. -/
theorem C95_upstream_encrypt {env : AnyGenEnv} {req : EncRequest} {es : List (CacheEvent η)} {out : GenOut}
    (hp : Path (anyGenerate sha vt cmm env req) es (some out)) (hu : out.upstream = true) :
    ∃ ctx, env.up { req with encCtx := ctx } = (out.ctx, out.res) ∧
      (ctx = req.encCtx ∨ ∃ h e, ⟨.getEnc h req.encCtx, (ctx, .error e)⟩ ∈ es) ∧
      ((es = [] ∧ (req.plaintextSize > cmm.limitBytes ∨ (req.requestedAlg ≠ 0 ∧ canCache req.requestedAlg = .ok false))) ∨
       (req.plaintextSize ≤ cmm.limitBytes ∧ ∃ id, hashEnc sha env.ids cmm.partition req = .ok id ∧
        ∀ m, out.res = .ok m → canCache m.alg = .ok true → vt.has .putEnc = true →
          ∃ o, ⟨.putEnc id m req.plaintextSize 1 out.ctx, o⟩ ∈ es)) :=
  gen_up hp hu

/-- C95: the same for a decryption request, which is passed on unchanged. -/
theorem C95_upstream_decrypt {env : AnyDecEnv} {req : DecRequest} {es : List (CacheEvent η)} {out : DecOut}
    (hp : Path (anyDecrypt sha vt cmm env req) es (some out)) (hu : out.upstream = true) :
    env.up req = out.res ∧
      ((es = [] ∧ canCache req.alg = .ok false) ∨
       ∃ id, hashDec sha env.ids cmm.partition req = .ok (.ok id) ∧
        ∀ m, out.res = .ok m → vt.has .putDec = true → ∃ o, ⟨.putDec id m, o⟩ ∈ es) :=
  dec_up hp hu

/-- C95: a cache without one of the functions that looking up needs serves nothing. -/
theorem C95_missing {env : AnyGenEnv} {req : EncRequest} {denv : AnyDecEnv} {dreq : DecRequest} {es : List (CacheEvent η)} :
    (vt.has .find = false ∨ vt.has .usage = false ∨ vt.has .getEnc = false → ∀ out m,
      Path (anyGenerate sha vt cmm env req) es (some out) → out.res = .ok m → out.upstream = true) ∧
    (vt.has .find = false ∨ vt.has .getDec = false → ∀ out m,
      Path (anyDecrypt sha vt cmm denv dreq) es (some out) → out.res = .ok m → out.upstream = true) := by
  constructor
  · intro hv out m hp hm
    cases hu : out.upstream with
    | true => rfl
    | false =>
      exfalso
      obtain ⟨id, h, mid, b, n, -, hes, -⟩ := C95_served_encrypt hp hu hm
      have asked := evs_asked _ _ hp
      rw [hes] at asked
      rcases hv with hv | hv | hv
      · have := asked _ (.head _); simp [CacheQuery.fn, hv] at this
      · have := asked ⟨.usage h req.plaintextSize 1, .ok (b, n)⟩ (by simp); simp [CacheQuery.fn, hv] at this
      · have := asked ⟨.getEnc h req.encCtx, (out.ctx, .ok m)⟩ (by simp); simp [CacheQuery.fn, hv] at this
  · intro hv out m hp hm
    cases hu : out.upstream with
    | true => rfl
    | false =>
      exfalso
      obtain ⟨id, h, mid, -, hes, -⟩ := C95_served_decrypt hp hu hm
      have asked := evs_dec_asked _ _ hp
      rw [hes] at asked
      rcases hv with hv | hv
      · have := asked _ (.head _); simp [CacheQuery.fn, hv] at this
      · have := asked ⟨.getDec h, .ok m⟩ (by simp); simp [CacheQuery.fn, hv] at this

/-- The place of the function in the table, include/aws/cryptosdk/cache.h:99-286, counted in pointers; `vt_size` is at place 0. -/
def slotOf : CacheQuery η → Nat
  | .find _ => 2
  | .usage _ _ _ => 3
  | .getEnc _ _ => 4
  | .getDec _ => 5
  | .putEnc _ _ _ _ _ => 6
  | .putDec _ _ => 7
  | .release _ _ => 10
  | .creation _ => 11
  | .hint _ _ => 12

/-- C95: no function is called whose pointer lies beyond the declared size of the table or is null; the others are there to be called. -/
theorem C95_table {q : CacheQuery η} : vt.has q.fn = true ↔ 8 * (slotOf q + 1) ≤ vt.vtSize ∧ vt.set q.fn = true := by
  unfold CacheVt.has
  rw [Bool.and_eq_true]
  cases q <;> exact and_congr ⟨of_decide_eq_true, decide_eq_true⟩ Iff.rfl

/-- C95: in encryption and decryption calls. -/
theorem C95_calls_in_table {es : List (CacheEvent η)} :
    (∀ env req o, Path (anyGenerate sha vt cmm env req) es o → ∀ e ∈ es, 8 * (slotOf e.q + 1) ≤ vt.vtSize ∧ vt.set e.q.fn = true) ∧
    (∀ env req o, Path (anyDecrypt sha vt cmm env req) es o → ∀ e ∈ es, 8 * (slotOf e.q + 1) ≤ vt.vtSize ∧ vt.set e.q.fn = true) :=
  ⟨fun _ _ _ hp e he => C95_table.1 (evs_asked _ _ hp e he), fun _ _ _ hp e he => C95_table.1 (evs_dec_asked _ _ hp e he)⟩

/-! ## caches that keep their promises -/

/-- C95: an encryption request answered without the upstream CMM gets data key, encrypted data keys, trace and encryption context that the
upstream CMM gave in an earlier call, no longer ago than the time to live, for a request with the same partition, suite and encryption
context (or SHA-512 collides on strings digested for the two requests). -/
theorem C95_encrypt_hit (hsha : ∀ x, (sha x).length = 64) (hH : History sha vt calls H) {P : Nat → Prop} (hk : CacheKeepsAt H E P) {t : Nat} {env : AnyGenEnv}
    {req : EncRequest} {out : GenOut} {m : EncMaterials} (hc : calls[t]? = some (.gen cmm env req (some out))) (hu : out.upstream = false)
    (hm : out.res = .ok m)
    (hreq : ∀ cmm env req out, .gen cmm env req out ∈ calls → cmm.Valid ∧ req.requestedAlg < 65536 ∧ DistinctKeys req.encCtx) :
    ∃ cmm0 env0 req0 out0 ctx m0 ctx0 e, .gen cmm0 env0 req0 out0 ∈ calls ∧ env0.up { req0 with encCtx := ctx } = (ctx0, .ok m0) ∧
      m.alg = m0.alg ∧ m.dataKey = m0.dataKey ∧ m.edks = m0.edks ∧ m.trace = m0.trace ∧ SameMap out.ctx ctx0 ∧
      (∃ u id b n o, H[e]? = some (u, ⟨.putEnc id m0 b n ctx0, o⟩)) ∧ WithinTtl cmm.ttl env.clk (E.born e) ∧
      (Collides sha (EncStrings sha cmm0.partition req0) (EncStrings sha cmm.partition req) ∨
        (cmm0.partition = cmm.partition ∧ req0.requestedAlg = req.requestedAlg ∧ SameMap req0.encCtx req.encCtx)) := by
  obtain ⟨id, pu, h, b, n, u, m0, b0, n0, ctx0, o, hid, -, -, -, -, hput, h1, h2, h3, h4, h5, h6⟩ := hit_entry hH hk hc hu hm
  obtain ⟨cmm0, env0, req0, out0, hc0, hid0, -, -, -, ctx, hup⟩ := put_call hH hput
  have q := hreq _ _ _ _ (List.mem_of_getElem? hc)
  have q0 := hreq _ _ _ _ (List.mem_of_getElem? hc0)
  exact ⟨cmm0, env0, req0, out0, ctx, m0, ctx0, E.ent pu, List.mem_of_getElem? hc0, hup, h1, h2, h3, h4, h5, ⟨u, id, b0, n0, o, hput⟩, h6,
    C40_encrypt_ids hsha q0.1 q.1 hid0 hid q0.2.1 q.2.1 q0.2.2 q.2.2⟩

/-- C95: the same for decryption requests; the encrypted data keys of the two requests are the same up to their order. -/
theorem C95_decrypt_hit (hsha : ∀ x, (sha x).length = 64) (hH : History sha vt calls H) {P : Nat → Prop} (hk : CacheKeepsAt H E P) {t : Nat} {env : AnyDecEnv}
    {req : DecRequest} {out : DecOut} {m : DecMaterials} (hc : calls[t]? = some (.dec cmm env req (some out))) (hu : out.upstream = false)
    (hm : out.res = .ok m)
    (hreq : ∀ cmm env req out, .dec cmm env req out ∈ calls → cmm.Valid ∧ req.alg < 65536 ∧ DistinctKeys req.encCtx) :
    ∃ cmm0 env0 req0 out0 m0 e, .dec cmm0 env0 req0 out0 ∈ calls ∧ env0.up req0 = .ok m0 ∧
      m.alg = m0.alg ∧ m.dataKey = m0.dataKey ∧ m.trace = m0.trace ∧
      (∃ u id o, H[e]? = some (u, ⟨.putDec id m0, o⟩)) ∧ WithinTtl cmm.ttl env.clk (E.born e) ∧
      (Collides sha (DecStrings sha cmm0.partition req0) (DecStrings sha cmm.partition req) ∨
        (cmm0.partition = cmm.partition ∧ req0.alg = req.alg ∧ SameMap req0.encCtx req.encCtx ∧ req0.edks.Perm req.edks)) := by
  obtain ⟨id, e, u, m0, o, hid, hput, h1, h2, h3, h4, -⟩ := dec_hit_entry hH hk hc hu hm
  obtain ⟨cmm0, env0, req0, out0, hc0, hid0, hup⟩ := put_dec_call hH hput
  have q := hreq _ _ _ _ (List.mem_of_getElem? hc)
  have q0 := hreq _ _ _ _ (List.mem_of_getElem? hc0)
  exact ⟨cmm0, env0, req0, out0, m0, e, List.mem_of_getElem? hc0, hup, h1, h2, h3, ⟨u, id, o, hput⟩, h4,
    C40_decrypt_ids hsha q0.1 q.1 hid0 hid q0.2.1 q.2.1 q0.2.2 q.2.2⟩

/-- C95: no data key is given for more messages than the message limit. -/
theorem C95_message_limit {L : Nat} (hH : History sha vt calls H) (hk : CacheKeeps H E) (hf : FreshAny calls H)
    (hL : ∀ cmm env req out, .gen cmm env req out ∈ calls → cmm.limitMessages ≤ L) (h1 : 1 ≤ L) (hlen : H.length < 2 ^ 64) (k : Bytes) :
    anyMessages k calls ≤ L := by
  obtain ⟨T, U, hp, hT, hU, hTn, hUl⟩ := served_split (k := k) hf
  unfold anyMessages
  rw [hp.length_eq, List.length_append]
  by_cases hne : T = []
  · subst hne
    simp; omega
  · obtain ⟨e, u, id, m0, b0, n0, ctx0, o, -, -, -, i, cmm, env, req, out, hc, h2, h3⟩ := hits_sum hH hk hf hT hTn hne
    have h4 := total_messages hH E.ent E.messagesAt e i
    rw [Nat.mod_eq_of_lt (by omega)] at h2
    have := hL _ _ _ _ hc
    omega

/-- C95: nor for more bytes than the byte limit, except for the bytes of one request that is longer and bypasses the cache. -/
theorem C95_byte_limit {L : Nat} (hH : History sha vt calls H) (hk : CacheKeeps H E) (hf : FreshAny calls H)
    (hL : ∀ cmm env req out, .gen cmm env req out ∈ calls → cmm.limitBytes ≤ L) (hlen : H.length * L < 2 ^ 64) (k : Bytes) :
    anyBytes k calls ≤ L ∨
      ∃ t cmm env req out, callsWith k calls = [t] ∧ calls[t]? = some (.gen cmm env req out) ∧ cmm.limitBytes < req.plaintextSize := by
  obtain ⟨T, U, hp, hT, hU, hTn, hUl⟩ := served_split (k := k) hf
  have hsum : anyBytes k calls = (T.map fun t => (calls[t]?.map AnyCall.size).getD 0).sum +
      (U.map fun t => (calls[t]?.map AnyCall.size).getD 0).sum := by
    unfold anyBytes
    rw [(hp.map _).sum_nat, List.map_append, List.sum_append]
  by_cases hne : T = []
  · subst hne
    match U, hUl with
    | [], _ => left; rw [hsum]; simp
    | [t], _ =>
      have hcw : callsWith k calls = [t] := by simpa using hp
      obtain ⟨cmm, env, req, out, m, hc, hu, hm, -⟩ := hU t (.head _)
      by_cases hs : cmm.limitBytes < req.plaintextSize
      · exact .inr ⟨t, cmm, env, req, some out, hcw, hc, hs⟩
      · left
        rw [hsum]
        have := hL _ _ _ _ (List.mem_of_getElem? hc)
        simp [hc, AnyCall.size]; omega
    | _ :: _ :: _, h => simp at h
  · left
    obtain ⟨e, u, id, m0, b0, n0, ctx0, o, hput, hkey, ⟨i, cmm, env, req, out, hc, h2, h3⟩, -⟩ := hits_sum hH hk hf hT hTn hne
    have h4 := total_bytes hH hL E.ent E.bytesAt e i
    rw [Nat.mod_eq_of_lt (by omega)] at h2
    have h5 := hL _ _ _ _ hc
    have h6 : (U.map fun t => (calls[t]?.map AnyCall.size).getD 0).sum ≤ b0 := by
      match U, hUl with
      | [], _ => simp
      | [t], _ =>
        obtain ⟨cmm', env', req', out', m', hc', hu', hm', hk'⟩ := hU t (.head _)
        have : t = u := hf t u k (.inl ⟨cmm', env', req', out', m', hc', hu', hm', hk'⟩)
          (.inr ⟨id, m0, b0, n0, ctx0, o, List.mem_of_getElem? hput, hkey⟩)
        subst this
        obtain ⟨cmm'', env'', req'', out'', hc'', -, hb, -⟩ := put_call hH hput
        rw [hc'] at hc''; cases hc''
        simp [hc', AnyCall.size, hb]
      | _ :: _ :: _, h => simp at h
    rw [hsum]; omega

/-! ## the local cache -/

/-- C95: the caching CMM over the local cache of Model/CachingCmm is this caching CMM, with the local cache answering. -/
theorem C95_local (env : GenEnv) (denv : DecEnv) (req : EncRequest) (dreq : DecRequest) (c : Cache) :
    plain ((anyGenerate sha localVt cmm (toGen env) req).run (localAnswer (ofGen env)) (c, false)) = cachingGenerate sha cmm env req c ∧
    plain ((anyDecrypt sha localVt cmm (toDec denv) dreq).run (localAnswer (ofDec denv)) (c, false)) = cachingDecrypt sha cmm denv dreq c :=
  ⟨run_generate sha env req c, run_decrypt sha denv dreq c⟩

end Verif.Props
