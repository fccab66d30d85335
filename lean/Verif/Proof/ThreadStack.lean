import Verif.Spec.ThreadStack
import Verif.Proof.AnyStack
import Verif.Proof.CachedStack
import Verif.Props.AnyCache
import Verif.Proof.LocalRunsKeeps
import Verif.Proof.LocalRunsSettle
/-
Lemmas for the whole library with caching CMMs that share a materials cache of any kind between threads.
-/
namespace Verif.Proof
open Verif Verif.Spec Verif.Props

/-! ### where the context of a put comes from -/

section
variable {η : Type} {sha : Bytes → Bytes} {vt : CacheVt} {cmm : CachingCmm}

/-- The event stores nothing. -/
def NoStore (e : CacheEvent η) : Prop := stores e.q = none

theorem aux_noStore {h : η} {e : CacheEvent η} (he : Aux h e) : NoStore e := by
  rcases he with ⟨t, rfl⟩ | ⟨t, rfl⟩ | ⟨i, rfl⟩ <;> rfl

theorem evs_try_noStore {clk : Option Nat} {req : EncRequest} {id : Bytes} : Evs (η := η) NoStore (anyTry vt cmm clk id req) := by
  have drop : ∀ {h : η} {a : EncCtx × Option EncMaterials}, Evs (NoStore (η := η)) (anyDrop vt h a) :=
    evs_bind (evs_call fun _ => rfl) fun _ => evs_ret
  unfold anyTry
  refine evs_bind (evs_call fun _ => rfl) fun x => ?_
  split
  · exact evs_ret
  · split
    · exact drop
    · refine evs_bind (evs_checkTtl.mono fun e he => aux_noStore he) fun ok => ?_
      split
      · refine evs_bind (evs_call fun _ => rfl) fun r => ?_
        unfold anyUse
        split
        · exact drop
        · split
          · exact drop
          · refine evs_bind (evs_call fun _ => rfl) fun x => ?_
            split
            · exact drop
            · exact evs_bind (evs_call fun _ => rfl) fun _ => evs_ret
      · exact drop

theorem evs_afterPut_noStore {o : Option η} : Evs (NoStore (η := η)) (anyAfterPut vt cmm o) := by
  cases o with
  | none => exact evs_ret
  | some h =>
    unfold anyAfterPut
    refine evs_bind ?_ fun _ => evs_call fun _ => rfl
    split
    · exact evs_ret
    · refine evs_bind (evs_call fun _ => rfl) fun t => ?_
      split
      · exact evs_call fun _ => rfl
      · exact evs_ret

/-- What an encryption call puts: the answer of the upstream CMM to a context that is the caller's or what a failed attempt left of it. -/
theorem put_ctx {env : AnyGenEnv} {req : EncRequest} {es : List (CacheEvent η)} {o : Option GenOut} (hp : Path (anyGenerate sha vt cmm env req) es o)
    {id : Bytes} {m : EncMaterials} {b n : Nat} {ctx : EncCtx} {a : Option η} (he : ⟨.putEnc id m b n ctx, a⟩ ∈ es) :
    ∃ ctx0, env.up { req with encCtx := ctx0 } = (ctx, .ok m) ∧
      (ctx0 = req.encCtx ∨ ∃ h e, ⟨.getEnc h req.encCtx, (ctx0, .error e)⟩ ∈ es) := by
  have cached : Path (anyGenCached sha vt cmm env req) es o → ∃ ctx0, env.up { req with encCtx := ctx0 } = (ctx, .ok m) ∧
      (ctx0 = req.encCtx ∨ ∃ h e, ⟨.getEnc h req.encCtx, (ctx0, .error e)⟩ ∈ es) := by
    intro hp
    unfold anyGenCached at hp
    split at hp
    · exact absurd he (by have := evs_ret (P := fun _ => False) _ _ hp; exact fun h => this _ h)
    · next id' hid =>
      rcases path_bind.1 hp with ⟨-, h⟩ | ⟨⟨ctx1, x⟩, e1, e2, rfl, h1, hq⟩
      · have := evs_try_noStore _ _ h _ he
        cases this
      · have he : ⟨.putEnc id m b n ctx, a⟩ ∈ e2 := by
          rcases List.mem_append.1 he with he | he
          · have := evs_try_noStore _ _ h1 _ he
            cases this
          · exact he
        cases x with
        | some m' => exact absurd he (by have := evs_ret (P := fun _ => False) _ _ hq; exact fun h => this _ h)
        | none =>
          have hctx : ctx1 = req.encCtx ∨ ∃ h e, ⟨.getEnc h req.encCtx, (ctx1, .error e)⟩ ∈ e1 ++ e2 := by
            rcases try_ctx h1 with h | ⟨h, e, he⟩
            · exact .inl h
            · exact .inr ⟨h, e, List.mem_append_left _ he⟩
          refine ⟨ctx1, ?_, hctx⟩
          dsimp only at hq
          unfold anyMiss at hq
          split at hq
          · exact absurd he (by have := evs_ret (P := fun _ => False) _ _ hq; exact fun h => this _ h)
          · next ctx' m' hup =>
            split at hq
            · exact absurd he (by have := evs_fault (P := fun _ => False) _ _ hq; exact fun h => this _ h)
            · exact absurd he (by have := evs_ret (P := fun _ => False) _ _ hq; exact fun h => this _ h)
            · have hP : Evs (η := η) (fun e => ∀ id m b n ctx, e.q = .putEnc id m b n ctx → ctx = ctx' ∧ m = m')
                  ((askCache vt (.putEnc id' m' req.plaintextSize 1 ctx')).bind fun (e : Option η) =>
                    (anyAfterPut vt cmm e).bind fun _ => .ret ⟨ctx', .ok m', true⟩ : Prog η GenOut) := by
                refine evs_bind (evs_call fun _ => ?_) fun o => evs_bind (evs_afterPut_noStore.mono fun e he => ?_) fun _ => evs_ret
                · intro id m b n ctx h
                  cases h
                  exact ⟨rfl, rfl⟩
                · intro id m b n ctx h
                  unfold NoStore at he
                  rw [h] at he
                  cases he
              obtain ⟨rfl, rfl⟩ := hP _ _ hq _ he _ _ _ _ _ rfl
              exact hup
  unfold anyGenerate at hp
  split at hp
  · exact absurd he (by have := evs_ret (P := fun _ => False) _ _ hp; exact fun h => this _ h)
  · split at hp
    · exact cached hp
    · split at hp
      · exact absurd he (by have := evs_fault (P := fun _ => False) _ _ hp; exact fun h => this _ h)
      · exact absurd he (by have := evs_ret (P := fun _ => False) _ _ hp; exact fun h => this _ h)
      · exact cached hp

/-- Without failing digests, a decryption call is answered from the cache or by the upstream CMM. -/
theorem dec_result {env : AnyDecEnv} {req : DecRequest} {es : List (CacheEvent η)} {out : DecOut}
    (hp : Path (anyDecrypt sha vt cmm env req) es (some out)) (hid : ∀ e, hashDec sha env.ids cmm.partition req ≠ .ok (.error e)) :
    (∃ m, out.res = .ok m) ∨ out.res = env.up req := by
  unfold anyDecrypt at hp
  split at hp
  · exact absurd hp path_fault
  · obtain ⟨-, rfl⟩ := path_ret.1 hp; exact .inr rfl
  · split at hp
    · exact absurd hp path_fault
    · next e he => exact absurd he (hid e)
    · obtain ⟨o, e1, e2, rfl, h1, hq⟩ := path_seq.1 hp
      cases o with
      | some m' => obtain ⟨-, rfl⟩ := path_ret.1 hq; exact .inl ⟨m', rfl⟩
      | none =>
        dsimp only at hq
        unfold anyDecMiss at hq
        split at hq
        · next e hup => obtain ⟨-, rfl⟩ := path_ret.1 hq; exact .inr hup.symm
        · next m hup =>
          obtain ⟨_, _, _, rfl, -, hr⟩ := path_seq.1 hq
          obtain ⟨_, _, _, rfl, -, hr'⟩ := path_seq.1 hr
          obtain ⟨-, rfl⟩ := path_ret.1 hr'
          exact .inl ⟨m, rfl⟩

theorem eventsOf_mem {t : Nat} {H : List (Nat × CacheEvent η)} {e : CacheEvent η} (h : e ∈ eventsOf t H) : ∃ i : Nat, H[i]? = some (t, e) := by
  unfold eventsOf at h
  obtain ⟨⟨u, e'⟩, h1, h2⟩ := List.mem_map.1 h
  obtain ⟨h4, h3⟩ := List.mem_filter.1 h1
  have : u = t := by simpa using h3
  subst this
  cases h2
  exact List.getElem?_of_mem h4

/-! ### one call -/

variable {M : Moment → Prop} {da : Option Nat} {calls : List AnyCall} {H : List (Nat × CacheEvent η)} {E : Entries}

/-- The context with which the upstream CMM is asked is a map. -/
theorem passed_distinct {W : World → Prop} (hs : KeepsSignatures W H E) {t : Nat} {req : EncRequest} {ctx : EncCtx} (hd : DistinctKeys req.encCtx)
    (h : ctx = req.encCtx ∨ ∃ h e, ⟨.getEnc h req.encCtx, (ctx, .error e)⟩ ∈ eventsOf t H) : DistinctKeys ctx := by
  rcases h with rfl | ⟨h, e, hm⟩
  · exact hd
  · obtain ⟨i, hi⟩ := eventsOf_mem hm
    exact hs.maps hi hd

theorem envWith_distinct {w : World} {kr : Keyring} {req : EncRequest} {ctx : EncCtx} {m : EncMaterials} (hd : DistinctKeys req.encCtx)
    (h : (w.envWith kr da).cmm.generate req = (ctx, .ok m)) : DistinctKeys ctx := by
  have := generate_distinct (env := w.cmmEnv) (c := ⟨kr, da⟩) hd
  rw [envWith_generate h] at this
  exact this

/-- What an encryption call is answered comes from the default CMM, in this call or another; the signature context is the same or was stored
and resumed. -/
theorem shared_generate (hS : SharedCache sha vt M da calls H) {t : Nat} {env : AnyGenEnv} {req : EncRequest} {out : GenOut} {m : EncMaterials}
    (hc : calls[t]? = some (.gen cmm env req (some out))) (hm : out.res = .ok m) :
    ∃ mo req0 ctx0 m0, M mo ∧ DistinctKeys req0.encCtx ∧ (mo.world.envWith mo.kr da).cmm.generate req0 = (ctx0, .ok m0) ∧ ctx0.Perm out.ctx ∧
      m.alg = m0.alg ∧ m.dataKey = m0.dataKey ∧ m.edks = m0.edks ∧
      Resumed storeSigner resumeSigner (worlds M) m0.alg m0.signctx m.signctx := by
  obtain ⟨hH, hcalls, E, hk, hs⟩ := hS
  have hp : Path _ _ _ := hH.does t _ hc
  obtain ⟨hd, mo, hmo, hup⟩ := hcalls _ (List.mem_of_getElem? hc)
  cases hu : out.upstream with
  | true =>
    obtain ⟨ctx1, h1, h2, -⟩ := C95_upstream_encrypt hp hu
    rw [hm, hup] at h1
    exact ⟨mo, _, out.ctx, m, hmo, passed_distinct hs hd h2, h1, .refl _, rfl, rfl, rfl, .inl rfl⟩
  | false =>
    obtain ⟨id, h, mid, b, n, -, hes, -⟩ := C95_served_encrypt hp hu hm
    have hmem : ⟨.getEnc h req.encCtx, (out.ctx, .ok m)⟩ ∈ eventsOf t H := by rw [hes]; simp
    obtain ⟨i, hi⟩ := eventsOf_mem hmem
    obtain ⟨u, id0, m0, b0, n0, ctx0, o, hput, a1, a2, a3, -, a5⟩ := hk.enc hi
    have hsig := hs.signer hi hput
    have hdo := hs.maps hi hd
    obtain ⟨cmm0, env0, req0, out0, hc0, -⟩ := put_call hH hput
    have hp0 : Path _ _ _ := hH.does u _ hc0
    obtain ⟨hd0, mo0, hmo0, hup0⟩ := hcalls _ (List.mem_of_getElem? hc0)
    obtain ⟨ctx1, h1, h2⟩ := put_ctx hp0 (mem_eventsOf hput)
    rw [hup0] at h1
    have hd1 := passed_distinct hs hd0 h2
    exact ⟨mo0, _, ctx0, m0, hmo0, hd1, h1, perm_of_find (envWith_distinct hd1 h1) hdo (fun k => (a5 k).symm), a1, a2, a3, hsig⟩

/-- What a decryption call is answered comes from the default CMM, in this call or another for the same keys, unless the digest collides. -/
theorem shared_decrypt (hsha : ∀ x, (sha x).length = 64) (hS : SharedCache sha vt M da calls H) {t : Nat} {env : AnyDecEnv} {r : DecRequest}
    {out : DecOut} {m : DecMaterials} (hc : calls[t]? = some (.dec cmm env r (some out))) (hm : out.res = .ok m)
    (hn : ∀ cmm' env' r' out', .dec cmm' env' r' out' ∈ calls → ¬ Collides sha (DecStrings sha cmm'.partition r') (DecStrings sha cmm.partition r)) :
    ∃ mo r0 m0, M mo ∧ (mo.world.envWith mo.kr da).cmm.decrypt r0 = .ok m0 ∧ r0.alg = r.alg ∧ r.encCtx.Perm r0.encCtx ∧ r.edks.Perm r0.edks ∧
      m.alg = m0.alg ∧ m.dataKey = m0.dataKey ∧ Resumed storeVerifier verifyStartOf (worlds M) m0.alg m0.signctx m.signctx := by
  obtain ⟨hH, hcalls, E, hk, hs⟩ := hS
  have hp : Path _ _ _ := hH.does t _ hc
  obtain ⟨hv, ha, hd, mo, hmo, hup⟩ := hcalls _ (List.mem_of_getElem? hc)
  cases hu : out.upstream with
  | true =>
    obtain ⟨h1, -⟩ := C95_upstream_decrypt hp hu
    rw [hm, hup] at h1
    exact ⟨mo, r, m, hmo, h1, rfl, .refl _, .refl _, rfl, rfl, .inl rfl⟩
  | false =>
    obtain ⟨id, e, u, m0, o, hid, hput, a1, a2, -, -, i, h, hi, rfl⟩ := dec_hit_entry hH hk hc hu hm
    obtain ⟨cmm0, env0, r0, out0, hc0, hid0, hup0⟩ := put_dec_call hH hput
    have hm0 := List.mem_of_getElem? hc0
    obtain ⟨hv0, ha0, hd0, mo0, hmo0, hu0⟩ := hcalls _ hm0
    rw [hu0] at hup0
    rcases C40_decrypt_ids hsha hv0 hv hid0 hid ha0 ha hd0 hd with hx | ⟨-, q1, q2, q3⟩
    · exact absurd hx (hn _ _ _ _ hm0)
    · exact ⟨mo0, r0, m0, hmo0, hup0, q1, (perm_of_find hd0 hd q2).symm, q3.symm, a1, a2, hs.verifier hi hput⟩

/-- A decryption call answers if its default CMM would. -/
theorem shared_answers (hS : SharedCache sha vt M da calls H) {t : Nat} {env : AnyDecEnv} {r : DecRequest} {out : DecOut}
    (hc : calls[t]? = some (.dec cmm env r (some out))) (hids : Digests env.ids) (hfit : wireLen r.encCtx ≤ 65535)
    (hedks : ∀ e ∈ r.edks, e.providerId.length ≤ 65535 ∧ e.providerInfo.length ≤ 65535 ∧ e.ciphertext.length ≤ 65535)
    (hup : ∀ mo, M mo → ∃ m, (mo.world.envWith mo.kr da).cmm.decrypt r = .ok m) : ∃ m, out.res = .ok m := by
  have hp : Path _ _ _ := hS.history.does t _ hc
  obtain ⟨-, -, -, mo, hmo, hu⟩ := hS.calls _ (List.mem_of_getElem? hc)
  have hid : ∀ e, hashDec sha env.ids cmm.partition r ≠ .ok (.error e) := by
    intro e hx
    obtain ⟨b, hb⟩ := idCtxBytes_fits hfit
    unfold hashDec at hx
    rw [hb] at hx
    simp only [hids.1, hids.2.1, hids.2.2, hashEdks_fit hedks] at hx
    cases hx
  rcases dec_result hp hid with h | h
  · exact h
  · obtain ⟨m, hm⟩ := hup mo hmo
    exact ⟨m, by rw [h, hu, hm]⟩

end

/-! ### sessions -/

section
variable {sha : Bytes → Bytes} {Pair : Curve → Nat → Nat → Prop} {M M1 M2 : Moment → Prop} {da : Option Nat}

theorem thread_generate {e : Env} (he : ThreadWriters sha M da e) {req : EncRequest} {ctx : EncCtx} {m : EncMaterials} (hd : DistinctKeys req.encCtx)
    (hm : e.cmm.generate req = (ctx, .ok m)) :
    ∃ mo req0 ctx0 m0, M mo ∧ DistinctKeys req0.encCtx ∧ (mo.world.envWith mo.kr da).cmm.generate req0 = (ctx0, .ok m0) ∧ ctx0.Perm ctx ∧
      m.alg = m0.alg ∧ m.dataKey = m0.dataKey ∧ m.edks = m0.edks ∧ Resumed storeSigner resumeSigner (worlds M) m0.alg m0.signctx m.signctx := by
  rcases he.2 req ctx m hd hm with ⟨mo, hmo, h⟩ | ⟨η, vt, calls, H, t, cmm, env, out, hS, hc, rfl, hr⟩
  · exact ⟨mo, req, ctx, m, hmo, hd, h, .refl _, rfl, rfl, rfl, .inl rfl⟩
  · exact shared_generate hS hc hr

theorem thread_decrypt (hsha : ∀ x, (sha x).length = 64) {r r' : DecRequest} (hs : SameRequest r r') {e : Env} (he : ThreadReaders sha r M da e)
    {m : DecMaterials} (hm : e.cmm.decrypt r' = .ok m) :
    ∃ mo r0 m0, M mo ∧ (mo.world.envWith mo.kr da).cmm.decrypt r0 = .ok m0 ∧ r0.alg = r'.alg ∧ r'.encCtx.Perm r0.encCtx ∧ r'.edks.Perm r0.edks ∧
      m.alg = m0.alg ∧ m.dataKey = m0.dataKey ∧ Resumed storeVerifier verifyStartOf (worlds M) m0.alg m0.signctx m.signctx := by
  rcases he.2 r' m hs hm with ⟨mo, hmo, h⟩ | ⟨η, vt, calls, H, t, cmm, env, out, hS, hc, hr, -, hn⟩
  · exact ⟨mo, r', m, hmo, h, rfl, .refl _, .refl _, rfl, rfl, .inl rfl⟩
  · exact shared_decrypt hsha hS hc hr hn

theorem steady_thread {r : DecRequest} {e : Env} (he : SteadyThreadReaders sha r M da e) : ThreadReaders sha r M da e := by
  refine ⟨he.1, fun r' m hs hm => ?_⟩
  rcases he.2 r' hs with ⟨mo, hmo, h⟩ | ⟨η, vt, calls, H, t, cmm, env, out, h1, h2, h3, -, h5⟩
  · exact .inl ⟨mo, hmo, by rw [← h]; exact hm⟩
  · exact .inr ⟨η, vt, calls, H, t, cmm, env, out, h1, h2, by rw [h3, hm], trivial, h5⟩

theorem signer_same_any {W1 W2 : World → Prop} (hP : Ciphers Pair W1 W2) {w2 : World} (hw2 : W2 w2) {alg : Nat} {x x' y : Option SigCtx}
    (h : SigPair Pair alg x y) (hr : Resumed storeSigner resumeSigner W1 alg x x') : x' = x := by
  rcases hr with rfl | ⟨wp, wg, sc, s, sc', hwp, hwg, hx, h1, h2, rfl⟩
  · rfl
  · rcases h with ⟨rfl, -⟩ | ⟨p, cv, d, q, hp, hid, hcv, -, hpair, rfl, -⟩
    · cases hx
    · cases hx
      rw [resumed_signer (sameEc_trans (hP.same wp w2 hwp hw2) (sameEc_symm (hP.same wg w2 hwg hw2))) hp hid hcv
        (hP.codec wp cv d q hwp hpair) h1 h2]

theorem verifier_same_any {W1 W2 : World → Prop} (hP : Ciphers Pair W1 W2) {w1 : World} (hw1 : W1 w1) {alg : Nat} {x y y' : Option SigCtx}
    (h : SigPair Pair alg x y) (hr : Resumed storeVerifier verifyStartOf W2 alg y y') : y' = y := by
  rcases hr with rfl | ⟨wp, wg, sc, s, sc', hwp, hwg, hy, h1, h2, rfl⟩
  · rfl
  · rcases h with ⟨-, rfl⟩ | ⟨p, cv, d, q, hp, hid, hcv, -, hpair, -, rfl⟩
    · cases hy
    · cases hy
      have hs := hP.same w1 wp hw1 hwp
      rw [resumed_verifier (sameEc_trans (sameEc_symm hs) (hP.same w1 wg hw1 hwg)) hp hid hcv
        (codec_same hs (hP.codec w1 cv d q hw1 hpair)) h1 h2]

theorem thread_storable (hw : GoodWriter M1) (da1 : Option Nat) : Storable (ThreadWriters sha M1 da1) := by
  rintro e req ctx m he hd h
  obtain ⟨mo, req0, ctx0, m0, hmo, hd0, h0, hp, -, -, a3, -⟩ := thread_generate he hd h
  obtain ⟨b1, b2, b3⟩ := any_storable hw da1 _ req0 ctx0 m0 ⟨mo, hmo, rfl⟩ hd0 h0
  exact ⟨(hp.map _).nodup_iff.mp b1, by rw [a3]; exact b2, by rw [a3]; exact b3⟩

theorem thread_undoes (hsha : ∀ x, (sha x).length = 64) (hP : Ciphers Pair (worlds M1) (worlds M2)) (hw : GoodWriter M1)
    (hn : NeverMistakenAnyOrder M1 M2) (da1 da2 : Option Nat) (r : DecRequest) :
    UndoesFor (SameRequest r) (ThreadWriters sha M1 da1) (ThreadReaders sha r M2 da2) where
  aead := by
    rintro e1 e2 k iv aad pt ct tag ⟨⟨m1, hm1, c1, -⟩, -⟩ ⟨⟨m2, hm2, c2, -⟩, -⟩ h
    rw [c1] at h
    rw [c2]
    exact hP.aead m1.world m2.world k iv aad pt ct tag ⟨m1, hm1, rfl⟩ ⟨m2, hm2, rfl⟩ h
  hkdf := by
    rintro e1 e2 sha salt ikm info n x y ⟨⟨m1, hm1, c1, -⟩, -⟩ ⟨⟨m2, hm2, c2, -⟩, -⟩ h h'
    rw [c1] at h
    rw [c2] at h'
    have h1 := hkdfOf_mono (fun sha k m t => hP.hmac m1.world m2.world sha k m t ⟨m1, hm1, rfl⟩ ⟨m2, hm2, rfl⟩) h
    have h2 : hkdfOf m2.world.hmac sha salt ikm info n = .ok y := h'
    rw [h1] at h2
    cases h2; rfl
  dataKey := by
    intro e1 e2 req ctx ctx' m m' he1 he2 hd h hp hR h'
    obtain ⟨m1, req0, ctx0, m0, hm1, hd0, h0, hp0, a1, a2, a3, -⟩ := thread_generate he1 hd h
    obtain ⟨hdc, hgave, -⟩ := writer_gave hw hm1 hd0 h0
    obtain ⟨m2, ⟨rc, re, ra⟩, m0', hm2, h0', b1, b2, b3, -, b5, -⟩ := thread_decrypt hsha hR he2 h'
    simp only at b1 b2 b3
    rw [b1, a1] at h0'
    obtain ⟨s, k, d1, d2, d3⟩ := reader_found h0'
    rw [b5, d3, a2]
    rw [a3] at b3
    exact hn _ _ _ _ _ _ m2 s k hdc hgave ((hp0.trans hp).trans b2) b3 hm2 d1 d2

theorem thread_refuses (hsha : ∀ x, (sha x).length = 64) (hw : GoodWriter M1) (hn : NeverFindsAnyOrder M1 M2) (da1 da2 : Option Nat)
    (r : DecRequest) {e1 e2 : Env} {req : EncRequest} {ctx ctx' : EncCtx} {m : EncMaterials} {m' : DecMaterials}
    (he1 : ThreadWriters sha M1 da1 e1) (he2 : ThreadReaders sha r M2 da2 e2) (hd : DistinctKeys req.encCtx)
    (h : e1.cmm.generate req = (ctx, .ok m)) (hp : ctx.Perm ctx') (hR : SameRequest r { encCtx := ctx', edks := m.edks, alg := m.alg })
    (h' : e2.cmm.decrypt { encCtx := ctx', edks := m.edks, alg := m.alg } = .ok m') : False := by
  obtain ⟨m1, req0, ctx0, m0, hm1, hd0, h0, hp0, a1, a2, a3, -⟩ := thread_generate he1 hd h
  obtain ⟨hdc, hgave, -⟩ := writer_gave hw hm1 hd0 h0
  obtain ⟨m2, ⟨rc, re, ra⟩, m0', hm2, h0', b1, b2, b3, -⟩ := thread_decrypt hsha hR he2 h'
  simp only at b1 b2 b3
  rw [b1, a1] at h0'
  obtain ⟨s, k, d1, d2, -⟩ := reader_found h0'
  rw [a3] at b3
  rw [hn _ _ _ _ _ _ m2 s hdc hgave ((hp0.trans hp).trans b2) b3 hm2 d1] at d2
  cases d2

theorem thread_opens (hsha : ∀ x, (sha x).length = 64) (hP : Ciphers Pair (worlds M1) (worlds M2)) (hh : ∀ w, worlds M2 w → Sound w)
    (hw : GoodWriter M1) (hf : AlwaysFindsAnyOrder M1 M2) (da1 da2 : Option Nat) (r : DecRequest) :
    OpensFor (fun r' => SameRequest r r' ∧ wireLen r'.encCtx ≤ 65535) (ThreadWriters sha M1 da1) (SteadyThreadReaders sha r M2 da2) where
  aead := by
    rintro e1 e2 k iv aad pt ct tag ⟨⟨m1, hm1, c1, -⟩, -⟩ ⟨⟨m2, hm2, c2, -⟩, -⟩ h
    rw [c1] at h
    rw [c2]
    exact hP.aead m1.world m2.world k iv aad pt ct tag ⟨m1, hm1, rfl⟩ ⟨m2, hm2, rfl⟩ h
  hkdf := by
    rintro e1 e2 sha salt ikm info n x ⟨⟨m1, hm1, c1, -⟩, -⟩ ⟨⟨m2, hm2, c2, -⟩, -⟩ h
    rw [c1] at h
    rw [c2]
    exact hkdfOf_mono (fun sha k m t => hP.hmac m1.world m2.world sha k m t ⟨m1, hm1, rfl⟩ ⟨m2, hm2, rfl⟩) h
  alloc := by
    rintro e2 site ⟨⟨m2, hm2, -, c2⟩, -⟩
    rw [c2]
    exact (hh _ ⟨m2, hm2, rfl⟩).alloc site
  digest := by
    rintro e2 ctx x ⟨⟨m2, hm2, c2, -⟩, -⟩
    rw [c2]
    exact (hh _ ⟨m2, hm2, rfl⟩).digest ctx x
  sigLen := by
    rintro e1 ctx sig ⟨⟨m1, hm1, c1, -⟩, -⟩ h
    rw [c1] at h
    exact signOf_length h
  answers := by
    intro e1 e2 req ctx ctx' m he1 he2 hd h hp hR
    obtain ⟨m1, req0, ctx0, m0, hm1, hd0, h0, hp0, a1, a2, a3, a4⟩ := thread_generate he1 hd h
    obtain ⟨hdc, hgave, -⟩ := writer_gave hw hm1 hd0 h0
    have hdef : ∀ {m2 ctx2 edks2}, M2 m2 → ctx'.Perm ctx2 → m0.edks.Perm edks2 →
        ∃ m', (m2.world.envWith m2.kr da2).cmm.decrypt { encCtx := ctx2, edks := edks2, alg := m0.alg } = .ok m' ∧ m'.dataKey = m0.dataKey ∧
          m'.alg = m0.alg ∧ SigPair Pair m0.alg m0.signctx m'.signctx := by
      intro m2 ctx2 edks2 hm2 hp2 he
      have hq := (hp0.trans hp).trans hp2
      exact any_answers_from hP hw da1 da2 hm1 hm2 (hh _ ⟨m2, hm2, rfl⟩) hd0 h0 hq (hf _ _ _ _ _ _ m2 hdc hgave hq he hm2)
    have hans : ∃ m', e2.cmm.decrypt { encCtx := ctx', edks := m.edks, alg := m.alg } = .ok m' := by
      have hd2 : ∀ mo, M2 mo → ∃ m', (mo.world.envWith mo.kr da2).cmm.decrypt { encCtx := ctx', edks := m.edks, alg := m.alg } = .ok m' := by
        intro m2 hm2
        obtain ⟨m', hm', -⟩ := hdef hm2 (.refl _) (.refl _)
        exact ⟨m', by rw [a1, a3]; exact hm'⟩
      rcases he2.2 _ hR.1 with ⟨m2, hm2, h2⟩ | ⟨η, vt, calls, H, t, cmm, env, out, k1, k2, k3, k4, -⟩
      · obtain ⟨m', hm'⟩ := hd2 m2 hm2
        exact ⟨m', by rw [h2, hm']⟩
      · rw [← k3]
        refine shared_answers k1 k2 k4 hR.2 ?_ hd2
        intro x hx
        simp only [a3] at hx
        have := (hw.fits _ _ _ _ hdc hgave).2 x hx
        omega
    obtain ⟨m', hm'⟩ := hans
    obtain ⟨m2, ⟨rc, re, ra⟩, m0', hm2, h0', b1, b2, b3, b4, b5, b6⟩ := thread_decrypt hsha hR.1 (steady_thread he2) hm'
    simp only at b1 b2 b3
    rw [b1, a1] at h0'
    rw [a3] at b3
    obtain ⟨md, d1, d2, d3, d4⟩ := hdef hm2 b2 b3
    rw [h0'] at d1; cases d1
    have hx := signer_same_any hP ⟨m2, hm2, rfl⟩ d4 a4
    rw [d3] at b6
    have hy := verifier_same_any hP ⟨m1, hm1, rfl⟩ d4 b6
    refine ⟨m', hm', by rw [b5, d2, a2], by rw [b4, d3, a1], fun c hcx => ?_⟩
    obtain ⟨c', e1', e2'⟩ := pair_verifies hP d4 (by rw [← hx]; exact hcx)
    refine ⟨c', by rw [hy]; exact e1', ?_⟩
    rintro e3 e4 data sig ⟨⟨m3, hm3, c3, -⟩, -⟩ ⟨⟨m4, hm4, c4, -⟩, -⟩ hsig
    rw [c3] at hsig
    rw [c4]
    exact e2' m3.world m4.world data sig ⟨m3, hm3, rfl⟩ ⟨m4, hm4, rfl⟩ hsig

end

/-! ### the local cache -/

theorem LocalRuns.question {sha calls addr cap num log asked s} (h : LocalRuns sha calls addr cap num log asked s) :
    ∀ x ∈ log, questionOf x.op = some x.ev.q := by
  induction h with
  | new => simp
  | begins _ _ _ ih => exact ih
  | returns _ _ _ hr ih =>
    intro x hx
    rcases List.mem_append.1 hx with hx | hx
    · exact ih x hx
    · rw [List.mem_singleton.1 hx]; exact recordOf_question hr
  | goes _ _ ih => exact ih
  | ends _ _ _ hr ih =>
    intro x hx
    rcases List.mem_append.1 hx with hx | hx
    · exact ih x hx
    · rw [List.mem_singleton.1 hx]; exact recordOf_question hr
  | other _ _ _ ih => exact ih

/-- The local cache keeps signature keys, if signature contexts are stored and begun anew by the library's functions. -/
theorem LR.signatures {log asked s G pos pend led} (h : LR log asked s G pos pend led) (hq : ∀ x ∈ log, questionOf x.op = some x.ev.q)
    {W : World → Prop} (hl : ∀ x ∈ log, LibrarySigs W x.op) : KeepsSignatures W (asHistory log) (entriesOf G) := by
  have hent : ∀ {i : Nat} {row : Row}, G[i]? = some row → (entriesOf G).ent i = row.ent := by
    intro i row hr; simp [entriesOf, hr]
  have hmem : ∀ {i : Nat} {row : Row}, G[i]? = some row → row.x ∈ log := by
    intro i row hr
    rw [h.log]
    exact List.mem_map_of_mem (List.mem_of_getElem? hr)
  refine ⟨?_, ?_, ?_⟩
  · intro i t n c c' r hx hd
    obtain ⟨row, hr, -, he⟩ := asHistory_get h.log hx
    injection he with he1 he2
    obtain ⟨env, h1, h2⟩ := (h.books.rows i row hr).maps n c c' r he2.symm
    have hL := hl _ (hmem hr)
    rw [h1] at hL
    rcases h2 with h2 | h2
    · exact hL.2 _ h2
    · exact h2
  · intro i t n c c' m u id m0 b k c0 o hx hput
    obtain ⟨row, hr, -, he⟩ := asHistory_get h.log hx
    injection he with he1 he2
    obtain ⟨r', id', m0', b', k', c0', env, penv, key, h1, h2, h3, h4, h5⟩ := (h.books.rows i row hr).signer n c c' m he2.symm
    rw [hent hr, asHistory_of h.log h1] at hput
    injection hput with hput
    injection hput with _ hput
    have hqq := hq _ (hmem h1)
    rw [h2, hput] at hqq
    cases hqq
    have hL := hl _ (hmem hr)
    rw [h3] at hL
    have hL' := hl _ (hmem h1)
    rw [h2] at hL'
    obtain ⟨⟨wg, hwg, hg⟩, -⟩ := hL
    obtain ⟨wp, hwp, hp⟩ := hL'
    exact resumed_of hwp hwg h4 hp h5 hg
  · intro i t n m u id m0 o hx hput
    obtain ⟨row, hr, -, he⟩ := asHistory_get h.log hx
    injection he with he1 he2
    obtain ⟨r', id', m0', env, penv, key, h1, h2, h3, h4, h5⟩ := (h.books.rows i row hr).verifier n m he2.symm
    rw [hent hr, asHistory_of h.log h1] at hput
    injection hput with hput
    injection hput with _ hput
    have hqq := hq _ (hmem h1)
    rw [h2, hput] at hqq
    cases hqq
    have hL := hl _ (hmem hr)
    rw [h3] at hL
    have hL' := hl _ (hmem h1)
    rw [h2] at hL'
    obtain ⟨wg, hwg, hg⟩ := hL
    obtain ⟨wp, hwp, hp⟩ := hL'
    exact resumed_of hwp hwg h4 hp h5 hg

/-- Calls over a local cache, in any interleaving, are calls over a cache that keeps its promises. -/
theorem local_shared {sha calls addr cap num log asked s} {M : Moment → Prop} {da : Option Nat} (h : LocalRuns sha calls addr cap num log asked s)
    (hH : History sha localVt calls (asHistory log)) (hc : ∀ call ∈ calls, CallAt M da call) (hl : ∀ x ∈ log, LibrarySigs (worlds M) x.op) :
    SharedCache sha localVt M da calls (asHistory log) := by
  obtain ⟨-, G, pos, pend, led, hlr⟩ := LocalRuns.lr h
  exact ⟨hH, hc, entriesOf G, keepsAt_mono hlr.keeps (fun _ h => h.elim), hlr.signatures (LocalRuns.question h) hl⟩

end Verif.Proof
