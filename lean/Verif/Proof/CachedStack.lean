import Verif.Spec.CachedStack
import Verif.Proof.Stack
import Verif.Props.CachingCmmMore
/-
Lemmas for the composition of the layers with a cache.
-/
namespace Verif.Props
open Spec

/-! ### keys of signature contexts in the cache -/

theorem sameEc_symm {e1 e2 : Ec} (h : SameEc e1 e2) : SameEc e2 e1 :=
  ⟨h.verify.symm, h.hash.symm, h.pubOut.symm, h.pubIn.symm, h.b64.symm, h.unb64.symm⟩

theorem sameEc_trans {e1 e2 e3 : Ec} (h : SameEc e1 e2) (h' : SameEc e2 e3) : SameEc e1 e3 :=
  ⟨h.verify.trans h'.verify, h.hash.trans h'.hash, h.pubOut.trans h'.pubOut, h.pubIn.trans h'.pubIn, h.b64.trans h'.b64,
    h.unb64.trans h'.unb64⟩

theorem codec_same {e1 e2 : Ec} (h : SameEc e1 e2) {cv : Curve} {q : Nat} (hc : Codec e1 cv q) : Codec e2 cv q :=
  ⟨by rw [← h.pubIn, ← h.pubOut]; exact hc.point, by rw [← h.pubOut]; exact hc.pointLen, by rw [← h.b64, ← h.unb64]; exact hc.base64,
    by rw [← h.b64]; exact hc.text⟩

/-- A signer that was stored and resumed is the same signer. -/
theorem resumed_signer {ep eg : Ec} (hs : SameEc ep eg) {alg : Nat} {p : AlgProps} (hp : algProps alg = some p) (hid : p.algId = alg)
    {cv : Curve} (hcv : sigCurve alg = some cv) {d q : Nat} (hcod : Codec ep cv q) {s : Bytes} {sc : SigCtx}
    (h1 : storeSigner ep ⟨⟨alg, some d, some q⟩, []⟩ = some s) (h2 : resumeSigner eg alg s = .ok sc) : sc = ⟨⟨alg, some d, some q⟩, []⟩ := by
  subst hid
  unfold storeSigner SigCtx.full at h1
  simp only [hp, Option.map_some, Option.isSome_some, hcv] at h1
  unfold resumeSigner at h2
  simp only [hp] at h2
  cases hg : sigGetPrivkey ep cv ⟨p, some ⟨some d, some q⟩, some true, some [], true⟩ (fun _ => 0) with
  | mk r w =>
    rw [hg] at h1
    cases r with
    | error e => cases h1
    | ok s' =>
      obtain rfl : s' = s := Option.some.inj h1
      cases hst : (sigSignStart eg false p s' (fun _ => 0)).1 with
      | error e => rw [hst] at h2; cases h2
      | ok x =>
        obtain ⟨row, hrow, hrid⟩ := algProps_isSome hp
        have hlt : ∀ r ∈ suiteTable, r.id < 65536 := by decide
        obtain ⟨c', pub, rfl, hi⟩ := C68_round_trip ep eg cv p (by rw [← hrid]; exact hlt row hrow) hcv d q [] _ ⟨rfl, rfl, rfl, rfl, rfl⟩ hcod hs _ w s' hg false _ x hst
        rw [hst] at h2
        cases h2
        unfold SigC.view
        rw [hi.props, hi.keypair, hi.md]
        rfl

/-- A verifier that was stored and resumed is the same verifier. -/
theorem resumed_verifier {ep eg : Ec} (hs : SameEc ep eg) {alg : Nat} {p : AlgProps} (hp : algProps alg = some p) (hid : p.algId = alg)
    {cv : Curve} (hcv : sigCurve alg = some cv) {q : Nat} (hcod : Codec ep cv q) {s : Bytes} {sc : SigCtx}
    (h1 : storeVerifier ep ⟨⟨alg, none, some q⟩, []⟩ = some s) (h2 : verifyStartOf eg alg s = .ok sc) : sc = ⟨⟨alg, none, some q⟩, []⟩ := by
  subst hid
  unfold storeVerifier SigCtx.full at h1
  simp only [hp, Option.map_some, hcv] at h1
  unfold sigGetPubkey serializePubkey at h1
  simp only [stripNul_text (hcod.text _)] at h1
  have hse : s = ep.b64 (ep.pubOut cv q) := by
    split at h1
    · rename_i x hx
      obtain rfl := Option.some.inj h1
      repeat' split at hx
      all_goals first | cases hx | skip
      rfl
    · cases h1
  subst hse
  unfold verifyStartOf at h2
  simp only [hp] at h2
  cases hv : sigVerifyStart eg (ep.b64 (ep.pubOut cv q)) p (fun _ => 0) with
  | mk r w =>
    rw [hv] at h2
    cases r with
    | error e => cases h2
    | ok o =>
      cases o with
      | none => cases h2
      | some v =>
        cases h2
        obtain ⟨cv', bin, q', a1, a2, a3, a4⟩ := C69_verify_start eg _ p _ w v hv
        rw [hcv] at a1; cases a1
        rw [← hs.unb64, hcod.base64] at a2; cases a2
        rw [← hs.pubIn, hcod.point] at a3; cases a3
        unfold SigC.view
        rw [a4.props, a4.keypair, a4.md]
        rfl

/-! ### what a history of good calls contains -/

section
variable {Pair : Curve → Nat → Nat → Prop} {RsaPair : Bytes → Bytes → Prop} {W W1 W2 W3 : World → Prop} {sha : Bytes → Bytes}
  {addr : Nat → Nat} {cap : Nat} {log : List CmmEvent} {c c' : Cache} {kr : UserKr} {da : Option Nat}

theorem env_generate_distinct (w : World) (kr : UserKr) (da : Option Nat) {req : EncRequest} (hd : DistinctKeys req.encCtx) :
    DistinctKeys ((w.env kr da).cmm.generate req).1 :=
  generate_distinct (env := w.cmmEnv) (c := ⟨kr.keyring w, da⟩) hd

/-- Contexts stay maps, and what comes from upstream is the answer to a request whose context is a map. -/
def GoodOut (env : GenEnv) (req : EncRequest) (out : GenOut) : Prop :=
  DistinctKeys out.ctx ∧ (out.upstream = true → ∃ ctx, DistinctKeys ctx ∧ env.up { req with encCtx := ctx } = (out.ctx, out.res))

theorem genStep_good {cmm : CachingCmm} {t : CacheTurn} (ht : Turn W t) {req : EncRequest} {out : GenOut} (hd : DistinctKeys req.encCtx)
    (hc : ∀ n e m ectx, c.mem n = some e → e.mat = .enc m ectx → DistinctKeys ectx)
    (h : GenStep sha cmm (t.genEnv kr da) req c c' out) : GoodOut (t.genEnv kr da) req out := by
  have hmiss : ∀ ctx, MissCtx (t.genEnv kr da) req c ctx → DistinctKeys ctx := by
    rintro ctx (rfl | h | ⟨n, e, m, ectx, h1, h2, rfl⟩)
    · exact hd
    · exact ht.clone ctx h
    · exact (encCtxClone_spec hd (hc n e m ectx h1 h2)).1
  have hgen : ∀ r : EncRequest, DistinctKeys r.encCtx → DistinctKeys ((t.genEnv kr da).up r).1 := fun r hr => env_generate_distinct t.up kr da hr
  cases h with
  | bypass _ ho _ => subst ho; exact ⟨hgen req hd, fun _ => ⟨req.encCtx, hd, rfl⟩⟩
  | noId _ _ _ hu hx => exact ⟨by rw [hx]; exact hd, fun h => by rw [hu] at h; cases h⟩
  | hit id hid hs hu m hr n e m0 ectx hh =>
    exact ⟨by rw [hh.ctx]; exact (encCtxClone_spec hd (hc n e m0 ectx hh.mem hh.mat)).1, fun h => by rw [hu] at h; cases h⟩
  | missFail ctx e hup hr hu hf hx =>
    have h1 := hgen { req with encCtx := ctx } (hmiss ctx hx)
    rw [hup] at h1
    exact ⟨h1, fun _ => ⟨ctx, hmiss ctx hx, by rw [hup, hr]⟩⟩
  | miss id hid hs ctx m hup hr hu num hmem hx =>
    have h1 := hgen { req with encCtx := ctx } (hmiss ctx hx)
    rw [hup] at h1
    exact ⟨h1, fun _ => ⟨ctx, hmiss ctx hx, by rw [hup, hr]⟩⟩

theorem decStep_up {cmm : CachingCmm} {env : DecEnv} {req : DecRequest} {out : DecOut} (h : DecStep sha cmm env req c c' out)
    (hu : out.upstream = true) : env.up req = out.res := by
  cases h with
  | bypass _ ho _ => subst ho; rfl
  | noId _ _ _ h => rw [hu] at h; cases h
  | hit _ _ h => rw [hu] at h; cases h
  | missFail _ h hr => rw [h, hr]
  | miss _ _ _ h hr => rw [h, hr]

/-- Contexts stored in the cache are maps if those of the log are. -/
theorem stored_distinct (h : CmmHistory sha addr cap log c)
    (hg : ∀ cmm env req out, .gen cmm env req out ∈ log → GoodOut env req out) :
    ∀ n e m ectx, c.mem n = some e → e.mat = .enc m ectx → DistinctKeys ectx := by
  intro n e m ectx he hm
  have hp := h.prov n e he
  unfold Prov at hp
  rw [hm] at hp
  obtain ⟨cmm0, env0, req0, out0, m1, h1, -, -, -, rfl, -⟩ := hp
  exact (hg _ _ _ _ h1).1

theorem history_good (h : CmmHistory sha addr cap log c) (hg : ∀ ev ∈ log, GoodCall W kr da ev) :
    (∀ cmm env req out, .gen cmm env req out ∈ log → GoodOut env req out) ∧
    (∀ cmm env req out, .dec cmm env req out ∈ log → out.upstream = true → env.up req = out.res) := by
  induction h with
  | new => exact ⟨fun _ _ _ _ h => (by cases h), fun _ _ _ _ h => (by cases h)⟩
  | @gen log c cmm env req c' out hh hv hr ih =>
    obtain ⟨i1, i2⟩ := ih (fun ev hev => hg ev (.tail _ hev))
    refine ⟨fun a b d e hm => ?_, fun a b d e hm => ?_⟩
    · rcases List.mem_cons.mp hm with hm | hm
      · cases hm
        obtain ⟨⟨t, ht, rfl⟩, -, hd⟩ := hg _ (.head _)
        exact genStep_good ht hd (stored_distinct hh i1) (cachingGenerate_ok hh.ok hr).2
      · exact i1 a b d e hm
    · rcases List.mem_cons.mp hm with hm | hm
      · cases hm
      · exact i2 a b d e hm
  | @dec log c cmm env req c' out hh hv hr ih =>
    obtain ⟨i1, i2⟩ := ih (fun ev hev => hg ev (.tail _ hev))
    refine ⟨fun a b d e hm => ?_, fun a b d e hm => ?_⟩
    · rcases List.mem_cons.mp hm with hm | hm
      · cases hm
      · exact i1 a b d e hm
    · rcases List.mem_cons.mp hm with hm | hm
      · cases hm
        exact decStep_up (cachingDecrypt_ok hh.ok hr).2
      · exact i2 a b d e hm
  | @clear log c c' hh hr ih =>
    obtain ⟨i1, i2⟩ := ih (fun ev hev => hg ev (.tail _ hev))
    refine ⟨fun a b d e hm => ?_, fun a b d e hm => ?_⟩
    · rcases List.mem_cons.mp hm with hm | hm
      · cases hm
      · exact i1 a b d e hm
    · rcases List.mem_cons.mp hm with hm | hm
      · cases hm
      · exact i2 a b d e hm

theorem resumed_of {store : Ec → SigCtx → Option Bytes} {start : Ec → Nat → Bytes → Except Err SigCtx} {alg : Nat} {x y : Option SigCtx}
    {wp wg : World} (hwp : W wp) (hwg : W wg) {put : PutEnv} {get : GetEnv} {key : Option Bytes} (h1 : storedKey put x = some key)
    (hp : put.getKey = store wp.ec) (h2 : startSig get alg key = .ok y) (hg : get.sigStart = start wg.ec) : Resumed store start W alg x y := by
  unfold storedKey at h1
  unfold startSig at h2
  cases x with
  | none => cases h1; cases h2; exact .inl rfl
  | some sc =>
    simp only [hp] at h1
    cases hs : store wp.ec sc with
    | none => rw [hs] at h1; cases h1
    | some s =>
      rw [hs] at h1; cases h1
      simp only [hg] at h2
      cases hr : start wg.ec alg s with
      | error e => rw [hr] at h2; cases h2
      | ok sc' => rw [hr] at h2; cases h2; exact .inr ⟨wp, wg, sc, s, sc', hwp, hwg, rfl, hs, hr, rfl⟩

/-! ### the writer -/

theorem cachedEnv_generate {w : World} {cmm : CachingCmm} {t : CacheTurn} {req : EncRequest} {ctx : EncCtx} {m : EncMaterials}
    (h : (w.cachedEnv sha cmm t kr da c).cmm.generate req = (ctx, .ok m)) :
    ∃ c' out, cachingGenerate sha cmm (t.genEnv kr da) req c = .ok (c', out) ∧ out.ctx = ctx ∧ out.res = .ok m := by
  change (match cachingGenerate sha cmm (t.genEnv kr da) req c with
    | .error _ => (req.encCtx, .error .unknown)
    | .ok (_, out) => (out.ctx, out.res)) = (ctx, .ok m) at h
  cases hg : cachingGenerate sha cmm (t.genEnv kr da) req c with
  | error f => rw [hg] at h; cases h
  | ok x =>
    rw [hg] at h
    obtain ⟨c', out⟩ := x
    exact ⟨c', out, rfl, (Prod.mk.inj h).1, (Prod.mk.inj h).2⟩

/-- What a caching CMM answers to an encryption request comes from the default CMM, now or in an earlier call; the signature context is the
same or was stored and resumed. -/
theorem cached_generate (h : CmmHistory sha addr cap log c) (hg : ∀ ev ∈ log, GoodCall W kr da ev) {w : World} {cmm : CachingCmm}
    {t : CacheTurn} (ht : Turn W t) {req : EncRequest} {ctx : EncCtx} {m : EncMaterials} (hd : DistinctKeys req.encCtx)
    (hm : (w.cachedEnv sha cmm t kr da c).cmm.generate req = (ctx, .ok m)) :
    ∃ w0 req0 ctx0 m0, W w0 ∧ DistinctKeys req0.encCtx ∧ (w0.env kr da).cmm.generate req0 = (ctx0, .ok m0) ∧ ctx0.Perm ctx ∧
      m.alg = m0.alg ∧ m.dataKey = m0.dataKey ∧ m.edks = m0.edks ∧
      Resumed storeSigner resumeSigner W m0.alg m0.signctx m.signctx := by
  obtain ⟨c', out, hr, rfl, ho⟩ := cachedEnv_generate hm
  obtain ⟨g1, -⟩ := history_good h hg
  have hst := (cachingGenerate_ok h.ok hr).2
  have hgo := genStep_good ht hd (stored_distinct h g1) hst
  cases hu : out.upstream with
  | true =>
    obtain ⟨ctx1, hd1, hup⟩ := hgo.2 hu
    rw [ho] at hup
    exact ⟨t.up, _, out.ctx, m, ht.up, hd1, hup, .refl _, rfl, rfl, rfl, .inl rfl⟩
  | false =>
    cases hst with
    | bypass _ ho' _ => subst ho'; cases hu
    | noId _ e he => rw [ho] at he; cases he
    | missFail _ _ _ _ h1 => rw [hu] at h1; cases h1
    | miss _ _ _ _ _ _ _ h1 => rw [hu] at h1; cases h1
    | hit id hid hs _ m' hres n e m0 ectx hh =>
      rw [ho] at hres; cases hres
      have hp := h.prov n e hh.mem
      unfold Prov at hp
      rw [hh.mat] at hp
      obtain ⟨cmm0, env0, req0, out0, m1, h1, h2, h3, rfl, rfl, -, -, h8⟩ := hp
      obtain ⟨sc, hsc, rfl⟩ := hh.sig
      obtain ⟨⟨t0, ht0, rfl⟩, -, hd0⟩ := hg _ h1
      obtain ⟨gd, gu⟩ := g1 _ _ _ _ h1
      obtain ⟨ctx1, hd1, hup⟩ := gu h2
      rw [h3] at hup
      refine ⟨t0.up, _, out0.ctx, m1, ht0.up, hd1, hup, ?_, rfl, rfl, rfl, resumed_of ht0.put ht.get h8 rfl hsc rfl⟩
      obtain ⟨c1, c2⟩ := encCtxClone_spec hd gd
      rw [hh.ctx]
      exact perm_of_find gd c1 (fun k => (c2 k).symm)

/-- The same for sessions with or without cache. -/
theorem writers_generate {e : Env} (he : Writers sha W kr da e) {req : EncRequest} {ctx : EncCtx} {m : EncMaterials}
    (hd : DistinctKeys req.encCtx) (hm : e.cmm.generate req = (ctx, .ok m)) :
    ∃ w0 req0 ctx0 m0, W w0 ∧ DistinctKeys req0.encCtx ∧ (w0.env kr da).cmm.generate req0 = (ctx0, .ok m0) ∧ ctx0.Perm ctx ∧
      m.alg = m0.alg ∧ m.dataKey = m0.dataKey ∧ m.edks = m0.edks ∧ Resumed storeSigner resumeSigner W m0.alg m0.signctx m.signctx := by
  rcases he with ⟨w, hw, rfl⟩ | ⟨addr, cap, log, c, cmm, t, w, h, hg, -, ht, -, -, rfl⟩
  · exact ⟨w, req, ctx, m, hw, hd, hm, .refl _, rfl, rfl, rfl, .inl rfl⟩
  · exact cached_generate h hg ht hd hm

/-! ### the reader -/

theorem NoClash.same {cmm : CachingCmm} {r r' : DecRequest} (h : NoClash sha cmm log r) (hs : SameRequest r r') : NoClash sha cmm log r' := by
  rintro cmm' env req out hm ⟨x, y, hx, hy, hne, heq⟩
  refine h cmm' env req out hm ⟨x, y, hx, ?_, hne, heq⟩
  obtain ⟨s1, s2, s3⟩ := hs
  have hc : ∀ {z}, CtxString r'.encCtx z → CtxString r.encCtx z := by
    rintro z ⟨s, hp, rfl⟩
    exact ⟨s, hp.trans s1, rfl⟩
  rcases hy with hy | hy | ⟨z, ds, h1, h2, rfl⟩
  · exact .inl (hc hy)
  · rw [s2] at hy; exact .inr (.inl hy)
  · rw [s2] at h2; exact .inr (.inr ⟨z, ds, hc h1, h2, by rw [s3]⟩)

theorem cachedEnv_decrypt {w : World} {cmm : CachingCmm} {t : CacheTurn} {r : DecRequest} {m : DecMaterials}
    (h : (w.cachedEnv sha cmm t kr da c).cmm.decrypt r = .ok m) :
    ∃ c' out, cachingDecrypt sha cmm (t.decEnv kr da) r c = .ok (c', out) ∧ out.res = .ok m := by
  change (match cachingDecrypt sha cmm (t.decEnv kr da) r c with
    | .error _ => Except.error Err.unknown
    | .ok (_, out) => out.res) = .ok m at h
  cases hg : cachingDecrypt sha cmm (t.decEnv kr da) r c with
  | error f => rw [hg] at h; cases h
  | ok x =>
    rw [hg] at h
    obtain ⟨c', out⟩ := x
    exact ⟨c', out, rfl, h⟩

/-- What a caching CMM answers to a decryption request comes from the default CMM, now or in an earlier call for the same keys, unless
the digest collides. -/
theorem cached_decrypt (hsha : ∀ x, (sha x).length = 64) (h : CmmHistory sha addr cap log c) (hg : ∀ ev ∈ log, GoodCall W kr da ev)
    {w : World} {cmm : CachingCmm} (hv : cmm.Valid) {t : CacheTurn} (ht : Turn W t) {r : DecRequest} {m : DecMaterials}
    (hd : DistinctKeys r.encCtx) (ha : r.alg < 65536) (hn : NoClash sha cmm log r)
    (hm : (w.cachedEnv sha cmm t kr da c).cmm.decrypt r = .ok m) :
    ∃ w0 r0 m0, W w0 ∧ (w0.env kr da).cmm.decrypt r0 = .ok m0 ∧ r0.alg = r.alg ∧ r.encCtx.Perm r0.encCtx ∧ r.edks.Perm r0.edks ∧
      m.alg = m0.alg ∧ m.dataKey = m0.dataKey ∧ Resumed storeVerifier verifyStartOf W m0.alg m0.signctx m.signctx := by
  obtain ⟨c', out, hr, ho⟩ := cachedEnv_decrypt hm
  cases hu : out.upstream with
  | true =>
    have hup := decStep_up (cachingDecrypt_ok h.ok hr).2 hu
    rw [ho] at hup
    exact ⟨t.up, r, m, ht.up, hup, rfl, .refl _, .refl _, rfl, rfl, .inl rfl⟩
  | false =>
    have hall : ∀ cmm' env' req' out', .dec cmm' env' req' out' ∈ (.dec cmm (t.decEnv kr da) r out :: log) →
        req'.alg < 65536 ∧ DistinctKeys req'.encCtx := by
      intro cmm' env' req' out' hx
      rcases List.mem_cons.mp hx with hx | hx
      · cases hx; exact ⟨ha, hd⟩
      · exact (hg _ hx).2
    obtain ⟨cmm0, env0, req0, out0, m0, key, h1, h2, h3, h4, h5, -, h7, h8, h9⟩ := C40_decrypt_hit hsha (.dec h hv hr) hu ho hall
    obtain ⟨⟨t0, ht0, rfl⟩, -, hd0⟩ := hg _ h1
    have hup := (history_good h hg).2 _ _ _ _ h1 h2
    rw [h3] at hup
    rcases h9 with h9 | ⟨-, q1, q2, q3⟩
    · exact absurd h9 (hn _ _ _ _ h1)
    · exact ⟨t0.up, req0, m0, ht0.up, hup, q1, (perm_of_find hd0 hd q2).symm, q3.symm, h4, h5,
        resumed_of ht0.put ht.get h7 rfl h8 rfl⟩

/-- The same for sessions with or without cache. -/
theorem readers_decrypt (hsha : ∀ x, (sha x).length = 64) {r r' : DecRequest} (hs : SameRequest r r') {e : Env} (he : Readers sha r W kr da e)
    {m : DecMaterials} (hd : DistinctKeys r'.encCtx) (ha : r'.alg < 65536) (hm : e.cmm.decrypt r' = .ok m) :
    ∃ w0 r0 m0, W w0 ∧ (w0.env kr da).cmm.decrypt r0 = .ok m0 ∧ r0.alg = r'.alg ∧ r'.encCtx.Perm r0.encCtx ∧ r'.edks.Perm r0.edks ∧
      m.alg = m0.alg ∧ m.dataKey = m0.dataKey ∧ Resumed storeVerifier verifyStartOf W m0.alg m0.signctx m.signctx := by
  rcases he with ⟨w, hw, rfl⟩ | ⟨addr, cap, log, c, cmm, t, w, h, hg, hv, ht, -, hn, rfl⟩
  · exact ⟨w, r', m, hw, hm, rfl, .refl _, .refl _, rfl, rfl, .inl rfl⟩
  · exact cached_decrypt hsha h hg hv ht hd ha (NoClash.same hn hs) hm

theorem steady_readers {r : DecRequest} {e : Env} (he : SteadyReaders sha r W kr da e) : Readers sha r W kr da e := by
  rcases he with h | ⟨addr, cap, log, c, cmm, t, w, h1, h2, h3, h4, h5, h6, h7⟩
  · exact .inl h
  · exact .inr ⟨addr, cap, log, c, cmm, t, w, h1, h2, h3, h4, h5, h6.1, h7⟩

theorem idCtxBytes_fits {ctx : EncCtx} (h : wireLen ctx ≤ 65535) : ∃ b, idCtxBytes ctx = .ok b := by
  rw [wireLen_eq] at h
  have hser := (encCtxSerialize_ok (b := ⟨ctxLen ctx, []⟩) (b' := ⟨ctxLen ctx, ctxBytes ctx⟩) (m := ctx) (by simp)).mpr ⟨h, by simp, by simp⟩
  refine ⟨ctxBytes ctx, ?_⟩
  unfold idCtxBytes
  rw [encCtxSize_ok.mpr ⟨rfl, h⟩]
  simp only
  rw [hser]

/-- A caching CMM answers if its default CMM would. -/
theorem cached_answers (h : CmmHistory sha addr cap log c) {w : World} {cmm : CachingCmm} {t : CacheTurn} (hids : Digests t.ids)
    {r : DecRequest} (hrow : ∃ row ∈ suiteTable, row.id = r.alg) (hfit : wireLen r.encCtx ≤ 65535)
    (hedks : ∀ e ∈ r.edks, e.providerId.length ≤ 65535 ∧ e.providerInfo.length ≤ 65535 ∧ e.ciphertext.length ≤ 65535)
    (hup : ∃ m, (t.up.env kr da).cmm.decrypt r = .ok m) : ∃ m, (w.cachedEnv sha cmm t kr da c).cmm.decrypt r = .ok m := by
  obtain ⟨c', out, hr⟩ := (C62_calls_return_partial h cmm).2.1 (t.decEnv kr da) r hrow hedks hids.2.1
  obtain ⟨mu, hup⟩ := hup
  have hres : ∃ m, out.res = .ok m := by
    cases (cachingDecrypt_ok h.ok hr).2 with
    | bypass _ ho _ => subst ho; exact ⟨mu, hup⟩
    | hit _ _ _ m hm => exact ⟨m, hm⟩
    | miss _ _ m _ hm => exact ⟨m, hm⟩
    | missFail e he =>
      change (t.up.env kr da).cmm.decrypt r = .error e at he
      rw [hup] at he; cases he
    | noId _ e _ _ hx =>
      exfalso
      obtain ⟨b, hb⟩ := idCtxBytes_fits hfit
      unfold hashDec at hx
      rw [hb] at hx
      simp only [show (t.decEnv kr da).ids = t.ids from rfl, hids.1, hids.2.1, hids.2.2, hashEdks_fit hedks] at hx
      cases hx
  obtain ⟨m, hm⟩ := hres
  refine ⟨m, ?_⟩
  change (match cachingDecrypt sha cmm (t.decEnv kr da) r c with
    | .error _ => Except.error Err.unknown
    | .ok (_, out) => out.res) = .ok m
  rw [hr]
  exact hm

/-! ### both together -/

theorem signer_same (hP : Primitives Pair RsaPair W1 W2) {w2 : World} (hw2 : W2 w2) {alg : Nat} {x x' y : Option SigCtx}
    (h : SigPair Pair alg x y) (hr : Resumed storeSigner resumeSigner W1 alg x x') : x' = x := by
  rcases hr with rfl | ⟨wp, wg, sc, s, sc', hwp, hwg, hx, h1, h2, rfl⟩
  · rfl
  · rcases h with ⟨rfl, -⟩ | ⟨p, cv, d, q, hp, hid, hcv, -, hpair, rfl, -⟩
    · cases hx
    · cases hx
      rw [resumed_signer (sameEc_trans (hP.same wp w2 hwp hw2) (sameEc_symm (hP.same wg w2 hwg hw2))) hp hid hcv
        (hP.codec wp cv d q hwp hpair) h1 h2]

theorem verifier_same (hP : Primitives Pair RsaPair W1 W2) {w1 : World} (hw1 : W1 w1) {alg : Nat} {x y y' : Option SigCtx}
    (h : SigPair Pair alg x y) (hr : Resumed storeVerifier verifyStartOf W2 alg y y') : y' = y := by
  rcases hr with rfl | ⟨wp, wg, sc, s, sc', hwp, hwg, hy, h1, h2, rfl⟩
  · rfl
  · rcases h with ⟨-, rfl⟩ | ⟨p, cv, d, q, hp, hid, hcv, -, hpair, -, rfl⟩
    · cases hy
    · cases hy
      have hs := hP.same w1 wp hw1 hwp
      rw [resumed_verifier (sameEc_trans (sameEc_symm hs) (hP.same w1 wg hw1 hwg)) hp hid hcv
        (codec_same hs (hP.codec w1 cv d q hw1 hpair)) h1 h2]

/-- Everything but the CMM of a session is that of a world. -/
theorem writers_world {e : Env} (he : Writers sha W kr da e) : ∃ w, W w ∧ e.crypto = w.crypto ∧ e.alloc = w.alloc := by
  rcases he with ⟨w, hw, rfl⟩ | ⟨addr, cap, log, c, cmm, t, w, -, -, -, -, hw, -, rfl⟩
  · exact ⟨w, hw, rfl, rfl⟩
  · exact ⟨w, hw, rfl, rfl⟩

theorem readers_world {r : DecRequest} {e : Env} (he : Readers sha r W kr da e) : ∃ w, W w ∧ e.crypto = w.crypto ∧ e.alloc = w.alloc := by
  rcases he with ⟨w, hw, rfl⟩ | ⟨addr, cap, log, c, cmm, t, w, -, -, -, -, hw, -, rfl⟩
  · exact ⟨w, hw, rfl, rfl⟩
  · exact ⟨w, hw, rfl, rfl⟩

theorem cached_storable (hP : Primitives Pair RsaPair W1 W3) {kr1 : UserKr} (hn : (members kr1).length < 65536)
    (hs : ∀ r ∈ members kr1, ShortNames r) (da1 : Option Nat) : Storable (Writers sha W1 kr1 da1) := by
  rintro e req ctx m he hd h
  obtain ⟨w0, req0, ctx0, m0, hw0, hd0, h0, hp, -, -, a3, -⟩ := writers_generate he hd h
  obtain ⟨b1, b2, b3⟩ := stack_storable hP hn hs da1 _ req0 ctx0 m0 ⟨w0, hw0, rfl⟩ hd0 h0
  exact ⟨(hp.map _).nodup_iff.mp b1, by rw [a3]; exact b2, by rw [a3]; exact b3⟩

theorem suite_of_generate {w : World} {req : EncRequest} {ctx : EncCtx} {m : EncMaterials}
    (h : (w.env kr da).cmm.generate req = (ctx, .ok m)) : (∃ row ∈ suiteTable, row.id = m.alg) ∧ m.alg < 65536 := by
  obtain ⟨-, -, row, hrow, hid, -⟩ := C51_generate _ _ _ _ _ (toCmm_generate h)
  have hlt : ∀ r ∈ suiteTable, r.id < 65536 := by decide
  exact ⟨⟨row, hrow, hid⟩, by rw [← hid]; exact hlt row hrow⟩

theorem cached_undoes (hsha : ∀ x, (sha x).length = 64) (hP : Primitives Pair RsaPair W1 W2) {kr1 kr2 : UserKr} (hc : CanRead RsaPair kr1 kr2)
    (da1 da2 : Option Nat) (r : DecRequest) :
    UndoesFor (SameRequest r) (Writers sha W1 kr1 da1) (Readers sha r W2 kr2 da2) where
  aead := by
    intro e1 e2 k iv aad pt ct tag he1 he2 h
    obtain ⟨w1, hw1, c1, -⟩ := writers_world he1
    obtain ⟨w2, hw2, c2, -⟩ := readers_world he2
    rw [c1] at h
    rw [c2]
    exact hP.aead w1 w2 k iv aad pt ct tag hw1 hw2 h
  hkdf := by
    intro e1 e2 sha salt ikm info n x y he1 he2 h h'
    obtain ⟨w1, hw1, c1, -⟩ := writers_world he1
    obtain ⟨w2, hw2, c2, -⟩ := readers_world he2
    rw [c1] at h
    rw [c2] at h'
    exact (stack_undoes hP hc da1 da2).hkdf _ _ sha salt ikm info n x y ⟨w1, hw1, rfl⟩ ⟨w2, hw2, rfl⟩ h h'
  dataKey := by
    intro e1 e2 req ctx ctx' m m' he1 he2 hd h hp hR h'
    obtain ⟨w1, req0, ctx0, m0, hw1, hd0, h0, hp0, a1, a2, a3, -⟩ := writers_generate he1 hd h
    obtain ⟨-, halt⟩ := suite_of_generate h0
    have hdc := env_generate_distinct w1 kr1 da1 hd0
    rw [h0] at hdc
    have hdc' : DistinctKeys ctx' := ((hp0.trans hp).map _).nodup_iff.mp hdc
    obtain ⟨w2, ⟨rc, re, ra⟩, m0', hw2, h0', b1, b2, b3, -, b5, -⟩ := readers_decrypt hsha hR he2 hdc' (by rw [a1]; exact halt) h'
    simp only at b1 b2 b3
    rw [b1, a1] at h0'
    rw [b5, a2]
    exact default_dataKey hP hc da1 da2 hw1 hw2 hd0 h0 ((hp0.trans hp).trans b2) (by rw [← a3]; exact b3) h0'

theorem cached_refuses (hsha : ∀ x, (sha x).length = 64) {kr1 kr2 : UserKr} (hc : ∀ r ∈ members kr1, ∀ r' ∈ members kr2, NotFor r r')
    (da1 da2 : Option Nat) (r : DecRequest) {e1 e2 : Env} {req : EncRequest} {ctx ctx' : EncCtx} {m : EncMaterials} {m' : DecMaterials}
    (he1 : Writers sha W1 kr1 da1 e1) (he2 : Readers sha r W2 kr2 da2 e2) (hd : DistinctKeys req.encCtx)
    (h : e1.cmm.generate req = (ctx, .ok m)) (hp : ctx.Perm ctx') (hR : SameRequest r { encCtx := ctx', edks := m.edks, alg := m.alg })
    (h' : e2.cmm.decrypt { encCtx := ctx', edks := m.edks, alg := m.alg } = .ok m') : False := by
  obtain ⟨w1, req0, ctx0, m0, hw1, hd0, h0, hp0, a1, a2, a3, -⟩ := writers_generate he1 hd h
  obtain ⟨-, halt⟩ := suite_of_generate h0
  have hdc := env_generate_distinct w1 kr1 da1 hd0
  rw [h0] at hdc
  have hdc' : DistinctKeys ctx' := ((hp0.trans hp).map _).nodup_iff.mp hdc
  obtain ⟨w2, ⟨rc, re, ra⟩, m0', hw2, h0', b1, b2, b3, -⟩ := readers_decrypt hsha hR he2 hdc' (by rw [a1]; exact halt) h'
  simp only at b1 b2 b3
  rw [b1, a1] at h0'
  exact default_refuses hc da1 da2 hw1 hd0 h0 ((hp0.trans hp).trans b2) (by rw [← a3]; exact b3) h0'

theorem cached_opens (hsha : ∀ x, (sha x).length = 64) (hP : Primitives Pair RsaPair W1 W2) (hh : ∀ w, W2 w → Healthy w) {kr1 kr2 : UserKr}
    (hc : CanRead RsaPair kr1 kr2) (hn : (members kr1).length < 65536) (hs : ∀ r ∈ members kr1, ShortNames r) (da1 da2 : Option Nat)
    (r : DecRequest) :
    OpensFor (fun r' => SameRequest r r' ∧ wireLen r'.encCtx ≤ 65535) (Writers sha W1 kr1 da1) (SteadyReaders sha r W2 kr2 da2) where
  aead := fun e1 e2 k iv aad pt ct tag he1 he2 h => (cached_undoes hsha hP hc da1 da2 r).aead e1 e2 k iv aad pt ct tag he1 (steady_readers he2) h
  hkdf := by
    intro e1 e2 sha salt ikm info n x he1 he2 h
    obtain ⟨w1, hw1, c1, -⟩ := writers_world he1
    obtain ⟨w2, hw2, c2, -⟩ := readers_world (steady_readers he2)
    rw [c1] at h
    rw [c2]
    exact hkdfOf_mono (fun sha k m t => hP.hmac w1 w2 sha k m t hw1 hw2) h
  alloc := by
    intro e2 site he2
    obtain ⟨w2, hw2, -, c2⟩ := readers_world (steady_readers he2)
    rw [c2]
    exact (hh w2 hw2).alloc site
  digest := by
    intro e2 ctx x he2
    obtain ⟨w2, hw2, c2, -⟩ := readers_world (steady_readers he2)
    rw [c2]
    exact (hh w2 hw2).digest ctx x
  sigLen := by
    intro e1 ctx sig he1 h
    obtain ⟨w1, hw1, c1, -⟩ := writers_world he1
    rw [c1] at h
    exact signOf_length h
  answers := by
    intro e1 e2 req ctx ctx' m he1 he2 hd h hp hR
    obtain ⟨w1, req0, ctx0, m0, hw1, hd0, h0, hp0, a1, a2, a3, a4⟩ := writers_generate he1 hd h
    obtain ⟨hrow, halt⟩ := suite_of_generate h0
    have hdc := env_generate_distinct w1 kr1 da1 hd0
    rw [h0] at hdc
    have hdc' : DistinctKeys ctx' := ((hp0.trans hp).map _).nodup_iff.mp hdc
    have hst := stack_storable hP hn hs da1 _ req0 ctx0 m0 ⟨w1, hw1, rfl⟩ hd0 h0
    have hans : ∃ m', e2.cmm.decrypt { encCtx := ctx', edks := m.edks, alg := m.alg } = .ok m' := by
      have hdef : ∀ w2, W2 w2 → ∃ m', (w2.env kr2 da2).cmm.decrypt { encCtx := ctx', edks := m.edks, alg := m.alg } = .ok m' := by
        intro w2 hw2
        obtain ⟨m', hm', -⟩ := default_answers hP hc da1 da2 hw1 hw2 (hh w2 hw2) hd0 h0 (hp0.trans hp) (.refl _)
        exact ⟨m', by rw [a1, a3]; exact hm'⟩
      rcases he2 with ⟨w2, hw2, rfl⟩ | ⟨addr, cap, log, c, cmm, t, w, k1, k2, k3, k4, k5, ⟨k6, k7⟩, rfl⟩
      · exact hdef w2 hw2
      · refine cached_answers k1 k7 (by rw [a1]; exact hrow) hR.2 ?_ (hdef t.up k4.up)
        intro x hx
        simp only [a3] at hx
        have := hst.2.2 x hx
        omega
    obtain ⟨m', hm'⟩ := hans
    obtain ⟨w2, ⟨rc, re, ra⟩, m0', hw2, h0', b1, b2, b3, b4, b5, b6⟩ := readers_decrypt hsha hR.1 (steady_readers he2) hdc' (by rw [a1]; exact halt) hm'
    simp only at b1 b2 b3
    rw [b1, a1] at h0'
    rw [a3] at b3
    obtain ⟨md, d1, d2, d3, d4⟩ := default_answers hP hc da1 da2 hw1 hw2 (hh w2 hw2) hd0 h0 ((hp0.trans hp).trans b2) b3
    rw [h0'] at d1; cases d1
    have hx := signer_same hP hw2 d4 a4
    rw [d3] at b6
    have hy := verifier_same hP hw1 d4 b6
    refine ⟨m', hm', by rw [b5, d2, a2], by rw [b4, d3, a1], fun c hcx => ?_⟩
    obtain ⟨c', e1', e2'⟩ := sigPair_verifies hP d4 (by rw [← hx]; exact hcx)
    refine ⟨c', by rw [hy]; exact e1', ?_⟩
    intro e3 e4 data sig he3 he4 hsig
    obtain ⟨w3, hw3, c3, -⟩ := writers_world he3
    obtain ⟨w4, hw4, c4, -⟩ := readers_world (steady_readers he4)
    rw [c3] at hsig
    rw [c4]
    exact e2' w3 w4 data sig hw3 hw4 hsig

end

end Verif.Props
