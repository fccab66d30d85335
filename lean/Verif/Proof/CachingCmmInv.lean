import Verif.Proof.CachingCmm
/-
Invariants of histories of caching CMMs: where the entries of the cache come from, and what their counters count.
-/
namespace Verif
open Spec (WithinTtl servedKey declaredSize servedWith messagesWith bytesWith FreshKeys)

/-- An entry is new, made by this encryption request. -/
structure NewEnc (env : GenEnv) (id : Bytes) (size : Nat) (ctx : EncCtx) (m : EncMaterials) (e : Entry) : Prop where
  mat : e.mat = .enc { m with signctx := none } ctx
  id : e.cacheId = id
  creation : env.put.clkNew = some e.creation
  key : storedKey env.put m.signctx = some e.keyMat
  bytes : e.usageBytes = size
  messages : e.usageMessages = 1

/-- The four ways an encryption request can go. -/
inductive GenStep (sha : Bytes → Bytes) (cmm : CachingCmm) (env : GenEnv) (req : EncRequest) (c c' : Cache) (out : GenOut) : Prop where
  | bypass (hc : c' = c) (ho : out = ⟨(env.up req).1, (env.up req).2, true⟩)
      (why : cmm.limitBytes < req.plaintextSize ∨ canCache req.requestedAlg = .ok false)
  | noId (hc : c' = c) (e : Err) (hr : out.res = .error e) (hu : out.upstream = false) (hx : out.ctx = req.encCtx)
  | hit (id : Bytes) (hid : hashEnc sha env.ids cmm.partition req = .ok id) (hs : req.plaintextSize ≤ cmm.limitBytes)
      (hu : out.upstream = false) (m : EncMaterials) (hr : out.res = .ok m) (n : Nat) (e : Entry) (m0 : EncMaterials) (ectx : EncCtx)
      (h : Hit cmm env id req c c' out.ctx m n e m0 ectx)
  | missFail (ctx : EncCtx) (e : Err) (hup : env.up { req with encCtx := ctx } = (out.ctx, .error e)) (hr : out.res = .error e)
      (hu : out.upstream = true) (hf : From none c c') (hx : MissCtx env req c ctx)
  | miss (id : Bytes) (hid : hashEnc sha env.ids cmm.partition req = .ok id) (hs : req.plaintextSize ≤ cmm.limitBytes)
      (ctx : EncCtx) (m : EncMaterials) (hup : env.up { req with encCtx := ctx } = (out.ctx, .ok m)) (hr : out.res = .ok m)
      (hu : out.upstream = true) (num : Nat)
      (hmem : ∀ n e', c'.mem n = some e' → (∃ e, c.mem n = some e ∧ SameCore e e' ∧ SameUse e e') ∨
        (n = num ∧ NewEnc env id req.plaintextSize out.ctx m e')) (hx : MissCtx env req c ctx)

theorem cachingGenerate_ok {sha : Bytes → Bytes} {cmm : CachingCmm} {env : GenEnv} {req : EncRequest} {c c' : Cache} {out : GenOut}
    (h : COk [] c) (hr : cachingGenerate sha cmm env req c = .ok (c', out)) : COk [] c' ∧ GenStep sha cmm env req c c' out := by
  unfold cachingGenerate genBypass at hr
  by_cases hl : req.plaintextSize > cmm.limitBytes
  · rw [if_pos hl] at hr
    cases hr
    exact ⟨h, .bypass rfl rfl (.inl hl)⟩
  rw [if_neg hl] at hr
  have key : genCached sha cmm env req c = .ok (c', out) → COk [] c' ∧ GenStep sha cmm env req c c' out := by
    intro hr
    unfold genCached at hr
    cases hid : hashEnc sha env.ids cmm.partition req with
    | error e => rw [hid] at hr; cases hr; exact ⟨h, .noId rfl e rfl rfl rfl⟩
    | ok id =>
      rw [hid] at hr
      simp only at hr
      obtain ⟨c1, ctx1, r1, ht, hok1, hmiss, hhit⟩ := genTry_full h cmm env id req
      rw [ht] at hr
      cases r1 with
      | some m =>
        cases hr
        obtain ⟨n, e, m0, ectx, hh⟩ := hhit m rfl
        exact ⟨hok1, .hit id hid (by omega) rfl m rfl n e m0 ectx hh⟩
      | none =>
        simp only at hr
        unfold genMiss at hr
        cases hup : env.up { req with encCtx := ctx1 } with
        | mk ctx2 r2 =>
          rw [hup] at hr
          cases r2 with
          | error e =>
            cases hr
            exact ⟨hok1, .missFail ctx1 e hup rfl rfl (hmiss rfl).1 (hmiss rfl).2⟩
          | ok m =>
            simp only at hr
            cases hst : genStore cmm env id req.plaintextSize ctx2 m c1 with
            | error f => rw [hst] at hr; cases hr
            | ok c2 =>
              rw [hst] at hr
              cases hr
              have hk : ∃ p, algProps m.alg = some p := by
                unfold genStore canCache at hst
                cases hp : algProps m.alg with
                | none => rw [hp] at hst; cases hst
                | some p => exact ⟨p, rfl⟩
              obtain ⟨c3, h3, hok3, hmem⟩ := genStore_ok hok1 cmm env id req.plaintextSize ctx2 m hk
              rw [hst] at h3; cases h3
              refine ⟨hok3, .miss id hid (by omega) ctx1 m hup rfl rfl c1.next ?_ (hmiss rfl).2⟩
              intro n e' he'
              rcases hmem n e' he' with ⟨e, he, hc, hu⟩ | ⟨hn, hf, hm, hi, hcr, hk, hb, hms⟩
              · obtain ⟨f, hf, hc', hu'⟩ := (hmiss rfl).1 n e he
                have hu' := hu' (by simp)
                exact .inl ⟨f, hf, ⟨hc.1.trans hc'.1, hc.2.1.trans hc'.2.1, hc.2.2.1.trans hc'.2.2.1, hc.2.2.2.trans hc'.2.2.2⟩,
                  hu.1.trans hu'.1, hu.2.trans hu'.2⟩
              · exact .inr ⟨hn, ⟨hm, hi, hcr, hk, hb, hms⟩⟩
  by_cases hz : req.requestedAlg = 0
  · rw [if_pos hz] at hr
    exact key hr
  · rw [if_neg hz] at hr
    cases hcc : canCache req.requestedAlg with
    | error f => rw [hcc] at hr; cases hr
    | ok b =>
      rw [hcc] at hr
      cases b with
      | false => cases hr; exact ⟨h, .bypass rfl rfl (.inr hcc)⟩
      | true => exact key hr

/-- The ways a decryption request can go. -/
inductive DecStep (sha : Bytes → Bytes) (cmm : CachingCmm) (env : DecEnv) (req : DecRequest) (c c' : Cache) (out : DecOut) : Prop where
  | bypass (hc : c' = c) (ho : out = ⟨env.up req, true⟩) (why : canCache req.alg = .ok false)
  | noId (hc : c' = c) (e : Err) (hr : out.res = .error e) (hu : out.upstream = false)
      (hx : hashDec sha env.ids cmm.partition req = .ok (.error e))
  | hit (id : Bytes) (hid : hashDec sha env.ids cmm.partition req = .ok (.ok id)) (hu : out.upstream = false) (m : DecMaterials)
      (hr : out.res = .ok m) (n : Nat) (e : Entry) (m0 : DecMaterials) (h : DHit cmm env id c m n e m0) (hf : From none c c')
  | missFail (e : Err) (hup : env.up req = .error e) (hr : out.res = .error e) (hu : out.upstream = true) (hf : From none c c')
  | miss (id : Bytes) (hid : hashDec sha env.ids cmm.partition req = .ok (.ok id)) (m : DecMaterials) (hup : env.up req = .ok m)
      (hr : out.res = .ok m) (hu : out.upstream = true)
      (hmem : ∀ n e', c'.mem n = some e' → (∃ e, c.mem n = some e ∧ SameCore e e' ∧ SameUse e e') ∨
        (e'.mat = .dec { m with signctx := none } ∧ e'.cacheId = id ∧ env.put.clkNew = some e'.creation ∧
          storedKey env.put m.signctx = some e'.keyMat))

theorem cachingDecrypt_ok {sha : Bytes → Bytes} {cmm : CachingCmm} {env : DecEnv} {req : DecRequest} {c c' : Cache} {out : DecOut}
    (h : COk [] c) (hr : cachingDecrypt sha cmm env req c = .ok (c', out)) : COk [] c' ∧ DecStep sha cmm env req c c' out := by
  unfold cachingDecrypt at hr
  cases hcc : canCache req.alg with
  | error f => rw [hcc] at hr; cases hr
  | ok b =>
    rw [hcc] at hr
    cases b with
    | false => cases hr; exact ⟨h, .bypass rfl rfl hcc⟩
    | true =>
      simp only at hr
      unfold decCached at hr
      cases hid : hashDec sha env.ids cmm.partition req with
      | error f => rw [hid] at hr; cases hr
      | ok r =>
        rw [hid] at hr
        cases r with
        | error e => cases hr; exact ⟨h, .noId rfl e rfl rfl hid⟩
        | ok id =>
          simp only at hr
          obtain ⟨c1, r1, ht, hok1, hf1, hhit⟩ := decTry_ok h cmm env id
          rw [ht] at hr
          cases r1 with
          | some m =>
            cases hr
            obtain ⟨n, e, m0, hh⟩ := hhit m rfl
            exact ⟨hok1, .hit id hid rfl m rfl n e m0 hh hf1⟩
          | none =>
            simp only at hr
            cases hup : env.up req with
            | error e => rw [hup] at hr; cases hr; exact ⟨hok1, .missFail e hup rfl rfl hf1⟩
            | ok m =>
              rw [hup] at hr
              simp only at hr
              obtain ⟨c3, h3, hok3, hmem⟩ := decStore_ok hok1 cmm env id m
              rw [h3] at hr
              cases hr
              refine ⟨hok3, .miss id hid m hup rfl rfl ?_⟩
              intro n e' he'
              rcases hmem n e' he' with ⟨e, he, hc, hu⟩ | ⟨-, -, hm, hi, hcr, hk⟩
              · obtain ⟨f, hf, hc', hu'⟩ := hf1 n e he
                have hu' := hu' (by simp)
                exact .inl ⟨f, hf, ⟨hc.1.trans hc'.1, hc.2.1.trans hc'.2.1, hc.2.2.1.trans hc'.2.2.1, hc.2.2.2.trans hc'.2.2.2⟩,
                  hu.1.trans hu'.1, hu.2.trans hu'.2⟩
              · exact .inr ⟨hm, hi, hcr, hk⟩

theorem cacheClear_ok {c c' : Cache} (h : COk [] c) (hr : cacheClear c = .ok c') : COk [] c' ∧ From none c c' := by
  obtain ⟨c2, h1, h2, -, h3, -⟩ := cacheClear_spec h
  rw [hr] at h1; cases h1
  exact ⟨h2, h3.from⟩

/-- Between calls the cache is in order. -/
theorem CmmHistory.ok {sha : Bytes → Bytes} {addr : Nat → Nat} {cap : Nat} {log : List CmmEvent} {c : Cache}
    (h : CmmHistory sha addr cap log c) : COk [] c := by
  induction h with
  | new => exact cacheNew_ok addr cap
  | gen _ _ hr ih => exact (cachingGenerate_ok ih hr).1
  | dec _ _ hr ih => exact (cachingDecrypt_ok ih hr).1
  | clear _ hr ih => exact (cacheClear_ok ih hr).1

/-! ### provenance -/

/-- The entry holds what an earlier request of the history got from upstream. -/
def Prov (sha : Bytes → Bytes) (log : List CmmEvent) (e : Entry) : Prop :=
  match e.mat with
  | .enc m0 ectx => ∃ cmm env req out m, .gen cmm env req out ∈ log ∧ out.upstream = true ∧ out.res = .ok m ∧
      m0 = { m with signctx := none } ∧ ectx = out.ctx ∧ hashEnc sha env.ids cmm.partition req = .ok e.cacheId ∧
      env.put.clkNew = some e.creation ∧ storedKey env.put m.signctx = some e.keyMat
  | .dec m0 => ∃ cmm env req out m, .dec cmm env req out ∈ log ∧ out.upstream = true ∧ out.res = .ok m ∧
      m0 = { m with signctx := none } ∧ hashDec sha env.ids cmm.partition req = .ok (.ok e.cacheId) ∧
      env.put.clkNew = some e.creation ∧ storedKey env.put m.signctx = some e.keyMat

theorem Prov.mono {sha : Bytes → Bytes} {log : List CmmEvent} {e : Entry} (x : CmmEvent) (h : Prov sha log e) : Prov sha (x :: log) e := by
  unfold Prov at h ⊢
  cases hm : e.mat with
  | enc m0 ectx =>
    rw [hm] at h
    obtain ⟨cmm, env, req, out, m, h1, h2⟩ := h
    exact ⟨cmm, env, req, out, m, .tail _ h1, h2⟩
  | dec m0 =>
    rw [hm] at h
    obtain ⟨cmm, env, req, out, m, h1, h2⟩ := h
    exact ⟨cmm, env, req, out, m, .tail _ h1, h2⟩

theorem Prov.core {sha : Bytes → Bytes} {log : List CmmEvent} {e e' : Entry} (h : Prov sha log e) (hc : SameCore e e') :
    Prov sha log e' := by
  unfold Prov at h ⊢
  obtain ⟨h1, h2, h3, h4⟩ := hc
  rw [h3]
  cases hm : e.mat with
  | enc m0 ectx => rw [hm] at h; simp only [h1, h2, h4]; exact h
  | dec m0 => rw [hm] at h; simp only [h1, h2, h4]; exact h

theorem CmmHistory.prov {sha : Bytes → Bytes} {addr : Nat → Nat} {cap : Nat} {log : List CmmEvent} {c : Cache}
    (h : CmmHistory sha addr cap log c) : ∀ n e, c.mem n = some e → Prov sha log e := by
  induction h with
  | new => intro n e he; cases he
  | @gen log c cmm env req c' out hh _ hr ih =>
    intro n e' he'
    have hfrom : ∀ {x}, From x c c' → Prov sha (.gen cmm env req out :: log) e' := by
      intro x hf
      obtain ⟨e, he, hc, -⟩ := hf n e' he'
      exact ((ih n e he).core hc).mono _
    cases (cachingGenerate_ok hh.ok hr).2 with
    | bypass hc _ _ => subst hc; exact (ih n e' he').mono _
    | noId hc _ _ _ => subst hc; exact (ih n e' he').mono _
    | hit _ _ _ _ _ _ _ _ _ _ hh => exact hfrom hh.rest
    | missFail _ _ _ _ _ hf => exact hfrom hf
    | miss id hid _ ctx m hup hres hu num hmem =>
      rcases hmem n e' he' with ⟨e, he, hc, -⟩ | ⟨-, hn⟩
      · exact ((ih n e he).core hc).mono _
      · unfold Prov
        rw [hn.mat]
        exact ⟨cmm, env, req, out, m, .head _, hu, hres, rfl, rfl, by rw [hn.id]; exact hid, hn.creation, hn.key⟩
  | @dec log c cmm env req c' out hh _ hr ih =>
    intro n e' he'
    have hfrom : ∀ {x}, From x c c' → Prov sha (.dec cmm env req out :: log) e' := by
      intro x hf
      obtain ⟨e, he, hc, -⟩ := hf n e' he'
      exact ((ih n e he).core hc).mono _
    cases (cachingDecrypt_ok hh.ok hr).2 with
    | bypass hc _ _ => subst hc; exact (ih n e' he').mono _
    | noId hc _ _ _ => subst hc; exact (ih n e' he').mono _
    | hit _ _ _ _ _ _ _ _ _ hf => exact hfrom hf
    | missFail _ _ _ _ hf => exact hfrom hf
    | miss id hid m hup hres hu hmem =>
      rcases hmem n e' he' with ⟨e, he, hc, -⟩ | ⟨hm, hi, hcr, hk⟩
      · exact ((ih n e he).core hc).mono _
      · unfold Prov
        rw [hm]
        exact ⟨cmm, env, req, out, m, .head _, hu, hres, rfl, by rw [hi]; exact hid, hcr, hk⟩
  | @clear log c c' hh hr ih =>
    intro n e' he'
    obtain ⟨e, he, hc, -⟩ := (cacheClear_ok hh.ok hr).2 n e' he'
    exact ((ih n e he).core hc).mono _

/-! ### counting -/

theorem messagesWith_cons (k : Bytes) (x : CmmEvent) (log : List CmmEvent) :
    messagesWith k (x :: log) = (if servedKey x = some k then 1 else 0) + messagesWith k log := by
  unfold messagesWith servedWith
  rw [List.filter_cons]
  by_cases h : servedKey x = some k
  · simp [h]; omega
  · simp [h]

theorem bytesWith_cons (k : Bytes) (x : CmmEvent) (log : List CmmEvent) :
    bytesWith k (x :: log) = (if servedKey x = some k then declaredSize x else 0) + bytesWith k log := by
  unfold bytesWith servedWith
  rw [List.filter_cons]
  by_cases h : servedKey x = some k
  · simp [h]
  · simp [h]

theorem bytesWith_zero {k : Bytes} {log : List CmmEvent} (h : messagesWith k log = 0) : bytesWith k log = 0 := by
  unfold messagesWith at h
  unfold bytesWith
  rw [List.length_eq_zero_iff.mp h]; rfl

/-- The counters of the entries count, and different entries have different data keys. -/
structure Count (log : List CmmEvent) (c : Cache) : Prop where
  msgs : ∀ n e m ctx, c.mem n = some e → e.mat = .enc m ctx → e.usageMessages = messagesWith m.dataKey log
  byts : ∀ n e m ctx, c.mem n = some e → e.mat = .enc m ctx → e.usageBytes = bytesWith m.dataKey log
  bnd : ∀ n e m ctx, c.mem n = some e → e.mat = .enc m ctx → 1 ≤ e.usageMessages ∧ e.usageMessages ≤ 2 ^ 32 ∧ e.usageBytes ≤ 2 ^ 63 - 1
  inj : ∀ n n' e e' m m' ctx ctx', c.mem n = some e → c.mem n' = some e' → e.mat = .enc m ctx → e'.mat = .enc m' ctx' →
    m.dataKey = m'.dataKey → n = n'

/-- Nothing was served. -/
theorem Count.quiet {log : List CmmEvent} {c c' : Cache} {x : CmmEvent} (h : Count log c) (hf : From none c c') (hx : servedKey x = none) :
    Count (x :: log) c' := by
  have hm : ∀ k, messagesWith k (x :: log) = messagesWith k log := by intro k; rw [messagesWith_cons, hx]; simp
  have hb : ∀ k, bytesWith k (x :: log) = bytesWith k log := by intro k; rw [bytesWith_cons, hx]; simp
  constructor
  · intro n e' m ctx he' hmat
    obtain ⟨e, he, hc, hu⟩ := hf n e' he'
    rw [hm, (hu (by simp)).2]
    exact h.msgs n e m ctx he (by rw [← hc.2.2.1]; exact hmat)
  · intro n e' m ctx he' hmat
    obtain ⟨e, he, hc, hu⟩ := hf n e' he'
    rw [hb, (hu (by simp)).1]
    exact h.byts n e m ctx he (by rw [← hc.2.2.1]; exact hmat)
  · intro n e' m ctx he' hmat
    obtain ⟨e, he, hc, hu⟩ := hf n e' he'
    rw [(hu (by simp)).1, (hu (by simp)).2]
    exact h.bnd n e m ctx he (by rw [← hc.2.2.1]; exact hmat)
  · intro n n' e1 e2 m m' ctx ctx' he1 he2 hm1 hm2 hk
    obtain ⟨f1, hf1, hc1, -⟩ := hf n e1 he1
    obtain ⟨f2, hf2, hc2, -⟩ := hf n' e2 he2
    exact h.inj n n' f1 f2 m m' ctx ctx' hf1 hf2 (by rw [← hc1.2.2.1]; exact hm1) (by rw [← hc2.2.2.1]; exact hm2) hk

/-- A key that was never served before is in no entry. -/
theorem Count.absent {log : List CmmEvent} {c : Cache} (h : Count log c) {k : Bytes} (hk : messagesWith k log = 0) {n : Nat} {e : Entry}
    {m : EncMaterials} {ctx : EncCtx} (he : c.mem n = some e) (hm : e.mat = .enc m ctx) : m.dataKey ≠ k := by
  rintro rfl
  have h1 := h.msgs n e m ctx he hm
  have h2 := (h.bnd n e m ctx he hm).1
  omega

/-- A request was served with a fresh key; entries of the cache keep their counters, or are new with this key. -/
theorem Count.served {log : List CmmEvent} {c c' : Cache} {x : CmmEvent} {k : Bytes} {size : Nat} (num : Nat) (h : Count log c)
    (hx : servedKey x = some k) (hsz : declaredSize x = size) (hk : messagesWith k log = 0)
    (hf : ∀ n e', c'.mem n = some e' → (∃ e, c.mem n = some e ∧ SameCore e e' ∧ SameUse e e') ∨
      (n = num ∧ size ≤ 2 ^ 63 - 1 ∧ (∃ m ctx, e'.mat = .enc m ctx ∧ m.dataKey = k) ∧ e'.usageBytes = size ∧ e'.usageMessages = 1)) :
    Count (x :: log) c' := by
  have hm : ∀ k', k' ≠ k → messagesWith k' (x :: log) = messagesWith k' log := by
    intro k' hne; rw [messagesWith_cons, hx]; simp [Ne.symm hne]
  have hb : ∀ k', k' ≠ k → bytesWith k' (x :: log) = bytesWith k' log := by
    intro k' hne; rw [bytesWith_cons, hx]; simp [Ne.symm hne]
  have hm1 : messagesWith k (x :: log) = 1 := by rw [messagesWith_cons, hx, hk]; simp
  have hb1 : bytesWith k (x :: log) = size := by rw [bytesWith_cons, hx, bytesWith_zero hk, hsz]; simp
  constructor
  · intro n e' m ctx he' hmat
    rcases hf n e' he' with ⟨e, he, hc, hu⟩ | ⟨-, -, ⟨m', ctx', hm', hkk⟩, -, h3⟩
    · have hmat' : e.mat = .enc m ctx := by rw [← hc.2.2.1]; exact hmat
      rw [hm _ (h.absent hk he hmat'), hu.2]
      exact h.msgs n e m ctx he hmat'
    · rw [hmat] at hm'; cases hm'
      rw [hkk, hm1, h3]
  · intro n e' m ctx he' hmat
    rcases hf n e' he' with ⟨e, he, hc, hu⟩ | ⟨-, -, ⟨m', ctx', hm', hkk⟩, h2, -⟩
    · have hmat' : e.mat = .enc m ctx := by rw [← hc.2.2.1]; exact hmat
      rw [hb _ (h.absent hk he hmat'), hu.1]
      exact h.byts n e m ctx he hmat'
    · rw [hmat] at hm'; cases hm'
      rw [hkk, hb1, h2]
  · intro n e' m ctx he' hmat
    rcases hf n e' he' with ⟨e, he, hc, hu⟩ | ⟨-, hs, -, h2, h3⟩
    · rw [hu.1, hu.2]
      exact h.bnd n e m ctx he (by rw [← hc.2.2.1]; exact hmat)
    · rw [h2, h3]; omega
  · intro n n' e1 e2 m m' ctx ctx' he1 he2 hm1 hm2 hkk
    rcases hf n e1 he1 with ⟨f1, hf1, hc1, -⟩ | ⟨hn, -, ⟨a, b, hab, hka⟩, -⟩
    · rcases hf n' e2 he2 with ⟨f2, hf2, hc2, -⟩ | ⟨-, -, ⟨a, b, hab, hka⟩, -⟩
      · exact h.inj n n' f1 f2 m m' ctx ctx' hf1 hf2 (by rw [← hc1.2.2.1]; exact hm1) (by rw [← hc2.2.2.1]; exact hm2) hkk
      · rw [hm2] at hab; cases hab
        exact absurd (hkk.trans hka) (h.absent hk hf1 (by rw [← hc1.2.2.1]; exact hm1))
    · rcases hf n' e2 he2 with ⟨f2, hf2, hc2, -⟩ | ⟨hn', -⟩
      · rw [hm1] at hab; cases hab
        exact absurd (hkk.symm.trans hka) (h.absent hk hf2 (by rw [← hc2.2.2.1]; exact hm2))
      · rw [hn, hn']

/-- A request was served from entry `n`. -/
theorem Count.hit {log : List CmmEvent} {c c' : Cache} {cmm : CachingCmm} {env : GenEnv} {req : EncRequest} {out : GenOut} {id : Bytes}
    {m m0 : EncMaterials} {ectx : EncCtx} {n : Nat} {e : Entry} (h : Count log c) (hv : cmm.Valid) (hs : req.plaintextSize ≤ cmm.limitBytes)
    (hr : out.res = .ok m) (hh : Hit cmm env id req c c' out.ctx m n e m0 ectx) :
    Count (.gen cmm env req out :: log) c' ∧ messagesWith m.dataKey (.gen cmm env req out :: log) ≤ cmm.limitMessages ∧
      bytesWith m.dataKey (.gen cmm env req out :: log) ≤ cmm.limitBytes := by
  obtain ⟨sc, -, hm⟩ := hh.sig
  have hk : m.dataKey = m0.dataKey := by rw [hm]
  have hx : servedKey (.gen cmm env req out) = some m0.dataKey := by simp [servedKey, hr, hk]
  have hbnd := h.bnd n e m0 ectx hh.mem hh.mat
  have hv1 := hv.messages
  have hv2 := hv.bytes
  have hms := h.msgs n e m0 ectx hh.mem hh.mat
  have hby := h.byts n e m0 ectx hh.mem hh.mat
  have hlm := hh.messages
  have hlb := hh.bytes
  have hu1 : u64 (e.usageBytes + req.plaintextSize) = e.usageBytes + req.plaintextSize := by
    unfold u64; exact Nat.mod_eq_of_lt (by omega)
  have hu2 : u64 (e.usageMessages + 1) = e.usageMessages + 1 := by
    unfold u64; exact Nat.mod_eq_of_lt (by omega)
  rw [hu1] at hlb
  rw [hu2] at hlm
  have hm1 : messagesWith m0.dataKey (.gen cmm env req out :: log) = e.usageMessages + 1 := by
    rw [messagesWith_cons, hx, hms]; simp; omega
  have hb1 : bytesWith m0.dataKey (.gen cmm env req out :: log) = e.usageBytes + req.plaintextSize := by
    rw [bytesWith_cons, hx, hby]; simp [declaredSize]; omega
  have hm' : ∀ k', k' ≠ m0.dataKey → messagesWith k' (.gen cmm env req out :: log) = messagesWith k' log := by
    intro k' hne; rw [messagesWith_cons, hx]; simp [Ne.symm hne]
  have hb' : ∀ k', k' ≠ m0.dataKey → bytesWith k' (.gen cmm env req out :: log) = bytesWith k' log := by
    intro k' hne; rw [bytesWith_cons, hx]; simp [Ne.symm hne]
  refine ⟨?_, by rw [hk, hm1]; exact hlm, by rw [hk, hb1]; exact hlb⟩
  -- the other entries have other keys
  have hother : ∀ n' e' m' ctx', n' ≠ n → c'.mem n' = some e' → e'.mat = .enc m' ctx' →
      ∃ f, c.mem n' = some f ∧ f.mat = .enc m' ctx' ∧ SameUse f e' ∧ m'.dataKey ≠ m0.dataKey := by
    intro n' e' m' ctx' hne he' hmat
    obtain ⟨f, hf, hc, hu⟩ := hh.rest n' e' he'
    have hfm : f.mat = .enc m' ctx' := by rw [← hc.2.2.1]; exact hmat
    exact ⟨f, hf, hfm, hu (fun hq => hne (Option.some.inj hq).symm), fun hq => hne (h.inj n' n f e m' m0 ctx' ectx hf hh.mem hfm hh.mat hq)⟩
  have hsame : ∀ e' m' ctx', c'.mem n = some e' → e'.mat = .enc m' ctx' → m' = m0 := by
    intro e' m' ctx' he' hmat
    obtain ⟨f, hf, hc, -⟩ := hh.rest n e' he'
    rw [hh.mem] at hf; cases hf
    rw [hc.2.2.1, hh.mat] at hmat; cases hmat; rfl
  constructor
  · intro n' e' m' ctx' he' hmat
    by_cases hn : n' = n
    · subst hn
      rw [hsame e' m' ctx' he' hmat, hm1, (hh.used e' he').2, hu2]
    · obtain ⟨f, hf, hfm, hu, hne⟩ := hother n' e' m' ctx' hn he' hmat
      rw [hm' _ hne, hu.2]
      exact h.msgs n' f m' ctx' hf hfm
  · intro n' e' m' ctx' he' hmat
    by_cases hn : n' = n
    · subst hn
      rw [hsame e' m' ctx' he' hmat, hb1, (hh.used e' he').1, hu1]
    · obtain ⟨f, hf, hfm, hu, hne⟩ := hother n' e' m' ctx' hn he' hmat
      rw [hb' _ hne, hu.1]
      exact h.byts n' f m' ctx' hf hfm
  · intro n' e' m' ctx' he' hmat
    by_cases hn : n' = n
    · subst hn
      rw [(hh.used e' he').1, (hh.used e' he').2, hu1, hu2]
      omega
    · obtain ⟨f, hf, hfm, hu, hne⟩ := hother n' e' m' ctx' hn he' hmat
      rw [hu.1, hu.2]
      exact h.bnd n' f m' ctx' hf hfm
  · intro n1 n2 e1 e2 m1 m2 ctx1 ctx2 he1 he2 hm1 hm2 hkk
    obtain ⟨f1, hf1, hc1, -⟩ := hh.rest n1 e1 he1
    obtain ⟨f2, hf2, hc2, -⟩ := hh.rest n2 e2 he2
    exact h.inj n1 n2 f1 f2 m1 m2 ctx1 ctx2 hf1 hf2 (by rw [← hc1.2.2.1]; exact hm1) (by rw [← hc2.2.2.1]; exact hm2) hkk

theorem freshKeys_tail {x : CmmEvent} {log : List CmmEvent} (h : FreshKeys (x :: log)) : FreshKeys log := by
  cases x with
  | gen _ _ _ _ => exact h.2
  | dec _ _ _ _ => exact h
  | clear => exact h

/-- What a served encryption request does to the counts. -/
theorem CmmHistory.count_gen {sha : Bytes → Bytes} {log : List CmmEvent} {c c' : Cache} {cmm : CachingCmm} {env : GenEnv} {req : EncRequest}
    {out : GenOut} (hok : COk [] c) (h : Count log c) (hv : cmm.Valid) (hr : cachingGenerate sha cmm env req c = .ok (c', out))
    (hfr : FreshKeys (.gen cmm env req out :: log)) :
    Count (.gen cmm env req out :: log) c' ∧ ∀ m, out.res = .ok m →
      messagesWith m.dataKey (.gen cmm env req out :: log) ≤ cmm.limitMessages ∧
      (bytesWith m.dataKey (.gen cmm env req out :: log) ≤ cmm.limitBytes ∨
        (messagesWith m.dataKey log = 0 ∧ cmm.limitBytes < req.plaintextSize)) := by
  have hv1 := hv.messages
  have hv2 := hv.bytes
  have hfresh : ∀ m, out.upstream = true → out.res = .ok m → messagesWith m.dataKey (.gen cmm env req out :: log) ≤ cmm.limitMessages ∧
      (bytesWith m.dataKey (.gen cmm env req out :: log) ≤ cmm.limitBytes ∨
        (messagesWith m.dataKey log = 0 ∧ cmm.limitBytes < req.plaintextSize)) := by
    intro m hu hres
    have h0 := hfr.1 m hu hres
    refine ⟨?_, ?_⟩
    · rw [messagesWith_cons, h0]
      split <;> omega
    · by_cases hle : req.plaintextSize ≤ cmm.limitBytes
      · left
        rw [bytesWith_cons, bytesWith_zero h0]
        split
        · simp only [declaredSize]; omega
        · omega
      · exact .inr ⟨h0, by omega⟩
  have hquiet : ∀ e, out.res = .error e → servedKey (.gen cmm env req out) = none := by intro e he; simp [servedKey, he]
  cases (cachingGenerate_ok hok hr).2 with
  | bypass hc ho _ =>
    subst hc
    have hu : out.upstream = true := by rw [ho]
    refine ⟨?_, fun m hres => hfresh m hu hres⟩
    cases hres : out.res with
    | error e => exact h.quiet (From.refl none _) (hquiet e hres)
    | ok m =>
      exact h.served 0 (k := m.dataKey) (by simp [servedKey, hres]) rfl (hfr.1 m hu hres)
        (fun n e' he' => .inl ⟨e', he', ⟨rfl, rfl, rfl, rfl⟩, rfl, rfl⟩)
  | noId hc e hres _ =>
    subst hc
    exact ⟨h.quiet (From.refl none _) (hquiet e hres), fun m hm => by rw [hres] at hm; cases hm⟩
  | hit id hid hs hu m hres n e m0 ectx hh =>
    obtain ⟨h1, h2, h3⟩ := h.hit hv hs hres hh
    exact ⟨h1, fun m' hm' => by rw [hres] at hm'; cases hm'; exact ⟨h2, .inl h3⟩⟩
  | missFail _ e _ hres _ hf => exact ⟨h.quiet hf (hquiet e hres), fun m hm => by rw [hres] at hm; cases hm⟩
  | miss id hid hs ctx m hup hres hu num hmem =>
    refine ⟨?_, fun m' hm' => hfresh m' hu hm'⟩
    refine h.served num (k := m.dataKey) (size := req.plaintextSize) (by simp [servedKey, hres]) rfl (hfr.1 m hu hres) ?_
    intro n e' he'
    rcases hmem n e' he' with h1 | ⟨hn, hnew⟩
    · exact .inl h1
    · exact .inr ⟨hn, by omega, ⟨_, _, hnew.mat, rfl⟩, hnew.bytes, hnew.messages⟩

theorem CmmHistory.count {sha : Bytes → Bytes} {addr : Nat → Nat} {cap : Nat} {log : List CmmEvent} {c : Cache}
    (h : CmmHistory sha addr cap log c) (hfr : FreshKeys log) : Count log c := by
  induction h with
  | new => constructor <;> (intros; simp_all [cacheNew])
  | gen hh hv hr ih => exact (CmmHistory.count_gen hh.ok (ih (freshKeys_tail hfr)) hv hr hfr).1
  | @dec log c cmm env req c' out hh hv hr ih =>
    have hc := ih (freshKeys_tail hfr)
    cases (cachingDecrypt_ok hh.ok hr).2 with
    | bypass h1 _ _ => subst h1; exact hc.quiet (From.refl none _) rfl
    | noId h1 _ _ _ => subst h1; exact hc.quiet (From.refl none _) rfl
    | hit _ _ _ _ _ _ _ _ _ hf => exact hc.quiet hf rfl
    | missFail _ _ _ _ hf => exact hc.quiet hf rfl
    | miss id hid m hup hres hu hmem =>
      have hm : ∀ k, messagesWith k (.dec cmm env req out :: log) = messagesWith k log := by intro k; rw [messagesWith_cons]; simp [servedKey]
      have hb : ∀ k, bytesWith k (.dec cmm env req out :: log) = bytesWith k log := by intro k; rw [bytesWith_cons]; simp [servedKey]
      have hold : ∀ n e' m' ctx', c'.mem n = some e' → e'.mat = .enc m' ctx' →
          ∃ f, c.mem n = some f ∧ f.mat = .enc m' ctx' ∧ SameUse f e' := by
        intro n e' m' ctx' he' hmat
        rcases hmem n e' he' with ⟨f, hf, hcc, huu⟩ | ⟨hq, -⟩
        · exact ⟨f, hf, by rw [← hcc.2.2.1]; exact hmat, huu⟩
        · rw [hmat] at hq; cases hq
      constructor
      · intro n e' m' ctx' he' hmat
        obtain ⟨f, hf, hfm, huu⟩ := hold n e' m' ctx' he' hmat
        rw [hm, huu.2]; exact hc.msgs n f m' ctx' hf hfm
      · intro n e' m' ctx' he' hmat
        obtain ⟨f, hf, hfm, huu⟩ := hold n e' m' ctx' he' hmat
        rw [hb, huu.1]; exact hc.byts n f m' ctx' hf hfm
      · intro n e' m' ctx' he' hmat
        obtain ⟨f, hf, hfm, huu⟩ := hold n e' m' ctx' he' hmat
        rw [huu.1, huu.2]; exact hc.bnd n f m' ctx' hf hfm
      · intro n1 n2 e1 e2 m1 m2 ctx1 ctx2 he1 he2 hm1 hm2 hkk
        obtain ⟨f1, hf1, hfm1, -⟩ := hold n1 e1 m1 ctx1 he1 hm1
        obtain ⟨f2, hf2, hfm2, -⟩ := hold n2 e2 m2 ctx2 he2 hm2
        exact hc.inj n1 n2 f1 f2 m1 m2 ctx1 ctx2 hf1 hf2 hfm1 hfm2 hkk
  | clear hh hr ih => exact (ih (freshKeys_tail hfr)).quiet (cacheClear_ok hh.ok hr).2 rfl

end Verif
