import Verif.Proof.CmmConcDecHeld
import Verif.Props.CmmConc
/-
C94: caching CMMs used by several threads to encrypt and to decrypt.  The executions (Spec/CmmConcDec) interleave the single accesses to
the shared cache.
-/
namespace Verif.Props

open Spec

variable {sha : Bytes → Bytes} {addr : Nat → Nat} {cap num : Nat} {log : List CmmEvent} {s s' : CmmAll} {t : Nat} {mv : AllMove} {f : Fault}

theorem logOk_split {allow : CachingCmm → Prop} {post pre : List CmmEvent} {x : CmmEvent} (h : LogOk sha allow (post ++ x :: pre)) :
    EvOk sha allow pre x ∧ LogOk sha allow pre := by
  induction post with
  | nil => exact h
  | cons y post ih => exact ih h.2

theorem logOk_allow {allow : CachingCmm → Prop} (h : LogOk sha allow log) :
    (∀ cmm env req out, .gen cmm env req out ∈ log → allow cmm) ∧ (∀ cmm env req out, .dec cmm env req out ∈ log → allow cmm) := by
  constructor <;>
  · intro cmm env req out hm
    obtain ⟨post, pre, rfl⟩ := List.append_of_mem hm
    exact (logOk_split h).1.1

/-! ## requests served from the cache -/

/-- C94: whatever the interleaving, an encryption request served from the cache gets what the upstream CMM gave for an encryption request
answered earlier, with the same partition, requested suite and encryption context (or the hash function collides), and stored not longer
ago than the time to live. -/
theorem C94_encrypt_hit (hsha : ∀ x, (sha x).length = 64) {post : List CmmEvent} {cmm : CachingCmm} {env : GenEnv} {req : EncRequest}
    {out : GenOut} {m : EncMaterials} (h : AllRuns sha CachingCmm.Valid addr cap num (post ++ .gen cmm env req out :: log) s)
    (hu : out.upstream = false) (hm : out.res = .ok m)
    (hreq : ∀ cmm' env' req' out', .gen cmm' env' req' out' ∈ (.gen cmm env req out :: log) →
      req'.requestedAlg < 65536 ∧ DistinctKeys req'.encCtx ∧ DistinctKeys out'.ctx) :
    ∃ cmm0 env0 req0 out0 m0 key time, .gen cmm0 env0 req0 out0 ∈ log ∧ out0.upstream = true ∧ out0.res = .ok m0 ∧
      m.alg = m0.alg ∧ m.dataKey = m0.dataKey ∧ m.edks = m0.edks ∧ m.trace = m0.trace ∧ SameMap out.ctx out0.ctx ∧
      storedKey env0.put m0.signctx = some key ∧ startSig env.get m0.alg key = .ok m.signctx ∧
      env0.put.clkNew = some time ∧ WithinTtl cmm.ttl env.clkTtl time ∧
      (Collides sha (EncStrings sha cmm0.partition req0) (EncStrings sha cmm.partition req) ∨
        (cmm0.partition = cmm.partition ∧ req0.requestedAlg = req.requestedAlg ∧ SameMap req0.encCtx req.encCtx)) := by
  obtain ⟨hev, hlog⟩ := logOk_split h.inv.log
  obtain ⟨e, m1, ectx, sc, hp, hmat, hid, httl, hctx, hsc, rfl⟩ := hev.2.1 m hu hm
  unfold Prov at hp
  rw [hmat] at hp
  obtain ⟨cmm0, env0, req0, out0, m0, h1, h2, h3, rfl, rfl, h6, h7, h8⟩ := hp
  have q0 := hreq cmm0 env0 req0 out0 (.tail _ h1)
  have q := hreq cmm env req out (.head _)
  refine ⟨cmm0, env0, req0, out0, m0, e.keyMat, e.creation, h1, h2, h3, rfl, rfl, rfl, rfl, ?_, h8, hsc, h7, httl, ?_⟩
  · rw [hctx]
    exact (encCtxClone_spec q.2.1 q0.2.2).2
  · exact C40_encrypt_ids hsha ((logOk_allow hlog).1 _ _ _ _ h1) hev.1 h6 hid q0.1 q.1 q0.2.1 q.2.1

/-- C94: the same for decryption requests; the encrypted data keys of the two requests are the same up to their order. -/
theorem C94_decrypt_hit (hsha : ∀ x, (sha x).length = 64) {post : List CmmEvent} {cmm : CachingCmm} {env : DecEnv} {req : DecRequest}
    {out : DecOut} {m : DecMaterials} (h : AllRuns sha CachingCmm.Valid addr cap num (post ++ .dec cmm env req out :: log) s)
    (hu : out.upstream = false) (hm : out.res = .ok m)
    (hreq : ∀ cmm' env' req' out', .dec cmm' env' req' out' ∈ (.dec cmm env req out :: log) →
      req'.alg < 65536 ∧ DistinctKeys req'.encCtx) :
    ∃ cmm0 env0 req0 out0 m0 key time, .dec cmm0 env0 req0 out0 ∈ log ∧ out0.upstream = true ∧ out0.res = .ok m0 ∧
      m.alg = m0.alg ∧ m.dataKey = m0.dataKey ∧ m.trace = m0.trace ∧
      storedKey env0.put m0.signctx = some key ∧ startSig env.get m0.alg key = .ok m.signctx ∧
      env0.put.clkNew = some time ∧ WithinTtl cmm.ttl env.clkTtl time ∧
      (Collides sha (DecStrings sha cmm0.partition req0) (DecStrings sha cmm.partition req) ∨
        (cmm0.partition = cmm.partition ∧ req0.alg = req.alg ∧ SameMap req0.encCtx req.encCtx ∧ req0.edks.Perm req.edks)) := by
  obtain ⟨hev, hlog⟩ := logOk_split h.inv.log
  obtain ⟨e, m1, sc, hp, hmat, hid, httl, hsc, rfl⟩ := hev.2.1 m hu hm
  unfold Prov at hp
  rw [hmat] at hp
  obtain ⟨cmm0, env0, req0, out0, m0, h1, h2, h3, rfl, h6, h7, h8⟩ := hp
  have q0 := hreq cmm0 env0 req0 out0 (.tail _ h1)
  have q := hreq cmm env req out (.head _)
  refine ⟨cmm0, env0, req0, out0, m0, e.keyMat, e.creation, h1, h2, h3, rfl, rfl, rfl, h8, hsc, h7, httl, ?_⟩
  exact C40_decrypt_ids hsha ((logOk_allow hlog).2 _ _ _ _ h1) hev.1 h6 hid q0.1 q.1 q0.2 q.2

/-! ## requests answered by the upstream CMM -/

/-- C94: an answer from the upstream CMM reaches the caller unchanged: for a decryption request the answer to the request itself, for an
encryption request the answer to the request with some encryption context. -/
theorem C94_miss {allow : CachingCmm → Prop} (h : AllRuns sha allow addr cap num log s) :
    (∀ cmm env req out, .dec cmm env req out ∈ log → out.upstream = true → out.res = env.up req) ∧
    (∀ cmm env req out, .gen cmm env req out ∈ log → out.upstream = true → ∃ ctx, env.up { req with encCtx := ctx } = (out.ctx, out.res)) := by
  constructor <;>
  · intro cmm env req out hm hu
    obtain ⟨post, pre, rfl⟩ := List.append_of_mem hm
    exact (logOk_split h.inv.log).1.2.2 hu

/-! ## limits -/

/-- C94: decryption requests of other threads do not weaken the message limit. -/
theorem C94_message_limit {L : Nat} (h : AllRuns sha (fun cmm => cmm.Valid ∧ cmm.limitMessages ≤ L) addr cap num log s)
    (hf : FreshKeys log) (hL : 1 ≤ L) (hn : num < 2 ^ 63) (k : Bytes) : messagesWith k log ≤ L := by
  rw [← messagesWith_filter]
  exact C41_message_limit_concurrent h.proj.1 (freshKeys_filter hf) hL hn k

/-- C94: nor the byte limit, as far as it holds (C41). -/
theorem C94_byte_limit {L : Nat} (h : AllRuns sha (fun cmm => cmm.Valid ∧ cmm.limitBytes ≤ L) addr cap num log s)
    (hf : FreshKeys log) (hn : num < 2 ^ 63) (hw : (num + 1) * L < 2 ^ 64) (k : Bytes) :
    bytesWith k log ≤ L ∨ ∃ cmm env req out, servedWith k log = [.gen cmm env req out] ∧ cmm.limitBytes < req.plaintextSize := by
  have := C41_byte_limit_concurrent_partial h.proj.1 (freshKeys_filter hf) hn hw k
  rwa [bytesWith_filter, servedWith_filter] at this

/-! ## faults and progress -/

/-- C94: what can go wrong: an unknown suite in a request or from the upstream CMM is looked up; the digest of a decryption request is
freed twice when hashing the encrypted data keys fails; a thread reads an entry while releasing it that another thread has destroyed
(C44). -/
theorem C94_faults {allow : CachingCmm → Prop} (h : AllRuns sha allow addr cap num log s) (hs : s.step sha t mv = some (.error f)) :
    (f = .nullDeref ∧ ((∃ cmm env req, mv = .gen cmm env req ∧ req.requestedAlg ≠ 0 ∧ algProps req.requestedAlg = none) ∨
      (∃ cmm env req, mv = .dec cmm env req ∧ algProps req.alg = none) ∨
      (mv = .up ∧ ∃ g ctx m, s.base.pc t = .up g ctx ∧ (g.env.up { g.req with encCtx := ctx }).2 = .ok m ∧ algProps m.alg = none))) ∨
    (f = .doubleFree ∧ ∃ cmm env req, mv = .dec cmm env req ∧ (env.ids.decEdkFails.isSome = true ∨ ∃ e, hashEdks sha req.edks = .error e)) ∨
    (f = .useAfterFree ∧ mv = .go ∧ ∃ n, (s.base.conc.thr t).doing = .relHeld n ∧ s.base.conc.cache.mem n = none) := by
  have cache : ∀ {cm}, s.base.conc.step t cm = some (.error f) →
      cm = .go ∧ f = .useAfterFree ∧ ∃ n, (s.base.conc.thr t).doing = .relHeld n ∧ s.base.conc.cache.mem n = none := by
    intro cm hk
    rcases h.inv.cc.step hk with ⟨s', x, hr, -, -⟩ | ⟨n, h1, -, h3, h4, h5⟩
    · cases hr
    · cases h5; exact ⟨h1, rfl, n, h3, h4⟩
  have csh : ∀ {cm}, s.shared t (s.base.conc.step t cm) = some (.error f) → s.base.conc.step t cm = some (.error f) := by
    intro cm hh
    cases hk : s.base.conc.step t cm with
    | none => rw [hk] at hh; cases hh
    | some r =>
      rw [hk] at hh
      obtain f' | ⟨k, x⟩ := r
      · cases hh; rfl
      · cases x <;> cases hh
  have bsh : ∀ {cm}, s.base.shared t (s.base.conc.step t cm) = some (.error f) → s.base.conc.step t cm = some (.error f) := by
    intro cm hh
    cases hk : s.base.conc.step t cm with
    | none => rw [hk] at hh; cases hh
    | some r =>
      rw [hk] at hh
      obtain f' | ⟨k, x⟩ := r
      · cases hh; rfl
      · cases x <;> cases hh
  have lift : ∀ {r}, s.lift r = some (.error f) → r = some (.error f) := by
    intro r hh
    unfold CmmAll.lift at hh
    split at hh <;> cases hh
    rfl
  have can : ∀ {a f'}, canCache a = .error f' → f' = .nullDeref ∧ algProps a = none := by
    intro a f' hh
    unfold canCache at hh
    split at hh <;> cases hh
    exact ⟨rfl, by assumption⟩
  have bloc : ∀ {r}, s.base.local t r = .error f → r = .error f := by
    intro r hh
    unfold CmmConc.local at hh
    split at hh <;> cases hh
    rfl
  have dloc : ∀ {r}, s.local t r = .error f → r = .error f := by
    intro r hh
    unfold CmmAll.local at hh
    split at hh <;> cases hh
    rfl
  cases mv with
  | gen cmm env req =>
    left
    simp only [CmmAll.step] at hs
    split at hs
    · have hb := lift hs
      simp only [CmmConc.step] at hb
      split at hb
      · have hg := bloc (Option.some.inj hb)
        unfold genStart at hg
        by_cases hl : req.plaintextSize > cmm.limitBytes
        · rw [if_pos hl] at hg; cases hg
        · rw [if_neg hl] at hg
          by_cases ha : req.requestedAlg = 0
          · rw [if_pos ha] at hg; cases hg
          · rw [if_neg ha] at hg
            cases hc : canCache req.requestedAlg with
            | error f' =>
              rw [hc] at hg
              obtain ⟨rfl, hu⟩ := can hc
              cases hg
              exact ⟨rfl, .inl ⟨cmm, env, req, rfl, ha, hu⟩⟩
            | ok b => rw [hc] at hg; cases b <;> cases hg
      · cases hb
    · cases hs
  | dec cmm env req =>
    simp only [CmmAll.step] at hs
    split at hs
    · have hg := dloc (Option.some.inj hs)
      unfold decStart at hg
      cases hc : canCache req.alg with
      | error f' =>
        rw [hc] at hg
        obtain ⟨rfl, hu⟩ := can hc
        cases hg
        exact .inl ⟨rfl, .inr (.inl ⟨cmm, env, req, rfl, hu⟩)⟩
      | ok b =>
        rw [hc] at hg
        cases b with
        | false => cases hg
        | true =>
          simp only at hg
          right; left
          cases hh : hashDec sha env.ids cmm.partition req with
          | ok r => rw [hh] at hg; cases r <;> cases hg
          | error f' =>
            rw [hh] at hg
            cases hg
            unfold hashDec at hh
            split at hh
            · cases hh
            · split at hh
              · cases hh
              · split at hh
                · next he => cases hh; exact ⟨rfl, cmm, env, req, rfl, .inl (by rw [he]; rfl)⟩
                · next he => cases hh; exact ⟨rfl, cmm, env, req, rfl, .inr ⟨_, he⟩⟩
                · split at hh <;> cases hh
    · cases hs
  | up =>
    left
    simp only [CmmAll.step] at hs
    cases hp : s.dpc t with
    | idle =>
      rw [hp] at hs
      have hb := lift hs
      simp only [CmmConc.step] at hb
      split at hb
      · next g ctx hpc =>
        split at hb
        · have hg := bloc (Option.some.inj hb)
          unfold genUp at hg
          cases hup : g.env.up { g.req with encCtx := ctx } with
          | mk ctx' r =>
            rw [hup] at hg
            cases r with
            | error e => cases hg
            | ok m =>
              simp only at hg
              cases hc : canCache m.alg with
              | ok b => rw [hc] at hg; cases hg
              | error f' =>
                rw [hc] at hg
                obtain ⟨rfl, hu⟩ := can hc
                cases hg
                exact ⟨rfl, .inr (.inr ⟨rfl, g, ctx, m, hpc, by rw [hup], hu⟩)⟩
        · cases hb
      · cases hb
    | up g =>
      rw [hp] at hs
      simp only at hs
      split at hs
      · cases dloc (Option.some.inj hs)
      · cases hs
    | _ => rw [hp] at hs; cases hs
  | call =>
    simp only [CmmAll.step] at hs
    split at hs
    · have hb := lift hs
      simp only [CmmConc.step] at hb
      split at hb
      · cases hb
      · cases (cache (bsh hb)).1
    · split at hs
      · cases hs
      · cases (cache (csh hs)).1
  | go =>
    simp only [CmmAll.step] at hs
    split at hs
    · obtain ⟨-, h2, h3⟩ := cache (bsh (lift hs)); exact .inr (.inr ⟨h2, rfl, h3⟩)
    · obtain ⟨-, h2, h3⟩ := cache (csh hs); exact .inr (.inr ⟨h2, rfl, h3⟩)
  | clear =>
    simp only [CmmAll.step] at hs
    split at hs
    · have hb := lift hs
      simp only [CmmConc.step] at hb
      split at hb
      · cases (cache (bsh hb)).1
      · cases hb
    · cases hs

/-- C94: threads in the middle of encryption and decryption requests never block each other for good: some thread can go on. -/
theorem C94_not_stuck (h : AllRuns sha CachingCmm.Valid addr cap num log s) (hf : FreshKeys log) (hn : num < 2 ^ 63) (ht : t < num)
    (hbusy : (s.base.conc.thr t).doing ≠ .idle ∨ (s.base.pc t).isIdle = false ∨ (s.dpc t).isIdle = false) :
    ∃ u mv r, u < num ∧ (mv = .go ∨ mv = .call ∨ mv = .up) ∧ s.step sha u mv = some r := by
  have hnum := h.inv.num
  have lifts : ∀ r, ∃ r', s.lift (some r) = some r' := by
    intro r
    obtain f | ⟨b, ev⟩ := r <;> exact ⟨_, rfl⟩
  have shared : ∀ u r, ∃ r', s.shared u (some r) = some r' := by
    intro u r
    obtain f | ⟨k, x⟩ := r
    · exact ⟨_, rfl⟩
    · cases x <;> exact ⟨_, rfl⟩
  have bshared : ∀ u r, ∃ r', s.base.shared u (some r) = some r' := by
    intro u r
    obtain f | ⟨k, x⟩ := r
    · exact ⟨_, rfl⟩
    · cases x <;> exact ⟨_, rfl⟩
  -- a thread in a call of the cache that need not wait for the mutex
  have goes : ∀ u, u < num → (s.base.conc.thr u).doing ≠ .idle → ((s.base.conc.thr u).doing.needsLock = true → s.base.conc.unlocked = true) →
      ∃ u mv r, u < num ∧ (mv = .go ∨ mv = .call ∨ mv = .up) ∧ s.step sha u mv = some r := by
    intro u hu hd hl
    have hk : ∃ r, s.base.conc.step u .go = some r := by
      refine ⟨s.base.conc.finish u none (resumeCall (s.base.conc.thr u).doing s.base.conc.cache), ?_⟩
      simp only [Conc.step]
      rw [if_pos ⟨by omega, hd, hl⟩]
    obtain ⟨r, hk⟩ := hk
    by_cases hi : (s.dpc u).isIdle = true
    · obtain ⟨r1, h1⟩ := bshared u r
      obtain ⟨r2, h2⟩ := lifts r1
      refine ⟨u, .go, r2, hu, .inl rfl, ?_⟩
      simp only [CmmAll.step, CmmConc.step]
      rw [if_pos hi, hk, h1, h2]
    · obtain ⟨r1, h1⟩ := shared u r
      refine ⟨u, .go, r1, hu, .inl rfl, ?_⟩
      simp only [CmmAll.step]
      rw [if_neg hi, hk, h1]
  cases hu : s.base.conc.unlocked with
  | false =>
    simp only [Conc.unlocked, List.all_eq_false] at hu
    obtain ⟨u, hu1, hu2⟩ := hu
    have hlt : u < s.base.conc.num := by simpa using hu1
    have hlk : (s.base.conc.thr u).doing.locked = true := by simpa using hu2
    refine goes u (by omega) (fun hd => by rw [hd] at hlk; cases hlk) ?_
    cases hd : (s.base.conc.thr u).doing <;> rw [hd] at hlk <;> first | (cases hlk; done) | (intro hh; cases hh)
  | true =>
    by_cases hd : (s.base.conc.thr t).doing = .idle
    · by_cases hi : (s.dpc t).isIdle = true
      · -- in an encryption request
        have hpc : (s.base.pc t).isIdle = false := by
          rcases hbusy with hb | hb | hb
          · exact absurd hd hb
          · exact hb
          · rw [hi] at hb; cases hb
        have hinv := runs_inv (LB := 2 ^ 63 - 1) (LM := 2 ^ 32) h.proj.1 (freshKeys_filter hf) (fun cmm hc => ⟨hc.bytes, hc.messages.2⟩)
          (by omega) (by omega)
        have hT := hinv.thr t ht
        have callable : ∀ op, (s.base.pc t).op = some op → (∀ n, op.on = some n → (s.base.pc t).ref = some n) →
            ∃ u mv r, u < num ∧ (mv = .go ∨ mv = .call ∨ mv = .up) ∧ s.step sha u mv = some r := by
          intro op hop hon
          obtain ⟨r1, h1⟩ := bshared t (s.base.conc.finish t (some op) (startCall op s.base.conc.cache))
          obtain ⟨r2, h2⟩ := lifts r1
          refine ⟨t, .call, r2, ht, .inr (.inl rfl), ?_⟩
          simp only [CmmAll.step]
          rw [if_pos hi]
          simp only [CmmConc.step, hop, Conc.step]
          rw [if_pos ⟨by omega, hd, fun n hn => hT.held n (hon n hn) hd, fun _ => hu⟩, h1, h2]
        cases hp : s.base.pc t with
        | idle => rw [hp] at hpc; cases hpc
        | up g ctx =>
          obtain ⟨r2, h2⟩ := lifts (s.base.local t (genUp g ctx))
          refine ⟨t, .up, r2, ht, .inr (.inr rfl), ?_⟩
          have hidle := dpc_idle hi
          simp only [CmmAll.step, hidle, CmmConc.step, hp]
          rw [if_pos (by omega), h2]
        | _ => rw [hp] at callable; exact callable _ rfl (fun n hh => by cases hh <;> rfl)
      · -- in a decryption request
        have hheld := h.held t
        have callable : ∀ op, (s.dpc t).op = some op → (∀ n, op.on = some n → (s.dpc t).ref = some n) →
            ∃ u mv r, u < num ∧ (mv = .go ∨ mv = .call ∨ mv = .up) ∧ s.step sha u mv = some r := by
          intro op hop hon
          obtain ⟨r1, h1⟩ := shared t (s.base.conc.finish t (some op) (startCall op s.base.conc.cache))
          refine ⟨t, .call, r1, ht, .inr (.inl rfl), ?_⟩
          simp only [CmmAll.step]
          rw [if_neg hi]
          simp only [hop, Conc.step]
          rw [if_pos ⟨by omega, hd, fun n hn => (hheld n (hon n hn)).elim id (fun hh => absurd hd hh.2), fun _ => hu⟩, h1]
        cases hp : s.dpc t with
        | idle => rw [hp] at hi; exact absurd rfl hi
        | up g =>
          refine ⟨t, .up, s.local t (.ok (decUp g)), ht, .inr (.inr rfl), ?_⟩
          simp only [CmmAll.step, hp]
          rw [if_pos (by omega)]
        | _ => rw [hp] at callable; exact callable _ rfl (fun n hh => by cases hh <;> rfl)
    · exact goes t ht hd (fun _ => hu)

/-! ## executions -/

open CmmExample

namespace CmmAllExample

/-- Two decryption requests and two encryption requests in three threads.  Thread 0 brings key `[9]` for decryption; while thread 1 is
between lookup and use of that entry, thread 2 brings key `[8]` for encryption, and thread 0 uses it. -/
def sched : List (Nat × AllMove) :=
  [(0, .dec cmm (denv 10 [9]) dreq), (0, .call), (0, .up), (0, .call), (0, .call), (0, .call), (0, .go), (0, .call), (0, .go),
   (1, .dec cmm (denv 20 [7]) dreq'), (1, .call),
   (2, .gen cmm (genv 0x0378 21 [8]) (req 5)), (2, .call), (2, .up), (2, .call),
   (1, .call), (1, .call),
   (0, .gen cmm (genv 0x0378 22 [6]) (req 5)), (0, .call), (0, .call),
   (1, .call), (0, .call), (0, .go), (0, .call), (0, .go), (0, .go), (0, .call)]

end CmmAllExample

open CmmAllExample

theorem sched_valid : ∀ m ∈ sched, AllMove.on (fun c => c.Valid ∧ c.limitBytes ≤ 100 ∧ c.limitMessages ≤ 3) m.2 := by
  have hv : cmm.Valid ∧ cmm.limitBytes ≤ 100 ∧ cmm.limitMessages ≤ 3 := ⟨CmmExample.valid.1, by decide, by decide⟩
  intro m hm
  simp only [sched, List.mem_cons, List.mem_nil_iff, or_false] at hm
  rcases hm with rfl | rfl | rfl | rfl | rfl | rfl | rfl | rfl | rfl | rfl | rfl | rfl | rfl | rfl | rfl | rfl | rfl | rfl | rfl | rfl | rfl | rfl | rfl | rfl | rfl | rfl | rfl <;>
    first | exact hv | trivial

/-- The execution: a decryption request and an encryption request are served from the cache, in this order; thread 1 is still in its request. -/
example : ∃ log s, AllRuns tsha (fun c => c.Valid ∧ c.limitBytes ≤ 100 ∧ c.limitMessages ≤ 3) id 4 3 log s ∧ FreshKeys log ∧
    summary log = [(some [8], false), (some [9], false), (some [8], true), (some [9], true)] ∧ messagesWith [8] log = 2 ∧
    (s.dpc 1).isIdle = false := by
  have h : ((allAfter tsha ([], cmmAllNew id 4 3) sched).map fun x =>
      freshB x.1 && decide (summary x.1 = [(some [8], false), (some [9], false), (some [8], true), (some [9], true)]) &&
        decide (messagesWith [8] x.1 = 2) && !(x.2.dpc 1).isIdle) = some true := by decide +kernel
  cases hp : allAfter tsha ([], cmmAllNew id 4 3) sched with
  | none => rw [hp] at h; cases h
  | some x =>
    rw [hp] at h
    simp only [Option.map_some, Option.some.injEq, Bool.and_eq_true, decide_eq_true_eq, Bool.not_eq_true'] at h
    exact ⟨x.1, x.2, allAfter_runs (x := ([], _)) .new sched_valid hp, freshB_ok h.1.1.1, h.1.1.2, h.1.2, h.2⟩

/-- The faults occur. -/
example : (match (cmmAllNew id 4 3).step tsha 0 (.dec cmm { denv 10 [9] with ids := ⟨none, none, some .cryptoUnknown, none⟩ } dreq) with
    | some (.error .doubleFree) => true | _ => false) = true ∧
    (match (cmmAllNew id 4 3).step tsha 0 (.dec cmm (denv 10 [9]) { dreq with alg := 0x9999 }) with
    | some (.error .nullDeref) => true | _ => false) = true := by decide +kernel

end Verif.Props
