import Verif.Proof.CacheSwap
import Verif.Props.CachingCmm
import Verif.Props.CacheUsage
import Verif.Props.Rekey
import Verif.Props.Rewrap
/-
C114: the cache and the caching CMM keep data keys, encrypted data keys and traces, and do nothing else with them.
-/
namespace Verif.Props
open Verif Verif.Spec Verif.Proof

/-- **C114, the cache.**  Replace the data keys, encrypted data keys and keyring traces in a local cache in any way.  Every function of the
cache does the same as before, and leaves the cache that it left before with the replacement: lookup, both puts (of replaced materials),
update of the usage, time of creation, expiration hint, release, clearing, the number of entries, and destruction.  Both gets give the
replaced materials. -/
theorem C114_cache (w : Swap) (c : Cache) :
    (∀ clk id, cacheFind clk id (w.cache c) = (cacheFind clk id c).map (fun r => (w.cache r.1, r.2))) ∧
    (∀ env id m bytes messages ctx, cachePutEnc env id (w.encMat m) bytes messages ctx (w.cache c) =
      (cachePutEnc env id m bytes messages ctx c).map (fun r => (w.cache r.1, r.2))) ∧
    (∀ env id m, cachePutDec env id (w.decMat m) (w.cache c) = (cachePutDec env id m c).map (fun r => (w.cache r.1, r.2))) ∧
    (∀ n bytes messages, cacheUpdateUsage n bytes messages (w.cache c) = (cacheUpdateUsage n bytes messages c).map (fun r => (w.cache r.1, r.2))) ∧
    (∀ env n ctx, cacheGetEnc env n ctx (w.cache c) = (cacheGetEnc env n ctx c).map (fun r => (r.1, r.2.map w.encMat))) ∧
    (∀ env n, cacheGetDec env n (w.cache c) = (cacheGetDec env n c).map (fun r => r.map w.decMat)) ∧
    (∀ n, cacheCreation n (w.cache c) = cacheCreation n c) ∧
    (∀ n t push, cacheHint n t push (w.cache c) = (cacheHint n t push c).map w.cache) ∧
    (∀ n inv, cacheRelease n inv (w.cache c) = (cacheRelease n inv c).map w.cache) ∧
    cacheClear (w.cache c) = (cacheClear c).map w.cache ∧
    cacheCount (w.cache c) = cacheCount c ∧
    cacheDestroy (w.cache c) = w.cache (cacheDestroy c) :=
  ⟨fun clk id => cacheFind_swap w clk id c, fun env id m b k ctx => cachePutEnc_swap w env id m b k ctx c, fun env id m => cachePutDec_swap w env id m c,
    fun n b m => cacheUpdateUsage_swap w n b m c, fun env n ctx => cacheGetEnc_swap w env n ctx c, fun env n => cacheGetDec_swap w env n c,
    fun n => cacheCreation_swap w n c, fun n t p => cacheHint_swap w n t p c, fun n i => cacheRelease_swap w c n i, cacheClear_swap w c, rfl,
    cacheDestroy_swap w c⟩

/-- **C114, generating.**  If the upstream CMM gives the replaced materials and the cache holds replaced materials, `generate_enc_materials`
of a caching CMM gives the replaced materials, asks upstream when it did, and leaves the cache with the replacement. -/
theorem C114_generate (w : Swap) (sha : Bytes → Bytes) (cmm : CachingCmm) (env : GenEnv) (req : EncRequest) (c : Cache) :
    cachingGenerate sha cmm (w.genEnv env) req (w.cache c) = (cachingGenerate sha cmm env req c).map (fun r => (w.cache r.1, w.genOut r.2)) :=
  cachingGenerate_swap w sha cmm env req c

/-- **C114, decrypting.**  So does `decrypt_materials`. -/
theorem C114_decrypt (w : Swap) (sha : Bytes → Bytes) (cmm : CachingCmm) (env : DecEnv) (req : DecRequest) (c : Cache) :
    cachingDecrypt sha cmm (w.decEnv env) req (w.cache c) = (cachingDecrypt sha cmm env req c).map (fun r => (w.cache r.1, w.decOut r.2)) :=
  cachingDecrypt_swap w sha cmm env req c

/-- **C114, histories.**  So do caching CMMs that share a cache, over any sequence of calls, from the empty cache on. -/
theorem C114_history (w : Swap) (sha : Bytes → Bytes) (l : List CachingCall) (addr : Nat → Nat) (capacity : Nat) :
    cachingCalls sha (l.map w.call) (cacheNew addr capacity) =
      (cachingCalls sha l (cacheNew addr capacity)).map (fun r => (w.cache r.1, r.2.map w.out)) := by
  have key : ∀ c, cachingCalls sha (l.map w.call) (w.cache c) = (cachingCalls sha l c).map (fun r => (w.cache r.1, r.2.map w.out)) := by
    induction l with
    | nil => intro c; rfl
    | cons x l ih =>
      intro c
      cases x with
      | generate cmm env req =>
        simp only [List.map_cons, Swap.call, cachingCalls, C114_generate]
        cases cachingGenerate sha cmm env req c with
        | error f => rfl
        | ok r =>
          simp only [Except.map, ih]
          cases cachingCalls sha l r.1 <;> rfl
      | decrypt cmm env req =>
        simp only [List.map_cons, Swap.call, cachingCalls, C114_decrypt]
        cases cachingDecrypt sha cmm env req c with
        | error f => rfl
        | ok r =>
          simp only [Except.map, ih]
          cases cachingCalls sha l r.1 <;> rfl
  exact key (cacheNew addr capacity)

/-- **C114, the CMM that a session sees.**  With data keys replaced upstream and in the cache, it is the CMM with data keys replaced: the
hypothesis that C108 makes of the CMM. -/
theorem C114_cmm (φ : Bytes → Bytes) (sha : Bytes → Bytes) (cmm : CachingCmm) (g : GenEnv) (d : DecEnv) (c : Cache) :
    cachingAsCmm sha cmm ((keySwap φ).genEnv g) ((keySwap φ).decEnv d) ((keySwap φ).cache c) = rekeyCmm φ (cachingAsCmm sha cmm g d c) := by
  unfold cachingAsCmm rekeyCmm
  congr 1
  · funext req
    simp only [C114_generate]
    cases cachingGenerate sha cmm g req c <;> rfl
  · funext req
    simp only [C114_decrypt]
    cases cachingDecrypt sha cmm d req c <;> rfl

/-- **C114, sessions.**  A session with a caching CMM over any upstream CMM, under the default commitment policy: replace every data key,
upstream and in the cache, and let HKDF undo the replacement; no call of the session API notices. -/
theorem C114_session {E : Env → Prop} {v : View} (hv : Reach E .requireRequire v) {φ : Bytes → Bytes} (sha : Bytes → Bytes) (cmm : CachingCmm)
    (g : GenEnv) (d : DecEnv) (c : Cache) {e : Env} {hk : HkdfFn} (hl : ∀ sha salt ikm info n k, hk sha salt ikm info n = .ok k → k.length = n)
    (hr : Renames φ e.crypto.hkdf hk) (op : Op) :
    apply { e with cmm := cachingAsCmm sha cmm ((keySwap φ).genEnv g) ((keySwap φ).decEnv d) ((keySwap φ).cache c)
                   crypto := withHkdf e.crypto hk hl } v op =
      apply { e with cmm := cachingAsCmm sha cmm g d c } v op := by
  rw [C114_cmm]
  exact C108_default_policy (e := { e with cmm := cachingAsCmm sha cmm g d c }) hv ⟨φ, hk, hl, hr, rfl⟩ op

/-- **C114, the whole library.**  A session with a caching CMM over a default CMM over any tree of keyrings, under the default commitment policy:
replace every data key, where it is made, where it is unwrapped and in the cache, and let wrapping and HKDF undo the replacement; no call of
the session API notices. -/
theorem C114_library {E : Env → Prop} {v : View} (hv : Reach E .requireRequire v) {φ : Bytes → Bytes} {a a' : Around} (h : Rewrap φ a a')
    (t : KrTree) (env : CmmEnv) (da : Option Nat) (sha : Bytes → Bytes) (cmm : CachingCmm) (g : GenEnv) (d : DecEnv) (c : Cache) {e : Env}
    {hk : HkdfFn} (hl : ∀ sha salt ikm info n k, hk sha salt ikm info n = .ok k → k.length = n)
    (hd : ∀ sha salt k info n, hk sha salt (φ k) info n = e.crypto.hkdf sha salt k info n) (op : Op) :
    let up := DefaultCmm.toCmm env ⟨t.keyring a [], da⟩
    let up' := DefaultCmm.toCmm env ⟨t.keyring a' [], da⟩
    apply { e with cmm := cachingAsCmm sha cmm { g with up := up'.generate } { d with up := up'.decrypt } ((keySwap φ).cache c)
                   crypto := withHkdf e.crypto hk hl } v op =
      apply { e with cmm := cachingAsCmm sha cmm { g with up := up.generate } { d with up := up.decrypt } c } v op := by
  intro up up'
  have hu : up' = rekeyCmm φ up := C113_cmm h t env da
  rw [hu]
  exact C114_session hv sha cmm { g with up := up.generate } { d with up := up.decrypt } c hl ⟨h.len, hd⟩ op

/-- **C114, sessions that share a cache.**  Any number of sessions under the default commitment policy, each call with a caching CMM over any
upstream CMM, all over one cache, in any order: with every data key replaced upstream, and the replacement undone before HKDF, all calls return
the same, the sessions end in the same states, and the cache is the same but for the data keys in it. -/
theorem C114_sharing {φ ψ : Bytes → Bytes} (hlen : ∀ k, (φ k).length = k.length) (hψφ : ∀ k, ψ (φ k) = k) (hφψ : ∀ k, φ (ψ k) = k)
    {sha : Bytes → Bytes} {addr : Nat → Nat} {cap : Nat} {vs0 vs : Nat → View} {l : List SharingCall} {os : List Res} {c : Cache}
    (h : Sharing sha addr cap vs0 l os c vs) (h0 : ∀ i, ∃ mode s, sessionNew mode = some s ∧ vs0 i = ⟨s, [], []⟩)
    (hp : ∀ x ∈ l, ∀ p, x.op = .setPolicy p → p = .requireRequire) :
    Sharing sha addr cap vs0 (l.map (SharingCall.rekey φ ψ)) os ((keySwap φ).cache c) vs := by
  have round : ∀ cm : Cmm, rekeyCmm φ (rekeyCmm ψ cm) = cm := rekeyCmm_cancel hφψ
  have back : ∀ cm : Cmm, rekeyCmm ψ (rekeyCmm φ cm) = cm := rekeyCmm_cancel hψφ
  have cmm_eq : ∀ (x : SharingCall) (c : Cache),
      ((x.rekey φ ψ).seen sha ((keySwap φ).cache c)).cmm = rekeyCmm φ (x.seen sha c).cmm := fun x c => C114_cmm φ sha x.cmm x.gen x.dec c
  have with_cmm : ∀ (x : SharingCall) (c : Cache) (v : View), Reach (fun _ => True) .requireRequire v → ∀ cm : Cmm,
      apply { (x.rekey φ ψ).seen sha ((keySwap φ).cache c) with cmm := rekeyCmm φ cm } v x.op = apply { x.seen sha c with cmm := cm } v x.op := by
    intro x c v hv cm
    exact C108_default_policy (e := { x.seen sha c with cmm := cm }) hv ⟨φ, _, _, ⟨hlen, fun sha salt k info n => by rw [hψφ]; rfl⟩, rfl⟩ x.op
  have with_any : ∀ (x : SharingCall) (c : Cache) (v : View), Reach (fun _ => True) .requireRequire v → ∀ cm : Cmm,
      apply { (x.rekey φ ψ).seen sha ((keySwap φ).cache c) with cmm := cm } v x.op = apply { x.seen sha c with cmm := rekeyCmm ψ cm } v x.op := by
    intro x c v hv cm
    rw [← with_cmm x c v hv (rekeyCmm ψ cm), round]
  have same : ∀ (x : SharingCall) (c : Cache) (v : View), Reach (fun _ => True) .requireRequire v →
      apply ((x.rekey φ ψ).seen sha ((keySwap φ).cache c)) v x.op = apply (x.seen sha c) v x.op := by
    intro x c v hv
    have h := with_cmm x c v hv (x.seen sha c).cmm
    rw [← cmm_eq x c] at h
    exact h
  have quiet : ∀ (x : SharingCall) (c : Cache) (v : View), Reach (fun _ => True) .requireRequire v →
      (Quiet ((x.rekey φ ψ).seen sha ((keySwap φ).cache c)) v x.op ↔ Quiet (x.seen sha c) v x.op) := by
    intro x c v hv
    constructor
    · intro h cm
      rw [← with_cmm x c v hv cm, h, same x c v hv]
    · intro h cm
      rw [with_any x c v hv cm, h, same x c v hv]
  have key : Sharing sha addr cap vs0 (l.map (SharingCall.rekey φ ψ)) os ((keySwap φ).cache c) vs ∧
      ∀ i, Reach (fun _ => True) .requireRequire (vs i) := by
    have after_eq : ∀ (x : SharingCall) (c : Cache) (vs : Nat → View), Reach (fun _ => True) .requireRequire (vs x.i) →
        (x.rekey φ ψ).after sha ((keySwap φ).cache c) vs = x.after sha c vs := by
      intro x c vs hv
      funext j
      unfold SharingCall.after
      rw [show apply ((x.rekey φ ψ).seen sha ((keySwap φ).cache c)) (vs (x.rekey φ ψ).i) (x.rekey φ ψ).op = _ from same x c (vs x.i) hv]
      rfl
    have reach : ∀ (x : SharingCall) (c : Cache) (vs : Nat → View), (∀ i, Reach (fun _ => True) .requireRequire (vs i)) →
        (∀ p, x.op = .setPolicy p → p = .requireRequire) → ∀ i, Reach (fun _ => True) .requireRequire (x.after sha c vs i) := by
      intro x c vs hv hx i
      unfold SharingCall.after
      split
      · have hr := Reach.call (env := x.seen sha c) x.op (hv x.i) trivial
        have h3 : polAfter .requireRequire x.op = .requireRequire := by
          unfold polAfter
          split
          · rename_i p hc
            rw [hx p hc]; rfl
          · rfl
        rwa [h3] at hr
      · exact hv i
    induction h with
    | start =>
      refine ⟨.start, fun i => ?_⟩
      obtain ⟨mode, s, h1, h2⟩ := h0 i
      rw [h2]
      exact .new h1
    | quiet x hs hq ih =>
      obtain ⟨ih, hv⟩ := ih (fun y hy => hp y (List.mem_cons_of_mem _ hy))
      refine ⟨?_, reach x _ _ hv (hp x List.mem_cons_self)⟩
      rw [← same x _ _ (hv x.i), ← after_eq x _ _ (hv x.i)]
      exact .quiet (x.rekey φ ψ) ih ((quiet x _ _ (hv x.i)).2 hq)
    | @generate l os c vs req c' out x hs hq hg ih =>
      obtain ⟨ih, hv⟩ := ih (fun y hy => hp y (List.mem_cons_of_mem _ hy))
      refine ⟨?_, reach x _ _ hv (hp x List.mem_cons_self)⟩
      rw [← same x _ _ (hv x.i), ← after_eq x _ _ (hv x.i)]
      refine .generate (req := req) (out := (keySwap φ).genOut out) (x.rekey φ ψ) ih
        ⟨fun hn => hq.1 ((quiet x _ _ (hv x.i)).1 hn), fun cm hc => ?_⟩ ?_
      · rw [show (x.rekey φ ψ).op = x.op from rfl, show (x.rekey φ ψ).i = x.i from rfl, with_any x c _ (hv x.i) cm, same x c _ (hv x.i)]
        refine hq.2 _ ?_
        rw [cmm_eq] at hc
        have := congrArg Cmm.generate (back (x.seen sha c).cmm)
        rw [← this]
        show ((cm.generate req).1, _) = (((rekeyCmm φ (x.seen sha c).cmm).generate req).1, _)
        rw [hc]
      · show cachingGenerate sha x.cmm ((keySwap φ).genEnv x.gen) req ((keySwap φ).cache c) = _
        rw [C114_generate, hg]; rfl
    | @decrypt l os c vs req c' out x hs hq hg ih =>
      obtain ⟨ih, hv⟩ := ih (fun y hy => hp y (List.mem_cons_of_mem _ hy))
      refine ⟨?_, reach x _ _ hv (hp x List.mem_cons_self)⟩
      rw [← same x _ _ (hv x.i), ← after_eq x _ _ (hv x.i)]
      refine .decrypt (req := req) (out := (keySwap φ).decOut out) (x.rekey φ ψ) ih
        ⟨fun hn => hq.1 ((quiet x _ _ (hv x.i)).1 hn), fun cm hc => ?_⟩ ?_
      · rw [show (x.rekey φ ψ).op = x.op from rfl, show (x.rekey φ ψ).i = x.i from rfl, with_any x c _ (hv x.i) cm, same x c _ (hv x.i)]
        refine hq.2 _ ?_
        rw [cmm_eq] at hc
        have := congrArg Cmm.decrypt (back (x.seen sha c).cmm)
        rw [← this]
        show (cm.decrypt req).map _ = ((rekeyCmm φ (x.seen sha c).cmm).decrypt req).map _
        rw [hc]
      · show cachingDecrypt sha x.cmm ((keySwap φ).decEnv x.dec) req ((keySwap φ).cache c) = _
        rw [C114_decrypt, hg]; rfl
  exact key.1

namespace CacheSwapExample
open CmmExample

/-- A miss and a hit for encryption, a miss and a hit for decryption. -/
def calls : List CachingCall :=
  [.generate cmm (genv 0x0178 10 [1, 1]) (req 30), .generate cmm (genv 0x0178 20 [2, 2]) (req 40), .decrypt cmm (denv 21 [1, 1]) dreq,
   .decrypt cmm (denv 22 [9, 9]) dreq']

def summary (r : Except Fault (Cache × List CachingOut)) : Option (List (Option Bytes × Bool)) :=
  match r with
  | .error _ => none
  | .ok r => some (r.2.map fun
    | .generate o => (match o.res with | .ok m => some m.dataKey | .error _ => none, o.upstream)
    | .decrypt o => (match o.res with | .ok m => some m.dataKey | .error _ => none, o.upstream))

/-- Keys out of the cache are the ones put in; with every key reversed and extended by a byte, so are they. -/
example :
    summary (cachingCalls tsha calls (cacheNew id 16)) =
      some [(some [1, 1], true), (some [1, 1], false), (some [1, 1], true), (some [1, 1], false)] ∧
    summary (cachingCalls tsha (calls.map (keySwap (fun k => 7 :: k.reverse)).call) (cacheNew id 16)) =
      some [(some [7, 1, 1], true), (some [7, 1, 1], false), (some [7, 1, 1], true), (some [7, 1, 1], false)] := by
  decide +kernel

/-- A call on session `i` at time `now`, with the caching CMM of the examples of C91. -/
def on (i now : Nat) (op : Op) : SharingCall := ⟨i, Example.envU, UsageExample.small, UsageExample.up now, denv now [], op⟩

def configured (size : Nat) : View := run Example.encNew [(Example.envU, .setFrameSize 4), (Example.envU, .setMessageSize size)]

def encryptOp (size : Nat) : Op := .process (Example.zeros 600) (some (Example.zeros size))

/-- A message of `size` bytes, latest call first. -/
def message (i now size : Nat) : List SharingCall := [on i now (encryptOp size), on i now (.setMessageSize size), on i now (.setFrameSize 4)]

def final (now size : Nat) (c : Cache) : View := (apply ((on 0 now (encryptOp size)).seen tsha c) (configured size) (encryptOp size)).1

def answer (now size : Nat) (c : Cache) : Option (Cache × GenOut) := UsageExample.ask now (request (configured size).s) c

def checks (now size : Nat) (c : Cache) : Bool :=
  decide ((configured size).s.mode = .encrypt) && decide ((configured size).s.state = .config) && decide ((final now size c).s.state ≠ .error)

theorem sharing_message {l : List SharingCall} {os : List Res} {c : Cache} {vs : Nat → View} {vs0 : Nat → View} (i now size : Nat)
    (h : Sharing tsha id 16 vs0 l os c vs) (hv : vs i = Example.encNew) {c' : Cache} {out : GenOut} (ha : answer now size c = some (c', out))
    (hc : checks now size c = true) :
    ∃ os' vs', Sharing tsha id 16 vs0 (message i now size ++ l) os' c' vs' ∧ vs' i = final now size c ∧ ∀ j, j ≠ i → vs' j = vs j := by
  simp only [checks, Bool.and_eq_true, decide_eq_true_eq] at hc
  obtain ⟨⟨hm, hst⟩, hlate⟩ := hc
  have hg : cachingGenerate tsha UsageExample.small (UsageExample.up now) (request (configured size).s) c = .ok (c', out) := by
    unfold answer UsageExample.ask at ha
    split at ha
    · next heq => rw [heq]; cases ha; rfl
    · cases ha
  have hr : Reach (fun _ => True) .requireRequire Example.encNew := .new (mode := .encrypt) rfl
  have quietSize : ∀ v : View, apply ((on i now (.setMessageSize size)).seen tsha c) v (.setMessageSize size) = apply Example.envU v (.setMessageSize size) :=
    fun _ => rfl
  have h1 := Sharing.quiet (on i now (.setFrameSize 4)) h (fun _ => rfl)
  have h2 := Sharing.quiet (on i now (.setMessageSize size)) h1 (fun _ => rfl)
  have e1 : (on i now (.setFrameSize 4)).after tsha c vs i = (apply Example.envU Example.encNew (.setFrameSize 4)).1 := by
    simp only [SharingCall.after, on, if_true, hv]; rfl
  have e2 : (on i now (.setMessageSize size)).after tsha c ((on i now (.setFrameSize 4)).after tsha c vs) i = configured size := by
    rw [SharingCall.after, if_pos (show i = (on i now (.setMessageSize size)).i from rfl),
      show (on i now (.setMessageSize size)).i = i from rfl, e1]
    exact congrArg Prod.fst (show apply ((on i now (.setMessageSize size)).seen tsha c) (apply Example.envU Example.encNew (.setFrameSize 4)).1
      (.setMessageSize size) = apply Example.envU (apply Example.envU Example.encNew (.setFrameSize 4)).1 (.setMessageSize size) from
        quietSize (apply Example.envU Example.encNew (.setFrameSize 4)).1)
  have hask := UsageExample.asks_process (reach_run hr [(Example.envU, .setFrameSize 4), (Example.envU, .setMessageSize size)] (fun _ _ => trivial)).hinv
    hm hst ((on i now (encryptOp size)).seen tsha c) (Example.zeros 600) (Example.zeros size) hlate
  have h3 := Sharing.generate (req := request (configured size).s) (out := out) (on i now (encryptOp size)) h2
    (by rw [show (on i now (encryptOp size)).i = i from rfl, e2]; exact hask) hg
  refine ⟨_, _, h3, ?_, fun j hj => ?_⟩
  · rw [SharingCall.after, if_pos (show i = (on i now (encryptOp size)).i from rfl), show (on i now (encryptOp size)).i = i from rfl, e2]
    rfl
  · rw [SharingCall.after, if_neg (show ¬ j = (on i now (encryptOp size)).i from hj), SharingCall.after,
      if_neg (show ¬ j = (on i now (.setMessageSize size)).i from hj), SharingCall.after, if_neg (show ¬ j = (on i now (.setFrameSize 4)).i from hj)]

def cache1 : Cache := ((answer 1 6 (cacheNew id 16)).map (·.1)).getD (cacheNew id 16)

/-- Two sessions write a message each, the second with the data key of the first, from the cache; adding one to each byte of a data key is a
replacement as C114 allows. -/
example : (∃ os c vs, Sharing tsha id 16 (fun _ => Example.encNew) (message 1 2 5 ++ (message 0 1 6 ++ [])) os c vs ∧
      isDone (vs 0).s = true ∧ isDone (vs 1).s = true) ∧
    (∀ x ∈ message 1 2 5 ++ (message 0 1 6 ++ []), ∀ p, x.op = .setPolicy p → p = .requireRequire) ∧
    ((answer 2 5 cache1).map (fun x => (x.2.upstream, x.2.res.toOption.map EncMaterials.dataKey))) = some (false, some (UsageExample.key 1)) ∧
    (∀ k : Bytes, (k.map (· + 1)).length = k.length ∧ (k.map (· + 1)).map (· - 1) = k ∧ (k.map (· - 1)).map (· + 1) = k) := by
  refine ⟨?_, ?_, by decide +kernel, ?_⟩
  · have hs : (answer 1 6 (cacheNew id 16)).isSome = true ∧ (answer 2 5 cache1).isSome = true ∧ checks 1 6 (cacheNew id 16) = true ∧
        checks 2 5 cache1 = true ∧ isDone (final 1 6 (cacheNew id 16)).s = true ∧ isDone (final 2 5 cache1).s = true := by decide +kernel
    obtain ⟨s1, s2, k1, k2, d1, d2⟩ := hs
    obtain ⟨⟨c1, o1⟩, a1⟩ := Option.isSome_iff_exists.mp s1
    have hc1 : c1 = cache1 := by unfold cache1; rw [a1]; rfl
    subst hc1
    obtain ⟨⟨c2, o2⟩, a2⟩ := Option.isSome_iff_exists.mp s2
    obtain ⟨os1, vs1, g1, f1, r1⟩ := sharing_message 0 1 6 (Sharing.start (vs0 := fun _ => Example.encNew)) rfl a1 k1
    obtain ⟨os2, vs2, g2, f2, r2⟩ := sharing_message 1 2 5 g1 (r1 1 (by decide)) a2 k2
    exact ⟨os2, c2, vs2, g2, by rw [r2 0 (by decide), f1]; exact d1, by rw [f2]; exact d2⟩
  · intro x hx p hp
    simp only [message, List.cons_append, List.nil_append, List.mem_cons, List.mem_nil_iff, or_false] at hx
    rcases hx with rfl | rfl | rfl | rfl | rfl | rfl <;> cases hp
  · intro k
    refine ⟨List.length_map _, ?_, ?_⟩
    · rw [List.map_map, List.map_congr_left (g := id) (fun x _ => by simp), List.map_id]
    · rw [List.map_map, List.map_congr_left (g := id) (fun x _ => by simp), List.map_id]

end CacheSwapExample

end Verif.Props
