import Verif.Props.ThreadStack
import Verif.Props.LocalRuns
import Verif.Props.AnyStack
import Verif.Props.CachedStack
/-
C98: two users whose threads share a cache each.
-/
namespace Verif.Props
open Verif Verif.Spec Verif.Proof

namespace ThreadStackExample
open AnyCacheExample

/-! ### a call that misses and one that hits -/

theorem miss_path {sha : Bytes → Bytes} {env : AnyGenEnv} {h : Nat} {r : EncRequest} {id : Bytes} {ctx : EncCtx} {m : EncMaterials}
    (h1 : r.plaintextSize ≤ 100) (h2 : r.requestedAlg = 0) (h3 : hashEnc sha env.ids (cmm 3 100).partition r = .ok id)
    (h4 : env.up r = (ctx, .ok m)) (h5 : canCache m.alg = .ok true) :
    Path (anyGenerate sha vt (cmm 3 100) env r) [⟨.find id, (false, none)⟩, ⟨.putEnc id m r.plaintextSize 1 ctx, some h⟩, ⟨.release h false, ()⟩]
      (some ⟨ctx, .ok m, true⟩) := by
  unfold anyGenerate
  rw [if_neg (show ¬ r.plaintextSize > (cmm 3 100).limitBytes from Nat.not_lt.2 h1), if_pos h2]
  unfold anyGenCached
  rw [h3]
  refine Path.ask (q := .find id) (false, none) ?_
  show Path (anyMiss vt (cmm 3 100) env id r r.encCtx) _ _
  unfold anyMiss
  rw [show ({ r with encCtx := r.encCtx } : EncRequest) = r from rfl, h4]
  dsimp only
  rw [h5]
  exact Path.ask (q := .putEnc id m r.plaintextSize 1 ctx) (some h) (Path.ask (q := .release h false) () (.ret _))

theorem hit_path {sha : Bytes → Bytes} {env : AnyGenEnv} {h : Nat} {r : EncRequest} {id : Bytes} {ctx : EncCtx} {m : EncMaterials} {b : Nat}
    (h1 : r.plaintextSize ≤ 100) (h2 : r.requestedAlg = 0) (h3 : hashEnc sha env.ids (cmm 3 100).partition r = .ok id) (h4 : b ≤ 100) :
    Path (anyGenerate sha vt (cmm 3 100) env r) [⟨.find id, (false, some (h, true))⟩, ⟨.usage h r.plaintextSize 1, .ok (b, 2)⟩,
      ⟨.getEnc h r.encCtx, (ctx, .ok m)⟩, ⟨.release h false, ()⟩] (some ⟨ctx, .ok m, false⟩) := by
  unfold anyGenerate
  rw [if_neg (show ¬ r.plaintextSize > (cmm 3 100).limitBytes from Nat.not_lt.2 h1), if_pos h2]
  unfold anyGenCached
  rw [h3]
  refine Path.ask (q := .find id) (false, some (h, true)) ?_
  refine Path.ask (q := .usage h r.plaintextSize 1) (Except.ok (b, 2)) ?_
  have hn : ¬ (b > (cmm 3 100).limitBytes ∨ 2 > (cmm 3 100).limitMessages) := by
    rintro (hx | hx)
    · exact absurd h4 (Nat.not_le.2 hx)
    · exact absurd hx (by decide)
  show Path ((anyUse vt (cmm 3 100) h r (.ok (b, 2))).bind _) _ _
  unfold anyUse
  simp only [if_neg hn]
  exact Path.ask (q := .getEnc h r.encCtx) (ctx, Except.ok m) (Path.ask (q := .release h false) () (.ret _))

theorem dec_miss_path {sha : Bytes → Bytes} {env : AnyDecEnv} {r : DecRequest} {id : Bytes} {m : DecMaterials}
    (h2 : canCache r.alg = .ok true) (h3 : hashDec sha env.ids (cmm 3 100).partition r = .ok (.ok id)) (h4 : env.up r = .ok m) :
    Path (anyDecrypt sha vt (cmm 3 100) env r) [⟨.find id, (false, none)⟩, ⟨.putDec id m, some 7⟩, ⟨.release 7 false, ()⟩]
      (some ⟨.ok m, true⟩) := by
  unfold anyDecrypt
  rw [h2]
  dsimp only
  rw [h3]
  refine Path.ask (q := .find id) (false, none) ?_
  show Path (anyDecMiss vt (cmm 3 100) env id r) _ _
  unfold anyDecMiss
  rw [h4]
  exact Path.ask (q := .putDec id m) (some 7) (Path.ask (q := .release 7 false) () (.ret _))

theorem dec_hit_path {sha : Bytes → Bytes} {env : AnyDecEnv} {r : DecRequest} {id : Bytes} {m : DecMaterials}
    (h2 : canCache r.alg = .ok true) (h3 : hashDec sha env.ids (cmm 3 100).partition r = .ok (.ok id)) :
    Path (anyDecrypt sha vt (cmm 3 100) env r) [⟨.find id, (false, some (7, false))⟩, ⟨.getDec 7, .ok m⟩, ⟨.release 7 false, ()⟩]
      (some ⟨.ok m, false⟩) := by
  unfold anyDecrypt
  rw [h2]
  dsimp only
  rw [h3]
  exact Path.ask (q := .find id) (false, some (7, false)) (Path.ask (q := .getDec 7) (Except.ok m) (Path.ask (q := .release 7 false) () (.ret _)))

/-! ### the writer -/

/-- The writer's default CMM, and what it answers. -/
def upGen : EncRequest → EncCtx × Except Err EncMaterials := ((C71_world true).envWith C88_kr none).cmm.generate
def genEnv : AnyGenEnv := ⟨CmmExample.ids, none, upGen⟩
def ctx0 : EncCtx := (upGen C83_req).1
def mat0 : EncMaterials := match (upGen C83_req).2 with | .ok m => m | .error _ => mat []

theorem up_gen : upGen C83_req = (ctx0, .ok mat0) := by decide +kernel

/-- The second of two threads finds what the first has put while the first still holds its handle. -/
def hist (id : Bytes) : List (Nat × CacheEvent Nat) :=
  [(0, ⟨.find id, (false, none)⟩), (0, ⟨.putEnc id mat0 6 1 ctx0, some 7⟩), (1, ⟨.find id, (false, some (7, true))⟩),
   (1, ⟨.usage 7 6 1, .ok (12, 2)⟩), (0, ⟨.release 7 false, ()⟩), (1, ⟨.getEnc 7 C83_req.encCtx, (ctx0, .ok mat0)⟩), (1, ⟨.release 7 false, ()⟩)]

def genCalls : List AnyCall :=
  [.gen (cmm 3 100) genEnv C83_req (some ⟨ctx0, .ok mat0, true⟩), .gen (cmm 3 100) genEnv C83_req (some ⟨ctx0, .ok mat0, false⟩)]

theorem hist_keeps (id : Bytes) : CacheKeeps (hist id) ents where
  find := by
    intro i t id f h k hi
    rcases i with _ | _ | _ | _ | _ | _ | _ | i <;> simp [hist] at hi
    obtain ⟨-, rfl, -, -, rfl⟩ := hi
    exact ⟨by decide, _, rfl, rfl⟩
  put := by
    intro i t e hi he
    rcases i with _ | _ | _ | _ | _ | _ | _ | i <;> simp [hist] at hi <;> obtain ⟨-, rfl⟩ := hi <;> first | rfl | cases he
  same := by intros; rfl
  usage := by
    intro i t h b n b' n' hi _
    rcases i with _ | _ | _ | _ | _ | _ | _ | i <;> simp [hist] at hi
    obtain ⟨-, ⟨-, rfl, rfl⟩, rfl, rfl⟩ := hi
    refine ⟨by decide, by decide, rfl, rfl⟩
  enc := by
    intro i t h c c' m hi
    rcases i with _ | _ | _ | _ | _ | _ | _ | i <;> simp [hist] at hi
    obtain ⟨-, -, rfl, rfl⟩ := hi
    exact ⟨_, _, _, _, _, _, _, rfl, rfl, rfl, rfl, rfl, fun _ => rfl⟩
  dec := by
    intro i t h m hi
    rcases i with _ | _ | _ | _ | _ | _ | _ | i <;> simp [hist] at hi
  creation := by
    intro i t h m hi
    rcases i with _ | _ | _ | _ | _ | _ | _ | i <;> simp [hist] at hi
  born := by intro e; exact (by decide : 0 < 2 ^ 64)

theorem hist_sigs (W : World → Prop) (id : Bytes) : KeepsSignatures W (hist id) ents where
  maps := by
    intro i t h c c' r hi _
    rcases i with _ | _ | _ | _ | _ | _ | _ | i <;> simp [hist] at hi
    obtain ⟨-, -, rfl, -⟩ := hi
    unfold DistinctKeys
    decide +kernel
  signer := by
    intro i t h c c' m u id0 m0 b n c0 o hi hput
    rcases i with _ | _ | _ | _ | _ | _ | _ | i <;> simp [hist] at hi
    obtain ⟨-, -, rfl, rfl⟩ := hi
    simp [hist, ents] at hput
    obtain ⟨-, ⟨-, rfl, -⟩, -⟩ := hput
    exact .inl rfl
  verifier := by
    intro i t h m u id0 m0 o hi
    rcases i with _ | _ | _ | _ | _ | _ | _ | i <;> simp [hist] at hi

theorem gen_shared : ∃ id, SharedCache CmmExample.tsha vt (C88_user true C88_kr) none genCalls (hist id) := by
  have hid : ∃ id, hashEnc CmmExample.tsha genEnv.ids (cmm 3 100).partition C83_req = .ok id := by
    obtain ⟨b, hb⟩ := idCtxBytes_fits (ctx := C83_req.encCtx) (by decide +kernel)
    unfold hashEnc
    rw [hb]
    exact ⟨_, rfl⟩
  obtain ⟨id, hid⟩ := hid
  refine ⟨id, ⟨by simp [hist, genCalls], ?_⟩, ?_, ents, keepsAt_mono (hist_keeps id) (fun _ h => h.elim), hist_sigs _ id⟩
  · intro t call h
    rcases t with _ | _ | t
    · cases h
      exact miss_path (by decide) rfl hid up_gen (by decide +kernel)
    · cases h
      exact hit_path (by decide) rfl hid (by decide)
    · simp [genCalls] at h
  · intro call h
    have : ∀ o, CallAt (C88_user true C88_kr) none (.gen (cmm 3 100) genEnv C83_req o) :=
      fun o => ⟨by unfold DistinctKeys; decide, _, rfl, rfl⟩
    simp only [genCalls, List.mem_cons, List.not_mem_nil, or_false] at h
    rcases h with rfl | rfl
    · exact this _
    · exact this _

/-- The second thread's session: its caching CMM gives what the cache gave. -/
def writerEnv : Env :=
  { (C71_world true).envWith C88_kr none with
    cmm := ⟨fun r => if r = C83_req then (ctx0, .ok mat0) else (r.encCtx, .error .unknown), fun _ => .error .unknown⟩ }

theorem writer_good : ThreadWriters CmmExample.tsha (C88_user true C88_kr) none writerEnv := by
  refine ⟨⟨_, rfl, rfl, rfl⟩, fun r ctx m hd h => .inr ?_⟩
  change (if r = C83_req then (ctx0, Except.ok mat0) else (r.encCtx, Except.error Err.unknown)) = (ctx, .ok m) at h
  split at h
  · next hr =>
    subst hr
    cases h
    obtain ⟨id, hS⟩ := gen_shared
    exact ⟨Nat, vt, genCalls, hist id, 1, _, _, _, hS, rfl, rfl, rfl⟩
  · cases h

/-- The message of the second thread, in two slices. -/
def writes : List (Env × Op) :=
  [(writerEnv, .setFrameSize 4), (writerEnv, .editCtx (fun _ => [([1], [2])]) (by simp [KeepsTable, DistinctKeys])),
   (writerEnv, .setMessageSize 6), (writerEnv, .process (Example.zeros 600) (some [1, 2, 3, 4, 5])),
   (writerEnv, .process (Example.zeros 300) (some [5, 6]))]

def written : View := run Example.encNew writes

theorem written_reach : Reach (ThreadWriters CmmExample.tsha (C88_user true C88_kr) none) .requireRequire written := by
  refine Example.reach_hist (E := ThreadWriters CmmExample.tsha (C88_user true C88_kr) none) (v := Example.encNew) (.new (mode := .encrypt) rfl) writes ?_
  have h : ∀ x ∈ writes, x.1 = writerEnv := by simp [writes]
  intro x hx
  rw [h x hx]
  exact writer_good

/-! ### the reader -/

/-- What the reader's sessions ask for when they read the message. -/
def rreq : DecRequest := ⟨written.s.header.sorted.encCtx, written.s.header.edks, written.s.header.algId⟩

def upDec : DecRequest → Except Err DecMaterials := ((C71_world false).envWith C88_kr none).cmm.decrypt
def decEnv : AnyDecEnv := ⟨CmmExample.ids, none, upDec⟩
def dmat0 : DecMaterials := match upDec rreq with | .ok m => m | .error _ => dmat []

theorem up_dec : upDec rreq = .ok dmat0 := by decide +kernel

attribute [local irreducible] rreq dmat0 written

def dhist (id : Bytes) : List (Nat × CacheEvent Nat) :=
  [(0, ⟨.find id, (false, none)⟩), (0, ⟨.putDec id dmat0, some 7⟩), (1, ⟨.find id, (false, some (7, false))⟩), (0, ⟨.release 7 false, ()⟩),
   (1, ⟨.getDec 7, .ok dmat0⟩), (1, ⟨.release 7 false, ()⟩)]

def decCalls : List AnyCall :=
  [.dec (cmm 3 100) decEnv rreq (some ⟨.ok dmat0, true⟩), .dec (cmm 3 100) decEnv rreq (some ⟨.ok dmat0, false⟩)]

theorem dhist_keeps (id : Bytes) : CacheKeeps (dhist id) ents where
  find := by
    intro i t id f h k hi
    rcases i with _ | _ | _ | _ | _ | _ | i <;> simp [dhist] at hi
    obtain ⟨-, rfl, -, -, rfl⟩ := hi
    exact ⟨by decide, _, rfl, rfl⟩
  put := by
    intro i t e hi he
    rcases i with _ | _ | _ | _ | _ | _ | i <;> simp [dhist] at hi <;> obtain ⟨-, rfl⟩ := hi <;> first | rfl | cases he
  same := by intros; rfl
  usage := by
    intro i t h b n b' n' hi _
    rcases i with _ | _ | _ | _ | _ | _ | i <;> simp [dhist] at hi
  enc := by
    intro i t h c c' m hi
    rcases i with _ | _ | _ | _ | _ | _ | i <;> simp [dhist] at hi
  dec := by
    intro i t h m hi
    rcases i with _ | _ | _ | _ | _ | _ | i <;> simp [dhist] at hi
    obtain ⟨-, -, rfl⟩ := hi
    exact ⟨_, _, _, _, rfl, rfl, rfl, rfl⟩
  creation := by
    intro i t h m hi
    rcases i with _ | _ | _ | _ | _ | _ | i <;> simp [dhist] at hi
  born := by intro e; exact (by decide : 0 < 2 ^ 64)

theorem dhist_sigs (W : World → Prop) (id : Bytes) : KeepsSignatures W (dhist id) ents where
  maps := by
    intro i t h c c' r hi _
    rcases i with _ | _ | _ | _ | _ | _ | i <;> simp [dhist] at hi
  signer := by
    intro i t h c c' m u id0 m0 b n c0 o hi
    rcases i with _ | _ | _ | _ | _ | _ | i <;> simp [dhist] at hi
  verifier := by
    intro i t h m u id0 m0 o hi hput
    rcases i with _ | _ | _ | _ | _ | _ | i <;> simp [dhist] at hi
    obtain ⟨-, -, rfl⟩ := hi
    simp [dhist, ents] at hput
    obtain ⟨-, ⟨-, rfl⟩, -⟩ := hput
    exact .inl rfl

theorem dec_shared : ∃ id, SharedCache CmmExample.tsha vt (C88_user false C88_kr) none decCalls (dhist id) := by
  have hid : ∃ id, hashDec CmmExample.tsha decEnv.ids (cmm 3 100).partition rreq = .ok (.ok id) := by
    obtain ⟨b, hb⟩ := idCtxBytes_fits (ctx := rreq.encCtx) (by decide +kernel)
    have he : ∀ e ∈ rreq.edks, e.providerId.length ≤ 65535 ∧ e.providerInfo.length ≤ 65535 ∧ e.ciphertext.length ≤ 65535 := by decide +kernel
    unfold hashDec
    rw [hb]
    simp only [show decEnv.ids = CmmExample.ids from rfl, CmmExample.ids, hashEdks_fit he]
    exact ⟨_, rfl⟩
  obtain ⟨id, hid⟩ := hid
  refine ⟨id, ⟨by simp [dhist, decCalls], ?_⟩, ?_, ents, keepsAt_mono (dhist_keeps id) (fun _ h => h.elim), dhist_sigs _ id⟩
  · intro t call h
    rcases t with _ | _ | t
    · cases h
      exact dec_miss_path (by decide +kernel) hid up_dec
    · cases h
      exact dec_hit_path (by decide +kernel) hid
    · simp [decCalls] at h
  · intro call h
    have : ∀ o, CallAt (C88_user false C88_kr) none (.dec (cmm 3 100) decEnv rreq o) :=
      fun o => ⟨⟨by decide, by decide, by decide⟩, by decide +kernel, by unfold DistinctKeys; decide +kernel, _, rfl, rfl⟩
    simp only [decCalls, List.mem_cons, List.not_mem_nil, or_false] at h
    rcases h with rfl | rfl
    · exact this _
    · exact this _

/-- The strings digested for a request with two entries in its context and one encrypted data key. -/
def strings (sha : Bytes → Bytes) (p : Bytes) (r : DecRequest) : List Bytes :=
  let cs := [wireCtx r.encCtx, wireCtx r.encCtx.reverse]
  let d := r.edks.map (fun e => sha (wireEdk e))
  cs ++ r.edks.map wireEdk ++ cs.map (fun y => p ++ u16 r.alg ++ d.flatten ++ List.replicate 64 0 ++ sha y)

theorem strings_all {sha : Bytes → Bytes} {p : Bytes} {r : DecRequest} (h1 : r.encCtx.length = 2) (h2 : r.edks.length = 1) {x : Bytes}
    (h : DecStrings sha p r x) : x ∈ strings sha p r := by
  have hc : ∀ {y}, CtxString r.encCtx y → y = wireCtx r.encCtx ∨ y = wireCtx r.encCtx.reverse := by
    rintro y ⟨s, hs, rfl⟩
    rcases perm_two hs h1 with rfl | rfl
    · exact .inl rfl
    · exact .inr rfl
  obtain ⟨e0, he0⟩ := List.length_eq_one_iff.1 h2
  unfold strings
  simp only [List.mem_append]
  rcases h with h | ⟨e, he, rfl⟩ | ⟨y, ds, hy, hd, rfl⟩
  · rcases hc h with rfl | rfl <;> simp
  · exact .inl (.inr (List.mem_map_of_mem he))
  · right
    simp only [he0, List.map_cons (l := []), List.map_nil] at hd ⊢
    rw [List.perm_singleton.1 hd]
    rcases hc hy with rfl | rfl <;> simp

theorem no_collision : ¬ Collides CmmExample.tsha (DecStrings CmmExample.tsha (cmm 3 100).partition rreq)
    (DecStrings CmmExample.tsha (cmm 3 100).partition rreq) := by
  rintro ⟨x, y, hx, hy, hne, heq⟩
  have h1 : rreq.encCtx.length = 2 := by decide +kernel
  have h2 : rreq.edks.length = 1 := by decide +kernel
  have key : ∀ x ∈ strings CmmExample.tsha (cmm 3 100).partition rreq, ∀ y ∈ strings CmmExample.tsha (cmm 3 100).partition rreq,
      CmmExample.tsha x = CmmExample.tsha y → x = y := by decide +kernel
  exact hne (key x (strings_all h1 h2 hx) y (strings_all h1 h2 hy) heq)

/-- The second thread's session. -/
def readerEnv : Env :=
  { (C71_world false).envWith C88_kr none with cmm := ⟨fun r => (r.encCtx, .error .unknown), fun r => if r = rreq then .ok dmat0 else upDec r⟩ }

theorem reader_good : SteadyThreadReaders CmmExample.tsha (messageRequest written) (C88_user false C88_kr) none readerEnv := by
  refine ⟨⟨_, rfl, rfl, rfl⟩, fun r _ => ?_⟩
  by_cases hr : r = rreq
  · right
    subst hr
    obtain ⟨id, hS⟩ := dec_shared
    refine ⟨Nat, vt, decCalls, dhist id, 1, cmm 3 100, decEnv, ⟨.ok dmat0, false⟩, hS, rfl, ?_, ⟨rfl, rfl, rfl⟩, ?_⟩
    · exact (if_pos rfl).symm
    · intro cmm' env' r' o h
      simp only [decCalls, List.mem_cons, List.not_mem_nil, or_false] at h
      rcases h with h | h <;> cases h <;> exact no_collision
  · exact .inl ⟨_, rfl, if_neg hr⟩

theorem kr_finds : AlwaysFindsAnyOrder (C88_user true C88_kr) (C88_user false C88_kr) := by
  intro ctx ctx' alg key edks edks' m hd h hp he hm
  obtain ⟨-, rfl, -⟩ := C88_gave h
  rw [List.perm_singleton.1 he.symm]
  exact C88_finds ctx ctx' alg key _ m hd h hp hm

theorem kr_notMistaken : NeverMistakenAnyOrder (C88_user true C88_kr) (C88_user false C88_kr) := by
  intro ctx ctx' alg key edks edks' m s k hd h hp he hm hx hk
  obtain ⟨-, rfl, -⟩ := C88_gave h
  rw [List.perm_singleton.1 he.symm] at hx
  exact C88_notMistaken ctx ctx' alg key _ m s k hd h hp hm hx hk

theorem kr_blind : NeverFindsAnyOrder (C88_user true C88_kr) (C88_user false C88_blind) := by
  rintro ctx ctx' alg key edks edks' _ s hd h hp - rfl hx
  simp [keyringOnDecrypt, C88_blind] at hx
  rw [← hx]

end ThreadStackExample

open ThreadStackExample in
/-- With `C88_good`, `C88_ciphers`, `kr_finds`, `kr_notMistaken` and `kr_blind`, all hypotheses of the theorems hold for these users: the writer's
second session writes six bytes with a key from the cache under the signing suite `0x0578`, and the reader's second session reads them. -/
example : (∀ x, (CmmExample.tsha x).length = 64) ∧ (∀ w, worlds (C88_user false C88_kr) w → Sound w) ∧
    Reach (ThreadWriters CmmExample.tsha (C88_user true C88_kr) none) .requireRequire written ∧ written.s.mode = .encrypt ∧
    isDone written.s = true ∧ written.consumed = [1, 2, 3, 4, 5, 6] ∧ written.s.header.algId = 0x0578 ∧
    ReadyToRead written.s.header.algId written.s.header.edks.length (Example.decNew .decrypt) ∧
    SteadyThreadReaders CmmExample.tsha (messageRequest written) (C88_user false C88_kr) none readerEnv ∧
    (apply readerEnv (Example.decNew .decrypt) (.process (Example.zeros 6) (some written.released))).1.released = [1, 2, 3, 4, 5, 6] := by
  have hid : written.s.header.algId = 0x0578 := by decide +kernel
  refine ⟨fun x => by unfold CmmExample.tsha; rw [length_be], ?_, written_reach, by decide +kernel, by decide +kernel, by decide +kernel, hid,
    ⟨by decide +kernel, by decide +kernel, ?_, by decide +kernel, Or.inl (by decide +kernel)⟩, reader_good, by decide +kernel⟩
  · rintro _ ⟨_, rfl, rfl⟩; exact ⟨fun _ => rfl, fun _ _ => rfl, fun _ => rfl, rfl⟩
  · rw [hid]
    have hp : (Example.decNew .decrypt).s.policy = .requireRequire := by decide +kernel
    rw [hp]
    simp [suiteTable, MayDecrypt]

/-! ### the local cache -/

namespace ThreadStackExample
open AnyCacheExample LocalRunsExample

def penv : PutEnv := ⟨some 10, true, some 10, true, storeSigner (C71_world true).ec⟩
def genv : GetEnv := ⟨true, none, resumeSigner (C71_world true).ec⟩

def y0 : LocalEvent := ⟨0, .find (some 10) cid, ⟨.find cid, (false, none)⟩⟩
def y1 : LocalEvent := ⟨0, .putEnc penv cid mat0 6 1 ctx0, ⟨.putEnc cid mat0 6 1 ctx0, some 0⟩⟩
def y2 : LocalEvent := ⟨1, .find (some 11) cid, ⟨.find cid, (false, some (0, true))⟩⟩
def y3 : LocalEvent := ⟨0, .release 0 false, ⟨.release 0 false, ()⟩⟩
def y4 : LocalEvent := ⟨1, .use 0 6 1, ⟨.usage 0 6 1, .ok (12, 2)⟩⟩
def y5 : LocalEvent := ⟨1, .getEnc genv 0 C83_req.encCtx, ⟨.getEnc 0 C83_req.encCtx, (ctx0, .ok mat0)⟩⟩
def y6 : LocalEvent := ⟨1, .release 0 false, ⟨.release 0 false, ()⟩⟩

def log8 : List LocalEvent := [y0, y1, y2, y3, y4, y5, y6]

theorem dig_id : hashEnc dig genEnv.ids (cmm 3 100).partition C83_req = .ok cid := by
  obtain ⟨b, hb⟩ := idCtxBytes_fits (ctx := C83_req.encCtx) (by decide +kernel)
  unfold hashEnc
  rw [hb]
  rfl

theorem history8 : History dig localVt genCalls (asHistory log8) where
  made := by simp [log8, y0, y1, y2, y3, y4, y5, y6, asHistory, genCalls]
  does := by
    intro t call h
    rcases t with _ | _ | t
    · cases h
      exact miss_path (by decide) rfl dig_id up_gen (by decide +kernel)
    · cases h
      exact hit_path (by decide) rfl dig_id (by decide)
    · simp [genCalls] at h

deriving instance DecidableEq for CacheResult

/-- The state after a step, and its result. -/
def nx (s : Conc) (t : Nat) (mv : Move) : Conc := match s.step t mv with | some (.ok (s', _)) => s' | _ => s
def rs (s : Conc) (t : Nat) (mv : Move) : Option (Option CacheResult) := match s.step t mv with | some (.ok (_, r)) => some r | _ => none

theorem nx_ok {s : Conc} {t : Nat} {mv : Move} {r : Option CacheResult} (h : rs s t mv = some r) : s.step t mv = some (.ok (nx s t mv, r)) := by
  unfold nx
  unfold rs at h
  split at h
  · next he => cases h; rw [he]
  · cases h

theorem found_ev {c : Cache} {cl : Option Nat} {id : Bytes} {n : Nat} (h : (c.mem n).map (·.isEncrypt) = some true) :
    recordOf c (.find cl id) (.handle (some n)) = some ⟨.find id, (false, some (n, true))⟩ := by
  obtain ⟨e, he, hb⟩ := Option.map_eq_some_iff.1 h
  simp [recordOf, he, hb]

theorem runs8 : ∃ asked s, LocalRuns dig genCalls id 2 2 log8 asked s := by
  have f : ∀ x ∈ log8, OpFits x.op := by
    have hd : DistinctKeys ctx0 ∧ DistinctKeys C83_req.encCtx := by unfold DistinctKeys; decide +kernel
    intro x hx
    simp only [log8, List.mem_cons, List.not_mem_nil, or_false] at hx
    rcases hx with rfl | rfl | rfl | rfl | rfl | rfl | rfl <;>
      exact ⟨by intro _ h; cases h <;> decide, by intro _ _ _ _ _ _ h; cases h <;> exact hd.1, by intro _ _ _ h; cases h <;> exact hd.2⟩
  have a0 := asks_of (log := []) (rest := [y1, y2, y3, y4, y5, y6]) history8 (f y0 (by simp [log8])) rfl
  have a1 := asks_of (log := [y0]) (rest := [y2, y3, y4, y5, y6]) history8 (f y1 (by simp [log8])) rfl
  have a2 := asks_of (log := [y0, y1]) (rest := [y3, y4, y5, y6]) history8 (f y2 (by simp [log8])) rfl
  have a3 := asks_of (log := [y0, y1, y2]) (rest := [y4, y5, y6]) history8 (f y3 (by simp [log8])) rfl
  have a4 : Asks dig genCalls [y0, y1, y2] y4.t y4.op := asks_of (log := [y0, y1, y2, y3]) (rest := [y5, y6]) history8 (f y4 (by simp [log8])) rfl
  have a5 := asks_of (log := [y0, y1, y2, y3, y4]) (rest := [y6]) history8 (f y5 (by simp [log8])) rfl
  have a6 := asks_of (log := [y0, y1, y2, y3, y4, y5]) (rest := []) history8 (f y6 (by simp [log8])) rfl
  have r0 := LocalRuns.returns (ev := y0.ev) (LocalRuns.new (addr := id) (cap := 2) (num := 2)) a0 (nx_ok (r := some (.handle none)) (by decide +kernel)) rfl
  have r1 := LocalRuns.returns (ev := y1.ev) r0 a1 (nx_ok (r := some (.handle (some 0))) (by decide +kernel)) rfl
  have r2 := LocalRuns.returns (ev := y2.ev) r1 a2 (nx_ok (r := some (.handle (some 0))) (by decide +kernel)) (found_ev (by decide +kernel))
  have r3 := LocalRuns.begins r2 a3 (nx_ok (by decide +kernel))
  have r4 := LocalRuns.begins r3 a4 (nx_ok (by decide +kernel))
  have r5 := LocalRuns.goes (t := 1) r4 (nx_ok (by decide +kernel))
  have r6 := LocalRuns.ends (t := 0) (ev := y3.ev) r5 rfl (nx_ok (r := some .done) (by decide +kernel)) rfl
  have r7 := LocalRuns.ends (t := 1) (ev := y4.ev) r6 rfl (nx_ok (r := some (.usage (.ok (12, 2)))) (by decide +kernel)) rfl
  have r8 := LocalRuns.returns (ev := y5.ev) r7 a5 (nx_ok (r := some (.encMaterials ctx0 (.ok mat0))) (by decide +kernel)) rfl
  have r9 := LocalRuns.begins r8 a6 (nx_ok (by decide +kernel))
  have r10 := LocalRuns.ends (t := 1) (ev := y6.ev) r9 rfl (nx_ok (r := some .done) (by decide +kernel)) rfl
  exact ⟨_, _, r10⟩

end ThreadStackExample

open ThreadStackExample AnyCacheExample in
/-- The same two calls over the library's cache, which stores the private key of the signer and begins a signature with it again. -/
example : SharedCache dig localVt (C88_user true C88_kr) none genCalls (asHistory log8) ∧ mat0.signctx.isSome = true := by
  obtain ⟨asked, s, hr⟩ := runs8
  refine ⟨C98_local_cache hr history8 ?_ ?_, by decide +kernel⟩
  · obtain ⟨_, hS⟩ := gen_shared
    exact hS.calls
  · have hw : worlds (C88_user true C88_kr) (C71_world true) := ⟨_, rfl, rfl⟩
    intro x hx
    simp only [log8, List.mem_cons, List.not_mem_nil, or_false] at hx
    rcases hx with rfl | rfl | rfl | rfl | rfl | rfl | rfl
    · trivial
    · exact ⟨_, hw, rfl⟩
    · trivial
    · trivial
    · trivial
    · exact ⟨⟨_, hw, rfl⟩, fun _ h => by cases h⟩
    · trivial

end Verif.Props
