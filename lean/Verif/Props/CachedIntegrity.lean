import Verif.Spec.CachedIntegrity
import Verif.Proof.CachedStack
import Verif.Proof.ThreadStack
import Verif.Proof.StackWrites
import Verif.Props.WrapIntegrity
import Verif.Props.CachedStack
/-
C104: what is read through caches is authentic too.
-/
namespace Verif.Props
open Verif Verif.Spec Verif.Proof

theorem default_alg {env : CmmEnv} {kr : Keyring} {da : Option Nat} {req : DecRequest} {m : DecMaterials}
    (h : (DefaultCmm.toCmm env ⟨kr, da⟩).decrypt req = .ok m) : m.alg = req.alg := by
  have h : (DefaultCmm.decrypt env ⟨kr, da⟩ req).toExcept = .ok m := h
  have h' : DefaultCmm.decrypt env ⟨kr, da⟩ req = .ok m := by
    revert h
    generalize DefaultCmm.decrypt env ⟨kr, da⟩ req = r
    intro h
    cases r <;> simp_all [CRes.toExcept]
  have hmat : env.allocMat = true := by
    cases hb : env.allocMat with
    | true => rfl
    | false => rw [DefaultCmm.decrypt] at h'; simp [hb] at h'
  obtain ⟨_, _, _, -, -, -, -, h, -⟩ := (C51_decrypt _ _ _ m hmat).mp h'
  exact h

/-- A verifier that was begun with a public key, stored and begun anew is the same verifier. -/
theorem resumed_same {W : World → Prop} (hS : StablePoints W) {w : World} (hw : W w) {alg : Nat} {pub : Bytes} {sc : SigCtx}
    (h : verifyStartOf w.ec alg pub = .ok sc) {y : Option SigCtx} (hr : Resumed storeVerifier verifyStartOf W alg (some sc) y) : y = some sc := by
  rcases hr with h | ⟨wp, wg, sc0, s, sc', hwp, hwg, hx, h1, h2, rfl⟩
  · exact h
  · cases hx
    have h0 := h
    unfold verifyStartOf at h
    cases hp : algProps alg with
    | none => rw [hp] at h; cases h
    | some p =>
      rw [hp] at h
      simp only at h
      cases hv : sigVerifyStart w.ec pub p (fun _ => 0) with
      | mk r l =>
        rw [hv] at h
        cases r with
        | error e => cases h
        | ok o =>
          cases o with
          | none => cases h
          | some v =>
            cases h
            obtain ⟨cv, bin, q, a1, -, a3, a4⟩ := C69_verify_start w.ec pub p _ l v hv
            have hid := (suiteFacts hp).id
            have hview : v.view = ⟨⟨alg, none, some q⟩, []⟩ := by
              unfold SigC.view
              rw [a4.props, a4.keypair, a4.md, hid]
              rfl
            rw [hview] at h1 ⊢
            rw [hid] at a1
            rw [resumed_verifier (hS.same wp wg hwp hwg) hp hid a1 (codec_same (hS.same w wp hw hwp) (hS.codec w cv bin q hw a3)) h1 h2]

/-- **C104** (context): sessions whose CMM answers from the default CMM, now or earlier.  If the default CMM binds contexts, the context that a
decrypting session shows is, from the first byte consumed on, the context of a message of the writers. -/
theorem C104_context (E : Env → Prop) (Mo : Moment → Prop) (da : Option Nat) (pol : Policy) (v : View) (h : Reach E pol v)
    (hm : v.s.mode.isDecrypt = true) (hne : v.s.state ≠ .error) (hc : v.consumed ≠ []) (hA : AnswersFrom E Mo da (messageRequest v))
    (M : View → WrittenMessage → Prop) (hB : BindsContext (SessionsAt Mo da) M) :
    ∃ w b ctx, M w b ∧ getEncCtx v.s = some ctx ∧ b.hd.encCtx.Perm ctx := by
  rcases decrypted_of h.hinv hm with ⟨h1, -⟩ | ⟨row, hd, m, k, fr, tr, h1, hfacts, -⟩
  · exact absurd h1 hc
  obtain ⟨q1, q2, -⟩ := hfacts.shown hne
  obtain ⟨e0, he0, hv⟩ := h1.header
  have hcmm : e0.cmm.decrypt (messageRequest v) = .ok m := by unfold messageRequest; rw [q1]; exact hv.cmm
  have hr : (messageRequest v).encCtx = hd.encCtx := by unfold messageRequest; rw [q1]
  obtain ⟨mo, r0, m0, hmo, hd0, -, hp, -⟩ := hA e0 he0 m hcmm
  rw [hr] at hp
  obtain ⟨w, b, hb, hbp, -⟩ := hB _ ⟨mo, hmo, rfl⟩ r0 m0 ((hp.map _).nodup_iff.mp hv.ok.ctxKeys) (by rw [← wireLen_perm hp]; exact hv.ok.ctxFits) hd0
  refine ⟨w, b, hd.encCtx, hb, ?_, hbp.trans hp.symm⟩
  unfold getEncCtx
  rw [if_neg (by simp [q2]), q1]

/-- **C104**: if moreover every writer has a public key of its own in the context, and nobody else signed under the private keys, then what a
session has read when it is done is what one of the writers wrote, though others have the data keys. -/
theorem C104_written (E : Env → Prop) (Mo : Moment → Prop) (da : Option Nat) (pol : Policy) (v : View) (h : Reach E pol v)
    (hm : v.s.mode.isDecrypt = true) (hdone : isDone v.s = true) (hA : AnswersFrom E Mo da (messageRequest v))
    (hS : StablePoints (worlds Mo)) (We : Env → Prop) (M : View → WrittenMessage → Prop) (hM : WrittenIn We M) (hR : AllReadable M)
    (hB : BindsContext (SessionsAt Mo da) M) (hK : OwnKeys (worlds Mo) E M) :
    ∃ w a, M w a ∧ (∃ sig, v.consumed = a.signedBytes ++ wireTrailer sig) ∧ (∃ sig, w.released = a.signedBytes ++ wireTrailer sig) ∧
      getAlgId v.s = .ok a.hd.algId ∧ getEncCtx v.s = some a.hd.encCtx ∧ (SameCiphers We E → v.released = w.consumed) := by
  have hst : v.s.state = .done := by simpa [isDone] using hdone
  have hne : v.s.state ≠ .error := by rw [hst]; simp
  have hfirst : ∃ row ∈ suiteTable, getAlgId v.s = .ok row.id ∧ v.s.header.algId = row.id ∧ DistinctKeys v.s.header.encCtx ∧
      wireLen v.s.header.encCtx ≤ 65535 ∧ ∃ e m, E e ∧ e.cmm.decrypt (messageRequest v) = .ok m := by
    rcases decrypted_of h.hinv hm with ⟨-, -, h3⟩ | ⟨row', hd, m, k, fr, tr, h1, hfacts, -⟩
    · rw [hst] at h3; simp at h3
    obtain ⟨q1, q2, p, q3, q4⟩ := hfacts.shown hne
    obtain ⟨e0, he0, hv⟩ := h1.header
    refine ⟨row', hv.ok.suite, ?_, by rw [q1]; exact hv.ok.id, by rw [q1]; exact hv.ok.ctxKeys, by rw [q1]; exact hv.ok.ctxFits, e0, m, he0, ?_⟩
    · unfold getAlgId
      rw [q3]
      simp only [(suiteFacts q4).id]
    · unfold messageRequest; rw [q1]; exact hv.cmm
  obtain ⟨row, hrow, hid, hhid, hdist, hlen, e0, m1, he0, hcmm⟩ := hfirst
  -- what an answer to the request of the session is
  have key : ∀ e m, E e → e.cmm.decrypt (messageRequest v) = .ok m → ∃ w b pub, M w b ∧ b.hd.encCtx.Perm v.s.header.encCtx ∧
      m.dataKey = b.m.dataKey ∧ b.hd.encCtx.lookup publicKeyName = some pub ∧ row.curveBits ≠ 0 ∧
      ∃ sc wd, worlds Mo wd ∧ verifyStartOf wd.ec row.id pub = .ok sc ∧ m.signctx = some sc := by
    intro e m he hdec
    obtain ⟨mo, r0, m0, hmo, hd0, halg, hp, -, -, hkey, hres⟩ := hA e he m hdec
    have hp : v.s.header.encCtx.Perm r0.encCtx := hp
    have hdist0 : DistinctKeys r0.encCtx := (hp.map _).nodup_iff.mp hdist
    obtain ⟨w, b, hb, hbp, hbk⟩ := hB _ ⟨mo, hmo, rfl⟩ r0 m0 hdist0 (by rw [← wireLen_perm hp]; exact hlen) hd0
    obtain ⟨pub, hpub, -⟩ := hK.signed w b hb
    have hl0 : r0.encCtx.lookup publicKeyName = some pub := by rw [← lookup_perm (hR w b hb).ctxKeys hbp]; exact hpub
    obtain ⟨row2, g1, g2, g3⟩ := default_decrypts (vs := verifyStartOf mo.world.ec) ⟨mo.world.cmmEnv, mo.kr, da, rfl, rfl⟩ hd0
    have hr0 : r0.alg = row.id := halg.trans hhid
    have : row2 = row := row_unique' g1 hrow (by rw [g2, hr0])
    subst this
    rcases g3 with ⟨-, g5, -⟩ | ⟨g4, pub', sc, g5, g6, g7⟩
    · rw [hl0] at g5; cases g5
    · rw [hl0] at g5; cases g5
      have hma : m0.alg = row2.id := (default_alg hd0).trans hr0
      rw [hr0] at g6
      rw [g7, hma] at hres
      exact ⟨w, b, pub, hb, hbp.trans hp.symm, hkey.trans hbk, hpub, g4, sc, mo.world, ⟨mo, hmo, rfl⟩, g6, resumed_same hS ⟨mo, hmo, rfl⟩ g6 hres⟩
  obtain ⟨_, _, _, -, -, -, -, hsig, -⟩ := key e0 m1 he0 hcmm
  obtain ⟨w, a, e, m, ha, he, hctx, hdec, hread⟩ := signed_request E We pol v h hm hdone row hrow hid hsig M hM (fun e m sc he hd hsc => by
    obtain ⟨w, b, pub, hb, hbp, -, hpub, -, sc', wd, hwd, hvs, hsc'⟩ := key e m he hd
    rw [hsc] at hsc'; cases hsc'
    obtain ⟨pub', hpub', hun⟩ := hK.signed w b hb
    rw [hpub] at hpub'; cases hpub'
    exact hun wd row.id sc hwd hvs)
  obtain ⟨g1, g2⟩ := hread.shown (hR w a ha)
  obtain ⟨w1, b1, pub, hb1, hp1, hk1, -⟩ := key e m he hdec
  have hac : v.s.header.encCtx = a.hd.encCtx := by rw [hctx] at g2; exact Option.some.inj g2
  have hlk : b1.hd.encCtx.lookup publicKeyName = a.hd.encCtx.lookup publicKeyName := by
    rw [lookup_perm (hR w1 b1 hb1).ctxKeys hp1, hac]
  obtain ⟨rfl, rfl⟩ := hK.own _ _ _ _ hb1 ha hlk
  exact ⟨w1, b1, hb1, hread.read, hread.wrote, g1, g2, fun hS => hread.text (hR _ _ hb1) hS hk1⟩

/-- Caching CMMs, over a cache of any kind shared by threads, answer from the default CMM. -/
theorem C104_threads_answer {sha : Bytes → Bytes} (hsha : ∀ x, (sha x).length = 64) (Mo : Moment → Prop) (da : Option Nat) (r : DecRequest) :
    AnswersFrom (ThreadReaders sha r Mo da) Mo da r :=
  fun _ he _ hd => thread_decrypt hsha ⟨.refl _, rfl, rfl⟩ he hd

/-- Caching CMMs over a local cache answer from the default CMM. -/
theorem C104_caches_answer {sha : Bytes → Bytes} (hsha : ∀ x, (sha x).length = 64) (W : World → Prop) (kr : UserKr) (da : Option Nat)
    (r : DecRequest) (hd : DistinctKeys r.encCtx) (ha : r.alg < 65536) : AnswersFrom (Readers sha r W kr da) (rawMoments W kr) da r := by
  intro e he m hdec
  obtain ⟨w0, r0, m0, hw, h1, h2, h3, h4, h5, h6, h7⟩ := readers_decrypt hsha ⟨.refl _, rfl, rfl⟩ he hd ha hdec
  refine ⟨⟨w0, kr.keyring w0⟩, r0, m0, ⟨w0, hw, rfl⟩, h1, h2, h3, h4, h5, h6, ?_⟩
  rcases h7 with h7 | ⟨wp, wg, x, s, x', g1, g2, g3⟩
  · exact .inl h7
  · exact .inr ⟨wp, wg, x, s, x', ⟨⟨wp, kr.keyring wp⟩, ⟨wp, g1, rfl⟩, rfl⟩, ⟨⟨wg, kr.keyring wg⟩, ⟨wg, g2, rfl⟩, rfl⟩, g3⟩

/-- **C104** (threads, trees of keyrings): sessions in any number of threads over caching CMMs that share a materials cache of any kind that
keeps its promises, with a tree of AES keyrings and KMS keyrings that name their keys. -/
theorem C104_threads {sha : Bytes → Bytes} (hsha : ∀ x, (sha x).length = 64) (A : Around → Prop) (t : KrTree) (da : Option Nat) (pol : Policy)
    (v : View) (h : Reach (ThreadReaders sha (messageRequest v) (At A t) da) pol v) (hm : v.s.mode.isDecrypt = true)
    (hdone : isDone v.s = true) (hS : StablePoints (worlds (At A t))) (We : Env → Prop) (M : View → WrittenMessage → Prop)
    (hM : WrittenIn We M) (hR : AllReadable M) (hW : ∀ y ∈ leaves [] t, LeafIntact A M y.1 y.2)
    (hK : OwnKeys (worlds (At A t)) (ThreadReaders sha (messageRequest v) (At A t) da) M) :
    ∃ w a, M w a ∧ (∃ sig, v.consumed = a.signedBytes ++ wireTrailer sig) ∧ (∃ sig, w.released = a.signedBytes ++ wireTrailer sig) ∧
      getAlgId v.s = .ok a.hd.algId ∧ getEncCtx v.s = some a.hd.encCtx ∧
      (SameCiphers We (ThreadReaders sha (messageRequest v) (At A t) da) → v.released = w.consumed) :=
  C104_written _ _ da pol v h hm hdone (C104_threads_answer hsha _ da _) hS We M hM hR (C103_tree_materials A t da M hW hR) hK

/-- **C104** (local cache): sessions with or without a caching CMM over a local cache with any history, with raw AES keyrings. -/
theorem C104_cached {sha : Bytes → Bytes} (hsha : ∀ x, (sha x).length = 64) (W : World → Prop) (kr : UserKr) (da : Option Nat) (pol : Policy)
    (v : View) (h : Reach (Readers sha (messageRequest v) W kr da) pol v) (hm : v.s.mode.isDecrypt = true)
    (hdone : isDone v.s = true) (hS : StablePoints W) (We : Env → Prop) (M : View → WrittenMessage → Prop)
    (hM : WrittenIn We M) (hR : AllReadable M) (hW : WrapsIntact W kr M) (hK : OwnKeys W (Readers sha (messageRequest v) W kr da) M) :
    ∃ w a, M w a ∧ (∃ sig, v.consumed = a.signedBytes ++ wireTrailer sig) ∧ (∃ sig, w.released = a.signedBytes ++ wireTrailer sig) ∧
      getAlgId v.s = .ok a.hd.algId ∧ getEncCtx v.s = some a.hd.encCtx ∧
      (SameCiphers We (Readers sha (messageRequest v) W kr da) → v.released = w.consumed) := by
  have hst : v.s.state = .done := by simpa [isDone] using hdone
  have hreq : DistinctKeys (messageRequest v).encCtx ∧ (messageRequest v).alg < 65536 := by
    rcases decrypted_of h.hinv hm with ⟨-, -, h3⟩ | ⟨row', hd, m, k, fr, tr, h1, hfacts, -⟩
    · rw [hst] at h3; simp at h3
    obtain ⟨q1, q2, p, q3, q4⟩ := hfacts.shown (by rw [hst]; simp)
    obtain ⟨e0, he0, hv⟩ := h1.header
    unfold messageRequest
    rw [q1]
    refine ⟨hv.ok.ctxKeys, ?_⟩
    show hd.algId < 65536
    rw [hv.ok.id]
    have : ∀ r ∈ suiteTable, r.id < 65536 := by decide
    exact this _ hv.ok.suite
  have hw : worlds (rawMoments W kr) = W := by
    funext w
    exact propext ⟨by rintro ⟨_, ⟨w', h', rfl⟩, rfl⟩; exact h', fun h' => ⟨_, ⟨w, h', rfl⟩, rfl⟩⟩
  have hs : SessionsAt (rawMoments W kr) da = Sessions W kr da := by
    funext e
    exact propext ⟨by rintro ⟨_, ⟨w', h', rfl⟩, rfl⟩; exact ⟨w', h', rfl⟩, by rintro ⟨w, h', rfl⟩; exact ⟨_, ⟨w, h', rfl⟩, rfl⟩⟩
  exact C104_written _ _ da pol v h hm hdone (C104_caches_answer hsha W kr da _ hreq.1 hreq.2) (by rw [hw]; exact hS) We M hM hR
    (by rw [hs]; exact C103_materials W kr da M hW hR) (by rw [hw]; exact hK)

/-! ### a reader whose key comes from a cache -/

theorem oneSigned_stable (x : Bytes) : StablePoints (fun w => w.ec = oneSigned x) := by
  refine ⟨fun w w' h h' => by rw [h, h']; exact ⟨rfl, rfl, rfl, rfl, rfl, rfl⟩, fun w cv b q h hq => ?_⟩
  rw [h] at hq ⊢
  obtain ⟨-, -, hcod, -⟩ := toy_facts (fun _ => true) true cv
  have hq : (if b.length = cv.bytes + 1 then some (unbe (b.drop 1)) else none) = some q := hq
  split at hq
  · rename_i hl
    cases hq
    have hlt : unbe (b.drop 1) < 256 ^ cv.bytes := by
      have := unbe_lt (b.drop 1)
      rwa [List.length_drop, hl, Nat.add_sub_cancel] at this
    refine ⟨?_, ?_, hcod.base64, hcod.text⟩
    · show (if (2 :: be cv.bytes (unbe (b.drop 1))).length = cv.bytes + 1 then some (unbe ((2 :: be cv.bytes (unbe (b.drop 1))).drop 1)) else none) = _
      rw [if_pos (by simp), List.drop_one, List.tail_cons, unbe_be hlt]
    · show (2 :: be cv.bytes (unbe (b.drop 1))).length = _
      simp
  · cases hq

/-- The request with which the message is read. -/
def C104_req : DecRequest := messageRequest (C103_reader C103_written.released)

/-- The cache of the reader after a session has read the message. -/
def C104_cache : Option (List CmmEvent × Cache) :=
  CmmExample.play CmmExample.tsha [.dec CmmExample.cmm ((C83_turn C103_world 20).decEnv C103_kr none) C104_req] ([], cacheNew (fun n => 8 * n) 4)

def C104_env : Env :=
  match C104_cache with
  | some (_, c) => C103_world.cachedEnv CmmExample.tsha CmmExample.cmm (C83_turn C103_world 21) C103_kr none c
  | none => C103_world.env C103_kr none

/-- Another session reads with that cache. -/
def C104_reader (inp : Bytes) : View := run (Example.decNew .decrypt) [(C104_env, .process (Example.zeros 50) (some inp))]

/-- Where the answer comes from. -/
def C104_upstream : Option Bool :=
  match C104_cache with
  | none => none
  | some (_, c) =>
    match cachingDecrypt CmmExample.tsha CmmExample.cmm ((C83_turn C103_world 21).decEnv C103_kr none) C104_req c with
    | .error _ => none
    | .ok (_, out) => some out.upstream

/-- The strings digested for a request with two entries in its context and one encrypted data key. -/
def C104_strings (sha : Bytes → Bytes) (p : Bytes) (r : DecRequest) : List Bytes :=
  let cs := [wireCtx r.encCtx, wireCtx r.encCtx.reverse]
  let d := r.edks.map (fun e => sha (wireEdk e))
  cs ++ r.edks.map wireEdk ++ cs.map (fun y => p ++ u16 r.alg ++ d.flatten ++ List.replicate 64 0 ++ sha y)

theorem C104_strings_all {sha : Bytes → Bytes} {p : Bytes} {r : DecRequest} (h1 : r.encCtx.length = 2) (h2 : r.edks.length = 1) {x : Bytes}
    (h : DecStrings sha p r x) : x ∈ C104_strings sha p r := by
  have hc : ∀ {y}, CtxString r.encCtx y → y = wireCtx r.encCtx ∨ y = wireCtx r.encCtx.reverse := by
    rintro y ⟨s, hs, rfl⟩
    rcases perm_two hs h1 with rfl | rfl
    · exact .inl rfl
    · exact .inr rfl
  unfold C104_strings
  simp only [List.mem_append]
  rcases h with h | ⟨e, he, rfl⟩ | ⟨y, ds, hy, hd, rfl⟩
  · rcases hc h with rfl | rfl <;> simp
  · exact .inl (.inr (List.mem_map_of_mem he))
  · right
    obtain ⟨e, he⟩ := List.length_eq_one_iff.mp h2
    rw [he, List.map_singleton] at hd
    rw [List.perm_singleton.mp hd, he, List.map_singleton]
    rw [List.mem_map]
    exact ⟨y, by rcases hc hy with rfl | rfl <;> simp, rfl⟩

theorem C104_no_collision : ¬ Collides CmmExample.tsha (DecStrings CmmExample.tsha CmmExample.cmm.partition C104_req)
    (DecStrings CmmExample.tsha CmmExample.cmm.partition C104_req) := by
  rintro ⟨x, y, hx, hy, hne, heq⟩
  have h1 : C104_req.encCtx.length = 2 := by decide +kernel
  have h2 : C104_req.edks.length = 1 := by decide +kernel
  have key : ∀ x ∈ C104_strings CmmExample.tsha CmmExample.cmm.partition C104_req,
      ∀ y ∈ C104_strings CmmExample.tsha CmmExample.cmm.partition C104_req, CmmExample.tsha x = CmmExample.tsha y → x = y := by decide +kernel
  exact hne (key x (C104_strings_all h1 h2 hx) y (C104_strings_all h1 h2 hy) heq)

theorem C104_env_good : Readers CmmExample.tsha C104_req (· = C103_world) C103_kr none C104_env := by
  have hs : C104_cache.isSome = true := by decide +kernel
  have hd : DistinctKeys C104_req.encCtx := by unfold DistinctKeys; decide +kernel
  have ha : C104_req.alg < 65536 := by decide +kernel
  have hn := C104_no_collision
  have ht : ∀ now, Turn (· = C103_world) (C83_turn C103_world now) := fun now => ⟨rfl, rfl, rfl, fun _ h => by cases h⟩
  unfold C104_env
  unfold C104_cache at hs ⊢
  generalize C104_req = r at *
  cases hr : cachingDecrypt CmmExample.tsha CmmExample.cmm ((C83_turn C103_world 20).decEnv C103_kr none) r (cacheNew (fun n => 8 * n) 4) with
  | error f => simp only [CmmExample.play, hr] at hs; cases hs
  | ok x =>
    obtain ⟨c, out⟩ := x
    simp only [CmmExample.play, hr]
    refine .inr ⟨_, _, _, c, _, _, _, .dec .new C83_cmm_valid hr, ?_, C83_cmm_valid, ht 21, rfl, ?_, rfl⟩
    · intro ev hev
      rw [List.mem_singleton.mp hev]
      exact ⟨⟨_, ht 20, rfl⟩, ha, hd⟩
    · intro cmm' env req' out' hm
      have := List.mem_singleton.mp hm
      cases this
      exact hn

attribute [local irreducible] C103_message C103_written in
theorem C104_same_request : messageRequest (C104_reader C103_written.released) = C104_req := by decide +kernel

attribute [local irreducible] C104_req C104_env C103_message C103_written in
theorem C104_reach : Reach (Readers CmmExample.tsha C104_req (· = C103_world) C103_kr none) .requireRequire (C104_reader C103_written.released) := by
  generalize C103_written.released = inp
  unfold C104_reader
  exact Reach.call (.process (Example.zeros 50) (some inp)) (Example.decNew_reach _ .decrypt (Or.inl rfl)) C104_env_good

/-- All hypotheses of `C104_cached` hold for this reader, whose key comes from its cache, and the reader reads the message to its end.  The
altered message asks for the same key, but its signature does not verify. -/
example : (∀ x, (CmmExample.tsha x).length = 64) ∧ C104_upstream = some false ∧ StablePoints (· = C103_world) ∧
    WrittenIn (· = C103_writerEnv) C103_M ∧ AllReadable C103_M ∧ WrapsIntact (· = C103_world) C103_kr C103_M ∧
    OwnKeys (· = C103_world) (Readers CmmExample.tsha (messageRequest (C104_reader C103_written.released)) (· = C103_world) C103_kr none) C103_M ∧
    SameCiphers (· = C103_writerEnv)
      (Readers CmmExample.tsha (messageRequest (C104_reader C103_written.released)) (· = C103_world) C103_kr none) ∧
    Reach (Readers CmmExample.tsha (messageRequest (C104_reader C103_written.released)) (· = C103_world) C103_kr none) .requireRequire
      (C104_reader C103_written.released) ∧
    isDone (C104_reader C103_written.released).s = true ∧ (C104_reader C103_written.released).released = [1, 2, 3, 4, 5, 6] ∧
    messageRequest (C104_reader C103_altered) = C104_req ∧ (C104_reader C103_altered).s.state = .error := by
  have hE : ∀ e, Readers CmmExample.tsha C104_req (· = C103_world) C103_kr none e → e.crypto = C103_world.crypto := by
    intro e he
    obtain ⟨w, rfl, h, -⟩ := readers_world he
    exact h
  refine ⟨fun x => by unfold CmmExample.tsha; rw [length_be], by decide +kernel, ?_, C103_writtenIn, C103_allReadable, C103_intact, ?_, ?_, ?_,
    by decide +kernel, by decide +kernel, by decide +kernel, by decide +kernel⟩
  · have h := oneSigned_stable C103_message.signedBytes
    exact ⟨by rintro w w' rfl rfl; exact h.same _ _ rfl rfl, by rintro w cv x q rfl hq; exact h.codec C103_world cv x q rfl hq⟩
  · rw [C104_same_request]; exact C103_own hE
  · rw [C104_same_request]; exact C103_same hE
  · rw [C104_same_request]; exact C104_reach

end Verif.Props
