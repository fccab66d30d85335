import Verif.Spec.Signers
import Verif.Props.Integrity
import Verif.Props.OnePlaintext
import Verif.Props.DefaultCmm
/-
C102: a signed message that was read to its end is what its signer wrote, whoever has the data key.
-/
namespace Verif.Props
open Verif Verif.Spec Verif.Proof

theorem row_commitment {row : SuiteRow} (h : row ∈ suiteTable) (hc : row.commitment ≠ 0) : row.commitment = 32 := by
  revert row; decide

/-- What C102 says, with the request that the session made to its CMM. -/
theorem signed_request (E W : Env → Prop) (pol : Policy) (v : View) (h : Reach E pol v) (hm : v.s.mode.isDecrypt = true)
    (hdone : isDone v.s = true) (row : SuiteRow) (hrow : row ∈ suiteTable) (hid : getAlgId v.s = .ok row.id) (hsig : row.curveBits ≠ 0)
    (M : View → WrittenMessage → Prop) (hM : WrittenIn W M)
    (hU : ∀ e m sc, E e → e.cmm.decrypt ⟨v.s.header.encCtx, v.s.header.edks, v.s.header.algId⟩ = .ok m → m.signctx = some sc → Unforged E sc M) :
    ∃ w a e m, M w a ∧ E e ∧ getEncCtx v.s = some v.s.header.encCtx ∧
      e.cmm.decrypt ⟨v.s.header.encCtx, v.s.header.edks, v.s.header.algId⟩ = .ok m ∧ ReadWhole E W v w a m.dataKey := by
  have hst : v.s.state = .done := by simpa [isDone] using hdone
  rcases decrypted_of h.hinv hm with ⟨-, -, h3⟩ | ⟨row', hd, m, k, fr, tr, h1, hfacts, -, h3⟩
  · rw [hst] at h3; simp at h3
  obtain ⟨hcomp, hver⟩ := h3 hst
  obtain ⟨q1, q2, p, q3, q4⟩ := hfacts.shown (by rw [hst]; simp)
  obtain ⟨e0, he0, hv⟩ := h1.header
  have hrr : row' = row := by
    refine row_unique' hv.ok.suite hrow ?_
    unfold getAlgId at hid
    rw [q3] at hid
    rw [← (suiteFacts q4).id]
    exact Except.ok.inj hid
  subst hrr
  have hctx : getEncCtx v.s = some hd.encCtx := by
    unfold getEncCtx
    rw [if_neg (by simp [q2]), q1]
  have halg : getAlgId v.s = .ok hd.algId := by rw [hid, hv.ok.id]
  unfold SignatureVerified at hver
  rw [if_neg hsig] at hver
  obtain ⟨e1, sc, sig, he1, hsc, hvf, htr, -⟩ := hver
  have hcmm : e0.cmm.decrypt ⟨v.s.header.encCtx, v.s.header.edks, v.s.header.algId⟩ = .ok m := by rw [q1]; exact hv.cmm
  obtain ⟨hnew, hun⟩ := hU e0 m sc he0 hcmm hsc
  rw [hnew, List.nil_append] at hvf
  obtain ⟨w, a, ha, hatr, hdata⟩ := hun e1 he1 _ _ hvf
  obtain ⟨polw, hrw, hmw, hw⟩ := hM w a ha
  have hbody : Complete a.fr ∧ ∃ sig', a.tr = wireTrailer sig' := by
    rcases hw.body with ⟨-, h0⟩ | ⟨hc, h0 | h0⟩
    · exact absurd h0 hatr
    · exact absurd h0 hatr
    · refine ⟨hc, ?_⟩
      unfold Signed at h0
      split at h0
      · exact absurd h0 hatr
      · obtain ⟨_, _, sig', _, _, _, h0⟩ := h0
        exact ⟨sig', h0⟩
  obtain ⟨hac, sig', htr'⟩ := hbody
  obtain ⟨ew, hew, hmade⟩ := hw.encrypted.header
  have hfit : a.Readable → row' = a.row ∧ hd.bare = ({ a.hd with iv := if a.row.version = 1 then a.hd.iv else [] } : Hdr).bare ∧
      bodyBytes fr ++ [] = bodyBytes a.fr ++ [] := fun hok => by
    have := header_unique (x1 := bodyBytes fr) (x2 := bodyBytes a.fr) hv.ok hok (hdata.trans (congrArg (· ++ bodyBytes a.fr) (wireHeader_received a.row.version a.hd).symm))
    simpa using this
  refine ⟨w, a, e0, m, ha, he0, by rw [q1]; exact hctx, hcmm, ⟨sig, ?_⟩, ⟨sig', ?_⟩, fun hok => ?_, fun hok hS hdk => ?_, fun hok hcm => ?_⟩
  · rw [h1.consumed, hdata, htr]
  · rw [hw.encrypted.released, htr']; rfl
  · obtain ⟨-, hb, -⟩ := hfit hok
    rw [halg, hctx]
    exact ⟨congrArg Except.ok (congrArg (·.algId) hb), congrArg some (congrArg (·.encCtx) hb)⟩
  · obtain ⟨rfl, hb, hbytes⟩ := hfit hok
    have hmid : hd.messageId = a.hd.messageId := congrArg (·.messageId) hb
    have hfl : hd.frameLen = a.hd.frameLen := congrArg (·.frameLen) hb
    have hkey := hmade.key
    have hkey' := hv.key
    rw [hdk, hmid] at hkey'
    have hk : k = a.k := (derivedKey_agree (hS ew e0 hew he0).2 hkey' hkey).1
    have hf := hw.encrypted.frames
    rw [← hmid, ← hfl, ← hk] at hf
    have hag := frames_agree hv.ok.frameLen (fun _ _ _ h => h.ok) (fun _ _ _ h => h.ok) (fun i f p1 p2 o1 o2 => by
      obtain ⟨e, he, ho⟩ := o1.opened
      obtain ⟨ew', hew', hs⟩ := o2.sealed
      rw [o1.len] at ho
      have hl : p1.length = p2.length := by rw [← o1.len, o2.len]
      rw [hl, o2.iv] at ho
      exact (hS ew' e hew' he).1 _ _ _ _ _ _ _ hs ho) h1.frames hf hbytes
    have hle := prefix_of_complete (body_of (Or.inr hcomp)) hac hag
    have hge := prefix_of_complete (body_of (Or.inr hac)) hcomp (fun i h h' => (hag i h' h).symm)
    rw [h1.released, hw.encrypted.consumed, hle.eq_of_length_le hge.length_le]
  · obtain ⟨rfl, hb, -⟩ := hfit hok
    have hmid : hd.messageId = a.hd.messageId := congrArg (·.messageId) hb
    have hsd : hd.algSuiteData = a.hd.algSuiteData := congrArg (·.algSuiteData) hb
    have k1 := hv.key.2
    have k2 := hmade.key.2
    rw [if_neg hcm] at k1 k2
    obtain ⟨s1, g1, k1⟩ := k1
    obtain ⟨s2, g2, k2⟩ := k2
    have : s1 = s2 := hashLen_inj (by omega)
    subst this
    rw [row_commitment hrow hcm] at k1 k2
    rw [hmid, hsd] at k1
    exact ⟨e0, ew, s1, _, he0, hew, k1, k2⟩

/-- **C102**: a decrypting session is done with a message of a signing suite.  If nothing but what the writers signed verifies under
the verification keys that its CMM returned for the context shown, then it read what one of the writers wrote, byte for byte up
to the signature.  Anyone may have had the data key. -/
theorem C102_signed_message (E W : Env → Prop) (pol : Policy) (v : View) (h : Reach E pol v) (hm : v.s.mode.isDecrypt = true)
    (hdone : isDone v.s = true) (row : SuiteRow) (hrow : row ∈ suiteTable) (hid : getAlgId v.s = .ok row.id) (hsig : row.curveBits ≠ 0)
    (M : View → WrittenMessage → Prop) (hM : WrittenIn W M)
    (hU : ∀ e req m sc, E e → getEncCtx v.s = some req.encCtx → e.cmm.decrypt req = .ok m → m.signctx = some sc → Unforged E sc M) :
    ∃ w a e req m, M w a ∧ E e ∧ getEncCtx v.s = some req.encCtx ∧ e.cmm.decrypt req = .ok m ∧ ReadWhole E W v w a m.dataKey := by
  obtain ⟨w, a, e, m, r1, r2, r3, r4, r5⟩ := signed_request E W pol v h hm hdone row hrow hid hsig M hM (fun e m sc he hd hsc => by
    refine hU e _ m sc he ?_ hd hsc
    have hst : v.s.state = .done := by simpa [isDone] using hdone
    rcases decrypted_of h.hinv hm with ⟨-, -, h3⟩ | ⟨row', hd, m, k, fr, tr, h1, hfacts, -, h3⟩
    · rw [hst] at h3; simp at h3
    obtain ⟨q1, q2, -⟩ := hfacts.shown (by rw [hst]; simp)
    unfold getEncCtx
    rw [if_neg (by simp [q2])])
  exact ⟨w, a, e, _, m, r1, r2, r3, r4, r5⟩

/-- What the default CMM returns for decryption has a signature context exactly for a signing suite and a context with the reserved name. -/
theorem default_decrypts {e : Env} {vs : Nat → Bytes → Except Err SigCtx} (h : UsesDefaultCmm e vs) {req : DecRequest} {m : DecMaterials}
    (hd : e.cmm.decrypt req = .ok m) : ∃ row ∈ suiteTable, row.id = req.alg ∧
      ((row.curveBits = 0 ∧ req.encCtx.lookup publicKeyName = none ∧ m.signctx = none) ∨
       (row.curveBits ≠ 0 ∧ ∃ pub sc, req.encCtx.lookup publicKeyName = some pub ∧ vs req.alg pub = .ok sc ∧ m.signctx = some sc)) := by
  obtain ⟨env, kr, da, hcmm, rfl⟩ := h
  rw [hcmm] at hd
  have hd : (DefaultCmm.decrypt env ⟨kr, da⟩ req).toExcept = .ok m := hd
  have hd' : DefaultCmm.decrypt env ⟨kr, da⟩ req = .ok m := by
    revert hd
    generalize DefaultCmm.decrypt env ⟨kr, da⟩ req = r
    intro hd
    cases r <;> simp_all [CRes.toExcept]
  have hmat : env.allocMat = true := by
    cases hb : env.allocMat with
    | true => rfl
    | false => rw [DefaultCmm.decrypt] at hd'; simp [hb] at hd'
  obtain ⟨s, k', row, -, -, g1, g2, -, -, -, -, g3⟩ := (C51_decrypt env _ _ m hmat).mp hd'
  exact ⟨row, g1, g2, g3⟩

/-- **C102** (default CMM): with the default CMM over any keyring, what a session accepts is signed exactly if the context that it
shows has the reserved name: the signature cannot be stripped from a message without changing the context. -/
theorem C102_no_stripping (E : Env → Prop) (pol : Policy) (v : View) (h : Reach E pol v) (hm : v.s.mode.isDecrypt = true)
    (hE : ∀ e, E e → ∃ vs, UsesDefaultCmm e vs) (hne : v.s.state ≠ .error) (row : SuiteRow) (hrow : row ∈ suiteTable)
    (ctx : EncCtx) (hctx : getEncCtx v.s = some ctx) (hid : getAlgId v.s = .ok row.id) (hc : v.consumed ≠ []) :
    row.curveBits ≠ 0 ↔ (ctx.lookup publicKeyName).isSome = true := by
  rcases decrypted_of h.hinv hm with ⟨h1, -⟩ | ⟨row', hd, m, k, fr, tr, h1, hfacts, -⟩
  · exact absurd h1 hc
  obtain ⟨q1, q2, p, q3, q4⟩ := hfacts.shown hne
  obtain ⟨e0, he0, hv⟩ := h1.header
  have hcx : hd.encCtx = ctx := by
    unfold getEncCtx at hctx
    rw [if_neg (by simp [q2]), q1] at hctx
    exact Option.some.inj hctx
  have hrr : row.id = hd.algId := by
    unfold getAlgId at hid
    rw [q3] at hid
    rw [hv.ok.id, ← (suiteFacts q4).id]
    exact (Except.ok.inj hid).symm
  obtain ⟨vs, hvs⟩ := hE e0 he0
  obtain ⟨row2, g1, g2, g3⟩ := default_decrypts hvs hv.cmm
  have : row2 = row := row_unique' g1 hrow (by rw [g2, hrr])
  subst this
  simp only [hcx] at g3
  rcases g3 with ⟨g4, g5, -⟩ | ⟨g4, pub, sc, g5, -⟩
  · simp [g4, g5]
  · simp [g4, g5]

/-- **C102** (default CMM): a decrypting session with the default CMM, over any keyring, is done and shows a context with a public key
under the reserved name.  If nothing but what the writers signed verifies under that key, then it read what one of the writers wrote. -/
theorem C102_default_cmm (E W : Env → Prop) (pol : Policy) (v : View) (h : Reach E pol v) (hm : v.s.mode.isDecrypt = true)
    (hdone : isDone v.s = true) (vs : Env → Nat → Bytes → Except Err SigCtx) (hE : ∀ e, E e → UsesDefaultCmm e (vs e))
    (ctx : EncCtx) (hctx : getEncCtx v.s = some ctx) (pub : Bytes) (hpub : ctx.lookup publicKeyName = some pub)
    (M : View → WrittenMessage → Prop) (hM : WrittenIn W M)
    (hU : ∀ e alg sc, E e → vs e alg pub = .ok sc → Unforged E sc M) :
    ∃ w a e req m, M w a ∧ E e ∧ req.encCtx = ctx ∧ e.cmm.decrypt req = .ok m ∧ ReadWhole E W v w a m.dataKey := by
  have hst : v.s.state = .done := by simpa [isDone] using hdone
  have hne : v.s.state ≠ .error := by rw [hst]; simp
  obtain ⟨row, hrow, hid, hc⟩ : ∃ row ∈ suiteTable, getAlgId v.s = .ok row.id ∧ v.consumed ≠ [] := by
    rcases decrypted_of h.hinv hm with ⟨-, -, h3⟩ | ⟨row', hd, m, k, fr, tr, h1, hfacts, -⟩
    · rw [hst] at h3; simp at h3
    obtain ⟨q1, q2, p, q3, q4⟩ := hfacts.shown hne
    obtain ⟨e0, he0, hv⟩ := h1.header
    refine ⟨row', hv.ok.suite, ?_, ?_⟩
    · unfold getAlgId
      rw [q3]
      simp only [(suiteFacts q4).id]
    · intro h0
      have := head_wireHeader hv.ok.suite hd (bodyBytes fr ++ tr)
      rw [← List.append_assoc, ← h1.consumed, h0] at this
      cases this
  have hsig := (C102_no_stripping E pol v h hm (fun e he => ⟨_, hE e he⟩) hne row hrow ctx hctx hid hc).mpr (by rw [hpub]; rfl)
  have hU' : ∀ e req m sc, E e → getEncCtx v.s = some req.encCtx → e.cmm.decrypt req = .ok m → m.signctx = some sc → Unforged E sc M := by
    intro e req m sc he hc' hd hsc
    have hvs := hE e he
    have hctx' : ctx = req.encCtx := by rw [hctx] at hc'; exact Option.some.inj hc'
    obtain ⟨row2, g1, g2, g3⟩ := default_decrypts hvs hd
    rw [← hctx', hpub] at g3
    rcases g3 with ⟨-, g5, -⟩ | ⟨-, pub', sc', g5, g6, g7⟩
    · cases g5
    · cases g5
      rw [g7] at hsc
      cases hsc
      exact hU e req.alg sc he g6
  obtain ⟨w, a, e, req, m, r1, r2, r3, r4, r5⟩ := C102_signed_message E W pol v h hm hdone row hrow hid hsig M hM hU'
  rw [hctx] at r3
  exact ⟨w, a, e, req, m, r1, r2, (Option.some.inj r3).symm, r4, r5⟩

/-! ### a reader for whom every frame opens -/

/-- A keyring that makes the data key 1, 1, ... known to everybody. -/
def C102_keyring : Keyring where
  onEncrypt := some fun _ _ s => (.ok, { s with key := some ⟨1, List.replicate 32 1, 32, 1⟩, edks := s.edks ++ [Example.edk] })
  onDecrypt := some fun _ _ _ s => (.ok, { s with key := some ⟨1, List.replicate 32 1, 32, 1⟩ })

def C102_cmmEnv : CmmEnv where
  keygen _ := .ok (⟨⟨0, none, none⟩, []⟩, [80])
  verifyStart _ _ := .ok ⟨⟨0, none, none⟩, []⟩
  allocMat := true
  allocPut := true
  errno := .unknown

/-- The environment of a writer with the default CMM. -/
def C102_writerEnv : Env := { Example.env with cmm := DefaultCmm.toCmm C102_cmmEnv ⟨C102_keyring, none⟩ }

def C102_hist : List (Env × Op) :=
  [(C102_writerEnv, .setFrameSize 4), (C102_writerEnv, .setMessageSize 6), (C102_writerEnv, .process (Example.zeros 400) (some [1, 2, 3, 4, 5, 6]))]

theorem C102_hist_reach : Reach (· = C102_writerEnv) .requireRequire (run Example.encNew C102_hist) :=
  Example.reach_hist (.new (mode := .encrypt) rfl) C102_hist (by simp [C102_hist])

/-- What it writes: 207 bytes and a signature. -/
def C102_msg : Bytes := (run Example.encNew C102_hist).released

/-- A reader with the default CMM, for whom every frame opens, and nothing verifies but what that session signed. -/
def C102_env : Env :=
  { C102_writerEnv with crypto := { Example.crypto with
      verify := fun ctx sig => if ctx.data = C102_msg.take 207 ∧ sig = List.replicate 103 3 then .ok () else .error .badCiphertext } }

def C102_reader (inp : Bytes) : View := run (Example.decNew .decrypt) [(C102_env, .process (Example.zeros 50) (some inp))]

/-- The message, with another byte in the last frame. -/
def C102_altered : Bytes := C102_msg.take 189 ++ [9] ++ C102_msg.drop 190

theorem C102_verify (ctx : SigCtx) (sig : Bytes) (h : C102_env.crypto.verify ctx sig = .ok ()) : ctx.data = C102_msg.take 207 := by
  unfold C102_env at h
  dsimp only at h
  split at h
  · rename_i hc; exact hc.1
  · cases h

/-- The first bytes of a message tell its suite. -/
theorem C102_suite {row : SuiteRow} {hd : Hdr} (h : row ∈ suiteTable) (hid : hd.algId = row.id) (x : Bytes)
    (h3 : (wireHeader row.version hd ++ x).take 3 = [2, 5, 0x78]) : row.curveBits ≠ 0 := by
  unfold wireHeader wireAuthPart at h3
  rw [hid] at h3
  simp only [suiteTable, List.mem_cons, List.not_mem_nil, or_false] at h
  rcases h with rfl | rfl | rfl | rfl | rfl | rfl | rfl | rfl | rfl | rfl | rfl <;> first | decide | (exfalso; revert h3; simp [u16])

attribute [local irreducible] C102_msg in
/-- The writer of the example and what it wrote. -/
theorem C102_writer : ∃ M, WrittenIn (· = C102_writerEnv) M ∧ Unforged (· = C102_env) ⟨⟨0, none, none⟩, []⟩ M ∧
    ∀ w a, M w a → w = run Example.encNew C102_hist := by
  have hmsg : C102_msg = (run Example.encNew C102_hist).released := by unfold C102_msg; rfl
  have hmode : (run Example.encNew C102_hist).s.mode = .encrypt := by decide +kernel
  have hdone : isDone (run Example.encNew C102_hist).s = true := by decide +kernel
  have hl : (run Example.encNew C102_hist).released.length = 312 := by decide +kernel
  have h3' : (run Example.encNew C102_hist).released.take 3 = [2, 5, 0x78] := by decide +kernel
  obtain ⟨row, hd, m, k, fr, tr, h1, h2, h3, -⟩ := C60_done_means_complete _ _ _ C102_hist_reach hmode hdone
  refine ⟨fun w a => w = run Example.encNew C102_hist ∧ a = ⟨row, hd, m, k, fr, tr⟩, ?_, ⟨rfl, ?_⟩, fun _ _ h => h.1⟩
  · rintro w a ⟨hw, ha⟩
    rw [hw, ha]
    exact ⟨_, C102_hist_reach, hmode, h1, Or.inr ⟨h2, Or.inr h3⟩⟩
  · rintro _ rfl data sig hv
    have hdata : data = C102_msg.take 207 := C102_verify _ _ hv
    obtain ⟨e, rfl, hmade⟩ := h1.header
    have hcb : row.curveBits ≠ 0 := by
      have ht := h1.released
      rw [List.append_assoc] at ht
      refine C102_suite hmade.suite hmade.alg.1 (bodyBytes fr ++ tr) ?_
      rw [← ht]
      exact h3'
    unfold Signed at h3
    rw [if_neg hcb] at h3
    obtain ⟨_, sc, sig', rfl, -, hs, htr⟩ := h3
    have hs : (.ok (List.replicate 103 3) : Except Err Bytes) = .ok sig' := hs
    cases hs
    refine ⟨_, _, ⟨rfl, rfl⟩, ?_, ?_⟩
    · show tr ≠ []
      rw [htr]; decide
    · rw [hdata, hmsg]
      rw [h1.released] at hl ⊢
      rw [htr] at hl ⊢
      have : (wireTrailer (List.replicate 103 3)).length = 105 := by decide
      rw [List.length_append, this] at hl
      have hl : (wireHeader row.version hd ++ bodyBytes fr).length = 207 := by omega
      rw [← hl, List.take_left' rfl]
      rfl

/-- The hypotheses hold for the example; the reader accepts the message.  It does not accept the altered message, though every frame of
that opens: it is not done, and what it had released is void. -/
example : ∃ M, WrittenIn (· = C102_writerEnv) M ∧
    (∀ e alg sc, e = C102_env → C102_cmmEnv.verifyStart alg [80] = .ok sc → Unforged (· = C102_env) sc M) ∧
    UsesDefaultCmm C102_env C102_cmmEnv.verifyStart ∧
    Reach (· = C102_env) .requireRequire (C102_reader C102_msg) ∧ isDone (C102_reader C102_msg).s = true ∧
    getAlgId (C102_reader C102_msg).s = .ok 0x0578 ∧ getEncCtx (C102_reader C102_msg).s = some [(publicKeyName, [80])] ∧
    (C102_reader C102_msg).released = [1, 2, 3, 4, 5, 6] ∧
    (C102_reader C102_altered).s.state = .error := by
  obtain ⟨M, h1, h2, -⟩ := C102_writer
  refine ⟨M, h1, ?_, ⟨C102_cmmEnv, C102_keyring, none, rfl, rfl⟩,
    Reach.call (.process (Example.zeros 50) (some C102_msg)) (Example.decNew_reach (· = C102_env) .decrypt (Or.inl rfl)) rfl,
    by decide +kernel, by decide +kernel, by decide +kernel, by decide +kernel, by decide +kernel⟩
  rintro _ alg sc rfl h
  cases h
  exact h2

/-- **C102** (suites without signature): who has the data key can write what nobody wrote; the reader is done with it. -/
theorem C102_unsigned_refuted : ∃ (E : Env → Prop) (v : View), Reach E .requireRequire v ∧ v.s.mode.isDecrypt = true ∧ isDone v.s = true ∧
    (∀ e req m sc, E e → e.cmm.decrypt req = .ok m → m.signctx = some sc → Unforged E sc (fun _ _ => False)) ∧ v.released ≠ [] := by
  refine ⟨(· = Example.envU), run (Example.decNew .decrypt) [(Example.envU, .process (Example.zeros 50) (some (writer [1, 2, 3, 4, 5, 6]).released))],
    one_call _ _, by decide +kernel, by decide +kernel, ?_, by decide +kernel⟩
  rintro _ req m sc rfl hd hsc
  cases hd
  cases hsc

end Verif.Props
