import Verif.Proof.WrapIntegrity
import Verif.Props.Signers
import Verif.Props.Stack
import Verif.Props.KeyringTree
/-
C103: wrapping keys bind the context; what is read to its end with raw AES keyrings and a signing suite is what was written, though
others have the data keys.
-/
namespace Verif.Props
open Verif Verif.Spec Verif.Proof

theorem lookup_perm {c c' : EncCtx} (hd : DistinctKeys c) (h : c.Perm c') (n : Bytes) : c.lookup n = c'.lookup n := by
  induction h with
  | nil => rfl
  | cons x _ ih =>
    obtain ⟨k, x⟩ := x
    simp only [List.lookup_cons]
    split
    · rfl
    · exact ih (List.pairwise_cons.mp hd).2
  | swap x y l =>
    obtain ⟨k, x⟩ := x
    obtain ⟨k', y⟩ := y
    simp only [List.lookup_cons]
    have hne : k' ≠ k := (List.pairwise_cons.mp hd).1 _ (by simp)
    by_cases h1 : n = k
    · subst h1
      have : (n == k') = false := by simpa using fun h => hne h.symm
      simp [this]
    · have : (n == k) = false := by simpa using h1
      simp [this]
  | trans h1 _ ih1 ih2 => exact (ih1 hd).trans (ih2 ((h1.map _).nodup_iff.mp hd))

/-- What the default CMM returns for decryption came from its keyring. -/
theorem default_key {env : CmmEnv} {kr : Keyring} {da : Option Nat} {req : DecRequest} {m : DecMaterials}
    (h : (DefaultCmm.toCmm env ⟨kr, da⟩).decrypt req = .ok m) : ∃ s k, keyringOnDecrypt kr req.edks req.encCtx req.alg ⟨none, [], env.errno⟩ = (.ok, s) ∧
      s.key = some k ∧ m.dataKey = k.bytes ∧ ∃ row ∈ suiteTable, row.id = req.alg := by
  have h : (DefaultCmm.decrypt env ⟨kr, da⟩ req).toExcept = .ok m := h
  have h' : DefaultCmm.decrypt env ⟨kr, da⟩ req = .ok m := by
    revert h
    generalize DefaultCmm.decrypt env ⟨kr, da⟩ req = r
    intro h
    cases r <;> simp_all [CRes.toExcept]
  have hmat : env.allocMat = true := by
    cases hb : env.allocMat with
    | true => rfl
    | false => rw [DefaultCmm.decrypt] at h'; simp [hb] at h'
  obtain ⟨s, k, row, h1, h2, h3, h4, -, h5, -⟩ := (C51_decrypt _ _ _ m hmat).mp h'
  exact ⟨s, k, h1, h2, h5, row, h3, h4⟩

/-- **C103** (CMM): what the default CMM with raw AES keyrings returns for decryption is the data key of one of the writers, and the
context is the context of the same writer. -/
theorem C103_materials (W : World → Prop) (kr : UserKr) (da : Option Nat) (M : View → WrittenMessage → Prop) (hW : WrapsIntact W kr M)
    (hR : AllReadable M) : BindsContext (Sessions W kr da) M := by
  rintro _ ⟨w, hw, rfl⟩ req m hd hl h
  obtain ⟨s, k, h1, h2, h3, -⟩ := default_key h
  obtain ⟨r, hr, i, s0, res, s', h4, h5, h6⟩ := user_opened rfl h1 h2
  obtain ⟨a, rfl, ha⟩ := hW r hr
  obtain ⟨edk, -, -, -, -, iv, ct, tag, aad, -, haad, hopen⟩ := aes_key_opened hd h5 h4 h6
  obtain ⟨v, b, hb, hkey, hctx⟩ := ha w hw iv aad ct tag _ hopen
  have hok := hR v b hb
  exact ⟨v, b, hb, ctxAad_inj hok.ctxKeys hd hok.ctxFits hl hctx haad, by rw [h3, hkey]⟩

/-- **C103** (KMS, trees): the same for a tree of multi-keyrings with raw AES keyrings, KMS keyrings and MRK-aware keyrings that name
their keys, and RSA keyrings that do not decrypt. -/
theorem C103_tree_materials (A : Around → Prop) (t : KrTree) (da : Option Nat) (M : View → WrittenMessage → Prop)
    (hW : ∀ y ∈ leaves [] t, LeafIntact A M y.1 y.2) (hR : AllReadable M) : BindsContext (SessionsAt (At A t) da) M := by
  rintro _ ⟨_, ⟨a, ha, rfl⟩, rfl⟩ req m hd hl h
  obtain ⟨s, k, h1, h2, h3, halg⟩ := default_key h
  have := tree_only (b := a) (edks := req.edks) (ctx := req.encCtx) (alg := req.alg) t []
    (fun y hy => leaf_only hR ha (hW y hy) hd hl halg) _ rfl k (by rw [h1]; exact h2)
  rw [h3]
  exact this

/-- **C103** (context): the context that a decrypting session shows is, from the first byte consumed on, the context of a message of the
writers. -/
theorem C103_context (E : Env → Prop) (pol : Policy) (v : View) (h : Reach E pol v)
    (hm : v.s.mode.isDecrypt = true) (hne : v.s.state ≠ .error) (hc : v.consumed ≠ []) (M : View → WrittenMessage → Prop)
    (hB : BindsContext E M) :
    ∃ w b ctx, M w b ∧ getEncCtx v.s = some ctx ∧ b.hd.encCtx.Perm ctx ∧ DistinctKeys ctx ∧ wireLen ctx ≤ 65535 := by
  rcases decrypted_of h.hinv hm with ⟨h1, -⟩ | ⟨row, hd, m, k, fr, tr, h1, hfacts, -⟩
  · exact absurd h1 hc
  obtain ⟨q1, q2, -⟩ := hfacts.shown hne
  obtain ⟨e0, he0, hv⟩ := h1.header
  obtain ⟨w, b, hb, hp, -⟩ := hB e0 he0 _ m hv.ok.ctxKeys hv.ok.ctxFits hv.cmm
  refine ⟨w, b, hd.encCtx, hb, ?_, hp, hv.ok.ctxKeys, hv.ok.ctxFits⟩
  unfold getEncCtx
  rw [if_neg (by simp [q2]), q1]

/-- **C103**: sessions with a default CMM that binds contexts; messages whose writers put public keys of their own into their contexts,
and nobody else signed under the private keys.  Then what a session has read when it is done is what one of the writers wrote, though
others have the data keys. -/
theorem C103_bound_written (W : World → Prop) (E : Env → Prop) (hE : ∀ e, E e → ∃ w, W w ∧ UsesDefaultCmm e (verifyStartOf w.ec))
    (pol : Policy) (v : View)
    (h : Reach E pol v) (hm : v.s.mode.isDecrypt = true) (hdone : isDone v.s = true) (We : Env → Prop)
    (M : View → WrittenMessage → Prop) (hM : WrittenIn We M) (hR : AllReadable M) (hB : BindsContext E M) (hK : OwnKeys W E M) :
    ∃ w a, M w a ∧ (∃ sig, v.consumed = a.signedBytes ++ wireTrailer sig) ∧ (∃ sig, w.released = a.signedBytes ++ wireTrailer sig) ∧
      getAlgId v.s = .ok a.hd.algId ∧ getEncCtx v.s = some a.hd.encCtx ∧ (SameCiphers We E → v.released = w.consumed) := by
  have hst : v.s.state = .done := by simpa [isDone] using hdone
  have hne : v.s.state ≠ .error := by rw [hst]; simp
  have hc : v.consumed ≠ [] := by
    rcases decrypted_of h.hinv hm with ⟨-, -, h3⟩ | ⟨row', hd, m, k, fr, tr, h1, -⟩
    · rw [hst] at h3; simp at h3
    obtain ⟨e0, he0, hv⟩ := h1.header
    intro h0
    have := head_wireHeader hv.ok.suite hd (bodyBytes fr ++ tr)
    rw [← List.append_assoc, ← h1.consumed, h0] at this
    cases this
  obtain ⟨w0, b0, ctx, hb0, hctx, hp0, hd, hl⟩ := C103_context E pol v h hm hne hc M hB
  obtain ⟨pub, hpub, hun⟩ := hK.signed w0 b0 hb0
  rw [lookup_perm (hR w0 b0 hb0).ctxKeys hp0] at hpub
  have hE' : ∀ e, E e → ∃ vs, UsesDefaultCmm e vs ∧ ∀ alg sc, vs alg pub = .ok sc → Unforged E sc M := by
    intro e he
    obtain ⟨w, hw, hu⟩ := hE e he
    exact ⟨_, hu, fun alg sc hs => hun w alg sc hw hs⟩
  classical
  obtain ⟨w, a, e, req, m, ha, he, hreq, hdec, hread⟩ := C102_default_cmm E We pol v h hm hdone
    (fun e => if he : E e then Classical.choose (hE' e he) else fun _ _ => .error .unknown)
    (fun e he => by rw [dif_pos he]; exact (Classical.choose_spec (hE' e he)).1) ctx hctx pub hpub M hM
    (fun e alg sc he hs => by rw [dif_pos he] at hs; exact (Classical.choose_spec (hE' e he)).2 alg sc hs)
  obtain ⟨g1, g2⟩ := hread.shown (hR w a ha)
  subst hreq
  obtain ⟨w1, b1, hb1, hp1, hk1⟩ := hB e he req m hd hl hdec
  have hac : req.encCtx = a.hd.encCtx := by rw [hctx] at g2; exact Option.some.inj g2
  have hlk : b1.hd.encCtx.lookup publicKeyName = a.hd.encCtx.lookup publicKeyName := by
    rw [lookup_perm (hR w1 b1 hb1).ctxKeys hp1, hac]
  obtain ⟨rfl, rfl⟩ := hK.own _ _ _ _ hb1 ha hlk
  exact ⟨w1, b1, hb1, hread.read, hread.wrote, g1, g2, fun hS => hread.text (hR _ _ hb1) hS hk1⟩

/-- **C103** (raw AES keyrings, one, or several in a multi-keyring): nobody else wrapped under the wrapping keys, and nobody else signed
under the private keys. -/
theorem C103_written_though_keys_known (W : World → Prop) (kr : UserKr) (da : Option Nat) (pol : Policy) (v : View)
    (h : Reach (Sessions W kr da) pol v) (hm : v.s.mode.isDecrypt = true) (hdone : isDone v.s = true) (We : Env → Prop)
    (M : View → WrittenMessage → Prop) (hM : WrittenIn We M) (hR : AllReadable M) (hW : WrapsIntact W kr M)
    (hK : OwnKeys W (Sessions W kr da) M) :
    ∃ w a, M w a ∧ (∃ sig, v.consumed = a.signedBytes ++ wireTrailer sig) ∧ (∃ sig, w.released = a.signedBytes ++ wireTrailer sig) ∧
      getAlgId v.s = .ok a.hd.algId ∧ getEncCtx v.s = some a.hd.encCtx ∧ (SameCiphers We (Sessions W kr da) → v.released = w.consumed) :=
  C103_bound_written W _ (fun _ ⟨w, hw, he⟩ => ⟨w, hw, w.cmmEnv, kr.keyring w, da, by rw [he]; rfl, rfl⟩) pol v h hm hdone We M hM hR
    (C103_materials W kr da M hW hR) hK

/-- **C103** (trees with KMS keyrings): nobody else wrapped under the keys of the leaves, and nobody else signed under the private keys. -/
theorem C103_tree_written (A : Around → Prop) (t : KrTree) (da : Option Nat) (pol : Policy) (v : View)
    (h : Reach (SessionsAt (At A t) da) pol v) (hm : v.s.mode.isDecrypt = true) (hdone : isDone v.s = true) (We : Env → Prop)
    (M : View → WrittenMessage → Prop) (hM : WrittenIn We M) (hR : AllReadable M) (hW : ∀ y ∈ leaves [] t, LeafIntact A M y.1 y.2)
    (hK : OwnKeys (worlds (At A t)) (SessionsAt (At A t) da) M) :
    ∃ w a, M w a ∧ (∃ sig, v.consumed = a.signedBytes ++ wireTrailer sig) ∧ (∃ sig, w.released = a.signedBytes ++ wireTrailer sig) ∧
      getAlgId v.s = .ok a.hd.algId ∧ getEncCtx v.s = some a.hd.encCtx ∧ (SameCiphers We (SessionsAt (At A t) da) → v.released = w.consumed) :=
  C103_bound_written _ _ (fun _ ⟨m, hm, he⟩ => ⟨m.world, ⟨m, hm, rfl⟩, m.world.cmmEnv, m.kr, da, by rw [he]; rfl, rfl⟩) pol v h hm hdone We M hM hR
    (C103_tree_materials A t da M hW hR) hK

/-! ### a reader with an AES keyring -/

/-- Elliptic curves under which nothing verifies but signatures of `x`. -/
def oneSigned (x : Bytes) : Ec :=
  { toyEc (fun _ => true) true with
    hash := fun h y => List.replicate (match h with | .sha256 => 32 | _ => 48) (if y = x then 1 else 0)
    verify := fun c q d r s => d.head? = some 1 && (toyEc (fun _ => true) true).verify c q d r s
    pubIn := fun c b => if b.length = c.bytes + 1 then some (unbe (b.drop 1)) else none
    hash_len := by simp }

theorem oneSigned_unforged {x : Bytes} {E : Env → Prop} {M : View → WrittenMessage → Prop} (hE : ∀ e, E e → e.crypto.verify = verifyOf (oneSigned x))
    (hM : ∃ w a, M w a ∧ a.tr ≠ [] ∧ a.signedBytes = x) (sc : SigCtx) (alg : Nat) (pub : Bytes)
    (h : verifyStartOf (oneSigned x) alg pub = .ok sc) : Unforged E sc M := by
  constructor
  · unfold verifyStartOf at h
    cases hp : algProps alg with
    | none => rw [hp] at h; cases h
    | some p =>
      rw [hp] at h
      simp only at h
      cases hv : sigVerifyStart (oneSigned x) pub p (fun _ => 0) with
      | mk r w =>
        rw [hv] at h
        cases r with
        | error e => cases h
        | ok o =>
          cases o with
          | none => cases h
          | some c =>
            obtain ⟨_, _, _, -, -, -, hi⟩ := C69_verify_start _ _ _ _ _ _ hv
            cases h
            simp [SigC.view, hi.md]
  · intro e he data sig hv
    obtain ⟨w, a, ha, htr, hx⟩ := hM
    refine ⟨w, a, ha, htr, ?_⟩
    rw [hx]
    rw [hE e he] at hv
    unfold verifyOf SigCtx.full at hv
    simp only at hv
    cases hp : algProps sc.key.alg with
    | none => rw [hp] at hv; cases hv
    | some p =>
      rw [hp] at hv
      simp only [Option.map_some, sigVerifyFinish] at hv
      have hof : ∀ {cv q}, ecdsaVerifyDer (oneSigned x) cv q ((oneSigned x).hash (sigMd p.algId) data) sig = true → data = x := by
        intro cv q hok
        unfold ecdsaVerifyDer at hok
        split at hok
        · split at hok
          · have hd : (List.replicate (match sigMd p.algId with | .sha256 => 32 | _ => 48)
                (if data = x then (1 : UInt8) else 0)).head? = some 1 := by
              have := (Bool.and_eq_true_iff.mp hok).1
              exact of_decide_eq_true this
            by_cases hdata : data = x
            · exact hdata
            · rw [if_neg hdata] at hd
              exfalso; cases hs : sigMd p.algId <;> rw [hs] at hd <;> revert hd <;> decide
          · cases hok
        · cases hok
      cases hcv : sigCurve p.algId with
      | none => rw [hcv] at hv; cases hv
      | some cv =>
        rw [hcv] at hv
        cases hq : sc.key.pub with
        | none => rw [hq] at hv; cases hv
        | some q =>
          rw [hq] at hv
          simp only at hv
          split at hv
          · rename_i hok; exact hof hok
          · cases hv

def C103_kr : UserKr := .one (.aes Example.aes)

/-- The environment of the writer: default CMM, AES keyring. -/
def C103_writerEnv : Env := (C71_world true).env C103_kr none

def C103_hist : List (Env × Op) :=
  [(C103_writerEnv, .setFrameSize 4), (C103_writerEnv, .editCtx (fun _ => [([1], [2])]) (by simp [KeepsTable, DistinctKeys])),
   (C103_writerEnv, .setMessageSize 6), (C103_writerEnv, .process (Example.zeros 600) (some [1, 2, 3, 4, 5, 6]))]

def C103_written : View := run Example.encNew C103_hist

/-- What the CMM gave it. -/
def C103_generate : EncCtx × Except Err EncMaterials := C103_writerEnv.cmm.generate ⟨[([1], [2])], 0, 6, .requireRequire⟩

def C103_made : EncMaterials := C103_generate.2.toOption.getD ⟨0, [], [], [], none⟩

/-- What it wrote. -/
def C103_message : WrittenMessage where
  row := ⟨0x0578, 2, 256, 512, 384, 32⟩
  hd := C103_written.s.header.sorted
  m := C103_made
  k := List.replicate 32 5
  fr := [(⟨.frame, 1, bodyIv 1, [1, 2, 3, 4], List.replicate 16 7⟩, [1, 2, 3, 4]), (⟨.final, 2, bodyIv 2, [5, 6], List.replicate 16 7⟩, [5, 6])]
  tr := C103_written.released.drop 378

theorem C103_written_reach : Reach (· = C103_writerEnv) .requireRequire C103_written :=
  Example.reach_hist (.new (mode := .encrypt) rfl) C103_hist (by simp [C103_hist])

theorem ok_of_toOption {α : Type} {x : Except Err α} {a : α} (h : x.toOption = some a) : x = .ok a := by
  cases x with
  | ok b => simpa [Except.toOption] using h
  | error e => simp [Except.toOption] at h

attribute [local irreducible] C103_message C103_made in
theorem C103_generated : C103_writerEnv.cmm.generate ⟨[([1], [2])], 0, 6, .requireRequire⟩ = (C103_message.hd.encCtx, .ok C103_made) := by
  have h1 : C103_generate.1 = C103_message.hd.encCtx := by decide +kernel
  have h2 : C103_generate.2.toOption = some C103_made := by decide +kernel
  have h3 : ∀ {x : EncCtx × Except Err EncMaterials} {c : EncCtx} {m : EncMaterials}, x.1 = c → x.2.toOption = some m → x = (c, .ok m) :=
    fun h h' => Prod.ext h (ok_of_toOption h')
  have h4 := h3 h1 h2
  unfold C103_generate at h4
  exact h4

theorem C103_wrote : Wrote (· = C103_writerEnv) C103_written C103_message := by
  have hfl : C103_message.hd.frameLen = 4 := by decide +kernel
  refine ⟨⟨⟨_, rfl, ?_⟩, ?_, by decide +kernel, by decide +kernel⟩, Or.inr ⟨⟨[_], _, rfl, ?_, by simp⟩, Or.inr ?_⟩⟩
  · have hmid : C103_message.hd.messageId = List.replicate 32 6 := by decide +kernel
    refine ⟨by simp [C103_message, suiteTable], by decide +kernel, ⟨_, _, C103_generated, .refl _⟩, by decide +kernel, by rw [hmid]; rfl, ⟨?_, ?_⟩,
      ⟨[], ?_⟩, fun h => by simp [C103_message] at h⟩
    · exact ⟨.sha512, rfl, ok_of_toOption (by decide +kernel)⟩
    · exact ⟨.sha512, rfl, ok_of_toOption (by decide +kernel)⟩
    · have : C103_message.hd.authTag = List.replicate 16 7 := by decide +kernel
      rw [this]; rfl
  · intro i hi
    rw [hfl]
    have hi : i < 2 := hi
    rcases i with _ | _ | i
    · exact ⟨⟨rfl, rfl, by simp [C103_message], ⟨by decide, by simp [C103_message], by simp [C103_message]⟩⟩, rfl, rfl, rfl,
        ⟨by simp [C103_message], by decide⟩, fun h => by simp [C103_message] at h, ⟨_, rfl, rfl⟩⟩
    · exact ⟨⟨rfl, rfl, by simp [C103_message], ⟨by decide, by simp [C103_message]⟩⟩, rfl, rfl, rfl, by simp [WithinLimits, C103_message],
        fun h => by simp [C103_message], ⟨_, rfl, rfl⟩⟩
    · omega
  · intro x hx
    rw [List.mem_singleton.mp hx]
  · unfold Signed
    rw [if_neg (by decide)]
    exact ⟨_, C103_made.signctx.getD ⟨⟨0, none, none⟩, []⟩, C103_message.tr.drop 2, rfl, by decide +kernel, ok_of_toOption (by decide +kernel),
      by decide +kernel⟩

/-- Opening in the world of the reader: under the wrapping key only what the writer wrapped opens; anything opens under other keys. -/
def C103_open (key iv aad ct tag : Bytes) : Except Err Bytes :=
  if key = Example.aes.key ∧ (ct ≠ C103_message.m.dataKey ∨ aad ≠ ctxBytes C103_message.hd.encCtx) then .error .badCiphertext
  else Example.crypto.aeadOpen key iv aad ct tag

/-- The world of the reader; nothing verifies but what the writer signed. -/
def C103_world : World :=
  { C71_world true with
    base := { Example.crypto with
      aeadOpen := C103_open
      aeadOpen_len := by
        intro key iv aad ct tag pt h
        unfold C103_open at h
        split at h
        · cases h
        · exact Example.crypto.aeadOpen_len _ _ _ _ _ _ h }
    ec := oneSigned C103_message.signedBytes }

def C103_reader (inp : Bytes) : View :=
  run (Example.decNew .decrypt) [(C103_world.env C103_kr none, .process (Example.zeros 50) (some inp))]

/-- The message, with another byte in the first frame; it opens, as everybody has the data key. -/
def C103_altered : Bytes := C103_written.released.take 317 ++ [9] ++ C103_written.released.drop 318

/-- The message, with another byte in the context. -/
def C103_other_context : Bytes := C103_written.released.take 44 ++ [9] ++ C103_written.released.drop 45

def C103_M (w : View) (a : WrittenMessage) : Prop := w = C103_written ∧ a = C103_message

theorem C103_readable : C103_message.Readable := by
  refine ⟨by simp [C103_message, suiteTable], by decide +kernel, by decide +kernel, by decide +kernel, by decide +kernel, by decide +kernel,
    by decide +kernel, by decide +kernel, by decide +kernel, by decide +kernel, ?_, by decide +kernel⟩
  unfold DistinctKeys
  decide +kernel

attribute [local irreducible] C103_message C103_written

theorem C103_writtenIn : WrittenIn (· = C103_writerEnv) C103_M := by
  rintro _ _ ⟨rfl, rfl⟩
  exact ⟨_, C103_written_reach, by decide +kernel, C103_wrote⟩

theorem C103_allReadable : AllReadable C103_M := by
  rintro _ _ ⟨rfl, rfl⟩
  exact C103_readable

theorem C103_intact : WrapsIntact (· = C103_world) C103_kr C103_M := by
  intro r hr
  refine ⟨Example.aes, List.mem_singleton.mp hr, ?_⟩
  rintro _ rfl iv aad ct tag key h
  have h : C103_open Example.aes.key iv aad ct tag = .ok key := h
  unfold C103_open at h
  split at h
  · cases h
  · rename_i hc
    simp only [true_and, not_or, Decidable.not_not] at hc
    refine ⟨_, _, ⟨rfl, rfl⟩, ?_, (ctxAad_iff C103_readable.ctxKeys _).mpr hc.2⟩
    unfold Example.crypto at h
    simp only at h
    split at h
    · cases h; exact hc.1
    · cases h

theorem C103_own {E : Env → Prop} (hE : ∀ e, E e → e.crypto = C103_world.crypto) : OwnKeys (· = C103_world) E C103_M := by
  refine ⟨?_, ?_⟩
  · rintro _ _ ⟨rfl, rfl⟩
    have hs : (C103_message.hd.encCtx.lookup publicKeyName).isSome = true := by decide +kernel
    obtain ⟨pub, hpub⟩ := Option.isSome_iff_exists.mp hs
    refine ⟨pub, hpub, ?_⟩
    rintro _ alg sc rfl h
    exact oneSigned_unforged (fun e he => by rw [hE e he]; rfl) ⟨_, _, ⟨rfl, rfl⟩, by decide +kernel, rfl⟩ sc alg pub h
  · rintro _ _ _ _ ⟨h1, h2⟩ ⟨h3, h4⟩ -
    exact ⟨h1.trans h3.symm, h2.trans h4.symm⟩

theorem C103_same {E : Env → Prop} (hE : ∀ e, E e → e.crypto = C103_world.crypto) : SameCiphers (· = C103_writerEnv) E := by
  rintro _ e rfl he
  rw [hE e he]
  refine ⟨fun k iv aad pt ct tag x h1 h2 => ?_, fun sha salt ikm info n x y h1 h2 => ?_⟩
  · have h1 : some (pt, List.replicate 16 7) = some (ct, tag) := h1
    have h2 : C103_open k iv aad ct tag = .ok x := h2
    cases h1
    unfold C103_open at h2
    split at h2
    · cases h2
    · unfold Example.crypto at h2
      simp only [if_true] at h2
      cases h2; rfl
  · have h1 : hkdfOf (C71_world true).hmac sha salt ikm info n = .ok x := h1
    have h2 : hkdfOf (C71_world true).hmac sha salt ikm info n = .ok y := h2
    rw [h1] at h2
    exact Except.ok.inj h2

/-- All hypotheses hold for this reader and this writer, and the reader reads the message to its end.  The altered message opens but its
signature does not verify; of the message with another context the data key does not open. -/
example : WrittenIn (· = C103_writerEnv) C103_M ∧ AllReadable C103_M ∧ WrapsIntact (· = C103_world) C103_kr C103_M ∧
    OwnKeys (· = C103_world) (Sessions (· = C103_world) C103_kr none) C103_M ∧
    SameCiphers (· = C103_writerEnv) (Sessions (· = C103_world) C103_kr none) ∧ (∀ inp, Reach (Sessions (· = C103_world) C103_kr none) .requireRequire (C103_reader inp)) ∧
    isDone (C103_reader C103_written.released).s = true ∧ (C103_reader C103_written.released).released = [1, 2, 3, 4, 5, 6] ∧
    (C103_reader C103_altered).s.state = .error ∧ (C103_reader C103_other_context).s.state = .error :=
  ⟨C103_writtenIn, C103_allReadable, C103_intact, C103_own (by rintro _ ⟨_, rfl, rfl⟩; rfl), C103_same (by rintro _ ⟨_, rfl, rfl⟩; rfl),
    fun inp => Reach.call (.process (Example.zeros 50) (some inp)) (Example.decNew_reach _ .decrypt (Or.inl rfl)) ⟨_, rfl, rfl⟩,
    by decide +kernel, by decide +kernel, by decide +kernel, by decide +kernel⟩

/-! ### RSA does not bind the context -/

def C103_rsaKr : UserKr := .one (.rsa ⟨[114], [115], some [8], some [8], 1⟩)

/-- A world in which the private key opens nothing but what is an encryption of the data key of the writer. -/
def C103_rsaWorld : World :=
  { C71_world true with
    kr := fun _ => { C71_krEnv 170 with
      rsaDecrypt := fun pem pad ct => match (C71_krEnv 170).rsaDecrypt pem pad ct with
        | .ok k => if k = List.replicate 32 41 then .ok k else .error .badCiphertext
        | .error e => .error e } }

def C103_rsaEnv : Env := C103_rsaWorld.env C103_rsaKr (some 0x0478)

def C103_rsaHist : List (Env × Op) :=
  [(C103_rsaEnv, .setFrameSize 4), (C103_rsaEnv, .editCtx (fun _ => [([1], [2])]) (by simp [KeepsTable, DistinctKeys])),
   (C103_rsaEnv, .setMessageSize 6), (C103_rsaEnv, .process (Example.zeros 600) (some [1, 2, 3, 4, 5, 6]))]

def C103_rsaWritten : View := run Example.encNew C103_rsaHist

/-- The message with another context. -/
def C103_rsaForged : Bytes := C103_rsaWritten.released.take 44 ++ [9] ++ C103_rsaWritten.released.drop 45

def C103_rsaReader : View := run (Example.decNew .decrypt) [(C103_rsaEnv, .process (Example.zeros 50) (some C103_rsaForged))]

/-- What the CMM gave the writer. -/
def C103_rsaGenerate : EncCtx × Except Err EncMaterials := C103_rsaEnv.cmm.generate ⟨[([1], [2])], 0, 6, .requireRequire⟩

def C103_rsaMessage : WrittenMessage where
  row := ⟨0x0478, 2, 256, 512, 0, 32⟩
  hd := C103_rsaWritten.s.header.sorted
  m := C103_rsaGenerate.2.toOption.getD ⟨0, [], [], [], none⟩
  k := List.replicate 32 5
  fr := [(⟨.frame, 1, bodyIv 1, [1, 2, 3, 4], List.replicate 16 7⟩, [1, 2, 3, 4]), (⟨.final, 2, bodyIv 2, [5, 6], List.replicate 16 7⟩, [5, 6])]
  tr := []

attribute [local irreducible] C103_rsaMessage in
theorem C103_rsaGenerated : C103_rsaEnv.cmm.generate ⟨[([1], [2])], 0, 6, .requireRequire⟩ =
    (C103_rsaMessage.hd.encCtx, .ok C103_rsaMessage.m) := by
  have h1 : C103_rsaGenerate.1 = C103_rsaMessage.hd.encCtx := by decide +kernel
  have h2 : C103_rsaGenerate.2.toOption = some C103_rsaMessage.m := by decide +kernel
  have h3 : ∀ {x : EncCtx × Except Err EncMaterials} {c : EncCtx} {m : EncMaterials}, x.1 = c → x.2.toOption = some m → x = (c, .ok m) :=
    fun h h' => Prod.ext h (ok_of_toOption h')
  have h4 := h3 h1 h2
  unfold C103_rsaGenerate at h4
  exact h4

theorem C103_rsaWrote : Wrote (· = C103_rsaEnv) C103_rsaWritten C103_rsaMessage := by
  have hfl : C103_rsaMessage.hd.frameLen = 4 := by decide +kernel
  refine ⟨⟨⟨_, rfl, ?_⟩, ?_, by decide +kernel, by decide +kernel⟩, Or.inr ⟨⟨[_], _, rfl, ?_, by simp⟩, Or.inl rfl⟩⟩
  · have hmid : C103_rsaMessage.hd.messageId = List.replicate 32 6 := by decide +kernel
    refine ⟨by simp [C103_rsaMessage, suiteTable], by decide +kernel, ⟨_, _, C103_rsaGenerated, .refl _⟩, by decide +kernel, by rw [hmid]; rfl,
      ⟨?_, ?_⟩, ⟨[], ?_⟩, fun h => by simp [C103_rsaMessage] at h⟩
    · exact ⟨.sha512, rfl, ok_of_toOption (by decide +kernel)⟩
    · exact ⟨.sha512, rfl, ok_of_toOption (by decide +kernel)⟩
    · have : C103_rsaMessage.hd.authTag = List.replicate 16 7 := by decide +kernel
      rw [this]; rfl
  · intro i hi
    rw [hfl]
    have hi : i < 2 := hi
    rcases i with _ | _ | i
    · exact ⟨⟨rfl, rfl, by simp [C103_rsaMessage], ⟨by decide, by simp [C103_rsaMessage], by simp [C103_rsaMessage]⟩⟩, rfl, rfl, rfl,
        ⟨by simp [C103_rsaMessage], by decide⟩, fun h => by simp [C103_rsaMessage] at h, ⟨_, rfl, rfl⟩⟩
    · exact ⟨⟨rfl, rfl, by simp [C103_rsaMessage], ⟨by decide, by simp [C103_rsaMessage]⟩⟩, rfl, rfl, rfl,
        by simp [WithinLimits, C103_rsaMessage], fun h => by simp [C103_rsaMessage], ⟨_, rfl, rfl⟩⟩
    · omega
  · intro x hx
    rw [List.mem_singleton.mp hx]

theorem C103_rsaReadable : C103_rsaMessage.Readable := by
  refine ⟨by simp [C103_rsaMessage, suiteTable], by decide +kernel, by decide +kernel, by decide +kernel, by decide +kernel, by decide +kernel,
    by decide +kernel, by decide +kernel, by decide +kernel, by decide +kernel, ?_, by decide +kernel⟩
  unfold DistinctKeys
  decide +kernel

attribute [local irreducible] C103_rsaMessage C103_rsaWritten

/-- **C103** (RSA): with a raw RSA keyring the wrapping does not bind the context.  Nothing opens under the private key but the data key
of the one message; a session is done and shows a context that nobody wrote. -/
theorem C103_rsa_refuted : ∃ (W : World → Prop) (a : RawRsa) (priv : Bytes) (da : Option Nat) (We : Env → Prop) (M : View → WrittenMessage → Prop)
    (v : View), WrittenIn We M ∧ AllReadable M ∧ a.priv = some priv ∧
    (∀ w, W w → ∀ i pad ct key, (w.kr i).rsaDecrypt priv pad ct = .ok key → ∃ v b, M v b ∧ key = b.m.dataKey) ∧
    Reach (Sessions W (.one (.rsa a)) da) .requireRequire v ∧ v.s.mode.isDecrypt = true ∧ isDone v.s = true ∧
    ∃ ctx, getEncCtx v.s = some ctx ∧ ∀ w b, M w b → ¬ b.hd.encCtx.Perm ctx := by
  refine ⟨(· = C103_rsaWorld), ⟨[114], [115], some [8], some [8], 1⟩, [8], some 0x0478, (· = C103_rsaEnv),
    fun w b => w = C103_rsaWritten ∧ b = C103_rsaMessage, C103_rsaReader, ?_, ?_, rfl, ?_, ?_, by decide +kernel, by decide +kernel,
    [([1], [9])], by decide +kernel, ?_⟩
  · rintro _ _ ⟨rfl, rfl⟩
    have h := Example.reach_hist (E := (· = C103_rsaEnv)) (v := Example.encNew) (.new (mode := .encrypt) rfl) C103_rsaHist (by simp [C103_rsaHist])
    refine ⟨.requireRequire, ?_, by decide +kernel, C103_rsaWrote⟩
    unfold C103_rsaWritten
    exact h
  · rintro _ _ ⟨rfl, rfl⟩
    exact C103_rsaReadable
  · rintro _ rfl i pad ct key h
    refine ⟨_, _, ⟨rfl, rfl⟩, ?_⟩
    have hk : C103_rsaMessage.m.dataKey = List.replicate 32 41 := by decide +kernel
    rw [hk]
    unfold C103_rsaWorld at h
    simp only at h
    split at h
    · split at h
      · rename_i hx; cases h; exact hx
      · cases h
    · cases h
  · exact Reach.call (.process (Example.zeros 50) (some C103_rsaForged)) (Example.decNew_reach _ .decrypt (Or.inl rfl)) ⟨_, rfl, rfl⟩
  · rintro _ _ ⟨rfl, rfl⟩ hp
    have hc : C103_rsaMessage.hd.encCtx = [([1], [2])] := by decide +kernel
    rw [hc] at hp
    have := hp.mem_iff (a := ([1], [9])) |>.mpr (by simp)
    revert this
    decide

end Verif.Props
