import Verif.Props.WrapIntegrity
/-
C103: a reader with KMS keyrings, and what fails with KMS keyrings in discovery mode.
-/
namespace Verif.Props
open Verif Verif.Spec Verif.Proof

/-- The writer has a KMS keyring with two keys. -/
def C103_kmsWriterEnv : Env := (C71_world true).envWith (KrTree.keyring (C89_around true) [] (.leaf (.kms Example.kmsStrict))) none

def C103_kmsHist : List (Env × Op) :=
  [(C103_kmsWriterEnv, .setFrameSize 4), (C103_kmsWriterEnv, .editCtx (fun _ => [([1], [2])]) (by simp [KeepsTable, DistinctKeys])),
   (C103_kmsWriterEnv, .setMessageSize 6), (C103_kmsWriterEnv, .process (Example.zeros 700) (some [1, 2, 3, 4, 5, 6]))]

def C103_kmsWritten : View := run Example.encNew C103_kmsHist

/-- What the CMM gave it. -/
def C103_kmsGenerate : EncCtx × Except Err EncMaterials := C103_kmsWriterEnv.cmm.generate ⟨[([1], [2])], 0, 6, .requireRequire⟩

/-- What it wrote. -/
def C103_kmsMessage : WrittenMessage where
  row := ⟨0x0578, 2, 256, 512, 384, 32⟩
  hd := C103_kmsWritten.s.header.sorted
  m := C103_kmsGenerate.2.toOption.getD ⟨0, [], [], [], none⟩
  k := List.replicate 32 5
  fr := [(⟨.frame, 1, bodyIv 1, [1, 2, 3, 4], List.replicate 16 7⟩, [1, 2, 3, 4]), (⟨.final, 2, bodyIv 2, [5, 6], List.replicate 16 7⟩, [5, 6])]
  tr := C103_kmsWritten.released.drop 466

theorem C103_kmsWritten_reach : Reach (· = C103_kmsWriterEnv) .requireRequire C103_kmsWritten :=
  Example.reach_hist (.new (mode := .encrypt) rfl) C103_kmsHist (by simp [C103_kmsHist])

attribute [local irreducible] C103_kmsMessage in
theorem C103_kmsGenerated : C103_kmsWriterEnv.cmm.generate ⟨[([1], [2])], 0, 6, .requireRequire⟩ =
    (C103_kmsMessage.hd.encCtx, .ok C103_kmsMessage.m) := by
  have h1 : C103_kmsGenerate.1 = C103_kmsMessage.hd.encCtx := by decide +kernel
  have h2 : C103_kmsGenerate.2.toOption = some C103_kmsMessage.m := by decide +kernel
  have h3 : ∀ {x : EncCtx × Except Err EncMaterials} {c : EncCtx} {m : EncMaterials}, x.1 = c → x.2.toOption = some m → x = (c, .ok m) :=
    fun h h' => Prod.ext h (ok_of_toOption h')
  have h4 := h3 h1 h2
  unfold C103_kmsGenerate at h4
  exact h4

theorem C103_kmsWrote : Wrote (· = C103_kmsWriterEnv) C103_kmsWritten C103_kmsMessage := by
  have hfl : C103_kmsMessage.hd.frameLen = 4 := by decide +kernel
  refine ⟨⟨⟨_, rfl, ?_⟩, ?_, by decide +kernel, by decide +kernel⟩, Or.inr ⟨⟨[_], _, rfl, ?_, by simp⟩, Or.inr ?_⟩⟩
  · have hmid : C103_kmsMessage.hd.messageId = List.replicate 32 6 := by decide +kernel
    refine ⟨by simp [C103_kmsMessage, suiteTable], by decide +kernel, ⟨_, _, C103_kmsGenerated, .refl _⟩, by decide +kernel, by rw [hmid]; rfl,
      ⟨?_, ?_⟩, ⟨[], ?_⟩, fun h => by simp [C103_kmsMessage] at h⟩
    · exact ⟨.sha512, rfl, ok_of_toOption (by decide +kernel)⟩
    · exact ⟨.sha512, rfl, ok_of_toOption (by decide +kernel)⟩
    · have : C103_kmsMessage.hd.authTag = List.replicate 16 7 := by decide +kernel
      rw [this]; rfl
  · intro i hi
    rw [hfl]
    have hi : i < 2 := hi
    rcases i with _ | _ | i
    · exact ⟨⟨rfl, rfl, by simp [C103_kmsMessage], ⟨by decide, by simp [C103_kmsMessage], by simp [C103_kmsMessage]⟩⟩, rfl, rfl, rfl,
        ⟨by simp [C103_kmsMessage], by decide⟩, fun h => by simp [C103_kmsMessage] at h, ⟨_, rfl, rfl⟩⟩
    · exact ⟨⟨rfl, rfl, by simp [C103_kmsMessage], ⟨by decide, by simp [C103_kmsMessage]⟩⟩, rfl, rfl, rfl,
        by simp [WithinLimits, C103_kmsMessage], fun h => by simp [C103_kmsMessage], ⟨_, rfl, rfl⟩⟩
    · omega
  · intro x hx
    rw [List.mem_singleton.mp hx]
  · unfold Signed
    rw [if_neg (by decide)]
    exact ⟨_, C103_kmsMessage.m.signctx.getD ⟨⟨0, none, none⟩, []⟩, C103_kmsMessage.tr.drop 2, rfl, by decide +kernel,
      ok_of_toOption (by decide +kernel), by decide +kernel⟩

theorem C103_kmsReadable : C103_kmsMessage.Readable := by
  refine ⟨by simp [C103_kmsMessage, suiteTable], by decide +kernel, by decide +kernel, by decide +kernel, by decide +kernel, by decide +kernel,
    by decide +kernel, by decide +kernel, by decide +kernel, by decide +kernel, ?_, by decide +kernel⟩
  unfold DistinctKeys
  decide +kernel

/-- A KMS that decrypts nothing but the data key of the writer, in its context. -/
def C103_kms : KmsEnv :=
  { Example.kmsEnv with
    decrypt := fun i c r =>
      if r.ctx.isPerm C103_kmsMessage.hd.encCtx = true ∧ r.ciphertext.dropLast = C103_kmsMessage.m.dataKey then Example.kmsEnv.decrypt i c r else none }

/-- Around the reader: that KMS, and nothing verifies but what the writer signed. -/
def C103_around : Around where
  world := { C71_world true with ec := oneSigned C103_kmsMessage.signedBytes }
  kr _ := C71_krEnv 170
  kms _ := C103_kms
  multi _ := Example.multiAlloc

/-- The reader has a public RSA key, a multi-Region key, and one of the keys of the writer. -/
def C103_tree : KrTree :=
  .multiGen (.leaf (.raw (.rsa ⟨[114], [115], none, some [8], 1⟩))) [.leaf (.mrk Example.mrkStrict), .multi [.leaf (.kms ⟨[Example.arn2], [], none⟩)]]

def C103_kmsReader (inp : Bytes) : View :=
  run (Example.decNew .decrypt) [(C103_around.world.envWith (C103_tree.keyring C103_around []) none, .process (Example.zeros 50) (some inp))]

/-- The message, with another byte in the second frame; it opens, as everybody has the data key. -/
def C103_kmsAltered : Bytes := C103_kmsWritten.released.take 448 ++ [9] ++ C103_kmsWritten.released.drop 449

/-- The message, with another byte in the context. -/
def C103_kmsOtherContext : Bytes := C103_kmsWritten.released.take 44 ++ [9] ++ C103_kmsWritten.released.drop 45

def C103_kmsM (w : View) (a : WrittenMessage) : Prop := w = C103_kmsWritten ∧ a = C103_kmsMessage

attribute [local irreducible] C103_kmsMessage C103_kmsWritten

theorem C103_kms_decrypts {i c : Nat} {id ct : Bytes} {ctx : EncCtx} {grants : List Bytes} {used key : Bytes}
    (h : C103_kms.decrypt i c ⟨id, ct, ctx, grants⟩ = some (used, key)) :
    ∃ v b, C103_kmsM v b ∧ key = b.m.dataKey ∧ b.hd.encCtx.Perm ctx := by
  have h : (if ctx.isPerm C103_kmsMessage.hd.encCtx = true ∧ ct.dropLast = C103_kmsMessage.m.dataKey then
    Example.kmsEnv.decrypt i c ⟨id, ct, ctx, grants⟩ else none) = some (used, key) := h
  split at h
  · rename_i hc
    refine ⟨_, _, ⟨rfl, rfl⟩, ?_, (List.isPerm_iff.mp hc.1).symm⟩
    unfold Example.kmsEnv at h
    simp only at h
    split at h
    · cases h; exact hc.2
    · cases h
  · cases h

theorem C103_kmsWrittenIn : WrittenIn (· = C103_kmsWriterEnv) C103_kmsM := by
  rintro _ _ ⟨rfl, rfl⟩
  exact ⟨_, C103_kmsWritten_reach, by decide +kernel, C103_kmsWrote⟩

theorem C103_kmsAllReadable : AllReadable C103_kmsM := by
  rintro _ _ ⟨rfl, rfl⟩
  exact C103_kmsReadable

theorem C103_kmsIntact : ∀ y ∈ leaves [] C103_tree, LeafIntact (· = C103_around) C103_kmsM y.1 y.2 := by
  intro y hy
  simp only [C103_tree, leaves, leavesFrom, List.cons_append, List.nil_append, List.append_nil, List.mem_cons, List.not_mem_nil, or_false] at hy
  rcases hy with rfl | rfl | rfl
  · exact rfl
  · refine ⟨by decide, ?_⟩
    rintro _ rfl i c ct ctx key h
    exact C103_kms_decrypts h
  · refine ⟨by simp, ?_⟩
    rintro _ rfl id - i c ct ctx key h
    exact C103_kms_decrypts h

theorem C103_kmsOwn {E : Env → Prop} (hE : ∀ e, E e → e.crypto = C103_around.world.crypto) :
    OwnKeys (worlds (At (· = C103_around) C103_tree)) E C103_kmsM := by
  refine ⟨?_, ?_⟩
  · rintro _ _ ⟨rfl, rfl⟩
    have hs : (C103_kmsMessage.hd.encCtx.lookup publicKeyName).isSome = true := by decide +kernel
    obtain ⟨pub, hpub⟩ := Option.isSome_iff_exists.mp hs
    refine ⟨pub, hpub, ?_⟩
    rintro _ alg sc ⟨_, ⟨_, rfl, rfl⟩, rfl⟩ h
    exact oneSigned_unforged (fun e he => by rw [hE e he]; rfl) ⟨_, _, ⟨rfl, rfl⟩, by decide +kernel, rfl⟩ sc alg pub h
  · rintro _ _ _ _ ⟨h1, h2⟩ ⟨h3, h4⟩ -
    exact ⟨h1.trans h3.symm, h2.trans h4.symm⟩

/-- All hypotheses hold for this reader and this writer, and the reader reads the message to its end.  The altered message opens but its
signature does not verify; for the message with another context KMS refuses to decrypt the data key. -/
example : WrittenIn (· = C103_kmsWriterEnv) C103_kmsM ∧ AllReadable C103_kmsM ∧
    (∀ y ∈ leaves [] C103_tree, LeafIntact (· = C103_around) C103_kmsM y.1 y.2) ∧
    OwnKeys (worlds (At (· = C103_around) C103_tree)) (SessionsAt (At (· = C103_around) C103_tree) none) C103_kmsM ∧
    (∀ inp, Reach (SessionsAt (At (· = C103_around) C103_tree) none) .requireRequire (C103_kmsReader inp)) ∧
    isDone (C103_kmsReader C103_kmsWritten.released).s = true ∧ (C103_kmsReader C103_kmsWritten.released).released = [1, 2, 3, 4, 5, 6] ∧
    (C103_kmsReader C103_kmsAltered).s.state = .error ∧ (C103_kmsReader C103_kmsOtherContext).s.state = .error ∧
    (C103_kmsReader C103_kmsOtherContext).released = [] :=
  ⟨C103_kmsWrittenIn, C103_kmsAllReadable, C103_kmsIntact, C103_kmsOwn (by rintro _ ⟨_, ⟨_, rfl, rfl⟩, rfl⟩; rfl),
    fun inp => Reach.call (.process (Example.zeros 50) (some inp)) (Example.decNew_reach _ .decrypt (Or.inl rfl)) ⟨_, ⟨_, rfl, rfl⟩, rfl⟩,
    by decide +kernel, by decide +kernel, by decide +kernel, by decide +kernel, by decide +kernel⟩

/-- A KMS that decrypts nothing under the keys of the writer above. -/
def C103_foreignKms : KmsEnv :=
  { Example.kmsEnv with decrypt := fun i c r => if r.keyId ∈ [Example.arn1, Example.arn2] then none else Example.kmsEnv.decrypt i c r }

def C103_foreignAround : Around := { C89_around true with kms := fun _ => C103_foreignKms }

/-- A session reads what somebody wrote with a multi-Region key of another region. -/
def C103_foreignReader : View :=
  run (Example.decNew .decrypt) [(C103_foreignAround.world.envWith (KrTree.keyring C103_foreignAround [] (.leaf (.mrk C89_disco))) none,
    .process (Example.zeros 50) (some C89_written.released))]

/-- **C103** (discovery mode): a KMS keyring in discovery mode asks KMS to use whatever key a message names.  KMS decrypts nothing at all under
the keys of the organization; a session without a discovery filter is still done with a message of a signing suite, of somebody with
another key. -/
theorem C103_discovery_refuted : ∃ (A : Around → Prop) (own : List Bytes) (kr : MrkKeyring) (v : View), own ≠ [] ∧ kr.keyId = [] ∧
    (∀ x, A x → ∀ p i c r, r.keyId ∈ own → (x.kms p).decrypt i c r = none) ∧
    Reach (SessionsAt (At A (.leaf (.mrk kr))) none) .requireRequire v ∧ v.s.mode.isDecrypt = true ∧ isDone v.s = true ∧
    v.released = [1, 2, 3, 4, 5, 6] ∧ (v.s.header.encCtx.lookup publicKeyName).isSome = true := by
  refine ⟨(· = C103_foreignAround), [Example.arn1, Example.arn2], C89_disco, C103_foreignReader, by simp, rfl, ?_, ?_, by decide +kernel,
    by decide +kernel, by decide +kernel, by decide +kernel⟩
  · rintro _ rfl p i c r h
    exact if_pos h
  · exact Reach.call (.process (Example.zeros 50) (some C89_written.released)) (Example.decNew_reach _ .decrypt (Or.inl rfl)) ⟨_, ⟨_, rfl, rfl⟩, rfl⟩

end Verif.Props
