import Verif.Proof.Secrets
/-
C87: key material in memory that is given back.
-/
namespace Verif.Props
open Verif Verif.Spec Verif.Secrets

/-- **C87.**  Whatever sessions, caches and keyrings a program uses and whichever steps fail: a block that may have held key material is blank
when it is released, unless an encryption failed to wrap a data key that a keyring of this kind had generated, or the block is the local
copy of a data key of a decryption. -/
theorem C87_wiped_partial (F : Fns) (secrets : Nat → Bytes) (ops : List Op) {x : Site × Bytes} (hx : x ∈ (runOps F {} ops secrets {}).2.left) :
    Blank x.2 ∨ ∃ op ∈ ops, LeavesAt op x.1 :=
  (own_runOps F secrets ops).left x hx

/-- **C87.**  Encryption leaves no key material, if keyrings that generate a data key also wrap it. -/
theorem C87_encryption_leaves_nothing_partial (F : Fns) (secrets : Nat → Bytes) (ops : List Op)
    (hd : ∀ op ∈ ops, ∀ i p src plan, op ≠ .decrypt i p src plan)
    (hw : ∀ op ∈ ops, ∀ i p ready kr put plan, op = .encrypt i p (.fresh ready kr put) plan → ∀ k, ¬WrapFails k kr)
    {x : Site × Bytes} (hx : x ∈ (runOps F {} ops secrets {}).2.left) : Blank x.2 := by
  rcases C87_wiped_partial F secrets ops hx with h | ⟨op, ho, hl⟩
  · exact h
  · obtain ⟨x, b⟩ := x
    cases hl with
    | wrap h hk => exact absurd hk (hw op ho _ _ _ _ _ _ h _)
    | derive h => exact absurd h (hd op ho _ _ _ _)

/-- **C87.**  Memory with key material is live only as part of a session, a cache entry or a raw keyring, and no two of them share it. -/
theorem C87_owned (F : Fns) (secrets : Nat → Bytes) (ops : List Op) (a : Nat) :
    ((runOps F {} ops secrets {}).2.live a ≠ none ↔ a ∈ blocksOf (runOps F {} ops secrets {}).1) ∧
      (blocksOf (runOps F {} ops secrets {}).1).Nodup :=
  ⟨(own_runOps F secrets ops).dom a, (own_runOps F secrets ops).nodup⟩

/-- **C87.**  When all sessions, cache entries and keyrings are gone, so is all memory with key material. -/
theorem C87_nothing_remains (F : Fns) (secrets : Nat → Bytes) (ops : List Op) {o : Objs} (ho : (runOps F {} ops secrets {}).1 = o)
    (hs : o.sessions = []) (he : o.entries = []) (hk : o.keys = []) (a : Nat) : (runOps F {} ops secrets {}).2.live a = none := by
  have h := (C87_owned F secrets ops a).1
  rw [ho] at h
  simp [blocksOf, hs, he, hk] at h
  exact h

/-- **C87.**  Resetting a session wipes its content key. -/
theorem C87_reset_wipes (F : Fns) (secrets : Nat → Bytes) (o : Objs) (m : Mem) (i s : Nat) (hi : o.sessions[i]? = some s) (b : Bytes)
    (hb : (opStep F o (.resetSession i) secrets m).2.live s = some b) : Blank (b.take 32) := by
  simp only [opStep, hi] at hb
  change (change s _ m).live s = some b at hb
  rw [change_live, if_pos rfl] at hb
  obtain ⟨b', _, rfl⟩ := Option.map_eq_some_iff.1 hb
  rw [show ((fun _ => []) ([].map m.get) : Bytes) = [] from rfl, fit_nil]
  exact splice_zero_take b' 32

/-- The suite AES-256-GCM with HKDF. -/
private def suite : AlgProps := staticAlgProps 0x0178 1 "sha256" 256 0 0 0

/-- **C87** refuted for keyrings that fail to wrap: each kind of keyring (raw_aes_keyring.c:173, raw_rsa_keyring.c:95, kms_keyring.cpp:298 and
kms_mrk_keyring.cpp:605) then gives back the memory of the data key it generated with the data key in it. -/
theorem C87_failed_wrap_refuted (k : Kind) (key : Bytes) (hk : key.length = 32) : ∃ ops : List Op, ∀ F secrets, secrets 0 = key →
    (k.site, key) ∈ (runOps F {} ops secrets {}).2.left := by
  refine ⟨[.newSession, .encrypt 0 suite (.fresh true (.leaf { kind := k, wrapOk := false }) none) {}], fun F secrets h => ?_⟩
  have h32 : splice (List.replicate 32 0) 0 (fit 32 (secrets 0)) = key := by
    rw [h, fit_self hk, splice_all hk (by simp)]
  rw [← h32]
  cases k <;> exact List.mem_cons_of_mem _ (List.mem_cons_self ..)

/-- **C87** refuted for decryption: after every derivation of a content key, the data key stays in the stack frame of `derive_data_key`
(session_decrypt.c:80-101), here in the plainest successful decryption with a raw AES keyring. -/
theorem C87_decryption_refuted (key : Bytes) (hk : key.length = 32) : ∃ ops : List Op, ∀ F secrets, secrets 0 = key →
    (Site.deriveFrame, key) ∈ (runOps F {} ops secrets {}).2.left := by
  refine ⟨[.newSession, .decrypt 0 suite (.fresh (.leaf { kind := .aes, attempts := [.works 32] }) true none)
    { kdf := { key := { own := false } } }], fun F secrets h => ?_⟩
  have h32 : splice (List.replicate 32 0) 0 (fit 32 (splice (List.replicate 32 0) 0 (fit 32 (secrets 0)))) = key := by
    rw [h, fit_self hk, splice_all hk (by simp), fit_self hk, splice_all hk (by simp)]
  rw [← h32]
  exact List.mem_cons_of_mem _ (List.mem_cons_self ..)

/-! Examples -/

private def fns : Fns := ⟨fun _ k m => k ++ m, fun _ k i => k ++ i⟩
private def keys (i : Nat) : Bytes := List.replicate 80 (UInt8.ofNat (i + 1))
private def noKdf : AlgProps := staticAlgProps 0x0078 1 "NULL" 256 0 0 0
private def signed : AlgProps := staticAlgProps 0x0578 2 "sha512" 256 103 256 256

/-- A multi-keyring, materials put into a cache with a private signing key, a second message from the cache, everything destroyed. -/
private def tour : List Op :=
  [.newKeyring 32, .newSession, .newSession,
   .encrypt 0 signed (.fresh true (.multi (some (.leaf { kind := .aes })) [.leaf { kind := .rsa }, .leaf { kind := .kms }] true)
     (some { priv := some (.ok, 50, 49) })) {},
   .encrypt 1 signed (.hit 0 true true) {}, .resetSession 0, .evict 0, .destroySession 0, .destroySession 0, .destroyKeyring 0]

/- The session of an unwrapped suite without KDF holds the data key, which is gone after the session is destroyed; the data key's own block and
the local copy were wiped before. -/
example : let ops := [Op.newSession, .encrypt 0 noKdf (.fresh true (.leaf { kind := .aes }) none) {}]
    (runOps fns {} ops keys {}).2.live 0 = some (List.replicate 32 1 ++ List.replicate 32 0) ∧
    (runOps fns {} ops keys {}).2.left = [(.genKeyFrame, List.replicate 32 0), (.materials, List.replicate 32 0)] ∧
    (runOps fns {} (ops ++ [.destroySession 0]) keys {}).2.left.head? = some (.session, List.replicate 64 0) := by decide +kernel

example : (runOps fns {} tour keys {}).2.left.length = 19 ∧ (runOps fns {} tour keys {}).1.sessions = [] ∧
    (runOps fns {} tour keys {}).1.entries = [] ∧ (runOps fns {} tour keys {}).1.keys = [] ∧
    (∀ x ∈ (runOps fns {} tour keys {}).2.left, ∀ y ∈ x.2, y = 0) ∧
    ((runOps fns {} (tour.take 5) keys {}).2.live 1 ≠ (runOps fns {} (tour.take 3) keys {}).2.live 1) := by decide +kernel

/- A decryption with failed attempts, whose only trace is the local copy. -/
example : ((runOps fns {} [.newSession, .decrypt 0 signed (.fresh (.multi none [.leaf { kind := .aes, attempts := [.failed 0, .skipped, .failed 0] },
      .leaf { kind := .rsa, attempts := [.failed 256, .works 256] }]) true (some {})) {}, .destroySession 0, .evict 0] keys {}).2.left.filter
    fun x => x.2.any (· != 0)) = [(.deriveFrame, List.replicate 32 4)] := by decide +kernel

end Verif.Props
