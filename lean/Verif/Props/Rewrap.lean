import Verif.Proof.Rewrap
import Verif.Props.Rekey
import Verif.Props.KeyringTree
/-
C113: no keyring of the library uses a data key for anything but to have it wrapped.
-/
namespace Verif.Props
open Verif Verif.Spec Verif.Proof

/-- **C113, encryption.**  Take any keyring of the library, with multi-keyrings nested as one likes, and replace every data key by another
of the same length: the one passed in, the random one of a raw keyring, those that KMS makes.  Let AES-GCM, RSA and KMS make of the
replacement what they made of the key.  Then `aws_cryptosdk_keyring_on_encrypt` returns the same, with the same encrypted data keys, keyring
trace and last error, and the data key is the replaced one. -/
theorem C113_encrypt {φ : Bytes → Bytes} {a a' : Around} (h : Rewrap φ a a') (t : KrTree) (ctx : EncCtx) (alg : Nat) (s : EncState) :
    keyringOnEncrypt (t.keyring a' []) ctx alg (rekeyEnc φ s) =
      ((keyringOnEncrypt (t.keyring a []) ctx alg s).1, rekeyEnc φ (keyringOnEncrypt (t.keyring a []) ctx alg s).2) :=
  (tree_rewrap h t []).enc ctx alg s

/-- **C113, decryption.**  So does `aws_cryptosdk_keyring_on_decrypt`: which encrypted data key is used, the trace and the errors do not
depend on what is in the data keys. -/
theorem C113_decrypt {φ : Bytes → Bytes} {a a' : Around} (h : Rewrap φ a a') (t : KrTree) (edks : List Edk) (ctx : EncCtx) (alg : Nat) (s : DecState) :
    keyringOnDecrypt (t.keyring a' []) edks ctx alg (rekeyDec φ s) =
      ((keyringOnDecrypt (t.keyring a []) edks ctx alg s).1, rekeyDec φ (keyringOnDecrypt (t.keyring a []) edks ctx alg s).2) :=
  (tree_rewrap h t []).dec edks ctx alg s

/-- **C113, what is sent to KMS for encryption.**  The calls that the two KMS keyrings make are the same, but for the data key in the
field `Plaintext` of Encrypt. -/
theorem C113_kms_encrypt_calls {φ : Bytes → Bytes} (hl : ∀ k, (φ k).length = k.length) {e e' : KmsEnv} (h : KmsRewrap φ e e')
    (ctx : EncCtx) (alg : Nat) (s : EncState) :
    (∀ kr : KmsKeyring, (kmsOnEncrypt e' kr ctx alg (rekeyEnc φ s)).2.2 = (kmsOnEncrypt e kr ctx alg s).2.2.map (rekeyCall φ)) ∧
    (∀ kr : MrkKeyring, (mrkOnEncrypt e' kr ctx alg (rekeyEnc φ s)).2.2 = (mrkOnEncrypt e kr ctx alg s).2.2.map (rekeyCall φ)) :=
  ⟨fun kr => by rw [kmsOnEncrypt_rewrap hl h], fun kr => by rw [mrkOnEncrypt_rewrap hl h]⟩

/-- **C113, what is sent to KMS for decryption.**  Likewise for the calls that these make to decrypt. -/
theorem C113_kms_decrypt_calls {φ : Bytes → Bytes} (hl : ∀ k, (φ k).length = k.length) {e e' : KmsEnv} (h : KmsRewrap φ e e')
    (edks : List Edk) (ctx : EncCtx) (alg : Nat) (s : DecState) (hs : s.key = none) :
    (∀ kr : KmsKeyring, (kmsOnDecrypt e' kr edks ctx s).2.2 = (kmsOnDecrypt e kr edks ctx s).2.2.map (rekeyCall φ)) ∧
    (∀ kr : MrkKeyring, (mrkOnDecrypt e' kr edks ctx alg s).2.2 = (mrkOnDecrypt e kr edks ctx alg s).2.2.map (rekeyCall φ)) :=
  ⟨fun kr => by rw [kmsOnDecrypt, kmsOnDecrypt, kmsDecLoop_rewrap hl h kr ctx edks 0 s hs], fun kr => by rw [mrkOnDecrypt_rewrap hl h kr edks ctx alg s hs]⟩

theorem callKeyring_rewrap {φ : Bytes → Bytes} {a a' : Around} (h : Rewrap φ a a') (t : KrTree) (env : CmmEnv) (da : Option Nat)
    (ctx : EncCtx) (alg : Nat) (sc : Option SigCtx) :
    (DefaultCmm.callKeyring env ⟨t.keyring a' [], da⟩ ctx alg sc).toExcept =
      (DefaultCmm.callKeyring env ⟨t.keyring a [], da⟩ ctx alg sc).toExcept.map (fun m => { m with dataKey := φ m.dataKey }) := by
  have h0 : φ [] = [] := List.length_eq_zero_iff.mp (h.len [])
  have hk := C113_encrypt h t ctx alg ⟨none, [], [], env.errno⟩
  simp only [rekeyEnc, Option.map_none] at hk
  unfold DefaultCmm.callKeyring
  rw [hk]
  generalize keyringOnEncrypt (t.keyring a []) ctx alg ⟨none, [], [], env.errno⟩ = r
  obtain ⟨ret, key, trace, edks, errno⟩ := r
  cases ret with
  | ok =>
    cases key with
    | none => simp only [CRes.toExcept, Except.map, Option.map_none, Option.getD_none, h0]
    | some k => rfl
  | fail => rfl
  | ub => rfl

theorem finish_rewrap {φ : Bytes → Bytes} (env : CmmEnv) (req : DecRequest) (s : DecState) :
    (DefaultCmm.finish env req (rekeyDec φ s)).toExcept =
      (DefaultCmm.finish env req s).toExcept.map (fun m => { m with dataKey := φ m.dataKey }) := by
  obtain ⟨key, trace, errno⟩ := s
  unfold DefaultCmm.finish
  cases key with
  | none => rfl
  | some k =>
    simp only [rekeyDec, Option.map_some]
    cases algProps req.alg with
    | none => rfl
    | some p =>
      cases EncCtx.find req.encCtx ecPublicKeyField with
      | none => simp only; split <;> rfl
      | some pub =>
        simp only
        split
        · rfl
        · cases env.verifyStart req.alg pub with
          | error x => rfl
          | ok sc => rfl

/-- **C113, the default CMM.**  A default CMM over the keyring gives the same materials, with the data keys replaced: the hypothesis that
C108 makes of the CMM. -/
theorem C113_cmm {φ : Bytes → Bytes} {a a' : Around} (h : Rewrap φ a a') (t : KrTree) (env : CmmEnv) (da : Option Nat) :
    DefaultCmm.toCmm env ⟨t.keyring a' [], da⟩ = rekeyCmm φ (DefaultCmm.toCmm env ⟨t.keyring a [], da⟩) := by
  have hg : ∀ req, (DefaultCmm.generate env ⟨t.keyring a' [], da⟩ req).1 = (DefaultCmm.generate env ⟨t.keyring a [], da⟩ req).1 ∧
      (DefaultCmm.generate env ⟨t.keyring a' [], da⟩ req).2.toExcept =
        (DefaultCmm.generate env ⟨t.keyring a [], da⟩ req).2.toExcept.map (fun m => { m with dataKey := φ m.dataKey }) := by
    intro req
    unfold DefaultCmm.generate
    rw [show DefaultCmm.pickAlg ⟨t.keyring a' [], da⟩ req = DefaultCmm.pickAlg ⟨t.keyring a [], da⟩ req from rfl]
    split
    · exact ⟨rfl, rfl⟩
    · cases algProps (DefaultCmm.pickAlg ⟨t.keyring a [], da⟩ req) with
      | none => exact ⟨rfl, rfl⟩
      | some p =>
        simp only
        split
        · exact ⟨rfl, rfl⟩
        · split
          · exact ⟨rfl, callKeyring_rewrap h t env da _ _ _⟩
          · cases env.keygen (DefaultCmm.pickAlg ⟨t.keyring a [], da⟩ req) with
            | error x => exact ⟨rfl, rfl⟩
            | ok k =>
              simp only
              split
              · exact ⟨rfl, rfl⟩
              · exact ⟨rfl, callKeyring_rewrap h t env da _ _ _⟩
  have hd : ∀ req, (DefaultCmm.decrypt env ⟨t.keyring a' [], da⟩ req).toExcept =
      (DefaultCmm.decrypt env ⟨t.keyring a [], da⟩ req).toExcept.map (fun m => { m with dataKey := φ m.dataKey }) := by
    intro req
    have hk := C113_decrypt h t req.edks req.encCtx req.alg ⟨none, [], env.errno⟩
    rw [show rekeyDec φ ⟨none, [], env.errno⟩ = ⟨none, [], env.errno⟩ from rfl] at hk
    unfold DefaultCmm.decrypt
    split
    · rfl
    · simp only [hk]
      generalize keyringOnDecrypt (t.keyring a []) req.edks req.encCtx req.alg ⟨none, [], env.errno⟩ = r
      obtain ⟨ret, s⟩ := r
      cases ret with
      | ok => exact finish_rewrap env req s
      | fail => rfl
      | ub => rfl
  unfold DefaultCmm.toCmm rekeyCmm
  congr 1
  · funext req
    rw [(hg req).1, (hg req).2]
  · funext req
    exact hd req

/-- **C113, from the keyring to the message.**  A session with a default CMM over any keyring of the library, under the default commitment
policy: replace every data key, let what wraps data keys and HKDF undo the replacement, and no call of the session API notices.  So
between its birth and its wrapping or the derivation of keys, no part of the library looks at a data key. -/
theorem C113_session {E : Env → Prop} {v : View} (hv : Reach E .requireRequire v) {φ : Bytes → Bytes} {a a' : Around} (h : Rewrap φ a a')
    (t : KrTree) (ce : CmmEnv) (da : Option Nat) {e : Env} {hk : HkdfFn}
    (hl : ∀ sha salt ikm info n k, hk sha salt ikm info n = .ok k → k.length = n) (hr : Renames φ e.crypto.hkdf hk) (op : Op) :
    apply { e with cmm := DefaultCmm.toCmm ce ⟨t.keyring a' [], da⟩, crypto := withHkdf e.crypto hk hl } v op =
      apply { e with cmm := DefaultCmm.toCmm ce ⟨t.keyring a [], da⟩ } v op := by
  rw [C113_cmm h t ce da]
  exact C108_default_policy (e := { e with cmm := DefaultCmm.toCmm ce ⟨t.keyring a [], da⟩ }) hv ⟨φ, hk, hl, hr, rfl⟩ op

/-! ### Example -/

/-- Toy primitives that take `d` from every byte of a key that they wrap, and add it when they unwrap. -/
def C113_crypto (d : UInt8) : Crypto := { Example.crypto with
  aeadSeal := fun _ _ _ pt => some (pt.map (· - d), List.replicate 16 7)
  aeadOpen := fun _ _ _ ct tag => if tag = List.replicate 16 7 then .ok (ct.map (· + d)) else .error .badCiphertext
  aeadSeal_len := by intro _ _ _ pt ct tag h; cases h; simp
  aeadOpen_len := by
    intro _ _ _ ct tag pt h
    split at h <;> cases h
    simp }

def C113_krEnv (d : UInt8) : KrEnv where
  crypto := C113_crypto d
  rsaEncrypt pem _ pt := .ok (pt.map (· - d) ++ [pem.headD 0])
  rsaDecrypt pem _ ct := if ct.getLast? = some (pem.headD 0) then .ok (ct.dropLast.map (· + d)) else .error .badCiphertext
  random i n := some (List.replicate n (if i = 1 then 41 + d else 40))
  alloc _ := true
  ptr := 4096
  heap := 1
  junk n := List.replicate n 170
  random_len := by intro _ n b h; cases h; simp
  junk_len := by simp

def C113_kmsEnv (d : UInt8) : KmsEnv := { Example.kmsEnv with
  decrypt := fun i c r => (Example.kmsEnv.decrypt i c r).map (fun x => (x.1, x.2.map (· + d)))
  encrypt := fun i c r => Example.kmsEnv.encrypt i c { r with plaintext := r.plaintext.map (· - d) }
  generate := fun c r => (Example.kmsEnv.generate c r).map (fun x => (x.1, x.2.1, x.2.2.map (· + d))) }

def C113_around (d : UInt8) : Around where
  world := { C71_world true with base := C113_crypto d }
  kr _ := C113_krEnv d
  kms _ := C113_kmsEnv d
  multi _ := Example.multiAlloc

theorem C113_back (k : Bytes) : (k.map (· + 1)).map (· - 1) = k.map (· - 0) := by
  rw [List.map_map]
  congr 1
  funext b
  simp only [Function.comp, UInt8.add_sub_cancel, UInt8.sub_zero]

theorem C113_forth (k : Bytes) : k.map (· + 1) = (k.map (· + 0)).map (· + 1) := by
  rw [List.map_map]
  congr 1
  funext b
  simp only [Function.comp, UInt8.add_zero]

theorem C113_rewrap : Rewrap (fun k => k.map (· + 1)) (C113_around 0) (C113_around 1) where
  len k := by simp
  raw _ := {
    aesSeal := fun _ _ _ k => by
      show some (((k.map (· + 1)).map (· - 1)), _) = some (k.map (· - 0), _)
      rw [C113_back]
    aesOpen := fun _ _ _ ct tag => by
      show (if tag = List.replicate 16 7 then .ok (ct.map (· + 1)) else .error Err.badCiphertext) =
        Except.map _ (if tag = List.replicate 16 7 then .ok (ct.map (· + 0)) else .error Err.badCiphertext)
      split
      · simp only [Except.map]; rw [← C113_forth]
      · rfl
    rsaEncrypt := fun pem _ k => by
      show Except.ok (((k.map (· + 1)).map (· - 1)) ++ _) = Except.ok (k.map (· - 0) ++ _)
      rw [C113_back]
    rsaDecrypt := fun pem _ ct => by
      show (if ct.getLast? = some (pem.headD 0) then .ok (ct.dropLast.map (· + 1)) else .error Err.badCiphertext) =
        Except.map _ (if ct.getLast? = some (pem.headD 0) then .ok (ct.dropLast.map (· + 0)) else .error Err.badCiphertext)
      split
      · simp only [Except.map]; rw [← C113_forth]
      · rfl
    iv := fun _ => rfl
    dataKey := fun n => by
      show some (List.replicate n (if 1 = 1 then 41 + 1 else 40)) = Option.map _ (some (List.replicate n (if 1 = 1 then 41 + 0 else 40)))
      simp
    alloc := rfl
    ptr := rfl
    heap := rfl
    junk := rfl }
  kms _ := {
    encrypt := fun i c id k ctx g => by
      show Example.kmsEnv.encrypt i c ⟨id, (k.map (· + 1)).map (· - 1), ctx, g⟩ = Example.kmsEnv.encrypt i c ⟨id, k.map (· - 0), ctx, g⟩
      rw [C113_back]
    generate := fun c r => by
      simp only [C113_around, C113_kmsEnv, Option.map_map]
      congr 1
      funext x
      simp only [Function.comp]
      rw [← C113_forth]
    decrypt := fun i c r => by
      simp only [C113_around, C113_kmsEnv, Option.map_map]
      congr 1
      funext x
      simp only [Function.comp]
      rw [← C113_forth]
    client := rfl
    alloc := rfl
    pushEdk := rfl
    pushTrace := rfl
    ptr := rfl
    heap := rfl }
  multi := rfl

/-- An AES keyring as generator, an RSA keyring, and a multi-keyring with both sorts of KMS keyring. -/
def C113_tree : KrTree := .multiGen (.leaf (.raw (.aes Example.aes)))
  [.leaf (.raw (.rsa Example.rsa)), .multi [.leaf (.kms Example.kmsStrict), .leaf (.mrk Example.mrkStrict)]]

/-- The hypotheses hold, the five encrypted data keys are the same though the data keys differ, and the key is found again. -/
example : Rewrap (fun k => k.map (· + 1)) (C113_around 0) (C113_around 1) ∧
    (let r := keyringOnEncrypt (C113_tree.keyring (C113_around 0) []) Example.krCtx 0x0178 Example.encStart
     let r' := keyringOnEncrypt (C113_tree.keyring (C113_around 1) []) Example.krCtx 0x0178 Example.encStart
     r.1 = .ok ∧ r'.1 = .ok ∧ r.2.key.map KeyBuf.bytes = some (List.replicate 32 41) ∧ r'.2.key.map KeyBuf.bytes = some (List.replicate 32 42) ∧
     r.2.edks.length = 5 ∧ r'.2.edks = r.2.edks ∧
     (let d := keyringOnDecrypt ((KrTree.leaf (.mrk Example.mrkStrict)).keyring (C113_around 1) []) r.2.edks Example.krCtx 0x0178 Example.decStart
      d.1 = .ok ∧ d.2.key.map KeyBuf.bytes = some (List.replicate 32 42))) := by
  refine ⟨C113_rewrap, ?_⟩
  decide +kernel

end Verif.Props
