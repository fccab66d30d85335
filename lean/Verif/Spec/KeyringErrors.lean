import Verif.Spec.Keyring
import Verif.Spec.EncCtx
/-
When the raw keyrings fail, and with which error: the checks they make, in order; the first one that fails decides.
-/
namespace Verif.Spec
open Verif

/-- A check, as the set of errors with which it fails: at most one. -/
abbrev Check := Err → Prop

/-- A check that fails with `c` if `p` holds. -/
def failsIf (p : Prop) (c : Err) : Check := fun c' => p ∧ c' = c

/-- The first failing check fails with `c`. -/
def FirstFails (checks : List Check) (c : Err) : Prop :=
  ∃ pre p post, checks = pre ++ p :: post ∧ p c ∧ ∀ q ∈ pre, ∀ c', ¬ q c'

/-- No check fails. -/
def NoneFails (checks : List Check) : Prop := ∀ q ∈ checks, ∀ c, ¬ q c

/-- The data key to encrypt: the one given, or else the random bytes drawn. -/
def DataKeyUsed (env : KrEnv) (row : SuiteRow) (s : EncState) (key : List UInt8) : Prop :=
  (∃ k, s.key = some k ∧ key = k.bytes) ∨ (s.key = none ∧ env.random 1 (row.keyBits / 8) = some key)

/-- The checks of an encryption call with a raw AES keyring. -/
def aesEncryptChecks (env : KrEnv) (kr : RawAes) (ctx : EncCtx) (row : SuiteRow) (s : EncState) : List Check :=
  [failsIf (s.key = none ∧ s.edks ≠ []) .badState,
   failsIf (env.random 0 12 = none) .cryptoUnknown,
   failsIf (s.key = none ∧ env.alloc .dataKey = false) .oom,
   failsIf (s.key = none ∧ env.random 1 (row.keyBits / 8) = none) .cryptoUnknown,
   failsIf (65535 < wireLen ctx) .limitExceeded,
   failsIf (env.alloc .aad = false ∨ env.alloc .ciphertext = false) .oom,
   failsIf (kr.key.length ∉ [16, 24, 32] ∨ ∃ k, s.key = some k ∧ row.keyBits / 8 < k.bytes.length) .invalidBufferSize,
   failsIf (∃ iv key aad, env.random 0 12 = some iv ∧ DataKeyUsed env row s key ∧ CtxAad ctx aad ∧
     env.crypto.aeadSeal kr.key iv aad key = none) .cryptoUnknown,
   failsIf (∃ x ∈ [KrSite.providerInfo, .providerId, .pushEdk], env.alloc x = false) .oom]

/-- The checks of a decryption call with a raw AES keyring. -/
def aesDecryptChecks (env : KrEnv) (ctx : EncCtx) (s : DecState) : List Check :=
  [failsIf (s.key ≠ none) .badState,
   failsIf (65535 < wireLen ctx) .limitExceeded,
   failsIf (env.alloc .aad = false ∨ env.alloc .dataKey = false) .oom]

/-- The checks of an encryption call with a raw RSA keyring. -/
def rsaEncryptChecks (env : KrEnv) (kr : RawRsa) (row : SuiteRow) (s : EncState) : List Check :=
  [failsIf (s.key = none ∧ s.edks ≠ []) .badState,
   failsIf (kr.pub = none) .badState,
   failsIf (s.key = none ∧ env.alloc .dataKey = false) .oom,
   failsIf (s.key = none ∧ env.random 1 (row.keyBits / 8) = none) .cryptoUnknown,
   failsIf (3 ≤ kr.padding) .unsupportedFormat,
   fun c => ∃ pub key, kr.pub = some pub ∧ DataKeyUsed env row s key ∧ env.rsaEncrypt pub kr.padding key = .error c,
   failsIf (∃ x ∈ [KrSite.providerInfo, .providerId, .pushEdk], env.alloc x = false) .oom]

/-- The checks of a decryption call with a raw RSA keyring.  RSA does not tell the length of the data key: a key of the wrong length
is noticed at the end. -/
def rsaDecryptChecks (env : KrEnv) (kr : RawRsa) (row : SuiteRow) (edks : List Edk) (s : DecState) : List Check :=
  [failsIf (s.key ≠ none) .badState,
   failsIf (kr.priv = none) .badState,
   failsIf (∃ priv key, kr.priv = some priv ∧ FirstOpened (RsaOpens env kr priv) edks key ∧ key.length ≠ row.keyBits / 8) .badCiphertext]

/-- An EDK of the raw AES keyring's form, for the suite. -/
def AesForm (kr : RawAes) (row : SuiteRow) (e : Edk) : Prop := kr.ns ≠ [] ∧ ∃ iv ct tag, AesEdk kr.ns kr.name (row.keyBits / 8) e iv ct tag

/-- An EDK that carries the raw RSA keyring's namespace and name. -/
def RsaForm (kr : RawRsa) (e : Edk) : Prop :=
  kr.ns ≠ [] ∧ kr.name ≠ [] ∧ e.providerId = kr.ns ∧ e.providerInfo = kr.name ∧ e.ciphertext ≠ []

/-- An EDK of the right form did not open, nor did any before it. -/
def TriedInVain (Form : Edk → Prop) (Opens : Edk → List UInt8 → Prop) (edks : List Edk) : Prop :=
  ∃ pre x post, edks = pre ++ x :: post ∧ (∀ y ∈ pre, ∀ k, ¬ Opens y k) ∧ Form x ∧ ∀ k, ¬ Opens x k

/-- The thread's last error after a decryption call that succeeds: reset if an EDK was tried in vain, else as before, if the record
of the keyring trace could be stored. -/
def ErrnoAfter (before after : Err) (vain stored : Prop) : Prop :=
  (stored → (vain → after = .raw 0) ∧ (¬ vain → after = before)) ∧ (¬ stored → after = .oom)

/-- The encryption call of a multi-keyring gets as far as calling the generator. -/
def MultiStarts (a : MultiAlloc) (s : EncState) : Prop := (s.key = none → s.edks = []) ∧ a.edks = true ∧ a.trace = true

/-- Why the encryption call of a multi-keyring fails, which data key it leaves and with which error. -/
inductive MultiFails (a : MultiAlloc) (gen : Option Keyring) (children : List Keyring) (ctx : EncCtx) (alg : Nat) (s : EncState) :
    Option KeyBuf → Err → Prop
  | misuse (h1 : s.key = none) (h2 : s.edks ≠ []) : MultiFails a gen children ctx alg s s.key .badState
  | memory (h1 : s.key = none → s.edks = []) (h2 : a.edks = false ∨ a.trace = false) : MultiFails a gen children ctx alg s s.key .oom
  | generator {kr : Keyring} {g : EncState} (h0 : MultiStarts a s) (h1 : gen = some kr)
      (h2 : keyringOnEncrypt kr ctx alg { s with trace := [], edks := [] } = (.fail, g)) : MultiFails a gen children ctx alg s g.key g.errno
  | noKey {g : EncState} (h0 : MultiStarts a s) (h1 : AllSucceed ctx alg gen.toList { s with trace := [], edks := [] } g) (h2 : g.key = none) :
      MultiFails a gen children ctx alg s none .badState
  | child {g s1 s2 : EncState} {pre post : List Keyring} {kr : Keyring} (h0 : MultiStarts a s)
      (h1 : AllSucceed ctx alg gen.toList { s with trace := [], edks := [] } g) (h2 : g.key ≠ none) (h3 : children = pre ++ kr :: post)
      (h4 : AllSucceed ctx alg pre g s1) (h5 : keyringOnEncrypt kr ctx alg s1 = (.fail, s2)) : MultiFails a gen children ctx alg s s2.key s2.errno
  | push {g my : EncState} (h0 : MultiStarts a s) (h1 : AllSucceed ctx alg gen.toList { s with trace := [], edks := [] } g) (h2 : g.key ≠ none)
      (h3 : AllSucceed ctx alg children g my) (h4 : ∃ i < my.edks.length, a.pushEdk i = false) : MultiFails a gen children ctx alg s my.key .oom

end Verif.Spec
