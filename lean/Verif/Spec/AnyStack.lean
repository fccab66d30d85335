import Verif.Model.KeyringTree
import Verif.Spec.Stack
/-
The whole library with any keyring in the place of the user's: what is asked of two keyrings so that one reads what the other writes.
-/
namespace Verif.Spec

/-- What lies outside the library during a call, and what the user's keyring does then. -/
structure Moment where
  world : World
  kr : Keyring

/-- The environments of sessions with the default CMM, at the moments `M`. -/
def SessionsAt (M : Moment → Prop) (alg : Option Nat) : Env → Prop := fun e => ∃ m, M m ∧ e = m.world.envWith m.kr alg

/-- What OpenSSL promises between the worlds `W1` in which messages are written and the worlds `W2` in which they are read, apart from
what the keyrings use: see `Primitives`. -/
structure Ciphers (Pair : Curve → Nat → Nat → Prop) (W1 W2 : World → Prop) : Prop where
  aead : ∀ w1 w2 k iv aad pt ct tag, W1 w1 → W2 w2 → w1.base.aeadSeal k iv aad pt = some (ct, tag) →
    w2.base.aeadOpen k iv aad ct tag = .ok pt
  hmac : ∀ w1 w2 sha k m t, W1 w1 → W2 w2 → w1.hmac.mac sha k m = some t → w2.hmac.mac sha k m = some t
  newKey : ∀ w1 c, W1 w1 → Pair c (w1.ec.genKey c).1 (w1.ec.genKey c).2
  signs : ∀ w1 c d q, W1 w1 → Pair c d q → KeyPair w1.ec c d q
  codec : ∀ w1 c d q, W1 w1 → Pair c d q → Codec w1.ec c q
  negation : ∀ w1, W1 w1 → Negatable w1.ec
  same : ∀ w1 w2, W1 w1 → W2 w2 → SameEc w1.ec w2.ec

/-- The worlds of the moments. -/
def worlds (M : Moment → Prop) : World → Prop := fun w => ∃ m, M m ∧ m.world = w

/-- Nothing fails for want of resources, apart from the keyrings. -/
structure Sound (w : World) : Prop where
  ec : ∀ s, w.ec.ok s = true
  digest : ∀ c x, w.base.sigFail c x = none
  alloc : ∀ s, w.alloc s = true
  materials : w.allocMat = true

/-- At one of the moments the keyring, asked for a data key, gave `key` with the encrypted data keys `edks`. -/
def Gave (M : Moment → Prop) (ctx : EncCtx) (alg : Nat) (key : Bytes) (edks : List Edk) : Prop :=
  ∃ m s k, M m ∧ keyringOnEncrypt m.kr ctx alg ⟨none, [], [], m.world.lastErr⟩ = (.ok, s) ∧ s.key = some k ∧ k.bytes = key ∧ s.edks = edks

/-- The keyring gives a data key whenever it succeeds, and encrypted data keys that fit the message format. -/
structure GoodWriter (M : Moment → Prop) : Prop where
  key : ∀ m ctx alg s, M m → DistinctKeys ctx → keyringOnEncrypt m.kr ctx alg ⟨none, [], [], m.world.lastErr⟩ = (.ok, s) → s.key ≠ none
  fits : ∀ ctx alg key edks, DistinctKeys ctx → Gave M ctx alg key edks → edks.length < 65536 ∧
    ∀ e ∈ edks, e.providerId.length < 65536 ∧ e.providerInfo.length < 65536 ∧ e.ciphertext.length < 65536

/-- If the reader's keyring finds a data key, it is that of the writer.  (The reader has the same encryption context, as a map.) -/
def NeverMistaken (M1 M2 : Moment → Prop) : Prop :=
  ∀ ctx ctx' alg key edks m s k, DistinctKeys ctx → Gave M1 ctx alg key edks → ctx.Perm ctx' → M2 m →
    keyringOnDecrypt m.kr edks ctx' alg ⟨none, [], m.world.lastErr⟩ = (.ok, s) → s.key = some k → k.bytes = key

/-- The reader's keyring finds the data key of the writer. -/
def AlwaysFinds (M1 M2 : Moment → Prop) : Prop :=
  ∀ ctx ctx' alg key edks m, DistinctKeys ctx → Gave M1 ctx alg key edks → ctx.Perm ctx' → M2 m →
    ∃ s k, keyringOnDecrypt m.kr edks ctx' alg ⟨none, [], m.world.lastErr⟩ = (.ok, s) ∧ s.key = some k ∧ k.bytes = key

/-- The reader's keyring finds no data key. -/
def NeverFinds (M1 M2 : Moment → Prop) : Prop :=
  ∀ ctx ctx' alg key edks m s, DistinctKeys ctx → Gave M1 ctx alg key edks → ctx.Perm ctx' → M2 m →
    keyringOnDecrypt m.kr edks ctx' alg ⟨none, [], m.world.lastErr⟩ = (.ok, s) → s.key = none

/-! ### keyrings that do not care about the order of encrypted data keys -/

/-- `NeverMistaken` in any order of the encrypted data keys. -/
def NeverMistakenAnyOrder (M1 M2 : Moment → Prop) : Prop :=
  ∀ ctx ctx' alg key edks edks' m s k, DistinctKeys ctx → Gave M1 ctx alg key edks → ctx.Perm ctx' → edks.Perm edks' → M2 m →
    keyringOnDecrypt m.kr edks' ctx' alg ⟨none, [], m.world.lastErr⟩ = (.ok, s) → s.key = some k → k.bytes = key

/-- `AlwaysFinds` in any order of the encrypted data keys. -/
def AlwaysFindsAnyOrder (M1 M2 : Moment → Prop) : Prop :=
  ∀ ctx ctx' alg key edks edks' m, DistinctKeys ctx → Gave M1 ctx alg key edks → ctx.Perm ctx' → edks.Perm edks' → M2 m →
    ∃ s k, keyringOnDecrypt m.kr edks' ctx' alg ⟨none, [], m.world.lastErr⟩ = (.ok, s) ∧ s.key = some k ∧ k.bytes = key

/-- `NeverFinds` in any order of the encrypted data keys. -/
def NeverFindsAnyOrder (M1 M2 : Moment → Prop) : Prop :=
  ∀ ctx ctx' alg key edks edks' m s, DistinctKeys ctx → Gave M1 ctx alg key edks → ctx.Perm ctx' → edks.Perm edks' → M2 m →
    keyringOnDecrypt m.kr edks' ctx' alg ⟨none, [], m.world.lastErr⟩ = (.ok, s) → s.key = none

end Verif.Spec
