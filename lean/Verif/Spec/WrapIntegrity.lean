import Verif.Spec.Signers
import Verif.Spec.Stack
import Verif.Spec.KeyringTree
/-
What it means that nobody but the writers of messages wrapped data keys under the wrapping keys of a reader.  Data keys may be
known to others.
-/
namespace Verif.Spec
open Verif

/-- All keyrings of the user are raw AES keyrings, and nothing opens under their wrapping keys in the worlds `W` but the data key of
a message of `M`, bound to the context of that message. -/
def WrapsIntact (W : World → Prop) (kr : UserKr) (M : View → WrittenMessage → Prop) : Prop :=
  ∀ r ∈ members kr, ∃ a, r = .aes a ∧ ∀ w, W w → ∀ iv aad ct tag key, w.base.aeadOpen a.key iv aad ct tag = .ok key →
    ∃ v b, M v b ∧ key = b.m.dataKey ∧ CtxAad b.hd.encCtx aad

/-- Whatever a CMM returns for decryption is the data key of a message of `M`, and the context is the context of the same message. -/
def BindsContext (E : Env → Prop) (M : View → WrittenMessage → Prop) : Prop :=
  ∀ e, E e → ∀ req m, DistinctKeys req.encCtx → wireLen req.encCtx ≤ 65535 → e.cmm.decrypt req = .ok m →
    ∃ w b, M w b ∧ b.hd.encCtx.Perm req.encCtx ∧ m.dataKey = b.m.dataKey

/-- Nobody but the writers of `M` wrapped data keys for the keyring at `p`: under its AES key nothing opens but the data key of a message of
`M`, bound to the context of that message; KMS, asked to use one of its keys in some context, returns only the data key of a message of
`M` with that context.  A KMS keyring must name its keys.  An RSA keyring must not decrypt. -/
def LeafIntact (A : Around → Prop) (M : View → WrittenMessage → Prop) (p : List Nat) : Leaf → Prop
  | .raw (.aes a) => ∀ x, A x → ∀ iv aad ct tag key, x.world.base.aeadOpen a.key iv aad ct tag = .ok key →
      ∃ v b, M v b ∧ key = b.m.dataKey ∧ CtxAad b.hd.encCtx aad
  | .raw (.rsa a) => a.priv = none
  | .kms kr => kr.keyIds ≠ [] ∧ ∀ x, A x → ∀ id ∈ kr.keyIds, ∀ i c ct ctx key, (x.kms p).decrypt i c ⟨id, ct, ctx, kr.grants⟩ = some (id, key) →
      ∃ v b, M v b ∧ key = b.m.dataKey ∧ b.hd.encCtx.Perm ctx
  | .mrk kr => kr.keyId ≠ [] ∧ ∀ x, A x → ∀ i c ct ctx key, (x.kms p).decrypt i c ⟨kr.keyId, ct, ctx, kr.grants⟩ = some (kr.keyId, key) →
      ∃ v b, M v b ∧ key = b.m.dataKey ∧ b.hd.encCtx.Perm ctx

/-- The messages of `M` fit the format. -/
def AllReadable (M : View → WrittenMessage → Prop) : Prop := ∀ w a, M w a → a.Readable

/-- Every message of `M` has a public key of its own in its context, and under that key nothing verifies for the reader but what was
signed in `M`. -/
structure OwnKeys (W : World → Prop) (E : Env → Prop) (M : View → WrittenMessage → Prop) : Prop where
  signed : ∀ w a, M w a → ∃ pub, a.hd.encCtx.lookup publicKeyName = some pub ∧
    ∀ wd alg sc, W wd → verifyStartOf wd.ec alg pub = .ok sc → Unforged E sc M
  own : ∀ w a w' a', M w a → M w' a' → a.hd.encCtx.lookup publicKeyName = a'.hd.encCtx.lookup publicKeyName → w = w' ∧ a = a'

end Verif.Spec
