import Verif.Model.Stack
import Verif.Spec.Signature
import Verif.Spec.Keyring
import Verif.Spec.SessionComplete
/-
When two users of the whole library understand each other: what is assumed of OpenSSL, and which keyrings fit together.
-/
namespace Verif.Spec

/-- What OpenSSL promises between the worlds `W1` in which messages are written and the worlds `W2` in which they are read.
`Pair c d q`: the private key `d` on the curve `c` has the public key `q`; `RsaPair pub priv`: the PEM files belong together. -/
structure Primitives (Pair : Curve → Nat → Nat → Prop) (RsaPair : Bytes → Bytes → Prop) (W1 W2 : World → Prop) : Prop where
  aead : ∀ w1 w2 k iv aad pt ct tag, W1 w1 → W2 w2 → w1.base.aeadSeal k iv aad pt = some (ct, tag) →
    w2.base.aeadOpen k iv aad ct tag = .ok pt
  hmac : ∀ w1 w2 sha k m t, W1 w1 → W2 w2 → w1.hmac.mac sha k m = some t → w2.hmac.mac sha k m = some t
  rsa : ∀ w1 w2 i j pub priv pad pt ct, W1 w1 → W2 w2 → RsaPair pub priv → (w1.kr i).rsaEncrypt pub pad pt = .ok ct →
    ct ≠ [] ∧ (w2.kr j).rsaDecrypt priv pad ct = .ok pt
  rsaLen : ∀ w1 i pub pad pt ct, W1 w1 → (w1.kr i).rsaEncrypt pub pad pt = .ok ct → ct.length < 65536
  newKey : ∀ w1 c, W1 w1 → Pair c (w1.ec.genKey c).1 (w1.ec.genKey c).2
  signs : ∀ w1 c d q, W1 w1 → Pair c d q → KeyPair w1.ec c d q
  codec : ∀ w1 c d q, W1 w1 → Pair c d q → Codec w1.ec c q
  negation : ∀ w1, W1 w1 → Negatable w1.ec
  same : ∀ w1 w2, W1 w1 → W2 w2 → SameEc w1.ec w2.ec

/-- Nothing fails for want of resources. -/
structure Healthy (w : World) : Prop where
  ec : ∀ s, w.ec.ok s = true
  digest : ∀ c x, w.base.sigFail c x = none
  alloc : ∀ s, w.alloc s = true
  materials : w.allocMat = true
  keyrings : ∀ i s, (w.kr i).alloc s = true

/-- The raw keyrings of a user. -/
def members : UserKr → List RawKr
  | .one r => [r]
  | .multi gen children => gen.toList ++ children

/-- The namespace of a raw keyring. -/
def nsOf : RawKr → Bytes
  | .aes a => a.ns
  | .rsa a => a.ns

/-- `r'` holds the key for what `r` encrypts. -/
def Unlocks (RsaPair : Bytes → Bytes → Prop) : (r r' : RawKr) → Prop
  | .aes a, .aes b => a = b ∧ a.ns ≠ []
  | .rsa a, .rsa b => b.ns = a.ns ∧ b.name = a.name ∧ b.padding = a.padding ∧ a.ns ≠ [] ∧ a.name ≠ [] ∧
      ∃ pub priv, a.pub = some pub ∧ b.priv = some priv ∧ RsaPair pub priv
  | _, _ => False

/-- What `r` encrypts is not addressed to `r'`: another namespace or name.  An AES keyring appends 20 bytes to its name.  An RSA keyring
without private key decrypts nothing. -/
def NotFor : (r r' : RawKr) → Prop
  | .aes a, .aes b => a.ns ≠ b.ns ∨ a.name ≠ b.name
  | .rsa a, .rsa b => b.priv = none ∨ a.ns ≠ b.ns ∨ a.name ≠ b.name
  | .aes a, .rsa b => b.priv = none ∨ a.ns ≠ b.ns ∨ a.name.length + 20 ≠ b.name.length
  | .rsa a, .aes b => a.ns ≠ b.ns ∨ a.name.length ≠ b.name.length + 20

/-- The keyring `kr2` can read what is written with `kr1`: one of its members has a key, and no member takes an encrypted data key for its own
that is not. -/
structure CanRead (RsaPair : Bytes → Bytes → Prop) (kr1 kr2 : UserKr) : Prop where
  some : ∃ r ∈ members kr1, ∃ r' ∈ members kr2, Unlocks RsaPair r r'
  all : ∀ r ∈ members kr1, ∀ r' ∈ members kr2, Unlocks RsaPair r r' ∨ NotFor r r'

/-- Namespace and name fit the header. -/
def ShortNames : RawKr → Prop
  | .aes a => a.ns.length < 65536 ∧ a.name.length + 20 < 65536
  | .rsa a => a.ns.length < 65536 ∧ a.name.length < 65536

/-- The environments of sessions with the default CMM and the keyring `kr`, in the worlds `W`. -/
def Sessions (W : World → Prop) (kr : UserKr) (alg : Option Nat) : Env → Prop := fun e => ∃ w, W w ∧ e = w.env kr alg

end Verif.Spec
