import Verif.Spec.Stack
import Verif.Spec.SessionWrites
/-
When the whole library can write a message, and how long the message is.
-/
namespace Verif.Spec

/-- The sizes that depend on OpenSSL: of RSA ciphertexts, by the public key in PEM format, and of base64 texts, by the number of bytes. -/
structure Sizes where
  rsa : Bytes → Nat
  b64 : Nat → Nat

/-- In this world writing does not fail for want of resources, and the primitives work for admissible arguments.  `Pair c d q`: the private key `d`
on the curve `c` has the public key `q`.  OpenSSL draws, soon enough, a signature that has the length announced for the suite or gets it when `s`
is negated.  (That the last allocation for a keyring trace fails does not matter.) -/
structure CanProduce (Pair : Curve → Nat → Nat → Prop) (sz : Sizes) (w : World) : Prop where
  healthy : Healthy w
  entry : w.allocPut = true
  lists : w.multi.edks = true ∧ w.multi.trace = true ∧ ∀ i, w.multi.pushEdk i = true
  random : ∀ n, ∃ b, w.base.random n = some b
  keyringRandom : ∀ i j n, ∃ b, (w.kr i).random j n = some b
  aead : ∀ k iv aad pt, k.length = 16 ∨ k.length = 24 ∨ k.length = 32 → iv.length = 12 → ∃ ct tag, w.base.aeadSeal k iv aad pt = some (ct, tag)
  hmac : ∀ sha k m, sha ≠ .nosha → ∃ t, w.hmac.mac sha k m = some t
  newKey : ∀ c, Pair c (w.ec.genKey c).1 (w.ec.genKey c).2
  point : ∀ c q, (w.ec.pubOut c q).length = c.bytes + 1
  base64 : ∀ x, (w.ec.b64 x).length = sz.b64 x.length ∧ (0 : UInt8) ∉ w.ec.b64 x
  draws : ∀ c d q m, Pair c d q → ∃ i, i + 2 ≤ w.fuel ∧
    (RightSigLength c (w.ec.draw c d m i).1 (w.ec.draw c d m i).2 ∨ RightSigLength c (w.ec.draw c d m i).1 (c.order - (w.ec.draw c d m i).2))

/-- The raw keyring can encrypt data keys: an AES key has an AES length; an RSA keyring has a public key, a known padding mode, and a key that is
large enough for data keys. -/
def CanWrap (W : World → Prop) (sz : Sizes) : RawKr → Prop
  | .aes a => a.key.length = 16 ∨ a.key.length = 24 ∨ a.key.length = 32
  | .rsa a => a.padding < 3 ∧ ∃ pub, a.pub = some pub ∧ ∀ w i key, W w → key.length ≤ 32 →
      ∃ ct, (w.kr i).rsaEncrypt pub a.padding key = .ok ct ∧ ct.length = sz.rsa pub

/-- Some keyring generates the data key: a multi-keyring needs a generator for this. -/
def HasGenerator : UserKr → Prop
  | .one _ => True
  | .multi gen _ => gen.isSome = true

/-- The length of the encrypted data key that a keyring adds, for a data key of `n` bytes. -/
def wrapLen (sz : Sizes) (n : Nat) : RawKr → Nat
  | .aes a => 6 + a.ns.length + (a.name.length + 20) + (n + 16)
  | .rsa a => 6 + a.ns.length + a.name.length + sz.rsa (a.pub.getD [])

/-- The length of the context in the message: of the caller's context and, for a suite with signature, the entry with the public key under a name of
21 bytes. -/
def writtenCtxLen (sz : Sizes) (row : SuiteRow) (ctx : EncCtx) : Nat :=
  if row.curveBits = 0 then wireLen ctx
  else (if ctx = [] then 2 else wireLen ctx) + 4 + 21 + sz.b64 (row.curveBits / 8 + 1)

/-- The length of the header that is written with the keyring `kr`. -/
def stackHeaderLen (sz : Sizes) (kr : UserKr) (row : SuiteRow) (ctx : EncCtx) : Nat :=
  headerBytes row (writtenCtxLen sz row ctx) ((members kr).map (wrapLen sz (row.keyBits / 8)))

/-- The length of the message that is written with the keyring `kr`, of `n` bytes of plaintext in frames of `fs` bytes. -/
def stackLen (sz : Sizes) (kr : UserKr) (row : SuiteRow) (ctx : EncCtx) (fs n : Nat) : Nat :=
  stackHeaderLen sz kr row ctx + bodyLen fs n + trailerLen row

/-- The suite that the default CMM takes is `row`, and the policy admits it: the one that was set, or else the best one with or without key
commitment according to the policy. -/
structure SuiteIs (da : Option Nat) (pol : Policy) (row : SuiteRow) : Prop where
  mem : row ∈ suiteTable
  chosen : da = some row.id ∨ (da = none ∧ row.id = if pol = .forbidAllow then 0x0378 else 0x0578)
  admitted : MayEncrypt pol row

/-- A new message can be written with this context: the caller does not use the reserved name, the keyrings are not more than the caller allows,
and everything fits the header. -/
structure Fits (sz : Sizes) (kr : UserKr) (row : SuiteRow) (s : Session) : Prop where
  free : s.header.encCtx.lookup publicKeyName = none
  limit : s.maxEdks = 0 ∨ (members kr).length ≤ s.maxEdks
  ctxFits : writtenCtxLen sz row s.header.encCtx ≤ 65535
  fits : stackHeaderLen sz kr row s.header.encCtx < 2 ^ 31

/-- What remains to be said about a session so that it can go on, once the keyrings and the world are fit for it: nothing about the CMM. -/
structure StackCanWrite (sz : Sizes) (kr : UserKr) (da : Option Nat) (v : View) (inp : Bytes) : Prop where
  mode : v.s.mode = .encrypt
  alive : v.s.state ≠ .error
  policy : v.s.policy.isValid = true
  starts : v.s.state = .config → ∃ row, SuiteIs da v.s.policy row ∧ Fits sz kr row v.s
  room : RoomFor v inp

end Verif.Spec
