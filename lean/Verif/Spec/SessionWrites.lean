import Verif.Spec.Session
/-
What it takes for a message to be written: an environment in which nothing fails, a CMM with usable answers, and the length of the message.
-/
namespace Verif.Spec

/-- The length of an encrypted data key in a header: its three fields with their lengths. -/
def edkWire (e : Edk) : Nat := 6 + e.providerId.length + e.providerInfo.length + e.ciphertext.length

/-- The length of a header of the message format with a context of `c` bytes and encrypted data keys of these lengths: version (and type), suite,
message id, context with its length, encrypted data keys with their number, content type, (reserved bytes and IV length,) frame length, suite data,
(IV,) tag. -/
def headerBytes (row : SuiteRow) (c : Nat) (edks : List Nat) : Nat :=
  (if row.version = 1 then 2 else 1) + 2 + (if row.version = 1 then 16 else 32) + (2 + c) + (2 + edks.sum) + 1 +
  (if row.version = 1 then 5 else 0) + 4 + row.commitment + (if row.version = 1 then 12 else 0) + 16

/-- The length of a header with this context and these encrypted data keys. -/
def headerLen (row : SuiteRow) (ctx : EncCtx) (edks : List Edk) : Nat := headerBytes row (wireLen ctx) (edks.map edkWire)

/-- The length of a body with `n` bytes of plaintext: one block, or as many full frames as there are and a final frame with the rest. -/
def bodyLen (fs n : Nat) : Nat := if fs = 0 then frameSize .single n else n / fs * frameSize .frame fs + frameSize .final (n % fs)

/-- The length of the signature of a suite in bytes (ECDSA signatures are made to have this length). -/
def sigBytes (row : SuiteRow) : Nat := if row.curveBits = 256 then 71 else if row.curveBits = 384 then 103 else 0

/-- The length of a trailer. -/
def trailerLen (row : SuiteRow) : Nat := if row.curveBits = 0 then 0 else 2 + sigBytes row

/-- The length of a message with `n` bytes of plaintext. -/
def messageLen (row : SuiteRow) (ctx : EncCtx) (edks : List Edk) (fs n : Nat) : Nat :=
  headerLen row ctx edks + bodyLen fs n + trailerLen row

/-- Nothing fails outside: allocations, random numbers, HKDF for outputs of admissible length, AES-GCM with 12 byte IVs and AES keys, digests, and
signatures; and the signatures of a suite have the length that the library announces for it. -/
structure Works (E : Env → Prop) : Prop where
  alloc : ∀ e, E e → ∀ site, e.alloc site = true
  random : ∀ e, E e → ∀ n, ∃ b, e.crypto.random n = some b
  hkdf : ∀ e, E e → ∀ sha salt ikm info n, sha ≠ .nosha → 0 < n → n ≤ 255 * hashLen sha → ∃ k, e.crypto.hkdf sha salt ikm info n = .ok k
  aead : ∀ e, E e → ∀ k iv aad pt, k.length = 16 ∨ k.length = 24 ∨ k.length = 32 → iv.length = 12 →
    ∃ ct tag, e.crypto.aeadSeal k iv aad pt = some (ct, tag)
  digest : ∀ e, E e → ∀ ctx x, e.crypto.sigFail ctx x = none
  sign : ∀ e e', E e → E e' → ∀ req ctx m row c data, e'.cmm.generate req = (ctx, .ok m) → row ∈ suiteTable → row.id = m.alg → m.signctx = some c →
    ∃ sig, e.crypto.sign { c with data := c.data ++ data } = .ok sig ∧ sig.length = sigBytes row

/-- Materials that a session with this policy and limit on encrypted data keys can use: they are for a suite of the table that the policy admits,
the data key has its length, there are encrypted data keys but not too many, there is a signing context if and only if the suite signs, and the header fits. -/
structure Usable (pol : Policy) (maxEdks : Nat) (row : SuiteRow) (ctx : EncCtx) (m : EncMaterials) : Prop where
  suite : row ∈ suiteTable
  alg : m.alg = row.id
  admitted : MayEncrypt pol row
  dataKey : m.dataKey.length = row.keyBits / 8
  edks : m.edks ≠ []
  limit : maxEdks = 0 ∨ m.edks.length ≤ maxEdks
  signs : m.signctx.isSome = true ↔ row.curveBits ≠ 0
  ctxFits : wireLen ctx ≤ 65535
  fits : headerLen row ctx m.edks < 2 ^ 31

/-- The size of a message is within the limits of the format: less than 2^36 - 32 bytes in one block, less than 2^32 frames. -/
def SizeOK (fs n : Nat) : Prop := if fs = 0 then n < 2 ^ 36 - 32 else n / fs + 1 < 2 ^ 32

/-- What is left to write fits the limits of the format: if the caller has declared the size, not more than that was accepted so far and the
size is within the limits; if not, a framed message stays short of 2^32 - 1 frames with this input. -/
def RoomFor (v : View) (inp : Bytes) : Prop :=
  if v.s.preciseKnown = true then v.consumed.length ≤ v.s.preciseSize ∧ SizeOK v.s.frameSize v.s.preciseSize
  else v.s.frameSize = 0 ∨ (v.consumed.length + inp.length) / v.s.frameSize + 2 < 2 ^ 32

/-- An encrypting session that can go on: it has not failed, it is set up, the CMMs answer the request that it makes with usable materials, and
the sizes are within the limits. -/
structure CanWrite (E : Env → Prop) (v : View) (inp : Bytes) : Prop where
  mode : v.s.mode = .encrypt
  alive : v.s.state ≠ .error
  policy : v.s.policy.isValid = true
  answers : v.s.state = .config → ∀ e, E e → ∃ row ctx m,
    e.cmm.generate ⟨v.s.header.encCtx, 0, if v.s.preciseKnown then v.s.preciseSize else v.s.sizeBound, v.s.policy⟩ = (ctx, .ok m) ∧
    Usable v.s.policy v.s.maxEdks row ctx m
  room : RoomFor v inp

end Verif.Spec
