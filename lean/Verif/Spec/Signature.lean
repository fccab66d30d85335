import Verif.Model.Signature
import Verif.Spec.Alg
/-
What the signature functions promise: the length of signatures, what a context is, and what is assumed of ECDSA and the encodings.
-/
namespace Verif.Spec

/-- The length of a signature, by the bits of the curve. -/
def signatureBytes (curveBits : Nat) : Nat :=
  match curveBits with
  | 256 => 71
  | 384 => 103
  | _ => 0

/-- The digest of the signature, by the bits of the curve. -/
def signatureDigest (curveBits : Nat) : Sha :=
  match curveBits with
  | 256 => .sha256
  | 384 => .sha384
  | _ => .nosha

/-- A context made for suite `p`, with private key `d` and public key `q`, that has been given `data`. -/
structure IsSigner (p : AlgProps) (d q : Nat) (data : Bytes) (c : SigC) : Prop where
  props : c.props = p
  keypair : c.keypair = some ⟨some d, some q⟩
  pkey : c.pkey = some true
  md : c.md = some data
  isSign : c.isSign = true

/-- A context for verification under suite `p` with public key `q`, that has been given `data`. -/
structure IsVerifier (p : AlgProps) (q : Nat) (data : Bytes) (c : SigC) : Prop where
  props : c.props = p
  keypair : c.keypair = some ⟨none, some q⟩
  pkey : c.pkey = some true
  md : c.md = some data
  isSign : c.isSign = false

/-- What ECDSA promises for a key pair: signatures made with the private key verify with the public key. -/
structure KeyPair (ec : Ec) (c : Curve) (d q : Nat) : Prop where
  range : 0 < d ∧ d < c.order
  signs : ∀ m i, ec.verify c q m (ec.draw c d m i).1 (ec.draw c d m i).2 = true

/-- In ECDSA, `(r, s)` and `(r, n - s)` verify alike. -/
def Negatable (ec : Ec) : Prop :=
  ∀ c q m r s, 0 < s → s < c.order → ec.verify c q m r (c.order - s) = ec.verify c q m r s

/-- Decoding undoes encoding, for the public key (whose compressed form has one byte more than a coordinate) and for base64, whose
texts contain no NUL byte. -/
structure Codec (ec : Ec) (c : Curve) (q : Nat) : Prop where
  point : ec.pubIn c (ec.pubOut c q) = some q
  pointLen : (ec.pubOut c q).length = c.bytes + 1
  base64 : ∀ x, ec.unb64 (ec.b64 x) = some x
  text : ∀ x, (0 : UInt8) ∉ ec.b64 x

/-- Two environments compute the same functions; different calls may fail and different signatures be drawn. -/
structure SameEc (e1 e2 : Ec) : Prop where
  verify : e1.verify = e2.verify
  hash : e1.hash = e2.hash
  pubOut : e1.pubOut = e2.pubOut
  pubIn : e1.pubIn = e2.pubIn
  b64 : e1.b64 = e2.b64
  unb64 : e1.unb64 = e2.unb64

/-- `n` takes `k` bytes in two's complement. -/
def IntBytes (n k : Nat) : Prop := 0 < k ∧ n < 2 ^ (8 * k - 1) ∧ (k = 1 ∨ 2 ^ (8 * (k - 1) - 1) ≤ n)

/-- `r` and `s` together take one byte more than two coordinates, so that the signature has the length of the suite. -/
def RightSigLength (c : Curve) (r s : Nat) : Prop := ∃ a b, IntBytes r a ∧ IntBytes s b ∧ a + b = 2 * c.bytes + 1

/-- What a context holds: its own memory, two references to the key, an `EVP_PKEY` and a digest context. -/
def held : SigObj → Int
  | .mem => 1
  | .ecKey => 2
  | .pkey => 1
  | .mdCtx => 1
  | _ => 0

/-- A string holds one block of memory. -/
def heldStr : SigObj → Int
  | .mem => 1
  | _ => 0

/-- Data given to a context in slices, none of which fails. -/
def feed : SigC → List Bytes → Except Err SigC
  | c, [] => .ok c
  | c, x :: r => match sigUpdate false x c with
    | .error e => .error e
    | .ok c => feed c r

/-- A toy: the signature names the key, and the second component changes with every draw. -/
def toyEc (ok : SigSite → Bool) (nul : Bool) : Ec where
  draw c d _ i := (2 ^ (8 * c.bytes - 1) + d % 1000, 2 ^ (8 * c.bytes - 1) + i % 1000)
  verify c q _ r _ := r == 2 ^ (8 * c.bytes - 1) + q % 1000
  hash h _ := List.replicate (match h with | .sha256 => 32 | _ => 48) 1
  genKey _ := (77, 77)
  pubOut c q := 2 :: be c.bytes q
  pubIn _ b := some (unbe (b.drop 1))
  b64 x := x.flatMap (fun b => [UInt8.ofNat (1 + b.toNat / 16), UInt8.ofNat (1 + b.toNat % 16)])
  unb64 := unhex
  nul := nul
  ok := ok
  draw_range c d _ i := by
    have h : 0 < 2 ^ (8 * c.bytes - 1) ∧ 2 ^ (8 * c.bytes - 1) + 1000 < c.order := by cases c <;> decide
    simp only
    omega
  hash_len := by simp
where
  unhex : Bytes → Option Bytes
  | [] => some []
  | a :: b :: r => (unhex r).map (fun x => UInt8.ofNat ((a.toNat - 1) * 16 + (b.toNat - 1)) :: x)
  | _ => none

end Verif.Spec
