import Verif.Model.DefaultCmm
import Verif.Model.Signature
import Verif.Props.Crypto
/-
The layers put together: a session with the default CMM, raw keyrings (one, or several in a multi-keyring), HKDF and the signature
functions.  What remains outside is OpenSSL (AES-GCM, RSA, HMAC, elliptic curves, random bytes), the allocator and uninitialised
memory: `World`.
-/
namespace Verif

/-- A signature context as the session and the CMM see it: the fields of `struct aws_cryptosdk_sig_ctx`, source/cipher_openssl.c:89-96,
without `pkey` (which is set in every context that was returned) and `is_sign` (whether there is a private key). -/
def SigC.view (c : SigC) : SigCtx := ⟨⟨c.props.algId, c.keypair.bind EcKey.priv, c.keypair.bind EcKey.pub⟩, c.md.getD []⟩

/-- The context seen as `x`, source/cipher_openssl.c:89-96. -/
def SigCtx.full (x : SigCtx) : Option SigC :=
  (algProps x.key.alg).map (fun p => ⟨p, some ⟨x.key.priv, x.key.pub⟩, some true, some x.data, x.key.priv.isSome⟩)

/-- The call of `aws_cryptosdk_sig_sign_start_keygen` in the default CMM, source/default_cmm.c:72.  (A suite without signature, for
which the function succeeds without a context, is not passed: line 70.) -/
def keygenOf (ec : Ec) (alg : Nat) : Except Err (SigCtx × Bytes) :=
  match algProps alg with
  | none => .error .unknown
  | some p =>
    match (sigKeygen ec true p (fun _ => 0)).1 with
    | .error e => .error e
    | .ok (some (c, some pub)) => .ok (c.view, pub)
    | .ok _ => .error .unknown

/-- The call of `aws_cryptosdk_sig_verify_start` in the default CMM, source/default_cmm.c:134. -/
def verifyStartOf (ec : Ec) (alg : Nat) (pub : Bytes) : Except Err SigCtx :=
  match algProps alg with
  | none => .error .unknown
  | some p =>
    match (sigVerifyStart ec pub p (fun _ => 0)).1 with
    | .error e => .error e
    | .ok (some c) => .ok c.view
    | .ok none => .error .unknown

/-- The call of `aws_cryptosdk_sig_sign_finish` in the session, source/session_encrypt.c:426 (by `aws_cryptosdk_priv_write_trailer`).
A run of the signing loop that does not end within `fuel` iterations is shown as an error. -/
def signOf (ec : Ec) (fuel : Nat) (x : SigCtx) : Except Err Bytes :=
  match x.full with
  | none => .error .unknown
  | some c =>
    match (sigSignFinish ec fuel c (fun _ => 0)).1 with
    | .ok sig => .ok sig
    | .err e => .error e
    | .ub => .error .unknown
    | .diverge => .error .unknown

/-- The call of `aws_cryptosdk_sig_verify_finish` in the session, source/session_decrypt.c:338. -/
def verifyOf (ec : Ec) (x : SigCtx) (sig : Bytes) : Except Err Unit :=
  match x.full with
  | none => .error .unknown
  | some c => (sigVerifyFinish ec c sig (fun _ => 0)).1

/-- The call of `aws_cryptosdk_hkdf` in source/cipher.c:348, 400 and 405, into a buffer of `n` bytes. -/
def hkdfOf (H : Hmac) : HkdfFn := fun sha salt ikm info n =>
  match hkdf H sha salt ikm info (List.replicate n 0) with
  | (out, .ok ()) => .ok out
  | (_, .error e) => .error e

/-- What lies outside the library during one call: `base` gives AES-GCM, `RAND_bytes` in the session and the failures of
`EVP_DigestUpdate` (its other fields are not used), `ec`, `hmac` the other primitives, `kr i` the environment of the `i`-th keyring
(its field `crypto` is not used), `multi` and the rest the outcomes of allocations, uninitialised memory and the last error. -/
structure World where
  base : Crypto
  ec : Ec
  fuel : Nat
  hmac : Hmac
  kr : Nat → KrEnv
  multi : MultiAlloc
  allocMat : Bool
  allocPut : Bool
  alloc : AllocSite → Bool
  uninit : Nat
  lastErr : Err

theorem hkdfOf_length (H : Hmac) (sha : Sha) (salt ikm info : Bytes) (n : Nat) (k : Bytes) (h : hkdfOf H sha salt ikm info n = .ok k) :
    k.length = n := by
  unfold hkdfOf at h
  cases hk : hkdf H sha salt ikm info (List.replicate n 0) with
  | mk out r =>
    rw [hk] at h
    cases r with
    | error e => cases h
    | ok u =>
      cases h
      simpa using (C35_hkdf_all_or_nothing H sha salt ikm info _ _ _ hk).1

/-- The primitives as the session sees them. -/
def World.crypto (w : World) : Crypto :=
  { w.base with hkdf := hkdfOf w.hmac, sign := signOf w.ec w.fuel, verify := verifyOf w.ec, hkdf_len := hkdfOf_length w.hmac }

/-- The environment of the `i`-th keyring. -/
def World.krEnv (w : World) (i : Nat) : KrEnv := { w.kr i with crypto := w.crypto }

/-- A raw keyring: of source/raw_aes_keyring.c or source/raw_rsa_keyring.c. -/
inductive RawKr where
  | aes (kr : RawAes)
  | rsa (kr : RawRsa)
deriving DecidableEq

/-- Its vtable, source/raw_aes_keyring.c:268-272 and source/raw_rsa_keyring.c:164-168. -/
def RawKr.keyring (env : KrEnv) : RawKr → Keyring
  | .aes kr => aesKeyring env kr
  | .rsa kr => rsaKeyring env kr

/-- The keyring of a user: one raw keyring, or a multi-keyring (source/multi_keyring.c:146-189) with or without generator. -/
inductive UserKr where
  | one (r : RawKr)
  | multi (gen : Option RawKr) (children : List RawKr)
deriving DecidableEq

/-- The keyrings of a multi-keyring with the environments from number `i` on. -/
def keyringsFrom (w : World) : Nat → List RawKr → List Keyring
  | _, [] => []
  | i, r :: rs => r.keyring (w.krEnv i) :: keyringsFrom w (i + 1) rs

/-- The vtable of the user's keyring. -/
def UserKr.keyring (w : World) : UserKr → Keyring
  | .one r => r.keyring (w.krEnv 0)
  | .multi gen children => multiKeyring w.multi (gen.map (RawKr.keyring (w.krEnv 0))) (keyringsFrom w 1 children)

/-- The world in which a call takes place, as the default CMM sees it. -/
def World.cmmEnv (w : World) : CmmEnv := ⟨keygenOf w.ec, verifyStartOf w.ec, w.allocMat, w.allocPut, w.lastErr⟩

/-- The environment of a session whose CMM is a default CMM (source/default_cmm.c:163-191) with the user's keyring and default suite. -/
def World.env (w : World) (kr : UserKr) (alg : Option Nat) : Env :=
  { cmm := DefaultCmm.toCmm w.cmmEnv ⟨kr.keyring w, alg⟩
    crypto := w.crypto
    alloc := w.alloc
    uninit := w.uninit
    staleErr := w.lastErr }

end Verif
