import Verif.Spec.Keyring
import Verif.Spec.SessionExample
/-
Concrete keyrings for the non-vacuity examples and counterexamples.  The primitives are toys.
-/
namespace Verif.Example
open Verif Verif.Spec

/-- Toy RSA: the ciphertext is the plaintext and a check byte that depends on the key. -/
def krEnv : KrEnv where
  crypto := crypto
  rsaEncrypt pem _ pt := .ok (pt ++ [pem.headD 0])
  rsaDecrypt pem _ ct := if ct.getLast? = some (pem.headD 0) then .ok ct.dropLast else .error .badCiphertext
  random i n := some (List.replicate n (UInt8.ofNat (i + 40)))
  alloc _ := true
  ptr := 4096
  heap := 1
  junk n := List.replicate n 170
  random_len := by intro _ n b h; cases h; simp
  junk_len := by simp

/-- A raw AES keyring. -/
def aes : RawAes := ⟨[110, 115], [107], List.replicate 32 9⟩

/-- A raw RSA keyring with both keys. -/
def rsa : RawRsa := ⟨[114], [115], some [8], some [8], 1⟩

/-- All allocations succeed. -/
def multiAlloc : MultiAlloc := ⟨true, true, fun _ => true, fun _ => true⟩

/-- Nothing yet. -/
def encStart : EncState := ⟨none, [], [], .raw 0⟩

/-- Nothing yet. -/
def decStart : DecState := ⟨none, [], .raw 0⟩

/-- An encryption context with two entries. -/
def krCtx : EncCtx := [([2], [3]), ([1], [9, 9])]

/-- A keyring that reports an error, from the library's point of view an arbitrary third-party one. -/
def failing : Keyring :=
  { onEncrypt := some (fun _ _ s => (.fail, { s with errno := .kmsFailure }))
    onDecrypt := some (fun _ _ _ s => (.fail, { s with errno := .kmsFailure })) }

/-- What encryption with the AES keyring as generator and the RSA keyring as child gives. -/
def wrapped : EncState :=
  (keyringOnEncrypt (multiKeyring multiAlloc (some (aesKeyring krEnv aes)) [rsaKeyring krEnv rsa]) krCtx 0x0178 encStart).2

end Verif.Example
