import Verif.Spec.Kms
import Verif.Spec.KeyringExample
/-
A toy KMS and keyrings for the non-vacuity examples and counterexamples.
-/
namespace Verif.Example
open Verif Verif.Spec

/-- A toy KMS with clients for all regions but "nowhere": the ciphertext is the data key and a check byte that depends on the key. -/
def kmsEnv : KmsEnv where
  client _ r := if r = ascii "nowhere" then none else some (r.length)
  decrypt _ _ r := if r.ciphertext.getLast? = some (r.keyId.getLast?.getD 0) then some (r.keyId, r.ciphertext.dropLast) else none
  encrypt _ _ r := some (r.keyId, r.plaintext ++ [r.keyId.getLast?.getD 0])
  generate _ r := some (r.keyId, List.replicate r.numBytes 7 ++ [r.keyId.getLast?.getD 0], List.replicate r.numBytes 7)
  alloc _ := true
  pushEdk _ := true
  pushTrace _ := true
  ptr := 4096
  heap := 1

def arn1 : Bytes := ascii "arn:aws:kms:us-west-2:1234:key/ab-1"
def arn2 : Bytes := ascii "arn:aws:kms:eu-central-1:1234:key/ab-2"
def mrkWest : Bytes := ascii "arn:aws:kms:us-west-2:1234:key/mrk-5"
def mrkEast : Bytes := ascii "arn:aws:kms:us-east-1:1234:key/mrk-5"

/-- A strict KMS keyring with two keys. -/
def kmsStrict : KmsKeyring := ⟨[arn1, arn2], [ascii "grant"], none⟩

/-- A filter for one account. -/
def kmsFilter : DiscoveryFilter := ⟨ascii "aws", [ascii "1234"]⟩

/-- A KMS keyring in discovery mode with a filter. -/
def kmsDisco : KmsKeyring := ⟨[], [], some kmsFilter⟩

/-- EDKs of another provider, of another account, and of the two keys. -/
def kmsEdks : List Edk :=
  [⟨ascii "other", arn1, [1, 49]⟩, ⟨ascii "aws-kms", ascii "arn:aws:kms:us-west-2:99:key/ab-1", [1, 49]⟩,
   ⟨ascii "aws-kms", arn1, [5, 5]⟩, ⟨ascii "aws-kms", arn2, List.replicate 32 7 ++ [50]⟩]

/-- A strict MRK-aware keyring. -/
def mrkStrict : MrkKeyring := ⟨mrkWest, [], [], none⟩

/-- An MRK-aware keyring in discovery mode with a filter. -/
def mrkDisco : MrkKeyring := ⟨[], [], ascii "us-west-2", some kmsFilter⟩

/-- EDKs of a key in another region, of another account, and of a replica of the multi-Region key. -/
def mrkEdks : List Edk :=
  [⟨ascii "aws-kms", arn2, [1, 50]⟩, ⟨ascii "aws-kms", ascii "arn:aws:kms:us-west-2:99:key/mrk-5", [1, 53]⟩,
   ⟨ascii "aws-kms", mrkEast, List.replicate 32 7 ++ [53]⟩]

end Verif.Example
