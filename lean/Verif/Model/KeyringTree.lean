import Verif.Model.Stack
import Verif.Model.Kms
/-
All keyrings of the library in one tree: raw keyrings, KMS keyrings and MRK-aware keyrings, and multi-keyrings of such keyrings or of
further multi-keyrings; and a session with the default CMM over any keyring.
-/
namespace Verif

/-- The environment of a session whose CMM is a default CMM (source/default_cmm.c:163-191) with the keyring `kr`, which may be a
user's own, and the default suite `alg`. -/
def World.envWith (w : World) (kr : Keyring) (alg : Option Nat) : Env :=
  { cmm := DefaultCmm.toCmm w.cmmEnv ⟨kr, alg⟩
    crypto := w.crypto
    alloc := w.alloc
    uninit := w.uninit
    staleErr := w.lastErr }

/-- A keyring that does not call other keyrings: of source/raw_aes_keyring.c, source/raw_rsa_keyring.c,
aws-encryption-sdk-cpp/source/kms_keyring.cpp or aws-encryption-sdk-cpp/source/kms_mrk_keyring.cpp. -/
inductive Leaf where
  | raw (r : RawKr)
  | kms (kr : KmsKeyring)
  | mrk (kr : MrkKeyring)
deriving DecidableEq

/-- A keyring of the library.  A multi-keyring (source/multi_keyring.c:129-189) has children and may have a generator; all of them may
be multi-keyrings.  A keyring that was added in two places is two nodes of the tree. -/
inductive KrTree where
  | leaf (l : Leaf)
  | multi (children : List KrTree)
  | multiGen (gen : KrTree) (children : List KrTree)

/-- What lies outside the library during one call.  Keyrings are told apart by their positions in the tree: `kr` and `kms` give the
environments of raw and of KMS keyrings, `multi` the allocations of multi-keyrings.  (The fields `kr` and `multi` of the world are not
used.) -/
structure Around where
  world : World
  kr : List Nat → KrEnv
  kms : List Nat → KmsEnv
  multi : List Nat → MultiAlloc

/-- The world with the environment of the raw keyring at `p`. -/
def Around.at (a : Around) (p : List Nat) : World := { a.world with kr := fun _ => a.kr p }

/-- The vtable of a leaf, source/raw_aes_keyring.c:268-272, source/raw_rsa_keyring.c:164-168, and the virtual functions of
aws-encryption-sdk-cpp/source/kms_keyring.cpp:49-301 and kms_mrk_keyring.cpp:83-608. -/
def Leaf.keyring (a : Around) (p : List Nat) : Leaf → Keyring
  | .raw r => r.keyring ((a.at p).krEnv 0)
  | .kms kr => kmsKeyring (a.kms p) kr
  | .mrk kr => mrkKeyring (a.kms p) kr

mutual
/-- The vtable of the keyring at position `p`.  The generator of a multi-keyring has number 0, its children have the numbers from 1 on,
source/multi_keyring.c:20-127. -/
def KrTree.keyring (a : Around) (p : List Nat) : KrTree → Keyring
  | .leaf l => l.keyring a p
  | .multi children => multiKeyring (a.multi p) none (keyringsAt a p 1 children)
  | .multiGen gen children => multiKeyring (a.multi p) (some (gen.keyring a (0 :: p))) (keyringsAt a p 1 children)
/-- The keyrings numbered from `i` on below `p`. -/
def keyringsAt (a : Around) (p : List Nat) (i : Nat) : List KrTree → List Keyring
  | [] => []
  | t :: ts => t.keyring a (i :: p) :: keyringsAt a p (i + 1) ts
end

end Verif
