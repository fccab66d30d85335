import Verif.Spec.Session
/-
Encryption that never sees the plaintext: what a session does is compared with what it does for zeros of the same length.
-/
namespace Verif.Spec
open Verif

/-- As many zero bytes. -/
def zeros (x : Bytes) : Bytes := List.replicate x.length 0

theorem length_zeros (x : Bytes) : (zeros x).length = x.length := List.length_replicate

/-- The primitives, except that the AEAD seals zeros in place of whatever it is given. -/
def blindCrypto (c : Crypto) : Crypto :=
  { c with
    aeadSeal := fun k iv aad pt => c.aeadSeal k iv aad (zeros pt)
    aeadSeal_len := fun k iv aad pt ct tag h => by
      have := c.aeadSeal_len k iv aad (zeros pt) ct tag h
      rwa [length_zeros] at this }

/-- The same environment with that AEAD. -/
def blindEnv (e : Env) : Env := { e with crypto := blindCrypto e.crypto }

/-- The same call with zeros as input. -/
def blindOp : Op → Op
  | .process mem inp => .process mem (inp.map zeros)
  | .processFull mem inp old => .processFull mem (inp.map zeros) old
  | op => op

/-- The same view, except that zeros were read. -/
def blindView (v : View) : View := { v with consumed := zeros v.consumed }

/-- The call does not make a decrypting session of it. -/
def Op.staysEncrypting : Op → Prop
  | .reset m => m = .encrypt
  | _ => True

/-- How the calls of a history end, one after the other. -/
def results (v : View) : List (Env × Op) → List Res
  | [] => []
  | c :: hist => (apply c.1 v c.2).2 :: results (apply c.1 v c.2).1 hist

/-- A history with that AEAD. -/
def blindEnvs (hist : List (Env × Op)) : List (Env × Op) := hist.map (fun c => (blindEnv c.1, c.2))

/-- A history with zeros as input. -/
def blindOps (hist : List (Env × Op)) : List (Env × Op) := hist.map (fun c => (c.1, blindOp c.2))

/-- Two calls that differ only in the bytes of the input, not in their number. -/
def SameButInput (a b : Op) : Prop := blindOp a = blindOp b

/-- An AEAD that seals all plaintexts of one length alike: it hides everything but the length. -/
def HidesPlaintext (c : Crypto) : Prop :=
  ∀ k iv aad p q, p.length = q.length → c.aeadSeal k iv aad p = c.aeadSeal k iv aad q

end Verif.Spec
