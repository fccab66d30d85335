import Verif.Spec.Session
/-
Decryption that never sees the plaintext: what a session does is compared with what it does when every byte that the AEAD opens is replaced.
-/
namespace Verif.Spec
open Verif

/-- The primitives, except that every byte that the AEAD opens is replaced by its image under `g`. -/
def maskCrypto (g : UInt8 → UInt8) (c : Crypto) : Crypto :=
  { c with
    aeadOpen := fun k iv aad ct tag => (c.aeadOpen k iv aad ct tag).map (List.map g)
    aeadOpen_len := fun k iv aad ct tag pt h => by
      cases ho : c.aeadOpen k iv aad ct tag with
      | error e => rw [ho] at h; cases h
      | ok x =>
        rw [ho] at h
        cases h
        rw [List.length_map, c.aeadOpen_len k iv aad ct tag x ho] }

/-- The same environment with that AEAD. -/
def maskEnv (g : UInt8 → UInt8) (e : Env) : Env := { e with crypto := maskCrypto g e.crypto }

/-- The first `n` bytes of a buffer replaced. -/
def maskMem (g : UInt8 → UInt8) (n : Nat) (m : Bytes) : Bytes := (m.take n).map g ++ m.drop n

/-- The same outcome, except that the bytes written are replaced. -/
def maskOut (g : UInt8 → UInt8) (o : ProcOut) : ProcOut := { o with mem := maskMem g o.written o.mem }

/-- The same view, except that the bytes released are replaced. -/
def maskView (g : UInt8 → UInt8) (v : View) : View := { v with released := v.released.map g }

/-- The call does not make an encrypting session of it. -/
def Op.staysDecrypting : Op → Prop
  | .reset m => m.isDecrypt = true
  | _ => True

/-- A history with that AEAD. -/
def maskEnvs (g : UInt8 → UInt8) (hist : List (Env × Op)) : List (Env × Op) := hist.map (fun c => (maskEnv g c.1, c.2))

/-- How the calls of a history end, one after the other, and what the session estimates and has come to after each. -/
def outcomes (v : View) : List (Env × Op) → List (Res × Session × Nat)
  | [] => []
  | c :: hist => ((apply c.1 v c.2).2, (apply c.1 v c.2).1.s, (apply c.1 v c.2).1.released.length) :: outcomes (apply c.1 v c.2).1 hist

/-- Two environments that differ only in the bytes that the AEAD opens, not in their number nor in whether it opens. -/
def SameButOpened (e e' : Env) : Prop := maskEnv (fun _ => 0) e = maskEnv (fun _ => 0) e'

end Verif.Spec
