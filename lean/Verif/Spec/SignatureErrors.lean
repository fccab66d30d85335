import Verif.Spec.Signature
/-
What the functions for trailing signatures report: for each function the list of what has to go well, in order, each with the code
that is reported otherwise.
-/
namespace Verif.Spec

/-- The code of the first entry that does not go well. -/
def firstFailure : List (Bool × Err) → Option Err
  | [] => none
  | (good, e) :: r => if good then firstFailure r else some e

/-- A result is the error of the first entry that does not go well, or a value if all go well. -/
def Reports {α : Type} (r : Except Err α) (checks : List (Bool × Err)) : Prop :=
  match firstFailure checks with
  | some e => r = .error e
  | none => ∃ x, r = .ok x

/-- Writing a public key whose encoding has `n` bytes as a base64 string. -/
def pubkeyChecks (ec : Ec) (n : Nat) : List (Bool × Err) :=
  [(ec.ok .pubOut, .cryptoUnknown), (decide (n ≤ 63), .shortBuffer), (ec.ok .pubStr, .oom)]

/-- Making the objects of a context. -/
def objectChecks (ec : Ec) : List (Bool × Err) :=
  [(ec.ok .pkeyNew, .oom), (ec.ok .pkeySet, .oom), (ec.ok .mdNew, .oom), (ec.ok .mdInit, .cryptoUnknown)]

/-- Generating a key. -/
def keygenChecks (ec : Ec) (cv : Curve) (wantPub : Bool) : List (Bool × Err) :=
  [(ec.ok .groupNew, .cryptoUnknown), (ec.ok .keyNew, .cryptoUnknown), (ec.ok .keySetGroup, .cryptoUnknown), (ec.ok .keyGen, .cryptoUnknown)] ++
  (if wantPub then pubkeyChecks ec (ec.pubOut cv (ec.genKey cv).2).length else []) ++ [(ec.ok .ctxMem, .oom)] ++ objectChecks ec

/-- The number in the byte at position `i`. -/
def numAt (s : Bytes) (i : Nat) : Nat := (s.getD i 0).toNat

/-- The two keys in a serialised private key: the lengths are at positions 2 and 3. -/
def pubPart (s : Bytes) : Bytes := (s.drop 4).take (numAt s 2)
def privPart (s : Bytes) : Bytes := (s.drop (4 + numAt s 2)).take (numAt s 3)

/-- Reading a serialised private key. -/
def privkeyChecks (ec : Ec) (cv : Curve) (algId : Nat) (s : Bytes) : List (Bool × Err) :=
  [(decide (5 ≤ s.length), .cryptoUnknown), (decide (numAt s 0 * 256 + numAt s 1 = algId), .cryptoUnknown),
   (ec.ok .keyNew, .oom), (ec.ok .groupNew, .cryptoUnknown), (ec.ok .keySetGroup, .cryptoUnknown),
   (decide (4 + numAt s 2 ≤ s.length), .cryptoUnknown), (ec.ok .pubIn, .cryptoUnknown), ((ec.pubIn cv (pubPart s)).isSome, .cryptoUnknown),
   (decide (4 + numAt s 2 + numAt s 3 ≤ s.length), .cryptoUnknown), (ec.ok .privIn, .cryptoUnknown),
   (decide (∃ d ∈ d2iInt (privPart s), d.2 = []), .cryptoUnknown), (ec.ok .asn1ToBn, .oom), (ec.ok .keySetPriv, .oom),
   (decide (s.length = 4 + numAt s 2 + numAt s 3), .cryptoUnknown)]

/-- Beginning to sign with a serialised private key. -/
def signStartChecks (ec : Ec) (cv : Curve) (algId : Nat) (wantPub : Bool) (s : Bytes) : List (Bool × Err) :=
  privkeyChecks ec cv algId s ++
  (if wantPub then pubkeyChecks ec (ec.pubOut cv ((ec.pubIn cv (pubPart s)).getD 0)).length else []) ++ [(ec.ok .ctxMem, .oom)] ++ objectChecks ec

/-- Beginning to verify. -/
def verifyStartChecks (ec : Ec) (cv : Curve) (pub : Bytes) : List (Bool × Err) :=
  [(ec.ok .ctxMem, .oom), (decide (∃ bin ∈ ec.unb64 pub, bin.length ≤ 64), .badCiphertext), (ec.ok .groupNew, .cryptoUnknown),
   (ec.ok .keyNew, .oom), (ec.ok .keySetGroup, .cryptoUnknown), (ec.ok .pubIn, .badCiphertext),
   (decide (∃ bin ∈ ec.unb64 pub, (ec.pubIn cv bin).isSome), .badCiphertext)] ++ objectChecks ec

/-- Serialising a private key whose parts have `n` (public) and `m` (private) bytes. -/
def getPrivkeyChecks (ec : Ec) (n m : Nat) : List (Bool × Err) :=
  [(ec.ok .asn1New, .oom), (ec.ok .privOut, .oom), (ec.ok .pubOut2, .oom), (decide (n ≤ 255), .cryptoUnknown),
   (decide (m ≤ 255), .cryptoUnknown), (decide (n + m ≤ 126), .raw 0), (ec.ok .privStr, .oom)]

/-- Before the first signature is drawn. -/
def signFinishChecks (ec : Ec) : List (Bool × Err) :=
  [(ec.ok .digestFinal, .cryptoUnknown), (ec.ok .pkeyCtxNew, .oom), (ec.ok .signInit, .cryptoUnknown), (ec.ok .signSize, .cryptoUnknown),
   (ec.ok .sigBuf, .oom)]

/-- Drawing the `i`-th signature and, if it does not have the right length (`right`) but can be decoded, negating it. -/
def roundChecks (ec : Ec) (right : Bool) (i : Nat) : List (Bool × Err) :=
  (ec.ok (.sign i), .cryptoUnknown) :: (if right ∨ !ec.ok (.sigIn i) then [] else
    [(ec.ok (.dupR i), .oom), (ec.ok (.dupS i), .oom), (ec.ok (.bnSub i), .cryptoUnknown), (ec.ok (.sigOut i), .cryptoUnknown)])

/-- The `i`-th signature of `m` drawn, and the same with the second number negated. -/
def drawn (ec : Ec) (cv : Curve) (d : Nat) (m : Bytes) (i : Nat) : Nat × Nat := ec.draw cv d m i
def negated (ec : Ec) (cv : Curve) (d : Nat) (m : Bytes) (i : Nat) : Nat × Nat :=
  ((ec.draw cv d m i).1, cv.order - (ec.draw cv d m i).2)

/-- The `i`-th round ends in an error. -/
def RoundFails (ec : Ec) (cv : Curve) (d : Nat) (m : Bytes) (i : Nat) (e : Err) : Prop :=
  ∃ right : Bool, (right = true ↔ RightSigLength cv (drawn ec cv d m i).1 (drawn ec cv d m i).2) ∧
    firstFailure (roundChecks ec right i) = some e

/-- The `i`-th round gives a signature of the right length: the drawn one, or the negated one. -/
def RoundGives (ec : Ec) (cv : Curve) (d : Nat) (m : Bytes) (i : Nat) (x : Nat × Nat) : Prop :=
  RightSigLength cv x.1 x.2 ∧
  (x = drawn ec cv d m i ∧ firstFailure (roundChecks ec true i) = none ∨
   x = negated ec cv d m i ∧ ¬RightSigLength cv (drawn ec cv d m i).1 (drawn ec cv d m i).2 ∧ ec.ok (.sigIn i) ∧
     firstFailure (roundChecks ec false i) = none)

/-- The `i`-th round gives no signature of the right length. -/
def RoundInVain (ec : Ec) (cv : Curve) (d : Nat) (m : Bytes) (i : Nat) : Prop :=
  firstFailure (roundChecks ec false i) = none ∧ ¬RightSigLength cv (drawn ec cv d m i).1 (drawn ec cv d m i).2 ∧
  (ec.ok (.sigIn i) → ¬RightSigLength cv (negated ec cv d m i).1 (negated ec cv d m i).2)

/-- The ways to write the length of the contents in DER that are understood; only the shortest is written. -/
def LengthForm (n : Nat) (form : Bytes) : Prop :=
  n < 128 ∧ form = [UInt8.ofNat n] ∨ n < 256 ∧ form = [0x81, UInt8.ofNat n] ∨
  n < 65536 ∧ form = [0x82, UInt8.ofNat (n / 256), UInt8.ofNat (n % 256)]

/-- The calls that give memory: their failure means that there is none left. -/
def givesMemory : SigSite → Bool
  | .ctxMem | .pkeyNew | .pkeySet | .mdNew | .pubStr | .asn1New | .privOut | .pubOut2 | .privStr | .keyNew | .asn1ToBn | .keySetPriv
  | .pkeyCtxNew | .sigBuf | .sigStr | .dupR _ | .dupS _ => true
  | _ => false

end Verif.Spec
