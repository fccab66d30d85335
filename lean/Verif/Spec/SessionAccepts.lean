import Verif.Spec.SessionComplete
/-
What a message is, for whoever reads it: written by this library or by another implementation of the format.
-/
namespace Verif.Spec

/-- `msg` is a message with plaintext `pt` for a reader whose CMM and crypto are those of `e` and whose settings are `pol`, `maxEdks`
and `mode`: a header the CMM answers for and whose tag and commitment are right, of a suite the policy admits and with no more
encrypted data keys than the limit, shorter than 2^31 bytes; then frames in order that open under the content key, the last one and
only the last one final (whatever their IVs, and the final one may be full); then, if the suite signs, a signature over all of this
that verifies.  The data key has the length of the suite, the suite of the materials is known, and a reader that may not release
unsigned plaintext early only takes materials of suites that do not sign. -/
structure MessageParts (e : Env) (pol : Policy) (maxEdks : Nat) (mode : Mode) (msg pt : Bytes) (row : SuiteRow) (h : Hdr) (m : DecMaterials)
    (k : Bytes) (fr : List (Frame × Bytes)) (tr : Bytes) : Prop where
  header : HeaderVerified e row h m k
  small : (wireHeader row.version h).length < 2 ^ 31
  dataKey : m.dataKey.length = row.keyBits / 8
  policy : MayDecrypt pol row
  limit : maxEdks = 0 ∨ h.edks.length ≤ maxEdks
  suite : ∃ r ∈ suiteTable, r.id = m.alg ∧ (mode = .decryptUnsigned → r.curveBits = 0)
  frames : AllFrames (OpenedFrame (· = e) k h.messageId h.frameLen) fr
  complete : Complete fr
  signature : SignatureVerified (· = e) row m (wireHeader row.version h ++ bodyBytes fr) tr
  bytes : msg = wireHeader row.version h ++ bodyBytes fr ++ tr
  text : pt = bodyText fr

/-- `msg` is a message with plaintext `pt`. -/
def ValidMessage (e : Env) (pol : Policy) (maxEdks : Nat) (mode : Mode) (msg pt : Bytes) : Prop :=
  ∃ row h m k fr tr, MessageParts e pol maxEdks mode msg pt row h m k fr tr

/-- Nothing outside the message fails: allocations succeed and digests take data. -/
def NothingFails (e : Env) : Prop := (∀ site, e.alloc site = true) ∧ ∀ ctx x, e.crypto.sigFail ctx x = none

/-- A decrypting session with a CMM that is about to read a message. -/
structure ReadyToDecrypt (v : View) : Prop where
  start : v.s.state = .config ∧ v.consumed = [] ∧ v.released = []
  hasCmm : v.s.hasCmm = true
  mode : v.s.mode.isDecrypt = true

end Verif.Spec
