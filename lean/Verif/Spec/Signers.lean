import Verif.Model.DefaultCmm
import Verif.Spec.Integrity
/-
What it means that nobody but the writers of messages signed under a verification key.  Nothing is assumed about data keys here:
others may have them.
-/
namespace Verif.Spec
open Verif

/-- A set of encrypting sessions in environments of `W`, with what they wrote. -/
def WrittenIn (W : Env → Prop) (M : View → WrittenMessage → Prop) : Prop :=
  ∀ w a, M w a → ∃ pol, Reach W pol w ∧ w.s.mode = .encrypt ∧ Wrote W w a

/-- The bytes of a message that its signature covers. -/
def WrittenMessage.signedBytes (a : WrittenMessage) : Bytes := wireHeader a.row.version a.hd ++ bodyBytes a.fr

/-- Only what the writers signed verifies under the new signature context `sc`. -/
def Unforged (E : Env → Prop) (sc : SigCtx) (M : View → WrittenMessage → Prop) : Prop :=
  sc.data = [] ∧ ∀ e, E e → ∀ data sig, e.crypto.verify { sc with data := data } sig = .ok () →
    ∃ w a, M w a ∧ a.tr ≠ [] ∧ data = a.signedBytes

/-- Opening with the functions of the reader undoes sealing with those of the writer, and HKDF is the same function for both. -/
def SameCiphers (W E : Env → Prop) : Prop :=
  ∀ ew e, W ew → E e →
    (∀ k iv aad pt ct tag x, ew.crypto.aeadSeal k iv aad pt = some (ct, tag) → e.crypto.aeadOpen k iv aad ct tag = .ok x → x = pt) ∧
    ∀ sha salt ikm info n x y, e.crypto.hkdf sha salt ikm info n = .ok x → ew.crypto.hkdf sha salt ikm info n = .ok y → x = y

/-- The header of a message can be read back: its fields fit their length fields.  (A version 2 header has no IV.) -/
def WrittenMessage.Readable (a : WrittenMessage) : Prop :=
  HeaderOK a.row { a.hd with iv := if a.row.version = 1 then a.hd.iv else [] }

/-- HKDF makes one commitment of the message for two data keys. -/
def SameCommitment (E W : Env → Prop) (mid k1 k2 : Bytes) : Prop :=
  ∃ e ew sha c, E e ∧ W ew ∧ e.crypto.hkdf sha (commitKdfInput mid).1 k1 (commitKdfInput mid).2 32 = .ok c ∧
    ew.crypto.hkdf sha (commitKdfInput mid).1 k2 (commitKdfInput mid).2 32 = .ok c

/-- The reader `v` read what the writer `w` wrote: the same bytes up to the signature; for a readable header it shows the suite and the
context of the message, and with the data key `dk` it released the plaintext if that is the data key of the writer. -/
structure ReadWhole (E W : Env → Prop) (v w : View) (a : WrittenMessage) (dk : Bytes) : Prop where
  read : ∃ sig, v.consumed = a.signedBytes ++ wireTrailer sig
  wrote : ∃ sig, w.released = a.signedBytes ++ wireTrailer sig
  shown : a.Readable → getAlgId v.s = .ok a.hd.algId ∧ getEncCtx v.s = some a.hd.encCtx
  text : a.Readable → SameCiphers W E → dk = a.m.dataKey → v.released = w.consumed
  committed : a.Readable → a.row.commitment ≠ 0 → SameCommitment E W a.hd.messageId dk a.m.dataKey

/-- The CMM of the environment is the default CMM over some keyring; `vs` starts the verification of signatures. -/
def UsesDefaultCmm (e : Env) (vs : Nat → Bytes → Except Err SigCtx) : Prop :=
  ∃ (env : CmmEnv) (kr : Keyring) (da : Option Nat), e.cmm = DefaultCmm.toCmm env ⟨kr, da⟩ ∧ env.verifyStart = vs

end Verif.Spec
