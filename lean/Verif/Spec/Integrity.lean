import Verif.Spec.Session
/-
What it means that nobody but the writers of messages made something that opens under a key: the writers are encrypting
sessions, and everything that opens was sealed by one of them as the header or as a frame of its message.
-/
namespace Verif.Spec
open Verif

/-- What an encrypting session wrote: the suite, the header, the materials, the content key, the frames with their plaintexts and
the trailer. -/
structure WrittenMessage where
  row : SuiteRow
  hd : Hdr
  m : EncMaterials
  k : Bytes
  fr : List (Frame × Bytes)
  tr : Bytes

/-- The session of the view `w` wrote the message `a`, or as much of it as there is yet. -/
structure Wrote (E : Env → Prop) (w : View) (a : WrittenMessage) : Prop where
  encrypted : Encrypted E a.row a.hd a.m a.k a.fr a.tr w.consumed w.released
  body : (Ongoing a.fr ∧ a.tr = []) ∨
    (Complete a.fr ∧ (a.tr = [] ∨ Signed E a.row a.m (wireHeader a.row.version a.hd ++ bodyBytes a.fr) a.tr))

/-- Nonce, additional data, ciphertext, tag and plaintext of the seals in a message: the header tag under the nonce zero, and every
frame. -/
def WrittenMessage.Seals (a : WrittenMessage) (iv aad ct tag pt : Bytes) : Prop :=
  (iv = List.replicate 12 0 ∧ aad = wireAuthPart a.row.version a.hd ∧ ct = [] ∧ tag = a.hd.authTag) ∨
  ∃ i f, a.fr[i]? = some (f, pt) ∧ iv = f.iv ∧ aad = bodyAad a.hd.messageId f.type (i + 1) pt.length ∧ ct = f.ciphertext ∧
    tag = f.authtag

/-- A set of writers: reachable encrypting sessions with what they wrote.  Messages of different sessions under one content key have
different message identifiers. -/
structure HonestWriters (M : View → WrittenMessage → Prop) : Prop where
  wrote : ∀ w a, M w a → ∃ E pol, Reach E pol w ∧ w.s.mode = .encrypt ∧ Wrote E w a
  fresh : ∀ w w' a b, M w a → M w' b → a.k = b.k → a.hd.messageId = b.hd.messageId → w = w' ∧ a = b

/-- Integrity of the AEAD under the key `k`: whatever opens is, with its nonce, additional data and tag, a seal in a message of
a writer with that content key. -/
def Intact (E : Env → Prop) (k : Bytes) (M : View → WrittenMessage → Prop) : Prop :=
  ∀ e, E e → ∀ iv aad ct tag pt, e.crypto.aeadOpen k iv aad ct tag = .ok pt → ∃ w a, M w a ∧ a.k = k ∧ a.Seals iv aad ct tag pt

/-- The CMM of the reader returns data keys only whose content keys are intact: keys that nobody but the writers has. -/
def KeysIntact (E : Env → Prop) (M : View → WrittenMessage → Prop) : Prop :=
  ∀ e, E e → ∀ req m, e.cmm.decrypt req = .ok m → ∀ row mid k c, row ∈ suiteTable →
    DerivedKey e.crypto.hkdf row m.dataKey mid k c → Intact E k M

/-- What the reader `v` accepted is `x` and then (a part of) a trailer `tr`, and `x` is the beginning of what the writer `w` wrote,
with all of its header; the reader shows the suite and the context of that message; what it released is the beginning of what the
writer was given.  When the reader is done, all of the message was read, and nothing else.  (The context can be told from the
bytes of a header only when these are well formed; a version 2 header has no IV.) -/
structure Accepted (v w : View) (a : WrittenMessage) (x tr : Bytes) : Prop where
  split : v.consumed = x ++ tr
  header : wireHeader a.row.version a.hd <+: x
  bytes : x <+: w.released
  text : v.released <+: w.consumed
  suite : v.s.state ≠ .error → getAlgId v.s = .ok a.hd.algId
  context : v.s.state ≠ .error → HeaderOK a.row { a.hd with iv := if a.row.version = 1 then a.hd.iv else [] } →
    getEncCtx v.s = some a.hd.encCtx
  whole : isDone v.s = true → v.released = w.consumed ∧ Complete a.fr ∧ x = wireHeader a.row.version a.hd ++ bodyBytes a.fr ∧
    (a.row.curveBits = 0 → v.consumed = w.released)

end Verif.Spec
