import Verif.Model.Session
import Verif.Spec.Crypto
/-
What a caller of the session API sees: calls, histories of calls, the bytes accepted and released, and what messages are.
The calls are those of the model; everything said about messages is stated with the wire formats of `Spec.Header` and
`Spec.Frame` and the AEAD, signature and CMM functions of the environment.
-/
namespace Verif.Spec
open Verif

/-- An edit of a hash table: the keys stay distinct. -/
def KeepsTable (f : EncCtx → EncCtx) : Prop := ∀ m, DistinctKeys m → DistinctKeys (f m)

/-- A call of the session API.  An input of `none` is a NULL pointer. -/
inductive Op where
  | reset (mode : Mode)
  | setFrameSize (n : Nat)
  | setMessageSize (n : Nat)
  | setMessageBound (n : Nat)
  | setPolicy (pol : Policy)
  | setMaxEdks (n : Nat)
  | editCtx (f : EncCtx → EncCtx) (hf : KeepsTable f)
  | process (mem : Bytes) (inp : Option Bytes)
  | processFull (mem : Bytes) (inp : Option Bytes) (oldWritten : Nat)

/-- A session together with the input its `process` calls reported as read and the output they reported as written since the
session was created or last reset.  A failed call reports no output; its input is not counted. -/
structure View where
  s : Session
  consumed : Bytes
  released : Bytes

/-- A call: the view after it, and how it ended. -/
def apply (env : Env) (v : View) : Op → View × Res
  | .reset m => let r := reset v.s m; (⟨r.1, [], []⟩, r.2)
  | .setFrameSize n => let r := setFrameSize v.s n; ({ v with s := r.1 }, r.2)
  | .setMessageSize n => let r := setMessageSize env v.s n; ({ v with s := r.1 }, r.2)
  | .setMessageBound n => let r := setMessageBound v.s n; ({ v with s := r.1 }, r.2)
  | .setPolicy p => let r := setCommitmentPolicy v.s p; ({ v with s := r.1 }, r.2)
  | .setMaxEdks n => let r := setMaxEdks v.s n; ({ v with s := r.1 }, r.2)
  | .editCtx f _ => ({ v with s := editEncCtx v.s f }, .ok)
  | .process mem inp =>
    let o := process env v.s mem (inp.getD []) inp.isNone
    if o.res = .ok then
      (⟨o.s, v.consumed ++ (inp.getD []).take o.read, v.released ++ o.mem.take o.written⟩, o.res)
    else ({ v with s := o.s }, o.res)
  | .processFull mem inp old =>
    let o := processFull env v.s mem (inp.getD []) inp.isNone old
    if o.res = .ok then
      (⟨o.s, v.consumed ++ (inp.getD []).take o.read, v.released ++ o.mem.take o.written⟩, o.res)
    else ({ v with s := o.s }, o.res)

/-- A sequence of calls, each with its own environment (CMM, crypto and allocation outcomes). -/
def run (v : View) (hist : List (Env × Op)) : View := hist.foldl (fun v c => (apply c.1 v c.2).1) v

/-- Calls other than `reset`. -/
def Op.notReset : Op → Bool
  | .reset _ => false
  | _ => true

/-- A history without `reset`. -/
def NoReset (hist : List (Env × Op)) : Prop := ∀ c ∈ hist, c.2.notReset = true

/-- The policy in force after a call: the last one set that is valid. -/
def polAfter (pol : Policy) : Op → Policy
  | .setPolicy p => if p.isValid then p else pol
  | _ => pol

/-- The views reachable by API calls when every call since the session was created or last reset has an environment in `E`;
`pol` is the commitment policy in force. -/
inductive Reach : (Env → Prop) → Policy → View → Prop where
  | new {E : Env → Prop} {mode : Mode} {s : Session} (h : sessionNew mode = some s) : Reach E .requireRequire ⟨s, [], []⟩
  | call {E : Env → Prop} {pol : Policy} {v : View} {env : Env} (op : Op) (h : Reach E pol v) (he : E env) :
      Reach E (polAfter pol op) (apply env v op).1
  | restart {E E' : Env → Prop} {pol : Policy} {v : View} (env : Env) (mode : Mode) (h : Reach E' pol v) :
      Reach E pol (apply env v (.reset mode)).1

/-! ### Policies -/

/-- Which suites a commitment policy admits for encryption. -/
def MayEncrypt : Policy → SuiteRow → Prop
  | .requireRequire, r | .requireAllow, r => r.commitment ≠ 0
  | .forbidAllow, r => r.commitment = 0
  | .other _, _ => False

/-- Which suites a commitment policy admits for decryption. -/
def MayDecrypt : Policy → SuiteRow → Prop
  | .requireRequire, r => r.commitment ≠ 0
  | .requireAllow, _ | .forbidAllow, _ => True
  | .other _, _ => False

/-! ### Message bodies -/

/-- The frames of a body on the wire. -/
def bodyBytes (fr : List (Frame × Bytes)) : Bytes := (fr.map (fun x => wireFrame x.1)).flatten

/-- The plaintext of a body. -/
def bodyText (fr : List (Frame × Bytes)) : Bytes := (fr.map (fun x => x.2)).flatten

/-- A body that is not complete yet: only intermediate frames. -/
def Ongoing (fr : List (Frame × Bytes)) : Prop := ∀ x ∈ fr, x.1.type = .frame

/-- A complete body: intermediate frames followed by one final frame or single block. -/
def Complete (fr : List (Frame × Bytes)) : Prop :=
  ∃ init last, fr = init ++ [last] ∧ Ongoing init ∧ last.1.type ≠ .frame

/-- `f` is frame number `i` of the message `mid`: it has that number and IV, and the environment sealed `pt` under the key
`k` with additional data that name the message, the kind of frame, the number and the length.  A final frame is shorter than the
frame size. -/
structure SealedFrame (E : Env → Prop) (k mid : Bytes) (fs i : Nat) (f : Frame) (pt : Bytes) : Prop where
  ok : FrameOK fs f
  seqno : f.seqno = i
  iv : f.iv = bodyIv i
  len : f.ciphertext.length = pt.length
  limits : WithinLimits f.type i pt.length
  short : f.type = .final → pt.length < fs
  sealed : ∃ e, E e ∧ e.crypto.aeadSeal k (bodyIv i) (bodyAad mid f.type i pt.length) pt = some (f.ciphertext, f.authtag)

/-- `f` was accepted as frame number `i` of the message `mid`: the environment opened it to `pt` under the key `k` with
additional data that name the message, the kind of frame, the number and the length. -/
structure OpenedFrame (E : Env → Prop) (k mid : Bytes) (fs i : Nat) (f : Frame) (pt : Bytes) : Prop where
  ok : FrameOK fs f
  seqno : f.seqno = i
  len : f.ciphertext.length = pt.length
  opened : ∃ e, E e ∧ e.crypto.aeadOpen k f.iv (bodyAad mid f.type i f.ciphertext.length) f.ciphertext f.authtag = .ok pt

/-- Every frame of a body stands at its number. -/
def AllFrames (P : Nat → Frame → Bytes → Prop) (fr : List (Frame × Bytes)) : Prop :=
  ∀ i (h : i < fr.length), P (i + 1) fr[i].1 fr[i].2

/-- The trailer of a signed message. -/
def wireTrailer (sig : Bytes) : Bytes := u16 sig.length ++ sig

/-! ### What decryption has to check -/

/-- `k` and `commit` are the content key and the commitment of a suite for a data key and a message id: the data key itself
or HKDF with the suite's digest and the inputs of the specification. -/
def DerivedKey (hk : HkdfFn) (row : SuiteRow) (dataKey mid k commit : Bytes) : Prop :=
  (if row.kdfBits = 0 then k = dataKey
   else ∃ sha, 8 * hashLen sha = row.kdfBits ∧ hk sha (contentKdfInput row.version row.id mid).1 dataKey
     (contentKdfInput row.version row.id mid).2 (row.keyBits / 8) = .ok k) ∧
  (if row.commitment = 0 then commit = []
   else ∃ sha, 8 * hashLen sha = row.kdfBits ∧ hk sha (commitKdfInput mid).1 dataKey (commitKdfInput mid).2 row.commitment = .ok commit)

/-- A header was verified: it is well formed, the CMM returned the materials `m` for it, the content key `k` follows from them
and so does the commitment stored in the header, and the header tag opens under `k`. -/
structure HeaderVerified (e : Env) (row : SuiteRow) (h : Hdr) (m : DecMaterials) (k : Bytes) : Prop where
  ok : HeaderOK row h
  cmm : e.cmm.decrypt { encCtx := h.encCtx, edks := h.edks, alg := h.algId } = .ok m
  key : DerivedKey e.crypto.hkdf row m.dataKey h.messageId k h.algSuiteData
  tag : ∃ x, e.crypto.aeadOpen k (if row.version = 1 then h.iv else List.replicate 12 0) (wireAuthPart row.version h) []
    h.authTag = .ok x

/-- What a decrypting session has accepted and released: a verified header, opened frames in order, and `tr`. -/
structure Decrypted (E : Env → Prop) (row : SuiteRow) (h : Hdr) (m : DecMaterials) (k : Bytes) (fr : List (Frame × Bytes))
    (tr consumed released : Bytes) : Prop where
  header : ∃ e, E e ∧ HeaderVerified e row h m k
  frames : AllFrames (OpenedFrame E k h.messageId h.frameLen) fr
  consumed : consumed = wireHeader row.version h ++ bodyBytes fr ++ tr
  released : released = bodyText fr

/-- The trailer `tr` was checked for a message that consists of `signed`: there is none unless the suite has a signature, and
otherwise it is a signature over exactly these bytes. -/
def SignatureVerified (E : Env → Prop) (row : SuiteRow) (m : DecMaterials) (signed tr : Bytes) : Prop :=
  if row.curveBits = 0 then tr = []
  else ∃ e ctx sig, E e ∧ m.signctx = some ctx ∧ e.crypto.verify { ctx with data := ctx.data ++ signed } sig = .ok () ∧
    tr = wireTrailer sig ∧ sig.length < 65536

/-! ### What encryption produces -/

/-- A header was made: the CMM returned the materials `m` (and left the context `ctx` in the request), the header carries
that context, the encrypted data keys and the suite of the materials, the content key and the commitment follow from the data
key, and the header tag is the AEAD tag of the authenticated part. -/
structure HeaderMade (e : Env) (row : SuiteRow) (h : Hdr) (m : EncMaterials) (k : Bytes) : Prop where
  suite : row ∈ suiteTable
  alg : h.algId = row.id ∧ m.alg = row.id
  cmm : ∃ req ctx, e.cmm.generate req = (ctx, .ok m) ∧ ctx.Perm h.encCtx
  edks : h.edks = m.edks
  messageId : e.crypto.random (if row.version = 1 then 16 else 32) = some h.messageId
  key : DerivedKey e.crypto.hkdf row m.dataKey h.messageId k h.algSuiteData
  tag : ∃ ct, e.crypto.aeadSeal k (List.replicate 12 0) (wireAuthPart row.version h) [] = some (ct, h.authTag)
  iv : row.version = 1 → h.iv = List.replicate 12 0

/-- What an encrypting session has accepted and released: a header, sealed frames in order, and `tr`. -/
structure Encrypted (E : Env → Prop) (row : SuiteRow) (h : Hdr) (m : EncMaterials) (k : Bytes) (fr : List (Frame × Bytes))
    (tr consumed released : Bytes) : Prop where
  header : ∃ e, E e ∧ HeaderMade e row h m k
  frames : AllFrames (SealedFrame E k h.messageId h.frameLen) fr
  consumed : consumed = bodyText fr
  released : released = wireHeader row.version h ++ bodyBytes fr ++ tr

/-- The trailer `tr` of a message that consists of `signed`: nothing, or a signature over exactly these bytes. -/
def Signed (E : Env → Prop) (row : SuiteRow) (m : EncMaterials) (signed tr : Bytes) : Prop :=
  if row.curveBits = 0 then tr = []
  else ∃ e ctx sig, E e ∧ m.signctx = some ctx ∧ e.crypto.sign { ctx with data := ctx.data ++ signed } = .ok sig ∧
    tr = wireTrailer sig

end Verif.Spec
