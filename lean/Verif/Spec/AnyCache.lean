import Verif.Model.AnyCache
import Verif.Spec.CachingCmm
/-
What calls of caching CMMs ask of a materials cache of any kind, and what a cache promises (the comments in
include/aws/cryptosdk/cache.h:99-286).
-/
namespace Verif.Spec

/-- A question to the cache with the answer. -/
structure CacheEvent (η : Type) where
  q : CacheQuery η
  a : q.Ans

variable {η : Type}

/-- The ways a program can go, depending on the answers: the questions so far, and the result if it has come to its end. -/
inductive Path {α : Type} : Prog η α → List (CacheEvent η) → Option α → Prop where
  | stop (p : Prog η α) : Path p [] none
  | ret (a : α) : Path (.ret a) [] (some a)
  | ask {q : CacheQuery η} {k : q.Ans → Prog η α} {es : List (CacheEvent η)} {o : Option α} (a : q.Ans) :
      Path (k a) es o → Path (.ask q k) (⟨q, a⟩ :: es) o

/-! ### handles -/

/-- The entry handle that a question is about. -/
def uses : CacheQuery η → Option η
  | .usage h _ _ => some h
  | .getEnc h _ => some h
  | .getDec h => some h
  | .release h _ => some h
  | .creation h => some h
  | .hint h _ => some h
  | _ => none

/-- The entry handle that an answer gives. -/
def gives : CacheEvent η → Option η
  | ⟨.find _, (_, some (h, _))⟩ => some h
  | ⟨.putEnc _ _ _ _ _, some h⟩ => some h
  | ⟨.putDec _ _, some h⟩ => some h
  | _ => none

/-- The question returns a handle to the cache. -/
def isRelease : CacheQuery η → Bool
  | .release _ _ => true
  | _ => false

/-- The handles that have been given and not returned, beginning with `hs`; `none` if a handle is used or returned that was not given or
has been returned. -/
def heldHandles [DecidableEq η] : List η → List (CacheEvent η) → Option (List η)
  | hs, [] => some hs
  | hs, e :: es =>
    match uses e.q with
    | none => heldHandles ((gives e).toList ++ hs) es
    | some h => if h ∈ hs then heldHandles (if isRelease e.q then hs.erase h else hs) es else none

/-! ### histories -/

/-- A call of a caching CMM, with its result if it has come to its end. -/
inductive AnyCall where
  | gen (cmm : CachingCmm) (env : AnyGenEnv) (req : EncRequest) (out : Option GenOut)
  | dec (cmm : CachingCmm) (env : AnyDecEnv) (req : DecRequest) (out : Option DecOut)

/-- The call asks and is answered `es`. -/
def AnyCall.Does (sha : Bytes → Bytes) (vt : CacheVt) (es : List (CacheEvent η)) : AnyCall → Prop
  | .gen cmm env req out => Path (anyGenerate sha vt cmm env req) es out
  | .dec cmm env req out => Path (anyDecrypt sha vt cmm env req) es out

/-- The part of a history that belongs to call `t`. -/
def eventsOf (t : Nat) (H : List (Nat × CacheEvent η)) : List (CacheEvent η) := (H.filter (fun x => x.1 = t)).map Prod.snd

/-- `H` is what a number of calls, in any interleaving, asked the cache (each with the number of the call), with the answers. -/
structure History (sha : Bytes → Bytes) (vt : CacheVt) (calls : List AnyCall) (H : List (Nat × CacheEvent η)) : Prop where
  made : ∀ x ∈ H, x.1 < calls.length
  does : ∀ t (call : AnyCall), calls[t]? = some call → call.Does sha vt (eventsOf t H)

/-! ### what a cache promises -/

/-- The identifier and kind under which a question stores materials. -/
def stores : CacheQuery η → Option (Bytes × Bool)
  | .putEnc id _ _ _ _ => some (id, true)
  | .putDec id _ => some (id, false)
  | _ => none

/-- Bytes and messages that an event adds to the usage of an entry. -/
def adds : CacheEvent η → Nat × Nat
  | ⟨.putEnc _ _ bytes messages _, _⟩ => (bytes, messages)
  | ⟨.usage _ bytes messages, .ok _⟩ => (bytes, messages)
  | _ => (0, 0)

/-- The sum of what the events of `H` about entry `e` add that come no later than the event at position `i`; `ent` says which entry an
event is about, `ord` in which order they come. -/
def total (H : List (Nat × CacheEvent η)) (ent ord : Nat → Nat) (part : Nat × Nat → Nat) (e i : Nat) : Nat :=
  ((List.range H.length).map fun k =>
    match H[k]? with
    | some x => if ent k = e ∧ ord k ≤ ord i then part (adds x.2) else 0
    | none => 0).sum

/-- What is known of the entries of a cache.  They are named by the position in a history at which they were put. -/
structure Entries where
  /-- the entry that the event at a position is about -/
  ent : Nat → Nat
  /-- the time at which an entry was put -/
  born : Nat → Nat
  /-- the order in which bytes, and that in which messages, are added to usage counters: `update_usage_stats` is atomic for each of them,
  but not for both (include/aws/cryptosdk/cache.h:136-140) -/
  bytesAt : Nat → Nat
  messagesAt : Nat → Nat

/-- The cache keeps its promises in history `H`, as far as usage counters are concerned at the positions in `P`.
- What is found under an identifier was put under it before, and is of the kind reported.
- A handle stands for one entry as long as the call holds it.
- Usage counters are 64-bit counters that begin with what is given when the entry is put; every successful update adds to them and reports
  the sum.
- Materials and encryption context of an entry are those that were put; a signature context may be another one.
- The creation time is that of the entry, or 0 if the cache does not know it.

The cache may refuse anything, and it need not forget entries that are invalidated. -/
structure CacheKeepsAt (H : List (Nat × CacheEvent η)) (E : Entries) (P : Nat → Prop) : Prop where
  find : ∀ {i t id fails h k}, H[i]? = some (t, ⟨.find id, (fails, some (h, k))⟩) →
    E.ent i < i ∧ ∃ x, H[E.ent i]? = some x ∧ stores x.2.q = some (id, k)
  put : ∀ {i t e}, H[i]? = some (t, e) → (stores e.q).isSome = true → E.ent i = i
  same : ∀ {i j t e e' h}, j < i → H[j]? = some (t, e) → gives e = some h → H[i]? = some (t, e') → uses e'.q = some h →
    (∀ k x, j < k → k < i → H[k]? = some x → x.1 = t → gives x.2 ≠ some h) → E.ent i = E.ent j
  usage : ∀ {i t h bytes messages b m}, H[i]? = some (t, ⟨.usage h bytes messages, .ok (b, m)⟩) → P i →
    E.bytesAt (E.ent i) ≤ E.bytesAt i ∧ E.messagesAt (E.ent i) ≤ E.messagesAt i ∧
    b = total H E.ent E.bytesAt Prod.fst (E.ent i) i % 2 ^ 64 ∧ m = total H E.ent E.messagesAt Prod.snd (E.ent i) i % 2 ^ 64
  enc : ∀ {i t h ctx ctx' m}, H[i]? = some (t, ⟨.getEnc h ctx, (ctx', .ok m)⟩) →
    ∃ u id m0 bytes messages ctx0 o, H[E.ent i]? = some (u, ⟨.putEnc id m0 bytes messages ctx0, o⟩) ∧
      m.alg = m0.alg ∧ m.dataKey = m0.dataKey ∧ m.edks = m0.edks ∧ m.trace = m0.trace ∧ SameMap ctx' ctx0
  dec : ∀ {i t h m}, H[i]? = some (t, ⟨.getDec h, .ok m⟩) →
    ∃ u id m0 o, H[E.ent i]? = some (u, ⟨.putDec id m0, o⟩) ∧ m.alg = m0.alg ∧ m.dataKey = m0.dataKey ∧ m.trace = m0.trace
  creation : ∀ {i t h x}, H[i]? = some (t, ⟨.creation h, x⟩) → x = E.born (E.ent i) ∨ x = 0
  born : ∀ e, E.born e < 2 ^ 64

/-- The cache keeps all promises. -/
abbrev CacheKeeps (H : List (Nat × CacheEvent η)) (E : Entries) : Prop := CacheKeepsAt H E (fun _ => True)

/-- The entry that the event at `i` is about has not been returned before with the wish to invalidate it. -/
def NotDropped (H : List (Nat × CacheEvent η)) (E : Entries) (i : Nat) : Prop :=
  ∀ k t h, k < i → H[k]? = some (t, ⟨.release h true, ()⟩) → E.ent k ≠ E.ent i

/-- What the comments promise: "if the entry has been invalidated [...] the returned value of *usage_stats is unspecified, and an error
may be raised", include/aws/cryptosdk/cache.h:142-144. -/
abbrev CachePromised (H : List (Nat × CacheEvent η)) (E : Entries) : Prop := CacheKeepsAt H E (NotDropped H E)

/-! ### data keys -/

/-- The data key with which an encryption call was answered. -/
def AnyCall.key : AnyCall → Option Bytes
  | .gen _ _ _ (some ⟨_, .ok m, _⟩) => some m.dataKey
  | _ => none

/-- The plaintext size that an encryption request declares. -/
def AnyCall.size : AnyCall → Nat
  | .gen _ _ req _ => req.plaintextSize
  | .dec _ _ _ _ => 0

/-- The numbers of the calls answered with data key `k`. -/
def callsWith (k : Bytes) (calls : List AnyCall) : List Nat :=
  (List.range calls.length).filter fun t => decide (calls[t]?.bind AnyCall.key = some k)

/-- Their messages and bytes. -/
def anyMessages (k : Bytes) (calls : List AnyCall) : Nat := (callsWith k calls).length
def anyBytes (k : Bytes) (calls : List AnyCall) : Nat :=
  ((callsWith k calls).map fun t => (calls[t]?.map AnyCall.size).getD 0).sum

/-- In call `t` the upstream CMM gave data key `k`: it was passed to the caller or stored. -/
def UpstreamGave (calls : List AnyCall) (H : List (Nat × CacheEvent η)) (t : Nat) (k : Bytes) : Prop :=
  (∃ cmm env req out m, calls[t]? = some (.gen cmm env req (some out)) ∧ out.upstream = true ∧ out.res = .ok m ∧ m.dataKey = k) ∨
  (∃ id m bytes messages ctx o, (t, ⟨.putEnc id m bytes messages ctx, o⟩) ∈ H ∧ m.dataKey = k)

/-- Upstream CMMs never gave the same data key in two calls. -/
def FreshAny (calls : List AnyCall) (H : List (Nat × CacheEvent η)) : Prop :=
  ∀ t u k, UpstreamGave calls H t k → UpstreamGave calls H u k → t = u

end Verif.Spec
