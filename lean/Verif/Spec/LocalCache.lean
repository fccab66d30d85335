import Verif.Model.LocalCache
/-
Specification of the local cache: a list of items, the most recently used first.

The specification knows nothing of hash tables, priority queues, reference counts or memory.
-/
namespace Verif.Spec

/-- One stored item: the handle under which clients know it, its identifier, and when it expires (`never` = 2⁶⁴-1). -/
structure Item where
  handle : Nat
  id : Bytes
  expiry : Nat
deriving DecidableEq, Repr

/-- The expiry of an item without an expiration hint. -/
def never : Nat := 2 ^ 64 - 1

/-- The item's time is over. -/
def Item.due (now : Nat) (x : Item) : Prop := x.expiry ≠ never ∧ x.expiry ≤ now

/-- Expiry of up to eight items whose time is over, the earliest first; nothing else is removed and the order does not change.  If the
clock cannot be read nothing happens. -/
def Swept (clk : Option Nat) (l kept : List Item) : Prop :=
  match clk with
  | none => kept = l
  | some now =>
    kept.Sublist l ∧
    (∀ x ∈ l, x ∉ kept → x.due now) ∧
    (∀ x ∈ l, x ∉ kept → ∀ y ∈ kept, y.expiry ≠ never → x.expiry ≤ y.expiry) ∧
    l.length ≤ kept.length + 8 ∧
    (l.length < kept.length + 8 → ∀ y ∈ kept, ¬ y.due now)

/-- A lookup moves the item found to the front. -/
def touched (id : Bytes) (l : List Item) : List Item :=
  match l.find? (fun x => x.id = id) with
  | none => l
  | some x => x :: l.filter (fun y => y ≠ x)

/-- The handle of the item with the identifier. -/
def lookedUp (id : Bytes) (l : List Item) : Option Nat := (l.find? (fun x => x.id = id)).map Item.handle

/-- Storing under an identifier replaces what was stored there, puts the new item in front and drops what exceeds the capacity, the least
recently used item being the last. -/
def stored (cap : Nat) (h : Nat) (id : Bytes) (l : List Item) : List Item :=
  (⟨h, id, never⟩ :: l.filter (fun x => x.id ≠ id)).take cap

/-- An expiration hint only ever shortens the life of an item; if the hint cannot be recorded, the item loses its expiry time. -/
def hinted (h t : Nat) (recorded : Bool) (l : List Item) : List Item :=
  l.map fun x => if x.handle = h ∧ t < x.expiry then { x with expiry := if recorded then t else never } else x

end Verif.Spec

namespace Verif

/-- The calls a client can make on a materials cache, with what the environment answers during the call (clock, allocation, key
extraction). -/
inductive CacheOp where
  | find (clk : Option Nat) (id : Bytes)
  | putEnc (env : PutEnv) (id : Bytes) (m : EncMaterials) (bytes messages : Nat) (ctx : EncCtx)
  | putDec (env : PutEnv) (id : Bytes) (m : DecMaterials)
  | use (h : Nat) (bytes messages : Nat)
  | getEnc (env : GetEnv) (h : Nat) (ctx : EncCtx)
  | getDec (env : GetEnv) (h : Nat)
  | created (h : Nat)
  | hint (h t : Nat) (recorded : Bool)
  | release (h : Nat) (invalidate : Bool)
  | clear
  | count

/-- What the calls return. -/
inductive CacheResult where
  | handle (h : Option Nat)
  | usage (r : Except Err (Nat × Nat))
  | encMaterials (ctx : EncCtx) (r : Except Err EncMaterials)
  | decMaterials (r : Except Err DecMaterials)
  | time (t : Nat)
  | number (n : Nat)
  | done

/-- The handle a call is made on. -/
def CacheOp.on : CacheOp → Option Nat
  | .use h _ _ => some h
  | .getEnc _ h _ => some h
  | .getDec _ h => some h
  | .created h => some h
  | .hint h _ _ => some h
  | .release h _ => some h
  | _ => none

/-- One call. -/
def cacheCall (op : CacheOp) (c : Cache) : Except Fault (Cache × CacheResult) :=
  match op with
  | .find clk id => (cacheFind clk id c).map fun r => (r.1, .handle r.2)
  | .putEnc env id m bytes messages ctx => (cachePutEnc env id m bytes messages ctx c).map fun r => (r.1, .handle r.2)
  | .putDec env id m => (cachePutDec env id m c).map fun r => (r.1, .handle r.2)
  | .use h bytes messages => (cacheUpdateUsage h bytes messages c).map fun r => (r.1, .usage r.2)
  | .getEnc env h ctx => (cacheGetEnc env h ctx c).map fun r => (c, .encMaterials r.1 r.2)
  | .getDec env h => (cacheGetDec env h c).map fun r => (c, .decMaterials r)
  | .created h => (cacheCreation h c).map fun t => (c, .time t)
  | .hint h t recorded => (cacheHint h t recorded c).map fun c => (c, .done)
  | .release h inv => (cacheRelease h inv c).map fun c => (c, .done)
  | .clear => (cacheClear c).map fun c => (c, .done)
  | .count => .ok (c, .number (cacheCount c))

/-- The handles the client holds after a call: a successful lookup or store gives one, a release takes one back. -/
def handlesAfter (op : CacheOp) (r : CacheResult) (held : List Nat) : List Nat :=
  match op, r with
  | .release h _, _ => held.erase h
  | _, .handle (some h) => h :: held
  | _, _ => held

/-- Histories of calls on a cache created with `cacheNew addr cap` by a client that only uses handles it holds, releasing each once:
the calls with their results (latest first), the cache, and the handles still held. -/
inductive CacheHistory (addr : Nat → Nat) (cap : Nat) : List (CacheOp × CacheResult) → Cache → List Nat → Prop where
  | new : CacheHistory addr cap [] (cacheNew addr cap) []
  | call {log c held op c' r} : CacheHistory addr cap log c held → (∀ h, op.on = some h → h ∈ held) →
      cacheCall op c = .ok (c', r) → CacheHistory addr cap ((op, r) :: log) c' (handlesAfter op r held)

namespace Spec

/-- What a call may do to the list of items, given its result. -/
def LruStep (cap : Nat) (l : List Item) : CacheOp → CacheResult → List Item → Prop
  | .find clk id, r, l' => ∃ kept, Swept clk l kept ∧ l' = touched id kept ∧ r = .handle (lookedUp id kept)
  | .putEnc env id _ _ _ _, r, l' =>
    (∃ h kept, r = .handle (some h) ∧ (∀ x ∈ l, x.handle ≠ h) ∧ Swept env.clkTtl l kept ∧ l' = stored cap h id kept) ∨
    (r = .handle none ∧ (l' = l ∨ Swept env.clkTtl l l'))
  | .putDec env id _, r, l' =>
    (∃ h kept, r = .handle (some h) ∧ (∀ x ∈ l, x.handle ≠ h) ∧ Swept env.clkTtl l kept ∧ l' = stored cap h id kept) ∨
    (r = .handle none ∧ (l' = l ∨ Swept env.clkTtl l l'))
  | .hint h t recorded, r, l' => r = .done ∧ l' = hinted h t recorded l
  | .release h inv, r, l' => r = .done ∧ l' = if inv then l.filter (fun x => x.handle ≠ h) else l
  | .clear, r, l' => r = .done ∧ l' = []
  | .count, r, l' => r = .number l.length ∧ l' = l
  | .use _ _ _, _, l' => l' = l
  | .getEnc _ _ _, _, l' => l' = l
  | .getDec _ _, _, l' => l' = l
  | .created _, _, l' => l' = l

/-- Histories of the specification. -/
inductive LruHistory (cap : Nat) : List (CacheOp × CacheResult) → List Item → Prop where
  | new : LruHistory cap [] []
  | call {log l op r l'} : LruHistory cap log l → LruStep cap l op r l' → LruHistory cap ((op, r) :: log) l'

end Spec
end Verif
