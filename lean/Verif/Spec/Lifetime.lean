import Verif.Model.Lifetime

/-!
What a program that uses the library may do with its references, and what it may expect.
-/

namespace Verif
namespace Spec.Lifetime

open Verif.Lifetime

/-- What the program knows: the references it owns, one entry for each, and what kind of pointer each object
came as. -/
structure Client where
  owned : List Nat
  types : List (Nat × Kind)

/-- What a constructor returns. -/
def makes : Op → Kind
  | .rawAes _ | .rawRsa .. | .kms _ => .keyring
  | .multi .. | .mrkBuild .. => .multi
  | .defaultCmm .. => .defaultCmm
  | .cache _ => .cache
  | .cachingCmm .. | .cachingFromKeyring .. => .cachingCmm
  | _ => .session

/-- The program's references after a call: a constructor gives it one, retain one more, and release and
destroy take one. -/
def Client.after (c : Client) (op : Op) (res : Option Nat) : Client :=
  match op with
  | .retain x => { c with owned := x :: c.owned }
  | .release (some x) | .destroy x => { c with owned := c.owned.erase x }
  | _ =>
    match res with
    | none => c
    | some x => { owned := x :: c.owned, types := (x, makes op) :: c.types }

/-- The program owns a reference to `x`, which it got as one of the kinds `ks`. -/
def Client.has (c : Client) (x : Nat) (ks : List Kind) : Prop :=
  x ∈ c.owned ∧ ∃ k ∈ ks, (x, k) ∈ c.types

def keyrings : List Kind := [.keyring, .multi]
def cmms : List Kind := [.defaultCmm, .cachingCmm]

/-- The count of `x` can still grow (`AWS_PRECONDITION`, materials.h 462 and 617). -/
def Room (s : St) (x : Nat) : Prop := ∀ o, s.heap.find x = some o → o.count < sizeMax

/-- What the documentation asks of the caller: pass only objects of the right kind to which you own a
reference, and give up only references you own. -/
def Allowed (s : St) (c : Client) : Op → Prop
  | .rawAes _ | .rawRsa .. | .kms _ | .cache _ | .mrkBuild .. => True
  | .multi none _ => True
  | .multi (some g) _ => c.has g keyrings ∧ Room s g
  | .addChild m k _ => c.has m [.multi] ∧ c.has k keyrings ∧ Room s k
  | .defaultCmm kr _ => c.has kr keyrings ∧ Room s kr
  | .cachingCmm cache up _ _ _ => c.has cache [.cache] ∧ Room s cache ∧ c.has up cmms ∧ Room s up
  | .cachingFromKeyring cache kr _ _ _ _ => c.has cache [.cache] ∧ Room s cache ∧ c.has kr keyrings ∧ Room s kr
  | .session cmm _ => c.has cmm cmms ∧ Room s cmm
  | .sessionFromKeyring kr _ _ => c.has kr keyrings ∧ Room s kr
  | .retain x => c.has x (.cache :: keyrings ++ cmms) ∧ Room s x
  | .release none => True
  | .release (some x) => c.has x (.cache :: keyrings ++ cmms)
  | .destroy x => c.has x [.session]

/-- What a program with `n` threads can bring about with allowed calls that also satisfy `P`: the threads
interleave in any order, and a thread makes a call when it is through with the last one. -/
inductive Reach (P : St → Op → Prop) (n : Nat) : St → Client → Prop where
  | init : Reach P n (St.init n) { owned := [], types := [] }
  | call {s c i op s' r} : Reach P n s c → s.threads[i]? = some [] → Allowed s c op → P s op →
      s.call i op = .ok (s', r) → Reach P n s' (c.after op r)
  | tick {s c i s'} : Reach P n s c → s.tick i = .ok s' → Reach P n s' c

/-- `y` is `x` or can be reached from `x` through the pointers that objects hold. -/
inductive Reaches (h : Heap) : Nat → Nat → Prop where
  | refl (x : Nat) : Reaches h x x
  | step {x y z o} : h.find x = some o → y ∈ o.holds → Reaches h y z → Reaches h x z

/-- The objects that a new object works with. -/
def uses : Op → List Nat
  | .multi gen _ => gen.toList
  | .defaultCmm kr _ => [kr]
  | .cachingCmm cache up _ _ _ => [cache, up]
  | .cachingFromKeyring cache kr _ _ _ _ => [cache, kr]
  | .session cmm _ => [cmm]
  | .sessionFromKeyring kr _ _ => [kr]
  | _ => []

/-- The call is a constructor, its arguments are valid and nothing outside the library fails. -/
def granted : Op → Bool
  | .rawAes ok | .kms ok | .cache ok | .multi _ ok | .defaultCmm _ ok | .session _ ok => ok
  | .rawRsa priv pub ok okPub okPriv => ok && (priv || pub) && (okPub || !pub) && (okPriv || !priv)
  | .cachingCmm _ _ ttl pid ok => ttl && pid && ok
  | .cachingFromKeyring _ _ okDefault ttl pid ok => okDefault && ttl && pid && ok
  | .sessionFromKeyring _ okCmm ok => okCmm && ok
  | .mrkBuild gen ok children => (gen != some false) && ok && children.all fun c => c.1 && c.2
  | _ => false

/-- `x` is allocated and nobody has begun to destroy it. -/
def Alive (h : Heap) (x : Nat) : Prop := ∃ o, h.find x = some o ∧ 0 < o.count

/-- No thread is in a call. -/
def Idle (s : St) : Prop := ∀ st ∈ s.threads, st = []

/-- The threads `is`, one after the other, each do a step of a call they are in. -/
inductive Works : St → List Nat → St → Prop where
  | nil (s : St) : Works s [] s
  | cons {s i a st s1 is s'} : s.threads[i]? = some (a :: st) → s.tick i = .ok s1 → Works s1 is s' →
      Works s (i :: is) s'

/-- The children of `MultiKeyringBuilder` come to an end with a child that cannot be made, all before it
being made and added. -/
def stops : List (Bool × Bool) → Bool
  | [] => false
  | (false, _) :: _ => true
  | (true, true) :: cs => stops cs
  | (true, false) :: _ => false

/-- The calls that lose nothing: not those of the four kinds where the code forgets a reference or a buffer. -/
def lossless : Op → Bool
  | .rawRsa priv pub ok okPub okPriv => !(priv && pub && ok && okPub && !okPriv)
  | .addChild _ _ ok => ok
  | .cachingCmm _ _ ttl pid ok => ok || !ttl || !pid
  | .cachingFromKeyring _ _ okDefault ttl pid ok => !okDefault || ok || !ttl || !pid
  | .mrkBuild gen ok children => gen == some false || !ok || stops children
  | _ => true

/-- No keyring is put, directly or not, into itself. -/
def NoCycle (s : St) : Op → Prop
  | .addChild m c _ => ¬Reaches s.heap c m
  | _ => True

/-- Calls that lose nothing and tie no knot. -/
def Careful (s : St) (op : Op) : Prop := lossless op = true ∧ NoCycle s op

end Spec.Lifetime
end Verif
