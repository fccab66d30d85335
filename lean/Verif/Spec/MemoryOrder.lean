import Verif.Model.MemoryOrder
/-
Executions of threads that share one reference-counted object, after C11: program order, modification order of the count, release sequences and
happens-before.  Nothing here says in which order things happen in time; two events that are not ordered by happens-before may be seen in either
order, and if one of them frees the memory that the other uses, the behaviour is undefined.
-/
namespace Verif.Spec.MemoryOrder
open Verif.MemoryOrder

/-- Release semantics (C11 7.17.3). -/
def Order.releases : Order → Bool
  | .release | .acqRel | .seqCst => true
  | _ => false

/-- Acquire semantics. -/
def Order.acquires : Order → Bool
  | .acquire | .acqRel | .seqCst => true
  | _ => false

/-- What an event is: the object is made; an operation on its count, with the order it was given; a use of the object; its destruction. -/
inductive Kind where
  | make
  | count (s : Site) (o : Order)
  | use
  | free
deriving DecidableEq

/-- An execution.  Events are numbers.  `mo` is the modification order of the count after its initialisation: all operations on it are
read-modify-write operations, so each reads what the one before wrote.  `ext` is synchronisation by other means: an unlock with the next lock of the
mutex, the start of a thread, a queue. -/
structure Exec where
  events : Nat → Option Kind
  sb : Nat → Nat → Prop
  ext : Nat → Nat → Prop
  make : Nat
  mo : List Nat

/-- `a` comes before `b` in the modification order. -/
def Exec.Before (x : Exec) (a b : Nat) : Prop := ∃ i j : Nat, i < j ∧ x.mo[i]? = some a ∧ x.mo[j]? = some b

/-- An operation with release semantics synchronises with every later one in the modification order that has acquire semantics: as only
read-modify-write operations follow, these all read from the release sequence that it heads (C11 5.1.2.4). -/
def Exec.Sync (x : Exec) (a b : Nat) : Prop :=
  x.Before a b ∧ (∃ s o, x.events a = some (.count s o) ∧ Order.releases o = true) ∧
  ∃ s o, x.events b = some (.count s o) ∧ Order.acquires o = true

/-- Happens-before. -/
inductive Exec.HB (x : Exec) : Nat → Nat → Prop where
  | sb {a b : Nat} (h : x.sb a b) : HB x a b
  | ext {a b : Nat} (h : x.ext a b) : HB x a b
  | sync {a b : Nat} (h : x.Sync a b) : HB x a b
  | trans {a b c : Nat} (h : HB x a b) (k : HB x b c) : HB x a c

/-- What C11 guarantees: happens-before has no cycle, the modification order has every operation on the count once, and it agrees with
happens-before. -/
structure Exec.Consistent (x : Exec) : Prop where
  acyclic : ∀ a, ¬ x.HB a a
  nodup : x.mo.Nodup
  all : ∀ a, a ∈ x.mo ↔ ∃ s o, x.events a = some (.count s o)
  coherent : ∀ a b, a ∈ x.mo → b ∈ x.mo → x.HB a b → x.Before a b

/-- The site of an operation on the count. -/
def Exec.site (x : Exec) (a : Nat) : Option Site :=
  match x.events a with
  | some (.count s _) => some s
  | _ => none

/-- An operation that adds. -/
def Exec.Up (x : Exec) (a : Nat) : Prop := ∃ s, x.site a = some s ∧ s.adds = true

/-- An operation that subtracts. -/
def Exec.Down (x : Exec) (a : Nat) : Prop := ∃ s, x.site a = some s ∧ s.adds = false

/-- The count after these operations. -/
def Exec.countAfter (x : Exec) (l : List Nat) : Nat := l.foldl (fun v a => match x.site a with | some s => s.apply v | none => v) initialCount

/-- The operation `a` reads `v`. -/
def Exec.Reads (x : Exec) (a v : Nat) : Prop := ∃ i, x.mo[i]? = some a ∧ v = x.countAfter (x.mo.take i)

/-- What making an object and adding to the count give: a reference.  References have the names of these events. -/
def Exec.Birth (x : Exec) (r : Nat) : Prop := r = x.make ∨ x.Up r

/-- How references are used.  A subtraction gives up a reference that was obtained before, and none is given up twice; a use, or an addition, is done
for a reference that was obtained before and is not given up until after.  "Before" is happens-before: who passes a reference to another thread does
so with some synchronisation (see the comments at materials.h:337-355). -/
structure Exec.Disciplined (x : Exec) (gave under : Nat → Nat) : Prop where
  made : x.events x.make = some .make ∧ ∀ a, x.events a = some .make → a = x.make
  gives : ∀ d, x.Down d → x.Birth (gave d) ∧ x.HB (gave d) d
  once : ∀ d d', x.Down d → x.Down d' → gave d = gave d' → d = d'
  owner : ∀ e, (x.events e = some .use ∨ x.Up e) → x.Birth (under e) ∧ x.HB (under e) e ∧ ∀ d, x.Down d → gave d = under e → x.HB e d

/-- What the code does: who subtracts and reads a value for which the object is to be destroyed destroys it, and nobody else does. -/
def Exec.Frees (x : Exec) : Prop :=
  ∀ f, x.events f = some .free → ∃ d v, x.Down d ∧ x.Reads d v ∧ destroysAt v = true ∧ x.sb d f

/-- The sites at which the count is changed, all with the orders of the code. -/
def Exec.CodeOrders (x : Exec) (sites : Site → Prop) : Prop := ∀ a s o, x.events a = some (.count s o) → sites s ∧ o = s.order

/-- CMMs, keyrings and caches. -/
def objectSites : Site → Prop
  | .retain | .release => True
  | _ => False

/-- Entries of the local cache. -/
def entrySites : Site → Prop
  | .findEntry | .putEncrypt | .putDecrypt | .lockedRelease | .releaseEntry => True
  | _ => False

/-- The event touches the object. -/
def Exec.Touches (x : Exec) (a : Nat) : Prop := x.events a = some .make ∨ x.events a = some .use ∨ a ∈ x.mo

/-- The number of operations does not reach the range of the count. -/
def Exec.InRange (x : Exec) : Prop := x.mo.length < 2 ^ 64 - 1

end Verif.Spec.MemoryOrder
