import Verif.Model.CacheFields
/-
Executions of threads that call the functions of one local cache, and data races (C11 5.1.2.4): two accesses to the same memory, not both atomic and
not both reading, neither of which happens before the other.
-/
namespace Verif.Spec.CacheFields
open Verif.CacheFields

/-- A call: the function, the thread, and the turn at which it gets the mutex. -/
structure Call where
  fn : Fn
  thread : Nat
  turn : Nat

/-- An event: one act of a call, at a place in the body of the function, about an entry. -/
structure Event where
  call : Nat
  pos : Nat
  entry : Nat

/-- An execution.  `ext` is synchronisation by other means, `maker` the call that makes an entry. -/
structure Exec where
  calls : Nat → Call
  events : Nat → Option Event
  ext : Nat → Nat → Prop
  maker : Nat → Nat

/-- `a` is the act `act` of call `c` about the entry `e`, with the mutex held or not. -/
def Exec.Is (x : Exec) (a c e : Nat) (held : Bool) (act : Act) : Prop :=
  ∃ p, x.events a = some ⟨c, p, e⟩ ∧ (mark false (x.calls c).fn.body)[p]? = some (held, act)

/-- Happens-before: the order of a thread, what is done with the mutex held before what is done with it held at a later turn, and other
synchronisation. -/
inductive Exec.HB (x : Exec) : Nat → Nat → Prop where
  | sb {a b c d e f : Nat} {h k : Bool} {s t : Act} (ha : x.Is a c e h s) (hb : x.Is b d f k t) (same : (x.calls c).thread = (x.calls d).thread)
      (lt : a < b) : HB x a b
  | mutex {a b c d e f : Nat} {s t : Act} (ha : x.Is a c e true s) (hb : x.Is b d f true t) (lt : (x.calls c).turn < (x.calls d).turn) : HB x a b
  | ext {a b : Nat} (h : x.ext a b) : HB x a b
  | trans {a b c : Nat} (h : HB x a b) (k : HB x b c) : HB x a c

/-- The field that an act is about. -/
def field : Act → Option Field
  | .lock | .unlock => none
  | .make f | .read f | .write f | .atomic f => some f
  | .obtain => some .refcount

def isRead : Act → Bool
  | .read _ => true
  | _ => false

def isAtomic : Act → Bool
  | .atomic _ | .obtain => true
  | _ => false

def isMake : Act → Bool
  | .make _ => true
  | _ => false

/-- What threads and the mutex guarantee, and how handles are used: turns are different; events are numbered in an order that agrees with
happens-before; an entry is made by one call, before anything else is done with it; what is reached with the mutex held was inserted before; without
the mutex a thread uses only entries to which it or another thread, with synchronisation, has got a reference before. -/
structure Exec.Valid (x : Exec) : Prop where
  turns : ∀ a b c d e f s t, x.Is a c e true s → x.Is b d f true t → (x.calls c).turn = (x.calls d).turn → c = d
  numbered : ∀ a b, x.HB a b → a < b
  made : ∀ a c e h s, x.Is a c e h s → isMake s = true → c = x.maker e
  first : ∀ a b c e h k s t, x.Is a c e h s → x.Is b c e k t → isMake s = true → isMake t = false → t ≠ .lock → a < b
  reached : ∀ b d e t f, x.Is b d e true t → field t = some f → f.ofCache = false →
    d = x.maker e ∨ (x.calls (x.maker e)).turn < (x.calls d).turn
  held : ∀ b d e t, x.Is b d e false t → ∃ o c, x.Is o c e true .obtain ∧ x.HB o b

/-- Every call that works with the mutex held has taken it and given it back. -/
def Exec.Complete (x : Exec) : Prop :=
  ∀ a c e s, x.Is a c e true s → (∃ b e', x.Is b c e' true .lock ∧ b ≤ a) ∧ ∃ b e', x.Is b c e' true .unlock ∧ a ≤ b

/-- A data race on the field `f`, of the entry or of the cache. -/
structure Exec.Race (x : Exec) (f : Field) (a b : Nat) (h k : Bool) (s t : Act) : Prop where
  acts : ∃ c d e e', x.Is a c e h s ∧ x.Is b d e' k t ∧ (f.ofCache = true ∨ e = e')
  same : field s = some f ∧ field t = some f
  different : a ≠ b
  conflict : ¬ (isRead s = true ∧ isRead t = true) ∧ ¬ (isAtomic s = true ∧ isAtomic t = true)
  unordered : ¬ x.HB a b ∧ ¬ x.HB b a

end Verif.Spec.CacheFields
