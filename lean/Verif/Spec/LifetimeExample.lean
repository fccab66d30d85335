import Verif.Spec.Lifetime

/-!
Playing concrete programs, for examples and counterexamples.
-/

namespace Verif
namespace Spec.Lifetime

open Verif.Lifetime

instance (c : Client) (x : Nat) (ks : List Kind) : Decidable (c.has x ks) := by
  unfold Client.has; infer_instance

instance (s : St) (x : Nat) : Decidable (Room s x) :=
  match e : s.heap.find x with
  | none => isTrue (fun o q => by rw [e] at q; cases q)
  | some o =>
    if h : o.count < sizeMax then isTrue (fun o' q => by rw [e] at q; cases q; exact h)
    else isFalse (fun q => h (q o e))

instance (s : St) (c : Client) (op : Op) : Decidable (Allowed s c op) := by
  unfold Allowed; split <;> infer_instance

/-- A step of a program. -/
inductive Move where
  | call (i : Nat) (op : Op)
  | tick (i : Nat)

/-- Playing a program with allowed calls that pass `ok`. -/
def play (ok : St → Op → Bool) : St → Client → List Move → Option (St × Client)
  | s, c, [] => some (s, c)
  | s, c, .call i op :: ms =>
    if s.threads[i]? = some [] ∧ Allowed s c op ∧ ok s op = true then
      match s.call i op with
      | .error _ => none
      | .ok (s', r) => play ok s' (c.after op r) ms
    else none
  | s, c, .tick i :: ms =>
    match s.tick i with
    | .error _ => none
    | .ok s' => play ok s' c ms

/-- The whole program, with `n` threads. -/
def played (ok : St → Op → Bool) (n : Nat) (ms : List Move) : Option (St × Client) :=
  play ok (St.init n) { owned := [], types := [] } ms

/-- The program has come to rest without references. -/
def over (r : St × Client) : Bool := r.1.threads.all (·.isEmpty) && r.2.owned.isEmpty

/-- Careful, and children hold no references to keyrings of their own. -/
def tidy (s : St) (op : Op) : Bool :=
  lossless op && match op with
    | .addChild m c _ =>
      match s.heap.find c with
      | none => false
      | some o => decide (c ≠ m) && o.holds.all fun y => decide (y ≠ m) && match s.heap.find y with
        | none => false
        | some oy => oy.holds.isEmpty
    | _ => true

end Spec.Lifetime
end Verif
