import Verif.Model.Bytes
/-
What the containers of aws-c-common expect of the functions they are given, and what a chained hash table does with them.  Nothing here
refers to the model.
-/
namespace Verif.Spec
open Verif

/-- The value of a byte string read as a number in base 256, the first byte being the most significant one. -/
def base256 : Bytes → Nat
  | [] => 0
  | b :: bs => b.toNat * 256 ^ bs.length + base256 bs

/-- What `aws_hash_table_init` asks of `hash` and `eq`: an equivalence, and equivalent keys have equal hashes. -/
structure HashContract {K : Type} (hash : K → Nat) (eq : K → K → Bool) : Prop where
  refl : ∀ a, eq a a = true
  symm : ∀ a b, eq a b = true → eq b a = true
  trans : ∀ a b c, eq a b = true → eq b c = true → eq a c = true
  hash : ∀ a b, eq a b = true → hash a = hash b

/-- What a priority queue or a sort asks of a three-way comparison: a total order up to identity. -/
structure CmpContract {K : Type} (P : K → Prop) (cmp : K → K → Int) : Prop where
  zero : ∀ a b, P a → P b → (cmp a b = 0 ↔ a = b)
  flip : ∀ a b, P a → P b → (cmp a b < 0 ↔ 0 < cmp b a)
  trans : ∀ a b c, P a → P b → P c → cmp a b < 0 → cmp b c < 0 → cmp a c < 0

/-- A change of a hash table. -/
inductive TableOp (K V : Type) where
  | put (k : K) (v : V)
  | remove (k : K)

/-- A table with `n` chains: the chain for a key is chosen by its hash alone, and only that chain is searched, with `eq`. -/
def Chains (K V : Type) := Nat → List (K × V)

def Chains.find {K V : Type} (hash : K → Nat) (eq : K → K → Bool) (n : Nat) (t : Chains K V) (k : K) : Option V :=
  ((t (hash k % n)).find? (fun e => eq e.1 k)).map (·.2)

def Chains.apply {K V : Type} (hash : K → Nat) (eq : K → K → Bool) (n : Nat) (t : Chains K V) : TableOp K V → Chains K V
  | .put k v => fun i => if i = hash k % n then (k, v) :: (t i).filter (fun e => !eq e.1 k) else t i
  | .remove k => fun i => if i = hash k % n then (t i).filter (fun e => !eq e.1 k) else t i

def Chains.run {K V : Type} (hash : K → Nat) (eq : K → K → Bool) (n : Nat) (ops : List (TableOp K V)) : Chains K V :=
  ops.foldl (Chains.apply hash eq n) (fun _ => [])

/-- A map from ids after a change, which concerns the id of its key. -/
def mapStep {K V I : Type} [DecidableEq I] (id : K → I) (m : I → Option V) (op : TableOp K V) (i : I) : Option V :=
  match op with
  | .put k v => if i = id k then some v else m i
  | .remove k => if i = id k then none else m i

/-- What a map from ids holds after the changes `ops`. -/
def mapAfter {K V I : Type} [DecidableEq I] (id : K → I) (ops : List (TableOp K V)) : I → Option V :=
  ops.foldl (mapStep id) (fun _ => none)

end Verif.Spec
