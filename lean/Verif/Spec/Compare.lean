import Verif.Model.Bytes
/-
What it means for two lists of pairs to be one map.
-/
namespace Verif.Spec
open Verif

/-- Every key has at most one value. -/
def OneValue (m : List (Bytes × Bytes)) : Prop := (m.map (·.1)).Nodup

/-- The two lists have the same pairs. -/
def SamePairs (m n : List (Bytes × Bytes)) : Prop := ∀ e, e ∈ m ↔ e ∈ n

/-- The keys are in the order of a dictionary. -/
def KeysInOrder (m : List (Bytes × Bytes)) : Prop := m.Pairwise (fun e f => e.1 < f.1)

end Verif.Spec
