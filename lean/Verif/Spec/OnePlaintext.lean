import Verif.Spec.Session
/-
Key commitment, as a statement about two readers of one message.
-/
namespace Verif.Spec
open Verif

/-- The readers have the same primitives (they may fail at different times). -/
def SamePrimitives (E1 E2 : Env → Prop) : Prop :=
  ∀ e1 e2, E1 e1 → E2 e2 → e1.crypto.aeadOpen = e2.crypto.aeadOpen ∧
    ∀ sha salt ikm info n x y, e1.crypto.hkdf sha salt ikm info n = .ok x → e2.crypto.hkdf sha salt ikm info n = .ok y → x = y

/-- The CMMs of two readers returned two data keys for which HKDF makes one commitment, for one message identifier. -/
def CommitmentCollides (E1 E2 : Env → Prop) : Prop :=
  ∃ e1 e2 req m1 m2 sha mid c, E1 e1 ∧ E2 e2 ∧ e1.cmm.decrypt req = .ok m1 ∧ e2.cmm.decrypt req = .ok m2 ∧ m1.dataKey ≠ m2.dataKey ∧
    e1.crypto.hkdf sha (commitKdfInput mid).1 m1.dataKey (commitKdfInput mid).2 32 = .ok c ∧
    e2.crypto.hkdf sha (commitKdfInput mid).1 m2.dataKey (commitKdfInput mid).2 32 = .ok c

end Verif.Spec
