import Verif.Model.Secrets
/-
What it means that no key material is left behind (C87).
-/
namespace Verif.Spec
open Verif Verif.Secrets

/-- Only zeros. -/
def Blank (b : Bytes) : Prop := ∀ x ∈ b, x = 0

/-- The blocks that the objects of a program own: one for each session and each raw keyring, and those of the cache entries. -/
def blocksOf (o : Objs) : List Nat :=
  o.sessions ++ o.entries.flatMap (fun e => e.key.toList ++ e.priv.toList) ++ o.keys

/-- The keyring that is to generate the data key is of the given kind and fails after the data key exists. -/
inductive WrapFails (k : Kind) : EncPlan → Prop
  | leaf {l : EncLeaf} (hk : l.kind = k) (h : l.wrapOk = false) : WrapFails k (.leaf l)
  | gen {g : EncPlan} {cs : List EncPlan} {t : Bool} (h : WrapFails k g) : WrapFails k (.multi (some g) cs t)

/-- The calls after which key material may be left at the place: an encryption in which the generating keyring fails to
wrap, and a decryption. -/
inductive LeavesAt (op : Op) : Site → Prop
  | wrap {i p ready kr put plan k} (h : op = .encrypt i p (.fresh ready kr put) plan) (hw : WrapFails k kr) : LeavesAt op k.site
  | derive {i p src plan} (h : op = .decrypt i p src plan) : LeavesAt op .deriveFrame

end Verif.Spec
