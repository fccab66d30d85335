import Verif.Spec.KeyringErrors
/-
When the default CMM fails, and with which error.
-/
namespace Verif.Spec
open Verif

/-- The context that the keyring is given: for a signing suite the public key is added under the reserved name. -/
def CtxGiven (env : CmmEnv) (ctx : EncCtx) (row : SuiteRow) (ctx' : EncCtx) : Prop :=
  (row.curveBits = 0 ∧ ctx' = ctx) ∨
  (row.curveBits ≠ 0 ∧ ∃ sc pub, env.keygen row.id = .ok (sc, pub) ∧ ctx' = ctx ++ [(publicKeyName, pub)])

/-- The checks of a request for encryption materials of a suite of the table. -/
def generateChecks (env : CmmEnv) (c : DefaultCmm) (ctx : EncCtx) (row : SuiteRow) : List Check :=
  [failsIf (ctx.lookup publicKeyName ≠ none) .reservedName,
   failsIf (env.allocMat = false) .oom,
   fun e => row.curveBits ≠ 0 ∧ env.keygen row.id = .error e,
   failsIf (row.curveBits ≠ 0 ∧ env.allocPut = false) .oom,
   fun e => ∃ ctx' s, CtxGiven env ctx row ctx' ∧ keyringOnEncrypt c.kr ctx' row.id ⟨none, [], [], env.errno⟩ = (.fail, s) ∧ s.errno = e]

/-- The checks of a request for decryption materials of a suite of the table. -/
def decryptChecks (env : CmmEnv) (c : DefaultCmm) (req : DecRequest) (row : SuiteRow) : List Check :=
  [failsIf (env.allocMat = false) .oom,
   fun e => ∃ s, keyringOnDecrypt c.kr req.edks req.encCtx row.id ⟨none, [], env.errno⟩ = (.fail, s) ∧ s.errno = e,
   failsIf (∃ s, keyringOnDecrypt c.kr req.edks req.encCtx row.id ⟨none, [], env.errno⟩ = (.ok, s) ∧ s.key = none) .cannotDecrypt,
   failsIf (¬ (row.curveBits ≠ 0 ↔ req.encCtx.lookup publicKeyName ≠ none)) .badCiphertext,
   fun e => row.curveBits ≠ 0 ∧ ∃ pub, req.encCtx.lookup publicKeyName = some pub ∧ env.verifyStart row.id pub = .error e]

end Verif.Spec
