import Verif.Spec.WrapIntegrity
import Verif.Spec.ThreadStack
/-
Readers whose answers come from the default CMM, at the time of the call or earlier: what is read is authentic for them too.
-/
namespace Verif.Spec
open Verif

/-- What the CMM of a session answers to the request `r` is an answer of the default CMM at one of the moments `M`, for the same suite, the
same context and the same encrypted data keys up to their order; the signature context may have been stored and begun anew. -/
def AnswersFrom (E : Env → Prop) (M : Moment → Prop) (da : Option Nat) (r : DecRequest) : Prop :=
  ∀ e, E e → ∀ m, e.cmm.decrypt r = .ok m → ∃ mo r0 m0, M mo ∧ (mo.world.envWith mo.kr da).cmm.decrypt r0 = .ok m0 ∧ r0.alg = r.alg ∧
    r.encCtx.Perm r0.encCtx ∧ r.edks.Perm r0.edks ∧ m.alg = m0.alg ∧ m.dataKey = m0.dataKey ∧
    Resumed storeVerifier verifyStartOf (worlds M) m0.alg m0.signctx m.signctx

/-- Elliptic curves are the same in all worlds `W`, and a point that was decoded can be encoded and decoded again. -/
structure StablePoints (W : World → Prop) : Prop where
  same : ∀ w w', W w → W w' → SameEc w.ec w'.ec
  codec : ∀ w cv x q, W w → w.ec.pubIn cv x = some q → Codec w.ec cv q

/-- The moments of a user with raw keyrings. -/
def rawMoments (W : World → Prop) (kr : UserKr) : Moment → Prop := fun m => ∃ w, W w ∧ m = ⟨w, kr.keyring w⟩

end Verif.Spec
