import Verif.Props.CachedIntegrity
import Verif.Props.WrapIntegrityKms
/-
C104: the reader with KMS keyrings, in threads.
-/
namespace Verif.Props
open Verif Verif.Spec Verif.Proof

attribute [local irreducible] C103_kmsMessage C103_kmsWritten

/-- All hypotheses of `C104_threads` hold for the reader of C103 with KMS keyrings. -/
example : StablePoints (worlds (At (· = C103_around) C103_tree)) ∧ WrittenIn (· = C103_kmsWriterEnv) C103_kmsM ∧ AllReadable C103_kmsM ∧
    (∀ y ∈ leaves [] C103_tree, LeafIntact (· = C103_around) C103_kmsM y.1 y.2) ∧
    (∀ inp, OwnKeys (worlds (At (· = C103_around) C103_tree))
      (ThreadReaders CmmExample.tsha (messageRequest (C103_kmsReader inp)) (At (· = C103_around) C103_tree) none) C103_kmsM) ∧
    (∀ inp, Reach (ThreadReaders CmmExample.tsha (messageRequest (C103_kmsReader inp)) (At (· = C103_around) C103_tree) none) .requireRequire
      (C103_kmsReader inp)) ∧ isDone (C103_kmsReader C103_kmsWritten.released).s = true := by
  refine ⟨?_, C103_kmsWrittenIn, C103_kmsAllReadable, C103_kmsIntact, fun inp => C103_kmsOwn ?_, fun inp => ?_, by decide +kernel⟩
  · have h := oneSigned_stable C103_kmsMessage.signedBytes
    refine ⟨?_, ?_⟩
    · rintro _ _ ⟨_, ⟨_, rfl, rfl⟩, rfl⟩ ⟨_, ⟨_, rfl, rfl⟩, rfl⟩
      exact h.same C103_around.world C103_around.world rfl rfl
    · rintro _ cv x q ⟨_, ⟨_, rfl, rfl⟩, rfl⟩ hq
      exact h.codec C103_around.world cv x q rfl hq
  · rintro e ⟨⟨_, ⟨_, rfl, rfl⟩, h, -⟩, -⟩
    exact h
  · generalize messageRequest (C103_kmsReader inp) = r
    exact Reach.call (.process (Example.zeros 50) (some inp)) (Example.decNew_reach _ .decrypt (Or.inl rfl))
      ⟨⟨_, ⟨_, rfl, rfl⟩, rfl, rfl⟩, fun r' m _ h => .inl ⟨_, ⟨_, rfl, rfl⟩, h⟩⟩

end Verif.Props
