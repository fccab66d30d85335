/-
Independent specification of the supported algorithm suites: the table of the AWS Encryption SDK message
format (algorithm reference), written without reference to the model.
-/
namespace Verif.Spec

/-- One row of the published algorithm-suite table. -/
structure SuiteRow where
  id : Nat
  /-- message format version -/
  version : Nat
  /-- AES key length in bits (data key and content key) -/
  keyBits : Nat
  /-- KDF digest bits, 0 for "no KDF" -/
  kdfBits : Nat
  /-- ECDSA curve bits, 0 for "no signature" -/
  curveBits : Nat
  /-- key commitment length in bytes, 0 for none -/
  commitment : Nat
deriving DecidableEq, Repr

/-- The published table. -/
def suiteTable : List SuiteRow :=
  [ ⟨0x0014, 1, 128, 0, 0, 0⟩, ⟨0x0046, 1, 192, 0, 0, 0⟩, ⟨0x0078, 1, 256, 0, 0, 0⟩,
    ⟨0x0114, 1, 128, 256, 0, 0⟩, ⟨0x0146, 1, 192, 256, 0, 0⟩, ⟨0x0178, 1, 256, 256, 0, 0⟩,
    ⟨0x0214, 1, 128, 256, 256, 0⟩, ⟨0x0346, 1, 192, 384, 384, 0⟩, ⟨0x0378, 1, 256, 384, 384, 0⟩,
    ⟨0x0478, 2, 256, 512, 0, 32⟩, ⟨0x0578, 2, 256, 512, 384, 32⟩ ]

end Verif.Spec
