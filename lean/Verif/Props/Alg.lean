import Verif.Model.Alg
import Verif.Spec.Alg
/-
C33: the algorithm suite table.
-/
namespace Verif
open Spec

/-- Digest bits. -/
def Sha.bits : Sha → Nat
  | .nosha => 0
  | .sha256 => 256
  | .sha384 => 384
  | .sha512 => 512

/-- What it means for the library's answers about a suite to agree with a row of the published table. -/
def AgreesWith (r : SuiteRow) (p : AlgProps) : Prop :=
  p.algId = r.id ∧ p.msgFormatVersion = r.version ∧ p.dataKeyLen * 8 = r.keyBits ∧ p.contentKeyLen * 8 = r.keyBits ∧
  p.ivLen = 12 ∧ p.tagLen = 16 ∧ p.commitmentLen = r.commitment ∧ p.algSuiteDataLen = r.commitment ∧
  (p.signatureLen = 0 ↔ r.curveBits = 0) ∧ (r.curveBits = 256 → p.signatureLen = 71) ∧
  (r.curveBits = 384 → p.signatureLen = 103) ∧ (whichSha r.id).bits = r.kdfBits ∧
  messageIdLen p = (if r.version = 1 then 16 else 32) ∧ (algorithmIsCommitting r.id = true ↔ r.commitment ≠ 0) ∧
  algorithmTagLen r.id = p.tagLen ∧ algorithmIvLen r.id = p.ivLen ∧ algorithmIsKnown r.id = true ∧
  headerVersionIsKnown r.version = true ∧
  authtagLen p = (if r.version = 1 then 28 else 16)

instance (r : SuiteRow) (p : AlgProps) : Decidable (AgreesWith r p) := by unfold AgreesWith; infer_instance

theorem suiteTable_agrees : ∀ r ∈ suiteTable, ∃ p, algProps r.id = some p ∧ AgreesWith r p := by
  simp only [suiteTable, List.forall_mem_cons, List.not_mem_nil, false_implies, implies_true, and_true]
  refine ⟨?_, ?_, ?_, ?_, ?_, ?_, ?_, ?_, ?_, ?_, ?_⟩ <;> exact ⟨_, rfl, by decide⟩

theorem algProps_isSome {id : Nat} {p : AlgProps} (h : algProps id = some p) : ∃ r ∈ suiteTable, r.id = id := by
  unfold algProps at h
  have key : ∀ n, (suiteTable.any fun r => r.id == n) = true → ∃ r ∈ suiteTable, r.id = n := by
    intro n hn
    obtain ⟨r, hr, he⟩ := List.any_eq_true.mp hn
    exact ⟨r, hr, by simpa using he⟩
  split at h <;> cases h <;> exact key _ rfl

/-- C33.  For *every* identifier (of any size, in particular every 16-bit one): the library supports it exactly if
it is in the published table; then all its lengths, its format version, digest, signature and commitment agree with
the row; and every other identifier is unsupported by each of the separate decision functions of the library. -/
theorem C33_suite_table (id : Nat) :
    (∀ r ∈ suiteTable, r.id = id → ∃ p, algProps id = some p ∧ AgreesWith r p) ∧
    ((∀ r ∈ suiteTable, r.id ≠ id) →
      algProps id = none ∧ algorithmIsKnown id = false ∧ algorithmTagLen id = -1 ∧ algorithmIvLen id = -1 ∧
      whichSha id = .nosha ∧ algorithmIsCommitting id = false) := by
  constructor
  · rintro r hr rfl; exact suiteTable_agrees r hr
  · intro h
    have hk : algorithmIsKnown id = false := by
      unfold algorithmIsKnown
      simp only [suiteTable, List.forall_mem_cons] at h
      split <;> first | rfl | (exfalso; omega)
    refine ⟨?_, hk, ?_, ?_, ?_, ?_⟩
    · cases hp : algProps id with
      | none => rfl
      | some p =>
        obtain ⟨r, hr, he⟩ := algProps_isSome hp
        exact absurd he (h r hr)
    · simp [algorithmTagLen, hk]
    · simp [algorithmIvLen, hk]
    · unfold whichSha
      simp only [suiteTable, List.forall_mem_cons] at h
      split <;> first | rfl | (exfalso; omega)
    · unfold algorithmIsCommitting
      simp only [suiteTable, List.forall_mem_cons] at h
      split <;> first | rfl | (exfalso; omega)

/-- C33: no two suites share an identifier, so an identifier determines its row. -/
theorem C33_ids_distinct : (suiteTable.map (·.id)).Nodup := by decide

/-- C33 (what the policies allow), for every identifier and every policy value including invalid ones: encryption
needs a committing suite under the two require-encrypt policies and a non-committing one under forbid-encrypt;
decryption needs a committing one exactly under require-decrypt; an unsupported policy value allows nothing. -/
theorem C33_policy_table (id : Nat) (pol : Policy) :
    (allowedForEncrypt id pol = true ↔
      ((pol = .requireRequire ∨ pol = .requireAllow) ∧ algorithmIsCommitting id = true) ∨
      (pol = .forbidAllow ∧ algorithmIsCommitting id = false)) ∧
    (allowedForDecrypt id pol = true ↔
      (pol = .requireRequire ∧ algorithmIsCommitting id = true) ∨ pol = .requireAllow ∨ pol = .forbidAllow) := by
  cases pol <;> simp [allowedForEncrypt, allowedForDecrypt]

/-- Non-vacuity: both branches of `C33_suite_table` occur. -/
example : (∃ r ∈ suiteTable, r.id = 0x0578) ∧ (∀ r ∈ suiteTable, r.id ≠ 0x0678) := by
  constructor
  · exact ⟨⟨0x0578, 2, 256, 512, 384, 32⟩, by decide, rfl⟩
  · decide

/-- Finding recorded with C39: the digest *name* member is never NULL, although the header documents it as
NULL for suites without a KDF. -/
theorem C33_md_name_never_null (id : Nat) (p : AlgProps) (h : algProps id = some p) : p.mdName.isSome = true := by
  unfold algProps at h
  split at h <;> cases h <;> rfl

end Verif
