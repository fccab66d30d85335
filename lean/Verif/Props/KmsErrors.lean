import Verif.Proof.KmsErrors
/-
C82: when the KMS keyrings fail to encrypt, and with which error; and when they can be built.
-/
namespace Verif.Props
open Spec Example

/-- C82: an encryption call of a strict KMS keyring succeeds if none of its checks fails, and fails with the error of the first one that
does. -/
theorem C82_kms_encrypt (env : KmsEnv) {grants : List Bytes} {generator : Bytes} {additional : List Bytes} {kr : KmsKeyring}
    (hb : kmsBuild grants generator additional = .ok kr) (ctx : EncCtx) (row : SuiteRow) (hrow : row ∈ suiteTable) (s : EncState) :
    ((keyringOnEncrypt (kmsKeyring env kr) ctx row.id s).1 = .ok ↔ NoneFails (kmsEncryptChecks env grants generator additional ctx row s)) ∧
    ∀ c, ((keyringOnEncrypt (kmsKeyring env kr) ctx row.id s).1 = .fail ∧ (keyringOnEncrypt (kmsKeyring env kr) ctx row.id s).2.errno = c ↔
      FirstFails (kmsEncryptChecks env grants generator additional ctx row s) c) := by
  obtain ⟨rfl, -⟩ := kmsBuild_ok hb
  obtain ⟨h1, h2, h3⟩ := kmsOnEncrypt_decides env grants generator additional ctx row hrow s
  refine Decides.iff (functional_kms env grants generator additional ctx row s) ?_
  rw [kmsEncryptChecks_eq]
  exact keyringOnEncrypt_decides_len (kr := kmsKeyring env _) rfl h1 h2 h3

example : NoneFails (kmsEncryptChecks kmsEnv [ascii "grant"] arn1 [arn2] krCtx ⟨0x0178, 1, 256, 256, 0, 0⟩ encStart) ∧
    FirstFails (kmsEncryptChecks { kmsEnv with encrypt := fun i _ _ => if i = 1 then none else some ([], []) } [ascii "grant"] arn1 [arn2] krCtx
      ⟨0x0178, 1, 256, 256, 0, 0⟩ encStart) .kmsFailure ∧
    FirstFails (kmsEncryptChecks { kmsEnv with generate := fun _ r => some (r.keyId, [1], [1, 2, 3]) } [ascii "grant"] arn1 [arn2] krCtx
      ⟨0x0178, 1, 256, 256, 0, 0⟩ encStart) .badState :=
  have hb : kmsBuild [ascii "grant"] arn1 [arn2] = .ok kmsStrict := by decide
  ⟨(C82_kms_encrypt kmsEnv hb krCtx _ (by decide) encStart).1.mp (by decide +kernel),
   ((C82_kms_encrypt _ hb krCtx _ (by decide) encStart).2 _).mp (by decide +kernel),
   ((C82_kms_encrypt _ hb krCtx _ (by decide) encStart).2 _).mp (by decide +kernel)⟩

/-- C82: the same for a strict MRK-aware keyring. -/
theorem C82_mrk_encrypt (env : KmsEnv) {grants : List Bytes} {keyId : Bytes} {kr : MrkKeyring} (hb : mrkBuild grants keyId = .ok kr)
    (ctx : EncCtx) (row : SuiteRow) (hrow : row ∈ suiteTable) (s : EncState) :
    ((keyringOnEncrypt (mrkKeyring env kr) ctx row.id s).1 = .ok ↔ NoneFails (mrkEncryptChecks env grants keyId ctx row s)) ∧
    ∀ c, ((keyringOnEncrypt (mrkKeyring env kr) ctx row.id s).1 = .fail ∧ (keyringOnEncrypt (mrkKeyring env kr) ctx row.id s).2.errno = c ↔
      FirstFails (mrkEncryptChecks env grants keyId ctx row s) c) := by
  obtain rfl := mrkBuild_eq hb
  obtain ⟨h1, h2, h3⟩ := mrkOnEncrypt_decides env grants (mrkBuild_ok.1 ⟨_, hb⟩).1 ctx row hrow s
  exact Decides.iff (functional_mrk env grants keyId ctx row s) (keyringOnEncrypt_decides (kr := mrkKeyring env _) rfl h1 h2 h3)

example : NoneFails (mrkEncryptChecks kmsEnv [] mrkWest krCtx ⟨0x0178, 1, 256, 256, 0, 0⟩ encStart) ∧
    FirstFails (mrkEncryptChecks { kmsEnv with generate := fun _ r => some (r.keyId, [1], [1, 2, 3]) } [] mrkWest krCtx
      ⟨0x0178, 1, 256, 256, 0, 0⟩ encStart) .kmsFailure :=
  have hb : mrkBuild [] mrkWest = .ok mrkStrict := by decide
  ⟨(C82_mrk_encrypt kmsEnv hb krCtx _ (by decide) encStart).1.mp (by decide +kernel),
   ((C82_mrk_encrypt _ hb krCtx _ (by decide) encStart).2 _).mp (by decide +kernel)⟩

/-- C82: when keyrings for single keys, and keyrings in discovery mode, can be built, and what they are. -/
theorem C82_builders (grants : List Bytes) (generator : Bytes) (additional : List Bytes) (supplier client : Bool) (region : Bytes)
    (f : Option DiscoveryFilter) :
    (∀ kr, kmsBuild grants generator additional = .ok kr ↔
      (∀ id ∈ generator :: additional, ∃ r, HasRegion id r) ∧ kr = ⟨generator :: additional, grants, none⟩) ∧
    (∀ e, kmsBuild grants generator additional = .error e ↔
      (∃ id ∈ generator :: additional, ∀ r, ¬ HasRegion id r) ∧ e = .invalidArgument) ∧
    (∀ kr, mrkBuild grants generator = .ok kr ↔ generator ≠ [] ∧ ValidIdentifier generator ∧ kr = ⟨generator, grants, [], none⟩) ∧
    (∀ e, mrkBuild grants generator = .error e ↔ (generator = [] ∨ ¬ ValidIdentifier generator) ∧ e = .invalidArgument) ∧
    (∀ kr, kmsBuildDiscoveryFilter grants f = some kr ↔ f ≠ none ∧ kr = ⟨[], grants, f⟩) ∧
    (∀ kr, mrkBuildDiscovery grants supplier client region = some kr ↔ supplier = false ∧ client = true ∧ kr = ⟨[], grants, region, none⟩) ∧
    (∀ kr, mrkBuildDiscoveryFilter grants supplier client region f = some kr ↔
      region ≠ [] ∧ supplier = false ∧ client = true ∧ kr = ⟨[], grants, region, f⟩) := by
  have hreg : ∀ id, parseRegion id = [] ↔ ∀ r, ¬ HasRegion id r := fun id =>
    ⟨fun h r hr => hr.2.2 (((parseRegion_iff hr.2.2).2 hr).symm.trans h),
     fun h => Classical.byContradiction fun h' => h _ ((parseRegion_iff h').1 rfl)⟩
  have hany : (parseRegion generator = [] ∨ (additional.any fun k => parseRegion k = []) = true) ↔
      ∃ id ∈ generator :: additional, ∀ r, ¬ HasRegion id r := by
    simp only [List.any_eq_true, decide_eq_true_eq, hreg, List.mem_cons, exists_eq_or_imp]
  have hbuild : kmsBuild grants generator additional = if parseRegion generator = [] ∨ (additional.any fun k => parseRegion k = []) = true
      then .error .invalidArgument else .ok ⟨generator :: additional, grants, none⟩ := by
    unfold kmsBuild
    by_cases h1 : parseRegion generator = []
    · simp [h1]
    · by_cases h2 : (additional.any fun k => parseRegion k = []) = true
      · rw [if_neg h1, if_pos h2, if_pos (Or.inr h2)]
      · rw [if_neg h1, if_neg h2, if_neg (by simp [h1, h2])]
  have hval : (generator = [] ∨ (!isValidIdentifier generator) = true) ↔ generator = [] ∨ ¬ ValidIdentifier generator := by
    rw [← isValidIdentifier_iff]; simp
  refine ⟨fun kr => ?_, fun e => ?_, fun kr => ?_, fun e => ?_, fun kr => ?_, fun kr => ?_, fun kr => ?_⟩
  · rw [hbuild]
    split
    · next h =>
      obtain ⟨id, h1, h2⟩ := hany.mp h
      simp only [reduceCtorEq, false_iff]
      rintro ⟨h3, -⟩
      obtain ⟨r, hr⟩ := h3 id h1
      exact h2 r hr
    · next h =>
      simp only [Except.ok.injEq]
      refine ⟨fun e => ⟨fun id hid => Classical.byContradiction fun h' => h (hany.mpr ⟨id, hid, fun r hr => h' ⟨r, hr⟩⟩), e.symm⟩, fun e => e.2.symm⟩
  · rw [hbuild, ← hany]
    split
    · next h => simp only [Except.error.injEq, h, true_and]; exact eq_comm
    · next h => simp only [reduceCtorEq, h, false_and]
  · unfold mrkBuild
    split
    · next h =>
      rw [hval] at h
      simp only [reduceCtorEq, false_iff]
      rintro ⟨h1, h2, -⟩
      exact h.elim h1 (fun h => h h2)
    · next h =>
      rw [hval] at h
      simp only [not_or, Classical.not_not] at h
      simp only [Except.ok.injEq, h, true_and, ne_eq, not_false_iff]; exact eq_comm
  · unfold mrkBuild
    rw [← hval]
    split
    · next h => simp only [Except.error.injEq, h, true_and]; exact eq_comm
    · next h => simp only [reduceCtorEq, h, false_and]
  · unfold kmsBuildDiscoveryFilter
    cases f with
    | none => simp
    | some f => simp only [Option.some.injEq, ne_eq, reduceCtorEq, not_false_eq_true, true_and]; exact eq_comm
  · unfold mrkBuildDiscovery
    cases supplier <;> cases client <;> simp [eq_comm]
  · unfold mrkBuildDiscoveryFilter
    by_cases h : region = []
    · simp [h]
    · cases supplier <;> cases client <;> simp [eq_comm, h]

example : mrkBuildDiscovery [] false true (ascii "us-west-2") = some ⟨[], [], ascii "us-west-2", none⟩ ∧
    mrkBuildDiscovery [] true true (ascii "us-west-2") = none ∧ mrkBuildDiscovery [] false false (ascii "us-west-2") = none := by decide

/-- C82: when MRK-aware multi-keyrings can be built, whatever clients and memory there are, and what they are. -/
theorem C82_multi_builders (env : MultiBuildEnv) (grants : List Bytes) (generator : Bytes) (additional regions : List Bytes)
    (f : Option DiscoveryFilter) :
    (∀ x, mrkMultiBuild env grants generator additional = some x ↔
      generator ≠ [] ∧ ValidIdentifier generator ∧ (∃ r, ClientRegion generator r ∧ env.client r = true) ∧ ¬ TwoAlike (generator :: additional) ∧
      env.multi = true ∧ ChildrenBuild env additional ∧
      x = (some ⟨generator, grants, [], none⟩, additional.map fun id => ⟨id, grants, [], none⟩)) ∧
    (∀ x, mrkMultiBuildNoGen env grants additional = some x ↔
      additional ≠ [] ∧ ¬ TwoAlike additional ∧ env.multi = true ∧ ChildrenBuild env additional ∧
      x = (none, additional.map fun id => ⟨id, grants, [], none⟩)) ∧
    (∀ krs, mrkMultiBuildDiscovery env grants regions f = some krs ↔
      regions ≠ [] ∧ env.multi = true ∧ (∀ i r, regions[i]? = some r → r ≠ [] ∧ env.client r = true ∧ env.child i = true) ∧
      krs = regions.map fun r => ⟨[], grants, r, f⟩) := by
  have hch : ∀ krs, mrkChildren env grants 0 additional = some krs ↔ ChildrenBuild env additional ∧ krs = additional.map fun id => ⟨id, grants, [], none⟩ := by
    intro krs
    have := mrkChildren_exact env grants additional 0 krs
    simp only [Nat.zero_add] at this
    exact this
  have hne : ChildrenBuild env additional → [] ∉ additional := by
    intro h hm
    obtain ⟨i, hi⟩ := List.mem_iff_getElem?.mp hm
    obtain ⟨-, -, r, hr, -⟩ := h i [] hi
    exact hr.2.2 (((parseRegion_iff hr.2.2).2 hr).symm.trans (by decide))
  refine ⟨fun x => ?_, fun x => ?_, fun krs => ?_⟩
  · unfold mrkMultiBuild
    by_cases hg : generator = []
    · simp [hg]
    · rw [if_neg (by simpa using hg)]
      unfold mrkMultiBuild_
      have hpos : generator.length > 0 := List.length_pos_iff.mpr hg
      simp only [if_pos hpos, List.singleton_append, reduceCtorEq, if_false]
      by_cases h1 : [] ∈ additional
      · rw [if_pos h1]
        simp only [reduceCtorEq, false_iff]
        rintro ⟨_, _, _, _, _, h, _⟩
        exact hne h h1
      · rw [if_neg h1]
        by_cases h2 : TwoAlike (generator :: additional)
        · rw [if_pos (findDuplicateMrks_pos.2 h2)]
          simp [h2]
        · rw [if_neg (fun h => h2 (findDuplicateMrks_pos.1 h))]
          unfold mrkGenerator
          rw [if_neg hg]
          simp only [clientRegion_iff, exists_eq_left]
          cases hc : env.client (parseRegion generator) with
          | false => simp
          | true =>
            simp only [Bool.not_true, Bool.false_eq_true, if_false]
            cases hb : mrkBuild grants generator with
            | error e =>
              have : ¬ ValidIdentifier generator := by
                intro hv
                obtain ⟨kr, hkr⟩ := mrkBuild_ok (grants := grants).2 ⟨hg, hv⟩
                rw [hb] at hkr; cases hkr
              simp [this]
            | ok kr =>
              have hv := (mrkBuild_ok.1 ⟨kr, hb⟩).2
              have hkr := mrkBuild_eq hb
              subst hkr
              simp only
              cases hm : env.multi with
              | false => simp
              | true =>
                simp only [Bool.not_true, Bool.false_eq_true, if_false, ne_eq, hg, not_false_eq_true, hv, h2, true_and]
                cases hk : mrkChildren env grants 0 additional with
                | none =>
                  simp only [reduceCtorEq, false_iff]
                  rintro ⟨h, -⟩
                  have := (hch _).2 ⟨h, rfl⟩
                  rw [hk] at this; cases this
                | some krs =>
                  obtain ⟨h3, rfl⟩ := (hch krs).1 hk
                  simp only [Option.some.injEq, h3, true_and]
                  exact eq_comm
  · unfold mrkMultiBuildNoGen mrkMultiBuild_
    simp only [List.length_nil, gt_iff_lt, Nat.lt_irrefl, if_false, List.nil_append]
    by_cases h1 : [] ∈ additional
    · rw [if_pos h1]
      simp only [reduceCtorEq, false_iff]
      rintro ⟨_, _, _, h, _⟩
      exact hne h h1
    · rw [if_neg h1]
      by_cases h0 : additional = []
      · simp [h0]
      · rw [if_neg h0]
        by_cases h2 : TwoAlike additional
        · rw [if_pos (findDuplicateMrks_pos.2 h2)]
          simp [h2]
        · rw [if_neg (fun h => h2 (findDuplicateMrks_pos.1 h))]
          unfold mrkGenerator
          rw [if_pos rfl]
          simp only
          cases hm : env.multi with
          | false => simp
          | true =>
            simp only [Bool.not_true, Bool.false_eq_true, if_false, ne_eq, h0, not_false_eq_true, h2, true_and]
            cases hk : mrkChildren env grants 0 additional with
            | none =>
              simp only [reduceCtorEq, false_iff]
              rintro ⟨h, -⟩
              have := (hch _).2 ⟨h, rfl⟩
              rw [hk] at this; cases this
            | some krs =>
              obtain ⟨h3, rfl⟩ := (hch krs).1 hk
              simp only [Option.some.injEq, h3, true_and]
              exact eq_comm
  · unfold mrkMultiBuildDiscovery
    by_cases h0 : regions = []
    · simp [h0]
    · rw [if_neg h0]
      by_cases h1 : [] ∈ regions
      · rw [if_pos h1]
        simp only [reduceCtorEq, false_iff]
        rintro ⟨_, _, h, _⟩
        obtain ⟨i, hi⟩ := List.mem_iff_getElem?.mp h1
        exact (h i [] hi).1 rfl
      · rw [if_neg h1]
        cases hm : env.multi with
        | false => simp
        | true =>
          simp only [Bool.not_true, Bool.false_eq_true, if_false, true_and]
          rw [mrkDiscoveryChildren_exact env grants f regions 0 krs h1]
          simp only [Nat.zero_add]
          constructor
          · rintro ⟨h2, h3⟩
            exact ⟨h0, fun i r hi => ⟨fun e => h1 (e ▸ List.mem_of_getElem? hi), h2 i r hi⟩, h3⟩
          · rintro ⟨-, h2, h3⟩
            exact ⟨fun i r hi => (h2 i r hi).2, h3⟩

example : mrkMultiBuildDiscovery ⟨fun _ => true, true, fun i => i < 2⟩ [] [ascii "us-west-2", ascii "us-east-1"] none =
      some [⟨[], [], ascii "us-west-2", none⟩, ⟨[], [], ascii "us-east-1", none⟩] ∧
    mrkMultiBuildDiscovery ⟨fun _ => true, true, fun i => i < 1⟩ [] [ascii "us-west-2", ascii "us-east-1"] none = none ∧
    mrkMultiBuildDiscovery ⟨fun r => r ≠ ascii "us-east-1", true, fun _ => true⟩ [] [ascii "us-west-2", ascii "us-east-1"] none = none := by decide

end Verif.Props
