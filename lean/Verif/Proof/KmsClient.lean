import Verif.Spec.KmsClient
import Verif.Proof.KmsErrors
/-
Client suppliers: the programs run to the end are the functions of `Verif.Model.Kms`; what holds at each of their stops.
-/
namespace Verif
open Verif.Spec

/-! ### Programs run to the end -/

theorem KmsProg.run_bind {α β : Type} (env : KmsEnv) (p : KmsProg α) (f : α → KmsProg β) :
    (p.bind f).run env = (((f (p.run env).1).run env).1, (p.run env).2 ++ ((f (p.run env).1).run env).2) := by
  induction p with
  | done a => rfl
  | client sup i region k ih => exact ih _
  | report k ih => exact ih
  | decrypt i c r k ih => simp only [bind, run, ih, List.cons_append]
  | encrypt i c r k ih => simp only [bind, run, ih, List.cons_append]
  | generate c r k ih => simp only [bind, run, ih, List.cons_append]
  | newClient region k ih => exact ih _
  | newSupplier k ih => exact ih _

theorem kmsDecProg_run (env : KmsEnv) (sup : Supplier) (kr : KmsKeyring) (ctx : EncCtx) (s : DecState) (edks : List Edk) : ∀ i,
    (kmsDecProg env sup kr ctx i s edks).run env =
      (((kmsDecLoop env kr ctx i s edks).1, (kmsDecLoop env kr ctx i s edks).2.1), (kmsDecLoop env kr ctx i s edks).2.2) := by
  induction edks with
  | nil => intro i; rfl
  | cons e edks ih =>
    intro i
    rw [kmsDecProg, kmsDecLoop]
    cases hp : kmsPlan kr e with
    | none => exact ih _
    | some region =>
      simp only [KmsProg.run]
      cases hc : env.client i region with
      | none => simp only [ih]
      | some c =>
        simp only [KmsProg.run]
        cases hd : env.decrypt i c ⟨e.providerInfo, e.ciphertext, ctx, kr.grants⟩ with
        | none => simp only [ih]
        | some a =>
          obtain ⟨keyId, plaintext⟩ := a
          simp only [KmsProg.run]
          by_cases hk : keyId = e.providerInfo
          · rw [if_pos hk, if_pos hk]
            cases dupKey env plaintext <;> rfl
          · rw [if_neg hk, if_neg hk]

theorem kmsEncProgLoop_run (env : KmsEnv) (sup : Supplier) (grants : List Bytes) (ctx : EncCtx) (key : Bytes) (ids : List Bytes) : ∀ i my,
    (kmsEncProgLoop env sup grants ctx key i my ids).run env = kmsEncLoop env grants ctx key i my ids := by
  induction ids with
  | nil => intro i my; rfl
  | cons id ids ih =>
    intro i my
    rw [kmsEncProgLoop, kmsEncLoop]
    simp only [KmsProg.run]
    cases hc : env.client i (parseRegion id) with
    | none => rfl
    | some c =>
      simp only [KmsProg.run]
      cases hd : env.encrypt i c ⟨id, key, ctx, grants⟩ with
      | none => rfl
      | some a =>
        obtain ⟨keyId, ct⟩ := a
        simp only [KmsProg.run]
        cases ha : kmsAppend env i my keyId ct id (2 + 8) with
        | none => rfl
        | some my' => simp only [ih]

theorem kmsEncProgRest_run (env : KmsEnv) (sup : Supplier) (kr : KmsKeyring) (ctx : EncCtx) (s : EncState) (key : Option KeyBuf) (fresh : Bool)
    (i : Nat) (my : KmsLocal) (ids : List Bytes) :
    (kmsEncProgRest env sup kr ctx s key fresh i my ids).run env =
      (((kmsEncRest env kr ctx s key fresh i my ids).1, (kmsEncRest env kr ctx s key fresh i my ids).2.1),
        (kmsEncRest env kr ctx s key fresh i my ids).2.2) := by
  rw [kmsEncProgRest, KmsProg.run_bind, kmsEncProgLoop_run, kmsEncRest]
  cases h : kmsEncLoop env kr.grants ctx (keyBytes key) i my ids with
  | mk a calls => cases a <;> simp [KmsProg.run]

theorem kmsEncProg_run (env : KmsEnv) (sup : Supplier) (kr : KmsKeyring) (ctx : EncCtx) (alg : Nat) (s : EncState) :
    (kmsEncProg env sup kr ctx alg s).run env =
      (((kmsOnEncrypt env kr ctx alg s).1, (kmsOnEncrypt env kr ctx alg s).2.1), (kmsOnEncrypt env kr ctx alg s).2.2) := by
  unfold kmsEncProg kmsOnEncrypt
  cases hk : kr.keyIds with
  | nil => rfl
  | cons id ids =>
    dsimp only
    by_cases ha : (!env.alloc .edkList) = true ∨ (!env.alloc .traceList) = true
    · rw [if_pos ha, if_pos ha]; rfl
    · rw [if_neg ha, if_neg ha]
      cases hkey : s.key with
      | some k => exact kmsEncProgRest_run ..
      | none =>
        dsimp only
        cases hp : algProps alg with
        | none => rfl
        | some p =>
          simp only [KmsProg.run]
          cases hc : env.client 0 (parseRegion id) with
          | none => rfl
          | some c =>
            simp only [KmsProg.run]
            cases hg : env.generate c ⟨id, p.dataKeyLen, ctx, kr.grants⟩ with
            | none => rfl
            | some a =>
              obtain ⟨keyId, ct, pt⟩ := a
              simp only [KmsProg.run]
              cases h1 : kmsAppend env 0 ⟨[], [], s.errno⟩ keyId ct id (1 + 2 + 8) <;> cases h2 : dupKey env pt <;>
                simp only [KmsProg.run, kmsEncProgRest_run]

theorem mrkDecProgLoop_run (env : KmsEnv) (sup : Supplier) (kr : MrkKeyring) (ctx : EncCtx) (alg : Nat) (s : DecState) (edks : List Edk) :
    ∀ i failed, (mrkDecProgLoop env sup kr ctx alg i failed s edks).run env =
      (((mrkDecLoop env kr ctx alg i failed s edks).1, (mrkDecLoop env kr ctx alg i failed s edks).2.1),
        (mrkDecLoop env kr ctx alg i failed s edks).2.2) := by
  induction edks with
  | nil => intro i failed; cases failed <;> rfl
  | cons e edks ih =>
    intro i failed
    rw [mrkDecProgLoop, mrkDecLoop]
    cases hp : mrkPlan kr e with
    | none => exact ih _ _
    | some x =>
      obtain ⟨region, keyArn⟩ := x
      simp only [KmsProg.run]
      cases hc : env.client i region with
      | none => simp only [ih]
      | some c =>
        simp only [KmsProg.run]
        cases hd : env.decrypt i c ⟨keyArn, e.ciphertext, ctx, kr.grants⟩ with
        | none => simp only [ih]
        | some a =>
          obtain ⟨keyId, plaintext⟩ := a
          simp only [KmsProg.run]
          cases halg : algProps alg with
          | none => rfl
          | some p =>
            dsimp only
            by_cases hk : plaintext.length ≠ p.contentKeyLen ∨ keyId ≠ keyArn
            · rw [if_pos hk, if_pos hk]; simp only [ih]
            · rw [if_neg hk, if_neg hk]
              cases dupKey env plaintext <;> rfl

theorem mrkDecProg_run (env : KmsEnv) (sup : Supplier) (kr : MrkKeyring) (edks : List Edk) (ctx : EncCtx) (alg : Nat) (s : DecState) :
    (mrkDecProg env sup kr edks ctx alg s).run env =
      (((mrkOnDecrypt env kr edks ctx alg s).1, (mrkOnDecrypt env kr edks ctx alg s).2.1), (mrkOnDecrypt env kr edks ctx alg s).2.2) := by
  unfold mrkDecProg mrkOnDecrypt
  by_cases h : (keyBytes s.key).length ≠ 0
  · rw [if_pos h, if_pos h]; rfl
  · rw [if_neg h, if_neg h]; exact mrkDecProgLoop_run ..

theorem mrkEncProg_run (env : KmsEnv) (sup : Supplier) (kr : MrkKeyring) (ctx : EncCtx) (alg : Nat) (s : EncState) :
    (mrkEncProg env sup kr ctx alg s).run env =
      (((mrkOnEncrypt env kr ctx alg s).1, (mrkOnEncrypt env kr ctx alg s).2.1), (mrkOnEncrypt env kr ctx alg s).2.2) := by
  unfold mrkEncProg mrkOnEncrypt
  by_cases hd : kr.isDiscovery = true
  · rw [if_pos hd, if_pos hd]; rfl
  rw [if_neg hd, if_neg hd]
  by_cases ha : (!env.alloc .edkList) = true ∨ (!env.alloc .traceList) = true
  · rw [if_pos ha, if_pos ha]; rfl
  rw [if_neg ha, if_neg ha]
  cases hkey : s.key with
  | some k =>
    simp only [KmsProg.run]
    cases hc : env.client 0 (parseRegion kr.keyId) with
    | none => rfl
    | some c =>
      simp only [KmsProg.run]
      cases hg : env.encrypt 0 c ⟨kr.keyId, k.bytes, ctx, kr.grants⟩ with
      | none => rfl
      | some a =>
        obtain ⟨keyId, ct⟩ := a
        dsimp only
        by_cases hv : (!isValidKeyArn (arnParse keyId)) = true
        · rw [if_pos hv, if_pos hv]; rfl
        · rw [if_neg hv, if_neg hv]
          simp only [KmsProg.run]
          cases h1 : kmsAppend env 0 ⟨[], [], s.errno⟩ keyId ct kr.keyId (2 + 8) <;> rfl
  | none =>
    dsimp only
    cases hp : algProps alg with
    | none => rfl
    | some p =>
      simp only [KmsProg.run]
      cases hc : env.client 0 (parseRegion kr.keyId) with
      | none => rfl
      | some c =>
        simp only [KmsProg.run]
        cases hg : env.generate c ⟨kr.keyId, p.dataKeyLen, ctx, kr.grants⟩ with
        | none => rfl
        | some a =>
          obtain ⟨keyId, ct, pt⟩ := a
          dsimp only
          by_cases hv : pt.length ≠ p.contentKeyLen ∨ (!isValidKeyArn (arnParse keyId)) = true
          · rw [if_pos hv, if_pos hv]; rfl
          · rw [if_neg hv, if_neg hv]
            simp only [KmsProg.run]
            cases h1 : kmsAppend env 0 ⟨[], [], s.errno⟩ keyId ct kr.keyId (1 + 2 + 8) <;> cases h2 : dupKey env pt <;> rfl

/-! ### Builders run to the end -/

/-- The keyring without its supplier. -/
def KmsBuilt.config : KmsBuilt → KmsKeyring ⊕ MrkKeyring
  | .kms kr _ => .inl kr
  | .mrk kr _ => .inr kr

theorem kmsBuildProg_run (env : KmsEnv) (b : KmsBuilder) (generator : Bytes) (additional : List Bytes) :
    (((kmsBuildProg b generator additional).run env).1.map KmsBuilt.config =
      match kmsBuild b.grants generator additional with
      | .error _ => none
      | .ok kr => some (.inl kr)) := by
  unfold kmsBuildProg
  cases kmsBuild b.grants generator additional with
  | error e => rfl
  | ok kr => simp only [KmsProg.run_bind, KmsProg.run]; rfl

theorem mrkBuildProg_run (env : KmsEnv) (b : KmsBuilder) (id : Bytes) :
    (((mrkBuildProg b id).run env).1.map KmsBuilt.config =
      match mrkBuild b.grants id with
      | .error _ => none
      | .ok kr => some (.inr kr)) := by
  unfold mrkBuildProg
  cases mrkBuild b.grants id with
  | error e => rfl
  | ok kr => simp only [KmsProg.run_bind, KmsProg.run]; rfl

theorem mrkChildrenProg_run (env : KmsEnv) (menv : MultiBuildEnv) (hc : ∀ r, menv.client r = (env.client 0 r).isSome) (sup : Supplier)
    (grants : List Bytes) (ids : List Bytes) : ∀ i,
    ((mrkChildrenProg menv.child sup grants i ids).run env).1.map (·.map KmsBuilt.config) =
      (mrkChildren menv grants i ids).map (·.map .inr) := by
  induction ids with
  | nil => intro i; rfl
  | cons id ids ih =>
    intro i
    rw [mrkChildrenProg, mrkChildren]
    by_cases hr : parseRegion id = []
    · rw [if_pos hr, if_pos hr]; rfl
    rw [if_neg hr, if_neg hr, hc]
    simp only [KmsProg.run]
    cases hcl : env.client 0 (parseRegion id) with
    | none => rfl
    | some c =>
      rw [if_neg (by simp)]
      have hb := mrkBuildProg_run env { client := some c, grants := grants } id
      dsimp only at hb ⊢
      rw [KmsProg.run_bind]
      cases hx : ((mrkBuildProg { client := some c, grants := grants } id).run env).1 with
      | none =>
        rw [hx] at hb
        cases hm : mrkBuild grants id with
        | error e => rfl
        | ok kr => rw [hm] at hb; cases hb
      | some kr' =>
        rw [hx] at hb
        cases hm : mrkBuild grants id with
        | error e => rw [hm] at hb; cases hb
        | ok kr =>
          rw [hm] at hb
          dsimp only
          have hb' : kr'.config = .inr kr := Option.some.inj hb
          by_cases hch : (!menv.child i) = true
          · rw [if_pos hch, if_pos hch]; rfl
          · rw [if_neg hch, if_neg hch, KmsProg.run_bind]
            have h2 := ih (i + 1)
            cases hy : ((mrkChildrenProg menv.child sup grants (i + 1) ids).run env).1 with
            | none =>
              rw [hy] at h2
              cases hz : mrkChildren menv grants (i + 1) ids with
              | none => rfl
              | some krs => rw [hz] at h2; cases h2
            | some l =>
              rw [hy] at h2
              cases hz : mrkChildren menv grants (i + 1) ids with
              | none => rw [hz] at h2; cases h2
              | some krs =>
                rw [hz] at h2
                have h3 : l.map KmsBuilt.config = krs.map .inr := Option.some.inj h2
                simp only [KmsProg.run, Option.map_some, List.map_cons, hb', h3]

theorem mrkGeneratorProg_run (env : KmsEnv) (menv : MultiBuildEnv) (hc : ∀ r, menv.client r = (env.client 0 r).isSome) (sup : Supplier)
    (grants : List Bytes) (generator : Bytes) :
    ((mrkGeneratorProg sup grants generator).run env).1.map (·.map KmsBuilt.config) =
      (mrkGenerator menv grants generator).map (·.toList.map .inr) := by
  unfold mrkGeneratorProg mrkGenerator
  by_cases hg : generator = []
  · rw [if_pos hg, if_pos hg]; rfl
  rw [if_neg hg, if_neg hg, hc]
  simp only [KmsProg.run]
  cases hcl : env.client 0 (parseRegion generator) with
  | none => rfl
  | some c =>
    rw [if_neg (by simp)]
    have hb := mrkBuildProg_run env { client := some c, grants := grants } generator
    dsimp only at hb ⊢
    rw [KmsProg.run_bind]
    cases hx : ((mrkBuildProg { client := some c, grants := grants } generator).run env).1 with
    | none =>
      rw [hx] at hb
      cases hm : mrkBuild grants generator with
      | error e => rfl
      | ok kr => rw [hm] at hb; cases hb
    | some kr' =>
      rw [hx] at hb
      cases hm : mrkBuild grants generator with
      | error e => rw [hm] at hb; cases hb
      | ok kr =>
        rw [hm] at hb
        have hb' : kr'.config = .inr kr := Option.some.inj hb
        simp [KmsProg.run, hb']

theorem mrkMultiProg__run (env : KmsEnv) (menv : MultiBuildEnv) (hc : ∀ r, menv.client r = (env.client 0 r).isSome) (b : KmsBuilder)
    (generator : Bytes) (additional : List Bytes) :
    ((mrkMultiProg_ menv.multi menv.child b generator additional).run env).1.map (·.map KmsBuilt.config) =
      (mrkMultiBuild_ menv b.grants generator additional).map (fun r => (r.1.toList ++ r.2).map .inr) := by
  unfold mrkMultiProg_ mrkMultiBuild_
  by_cases h1 : [] ∈ additional
  · rw [if_pos h1, if_pos h1]; rfl
  rw [if_neg h1, if_neg h1]
  dsimp only
  by_cases h2 : (if generator.length > 0 then [generator] else []) ++ additional = []
  · rw [if_pos h2, if_pos h2]; rfl
  rw [if_neg h2, if_neg h2]
  by_cases h3 : (findDuplicateMrks ((if generator.length > 0 then [generator] else []) ++ additional)).length > 0
  · rw [if_pos h3, if_pos h3]; rfl
  rw [if_neg h3, if_neg h3, KmsProg.run_bind, KmsProg.run_bind]
  generalize ((supplierOrDefault b).run env).1 = sup
  have hg := mrkGeneratorProg_run env menv hc sup b.grants generator
  cases hx : ((mrkGeneratorProg sup b.grants generator).run env).1 with
  | none =>
    rw [hx] at hg
    cases hm : mrkGenerator menv b.grants generator with
    | none => rfl
    | some g => rw [hm] at hg; cases hg
  | some gl =>
    rw [hx] at hg
    cases hm : mrkGenerator menv b.grants generator with
    | none => rw [hm] at hg; cases hg
    | some g =>
      rw [hm] at hg
      have hg' : gl.map KmsBuilt.config = g.toList.map .inr := Option.some.inj hg
      dsimp only
      by_cases h4 : (!menv.multi) = true
      · rw [if_pos h4, if_pos h4]; rfl
      rw [if_neg h4, if_neg h4, KmsProg.run_bind]
      have h5 := mrkChildrenProg_run env menv hc sup b.grants additional 0
      cases hy : ((mrkChildrenProg menv.child sup b.grants 0 additional).run env).1 with
      | none =>
        rw [hy] at h5
        cases hz : mrkChildren menv b.grants 0 additional with
        | none => rfl
        | some krs => rw [hz] at h5; cases h5
      | some l =>
        rw [hy] at h5
        cases hz : mrkChildren menv b.grants 0 additional with
        | none => rw [hz] at h5; cases h5
        | some krs =>
          rw [hz] at h5
          have h6 : l.map KmsBuilt.config = krs.map .inr := Option.some.inj h5
          simp only [KmsProg.run, Option.map_some, List.map_append, hg', h6]

theorem mrkRegionsProg_run (env : KmsEnv) (menv : MultiBuildEnv) (hc : ∀ r, menv.client r = (env.client 0 r).isSome) (sup : Supplier)
    (grants : List Bytes) (f : Option DiscoveryFilter) (regions : List Bytes) : ∀ i,
    ((mrkRegionsProg menv.child sup grants f i regions).run env).1.map (·.map KmsBuilt.config) =
      (mrkDiscoveryChildren menv grants f i regions).map (·.map .inr) := by
  induction regions with
  | nil => intro i; rfl
  | cons r regions ih =>
    intro i
    rw [mrkRegionsProg, mrkDiscoveryChildren, hc]
    simp only [KmsProg.run]
    cases hcl : env.client 0 r with
    | none => rfl
    | some c =>
      rw [if_neg (by simp)]
      dsimp only
      rw [KmsProg.run_bind]
      unfold mrkBuildFilterProg
      simp only [Option.isSome_none, Option.isSome_some]
      cases hm : mrkBuildDiscoveryFilter grants false true r f with
      | none => rfl
      | some kr =>
        simp only [KmsProg.run]
        by_cases hch : (!menv.child i) = true
        · rw [if_pos hch, if_pos hch]; rfl
        · rw [if_neg hch, if_neg hch, KmsProg.run_bind]
          have h2 := ih (i + 1)
          cases hy : ((mrkRegionsProg menv.child sup grants f (i + 1) regions).run env).1 with
          | none =>
            rw [hy] at h2
            cases hz : mrkDiscoveryChildren menv grants f (i + 1) regions with
            | none => rfl
            | some krs => rw [hz] at h2; cases h2
          | some l =>
            rw [hy] at h2
            cases hz : mrkDiscoveryChildren menv grants f (i + 1) regions with
            | none => rw [hz] at h2; cases h2
            | some krs =>
              rw [hz] at h2
              have h3 : l.map KmsBuilt.config = krs.map .inr := Option.some.inj h2
              simp only [KmsProg.run, Option.map_some, List.map_cons, h3]; rfl

theorem mrkMultiDiscoveryProg_run (env : KmsEnv) (menv : MultiBuildEnv) (hc : ∀ r, menv.client r = (env.client 0 r).isSome) (b : KmsBuilder)
    (regions : List Bytes) (f : Option DiscoveryFilter) :
    ((mrkMultiDiscoveryProg menv.multi menv.child b regions f).run env).1.map (·.map KmsBuilt.config) =
      (mrkMultiBuildDiscovery menv b.grants regions f).map (·.map .inr) := by
  unfold mrkMultiDiscoveryProg mrkMultiBuildDiscovery
  by_cases h1 : regions = []
  · rw [if_pos h1, if_pos h1]; rfl
  rw [if_neg h1, if_neg h1]
  by_cases h2 : [] ∈ regions
  · rw [if_pos h2, if_pos h2]; rfl
  rw [if_neg h2, if_neg h2, KmsProg.run_bind]
  by_cases h3 : (!menv.multi) = true
  · rw [if_pos h3, if_pos h3]; rfl
  rw [if_neg h3, if_neg h3]
  exact mrkRegionsProg_run env menv hc _ b.grants f regions 0

/-! ### Settings -/

theorem ofSettings_eq (l : List KmsSetting) : KmsBuilder.ofSettings l = ⟨clientOf l, supplierOf l, tokensOf l⟩ := by
  have h : ∀ m : List KmsSetting, KmsBuilder.ofSettings m.reverse = ⟨clientOf m.reverse, supplierOf m.reverse, tokensOf m.reverse⟩ := by
    intro m
    induction m with
    | nil => rfl
    | cons x m ih =>
      have e : KmsBuilder.ofSettings (x :: m).reverse = (KmsBuilder.ofSettings m.reverse).apply x := by
        simp [KmsBuilder.ofSettings, List.foldl_append]
      rw [e, ih]
      cases x <;> simp [KmsBuilder.apply, clientOf, supplierOf, tokensOf, List.findSome?_cons]
  simpa using h l.reverse

/-! ### What holds at the stops of a program -/

/-- A client that may be used for the region. -/
def Accept (l : List KmsSetting) (R : List Bytes) (region : Bytes) (n : Nat) : Prop :=
  (fixedClient l = none → R[n]? = some region) ∧ ∀ c, fixedClient l = some c → n = c

/-- The supplier gives only such clients. -/
def Serves (l : List KmsSetting) (R : List Bytes) (sup : Supplier) (region : Bytes) : Prop :=
  (∀ n, sup = .single (some n) → Accept l R region n) ∧ ((∀ c, sup ≠ .single c) → fixedClient l = none)

/-- What is claimed of a call. -/
def CallGood (l : List KmsSetting) (R : List Bytes) (call : KmsCall) : Prop :=
  call.grants = tokensOf l ∧ (fixedClient l = none → ∃ region, R[call.client]? = some region ∧ ClientRegion call.keyId region) ∧
    ∀ c, fixedClient l = some c → call.client = c

/-- The keyring asks only for regions that its supplier serves. -/
def BuiltGood (l : List KmsSetting) (R : List Bytes) : KmsBuilt → Prop
  | .kms kr sup => kr.grants = tokensOf l ∧ ∀ region, (kr.keyIds = [] ∨ ∃ id ∈ kr.keyIds, region = parseRegion id) → Serves l R sup region
  | .mrk kr sup => kr.grants = tokensOf l ∧ (kr.keyId = [] → Serves l R sup kr.region ∧ (fixedClient l = none → kr.region ≠ [] ∧ 58 ∉ kr.region)) ∧
      (kr.keyId ≠ [] → Serves l R sup (parseRegion kr.keyId))

/-- What holds from here on: `cur` is the supplier that was asked last, with its answer, `ok` tells whether the last call of KMS succeeded
since.  `Q` holds at the end. -/
def Good {α : Type} (J : KmsJob) (Q : List Bytes → α → Prop) (R : List Bytes) (cur : Option (Supplier × Option Nat)) (ok : Bool) :
    KmsProg α → Prop
  | .done a => ∀ R', R <+: R' → Q R' a
  | .client sup _ region k => (∀ R', R <+: R' → Serves J.settings R' sup region) ∧ ∀ R', R <+: R' → ∀ c,
      (∀ n, c = some n → Accept J.settings R' region n) → Good J Q R' (some (sup, c)) false (k c)
  | .report k => ((ok = true ∧ ∃ sup n, cur = some (sup, some n)) ∨ ∃ sup c, OneKey J sup ∧ cur = some (sup, c)) ∧ Good J Q R cur ok k
  | .decrypt _ c r k => (∃ sup, cur = some (sup, some c)) ∧ (∀ R', R <+: R' → CallGood J.settings R' (.decrypt c r)) ∧
      ∀ a, Good J Q R cur a.isSome (k a)
  | .encrypt _ c r k => (∃ sup, cur = some (sup, some c)) ∧ (∀ R', R <+: R' → CallGood J.settings R' (.encrypt c r)) ∧
      ∀ a, Good J Q R cur a.isSome (k a)
  | .generate c r k => (∃ sup, cur = some (sup, some c)) ∧ (∀ R', R <+: R' → CallGood J.settings R' (.generate c r)) ∧
      ∀ a, Good J Q R cur a.isSome (k a)
  | .newClient region k => ∀ R', R <+: R' → ∀ n, R'[n]? = some region → Good J Q R' cur ok (k n)
  | .newSupplier k => ∀ n, Good J Q R cur ok (k n)

theorem Good.mono {α : Type} {J : KmsJob} {Q : List Bytes → α → Prop} {p : KmsProg α} : ∀ {R R' : List Bytes}
    {cur : Option (Supplier × Option Nat)} {ok : Bool}, R <+: R' → Good J Q R cur ok p → Good J Q R' cur ok p := by
  induction p with
  | done a => exact fun h g R'' h' => g R'' (h.trans h')
  | client sup i region k ih =>
    exact fun h g => ⟨fun R'' h' => g.1 R'' (h.trans h'), fun R'' h' => g.2 R'' (h.trans h')⟩
  | report k ih => exact fun h g => ⟨g.1, ih h g.2⟩
  | decrypt i c r k ih => exact fun h g => ⟨g.1, fun R'' h' => g.2.1 R'' (h.trans h'), fun a => ih a h (g.2.2 a)⟩
  | encrypt i c r k ih => exact fun h g => ⟨g.1, fun R'' h' => g.2.1 R'' (h.trans h'), fun a => ih a h (g.2.2 a)⟩
  | generate c r k ih => exact fun h g => ⟨g.1, fun R'' h' => g.2.1 R'' (h.trans h'), fun a => ih a h (g.2.2 a)⟩
  | newClient region k ih => exact fun h g R'' h' => g R'' (h.trans h')
  | newSupplier k ih => exact fun h g n => ih n h (g n)

theorem Good.bind {α β : Type} {J : KmsJob} {Q : List Bytes → α → Prop} {Q' : List Bytes → β → Prop} {f : α → KmsProg β} {p : KmsProg α} :
    ∀ {R : List Bytes} {cur : Option (Supplier × Option Nat)} {ok : Bool}, Good J Q R cur ok p →
      (∀ R', R <+: R' → ∀ a, Q R' a → ∀ cur ok, Good J Q' R' cur ok (f a)) → Good J Q' R cur ok (p.bind f) := by
  induction p with
  | done a => exact fun g hf => hf _ (List.prefix_refl _) a (g _ (List.prefix_refl _)) _ _
  | client sup i region k ih =>
    exact fun g hf => ⟨g.1, fun R' h c hc => ih c (g.2 R' h c hc) fun R'' h' => hf R'' (h.trans h')⟩
  | report k ih => exact fun g hf => ⟨g.1, ih g.2 hf⟩
  | decrypt i c r k ih => exact fun g hf => ⟨g.1, g.2.1, fun a => ih a (g.2.2 a) hf⟩
  | encrypt i c r k ih => exact fun g hf => ⟨g.1, g.2.1, fun a => ih a (g.2.2 a) hf⟩
  | generate c r k ih => exact fun g hf => ⟨g.1, g.2.1, fun a => ih a (g.2.2 a) hf⟩
  | newClient region k ih => exact fun g hf R' h n hn => ih n (g R' h n hn) fun R'' h' => hf R'' (h.trans h')
  | newSupplier k ih => exact fun g hf n => ih n (g n) hf

theorem prefix_get {R R' : List Bytes} (h : R <+: R') {n : Nat} {x : Bytes} (hn : R[n]? = some x) : R'[n]? = some x := by
  obtain ⟨t, rfl⟩ := h
  rw [List.getElem?_append_left (List.getElem?_eq_some_iff.1 hn).1]; exact hn

theorem Accept.mono {l : List KmsSetting} {R R' : List Bytes} (h : R <+: R') {region : Bytes} {n : Nat} (a : Accept l R region n) :
    Accept l R' region n := ⟨fun hf => prefix_get h (a.1 hf), a.2⟩

theorem Serves.mono {l : List KmsSetting} {R R' : List Bytes} (h : R <+: R') {sup : Supplier} {region : Bytes} (a : Serves l R sup region) :
    Serves l R' sup region := ⟨fun n hn => (a.1 n hn).mono h, a.2⟩

theorem CallGood.mono {l : List KmsSetting} {R R' : List Bytes} (h : R <+: R') {call : KmsCall} (a : CallGood l R call) : CallGood l R' call :=
  ⟨a.1, fun hf => (a.2.1 hf).imp fun _ x => ⟨prefix_get h x.1, x.2⟩, a.2.2⟩

theorem BuiltGood.mono {l : List KmsSetting} {R R' : List Bytes} (h : R <+: R') {kr : KmsBuilt} (a : BuiltGood l R kr) : BuiltGood l R' kr := by
  cases kr with
  | kms kr sup => exact ⟨a.1, fun r hr => (a.2 r hr).mono h⟩
  | mrk kr sup => exact ⟨a.1, fun hk => ⟨(a.2.1 hk).1.mono h, (a.2.1 hk).2⟩, fun hk => (a.2.2 hk).mono h⟩

/-- A call with an accepted client for the region of the key is good. -/
theorem Accept.call {l : List KmsSetting} {R : List Bytes} {region : Bytes} {call : KmsCall} (a : Accept l R region call.client)
    (hg : call.grants = tokensOf l) (hr : fixedClient l = none → ClientRegion call.keyId region) : CallGood l R call :=
  ⟨hg, fun hf => ⟨region, a.1 hf, hr hf⟩, a.2⟩

end Verif
