import Verif.Spec.KmsErrors
import Verif.Proof.KeyringErrors
import Verif.Props.Kms
import Verif.Props.Arn
/-
Lemmas for C82.
-/
namespace Verif
open Spec Props

theorem firstFails_append_left {a b : List Check} {c : Err} (h : FirstFails a c) : FirstFails (a ++ b) c := by
  obtain ⟨pre, p, post, rfl, h1, h2⟩ := h
  exact ⟨pre, p, post ++ b, by simp, h1, h2⟩

theorem Decides.append {a b : List Check} {r : KRet} {errno : Err} (ha : NoneFails a) (h : Decides b r errno) : Decides (a ++ b) r errno := by
  rcases h with ⟨h1, h⟩ | ⟨h1, pre, p, post, rfl, h2, h3⟩
  · exact Or.inl ⟨h1, fun q hq => (List.mem_append.mp hq).elim (ha q) (h q)⟩
  · exact Or.inr ⟨h1, a ++ pre, p, post, by simp, h2, fun q hq => (List.mem_append.mp hq).elim (ha q) (h3 q)⟩

theorem functional_append {a b : List Check} : Functional (a ++ b) ↔ Functional a ∧ Functional b := by
  unfold Functional
  constructor
  · exact fun h => ⟨fun p hp => h p (by simp [hp]), fun p hp => h p (by simp [hp])⟩
  · exact fun h p hp => (List.mem_append.mp hp).elim (h.1 p) (h.2 p)

theorem clientRegion_iff {id r : Bytes} : ClientRegion id r ↔ r = parseRegion id := by
  unfold ClientRegion
  by_cases h0 : parseRegion id = []
  · have hno : ∀ r, ¬ HasRegion id r := fun r hr => hr.2.2 (((parseRegion_iff hr.2.2).2 hr).symm.trans h0)
    rw [h0]
    exact ⟨fun h => h.elim (fun h => absurd h (hno r)) (·.2), fun h => Or.inr ⟨hno, h⟩⟩
  · constructor
    · rintro (h | ⟨h, -⟩)
      · exact ((parseRegion_iff h.2.2).2 h).symm
      · exact absurd ((parseRegion_iff h0).1 rfl) (h _)
    · rintro rfl
      exact Or.inl ((parseRegion_iff h0).1 rfl)

theorem noClient_iff {env : KmsEnv} {i : Nat} {id : Bytes} : NoClient env i id ↔ env.client i (parseRegion id) = none := by
  unfold NoClient
  simp [clientRegion_iff]

theorem encAnswer_iff {env : KmsEnv} {grants : List Bytes} {ctx : EncCtx} {i : Nat} {id key : Bytes} {c : Nat}
    (hc : env.client i (parseRegion id) = some c) {a : Option (Bytes × Bytes)} :
    EncAnswer env grants ctx i id key a ↔ env.encrypt i c ⟨id, key, ctx, grants⟩ = a := by
  unfold EncAnswer
  simp [clientRegion_iff, hc]

theorem genAnswer_iff {env : KmsEnv} {grants : List Bytes} {ctx : EncCtx} {row : SuiteRow} {id : Bytes} {c : Nat}
    (hc : env.client 0 (parseRegion id) = some c) {a : Option (Bytes × Bytes × Bytes)} :
    GenAnswer env grants ctx row id a ↔ env.generate c ⟨id, row.keyBits / 8, ctx, grants⟩ = a := by
  unfold GenAnswer
  simp [clientRegion_iff, hc]

theorem kmsAppend_none {env : KmsEnv} {i : Nat} {my : KmsLocal} {keyId ct name : Bytes} {flags : Nat} :
    kmsAppend env i my keyId ct name flags = none ↔ env.alloc (.edk i) = false := by
  unfold kmsAppend
  cases env.alloc (.edk i) <;> simp

theorem kmsEncLoop_decides {env : KmsEnv} {grants : List Bytes} {ctx : EncCtx} {DataKey : Bytes → Prop} {key : Bytes}
    (hk : ∀ k, DataKey k ↔ k = key) : ∀ (ids : List Bytes) (i : Nat) (my : KmsLocal),
    (∃ e, (kmsEncLoop env grants ctx key i my ids).1 = .error e ∧
      FirstFails ((ids.zipIdx i).flatMap fun x => wrapChecks env grants ctx DataKey x.1 x.2) e) ∨
    (∃ my', (kmsEncLoop env grants ctx key i my ids).1 = .ok my' ∧ my'.edks.length = my.edks.length + ids.length ∧
      NoneFails ((ids.zipIdx i).flatMap fun x => wrapChecks env grants ctx DataKey x.1 x.2))
  | [], i, my => Or.inr ⟨my, rfl, by simp, by simp [NoneFails]⟩
  | id :: ids, i, my => by
    rw [kmsEncLoop, List.zipIdx_cons, List.flatMap_cons]
    have ihx := fun my => kmsEncLoop_decides (env := env) (grants := grants) (ctx := ctx) hk ids (i + 1) my
    revert ihx
    generalize ((ids.zipIdx (i + 1)).flatMap fun x => wrapChecks env grants ctx DataKey x.1 x.2) = tail
    intro ihx
    simp only
    unfold wrapChecks
    simp only [List.cons_append, List.nil_append, firstFails_cons, noneFails_cons, failsIf_none]
    simp only [failsIf_apply, noClient_iff, hk]
    cases hc : env.client i (parseRegion id) with
    | none => exact Or.inl ⟨_, rfl, Or.inl (by simp)⟩
    | some c =>
      simp only [encAnswer_iff hc]
      cases he : env.encrypt i c ⟨id, key, ctx, grants⟩ with
      | none => exact Or.inl ⟨_, rfl, Or.inr ⟨by simp, Or.inl ⟨⟨key, rfl, he⟩, rfl⟩⟩⟩
      | some x =>
        obtain ⟨used, ct⟩ := x
        simp only
        have h2 : ¬ ∃ k, k = key ∧ env.encrypt i c ⟨id, k, ctx, grants⟩ = none := by
          rintro ⟨_, rfl, h⟩; rw [he] at h; cases h
        cases ha : kmsAppend env i my used ct id (2 + 8) with
        | none => exact Or.inl ⟨_, rfl, Or.inr ⟨by simp, Or.inr ⟨h2, Or.inl ⟨kmsAppend_none.mp ha, rfl⟩⟩⟩⟩
        | some my1 =>
          have h3 : ¬ env.alloc (.edk i) = false := fun h => by rw [kmsAppend_none.mpr h] at ha; cases ha
          have hl := (kmsAppend_some ha).1
          rcases ihx my1 with ⟨e, h4, h5⟩ | ⟨my', h4, h5, h6⟩
          · exact Or.inl ⟨e, h4, Or.inr ⟨by simp, Or.inr ⟨h2, Or.inr ⟨h3, h5⟩⟩⟩⟩
          · exact Or.inr ⟨my', h4, by rw [h5, hl]; simp; omega, by simp, h2, h3, h6⟩

/-- The wrapper around a keyring that may give a data key of the wrong length. -/
theorem keyringOnEncrypt_decides_len {kr : Keyring} {f : EncCtx → Nat → EncState → KRet × EncState} (hf : kr.onEncrypt = some f) {ctx : EncCtx}
    {alg : Nat} {s : EncState} {checks : List Check} (h : Decides checks (f ctx alg s).1 (f ctx alg s).2.errno) {p : Prop}
    (hk : (f ctx alg s).1 = .ok → (checkEncKey alg s.key (f ctx alg s).2.key = false ↔ p))
    (hfail : (f ctx alg s).1 = .fail → (f ctx alg s).2.key = s.key) :
    Decides (failsIf (s.key = none ∧ s.edks ≠ []) .badState :: (checks ++ [failsIf p .badState])) (keyringOnEncrypt kr ctx alg s).1
      (keyringOnEncrypt kr ctx alg s).2.errno := by
  unfold keyringOnEncrypt
  by_cases h0 : s.key = none ∧ s.edks ≠ []
  · rw [if_pos (by simpa using h0)]
    exact .fail h0
  · rw [if_neg (by simpa using h0), hf]
    refine .skip h0 ?_
    simp only
    rcases h with ⟨h1, h2⟩ | ⟨h1, h2⟩
    · rw [if_neg (by rw [h1]; simp)]
      refine .append h2 ?_
      cases hc : checkEncKey alg s.key (f ctx alg s).2.key with
      | true =>
        rw [if_pos rfl, h1]
        exact .skip (fun hp => by rw [(hk h1).mpr hp] at hc; cases hc) .ok
      | false =>
        rw [if_neg (by simp)]
        exact .fail ((hk h1).mp hc)
    · rw [if_neg (by rw [h1]; simp), if_pos]
      · exact Or.inr ⟨h1, firstFails_append_left h2⟩
      · rw [hfail h1]
        unfold checkEncKey
        cases s.key <;> simp

theorem kmsTransfer_decides {env : KmsEnv} (s : EncState) (key : Option KeyBuf) (fresh : Bool) (my : KmsLocal) {n : Nat} (hn : my.edks.length = n) :
    Decides [failsIf (∃ j < n, env.pushEdk j = false) .oom] (kmsTransfer env s key fresh my).1 (kmsTransfer env s key fresh my).2.errno ∧
    ((kmsTransfer env s key fresh my).1 = .ok → (kmsTransfer env s key fresh my).2.key = key) ∧
    ((kmsTransfer env s key fresh my).1 = .fail → (kmsTransfer env s key fresh my).2.key = if fresh then none else key) := by
  have ht := transferLoop_fail env.pushEdk 0 s.edks my.edks
  simp only [Nat.zero_add, hn] at ht
  unfold kmsTransfer
  simp only
  cases hb : (transferLoop env.pushEdk 0 s.edks my.edks).2 with
  | false =>
    simp only [Bool.not_false, if_true]
    exact ⟨.fail (ht.mp hb), by simp, by simp⟩
  | true =>
    simp only [Bool.not_true, Bool.false_eq_true, if_false]
    exact ⟨.skip (fun h => by rw [ht.mpr h] at hb; cases hb) .ok, by simp, by simp⟩

/-- The part after a data key is there. -/
theorem kmsEncRest_decides {env : KmsEnv} {kr : KmsKeyring} {ctx : EncCtx} {s : EncState} {key : Option KeyBuf} {fresh : Bool} {i : Nat}
    {my : KmsLocal} {ids : List Bytes} {DataKey : Bytes → Prop} (hk : ∀ k, DataKey k ↔ k = keyBytes key) {n : Nat} (hn : my.edks.length + ids.length = n)
    (hf : (if fresh then none else key) = s.key) :
    Decides ((ids.zipIdx i).flatMap (fun x => wrapChecks env kr.grants ctx DataKey x.1 x.2) ++ [failsIf (∃ j < n, env.pushEdk j = false) .oom])
      (kmsEncRest env kr ctx s key fresh i my ids).1 (kmsEncRest env kr ctx s key fresh i my ids).2.1.errno ∧
    ((kmsEncRest env kr ctx s key fresh i my ids).1 = .ok → (kmsEncRest env kr ctx s key fresh i my ids).2.1.key = key) ∧
    ((kmsEncRest env kr ctx s key fresh i my ids).1 = .fail → (kmsEncRest env kr ctx s key fresh i my ids).2.1.key = s.key) := by
  unfold kmsEncRest
  rcases hl : kmsEncLoop env kr.grants ctx (keyBytes key) i my ids with ⟨res, calls⟩
  rcases kmsEncLoop_decides (env := env) (grants := kr.grants) (ctx := ctx) hk ids i my with ⟨e, h1, h2⟩ | ⟨my', h1, h2, h3⟩
  · rw [hl] at h1
    simp only at h1
    subst h1
    exact ⟨Or.inr ⟨rfl, firstFails_append_left h2⟩, by simp, fun _ => hf⟩
  · rw [hl] at h1
    simp only at h1
    subst h1
    obtain ⟨h4, h5, h6⟩ := kmsTransfer_decides (env := env) s key fresh my' (h2.trans hn)
    exact ⟨.append h3 h4, h5, fun h => (h6 h).trans hf⟩

theorem dupKey_none {env : KmsEnv} {pt : Bytes} : dupKey env pt = none ↔ pt ≠ [] ∧ env.alloc .dataKey = false := by
  unfold dupKey
  by_cases h : pt = []
  · simp [h]
  · rw [if_neg h]
    cases env.alloc .dataKey <;> simp [h]

theorem dupKey_some {env : KmsEnv} {pt : Bytes} {key : Option KeyBuf} (h : dupKey env pt = some key) :
    keyBytes key = pt ∧ (key = none ↔ pt = []) := by
  unfold dupKey at h
  split at h
  · next hp => cases h; simp [hp, keyBytes]
  · next hp =>
    split at h
    · cases h; simp [hp, keyBytes]
    · cases h

theorem kmsDataKey_some {env : KmsEnv} {grants : List Bytes} {ctx : EncCtx} {row : SuiteRow} {id : Bytes} {s : EncState} {k : KeyBuf}
    (hs : s.key = some k) (key : Bytes) : KmsDataKey env grants ctx row id s key ↔ key = k.bytes := by
  unfold KmsDataKey
  simp [hs]

theorem kmsDataKey_none {env : KmsEnv} {grants : List Bytes} {ctx : EncCtx} {row : SuiteRow} {id : Bytes} {s : EncState} {c : Nat}
    (hs : s.key = none) (hc : env.client 0 (parseRegion id) = some c) {used ct pt : Bytes}
    (hg : env.generate c ⟨id, row.keyBits / 8, ctx, grants⟩ = some (used, ct, pt)) (key : Bytes) :
    KmsDataKey env grants ctx row id s key ↔ key = pt := by
  unfold KmsDataKey
  simp only [hs, genAnswer_iff hc, hg, reduceCtorEq, false_and, exists_false, true_and, false_or, Option.some.injEq, Prod.mk.injEq]
  constructor
  · rintro ⟨_, _, _, _, h⟩; exact h.symm
  · rintro rfl; exact ⟨_, _, rfl, rfl, rfl⟩

/-- The checks of the keyring itself. -/
def kmsInnerChecks (env : KmsEnv) (grants : List Bytes) (generator : Bytes) (additional : List Bytes) (ctx : EncCtx)
    (row : SuiteRow) (s : EncState) : List Check :=
  failsIf (env.alloc .edkList = false ∨ env.alloc .traceList = false) .oom ::
  failsIf (s.key = none ∧ NoClient env 0 generator) .badState ::
  failsIf (s.key = none ∧ GenAnswer env grants ctx row generator none) .kmsFailure ::
  failsIf (s.key = none ∧ (env.alloc (.edk 0) = false ∨
     env.alloc .dataKey = false ∧ ∃ key, KmsDataKey env grants ctx row generator s key ∧ key ≠ [])) .oom ::
  ((if s.key.isNone then additional.zipIdx 1 else (generator :: additional).zipIdx).flatMap
    (fun x => wrapChecks env grants ctx (KmsDataKey env grants ctx row generator s) x.1 x.2) ++
  [failsIf (∃ j < additional.length + 1, env.pushEdk j = false) .oom])

theorem kmsEncryptChecks_eq (env : KmsEnv) (grants : List Bytes) (generator : Bytes) (additional : List Bytes) (ctx : EncCtx) (row : SuiteRow) (s : EncState) :
    kmsEncryptChecks env grants generator additional ctx row s = failsIf (s.key = none ∧ s.edks ≠ []) .badState ::
      (kmsInnerChecks env grants generator additional ctx row s ++
        [failsIf (s.key = none ∧ ∃ key, KmsDataKey env grants ctx row generator s key ∧ key ≠ [] ∧ key.length ≠ row.keyBits / 8) .badState]) := by
  simp [kmsEncryptChecks, kmsInnerChecks]

theorem kmsOnEncrypt_decides (env : KmsEnv) (grants : List Bytes) (generator : Bytes) (additional : List Bytes) (ctx : EncCtx) (row : SuiteRow)
    (hrow : row ∈ suiteTable) (s : EncState) :
    let r := kmsOnEncrypt env ⟨generator :: additional, grants, none⟩ ctx row.id s
    Decides (kmsInnerChecks env grants generator additional ctx row s) r.1 r.2.1.errno ∧
    (r.1 = .ok → (checkEncKey row.id s.key r.2.1.key = false ↔
      s.key = none ∧ ∃ key, KmsDataKey env grants ctx row generator s key ∧ key ≠ [] ∧ key.length ≠ row.keyBits / 8)) ∧
    (r.1 = .fail → r.2.1.key = s.key) := by
  obtain ⟨p, hp⟩ := algProps_of_row hrow
  have hlen := dataKeyLen_row hrow hp
  simp only
  unfold kmsOnEncrypt
  simp only
  by_cases ha : env.alloc .edkList = false ∨ env.alloc .traceList = false
  · rw [if_pos (by simpa using ha)]
    exact ⟨.fail ha, by simp, by simp⟩
  · rw [if_neg (by simpa using ha)]
    unfold kmsInnerChecks
    cases hk : s.key with
    | some k =>
      simp only [Option.isNone_some, Bool.false_eq_true, if_false]
      obtain ⟨h1, h2, h3⟩ := kmsEncRest_decides (env := env) (kr := ⟨generator :: additional, grants, none⟩) (ctx := ctx) (s := s) (key := some k)
        (fresh := false) (i := 0) (my := ⟨[], [], s.errno⟩) (ids := generator :: additional)
        (DataKey := KmsDataKey env grants ctx row generator s) (fun x => kmsDataKey_some hk x) (n := additional.length + 1) (by simp) (by simp [hk])
      refine ⟨.skip ha (.skip (by simp) (.skip (by simp) (.skip (by simp) h1))), fun h => ?_, fun h => (h3 h).trans hk⟩
      rw [h2 h]
      simp [checkEncKey]
    | none =>
      rw [if_pos (show (none : Option KeyBuf).isNone = true from rfl)]
      rw [hp]
      dsimp only
      cases hc : env.client 0 (parseRegion generator) with
      | none => exact ⟨.skip ha (.fail ⟨rfl, noClient_iff.mpr hc⟩), by simp, by simp⟩
      | some c =>
        have h1 : ¬ (none = (none : Option KeyBuf) ∧ NoClient env 0 generator) := by rw [noClient_iff, hc]; simp
        dsimp only
        rw [hlen]
        cases hg : env.generate c ⟨generator, row.keyBits / 8, ctx, grants⟩ with
        | none => exact ⟨.skip ha (.skip h1 (.fail ⟨rfl, (genAnswer_iff hc).mpr hg⟩)), by simp, by simp⟩
        | some x =>
          obtain ⟨used, ct, pt⟩ := x
          have h2 : ¬ (none = (none : Option KeyBuf) ∧ GenAnswer env grants ctx row generator none) := by rw [genAnswer_iff hc, hg]; simp
          have hdk := fun key => kmsDataKey_none (grants := grants) (ctx := ctx) hk hc hg key
          dsimp only
          cases hap : kmsAppend env 0 ⟨[], [], s.errno⟩ used ct generator (1 + 2 + 8) with
          | none => exact ⟨.skip ha (.skip h1 (.skip h2 (.fail ⟨rfl, Or.inl (kmsAppend_none.mp hap)⟩))), by simp, by simp⟩
          | some my =>
            have h3 : ¬ env.alloc (.edk 0) = false := fun h => by rw [kmsAppend_none.mpr h] at hap; cases hap
            cases hd : dupKey env pt with
            | none =>
              obtain ⟨h4, h5⟩ := dupKey_none.mp hd
              exact ⟨.skip ha (.skip h1 (.skip h2 (.fail ⟨rfl, Or.inr ⟨h5, pt, (hdk pt).mpr rfl, h4⟩⟩))), by simp, by simp⟩
            | some key =>
              dsimp only
              obtain ⟨h4, h5⟩ := dupKey_some hd
              have h6 : ¬ (none = (none : Option KeyBuf) ∧ (env.alloc (.edk 0) = false ∨
                  env.alloc .dataKey = false ∧ ∃ key, KmsDataKey env grants ctx row generator s key ∧ key ≠ [])) := by
                rintro ⟨-, h | ⟨h, k, h7, h8⟩⟩
                · exact h3 h
                · rw [(hdk k).mp h7] at h8
                  rw [dupKey_none.mpr ⟨h8, h⟩] at hd; cases hd
              obtain ⟨h7, h8, h9⟩ := kmsEncRest_decides (env := env) (kr := ⟨generator :: additional, grants, none⟩) (ctx := ctx) (s := s) (key := key)
                (fresh := true) (i := 1) (my := my) (ids := additional)
                (DataKey := KmsDataKey env grants ctx row generator s) (fun x => by rw [h4]; exact hdk x) (n := additional.length + 1)
                (by rw [(kmsAppend_some hap).1]; simp; omega) (by simp [hk])
              refine ⟨.skip ha (.skip h1 (.skip h2 (.skip h6 h7))), fun h => ?_, fun h => (h9 h).trans hk⟩
              rw [h8 h]
              simp only [true_and, hdk]
              cases key with
              | none =>
                simp only [checkEncKey, Bool.true_eq_false, false_iff]
                rintro ⟨_, rfl, h, -⟩
                exact h (h5.mp rfl)
              | some kb =>
                simp only [keyBytes] at h4
                simp only [checkEncKey, dataKeyLenOK, hp, decide_eq_false_iff_not, hlen, h4]
                exact ⟨fun h => ⟨pt, rfl, fun h' => (Option.some_ne_none _ (h5.mpr h')), h⟩, fun ⟨_, h, _, h'⟩ => h ▸ h'⟩

theorem functional_wrapChecks (env : KmsEnv) (grants : List Bytes) (ctx : EncCtx) (DataKey : Bytes → Prop) (xs : List (Bytes × Nat)) :
    Functional (xs.flatMap fun x => wrapChecks env grants ctx DataKey x.1 x.2) := by
  induction xs with
  | nil => exact functional_nil
  | cons x xs ih =>
    rw [List.flatMap_cons, functional_append]
    refine ⟨?_, ih⟩
    unfold wrapChecks
    simp only [functional_cons, functional_nil, and_true]
    exact ⟨functional_failsIf, functional_failsIf, functional_failsIf⟩

theorem functional_kms (env : KmsEnv) (grants : List Bytes) (generator : Bytes) (additional : List Bytes) (ctx : EncCtx) (row : SuiteRow) (s : EncState) :
    Functional (kmsEncryptChecks env grants generator additional ctx row s) := by
  unfold kmsEncryptChecks
  simp only [functional_append, functional_cons, functional_nil, and_true]
  exact ⟨⟨⟨functional_failsIf, functional_failsIf, functional_failsIf, functional_failsIf, functional_failsIf⟩, fun p hp => functional_wrapChecks _ _ _ _ _ p hp⟩,
    functional_failsIf, functional_failsIf⟩

theorem functional_mrk (env : KmsEnv) (grants : List Bytes) (keyId : Bytes) (ctx : EncCtx) (row : SuiteRow) (s : EncState) :
    Functional (mrkEncryptChecks env grants keyId ctx row s) := by
  unfold mrkEncryptChecks
  simp only [functional_cons, functional_nil, and_true]
  exact ⟨functional_failsIf, functional_failsIf, functional_failsIf, functional_failsIf, functional_failsIf, functional_failsIf,
    functional_failsIf⟩

theorem mrkOnEncrypt_decides (env : KmsEnv) (grants : List Bytes) {keyId : Bytes} (hne : keyId ≠ []) (ctx : EncCtx) (row : SuiteRow)
    (hrow : row ∈ suiteTable) (s : EncState) :
    let r := mrkOnEncrypt env ⟨keyId, grants, [], none⟩ ctx row.id s
    Decides ((mrkEncryptChecks env grants keyId ctx row s).drop 1) r.1 r.2.1.errno ∧
    (r.1 = .ok → checkEncKey row.id s.key r.2.1.key = true) ∧ (r.1 = .fail → r.2.1.key = s.key) := by
  obtain ⟨p, hp⟩ := algProps_of_row hrow
  have hlen := dataKeyLen_row hrow hp
  have hclen := (suiteFacts hp).keyLen
  simp only
  unfold mrkOnEncrypt mrkEncryptChecks
  rw [if_neg (by simp [MrkKeyring.isDiscovery, hne])]
  simp only [List.drop_succ_cons, List.drop_zero]
  by_cases ha : env.alloc .edkList = false ∨ env.alloc .traceList = false
  · rw [if_pos (by simpa using ha)]
    exact ⟨.fail ha, by simp, by simp⟩
  · rw [if_neg (by simpa using ha)]
    cases hk : s.key with
    | some k =>
      simp only
      cases hc : env.client 0 (parseRegion keyId) with
      | none => exact ⟨.skip ha (.fail (noClient_iff.mpr hc)), by simp, by simp [hk]⟩
      | some c =>
        have h1 : ¬ NoClient env 0 keyId := by rw [noClient_iff, hc]; simp
        simp only
        cases he : env.encrypt 0 c ⟨keyId, k.bytes, ctx, grants⟩ with
        | none =>
          exact ⟨.skip ha (.skip h1 (.skip (by simp) (.fail ⟨k, none, rfl, (encAnswer_iff hc).mpr he, by simp⟩))), by simp, by simp [hk]⟩
        | some x =>
          obtain ⟨used, ct⟩ := x
          simp only
          cases hv : isValidKeyArn (arnParse used) with
          | false =>
            have hv' : ¬ IsKeyArn used := fun h => by rw [isValidKeyArn_iff.2 h] at hv; cases hv
            refine ⟨.skip ha (.skip h1 (.skip (by simp) (.fail ⟨k, _, rfl, (encAnswer_iff hc).mpr he, ?_⟩))), by simp, by simp [hk]⟩
            rintro _ _ ⟨rfl, rfl⟩
            exact hv'
          | true =>
            have h2 : ¬ ∃ k' answer, some k = some k' ∧ EncAnswer env grants ctx 0 keyId k'.bytes answer ∧
                ∀ used ciphertext, answer = some (used, ciphertext) → ¬ IsKeyArn used := by
              rintro ⟨k', answer, hkk, h, h'⟩
              cases hkk
              rw [encAnswer_iff hc, he] at h
              subst h
              exact h' _ _ rfl (isValidKeyArn_iff.1 hv)
            simp only [Bool.not_true, Bool.false_eq_true, if_false]
            cases hap : kmsAppend env 0 ⟨[], [], s.errno⟩ used ct keyId (2 + 8) with
            | none => exact ⟨.skip ha (.skip h1 (.skip (by simp) (.skip h2 (.fail (Or.inl (kmsAppend_none.mp hap)))))), by simp, by simp [hk]⟩
            | some my =>
              have h3 : ¬ env.alloc (.edk 0) = false := fun h => by rw [kmsAppend_none.mpr h] at hap; cases hap
              obtain ⟨h4, h5, h6⟩ := kmsTransfer_decides (env := env) s (some k) false my (n := 1) (by rw [(kmsAppend_some hap).1]; rfl)
              simp only [mrkEncFinish]
              refine ⟨.skip ha (.skip h1 (.skip (by simp) (.skip h2 (.skip (by simp [h3]) ?_)))), fun h => ?_, fun h => ?_⟩
              · simpa using h4
              · rw [h5 h]; simp [checkEncKey]
              · rw [h6 h]; simp
    | none =>
      rw [hp]
      dsimp only
      cases hc : env.client 0 (parseRegion keyId) with
      | none => exact ⟨.skip ha (.fail (noClient_iff.mpr hc)), by simp, by simp [hk]⟩
      | some c =>
        have h1 : ¬ NoClient env 0 keyId := by rw [noClient_iff, hc]; simp
        dsimp only
        rw [hlen]
        cases hg : env.generate c ⟨keyId, row.keyBits / 8, ctx, grants⟩ with
        | none => exact ⟨.skip ha (.skip h1 (.fail ⟨rfl, none, (genAnswer_iff hc).mpr hg, by simp⟩)), by simp, by simp [hk]⟩
        | some x =>
          obtain ⟨used, ct, pt⟩ := x
          dsimp only
          have hbad : (pt.length ≠ p.contentKeyLen ∨ (!isValidKeyArn (arnParse used)) = true) ↔ pt.length ≠ row.keyBits / 8 ∨ ¬ IsKeyArn used := by
            rw [hclen, hlen, ← isValidKeyArn_iff]; simp
          by_cases hb : pt.length ≠ row.keyBits / 8 ∨ ¬ IsKeyArn used
          · rw [if_pos (hbad.mpr hb)]
            refine ⟨.skip ha (.skip h1 (.fail ⟨rfl, _, (genAnswer_iff hc).mpr hg, ?_⟩)), by simp, by simp [hk]⟩
            rintro _ _ _ ⟨rfl, rfl, rfl⟩
            exact hb
          · rw [if_neg (fun h => hb (hbad.mp h))]
            have h2 : ¬ (none = (none : Option KeyBuf) ∧ ∃ answer, GenAnswer env grants ctx row keyId answer ∧
                ∀ used ciphertext key, answer = some (used, ciphertext, key) → key.length ≠ row.keyBits / 8 ∨ ¬ IsKeyArn used) := by
              rintro ⟨-, answer, h, h'⟩
              rw [genAnswer_iff hc, hg] at h
              subst h
              exact hb (h' _ _ _ rfl)
            have hptl : pt.length = row.keyBits / 8 := Classical.not_not.mp (fun h => hb (Or.inl h))
            have hpne : pt ≠ [] := rightLength_ne_nil ((rightLength_of_props hp).2 (by rw [hlen]; exact hptl))
            cases hap : kmsAppend env 0 ⟨[], [], s.errno⟩ used ct keyId (1 + 2 + 8) with
            | none => exact ⟨.skip ha (.skip h1 (.skip h2 (.skip (by simp) (.fail (Or.inl (kmsAppend_none.mp hap)))))), by simp, by simp [hk]⟩
            | some my =>
              have h3 : ¬ env.alloc (.edk 0) = false := fun h => by rw [kmsAppend_none.mpr h] at hap; cases hap
              cases hd : dupKey env pt with
              | none =>
                exact ⟨.skip ha (.skip h1 (.skip h2 (.skip (by simp) (.fail (Or.inr ⟨rfl, (dupKey_none.mp hd).2⟩))))), by simp, by simp [hk]⟩
              | some key =>
                obtain ⟨h4, h5⟩ := dupKey_some hd
                have h6 : ¬ (env.alloc (.edk 0) = false ∨ none = (none : Option KeyBuf) ∧ env.alloc .dataKey = false) := by
                  rintro (h | ⟨-, h⟩)
                  · exact h3 h
                  · rw [dupKey_none.mpr ⟨hpne, h⟩] at hd; cases hd
                obtain ⟨h7, h8, h9⟩ := kmsTransfer_decides (env := env) s key true my (n := 1) (by rw [(kmsAppend_some hap).1]; rfl)
                unfold mrkEncFinish
                dsimp only
                refine ⟨.skip ha (.skip h1 (.skip h2 (.skip (by simp) (.skip h6 ?_)))), fun h => ?_, fun h => ?_⟩
                · simpa using h7
                · rw [h8 h]
                  cases key with
                  | none => exact absurd (h5.mp rfl) hpne
                  | some kb => simp only [keyBytes] at h4; simp [checkEncKey, dataKeyLenOK, hp, hlen, h4, hptl]
                · rw [h9 h]; simp

/-! ### builders -/

theorem mrkChildren_exact (env : MultiBuildEnv) (grants : List Bytes) :
    ∀ (ids : List Bytes) (i : Nat) (krs : List MrkKeyring), mrkChildren env grants i ids = some krs ↔
      (∀ j id, ids[j]? = some id → ValidIdentifier id ∧ env.child (i + j) = true ∧ ∃ region, HasRegion id region ∧ env.client region = true) ∧
        krs = ids.map (fun id => ⟨id, grants, [], none⟩)
  | [], i, krs => by
    rw [mrkChildren]
    simp only [Option.some.injEq, List.map_nil]
    exact ⟨fun h => ⟨by simp, h.symm⟩, fun h => h.2.symm⟩
  | id :: ids, i, krs => by
    rw [mrkChildren]
    have hcons : (∀ j x, (id :: ids)[j]? = some x → ValidIdentifier x ∧ env.child (i + j) = true ∧ ∃ region, HasRegion x region ∧ env.client region = true) ↔
        (ValidIdentifier id ∧ env.child i = true ∧ ∃ region, HasRegion id region ∧ env.client region = true) ∧
        ∀ j x, ids[j]? = some x → ValidIdentifier x ∧ env.child (i + 1 + j) = true ∧ ∃ region, HasRegion x region ∧ env.client region = true := by
      constructor
      · intro h
        refine ⟨h 0 id rfl, fun j x hx => ?_⟩
        have := h (j + 1) x (by simpa using hx)
        rw [show i + (j + 1) = i + 1 + j by omega] at this
        exact this
      · rintro ⟨h1, h2⟩ j x hx
        cases j with
        | zero => cases hx; exact h1
        | succ j =>
          have := h2 j x (by simpa using hx)
          rw [show i + 1 + j = i + (j + 1) by omega] at this
          exact this
    rw [hcons]
    by_cases h1 : parseRegion id = []
    · rw [if_pos h1]
      simp only [reduceCtorEq, false_iff]
      rintro ⟨⟨⟨_, _, r, hr, _⟩, _⟩, _⟩
      exact absurd (((parseRegion_iff hr.2.2).2 hr).symm.trans h1) hr.2.2
    · rw [if_neg h1]
      have hr := (parseRegion_iff h1).1 (rfl : parseRegion id = _)
      have hne : id ≠ [] := by rintro rfl; exact h1 (by decide)
      have hreg : (∃ region, HasRegion id region ∧ env.client region = true) ↔ env.client (parseRegion id) = true :=
        ⟨fun ⟨r, h, hc⟩ => by rw [(parseRegion_iff h.2.2).2 h]; exact hc, fun h => ⟨_, hr, h⟩⟩
      rw [hreg]
      cases hc : env.client (parseRegion id) with
      | false => simp
      | true =>
        rw [if_neg (by simp)]
        cases hb : mrkBuild grants id with
        | error e =>
          simp only [reduceCtorEq, false_iff]
          rintro ⟨⟨⟨hv, _⟩, _⟩, _⟩
          obtain ⟨kr, hkr⟩ := mrkBuild_ok (grants := grants).2 ⟨hne, hv⟩
          rw [hb] at hkr; cases hkr
        | ok kr =>
          have hv := (mrkBuild_ok.1 ⟨kr, hb⟩).2
          have hkr := mrkBuild_eq hb
          subst hkr
          simp only
          cases hch : env.child i with
          | false => simp
          | true =>
            simp only [Bool.not_true, Bool.false_eq_true, if_false]
            have ih := mrkChildren_exact env grants ids (i + 1)
            cases hk : mrkChildren env grants (i + 1) ids with
            | none =>
              simp only [reduceCtorEq, false_iff]
              rintro ⟨⟨_, h⟩, _⟩
              have := (ih _).2 ⟨h, rfl⟩
              rw [hk] at this; cases this
            | some krs' =>
              obtain ⟨hall, rfl⟩ := (ih krs').1 hk
              simp only [Option.some.injEq, List.map_cons]
              constructor
              · rintro rfl
                exact ⟨⟨⟨hv, trivial, trivial⟩, hall⟩, rfl⟩
              · rintro ⟨_, rfl⟩; rfl

theorem mrkDiscoveryChildren_exact (env : MultiBuildEnv) (grants : List Bytes) (f : Option DiscoveryFilter) :
    ∀ (regions : List Bytes) (i : Nat) (krs : List MrkKeyring), [] ∉ regions → (mrkDiscoveryChildren env grants f i regions = some krs ↔
      (∀ j r, regions[j]? = some r → env.client r = true ∧ env.child (i + j) = true) ∧ krs = regions.map (fun r => ⟨[], grants, r, f⟩))
  | [], i, krs, _ => by
    rw [mrkDiscoveryChildren]
    simp only [Option.some.injEq, List.map_nil]
    exact ⟨fun h => ⟨by simp, h.symm⟩, fun h => h.2.symm⟩
  | region :: regions, i, krs, hne => by
    rw [mrkDiscoveryChildren]
    simp only [List.mem_cons, not_or] at hne
    have ih := fun krs => mrkDiscoveryChildren_exact env grants f regions (i + 1) krs hne.2
    have hcons : (∀ j x, (region :: regions)[j]? = some x → env.client x = true ∧ env.child (i + j) = true) ↔
        (env.client region = true ∧ env.child i = true) ∧
        ∀ j x, regions[j]? = some x → env.client x = true ∧ env.child (i + 1 + j) = true := by
      constructor
      · intro h
        refine ⟨h 0 region rfl, fun j x hx => ?_⟩
        have := h (j + 1) x (by simpa using hx)
        rw [show i + (j + 1) = i + 1 + j by omega] at this
        exact this
      · rintro ⟨h1, h2⟩ j x hx
        cases j with
        | zero => cases hx; exact h1
        | succ j =>
          have := h2 j x (by simpa using hx)
          rw [show i + 1 + j = i + (j + 1) by omega] at this
          exact this
    rw [hcons]
    cases hc : env.client region with
    | false => simp
    | true =>
      have hb : mrkBuildDiscoveryFilter grants false true region f = some ⟨[], grants, region, f⟩ := by
        unfold mrkBuildDiscoveryFilter
        rw [if_neg (fun h => hne.1 h.symm)]
        simp
      simp only [Bool.not_true, Bool.false_eq_true, if_false, hb]
      cases hch : env.child i with
      | false => simp
      | true =>
        simp only [Bool.not_true, Bool.false_eq_true, if_false]
        cases hk : mrkDiscoveryChildren env grants f (i + 1) regions with
        | none =>
          simp only [reduceCtorEq, false_iff]
          rintro ⟨⟨_, h⟩, _⟩
          have := (ih _).2 ⟨h, rfl⟩
          rw [hk] at this; cases this
        | some krs' =>
          obtain ⟨hall, rfl⟩ := (ih krs').1 hk
          simp only [Option.some.injEq, List.map_cons]
          constructor
          · rintro rfl
            exact ⟨⟨⟨trivial, trivial⟩, hall⟩, rfl⟩
          · rintro ⟨_, rfl⟩; rfl

end Verif
