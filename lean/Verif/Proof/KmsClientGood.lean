import Verif.Proof.KmsClient
/-
Client suppliers: what holds at the stops of the programs of keyrings and builders.
-/
namespace Verif
open Verif.Spec

theorem kmsDecProg_good {J : KmsJob} {env : KmsEnv} {sup : Supplier} {kr : KmsKeyring} {ctx : EncCtx} {s : DecState} {edks : List Edk} :
    ∀ {R : List Bytes} {i : Nat} {cur : Option (Supplier × Option Nat)} {ok : Bool}, BuiltGood J.settings R (.kms kr sup) →
      Good J (fun _ _ => True) R cur ok (kmsDecProg env sup kr ctx i s edks) := by
  induction edks with
  | nil => exact fun _ _ _ => trivial
  | cons e edks ih =>
    intro R i cur ok hb
    rw [kmsDecProg]
    cases hp : kmsPlan kr e with
    | none => exact ih hb
    | some region =>
      have hm := kmsPlan_iff.1 hp
      have hreg : region = parseRegion e.providerInfo := clientRegion_iff.1 (.inl hm.2.2.2)
      have hask : kr.keyIds = [] ∨ ∃ id ∈ kr.keyIds, region = parseRegion id := by
        by_cases hk : kr.keyIds = []
        · exact .inl hk
        · exact .inr ⟨_, hm.2.1 hk, hreg⟩
      refine ⟨fun R' h => (hb.2 region hask).mono h, fun R' h c hc => ?_⟩
      have hb' := hb.mono h
      cases c with
      | none => exact ih hb'
      | some c =>
        refine ⟨⟨sup, rfl⟩, fun R'' h' => Accept.call ((hc c rfl).mono h') hb.1 fun _ => .inl hm.2.2.2, fun a => ?_⟩
        cases a with
        | none => exact ih hb'
        | some a => exact ⟨.inl ⟨rfl, sup, c, rfl⟩, fun _ _ => trivial⟩

theorem kmsEncProgLoop_good {J : KmsJob} {env : KmsEnv} {sup : Supplier} {grants : List Bytes} {ctx : EncCtx} {key : Bytes} (hg : grants = tokensOf J.settings)
    {ids : List Bytes} : ∀ {R : List Bytes} {i : Nat} {my : KmsLocal} {cur : Option (Supplier × Option Nat)} {ok : Bool},
      (∀ id ∈ ids, Serves J.settings R sup (parseRegion id)) →
      Good J (fun _ _ => True) R cur ok (kmsEncProgLoop env sup grants ctx key i my ids) := by
  induction ids with
  | nil => exact fun _ _ _ => trivial
  | cons id ids ih =>
    intro R i my cur ok hs
    rw [kmsEncProgLoop]
    refine ⟨fun R' h => (hs id (List.mem_cons_self ..)).mono h, fun R' h c hc => ?_⟩
    cases c with
    | none => exact fun _ _ => trivial
    | some c =>
      refine ⟨⟨sup, rfl⟩, fun R'' h' => Accept.call ((hc c rfl).mono h') hg fun _ => clientRegion_iff.2 rfl, fun a => ?_⟩
      cases a with
      | none => exact fun _ _ => trivial
      | some a =>
        refine ⟨.inl ⟨rfl, sup, c, rfl⟩, ?_⟩
        cases kmsAppend env i my a.1 a.2 id (2 + 8) with
        | none => exact fun _ _ => trivial
        | some my' => exact ih fun id' hid => (hs id' (List.mem_cons_of_mem _ hid)).mono h

theorem kmsEncProgRest_good {J : KmsJob} {env : KmsEnv} {sup : Supplier} {kr : KmsKeyring} {ctx : EncCtx} {s : EncState} {key : Option KeyBuf}
    {fresh : Bool} {i : Nat} {my : KmsLocal} {ids : List Bytes} {R : List Bytes} {cur : Option (Supplier × Option Nat)} {ok : Bool}
    (hb : BuiltGood J.settings R (.kms kr sup)) (hi : ∀ id ∈ ids, id ∈ kr.keyIds) :
    Good J (fun _ _ => True) R cur ok (kmsEncProgRest env sup kr ctx s key fresh i my ids) := by
  refine Good.bind (kmsEncProgLoop_good hb.1 fun id hid => hb.2 _ (.inr ⟨id, hi id hid, rfl⟩)) fun R' h a _ cur ok => ?_
  cases a <;> exact fun _ _ => trivial

theorem kmsEncProg_good {J : KmsJob} {env : KmsEnv} {sup : Supplier} {kr : KmsKeyring} {ctx : EncCtx} {alg : Nat} {s : EncState}
    {R : List Bytes} {cur : Option (Supplier × Option Nat)} {ok : Bool} (hb : BuiltGood J.settings R (.kms kr sup)) :
    Good J (fun _ _ => True) R cur ok (kmsEncProg env sup kr ctx alg s) := by
  unfold kmsEncProg
  cases hk : kr.keyIds with
  | nil => exact fun _ _ => trivial
  | cons id ids =>
    have hid : id ∈ kr.keyIds := by rw [hk]; exact List.mem_cons_self ..
    dsimp only
    split
    · exact fun _ _ => trivial
    split
    · exact kmsEncProgRest_good hb fun x hx => by rw [hk]; exact hx
    · split
      · exact fun _ _ => trivial
      · refine ⟨fun R' h => (hb.2 _ (.inr ⟨id, hid, rfl⟩)).mono h, fun R' h c hc => ?_⟩
        cases c with
        | none => exact fun _ _ => trivial
        | some c =>
          refine ⟨⟨sup, rfl⟩, fun R'' h' => Accept.call ((hc c rfl).mono h') hb.1 fun _ => clientRegion_iff.2 rfl, fun a => ?_⟩
          cases a with
          | none => exact fun _ _ => trivial
          | some a =>
            refine ⟨.inl ⟨rfl, sup, c, rfl⟩, ?_⟩
            split
            · exact kmsEncProgRest_good (hb.mono h) fun x hx => by rw [hk]; exact List.mem_cons_of_mem _ hx
            · exact fun _ _ => trivial

theorem mrk_region {kr : MrkKeyring} {e : Edk} {region keyId : Bytes} (h : MrkMayTry kr e region keyId) :
    (kr.keyId = [] → region = kr.region ∧ (kr.region ≠ [] → 58 ∉ kr.region → ClientRegion keyId region)) ∧
      (kr.keyId ≠ [] → region = parseRegion kr.keyId ∧ keyId = kr.keyId) := by
  obtain ⟨-, p, r, acct, res, id, ha, -, hx⟩ := h
  rcases hx with ⟨hk, hs, rfl, p', acct', res', hi⟩ | ⟨hk, rfl, -, hx⟩
  · refine ⟨fun h => absurd h hk, fun _ => ⟨?_, rfl⟩⟩
    have hr : region ≠ [] := by
      rcases hs with hs | ⟨pp, rr, rr', aa, ss, ii, h1, h2⟩
      · rw [hs] at hi
        have := isArn_unique hi ha.1
        rw [this.2.2.1]; exact ha.2.2.1
      · have := isArn_unique hi h1.1.1
        rw [this.2.2.1]; exact h1.1.2.2.1
    refine clientRegion_iff.1 (.inl ⟨⟨p', acct' ++ ascii ":" ++ res', ?_, hi.2.1⟩, hi.2.2.2.1, hr⟩)
    rw [hi.1]
    have : (ascii ":kms:" : Bytes) = ascii ":" ++ ascii "kms" ++ ascii ":" := by decide
    rw [this]; simp only [List.append_assoc]
  · refine ⟨fun _ => ⟨rfl, fun hr hcol => ?_⟩, fun h => absurd hk h⟩
    rcases hx with ⟨-, rfl⟩ | ⟨-, rfl, rfl⟩
    · exact .inl ⟨⟨p, acct ++ ascii ":" ++ res, by simp only [List.append_assoc], ha.1.2.1⟩, hcol, hr⟩
    · refine .inl ⟨⟨p, acct ++ ascii ":" ++ res, ?_, ha.1.2.1⟩, ha.1.2.2.2.1, ha.2.2.1⟩
      have := ha.1.1
      rw [this]
      have : (ascii ":kms:" : Bytes) = ascii ":" ++ ascii "kms" ++ ascii ":" := by decide
      rw [this]; simp only [List.append_assoc]

theorem mrkDecProgLoop_good {J : KmsJob} {env : KmsEnv} {sup : Supplier} {kr : MrkKeyring} {ctx : EncCtx} {alg : Nat} {s : DecState} {edks : List Edk} :
    ∀ {R : List Bytes} {i : Nat} {failed : Bool} {cur : Option (Supplier × Option Nat)} {ok : Bool}, BuiltGood J.settings R (.mrk kr sup) →
      Good J (fun _ _ => True) R cur ok (mrkDecProgLoop env sup kr ctx alg i failed s edks) := by
  induction edks with
  | nil => exact fun _ _ _ => trivial
  | cons e edks ih =>
    intro R i failed cur ok hb
    rw [mrkDecProgLoop]
    cases hp : mrkPlan kr e with
    | none => exact ih hb
    | some x =>
      obtain ⟨region, keyId⟩ := x
      have hm := mrk_region (mrkPlan_iff.1 hp)
      have hserve : Serves J.settings R sup region := by
        by_cases hk : kr.keyId = []
        · rw [(hm.1 hk).1]; exact (hb.2.1 hk).1
        · rw [(hm.2 hk).1]; exact hb.2.2 hk
      have hreg : fixedClient J.settings = none → ClientRegion keyId region := by
        intro hf
        by_cases hk : kr.keyId = []
        · exact (hm.1 hk).2 ((hb.2.1 hk).2 hf).1 ((hb.2.1 hk).2 hf).2
        · rw [(hm.2 hk).1, (hm.2 hk).2]; exact clientRegion_iff.2 rfl
      refine ⟨fun R' h => hserve.mono h, fun R' h c hc => ?_⟩
      have hb' := hb.mono h
      cases c with
      | none => exact ih hb'
      | some c =>
        refine ⟨⟨sup, rfl⟩, fun R'' h' => Accept.call ((hc c rfl).mono h') hb.1 hreg, fun a => ?_⟩
        cases a with
        | none => exact ih hb'
        | some a =>
          refine ⟨.inl ⟨rfl, sup, c, rfl⟩, ?_⟩
          cases algProps alg with
          | none => exact fun _ _ => trivial
          | some p =>
            dsimp only
            split
            · exact ih hb'
            · cases dupKey env a.2 <;> exact fun _ _ => trivial

theorem mrkDecProg_good {J : KmsJob} {env : KmsEnv} {sup : Supplier} {kr : MrkKeyring} {edks : List Edk} {ctx : EncCtx} {alg : Nat} {s : DecState}
    {R : List Bytes} {cur : Option (Supplier × Option Nat)} {ok : Bool} (hb : BuiltGood J.settings R (.mrk kr sup)) :
    Good J (fun _ _ => True) R cur ok (mrkDecProg env sup kr edks ctx alg s) := by
  unfold mrkDecProg
  split
  · exact fun _ _ => trivial
  · exact mrkDecProgLoop_good hb

theorem mrkEncProg_good {J : KmsJob} {env : KmsEnv} {sup : Supplier} {kr : MrkKeyring} {ctx : EncCtx} {alg : Nat} {s : EncState}
    {R : List Bytes} {cur : Option (Supplier × Option Nat)} {ok : Bool} (hb : BuiltGood J.settings R (.mrk kr sup)) :
    Good J (fun _ _ => True) R cur ok (mrkEncProg env sup kr ctx alg s) := by
  unfold mrkEncProg
  by_cases hd : kr.isDiscovery = true
  · rw [if_pos hd]; exact fun _ _ => trivial
  have hk : kr.keyId ≠ [] := by
    intro h; apply hd; simp [MrkKeyring.isDiscovery, h]
  rw [if_neg hd]
  split
  · exact fun _ _ => trivial
  split
  · split
    · exact fun _ _ => trivial
    · refine ⟨fun R' h => (hb.2.2 hk).mono h, fun R' h c hc => ?_⟩
      cases c with
      | none => exact fun _ _ => trivial
      | some c =>
        refine ⟨⟨sup, rfl⟩, fun R'' h' => Accept.call ((hc c rfl).mono h') hb.1 fun _ => clientRegion_iff.2 rfl, fun a => ?_⟩
        cases a with
        | none => exact fun _ _ => trivial
        | some a =>
          dsimp only
          split
          · exact fun _ _ => trivial
          · refine ⟨.inl ⟨rfl, sup, c, rfl⟩, ?_⟩
            split <;> exact fun _ _ => trivial
  · refine ⟨fun R' h => (hb.2.2 hk).mono h, fun R' h c hc => ?_⟩
    cases c with
    | none => exact fun _ _ => trivial
    | some c =>
      refine ⟨⟨sup, rfl⟩, fun R'' h' => Accept.call ((hc c rfl).mono h') hb.1 fun _ => clientRegion_iff.2 rfl, fun a => ?_⟩
      cases a with
      | none => exact fun _ _ => trivial
      | some a =>
        dsimp only
        split
        · exact fun _ _ => trivial
        · refine ⟨.inl ⟨rfl, sup, c, rfl⟩, ?_⟩
          split <;> exact fun _ _ => trivial

/-! ### Builders -/

theorem fixed_of_client {l : List KmsSetting} {c : Nat} (h : clientOf l = some c) : fixedClient l = some c := by
  simp [fixedClient, h]

theorem fixed_of_single {l : List KmsSetting} {c : Option Nat} (h : clientOf l = none) (hs : supplierOf l = some (.single c)) : fixedClient l = c := by
  simp [fixedClient, h, hs]

theorem fixed_none {l : List KmsSetting} (h : clientOf l = none) (hs : ∀ c, supplierOf l ≠ some (.single c)) : fixedClient l = none := by
  unfold fixedClient
  rw [h]
  split
  · cases ‹none = some _›
  · exact absurd ‹_› (hs _)
  · rfl

/-- The user's supplier serves everything. -/
theorem serves_user {l : List KmsSetting} (h : clientOf l = none) {s : Supplier} (hs : supplierOf l = some s) (R : List Bytes) (region : Bytes) :
    Serves l R s region := by
  constructor
  · rintro n rfl
    have := fixed_of_single h hs
    exact ⟨fun hf => (by rw [this] at hf; cases hf), fun c hc => by rw [this] at hc; exact Option.some.inj hc⟩
  · intro hn
    exact fixed_none h fun c hc => hn c (by rw [hs] at hc; exact Option.some.inj hc)

theorem serves_client {l : List KmsSetting} {c : Nat} (h : clientOf l = some c) (R : List Bytes) (region : Bytes) : Serves l R (.single (some c)) region := by
  have := fixed_of_client h
  refine ⟨?_, fun hn => absurd rfl (hn _)⟩
  rintro n hn
  cases hn
  exact ⟨fun hf => (by rw [this] at hf; cases hf), fun c' hc => by rw [this] at hc; exact Option.some.inj hc⟩

theorem serves_accepted {l : List KmsSetting} {R : List Bytes} {c : Option Nat} {region : Bytes} (h : ∀ n, c = some n → Accept l R region n) :
    Serves l R (.single c) region :=
  ⟨fun n hn => h n (by cases hn; rfl), fun hn => absurd rfl (hn _)⟩

/-- What `BuildClientSupplier` gives serves the regions of the keys, or all regions if there are none. -/
theorem buildSupplier_good {J : KmsJob} {ids : List Bytes} (hone : ∀ id sup, ids = [id] → clientOf J.settings = none → supplierOf J.settings = some sup → OneKey J sup)
    {R : List Bytes} {cur : Option (Supplier × Option Nat)} {ok : Bool} :
    Good J (fun R' s => ∀ region, (ids = [] ∨ ∃ id ∈ ids, region = parseRegion id) → Serves J.settings R' s region) R cur ok
      (buildSupplier ids (KmsBuilder.ofSettings J.settings)) := by
  rw [ofSettings_eq]
  unfold buildSupplier
  dsimp only
  cases hc : clientOf J.settings with
  | some c => exact fun R' _ region _ => serves_client hc R' region
  | none =>
    dsimp only
    have hmany : Good J (fun R' s => ∀ region, (ids = [] ∨ ∃ id ∈ ids, region = parseRegion id) → Serves J.settings R' s region) R cur ok
        (match supplierOf J.settings with
        | some s => KmsProg.done s
        | none => .newSupplier fun n => .done (.caching n)) := by
      cases hs : supplierOf J.settings with
      | some s => exact fun R' _ region _ => serves_user hc hs R' region
      | none =>
        intro n R' _ region _
        exact ⟨fun m hm => (by cases hm), fun _ => fixed_none hc fun c h => by rw [hs] at h; cases h⟩
    match ids, hone, hmany with
    | [id], hone, _ =>
      dsimp only
      cases hs : supplierOf J.settings with
      | some s =>
        refine ⟨fun R' _ => serves_user hc hs R' _, fun R' _ c hac => ?_⟩
        refine ⟨.inr ⟨s, c, hone id s rfl hc hs, rfl⟩, fun R'' h' region hr => ?_⟩
        have hreg : region = parseRegion id := by
          rcases hr with h | ⟨x, hx, rfl⟩
          · cases h
          · rw [List.mem_singleton.1 hx]
        rw [hreg]
        exact serves_accepted fun n hn => (hac n hn).mono h'
      | none =>
        intro R' _ n hn R'' h' region hr
        have hreg : region = parseRegion id := by
          rcases hr with h | ⟨x, hx, rfl⟩
          · cases h
          · rw [List.mem_singleton.1 hx]
        rw [hreg]
        have hf := fixed_none hc fun c h => by rw [hs] at h; cases h
        exact serves_accepted fun m hm => by
          cases hm
          exact ⟨fun _ => prefix_get h' hn, fun c hcc => by rw [hf] at hcc; cases hcc⟩
    | [], _, hmany => exact hmany
    | _ :: _ :: _, _, hmany => exact hmany

/-- The keyring, if there is one, asks only for what its supplier serves. -/
def OptGood (l : List KmsSetting) (R : List Bytes) (r : Option KmsBuilt) : Prop := ∀ kr, r = some kr → BuiltGood l R kr

theorem kmsBuildProg_good {l : List KmsSetting} {generator : Bytes} {additional : List Bytes} {R : List Bytes}
    {cur : Option (Supplier × Option Nat)} {ok : Bool} :
    Good (.build l generator additional) (OptGood l) R cur ok (kmsBuildProg (.ofSettings l) generator additional) := by
  unfold kmsBuildProg
  cases hb : kmsBuild (KmsBuilder.ofSettings l).grants generator additional with
  | error e => exact fun _ _ _ h => by cases h
  | ok kr =>
    have hkr := kmsBuild_ok hb
    dsimp only
    refine Good.bind (buildSupplier_good (J := .build l generator additional) (ids := kr.keyIds) fun id sup hids hc hs => ?_) fun R' _ s hs _ _ R'' h' x hx => ?_
    · refine ⟨l, hc, hs, .inl ⟨generator, ?_⟩⟩
      rw [hkr.1] at hids
      rw [(List.cons.inj hids).2]
    · cases hx
      refine ⟨?_, fun region hr => (hs region hr).mono h'⟩
      rw [hkr.1, ofSettings_eq]

theorem kmsDiscovery_good {l : List KmsSetting} {kr : KmsKeyring} (hk : kr.keyIds = []) (hg : kr.grants = tokensOf l) {J : KmsJob} (hJ : J.settings = l)
    {R : List Bytes} {cur : Option (Supplier × Option Nat)} {ok : Bool} :
    Good J (OptGood l) R cur ok ((buildSupplier [] (.ofSettings l)).bind fun s => .done (some (.kms kr s))) := by
  subst hJ
  refine Good.bind (buildSupplier_good (J := J) fun id sup h => by cases h) fun R' _ s hs _ _ R'' h' x hx => ?_
  cases hx
  exact ⟨hg, fun region _ => (hs region (.inl rfl)).mono h'⟩

theorem mrkBuildProg_good {l : List KmsSetting} {J : KmsJob} (hJ : J.settings = l) {id : Bytes}
    (hone : ∀ sup, clientOf l = none → supplierOf l = some sup → OneKey J sup) {R : List Bytes}
    {cur : Option (Supplier × Option Nat)} {ok : Bool} :
    Good J (OptGood l) R cur ok (mrkBuildProg (.ofSettings l) id) := by
  subst hJ
  unfold mrkBuildProg
  cases hb : mrkBuild (KmsBuilder.ofSettings J.settings).grants id with
  | error e => exact fun _ _ _ h => by cases h
  | ok kr =>
    have hkr := mrkBuild_eq hb
    have hne := (mrkBuild_ok.1 ⟨kr, hb⟩).1
    dsimp only
    refine Good.bind (buildSupplier_good (J := J) (ids := [id]) fun id' sup _ hc hs => hone sup hc hs) fun R' _ s hs _ _ R'' h' x hx => ?_
    cases hx
    subst hkr
    exact ⟨by rw [ofSettings_eq], fun h => absurd h hne, fun _ => (hs _ (.inr ⟨id, List.mem_singleton.2 rfl, rfl⟩)).mono h'⟩

theorem mrkBuildDiscovery_ok {grants : List Bytes} {supplier client : Bool} {region : Bytes} {kr : MrkKeyring}
    (h : mrkBuildDiscovery grants supplier client region = some kr) : client = true ∧ kr = ⟨[], grants, region, none⟩ := by
  unfold mrkBuildDiscovery at h
  split at h
  · cases h
  · rename_i hn
    refine ⟨?_, (Option.some.inj h).symm⟩
    cases client
    · exact absurd (.inr rfl) hn
    · rfl

theorem mrkBuildFilter_ok {grants : List Bytes} {supplier client : Bool} {region : Bytes} {f : Option DiscoveryFilter} {kr : MrkKeyring}
    (h : mrkBuildDiscoveryFilter grants supplier client region f = some kr) : client = true ∧ region ≠ [] ∧ kr = ⟨[], grants, region, f⟩ := by
  unfold mrkBuildDiscoveryFilter at h
  split at h
  · cases h
  rename_i hr
  split at h
  · cases h
  · rename_i hn
    refine ⟨?_, hr, (Option.some.inj h).symm⟩
    cases client
    · exact absurd (.inr rfl) hn
    · rfl

theorem mrkDiscovery_good {l : List KmsSetting} {R : List Bytes} {c : Nat} (hc : clientOf l = some c) {kr : MrkKeyring}
    (hk : kr.keyId = []) (hg : kr.grants = tokensOf l) : BuiltGood l R (.mrk kr (.single (some c))) :=
  ⟨hg, fun _ => ⟨serves_client hc R _, fun hf => by rw [fixed_of_client hc] at hf; cases hf⟩, fun h => absurd hk h⟩

/-! ### Multi-keyrings -/

/-- The keyrings, if there are any, ask only for what their suppliers serve. -/
def ListGood (l : List KmsSetting) (R : List Bytes) (r : Option (List KmsBuilt)) : Prop := ∀ krs, r = some krs → ∀ kr ∈ krs, BuiltGood l R kr

/-- A member that was built with an accepted client. -/
theorem member_good {l : List KmsSetting} {J : KmsJob} {R : List Bytes} {id : Bytes} {c : Nat} (ha : Accept l R (parseRegion id) c)
    {cur : Option (Supplier × Option Nat)} {ok : Bool} :
    Good J (OptGood l) R cur ok (mrkBuildProg { client := some c, grants := tokensOf l } id) := by
  unfold mrkBuildProg
  cases hb : mrkBuild (tokensOf l) id with
  | error e => exact fun _ _ _ h => by cases h
  | ok kr =>
    have hkr := mrkBuild_eq hb
    have hne := (mrkBuild_ok.1 ⟨kr, hb⟩).1
    intro R' h x hx
    cases hx
    subst hkr
    exact ⟨rfl, fun h => absurd h hne, fun _ => serves_accepted fun n hn => by cases hn; exact ha.mono h⟩

theorem mrkChildrenProg_good {l : List KmsSetting} {J : KmsJob} (hJ : J.settings = l) {child : Nat → Bool} {sup : Supplier}
    (hs : ∀ R region, Serves l R sup region) {ids : List Bytes} : ∀ {i : Nat} {R : List Bytes} {cur : Option (Supplier × Option Nat)} {ok : Bool},
      Good J (ListGood l) R cur ok (mrkChildrenProg child sup (tokensOf l) i ids) := by
  subst hJ
  induction ids with
  | nil =>
    intro i R cur ok R' _ krs h kr hkr
    cases h; cases hkr
  | cons id ids ih =>
    intro i R cur ok
    rw [mrkChildrenProg]
    split
    · exact fun _ _ _ h => by cases h
    refine ⟨fun R' _ => hs R' _, fun R' _ c hc => ?_⟩
    cases c with
    | none => exact fun _ _ _ h => by cases h
    | some c =>
      refine Good.bind (member_good (hc c rfl)) fun R1 _ x hx _ _ => ?_
      cases x with
      | none => exact fun _ _ _ h => by cases h
      | some kr =>
        dsimp only
        split
        · exact fun _ _ _ h => by cases h
        refine Good.bind ih fun R2 h2 y hy _ _ => ?_
        cases y with
        | none => exact fun _ _ _ h => by cases h
        | some krs =>
          intro R3 h3 zs hz z hmem
          cases hz
          rcases List.mem_cons.1 hmem with rfl | hmem
          · exact (hx _ rfl).mono (h2.trans h3)
          · exact (hy krs rfl z hmem).mono h3

theorem mrkGeneratorProg_good {l : List KmsSetting} {J : KmsJob} (hJ : J.settings = l) {sup : Supplier} (hs : ∀ R region, Serves l R sup region)
    {id : Bytes} {R : List Bytes} {cur : Option (Supplier × Option Nat)} {ok : Bool} :
    Good J (ListGood l) R cur ok (mrkGeneratorProg sup (tokensOf l) id) := by
  subst hJ
  unfold mrkGeneratorProg
  split
  · intro R' _ krs h kr hkr
    cases h; cases hkr
  refine ⟨fun R' _ => hs R' _, fun R' _ c hc => ?_⟩
  cases c with
  | none => exact fun _ _ _ h => by cases h
  | some c =>
    refine Good.bind (member_good (hc c rfl)) fun R1 _ x hx _ _ => ?_
    cases x with
    | none => exact fun _ _ _ h => by cases h
    | some kr =>
      intro R3 h3 zs hz z hmem
      cases hz
      rw [List.mem_singleton.1 hmem]
      exact (hx _ rfl).mono h3

theorem supplierOrDefault_good {l : List KmsSetting} (hn : clientOf l = none) {J : KmsJob} {R : List Bytes} {cur : Option (Supplier × Option Nat)} {ok : Bool} :
    Good J (fun _ s => ∀ R region, Serves l R s region) R cur ok (supplierOrDefault (.ofSettings l)) := by
  rw [ofSettings_eq]
  unfold supplierOrDefault
  dsimp only
  cases hs : supplierOf l with
  | some s => exact fun _ _ R' region => serves_user hn hs R' region
  | none =>
    intro n R' _ R'' region
    exact ⟨fun m hm => (by cases hm), fun _ => fixed_none hn fun c h => by rw [hs] at h; cases h⟩

theorem mrkMultiProg__good {l : List KmsSetting} {J : KmsJob} (hJ : J.settings = l) (hn : clientOf l = none) {mem : Bool} {child : Nat → Bool}
    {generator : Bytes} {additional : List Bytes} {R : List Bytes} {cur : Option (Supplier × Option Nat)} {ok : Bool} :
    Good J (ListGood l) R cur ok (mrkMultiProg_ mem child (.ofSettings l) generator additional) := by
  have hg : (KmsBuilder.ofSettings l).grants = tokensOf l := by rw [ofSettings_eq]
  unfold mrkMultiProg_
  split
  · exact fun _ _ _ h => by cases h
  dsimp only
  generalize (if generator.length > 0 then [generator] else []) ++ additional = all
  split
  · exact fun _ _ _ h => by cases h
  split
  · exact fun _ _ _ h => by cases h
  refine Good.bind (supplierOrDefault_good hn) fun R1 _ sup hs _ _ => ?_
  rw [hg]
  refine Good.bind (mrkGeneratorProg_good hJ hs) fun R2 _ x hx _ _ => ?_
  cases x with
  | none => exact fun _ _ _ h => by cases h
  | some g =>
    dsimp only
    split
    · exact fun _ _ _ h => by cases h
    refine Good.bind (mrkChildrenProg_good hJ hs) fun R3 h3 y hy _ _ => ?_
    cases y with
    | none => exact fun _ _ _ h => by cases h
    | some krs =>
      intro R4 h4 zs hz z hmem
      cases hz
      rcases List.mem_append.1 hmem with hmem | hmem
      · exact (hx g rfl z hmem).mono (h3.trans h4)
      · exact (hy krs rfl z hmem).mono h4

theorem mrkRegionsProg_good {l : List KmsSetting} {J : KmsJob} (hJ : J.settings = l) {child : Nat → Bool} {sup : Supplier} {f : Option DiscoveryFilter}
    (hs : ∀ R region, Serves l R sup region) {regions : List Bytes} : (∀ r ∈ regions, 58 ∉ r) →
      ∀ {i : Nat} {R : List Bytes} {cur : Option (Supplier × Option Nat)} {ok : Bool},
        Good J (ListGood l) R cur ok (mrkRegionsProg child sup (tokensOf l) f i regions) := by
  subst hJ
  induction regions with
  | nil =>
    intro _ i R cur ok R' _ krs h kr hkr
    cases h; cases hkr
  | cons region regions ih =>
    intro hcol i R cur ok
    rw [mrkRegionsProg]
    refine ⟨fun R' _ => hs R' _, fun R' _ c hc => ?_⟩
    cases c with
    | none => exact fun _ _ _ h => by cases h
    | some c =>
      have hm : ∀ cur ok, Good J (OptGood J.settings) R' cur ok (mrkBuildFilterProg { client := some c, grants := tokensOf J.settings } region f) := by
        intro cur ok
        unfold mrkBuildFilterProg
        dsimp only
        cases hb : mrkBuildDiscoveryFilter (tokensOf J.settings) (none : Option Supplier).isSome (some c).isSome region f with
        | none => exact fun _ _ _ h => by cases h
        | some kr =>
          obtain ⟨-, hne, rfl⟩ := mrkBuildFilter_ok hb
          intro R' h x hx
          cases hx
          exact ⟨rfl, fun _ => ⟨serves_accepted fun n hn => by cases hn; exact (hc c rfl).mono h, fun _ => ⟨hne, hcol _ (List.mem_cons_self ..)⟩⟩,
            fun h => absurd rfl h⟩
      refine Good.bind (hm _ _) fun R1 _ x hx _ _ => ?_
      cases x with
      | none => exact fun _ _ _ h => by cases h
      | some kr =>
        dsimp only
        split
        · exact fun _ _ _ h => by cases h
        refine Good.bind (ih fun r hr => hcol r (List.mem_cons_of_mem _ hr)) fun R2 h2 y hy _ _ => ?_
        cases y with
        | none => exact fun _ _ _ h => by cases h
        | some krs =>
          intro R3 h3 zs hz z hmem
          cases hz
          rcases List.mem_cons.1 hmem with rfl | hmem
          · exact (hx _ rfl).mono (h2.trans h3)
          · exact (hy krs rfl z hmem).mono h3

/-! ### Calls of the user -/

/-- What holds of results: keyrings ask for what their suppliers serve, and nothing was thrown. -/
def ResGood (l : List KmsSetting) (R : List Bytes) (r : KmsResult) : Prop := (∀ x ∈ r.new l, x.1 = l ∧ BuiltGood l R x.2) ∧ r ≠ .threw

theorem resGood_keyring {l : List KmsSetting} {R : List Bytes} {r : Option KmsBuilt} (h : OptGood l R r) : ResGood l R (.ofKeyring r) := by
  cases r with
  | none => exact ⟨fun x hx => (by cases hx), by intro h; cases h⟩
  | some kr =>
    refine ⟨fun x hx => ?_, by intro h; cases h⟩
    rw [List.mem_singleton.1 (show x ∈ [(l, kr)] from hx)]
    exact ⟨rfl, h kr rfl⟩

theorem resGood_keyrings {l : List KmsSetting} {R : List Bytes} {r : Option (List KmsBuilt)} (h : ListGood l R r) : ResGood l R (.ofKeyrings r) := by
  cases r with
  | none => exact ⟨fun x hx => (by cases hx), by intro h; cases h⟩
  | some krs =>
    refine ⟨fun x hx => ?_, by intro h; cases h⟩
    obtain ⟨kr, hkr, rfl⟩ := List.mem_map.1 (show x ∈ krs.map fun k => (l, k) from hx)
    exact ⟨rfl, h krs rfl kr hkr⟩

theorem OptGood.mono {l : List KmsSetting} {R R' : List Bytes} (h : R <+: R') {r : Option KmsBuilt} (g : OptGood l R r) : OptGood l R' r :=
  fun kr hk => (g kr hk).mono h

theorem ListGood.mono {l : List KmsSetting} {R R' : List Bytes} (h : R <+: R') {r : Option (List KmsBuilt)} (g : ListGood l R r) : ListGood l R' r :=
  fun krs hk kr hm => (g krs hk kr hm).mono h

theorem clientOf_none {l : List KmsSetting} (h : ∀ c, KmsSetting.client c ∉ l) : clientOf l = none := by
  unfold clientOf
  split
  · rename_i c hc
    obtain ⟨x, hx, he⟩ := List.exists_of_findSome?_eq_some hc
    cases x with
    | client c' => exact absurd (List.mem_reverse.1 hx) (h c')
    | grant => cases he
    | grants => cases he
    | supplier => cases he
  · rfl

theorem job_good {s : KmsSys} {job : KmsJob} (ha : Allowed s job) (hb : ∀ x ∈ s.built, BuiltGood x.1 s.regions x.2) {cur : Option (Supplier × Option Nat)} {ok : Bool} :
    Good job (ResGood job.settings) s.regions cur ok job.prog := by
  have one {l : List KmsSetting} {p : KmsProg (Option KmsBuilt)} {J : KmsJob} (h : Good J (OptGood l) s.regions cur ok p) :
      Good J (ResGood l) s.regions cur ok (p.bind fun r => .done (.ofKeyring r)) :=
    Good.bind h fun R' _ r hr _ _ R'' h' => resGood_keyring (hr.mono h')
  have many {l : List KmsSetting} {p : KmsProg (Option (List KmsBuilt))} {J : KmsJob} (h : Good J (ListGood l) s.regions cur ok p) :
      Good J (ResGood l) s.regions cur ok (p.bind fun r => .done (.ofKeyrings r)) :=
    Good.bind h fun R' _ r hr _ _ R'' h' => resGood_keyrings (hr.mono h')
  have op {α : Type} {l : List KmsSetting} {p : KmsProg α} {J : KmsJob} {f : α → KmsResult} (hf : ∀ a, f a ≠ .threw ∧ (f a).new l = [])
      (h : Good J (fun _ _ => True) s.regions cur ok p) : Good J (ResGood l) s.regions cur ok (p.bind fun r => .done (f r)) :=
    Good.bind h fun R' _ r hr _ _ R'' h' => ⟨fun x hx => (by rw [(hf r).2] at hx; cases hx), (hf r).1⟩
  cases job with
  | build l g a => exact one kmsBuildProg_good
  | discovery l f =>
    cases f with
    | none => exact one (l := l) (J := .discovery l none) (kmsDiscovery_good (l := l) (J := .discovery l none) rfl (by simp [kmsBuildDiscovery, ofSettings_eq]) rfl)
    | some f =>
      refine one ?_
      unfold kmsBuildFilterProg
      cases hf : kmsBuildDiscoveryFilter (KmsBuilder.ofSettings l).grants f with
      | none => exact fun _ _ _ h => by cases h
      | some kr =>
        cases f with
        | none => cases hf
        | some f =>
          have hkr : kr = ⟨[], (KmsBuilder.ofSettings l).grants, some f⟩ := (Option.some.inj hf).symm
          subst hkr
          exact kmsDiscovery_good (l := l) (J := .discovery l (some (some f))) rfl (by rw [ofSettings_eq]) rfl
  | mrk l id => exact one (l := l) (J := .mrk l id) (mrkBuildProg_good (l := l) (J := .mrk l id) rfl fun sup hc hs => ⟨l, hc, hs, .inr ⟨id, rfl⟩⟩)
  | mrkDiscovery l region f =>
    have hg : (KmsBuilder.ofSettings l).grants = tokensOf l := by rw [ofSettings_eq]
    have hcl : (KmsBuilder.ofSettings l).client = clientOf l := by rw [ofSettings_eq]
    cases f with
    | none =>
      refine one ?_
      unfold mrkBuildDiscoveryProg
      cases hb : mrkBuildDiscovery (KmsBuilder.ofSettings l).grants (KmsBuilder.ofSettings l).supplier.isSome (KmsBuilder.ofSettings l).client.isSome region with
      | none => exact fun _ _ _ h => by cases h
      | some kr =>
        obtain ⟨hc, rfl⟩ := mrkBuildDiscovery_ok hb
        rw [hcl] at hc
        obtain ⟨c, hc⟩ := Option.isSome_iff_exists.1 hc
        dsimp only
        rw [hcl, hc]
        intro R' h x hx
        cases hx
        exact mrkDiscovery_good hc rfl hg
    | some f =>
      refine one ?_
      unfold mrkBuildFilterProg
      cases hb : mrkBuildDiscoveryFilter (KmsBuilder.ofSettings l).grants (KmsBuilder.ofSettings l).supplier.isSome (KmsBuilder.ofSettings l).client.isSome region f with
      | none => exact fun _ _ _ h => by cases h
      | some kr =>
        obtain ⟨hc, -, rfl⟩ := mrkBuildFilter_ok hb
        rw [hcl] at hc
        obtain ⟨c, hc⟩ := Option.isSome_iff_exists.1 hc
        dsimp only
        rw [hcl, hc]
        intro R' h x hx
        cases hx
        exact mrkDiscovery_good hc rfl hg
  | multi l mem child g a =>
    have hn := clientOf_none ha
    refine many ?_
    cases g with
    | none => exact mrkMultiProg__good (J := .multi l mem child none a) rfl hn
    | some g =>
      unfold mrkMultiProg
      dsimp only
      split
      · exact fun _ _ _ h => by cases h
      · exact mrkMultiProg__good (J := .multi l mem child (some g) a) rfl hn
  | multiDiscovery l mem child regions f =>
    have hn := clientOf_none ha.1
    have hg : (KmsBuilder.ofSettings l).grants = tokensOf l := by rw [ofSettings_eq]
    refine many ?_
    unfold mrkMultiDiscoveryProg
    split
    · exact fun _ _ _ h => by cases h
    split
    · exact fun _ _ _ h => by cases h
    refine Good.bind (supplierOrDefault_good hn) fun R1 _ sup hs _ _ => ?_
    split
    · exact fun _ _ _ h => by cases h
    · rw [hg]; exact mrkRegionsProg_good (J := .multiDiscovery l mem child regions f) rfl hs ha.2
  | encrypt l kr mem ctx alg st =>
    have hg := hb _ ha
    cases kr with
    | kms kr sup => exact op (l := l) (f := fun r => .encrypted r.1 r.2) (fun a => ⟨(by intro h; cases h), rfl⟩) (kmsEncProg_good (J := .encrypt l (.kms kr sup) mem ctx alg st) hg)
    | mrk kr sup => exact op (l := l) (f := fun r => .encrypted r.1 r.2) (fun a => ⟨(by intro h; cases h), rfl⟩) (mrkEncProg_good (J := .encrypt l (.mrk kr sup) mem ctx alg st) hg)
  | decrypt l kr mem edks ctx alg st =>
    have hg := hb _ ha
    cases kr with
    | kms kr sup => exact op (l := l) (f := fun r => .decrypted r.1 r.2) (fun a => ⟨(by intro h; cases h), rfl⟩) (kmsDecProg_good (J := .decrypt l (.kms kr sup) mem edks ctx alg st) hg)
    | mrk kr sup => exact op (l := l) (f := fun r => .decrypted r.1 r.2) (fun a => ⟨(by intro h; cases h), rfl⟩) (mrkDecProg_good (J := .decrypt l (.mrk kr sup) mem edks ctx alg st) hg)

end Verif
