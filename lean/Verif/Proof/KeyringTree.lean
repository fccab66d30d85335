import Verif.Spec.KeyringTree
import Verif.Proof.AnyStack
import Verif.Props.KmsRoundTrip
/-
Lemmas for trees of keyrings.
-/
namespace Verif.Props
open Spec

/-! ### encryption -/

/-- The encrypted data key `e` was made with the wrapping key for the data key `key`. -/
def MadeBy (A : Around → Prop) (ctx : EncCtx) (key : Bytes) : List Nat × Source → Edk → Prop
  | (_, .raw r), e => Wrapped (rawWorlds A) ctx key r e
  | (p, .kms id), e => ∃ a, A a ∧ KmsMade (a.kms p) id ctx key e

/-- What a successful call with the wrapping keys `srcs` does. -/
structure Grew (A : Around → Prop) (ctx : EncCtx) (alg : Nat) (srcs : List (List Nat × Source)) (s s' : EncState) : Prop where
  keep : ∀ k0, s.key = some k0 → s'.key = some k0
  idle : s'.key = none → srcs = []
  edks : ∃ es, s'.edks = s.edks ++ es ∧ es.length = srcs.length ∧ ∀ k, s'.key = some k → RightLength alg k.bytes ∧
    (∀ e ∈ es, ∃ x ∈ srcs, MadeBy A ctx k.bytes x e) ∧ ∀ x ∈ srcs, ∃ e ∈ es, MadeBy A ctx k.bytes x e

theorem Grew.refl {A : Around → Prop} {ctx : EncCtx} {alg : Nat} {s s' : EncState} (hk : ∀ k, s.key = some k → RightLength alg k.bytes)
    (h1 : s'.key = s.key) (h2 : s'.edks = s.edks) : Grew A ctx alg [] s s' :=
  ⟨fun k h => by rw [h1, h], fun _ => rfl, [], by rw [h2]; simp, rfl, fun k h => ⟨hk k (by rw [← h1, h]), by simp, by simp⟩⟩

theorem Grew.trans {A : Around → Prop} {ctx : EncCtx} {alg : Nat} {xs ys : List (List Nat × Source)} {s s1 s2 : EncState}
    (h : Grew A ctx alg xs s s1) (h' : Grew A ctx alg ys s1 s2) : Grew A ctx alg (xs ++ ys) s s2 := by
  obtain ⟨es, e1, e2, e3⟩ := h.edks
  obtain ⟨fs, f1, f2, f3⟩ := h'.edks
  refine ⟨fun k hk => h'.keep k (h.keep k hk), fun hn => ?_, es ++ fs, by rw [f1, e1, List.append_assoc], by simp [e2, f2], fun k hk => ?_⟩
  · have hs1 : s1.key = none := by
      cases hx : s1.key with
      | none => rfl
      | some k => rw [h'.keep k hx] at hn; cases hn
    rw [h.idle hs1, h'.idle hn]; rfl
  · obtain ⟨g1, g2, g3⟩ := f3 k hk
    refine ⟨g1, ?_⟩
    cases hx : s1.key with
    | none =>
      have := h.idle hx
      subst this
      have : es = [] := List.length_eq_zero_iff.mp e2
      subst this
      exact ⟨by simpa using g2, by simpa using g3⟩
    | some k1 =>
      have := h'.keep k1 hx
      rw [hk] at this
      cases this
      obtain ⟨-, d2, d3⟩ := e3 k hx
      constructor
      · intro e he
        rcases List.mem_append.mp he with he | he
        · obtain ⟨x, hx, hm⟩ := d2 e he; exact ⟨x, by simp [hx], hm⟩
        · obtain ⟨x, hx, hm⟩ := g2 e he; exact ⟨x, by simp [hx], hm⟩
      · intro x hx
        rcases List.mem_append.mp hx with hx | hx
        · obtain ⟨e, he, hm⟩ := d3 x hx; exact ⟨e, by simp [he], hm⟩
        · obtain ⟨e, he, hm⟩ := g3 x hx; exact ⟨e, by simp [he], hm⟩

theorem Grew.right {A : Around → Prop} {ctx : EncCtx} {alg : Nat} {xs : List (List Nat × Source)} {s s1 : EncState}
    (h : Grew A ctx alg xs s s1) : ∀ k, s1.key = some k → RightLength alg k.bytes := by
  obtain ⟨es, e1, e2, e3⟩ := h.edks
  exact fun k hk => (e3 k hk).1

/-! #### KMS -/

/-- The loop over the key identifiers. -/
theorem kmsEncLoop_made {env : KmsEnv} {grants : List Bytes} {ctx : EncCtx} {key : Bytes} : ∀ {ids : List Bytes} {i : Nat} {my my' : KmsLocal}
    {calls : List KmsCall}, kmsEncLoop env grants ctx key i my ids = (.ok my', calls) →
    ∃ es, my'.edks = my.edks ++ es ∧ es.length = ids.length ∧ (∀ e ∈ es, ∃ id ∈ ids, KmsMade env id ctx key e) ∧
      ∀ id ∈ ids, ∃ e ∈ es, KmsMade env id ctx key e
  | [], i, my, my', calls, h => by
    simp only [kmsEncLoop, Prod.mk.injEq, Except.ok.injEq] at h
    exact ⟨[], by simp [h.1], rfl, by simp, by simp⟩
  | id :: ids, i, my, my', calls, h => by
    rw [kmsEncLoop] at h
    cases hc : env.client i (parseRegion id) with
    | none => rw [hc] at h; simp at h
    | some c =>
      rw [hc] at h
      simp only at h
      cases he : env.encrypt i c ⟨id, key, ctx, grants⟩ with
      | none => rw [he] at h; simp at h
      | some x =>
        obtain ⟨keyId, ct⟩ := x
        rw [he] at h
        simp only at h
        cases ha : kmsAppend env i my keyId ct id (2 + 8) with
        | none => rw [ha] at h; simp at h
        | some my1 =>
          rw [ha] at h
          simp only at h
          cases hl : kmsEncLoop env grants ctx key (i + 1) my1 ids with
          | mk r calls' =>
            rw [hl] at h
            simp only [Prod.mk.injEq] at h
            obtain ⟨rfl, -⟩ := h
            obtain ⟨es, e1, e2, e3, e4⟩ := kmsEncLoop_made hl
            have hm : KmsMade env id ctx key ⟨kmsProvider, keyId, ct⟩ := ⟨rfl, .inl ⟨i, c, grants, he⟩⟩
            refine ⟨⟨kmsProvider, keyId, ct⟩ :: es, by rw [e1, (kmsAppend_some ha).1]; simp, by simp [e2], ?_, ?_⟩
            · intro e hx
              rcases List.mem_cons.mp hx with rfl | hx
              · exact ⟨id, by simp, hm⟩
              · obtain ⟨id', h1, h2⟩ := e3 e hx; exact ⟨id', by simp [h1], h2⟩
            · intro x hx
              rcases List.mem_cons.mp hx with rfl | hx
              · exact ⟨_, by simp, hm⟩
              · obtain ⟨e, h1, h2⟩ := e4 x hx; exact ⟨e, by simp [h1], h2⟩

theorem kmsTransfer_ok {env : KmsEnv} {s s' : EncState} {key : Option KeyBuf} {fresh : Bool} {my : KmsLocal}
    (h : kmsTransfer env s key fresh my = (.ok, s')) : s'.key = key ∧ s'.edks = s.edks ++ my.edks := by
  unfold kmsTransfer at h
  obtain ⟨l, -, h2, h3, -⟩ := transferLoop_prefix env.pushEdk 0 s.edks my.edks
  simp only at h
  split at h
  · cases h
  · next hx =>
    cases h
    refine ⟨rfl, ?_⟩
    simp only
    rw [h2, h3 (by simpa using hx)]

/-- A successful call of `kmsEncRest`. -/
theorem kmsEncRest_ok {env : KmsEnv} {kr : KmsKeyring} {ctx : EncCtx} {s s' : EncState} {key : Option KeyBuf} {fresh : Bool} {i : Nat} {my : KmsLocal}
    {ids : List Bytes} {calls : List KmsCall} (h : kmsEncRest env kr ctx s key fresh i my ids = (.ok, s', calls)) :
    s'.key = key ∧ ∃ es, s'.edks = s.edks ++ (my.edks ++ es) ∧ es.length = ids.length ∧
      (∀ e ∈ es, ∃ id ∈ ids, KmsMade env id ctx (keyBytes key) e) ∧ ∀ id ∈ ids, ∃ e ∈ es, KmsMade env id ctx (keyBytes key) e := by
  unfold kmsEncRest at h
  cases hl : kmsEncLoop env kr.grants ctx (keyBytes key) i my ids with
  | mk r c =>
    rw [hl] at h
    cases r with
    | error e => simp at h
    | ok my1 =>
      simp only at h
      obtain ⟨es, e1, e2, e3, e4⟩ := kmsEncLoop_made hl
      have ht : kmsTransfer env s key fresh my1 = (.ok, s') := by
        cases hx : kmsTransfer env s key fresh my1 with
        | mk r1 s1 =>
          rw [hx] at h
          simp only [Prod.mk.injEq] at h
          rw [h.1, h.2.1]
      obtain ⟨t1, t2⟩ := kmsTransfer_ok ht
      exact ⟨t1, es, by rw [t2, e1], e2, e3, e4⟩

/-- A successful call of a keyring's `on_encrypt`, from `keyringOnEncrypt`. -/
theorem call_ok {f : EncCtx → Nat → EncState → KRet × EncState} {g : Option (List Edk → EncCtx → Nat → DecState → KRet × DecState)} {ctx : EncCtx}
    {alg : Nat} {s s' : EncState} (h : keyringOnEncrypt ⟨some f, g⟩ ctx alg s = (.ok, s')) :
    f ctx alg s = (.ok, s') ∧ checkEncKey alg s.key s'.key = true := by
  unfold keyringOnEncrypt at h
  split at h
  · cases h
  · simp only at h
    cases hf : f ctx alg s with
    | mk r s1 =>
      rw [hf] at h
      simp only at h
      split at h
      · next hx => cases h; cases hx
      · split at h
        · next hc => cases h; exact ⟨rfl, hc⟩
        · cases h

theorem keyLen_ne_zero {alg : Nat} {p : AlgProps} (hp : algProps alg = some p) : p.dataKeyLen ≠ 0 := by
  obtain ⟨row, hrow, hid⟩ := algProps_isSome hp
  intro h0
  have h : RightLength alg [] := (dataKeyLenOK_iff alg ⟨0, [], 0, 0⟩).mp (by simp [dataKeyLenOK, hp, h0])
  exact rightLength_ne_nil h rfl

theorem checkEncKey_right {alg : Nat} {k : KeyBuf} (h : checkEncKey alg none (some k) = true) : RightLength alg k.bytes :=
  (dataKeyLenOK_iff ..).mp h

/-- KMS does not generate empty data keys. -/
def GivesKeys (A : Around → Prop) : Prop :=
  ∀ a p c r keyId ciphertext plaintext, A a → r.numBytes ≠ 0 → (a.kms p).generate c r = some (keyId, ciphertext, plaintext) → plaintext ≠ []

theorem dupKey_some {env : KmsEnv} {pt : Bytes} {k : Option KeyBuf} (hne : pt ≠ []) (h : dupKey env pt = some k) :
    k = some ⟨env.ptr, pt, pt.length, env.heap⟩ := by
  unfold dupKey at h
  rw [if_neg hne] at h
  split at h
  · cases h; rfl
  · cases h

section
variable {A : Around → Prop}

theorem kms_encrypt (hz : GivesKeys A) {a : Around} (ha : A a) {p : List Nat} {kr : KmsKeyring} {ctx : EncCtx} {alg : Nat} {s s' : EncState}
    (hk : ∀ k, s.key = some k → RightLength alg k.bytes) (h : keyringOnEncrypt (kmsKeyring (a.kms p) kr) ctx alg s = (.ok, s')) :
    Grew A ctx alg ((kr.keyIds.map Source.kms).map (fun x => (p, x))) s s' := by
  obtain ⟨h, hc⟩ := call_ok h
  have h : ∃ calls, kmsOnEncrypt (a.kms p) kr ctx alg s = (.ok, s', calls) := by
    cases hx : kmsOnEncrypt (a.kms p) kr ctx alg s with
    | mk r x =>
      obtain ⟨s1, calls⟩ := x
      rw [hx] at h
      simp only [Prod.mk.injEq] at h
      exact ⟨calls, by rw [h.1, h.2]⟩
  obtain ⟨calls, h⟩ := h
  unfold kmsOnEncrypt at h
  cases hi : kr.keyIds with
  | nil =>
    rw [hi] at h
    simp only [Prod.mk.injEq] at h
    exact .refl hk (by rw [h.2.1]) (by rw [h.2.1])
  | cons id ids =>
    rw [hi] at h
    simp only at h
    split at h
    · simp at h
    · cases hs : s.key with
      | some k =>
        rw [hs] at h
        simp only at h
        obtain ⟨h1, es, h2, h3, h4, h5⟩ := kmsEncRest_ok h
        simp only [List.nil_append] at h2
        refine ⟨fun k0 h0 => (by rw [hs] at h0; cases h0; exact h1), fun hn => (by rw [h1] at hn; cases hn), es, h2, by simp [h3], ?_⟩
        intro k' hk'
        rw [h1] at hk'; cases hk'
        refine ⟨hk k hs, ?_, ?_⟩
        · intro e he
          obtain ⟨id', hid, hm⟩ := h4 e he
          exact ⟨(p, .kms id'), by simpa using hid, a, ha, hm⟩
        · intro x hx
          simp only [List.map_map, List.mem_map, Function.comp_apply] at hx
          obtain ⟨id', hid, rfl⟩ := hx
          obtain ⟨e, he, hm⟩ := h5 id' hid
          exact ⟨e, he, a, ha, hm⟩
      | none =>
        rw [hs] at h
        simp only at h
        cases hp : algProps alg with
        | none => rw [hp] at h; simp at h
        | some pr =>
          rw [hp] at h
          simp only at h
          cases hcl : (a.kms p).client 0 (parseRegion id) with
          | none => rw [hcl] at h; simp at h
          | some c =>
            rw [hcl] at h
            simp only at h
            cases hg : (a.kms p).generate c ⟨id, pr.dataKeyLen, ctx, kr.grants⟩ with
            | none => rw [hg] at h; simp at h
            | some x =>
              obtain ⟨keyId, ct, pt⟩ := x
              rw [hg] at h
              simp only at h
              have hne := hz a p c _ _ _ _ ha (keyLen_ne_zero hp) hg
              cases happ : kmsAppend (a.kms p) 0 ⟨[], [], s.errno⟩ keyId ct id (1 + 2 + 8) with
              | none => rw [happ] at h; simp at h
              | some my =>
                cases hdup : dupKey (a.kms p) pt with
                | none => rw [happ, hdup] at h; simp at h
                | some key =>
                  rw [happ, hdup] at h
                  simp only at h
                  obtain rfl := dupKey_some hne hdup
                  cases hr : kmsEncRest (a.kms p) kr ctx s (some ⟨(a.kms p).ptr, pt, pt.length, (a.kms p).heap⟩) true 1 my ids with
                  | mk r y =>
                    obtain ⟨s1, calls1⟩ := y
                    rw [hr] at h
                    simp only [Prod.mk.injEq] at h
                    obtain ⟨rfl, rfl, -⟩ := h
                    obtain ⟨h1, es, h2, h3, h4, h5⟩ := kmsEncRest_ok hr
                    rw [(kmsAppend_some happ).1] at h2
                    simp only [List.nil_append] at h2
                    refine ⟨fun k0 h0 => (by rw [hs] at h0; cases h0), fun hn => (by rw [h1] at hn; cases hn), _, h2, by simp [h3], ?_⟩
                    intro k' hk'
                    rw [hs, hk'] at hc
                    refine ⟨checkEncKey_right hc, ?_⟩
                    rw [h1] at hk'; cases hk'
                    have hm0 : KmsMade (a.kms p) id ctx pt ⟨kmsProvider, keyId, ct⟩ := ⟨rfl, .inr ⟨c, _, _, hg⟩⟩
                    constructor
                    · intro e he
                      rcases List.mem_append.mp he with he | he
                      · obtain rfl := List.mem_singleton.mp he
                        exact ⟨(p, .kms id), by simp, a, ha, hm0⟩
                      · obtain ⟨id', hid, hm⟩ := h4 e he
                        exact ⟨(p, .kms id'), by simp [hid], a, ha, hm⟩
                    · intro x hx
                      simp only [List.map_map, List.map_cons, List.mem_cons, List.mem_map, Function.comp_apply] at hx
                      rcases hx with rfl | ⟨id', hid, rfl⟩
                      · exact ⟨_, by simp, a, ha, hm0⟩
                      · obtain ⟨e, he, hm⟩ := h5 id' hid
                        exact ⟨e, by simp [he], a, ha, hm⟩

theorem mrkEncFinish_ok {env : KmsEnv} {s s' : EncState} {key : Option KeyBuf} {fresh : Bool} {my : KmsLocal} {call : KmsCall} {calls : List KmsCall}
    (h : mrkEncFinish env s key fresh my call = (.ok, s', calls)) : s'.key = key ∧ s'.edks = s.edks ++ my.edks := by
  unfold mrkEncFinish at h
  cases hx : kmsTransfer env s key fresh my with
  | mk r1 s1 =>
    rw [hx] at h
    simp only [Prod.mk.injEq] at h
    obtain ⟨rfl, rfl, -⟩ := h
    exact kmsTransfer_ok hx

theorem mrk_encrypt (hz : GivesKeys A) {a : Around} (ha : A a) {p : List Nat} {kr : MrkKeyring} {ctx : EncCtx} {alg : Nat} {s s' : EncState}
    (hk : ∀ k, s.key = some k → RightLength alg k.bytes) (h : keyringOnEncrypt (mrkKeyring (a.kms p) kr) ctx alg s = (.ok, s')) :
    Grew A ctx alg ((sourcesOf (.mrk kr)).map (fun x => (p, x))) s s' := by
  obtain ⟨h, hc⟩ := call_ok h
  have h : ∃ calls, mrkOnEncrypt (a.kms p) kr ctx alg s = (.ok, s', calls) := by
    cases hx : mrkOnEncrypt (a.kms p) kr ctx alg s with
    | mk r x =>
      obtain ⟨s1, calls⟩ := x
      rw [hx] at h
      simp only [Prod.mk.injEq] at h
      exact ⟨calls, by rw [h.1, h.2]⟩
  obtain ⟨calls, h⟩ := h
  unfold mrkOnEncrypt at h
  split at h
  · simp at h
  · next hdisc =>
    have hid : kr.keyId ≠ [] := by
      intro h0; exact hdisc (by simp [MrkKeyring.isDiscovery, h0])
    have hsrc : (sourcesOf (.mrk kr)).map (fun x => (p, x)) = [(p, .kms kr.keyId)] := by simp [sourcesOf, hid]
    rw [hsrc]
    have hone : ∀ {k : KeyBuf} {keyId ct : Bytes}, s'.key = some k → RightLength alg k.bytes → s'.edks = s.edks ++ [⟨kmsProvider, keyId, ct⟩] →
        (∀ k0, s.key = some k0 → k0 = k) → KmsMade (a.kms p) kr.keyId ctx k.bytes ⟨kmsProvider, keyId, ct⟩ →
        Grew A ctx alg [(p, .kms kr.keyId)] s s' := by
      intro k keyId ct h1 h2 h3 h4 h5
      refine ⟨fun k0 h0 => by rw [h4 k0 h0]; exact h1, fun hn => (by rw [h1] at hn; cases hn), _, h3, rfl, ?_⟩
      intro k' hk'
      rw [h1] at hk'; cases hk'
      exact ⟨h2, by simpa using ⟨a, ha, h5⟩, by simpa using ⟨a, ha, h5⟩⟩
    split at h
    · simp at h
    · cases hs : s.key with
      | none =>
        rw [hs] at h
        simp only at h
        cases hp : algProps alg with
        | none => rw [hp] at h; simp at h
        | some pr =>
          rw [hp] at h
          simp only at h
          cases hcl : (a.kms p).client 0 (parseRegion kr.keyId) with
          | none => rw [hcl] at h; simp at h
          | some c =>
            rw [hcl] at h
            simp only at h
            cases hg : (a.kms p).generate c ⟨kr.keyId, pr.dataKeyLen, ctx, kr.grants⟩ with
            | none => rw [hg] at h; simp at h
            | some x =>
              obtain ⟨keyId, ct, pt⟩ := x
              rw [hg] at h
              simp only at h
              have hne := hz a p c _ _ _ _ ha (keyLen_ne_zero hp) hg
              split at h
              · simp at h
              · cases happ : kmsAppend (a.kms p) 0 ⟨[], [], s.errno⟩ keyId ct kr.keyId (1 + 2 + 8) with
                | none => rw [happ] at h; simp at h
                | some my =>
                  cases hdup : dupKey (a.kms p) pt with
                  | none => rw [happ, hdup] at h; simp at h
                  | some key =>
                    rw [happ, hdup] at h
                    simp only at h
                    obtain rfl := dupKey_some hne hdup
                    obtain ⟨h1, h2⟩ := mrkEncFinish_ok h
                    rw [(kmsAppend_some happ).1] at h2
                    simp only [List.nil_append] at h2
                    rw [hs, h1] at hc
                    exact hone h1 (checkEncKey_right hc) h2 (by rw [hs]; simp) ⟨rfl, .inr ⟨c, _, _, hg⟩⟩
      | some k =>
        rw [hs] at h
        simp only at h
        cases hcl : (a.kms p).client 0 (parseRegion kr.keyId) with
        | none => rw [hcl] at h; simp at h
        | some c =>
          rw [hcl] at h
          simp only at h
          cases hg : (a.kms p).encrypt 0 c ⟨kr.keyId, k.bytes, ctx, kr.grants⟩ with
          | none => rw [hg] at h; simp at h
          | some x =>
            obtain ⟨keyId, ct⟩ := x
            rw [hg] at h
            simp only at h
            split at h
            · simp at h
            · cases happ : kmsAppend (a.kms p) 0 ⟨[], [], s.errno⟩ keyId ct kr.keyId (2 + 8) with
              | none => rw [happ] at h; simp at h
              | some my =>
                rw [happ] at h
                simp only at h
                obtain ⟨h1, h2⟩ := mrkEncFinish_ok h
                rw [(kmsAppend_some happ).1] at h2
                simp only [List.nil_append] at h2
                exact hone h1 (hk k hs) h2 (by rw [hs]; intro k0 h0; cases h0; rfl) ⟨rfl, .inl ⟨0, c, _, hg⟩⟩

/-! #### trees -/

theorem leaf_encrypt (hz : GivesKeys A) {a : Around} (ha : A a) {p : List Nat} {l : Leaf} {ctx : EncCtx} {alg : Nat} (hd : DistinctKeys ctx)
    {s s' : EncState} (hk : ∀ k, s.key = some k → RightLength alg k.bytes) (h : keyringOnEncrypt (l.keyring a p) ctx alg s = (.ok, s')) :
    Grew A ctx alg ((sourcesOf l).map (fun x => (p, x))) s s' := by
  cases l with
  | kms kr => exact kms_encrypt hz ha hk h
  | mrk kr => exact mrk_encrypt hz ha hk h
  | raw r =>
    obtain ⟨k, e, h1, h2, h3, h4, h5⟩ := raw_encrypt (W := rawWorlds A) ⟨a, p, ha, rfl⟩ hd hk h
    refine ⟨fun k0 h0 => by rw [h3 k0 h0]; exact h1, fun hn => (by rw [h1] at hn; cases hn), _, h4, rfl, ?_⟩
    intro k' hk'
    rw [h1] at hk'; cases hk'
    have hm : MadeBy A ctx k.bytes (p, .raw r) e := h5
    exact ⟨h2, by simpa [sourcesOf] using hm, by simpa [sourcesOf] using hm⟩

theorem multi_grew {ctx : EncCtx} {alg : Nat} {m : MultiAlloc} {gen : Option Keyring} {children : List Keyring} {srcs : List (List Nat × Source)}
    {s s' : EncState} (hl : ∀ s s', (∀ k, s.key = some k → RightLength alg k.bytes) → AllSucceed ctx alg (gen.toList ++ children) s s' →
      Grew A ctx alg srcs s s') (hk : ∀ k, s.key = some k → RightLength alg k.bytes)
    (h : keyringOnEncrypt (multiKeyring m gen children) ctx alg s = (.ok, s')) : Grew A ctx alg srcs s s' := by
  obtain ⟨my, recs, b1, b2, b3, b4, -⟩ := C47_success _ _ _ ctx alg _ s' h
  have hg := hl ⟨s.key, [], [], s.errno⟩ my hk b1
  obtain ⟨es, e1, e2, e3⟩ := hg.edks
  simp only [List.nil_append] at e1
  exact ⟨fun k0 h0 => by rw [b3]; exact hg.keep k0 h0, fun hn => by rw [b3] at hn; exact hg.idle hn, es, by rw [b4, e1], e2,
    fun k hk' => e3 k (by rw [← b3, hk'])⟩

mutual
theorem tree_encrypt (hz : GivesKeys A) {a : Around} (ha : A a) {ctx : EncCtx} {alg : Nat} (hd : DistinctKeys ctx) :
    ∀ (t : KrTree) (p : List Nat) (s s' : EncState), (∀ k, s.key = some k → RightLength alg k.bytes) →
      keyringOnEncrypt (t.keyring a p) ctx alg s = (.ok, s') → Grew A ctx alg (sources p t) s s'
  | .leaf l, p, s, s', hk, h => by
    rw [KrTree.keyring] at h
    rw [sources]
    exact leaf_encrypt hz ha hd hk h
  | .multi children, p, s, s', hk, h => by
    rw [KrTree.keyring] at h
    rw [sources]
    refine multi_grew (fun s s' hk h => ?_) hk h
    exact trees_encrypt hz ha hd children p 1 s s' hk (by simpa using h)
  | .multiGen gen children, p, s, s', hk, h => by
    rw [KrTree.keyring] at h
    rw [sources]
    refine multi_grew (fun s s' hk h => ?_) hk h
    cases h with
    | cons h1 h2 =>
      have g1 := tree_encrypt hz ha hd gen (0 :: p) _ _ hk h1
      exact g1.trans (trees_encrypt hz ha hd children p 1 _ _ g1.right h2)
theorem trees_encrypt (hz : GivesKeys A) {a : Around} (ha : A a) {ctx : EncCtx} {alg : Nat} (hd : DistinctKeys ctx) :
    ∀ (ts : List KrTree) (p : List Nat) (i : Nat) (s s' : EncState), (∀ k, s.key = some k → RightLength alg k.bytes) →
      AllSucceed ctx alg (keyringsAt a p i ts) s s' → Grew A ctx alg (sourcesFrom p i ts) s s'
  | [], p, i, s, s', hk, h => by
    rw [keyringsAt] at h
    rw [sourcesFrom]
    cases h
    exact .refl hk rfl rfl
  | t :: ts, p, i, s, s', hk, h => by
    rw [keyringsAt] at h
    rw [sourcesFrom]
    cases h with
    | cons h1 h2 =>
      have g1 := tree_encrypt hz ha hd t (i :: p) _ _ hk h1
      exact g1.trans (trees_encrypt hz ha hd ts p (i + 1) _ _ g1.right h2)
end

end

/-! ### decryption -/

theorem decrypt_call {f : List Edk → EncCtx → Nat → DecState → KRet × DecState} {g : Option (EncCtx → Nat → EncState → KRet × EncState)}
    {edks : List Edk} {ctx : EncCtx} {alg : Nat} {s s' : DecState} {res : KRet} (hs : s.key = none) (h : f edks ctx alg s = (res, s'))
    (hub : res ≠ .ub) (hk : ∀ k, s'.key = some k → RightLength alg k.bytes) : keyringOnDecrypt ⟨g, some f⟩ edks ctx alg s = (res, s') := by
  simp only [keyringOnDecrypt, hs, h, hub]
  cases hx : s'.key with
  | none => simp
  | some k => simp [(dataKeyLenOK_iff ..).mpr (hk k hx)]

theorem kms_tries {dec : KmsEnv} {kr : KmsKeyring} {ctx : EncCtx} {alg : Nat} {key : Bytes} {edks : List Edk}
    (hh : ∀ e ∈ edks, e.providerId = ascii "aws-kms" → Holds dec ctx key e) (hlen : RightLength alg key) :
    Tries (kmsKeyring dec kr) edks ctx alg key (dec.alloc .dataKey = true ∧ ∃ (i : Nat) (e : Edk) (region : Bytes) (c : Nat), edks[i]? = some e ∧
      MayTry kr e region ∧ dec.client i region = some c ∧ dec.decrypt i c ⟨e.providerInfo, e.ciphertext, ctx, kr.grants⟩ ≠ none) := by
  intro s hs
  have hne := rightLength_ne_nil hlen
  have call : ∀ res s', (∃ calls, kmsOnDecrypt dec kr edks ctx s = (res, s', calls)) → res ≠ .ub → (∀ k, s'.key = some k → RightLength alg k.bytes) →
      keyringOnDecrypt (kmsKeyring dec kr) edks ctx alg s = (res, s') := by
    rintro res s' ⟨calls, h⟩ h1 h2
    exact decrypt_call hs (by simp only [h]) h1 h2
  rcases C54_kms_decrypt dec kr edks ctx s with ⟨calls, rep, hn, he⟩ |
    ⟨e', used, pt, calls, ⟨pre, post, before, rep, region', c', rfl, _, ht', hcl, hdd, rfl⟩, he⟩
  · refine ⟨.ok, s, call _ _ ⟨_, he⟩ (by simp) (by rw [hs]; simp), by simp, .inl hs, ?_⟩
    rintro ⟨-, i, e, region, c, h1, h2, h3, h4⟩
    exfalso
    cases hx : dec.decrypt i c ⟨e.providerInfo, e.ciphertext, ctx, kr.grants⟩ with
    | none => exact h4 hx
    | some x =>
      exact noKey_tried (fun e r k r' k' h h' => ⟨mayTry_unique h.1 h'.1, h.2.trans h'.2.symm⟩) hn h1 ⟨h2, rfl⟩
        (by simpa using h3) (by simpa using hx)
  · obtain ⟨h1, h2⟩ := hh e' (by simp) ht'.1.1 _ _ _ _ _ _ (.inl rfl) hdd
    subst h1 h2
    rcases he with ⟨h, _⟩ | ⟨_, _, h, he⟩ | ⟨_, _, tr, er, _, he⟩
    · exact absurd rfl h
    · refine ⟨.fail, _, call _ _ ⟨_, he⟩ (by simp) (by simp [hs]), by simp, .inl hs, ?_⟩
      rintro ⟨h', -⟩
      rw [h'] at h; cases h
    · rw [if_neg hne] at he
      exact ⟨.ok, _, call _ _ ⟨_, he⟩ (by simp) (by intro k hk; cases hk; exact hlen), by simp, .inr ⟨_, rfl, rfl, rfl⟩, by simp⟩

theorem mrk_sameMrk {kr : MrkKeyring} (hreg : kr.keyId = [] → kr.region ≠ [] ∧ 58 ∉ kr.region) {e : Edk} {region keyId : Bytes}
    (h : MrkMayTry kr e region keyId) : SameMrk keyId e.providerInfo := by
  obtain ⟨_, p, r, acct, res, id, hk, _, ⟨_, h, rfl, _⟩ | ⟨hk0, _, _, h⟩⟩ := h
  · exact h
  · rcases h with ⟨hm, rfl⟩ | ⟨_, _, rfl⟩
    · rw [← mrkMatch_iff]
      exact C55_mrk_match_equivalence.symm ((C55_replicas ⟨hk, hm⟩ _).2 ⟨kr.region, (hreg hk0).1, (hreg hk0).2, rfl⟩)
    · exact .inl rfl

theorem mrkMayTry_unique {kr : MrkKeyring} {e : Edk} {r k r' k' : Bytes} (h : MrkMayTry kr e r k) (h' : MrkMayTry kr e r' k') : r = r' ∧ k = k' := by
  have := (mrkPlan_iff.2 h).symm.trans (mrkPlan_iff.2 h')
  simpa using this

theorem mrk_tries {dec : KmsEnv} {kr : MrkKeyring} {ctx : EncCtx} {alg : Nat} {key : Bytes} {edks : List Edk}
    (hreg : kr.keyId = [] → kr.region ≠ [] ∧ 58 ∉ kr.region) (hh : ∀ e ∈ edks, e.providerId = ascii "aws-kms" → Holds dec ctx key e)
    (hlen : RightLength alg key) :
    Tries (mrkKeyring dec kr) edks ctx alg key (dec.alloc .dataKey = true ∧ ∃ (i : Nat) (e : Edk) (region keyId : Bytes) (c : Nat),
      edks[i]? = some e ∧ MrkMayTry kr e region keyId ∧ dec.client i region = some c ∧
      dec.decrypt i c ⟨keyId, e.ciphertext, ctx, kr.grants⟩ ≠ none) := by
  intro s hs
  have call : ∀ res s', (∃ calls, mrkOnDecrypt dec kr edks ctx alg s = (res, s', calls)) → res ≠ .ub →
      (∀ k, s'.key = some k → RightLength alg k.bytes) → keyringOnDecrypt (mrkKeyring dec kr) edks ctx alg s = (res, s') := by
    rintro res s' ⟨calls, h⟩ h1 h2
    exact decrypt_call hs (by simp only [h]) h1 h2
  have halg : ∃ row ∈ suiteTable, row.id = alg := by
    obtain ⟨row, hr, hid, _⟩ := hlen; exact ⟨row, hr, hid⟩
  rcases C56_mrk_decrypt dec kr edks ctx halg hs with ⟨calls, rep, hn, he⟩ |
    ⟨e', keyId', used, pt, calls, ⟨pre, post, before, rep, region', c', rfl, _, ht', hcl, hdd, rfl⟩, _, he⟩
  · have hno : ¬ (∃ (i : Nat) (e : Edk) (region keyId : Bytes) (c : Nat),
        edks[i]? = some e ∧ MrkMayTry kr e region keyId ∧ dec.client i region = some c ∧
        dec.decrypt i c ⟨keyId, e.ciphertext, ctx, kr.grants⟩ ≠ none) := by
      rintro ⟨i, e, region, keyId, c, h1, h2, h3, h4⟩
      cases hx : dec.decrypt i c ⟨keyId, e.ciphertext, ctx, kr.grants⟩ with
      | none => exact h4 hx
      | some x =>
        obtain ⟨used, pt⟩ := x
        have hrej := noKey_tried (mayTry := MrkMayTry kr) (fun e r k r' k' h h' => mrkMayTry_unique h h') hn h1 h2 (by simpa using h3) (by simpa using hx)
        obtain ⟨g1, g2⟩ := hh e (List.mem_of_getElem? h1) h2.1 _ _ _ _ _ _ (mrk_sameMrk hreg h2) hx
        subst g1 g2
        rcases hrej with h | h
        · exact h rfl
        · exact h hlen
    cases rep with
    | true => exact ⟨.fail, _, call _ _ ⟨_, he⟩ (by simp) (by simp [hs]), by simp, .inl hs, fun h => absurd h.2 hno⟩
    | false => exact ⟨.ok, _, call _ _ ⟨_, he⟩ (by simp) (by simp [hs]), by simp, .inl hs, fun h => absurd h.2 hno⟩
  · obtain ⟨h1, h2⟩ := hh e' (by simp) ht'.1 _ _ _ _ _ _ (mrk_sameMrk hreg ht') hdd
    subst h1 h2
    rcases he with ⟨h, he⟩ | ⟨_, tr, er, _, he⟩
    · refine ⟨.fail, _, call _ _ ⟨_, he⟩ (by simp) (by simp [hs]), by simp, .inl hs, ?_⟩
      rintro ⟨h', -⟩
      rw [h'] at h; cases h
    · exact ⟨.ok, _, call _ _ ⟨_, he⟩ (by simp) (by intro k hk; cases hk; exact hlen), by simp, .inr ⟨_, rfl, rfl, rfl⟩, by simp⟩

/-- As `Tries`, for the loop of a multi-keyring. -/
def LoopTries (krs : List Keyring) (edks : List Edk) (ctx : EncCtx) (alg : Nat) (key : Bytes) (found : Prop) : Prop :=
  ∀ (failed : Bool) (s : DecState), s.key = none → ∃ res s', multiDecLoop edks ctx alg failed krs s = (res, s') ∧ res ≠ .ub ∧
    (s'.key = none ∨ ∃ k, s'.key = some k ∧ k.bytes = key ∧ res = .ok) ∧ (found → s'.key ≠ none)

theorem loop_nil {edks : List Edk} {ctx : EncCtx} {alg : Nat} {key : Bytes} {found : Prop} (h : ¬ found) : LoopTries [] edks ctx alg key found := by
  intro failed s hs
  exact ⟨_, s, rfl, by split <;> simp, Or.inl hs, fun h' => absurd h' h⟩

theorem loop_cons {kr : Keyring} {krs : List Keyring} {edks : List Edk} {ctx : EncCtx} {alg : Nat} {key : Bytes} {found1 found2 found : Prop}
    (h1 : Tries kr edks ctx alg key found1) (h2 : LoopTries krs edks ctx alg key found2) (hf : found → found1 ∨ found2) :
    LoopTries (kr :: krs) edks ctx alg key found := by
  intro failed s hs
  obtain ⟨res, s', a1, a2, a3, a4⟩ := h1 s hs
  rcases a3 with a3 | ⟨k, a3, a5, -⟩
  · obtain ⟨res2, s2, j1, j2, j3, j4⟩ := h2 (failed || res = .fail) s' a3
    refine ⟨res2, s2, ?_, j2, j3, ?_⟩
    · rw [← j1]
      simp only [multiDecLoop, a1, a3]
      cases res with
      | ub => exact absurd rfl a2
      | ok => simp
      | fail => simp
    · intro h
      rcases hf h with h | h
      · exact absurd a3 (a4 h)
      · exact j4 h
  · refine ⟨.ok, s', ?_, by simp, Or.inr ⟨k, a3, a5, rfl⟩, fun _ => by rw [a3]; simp⟩
    simp only [multiDecLoop, a1, a3]
    cases res with
    | ub => exact absurd rfl a2
    | ok => simp
    | fail => simp

theorem multi_tries {m : MultiAlloc} {gen : Option Keyring} {children : List Keyring} {edks : List Edk} {ctx : EncCtx} {alg : Nat} {key : Bytes}
    {found : Prop} (hlen : RightLength alg key) (h : LoopTries (gen.toList ++ children) edks ctx alg key found) :
    Tries (multiKeyring m gen children) edks ctx alg key found := by
  intro s hs
  obtain ⟨res, s', h1, h2, h3, h4⟩ := h false s hs
  refine ⟨res, s', decrypt_call hs h1 h2 ?_, h2, h3, h4⟩
  intro k hk
  rcases h3 with h3 | ⟨k', h3, h5, -⟩
  · rw [h3] at hk; cases hk
  · rw [h3] at hk; cases hk; rw [h5]; exact hlen

mutual
theorem tree_tries {b : Around} {edks : List Edk} {ctx : EncCtx} {alg : Nat} {key : Bytes} (hlen : RightLength alg key) {F : List Nat × Leaf → Prop} :
    ∀ (t : KrTree) (p : List Nat), (∀ y ∈ leaves p t, Tries (y.2.keyring b y.1) edks ctx alg key (F y)) →
      Tries (t.keyring b p) edks ctx alg key (∃ y ∈ leaves p t, F y)
  | .leaf l, p, h => by
    rw [KrTree.keyring]
    rw [leaves] at h ⊢
    have := h (p, l) (by simp)
    intro s hs
    obtain ⟨res, s', h1, h2, h3, h4⟩ := this s hs
    refine ⟨res, s', h1, h2, h3, ?_⟩
    rintro ⟨y, hy, hF⟩
    obtain rfl := List.mem_singleton.mp hy
    exact h4 hF
  | .multi children, p, h => by
    rw [KrTree.keyring]
    rw [leaves] at h ⊢
    exact multi_tries hlen (trees_tries hlen children p 1 h)
  | .multiGen gen children, p, h => by
    rw [KrTree.keyring]
    rw [leaves] at h ⊢
    refine multi_tries hlen ?_
    refine loop_cons (tree_tries hlen gen (0 :: p) (fun y hy => h y (by simp [hy])))
      (trees_tries hlen children p 1 (fun y hy => h y (by simp [hy]))) ?_
    rintro ⟨y, hy, hF⟩
    rcases List.mem_append.mp hy with hy | hy
    · exact .inl ⟨y, hy, hF⟩
    · exact .inr ⟨y, hy, hF⟩
theorem trees_tries {b : Around} {edks : List Edk} {ctx : EncCtx} {alg : Nat} {key : Bytes} (hlen : RightLength alg key) {F : List Nat × Leaf → Prop} :
    ∀ (ts : List KrTree) (p : List Nat) (i : Nat), (∀ y ∈ leavesFrom p i ts, Tries (y.2.keyring b y.1) edks ctx alg key (F y)) →
      LoopTries (keyringsAt b p i ts) edks ctx alg key (∃ y ∈ leavesFrom p i ts, F y)
  | [], p, i, h => by
    rw [keyringsAt, leavesFrom]
    exact loop_nil (by simp)
  | t :: ts, p, i, h => by
    rw [keyringsAt]
    rw [leavesFrom] at h ⊢
    refine loop_cons (tree_tries hlen t (i :: p) (fun y hy => h y (by simp [hy])))
      (trees_tries hlen ts p (i + 1) (fun y hy => h y (by simp [hy]))) ?_
    rintro ⟨y, hy, hF⟩
    rcases List.mem_append.mp hy with hy | hy
    · exact .inl ⟨y, hy, hF⟩
    · exact .inr ⟨y, hy, hF⟩
end

/-! #### finding nothing -/

/-- The keyring leaves no data key. -/
def FindsNone (kr : Keyring) (edks : List Edk) (ctx : EncCtx) (alg : Nat) : Prop :=
  ∀ s : DecState, s.key = none → (keyringOnDecrypt kr edks ctx alg s).2.key = none

theorem findsNone_of {f : List Edk → EncCtx → Nat → DecState → KRet × DecState} {g : Option (EncCtx → Nat → EncState → KRet × EncState)}
    {edks : List Edk} {ctx : EncCtx} {alg : Nat} (h : ∀ s : DecState, s.key = none → (f edks ctx alg s).2.key = none) :
    FindsNone ⟨g, some f⟩ edks ctx alg := by
  intro s hs
  have hk := h s hs
  simp only [keyringOnDecrypt, hs]
  simp [hk]

theorem kms_none {dec : KmsEnv} {kr : KmsKeyring} {ctx : EncCtx} {alg : Nat} {edks : List Edk}
    (hr : ∀ e ∈ edks, ∀ i region c, MayTry kr e region → dec.decrypt i c ⟨e.providerInfo, e.ciphertext, ctx, kr.grants⟩ = none) :
    FindsNone (kmsKeyring dec kr) edks ctx alg := by
  refine findsNone_of (fun s hs => ?_)
  rcases C54_kms_decrypt dec kr edks ctx s with ⟨calls, rep, hn, he⟩ |
    ⟨e', used, pt, calls, ⟨pre, post, before, rep, region', c', rfl, _, ht', hcl, hdd, rfl⟩, he⟩
  · simp only [he]; exact hs
  · rw [hr e' (by simp) _ _ _ ht'.1] at hdd; cases hdd

theorem mrk_none {dec : KmsEnv} {kr : MrkKeyring} {ctx : EncCtx} {alg : Nat} {edks : List Edk} (halg : ∃ row ∈ suiteTable, row.id = alg)
    (hr : ∀ e ∈ edks, ∀ i region keyId c, MrkMayTry kr e region keyId → dec.decrypt i c ⟨keyId, e.ciphertext, ctx, kr.grants⟩ = none) :
    FindsNone (mrkKeyring dec kr) edks ctx alg := by
  refine findsNone_of (fun s hs => ?_)
  rcases C56_mrk_decrypt dec kr edks ctx halg hs with ⟨calls, rep, hn, he⟩ |
    ⟨e', keyId', used, pt, calls, ⟨pre, post, before, rep, region', c', rfl, _, ht', hcl, hdd, rfl⟩, _, he⟩
  · simp only [he]
    split <;> exact hs
  · rw [hr e' (by simp) _ _ _ _ ht'] at hdd; cases hdd

theorem loop_none {edks : List Edk} {ctx : EncCtx} {alg : Nat} : ∀ (krs : List Keyring) (failed : Bool) (s : DecState), s.key = none →
    (∀ kr ∈ krs, FindsNone kr edks ctx alg) → (multiDecLoop edks ctx alg failed krs s).2.key = none := by
  intro krs
  induction krs with
  | nil => intro failed s hs _; exact hs
  | cons kr krs ih =>
    intro failed s hs hr
    have hn := hr kr (by simp) s hs
    simp only [multiDecLoop]
    cases hx : keyringOnDecrypt kr edks ctx alg s with
    | mk res s' =>
      rw [hx] at hn
      cases res with
      | ub => exact hn
      | ok => simp only at hn; simp only [hn]; exact ih _ s' hn (fun x hx => hr x (by simp [hx]))
      | fail => simp only at hn; simp only [hn]; exact ih _ s' hn (fun x hx => hr x (by simp [hx]))

theorem multi_none {m : MultiAlloc} {gen : Option Keyring} {children : List Keyring} {edks : List Edk} {ctx : EncCtx} {alg : Nat}
    (h : ∀ kr ∈ gen.toList ++ children, FindsNone kr edks ctx alg) : FindsNone (multiKeyring m gen children) edks ctx alg :=
  findsNone_of (fun s hs => loop_none _ false s hs h)

mutual
theorem tree_none {b : Around} {edks : List Edk} {ctx : EncCtx} {alg : Nat} :
    ∀ (t : KrTree) (p : List Nat), (∀ y ∈ leaves p t, FindsNone (y.2.keyring b y.1) edks ctx alg) → FindsNone (t.keyring b p) edks ctx alg
  | .leaf l, p, h => by
    rw [KrTree.keyring]
    rw [leaves] at h
    exact h (p, l) (by simp)
  | .multi children, p, h => by
    rw [KrTree.keyring]
    rw [leaves] at h
    exact multi_none (by simpa using trees_none children p 1 h)
  | .multiGen gen children, p, h => by
    rw [KrTree.keyring]
    rw [leaves] at h
    refine multi_none (fun kr hkr => ?_)
    rcases List.mem_append.mp hkr with hkr | hkr
    · simp only [Option.toList_some, List.mem_singleton] at hkr
      subst hkr
      exact tree_none gen (0 :: p) (fun y hy => h y (by simp [hy]))
    · exact trees_none children p 1 (fun y hy => h y (by simp [hy])) kr hkr
theorem trees_none {b : Around} {edks : List Edk} {ctx : EncCtx} {alg : Nat} :
    ∀ (ts : List KrTree) (p : List Nat) (i : Nat), (∀ y ∈ leavesFrom p i ts, FindsNone (y.2.keyring b y.1) edks ctx alg) →
      ∀ kr ∈ keyringsAt b p i ts, FindsNone kr edks ctx alg
  | [], p, i, h => by
    rw [keyringsAt]; simp
  | t :: ts, p, i, h => by
    rw [keyringsAt]
    rw [leavesFrom] at h
    intro kr hkr
    rcases List.mem_cons.mp hkr with rfl | hkr
    · exact tree_none t (i :: p) (fun y hy => h y (by simp [hy]))
    · exact trees_none ts p (i + 1) (fun y hy => h y (by simp [hy])) kr hkr
end

/-! ### the tree as a keyring of `Spec.AnyStack` -/

section
variable {Pair : Curve → Nat → Nat → Prop} {RsaPair : Bytes → Bytes → Prop} {A1 A2 A3 : Around → Prop} {t1 t2 : KrTree}

/-- The raw keyrings among the wrapping keys. -/
def rawsOf (xs : List (List Nat × Source)) : List RawKr := xs.filterMap (fun x => match x.2 with | .raw r => some r | .kms _ => none)

theorem mem_rawsOf {xs : List (List Nat × Source)} {r : RawKr} : r ∈ rawsOf xs ↔ ∃ p, (p, Source.raw r) ∈ xs := by
  simp only [rawsOf, List.mem_filterMap]
  constructor
  · rintro ⟨⟨p, x⟩, h1, h2⟩
    cases x with
    | raw r' => simp only [Option.some.injEq] at h2; subst h2; exact ⟨p, h1⟩
    | kms id => cases h2
  · rintro ⟨p, h⟩
    exact ⟨_, h, rfl⟩

/-- What a tree gave. -/
theorem tree_gave (hz : GivesKeys A1) {ctx : EncCtx} (hd : DistinctKeys ctx) {alg : Nat} {key : Bytes} {edks : List Edk}
    (h : Gave (At A1 t1) ctx alg key edks) : RightLength alg key ∧ edks.length = (sources [] t1).length ∧
      (∀ e ∈ edks, ∃ x ∈ sources [] t1, MadeBy A1 ctx key x e) ∧ ∀ x ∈ sources [] t1, ∃ e ∈ edks, MadeBy A1 ctx key x e := by
  obtain ⟨_, s, k, ⟨a, ha, rfl⟩, h, hk, rfl, rfl⟩ := h
  obtain ⟨es, e1, e2, e3⟩ := (tree_encrypt hz ha hd t1 [] _ s (by simp) h).edks
  simp only [List.nil_append] at e1
  rw [e1]
  obtain ⟨f1, f2, f3⟩ := e3 k hk
  exact ⟨f1, e2, f2, f3⟩

theorem wrapped_id {W : World → Prop} {ctx : EncCtx} {key : Bytes} {r : RawKr} {e : Edk} (h : Wrapped W ctx key r e) : e.providerId = nsOf r := by
  cases r with
  | aes a => obtain ⟨w, iv, ct, tag, aad, -, he, -⟩ := h; exact he.id
  | rsa a => obtain ⟨w, i, pub, ct, -, -, -, -, rfl⟩ := h; rfl

theorem tree_goodWriter (hP : Primitives Pair RsaPair (rawWorlds A1) (rawWorlds A3)) (hz : KmsSizes A1 t1) (h0 : sources [] t1 ≠ [])
    (hn : (sources [] t1).length < 65536) (hs : ∀ x ∈ sources [] t1, ShortSource x.2) : GoodWriter (At A1 t1) where
  key := by
    rintro _ ctx alg s ⟨a, ha, rfl⟩ hd h hk
    exact h0 ((tree_encrypt hz.key ha hd t1 [] _ s (by simp) h).idle hk)
  fits := by
    intro ctx alg key edks hd h
    obtain ⟨f1, f2, f3, f4⟩ := tree_gave hz.key hd h
    refine ⟨by rw [f2]; exact hn, fun e he => ?_⟩
    obtain ⟨⟨p, x⟩, hx, hm⟩ := f3 e he
    have hsh := hs _ hx
    cases x with
    | raw r => exact wrapped_fits hP f1 hsh hm
    | kms id =>
      obtain ⟨a, ha, hm⟩ := hm
      obtain ⟨g1, g2⟩ := hz.fits a p id ctx alg key e ha hx f1 hm
      refine ⟨?_, g1, g2⟩
      rw [hm.1]
      decide

theorem at_healthy {b : Around} {p : List Nat} (h1 : Sound b.world) (h2 : ∀ s, (b.kr p).alloc s = true) : Healthy (b.at p) :=
  ⟨h1.ec, h1.digest, h1.alloc, h1.materials, fun _ s => h2 s⟩

/-- What a leaf of the reader does with what a tree gave. -/
theorem leaf_tries (hP : Primitives Pair RsaPair (rawWorlds A1) (rawWorlds A2)) (hk : KmsHonest A1 A2) {ctx ctx' : EncCtx} (hd : DistinctKeys ctx)
    (hp : ctx.Perm ctx') {alg : Nat} {key : Bytes} {edks : List Edk} {xs : List (List Nat × Source)} (hlen : RightLength alg key)
    (h1 : ∀ e ∈ edks, ∃ x ∈ xs, MadeBy A1 ctx key x e) (h2 : ∀ x ∈ xs, ∃ e ∈ edks, MadeBy A1 ctx key x e) {b : Around} (hb : A2 b)
    {y : List Nat × Leaf} (hall : ∀ x ∈ xs, NoConfusion RsaPair x.2 y.2)
    (hreg : ∀ kr, y.2 = .mrk kr → kr.keyId = [] → kr.region ≠ [] ∧ 58 ∉ kr.region) :
    Tries (y.2.keyring b y.1) edks ctx' alg key (Supplied A2 ∧ ∃ x ∈ xs, Opened RsaPair A1 A2 x y) := by
  obtain ⟨q, l⟩ := y
  have hholds : ∀ kr' : Leaf, (∀ r, kr' ≠ .raw r) → (∀ x ∈ xs, NoConfusion RsaPair x.2 kr') →
      ∀ e ∈ edks, e.providerId = ascii "aws-kms" → Holds (b.kms q) ctx' key e := by
    intro kr' hkr' hc e he hid
    obtain ⟨⟨p, x⟩, hx, hm⟩ := h1 e he
    cases x with
    | raw r =>
      exfalso
      have := hc _ hx
      have hns := wrapped_id hm
      rw [hid] at hns
      cases kr' with
      | raw r' => exact hkr' r' rfl
      | kms kr => exact this hns.symm
      | mrk kr => exact this hns.symm
    | kms id =>
      obtain ⟨a, ha, hm⟩ := hm
      intro j c id' grants used pt hsm hdec
      exact hk a b p q id ctx key e ha hb hm ctx' j c id' grants used pt hp hsm hdec
  cases l with
  | raw r' =>
    have hr := raw_decrypt hP (W2 := rawWorlds A2) (w2 := b.at q) ⟨b, q, hb, rfl⟩ (i := 0) hd hp hlen (rs := rawsOf xs) (r' := r') (edks := edks)
      (fun e he => by
        obtain ⟨⟨p, x⟩, hx, hm⟩ := h1 e he
        cases x with
        | raw r => exact .inl ⟨r, mem_rawsOf.mpr ⟨p, hx⟩, hm⟩
        | kms id =>
          right
          obtain ⟨a, ha, hm⟩ := hm
          rw [hm.1]
          exact fun h => hall _ hx h.symm)
      (fun r hr => by
        obtain ⟨p, hx⟩ := mem_rawsOf.mp hr
        obtain ⟨e, he, hm⟩ := h2 _ hx
        exact ⟨e, he, hm⟩)
      (fun r hr => by
        obtain ⟨p, hx⟩ := mem_rawsOf.mp hr
        exact hall _ hx)
    intro s hs
    obtain ⟨res, s', a1, a2, a3, a4⟩ := hr s hs
    refine ⟨res, s', a1, a2, a3, ?_⟩
    rintro ⟨hsup, ⟨p, x⟩, hx, ho⟩
    cases x with
    | raw r => exact a4 ⟨at_healthy (hsup.world b hb) (fun s => hsup.raw b q s hb), r, mem_rawsOf.mpr ⟨p, hx⟩, ho⟩
    | kms id => exact ho.elim
  | kms kr =>
    intro s hs
    obtain ⟨res, s', a1, a2, a3, a4⟩ := kms_tries (kr := kr) (hholds (.kms kr) (by simp) hall) hlen s hs
    refine ⟨res, s', a1, a2, a3, ?_⟩
    rintro ⟨hsup, ⟨p, x⟩, hx, ho⟩
    cases x with
    | raw r => exact ho.elim
    | kms id =>
      obtain ⟨e, he, a, ha, hm⟩ := h2 _ hx
      obtain ⟨i, hi⟩ := List.getElem?_of_mem he
      obtain ⟨region, c, g1, g2, g3⟩ := ho a b ctx ctx' key e i ha hb hm hp
      exact a4 ⟨hsup.kms b q hb, i, e, region, c, hi, g1, g2, g3⟩
  | mrk kr =>
    intro s hs
    obtain ⟨res, s', a1, a2, a3, a4⟩ := mrk_tries (kr := kr) (hreg kr rfl) (hholds (.mrk kr) (by simp) hall) hlen s hs
    refine ⟨res, s', a1, a2, a3, ?_⟩
    rintro ⟨hsup, ⟨p, x⟩, hx, ho⟩
    cases x with
    | raw r => exact ho.elim
    | kms id =>
      obtain ⟨e, he, a, ha, hm⟩ := h2 _ hx
      obtain ⟨i, hi⟩ := List.getElem?_of_mem he
      obtain ⟨region, keyId, c, g1, g2, g3⟩ := ho a b ctx ctx' key e i ha hb hm hp
      exact a4 ⟨hsup.kms b q hb, i, e, region, keyId, c, hi, g1, g2, g3⟩

theorem tree_reads (hP : Primitives Pair RsaPair (rawWorlds A1) (rawWorlds A2)) (hk : KmsHonest A1 A2) (hz : GivesKeys A1)
    (hc : TreeReads RsaPair A1 A2 t1 t2) {ctx ctx' : EncCtx} (hd : DistinctKeys ctx) (hp : ctx.Perm ctx') {alg : Nat} {key : Bytes} {edks edks' : List Edk}
    (h : Gave (At A1 t1) ctx alg key edks) (hpe : edks.Perm edks') {b : Around} (hb : A2 b) :
    Tries (t2.keyring b []) edks' ctx' alg key (Supplied A2) := by
  obtain ⟨f1, -, f3, f4⟩ := tree_gave hz hd h
  replace f3 : ∀ e ∈ edks', ∃ x ∈ sources [] t1, MadeBy A1 ctx key x e := fun e he => f3 e (hpe.mem_iff.mpr he)
  replace f4 : ∀ x ∈ sources [] t1, ∃ e ∈ edks', MadeBy A1 ctx key x e := fun x hx =>
    let ⟨e, he, hm⟩ := f4 x hx
    ⟨e, hpe.mem_iff.mp he, hm⟩
  have ht := tree_tries (b := b) f1 (F := fun y => Supplied A2 ∧ ∃ x ∈ sources [] t1, Opened RsaPair A1 A2 x y) t2 []
    (fun y hy => leaf_tries hP hk hd hp f1 f3 f4 hb (fun x hx => hc.all x hx y hy)
      (fun kr hkr => hc.region y.1 kr (by rw [← hkr]; exact hy)))
  obtain ⟨x, hx, y, hy, ho⟩ := hc.some
  intro s hs
  obtain ⟨res, s', a1, a2, a3, a4⟩ := ht s hs
  exact ⟨res, s', a1, a2, a3, fun hsup => a4 ⟨y, hy, hsup, x, hx, ho⟩⟩

theorem tree_neverMistaken_any (hP : Primitives Pair RsaPair (rawWorlds A1) (rawWorlds A2)) (hk : KmsHonest A1 A2) (hz : GivesKeys A1)
    (hc : TreeReads RsaPair A1 A2 t1 t2) : NeverMistakenAnyOrder (At A1 t1) (At A2 t2) := by
  rintro ctx ctx' alg key edks0 edks _ s k hd h hp hpe ⟨b, hb, rfl⟩ hdec hsk
  obtain ⟨res, s', a1, a2, a3, -⟩ := tree_reads hP hk hz hc hd hp h hpe hb ⟨none, [], b.world.lastErr⟩ rfl
  rw [hdec] at a1
  cases a1
  rcases a3 with a3 | ⟨k', a3, a5, -⟩
  · rw [hsk] at a3; cases a3
  · rw [hsk] at a3; cases a3; exact a5

theorem tree_alwaysFinds_any (hP : Primitives Pair RsaPair (rawWorlds A1) (rawWorlds A2)) (hk : KmsHonest A1 A2) (hz : GivesKeys A1)
    (hc : TreeReads RsaPair A1 A2 t1 t2) (hsup : Supplied A2) : AlwaysFindsAnyOrder (At A1 t1) (At A2 t2) := by
  rintro ctx ctx' alg key edks0 edks _ hd h hp hpe ⟨b, hb, rfl⟩
  obtain ⟨res, s', a1, a2, a3, a4⟩ := tree_reads hP hk hz hc hd hp h hpe hb ⟨none, [], b.world.lastErr⟩ rfl
  rcases a3 with a3 | ⟨k', a3, a5, rfl⟩
  · exact absurd a3 (a4 hsup)
  · exact ⟨s', k', a1, a3, a5⟩

theorem tree_neverFinds_any (hz : GivesKeys A1) (hc : ∀ x ∈ sources [] t1, ∀ y ∈ leaves [] t2, Apart A1 A2 x y) :
    NeverFindsAnyOrder (At A1 t1) (At A2 t2) := by
  rintro ctx ctx' alg key edks0 edks _ s hd h hp hpe ⟨b, hb, rfl⟩ hdec
  obtain ⟨f1, -, f3, -⟩ := tree_gave hz hd h
  replace f3 : ∀ e ∈ edks, ∃ x ∈ sources [] t1, MadeBy A1 ctx key x e := fun e he => f3 e (hpe.mem_iff.mpr he)
  have halg : ∃ row ∈ suiteTable, row.id = alg := by
    obtain ⟨row, hr, hid, _⟩ := f1; exact ⟨row, hr, hid⟩
  have hnone : FindsNone (t2.keyring b []) edks ctx' alg := by
    refine tree_none t2 [] ?_
    rintro ⟨q, l⟩ hy
    cases l with
    | raw r' =>
      intro s hs
      refine raw_none (W1 := rawWorlds A1) (w2 := b.at q) (i := 0) ((WF_perm hp).mp hd) (ctx := ctx) (key := key) (rs := rawsOf (sources [] t1))
        (fun e he => ?_) (fun r hr => ?_) rfl hs
      · obtain ⟨⟨p, x⟩, hx, hm⟩ := f3 e he
        cases x with
        | raw r => exact .inl ⟨r, mem_rawsOf.mpr ⟨p, hx⟩, hm⟩
        | kms id =>
          right
          obtain ⟨a, ha, hm⟩ := hm
          rw [hm.1]
          exact fun h => hc _ hx _ hy h.symm
      · obtain ⟨p, hx⟩ := mem_rawsOf.mp hr
        exact hc _ hx _ hy
    | kms kr =>
      refine kms_none (fun e he i region c hmay => ?_)
      obtain ⟨⟨p, x⟩, hx, hm⟩ := f3 e he
      cases x with
      | raw r => exact absurd (hmay.1.symm.trans (wrapped_id hm)).symm (hc _ hx _ hy)
      | kms id =>
        obtain ⟨a, ha, hm⟩ := hm
        exact hc _ hx _ hy a b ctx ctx' key e i region c ha hb hm hp hmay
    | mrk kr =>
      refine mrk_none halg (fun e he i region keyId c hmay => ?_)
      obtain ⟨⟨p, x⟩, hx, hm⟩ := f3 e he
      cases x with
      | raw r => exact absurd (hmay.1.symm.trans (wrapped_id hm)).symm (hc _ hx _ hy)
      | kms id =>
        obtain ⟨a, ha, hm⟩ := hm
        exact hc _ hx _ hy a b ctx ctx' key e i region keyId c ha hb hm hp hmay
  have := hnone ⟨none, [], b.world.lastErr⟩ rfl
  rw [hdec] at this
  exact this

theorem tree_neverMistaken (hP : Primitives Pair RsaPair (rawWorlds A1) (rawWorlds A2)) (hk : KmsHonest A1 A2) (hz : GivesKeys A1)
    (hc : TreeReads RsaPair A1 A2 t1 t2) : NeverMistaken (At A1 t1) (At A2 t2) :=
  fun ctx ctx' alg key edks m s k hd h hp => tree_neverMistaken_any hP hk hz hc ctx ctx' alg key edks edks m s k hd h hp (.refl _)

theorem tree_alwaysFinds (hP : Primitives Pair RsaPair (rawWorlds A1) (rawWorlds A2)) (hk : KmsHonest A1 A2) (hz : GivesKeys A1)
    (hc : TreeReads RsaPair A1 A2 t1 t2) (hsup : Supplied A2) : AlwaysFinds (At A1 t1) (At A2 t2) :=
  fun ctx ctx' alg key edks m hd h hp => tree_alwaysFinds_any hP hk hz hc hsup ctx ctx' alg key edks edks m hd h hp (.refl _)

theorem tree_neverFinds (hz : GivesKeys A1) (hc : ∀ x ∈ sources [] t1, ∀ y ∈ leaves [] t2, Apart A1 A2 x y) :
    NeverFinds (At A1 t1) (At A2 t2) :=
  fun ctx ctx' alg key edks m s hd h hp => tree_neverFinds_any hz hc ctx ctx' alg key edks edks m s hd h hp (.refl _)

theorem tree_ciphers (hP : Primitives Pair RsaPair (rawWorlds A1) (rawWorlds A2)) : Ciphers Pair (worlds (At A1 t1)) (worlds (At A2 t2)) := by
  have h1 : ∀ w, worlds (At A1 t1) w → ∃ p, rawWorlds A1 { w with kr := p } := by
    rintro _ ⟨_, ⟨a, ha, rfl⟩, rfl⟩
    exact ⟨_, a, [], ha, rfl⟩
  have h2 : ∀ w, worlds (At A2 t2) w → ∃ p, rawWorlds A2 { w with kr := p } := by
    rintro _ ⟨_, ⟨a, ha, rfl⟩, rfl⟩
    exact ⟨_, a, [], ha, rfl⟩
  refine ⟨?_, ?_, ?_, ?_, ?_, ?_, ?_⟩
  · intro w1 w2 k iv aad pt ct tag g1 g2 h
    obtain ⟨p, g1⟩ := h1 w1 g1
    obtain ⟨q, g2⟩ := h2 w2 g2
    exact hP.aead { w1 with kr := p } { w2 with kr := q } k iv aad pt ct tag g1 g2 h
  · intro w1 w2 sha k m t g1 g2 h
    obtain ⟨p, g1⟩ := h1 w1 g1
    obtain ⟨q, g2⟩ := h2 w2 g2
    exact hP.hmac { w1 with kr := p } { w2 with kr := q } sha k m t g1 g2 h
  · intro w1 c g1
    obtain ⟨p, g1⟩ := h1 w1 g1
    exact hP.newKey { w1 with kr := p } c g1
  · intro w1 c d q g1 h
    obtain ⟨p, g1⟩ := h1 w1 g1
    exact hP.signs { w1 with kr := p } c d q g1 h
  · intro w1 c d q g1 h
    obtain ⟨p, g1⟩ := h1 w1 g1
    exact hP.codec { w1 with kr := p } c d q g1 h
  · intro w1 g1
    obtain ⟨p, g1⟩ := h1 w1 g1
    exact hP.negation { w1 with kr := p } g1
  · intro w1 w2 g1 g2
    obtain ⟨p, g1⟩ := h1 w1 g1
    obtain ⟨q, g2⟩ := h2 w2 g2
    exact hP.same { w1 with kr := p } { w2 with kr := q } g1 g2

end

end Verif.Props
