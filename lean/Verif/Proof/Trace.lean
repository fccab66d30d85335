import Verif.Spec.Trace
import Verif.Proof.KeyringTree
import Verif.Proof.SessionHist
/-
Lemmas about the keyring trace.
-/
namespace Verif.Props
open Spec

/-! ### lists -/

theorem inOrder_append {R : α → β → Prop} {as as' : List α} {bs bs' : List β} (h : InOrder R as bs) (h' : InOrder R as' bs') :
    InOrder R (as ++ as') (bs ++ bs') := by
  induction h with
  | nil => exact h'
  | cons h1 _ ih => exact .cons h1 ih

theorem inOrder_map {R : α → β → Prop} {f : γ → α} {cs : List γ} {bs : List β} (h : InOrder (fun c b => R (f c) b) cs bs) :
    InOrder R (cs.map f) bs := by
  induction h with
  | nil => exact .nil
  | cons h1 _ ih => exact .cons h1 ih

theorem wrapRecords_false (xs : List Source) : wrapRecords false xs = xs.map (wrapRecord false) := by
  cases xs <;> rfl

theorem wrapRecords_append {b : Bool} {xs ys : List Source} (h : xs ≠ []) : wrapRecords b (xs ++ ys) = wrapRecords b xs ++ wrapRecords false ys := by
  cases xs with
  | nil => exact absurd rfl h
  | cons x xs => rw [wrapRecords_false]; simp [wrapRecords]

/-- The list `recs` says about the keys `xs` nothing wrong and, if there was memory, everything. -/
structure Says (mem : Prop) (fresh : Bool) (xs : List Source) (recs : List TraceRec) : Prop where
  sub : recs.Sublist (wrapRecords fresh xs)
  all : mem → recs = wrapRecords fresh xs

theorem Says.append {mem : Prop} {fresh : Bool} {xs ys : List Source} {recs recs' : List TraceRec} (hne : xs ≠ []) (h : Says mem fresh xs recs)
    (h' : Says mem false ys recs') : Says mem fresh (xs ++ ys) (recs ++ recs') := by
  exact ⟨by rw [wrapRecords_append hne]; exact h.sub.append h'.sub, fun hm => by rw [wrapRecords_append hne, h.all hm, h'.all hm]⟩

theorem Says.append' {mem : Prop} {xs ys : List Source} {recs recs' : List TraceRec} (h : Says mem false xs recs)
    (h' : Says mem false ys recs') : Says mem false (xs ++ ys) (recs ++ recs') := by
  cases xs with
  | nil =>
    have : recs = [] := by simpa [wrapRecords] using h.sub
    subst this
    exact h'
  | cons x xs => exact h.append (by simp) h'

theorem Says.pre {mem mem' : Prop} {fresh : Bool} {xs : List Source} {recs recs' : List TraceRec} (h : Says mem fresh xs recs) (hp : recs' <+: recs)
    (ha : mem' → recs' = recs ∧ mem) : Says mem' fresh xs recs' :=
  ⟨hp.sublist.trans h.sub, fun hm => by rw [(ha hm).1, h.all (ha hm).2]⟩

/-! ### encryption -/

/-- What a successful call with the wrapping keys `srcs` does. -/
structure Told (a : Around) (ctx : EncCtx) (srcs : List (List Nat × Source)) (s s' : EncState) : Prop where
  keep : ∀ k0, s.key = some k0 → s'.key = some k0
  idle : s'.key = none → srcs = []
  made : s.key = none → srcs = [] → s'.key = none
  trace : ∃ recs, s'.trace = s.trace ++ recs ∧ Says (TraceMemory a) s.key.isNone (srcs.map Prod.snd) recs
  edks : ∃ es, s'.edks = s.edks ++ es ∧ InOrder (EdkOf a ctx (keyBytes s'.key)) srcs es

theorem Told.refl {a : Around} {ctx : EncCtx} {s s' : EncState} (h1 : s'.key = s.key) (h2 : s'.edks = s.edks) (h3 : s'.trace = s.trace) :
    Told a ctx [] s s' :=
  ⟨fun k h => by rw [h1, h], fun _ => rfl, fun h _ => by rw [h1, h], ⟨[], by simp [h3], by simp [wrapRecords], fun _ => rfl⟩, ⟨[], by simp [h2], .nil⟩⟩

theorem Told.trans {a : Around} {ctx : EncCtx} {xs ys : List (List Nat × Source)} {s s1 s2 : EncState} (h : Told a ctx xs s s1)
    (h' : Told a ctx ys s1 s2) : Told a ctx (xs ++ ys) s s2 := by
  obtain ⟨r1, t1, e1⟩ := h.trace
  obtain ⟨r2, t2, e2⟩ := h'.trace
  obtain ⟨es, f1, f2⟩ := h.edks
  obtain ⟨fs, g1, g2⟩ := h'.edks
  have hidle : s2.key = none → s1.key = none := by
    intro hn
    cases hx : s1.key with
    | none => rfl
    | some k => rw [h'.keep k hx] at hn; cases hn
  refine ⟨fun k hk => h'.keep k (h.keep k hk), fun hn => ?_, ?_, ⟨r1 ++ r2, by rw [t2, t1, List.append_assoc], ?_⟩,
    ⟨es ++ fs, by rw [g1, f1, List.append_assoc], ?_⟩⟩
  · rw [h.idle (hidle hn), h'.idle hn]; rfl
  · intro hk hxy
    obtain ⟨rfl, rfl⟩ := List.append_eq_nil_iff.mp hxy
    exact h'.made (h.made hk rfl) rfl
  · rw [List.map_append]
    cases hk : s.key with
    | some k =>
      rw [hk] at e1
      rw [h.keep k hk] at e2
      exact e1.append' e2
    | none =>
      rw [hk] at e1
      cases hk1 : s1.key with
      | none =>
        have := h.idle hk1
        subst this
        have hr : r1 = [] := by simpa [wrapRecords] using e1.sub
        subst hr
        rw [hk1] at e2
        exact e2
      | some k =>
        rw [hk1] at e2
        refine e1.append (fun hx => ?_) e2
        have := h.made hk (by simpa using hx)
        rw [hk1] at this; cases this
  · cases hk1 : s1.key with
    | none =>
      have := h.idle hk1
      subst this
      cases f2
      exact g2
    | some k1 =>
      rw [hk1] at f2
      rw [h'.keep k1 hk1] at g2 ⊢
      exact inOrder_append f2 g2

/-! #### raw keyrings -/

theorem addTrace_says {env : KrEnv} {mem : Prop} (hm : mem → env.alloc .traceRecord = true) (t : List TraceRec) (errno : Err) {fresh : Bool} {x : Source}
    {r : TraceRec} (hr : r = wrapRecord fresh x) : ∃ recs, (addTrace env t errno r).1 = t ++ recs ∧ Says mem fresh [x] recs := by
  subst hr
  unfold addTrace
  split
  · exact ⟨_, rfl, List.Sublist.refl _, fun _ => rfl⟩
  · next h => exact ⟨[], by simp, by simp, fun hx => absurd (hm hx) h⟩

theorem aes_trace {env : KrEnv} {mem : Prop} (hm : mem → env.alloc .traceRecord = true) {kr : RawAes} {ctx : EncCtx} {alg : Nat} {s s' : EncState}
    (h : aesOnEncrypt env kr ctx alg s = (.ok, s')) :
    ∃ recs, s'.trace = s.trace ++ recs ∧ Says mem s.key.isNone [.raw (.aes kr)] recs := by
  have fin : ∀ p iv k flags, aesFinish env kr ctx p iv k flags s = (.ok, s') → (flags = if s.key.isNone then 1 else 0) →
      ∃ recs, s'.trace = s.trace ++ recs ∧ Says mem s.key.isNone [.raw (.aes kr)] recs := by
    intro p iv k flags h hf
    unfold aesFinish at h
    split at h
    · cases h
    · cases h
      exact addTrace_says hm _ _ (by simp [wrapRecord, hf, generatedFlag, encryptedFlag, signedFlag])
  unfold aesOnEncrypt at h
  repeat' split at h
  all_goals first | (cases h; done) | skip
  · next hk => exact fin _ _ _ _ h (by simp [hk])
  · next hk _ _ _ _ => exact fin _ _ _ _ h (by simp [hk])

theorem rsa_trace {env : KrEnv} {mem : Prop} (hm : mem → env.alloc .traceRecord = true) {kr : RawRsa} {ctx : EncCtx} {alg : Nat} {s s' : EncState}
    (h : rsaOnEncrypt env kr ctx alg s = (.ok, s')) :
    ∃ recs, s'.trace = s.trace ++ recs ∧ Says mem s.key.isNone [.raw (.rsa kr)] recs := by
  have fin : ∀ pub k flags, rsaFinish env kr pub k flags s = (.ok, s') → (flags = if s.key.isNone then 1 else 0) →
      ∃ recs, s'.trace = s.trace ++ recs ∧ Says mem s.key.isNone [.raw (.rsa kr)] recs := by
    intro pub k flags h hf
    unfold rsaFinish at h
    split at h
    · cases h
    · cases h
      exact addTrace_says hm _ _ (by simp [wrapRecord, hf, generatedFlag, encryptedFlag])
  unfold rsaOnEncrypt at h
  repeat' split at h
  all_goals first | (cases h; done) | skip
  · next hk => exact fin _ _ _ h (by simp [hk])
  · next hk _ _ _ _ _ _ _ => exact fin _ _ _ h (by simp [hk])

/-! #### KMS keyrings -/

theorem kmsAppend_says {env : KmsEnv} {mem : Prop} {i : Nat} (hm : mem → env.alloc (.trace i) = true) {my my' : KmsLocal} {keyId ct id : Bytes} {flags : Nat}
    {fresh : Bool} (hf : flags = if fresh then 1 + 2 + 8 else 2 + 8) (h : kmsAppend env i my keyId ct id flags = some my') :
    my'.edks = my.edks ++ [⟨kmsProvider, keyId, ct⟩] ∧ ∃ recs, my'.trace = my.trace ++ recs ∧ Says mem fresh [.kms id] recs := by
  obtain ⟨h1, t, h2, h3, h4⟩ := kmsAppend_some h
  have : [kmsRec flags id] = wrapRecords fresh [.kms id] := by
    subst hf
    cases fresh <;> rfl
  rw [this] at h3 h4
  exact ⟨h1, t, h2, h3, fun hx => h4 (hm hx)⟩

theorem kmsEncLoop_says {env : KmsEnv} {mem : Prop} (hm : mem → ∀ i, env.alloc (.trace i) = true) {grants : List Bytes} {ctx : EncCtx} {key : Bytes} :
    ∀ {ids : List Bytes} {i : Nat} {my my' : KmsLocal} {calls : List KmsCall}, kmsEncLoop env grants ctx key i my ids = (.ok my', calls) →
    (∃ es, my'.edks = my.edks ++ es ∧ InOrder (fun id e => KmsMade env id ctx key e) ids es) ∧
      ∃ recs, my'.trace = my.trace ++ recs ∧ Says mem false (ids.map .kms) recs
  | [], i, my, my', calls, h => by
    simp only [kmsEncLoop, Prod.mk.injEq, Except.ok.injEq] at h
    obtain ⟨rfl, -⟩ := h
    exact ⟨⟨[], by simp, .nil⟩, [], by simp, by simp [wrapRecords], fun _ => rfl⟩
  | id :: ids, i, my, my', calls, h => by
    rw [kmsEncLoop] at h
    cases hc : env.client i (parseRegion id) with
    | none => rw [hc] at h; simp at h
    | some c =>
      rw [hc] at h
      simp only at h
      cases he : env.encrypt i c ⟨id, key, ctx, grants⟩ with
      | none => rw [he] at h; simp at h
      | some x =>
        obtain ⟨keyId, ct⟩ := x
        rw [he] at h
        simp only at h
        cases ha : kmsAppend env i my keyId ct id (2 + 8) with
        | none => rw [ha] at h; simp at h
        | some my1 =>
          rw [ha] at h
          simp only at h
          cases hl : kmsEncLoop env grants ctx key (i + 1) my1 ids with
          | mk r calls' =>
            rw [hl] at h
            simp only [Prod.mk.injEq] at h
            obtain ⟨rfl, -⟩ := h
            obtain ⟨⟨es, e1, e2⟩, recs, t1, t2⟩ := kmsEncLoop_says hm hl
            obtain ⟨f1, recs', u1, u2⟩ := kmsAppend_says (fresh := false) (fun hx => hm hx i) (by simp) ha
            have hmade : KmsMade env id ctx key ⟨kmsProvider, keyId, ct⟩ := ⟨rfl, .inl ⟨i, c, grants, he⟩⟩
            exact ⟨⟨⟨kmsProvider, keyId, ct⟩ :: es, by rw [e1, f1]; simp, .cons hmade e2⟩, recs' ++ recs, by rw [t1, u1]; simp,
              u2.append' t2⟩

theorem kmsTransfer_says {env : KmsEnv} {mem : Prop} (hm : mem → ∀ i, env.pushTrace i = true) {s s' : EncState} {key : Option KeyBuf} {b fresh : Bool}
    {my : KmsLocal} {xs : List Source} (h : kmsTransfer env s key b my = (.ok, s')) (ht : Says mem fresh xs my.trace) :
    ∃ recs, s'.trace = s.trace ++ recs ∧ Says mem fresh xs recs := by
  unfold kmsTransfer at h
  simp only at h
  split at h
  · cases h
  · cases h
    obtain ⟨l, h1, h2, h3, -⟩ := transferLoop_prefix env.pushTrace 0 s.trace my.trace
    refine ⟨l, h2, ht.pre h1 fun hx => ⟨h3 ?_, hx⟩⟩
    rw [transferLoop_all (hm hx)]

theorem kmsEncRest_says {env : KmsEnv} {mem : Prop} (hm : mem → ∀ i, env.alloc (.trace i) = true ∧ env.pushTrace i = true) {kr : KmsKeyring} {ctx : EncCtx}
    {s s' : EncState} {key : Option KeyBuf} {b fresh : Bool} {i : Nat} {my : KmsLocal} {xs : List Source} {ids : List Bytes} {calls : List KmsCall}
    (h : kmsEncRest env kr ctx s key b i my ids = (.ok, s', calls)) (ht : Says mem fresh xs my.trace) (hx : xs ≠ [] ∨ fresh = false) :
    s'.key = key ∧ (∃ es, s'.edks = s.edks ++ (my.edks ++ es) ∧ InOrder (fun id e => KmsMade env id ctx (keyBytes key) e) ids es) ∧
      ∃ recs, s'.trace = s.trace ++ recs ∧ Says mem fresh (xs ++ ids.map .kms) recs := by
  unfold kmsEncRest at h
  cases hl : kmsEncLoop env kr.grants ctx (keyBytes key) i my ids with
  | mk r c =>
    rw [hl] at h
    cases r with
    | error e => simp at h
    | ok my1 =>
      simp only at h
      obtain ⟨⟨es, e1, e2⟩, recs, t1, t2⟩ := kmsEncLoop_says (fun hx i => (hm hx i).1) hl
      have htr : kmsTransfer env s key b my1 = (.ok, s') := by
        cases hx : kmsTransfer env s key b my1 with
        | mk r1 s1 =>
          rw [hx] at h
          simp only [Prod.mk.injEq] at h
          rw [h.1, h.2.1]
      obtain ⟨k1, k2⟩ := kmsTransfer_ok htr
      refine ⟨k1, ⟨es, by rw [k2, e1], e2⟩, ?_⟩
      refine kmsTransfer_says (fun hx i => (hm hx i).2) htr ?_
      rw [t1]
      rcases hx with hx | rfl
      · exact ht.append hx t2
      · exact ht.append' t2

theorem kms_told {a : Around} {p : List Nat} {kr : KmsKeyring} {ctx : EncCtx} {alg : Nat} {s s' : EncState}
    (h : keyringOnEncrypt (kmsKeyring (a.kms p) kr) ctx alg s = (.ok, s')) :
    (kr.keyIds = [] → s'.key = s.key) ∧
    (∃ recs, s'.trace = s.trace ++ recs ∧ Says (TraceMemory a) s.key.isNone (kr.keyIds.map Source.kms) recs) ∧
    ∃ es, s'.edks = s.edks ++ es ∧ InOrder (fun id e => KmsMade (a.kms p) id ctx (keyBytes s'.key) e) kr.keyIds es := by
  obtain ⟨h, hc⟩ := call_ok h
  have h : ∃ calls, kmsOnEncrypt (a.kms p) kr ctx alg s = (.ok, s', calls) := by
    cases hx : kmsOnEncrypt (a.kms p) kr ctx alg s with
    | mk r x =>
      obtain ⟨s1, calls⟩ := x
      rw [hx] at h
      simp only [Prod.mk.injEq] at h
      exact ⟨calls, by rw [h.1, h.2]⟩
  obtain ⟨calls, h⟩ := h
  unfold kmsOnEncrypt at h
  cases hi : kr.keyIds with
  | nil =>
    rw [hi] at h
    simp only [Prod.mk.injEq] at h
    obtain ⟨-, rfl, -⟩ := h
    exact ⟨fun _ => rfl, ⟨[], by simp, by simp [wrapRecords], fun _ => rfl⟩, [], by simp, .nil⟩
  | cons id ids =>
    rw [hi] at h
    simp only at h
    refine ⟨by simp, ?_⟩
    split at h
    · simp at h
    · cases hs : s.key with
      | some k =>
        rw [hs] at h
        simp only at h
        obtain ⟨h1, ⟨es, h2, h3⟩, h4⟩ := kmsEncRest_says (mem := TraceMemory a) (fresh := false) (xs := []) (fun hm i => hm.kms p i) h
          ⟨by simp, fun _ => rfl⟩ (.inr rfl)
        refine ⟨h4, es, by simpa using h2, by rw [h1]; exact h3⟩
      | none =>
        rw [hs] at h
        simp only at h
        cases hp : algProps alg with
        | none => rw [hp] at h; simp at h
        | some pr =>
          rw [hp] at h
          simp only at h
          cases hcl : (a.kms p).client 0 (parseRegion id) with
          | none => rw [hcl] at h; simp at h
          | some c =>
            rw [hcl] at h
            simp only at h
            cases hg : (a.kms p).generate c ⟨id, pr.dataKeyLen, ctx, kr.grants⟩ with
            | none => rw [hg] at h; simp at h
            | some x =>
              obtain ⟨keyId, ct, pt⟩ := x
              rw [hg] at h
              simp only at h
              cases happ : kmsAppend (a.kms p) 0 ⟨[], [], s.errno⟩ keyId ct id (1 + 2 + 8) with
              | none => rw [happ] at h; simp at h
              | some my =>
                cases hdup : dupKey (a.kms p) pt with
                | none => rw [happ, hdup] at h; simp at h
                | some key =>
                  rw [happ, hdup] at h
                  simp only at h
                  have hkb : keyBytes key = pt := by
                    unfold dupKey at hdup
                    split at hdup
                    · next h0 => cases hdup; rw [h0]; rfl
                    · split at hdup
                      · cases hdup; rfl
                      · cases hdup
                  cases hr : kmsEncRest (a.kms p) kr ctx s key true 1 my ids with
                  | mk r y =>
                    obtain ⟨s1, calls1⟩ := y
                    rw [hr] at h
                    simp only [Prod.mk.injEq] at h
                    obtain ⟨rfl, rfl, -⟩ := h
                    obtain ⟨f1, recs, f2, f3⟩ := kmsAppend_says (mem := TraceMemory a) (fresh := true) (fun hm => (hm.kms p 0).1) (by simp) happ
                    simp only [List.nil_append] at f1 f2
                    obtain ⟨h1, ⟨es, h2, h3⟩, h4⟩ := kmsEncRest_says (mem := TraceMemory a) (fresh := true) (xs := [.kms id])
                      (fun hm i => hm.kms p i) hr (by rw [f2]; exact f3) (.inl (by simp))
                    refine ⟨h4, _, h2, ?_⟩
                    rw [h1, f1]
                    exact .cons ⟨rfl, .inr ⟨c, _, _, by rw [hkb]; exact hg⟩⟩ h3

theorem mrk_told {a : Around} {p : List Nat} {kr : MrkKeyring} {ctx : EncCtx} {alg : Nat} {s s' : EncState}
    (h : keyringOnEncrypt (mrkKeyring (a.kms p) kr) ctx alg s = (.ok, s')) :
    kr.keyId ≠ [] ∧
    (∃ recs, s'.trace = s.trace ++ recs ∧ Says (TraceMemory a) s.key.isNone [.kms kr.keyId] recs) ∧
    ∃ e, s'.edks = s.edks ++ [e] ∧ KmsMade (a.kms p) kr.keyId ctx (keyBytes s'.key) e := by
  obtain ⟨h, hc⟩ := call_ok h
  have h : ∃ calls, mrkOnEncrypt (a.kms p) kr ctx alg s = (.ok, s', calls) := by
    cases hx : mrkOnEncrypt (a.kms p) kr ctx alg s with
    | mk r x =>
      obtain ⟨s1, calls⟩ := x
      rw [hx] at h
      simp only [Prod.mk.injEq] at h
      exact ⟨calls, by rw [h.1, h.2]⟩
  obtain ⟨calls, h⟩ := h
  have fin : ∀ {key : Option KeyBuf} {b : Bool} {my : KmsLocal} {call : KmsCall} {e : Edk}, mrkEncFinish (a.kms p) s key b my call = (.ok, s', calls) →
      my.edks = [e] → KmsMade (a.kms p) kr.keyId ctx (keyBytes key) e →
      (∃ recs, my.trace = [] ++ recs ∧ Says (TraceMemory a) s.key.isNone [.kms kr.keyId] recs) →
      (∃ recs, s'.trace = s.trace ++ recs ∧ Says (TraceMemory a) s.key.isNone [.kms kr.keyId] recs) ∧
      ∃ e, s'.edks = s.edks ++ [e] ∧ KmsMade (a.kms p) kr.keyId ctx (keyBytes s'.key) e := by
    intro key b my call e h1 h2 h3 h4
    obtain ⟨recs, h4, h5⟩ := h4
    unfold mrkEncFinish at h1
    cases hx : kmsTransfer (a.kms p) s key b my with
    | mk r1 s1 =>
      rw [hx] at h1
      simp only [Prod.mk.injEq] at h1
      obtain ⟨rfl, rfl, -⟩ := h1
      obtain ⟨g1, g2⟩ := kmsTransfer_ok hx
      refine ⟨kmsTransfer_says (fun hm i => (hm.kms p i).2) hx (by rw [h4]; exact h5), e, by rw [g2, h2], by rw [g1]; exact h3⟩
  unfold mrkOnEncrypt at h
  split at h
  · simp at h
  · next hdisc =>
    refine ⟨fun h0 => hdisc (by simp [MrkKeyring.isDiscovery, h0]), ?_⟩
    split at h
    · simp at h
    · cases hs : s.key with
      | none =>
        rw [hs] at h
        simp only at h
        cases hp : algProps alg with
        | none => rw [hp] at h; simp at h
        | some pr =>
          rw [hp] at h
          simp only at h
          cases hcl : (a.kms p).client 0 (parseRegion kr.keyId) with
          | none => rw [hcl] at h; simp at h
          | some c =>
            rw [hcl] at h
            simp only at h
            cases hg : (a.kms p).generate c ⟨kr.keyId, pr.dataKeyLen, ctx, kr.grants⟩ with
            | none => rw [hg] at h; simp at h
            | some x =>
              obtain ⟨keyId, ct, pt⟩ := x
              rw [hg] at h
              simp only at h
              split at h
              · simp at h
              · cases happ : kmsAppend (a.kms p) 0 ⟨[], [], s.errno⟩ keyId ct kr.keyId (1 + 2 + 8) with
                | none => rw [happ] at h; simp at h
                | some my =>
                  cases hdup : dupKey (a.kms p) pt with
                  | none => rw [happ, hdup] at h; simp at h
                  | some key =>
                    rw [happ, hdup] at h
                    simp only at h
                    have hkb : keyBytes key = pt := by
                      unfold dupKey at hdup
                      split at hdup
                      · next h0 => cases hdup; rw [h0]; rfl
                      · split at hdup
                        · cases hdup; rfl
                        · cases hdup
                    obtain ⟨f1, f2⟩ := kmsAppend_says (mem := TraceMemory a) (fresh := true) (fun hm => (hm.kms p 0).1) (by simp) happ
                    rw [hs] at fin
                    exact fin h f1 ⟨rfl, .inr ⟨c, _, _, by rw [hkb]; exact hg⟩⟩ f2
      | some k =>
        rw [hs] at h
        simp only at h
        cases hcl : (a.kms p).client 0 (parseRegion kr.keyId) with
        | none => rw [hcl] at h; simp at h
        | some c =>
          rw [hcl] at h
          simp only at h
          cases hg : (a.kms p).encrypt 0 c ⟨kr.keyId, k.bytes, ctx, kr.grants⟩ with
          | none => rw [hg] at h; simp at h
          | some x =>
            obtain ⟨keyId, ct⟩ := x
            rw [hg] at h
            simp only at h
            split at h
            · simp at h
            · cases happ : kmsAppend (a.kms p) 0 ⟨[], [], s.errno⟩ keyId ct kr.keyId (2 + 8) with
              | none => rw [happ] at h; simp at h
              | some my =>
                rw [happ] at h
                simp only at h
                obtain ⟨f1, f2⟩ := kmsAppend_says (mem := TraceMemory a) (fresh := false) (fun hm => (hm.kms p 0).1) (by simp) happ
                rw [hs] at fin
                exact fin h f1 ⟨rfl, .inl ⟨0, c, _, hg⟩⟩ f2

/-! #### trees -/

theorem givesKeys_of {a : Around} (h : GivesKeys1 a) : GivesKeys (· = a) := by
  rintro _ p c r keyId ct pt rfl h1 h2
  exact h p c r keyId ct pt h1 h2

theorem leaf_told {a : Around} (hz : GivesKeys1 a) {p : List Nat} {l : Leaf} {ctx : EncCtx} {alg : Nat} (hd : DistinctKeys ctx)
    {s s' : EncState} (hk : ∀ k, s.key = some k → RightLength alg k.bytes) (h : keyringOnEncrypt (l.keyring a p) ctx alg s = (.ok, s')) :
    Told a ctx ((sourcesOf l).map (fun x => (p, x))) s s' := by
  have hg := leaf_encrypt (givesKeys_of hz) rfl hd hk h
  have hmap : ((sourcesOf l).map (fun x => (p, x))).map Prod.snd = sourcesOf l := by rw [List.map_map]; exact List.map_id _
  cases l with
  | kms kr =>
    obtain ⟨h1, h2, es, h3, h4⟩ := kms_told h
    refine ⟨hg.keep, hg.idle, fun h0 h5 => ?_, by rw [hmap]; exact h2, es, h3, ?_⟩
    · rw [h1 (by simpa [sourcesOf] using h5), h0]
    · exact inOrder_map (inOrder_map h4)
  | mrk kr =>
    obtain ⟨h1, h2, e, h3, h4⟩ := mrk_told h
    have hsrc : sourcesOf (.mrk kr) = [.kms kr.keyId] := by simp [sourcesOf, h1]
    rw [hsrc] at hg hmap ⊢
    exact ⟨hg.keep, hg.idle, fun _ h5 => by simp at h5, by rw [hmap]; exact h2, [e], h3, .cons h4 .nil⟩
  | raw r =>
    cases r with
    | aes kr =>
      obtain ⟨k, e, iv, ct, tag, aad, h1, -, -, h4, h5, -⟩ := C49_encrypt_form _ kr ctx alg s s' hd hk h
      obtain ⟨hf, -⟩ := call_ok h
      obtain ⟨recs, t1, t2⟩ := aes_trace (mem := TraceMemory a) (env := (a.at p).krEnv 0) (fun hm => hm.raw p) hf
      refine ⟨hg.keep, hg.idle, fun _ h5 => by simp [sourcesOf] at h5, ⟨recs, t1, t2⟩, [e], h4, .cons ?_ .nil⟩
      rw [h1]
      exact ⟨iv, ct, tag, h5⟩
    | rsa kr =>
      obtain ⟨pub, k, ct, -, -, h1, -, -, h4, -⟩ := C50_encrypt_form _ kr ctx alg s s' h
      obtain ⟨hf, -⟩ := call_ok h
      obtain ⟨recs, t1, t2⟩ := rsa_trace (mem := TraceMemory a) (env := (a.at p).krEnv 0) (fun hm => hm.raw p) hf
      exact ⟨hg.keep, hg.idle, fun _ h5 => by simp [sourcesOf] at h5, ⟨recs, t1, t2⟩, _, h4, .cons ⟨rfl, rfl⟩ .nil⟩

theorem multi_told {a : Around} {ctx : EncCtx} {alg : Nat} {p : List Nat} {gen : Option Keyring} {children : List Keyring}
    {srcs : List (List Nat × Source)} {s s' : EncState}
    (hl : ∀ s s', (∀ k, s.key = some k → RightLength alg k.bytes) → AllSucceed ctx alg (gen.toList ++ children) s s' → Told a ctx srcs s s')
    (hk : ∀ k, s.key = some k → RightLength alg k.bytes)
    (h : keyringOnEncrypt (multiKeyring (a.multi p) gen children) ctx alg s = (.ok, s')) : Told a ctx srcs s s' := by
  obtain ⟨my, recs, b1, b2, b3, b4, b5, b6, b7⟩ := C47_success _ _ _ ctx alg _ s' h
  have hg := hl ⟨s.key, [], [], s.errno⟩ my hk b1
  obtain ⟨es, e1, e2⟩ := hg.edks
  obtain ⟨rs, t1, t2⟩ := hg.trace
  simp only [List.nil_append] at e1 t1
  refine ⟨fun k0 h0 => by rw [b3]; exact hg.keep k0 h0, fun hn => by rw [b3] at hn; exact hg.idle hn,
    fun h0 h1 => by rw [b3]; exact hg.made h0 h1, ⟨recs, b5, t2.pre (t1 ▸ b6) fun hm => ⟨by rw [b7 (hm.multi p), t1], hm⟩⟩, es, by rw [b4, e1],
    by rw [b3]; exact e2⟩

mutual
theorem tree_told {a : Around} (hz : GivesKeys1 a) {ctx : EncCtx} {alg : Nat} (hd : DistinctKeys ctx) :
    ∀ (t : KrTree) (p : List Nat) (s s' : EncState), (∀ k, s.key = some k → RightLength alg k.bytes) →
      keyringOnEncrypt (t.keyring a p) ctx alg s = (.ok, s') → Told a ctx (sources p t) s s'
  | .leaf l, p, s, s', hk, h => by
    rw [KrTree.keyring] at h
    rw [sources]
    exact leaf_told hz hd hk h
  | .multi children, p, s, s', hk, h => by
    rw [KrTree.keyring] at h
    rw [sources]
    refine multi_told (fun s s' hk h => ?_) hk h
    exact trees_told hz hd children p 1 s s' hk (by simpa using h)
  | .multiGen gen children, p, s, s', hk, h => by
    rw [KrTree.keyring] at h
    rw [sources]
    refine multi_told (fun s s' hk h => ?_) hk h
    cases h with
    | cons h1 h2 =>
      have g1 := tree_told hz hd gen (0 :: p) _ _ hk h1
      exact g1.trans (trees_told hz hd children p 1 _ _ (tree_encrypt (givesKeys_of hz) rfl hd gen (0 :: p) _ _ hk h1).right h2)
theorem trees_told {a : Around} (hz : GivesKeys1 a) {ctx : EncCtx} {alg : Nat} (hd : DistinctKeys ctx) :
    ∀ (ts : List KrTree) (p : List Nat) (i : Nat) (s s' : EncState), (∀ k, s.key = some k → RightLength alg k.bytes) →
      AllSucceed ctx alg (keyringsAt a p i ts) s s' → Told a ctx (sourcesFrom p i ts) s s'
  | [], p, i, s, s', hk, h => by
    rw [keyringsAt] at h
    rw [sourcesFrom]
    cases h
    exact .refl rfl rfl rfl
  | t :: ts, p, i, s, s', hk, h => by
    rw [keyringsAt] at h
    rw [sourcesFrom]
    cases h with
    | cons h1 h2 =>
      have g1 := tree_told hz hd t (i :: p) _ _ hk h1
      exact g1.trans (trees_told hz hd ts p (i + 1) _ _ (tree_encrypt (givesKeys_of hz) rfl hd t (i :: p) _ _ hk h1).right h2)
end

/-! ### decryption -/

theorem not_rightLength_nil (alg : Nat) : ¬ RightLength alg [] := by
  rintro ⟨row, hrow, -, hl⟩
  have : ∀ row ∈ suiteTable, (0 : Nat) ≠ row.keyBits / 8 := by decide
  exact this row hrow hl

theorem opened_none {a : Around} {edks : List Edk} {ctx : EncCtx} {alg : Nat} {xs : List (List Nat × Leaf)} {s s' : DecState} (hk : s'.key = none)
    (ht : s'.trace = s.trace) : OpenedBy a edks ctx alg xs s s' := by
  refine ⟨[], [], by simp [ht], by simp, ?_⟩
  rw [hk]

theorem opened_errno {a : Around} {edks : List Edk} {ctx : EncCtx} {alg : Nat} {xs : List (List Nat × Leaf)} {s s' : DecState} {e : Err}
    (h : OpenedBy a edks ctx alg xs s s') : OpenedBy a edks ctx alg xs s { s' with errno := e } := h

theorem opened_mono {a : Around} {edks : List Edk} {ctx : EncCtx} {alg : Nat} {xs ys : List (List Nat × Leaf)} {s s' : DecState} (hs : ∀ x ∈ xs, x ∈ ys)
    (h : OpenedBy a edks ctx alg xs s s') : OpenedBy a edks ctx alg ys s s' := by
  obtain ⟨extra, last, h1, h2, h3⟩ := h
  refine ⟨extra, last, h1, fun r hr => ?_, ?_⟩
  · obtain ⟨p, kr, hx, hu⟩ := h2 r hr
    exact ⟨p, kr, hs _ hx, hu⟩
  · cases hk : s'.key with
    | none => rw [hk] at h3; exact h3
    | some k =>
      rw [hk] at h3
      obtain ⟨x, hx, r, hu⟩ := h3
      exact ⟨x, hs x hx, r, hu⟩

theorem opened_trans {a : Around} {edks : List Edk} {ctx : EncCtx} {alg : Nat} {xs : List (List Nat × Leaf)} {s s1 s2 : DecState} (hk : s1.key = none)
    (h : OpenedBy a edks ctx alg xs s s1) (h' : OpenedBy a edks ctx alg xs s1 s2) : OpenedBy a edks ctx alg xs s s2 := by
  obtain ⟨extra, last, h1, h2, h3⟩ := h
  obtain ⟨extra', last', h1', h2', h3'⟩ := h'
  rw [hk] at h3
  subst h3
  refine ⟨extra ++ extra', last', by rw [h1', h1]; simp, fun r hr => ?_, h3'⟩
  rcases List.mem_append.1 hr with hr | hr
  · exact h2 r hr
  · exact h2' r hr

/-- The wrapper only changes the result and the error code. -/
theorem onDecrypt_opened {a : Around} {edks : List Edk} {ctx : EncCtx} {alg : Nat} {xs : List (List Nat × Leaf)} {kr : Keyring} {s s' : DecState} {r : KRet}
    (hk : s.key = none) {f} (hf : kr.onDecrypt = some f) (h : keyringOnDecrypt kr edks ctx alg s = (r, s')) (hr : r ≠ .ub)
    (hi : ∀ r' s'', f edks ctx alg s = (r', s'') → r' ≠ .ub → OpenedBy a edks ctx alg xs s s'') : OpenedBy a edks ctx alg xs s s' := by
  unfold keyringOnDecrypt at h
  rw [hk, hf] at h
  simp only [Option.isSome_none, Bool.false_eq_true, if_false] at h
  cases hx : f edks ctx alg s with
  | mk r' s'' =>
    rw [hx] at h
    simp only at h
    split at h
    · cases h; exact absurd ‹_› hr
    · next hr' =>
      have := hi _ _ hx hr'
      split at h
      · cases h; exact this
      · split at h
        · cases h; exact this
        · cases h; exact this

theorem addTrace_record {env : KrEnv} {a : Around} (hm : TraceMemory a → env.alloc .traceRecord = true) (t : List TraceRec) (errno : Err) (r : TraceRec) :
    ∃ last, (addTrace env t errno r).1 = t ++ [] ++ last ∧ (last = [r] ∨ last = [] ∧ ¬ TraceMemory a) := by
  unfold addTrace
  split
  · exact ⟨[r], by simp, .inl rfl⟩
  · next h => exact ⟨[], by simp, .inr ⟨rfl, fun hx => h (hm hx)⟩⟩

theorem aes_opened {a : Around} {edks : List Edk} {ctx : EncCtx} {alg : Nat} {kr : RawAes} {p : List Nat} (hd : DistinctKeys ctx) {s s' : DecState} {r : KRet}
    (hk : s.key = none) (h : aesOnDecrypt ((a.at p).krEnv 0) kr edks ctx alg s = (r, s')) (hr : r ≠ .ub) :
    OpenedBy a edks ctx alg [(p, .raw (.aes kr))] s s' := by
  have h0 := h
  unfold aesOnDecrypt at h
  split at h
  · cases h; exact opened_none hk rfl
  · split at h
    · cases h; exact absurd rfl hr
    · split at h
      · cases h; exact opened_none hk rfl
      · split at h
        · cases h; exact opened_none rfl rfl
        · next pt errno hl =>
          cases h
          obtain ⟨h1, -, -⟩ := aesOnDecrypt_ok hd h0
          obtain ⟨pre, e, post, rfl, -, h2⟩ := (h1 pt).1 rfl
          obtain ⟨last, t1, t2⟩ := addTrace_record (env := (a.at p).krEnv 0) (a := a) (fun hm => hm.raw p) s.trace errno ⟨kr.ns, kr.name, 4 + 16⟩
          exact ⟨[], last, t1, by simp, _, List.mem_singleton.2 rfl, _, .aes (by simp) h2, t2⟩

theorem rsa_opened {a : Around} {edks : List Edk} {ctx : EncCtx} {alg : Nat} {kr : RawRsa} {p : List Nat} {s s' : DecState} {r : KRet}
    (hk : s.key = none) (h : rsaOnDecrypt ((a.at p).krEnv 0) kr edks ctx alg s = (r, s')) :
    OpenedBy a edks ctx alg [(p, .raw (.rsa kr))] s s' := by
  unfold rsaOnDecrypt at h
  split at h
  · cases h; exact opened_none hk rfl
  · next priv hp =>
    split at h
    · cases h; exact opened_none hk rfl
    · next pt errno hl =>
      cases h
      obtain ⟨pre, e, post, rfl, -, h2⟩ := (rsaDecLoop_iff ((a.at p).krEnv 0) kr priv s.errno edks pt).1 (by rw [hl])
      obtain ⟨last, t1, t2⟩ := addTrace_record (env := (a.at p).krEnv 0) (a := a) (fun hm => hm.raw p) s.trace errno ⟨kr.ns, kr.name, 4⟩
      exact ⟨[], last, t1, by simp, _, List.mem_singleton.2 rfl, _, .rsa (by simp) hp h2, t2⟩

theorem kms_found {a : Around} {edks : List Edk} {ctx : EncCtx} {alg : Nat} {x : List Nat × Leaf} {p : List Nat} {s : DecState} {pt name : Bytes}
    {k : Option KeyBuf} (hx : pt = [] → ∃ p kr, x = (p, .kms kr)) (hd : dupKey (a.kms p) pt = some k) (hu : Unwrapped a edks ctx alg pt x ⟨ascii "aws-kms", name.takeWhile (· ≠ 0), 4 + 16⟩) :
    OpenedBy a edks ctx alg [x] s
      { key := k, trace := (kmsTrace (a.kms p) 0 s.trace s.errno name (4 + 16)).1, errno := (kmsTrace (a.kms p) 0 s.trace s.errno name (4 + 16)).2 } := by
  have ht : ∃ last, (kmsTrace (a.kms p) 0 s.trace s.errno name (4 + 16)).1 = s.trace ++ last ∧
      (last = [⟨ascii "aws-kms", name.takeWhile (· ≠ 0), 4 + 16⟩] ∨ last = [] ∧ ¬ TraceMemory a) := by
    unfold kmsTrace
    split
    · exact ⟨_, rfl, .inl rfl⟩
    · next h => exact ⟨[], by simp, .inr ⟨rfl, fun hm => h (hm.kms p 0).1⟩⟩
  obtain ⟨last, t1, t2⟩ := ht
  unfold dupKey at hd
  split at hd
  · next h0 =>
    subst h0
    cases hd
    refine ⟨last, [], by simp [t1], fun r hr => ?_, rfl⟩
    rcases t2 with rfl | ⟨rfl, -⟩
    · simp only [List.mem_singleton] at hr
      subst hr
      obtain ⟨q, kr, rfl⟩ := hx rfl
      exact ⟨q, kr, List.mem_singleton.2 rfl, hu⟩
    · simp at hr
  · split at hd
    · cases hd
      exact ⟨[], last, by simp [t1], by simp, x, List.mem_singleton.2 rfl, _, hu, t2⟩
    · cases hd

theorem kms_opened {a : Around} {all : List Edk} {ctx : EncCtx} {alg : Nat} {kr : KmsKeyring} {p : List Nat} : ∀ (edks : List Edk) (i : Nat) {s s' : DecState} {r : KRet} {calls},
    (∀ e ∈ edks, e ∈ all) → s.key = none → kmsDecLoop (a.kms p) kr ctx i s edks = (r, s', calls) →
    OpenedBy a all ctx alg [(p, .kms kr)] s s'
  | [], i, s, s', r, calls, hs, hk, h => by
    cases h; exact opened_none hk rfl
  | e :: edks, i, s, s', r, calls, hs, hk, h => by
    have hs' : ∀ e ∈ edks, e ∈ all := fun x hx => hs x (List.mem_cons_of_mem _ hx)
    rw [kmsDecLoop] at h
    split at h
    · exact kms_opened edks _ hs' hk h
    · next region hp =>
      split at h
      · exact kms_opened edks _ hs' hk h
      · next c hc =>
        simp only at h
        split at h
        · simp only [Prod.mk.injEq] at h
          exact kms_opened edks (i + 1) (r := (kmsDecLoop (a.kms p) kr ctx (i + 1) s edks).1) (calls := (kmsDecLoop (a.kms p) kr ctx (i + 1) s edks).2.2)
            hs' hk (by rw [← h.2.1])
        · next keyId pt hdec =>
          split at h
          · next hid =>
            subst hid
            split at h
            · cases h; exact opened_none hk rfl
            · next k hdup =>
              cases h
              exact kms_found (fun _ => ⟨_, _, rfl⟩) hdup (.kms (hs e (by simp)) (kmsPlan_iff.1 hp) hc hdec)
          · cases h; exact opened_none hk rfl

theorem mrk_opened {a : Around} {all : List Edk} {ctx : EncCtx} {alg : Nat} {kr : MrkKeyring} {p : List Nat} : ∀ (edks : List Edk) (i : Nat) (failed : Bool) {s s' : DecState} {r : KRet} {calls},
    (∀ e ∈ edks, e ∈ all) → s.key = none → mrkDecLoop (a.kms p) kr ctx alg i failed s edks = (r, s', calls) → r ≠ .ub →
    OpenedBy a all ctx alg [(p, .mrk kr)] s s'
  | [], i, failed, s, s', r, calls, hs, hk, h, hr => by
    rw [mrkDecLoop] at h
    split at h
    · cases h; exact opened_none hk rfl
    · cases h; exact opened_none hk rfl
  | e :: edks, i, failed, s, s', r, calls, hs, hk, h, hr => by
    have hs' : ∀ e ∈ edks, e ∈ all := fun x hx => hs x (List.mem_cons_of_mem _ hx)
    rw [mrkDecLoop] at h
    split at h
    · exact mrk_opened edks _ _ hs' hk h hr
    · next region keyArn hp =>
      split at h
      · exact mrk_opened edks _ _ hs' hk h hr
      · next c hc =>
        simp only at h
        split at h
        · simp only [Prod.mk.injEq] at h
          exact mrk_opened edks (i + 1) (failed || !kr.isDiscovery) (calls := (mrkDecLoop (a.kms p) kr ctx alg (i + 1) (failed || !kr.isDiscovery) s edks).2.2)
            hs' hk (by rw [← h.1, ← h.2.1]) hr
        · next keyId pt hdec =>
          split at h
          · cases h; exact absurd rfl hr
          · next pr hpr =>
            split at h
            · simp only [Prod.mk.injEq] at h
              exact mrk_opened edks (i + 1) true (calls := (mrkDecLoop (a.kms p) kr ctx alg (i + 1) true s edks).2.2)
                hs' hk (by rw [← h.1, ← h.2.1]) hr
            · next hg =>
              simp only [not_or, Decidable.not_not] at hg
              obtain ⟨hlen, rfl⟩ := hg
              split at h
              · cases h; exact opened_none hk rfl
              · next k hdup =>
                cases h
                have hrl : RightLength alg pt :=
                  (dataKeyLenOK_iff alg ⟨0, pt, 0, 0⟩).1 (by simp [dataKeyLenOK, hpr, hlen, (suiteFacts hpr).keyLen])
                exact kms_found (fun h0 => absurd (h0 ▸ hrl) (not_rightLength_nil alg)) hdup (.mrk (hs e (by simp)) (mrkPlan_iff.1 hp) hc hdec hrl)

theorem leaf_opened {a : Around} {edks : List Edk} {ctx : EncCtx} {alg : Nat} (hd : DistinctKeys ctx) {p : List Nat} {l : Leaf} {s s' : DecState} {r : KRet}
    (hk : s.key = none) (h : keyringOnDecrypt (l.keyring a p) edks ctx alg s = (r, s')) (hr : r ≠ .ub) : OpenedBy a edks ctx alg [(p, l)] s s' := by
  cases l with
  | raw x =>
    cases x with
    | aes kr => exact onDecrypt_opened hk rfl h hr fun r' s'' h1 h2 => aes_opened hd hk h1 h2
    | rsa kr => exact onDecrypt_opened hk rfl h hr fun r' s'' h1 _ => rsa_opened hk h1
  | kms kr =>
    refine onDecrypt_opened hk rfl h hr fun r' s'' h1 _ => ?_
    simp only [Prod.mk.injEq] at h1
    exact kms_opened (r := r') (calls := (kmsOnDecrypt (a.kms p) kr edks ctx s).2.2) edks 0 (fun _ h => h) hk (by
      rw [← h1.1, ← h1.2]; rfl)
  | mrk kr =>
    refine onDecrypt_opened hk rfl h hr fun r' s'' h1 h2 => ?_
    simp only [Prod.mk.injEq] at h1
    refine mrk_opened (r := r') (calls := (mrkOnDecrypt (a.kms p) kr edks ctx alg s).2.2) edks 0 false (fun _ h => h) hk ?_ h2
    rw [← h1.1, ← h1.2, mrkOnDecrypt, hk]
    rfl

mutual
theorem tree_opened {a : Around} {edks : List Edk} {ctx : EncCtx} {alg : Nat} (hd : DistinctKeys ctx) :
    ∀ (t : KrTree) (p : List Nat) {s s' : DecState} {r : KRet}, s.key = none → keyringOnDecrypt (t.keyring a p) edks ctx alg s = (r, s') → r ≠ .ub →
      OpenedBy a edks ctx alg (leaves p t) s s'
  | .leaf l, p, s, s', r, hk, h, hr => by
    rw [KrTree.keyring] at h
    rw [leaves]
    exact leaf_opened hd hk h hr
  | .multi children, p, s, s', r, hk, h, hr => by
    rw [KrTree.keyring] at h
    rw [leaves]
    refine onDecrypt_opened hk rfl h hr fun r' s'' h1 h2 => ?_
    exact trees_opened hd children p 1 false hk (by simpa [multiOnDecrypt] using h1) h2
  | .multiGen gen children, p, s, s', r, hk, h, hr => by
    rw [KrTree.keyring] at h
    rw [leaves]
    refine onDecrypt_opened hk rfl h hr fun r' s'' h1 h2 => ?_
    simp only [multiOnDecrypt, Option.toList_some, List.singleton_append, multiDecLoop] at h1
    cases hg : keyringOnDecrypt (gen.keyring a (0 :: p)) edks ctx alg s with
    | mk rg sg =>
      rw [hg] at h1
      simp only at h1
      have hgo : rg ≠ .ub → OpenedBy a edks ctx alg (leaves (0 :: p) gen) s sg := tree_opened hd gen (0 :: p) hk hg
      split at h1
      · cases h1; exact absurd rfl h2
      · next hne =>
        have hgo := hgo (fun h => hne h)
        split at h1
        · cases h1
          exact opened_mono (by simp +contextual) hgo
        · next hks =>
          have hkn : sg.key = none := by simpa using hks
          exact opened_trans hkn (opened_mono (by simp +contextual) hgo)
            (opened_mono (fun x hx => List.mem_append_right _ hx) (trees_opened hd children p 1 _ hkn h1 h2))
theorem trees_opened {a : Around} {edks : List Edk} {ctx : EncCtx} {alg : Nat} (hd : DistinctKeys ctx) :
    ∀ (ts : List KrTree) (p : List Nat) (i : Nat) (failed : Bool) {s s' : DecState} {r : KRet}, s.key = none →
      multiDecLoop edks ctx alg failed (keyringsAt a p i ts) s = (r, s') → r ≠ .ub → OpenedBy a edks ctx alg (leavesFrom p i ts) s s'
  | [], p, i, failed, s, s', r, hk, h, hr => by
    rw [keyringsAt, multiDecLoop] at h
    cases h
    exact opened_none hk rfl
  | t :: ts, p, i, failed, s, s', r, hk, h, hr => by
    rw [keyringsAt, multiDecLoop] at h
    rw [leavesFrom]
    cases hg : keyringOnDecrypt (t.keyring a (i :: p)) edks ctx alg s with
    | mk rg sg =>
      rw [hg] at h
      simp only at h
      have hgo : rg ≠ .ub → OpenedBy a edks ctx alg (leaves (i :: p) t) s sg := tree_opened hd t (i :: p) hk hg
      split at h
      · cases h; exact absurd rfl hr
      · next hne =>
        have hgo := hgo (fun h => hne h)
        split at h
        · cases h
          exact opened_mono (by simp +contextual) hgo
        · next hks =>
          have hkn : sg.key = none := by simpa using hks
          exact opened_trans hkn (opened_mono (by simp +contextual) hgo)
            (opened_mono (fun x hx => List.mem_append_right _ hx) (trees_opened hd ts p (i + 1) _ hkn h hr))
end

end Verif.Props
