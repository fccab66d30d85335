import Verif.Proof.Arn
import Verif.Proof.Keyring
/-
Lemmas on the KMS keyrings.
-/
namespace Verif
open Verif.Spec

theorem isAuthorized_iff {f : DiscoveryFilter} {s : Bytes} : f.isAuthorized s = true ↔ Allows f s := by
  unfold DiscoveryFilter.isAuthorized Allows
  cases ha : arnParse s with
  | none =>
    simp only [Bool.false_eq_true, false_iff]
    rintro ⟨v, r, a, res, h, _⟩
    rw [isArn_parse h] at ha; cases ha
  | some a =>
    simp only [decide_eq_true_eq]
    constructor
    · rintro ⟨hp, hm⟩
      refine ⟨a.service, a.region, a.account, a.resource, ?_, hm⟩
      rw [← hp]; exact arnParse_iff.1 ha
    · rintro ⟨v, r, ac, res, h, hm⟩
      rw [isArn_parse h] at ha
      cases ha
      exact ⟨rfl, hm⟩

theorem filterBlocks_iff {flt : Option DiscoveryFilter} {s : Bytes} :
    blockedBy flt s = true ↔ ¬ ∀ f, flt = some f → Allows f s := by
  cases flt with
  | none => simp [blockedBy]
  | some f =>
    cases h : f.isAuthorized s with
    | true => simp [blockedBy, h, isAuthorized_iff.1 h]
    | false =>
      have : ¬ Allows f s := fun h' => by rw [isAuthorized_iff.2 h'] at h; cases h
      simp [blockedBy, h, this]

theorem kmsPlan_iff {kr : KmsKeyring} {e : Edk} {region : Bytes} : kmsPlan kr e = some region ↔ MayTry kr e region := by
  unfold kmsPlan MayTry
  by_cases h1 : e.providerId ≠ kmsProvider
  · rw [if_pos h1]
    simp only [reduceCtorEq, false_iff]
    exact fun h => h1 h.1
  · rw [if_neg h1]
    by_cases h2 : kr.keyIds ≠ [] ∧ e.providerInfo ∉ kr.keyIds
    · rw [if_pos h2]
      simp only [reduceCtorEq, false_iff]
      exact fun h => h2.2 (h.2.1 h2.1)
    · rw [if_neg h2]
      by_cases h3 : blockedBy kr.filter e.providerInfo = true
      · rw [if_pos h3]
        simp only [reduceCtorEq, false_iff]
        exact fun h => filterBlocks_iff.1 h3 h.2.2.1
      · rw [if_neg h3]
        by_cases h4 : parseRegion e.providerInfo = []
        · rw [if_pos h4]
          simp only [reduceCtorEq, false_iff]
          intro h
          have := (parseRegion_iff h.2.2.2.2.2).2 h.2.2.2
          exact h.2.2.2.2.2 (this.symm.trans h4)
        · rw [if_neg h4]
          simp only [Option.some.injEq]
          constructor
          · rintro rfl
            refine ⟨by simpa [kmsProvider] using h1, ?_, ?_, (parseRegion_iff h4).1 rfl⟩
            · intro hk
              exact Classical.byContradiction fun hm => h2 ⟨hk, hm⟩
            · exact Classical.byContradiction fun hm => h3 (filterBlocks_iff.2 hm)
          · intro h
            exact (parseRegion_iff h.2.2.2.2.2).2 h.2.2.2

theorem kmsPlan_none {kr : KmsKeyring} {e : Edk} (h : kmsPlan kr e = none) (region : Bytes) : ¬ MayTry kr e region := by
  intro h'
  rw [kmsPlan_iff.2 h'] at h; cases h

/-- The EDKs that a KMS keyring may try, with the key id of the request. -/
def kmsTry (kr : KmsKeyring) (e : Edk) (region keyId : Bytes) : Prop := MayTry kr e region ∧ keyId = e.providerInfo

theorem mayTry_unique {kr : KmsKeyring} {e : Edk} {r r' : Bytes} (h : MayTry kr e r) (h' : MayTry kr e r') : r = r' := by
  have := (kmsPlan_iff.2 h).symm.trans (kmsPlan_iff.2 h')
  simpa using this

/-- A loop from EDK `i` on that passes over or fails on `pre` with the calls `calls` continues with the rest. -/
theorem kmsDecLoop_noKey {env : KmsEnv} {kr : KmsKeyring} {ctx : EncCtx} {i : Nat} {pre : List Edk} {calls : List KmsCall} {b rep : Bool}
    (h : NoKey env ctx kr.grants (kmsTry kr) (fun _ _ _ => False) b i pre calls rep) (s : DecState) (rest : List Edk) :
    kmsDecLoop env kr ctx i s (pre ++ rest) =
      ((kmsDecLoop env kr ctx (i + pre.length) s rest).1, (kmsDecLoop env kr ctx (i + pre.length) s rest).2.1,
        calls ++ (kmsDecLoop env kr ctx (i + pre.length) s rest).2.2) := by
  induction h with
  | nil i => simp
  | @pass i e edks calls rep hp _ ih =>
    have e1 : i + (e :: edks).length = i + 1 + edks.length := by simp; omega
    rw [e1, List.cons_append, kmsDecLoop]
    cases hk : kmsPlan kr e with
    | none => exact ih
    | some region =>
      simp only
      rw [hp region _ ⟨kmsPlan_iff.1 hk, rfl⟩]
      exact ih
  | @failed i e edks calls rep region keyId c ht hc hd _ ih =>
    have e1 : i + (e :: edks).length = i + 1 + edks.length := by simp; omega
    obtain ⟨ht, rfl⟩ := ht
    rw [e1, List.cons_append, kmsDecLoop, kmsPlan_iff.2 ht]
    simp only
    rw [hc]
    simp only
    rw [hd]
    simp only
    rw [ih]
    simp
  | rejected _ _ _ hr => exact hr.elim

/-- Every list of EDKs either gives no answer or has a first one that does. -/
theorem noKey_or_answered (env : KmsEnv) (ctx : EncCtx) (grants : List Bytes) (mayTry : Edk → Bytes → Bytes → Prop)
    (rejects : Bytes → Bytes → Bytes → Prop) (b : Bool) : ∀ (edks : List Edk) (i : Nat),
    (∃ calls rep, NoKey env ctx grants mayTry rejects b i edks calls rep) ∨
    (∃ pre e post before rep region keyId c used plaintext, edks = pre ++ e :: post ∧
      NoKey env ctx grants mayTry rejects b i pre before rep ∧ mayTry e region keyId ∧ env.client (i + pre.length) region = some c ∧
      env.decrypt (i + pre.length) c ⟨keyId, e.ciphertext, ctx, grants⟩ = some (used, plaintext) ∧ ¬ rejects keyId used plaintext)
  | [], i => .inl ⟨[], false, .nil i⟩
  | e :: edks, i => by
    by_cases hp : ∀ region keyId, mayTry e region keyId → env.client i region = none
    · rcases noKey_or_answered env ctx grants mayTry rejects b edks (i + 1) with ⟨calls, rep, h⟩ |
        ⟨pre, e', post, before, rep, region, keyId, c, used, pt, rfl, h, h1, h2, h3, h4⟩
      · exact .inl ⟨calls, rep, .pass hp h⟩
      · refine .inr ⟨e :: pre, e', post, before, rep, region, keyId, c, used, pt, by simp, .pass hp h, h1, ?_, ?_, h4⟩
        · rw [← h2]; congr 1; simp; omega
        · rw [← h3]; congr 1; simp; omega
    · simp only [Classical.not_forall, not_imp] at hp
      obtain ⟨region, keyId, ht, hc⟩ := hp
      cases hcl : env.client i region with
      | none => exact absurd hcl hc
      | some c =>
        cases hd : env.decrypt i c ⟨keyId, e.ciphertext, ctx, grants⟩ with
        | none =>
          rcases noKey_or_answered env ctx grants mayTry rejects b edks (i + 1) with ⟨calls, rep, h⟩ |
            ⟨pre, e', post, before, rep, region', keyId', c', used, pt, rfl, h, h1, h2, h3, h4⟩
          · exact .inl ⟨_, _, .failed ht hcl hd h⟩
          · refine .inr ⟨e :: pre, e', post, _, _, region', keyId', c', used, pt, by simp, .failed ht hcl hd h, h1, ?_, ?_, h4⟩
            · rw [← h2]; congr 1; simp; omega
            · rw [← h3]; congr 1; simp; omega
        | some x =>
          obtain ⟨used, pt⟩ := x
          by_cases hr : rejects keyId used pt
          · rcases noKey_or_answered env ctx grants mayTry rejects b edks (i + 1) with ⟨calls, rep, h⟩ |
              ⟨pre, e', post, before, rep, region', keyId', c', used', pt', rfl, h, h1, h2, h3, h4⟩
            · exact .inl ⟨_, _, .rejected ht hcl hd hr h⟩
            · refine .inr ⟨e :: pre, e', post, _, _, region', keyId', c', used', pt', by simp, .rejected ht hcl hd hr h, h1, ?_, ?_, h4⟩
              · rw [← h2]; congr 1; simp; omega
              · rw [← h3]; congr 1; simp; omega
          · exact .inr ⟨[], e, edks, [], false, region, keyId, c, used, pt, by simp, .nil i, ht, by simpa using hcl, by simpa using hd, hr⟩

/-- Every call was made for one of the EDKs. -/
theorem noKey_calls {env : KmsEnv} {ctx : EncCtx} {grants : List Bytes} {mayTry : Edk → Bytes → Bytes → Prop}
    {rejects : Bytes → Bytes → Bytes → Prop} {b : Bool} {edks : List Edk} {i : Nat} {calls : List KmsCall} {rep : Bool}
    (h : NoKey env ctx grants mayTry rejects b i edks calls rep) {call : KmsCall} (hc : call ∈ calls) :
    ∃ j e region keyId c, edks[j]? = some e ∧ mayTry e region keyId ∧ env.client (i + j) region = some c ∧
      call = .decrypt c ⟨keyId, e.ciphertext, ctx, grants⟩ := by
  have shift : ∀ {i : Nat} {e0 : Edk} {edks : List Edk}, (∃ j e region keyId c, edks[j]? = some e ∧ mayTry e region keyId ∧
      env.client (i + 1 + j) region = some c ∧ call = .decrypt c ⟨keyId, e.ciphertext, ctx, grants⟩) →
      ∃ j e region keyId c, (e0 :: edks)[j]? = some e ∧ mayTry e region keyId ∧ env.client (i + j) region = some c ∧
        call = .decrypt c ⟨keyId, e.ciphertext, ctx, grants⟩ := by
    rintro i e0 edks ⟨j, e, region, keyId, c, h1, h2, h3, h4⟩
    exact ⟨j + 1, e, region, keyId, c, by simpa using h1, h2, by rw [← h3]; congr 1; omega, h4⟩
  induction h with
  | nil => cases hc
  | pass _ _ ih => exact shift (ih hc)
  | failed ht hcl hd _ ih =>
    cases hc with
    | head => exact ⟨0, _, _, _, _, rfl, ht, hcl, rfl⟩
    | tail _ hc => exact shift (ih hc)
  | rejected ht hcl hd _ _ ih =>
    cases hc with
    | head => exact ⟨0, _, _, _, _, rfl, ht, hcl, rfl⟩
    | tail _ hc => exact shift (ih hc)

theorem kmsTrace_cases (env : KmsEnv) (i : Nat) (t : List TraceRec) (errno : Err) (name : Bytes) (flags : Nat) :
    kmsTrace env i t errno name flags = (t ++ [⟨kmsProvider, cstr name, flags⟩], errno) ∨ kmsTrace env i t errno name flags = (t, .oom) := by
  unfold kmsTrace
  split
  · exact .inl rfl
  · exact .inr rfl

/-- The step at an EDK for which KMS answers. -/
theorem kmsDecLoop_answer {env : KmsEnv} {kr : KmsKeyring} {ctx : EncCtx} {i : Nat} {e : Edk} {rest : List Edk} {s : DecState}
    {region used pt : Bytes} {c : Nat} (ht : MayTry kr e region) (hc : env.client i region = some c)
    (hd : env.decrypt i c ⟨e.providerInfo, e.ciphertext, ctx, kr.grants⟩ = some (used, pt)) :
    kmsDecLoop env kr ctx i s (e :: rest) =
      if used = e.providerInfo then
        match dupKey env pt with
        | none => (.fail, { s with errno := .oom }, [.decrypt c ⟨e.providerInfo, e.ciphertext, ctx, kr.grants⟩])
        | some k =>
          (.ok, { key := k, trace := (kmsTrace env 0 s.trace s.errno e.providerInfo (4 + 16)).1,
                  errno := (kmsTrace env 0 s.trace s.errno e.providerInfo (4 + 16)).2 },
            [.decrypt c ⟨e.providerInfo, e.ciphertext, ctx, kr.grants⟩])
      else (.fail, { s with errno := .invalidState }, [.decrypt c ⟨e.providerInfo, e.ciphertext, ctx, kr.grants⟩]) := by
  rw [kmsDecLoop, kmsPlan_iff.2 ht]
  simp only
  rw [hc]
  simp only
  rw [hd]
  rfl

/-! ### MRK-aware keyring -/

theorem mrkPlan_iff {kr : MrkKeyring} {e : Edk} {region keyId : Bytes} :
    mrkPlan kr e = some (region, keyId) ↔ MrkMayTry kr e region keyId := by
  have hne : ascii "key" ≠ ascii "alias" := by decide
  unfold mrkPlan MrkMayTry
  by_cases h1 : e.providerId ≠ kmsProvider
  · rw [if_pos h1]
    simp only [reduceCtorEq, false_iff]
    exact fun h => h1 h.1
  rw [if_neg h1]
  have h1' : e.providerId = ascii "aws-kms" := by simpa [kmsProvider] using h1
  cases ha : arnParse e.providerInfo with
  | none =>
    simp only [reduceCtorEq, false_iff]
    rintro ⟨_, p, r, acct, res, id, hk, _⟩
    rw [isArn_parse hk.1] at ha; cases ha
  | some a =>
    simp only
    by_cases h2 : !isValidKeyArn (some a) ∨ !startsWith a.resource (ascii "key")
    · rw [if_pos h2]
      simp only [reduceCtorEq, false_iff]
      rintro ⟨_, p, r, acct, res, id, hk, hpre, _⟩
      have hv := isValidKeyArn_iff.2 ⟨p, r, acct, res, _, id, hk, .inl rfl⟩
      rw [isArn_parse hk.1] at ha hv
      cases ha
      rcases h2 with h2 | h2
      · simp [hv] at h2
      · simp [startsWith_iff.2 hpre] at h2
    · rw [if_neg h2]
      simp only [Bool.not_eq_true', not_or, Bool.not_eq_false] at h2
      have hv := h2.1
      rw [← ha] at hv
      obtain ⟨p, r, acct, res, kind, id, hk, hkind⟩ := isValidKeyArn_iff.1 hv
      have ea := ha.symm.trans (isArn_parse hk.1)
      cases ea
      simp only at h2 ⊢
      have hpre := startsWith_iff.1 h2.2
      have hkey : kind = ascii "key" := by
        rcases hkind with h | h
        · exact h
        · exfalso
          obtain ⟨⟨m, n, hres⟩, _⟩ := hk.2.2.2.2
          subst h
          rw [hres] at hpre
          cases m with
          | zero =>
            simp only [List.replicate_zero, List.nil_append, List.append_assoc] at hpre
            exact absurd (prefix_ne hpre (List.prefix_append ..)) (by decide)
          | succ m =>
            have h47 : ([47] : Bytes) <+: List.replicate (m + 1) 47 ++ ascii "alias" ++ List.replicate (n + 1) 47 ++ id := by
              simp [List.replicate_succ]
            exact absurd (prefix_ne hpre h47) (by decide)
      subst hkey
      have hmrk : isMrkIdentifier e.providerInfo = true ↔ ascii "mrk-" <+: id := by
        rw [isMrkIdentifier_iff]
        constructor
        · rintro ⟨k, hk'⟩
          have : ¬ ascii "mrk-" <+: e.providerInfo := fun hm =>
            absurd (prefix_ne (isArn_prefix hk.1) hm) (by decide)
          obtain ⟨p', r', a', res', hm⟩ := hk'.resolve_right (fun h => this h.2)
          obtain ⟨rfl, _, rfl, rfl, rfl⟩ := isArn_unique hk.1 hm.1.1
          rw [(isResource_unique hk.2.2.2.2 hm.1.2.2.2.2).2]
          exact hm.2
        · intro hm; exact ⟨id, .inl ⟨p, r, acct, res, hk, hm⟩⟩
      -- the parts of the resource name of the EDK are determined
      have hex : ∀ (P : Bytes → Bytes → Bytes → Bytes → Bytes → Prop),
          (∃ p r acct res id, IsKmsArn e.providerInfo p r acct res (ascii "key") id ∧ ascii "key" <+: res ∧ P p r acct res id) ↔
            P p r acct res id := by
        intro P
        constructor
        · rintro ⟨p', r', a', res', id', hk', _, h⟩
          obtain ⟨rfl, _, rfl, rfl, rfl⟩ := isArn_unique hk.1 hk'.1
          obtain ⟨_, rfl⟩ := isResource_unique hk.2.2.2.2 hk'.2.2.2.2
          exact h
        · intro h; exact ⟨p, r, acct, res, id, hk, hpre, h⟩
      rw [hex (fun p r acct res id => (kr.keyId ≠ [] ∧ SameMrk kr.keyId e.providerInfo ∧ keyId = kr.keyId ∧
          ∃ p' acct' res', IsArn kr.keyId p' (ascii "kms") region acct' res') ∨
       (kr.keyId = [] ∧ region = kr.region ∧ (∀ f, kr.filter = some f → Allows f e.providerInfo) ∧
          ((ascii "mrk-" <+: id ∧
              keyId = ascii "arn:" ++ p ++ ascii ":kms:" ++ kr.region ++ ascii ":" ++ acct ++ ascii ":" ++ res) ∨
           (¬ ascii "mrk-" <+: id ∧ r = kr.region ∧ keyId = e.providerInfo))))]
      have hrep : replaceRegion ⟨p, ascii "kms", r, acct, res⟩ kr.region =
          ascii "arn:" ++ p ++ ascii ":kms:" ++ kr.region ++ ascii ":" ++ acct ++ ascii ":" ++ res := by
        have e4 : ascii ":kms:" = ascii ":" ++ ascii "kms" ++ ascii ":" := by decide
        rw [e4]
        simp [replaceRegion]
      by_cases hd : kr.keyId = []
      · have hdisc : kr.isDiscovery = true := by simp [MrkKeyring.isDiscovery, hd]
        rw [if_pos hdisc]
        by_cases h3 : !isMrkIdentifier e.providerInfo ∧ kr.region ≠ r
        · rw [if_pos (by simpa using h3)]
          simp only [reduceCtorEq, false_iff]
          rintro ⟨_, h | ⟨_, _, _, h | h⟩⟩
          · exact h.1 hd
          · have := hmrk.2 h.1
            simp [this] at h3
          · exact h3.2 h.2.1.symm
        · rw [if_neg (by simpa using h3)]
          by_cases h4 : blockedBy kr.filter e.providerInfo = true
          · rw [if_pos h4]
            simp only [reduceCtorEq, false_iff]
            rintro ⟨_, h | ⟨_, _, h, _⟩⟩
            · exact h.1 hd
            · exact filterBlocks_iff.1 h4 h
          · rw [if_neg h4]
            have hf : ∀ f, kr.filter = some f → Allows f e.providerInfo :=
              Classical.byContradiction fun hm => h4 (filterBlocks_iff.2 hm)
            by_cases hm : isMrkIdentifier e.providerInfo = true
            · rw [if_pos hm, hrep]
              have hm' := hmrk.1 hm
              simp only [Option.some.injEq, Prod.mk.injEq]
              constructor
              · rintro ⟨rfl, rfl⟩
                exact ⟨h1', .inr ⟨hd, rfl, hf, .inl ⟨hm', rfl⟩⟩⟩
              · rintro ⟨_, h | ⟨_, h, _, h' | h'⟩⟩
                · exact absurd hd h.1
                · exact ⟨h.symm, h'.2.symm⟩
                · exact absurd hm' h'.1
            · rw [if_neg hm]
              have hm' : ¬ ascii "mrk-" <+: id := fun h => hm (hmrk.2 h)
              have hr : kr.region = r := Classical.byContradiction fun h => h3 ⟨by simpa using hm, h⟩
              simp only [Option.some.injEq, Prod.mk.injEq]
              constructor
              · rintro ⟨rfl, rfl⟩
                exact ⟨h1', .inr ⟨hd, rfl, hf, .inr ⟨hm', hr.symm, rfl⟩⟩⟩
              · rintro ⟨_, h | ⟨_, h, _, h' | h'⟩⟩
                · exact absurd hd h.1
                · exact absurd h'.1 hm'
                · exact ⟨h.symm, h'.2.2.symm⟩
      · have hdisc : ¬ kr.isDiscovery = true := by simp [MrkKeyring.isDiscovery, hd]
        rw [if_neg hdisc]
        have harn : SameMrk kr.keyId e.providerInfo → ∃ p' r' a' res', IsArn kr.keyId p' (ascii "kms") r' a' res' := by
          rintro (h | ⟨p', r', _, a', res', _, h, _⟩)
          · rw [h]; exact ⟨p, r, acct, res, hk.1⟩
          · exact ⟨p', r', a', res', h.1.1⟩
        have hsame : SameMrk kr.keyId e.providerInfo →
            ∀ keyId', (some (arnRegion kr.keyId, kr.keyId) = some (region, keyId') ↔
              keyId' = kr.keyId ∧ ∃ p' acct' res', IsArn kr.keyId p' (ascii "kms") region acct' res') := by
          intro hs keyId'
          obtain ⟨p', r', a', res', hi⟩ := harn hs
          rw [show arnRegion kr.keyId = r' by rw [arnRegion, isArn_parse hi]]
          simp only [Option.some.injEq, Prod.mk.injEq]
          constructor
          · rintro ⟨rfl, rfl⟩; exact ⟨rfl, p', a', res', hi⟩
          · rintro ⟨rfl, p'', a'', res'', hi'⟩
            exact ⟨(isArn_unique hi hi').2.2.1, rfl⟩
        by_cases hm : isMrkIdentifier e.providerInfo = true
        · rw [if_pos hm]
          by_cases hmm : mrkMatch kr.keyId e.providerInfo = true
          · rw [if_pos hmm, hsame (mrkMatch_iff.1 hmm)]
            constructor
            · rintro ⟨h, h'⟩; exact ⟨h1', .inl ⟨hd, mrkMatch_iff.1 hmm, h, h'⟩⟩
            · rintro ⟨_, h | h⟩
              · exact h.2.2
              · exact absurd h.1 hd
          · rw [if_neg hmm]
            simp only [reduceCtorEq, false_iff]
            rintro ⟨_, h | h⟩
            · exact hmm (mrkMatch_iff.2 h.2.1)
            · exact hd h.1
        · rw [if_neg hm]
          by_cases he : kr.keyId = e.providerInfo
          · rw [if_pos he, ← he]
            rw [hsame (.inl he)]
            rw [he] at hd ⊢
            constructor
            · rintro ⟨h, h'⟩; exact ⟨h1', .inl ⟨hd, .inl rfl, h, h'⟩⟩
            · rintro ⟨_, h | h⟩
              · exact h.2.2
              · exact absurd h.1 hd
          · rw [if_neg he]
            simp only [reduceCtorEq, false_iff]
            rintro ⟨_, h | h⟩
            · rcases h.2.1 with h | ⟨p', r', r'', a', res', id', h, h'⟩
              · exact he h
              · exact hm (isMrkIdentifier_iff.2 ⟨id', .inl ⟨p', r'', a', res', h'⟩⟩)
            · exact hd h.1

theorem rightLength_ne_nil {alg : Nat} {b : Bytes} (h : RightLength alg b) : b ≠ [] := by
  obtain ⟨row, hr, _, hl⟩ := h
  have : ∀ row ∈ suiteTable, 0 < row.keyBits / 8 := by decide
  have := this row hr
  rintro rfl
  rw [List.length_nil] at hl
  omega

theorem kmsBuild_ok {grants : List Bytes} {generator : Bytes} {additional : List Bytes} {kr : KmsKeyring}
    (hb : kmsBuild grants generator additional = .ok kr) :
    kr = ⟨generator :: additional, grants, none⟩ ∧ ∀ id ∈ generator :: additional, parseRegion id ≠ [] := by
  unfold kmsBuild at hb
  split at hb
  · cases hb
  · next h1 =>
    split at hb
    · cases hb
    · next h2 =>
      cases hb
      refine ⟨rfl, ?_⟩
      intro id hid
      cases hid with
      | head => exact h1
      | tail _ hid =>
        intro h
        exact h2 (List.any_eq_true.2 ⟨id, hid, by simpa using h⟩)

theorem mrkRejects_iff {alg : Nat} {p : AlgProps} (hp : algProps alg = some p) {keyId used pt : Bytes} :
    (pt.length ≠ p.contentKeyLen ∨ used ≠ keyId) ↔ Rejects alg keyId used pt := by
  unfold Rejects
  rw [rightLength_of_props hp, (suiteFacts hp).keyLen]
  exact Or.comm

theorem mrkDecLoop_noKey {env : KmsEnv} {kr : MrkKeyring} {ctx : EncCtx} {alg i : Nat} {p : AlgProps} (hp : algProps alg = some p)
    {pre : List Edk} {calls : List KmsCall} {rep : Bool}
    (h : NoKey env ctx kr.grants (MrkMayTry kr) (Rejects alg) (!kr.isDiscovery) i pre calls rep) (failed : Bool) (s : DecState)
    (rest : List Edk) :
    mrkDecLoop env kr ctx alg i failed s (pre ++ rest) =
      ((mrkDecLoop env kr ctx alg (i + pre.length) (failed || rep) s rest).1,
        (mrkDecLoop env kr ctx alg (i + pre.length) (failed || rep) s rest).2.1,
        calls ++ (mrkDecLoop env kr ctx alg (i + pre.length) (failed || rep) s rest).2.2) := by
  induction h generalizing failed with
  | nil i => simp
  | @pass i e edks calls rep hpa _ ih =>
    have e1 : i + (e :: edks).length = i + 1 + edks.length := by simp; omega
    rw [e1, List.cons_append, mrkDecLoop]
    cases hk : mrkPlan kr e with
    | none => exact ih failed
    | some x =>
      obtain ⟨region, keyId⟩ := x
      simp only
      rw [hpa region keyId (mrkPlan_iff.1 hk)]
      exact ih failed
  | @failed i e edks calls rep region keyId c ht hc hd _ ih =>
    have e1 : i + (e :: edks).length = i + 1 + edks.length := by simp; omega
    rw [e1, List.cons_append, mrkDecLoop, mrkPlan_iff.2 ht]
    simp only
    rw [hc]
    simp only
    rw [hd]
    simp only
    rw [ih]
    simp [Bool.or_assoc]
  | @rejected i e edks calls rep region keyId c used pt ht hc hd hr _ ih =>
    have e1 : i + (e :: edks).length = i + 1 + edks.length := by simp; omega
    rw [e1, List.cons_append, mrkDecLoop, mrkPlan_iff.2 ht]
    simp only
    rw [hc]
    simp only
    rw [hd]
    simp only
    rw [hp]
    simp only
    rw [if_pos ((mrkRejects_iff hp).2 hr), ih]
    simp

theorem mrkDecLoop_answer {env : KmsEnv} {kr : MrkKeyring} {ctx : EncCtx} {alg i : Nat} {p : AlgProps} (hp : algProps alg = some p)
    {failed : Bool} {e : Edk} {rest : List Edk} {s : DecState} {region keyId used pt : Bytes} {c : Nat} (ht : MrkMayTry kr e region keyId)
    (hc : env.client i region = some c) (hd : env.decrypt i c ⟨keyId, e.ciphertext, ctx, kr.grants⟩ = some (used, pt))
    (hr : ¬ Rejects alg keyId used pt) :
    mrkDecLoop env kr ctx alg i failed s (e :: rest) =
      match dupKey env pt with
        | none => (.fail, { s with errno := .oom }, [.decrypt c ⟨keyId, e.ciphertext, ctx, kr.grants⟩])
        | some k =>
          (.ok, { key := k, trace := (kmsTrace env 0 s.trace s.errno e.providerInfo (4 + 16)).1,
                  errno := (kmsTrace env 0 s.trace s.errno e.providerInfo (4 + 16)).2 },
            [.decrypt c ⟨keyId, e.ciphertext, ctx, kr.grants⟩]) := by
  rw [mrkDecLoop, mrkPlan_iff.2 ht]
  simp only
  rw [hc]
  simp only
  rw [hd]
  simp only
  rw [hp]
  simp only
  rw [if_neg (fun h => hr ((mrkRejects_iff hp).1 h))]
  rfl

theorem mrkDecLoop_calls (env : KmsEnv) (kr : MrkKeyring) (ctx : EncCtx) (alg : Nat) (s : DecState) {call : KmsCall} :
    ∀ (edks : List Edk) (i : Nat) (failed : Bool), call ∈ (mrkDecLoop env kr ctx alg i failed s edks).2.2 →
      ∃ j e region keyId c, edks[j]? = some e ∧ MrkMayTry kr e region keyId ∧ env.client (i + j) region = some c ∧
        call = .decrypt c ⟨keyId, e.ciphertext, ctx, kr.grants⟩
  | [], i, failed, h => by
    rw [mrkDecLoop] at h
    split at h <;> cases h
  | e :: edks, i, failed, h => by
    have later : ∀ failed', call ∈ (mrkDecLoop env kr ctx alg (i + 1) failed' s edks).2.2 →
        ∃ j e' region keyId c, (e :: edks)[j]? = some e' ∧ MrkMayTry kr e' region keyId ∧ env.client (i + j) region = some c ∧
          call = .decrypt c ⟨keyId, e'.ciphertext, ctx, kr.grants⟩ := by
      intro failed' h'
      obtain ⟨j, e', region, keyId, c, h1, h2, h3, h4⟩ := mrkDecLoop_calls env kr ctx alg s edks (i + 1) failed' h'
      exact ⟨j + 1, e', region, keyId, c, by simpa using h1, h2, by rw [← h3]; congr 1; omega, h4⟩
    rw [mrkDecLoop] at h
    cases hk : mrkPlan kr e with
    | none => rw [hk] at h; exact later _ h
    | some x =>
      obtain ⟨region, keyId⟩ := x
      rw [hk] at h
      simp only at h
      cases hc : env.client i region with
      | none => rw [hc] at h; exact later _ h
      | some c =>
        rw [hc] at h
        simp only at h
        have here : call = .decrypt c ⟨keyId, e.ciphertext, ctx, kr.grants⟩ →
            ∃ j e' region keyId c, (e :: edks)[j]? = some e' ∧ MrkMayTry kr e' region keyId ∧ env.client (i + j) region = some c ∧
              call = .decrypt c ⟨keyId, e'.ciphertext, ctx, kr.grants⟩ :=
          fun h => ⟨0, e, region, keyId, c, rfl, mrkPlan_iff.1 hk, hc, h⟩
        cases hd : env.decrypt i c ⟨keyId, e.ciphertext, ctx, kr.grants⟩ with
        | none =>
          rw [hd] at h
          simp only [List.mem_cons] at h
          exact h.elim here (later _)
        | some y =>
          obtain ⟨used, pt⟩ := y
          rw [hd] at h
          simp only at h
          cases hp : algProps alg with
          | none =>
            rw [hp] at h
            simp only [List.mem_singleton] at h
            exact here h
          | some p =>
            rw [hp] at h
            simp only at h
            split at h
            · simp only [List.mem_cons] at h
              exact h.elim here (later _)
            · cases hdk : dupKey env pt with
              | none =>
                rw [hdk] at h
                simp only [List.mem_singleton] at h
                exact here h
              | some k =>
                rw [hdk] at h
                simp only [List.mem_singleton] at h
                exact here h

theorem mrkDecLoop_ne_ub {env : KmsEnv} {kr : MrkKeyring} {ctx : EncCtx} {alg : Nat} {p : AlgProps} (hp : algProps alg = some p)
    (edks : List Edk) (i : Nat) (failed : Bool) (s : DecState) : (mrkDecLoop env kr ctx alg i failed s edks).1 ≠ .ub := by
  rcases noKey_or_answered env ctx kr.grants (MrkMayTry kr) (Rejects alg) (!kr.isDiscovery) edks i with ⟨calls, rep, h⟩ |
    ⟨pre, e, post, before, rep, region, keyId, c, used, pt, rfl, h, ht, hc, hd, hr⟩
  · have := mrkDecLoop_noKey hp h failed s []
    rw [List.append_nil] at this
    rw [this]
    simp only [mrkDecLoop]
    split <;> simp
  · rw [mrkDecLoop_noKey hp h failed s (e :: post), mrkDecLoop_answer hp ht hc hd hr]
    simp only
    split <;> simp

theorem mrkBuildDiscoveryFilter_ok {grants : List Bytes} {supplier client : Bool} {region : Bytes} {f : Option DiscoveryFilter} {kr : MrkKeyring}
    (h : mrkBuildDiscoveryFilter grants supplier client region f = some kr) :
    kr = ⟨[], grants, region, f⟩ ∧ region ≠ [] ∧ supplier = false ∧ client = true := by
  unfold mrkBuildDiscoveryFilter at h
  split at h
  · cases h
  · next hr =>
    split at h
    · cases h
    · next hc =>
      cases h
      simp only [Bool.not_eq_true', not_or, Bool.not_eq_true, Bool.not_eq_false] at hc
      exact ⟨rfl, hr, hc.1, hc.2⟩

theorem mrkDiscoveryChildren_ok {env : MultiBuildEnv} {grants : List Bytes} {f : Option DiscoveryFilter} : ∀ {regions : List Bytes} {i : Nat}
    {krs : List MrkKeyring}, mrkDiscoveryChildren env grants f i regions = some krs → krs = regions.map (fun r => ⟨[], grants, r, f⟩)
  | [], i, krs, h => by simp only [mrkDiscoveryChildren, Option.some.injEq] at h; simp [← h]
  | region :: regions, i, krs, h => by
    rw [mrkDiscoveryChildren] at h
    split at h
    · cases h
    · cases hb : mrkBuildDiscoveryFilter grants false true region f with
      | none => rw [hb] at h; cases h
      | some kr =>
        rw [hb] at h
        simp only at h
        split at h
        · cases h
        · cases hc : mrkDiscoveryChildren env grants f (i + 1) regions with
          | none => rw [hc] at h; cases h
          | some krs' =>
            rw [hc] at h
            simp only [Option.some.injEq] at h
            rw [← h, mrkDiscoveryChildren_ok hc, (mrkBuildDiscoveryFilter_ok hb).1]
            rfl

/-! ### encryption -/

/-- The record that encrypting under the key `id` leaves in the trace. -/
def kmsRec (flags : Nat) (id : Bytes) : TraceRec := ⟨kmsProvider, cstr id, flags⟩

theorem kmsAppend_some {env : KmsEnv} {i : Nat} {my my' : KmsLocal} {keyId ct name : Bytes} {flags : Nat}
    (h : kmsAppend env i my keyId ct name flags = some my') :
    my'.edks = my.edks ++ [⟨kmsProvider, keyId, ct⟩] ∧ (∃ t, my'.trace = my.trace ++ t ∧ t.Sublist [kmsRec flags name] ∧
      (env.alloc (.trace i) = true → t = [kmsRec flags name])) := by
  unfold kmsAppend at h
  split at h
  · injection h with h
    subst h
    refine ⟨rfl, ?_⟩
    unfold kmsTrace
    by_cases ha : env.alloc (.trace i) = true
    · rw [if_pos ha]
      exact ⟨_, rfl, List.Sublist.refl _, fun _ => rfl⟩
    · rw [if_neg ha]
      exact ⟨[], by simp, by simp, fun h => absurd h ha⟩
  · cases h

theorem kmsEncLoop_ok {env : KmsEnv} {grants : List Bytes} {ctx : EncCtx} {key : Bytes} : ∀ {ids : List Bytes} {i : Nat} {my my' : KmsLocal},
    (∀ id ∈ ids, parseRegion id ≠ []) → (kmsEncLoop env grants ctx key i my ids).1 = .ok my' →
    ∃ es t, Wraps env grants ctx key i ids es ∧ my'.edks = my.edks ++ es ∧ my'.trace = my.trace ++ t ∧ t.Sublist (ids.map (kmsRec (2 + 8))) ∧
      ((∀ j, env.alloc (.trace j) = true) → t = ids.map (kmsRec (2 + 8)))
  | [], i, my, my', _, h => by
    simp only [kmsEncLoop, Except.ok.injEq] at h
    subst h
    exact ⟨[], [], .nil i, by simp, by simp, by simp, fun _ => rfl⟩
  | id :: ids, i, my, my', hreg, h => by
    rw [kmsEncLoop] at h
    cases hc : env.client i (parseRegion id) with
    | none => rw [hc] at h; simp at h
    | some c =>
      rw [hc] at h
      simp only at h
      cases hd : env.encrypt i c ⟨id, key, ctx, grants⟩ with
      | none => rw [hd] at h; simp at h
      | some x =>
        obtain ⟨keyId, ct⟩ := x
        rw [hd] at h
        simp only at h
        cases ha : kmsAppend env i my keyId ct id (2 + 8) with
        | none => rw [ha] at h; simp at h
        | some my1 =>
          rw [ha] at h
          simp only at h
          obtain ⟨es, t, hw, he, ht, hs, hall⟩ := kmsEncLoop_ok (fun x hx => hreg x (List.mem_cons_of_mem _ hx)) h
          obtain ⟨he1, t1, ht1, hs1, hall1⟩ := kmsAppend_some ha
          refine ⟨⟨kmsProvider, keyId, ct⟩ :: es, t1 ++ t, .cons ((parseRegion_iff (hreg id (List.mem_cons_self ..))).1 rfl) hc hd hw,
            by rw [he, he1]; simp, by rw [ht, ht1]; simp, ?_, ?_⟩
          · have := List.Sublist.append hs1 hs
            simpa using this
          · intro hj
            rw [hall hj, hall1 (hj i)]
            simp

theorem kmsEncLoop_wraps {env : KmsEnv} {grants : List Bytes} {ctx : EncCtx} {key : Bytes} (hall : ∀ st, env.alloc st = true)
    {ids : List Bytes} {i : Nat} {es : List Edk} (hw : Wraps env grants ctx key i ids es) :
    ∀ my, ∃ my', (kmsEncLoop env grants ctx key i my ids).1 = .ok my' ∧ my'.edks = my.edks ++ es := by
  induction hw with
  | nil i => intro my; exact ⟨my, rfl, by simp⟩
  | @cons i id ids region c keyId ct edks hr hc he _ ih =>
    intro my
    rw [kmsEncLoop, (parseRegion_iff hr.2.2).2 hr, hc]
    simp only
    rw [he]
    simp only
    cases ha : kmsAppend env i my keyId ct id (2 + 8) with
    | none => simp [kmsAppend, hall] at ha
    | some my1 =>
      simp only
      obtain ⟨my', h1, h2⟩ := ih my1
      exact ⟨my', h1, by rw [h2, (kmsAppend_some ha).1]; simp [kmsProvider]⟩

theorem wraps_length {env : KmsEnv} {grants : List Bytes} {ctx : EncCtx} {key : Bytes} {ids : List Bytes} {i : Nat} {es : List Edk}
    (hw : Wraps env grants ctx key i ids es) : es.length = ids.length := by
  induction hw with
  | nil => rfl
  | cons _ _ _ _ ih => simp [ih]

theorem kmsTransfer_all {env : KmsEnv} (hpush : ∀ i, env.pushEdk i = true) (s : EncState) (key : Option KeyBuf) (fresh : Bool) (my : KmsLocal) :
    (kmsTransfer env s key fresh my).1 = .ok ∧ (kmsTransfer env s key fresh my).2.key = key ∧
      (kmsTransfer env s key fresh my).2.edks = s.edks ++ my.edks ∧
      (∃ t, (kmsTransfer env s key fresh my).2.trace = s.trace ++ t ∧ t <+: my.trace ∧ ((∀ i, env.pushTrace i = true) → t = my.trace)) := by
  unfold kmsTransfer
  rw [transferLoop_all hpush]
  refine ⟨rfl, rfl, rfl, ?_⟩
  obtain ⟨l, hl, h1, h2, _⟩ := transferLoop_prefix env.pushTrace 0 s.trace my.trace
  refine ⟨l, h1, hl, fun h => h2 ?_⟩
  rw [transferLoop_all h]

end Verif
