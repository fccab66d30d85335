import Verif.Proof.Kms
import Verif.Spec.KmsExample
/-
C53, C54, C56, C58: KMS keyrings.
-/
namespace Verif.Props
open Verif Verif.Spec Verif.Example

/-! ### decryption with a KMS keyring -/

/-- **C54**, **C53.**  What decryption with a KMS keyring does, for all EDKs and answers of KMS.  Either no EDK that it may try got an answer,
and it succeeds without a data key.  Or the first answer decides: it gives the data key if KMS reports that it used the key of the EDK
(and memory is available), and otherwise the call fails.  An empty plaintext gives no data key. -/
theorem C54_kms_decrypt (env : KmsEnv) (kr : KmsKeyring) (edks : List Edk) (ctx : EncCtx) (s : DecState) :
    (∃ calls reported, NoKey env ctx kr.grants (fun e r k => MayTry kr e r ∧ k = e.providerInfo) (fun _ _ _ => False) true 0 edks calls reported ∧
      kmsOnDecrypt env kr edks ctx s = (.ok, s, calls)) ∨
    (∃ e used plaintext calls, Answered env ctx kr.grants (fun e r k => MayTry kr e r ∧ k = e.providerInfo) (fun _ _ _ => False) true edks e
        e.providerInfo used plaintext calls ∧
      ((used ≠ e.providerInfo ∧ kmsOnDecrypt env kr edks ctx s = (.fail, { s with errno := .invalidState }, calls)) ∨
       (used = e.providerInfo ∧ plaintext ≠ [] ∧ env.alloc .dataKey = false ∧
          kmsOnDecrypt env kr edks ctx s = (.fail, { s with errno := .oom }, calls)) ∨
       (used = e.providerInfo ∧ (plaintext ≠ [] → env.alloc .dataKey = true) ∧ ∃ trace errno,
          (trace = s.trace ++ [⟨ascii "aws-kms", e.providerInfo.takeWhile (· ≠ 0), 20⟩] ∧ errno = s.errno ∨ trace = s.trace ∧ errno = .oom) ∧
          kmsOnDecrypt env kr edks ctx s =
            (.ok, ⟨if plaintext = [] then none else some ⟨env.ptr, plaintext, plaintext.length, env.heap⟩, trace, errno⟩, calls)))) := by
  rcases noKey_or_answered env ctx kr.grants (kmsTry kr) (fun _ _ _ => False) true edks 0 with ⟨calls, rep, h⟩ |
    ⟨pre, e, post, before, rep, region, keyId, c, used, pt, rfl, h, ⟨ht, rfl⟩, hc, hd, _⟩
  · refine .inl ⟨calls, rep, h, ?_⟩
    have := kmsDecLoop_noKey h s []
    rw [List.append_nil] at this
    rw [kmsOnDecrypt, this]
    simp [kmsDecLoop]
  · rw [Nat.zero_add] at hc hd
    refine .inr ⟨e, used, pt, before ++ [.decrypt c ⟨e.providerInfo, e.ciphertext, ctx, kr.grants⟩],
      ⟨pre, post, before, rep, region, c, rfl, h, ⟨ht, rfl⟩, hc, hd, rfl⟩, ?_⟩
    rw [kmsOnDecrypt, kmsDecLoop_noKey h s (e :: post), Nat.zero_add, kmsDecLoop_answer ht hc hd]
    by_cases hu : used = e.providerInfo
    · rw [if_pos hu]
      by_cases hp : pt = []
      · subst hp
        refine .inr (.inr ⟨hu, fun h => absurd rfl h, _, _, ?_, rfl⟩)
        rcases kmsTrace_cases env 0 s.trace s.errno e.providerInfo (4 + 16) with h | h <;> rw [h]
        · exact .inl ⟨rfl, rfl⟩
        · exact .inr ⟨rfl, rfl⟩
      · cases ha : env.alloc .dataKey with
        | false => exact .inr (.inl ⟨hu, hp, rfl, by simp [dupKey, hp, ha]⟩)
        | true =>
          refine .inr (.inr ⟨hu, fun _ => rfl, _, _, ?_, by simp only [dupKey, hp, ha, if_false, if_true]; rfl⟩)
          rcases kmsTrace_cases env 0 s.trace s.errno e.providerInfo (4 + 16) with h | h <;> rw [h]
          · exact .inl ⟨rfl, rfl⟩
          · exact .inr ⟨rfl, rfl⟩
    · rw [if_neg hu]
      exact .inl ⟨hu, rfl⟩

example : (kmsOnDecrypt kmsEnv kmsStrict kmsEdks krCtx decStart).1 = .ok ∧
    (kmsOnDecrypt kmsEnv kmsStrict kmsEdks krCtx decStart).2.1.key.map (·.bytes) = some (List.replicate 32 7) ∧
    (kmsOnDecrypt kmsEnv kmsStrict kmsEdks krCtx decStart).2.2 =
      [.decrypt 9 ⟨arn1, [5, 5], krCtx, [ascii "grant"]⟩, .decrypt 12 ⟨arn2, List.replicate 32 7 ++ [50], krCtx, [ascii "grant"]⟩] := by
  decide +kernel

/-- Every call that a KMS keyring makes for decryption is for an EDK that it may try. -/
theorem kmsOnDecrypt_calls (env : KmsEnv) (kr : KmsKeyring) (edks : List Edk) (ctx : EncCtx) (s : DecState) {call : KmsCall}
    (hc : call ∈ (kmsOnDecrypt env kr edks ctx s).2.2) :
    ∃ i e region c, edks[i]? = some e ∧ MayTry kr e region ∧ env.client i region = some c ∧
      call = .decrypt c ⟨e.providerInfo, e.ciphertext, ctx, kr.grants⟩ := by
  rcases C54_kms_decrypt env kr edks ctx s with ⟨calls, rep, h, he⟩ | ⟨e, used, pt, calls, ⟨pre, post, before, rep, region, c, rfl, h, ht, hcl, hd, rfl⟩, he⟩
  · rw [he] at hc
    obtain ⟨j, e, region, keyId, c, h1, ⟨h2, rfl⟩, h3, h4⟩ := noKey_calls h hc
    exact ⟨j, e, region, c, h1, h2, by simpa using h3, h4⟩
  · have hc : call ∈ before ++ [.decrypt c ⟨e.providerInfo, e.ciphertext, ctx, kr.grants⟩] := by
      rcases he with ⟨_, he⟩ | ⟨_, _, _, he⟩ | ⟨_, _, _, _, _, he⟩ <;> rw [he] at hc <;> exact hc
    rw [List.mem_append] at hc
    rcases hc with hc | hc
    · obtain ⟨j, e', region', keyId, c', h1, ⟨h2, rfl⟩, h3, h4⟩ := noKey_calls h hc
      refine ⟨j, e', region', c', ?_, h2, by simpa using h3, h4⟩
      rw [List.getElem?_append_left]
      · exact h1
      · exact (List.getElem?_eq_some_iff.1 h1).1
    · simp only [List.mem_singleton] at hc
      exact ⟨pre.length, e, region, c, by simp, ht.1, hcl, hc⟩

/-- **C53.**  A KMS keyring with a discovery filter calls KMS only for EDKs whose key ARN has the partition and one of the accounts of the
filter. -/
theorem C53_kms_filter (env : KmsEnv) {kr : KmsKeyring} {f : DiscoveryFilter} (hf : kr.filter = some f) (edks : List Edk) (ctx : EncCtx)
    (s : DecState) {call : KmsCall} (hc : call ∈ (kmsOnDecrypt env kr edks ctx s).2.2) :
    ∃ e ∈ edks, ∃ c service region account resource, call = .decrypt c ⟨e.providerInfo, e.ciphertext, ctx, kr.grants⟩ ∧
      e.providerId = ascii "aws-kms" ∧ IsArn e.providerInfo f.partition service region account resource ∧ account ∈ f.accounts := by
  obtain ⟨i, e, region, c, h1, h2, _, h4⟩ := kmsOnDecrypt_calls env kr edks ctx s hc
  obtain ⟨v, r, a, res, h5, h6⟩ := h2.2.2.1 f hf
  exact ⟨e, List.mem_of_getElem? h1, c, v, r, a, res, h4, h2.1, h5, h6⟩

example : (kmsOnDecrypt kmsEnv kmsDisco kmsEdks krCtx decStart).2.2 =
    [.decrypt 9 ⟨arn1, [5, 5], krCtx, []⟩, .decrypt 12 ⟨arn2, List.replicate 32 7 ++ [50], krCtx, []⟩] := by decide +kernel

/-- **C53.**  Filters and the keyrings that have one: a filter can be built exactly from a partition and at least one account, none empty;
building a discovery keyring with it gives a keyring that has exactly this filter; and a null filter gives no keyring. -/
theorem C53_filter_builders (partition : Bytes) (accounts : List Bytes) (grants : List Bytes) (f : Option DiscoveryFilter) :
    (discoveryFilterBuild partition accounts =
      if partition ≠ [] ∧ accounts ≠ [] ∧ (∀ a ∈ accounts, a ≠ []) then some ⟨partition, accounts⟩ else none) ∧
    (∀ kr, kmsBuildDiscoveryFilter grants f = some kr → f.isSome ∧ kr.filter = f ∧ kr.keyIds = [] ∧ kr.grants = grants) ∧
    (kmsBuildDiscoveryFilter grants none = none) := by
  refine ⟨?_, ?_, rfl⟩
  · unfold discoveryFilterBuild
    by_cases h1 : accounts = []
    · simp [h1]
    · by_cases h2 : partition = []
      · simp [h2]
      · by_cases h3 : [] ∈ accounts
        · rw [if_neg h1, if_neg h2, if_pos h3, if_neg]
          rintro ⟨_, _, h⟩
          exact h [] h3 rfl
        · rw [if_neg h1, if_neg h2, if_neg h3, if_pos]
          exact ⟨h2, h1, fun a ha h => h3 (h ▸ ha)⟩
  · intro kr h
    cases f with
    | none => cases h
    | some f => cases h; exact ⟨rfl, rfl, rfl, rfl⟩

example : discoveryFilterBuild (ascii "aws") [ascii "1234"] = some kmsFilter ∧ kmsBuildDiscoveryFilter [] (some kmsFilter) = some kmsDisco := by
  decide

/-- **C54.**  A strict KMS keyring, as it is built, calls Decrypt only for EDKs of KMS whose key is one of the configured identifiers, and
with exactly this key, the EDK's ciphertext, the encryption context and its grant tokens, in the region of the key. -/
theorem C54_only_configured_keys (env : KmsEnv) {grants : List Bytes} {generator : Bytes} {additional : List Bytes} {kr : KmsKeyring}
    (hb : kmsBuild grants generator additional = .ok kr) (edks : List Edk) (ctx : EncCtx) (s : DecState) {call : KmsCall}
    (hc : call ∈ (kmsOnDecrypt env kr edks ctx s).2.2) :
    ∃ i e region c, edks[i]? = some e ∧ e.providerId = ascii "aws-kms" ∧ e.providerInfo ∈ generator :: additional ∧
      HasRegion e.providerInfo region ∧ env.client i region = some c ∧ call = .decrypt c ⟨e.providerInfo, e.ciphertext, ctx, grants⟩ := by
  obtain ⟨rfl, _⟩ := kmsBuild_ok hb
  obtain ⟨i, e, region, c, h1, h2, h3, h4⟩ := kmsOnDecrypt_calls env _ edks ctx s hc
  exact ⟨i, e, region, c, h1, h2.1, h2.2.1 (by simp), h2.2.2.2, h3, h4⟩

example : kmsBuild [ascii "grant"] arn1 [arn2] = .ok kmsStrict := by decide

/-- **C54.**  A data key that decryption with a strict KMS keyring gives is the plaintext of an answer of KMS which names the key of the
EDK, and that key is configured. -/
theorem C54_accepts_only_configured_key (env : KmsEnv) {grants : List Bytes} {generator : Bytes} {additional : List Bytes} {kr : KmsKeyring}
    (hb : kmsBuild grants generator additional = .ok kr) {edks : List Edk} {ctx : EncCtx} {alg : Nat} {s s' : DecState} {k : KeyBuf}
    (h : keyringOnDecrypt (kmsKeyring env kr) edks ctx alg s = (.ok, s')) (hk : s'.key = some k) :
    ∃ i e c, edks[i]? = some e ∧ e.providerId = ascii "aws-kms" ∧ e.providerInfo ∈ generator :: additional ∧
      env.decrypt i c ⟨e.providerInfo, e.ciphertext, ctx, grants⟩ = some (e.providerInfo, k.bytes) ∧ RightLength alg k.bytes := by
  obtain ⟨rfl, _⟩ := kmsBuild_ok hb
  unfold keyringOnDecrypt at h
  split at h
  · cases h
  · next hs0 =>
    have hs0 : s.key = none := by simpa using hs0
    simp only [kmsKeyring] at h
    rcases C54_kms_decrypt env ⟨generator :: additional, grants, none⟩ edks ctx s with ⟨calls, rep, _, he⟩ |
      ⟨e, used, pt, calls, ⟨pre, post, before, rep, region, c, rfl, _, ht, hcl, hd, rfl⟩, he⟩
    · rw [he] at h
      simp only [hs0, reduceCtorEq, if_false, Prod.mk.injEq, true_and] at h
      rw [← h, hs0] at hk
      cases hk
    · rcases he with ⟨_, he⟩ | ⟨_, _, _, he⟩ | ⟨rfl, _, tr, er, _, he⟩
      · rw [he] at h
        simp [hs0] at h
      · rw [he] at h
        simp [hs0] at h
      · rw [he] at h
        simp only [reduceCtorEq, if_false] at h
        by_cases hp : pt = []
        · simp only [hp, if_true, Prod.mk.injEq, true_and] at h
          rw [← h] at hk; cases hk
        · simp only [hp, if_false] at h
          split at h
          · next hl =>
            simp only [Prod.mk.injEq, true_and] at h
            rw [← h] at hk
            cases hk
            exact ⟨pre.length, e, c, by simp, ht.1.1, ht.1.2.1 (by simp), hd, (dataKeyLenOK_iff alg _).1 hl⟩
          · cases h

example : (keyringOnDecrypt (kmsKeyring kmsEnv kmsStrict) kmsEdks krCtx 0x0178 decStart).1 = .ok ∧
    (keyringOnDecrypt (kmsKeyring kmsEnv kmsStrict) kmsEdks krCtx 0x0178 decStart).2.key.map (·.bytes) = some (List.replicate 32 7) := by
  decide +kernel

/-! ### decryption with an MRK-aware keyring -/

/-- **C56.**  What decryption with an MRK-aware keyring does for a known suite, for all EDKs and answers of KMS.  If no EDK that it may try
got an answer that it accepts, it gives no data key: it fails if an answer was rejected or, in strict mode, a call failed, and otherwise
succeeds.  Or the first acceptable answer gives the data key, if memory is available. -/
theorem C56_mrk_decrypt (env : KmsEnv) (kr : MrkKeyring) (edks : List Edk) (ctx : EncCtx) {alg : Nat} (halg : ∃ row ∈ suiteTable, row.id = alg)
    {s : DecState} (hs : s.key = none) :
    (∃ calls reported, NoKey env ctx kr.grants (MrkMayTry kr) (Rejects alg) (decide (kr.keyId ≠ [])) 0 edks calls reported ∧
      mrkOnDecrypt env kr edks ctx alg s = if reported then (.fail, { s with errno := .kmsFailure }, calls) else (.ok, s, calls)) ∨
    (∃ e keyId used plaintext calls, Answered env ctx kr.grants (MrkMayTry kr) (Rejects alg) (decide (kr.keyId ≠ [])) edks e keyId used plaintext calls ∧
      ¬ Rejects alg keyId used plaintext ∧
      ((env.alloc .dataKey = false ∧ mrkOnDecrypt env kr edks ctx alg s = (.fail, { s with errno := .oom }, calls)) ∨
       (env.alloc .dataKey = true ∧ ∃ trace errno,
          (trace = s.trace ++ [⟨ascii "aws-kms", e.providerInfo.takeWhile (· ≠ 0), 20⟩] ∧ errno = s.errno ∨ trace = s.trace ∧ errno = .oom) ∧
          mrkOnDecrypt env kr edks ctx alg s = (.ok, ⟨some ⟨env.ptr, plaintext, plaintext.length, env.heap⟩, trace, errno⟩, calls)))) := by
  obtain ⟨row, hrow, rfl⟩ := halg
  obtain ⟨p, hp⟩ := algProps_of_row hrow
  have hdisc : decide (kr.keyId ≠ []) = !kr.isDiscovery := by
    cases hk : kr.keyId with
    | nil => simp [MrkKeyring.isDiscovery, hk]
    | cons => simp [MrkKeyring.isDiscovery, hk]
  have hstart : mrkOnDecrypt env kr edks ctx row.id s = mrkDecLoop env kr ctx row.id 0 false s edks := by
    simp [mrkOnDecrypt, hs, keyBytes]
  rw [hstart, hdisc]
  rcases noKey_or_answered env ctx kr.grants (MrkMayTry kr) (Rejects row.id) (!kr.isDiscovery) edks 0 with ⟨calls, rep, h⟩ |
    ⟨pre, e, post, before, rep, region, keyId, c, used, pt, rfl, h, ht, hc, hd, hr⟩
  · refine .inl ⟨calls, rep, h, ?_⟩
    have := mrkDecLoop_noKey hp h false s []
    rw [List.append_nil] at this
    rw [this]
    cases rep <;> simp [mrkDecLoop]
  · rw [Nat.zero_add] at hc hd
    refine .inr ⟨e, keyId, used, pt, before ++ [.decrypt c ⟨keyId, e.ciphertext, ctx, kr.grants⟩],
      ⟨pre, post, before, rep, region, c, rfl, h, ht, hc, hd, rfl⟩, hr, ?_⟩
    rw [mrkDecLoop_noKey hp h false s (e :: post), Nat.zero_add, mrkDecLoop_answer hp ht hc hd hr]
    have hne : pt ≠ [] := by
      have hr : RightLength row.id pt := by
        simp only [Rejects, not_or, Classical.not_not] at hr; exact hr.2
      exact rightLength_ne_nil hr
    cases ha : env.alloc .dataKey with
    | false => exact .inl ⟨rfl, by simp [dupKey, hne, ha]⟩
    | true =>
      refine .inr ⟨rfl, _, _, ?_, by simp only [dupKey, hne, ha, if_false, if_true]; rfl⟩
      rcases kmsTrace_cases env 0 s.trace s.errno e.providerInfo (4 + 16) with h | h <;> rw [h]
      · exact .inl ⟨rfl, rfl⟩
      · exact .inr ⟨rfl, rfl⟩

example : (mrkOnDecrypt kmsEnv mrkStrict mrkEdks krCtx 0x0178 decStart).1 = .ok ∧
    (mrkOnDecrypt kmsEnv mrkStrict mrkEdks krCtx 0x0178 decStart).2.1.key.map (·.bytes) = some (List.replicate 32 7) ∧
    (mrkOnDecrypt kmsEnv mrkStrict mrkEdks krCtx 0x0178 decStart).2.2 = [.decrypt 9 ⟨mrkWest, List.replicate 32 7 ++ [53], krCtx, []⟩] := by
  decide +kernel

/-- **C56.**  A strict MRK-aware keyring, as it is built, calls Decrypt only with its configured key identifier, in the region of that key,
and only for EDKs of KMS whose key is the configured one or a replica of it. -/
theorem C56_strict_calls (env : KmsEnv) {grants : List Bytes} {keyId : Bytes} {kr : MrkKeyring} (hb : mrkBuild grants keyId = .ok kr)
    (edks : List Edk) (ctx : EncCtx) (alg : Nat) (s : DecState) {call : KmsCall} (hc : call ∈ (mrkOnDecrypt env kr edks ctx alg s).2.2) :
    ∃ i e region c, edks[i]? = some e ∧ e.providerId = ascii "aws-kms" ∧ SameMrk keyId e.providerInfo ∧
      (∃ p acct res, IsArn keyId p (ascii "kms") region acct res) ∧ env.client i region = some c ∧
      call = .decrypt c ⟨keyId, e.ciphertext, ctx, grants⟩ := by
  have hne := (mrkBuild_ok.1 ⟨kr, hb⟩).1
  have hkr := mrkBuild_eq hb
  subst hkr
  unfold mrkOnDecrypt at hc
  split at hc
  · cases hc
  · obtain ⟨i, e, region, keyId', c, h1, ⟨h2, p, r, acct, res, id, _, _, h⟩, h3, h4⟩ := mrkDecLoop_calls env _ ctx alg s edks 0 false hc
    rcases h with ⟨_, hs, rfl, hr⟩ | ⟨h, _⟩
    · exact ⟨i, e, region, c, h1, h2, hs, hr, by simpa using h3, h4⟩
    · exact absurd h hne

example : mrkBuild [] mrkWest = .ok mrkStrict ∧ (mrkOnDecrypt kmsEnv mrkStrict mrkEdks krCtx 0x0178 decStart).2.2 ≠ [] := by decide +kernel

/-- **C56**, **C53.**  An MRK-aware keyring in discovery mode, as it is built, calls Decrypt only with the client for its own region and only
for EDKs of KMS whose key ARN the filter allows.  If that is a single-Region key, it is in the region and is the one asked for; if it is
a multi-Region key, the ARN asked for has the region of the keyring in place of its own. -/
theorem C56_discovery_calls (env : KmsEnv) {grants : List Bytes} {supplier client : Bool} {region : Bytes} {f : Option DiscoveryFilter}
    {kr : MrkKeyring} (hb : mrkBuildDiscoveryFilter grants supplier client region f = some kr)
    (edks : List Edk) (ctx : EncCtx) (alg : Nat) (s : DecState) {call : KmsCall} (hc : call ∈ (mrkOnDecrypt env kr edks ctx alg s).2.2) :
    ∃ i e c keyId p r acct res id, edks[i]? = some e ∧ e.providerId = ascii "aws-kms" ∧
      IsKmsArn e.providerInfo p r acct res (ascii "key") id ∧ env.client i region = some c ∧
      call = .decrypt c ⟨keyId, e.ciphertext, ctx, grants⟩ ∧
      keyId = ascii "arn:" ++ p ++ ascii ":kms:" ++ region ++ ascii ":" ++ acct ++ ascii ":" ++ res ∧
      (¬ ascii "mrk-" <+: id → keyId = e.providerInfo) ∧
      (∀ flt, f = some flt → p = flt.partition ∧ acct ∈ flt.accounts) := by
  obtain ⟨rfl, _⟩ := mrkBuildDiscoveryFilter_ok hb
  unfold mrkOnDecrypt at hc
  split at hc
  · cases hc
  · obtain ⟨i, e, region', keyId, c, h1, ⟨h2, p, r, acct, res, id, hk, _, h⟩, h3, h4⟩ := mrkDecLoop_calls env _ ctx alg s edks 0 false hc
    have e4 : ascii ":kms:" = ascii ":" ++ ascii "kms" ++ ascii ":" := by decide
    rcases h with ⟨h, _⟩ | ⟨_, rfl, hf, h⟩
    · exact absurd rfl h
    · refine ⟨i, e, c, keyId, p, r, acct, res, id, h1, h2, hk, by simpa using h3, h4, ?_, ?_, ?_⟩
      · rcases h with h | ⟨_, rfl, rfl⟩
        · exact h.2
        · rw [hk.1.1, e4]; simp
      · intro hm
        rcases h with h | h
        · exact absurd h.1 hm
        · exact h.2.2
      · intro flt hflt
        obtain ⟨v', r', a', res', hi, ha⟩ := hf flt hflt
        obtain ⟨rfl, _, _, rfl, _⟩ := isArn_unique hk.1 hi
        exact ⟨rfl, ha⟩

example : mrkBuildDiscoveryFilter [] false true (ascii "us-west-2") (some kmsFilter) = some mrkDisco ∧
    (mrkOnDecrypt kmsEnv mrkDisco mrkEdks krCtx 0x0178 decStart).2.2 = [.decrypt 9 ⟨mrkWest, List.replicate 32 7 ++ [53], krCtx, []⟩] := by
  decide +kernel

/-- **C53.**  An MRK-aware keyring with a discovery filter calls KMS only for EDKs whose key ARN has the partition and one of the accounts
of the filter. -/
theorem C53_mrk_filter (env : KmsEnv) {kr : MrkKeyring} {f : DiscoveryFilter} (hk : kr.keyId = []) (hf : kr.filter = some f) (edks : List Edk)
    (ctx : EncCtx) (alg : Nat) (s : DecState) {call : KmsCall} (hc : call ∈ (mrkOnDecrypt env kr edks ctx alg s).2.2) :
    ∃ e ∈ edks, ∃ c keyId service region account resource, call = .decrypt c ⟨keyId, e.ciphertext, ctx, kr.grants⟩ ∧
      e.providerId = ascii "aws-kms" ∧ IsArn e.providerInfo f.partition service region account resource ∧ account ∈ f.accounts := by
  unfold mrkOnDecrypt at hc
  split at hc
  · cases hc
  · obtain ⟨i, e, region', keyId, c, h1, ⟨h2, p, r, acct, res, id, _, _, h⟩, h3, h4⟩ := mrkDecLoop_calls env _ ctx alg s edks 0 false hc
    rcases h with ⟨h, _⟩ | ⟨_, _, hf', _⟩
    · exact absurd hk h
    · obtain ⟨v, r, a, res, h5, h6⟩ := hf' f hf
      exact ⟨e, List.mem_of_getElem? h1, c, keyId, v, r, a, res, h4, h2, h5, h6⟩

/-- **C53.**  The discovery keyrings that the MRK-aware builders give have the region and the filter that they were asked for: a single one,
and each child of a multi-keyring over several regions. -/
theorem C53_mrk_builders (env : MultiBuildEnv) (grants : List Bytes) (supplier client : Bool) (region : Bytes) (regions : List Bytes)
    (f : Option DiscoveryFilter) :
    (∀ kr, mrkBuildDiscoveryFilter grants supplier client region f = some kr →
      region ≠ [] ∧ kr = ⟨[], grants, region, f⟩) ∧
    (∀ krs, mrkMultiBuildDiscovery env grants regions f = some krs →
      regions ≠ [] ∧ (∀ r ∈ regions, r ≠ []) ∧ krs = regions.map (fun r => ⟨[], grants, r, f⟩)) := by
  constructor
  · intro kr h
    exact ⟨(mrkBuildDiscoveryFilter_ok h).2.1, (mrkBuildDiscoveryFilter_ok h).1⟩
  · intro krs h
    unfold mrkMultiBuildDiscovery at h
    split at h
    · cases h
    · next h1 =>
      split at h
      · cases h
      · next h2 =>
        split at h
        · cases h
        · exact ⟨h1, fun r hr h => h2 (h ▸ hr), mrkDiscoveryChildren_ok h⟩

example : mrkMultiBuildDiscovery ⟨fun _ => true, true, fun _ => true⟩ [] [ascii "us-west-2", ascii "eu-west-1"] (some kmsFilter) =
    some [mrkDisco, ⟨[], [], ascii "eu-west-1", some kmsFilter⟩] := by decide

/-- **C56.**  A data key that decryption with an MRK-aware keyring gives is the plaintext of an answer of KMS which names the key asked for,
and has the length of the suite. -/
theorem C56_accepts_only_requested_key (env : KmsEnv) {kr : MrkKeyring} {edks : List Edk} {ctx : EncCtx} {alg : Nat} {s s' : DecState} {k : KeyBuf}
    (h : keyringOnDecrypt (mrkKeyring env kr) edks ctx alg s = (.ok, s')) (hk : s'.key = some k) :
    ∃ i e region c keyId, edks[i]? = some e ∧ MrkMayTry kr e region keyId ∧ env.client i region = some c ∧
      env.decrypt i c ⟨keyId, e.ciphertext, ctx, kr.grants⟩ = some (keyId, k.bytes) ∧ RightLength alg k.bytes := by
  unfold keyringOnDecrypt at h
  split at h
  · cases h
  · next hs0 =>
    have hs0 : s.key = none := by simpa using hs0
    simp only [mrkKeyring] at h
    split at h
    · next hub => simp [hub] at h
    · next hub =>
      cases hk1 : (mrkOnDecrypt env kr edks ctx alg s).2.1.key with
      | none =>
        rw [hk1] at h
        simp only [Prod.mk.injEq] at h
        rw [← h.2, hk1] at hk
        cases hk
      | some k' =>
        rw [hk1] at h
        simp only at h
        split at h
        · next hl =>
          simp only [Prod.mk.injEq] at h
          have hrl := (dataKeyLenOK_iff alg _).1 hl
          have halg : ∃ row ∈ suiteTable, row.id = alg := by
            obtain ⟨row, hr, hid, _⟩ := hrl; exact ⟨row, hr, hid⟩
          have hkk : k' = k := by
            rw [← h.2, hk1] at hk; exact Option.some.inj hk
          subst hkk
          rcases C56_mrk_decrypt env kr edks ctx halg hs0 with ⟨calls, rep, _, he⟩ |
            ⟨e, keyId, used, pt, calls, ⟨pre, post, before, rep, region, c, rfl, _, ht, hcl, hd, rfl⟩, hr, he⟩
          · rw [he] at hk1
            split at hk1 <;> simp [hs0] at hk1
          · rcases he with ⟨_, he⟩ | ⟨_, tr, er, _, he⟩
            · rw [he] at hk1; simp [hs0] at hk1
            · rw [he] at hk1
              simp only [Option.some.injEq] at hk1
              simp only [Rejects, not_or, Classical.not_not] at hr
              obtain ⟨rfl, hr⟩ := hr
              rw [← hk1]
              exact ⟨pre.length, e, region, c, used, by simp, ht, hcl, hd, hr⟩
        · simp at h

example : (keyringOnDecrypt (mrkKeyring kmsEnv mrkDisco) mrkEdks krCtx 0x0178 decStart).1 = .ok ∧
    (keyringOnDecrypt (mrkKeyring kmsEnv mrkDisco) mrkEdks krCtx 0x0178 decStart).2.key.map (·.bytes) = some (List.replicate 32 7) := by
  decide +kernel

/-- **C56.**  For a suite that is not known, an MRK-aware keyring dereferences a NULL pointer when KMS answers; for a known one it never
does. -/
theorem C56_undefined_for_unknown_suite :
    (∀ (env : KmsEnv) (kr : MrkKeyring) (edks : List Edk) (ctx : EncCtx) (alg : Nat) (s : DecState), (∃ row ∈ suiteTable, row.id = alg) →
      (mrkOnDecrypt env kr edks ctx alg s).1 ≠ .ub) ∧
    (mrkOnDecrypt kmsEnv mrkStrict mrkEdks krCtx 0x9999 decStart).1 = .ub := by
  refine ⟨?_, by decide +kernel⟩
  intro env kr edks ctx alg s halg
  cases hs : s.key with
  | none =>
    rcases C56_mrk_decrypt env kr edks ctx halg hs with ⟨calls, rep, _, he⟩ | ⟨_, _, _, _, _, _, _, ⟨_, he⟩ | ⟨_, _, _, _, he⟩⟩
    · rw [he]; split <;> simp
    · rw [he]; simp
    · rw [he]; simp
  | some k =>
    by_cases hb : k.bytes = []
    · obtain ⟨row, hrow, rfl⟩ := halg
      obtain ⟨p, hp⟩ := algProps_of_row hrow
      unfold mrkOnDecrypt
      rw [if_neg (by simp [hs, keyBytes, hb])]
      exact mrkDecLoop_ne_ub hp edks 0 false s
    · unfold mrkOnDecrypt
      rw [if_pos (by simp [hs, keyBytes, hb])]
      simp

/-! ### encryption -/

/-- KMS generates data keys of the length that it is asked for. -/
def GeneratesRightLength (env : KmsEnv) : Prop :=
  ∀ c r keyId ciphertext plaintext, env.generate c r = some (keyId, ciphertext, plaintext) → plaintext.length = r.numBytes

/-- The EDKs of a successful encryption with a KMS keyring: KMS encrypted the data key that was given under every key; or it generated one
with the first key and encrypted it under every other. -/
def KmsEncrypted (env : KmsEnv) (grants : List Bytes) (ctx : EncCtx) (alg : Nat) (generator : Bytes) (additional : List Bytes)
    (before : Option KeyBuf) (key : KeyBuf) (edks : List Edk) : Prop :=
  (before = some key ∧ Wraps env grants ctx key.bytes 0 (generator :: additional) edks) ∨
  (before = none ∧ RightLength alg key.bytes ∧ ∃ region c keyId ciphertext rest, HasRegion generator region ∧
    env.client 0 region = some c ∧ env.generate c ⟨generator, key.bytes.length, ctx, grants⟩ = some (keyId, ciphertext, key.bytes) ∧
    edks = ⟨ascii "aws-kms", keyId, ciphertext⟩ :: rest ∧ Wraps env grants ctx key.bytes 1 additional rest)

/-- The call of the keyring itself. -/
theorem kmsOnEncrypt_cases {env : KmsEnv} {grants : List Bytes} {generator : Bytes} {additional : List Bytes} {kr : KmsKeyring}
    (hb : kmsBuild grants generator additional = .ok kr) (hpush : ∀ i, env.pushEdk i = true) (hgen : GeneratesRightLength env)
    (ctx : EncCtx) (alg : Nat) (s : EncState) :
    ((kmsOnEncrypt env kr ctx alg s).1 = .fail ∧ (kmsOnEncrypt env kr ctx alg s).2.1.key = s.key ∧
      (kmsOnEncrypt env kr ctx alg s).2.1.edks = s.edks ∧ (kmsOnEncrypt env kr ctx alg s).2.1.trace = s.trace) ∨
    ((kmsOnEncrypt env kr ctx alg s).1 = .ok ∧ ∃ key edks trace, (kmsOnEncrypt env kr ctx alg s).2.1.key = some key ∧
      (kmsOnEncrypt env kr ctx alg s).2.1.edks = s.edks ++ edks ∧ (kmsOnEncrypt env kr ctx alg s).2.1.trace = s.trace ++ trace ∧
      KmsEncrypted env grants ctx alg generator additional s.key key edks ∧
      ((∀ st, env.alloc st = true) → (∀ i, env.pushTrace i = true) →
        trace = kmsRec (if s.key.isSome then 10 else 11) generator :: additional.map (kmsRec 10))) := by
  obtain ⟨rfl, hreg⟩ := kmsBuild_ok hb
  unfold kmsOnEncrypt
  simp only
  split
  · exact .inl ⟨rfl, rfl, rfl, rfl⟩
  · cases hk : s.key with
    | some k =>
      simp only
      unfold kmsEncRest
      cases hl : kmsEncLoop env grants ctx (keyBytes (some k)) 0 ⟨[], [], s.errno⟩ (generator :: additional) with
      | mk res calls =>
        cases res with
        | error e => exact .inl ⟨rfl, by simp, rfl, rfl⟩
        | ok my =>
          obtain ⟨es, t, hw, he, ht, _, hall⟩ := kmsEncLoop_ok hreg (show (kmsEncLoop env grants ctx (keyBytes (some k)) 0 _ _).1 = .ok my by rw [hl])
          obtain ⟨h1, h2, h3, tr, h4, h5, h6⟩ := kmsTransfer_all hpush s (some k) false my
          refine .inr ⟨h1, k, es, tr, h2, by rw [h3, he]; rfl, h4, .inl ⟨rfl, hw⟩, ?_⟩
          intro ha hp
          rw [h6 hp, ht, hall (fun j => ha _)]
          rfl
    | none =>
      simp only
      cases hp : algProps alg with
      | none => exact .inl ⟨rfl, by simp, rfl, rfl⟩
      | some p =>
        simp only
        cases hc : env.client 0 (parseRegion generator) with
        | none => exact .inl ⟨rfl, by simp, rfl, rfl⟩
        | some c =>
          simp only
          cases hg : env.generate c ⟨generator, p.dataKeyLen, ctx, grants⟩ with
          | none => exact .inl ⟨rfl, by simp, rfl, rfl⟩
          | some x =>
            obtain ⟨keyId, ct, pt⟩ := x
            simp only
            have hlen := hgen _ _ _ _ _ hg
            have hrl : RightLength alg pt := (rightLength_of_props hp).2 hlen
            have hne := rightLength_ne_nil hrl
            cases ha : kmsAppend env 0 ⟨[], [], s.errno⟩ keyId ct generator (1 + 2 + 8) with
            | none => exact .inl ⟨rfl, by simp, rfl, rfl⟩
            | some my0 =>
              cases hd : dupKey env pt with
              | none => exact .inl ⟨rfl, by simp, rfl, rfl⟩
              | some key =>
                simp only
                have hkey : key = some ⟨env.ptr, pt, pt.length, env.heap⟩ := by
                  unfold dupKey at hd
                  rw [if_neg hne] at hd
                  split at hd
                  · cases hd; rfl
                  · cases hd
                subst hkey
                unfold kmsEncRest
                cases hl : kmsEncLoop env grants ctx (keyBytes (some ⟨env.ptr, pt, pt.length, env.heap⟩)) 1 my0 additional with
                | mk res calls =>
                  cases res with
                  | error e => exact .inl ⟨rfl, by simp, rfl, rfl⟩
                  | ok my =>
                    obtain ⟨es, t, hw, he, ht, _, hall⟩ := kmsEncLoop_ok (fun x hx => hreg x (List.mem_cons_of_mem _ hx))
                      (show (kmsEncLoop env grants ctx (keyBytes (some ⟨env.ptr, pt, pt.length, env.heap⟩)) 1 my0 additional).1 = .ok my by rw [hl])
                    obtain ⟨he0, t0, ht0, _, hall0⟩ := kmsAppend_some ha
                    obtain ⟨h1, h2, h3, tr, h4, h5, h6⟩ := kmsTransfer_all hpush s (some ⟨env.ptr, pt, pt.length, env.heap⟩) true my
                    refine .inr ⟨h1, _, _, tr, h2, by rw [h3, he, he0], h4, .inr ⟨rfl, hrl, ?_⟩, ?_⟩
                    · exact ⟨_, c, keyId, ct, es, (parseRegion_iff (hreg generator (List.mem_cons_self ..))).1 rfl, hc,
                        by rw [hlen]; exact hg, rfl, hw⟩
                    · intro hal hpt
                      rw [h6 hpt, ht, ht0, hall (fun j => hal _), hall0 (hal _)]
                      rfl

/-- **C58**, where appending to the caller's EDK list never fails and KMS generates data keys of the length it is asked for: encryption with
a KMS keyring, as it is built, either succeeds and appends one EDK per configured key, in order, for a data key that is the one given if
there was one; or it fails and leaves the EDK list, the trace and the data key as they were.  See `C58_push_failure_refuted` and
`C58_wrong_length_refuted` for what happens otherwise. -/
theorem C58_kms_all_or_nothing_partial {env : KmsEnv} {grants : List Bytes} {generator : Bytes} {additional : List Bytes} {kr : KmsKeyring}
    (hb : kmsBuild grants generator additional = .ok kr) (hpush : ∀ i, env.pushEdk i = true) (hgen : GeneratesRightLength env)
    (ctx : EncCtx) (alg : Nat) (s : EncState) :
    let r := keyringOnEncrypt (kmsKeyring env kr) ctx alg s
    (r.1 = .fail ∧ r.2.key = s.key ∧ r.2.edks = s.edks ∧ r.2.trace = s.trace) ∨
    (r.1 = .ok ∧ ∃ key edks trace, r.2.key = some key ∧ r.2.edks = s.edks ++ edks ∧ r.2.trace = s.trace ++ trace ∧
      edks.length = additional.length + 1 ∧ KmsEncrypted env grants ctx alg generator additional s.key key edks ∧
      ((∀ st, env.alloc st = true) → (∀ i, env.pushTrace i = true) →
        trace = ⟨ascii "aws-kms", generator.takeWhile (· ≠ 0), if s.key.isSome then 10 else 11⟩ ::
          additional.map (fun id => ⟨ascii "aws-kms", id.takeWhile (· ≠ 0), 10⟩))) := by
  intro r
  simp only [r]
  unfold keyringOnEncrypt
  split
  · exact .inl ⟨rfl, rfl, rfl, rfl⟩
  · simp only [kmsKeyring]
    rcases kmsOnEncrypt_cases hb hpush hgen ctx alg s with ⟨h1, h2, h3, h4⟩ | ⟨h1, key, edks, trace, h2, h3, h4, h5, h6⟩
    · rw [if_neg (by simp [h1])]
      split
      · exact .inl ⟨h1, h2, h3, h4⟩
      · exact .inl ⟨rfl, h2, h3, h4⟩
    · rw [if_neg (by simp [h1])]
      have hck : checkEncKey alg s.key (kmsOnEncrypt env kr ctx alg s).2.1.key = true := by
        rw [h2]
        rcases h5 with ⟨h5, _⟩ | ⟨h5, hl, _⟩
        · simp [h5, checkEncKey]
        · rw [h5]; exact (dataKeyLenOK_iff _ _).2 hl
      rw [if_pos hck]
      refine .inr ⟨h1, key, edks, trace, h2, h3, h4, ?_, h5, h6⟩
      rcases h5 with ⟨_, h5⟩ | ⟨_, _, _, _, _, _, rest, _, _, _, rfl, h5⟩
      · exact wraps_length h5
      · simp [wraps_length h5]

example : GeneratesRightLength kmsEnv := by
  intro c r k ct pt h; cases h; simp

example : (keyringOnEncrypt (kmsKeyring kmsEnv kmsStrict) krCtx 0x0178 encStart).1 = .ok ∧
    (keyringOnEncrypt (kmsKeyring kmsEnv kmsStrict) krCtx 0x0178 encStart).2.edks =
      [⟨ascii "aws-kms", arn1, List.replicate 32 7 ++ [49]⟩, ⟨ascii "aws-kms", arn2, List.replicate 32 7 ++ [50]⟩] ∧
    (keyringOnEncrypt (kmsKeyring { kmsEnv with encrypt := fun _ _ _ => none } kmsStrict) krCtx 0x0178 encStart).1 = .fail := by
  decide +kernel

/-- **C58**, the other direction: if memory is available, the list can grow and KMS answers every request, encryption of a given data key
succeeds and appends just those EDKs. -/
theorem C58_kms_encrypts {env : KmsEnv} {grants : List Bytes} {generator : Bytes} {additional : List Bytes} {kr : KmsKeyring}
    (hb : kmsBuild grants generator additional = .ok kr) (hpush : ∀ i, env.pushEdk i = true) (hall : ∀ st, env.alloc st = true)
    {ctx : EncCtx} {alg : Nat} {s : EncState} {key : KeyBuf} {edks : List Edk} (hk : s.key = some key)
    (hw : Wraps env grants ctx key.bytes 0 (generator :: additional) edks) :
    let r := keyringOnEncrypt (kmsKeyring env kr) ctx alg s
    r.1 = .ok ∧ r.2.key = some key ∧ r.2.edks = s.edks ++ edks := by
  intro r
  obtain ⟨rfl, _⟩ := kmsBuild_ok hb
  obtain ⟨my, h1, h2⟩ := kmsEncLoop_wraps hall hw ⟨[], [], s.errno⟩
  obtain ⟨h3, h4, h5, _⟩ := kmsTransfer_all hpush s (some key) false my
  have e : kmsOnEncrypt env ⟨generator :: additional, grants, none⟩ ctx alg s =
      ((kmsTransfer env s (some key) false my).1, (kmsTransfer env s (some key) false my).2,
        (kmsEncLoop env grants ctx key.bytes 0 ⟨[], [], s.errno⟩ (generator :: additional)).2) := by
    unfold kmsOnEncrypt
    simp only [hall, hk, Bool.not_true, Bool.false_eq_true, or_self, if_false]
    unfold kmsEncRest
    simp only [keyBytes]
    cases hl : kmsEncLoop env grants ctx key.bytes 0 ⟨[], [], s.errno⟩ (generator :: additional) with
    | mk res calls =>
      rw [hl] at h1
      simp only at h1
      subst h1
      rfl
  simp only [r, keyringOnEncrypt, kmsKeyring, e, h3, h4]
  rw [if_neg (by simp [hk]), if_neg (by simp), if_pos (by simp [hk, checkEncKey])]
  exact ⟨rfl, h4, by rw [h5, h2]; rfl⟩

example : ∃ edks, Wraps kmsEnv [] krCtx [1, 2] 0 [arn1] edks ∧ edks ≠ [] := by
  refine ⟨_, .cons (region := ascii "us-west-2") (c := 9) ⟨⟨ascii "aws", ascii "1234:key/ab-1", ?_⟩, ?_⟩ rfl rfl (.nil _), by simp⟩ <;> decide

/-- The EDK of a successful encryption with an MRK-aware keyring: KMS encrypted the data key that was given under the configured key, or
generated one with it. -/
def MrkEncrypted (env : KmsEnv) (grants : List Bytes) (ctx : EncCtx) (alg : Nat) (keyId : Bytes) (before : Option KeyBuf) (key : KeyBuf)
    (id ciphertext : Bytes) : Prop :=
  IsKeyArn id ∧ ∃ region c, (region ≠ [] → HasRegion keyId region) ∧ env.client 0 region = some c ∧
    ((before = some key ∧ env.encrypt 0 c ⟨keyId, key.bytes, ctx, grants⟩ = some (id, ciphertext)) ∨
     (before = none ∧ RightLength alg key.bytes ∧
      env.generate c ⟨keyId, key.bytes.length, ctx, grants⟩ = some (id, ciphertext, key.bytes)))

/-- The call of the keyring itself. -/
theorem mrkOnEncrypt_cases {env : KmsEnv} {grants : List Bytes} {keyId : Bytes} {kr : MrkKeyring}
    (hb : mrkBuild grants keyId = .ok kr) (hpush : ∀ i, env.pushEdk i = true) (ctx : EncCtx) (alg : Nat) (s : EncState) :
    ((mrkOnEncrypt env kr ctx alg s).1 = .fail ∧ (mrkOnEncrypt env kr ctx alg s).2.1.key = s.key ∧
      (mrkOnEncrypt env kr ctx alg s).2.1.edks = s.edks ∧ (mrkOnEncrypt env kr ctx alg s).2.1.trace = s.trace) ∨
    ((mrkOnEncrypt env kr ctx alg s).1 = .ok ∧ ∃ key trace id ciphertext, (mrkOnEncrypt env kr ctx alg s).2.1.key = some key ∧
      (mrkOnEncrypt env kr ctx alg s).2.1.edks = s.edks ++ [⟨ascii "aws-kms", id, ciphertext⟩] ∧
      (mrkOnEncrypt env kr ctx alg s).2.1.trace = s.trace ++ trace ∧ MrkEncrypted env grants ctx alg keyId s.key key id ciphertext ∧
      ((∀ st, env.alloc st = true) → (∀ i, env.pushTrace i = true) → trace = [kmsRec (if s.key.isSome then 10 else 11) keyId])) := by
  obtain rfl := mrkBuild_eq hb
  have hne := (mrkBuild_ok.1 ⟨_, hb⟩).1
  have hreg : parseRegion keyId ≠ [] → HasRegion keyId (parseRegion keyId) := fun h => (parseRegion_iff h).1 rfl
  unfold mrkOnEncrypt
  rw [if_neg (by simp [MrkKeyring.isDiscovery, hne])]
  simp only
  split
  · exact .inl ⟨rfl, rfl, rfl, rfl⟩
  · cases hk : s.key with
    | some k =>
      simp only
      cases hc : env.client 0 (parseRegion keyId) with
      | none => exact .inl ⟨rfl, by simp [hk], rfl, rfl⟩
      | some c =>
        simp only
        cases he : env.encrypt 0 c ⟨keyId, k.bytes, ctx, grants⟩ with
        | none => exact .inl ⟨rfl, by simp [hk], rfl, rfl⟩
        | some x =>
          obtain ⟨id, ct⟩ := x
          simp only
          split
          · exact .inl ⟨rfl, by simp [hk], rfl, rfl⟩
          · next hv =>
            cases ha : kmsAppend env 0 ⟨[], [], s.errno⟩ id ct keyId (2 + 8) with
            | none => exact .inl ⟨rfl, by simp [hk], rfl, rfl⟩
            | some my =>
              obtain ⟨he0, t0, ht0, _, hall0⟩ := kmsAppend_some ha
              obtain ⟨h1, h2, h3, tr, h4, h5, h6⟩ := kmsTransfer_all hpush s (some k) false my
              refine .inr ⟨h1, k, tr, id, ct, h2, by simp only [mrkEncFinish]; rw [h3, he0]; rfl, h4, ⟨?_, _, c, hreg, hc, .inl ⟨rfl, he⟩⟩, ?_⟩
              · simpa [isValidKeyArn_iff] using hv
              · intro hal hpt
                rw [h6 hpt, ht0, hall0 (hal _)]
                rfl
    | none =>
      simp only
      cases hp : algProps alg with
      | none => exact .inl ⟨rfl, by simp [hk], rfl, rfl⟩
      | some p =>
        simp only
        cases hc : env.client 0 (parseRegion keyId) with
        | none => exact .inl ⟨rfl, by simp [hk], rfl, rfl⟩
        | some c =>
          simp only
          cases hg : env.generate c ⟨keyId, p.dataKeyLen, ctx, grants⟩ with
          | none => exact .inl ⟨rfl, by simp [hk], rfl, rfl⟩
          | some x =>
            obtain ⟨id, ct, pt⟩ := x
            simp only
            split
            · exact .inl ⟨rfl, by simp [hk], rfl, rfl⟩
            · next hv =>
              simp only [not_or, Classical.not_not, Bool.not_eq_true', Bool.not_eq_false] at hv
              have hlen : pt.length = p.dataKeyLen := by rw [hv.1]; exact (suiteFacts hp).keyLen
              have hrl : RightLength alg pt := (rightLength_of_props hp).2 hlen
              have hpne := rightLength_ne_nil hrl
              cases ha : kmsAppend env 0 ⟨[], [], s.errno⟩ id ct keyId (1 + 2 + 8) with
              | none => exact .inl ⟨rfl, by simp [hk], rfl, rfl⟩
              | some my =>
                cases hd : dupKey env pt with
                | none => exact .inl ⟨rfl, by simp [hk], rfl, rfl⟩
                | some key =>
                  have hkey : key = some ⟨env.ptr, pt, pt.length, env.heap⟩ := by
                    unfold dupKey at hd
                    rw [if_neg hpne] at hd
                    split at hd
                    · cases hd; rfl
                    · cases hd
                  subst hkey
                  obtain ⟨he0, t0, ht0, _, hall0⟩ := kmsAppend_some ha
                  obtain ⟨h1, h2, h3, tr, h4, h5, h6⟩ := kmsTransfer_all hpush s (some ⟨env.ptr, pt, pt.length, env.heap⟩) true my
                  refine .inr ⟨h1, _, tr, id, ct, h2, by simp only [mrkEncFinish]; rw [h3, he0]; rfl, h4,
                    ⟨isValidKeyArn_iff.1 (by simpa using hv.2), _, c, hreg, hc, .inr ⟨rfl, hrl, by rw [hlen]; exact hg⟩⟩, ?_⟩
                  intro hal hpt
                  rw [h6 hpt, ht0, hall0 (hal _)]
                  rfl

/-- **C58**, for the MRK-aware keyring in strict mode, where appending to the caller's EDK list never fails: encryption either succeeds and
appends one EDK, made by KMS with the configured key, for a data key that is the one given if there was one; or it fails and leaves the
EDK list, the trace and the data key as they were. -/
theorem C58_mrk_all_or_nothing_partial {env : KmsEnv} {grants : List Bytes} {keyId : Bytes} {kr : MrkKeyring}
    (hb : mrkBuild grants keyId = .ok kr) (hpush : ∀ i, env.pushEdk i = true) (ctx : EncCtx) (alg : Nat) (s : EncState) :
    let r := keyringOnEncrypt (mrkKeyring env kr) ctx alg s
    (r.1 = .fail ∧ r.2.key = s.key ∧ r.2.edks = s.edks ∧ r.2.trace = s.trace) ∨
    (r.1 = .ok ∧ ∃ key trace id ciphertext, r.2.key = some key ∧ r.2.edks = s.edks ++ [⟨ascii "aws-kms", id, ciphertext⟩] ∧
      r.2.trace = s.trace ++ trace ∧ MrkEncrypted env grants ctx alg keyId s.key key id ciphertext ∧
      ((∀ st, env.alloc st = true) → (∀ i, env.pushTrace i = true) →
        trace = [⟨ascii "aws-kms", keyId.takeWhile (· ≠ 0), if s.key.isSome then 10 else 11⟩])) := by
  intro r
  simp only [r]
  unfold keyringOnEncrypt
  split
  · exact .inl ⟨rfl, rfl, rfl, rfl⟩
  · simp only [mrkKeyring]
    rcases mrkOnEncrypt_cases hb hpush ctx alg s with ⟨h1, h2, h3, h4⟩ | ⟨h1, key, trace, id, ct, h2, h3, h4, h5, h6⟩
    · rw [if_neg (by simp [h1])]
      split
      · exact .inl ⟨h1, h2, h3, h4⟩
      · exact .inl ⟨rfl, h2, h3, h4⟩
    · rw [if_neg (by simp [h1])]
      have hck : checkEncKey alg s.key (mrkOnEncrypt env kr ctx alg s).2.1.key = true := by
        rw [h2]
        obtain ⟨_, _, _, _, _, ⟨h5, _⟩ | ⟨h5, hl, _⟩⟩ := h5
        · simp [h5, checkEncKey]
        · rw [h5]; exact (dataKeyLenOK_iff _ _).2 hl
      rw [if_pos hck]
      exact .inr ⟨h1, key, trace, id, ct, h2, h3, h4, h5, h6⟩

example : (keyringOnEncrypt (mrkKeyring kmsEnv mrkStrict) krCtx 0x0178 encStart).1 = .ok ∧
    (keyringOnEncrypt (mrkKeyring kmsEnv mrkStrict) krCtx 0x0178 encStart).2.edks =
      [⟨ascii "aws-kms", mrkWest, List.replicate 32 7 ++ [53]⟩] ∧
    (keyringOnEncrypt (mrkKeyring { kmsEnv with generate := fun _ r => some (r.keyId, [], [1, 2, 3]) } mrkStrict) krCtx 0x0178 encStart).1 =
      .fail := by
  decide +kernel

/-- **C58.**  In discovery mode there is nothing to encrypt with: a KMS keyring succeeds and does nothing, an MRK-aware one fails and changes
nothing. -/
theorem C58_discovery (env : KmsEnv) {kr : KmsKeyring} (hk : kr.keyIds = []) {mrk : MrkKeyring} (hm : mrk.keyId = []) (ctx : EncCtx) (alg : Nat)
    (s : EncState) (hs : s.key = none → s.edks = []) :
    keyringOnEncrypt (kmsKeyring env kr) ctx alg s = (.ok, s) ∧
    keyringOnEncrypt (mrkKeyring env mrk) ctx alg s = (.fail, { s with errno := .badState }) ∧
    (kmsOnEncrypt env kr ctx alg s).2.2 = [] ∧ (mrkOnEncrypt env mrk ctx alg s).2.2 = [] := by
  have h1 : kmsOnEncrypt env kr ctx alg s = (.ok, s, []) := by unfold kmsOnEncrypt; rw [hk]
  have h2 : mrkOnEncrypt env mrk ctx alg s = (.fail, { s with errno := .badState }, []) := by
    unfold mrkOnEncrypt; rw [if_pos (by simp [MrkKeyring.isDiscovery, hm])]
  have hck : checkEncKey alg s.key s.key = true := by
    cases s.key <;> simp [checkEncKey]
  simp [keyringOnEncrypt, kmsKeyring, mrkKeyring, h1, h2, hck]
  exact hs

/-- **C58 does not hold** when the caller's EDK list cannot grow: the call fails after the first EDK has been moved to the list and freed
again, so that the list holds an EDK it did not hold before. -/
theorem C58_push_failure_refuted :
    let r := keyringOnEncrypt (kmsKeyring { kmsEnv with pushEdk := fun i => i = 0 } kmsStrict) krCtx 0x0178 encStart
    r.1 = .fail ∧ encStart.edks = [] ∧ r.2.edks.length = 1 := by
  decide +kernel

/-- **C58 does not hold** when KMS answers GenerateDataKey with a key of the wrong length: the public call fails, and leaves the EDKs and
the data key in place. -/
theorem C58_wrong_length_refuted :
    let r := keyringOnEncrypt
      (kmsKeyring { kmsEnv with generate := fun _ r => some (r.keyId, [1], [1, 2, 3]) } kmsStrict) krCtx 0x0178 encStart
    r.1 = .fail ∧ encStart.edks = [] ∧ r.2.edks.length = 2 ∧ encStart.key = none ∧ r.2.key.map (·.bytes) = some [1, 2, 3] := by
  decide +kernel

/-- **C58 does not hold** in the sense that there is a data key when KMS answers GenerateDataKey with an empty one: the public call succeeds,
with EDKs and no data key. -/
theorem C58_empty_key_refuted :
    let r := keyringOnEncrypt
      (kmsKeyring { kmsEnv with generate := fun _ r => some (r.keyId, [1], []) } kmsStrict) krCtx 0x0178 encStart
    r.1 = .ok ∧ r.2.edks.length = 2 ∧ r.2.key = none := by
  decide +kernel

end Verif.Props
