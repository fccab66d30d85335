import Verif.Props.Kms
import Verif.Props.Arn
/-
C64: what KMS keyrings encrypt, KMS keyrings decrypt, if KMS does.
-/
namespace Verif.Props
open Verif Verif.Spec Verif.Example

/-- The KMS of `dec` gives nothing wrong for what the KMS of `env` encrypted: if it answers a request to decrypt the ciphertext, in the same
encryption context, with the key that encrypted it or a replica of that key, the answer is the plaintext and names the key asked for. -/
structure KmsAgrees (env dec : KmsEnv) : Prop where
  encrypt : ∀ i c r keyId ciphertext, env.encrypt i c r = some (keyId, ciphertext) → ∀ j c' id grants used plaintext, SameMrk id keyId →
    dec.decrypt j c' ⟨id, ciphertext, r.ctx, grants⟩ = some (used, plaintext) → used = id ∧ plaintext = r.plaintext
  generate : ∀ c r keyId ciphertext key, env.generate c r = some (keyId, ciphertext, key) → ∀ j c' id grants used plaintext, SameMrk id keyId →
    dec.decrypt j c' ⟨id, ciphertext, r.ctx, grants⟩ = some (used, plaintext) → used = id ∧ plaintext = key

/-- Every answer of KMS for this EDK gives the data key `key`. -/
def Holds (dec : KmsEnv) (ctx : EncCtx) (key : Bytes) (e : Edk) : Prop :=
  ∀ j c id grants used plaintext, SameMrk id e.providerInfo → dec.decrypt j c ⟨id, e.ciphertext, ctx, grants⟩ = some (used, plaintext) →
    used = id ∧ plaintext = key

theorem wraps_holds {env dec : KmsEnv} (ha : KmsAgrees env dec) {grants : List Bytes} {ctx : EncCtx} {key : Bytes} {i : Nat} {ids : List Bytes}
    {edks : List Edk} (hw : Wraps env grants ctx key i ids edks) : ∀ e ∈ edks, Holds dec ctx key e := by
  induction hw with
  | nil => intro e he; cases he
  | cons hr hc he _ ih =>
    intro e hm
    rcases List.mem_cons.1 hm with rfl | hm
    · exact fun j c id g used pt hs hd => ha.encrypt _ _ _ _ _ he j c id g used pt hs hd
    · exact ih e hm

theorem kmsEncrypted_holds {env dec : KmsEnv} (ha : KmsAgrees env dec) {grants : List Bytes} {ctx : EncCtx} {alg : Nat} {generator : Bytes}
    {additional : List Bytes} {before : Option KeyBuf} {key : KeyBuf} {edks : List Edk}
    (h : KmsEncrypted env grants ctx alg generator additional before key edks) : ∀ e ∈ edks, Holds dec ctx key.bytes e := by
  rcases h with ⟨_, hw⟩ | ⟨_, _, region, c, keyId, ct, rest, _, _, hg, rfl, hw⟩
  · exact wraps_holds ha hw
  · intro e hm
    rcases List.mem_cons.1 hm with rfl | hm
    · exact fun j c id g used pt hs hd => ha.generate _ _ _ _ _ hg j c id g used pt hs hd
    · exact wraps_holds ha hw e hm

/-- If an EDK could have been tried, it was, and got no answer that the keyring accepts. -/
theorem noKey_tried {env : KmsEnv} {ctx : EncCtx} {grants : List Bytes} {mayTry : Edk → Bytes → Bytes → Prop}
    {rejects : Bytes → Bytes → Bytes → Prop} {b : Bool} (huniq : ∀ e r k r' k', mayTry e r k → mayTry e r' k' → r = r' ∧ k = k')
    {i : Nat} {edks : List Edk} {calls : List KmsCall} {rep : Bool} (h : NoKey env ctx grants mayTry rejects b i edks calls rep) :
    ∀ {j e region keyId c used pt}, edks[j]? = some e → mayTry e region keyId → env.client (i + j) region = some c →
      env.decrypt (i + j) c ⟨keyId, e.ciphertext, ctx, grants⟩ = some (used, pt) → rejects keyId used pt := by
  induction h with
  | nil => intro j e _ _ _ _ _ h; simp at h
  | @pass i e edks calls rep hp _ ih =>
    intro j e' region keyId c used pt hj ht hc hd
    cases j with
    | zero =>
      simp only [List.getElem?_cons_zero, Option.some.injEq] at hj
      subst hj
      rw [Nat.add_zero] at hc
      rw [hp _ _ ht] at hc; cases hc
    | succ j =>
      have e1 : i + (j + 1) = i + 1 + j := by omega
      rw [e1] at hc hd
      exact ih (by simpa using hj) ht hc hd
  | @failed i e edks calls rep region0 keyId0 c0 ht0 hc0 hd0 _ ih =>
    intro j e' region keyId c used pt hj ht hc hd
    cases j with
    | zero =>
      simp only [List.getElem?_cons_zero, Option.some.injEq] at hj
      subst hj
      obtain ⟨rfl, rfl⟩ := huniq _ _ _ _ _ ht ht0
      rw [Nat.add_zero] at hc hd
      rw [hc0] at hc
      cases hc
      rw [hd0] at hd; cases hd
    | succ j =>
      have e1 : i + (j + 1) = i + 1 + j := by omega
      rw [e1] at hc hd
      exact ih (by simpa using hj) ht hc hd
  | @rejected i e edks calls rep region0 keyId0 c0 used0 pt0 ht0 hc0 hd0 hr0 _ ih =>
    intro j e' region keyId c used pt hj ht hc hd
    cases j with
    | zero =>
      simp only [List.getElem?_cons_zero, Option.some.injEq] at hj
      subst hj
      obtain ⟨rfl, rfl⟩ := huniq _ _ _ _ _ ht ht0
      rw [Nat.add_zero] at hc hd
      rw [hc0] at hc
      cases hc
      rw [hd0] at hd; cases hd
      exact hr0
    | succ j =>
      have e1 : i + (j + 1) = i + 1 + j := by omega
      rw [e1] at hc hd
      exact ih (by simpa using hj) ht hc hd

/-- Decryption with a KMS keyring of EDKs that hold the data key. -/
theorem kms_decrypts {dec : KmsEnv} {kr : KmsKeyring} {ctx : EncCtx} {alg : Nat} {key : Bytes} {edks : List Edk} {d : DecState}
    (hh : ∀ e ∈ edks, Holds dec ctx key e) (hlen : RightLength alg key) (hal : dec.alloc .dataKey = true) (hd : d.key = none)
    {i : Nat} {e : Edk} {region : Bytes} {c : Nat} (hi : edks[i]? = some e) (ht : MayTry kr e region) (hc : dec.client i region = some c)
    (ha : dec.decrypt i c ⟨e.providerInfo, e.ciphertext, ctx, kr.grants⟩ ≠ none) :
    ∃ d', keyringOnDecrypt (kmsKeyring dec kr) edks ctx alg d = (.ok, d') ∧ d'.key.map (·.bytes) = some key := by
  have hne := rightLength_ne_nil hlen
  rcases C54_kms_decrypt dec kr edks ctx d with ⟨calls, rep, hn, _⟩ |
    ⟨e', used, pt, calls, ⟨pre, post, before, rep, region', c', rfl, _, ht', hcl, hdd, rfl⟩, he⟩
  · exfalso
    cases hx : dec.decrypt i c ⟨e.providerInfo, e.ciphertext, ctx, kr.grants⟩ with
    | none => exact ha hx
    | some x =>
      exact noKey_tried (fun e r k r' k' h h' => ⟨mayTry_unique h.1 h'.1, h.2.trans h'.2.symm⟩) hn hi ⟨ht, rfl⟩
        (by simpa using hc) (by simpa using hx)
  · obtain ⟨h1, h2⟩ := hh e' (by simp) _ _ _ _ _ _ (.inl rfl) hdd
    subst h1 h2
    rcases he with ⟨h, _⟩ | ⟨_, _, h, _⟩ | ⟨_, _, tr, er, _, he⟩
    · exact absurd rfl h
    · rw [hal] at h; cases h
    · rw [if_neg hne] at he
      refine ⟨⟨some ⟨dec.ptr, pt, pt.length, dec.heap⟩, tr, er⟩, ?_, rfl⟩
      unfold keyringOnDecrypt
      rw [if_neg (by simp [hd])]
      simp only [kmsKeyring, he]
      rw [if_neg (by simp), if_pos ((dataKeyLenOK_iff _ _).2 hlen)]

/-- Decryption with an MRK-aware keyring of EDKs that hold the data key. -/
theorem mrk_decrypts {dec : KmsEnv} {kr : MrkKeyring} {ctx : EncCtx} {alg : Nat} {key : Bytes} {edks : List Edk} {d : DecState}
    (hh : ∀ e ∈ edks, Holds dec ctx key e) (hlen : RightLength alg key) (hal : dec.alloc .dataKey = true) (hd : d.key = none)
    (hreg : kr.keyId = [] → kr.region ≠ [] ∧ 58 ∉ kr.region)
    {i : Nat} {e : Edk} {region keyId : Bytes} {c : Nat} (hi : edks[i]? = some e) (ht : MrkMayTry kr e region keyId)
    (hc : dec.client i region = some c) (ha : dec.decrypt i c ⟨keyId, e.ciphertext, ctx, kr.grants⟩ ≠ none) :
    ∃ d', keyringOnDecrypt (mrkKeyring dec kr) edks ctx alg d = (.ok, d') ∧ d'.key.map (·.bytes) = some key := by
  have hsame : ∀ e region keyId, MrkMayTry kr e region keyId → SameMrk keyId e.providerInfo := by
    rintro e region keyId ⟨_, p, r, acct, res, id, hk, _, ⟨_, h, rfl, _⟩ | ⟨hk0, _, _, h⟩⟩
    · exact h
    · rcases h with ⟨hm, rfl⟩ | ⟨_, _, rfl⟩
      · rw [← mrkMatch_iff]
        exact C55_mrk_match_equivalence.symm ((C55_replicas ⟨hk, hm⟩ _).2 ⟨kr.region, (hreg hk0).1, (hreg hk0).2, rfl⟩)
      · exact .inl rfl
  have halg : ∃ row ∈ suiteTable, row.id = alg := by
    obtain ⟨row, hr, hid, _⟩ := hlen; exact ⟨row, hr, hid⟩
  rcases C56_mrk_decrypt dec kr edks ctx halg hd with ⟨calls, rep, hn, _⟩ |
    ⟨e', keyId', used, pt, calls, ⟨pre, post, before, rep, region', c', rfl, _, ht', hcl, hdd, rfl⟩, _, he⟩
  · exfalso
    cases hx : dec.decrypt i c ⟨keyId, e.ciphertext, ctx, kr.grants⟩ with
    | none => exact ha hx
    | some x =>
      obtain ⟨used, pt⟩ := x
      have hrej := noKey_tried (fun e r k r' k' h h' => by
        have := (mrkPlan_iff.2 h).symm.trans (mrkPlan_iff.2 h')
        simpa using this) hn hi ht (by simpa using hc) (by simpa using hx)
      obtain ⟨h1, h2⟩ := hh e (List.mem_of_getElem? hi) _ _ _ _ _ _ (hsame _ _ _ ht) hx
      subst h1 h2
      rcases hrej with h | h
      · exact h rfl
      · exact h hlen
  · obtain ⟨h1, h2⟩ := hh e' (by simp) _ _ _ _ _ _ (hsame _ _ _ ht') hdd
    subst h1 h2
    rcases he with ⟨h, _⟩ | ⟨_, tr, er, _, he⟩
    · rw [hal] at h; cases h
    · refine ⟨⟨some ⟨dec.ptr, pt, pt.length, dec.heap⟩, tr, er⟩, ?_, rfl⟩
      unfold keyringOnDecrypt
      rw [if_neg (by simp [hd])]
      simp only [mrkKeyring, he]
      rw [if_neg (by simp), if_pos ((dataKeyLenOK_iff _ _).2 hlen)]

/-- **C64.**  What a KMS keyring encrypted, every KMS keyring decrypts to the same data key, if KMS answers for one of the EDKs that the
second keyring may try; every MRK-aware keyring does so as well. -/
theorem C64_kms_round_trip {env dec : KmsEnv} (hag : KmsAgrees env dec) (hpush : ∀ i, env.pushEdk i = true) (hgen : GeneratesRightLength env)
    (hal : dec.alloc .dataKey = true) {grants : List Bytes} {generator : Bytes} {additional : List Bytes} {kr : KmsKeyring}
    (hb : kmsBuild grants generator additional = .ok kr) {ctx : EncCtx} {alg : Nat} {s s' : EncState} {key : KeyBuf}
    (hs : s.edks = []) (h : keyringOnEncrypt (kmsKeyring env kr) ctx alg s = (.ok, s')) (hk : s'.key = some key)
    (hlen : RightLength alg key.bytes) {d : DecState} (hd : d.key = none) :
    (∀ (kr' : KmsKeyring) i e region c, s'.edks[i]? = some e → MayTry kr' e region → dec.client i region = some c →
      dec.decrypt i c ⟨e.providerInfo, e.ciphertext, ctx, kr'.grants⟩ ≠ none →
      ∃ d', keyringOnDecrypt (kmsKeyring dec kr') s'.edks ctx alg d = (.ok, d') ∧ d'.key.map (·.bytes) = some key.bytes) ∧
    (∀ (kr' : MrkKeyring), (kr'.keyId = [] → kr'.region ≠ [] ∧ 58 ∉ kr'.region) → ∀ i e region keyId c, s'.edks[i]? = some e →
      MrkMayTry kr' e region keyId → dec.client i region = some c → dec.decrypt i c ⟨keyId, e.ciphertext, ctx, kr'.grants⟩ ≠ none →
      ∃ d', keyringOnDecrypt (mrkKeyring dec kr') s'.edks ctx alg d = (.ok, d') ∧ d'.key.map (·.bytes) = some key.bytes) := by
  have hh : ∀ e ∈ s'.edks, Holds dec ctx key.bytes e := by
    rcases C58_kms_all_or_nothing_partial hb hpush hgen ctx alg s with ⟨h', _⟩ | ⟨_, key', edks, trace, h1, h2, _, _, h3, _⟩
    · rw [h] at h'; cases h'
    · rw [h] at h1 h2
      simp only at h1 h2
      rw [hk] at h1
      cases h1
      rw [h2, hs, List.nil_append]
      exact kmsEncrypted_holds hag h3
  exact ⟨fun kr' i e region c hi ht hc ha => kms_decrypts hh hlen hal hd hi ht hc ha,
    fun kr' hreg i e region keyId c hi ht hc ha => mrk_decrypts hh hlen hal hd hreg hi ht hc ha⟩

/-- **C64** for what an MRK-aware keyring encrypted: the replica of its key in any region decrypts it. -/
theorem C64_mrk_round_trip {env dec : KmsEnv} (hag : KmsAgrees env dec) (hpush : ∀ i, env.pushEdk i = true)
    (hal : dec.alloc .dataKey = true) {grants : List Bytes} {keyId : Bytes} {kr : MrkKeyring} (hb : mrkBuild grants keyId = .ok kr)
    {ctx : EncCtx} {alg : Nat} {s s' : EncState} {key : KeyBuf} (hs : s.edks = [])
    (h : keyringOnEncrypt (mrkKeyring env kr) ctx alg s = (.ok, s')) (hk : s'.key = some key) (hlen : RightLength alg key.bytes)
    {d : DecState} (hd : d.key = none) {kr' : MrkKeyring} (hreg : kr'.keyId = [] → kr'.region ≠ [] ∧ 58 ∉ kr'.region) {e : Edk}
    {region keyId' : Bytes} {c : Nat} (he : s'.edks = [e]) (ht : MrkMayTry kr' e region keyId') (hc : dec.client 0 region = some c)
    (ha : dec.decrypt 0 c ⟨keyId', e.ciphertext, ctx, kr'.grants⟩ ≠ none) :
    ∃ d', keyringOnDecrypt (mrkKeyring dec kr') [e] ctx alg d = (.ok, d') ∧ d'.key.map (·.bytes) = some key.bytes := by
  refine mrk_decrypts (i := 0) ?_ hlen hal hd hreg rfl ht hc ha
  rcases C58_mrk_all_or_nothing_partial hb hpush ctx alg s with ⟨h', _⟩ | ⟨_, key', tr, id, ct, h1, h2, _, ⟨_, region', c', _, _, h3⟩, _⟩
  · rw [h] at h'; cases h'
  · rw [h] at h1 h2
    simp only at h1 h2
    rw [hk] at h1
    cases h1
    rw [h2, hs, List.nil_append] at he
    intro e' he'
    rw [← he] at he'
    simp only [List.mem_singleton] at he'
    subst he'
    rcases h3 with ⟨_, h3⟩ | ⟨_, _, h3⟩
    · exact fun j c id' g used pt hs hdd => hag.encrypt _ _ _ _ _ h3 j c id' g used pt hs hdd
    · exact fun j c id' g used pt hs hdd => hag.generate _ _ _ _ _ h3 j c id' g used pt hs hdd

example : KmsAgrees kmsEnv kmsEnv where
  encrypt := by
    intro i c r keyId ct h j c' id g used pt hs hd
    simp only [kmsEnv, Option.some.injEq, Prod.mk.injEq] at h hd
    obtain ⟨rfl, rfl⟩ := h
    split at hd
    · cases hd; simp
    · cases hd
  generate := by
    intro c r keyId ct key h j c' id g used pt hs hd
    simp only [kmsEnv, Option.some.injEq, Prod.mk.injEq] at h hd
    obtain ⟨rfl, rfl, rfl⟩ := h
    split at hd
    · cases hd; simp
    · cases hd

example : (keyringOnDecrypt (mrkKeyring kmsEnv ⟨mrkEast, [], [], none⟩)
    (keyringOnEncrypt (mrkKeyring kmsEnv mrkStrict) krCtx 0x0178 encStart).2.edks krCtx 0x0178 decStart).2.key.map (·.bytes) =
      some (List.replicate 32 7) := by
  decide +kernel

end Verif.Props
