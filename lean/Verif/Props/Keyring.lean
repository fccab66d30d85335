import Verif.Proof.RawKeyring
import Verif.Spec.KeyringExample
/-
Properties C45-C48 and C52: the contract of the public keyring calls, multi-keyrings and list copies.
-/
namespace Verif.Props
open Verif Verif.Spec Verif.Example

/-! ### C45 -/

/-- C45: exactly when a keyring call for encryption succeeds, for every implementation of the keyring: it was not asked to work with
EDKs but no data key; the implementation reports success; a data key it created has the length of the suite; a data key that was
there is still in the same buffer with the same length. -/
theorem C45_encrypt_contract (kr : Keyring) (ctx : EncCtx) (alg : Nat) (s s' : EncState) :
    keyringOnEncrypt kr ctx alg s = (.ok, s') ↔
      (s.key = none → s.edks = []) ∧ (∃ f, kr.onEncrypt = some f ∧ f ctx alg s = (.ok, s')) ∧
      (s.key = none → ∀ k, s'.key = some k → RightLength alg k.bytes) ∧
      (∀ k, s.key = some k → ∃ k', s'.key = some k' ∧
        k'.ptr = k.ptr ∧ k'.bytes.length = k.bytes.length ∧ k'.cap = k.cap ∧ k'.heap = k.heap) := by
  have hcheck : checkEncKey alg s.key s'.key = true ↔
      (s.key = none → ∀ k, s'.key = some k → RightLength alg k.bytes) ∧
      (∀ k, s.key = some k → ∃ k', s'.key = some k' ∧
        k'.ptr = k.ptr ∧ k'.bytes.length = k.bytes.length ∧ k'.cap = k.cap ∧ k'.heap = k.heap) := by
    cases h : s.key with
    | none =>
      cases h2 : s'.key with
      | none => simp [checkEncKey]
      | some k => simp [checkEncKey, dataKeyLenOK_iff]
    | some k =>
      cases h2 : s'.key with
      | none => simp [checkEncKey]
      | some k' =>
        simp only [checkEncKey, Option.map_some, Option.some.injEq, decide_eq_true_eq, KeyBuf.meta_, Prod.mk.injEq,
          reduceCtorEq, false_implies, true_and, forall_eq', exists_eq_left']
        constructor
        · rintro ⟨h1, h2, h3, h4⟩; exact ⟨h2, h1, h3, h4⟩
        · rintro ⟨h1, h2, h3, h4⟩; exact ⟨h2, h1, h3, h4⟩
  unfold keyringOnEncrypt
  rw [← hcheck]
  split
  · rename_i hc
    simp only [Option.isNone_iff_eq_none] at hc
    simp only [Prod.mk.injEq, reduceCtorEq, false_and, false_iff]
    rintro ⟨h, -⟩
    exact hc.2 (h hc.1)
  · rename_i hc
    have hpre : s.key = none → s.edks = [] := by
      intro h
      simp only [h, Option.isNone_none, true_and, ne_eq, Decidable.not_not] at hc
      exact hc
    cases hf : kr.onEncrypt with
    | none => simp
    | some f =>
      simp only [Option.some.injEq, exists_eq_left']
      rcases hr : f ctx alg s with ⟨r, s1⟩
      by_cases hu : r = .ub
      · subst hu; simp
      · simp only [hu, if_false]
        by_cases hk : checkEncKey alg s.key s1.key = true
        · simp only [hk, if_true, Prod.mk.injEq]
          constructor
          · rintro ⟨rfl, rfl⟩; exact ⟨hpre, ⟨rfl, rfl⟩, hk⟩
          · rintro ⟨-, h, -⟩; exact h
        · simp only [hk, Bool.false_eq_true, if_false, Prod.mk.injEq, reduceCtorEq, false_and, false_iff]
          rintro ⟨-, ⟨-, rfl⟩, h⟩
          exact hk h

/-- C45: with EDKs but no data key the keyring is not called at all: the outcome does not depend on it. -/
theorem C45_never_called_without_key (kr : Keyring) (ctx : EncCtx) (alg : Nat) (s : EncState) (hk : s.key = none) (he : s.edks ≠ []) :
    keyringOnEncrypt kr ctx alg s = (.fail, { s with errno := .badState }) := by
  simp [keyringOnEncrypt, hk, he]

/-- C45: a keyring that reports success but created a data key of the wrong length, or replaced the data key it was given, makes the
call fail with AWS_CRYPTOSDK_ERR_BAD_STATE. -/
theorem C45_violations_reported (kr : Keyring) (ctx : EncCtx) (alg : Nat) (s s' : EncState) (f) (hf : kr.onEncrypt = some f)
    (hpre : s.key = none → s.edks = []) (hr : f ctx alg s = (.ok, s'))
    (hbad : (s.key = none ∧ ∃ k, s'.key = some k ∧ ¬ RightLength alg k.bytes) ∨
      (∃ k, s.key = some k ∧ ∀ k', s'.key = some k' → k'.ptr ≠ k.ptr ∨ k'.bytes.length ≠ k.bytes.length)) :
    keyringOnEncrypt kr ctx alg s = (.fail, { s' with errno := .badState }) := by
  have hno : keyringOnEncrypt kr ctx alg s ≠ (.ok, s') := by
    intro h
    obtain ⟨-, -, h3, h4⟩ := (C45_encrypt_contract ..).mp h
    rcases hbad with ⟨hn, k, hk, hl⟩ | ⟨k, hk, hk'⟩
    · exact hl (h3 hn k hk)
    · obtain ⟨k', h5, h6, h7, -, -⟩ := h4 k hk
      rcases hk' k' h5 with h | h
      · exact h h6
      · exact h h7
  unfold keyringOnEncrypt at hno ⊢
  have hc : ¬ (s.key.isNone = true ∧ s.edks ≠ []) := by
    rintro ⟨h1, h2⟩
    exact h2 (hpre (Option.isNone_iff_eq_none.mp h1))
  rw [if_neg hc] at hno ⊢
  simp only [hf, hr, reduceCtorEq, if_false] at hno ⊢
  split at hno
  · exact absurd rfl hno
  · rename_i h; rw [if_neg h]

/-- Non-vacuity: the raw AES keyring generates a data key; the raw RSA keyring wraps an existing one. -/
example : ∃ s', keyringOnEncrypt (aesKeyring krEnv aes) krCtx 0x0178 encStart = (.ok, s') ∧ s'.key = some ⟨4096, List.replicate 32 41, 32, 1⟩ ∧
    ∃ s'', keyringOnEncrypt (rsaKeyring krEnv rsa) krCtx 0x0178 s' = (.ok, s'') ∧ s''.edks.length = 2 :=
  ⟨_, rfl, by decide +kernel, _, rfl, by decide +kernel⟩

/-- Non-vacuity: a keyring that creates a data key of 5 bytes is caught, and so is one that swaps the buffer. -/
example : (∃ s', keyringOnEncrypt ⟨some (fun _ _ s => (.ok, { s with key := some ⟨1, [1, 2, 3, 4, 5], 5, 1⟩ })), none⟩ [] 0x0178 encStart =
      (.fail, s')) ∧
    (∃ s', keyringOnEncrypt ⟨some (fun _ _ s => (.ok, { s with key := some ⟨2, List.replicate 32 0, 32, 1⟩ })), none⟩ [] 0x0178
      ⟨some ⟨1, List.replicate 32 0, 32, 1⟩, [], [], .raw 0⟩ = (.fail, s')) := ⟨⟨_, rfl⟩, ⟨_, rfl⟩⟩

/-! ### C46 -/

/-- C46: exactly when a keyring call for decryption succeeds, for every implementation: no data key was there, the implementation
reports success, and the data key it set, if any, has the length of the suite. -/
theorem C46_decrypt_contract (kr : Keyring) (edks : List Edk) (ctx : EncCtx) (alg : Nat) (s s' : DecState) :
    keyringOnDecrypt kr edks ctx alg s = (.ok, s') ↔
      s.key = none ∧ (∃ f, kr.onDecrypt = some f ∧ f edks ctx alg s = (.ok, s')) ∧
      (∀ k, s'.key = some k → RightLength alg k.bytes) := by
  unfold keyringOnDecrypt
  cases hs : s.key with
  | some k => simp
  | none =>
    simp only [Option.isSome_none, Bool.false_eq_true, if_false, true_and]
    cases hf : kr.onDecrypt with
    | none => simp
    | some f =>
      simp only [Option.some.injEq, exists_eq_left']
      rcases hr : f edks ctx alg s with ⟨r, s1⟩
      by_cases hu : r = .ub
      · subst hu; simp
      · simp only [hu, if_false]
        cases hk : s1.key with
        | none =>
          simp only [Prod.mk.injEq]
          constructor
          · rintro ⟨rfl, rfl⟩; exact ⟨⟨rfl, rfl⟩, by simp [hk]⟩
          · rintro ⟨h, -⟩; exact h
        | some k =>
          simp only
          by_cases hl : dataKeyLenOK alg k = true
          · simp only [hl, if_true, Prod.mk.injEq]
            constructor
            · rintro ⟨rfl, rfl⟩
              refine ⟨⟨rfl, rfl⟩, ?_⟩
              intro k' hk'
              rw [hk] at hk'; cases hk'
              exact (dataKeyLenOK_iff _ _).mp hl
            · rintro ⟨h, -⟩; exact h
          · simp only [hl, Bool.false_eq_true, if_false, Prod.mk.injEq, reduceCtorEq, false_and, false_iff]
            rintro ⟨⟨-, rfl⟩, h⟩
            exact hl ((dataKeyLenOK_iff _ _).mpr (h k hk))

/-- C46: with a data key present the keyring is not called at all. -/
theorem C46_never_called_with_key (kr : Keyring) (edks : List Edk) (ctx : EncCtx) (alg : Nat) (s : DecState) (k : KeyBuf)
    (hk : s.key = some k) : keyringOnDecrypt kr edks ctx alg s = (.fail, { s with errno := .badState }) := by
  simp [keyringOnDecrypt, hk]

/-- C46: a data key of the wrong length is reported as AWS_CRYPTOSDK_ERR_BAD_CIPHERTEXT, whatever the implementation reports. -/
theorem C46_wrong_length_reported (kr : Keyring) (edks : List Edk) (ctx : EncCtx) (alg : Nat) (s s' : DecState) (k : KeyBuf) (r : KRet)
    (f) (hf : kr.onDecrypt = some f) (hn : s.key = none) (hr : f edks ctx alg s = (r, s')) (hu : r ≠ .ub) (hk : s'.key = some k)
    (hl : ¬ RightLength alg k.bytes) :
    keyringOnDecrypt kr edks ctx alg s = (.fail, { s' with errno := .badCiphertext }) := by
  have : dataKeyLenOK alg k = false := by
    cases h : dataKeyLenOK alg k
    · rfl
    · exact absurd ((dataKeyLenOK_iff _ _).mp h) hl
  simp [keyringOnDecrypt, hn, hf, hr, hu, hk, this]

/-- Non-vacuity: the AES keyring unwraps the key that was wrapped before; an RSA keyring that finds a key of three bytes fails. -/
example : (∃ s', keyringOnDecrypt (aesKeyring krEnv aes) wrapped.edks krCtx 0x0178 decStart = (.ok, s') ∧ s'.key.isSome = true) ∧
    (∃ s', keyringOnDecrypt (rsaKeyring krEnv rsa) [⟨[114], [115], [1, 2, 3, 8]⟩] krCtx 0x0178 decStart = (.fail, s')) :=
  ⟨⟨_, rfl, by decide +kernel⟩, ⟨_, rfl⟩⟩

/-! ### C47 -/

/-- C47: a multi-keyring call for encryption that succeeds called the generator and then every child in order, on lists that were empty
at first, and every call succeeded; a data key exists; the EDKs and trace records of these calls are appended to the caller's lists
(of the trace a prefix, if the trace could not grow). -/
theorem C47_success (a : MultiAlloc) (gen : Option Keyring) (children : List Keyring) (ctx : EncCtx) (alg : Nat) (s s' : EncState)
    (h : keyringOnEncrypt (multiKeyring a gen children) ctx alg s = (.ok, s')) :
    ∃ my recs, AllSucceed ctx alg (gen.toList ++ children) { s with trace := [], edks := [] } my ∧ my.key.isSome = true ∧
      s'.key = my.key ∧ s'.edks = s.edks ++ my.edks ∧ s'.trace = s.trace ++ recs ∧ recs <+: my.trace ∧
      ((∀ i, a.pushTrace i = true) → recs = my.trace) := by
  obtain ⟨-, ⟨f, hf, h⟩, -, -⟩ := (C45_encrypt_contract ..).mp h
  simp only [multiKeyring, Option.some.injEq] at hf
  subst hf
  unfold multiOnEncrypt at h
  split at h
  · cases h
  · simp only at h
    rcases hg : callGenerator ctx alg gen { s with trace := [], edks := [] } with ⟨r, sg⟩
    rw [hg] at h
    cases r with
    | fail => cases h
    | ub => cases h
    | ok =>
      simp only at h
      cases hk : sg.key with
      | none => rw [hk] at h; cases h
      | some k =>
        rw [hk] at h
        simp only at h
        rcases hc : callOnEncryptList ctx alg children sg with ⟨r, my⟩
        rw [hc] at h
        cases r with
        | fail => cases h
        | ub => cases h
        | ok =>
          simp only [multiTransfer] at h
          have hall := allSucceed_append ((callGenerator_iff ..).mp hg) ((callOnEncryptList_iff ..).mp hc)
          have hkey : my.key.isSome = true := by
            have := allSucceed_key ((callOnEncryptList_iff ..).mp hc) hk
            cases hm : my.key <;> simp_all
          obtain ⟨l, -, hl1, hl2, -⟩ := transferLoop_prefix a.pushEdk 0 s.edks my.edks
          obtain ⟨t, ht0, ht1, ht2, -⟩ := transferLoop_prefix a.pushTrace 0 s.trace my.trace
          split at h
          · cases h
          · rename_i he
            simp only [Bool.not_eq_true', Bool.not_eq_false] at he
            cases h
            refine ⟨my, t, hall, hkey, rfl, by rw [hl1, hl2 he], ht1, ht0, ?_⟩
            intro hp
            exact ht2 (by rw [transferLoop_all hp])

/-- C47: with keyrings that only append, what is appended are the contributions of the keyrings in order, generator first. -/
theorem C47_contributions_in_order (a : MultiAlloc) (gen : Option Keyring) (children : List Keyring) (ctx : EncCtx) (alg : Nat)
    (s s' : EncState) (happ : ∀ kr ∈ gen.toList ++ children, AppendOnly kr) (hp : ∀ i, a.pushTrace i = true)
    (h : keyringOnEncrypt (multiKeyring a gen children) ctx alg s = (.ok, s')) :
    ∃ my news, AllAppend ctx alg (gen.toList ++ children) { s with trace := [], edks := [] } my news ∧ s'.key = my.key ∧
      news.length = gen.toList.length + children.length ∧
      s'.edks = s.edks ++ (news.map Prod.fst).flatten ∧ s'.trace = s.trace ++ (news.map Prod.snd).flatten := by
  obtain ⟨my, recs, hall, -, hkey, hedks, htr, -, hrec⟩ := C47_success a gen children ctx alg s s' h
  have hrec := hrec hp
  subst hrec
  have key : ∀ krs (s my : EncState), AllSucceed ctx alg krs s my → (∀ kr ∈ krs, AppendOnly kr) →
      ∃ news, AllAppend ctx alg krs s my news ∧ news.length = krs.length ∧
        my.edks = s.edks ++ (news.map Prod.fst).flatten ∧ my.trace = s.trace ++ (news.map Prod.snd).flatten := by
    intro krs s my hall
    induction hall with
    | nil s => intro _; exact ⟨[], .nil s, rfl, by simp, by simp⟩
    | @cons kr krs s s1 s2 h1 h2 ih =>
      intro happ
      obtain ⟨new, hn1, hn2⟩ := happ kr (by simp) ctx alg s s1 h1
      obtain ⟨news, ha, hl, he, ht⟩ := ih (fun k hk => happ k (by simp [hk]))
      exact ⟨new :: news, .cons h1 hn1 hn2 ha, by simp [hl], by rw [he, hn1]; simp, by rw [ht, hn2]; simp⟩
  obtain ⟨news, ha, hl, he, ht⟩ := key _ _ _ hall happ
  exact ⟨my, news, ha, hkey, by simpa using hl, by rw [hedks, he]; simp, by rw [htr, ht]; simp⟩

/-- C47: and if the generator and all children succeed, the generator leaving a data key, and memory suffices, so does the
multi-keyring. -/
theorem C47_completeness (a : MultiAlloc) (gen : Option Keyring) (children : List Keyring) (ctx : EncCtx) (alg : Nat)
    (s sg my : EncState) (ha : a.edks = true ∧ a.trace = true ∧ ∀ i, a.pushEdk i = true)
    (hg : AllSucceed ctx alg gen.toList { s with trace := [], edks := [] } sg) (hk : sg.key.isSome = true)
    (hc : AllSucceed ctx alg children sg my) (hpre : s.key = none → s.edks = []) :
    ∃ s', keyringOnEncrypt (multiKeyring a gen children) ctx alg s = (.ok, s') ∧ s'.key = my.key ∧ s'.edks = s.edks ++ my.edks := by
  have hrun : ∃ s', multiOnEncrypt a gen children ctx alg s = (.ok, s') ∧ s'.key = my.key ∧ s'.edks = s.edks ++ my.edks := by
    unfold multiOnEncrypt
    simp only [ha.1, ha.2.1, Bool.not_true, Bool.false_eq_true, or_self, if_false]
    rw [(callGenerator_iff ..).mpr hg]
    simp only
    cases hk' : sg.key with
    | none => simp [hk'] at hk
    | some k =>
      simp only
      rw [(callOnEncryptList_iff ..).mpr hc]
      simp only [multiTransfer, transferLoop_all ha.2.2, Bool.not_true, Bool.false_eq_true, if_false]
      exact ⟨_, rfl, rfl, rfl⟩
  obtain ⟨s', hr, h1, h2⟩ := hrun
  refine ⟨s', (C45_encrypt_contract ..).mpr ⟨hpre, ⟨_, rfl, hr⟩, ?_, ?_⟩, h1, h2⟩
  · intro hn k hk'
    rw [h1] at hk'
    -- the first key to appear was checked by the call of the generator
    cases gen with
    | none =>
      simp only [Option.toList_none] at hg
      cases hg
      simp [hn] at hk
    | some kr =>
      simp only [Option.toList_some] at hg
      obtain _ | ⟨hg1, hg2⟩ := hg
      cases hg2
      have hck := publicEnc_key hg1
      cases hsg : sg.key with
      | none => simp [hsg] at hk
      | some kg =>
        simp only [hn, hsg, checkEncKey] at hck
        have hm := allSucceed_key hc hsg
        rw [hk'] at hm
        simp only [Option.map_some, Option.some.injEq, KeyBuf.meta_, Prod.mk.injEq] at hm
        obtain ⟨row, hr, hid, hl⟩ := (dataKeyLenOK_iff _ _).mp hck
        exact ⟨row, hr, hid, by rw [hm.1, hl]⟩
  · intro k hk'
    have hm := allSucceed_key (allSucceed_append hg hc) (k := k) hk'
    rw [h1]
    cases hmy : my.key with
    | none => rw [hmy] at hm; cases hm
    | some k' =>
      rw [hmy] at hm
      simp only [Option.map_some, Option.some.injEq, KeyBuf.meta_, Prod.mk.injEq] at hm
      exact ⟨k', rfl, hm.2.1, hm.1, hm.2.2.1, hm.2.2.2⟩

/-- C47: after a failure the caller's EDK list and trace are unchanged, unless it was the caller's EDK list that could not grow.
(Full statement: unconditionally.  `C47_refuted_when_list_cannot_grow` shows that the code does not achieve it.) -/
theorem C47_failure_leaves_lists_partial (a : MultiAlloc) (gen : Option Keyring) (children : List Keyring) (ctx : EncCtx) (alg : Nat)
    (s s' : EncState) (ha : ∀ i, a.pushEdk i = true)
    (h : multiOnEncrypt a gen children ctx alg s = (.fail, s')) : s'.edks = s.edks ∧ s'.trace = s.trace := by
  unfold multiOnEncrypt at h
  split at h
  · cases h; exact ⟨rfl, rfl⟩
  · simp only at h
    rcases hg : callGenerator ctx alg gen { s with trace := [], edks := [] } with ⟨r, sg⟩
    rw [hg] at h
    cases r with
    | fail => cases h; exact ⟨rfl, rfl⟩
    | ub => cases h
    | ok =>
      simp only at h
      cases hk : sg.key with
      | none => rw [hk] at h; cases h; exact ⟨rfl, rfl⟩
      | some k =>
        rw [hk] at h
        simp only at h
        rcases hc : callOnEncryptList ctx alg children sg with ⟨r, my⟩
        rw [hc] at h
        cases r with
        | fail => cases h; exact ⟨rfl, rfl⟩
        | ub => cases h
        | ok => simp [multiTransfer, transferLoop_all ha] at h

/-- C47: the same through the public call.  (Its checks never turn a success of the multi-keyring into a failure, because they were
already made on the calls of the generator and the children.) -/
theorem C47_public_failure_leaves_lists_partial (a : MultiAlloc) (gen : Option Keyring) (children : List Keyring) (ctx : EncCtx)
    (alg : Nat) (s s' : EncState) (ha : ∀ i, a.pushEdk i = true)
    (h : keyringOnEncrypt (multiKeyring a gen children) ctx alg s = (.fail, s')) : s'.edks = s.edks ∧ s'.trace = s.trace := by
  by_cases hpre : s.key = none → s.edks = []
  · rcases hr : multiOnEncrypt a gen children ctx alg s with ⟨r, s1⟩
    have hc : ¬ (s.key.isNone = true ∧ s.edks ≠ []) := by
      rintro ⟨h1, h2⟩; exact h2 (hpre (Option.isNone_iff_eq_none.mp h1))
    cases r with
    | ub =>
      unfold keyringOnEncrypt at h
      rw [if_neg hc] at h
      simp [multiKeyring, hr] at h
    | fail =>
      have hl := C47_failure_leaves_lists_partial a gen children ctx alg s s1 ha hr
      unfold keyringOnEncrypt at h
      rw [if_neg hc] at h
      simp only [multiKeyring, hr, reduceCtorEq, if_false] at h
      split at h <;> cases h <;> exact hl
    | ok =>
      -- then the public call succeeds
      exfalso
      have hok : ∃ s2, keyringOnEncrypt (multiKeyring a gen children) ctx alg s = (.ok, s2) := by
        unfold multiOnEncrypt at hr
        split at hr
        · cases hr
        · rename_i hal
          simp only [Bool.not_eq_true', not_or, Bool.not_eq_false] at hal
          simp only at hr
          rcases hg : callGenerator ctx alg gen { s with trace := [], edks := [] } with ⟨r, sg⟩
          rw [hg] at hr
          cases r with
          | fail => cases hr
          | ub => cases hr
          | ok =>
            simp only at hr
            cases hk : sg.key with
            | none => rw [hk] at hr; cases hr
            | some k =>
              rw [hk] at hr
              simp only at hr
              rcases hcl : callOnEncryptList ctx alg children sg with ⟨r, my⟩
              rw [hcl] at hr
              cases r with
              | fail => cases hr
              | ub => cases hr
              | ok =>
                obtain ⟨s2, h2, -⟩ := C47_completeness a gen children ctx alg s sg my ⟨hal.1, hal.2, ha⟩
                  ((callGenerator_iff ..).mp hg) (by simp [hk]) ((callOnEncryptList_iff ..).mp hcl) hpre
                exact ⟨s2, h2⟩
      obtain ⟨s2, h2⟩ := hok
      rw [h] at h2; cases h2
  · have h1 : s.key = none := by
      cases hk : s.key with
      | none => rfl
      | some k => exact absurd (by simp [hk]) hpre
    have h2 : s.edks ≠ [] := fun he => hpre (fun _ => he)
    rw [C45_never_called_without_key _ _ _ _ h1 h2] at h
    cases h; exact ⟨rfl, rfl⟩

/-- The multi-keyring itself only appends, so that multi-keyrings can be nested. -/
theorem C47_nesting (a : MultiAlloc) (gen : Option Keyring) (children : List Keyring) : AppendOnly (multiKeyring a gen children) := by
  intro ctx alg s s' h
  obtain ⟨my, recs, -, -, -, he, ht, -⟩ := C47_success a gen children ctx alg s s' h
  exact ⟨(my.edks, recs), he, ht⟩

/-- C47, refuted without memory: if the caller's EDK list cannot grow beyond one more element, the call fails but leaves the first new
EDK (whose buffers have been freed) in the caller's list. -/
theorem C47_refuted_when_list_cannot_grow :
    ∃ s', keyringOnEncrypt (multiKeyring { multiAlloc with pushEdk := fun i => i = 0 } (some (aesKeyring krEnv aes)) [rsaKeyring krEnv rsa])
      krCtx 0x0178 encStart = (.fail, s') ∧ encStart.edks = [] ∧ s'.edks.length = 1 := ⟨_, rfl, rfl, by decide +kernel⟩

/-- Non-vacuity: generator and child succeed, their EDKs and records follow each other. -/
example : ∃ s', keyringOnEncrypt (multiKeyring multiAlloc (some (aesKeyring krEnv aes)) [rsaKeyring krEnv rsa]) krCtx 0x0178 encStart =
      (.ok, s') ∧ s'.edks.map Edk.providerId = [[110, 115], [114]] ∧ s'.trace.map TraceRec.flags = [11, 2] ∧ s'.key.isSome = true :=
  ⟨_, rfl, by decide +kernel⟩

/-- Non-vacuity: the last child fails; nothing is appended. -/
example : ∃ s', multiOnEncrypt multiAlloc (some (aesKeyring krEnv aes)) [rsaKeyring krEnv rsa, failing] krCtx 0x0178 encStart =
      (.fail, s') ∧ s'.errno = .kmsFailure := ⟨_, rfl, by decide +kernel⟩

/-! ### C48 -/

/-- C48: exactly what a multi-keyring call for decryption does: the first keyring (generator first) after whose call a data key is
there determines the data key, and no later keyring is asked; if there is none, the call fails if and only if one of them
reported an error. -/
theorem C48_first_key_wins (gen : Option Keyring) (children : List Keyring) (edks : List Edk) (ctx : EncCtx) (alg : Nat)
    (s s' : DecState) (r : KRet) (hk : s.key = none) (h : multiOnDecrypt gen children edks ctx alg s = (r, s')) (hu : r ≠ .ub) :
    (∃ pre kr post s1 e f, gen.toList ++ children = pre ++ kr :: post ∧ NoneDecrypted edks ctx alg pre s s1 f ∧ s1.key = none ∧
        keyringOnDecrypt kr edks ctx alg s1 = (e, s') ∧ s'.key.isSome = true ∧ r = .ok) ∨
    (∃ f, NoneDecrypted edks ctx alg (gen.toList ++ children) s s' f ∧ s'.key = none ∧ (r = .fail ↔ f = true)) := by
  unfold multiOnDecrypt at h
  rcases multiDecLoop_ok edks ctx alg false (gen.toList ++ children) s hk with
    ⟨pre, kr, post, s1, s2, e, f, h1, h2, h3, h4, h5, h6, h7⟩ | ⟨s1, f, h1, h2, h3⟩ | ⟨pre, kr, post, s1, s2, f, h1, h2, h3, h4⟩
  · rw [h] at h7; cases h7
    exact Or.inl ⟨pre, kr, post, s1, e, f, h1, h2, h3, h4, h6, rfl⟩
  · rw [h] at h3
    simp only [Bool.false_or, Prod.mk.injEq] at h3
    obtain ⟨rfl, rfl⟩ := h3
    exact Or.inr ⟨f, h1, h2, by cases f <;> simp⟩
  · rw [h] at h4; cases h4; exact absurd rfl hu

/-- The keyrings before the first one that leaves a key are asked in turn; determinism of that run. -/
theorem noneDecrypted_unique {edks : List Edk} {ctx : EncCtx} {alg : Nat} {krs : List Keyring} {s s1 s2 : DecState} {f1 f2 : Bool}
    (h1 : NoneDecrypted edks ctx alg krs s s1 f1) (h2 : NoneDecrypted edks ctx alg krs s s2 f2) : s1 = s2 ∧ f1 = f2 := by
  induction h1 generalizing f2 with
  | nil => cases h2; exact ⟨rfl, rfl⟩
  | ok h _ _ ih =>
    cases h2 with
    | ok h' _ h2 => rw [h] at h'; cases h'; exact ih h2
    | fail h' _ h2 => rw [h] at h'; cases h'
  | fail h _ _ ih =>
    cases h2 with
    | ok h' _ h2 => rw [h] at h'; cases h'
    | fail h' _ h2 => rw [h] at h'; cases h'; exact ⟨(ih h2).1, rfl⟩

/-- C48: a data key found by a keyring is the result, whatever errors the keyrings before it reported, provided these left no data key
behind.  (Full statement: without the proviso.  `C48_refuted_by_wrong_length` shows that the code does not achieve it.) -/
theorem C48_errors_do_not_prevent_partial (gen : Option Keyring) (children pre post : List Keyring) (kr : Keyring) (edks : List Edk)
    (ctx : EncCtx) (alg : Nat) (s s1 s' : DecState) (f : Bool) (hk : s.key = none)
    (hl : gen.toList ++ children = pre ++ kr :: post) (hpre : NoneDecrypted edks ctx alg pre s s1 f)
    (hkr : keyringOnDecrypt kr edks ctx alg s1 = (.ok, s')) (hkey : s'.key.isSome = true) (a : MultiAlloc) :
    keyringOnDecrypt (multiKeyring a gen children) edks ctx alg s = (.ok, s') := by
  have hrun : ∀ failed, multiDecLoop edks ctx alg failed (pre ++ kr :: post) s = (.ok, s') := by
    clear hk hl
    induction hpre with
    | nil =>
      intro failed
      simp [multiDecLoop, hkr, hkey]
    | ok h hn _ ih =>
      intro failed
      simp only [List.cons_append, multiDecLoop, h, hn, Option.isSome_none, Bool.false_eq_true, if_false]
      exact ih hkr _
    | fail h hn _ ih =>
      intro failed
      simp only [List.cons_append, multiDecLoop, h, hn, Option.isSome_none, Bool.false_eq_true, if_false]
      exact ih hkr _
  refine (C46_decrypt_contract ..).mpr ⟨hk, ⟨_, rfl, ?_⟩, ?_⟩
  · simp only [multiOnDecrypt, hl]
    exact hrun false
  · exact ((C46_decrypt_contract ..).mp hkr).2.2

/-- C48: without a data key from any keyring, the call succeeds without a data key if none reported an error and fails otherwise. -/
theorem C48_no_key (gen : Option Keyring) (children : List Keyring) (edks : List Edk) (ctx : EncCtx) (alg : Nat) (s s1 : DecState)
    (f : Bool) (hk : s.key = none) (h : NoneDecrypted edks ctx alg (gen.toList ++ children) s s1 f) (a : MultiAlloc) :
    keyringOnDecrypt (multiKeyring a gen children) edks ctx alg s = (if f then .fail else .ok, s1) ∧ s1.key = none := by
  have hrun : ∀ krs s s1 f, NoneDecrypted edks ctx alg krs s s1 f → s.key = none →
      s1.key = none ∧ ∀ failed, multiDecLoop edks ctx alg failed krs s = (if failed || f then .fail else .ok, s1) := by
    intro krs s s1 f h
    induction h with
    | nil => intro hk; exact ⟨hk, fun failed => by simp [multiDecLoop]⟩
    | ok h hn _ ih =>
      intro _
      refine ⟨(ih hn).1, fun failed => ?_⟩
      simp [multiDecLoop, h, hn, (ih hn).2]
    | fail h hn _ ih =>
      intro _
      refine ⟨(ih hn).1, fun failed => ?_⟩
      simp [multiDecLoop, h, hn, (ih hn).2]
  obtain ⟨h1, h2⟩ := hrun _ _ _ _ h hk
  refine ⟨?_, h1⟩
  unfold keyringOnDecrypt
  simp only [hk, Option.isSome_none, Bool.false_eq_true, if_false, multiKeyring, multiOnDecrypt, h2 false, Bool.false_or, h1]
  cases f <;> simp

/-- C48, refuted: a raw RSA keyring that unwraps an EDK to a data key of the wrong length makes a multi-keyring fail, although the
raw AES keyring after it unwraps the right data key on its own. -/
theorem C48_refuted_by_wrong_length :
    let edks : List Edk := ⟨[114], [115], [1, 2, 3, 8]⟩ :: wrapped.edks
    (∃ s', keyringOnDecrypt (multiKeyring multiAlloc none [rsaKeyring krEnv rsa, aesKeyring krEnv aes]) edks krCtx 0x0178 decStart =
      (.fail, s') ∧ s'.errno = .badCiphertext) ∧
    (∃ s', keyringOnDecrypt (multiKeyring multiAlloc none [aesKeyring krEnv aes]) edks krCtx 0x0178 decStart = (.ok, s') ∧
      s'.key = wrapped.key) :=
  ⟨⟨_, rfl, by decide +kernel⟩, ⟨_, rfl, by decide +kernel⟩⟩

/-- Non-vacuity: the generator fails, the first child finds nothing, the second unwraps the key. -/
example : ∃ s', keyringOnDecrypt (multiKeyring multiAlloc (some failing) [aesKeyring krEnv { aes with name := [1] }, rsaKeyring krEnv rsa])
      wrapped.edks krCtx 0x0178 decStart = (.ok, s') ∧ s'.key.map KeyBuf.bytes = wrapped.key.map KeyBuf.bytes := ⟨_, rfl, by decide +kernel⟩

/-- Non-vacuity: no key, one failure. -/
example : ∃ s', keyringOnDecrypt (multiKeyring multiAlloc (some failing) [aesKeyring krEnv { aes with name := [1] }])
      wrapped.edks krCtx 0x0178 decStart = (.fail, s') ∧ s'.key = none := ⟨_, rfl, by decide +kernel⟩

/-- A failing multi-keyring need not report an error code: the failure of the first child is erased by the second, which clears the
thread's last error after an EDK that does not open (source/raw_aes_keyring.c:240). -/
theorem C48_failure_may_report_no_error :
    ∃ s', keyringOnDecrypt (multiKeyring multiAlloc (some failing) [rsaKeyring krEnv { rsa with priv := some [7] }])
      wrapped.edks krCtx 0x0178 decStart = (.fail, s') ∧ s'.errno = .raw 0 := ⟨_, rfl, by decide +kernel⟩

/-! ### C52 -/

/-- C52: copying a list appends the copies of all elements in order, or changes nothing; it fails exactly if the temporary element, a
copy or the growth of the list could not be allocated. -/
theorem C52_copy_all_or_nothing (tmp : Bool) (clone : Nat → α → Option α) (push : Nat → Bool) (dest src dest' : List α) (ok : Bool)
    (h : listCopyAll tmp clone push dest src = (dest', ok)) :
    (ok = false → dest' = dest) ∧
    (ok = true → ∃ l, dest' = dest ++ l ∧ l.length = src.length ∧ ∀ j (hj : j < src.length), l[j]? = clone j src[j]) ∧
    (ok = true ↔ tmp = true ∧ ∀ j (hj : j < src.length), (clone j src[j]).isSome = true ∧ push j = true) := by
  obtain ⟨l, h1, h2, h3⟩ := copyLoop_ok clone push 0 dest src
  simp only [Nat.zero_add] at h2 h3
  unfold listCopyAll at h
  cases tmp with
  | false => simp only [Bool.not_false, if_true] at h; cases h; simp
  | true =>
    simp only [Bool.not_true, Bool.false_eq_true, if_false] at h
    cases hb : (copyLoop clone push 0 dest src).2 with
    | true =>
      rw [hb] at h2 h3
      simp only [hb, if_true] at h
      have h := congrArg Prod.fst h
      have := h3 rfl
      simp_all
    | false =>
      rw [hb] at h2
      simp only [hb, Bool.false_eq_true, if_false, Prod.mk.injEq] at h
      obtain ⟨hd, rfl⟩ := h
      rw [h1, popTo_append] at hd
      refine ⟨fun _ => hd.symm, by simp, ?_⟩
      simpa using h2

/-- C52 for lists of EDKs (`aws_cryptosdk_edk_list_copy_all`): `al j n` says whether the `n`-th allocation for element `j` succeeds. -/
theorem C52_edk_list_copy (al : Nat → Nat → Bool) (tmp : Bool) (dest src dest' : List Edk) (ok : Bool)
    (h : listCopyAll tmp (fun j => edkClone (al j 0) (al j 1) (al j 2)) (fun j => al j 3) dest src = (dest', ok)) :
    dest' = (if ok then dest ++ src else dest) ∧
    (ok = true ↔ tmp = true ∧ ∀ j < src.length, al j 0 = true ∧ al j 1 = true ∧ al j 2 = true ∧ al j 3 = true) := by
  obtain ⟨h1, h2, h3⟩ := C52_copy_all_or_nothing _ _ _ _ _ _ _ h
  have hiff : ok = true ↔ tmp = true ∧ ∀ j < src.length, al j 0 = true ∧ al j 1 = true ∧ al j 2 = true ∧ al j 3 = true := by
    rw [h3]
    constructor
    · rintro ⟨ht, hj⟩
      refine ⟨ht, fun j hlt => ?_⟩
      obtain ⟨ha, hb⟩ := hj j hlt
      unfold edkClone at ha
      split at ha
      · rename_i hc; exact ⟨hc.1, hc.2.1, hc.2.2, hb⟩
      · simp at ha
    · rintro ⟨ht, hj⟩
      refine ⟨ht, fun j hlt => ?_⟩
      obtain ⟨a0, a1, a2, a3⟩ := hj j hlt
      simp [edkClone, a0, a1, a2, a3]
  refine ⟨?_, hiff⟩
  cases ok with
  | false => simpa using h1 rfl
  | true =>
    obtain ⟨l, hd, hl, he⟩ := h2 rfl
    have hj := (hiff.mp rfl).2
    rw [hd]
    simp only [if_true, List.append_cancel_left_eq]
    apply List.ext_getElem hl
    intro j hj1 hj2
    have := he j hj2
    obtain ⟨a0, a1, a2, -⟩ := hj j hj2
    rw [List.getElem?_eq_getElem hj1] at this
    simp only [edkClone, a0, a1, a2, true_and, if_true, Option.some.injEq] at this
    rw [this]

/-- C52 for keyring traces (`aws_cryptosdk_keyring_trace_copy_all`). -/
theorem C52_trace_copy (al : Nat → Nat → Bool) (tmp : Bool) (dest src dest' : List TraceRec) (ok : Bool)
    (h : listCopyAll tmp (fun j => traceClone (al j 0) (al j 1)) (fun j => al j 2) dest src = (dest', ok)) :
    dest' = (if ok then dest ++ src else dest) ∧
    (ok = true ↔ tmp = true ∧ ∀ j < src.length, al j 0 = true ∧ al j 1 = true ∧ al j 2 = true) := by
  obtain ⟨h1, h2, h3⟩ := C52_copy_all_or_nothing _ _ _ _ _ _ _ h
  have hiff : ok = true ↔ tmp = true ∧ ∀ j < src.length, al j 0 = true ∧ al j 1 = true ∧ al j 2 = true := by
    rw [h3]
    constructor
    · rintro ⟨ht, hj⟩
      refine ⟨ht, fun j hlt => ?_⟩
      obtain ⟨ha, hb⟩ := hj j hlt
      unfold traceClone at ha
      split at ha
      · rename_i hc; exact ⟨hc.1, hc.2, hb⟩
      · simp at ha
    · rintro ⟨ht, hj⟩
      refine ⟨ht, fun j hlt => ?_⟩
      obtain ⟨a0, a1, a2⟩ := hj j hlt
      simp [traceClone, a0, a1, a2]
  refine ⟨?_, hiff⟩
  cases ok with
  | false => simpa using h1 rfl
  | true =>
    obtain ⟨l, hd, hl, he⟩ := h2 rfl
    have hj := (hiff.mp rfl).2
    rw [hd]
    simp only [if_true, List.append_cancel_left_eq]
    apply List.ext_getElem hl
    intro j hj1 hj2
    have := he j hj2
    obtain ⟨a0, a1, -⟩ := hj j hj2
    rw [List.getElem?_eq_getElem hj1] at this
    simp only [traceClone, a0, a1, true_and, if_true, Option.some.injEq] at this
    rw [this]

/-- Non-vacuity: three EDKs copied onto a list of one; and a failure at the third, after which the list is as before. -/
example : listCopyAll true (fun j => edkClone true true (j < 9)) (fun _ => true) [edk] [edk, ⟨[1], [2], [3]⟩, edk] =
      ([edk, edk, ⟨[1], [2], [3]⟩, edk], true) ∧
    listCopyAll true (fun j => edkClone true true (j < 2)) (fun _ => true) [edk] [edk, ⟨[1], [2], [3]⟩, edk] = ([edk], false) := by
  constructor
  · rfl
  · decide +kernel

end Verif.Props
