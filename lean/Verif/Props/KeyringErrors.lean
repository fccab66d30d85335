import Verif.Proof.KeyringErrors
/-
C79: when the raw keyrings fail, and with which error.
-/
namespace Verif.Props
open Spec Example

/-- C79: an encryption call of a raw AES keyring succeeds if none of its checks fails, and fails with the error of the first one that does. -/
theorem C79_aes_encrypt (env : KrEnv) (kr : RawAes) (ctx : EncCtx) (row : SuiteRow) (s : EncState) (hrow : row ∈ suiteTable)
    (hd : DistinctKeys ctx) (hmem : ∀ e ∈ ctx, 4 + e.1.length + e.2.length < 2 ^ 64 - 65536) :
    ((keyringOnEncrypt (aesKeyring env kr) ctx row.id s).1 = .ok ↔ NoneFails (aesEncryptChecks env kr ctx row s)) ∧
    ∀ c, ((keyringOnEncrypt (aesKeyring env kr) ctx row.id s).1 = .fail ∧ (keyringOnEncrypt (aesKeyring env kr) ctx row.id s).2.errno = c ↔
      FirstFails (aesEncryptChecks env kr ctx row s) c) := by
  obtain ⟨h1, h2⟩ := aesOnEncrypt_decides env kr ctx row s hrow hd hmem
  exact Decides.iff (functional_aes env kr ctx row s) (keyringOnEncrypt_decides (kr := aesKeyring env kr) rfl h1 h2 (aesOnEncrypt_fail_key env kr ctx row.id s))

/-- No check fails for the example; without memory for the EDK the last one does; with a wrapping key of 31 bytes the seventh. -/
example : NoneFails (aesEncryptChecks krEnv aes krCtx ⟨0x0178, 1, 256, 256, 0, 0⟩ encStart) ∧
    FirstFails (aesEncryptChecks { krEnv with alloc := fun x => x != .pushEdk } aes krCtx ⟨0x0178, 1, 256, 256, 0, 0⟩ encStart) .oom ∧
    FirstFails (aesEncryptChecks krEnv { aes with key := List.replicate 31 9 } krCtx ⟨0x0178, 1, 256, 256, 0, 0⟩ encStart) .invalidBufferSize :=
  ⟨(C79_aes_encrypt krEnv aes krCtx _ encStart (by decide) (by unfold DistinctKeys; decide) (by decide)).1.mp (by decide +kernel),
   ((C79_aes_encrypt _ aes krCtx _ encStart (by decide) (by unfold DistinctKeys; decide) (by decide)).2 _).mp (by decide +kernel),
   ((C79_aes_encrypt krEnv _ krCtx _ encStart (by decide) (by unfold DistinctKeys; decide) (by decide)).2 _).mp (by decide +kernel)⟩

/-- C79: a decryption call of a raw AES keyring fails only for three reasons, whatever the EDKs are. -/
theorem C79_aes_decrypt (env : KrEnv) (kr : RawAes) (edks : List Edk) (ctx : EncCtx) (row : SuiteRow) (s : DecState) (hrow : row ∈ suiteTable)
    (hd : DistinctKeys ctx) (hmem : ∀ e ∈ ctx, 4 + e.1.length + e.2.length < 2 ^ 64 - 65536) :
    ((keyringOnDecrypt (aesKeyring env kr) edks ctx row.id s).1 = .ok ↔ NoneFails (aesDecryptChecks env ctx s)) ∧
    ∀ c, ((keyringOnDecrypt (aesKeyring env kr) edks ctx row.id s).1 = .fail ∧ (keyringOnDecrypt (aesKeyring env kr) edks ctx row.id s).2.errno = c ↔
      FirstFails (aesDecryptChecks env ctx s) c) := by
  obtain ⟨p, hp⟩ := algProps_of_row hrow
  have hlenok : ∀ k, s.key = none → (aesOnDecrypt env kr edks ctx row.id s).2.key = some k → dataKeyLenOK row.id k = true := by
    intro k hs hk
    cases hx : aesOnDecrypt env kr edks ctx row.id s with
    | mk r s1 =>
      rw [hx] at hk
      simp only at hk
      cases r with
      | ok =>
        obtain ⟨pre, e, post, -, -, ho⟩ := ((aesOnDecrypt_ok hd hx).1 k.bytes).mp (by simp [hk])
        simp only [dataKeyLenOK, hp, decide_eq_true_eq]
        exact (rightLength_of_props hp).mp ho.1
      | fail =>
        exfalso
        unfold aesOnDecrypt at hx
        repeat' split at hx
        all_goals cases hx
        all_goals simp_all
      | ub =>
        exfalso
        unfold aesOnDecrypt at hx
        repeat' split at hx
        all_goals cases hx
        all_goals simp_all
  refine Decides.iff ?_ (keyringOnDecrypt_decides (kr := aesKeyring env kr) (checks := (aesDecryptChecks env ctx s).drop 1) rfl ?_ ?_ ?_ rfl)
  · unfold aesDecryptChecks
    simp only [functional_cons, functional_nil, and_true]
    exact ⟨functional_failsIf, functional_failsIf, functional_failsIf⟩
  · intro _ h
    unfold aesOnDecrypt at h
    rw [hp] at h
    cases serializeAad env ctx <;> simp only [reduceCtorEq] at h
    repeat' split at h
    all_goals cases h
  · rintro hs ⟨k, hk, hl⟩
    rw [hlenok k hs hk] at hl
    cases hl
  · intro hs _
    unfold aesDecryptChecks aesOnDecrypt
    simp only [List.drop_succ_cons, List.drop_zero]
    cases ha : serializeAad env ctx with
    | error c =>
      rcases serializeAad_error hmem ha with ⟨h1, rfl⟩ | ⟨h1, h2, rfl⟩
      · exact .fail h1
      · exact .skip (by omega) (.fail (Or.inl h2))
    | ok aad =>
      obtain ⟨h1, h2, rfl⟩ := serializeAad_ok.mp ha
      rw [← wireLen_eq] at h1
      refine .skip (by omega) ?_
      simp only [hp]
      cases hc : env.alloc .dataKey with
      | false => exact .fail (Or.inr rfl)
      | true =>
        refine .skip (by simp [h2]) ?_
        simp only [Bool.not_true, Bool.false_eq_true, if_false]
        rcases aesDecLoop env kr p (ctxBytes ctx) s.errno edks with ⟨_ | _, _⟩ <;> exact .ok

example : FirstFails (aesDecryptChecks { krEnv with alloc := fun x => x != .aad } krCtx decStart) .oom :=
  ((C79_aes_decrypt { krEnv with alloc := fun x => x != .aad } aes [] krCtx ⟨0x0178, 1, 256, 256, 0, 0⟩ decStart (by decide)
    (by unfold DistinctKeys; decide) (by decide)).2 _).mp (by decide +kernel)

/-- C79: and when it succeeds, the thread's last error is reset if an EDK of the right form did not open, and otherwise left alone. -/
theorem C79_aes_decrypt_last_error (env : KrEnv) (kr : RawAes) (edks : List Edk) (ctx : EncCtx) (row : SuiteRow) (s s' : DecState)
    (hrow : row ∈ suiteTable) (hd : DistinctKeys ctx) (h : keyringOnDecrypt (aesKeyring env kr) edks ctx row.id s = (.ok, s')) :
    ErrnoAfter s.errno s'.errno (TriedInVain (AesForm kr row) (AesOpens env kr ctx row.id) edks)
      (s'.key = none ∨ env.alloc .traceRecord = true) := by
  obtain ⟨hs, ⟨f, hf, hr⟩, -⟩ := (C46_decrypt_contract ..).mp h
  simp only [aesKeyring, Option.some.injEq] at hf
  subst hf
  obtain ⟨p, hp⟩ := algProps_of_row hrow
  unfold aesOnDecrypt at hr
  cases ha : serializeAad env ctx with
  | error c => rw [ha] at hr; cases hr
  | ok aad =>
    obtain ⟨-, -, rfl⟩ := serializeAad_ok.mp ha
    rw [ha, hp] at hr
    simp only at hr
    split at hr
    · cases hr
    · have key := decLoop_errno (aesTry env kr p (ctxBytes ctx)) (aesTry_form hrow hp env (ctxBytes ctx)) (aesTry_ok hp hd)
        (aesDecLoop env kr p (ctxBytes ctx)) (fun _ => rfl) (fun c e es => aesDecLoop_cons env kr p (ctxBytes ctx) c e es) edks s.errno
      split at hr
      · rename_i errno hl
        rw [hl] at key
        cases hr
        exact ⟨fun _ => key, by simp⟩
      · rename_i pt errno hl
        rw [hl] at key
        cases hr
        unfold addTrace
        cases hat : env.alloc .traceRecord with
        | true => exact ⟨fun _ => by simpa using key, by simp⟩
        | false => exact ⟨by simp, by simp⟩

/-- An EDK with a wrong tag resets the last error, also if another one opens. -/
example : ((wrapped.edks.map fun e => Edk.mk e.providerId e.providerInfo (e.ciphertext.map (· + 1))) ++ wrapped.edks).length = 4 ∧
    (keyringOnDecrypt (aesKeyring krEnv aes) ((wrapped.edks.map fun e => Edk.mk e.providerId e.providerInfo (e.ciphertext.map (· + 1))) ++ wrapped.edks)
      krCtx 0x0178 { decStart with errno := .badState }).1 = .ok ∧
    (keyringOnDecrypt (aesKeyring krEnv aes) ((wrapped.edks.map fun e => Edk.mk e.providerId e.providerInfo (e.ciphertext.map (· + 1))) ++ wrapped.edks)
      krCtx 0x0178 { decStart with errno := .badState }).2.errno = .raw 0 ∧
    (keyringOnDecrypt (aesKeyring krEnv aes) wrapped.edks krCtx 0x0178 { decStart with errno := .badState }).2.errno = .badState := by
  decide +kernel

/-- C79: the same for encryption with a raw RSA keyring. -/
theorem C79_rsa_encrypt (env : KrEnv) (kr : RawRsa) (ctx : EncCtx) (row : SuiteRow) (s : EncState) (hrow : row ∈ suiteTable) :
    ((keyringOnEncrypt (rsaKeyring env kr) ctx row.id s).1 = .ok ↔ NoneFails (rsaEncryptChecks env kr row s)) ∧
    ∀ c, ((keyringOnEncrypt (rsaKeyring env kr) ctx row.id s).1 = .fail ∧ (keyringOnEncrypt (rsaKeyring env kr) ctx row.id s).2.errno = c ↔
      FirstFails (rsaEncryptChecks env kr row s) c) := by
  obtain ⟨h1, h2⟩ := rsaOnEncrypt_decides env kr ctx row s hrow
  exact Decides.iff (functional_rsa env kr row s)
    (keyringOnEncrypt_decides (kr := rsaKeyring env kr) rfl h1 h2 (rsaOnEncrypt_fail_key env kr ctx row.id s))

example : FirstFails (rsaEncryptChecks krEnv { rsa with padding := 7 } ⟨0x0178, 1, 256, 256, 0, 0⟩ encStart) .unsupportedFormat ∧
    FirstFails (rsaEncryptChecks krEnv { rsa with pub := none } ⟨0x0178, 1, 256, 256, 0, 0⟩ encStart) .badState ∧
    NoneFails (rsaEncryptChecks krEnv rsa ⟨0x0178, 1, 256, 256, 0, 0⟩ encStart) :=
  ⟨((C79_rsa_encrypt krEnv _ krCtx _ encStart (by decide)).2 _).mp (by decide +kernel),
   ((C79_rsa_encrypt krEnv _ krCtx _ encStart (by decide)).2 _).mp (by decide +kernel),
   (C79_rsa_encrypt krEnv _ krCtx _ encStart (by decide)).1.mp (by decide +kernel)⟩

/-- C79: and for decryption with a raw RSA keyring. -/
theorem C79_rsa_decrypt (env : KrEnv) (kr : RawRsa) (edks : List Edk) (ctx : EncCtx) (row : SuiteRow) (s : DecState) (hrow : row ∈ suiteTable) :
    ((keyringOnDecrypt (rsaKeyring env kr) edks ctx row.id s).1 = .ok ↔ NoneFails (rsaDecryptChecks env kr row edks s)) ∧
    ∀ c, ((keyringOnDecrypt (rsaKeyring env kr) edks ctx row.id s).1 = .fail ∧ (keyringOnDecrypt (rsaKeyring env kr) edks ctx row.id s).2.errno = c ↔
      FirstFails (rsaDecryptChecks env kr row edks s) c) := by
  obtain ⟨p, hp⟩ := algProps_of_row hrow
  have hlen := dataKeyLen_row hrow hp
  have hlk : ∀ k : KeyBuf, dataKeyLenOK row.id k = true ↔ k.bytes.length = row.keyBits / 8 := by
    intro k; simp [dataKeyLenOK, hp, hlen]
  refine Decides.iff ?_ (keyringOnDecrypt_decides (kr := rsaKeyring env kr) (checks := (rsaDecryptChecks env kr row edks s).drop 1) rfl ?_ ?_ ?_ rfl)
  · unfold rsaDecryptChecks
    simp only [functional_cons, functional_nil, and_true]
    exact ⟨functional_failsIf, functional_failsIf, functional_failsIf⟩
  · intro _ h
    unfold rsaOnDecrypt at h
    repeat' split at h
    all_goals cases h
  · rintro hs ⟨k, hk, hl⟩
    unfold rsaDecryptChecks
    simp only [List.drop_succ_cons, List.drop_zero]
    cases hpr : kr.priv with
    | none => unfold rsaOnDecrypt at hk; rw [hpr] at hk; simp [hs] at hk
    | some priv =>
      obtain ⟨s', h1, h2, -⟩ := rsaOnDecrypt_eq (env := env) (edks := edks) (ctx := ctx) (alg := row.id) hpr hs
      rw [h1] at hk
      simp only at hk
      refine firstFails_cons.mpr (Or.inr ⟨failsIf_none.mpr (by simp), firstFails_cons.mpr (Or.inl ⟨?_, rfl⟩)⟩)
      refine ⟨priv, k.bytes, rfl, (h2 _).mp (by simp [hk]), fun h => ?_⟩
      rw [(hlk k).mpr h] at hl
      cases hl
  · intro hs hall
    unfold rsaDecryptChecks
    simp only [List.drop_succ_cons, List.drop_zero]
    cases hpr : kr.priv with
    | none => unfold rsaOnDecrypt; rw [hpr]; exact .fail rfl
    | some priv =>
      obtain ⟨s', h1, h2, -⟩ := rsaOnDecrypt_eq (env := env) (edks := edks) (ctx := ctx) (alg := row.id) hpr hs
      refine .skip (by simp) (.skip ?_ ?_)
      · rintro ⟨priv', key, h3, h4, h5⟩
        cases h3
        have := (h2 key).mpr h4
        cases hk : s'.key with
        | none => rw [hk] at this; cases this
        | some k =>
          rw [hk] at this
          cases this
          rw [h1] at hall
          exact h5 ((hlk k).mp (hall k hk))
      · rw [h1]; exact .ok

/-- Its own EDK of a 32 byte data key, in a message with a suite of 16 byte keys. -/
example : FirstFails (rsaDecryptChecks krEnv rsa ⟨0x0114, 1, 128, 256, 0, 0⟩ wrapped.edks decStart) .badCiphertext ∧
    NoneFails (rsaDecryptChecks krEnv rsa ⟨0x0178, 1, 256, 256, 0, 0⟩ wrapped.edks decStart) :=
  ⟨((C79_rsa_decrypt krEnv _ _ krCtx _ decStart (by decide)).2 _).mp (by decide +kernel),
   (C79_rsa_decrypt krEnv _ _ krCtx _ decStart (by decide)).1.mp (by decide +kernel)⟩

/-- C79: the thread's last error after a decryption call of a raw RSA keyring that succeeds. -/
theorem C79_rsa_decrypt_last_error (env : KrEnv) (kr : RawRsa) (priv : Bytes) (hpriv : kr.priv = some priv) (edks : List Edk) (ctx : EncCtx) (alg : Nat)
    (s s' : DecState) (h : keyringOnDecrypt (rsaKeyring env kr) edks ctx alg s = (.ok, s')) :
    ErrnoAfter s.errno s'.errno (TriedInVain (RsaForm kr) (RsaOpens env kr priv) edks) (s'.key = none ∨ env.alloc .traceRecord = true) := by
  obtain ⟨hs, ⟨f, hf, hr⟩, -⟩ := (C46_decrypt_contract ..).mp h
  simp only [rsaKeyring, Option.some.injEq] at hf
  subst hf
  unfold rsaOnDecrypt at hr
  rw [hpriv] at hr
  simp only at hr
  have key := decLoop_errno (rsaTry env kr priv) (rsaTry_form env kr priv) (fun e k => rsaTry_ok e k)
    (rsaDecLoop env kr priv) (fun _ => rfl) (fun c e es => rsaDecLoop_cons env kr priv c e es) edks s.errno
  split at hr
  · rename_i errno hl
    rw [hl] at key
    cases hr
    exact ⟨fun _ => key, by simp [hs]⟩
  · rename_i pt errno hl
    rw [hl] at key
    cases hr
    unfold addTrace
    cases hat : env.alloc .traceRecord with
    | true => exact ⟨fun _ => by simpa using key, by simp⟩
    | false => exact ⟨by simp, by simp⟩

example : (keyringOnDecrypt (rsaKeyring krEnv rsa) wrapped.edks krCtx 0x0178 { decStart with errno := .badState }).2.errno = .badState := by
  decide +kernel

/-- C79: the errors of the constructors. -/
theorem C79_constructors (ns name key : Bytes) (priv pub : Option Bytes) (pad : Nat) (c : Err) :
    (rawAesNew ns name key = .error c ↔ ns = [0x61, 0x77, 0x73, 0x2D, 0x6B, 0x6D, 0x73] ∧ c = .reservedName) ∧
    (rawRsaNew ns name priv pub pad = .error c ↔ FirstFails
      [failsIf (ns = [0x61, 0x77, 0x73, 0x2D, 0x6B, 0x6D, 0x73]) .reservedName, failsIf (priv = none ∧ pub = none) .badState] c) := by
  unfold rawAesNew rawRsaNew
  rw [show ascii "aws-kms" = [0x61, 0x77, 0x73, 0x2D, 0x6B, 0x6D, 0x73] from rfl]
  rw [firstFails_cons, firstFails_cons, failsIf_none, failsIf_none]
  simp only [firstFails_nil, failsIf_apply, and_false, or_false]
  by_cases h : ns = [0x61, 0x77, 0x73, 0x2D, 0x6B, 0x6D, 0x73]
  · simp only [h, if_true, true_and, Except.error.injEq, not_true_eq_false, false_and, or_false]
    exact ⟨eq_comm, eq_comm⟩
  · simp only [h, if_false, false_and, reduceCtorEq, false_or, not_false_eq_true, true_and]
    cases priv <;> cases pub <;> simp [eq_comm]

example : rawRsaNew [1] [2] none none 0 = .error .badState := by decide +kernel

/-- C79: an encryption call of a multi-keyring fails for exactly these reasons, leaving the data key that the failing keyring left
and reporting its error. -/
theorem C79_multi_encrypt (a : MultiAlloc) (gen : Option Keyring) (children : List Keyring) (ctx : EncCtx) (alg : Nat) (s : EncState)
    (key : Option KeyBuf) (c : Err) :
    (∃ s', keyringOnEncrypt (multiKeyring a gen children) ctx alg s = (.fail, s') ∧ s'.key = key ∧ s'.errno = c) ↔
      MultiFails a gen children ctx alg s key c := by
  by_cases hpre : s.key = none → s.edks = []
  · have hiff := fun key c => multiOnEncrypt_fails (a := a) (gen := gen) (children := children) (ctx := ctx) (alg := alg) hpre key c
    have hc : ¬ (s.key.isNone = true ∧ s.edks ≠ []) := by
      rintro ⟨h1, h2⟩; exact h2 (hpre (Option.isNone_iff_eq_none.mp h1))
    unfold keyringOnEncrypt
    rw [if_neg hc]
    simp only [multiKeyring]
    rcases hr : multiOnEncrypt a gen children ctx alg s with ⟨r, s1⟩
    cases r with
    | ub =>
      simp only [if_true, Prod.mk.injEq, reduceCtorEq, false_and, exists_false, false_iff]
      intro h
      obtain ⟨s', h1, -⟩ := (hiff key c).mpr h
      rw [hr] at h1; cases h1
    | ok =>
      have hck : checkEncKey alg s.key s1.key = true := by
        unfold multiOnEncrypt at hr
        split at hr
        · cases hr
        · simp only at hr
          rcases hg : callGenerator ctx alg gen { s with trace := [], edks := [] } with ⟨r, sg⟩
          rw [hg] at hr
          cases r with
          | fail => cases hr
          | ub => cases hr
          | ok =>
            simp only at hr
            cases hk : sg.key with
            | none => rw [hk] at hr; cases hr
            | some k =>
              rw [hk] at hr
              simp only at hr
              rcases hcl : callOnEncryptList ctx alg children sg with ⟨r, my⟩
              rw [hcl] at hr
              cases r with
              | fail => cases hr
              | ub => cases hr
              | ok =>
                simp only [multiTransfer] at hr
                split at hr
                · cases hr
                · cases hr
                  have hn : sg.key ≠ none := by simp [hk]
                  exact checkEncKey_trans (generator_check ((callGenerator_iff ..).mp hg)) hn
                    (allSucceed_check ((callOnEncryptList_iff ..).mp hcl) hn).1
      rw [if_neg (by simp), if_pos hck]
      simp only [Prod.mk.injEq, reduceCtorEq, false_and, exists_false, false_iff]
      intro h
      obtain ⟨s', h1, -⟩ := (hiff key c).mpr h
      rw [hr] at h1; cases h1
    | fail =>
      rw [← hiff, hr]
      rw [if_neg (by simp)]
      have hch := multiFails_checked ((hiff _ _).mp ⟨s1, hr, rfl, rfl⟩)
      by_cases hck : checkEncKey alg s.key s1.key = true
      · rw [if_pos hck]
      · rw [if_neg hck]
        have he := hch.resolve_left hck
        constructor
        · rintro ⟨s', h1, h2, h3⟩
          cases h1
          exact ⟨s1, rfl, h2, by rw [he]; exact h3⟩
        · rintro ⟨s', h1, h2, h3⟩
          cases h1
          exact ⟨_, rfl, h2, by rw [← h3, he]⟩
  · have hc : s.key.isNone = true ∧ s.edks ≠ [] := by
      cases hk : s.key <;> simp_all
    unfold keyringOnEncrypt
    rw [if_pos hc]
    have hno : ¬ MultiStarts a s := fun h => hpre h.1
    constructor
    · rintro ⟨s', h, rfl, rfl⟩
      cases h
      exact .misuse (by simpa using hc.1) hc.2
    · intro h
      cases h with
      | misuse h1 h2 => exact ⟨_, rfl, rfl, rfl⟩
      | memory h1 => exact absurd h1 hpre
      | generator h0 | noKey h0 | child h0 | push h0 => exact absurd h0 hno

/-- A child that reports KMS_FAILURE, after the generator made a data key: the key stays with the caller. -/
example : MultiFails multiAlloc (some (aesKeyring krEnv aes)) [rsaKeyring krEnv rsa, failing] krCtx 0x0178 encStart
    (some ⟨4096, List.replicate 32 41, 32, 1⟩) .kmsFailure :=
  (C79_multi_encrypt ..).mp ⟨_, rfl, by decide +kernel⟩

end Verif.Props
