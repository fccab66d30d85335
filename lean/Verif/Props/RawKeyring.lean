import Verif.Props.Keyring
/-
Properties C49-C51: raw AES keyring, raw RSA keyring, default CMM.
-/
namespace Verif.Props
open Verif Verif.Spec Verif.Example

/-! ### C49 -/

/-- Result of a decryption call of the raw AES keyring that ends with success. -/
theorem aesOnDecrypt_ok {env : KrEnv} {kr : RawAes} {edks : List Edk} {ctx : EncCtx} {alg : Nat} {s s' : DecState}
    (hd : DistinctKeys ctx) (h : aesOnDecrypt env kr edks ctx alg s = (.ok, s')) :
    (∀ key, s'.key.map KeyBuf.bytes = some key ↔ FirstOpened (AesOpens env kr ctx alg) edks key) ∧
    (s'.key = none → s'.trace = s.trace) ∧
    (s'.key.isSome = true → env.alloc .traceRecord = true → s'.trace = s.trace ++ [⟨kr.ns, kr.name, 4 + 16⟩]) := by
  unfold aesOnDecrypt at h
  split at h
  · cases h
  · rename_i aad haad
    obtain ⟨-, -, rfl⟩ := serializeAad_ok.mp haad
    cases hp : algProps alg with
    | none => rw [hp] at h; cases h
    | some p =>
      rw [hp] at h
      simp only at h
      split at h
      · cases h
      · have hiff := aesDecLoop_iff env kr p (ctxBytes ctx) s.errno edks
        have hconv : ∀ key, (∃ pre e post, edks = pre ++ e :: post ∧
            (∀ x ∈ pre, ∀ k, aesTry env kr p (ctxBytes ctx) x ≠ some (.ok k)) ∧ aesTry env kr p (ctxBytes ctx) e = some (.ok key)) ↔
            FirstOpened (AesOpens env kr ctx alg) edks key := by
          intro key
          unfold FirstOpened
          simp only [ne_eq, aesTry_ok hp hd]
        rcases hl : aesDecLoop env kr p (ctxBytes ctx) s.errno edks with ⟨_ | pt, errno⟩
        · rw [hl] at h hiff
          cases h
          refine ⟨fun key => ?_, by simp, by simp⟩
          rw [← hconv, ← hiff]; simp
        · rw [hl] at h hiff
          cases h
          refine ⟨fun key => ?_, by simp, ?_⟩
          · rw [← hconv, ← hiff]; simp
          · intro _ ha; simp [addTrace, ha]

/-- C49: exactly which data key a raw AES keyring returns: that of the first EDK that carries its namespace, its name and the
published IV and tag description, has the length for the suite, and opens under its key bound to the encryption context; no data key
if there is none.  Holds for every successful call, whatever allocations fail. -/
theorem C49_decrypt_exact (env : KrEnv) (kr : RawAes) (edks : List Edk) (ctx : EncCtx) (alg : Nat) (s s' : DecState)
    (hd : DistinctKeys ctx) (h : keyringOnDecrypt (aesKeyring env kr) edks ctx alg s = (.ok, s')) :
    (∀ key, s'.key.map KeyBuf.bytes = some key ↔ FirstOpened (AesOpens env kr ctx alg) edks key) ∧
    (s'.key = none → s'.trace = s.trace) ∧
    (s'.key.isSome = true → env.alloc .traceRecord = true → s'.trace = s.trace ++ [⟨kr.ns, kr.name, 4 + 16⟩]) := by
  obtain ⟨-, ⟨f, hf, hr⟩, -⟩ := (C46_decrypt_contract ..).mp h
  simp only [aesKeyring, Option.some.injEq] at hf
  subst hf
  exact aesOnDecrypt_ok hd hr

/-- C49: with enough memory the call succeeds on every list of EDKs, whatever is in them. -/
theorem C49_decrypt_succeeds (env : KrEnv) (kr : RawAes) (edks : List Edk) (ctx : EncCtx) (row : SuiteRow) (s : DecState)
    (hrow : row ∈ suiteTable) (hd : DistinctKeys ctx) (hctx : wireLen ctx ≤ 65535) (hmem : ∀ x, env.alloc x = true)
    (hs : s.key = none) : ∃ s', keyringOnDecrypt (aesKeyring env kr) edks ctx row.id s = (.ok, s') := by
  obtain ⟨p, hp⟩ := algProps_of_row hrow
  have hrun : ∃ s', aesOnDecrypt env kr edks ctx row.id s = (.ok, s') := by
    unfold aesOnDecrypt
    rw [serializeAad_ok.mpr ⟨wireLen_eq ctx ▸ hctx, hmem _, rfl⟩, hp]
    simp only [hmem, Bool.not_true, Bool.false_eq_true, if_false]
    rcases aesDecLoop env kr p (ctxBytes ctx) s.errno edks with ⟨_ | _, _⟩ <;> exact ⟨_, rfl⟩
  obtain ⟨s', hr⟩ := hrun
  refine ⟨s', (C46_decrypt_contract ..).mpr ⟨hs, ⟨_, rfl, hr⟩, ?_⟩⟩
  intro k hk
  obtain ⟨pre, e, post, -, -, ho⟩ := ((aesOnDecrypt_ok hd hr).1 k.bytes).mp (by simp [hk])
  exact ho.1

/-- C49: an EDK that is not of the keyring's own form has no influence on the call. -/
theorem C49_foreign_edks_ignored (env : KrEnv) (kr : RawAes) (pre post : List Edk) (e : Edk) (ctx : EncCtx) (row : SuiteRow) (s : DecState)
    (hrow : row ∈ suiteTable) (hforeign : kr.ns = [] ∨ ∀ iv ct tag, ¬ AesEdk kr.ns kr.name (row.keyBits / 8) e iv ct tag) :
    keyringOnDecrypt (aesKeyring env kr) (pre ++ e :: post) ctx row.id s = keyringOnDecrypt (aesKeyring env kr) (pre ++ post) ctx row.id s := by
  obtain ⟨p, hp⟩ := algProps_of_row hrow
  have hno : ∀ aad, aesTry env kr p aad e = none := by
    intro aad
    unfold aesTry
    cases hm : aesMatch kr p e with
    | none => rfl
    | some x =>
      obtain ⟨iv, ct, tag⟩ := x
      obtain ⟨h1, h2⟩ := (aesMatch_iff kr hp ..).mp hm
      rw [(rowFacts hrow hp).dataKey] at h2
      rcases hforeign with h | h
      · exact absurd h h1
      · exact absurd h2 (h iv ct tag)
  have hloop : ∀ aad errno, aesDecLoop env kr p aad errno (pre ++ e :: post) = aesDecLoop env kr p aad errno (pre ++ post) := by
    intro aad
    induction pre with
    | nil => intro errno; simp [aesDecLoop_cons, hno aad]
    | cons x pre ih =>
      intro errno
      simp only [List.cons_append, aesDecLoop_cons, ih]
  have : aesOnDecrypt env kr (pre ++ e :: post) ctx row.id s = aesOnDecrypt env kr (pre ++ post) ctx row.id s := by
    unfold aesOnDecrypt
    simp only [hp, hloop]
  simp only [keyringOnDecrypt, aesKeyring, this]

/-- What a successful encryption call of the raw AES keyring does. -/
theorem aesOnEncrypt_ok {env : KrEnv} {kr : RawAes} {ctx : EncCtx} {alg : Nat} {s s' : EncState}
    (h : aesOnEncrypt env kr ctx alg s = (.ok, s')) :
    ∃ p k iv e, algProps alg = some p ∧ s'.key = some k ∧ env.random 0 12 = some iv ∧ s'.edks = s.edks ++ [e] ∧
      aesWrap env kr ctx p k.bytes iv = .ok e ∧
      ((s.key = some k ∧ (s'.trace, s'.errno) = addTrace env s.trace s.errno ⟨kr.ns, kr.name, 2 + 8⟩) ∨
       (s.key = none ∧ env.random 1 p.dataKeyLen = some k.bytes ∧
         (s'.trace, s'.errno) = addTrace env s.trace s.errno ⟨kr.ns, kr.name, 1 + 2 + 8⟩)) := by
  unfold aesOnEncrypt at h
  cases hp : algProps alg with
  | none => rw [hp] at h; cases h
  | some p =>
    rw [hp] at h
    simp only at h
    split at h
    · cases h
    · rename_i iv hiv
      split at h
      · rename_i k hk
        unfold aesFinish at h
        split at h
        · cases h
        · rename_i e he
          cases h
          exact ⟨p, k, iv, e, rfl, rfl, hiv, rfl, he, Or.inl ⟨hk, rfl⟩⟩
      · rename_i hk
        split at h
        · cases h
        · split at h
          · cases h
          · rename_i b hb
            unfold aesFinish at h
            split at h
            · cases h
            · rename_i e he
              cases h
              exact ⟨p, _, iv, e, rfl, rfl, hiv, rfl, he, Or.inr ⟨hk, hb, rfl⟩⟩

/-- C49: exactly what a raw AES keyring adds: one EDK of the published form, sealed with a fresh IV under the keyring's key over the
data key, bound to the encryption context.  A missing data key is generated with the length of the suite; an existing one is kept. -/
theorem C49_encrypt_form (env : KrEnv) (kr : RawAes) (ctx : EncCtx) (alg : Nat) (s s' : EncState) (hd : DistinctKeys ctx)
    (hk : ∀ k, s.key = some k → RightLength alg k.bytes) (h : keyringOnEncrypt (aesKeyring env kr) ctx alg s = (.ok, s')) :
    ∃ k e iv ct tag aad, s'.key = some k ∧ RightLength alg k.bytes ∧ (s.key = some k ∨ s.key = none ∧ env.random 1 k.bytes.length = some k.bytes) ∧
      s'.edks = s.edks ++ [e] ∧ AesEdk kr.ns kr.name k.bytes.length e iv ct tag ∧ env.random 0 12 = some iv ∧ CtxAad ctx aad ∧
      env.crypto.aeadSeal kr.key iv aad k.bytes = some (ct, tag) ∧ kr.key.length ∈ [16, 24, 32] ∧ wireLen ctx ≤ 65535 ∧
      (env.alloc .traceRecord = true →
        s'.trace = s.trace ++ [⟨kr.ns, kr.name, (if s.key = none then 1 else 0) + 2 + 8⟩]) := by
  obtain ⟨-, ⟨f, hf, hr⟩, -⟩ := (C45_encrypt_contract ..).mp h
  simp only [aesKeyring, Option.some.injEq] at hf
  subst hf
  obtain ⟨p, k, iv, e, hp, h1, h2, h3, h4, h5⟩ := aesOnEncrypt_ok hr
  have hlen : k.bytes.length = p.dataKeyLen := by
    rcases h5 with ⟨h5, -⟩ | ⟨-, h5, -⟩
    · exact (rightLength_of_props hp).mp (hk k h5)
    · exact env.random_len _ _ _ h5
  obtain ⟨ct, tag, aad, hE, ha, hw, hkl, hs⟩ := aesWrap_ok hp hd (env.random_len _ _ _ h2) hlen h4
  refine ⟨k, e, iv, ct, tag, aad, h1, (rightLength_of_props hp).mpr hlen, ?_, h3, hE, h2, ha, hs, hkl, hw, ?_⟩
  · rcases h5 with ⟨h5, -⟩ | ⟨h5, h6, -⟩
    · exact Or.inl h5
    · exact Or.inr ⟨h5, by rw [hlen]; exact h6⟩
  · intro hal
    rcases h5 with ⟨h5, h6⟩ | ⟨h5, -, h6⟩
    · simp only [addTrace, hal, if_true, Prod.mk.injEq] at h6
      rw [h6.1]; simp [h5]
    · simp only [addTrace, hal, if_true, Prod.mk.injEq] at h6
      rw [h6.1]; simp [h5]

/-- C49: and it does encrypt: with a context that fits the header, memory, random bytes and an AES key with which AES-GCM does not fail, for a
data key of the length of the suite or no data key yet. -/
theorem C49_encrypt_succeeds (env : KrEnv) (kr : RawAes) (ctx : EncCtx) (row : SuiteRow) (s : EncState) (hrow : row ∈ suiteTable)
    (hw : wireLen ctx ≤ 65535) (hmem : ∀ x, x ≠ .traceRecord → env.alloc x = true) (hrand : ∀ i n, ∃ b, env.random i n = some b)
    (hkey : kr.key.length ∈ [16, 24, 32])
    (haead : ∀ iv aad pt, iv.length = 12 → ∃ x, env.crypto.aeadSeal kr.key iv aad pt = some x)
    (hk : ∀ k, s.key = some k → RightLength row.id k.bytes) (hs : s.key = none → s.edks = []) :
    ∃ s', keyringOnEncrypt (aesKeyring env kr) ctx row.id s = (.ok, s') := by
  obtain ⟨p, hp⟩ := algProps_of_row hrow
  have hwrap : ∀ key iv, key.length = p.dataKeyLen → iv.length = 12 → ∃ e, aesWrap env kr ctx p key iv = .ok e := by
    intro key iv hl hiv
    obtain ⟨⟨ct, tag⟩, hx⟩ := haead iv (ctxBytes ctx) key hiv
    unfold aesWrap
    rw [serializeAad_ok.mpr ⟨by rw [← wireLen_eq]; exact hw, hmem _ (by decide), rfl⟩]
    simp only [hmem .ciphertext (by decide), hmem .providerInfo (by decide), hmem .providerId (by decide), hmem .pushEdk (by decide),
      Bool.not_true, Bool.false_eq_true, if_false, or_self]
    unfold aesGcmEncrypt
    rw [if_neg (by rw [(aesKeySizeOK_iff _).mpr hkey]; simp; omega), hx]
    exact ⟨_, rfl⟩
  obtain ⟨iv, hiv⟩ := hrand 0 12
  have hivl := env.random_len _ _ _ hiv
  have hcall : ∃ s' k, aesOnEncrypt env kr ctx row.id s = (.ok, s') ∧ s'.key = some k ∧ k.bytes.length = p.dataKeyLen ∧
      ∀ k0, s.key = some k0 → k = k0 := by
    unfold aesOnEncrypt
    rw [hp]
    simp only [hiv]
    cases hsk : s.key with
    | some k =>
      have hl := (rightLength_of_props hp).mp (hk k hsk)
      obtain ⟨e, he⟩ := hwrap k.bytes iv hl hivl
      simp only [aesFinish, he]
      exact ⟨_, k, rfl, rfl, hl, fun k0 h0 => by cases h0; rfl⟩
    | none =>
      obtain ⟨b, hb⟩ := hrand 1 p.dataKeyLen
      have hl := env.random_len _ _ _ hb
      obtain ⟨e, he⟩ := hwrap b iv hl hivl
      simp only [hmem .dataKey (by decide), Bool.not_true, Bool.false_eq_true, if_false, hb, aesFinish, he]
      exact ⟨_, _, rfl, rfl, hl, fun k0 h0 => by cases h0⟩
  obtain ⟨s', k, h1, h2, h3, h4⟩ := hcall
  refine ⟨s', (C45_encrypt_contract ..).mpr ⟨?_, ⟨_, rfl, h1⟩, fun _ k' hk' => ?_, fun k0 h0 => ?_⟩⟩
  · exact hs
  · rw [h2] at hk'
    cases hk'
    exact (rightLength_of_props hp).mpr h3
  · rw [h4 k0 h0] at h2
    exact ⟨k0, h2, rfl, rfl, rfl, rfl⟩

/-- C49: round trip.  What a raw AES keyring wrapped, an identically configured one unwraps, wherever the EDK stands in the list and
whatever else is in the list, unless an EDK before it opens as well; the contexts need only be equal as maps.  AES-GCM decryption is
assumed to undo encryption.  (Full statement: also for an empty namespace.  `C49_refuted_empty_namespace` shows that the code does not
achieve it.) -/
theorem C49_round_trip_partial (env env' : KrEnv) (kr : RawAes) (ctx ctx' : EncCtx) (alg : Nat) (s s' : EncState) (st : DecState)
    (h : keyringOnEncrypt (aesKeyring env kr) ctx alg s = (.ok, s')) (hns : kr.ns ≠ [])
    (hk : ∀ k, s.key = some k → RightLength alg k.bytes)
    (hd : DistinctKeys ctx) (hd' : DistinctKeys ctx') (hsame : SameMap ctx ctx')
    (hundo : ∀ iv aad pt ct tag, env.crypto.aeadSeal kr.key iv aad pt = some (ct, tag) →
      env'.crypto.aeadOpen kr.key iv aad ct tag = .ok pt)
    (hmem : ∀ x, env'.alloc x = true) (hst : st.key = none) :
    ∃ e k, s'.edks = s.edks ++ [e] ∧ s'.key = some k ∧
      ∀ pre post, (∀ x ∈ pre, ∀ key, ¬ AesOpens env' kr ctx' alg x key) →
        ∃ st' k', keyringOnDecrypt (aesKeyring env' kr) (pre ++ e :: post) ctx' alg st = (.ok, st') ∧ st'.key = some k' ∧
          k'.bytes = k.bytes := by
  obtain ⟨k, e, iv, ct, tag, aad, h1, h2, -, h4, h5, -, h7, h8, h9, h10, -⟩ := C49_encrypt_form env kr ctx alg s s' hd hk h
  refine ⟨e, k, h4, h1, ?_⟩
  intro pre post hpre
  obtain ⟨row, hrow, rfl, hl⟩ := id h2
  obtain ⟨hb, hcl⟩ := ctxBytes_sameMap hd hd' hsame
  have hw' : wireLen ctx' ≤ 65535 := by rw [wireLen_eq] at h10 ⊢; omega
  obtain ⟨st', hst'⟩ := C49_decrypt_succeeds env' kr (pre ++ e :: post) ctx' row st hrow hd' hw' hmem hst
  have hex := (C49_decrypt_exact env' kr _ ctx' row.id st st' hd' hst').1 k.bytes
  have ho : AesOpens env' kr ctx' row.id e k.bytes := by
    refine ⟨h2, hns, h9, iv, ct, tag, aad, h5, ?_, hundo _ _ _ _ _ h8⟩
    rw [ctxAad_iff hd', ← hb, ← ctxAad_iff hd]
    exact h7
  have hfound := hex.mpr ⟨pre, e, post, rfl, hpre, ho⟩
  cases hkey : st'.key with
  | none => rw [hkey] at hfound; cases hfound
  | some k' =>
    rw [hkey] at hfound
    exact ⟨st', k', hst', hkey, by simpa using hfound⟩

/-- C49, refuted for an empty namespace: the constructor accepts it and encryption works, but no EDK is ever decrypted, not even the
keyring's own. -/
theorem C49_refuted_empty_namespace (env : KrEnv) (kr : RawAes) (edks : List Edk) (ctx : EncCtx) (alg : Nat) (s s' : DecState)
    (hns : kr.ns = []) (hd : DistinctKeys ctx) (h : keyringOnDecrypt (aesKeyring env kr) edks ctx alg s = (.ok, s')) :
    s'.key = none := by
  have := (C49_decrypt_exact env kr edks ctx alg s s' hd h).1
  cases hk : s'.key with
  | none => rfl
  | some k =>
    obtain ⟨_, _, _, -, -, ho⟩ := (this k.bytes).mp (by simp [hk])
    exact absurd hns ho.2.1

/-- The counterexample is not vacuous: such a keyring can be made and encrypts, and then cannot decrypt. -/
example : ∃ kr, rawAesNew [] [107] (List.replicate 32 9) = .ok kr ∧
    ∃ s', keyringOnEncrypt (aesKeyring krEnv kr) krCtx 0x0178 encStart = (.ok, s') ∧ s'.edks.length = 1 ∧
    ∃ s'', keyringOnDecrypt (aesKeyring krEnv kr) s'.edks krCtx 0x0178 decStart = (.ok, s'') ∧ s''.key = none :=
  ⟨_, rfl, _, rfl, by decide +kernel, _, rfl, by decide +kernel⟩

/-- With a suite of the table, a raw AES keyring never runs into undefined behaviour. -/
theorem C49_no_undefined_behaviour (env : KrEnv) (kr : RawAes) (ctx : EncCtx) (row : SuiteRow) (hrow : row ∈ suiteTable) :
    (∀ s, (keyringOnEncrypt (aesKeyring env kr) ctx row.id s).1 ≠ .ub) ∧
    (∀ edks s, (keyringOnDecrypt (aesKeyring env kr) edks ctx row.id s).1 ≠ .ub) := by
  obtain ⟨p, hp⟩ := algProps_of_row hrow
  have h1 : ∀ s, (aesOnEncrypt env kr ctx row.id s).1 ≠ .ub := by
    intro s
    unfold aesOnEncrypt aesFinish
    rw [hp]
    simp only
    split
    · simp
    · split
      · split <;> simp
      · split
        · simp
        · split
          · simp
          · split <;> simp
  have h2 : ∀ edks s, (aesOnDecrypt env kr edks ctx row.id s).1 ≠ .ub := by
    intro edks s
    unfold aesOnDecrypt
    rw [hp]
    split
    · simp
    · simp only
      split
      · simp
      · split <;> simp
  constructor
  · intro s
    unfold keyringOnEncrypt aesKeyring
    split
    · simp
    · simp only [h1 s, if_false]
      split
      · exact h1 s
      · simp
  · intro edks s
    unfold keyringOnDecrypt aesKeyring
    split
    · simp
    · simp only [h2 edks s, if_false]
      split
      · exact h2 edks s
      · split
        · exact h2 edks s
        · simp

/-- C49: a failed encryption leaves the data key, the encrypted data keys and the trace as they were; in particular a data key that was
generated in the call is not handed out. -/
theorem C49_failure_changes_nothing (env : KrEnv) (kr : RawAes) (ctx : EncCtx) (alg : Nat) (s s' : EncState)
    (h : keyringOnEncrypt (aesKeyring env kr) ctx alg s = (.fail, s')) : s'.key = s.key ∧ s'.edks = s.edks ∧ s'.trace = s.trace := by
  unfold keyringOnEncrypt at h
  split at h
  · cases h; exact ⟨rfl, rfl, rfl⟩
  · simp only [aesKeyring] at h
    cases hx : aesOnEncrypt env kr ctx alg s with
    | mk r s1 =>
      rw [hx] at h
      cases r with
      | ub => simp at h
      | fail =>
        have hs1 : s1.key = s.key ∧ s1.edks = s.edks ∧ s1.trace = s.trace := by
          unfold aesOnEncrypt aesFinish at hx
          repeat' split at hx
          all_goals cases hx
          all_goals simp_all
        simp only [reduceCtorEq, if_false] at h
        split at h <;> cases h <;> exact hs1
      | ok =>
        simp only [reduceCtorEq, if_false] at h
        split at h
        · cases h
        · rename_i hk
          exfalso
          apply hk
          unfold aesOnEncrypt at hx
          cases hp : algProps alg with
          | none => rw [hp] at hx; cases hx
          | some p =>
            rw [hp] at hx
            simp only at hx
            split at hx
            · cases hx
            · cases hsk : s.key with
              | some k =>
                rw [hsk] at hx
                simp only [aesFinish] at hx
                split at hx
                · cases hx
                · cases hx; simp [checkEncKey]
              | none =>
                rw [hsk] at hx
                simp only at hx
                split at hx
                · cases hx
                · split at hx
                  · cases hx
                  · rename_i b hb
                    simp only [aesFinish] at hx
                    split at hx
                    · cases hx
                    · cases hx; simp [checkEncKey, dataKeyLenOK, hp, env.random_len _ _ _ hb]

/-- It does fail, having generated a key, when the encrypted data key cannot be pushed. -/
example : ∃ s', keyringOnEncrypt (aesKeyring { krEnv with alloc := fun x => x != .pushEdk } aes) krCtx 0x0178 encStart = (.fail, s') ∧
    s'.errno = .oom := ⟨_, rfl, by decide +kernel⟩

/-- Non-vacuity of the round trip: the EDK of `wrapped` between an EDK of another kind and the RSA one, context entries swapped. -/
example : ∃ st' k', keyringOnDecrypt (aesKeyring krEnv aes) (edk :: wrapped.edks) [([1], [9, 9]), ([2], [3])] 0x0178 decStart = (.ok, st') ∧
    st'.key = some k' ∧ k'.bytes = List.replicate 32 41 := ⟨_, ⟨4096, List.replicate 32 41, 32, 1⟩, rfl, by decide +kernel, rfl⟩

/-- The hypotheses of `C49_encrypt_succeeds` hold for this keyring and every suite. -/
example (row : SuiteRow) (h : row ∈ suiteTable) : ∃ s', keyringOnEncrypt (aesKeyring krEnv aes) krCtx row.id encStart = (.ok, s') :=
  C49_encrypt_succeeds krEnv aes krCtx row encStart h (by decide) (fun _ _ => rfl) (fun _ _ => ⟨_, rfl⟩) (by decide) (fun _ _ _ _ => ⟨_, rfl⟩)
    (fun k hk => by cases hk) (fun _ => rfl)

/-- The reserved namespace is refused, every other one accepted. -/
theorem C49_reserved_namespace (ns name key : Bytes) :
    (∃ kr, rawAesNew ns name key = .ok kr ∧ kr.ns = ns ∧ kr.name = name ∧ kr.key = key) ↔
      ns ≠ [0x61, 0x77, 0x73, 0x2D, 0x6B, 0x6D, 0x73] := by
  unfold rawAesNew
  rw [show ascii "aws-kms" = [0x61, 0x77, 0x73, 0x2D, 0x6B, 0x6D, 0x73] from rfl]
  split
  · rename_i h; simp [h]
  · rename_i h; simp [h]

/-! ### C50 -/

/-- Result of a decryption call of the raw RSA keyring that ends with success. -/
theorem rsaOnDecrypt_eq {env : KrEnv} {kr : RawRsa} {edks : List Edk} {ctx : EncCtx} {alg : Nat} {s : DecState} {priv : Bytes}
    (hp : kr.priv = some priv) (hs : s.key = none) :
    ∃ s', rsaOnDecrypt env kr edks ctx alg s = (.ok, s') ∧
      (∀ key, s'.key.map KeyBuf.bytes = some key ↔ FirstOpened (RsaOpens env kr priv) edks key) ∧
      (s'.key = none → s'.trace = s.trace) ∧
      (s'.key.isSome = true → env.alloc .traceRecord = true → s'.trace = s.trace ++ [⟨kr.ns, kr.name, 4⟩]) := by
  unfold rsaOnDecrypt
  rw [hp]
  simp only
  have hiff := rsaDecLoop_iff env kr priv s.errno edks
  rcases hl : rsaDecLoop env kr priv s.errno edks with ⟨_ | pt, errno⟩
  · rw [hl] at hiff
    refine ⟨_, rfl, fun key => ?_, by simp, by simp [hs]⟩
    rw [← hiff]; simp [hs]
  · rw [hl] at hiff
    refine ⟨_, rfl, fun key => ?_, by simp, ?_⟩
    · rw [← hiff]; simp
    · intro _ ha; simp [addTrace, ha]

/-- C50: exactly what a raw RSA keyring with a private key does on decryption.  The first EDK that carries its namespace and name and
opens determines the data key; if that data key has the wrong length for the suite the call fails with
AWS_CRYPTOSDK_ERR_BAD_CIPHERTEXT; if there is no such EDK it succeeds without data key. -/
theorem C50_decrypt_exact (env : KrEnv) (kr : RawRsa) (edks : List Edk) (ctx : EncCtx) (alg : Nat) (s : DecState) (priv : Bytes)
    (hp : kr.priv = some priv) (hs : s.key = none) :
    ∃ r s', keyringOnDecrypt (rsaKeyring env kr) edks ctx alg s = (r, s') ∧
      (∀ key, s'.key.map KeyBuf.bytes = some key ↔ FirstOpened (RsaOpens env kr priv) edks key) ∧
      ((∀ key, FirstOpened (RsaOpens env kr priv) edks key → RightLength alg key) → r = .ok) ∧
      (∀ key, FirstOpened (RsaOpens env kr priv) edks key → ¬ RightLength alg key → r = .fail ∧ s'.errno = .badCiphertext) ∧
      (s'.key = none → s'.trace = s.trace) ∧
      (s'.key.isSome = true → env.alloc .traceRecord = true → s'.trace = s.trace ++ [⟨kr.ns, kr.name, 4⟩]) := by
  obtain ⟨s', h1, h2, h3, h4⟩ := rsaOnDecrypt_eq (env := env) (edks := edks) (ctx := ctx) (alg := alg) hp hs
  cases hk : s'.key with
  | none =>
    have hno : ∀ key, ¬ FirstOpened (RsaOpens env kr priv) edks key := by
      intro key hf
      have := (h2 key).mpr hf
      rw [hk] at this; cases this
    refine ⟨.ok, s', ?_, h2, fun _ => rfl, fun key hf => absurd hf (hno key), h3, h4⟩
    exact (C46_decrypt_contract ..).mpr ⟨hs, ⟨_, rfl, h1⟩, by simp [hk]⟩
  | some k =>
    have hf : FirstOpened (RsaOpens env kr priv) edks k.bytes := (h2 _).mp (by simp [hk])
    have huniq : ∀ key, FirstOpened (RsaOpens env kr priv) edks key → key = k.bytes := by
      intro key h
      have := (h2 key).mpr h
      rw [hk] at this
      simpa using this.symm
    by_cases hl : RightLength alg k.bytes
    · refine ⟨.ok, s', ?_, h2, fun _ => rfl, fun key h hn => absurd (huniq key h ▸ hl) hn, h3, h4⟩
      refine (C46_decrypt_contract ..).mpr ⟨hs, ⟨_, rfl, h1⟩, ?_⟩
      intro k' hk'; rw [hk] at hk'; cases hk'; exact hl
    · refine ⟨.fail, { s' with errno := .badCiphertext }, ?_, h2, fun h => absurd (h _ hf) hl, fun key h hn => ⟨rfl, rfl⟩, h3, h4⟩
      exact C46_wrong_length_reported _ _ _ _ _ _ k .ok _ rfl hs h1 (by simp) hk hl

/-- C50: an EDK with another namespace or name has no influence on the call. -/
theorem C50_foreign_edks_ignored (env : KrEnv) (kr : RawRsa) (pre post : List Edk) (e : Edk) (ctx : EncCtx) (alg : Nat) (s : DecState)
    (hforeign : kr.ns = [] ∨ kr.name = [] ∨ e.providerId ≠ kr.ns ∨ e.providerInfo ≠ kr.name) :
    keyringOnDecrypt (rsaKeyring env kr) (pre ++ e :: post) ctx alg s = keyringOnDecrypt (rsaKeyring env kr) (pre ++ post) ctx alg s := by
  have hno : ∀ priv, rsaTry env kr priv e = none := by
    intro priv
    unfold rsaTry
    rw [if_neg]
    simp only [rsaMatch, ne_eq, decide_eq_true_eq, not_and, List.length_eq_zero_iff]
    intro h1 h2 h3 h4 h5
    rcases hforeign with h | h | h | h
    · exact h1 (by rw [← h4, h])
    · exact h2 (by rw [← h5, h])
    · exact h h4.symm
    · exact h h5.symm
  have hloop : ∀ priv errno, rsaDecLoop env kr priv errno (pre ++ e :: post) = rsaDecLoop env kr priv errno (pre ++ post) := by
    intro priv
    induction pre with
    | nil => intro errno; simp [rsaDecLoop_cons, hno priv]
    | cons x pre ih =>
      intro errno
      simp only [List.cons_append, rsaDecLoop_cons, ih]
  have : rsaOnDecrypt env kr (pre ++ e :: post) ctx alg s = rsaOnDecrypt env kr (pre ++ post) ctx alg s := by
    unfold rsaOnDecrypt
    simp only [hloop]
  simp only [keyringOnDecrypt, rsaKeyring, this]

/-- What a successful encryption call of the raw RSA keyring does. -/
theorem C50_encrypt_form (env : KrEnv) (kr : RawRsa) (ctx : EncCtx) (alg : Nat) (s s' : EncState)
    (h : keyringOnEncrypt (rsaKeyring env kr) ctx alg s = (.ok, s')) :
    ∃ pub k ct, kr.pub = some pub ∧ kr.padding < 3 ∧ s'.key = some k ∧
      (s.key = some k ∨ s.key = none ∧ RightLength alg k.bytes ∧ env.random 1 k.bytes.length = some k.bytes) ∧
      env.rsaEncrypt pub kr.padding k.bytes = .ok ct ∧ s'.edks = s.edks ++ [⟨kr.ns, kr.name, ct⟩] ∧
      (env.alloc .traceRecord = true → s'.trace = s.trace ++ [⟨kr.ns, kr.name, (if s.key = none then 1 else 0) + 2⟩]) := by
  obtain ⟨-, ⟨f, hf, hr⟩, -⟩ := (C45_encrypt_contract ..).mp h
  simp only [rsaKeyring, Option.some.injEq] at hf
  subst hf
  have fin : ∀ pub k flags, rsaFinish env kr pub k flags s = (.ok, s') → ∃ ct, kr.padding < 3 ∧
      env.rsaEncrypt pub kr.padding k.bytes = .ok ct ∧ s'.key = some k ∧ s'.edks = s.edks ++ [⟨kr.ns, kr.name, ct⟩] ∧
      (env.alloc .traceRecord = true → s'.trace = s.trace ++ [⟨kr.ns, kr.name, flags + 2⟩]) := by
    intro pub k flags h
    unfold rsaFinish at h
    split at h
    · cases h
    · rename_i e he
      cases h
      unfold rsaWrap at he
      split at he
      · cases he
      · rename_i hpad
        split at he
        · cases he
        · rename_i ct hct
          split at he
          · cases he
          · cases he
            exact ⟨ct, by omega, hct, rfl, rfl, fun ha => by simp [addTrace, ha]⟩
  unfold rsaOnEncrypt at hr
  split at hr
  · cases hr
  · rename_i pub hpub
    split at hr
    · rename_i k hk
      obtain ⟨ct, h1, h2, h3, h4, h5⟩ := fin pub k 0 hr
      exact ⟨pub, k, ct, hpub, h1, h3, Or.inl hk, h2, h4, fun ha => by rw [h5 ha]; simp [hk]⟩
    · rename_i hk
      cases hp : algProps alg with
      | none => rw [hp] at hr; cases hr
      | some p =>
        rw [hp] at hr
        simp only at hr
        split at hr
        · cases hr
        · split at hr
          · cases hr
          · rename_i b hb
            obtain ⟨ct, h1, h2, h3, h4, h5⟩ := fin pub _ 1 hr
            have hlen := env.random_len _ _ _ hb
            refine ⟨pub, _, ct, hpub, h1, h3, Or.inr ⟨hk, (rightLength_of_props hp).mpr hlen, ?_⟩, h2, h4,
              fun ha => by rw [h5 ha]; simp [hk]⟩
            simp only [hlen]; exact hb

/-- C50: and it does encrypt: with memory, random bytes, a public key and a known padding mode, if RSA does not fail for data keys. -/
theorem C50_encrypt_succeeds (env : KrEnv) (kr : RawRsa) (ctx : EncCtx) (row : SuiteRow) (s : EncState) (hrow : row ∈ suiteTable)
    (pub : Bytes) (hpub : kr.pub = some pub) (hpad : kr.padding < 3) (hmem : ∀ x, x ≠ .traceRecord → env.alloc x = true)
    (hrand : ∀ n, ∃ b, env.random 1 n = some b)
    (hrsa : ∀ key, RightLength row.id key → ∃ ct, env.rsaEncrypt pub kr.padding key = .ok ct)
    (hk : ∀ k, s.key = some k → RightLength row.id k.bytes) (hs : s.key = none → s.edks = []) :
    ∃ s', keyringOnEncrypt (rsaKeyring env kr) ctx row.id s = (.ok, s') := by
  obtain ⟨p, hp⟩ := algProps_of_row hrow
  have hwrap : ∀ key, RightLength row.id key → ∃ e, rsaWrap env kr pub key = .ok e := by
    intro key hl
    obtain ⟨ct, hx⟩ := hrsa key hl
    unfold rsaWrap
    rw [if_neg (by omega), hx]
    simp only [hmem .providerInfo (by decide), hmem .providerId (by decide), hmem .pushEdk (by decide),
      Bool.not_true, Bool.false_eq_true, if_false, or_self]
    exact ⟨_, rfl⟩
  have hcall : ∃ s' k, rsaOnEncrypt env kr ctx row.id s = (.ok, s') ∧ s'.key = some k ∧ RightLength row.id k.bytes ∧
      ∀ k0, s.key = some k0 → k = k0 := by
    unfold rsaOnEncrypt
    rw [hpub]
    simp only
    cases hsk : s.key with
    | some k =>
      obtain ⟨e, he⟩ := hwrap k.bytes (hk k hsk)
      simp only [rsaFinish, he]
      exact ⟨_, k, rfl, rfl, hk k hsk, fun k0 h0 => by cases h0; rfl⟩
    | none =>
      obtain ⟨b, hb⟩ := hrand p.dataKeyLen
      have hl := (rightLength_of_props hp).mpr (env.random_len _ _ _ hb)
      obtain ⟨e, he⟩ := hwrap b hl
      simp only [hp, hmem .dataKey (by decide), Bool.not_true, Bool.false_eq_true, if_false, hb, rsaFinish, he]
      exact ⟨_, _, rfl, rfl, hl, fun k0 h0 => by cases h0⟩
  obtain ⟨s', k, h1, h2, h3, h4⟩ := hcall
  refine ⟨s', (C45_encrypt_contract ..).mpr ⟨?_, ⟨_, rfl, h1⟩, fun _ k' hk' => ?_, fun k0 h0 => ?_⟩⟩
  · exact hs
  · rw [h2] at hk'
    cases hk'
    exact h3
  · rw [h4 k0 h0] at h2
    exact ⟨k0, h2, rfl, rfl, rfl, rfl⟩

/-- C50: round trip.  What a raw RSA keyring wrapped, one with the same namespace, name and padding and the matching private key
unwraps.  RSA decryption is assumed to undo encryption and ciphertexts not to be empty.  (Full statement: also for an empty namespace or
name.  `C50_refuted_empty_name` shows that the code does not achieve it.) -/
theorem C50_round_trip_partial (env env' : KrEnv) (kr kr' : RawRsa) (ctx ctx' : EncCtx) (alg : Nat) (s s' : EncState) (st : DecState)
    (pub priv : Bytes) (h : keyringOnEncrypt (rsaKeyring env kr) ctx alg s = (.ok, s'))
    (hsame : kr'.ns = kr.ns ∧ kr'.name = kr.name ∧ kr'.padding = kr.padding) (hpub : kr.pub = some pub) (hpriv : kr'.priv = some priv)
    (hns : kr.ns ≠ []) (hname : kr.name ≠ []) (hk : ∀ k, s.key = some k → RightLength alg k.bytes)
    (hundo : ∀ pad pt ct, env.rsaEncrypt pub pad pt = .ok ct → ct ≠ [] ∧ env'.rsaDecrypt priv pad ct = .ok pt)
    (hst : st.key = none) :
    ∃ e k, s'.edks = s.edks ++ [e] ∧ s'.key = some k ∧
      ∀ pre post, (∀ x ∈ pre, ∀ key, ¬ RsaOpens env' kr' priv x key) →
        ∃ st' k', keyringOnDecrypt (rsaKeyring env' kr') (pre ++ e :: post) ctx' alg st = (.ok, st') ∧ st'.key = some k' ∧
          k'.bytes = k.bytes := by
  obtain ⟨pub', k, ct, hp, hpad, h1, h2, h3, h4, -⟩ := C50_encrypt_form env kr ctx alg s s' h
  rw [hpub] at hp; cases hp
  have hlen : RightLength alg k.bytes := by
    rcases h2 with h2 | h2
    · exact hk k h2
    · exact h2.2.1
  refine ⟨_, k, h4, h1, ?_⟩
  intro pre post hpre
  obtain ⟨hne, hdec⟩ := hundo _ _ _ h3
  obtain ⟨hn1, hn2, hn3⟩ := hsame
  have ho : RsaOpens env' kr' priv ⟨kr.ns, kr.name, ct⟩ k.bytes :=
    ⟨by rw [hn1]; exact hns, by rw [hn2]; exact hname, hn1.symm, hn2.symm, hne, by omega, by rw [hn3]; exact hdec⟩
  obtain ⟨r, st', hr, hiff, hok, -, -⟩ := C50_decrypt_exact env' kr' (pre ++ ⟨kr.ns, kr.name, ct⟩ :: post) ctx' alg st priv hpriv hst
  have hfo : FirstOpened (RsaOpens env' kr' priv) (pre ++ ⟨kr.ns, kr.name, ct⟩ :: post) k.bytes := ⟨pre, _, post, rfl, hpre, ho⟩
  have hfound := (hiff k.bytes).mpr hfo
  have huniq : ∀ key, FirstOpened (RsaOpens env' kr' priv) (pre ++ ⟨kr.ns, kr.name, ct⟩ :: post) key → key = k.bytes := by
    intro key hf
    have := (hiff key).mpr hf
    rw [hfound] at this
    simpa using this.symm
  have hrok := hok (fun key hf => by rw [huniq key hf]; exact hlen)
  subst hrok
  cases hkey : st'.key with
  | none => rw [hkey] at hfound; cases hfound
  | some k' =>
    rw [hkey] at hfound
    exact ⟨st', k', hr, hkey, by simpa using hfound⟩

/-- C50, refuted for an empty namespace or name: such a keyring never decrypts anything. -/
theorem C50_refuted_empty_name (env : KrEnv) (kr : RawRsa) (edks : List Edk) (ctx : EncCtx) (alg : Nat) (s s' : DecState)
    (hns : kr.ns = [] ∨ kr.name = []) (h : keyringOnDecrypt (rsaKeyring env kr) edks ctx alg s = (.ok, s')) : s'.key = none := by
  obtain ⟨hs, ⟨f, hf, hr⟩, -⟩ := (C46_decrypt_contract ..).mp h
  simp only [rsaKeyring, Option.some.injEq] at hf
  subst hf
  cases hp : kr.priv with
  | none => simp [rsaOnDecrypt, hp] at hr
  | some priv =>
    obtain ⟨s1, h1, h2, -, -⟩ := rsaOnDecrypt_eq (env := env) (edks := edks) (ctx := ctx) (alg := alg) hp hs
    rw [h1] at hr; cases hr
    cases hk : s'.key with
    | none => rfl
    | some k =>
      obtain ⟨_, _, _, -, -, ho⟩ := (h2 k.bytes).mp (by simp [hk])
      rcases hns with hn | hn
      · exact absurd hn ho.1
      · exact absurd hn ho.2.1

/-- The counterexample is not vacuous. -/
example : ∃ kr, rawRsaNew [114] [] (some [8]) (some [8]) 1 = .ok kr ∧
    ∃ s', keyringOnEncrypt (rsaKeyring krEnv kr) krCtx 0x0178 encStart = (.ok, s') ∧ s'.edks.length = 1 ∧
    ∃ s'', keyringOnDecrypt (rsaKeyring krEnv kr) s'.edks krCtx 0x0178 decStart = (.ok, s'') ∧ s''.key = none :=
  ⟨_, rfl, _, rfl, by decide +kernel, _, rfl, by decide +kernel⟩

/-- C50: which keyrings can be made, and that the half of the key pair needed for an operation must be there. -/
theorem C50_keys_needed (env : KrEnv) (ns name : Bytes) (priv pub : Option Bytes) (pad : Nat) :
    ((∃ kr, rawRsaNew ns name priv pub pad = .ok kr) ↔
      ns ≠ [0x61, 0x77, 0x73, 0x2D, 0x6B, 0x6D, 0x73] ∧ (priv ≠ none ∨ pub ≠ none)) ∧
    (∀ kr ctx alg s, rawRsaNew ns name priv none pad = .ok kr → (s.key = none → s.edks = []) →
      keyringOnEncrypt (rsaKeyring env kr) ctx alg s = (.fail, { s with errno := .badState })) ∧
    (∀ kr edks ctx alg s, rawRsaNew ns name none pub pad = .ok kr → s.key = none →
      keyringOnDecrypt (rsaKeyring env kr) edks ctx alg s = (.fail, { s with errno := .badState })) := by
  refine ⟨?_, ?_, ?_⟩
  · unfold rawRsaNew
    rw [show ascii "aws-kms" = [0x61, 0x77, 0x73, 0x2D, 0x6B, 0x6D, 0x73] from rfl]
    split
    · rename_i h; simp [h]
    · rename_i h
      cases priv <;> cases pub <;> simp [h]
  · intro kr ctx alg s h hpre
    have hpub : kr.pub = none := by
      unfold rawRsaNew at h
      split at h
      · cases h
      · split at h
        · cases h
        · cases h; rfl
    have hc : ¬ (s.key.isNone = true ∧ s.edks ≠ []) := by
      rintro ⟨h1, h2⟩; exact h2 (hpre (Option.isNone_iff_eq_none.mp h1))
    unfold keyringOnEncrypt
    rw [if_neg hc]
    simp only [rsaKeyring, rsaOnEncrypt, hpub, reduceCtorEq, if_false]
    split <;> rfl
  · intro kr edks ctx alg s h hs
    have hpriv : kr.priv = none := by
      unfold rawRsaNew at h
      split at h
      · cases h
      · split at h
        · cases h
        · cases h; rfl
    simp [keyringOnDecrypt, hs, rsaKeyring, rsaOnDecrypt, hpriv]

/-- C50: a failed encryption leaves the data key, the encrypted data keys and the trace as they were; in particular a data key that was
generated in the call is not handed out. -/
theorem C50_failure_changes_nothing (env : KrEnv) (kr : RawRsa) (ctx : EncCtx) (alg : Nat) (s s' : EncState)
    (h : keyringOnEncrypt (rsaKeyring env kr) ctx alg s = (.fail, s')) : s'.key = s.key ∧ s'.edks = s.edks ∧ s'.trace = s.trace := by
  unfold keyringOnEncrypt at h
  split at h
  · cases h; exact ⟨rfl, rfl, rfl⟩
  · simp only [rsaKeyring] at h
    cases hx : rsaOnEncrypt env kr ctx alg s with
    | mk r s1 =>
      rw [hx] at h
      cases r with
      | ub => simp at h
      | fail =>
        have hs1 : s1.key = s.key ∧ s1.edks = s.edks ∧ s1.trace = s.trace := by
          unfold rsaOnEncrypt rsaFinish at hx
          repeat' split at hx
          all_goals cases hx
          all_goals simp_all
        simp only [reduceCtorEq, if_false] at h
        split at h <;> cases h <;> exact hs1
      | ok =>
        simp only [reduceCtorEq, if_false] at h
        split at h
        · cases h
        · rename_i hk
          exfalso
          apply hk
          unfold rsaOnEncrypt at hx
          split at hx
          · cases hx
          · cases hsk : s.key with
            | some k =>
              rw [hsk] at hx
              simp only [rsaFinish] at hx
              split at hx
              · cases hx
              · cases hx; simp [checkEncKey]
            | none =>
              rw [hsk] at hx
              simp only at hx
              cases hp : algProps alg with
              | none => rw [hp] at hx; cases hx
              | some p =>
                rw [hp] at hx
                simp only at hx
                split at hx
                · cases hx
                · split at hx
                  · cases hx
                  · rename_i b hb
                    simp only [rsaFinish] at hx
                    split at hx
                    · cases hx
                    · cases hx; simp [checkEncKey, dataKeyLenOK, hp, env.random_len _ _ _ hb]

/-- The hypotheses of `C50_encrypt_succeeds` hold for this keyring and every suite. -/
example (row : SuiteRow) (h : row ∈ suiteTable) : ∃ s', keyringOnEncrypt (rsaKeyring krEnv rsa) krCtx row.id encStart = (.ok, s') :=
  C50_encrypt_succeeds krEnv rsa krCtx row encStart h _ rfl (by decide) (fun _ _ => rfl) (fun _ => ⟨_, rfl⟩) (fun _ _ => ⟨_, rfl⟩)
    (fun k hk => by cases hk) (fun _ => rfl)

/-- It does fail, having generated a key, when the encrypted data key cannot be pushed. -/
example : ∃ s', keyringOnEncrypt (rsaKeyring { krEnv with alloc := fun x => x != .pushEdk } rsa) krCtx 0x0178 encStart = (.fail, s') ∧
    s'.errno = .oom := ⟨_, rfl, by decide +kernel⟩

/-- Non-vacuity of the round trip: the RSA keyring skips the AES EDK and unwraps its own. -/
example : ∃ st' k', keyringOnDecrypt (rsaKeyring krEnv rsa) wrapped.edks [] 0x0178 decStart = (.ok, st') ∧
    st'.key = some k' ∧ k'.bytes = List.replicate 32 41 := ⟨_, ⟨4096, List.replicate 32 41, 32, 1⟩, rfl, by decide +kernel, rfl⟩

end Verif.Props
