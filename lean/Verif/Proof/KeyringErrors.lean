import Verif.Spec.KeyringErrors
import Verif.Props.RawKeyring
/-
Lemmas for C79.
-/
namespace Verif
open Spec Props

theorem firstFails_nil {c : Err} : ¬ FirstFails [] c := by
  rintro ⟨pre, p, post, h, -⟩
  cases pre <;> cases h

theorem firstFails_cons {p : Check} {ps : List Check} {c : Err} :
    FirstFails (p :: ps) c ↔ p c ∨ (∀ c', ¬ p c') ∧ FirstFails ps c := by
  constructor
  · rintro ⟨pre, q, post, h, hq, hpre⟩
    cases pre with
    | nil => cases h; exact Or.inl hq
    | cons x pre =>
      cases h
      exact Or.inr ⟨hpre p (by simp), pre, q, post, rfl, hq, fun q hq => hpre q (by simp [hq])⟩
  · rintro (h | ⟨h1, pre, q, post, rfl, hq, hpre⟩)
    · exact ⟨[], p, ps, rfl, h, by simp⟩
    · refine ⟨p :: pre, q, post, rfl, hq, fun x hx => ?_⟩
      rcases List.mem_cons.mp hx with rfl | hx
      · exact h1
      · exact hpre x hx

theorem noneFails_nil : NoneFails [] := by simp [NoneFails]

theorem noneFails_cons {p : Check} {ps : List Check} : NoneFails (p :: ps) ↔ (∀ c, ¬ p c) ∧ NoneFails ps := by
  simp [NoneFails]

theorem failsIf_apply {p : Prop} {c c' : Err} : failsIf p c c' ↔ p ∧ c' = c := Iff.rfl

theorem failsIf_none {p : Prop} {c : Err} : (∀ c', ¬ failsIf p c c') ↔ ¬ p := by
  constructor
  · intro h hp; exact h c ⟨hp, rfl⟩
  · intro h c' hc; exact h hc.1

/-- The checks decide how a call ends. -/
def Decides (checks : List Check) (r : KRet) (errno : Err) : Prop :=
  (r = .ok ∧ NoneFails checks) ∨ (r = .fail ∧ FirstFails checks errno)

theorem Spec.NoneFails.not_first {checks : List Check} (h : NoneFails checks) {c : Err} : ¬ FirstFails checks c := by
  rintro ⟨pre, p, post, rfl, hp, -⟩
  exact h p (by simp) c hp

/-- Each check fails with at most one error. -/
def Functional (checks : List Check) : Prop := ∀ p ∈ checks, ∀ c c', p c → p c' → c = c'

theorem functional_nil : Functional [] := by simp [Functional]
theorem functional_cons {p : Check} {ps : List Check} : Functional (p :: ps) ↔ (∀ c c', p c → p c' → c = c') ∧ Functional ps := by
  simp [Functional]
theorem functional_failsIf {p : Prop} {e : Err} : ∀ c c', failsIf p e c → failsIf p e c' → c = c' := by
  rintro c c' ⟨-, rfl⟩ ⟨-, rfl⟩; rfl

theorem Spec.FirstFails.unique {checks : List Check} (hf : Functional checks) {c c' : Err} (h : FirstFails checks c) (h' : FirstFails checks c') :
    c = c' := by
  induction checks with
  | nil => exact absurd h firstFails_nil
  | cons p ps ih =>
    rw [firstFails_cons] at h h'
    rw [functional_cons] at hf
    rcases h with h | ⟨h1, h2⟩
    · rcases h' with h' | ⟨h1', h2'⟩
      · exact hf.1 _ _ h h'
      · exact absurd h (h1' _)
    · rcases h' with h' | ⟨h1', h2'⟩
      · exact absurd h' (h1 _)
      · exact ih hf.2 h2 h2'

theorem Decides.iff {checks : List Check} {r : KRet} {errno : Err} (hf : Functional checks) (h : Decides checks r errno) :
    (r = .ok ↔ NoneFails checks) ∧ ∀ c, (r = .fail ∧ errno = c ↔ FirstFails checks c) := by
  rcases h with ⟨rfl, h⟩ | ⟨rfl, h⟩
  · exact ⟨by simp [h], fun c => by simp [h.not_first]⟩
  · refine ⟨by simp; exact fun h' => h'.not_first h, fun c => ?_⟩
    simp only [true_and]
    exact ⟨fun e => e ▸ h, fun h' => h.unique hf h'⟩

/-- A first check that fails. -/
theorem Decides.fail {p : Prop} {e : Err} {ps : List Check} (hp : p) : Decides (failsIf p e :: ps) .fail e :=
  Or.inr ⟨rfl, firstFails_cons.mpr (Or.inl ⟨hp, rfl⟩)⟩

/-- A first check that does not fail. -/
theorem Decides.skip {p : Prop} {e : Err} {ps : List Check} {r : KRet} {errno : Err} (hp : ¬ p) (h : Decides ps r errno) :
    Decides (failsIf p e :: ps) r errno := by
  rcases h with ⟨h1, h⟩ | ⟨h1, h⟩
  · exact Or.inl ⟨h1, noneFails_cons.mpr ⟨failsIf_none.mpr hp, h⟩⟩
  · exact Or.inr ⟨h1, firstFails_cons.mpr (Or.inr ⟨failsIf_none.mpr hp, h⟩)⟩

theorem Decides.ok {errno : Err} : Decides [] .ok errno := Or.inl ⟨rfl, noneFails_nil⟩

/-- `if` form of the two above. -/
theorem Decides.cons {p : Prop} {e : Err} {ps : List Check} {r : KRet} {errno : Err} (h1 : p → r = .fail ∧ errno = e)
    (h2 : ¬ p → Decides ps r errno) : Decides (failsIf p e :: ps) r errno := by
  by_cases hp : p
  · obtain ⟨rfl, rfl⟩ := h1 hp
    exact .fail hp
  · exact .skip hp (h2 hp)

theorem dataKeyLen_row {row : SuiteRow} (hrow : row ∈ suiteTable) {p : AlgProps} (hp : algProps row.id = some p) :
    p.dataKeyLen = row.keyBits / 8 := by
  obtain ⟨r, hr, hid, hl⟩ := (rightLength_of_props hp (b := List.replicate p.dataKeyLen 0)).mpr (by simp)
  rw [row_unique hr hrow hid] at hl
  simpa using hl

theorem serializeAad_error {env : KrEnv} {ctx : EncCtx} (hmem : ∀ e ∈ ctx, 4 + e.1.length + e.2.length < 2 ^ 64 - 65536) {c : Err}
    (h : serializeAad env ctx = .error c) :
    (65535 < wireLen ctx ∧ c = .limitExceeded) ∨ (wireLen ctx ≤ 65535 ∧ env.alloc .aad = false ∧ c = .oom) := by
  by_cases hw : wireLen ctx ≤ 65535
  · right
    refine ⟨hw, ?_⟩
    cases ha : env.alloc .aad with
    | true =>
      have := (serializeAad_ok (env := env) (ctx := ctx)).mpr ⟨by rw [← wireLen_eq]; exact hw, ha, rfl⟩
      rw [h] at this; cases this
    | false =>
      unfold serializeAad at h
      rw [(C09_enc_ctx_size ctx hmem).1 hw] at h
      simp only [ha, Bool.not_false, if_true] at h
      cases h
      exact ⟨rfl, rfl⟩
  · left
    unfold serializeAad at h
    rw [(C09_enc_ctx_size ctx hmem).2 (by omega)] at h
    cases h
    exact ⟨by omega, rfl⟩

theorem aesWrap_error {env : KrEnv} {kr : RawAes} {ctx : EncCtx} {row : SuiteRow} (hrow : row ∈ suiteTable) (hd : DistinctKeys ctx)
    (hmem : ∀ e ∈ ctx, 4 + e.1.length + e.2.length < 2 ^ 64 - 65536) {p : AlgProps} (hp : algProps row.id = some p) {s : EncState}
    {key iv : Bytes} (hiv : env.random 0 12 = some iv) (hk : DataKeyUsed env row s key) :
    Decides ((aesEncryptChecks env kr ctx row s).drop 4) (match aesWrap env kr ctx p key iv with | .ok _ => .ok | .error _ => .fail)
      (match aesWrap env kr ctx p key iv with | .ok _ => s.errno | .error e => e) := by
  have hlen := dataKeyLen_row hrow hp
  have huniq : ∀ key', DataKeyUsed env row s key' → key' = key := by
    rintro key' (⟨k, h1, rfl⟩ | ⟨h1, h2⟩) <;> rcases hk with ⟨k', h3, rfl⟩ | ⟨h3, h4⟩
    · rw [h1] at h3; cases h3; rfl
    · rw [h1] at h3; cases h3
    · rw [h1] at h3; cases h3
    · rw [h2] at h4; cases h4; rfl
  unfold aesEncryptChecks
  simp only [List.drop_succ_cons, List.drop_zero]
  unfold aesWrap
  cases ha : serializeAad env ctx with
  | error c =>
    rcases serializeAad_error hmem ha with ⟨h1, rfl⟩ | ⟨h1, h2, rfl⟩
    · exact .fail h1
    · exact .skip (by omega) (.fail (Or.inl h2))
  | ok aad =>
    obtain ⟨h1, h2, rfl⟩ := serializeAad_ok.mp ha
    rw [← wireLen_eq] at h1
    refine .skip (by omega) ?_
    cases hc : env.alloc .ciphertext with
    | false => exact .fail (Or.inr rfl)
    | true =>
      refine .skip (by simp [h2]) ?_
      simp only [Bool.not_true, Bool.false_eq_true, if_false]
      have hivl := env.random_len _ _ _ hiv
      have hkl : (∃ k, s.key = some k ∧ row.keyBits / 8 < k.bytes.length) ↔ p.dataKeyLen < key.length := by
        constructor
        · rintro ⟨k, h3, h4⟩
          rw [← huniq _ (Or.inl ⟨k, h3, rfl⟩), hlen]; exact h4
        · intro h
          rcases hk with ⟨k, h3, rfl⟩ | ⟨h3, h4⟩
          · exact ⟨k, h3, by omega⟩
          · have := env.random_len _ _ _ h4; omega
      by_cases hx : kr.key.length ∉ [16, 24, 32] ∨ ∃ k, s.key = some k ∧ row.keyBits / 8 < k.bytes.length
      · have he : aesGcmEncrypt env.crypto kr.key iv (ctxBytes ctx) key p.dataKeyLen = .error .invalidBufferSize := by
          unfold aesGcmEncrypt
          rw [if_pos]
          rcases hx with hx | hx
          · left; rw [← aesKeySizeOK_iff] at hx; simpa using hx
          · right; right; exact hkl.mp hx
        rw [he]
        exact .fail hx
      · refine .skip hx ?_
        have hx1 := fun h => hx (Or.inl h)
        have hx2 := fun h => hx (Or.inr h)
        rw [hkl] at hx2
        have he : aesGcmEncrypt env.crypto kr.key iv (ctxBytes ctx) key p.dataKeyLen =
            match env.crypto.aeadSeal kr.key iv (ctxBytes ctx) key with | none => .error .cryptoUnknown | some x => .ok x := by
          have hno : ¬ (!aesKeySizeOK kr.key.length ∨ iv.length ≠ 12 ∨ p.dataKeyLen < key.length) := by
            rintro (h | h | h)
            · exact hx1 (fun h' => by rw [(aesKeySizeOK_iff _).mpr h'] at h; cases h)
            · omega
            · exact hx2 h
          unfold aesGcmEncrypt
          rw [if_neg hno]
          cases env.crypto.aeadSeal kr.key iv (ctxBytes ctx) key <;> rfl
        rw [he]
        cases hs : env.crypto.aeadSeal kr.key iv (ctxBytes ctx) key with
        | none => exact .fail ⟨iv, key, _, hiv, hk, (ctxAad_iff hd _).mpr rfl, hs⟩
        | some x =>
          refine .skip ?_ ?_
          · rintro ⟨iv', key', aad', h3, h4, h5, h6⟩
            rw [hiv] at h3; cases h3
            rw [huniq _ h4, (ctxAad_iff hd _).mp h5, hs] at h6
            cases h6
          · simp only
            by_cases h7 : ∃ x ∈ [KrSite.providerInfo, .providerId, .pushEdk], env.alloc x = false
            · have h8 : !env.alloc .providerInfo ∨ !env.alloc .providerId ∨ !env.alloc .pushEdk := by
                simpa using h7
              rw [if_pos h8]
              exact .fail h7
            · have h8 : ¬ (!env.alloc .providerInfo ∨ !env.alloc .providerId ∨ !env.alloc .pushEdk) := by
                simpa using h7
              rw [if_neg h8]
              exact .skip h7 .ok

theorem aesFinish_ret (env : KrEnv) (kr : RawAes) (ctx : EncCtx) (p : AlgProps) (iv : Bytes) (k : KeyBuf) (flags : Nat) (s : EncState) :
    (aesFinish env kr ctx p iv k flags s).1 = (match aesWrap env kr ctx p k.bytes iv with | .ok _ => .ok | .error _ => .fail) ∧
    ((aesFinish env kr ctx p iv k flags s).1 = .fail →
      (aesFinish env kr ctx p iv k flags s).2.errno = (match aesWrap env kr ctx p k.bytes iv with | .ok _ => s.errno | .error e => e)) ∧
    ((aesFinish env kr ctx p iv k flags s).1 = .ok → (aesFinish env kr ctx p iv k flags s).2.key = some k) := by
  unfold aesFinish
  cases aesWrap env kr ctx p k.bytes iv <;> simp

theorem Decides.errno {checks : List Check} {r : KRet} {e e' : Err} (h : Decides checks r e) (he : r = .fail → e' = e) : Decides checks r e' := by
  rcases h with h | ⟨h1, h2⟩
  · exact Or.inl h
  · exact Or.inr ⟨h1, by rw [he h1]; exact h2⟩

theorem aesOnEncrypt_decides (env : KrEnv) (kr : RawAes) (ctx : EncCtx) (row : SuiteRow) (s : EncState) (hrow : row ∈ suiteTable)
    (hd : DistinctKeys ctx) (hmem : ∀ e ∈ ctx, 4 + e.1.length + e.2.length < 2 ^ 64 - 65536) :
    Decides ((aesEncryptChecks env kr ctx row s).drop 1) (aesOnEncrypt env kr ctx row.id s).1 (aesOnEncrypt env kr ctx row.id s).2.errno ∧
    ((aesOnEncrypt env kr ctx row.id s).1 = .ok → checkEncKey row.id s.key (aesOnEncrypt env kr ctx row.id s).2.key = true) := by
  obtain ⟨p, hp⟩ := algProps_of_row hrow
  have hlen := dataKeyLen_row hrow hp
  have key4 := fun {key iv} h1 h2 => aesWrap_error (env := env) (kr := kr) (s := s) (key := key) (iv := iv) hrow hd hmem hp h1 h2
  unfold aesOnEncrypt
  rw [hp]
  unfold aesEncryptChecks at key4 ⊢
  simp only [List.drop_succ_cons, List.drop_zero] at key4 ⊢
  cases hiv : env.random 0 12 with
  | none => exact ⟨.fail rfl, by simp⟩
  | some iv =>
    cases hsk : s.key with
    | some k =>
      obtain ⟨h1, h2, h3⟩ := aesFinish_ret env kr ctx p iv k 0 s
      have := key4 hiv (Or.inl ⟨k, hsk, rfl⟩)
      rw [← h1] at this
      simp only [hsk, hiv] at this
      refine ⟨.skip (by simp) (.skip (by simp) (.skip (by simp) (this.errno h2))), fun h => ?_⟩
      simp only [h3 h, checkEncKey, Option.map_some, decide_true]
    | none =>
      simp only
      cases ha : env.alloc .dataKey with
      | false => exact ⟨.skip (by simp) (.fail (by simp)), by simp⟩
      | true =>
        simp only [Bool.not_true, Bool.false_eq_true, if_false]
        rw [hlen]
        cases hr : env.random 1 (row.keyBits / 8) with
        | none => exact ⟨.skip (by simp) (.skip (by simp) (.fail (by simp))), by simp⟩
        | some b =>
          simp only
          obtain ⟨h1, h2, h3⟩ := aesFinish_ret env kr ctx p iv ⟨env.ptr, b, row.keyBits / 8, env.heap⟩ 1 s
          have := key4 hiv (Or.inr ⟨hsk, hr⟩)
          simp only at h1 h2
          rw [← h1] at this
          simp only [hsk, hiv] at this
          refine ⟨.skip (by simp) (.skip (by simp) (.skip (by simp) (this.errno h2))), fun h => ?_⟩
          simp only [h3 h, checkEncKey, dataKeyLenOK, hp, env.random_len _ _ _ hr, hlen, decide_true]

theorem keyringOnEncrypt_decides {kr : Keyring} {f : EncCtx → Nat → EncState → KRet × EncState} (hf : kr.onEncrypt = some f) {ctx : EncCtx} {alg : Nat}
    {s : EncState} {checks : List Check} (h : Decides checks (f ctx alg s).1 (f ctx alg s).2.errno)
    (hk : (f ctx alg s).1 = .ok → checkEncKey alg s.key (f ctx alg s).2.key = true)
    (hfail : (f ctx alg s).1 = .fail → (f ctx alg s).2.key = s.key) :
    Decides (failsIf (s.key = none ∧ s.edks ≠ []) .badState :: checks) (keyringOnEncrypt kr ctx alg s).1 (keyringOnEncrypt kr ctx alg s).2.errno := by
  unfold keyringOnEncrypt
  by_cases h0 : s.key = none ∧ s.edks ≠ []
  · rw [if_pos (by simpa using h0)]
    exact .fail h0
  · rw [if_neg (by simpa using h0), hf]
    refine .skip h0 ?_
    simp only
    rcases h with ⟨h1, h2⟩ | ⟨h1, h2⟩
    · rw [if_neg (by rw [h1]; simp), if_pos (hk h1)]
      exact Or.inl ⟨h1, h2⟩
    · rw [if_neg (by rw [h1]; simp), if_pos]
      · exact Or.inr ⟨h1, h2⟩
      · rw [hfail h1]
        unfold checkEncKey
        cases s.key <;> simp

theorem aesOnEncrypt_fail_key (env : KrEnv) (kr : RawAes) (ctx : EncCtx) (alg : Nat) (s : EncState)
    (h : (aesOnEncrypt env kr ctx alg s).1 = .fail) : (aesOnEncrypt env kr ctx alg s).2.key = s.key := by
  cases hx : aesOnEncrypt env kr ctx alg s with
  | mk r s1 =>
    rw [hx] at h
    simp only at h
    subst h
    unfold aesOnEncrypt aesFinish at hx
    repeat' split at hx
    all_goals cases hx
    all_goals simp_all

theorem functional_aes (env : KrEnv) (kr : RawAes) (ctx : EncCtx) (row : SuiteRow) (s : EncState) : Functional (aesEncryptChecks env kr ctx row s) := by
  unfold aesEncryptChecks
  simp only [functional_cons, functional_nil, and_true]
  exact ⟨functional_failsIf, functional_failsIf, functional_failsIf, functional_failsIf, functional_failsIf, functional_failsIf,
    functional_failsIf, functional_failsIf, functional_failsIf⟩


/-! ### decryption with the raw AES keyring -/

theorem keyringOnDecrypt_decides {kr : Keyring} {f : List Edk → EncCtx → Nat → DecState → KRet × DecState} (hf : kr.onDecrypt = some f)
    {edks : List Edk} {ctx : EncCtx} {alg : Nat} {s : DecState} {checks checks' : List Check}
    (hub : s.key = none → (f edks ctx alg s).1 ≠ .ub)
    (h : s.key = none → (∃ k, (f edks ctx alg s).2.key = some k ∧ dataKeyLenOK alg k = false) → FirstFails checks .badCiphertext)
    (h' : s.key = none → (∀ k, (f edks ctx alg s).2.key = some k → dataKeyLenOK alg k = true) →
      Decides checks (f edks ctx alg s).1 (f edks ctx alg s).2.errno) (hc : checks' = failsIf (s.key ≠ none) .badState :: checks) :
    Decides checks' (keyringOnDecrypt kr edks ctx alg s).1 (keyringOnDecrypt kr edks ctx alg s).2.errno := by
  subst hc
  unfold keyringOnDecrypt
  cases hk : s.key with
  | some k => exact .fail (by simp)
  | none =>
    refine .skip (by simp) ?_
    simp only [Option.isSome_none, Bool.false_eq_true, if_false, hf, hub hk]
    cases hk' : (f edks ctx alg s).2.key with
    | none => exact h' hk (by simp [hk'])
    | some k =>
      cases hl : dataKeyLenOK alg k with
      | true =>
        simp only [hl, if_true]
        exact h' hk (fun k' h0 => by rw [hk'] at h0; cases h0; exact hl)
      | false =>
        simp only [hl, Bool.false_eq_true, if_false]
        exact Or.inr ⟨rfl, h hk ⟨k, hk', hl⟩⟩

/-- What the loop leaves as the thread's last error. -/
theorem decLoop_errno {Form : Edk → Prop} {Opens : Edk → Bytes → Prop} (try_ : Edk → Option (Except Err Bytes))
    (hform : ∀ e, (try_ e).isSome = true ↔ Form e) (hopen : ∀ e k, try_ e = some (.ok k) ↔ Opens e k)
    (loop : Err → List Edk → Option Bytes × Err) (h0 : ∀ c, loop c [] = (none, c))
    (h1 : ∀ c e es, loop c (e :: es) = match try_ e with
      | none => loop c es
      | some (.error _) => loop (.raw 0) es
      | some (.ok pt) => (some pt, c)) (edks : List Edk) (c : Err) :
    (TriedInVain Form Opens edks → (loop c edks).2 = .raw 0) ∧ (¬ TriedInVain Form Opens edks → (loop c edks).2 = c) := by
  induction edks generalizing c with
  | nil =>
    rw [h0]
    refine ⟨?_, fun _ => rfl⟩
    rintro ⟨pre, x, post, h, -⟩
    cases pre <;> cases h
  | cons e es ih =>
    rw [h1]
    have hvain : TriedInVain Form Opens (e :: es) ↔ (∀ k, ¬ Opens e k) ∧ (Form e ∨ TriedInVain Form Opens es) := by
      constructor
      · rintro ⟨pre, x, post, h, h2, h3, h4⟩
        cases pre with
        | nil => cases h; exact ⟨h4, Or.inl h3⟩
        | cons y pre =>
          cases h
          exact ⟨h2 _ (by simp), Or.inr ⟨pre, x, post, rfl, fun z hz => h2 z (by simp [hz]), h3, h4⟩⟩
      · rintro ⟨h2, h3 | ⟨pre, x, post, rfl, h4, h5, h6⟩⟩
        · exact ⟨[], e, es, rfl, by simp, h3, h2⟩
        · refine ⟨e :: pre, x, post, rfl, fun y hy => ?_, h5, h6⟩
          rcases List.mem_cons.mp hy with rfl | hy
          · exact h2
          · exact h4 y hy
    have hf := hform e
    cases ht : try_ e with
    | none =>
      rw [ht] at hf
      have hno : ∀ k, ¬ Opens e k := fun k hk => by rw [(hopen e k).mpr hk] at ht; cases ht
      have hnf : ¬ Form e := fun h => by have := hf.mpr h; cases this
      rw [hvain]
      simp only
      exact ⟨fun h => (ih c).1 (h.2.resolve_left hnf), fun h => (ih c).2 (fun h' => h ⟨hno, Or.inr h'⟩)⟩
    | some r =>
      rw [ht] at hf
      have hyes : Form e := hf.mp rfl
      cases r with
      | error x =>
        have hno : ∀ k, ¬ Opens e k := fun k hk => by rw [(hopen e k).mpr hk] at ht; cases ht
        simp only
        refine ⟨fun _ => ?_, fun h => absurd (hvain.mpr ⟨hno, Or.inl hyes⟩) h⟩
        by_cases hv : TriedInVain Form Opens es
        · exact (ih _).1 hv
        · exact (ih _).2 hv
      | ok pt =>
        exact ⟨fun h => absurd ((hopen e pt).mp ht) ((hvain.mp h).1 pt), fun _ => rfl⟩

theorem aesTry_form {kr : RawAes} {row : SuiteRow} (hrow : row ∈ suiteTable) {p : AlgProps} (hp : algProps row.id = some p) (env : KrEnv) (aad : Bytes)
    (e : Edk) : (aesTry env kr p aad e).isSome = true ↔ AesForm kr row e := by
  unfold aesTry AesForm
  rw [← dataKeyLen_row hrow hp]
  have h := aesMatch_iff kr hp e
  cases hm : aesMatch kr p e with
  | none =>
    simp only [Option.isSome_none, Bool.false_eq_true, false_iff]
    rintro ⟨h1, iv, ct, tag, h2⟩
    rw [(h iv ct tag).mpr ⟨h1, h2⟩] at hm
    cases hm
  | some x =>
    obtain ⟨iv, ct, tag⟩ := x
    simp only [Option.isSome_some, true_iff]
    obtain ⟨h1, h2⟩ := (h iv ct tag).mp hm
    exact ⟨h1, iv, ct, tag, h2⟩

theorem rsaTry_form (env : KrEnv) (kr : RawRsa) (priv : Bytes) (e : Edk) : (rsaTry env kr priv e).isSome = true ↔ RsaForm kr e := by
  unfold rsaTry RsaForm
  by_cases hm : rsaMatch kr e = true
  · rw [if_pos hm]
    simp only [rsaMatch, ne_eq, decide_eq_true_eq, List.length_eq_zero_iff] at hm
    obtain ⟨h1, h2, h3, h4, h5⟩ := hm
    simp only [Option.isSome_some, true_iff]
    exact ⟨by rw [h4]; exact h1, by rw [h5]; exact h2, h4.symm, h5.symm, h3⟩
  · rw [if_neg hm]
    simp only [Option.isSome_none, Bool.false_eq_true, false_iff]
    rintro ⟨h1, h2, h3, h4, h5⟩
    apply hm
    simp [rsaMatch, h3, h4, h1, h2, h5]

/-! ### the raw RSA keyring -/

theorem rsaWrap_error {env : KrEnv} {kr : RawRsa} {row : SuiteRow} {s : EncState} {pub key : Bytes} (hpub : kr.pub = some pub)
    (hk : DataKeyUsed env row s key) :
    Decides ((rsaEncryptChecks env kr row s).drop 4) (match rsaWrap env kr pub key with | .ok _ => .ok | .error _ => .fail)
      (match rsaWrap env kr pub key with | .ok _ => s.errno | .error e => e) := by
  have huniq : ∀ key', DataKeyUsed env row s key' → key' = key := by
    rintro key' (⟨k, h1, rfl⟩ | ⟨h1, h2⟩) <;> rcases hk with ⟨k', h3, rfl⟩ | ⟨h3, h4⟩
    · rw [h1] at h3; cases h3; rfl
    · rw [h1] at h3; cases h3
    · rw [h1] at h3; cases h3
    · rw [h2] at h4; cases h4; rfl
  unfold rsaEncryptChecks
  simp only [List.drop_succ_cons, List.drop_zero]
  unfold rsaWrap
  by_cases hpad : kr.padding < 3
  · rw [if_neg (by simp [hpad])]
    refine .skip (by omega) ?_
    have hx : ∀ c, (∃ pub key, kr.pub = some pub ∧ DataKeyUsed env row s key ∧ env.rsaEncrypt pub kr.padding key = .error c) ↔
        env.rsaEncrypt pub kr.padding key = .error c := by
      intro c
      constructor
      · rintro ⟨pub', key', h1, h2, h3⟩
        rw [hpub] at h1; cases h1
        rw [← huniq _ h2]; exact h3
      · intro h; exact ⟨pub, key, hpub, hk, h⟩
    cases hr : env.rsaEncrypt pub kr.padding key with
    | error e => exact Or.inr ⟨rfl, firstFails_cons.mpr (Or.inl ((hx e).mpr hr))⟩
    | ok ct =>
      have hno : ∀ c, ¬ (∃ pub key, kr.pub = some pub ∧ DataKeyUsed env row s key ∧ env.rsaEncrypt pub kr.padding key = .error c) := by
        intro c; rw [hx, hr]; simp
      simp only
      by_cases h7 : ∃ x ∈ [KrSite.providerInfo, .providerId, .pushEdk], env.alloc x = false
      · have h8 : !env.alloc .providerId ∨ !env.alloc .providerInfo ∨ !env.alloc .pushEdk := by
          simp only [List.mem_cons, List.not_mem_nil, or_false, exists_eq_or_imp, exists_eq_left] at h7
          rcases h7 with h | h | h <;> simp [h]
        rw [if_pos h8]
        exact Or.inr ⟨rfl, firstFails_cons.mpr (Or.inr ⟨hno, firstFails_cons.mpr (Or.inl ⟨h7, rfl⟩)⟩)⟩
      · have h8 : ¬ (!env.alloc .providerId ∨ !env.alloc .providerInfo ∨ !env.alloc .pushEdk) := by
          simp only [List.mem_cons, List.not_mem_nil, or_false, exists_eq_or_imp, exists_eq_left] at h7
          simp only [not_or, Bool.not_eq_false] at h7
          simp [h7]
        rw [if_neg h8]
        exact Or.inl ⟨rfl, noneFails_cons.mpr ⟨hno, noneFails_cons.mpr ⟨failsIf_none.mpr h7, noneFails_nil⟩⟩⟩
  · rw [if_pos hpad]
    exact .fail (by omega)

theorem rsaFinish_ret (env : KrEnv) (kr : RawRsa) (pub : Bytes) (k : KeyBuf) (flags : Nat) (s : EncState) :
    (rsaFinish env kr pub k flags s).1 = (match rsaWrap env kr pub k.bytes with | .ok _ => .ok | .error _ => .fail) ∧
    ((rsaFinish env kr pub k flags s).1 = .fail →
      (rsaFinish env kr pub k flags s).2.errno = (match rsaWrap env kr pub k.bytes with | .ok _ => s.errno | .error e => e)) ∧
    ((rsaFinish env kr pub k flags s).1 = .ok → (rsaFinish env kr pub k flags s).2.key = some k) := by
  unfold rsaFinish
  cases rsaWrap env kr pub k.bytes <;> simp

theorem rsaOnEncrypt_decides (env : KrEnv) (kr : RawRsa) (ctx : EncCtx) (row : SuiteRow) (s : EncState) (hrow : row ∈ suiteTable) :
    Decides ((rsaEncryptChecks env kr row s).drop 1) (rsaOnEncrypt env kr ctx row.id s).1 (rsaOnEncrypt env kr ctx row.id s).2.errno ∧
    ((rsaOnEncrypt env kr ctx row.id s).1 = .ok → checkEncKey row.id s.key (rsaOnEncrypt env kr ctx row.id s).2.key = true) := by
  obtain ⟨p, hp⟩ := algProps_of_row hrow
  have hlen := dataKeyLen_row hrow hp
  have key4 := fun {pub key} h1 h2 => rsaWrap_error (env := env) (kr := kr) (row := row) (s := s) (pub := pub) (key := key) h1 h2
  unfold rsaOnEncrypt
  unfold rsaEncryptChecks at key4 ⊢
  simp only [List.drop_succ_cons, List.drop_zero] at key4 ⊢
  cases hpub : kr.pub with
  | none => exact ⟨.fail rfl, by simp⟩
  | some pub =>
    cases hsk : s.key with
    | some k =>
      obtain ⟨h1, h2, h3⟩ := rsaFinish_ret env kr pub k 0 s
      have := key4 hpub (Or.inl ⟨k, hsk, rfl⟩)
      rw [← h1] at this
      simp only [hpub] at this
      refine ⟨.skip (by simp) (.skip (by simp) (.skip (by simp) (Decides.errno this h2))), fun h => ?_⟩
      simp only [h3 h, checkEncKey, Option.map_some, decide_true]
    | none =>
      simp only [hp]
      cases ha : env.alloc .dataKey with
      | false => exact ⟨.skip (by simp) (.fail (by simp)), by simp⟩
      | true =>
        simp only [Bool.not_true, Bool.false_eq_true, if_false]
        rw [hlen]
        cases hr : env.random 1 (row.keyBits / 8) with
        | none => exact ⟨.skip (by simp) (.skip (by simp) (.fail (by simp))), by simp⟩
        | some b =>
          simp only
          obtain ⟨h1, h2, h3⟩ := rsaFinish_ret env kr pub ⟨env.ptr, b, row.keyBits / 8, env.heap⟩ 1 s
          have := key4 hpub (Or.inr ⟨hsk, hr⟩)
          simp only at h1 h2
          rw [← h1] at this
          simp only [hpub] at this
          refine ⟨.skip (by simp) (.skip (by simp) (.skip (by simp) (Decides.errno this h2))), fun h => ?_⟩
          simp only [h3 h, checkEncKey, dataKeyLenOK, hp, env.random_len _ _ _ hr, hlen, decide_true]

theorem rsaOnEncrypt_fail_key (env : KrEnv) (kr : RawRsa) (ctx : EncCtx) (alg : Nat) (s : EncState)
    (h : (rsaOnEncrypt env kr ctx alg s).1 = .fail) : (rsaOnEncrypt env kr ctx alg s).2.key = s.key := by
  cases hx : rsaOnEncrypt env kr ctx alg s with
  | mk r s1 =>
    rw [hx] at h
    simp only at h
    subst h
    unfold rsaOnEncrypt rsaFinish at hx
    repeat' split at hx
    all_goals cases hx
    all_goals simp_all

theorem functional_rsa (env : KrEnv) (kr : RawRsa) (row : SuiteRow) (s : EncState) : Functional (rsaEncryptChecks env kr row s) := by
  unfold rsaEncryptChecks
  simp only [functional_cons, functional_nil, and_true]
  refine ⟨functional_failsIf, functional_failsIf, functional_failsIf, functional_failsIf, functional_failsIf, ?_, functional_failsIf⟩
  rintro c c' ⟨pub, key, h1, h2, h3⟩ ⟨pub', key', h1', h2', h3'⟩
  rw [h1] at h1'; cases h1'
  have : key = key' := by
    rcases h2 with ⟨k, h4, rfl⟩ | ⟨h4, h5⟩ <;> rcases h2' with ⟨k', h6, rfl⟩ | ⟨h6, h7⟩
    · rw [h4] at h6; cases h6; rfl
    · rw [h4] at h6; cases h6
    · rw [h4] at h6; cases h6
    · rw [h5] at h7; cases h7; rfl
  subst this
  rw [h3] at h3'; cases h3'; rfl

/-! ### the multi-keyring -/

theorem publicEnc_fail {kr : Keyring} {ctx : EncCtx} {alg : Nat} {s s' : EncState} (h : keyringOnEncrypt kr ctx alg s = (.fail, s')) :
    checkEncKey alg s.key s'.key = true ∨ s'.errno = .badState := by
  unfold keyringOnEncrypt at h
  have hself : checkEncKey alg s.key s.key = true := by unfold checkEncKey; cases s.key <;> simp
  split at h
  · cases h; exact Or.inr rfl
  · split at h
    · cases h; exact Or.inl hself
    · simp only at h
      split at h
      · rename_i hub; rw [h] at hub; cases hub
      · split at h
        · rename_i hc; rw [h] at hc; exact Or.inl hc
        · cases h; exact Or.inr rfl

theorem checkEncKey_trans {alg : Nat} {a b c : Option KeyBuf} (h : checkEncKey alg a b = true) (hb : b ≠ none) (h' : checkEncKey alg b c = true) :
    checkEncKey alg a c = true := by
  cases b with
  | none => exact absurd rfl hb
  | some kb =>
    simp only [checkEncKey, decide_eq_true_eq] at h'
    cases a with
    | none =>
      cases c with
      | none => rfl
      | some kc =>
        simp only [Option.map_some, Option.some.injEq, KeyBuf.meta_, Prod.mk.injEq] at h'
        simp only [checkEncKey, dataKeyLenOK] at h ⊢
        rw [h'.1]; exact h
    | some ka =>
      simp only [checkEncKey, decide_eq_true_eq] at h ⊢
      rw [h']; exact h

theorem allSucceed_check {ctx : EncCtx} {alg : Nat} {krs : List Keyring} {s s' : EncState} (h : AllSucceed ctx alg krs s s') (hk : s.key ≠ none) :
    checkEncKey alg s.key s'.key = true ∧ s'.key ≠ none := by
  cases hs : s.key with
  | none => exact absurd hs hk
  | some k =>
    have := allSucceed_key h hs
    refine ⟨by simp [checkEncKey, this], fun h0 => ?_⟩
    rw [h0] at this; cases this

theorem callOnEncryptList_fail (ctx : EncCtx) (alg : Nat) (krs : List Keyring) (s s' : EncState) :
    callOnEncryptList ctx alg krs s = (.fail, s') ↔
      ∃ pre kr post s1, krs = pre ++ kr :: post ∧ AllSucceed ctx alg pre s s1 ∧ keyringOnEncrypt kr ctx alg s1 = (.fail, s') := by
  induction krs generalizing s with
  | nil =>
    simp only [callOnEncryptList, Prod.mk.injEq, reduceCtorEq, false_and, false_iff]
    rintro ⟨pre, kr, post, s1, h, -⟩
    cases pre <;> cases h
  | cons kr krs ih =>
    rw [callOnEncryptList]
    rcases hr : keyringOnEncrypt kr ctx alg s with ⟨r, s1⟩
    constructor
    · intro h
      cases r with
      | ok =>
        obtain ⟨pre, kr', post, s2, rfl, h1, h2⟩ := (ih s1).mp h
        exact ⟨kr :: pre, kr', post, s2, rfl, .cons hr h1, h2⟩
      | fail => cases h; exact ⟨[], kr, krs, s, rfl, .nil s, hr⟩
      | ub => cases h
    · rintro ⟨pre, kr', post, s2, h, h1, h2⟩
      cases pre with
      | nil =>
        cases h; cases h1
        rw [hr] at h2; cases h2; rfl
      | cons x pre =>
        cases h
        obtain _ | ⟨h3, h4⟩ := h1
        rw [hr] at h3; cases h3
        exact (ih s1).mpr ⟨pre, kr', post, s2, rfl, h4, h2⟩

theorem callGenerator_fail (ctx : EncCtx) (alg : Nat) (gen : Option Keyring) (s s' : EncState) :
    callGenerator ctx alg gen s = (.fail, s') ↔ ∃ kr, gen = some kr ∧ keyringOnEncrypt kr ctx alg s = (.fail, s') := by
  unfold callGenerator
  cases gen <;> simp

theorem transferLoop_fail (push : Nat → Bool) (i : Nat) (dest src : List α) :
    (transferLoop push i dest src).2 = false ↔ ∃ j < src.length, push (i + j) = false := by
  induction src generalizing i dest with
  | nil => simp [transferLoop]
  | cons x src ih =>
    rw [transferLoop]
    cases hp : push i with
    | false => simp only [Bool.false_eq_true, if_false, true_iff]; exact ⟨0, by simp, by simpa using hp⟩
    | true =>
      simp only [if_true]
      rw [ih]
      constructor
      · rintro ⟨j, h1, h2⟩
        exact ⟨j + 1, by simp; omega, by rw [← h2]; congr 1; omega⟩
      · rintro ⟨j, h1, h2⟩
        cases j with
        | zero => rw [Nat.add_zero, hp] at h2; cases h2
        | succ j => exact ⟨j, by simpa using h1, by rw [← h2]; congr 1; omega⟩

/-- The multi-keyring itself, without the checks around it. -/
theorem multiOnEncrypt_fails {a : MultiAlloc} {gen : Option Keyring} {children : List Keyring} {ctx : EncCtx} {alg : Nat} {s : EncState}
    (hpre : s.key = none → s.edks = []) (key : Option KeyBuf) (c : Err) :
    (∃ s', multiOnEncrypt a gen children ctx alg s = (.fail, s') ∧ s'.key = key ∧ s'.errno = c) ↔ MultiFails a gen children ctx alg s key c := by
  constructor
  · rintro ⟨s', h, rfl, rfl⟩
    unfold multiOnEncrypt at h
    split at h
    · rename_i ha
      cases h
      exact .memory hpre (by simpa using ha)
    · rename_i ha
      have hst : MultiStarts a s := ⟨hpre, by simpa using ha⟩
      simp only at h
      rcases hg : callGenerator ctx alg gen { s with trace := [], edks := [] } with ⟨r, sg⟩
      rw [hg] at h
      cases r with
      | fail =>
        cases h
        obtain ⟨kr, h1, h2⟩ := (callGenerator_fail ..).mp hg
        exact .generator (g := sg) hst h1 h2
      | ub => cases h
      | ok =>
        have hg' := (callGenerator_iff ..).mp hg
        simp only at h
        cases hk : sg.key with
        | none => rw [hk] at h; cases h; exact .noKey hst hg' hk
        | some k =>
          rw [hk] at h
          simp only at h
          rcases hc : callOnEncryptList ctx alg children sg with ⟨r, my⟩
          rw [hc] at h
          cases r with
          | fail =>
            cases h
            obtain ⟨pre, kr, post, s1, h1, h2, h3⟩ := (callOnEncryptList_fail ..).mp hc
            exact .child (s2 := my) hst hg' (by simp [hk]) h1 h2 h3
          | ub => cases h
          | ok =>
            simp only [multiTransfer] at h
            split at h
            · rename_i ht
              cases h
              obtain ⟨j, h1, h2⟩ := (transferLoop_fail a.pushEdk 0 s.edks my.edks).mp (by simpa using ht)
              exact .push (my := my) hst hg' (by simp [hk]) ((callOnEncryptList_iff ..).mp hc) ⟨j, h1, by rw [← h2]; congr 1; omega⟩
            · cases h
  · intro h
    unfold multiOnEncrypt
    cases h with
    | misuse h1 h2 => exact absurd (hpre h1) h2
    | memory _ h2 =>
      rw [if_pos (by simpa using h2)]
      exact ⟨_, rfl, rfl, rfl⟩
    | generator h0 h1 h2 =>
      rw [if_neg (by simp [h0.2.1, h0.2.2])]
      simp only
      rw [(callGenerator_fail ..).mpr ⟨_, h1, h2⟩]
      exact ⟨_, rfl, rfl, rfl⟩
    | noKey h0 h1 h2 =>
      rw [if_neg (by simp [h0.2.1, h0.2.2])]
      simp only
      rw [(callGenerator_iff ..).mpr h1]
      simp only [h2]
      exact ⟨_, rfl, rfl, rfl⟩
    | @child g s1 s2 pre post kr h0 h1 h2 h3 h4 h5 =>
      rw [if_neg (by simp [h0.2.1, h0.2.2])]
      simp only
      rw [(callGenerator_iff ..).mpr h1]
      simp only
      cases hk : g.key with
      | none => exact absurd hk h2
      | some k =>
        simp only
        rw [(callOnEncryptList_fail ..).mpr ⟨pre, kr, post, s1, h3, h4, h5⟩]
        exact ⟨_, rfl, rfl, rfl⟩
    | @push g my h0 h1 h2 h3 h4 =>
      rw [if_neg (by simp [h0.2.1, h0.2.2])]
      simp only
      rw [(callGenerator_iff ..).mpr h1]
      simp only
      cases hk : g.key with
      | none => exact absurd hk h2
      | some k =>
        simp only
        rw [(callOnEncryptList_iff ..).mpr h3]
        simp only [multiTransfer]
        obtain ⟨i, h5, h6⟩ := h4
        have := (transferLoop_fail a.pushEdk 0 s.edks my.edks).mpr ⟨i, h5, by rw [← h6]; congr 1; omega⟩
        rw [this]
        exact ⟨_, rfl, rfl, rfl⟩

/-- The data key after the generator keeps the contract. -/
theorem generator_check {gen : Option Keyring} {ctx : EncCtx} {alg : Nat} {s g : EncState}
    (hg : AllSucceed ctx alg gen.toList { s with trace := [], edks := [] } g) : checkEncKey alg s.key g.key = true := by
  cases gen with
  | none =>
    simp only [Option.toList_none] at hg
    cases hg
    simp only [checkEncKey]
    cases s.key <;> simp
  | some kr =>
    simp only [Option.toList_some] at hg
    obtain _ | ⟨hg1, hg2⟩ := hg
    cases hg2
    exact publicEnc_key (s := { s with trace := [], edks := [] }) hg1

/-- The checks around the call do not change the result of a failure. -/
theorem multiFails_checked {a : MultiAlloc} {gen : Option Keyring} {children : List Keyring} {ctx : EncCtx} {alg : Nat} {s : EncState}
    {key : Option KeyBuf} {c : Err} (h : MultiFails a gen children ctx alg s key c) : checkEncKey alg s.key key = true ∨ c = .badState := by
  have hself : checkEncKey alg s.key s.key = true := by unfold checkEncKey; cases s.key <;> simp
  cases h with
  | misuse h1 h2 => exact Or.inr rfl
  | memory _ h2 => exact Or.inl hself
  | generator h0 h1 h2 => exact publicEnc_fail (s := { s with trace := [], edks := [] }) h2
  | noKey h0 h1 h2 => exact Or.inr rfl
  | child h0 h1 h2 h3 h4 h5 =>
    rcases publicEnc_fail h5 with h6 | h6
    · obtain ⟨h7, h8⟩ := allSucceed_check h4 h2
      exact Or.inl (checkEncKey_trans (checkEncKey_trans (generator_check h1) h2 h7) h8 h6)
    · exact Or.inr h6
  | push h0 h1 h2 h3 h4 => exact Or.inl (checkEncKey_trans (generator_check h1) h2 (allSucceed_check h3 h2).1)

end Verif
