import Verif.Proof.Keyring
/-
Helper lemmas for the raw AES and raw RSA keyrings.
-/
namespace Verif
open Verif.Spec

theorem providerInfo_eq (name iv : Bytes) : providerInfo name iv = name ++ u32 128 ++ u32 12 ++ iv := rfl

theorem parseProviderInfo_iff (name info iv : Bytes) :
    parseProviderInfo name info = some iv ↔ info = providerInfo name iv ∧ iv.length = 12 := by
  constructor
  · intro h
    unfold parseProviderInfo at h
    split at h
    · cases h
    · rename_i hlen
      have hlen : name.length + 12 + 8 = info.length := by omega
      simp only [rd] at h
      rw [if_pos (by omega)] at h
      simp only at h
      split at h
      · cases h
      · rename_i hname
        simp only [ne_eq, Decidable.not_not] at hname
        rw [if_pos (by simp; omega)] at h
        simp only at h
        split at h
        · cases h
        · rename_i ht
          rw [if_pos (by simp; omega)] at h
          simp only at h
          split at h
          · cases h
          · rename_i hl
            simp only [Option.some.injEq] at h
            simp only [ne_eq, Decidable.not_not] at ht hl
            have ht' := be_unbe (bs := (info.drop name.length).take 4)
            have hl' := be_unbe (bs := ((info.drop name.length).drop 4).take 4)
            rw [ht, show (List.take 4 (List.drop name.length info)).length = 4 by simp; omega] at ht'
            rw [hl, show (List.take 4 (List.drop 4 (List.drop name.length info))).length = 4 by simp; omega] at hl'
            have h1 : info = info.take name.length ++ ((info.drop name.length).take 4 ++
                (((info.drop name.length).drop 4).take 4 ++ ((info.drop name.length).drop 4).drop 4)) := by
              rw [List.take_append_drop, List.take_append_drop, List.take_append_drop]
            refine ⟨?_, by rw [← h]; simp; omega⟩
            rw [h1, ← ht', ← hl', hname, h]
            simp [providerInfo]
  · rintro ⟨rfl, hiv⟩
    unfold parseProviderInfo
    rw [if_neg (by simp [providerInfo]; omega)]
    unfold providerInfo
    rw [List.append_assoc, List.append_assoc, rd_append' rfl]
    simp only [ne_eq, not_true, if_false]
    rw [rd_append' (by simp)]
    simp only [unbe_be]
    rw [if_neg (by decide), rd_append' (by simp)]
    simp [unbe_be]

theorem aesMatch_iff (kr : RawAes) {alg : Nat} {p : AlgProps} (hp : algProps alg = some p) (e : Edk) (iv ct tag : Bytes) :
    aesMatch kr p e = some (iv, ct, tag) ↔ kr.ns ≠ [] ∧ AesEdk kr.ns kr.name p.dataKeyLen e iv ct tag := by
  unfold aesMatch
  constructor
  · intro h
    split at h
    · cases h
    · rename_i hne
      split at h
      · cases h
      · rename_i hns
        simp only [ne_eq, Decidable.not_not] at hns
        split at h
        · cases h
        · rename_i iv' hpi
          split at h
          · cases h
          · rename_i hl
            simp only [Option.some.injEq, Prod.mk.injEq] at h
            obtain ⟨rfl, rfl, rfl⟩ := h
            obtain ⟨hi, hivl⟩ := (parseProviderInfo_iff ..).mp hpi
            refine ⟨?_, ⟨hns.symm, hi, by simp, hivl, by simp; omega, by simp; omega⟩⟩
            rintro h0
            rw [h0] at hns
            exact hne (Or.inl (by rw [← hns]; rfl))
  · rintro ⟨hns, ⟨h1, h2, h3, h4, h5, h6⟩⟩
    have hn : e.providerId.length ≠ 0 := by rw [h1]; simpa using hns
    have hi : e.providerInfo.length ≠ 0 := by rw [h2]; simp only [List.length_append, h4]; omega
    have hc : e.ciphertext.length = p.dataKeyLen + 16 := by rw [h3]; simp; omega
    rw [if_neg (by omega), if_neg (by simp [h1]), (parseProviderInfo_iff ..).mpr ⟨h2, h4⟩]
    simp only
    rw [if_neg (by omega), h3, ← h5]
    simp

theorem aesKeySizeOK_iff (n : Nat) : aesKeySizeOK n = true ↔ n ∈ [16, 24, 32] := by simp [aesKeySizeOK]

/-- The decision on one EDK, as a function. -/
def aesTry (env : KrEnv) (kr : RawAes) (p : AlgProps) (aad : Bytes) (e : Edk) : Option (Except Err Bytes) :=
  match aesMatch kr p e with
  | none => none
  | some (iv, ct, tag) => some (aesGcmDecrypt env.crypto kr.key iv aad ct tag p.dataKeyLen)

theorem aesTry_ok {env : KrEnv} {kr : RawAes} {ctx : EncCtx} {alg : Nat} {p : AlgProps} (hp : algProps alg = some p)
    (hd : DistinctKeys ctx) (e : Edk) (key : Bytes) :
    aesTry env kr p (ctxBytes ctx) e = some (.ok key) ↔ AesOpens env kr ctx alg e key := by
  unfold aesTry AesOpens
  constructor
  · intro h
    split at h
    · cases h
    · rename_i iv ct tag hm
      obtain ⟨hns, hE⟩ := (aesMatch_iff kr hp ..).mp hm
      simp only [Option.some.injEq] at h
      unfold aesGcmDecrypt at h
      split at h
      · cases h
      · rename_i hk
        simp only [Bool.not_eq_true', not_or, Bool.not_eq_false] at hk
        have hl := env.crypto.aeadOpen_len _ _ _ _ _ _ h
        have hl2 : key.length = p.dataKeyLen := by rw [hl, hE.ctLen]
        exact ⟨(rightLength_of_props hp).mpr hl2, hns, (aesKeySizeOK_iff _).mp hk.1, iv, ct, tag, _, hl2 ▸ hE,
          (ctxAad_iff hd _).mpr rfl, h⟩
  · rintro ⟨hr, hns, hk, iv, ct, tag, aad, hE, ha, ho⟩
    have hl2 := (rightLength_of_props hp).mp hr
    rw [hl2] at hE
    rw [(aesMatch_iff kr hp ..).mpr ⟨hns, hE⟩]
    simp only [Option.some.injEq]
    unfold aesGcmDecrypt
    rw [(ctxAad_iff hd _).mp ha] at ho
    rw [if_neg, ho]
    have hk' := (aesKeySizeOK_iff _).mpr hk
    rw [hk']
    simp [hE.ivLen, hE.tagLen, hE.ctLen]

theorem aesDecLoop_cons (env : KrEnv) (kr : RawAes) (p : AlgProps) (aad : Bytes) (errno : Err) (e : Edk) (edks : List Edk) :
    aesDecLoop env kr p aad errno (e :: edks) =
      match aesTry env kr p aad e with
      | none => aesDecLoop env kr p aad errno edks
      | some (.error _) => aesDecLoop env kr p aad (.raw 0) edks
      | some (.ok pt) => (some pt, errno) := by
  rw [aesDecLoop]
  unfold aesTry
  cases aesMatch kr p e with
  | none => rfl
  | some x =>
    obtain ⟨iv, ct, tag⟩ := x
    simp only
    cases aesGcmDecrypt env.crypto kr.key iv aad ct tag p.dataKeyLen <;> rfl

theorem aesDecLoop_iff (env : KrEnv) (kr : RawAes) (p : AlgProps) (aad : Bytes) (errno : Err) (edks : List Edk) (key : Bytes) :
    (aesDecLoop env kr p aad errno edks).1 = some key ↔
      ∃ pre e post, edks = pre ++ e :: post ∧ (∀ x ∈ pre, ∀ k, aesTry env kr p aad x ≠ some (.ok k)) ∧
        aesTry env kr p aad e = some (.ok key) := by
  induction edks generalizing errno with
  | nil => simp [aesDecLoop]
  | cons e edks ih =>
    rw [aesDecLoop_cons]
    rcases ht : aesTry env kr p aad e with _ | ⟨_ | pt⟩
    · simp only
      rw [ih]
      constructor
      · rintro ⟨pre, x, post, rfl, h1, h2⟩
        refine ⟨e :: pre, x, post, rfl, ?_, h2⟩
        intro y hy k
        rcases List.mem_cons.mp hy with rfl | hy
        · simp [ht]
        · exact h1 y hy k
      · rintro ⟨pre, x, post, he, h1, h2⟩
        cases pre with
        | nil => simp only [List.nil_append, List.cons.injEq] at he; rw [he.1, h2] at ht; cases ht
        | cons y pre =>
          simp only [List.cons_append, List.cons.injEq] at he
          exact ⟨pre, x, post, he.2, fun z hz => h1 z (by simp [hz]), h2⟩
    · simp only
      rw [ih]
      constructor
      · rintro ⟨pre, x, post, rfl, h1, h2⟩
        refine ⟨e :: pre, x, post, rfl, ?_, h2⟩
        intro y hy k
        rcases List.mem_cons.mp hy with rfl | hy
        · simp [ht]
        · exact h1 y hy k
      · rintro ⟨pre, x, post, he, h1, h2⟩
        cases pre with
        | nil => simp only [List.nil_append, List.cons.injEq] at he; rw [he.1, h2] at ht; cases ht
        | cons y pre =>
          simp only [List.cons_append, List.cons.injEq] at he
          exact ⟨pre, x, post, he.2, fun z hz => h1 z (by simp [hz]), h2⟩
    · simp only [Option.some.injEq]
      constructor
      · rintro rfl; exact ⟨[], e, edks, rfl, by simp, ht⟩
      · rintro ⟨pre, x, post, he, h1, h2⟩
        cases pre with
        | nil => simp only [List.nil_append, List.cons.injEq] at he; rw [he.1, h2] at ht; cases ht; rfl
        | cons y pre =>
          simp only [List.cons_append, List.cons.injEq] at he
          exact absurd (he.1 ▸ ht) (h1 y (by simp) pt)

/-- What a call of the raw AES keyring for encryption does when it wraps the data key. -/
theorem aesWrap_ok {env : KrEnv} {kr : RawAes} {ctx : EncCtx} {alg : Nat} {p : AlgProps} (hp : algProps alg = some p)
    (hd : DistinctKeys ctx) {key iv : Bytes} (hiv : iv.length = 12) (hlen : key.length = p.dataKeyLen) {e : Edk}
    (h : aesWrap env kr ctx p key iv = .ok e) :
    ∃ ct tag aad, AesEdk kr.ns kr.name key.length e iv ct tag ∧ CtxAad ctx aad ∧ wireLen ctx ≤ 65535 ∧
      kr.key.length ∈ [16, 24, 32] ∧ env.crypto.aeadSeal kr.key iv aad key = some (ct, tag) := by
  unfold aesWrap at h
  split at h
  · cases h
  · rename_i aad haad
    obtain ⟨hcl, -, rfl⟩ := serializeAad_ok.mp haad
    split at h
    · cases h
    · split at h
      · cases h
      · rename_i ct tag hs
        split at h
        · cases h
        · cases h
          unfold aesGcmEncrypt at hs
          split at hs
          · cases hs
          · rename_i hk
            simp only [Bool.not_eq_true', not_or, Bool.not_eq_false] at hk
            split at hs
            · cases hs
            · rename_i x hx
              cases hs
              obtain ⟨l1, l2⟩ := env.crypto.aeadSeal_len _ _ _ _ _ _ hx
              refine ⟨ct, tag, _, ⟨rfl, rfl, ?_, hiv, l1, l2⟩, (ctxAad_iff hd _).mpr rfl, wireLen_eq ctx ▸ hcl,
                (aesKeySizeOK_iff _).mp hk.1, hx⟩
              have : env.junk (p.dataKeyLen - ct.length) = [] := by
                apply List.length_eq_zero_iff.mp
                rw [env.junk_len]; omega
              simp [this]

/-! ### raw RSA keyring -/

/-- The decision on one EDK, as a function. -/
def rsaTry (env : KrEnv) (kr : RawRsa) (priv : Bytes) (e : Edk) : Option (Except Err Bytes) :=
  if rsaMatch kr e then some (rsaUnwrap env kr priv e.ciphertext) else none

theorem rsaTry_ok {env : KrEnv} {kr : RawRsa} {priv : Bytes} (e : Edk) (key : Bytes) :
    rsaTry env kr priv e = some (.ok key) ↔ RsaOpens env kr priv e key := by
  unfold rsaTry RsaOpens rsaUnwrap
  by_cases hm : rsaMatch kr e = true
  · rw [if_pos hm]
    simp only [rsaMatch, ne_eq, decide_eq_true_eq, List.length_eq_zero_iff] at hm
    obtain ⟨h1, h2, h3, h4, h5⟩ := hm
    by_cases hpad : kr.padding < 3
    · simp [hpad, ← h4, ← h5, h3]
      simp [h4, h5, h1, h2]
    · simp [hpad]
  · rw [if_neg hm]
    simp only [reduceCtorEq, false_iff]
    rintro ⟨h1, h2, h3, h4, h5, -, -⟩
    apply hm
    simp [rsaMatch, h3, h4, h1, h2, h5]

theorem rsaDecLoop_cons (env : KrEnv) (kr : RawRsa) (priv : Bytes) (errno : Err) (e : Edk) (edks : List Edk) :
    rsaDecLoop env kr priv errno (e :: edks) =
      match rsaTry env kr priv e with
      | none => rsaDecLoop env kr priv errno edks
      | some (.error _) => rsaDecLoop env kr priv (.raw 0) edks
      | some (.ok pt) => (some pt, errno) := by
  rw [rsaDecLoop]
  unfold rsaTry
  split
  · split <;> simp_all
  · rfl

theorem rsaDecLoop_iff (env : KrEnv) (kr : RawRsa) (priv : Bytes) (errno : Err) (edks : List Edk) (key : Bytes) :
    (rsaDecLoop env kr priv errno edks).1 = some key ↔ FirstOpened (RsaOpens env kr priv) edks key := by
  unfold FirstOpened
  induction edks generalizing errno with
  | nil => simp [rsaDecLoop]
  | cons e edks ih =>
    rw [rsaDecLoop_cons]
    have skip : (∀ k, ¬ RsaOpens env kr priv e k) →
        ((∃ pre x post, edks = pre ++ x :: post ∧ (∀ y ∈ pre, ∀ k, ¬ RsaOpens env kr priv y k) ∧ RsaOpens env kr priv x key) ↔
         ∃ pre x post, e :: edks = pre ++ x :: post ∧ (∀ y ∈ pre, ∀ k, ¬ RsaOpens env kr priv y k) ∧ RsaOpens env kr priv x key) := by
      intro hno
      constructor
      · rintro ⟨pre, x, post, rfl, h1, h2⟩
        refine ⟨e :: pre, x, post, rfl, ?_, h2⟩
        intro y hy k
        rcases List.mem_cons.mp hy with rfl | hy
        · exact hno k
        · exact h1 y hy k
      · rintro ⟨pre, x, post, he, h1, h2⟩
        cases pre with
        | nil => simp only [List.nil_append, List.cons.injEq] at he; exact absurd (he.1 ▸ h2) (hno key)
        | cons y pre =>
          simp only [List.cons_append, List.cons.injEq] at he
          exact ⟨pre, x, post, he.2, fun z hz => h1 z (by simp [hz]), h2⟩
    rcases ht : rsaTry env kr priv e with _ | ⟨_ | pt⟩
    · simp only
      rw [ih, skip]
      intro k hk; rw [(rsaTry_ok e k).mpr hk] at ht; cases ht
    · simp only
      rw [ih, skip]
      intro k hk; rw [(rsaTry_ok e k).mpr hk] at ht; cases ht
    · simp only [Option.some.injEq]
      constructor
      · rintro rfl; exact ⟨[], e, edks, rfl, by simp, (rsaTry_ok e pt).mp ht⟩
      · rintro ⟨pre, x, post, he, h1, h2⟩
        cases pre with
        | nil =>
          simp only [List.nil_append, List.cons.injEq] at he
          rw [he.1, (rsaTry_ok x key).mpr h2] at ht; cases ht; rfl
        | cons y pre =>
          simp only [List.cons_append, List.cons.injEq] at he
          exact absurd (he.1 ▸ (rsaTry_ok e pt).mp ht) (h1 y (by simp) pt)

end Verif
