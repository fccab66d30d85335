import Verif.Spec.Keyring
import Verif.Proof.SessionFacts
/-
Helper lemmas for the keyring properties.
-/
namespace Verif
open Verif.Spec

/-! ### order of keys, additional authenticated data -/

theorem bytesLe_iff (a b : Bytes) : bytesLe a b = true ↔ a ≤ b := by
  induction a generalizing b with
  | nil => simp [bytesLe]
  | cons x xs ih =>
    cases b with
    | nil => simp [bytesLe]
    | cons y ys =>
      rw [bytesLe, List.cons_le_cons_iff]
      simp only [UInt8.lt_iff_toNat_lt]
      by_cases h1 : x.toNat < y.toNat
      · simp [h1]
      · by_cases h2 : y.toNat < x.toNat
        · have : x ≠ y := by rintro rfl; omega
          simp [h1, h2, this]
        · have : x = y := UInt8.toNat_inj.mp (by omega)
          simp [this, ih]

theorem wireCtx_sort (m : EncCtx) : wireCtx (sortByKey m) = ctxBytes m := by
  unfold wireCtx ctxBytes
  by_cases h : m = []
  · subst h; rfl
  · have hl := (sortByKey_perm m).length_eq
    have : sortByKey m ≠ [] := by
      intro h2; rw [h2] at hl
      exact h (List.length_eq_zero_iff.mp hl.symm)
    rw [if_neg this, if_neg h, hl, u16_eq_be]
    congr 1
    unfold entriesBytes
    congr 1
    exact List.map_congr_left (fun e _ => by simp [wireEntry, entryBytes, u16_eq_be])

theorem ctxAad_iff {m : EncCtx} (hm : DistinctKeys m) (aad : Bytes) : CtxAad m aad ↔ aad = ctxBytes m := by
  constructor
  · rintro ⟨m', hp, hs, rfl⟩
    have : m' = sortByKey m := by
      refine sortByKey_unique (hp.trans (sortByKey_perm m).symm) ?_ (sortByKey_sorted m) ?_
      · unfold SortedByKey
        exact hs.imp (fun {a b} h => (bytesLe_iff a.1 b.1).mpr h)
      · unfold EncCtx.WF
        exact (hp.map Prod.fst).nodup_iff.mpr hm
    rw [this, wireCtx_sort]
  · rintro rfl
    refine ⟨sortByKey m, sortByKey_perm m, ?_, (wireCtx_sort m).symm⟩
    exact (sortByKey_sorted m).imp (fun {a b} h => (bytesLe_iff a.1 b.1).mp h)

theorem serializeAad_ok {env : KrEnv} {ctx : EncCtx} {a : Bytes} :
    serializeAad env ctx = .ok a ↔ ctxLen ctx ≤ 65535 ∧ env.alloc .aad = true ∧ a = ctxBytes ctx := by
  unfold serializeAad
  cases hs : encCtxSize ctx with
  | error e =>
    simp only [reduceCtorEq, false_iff]
    rintro ⟨h, -⟩
    have := encCtxSize_ok.mpr ⟨rfl, h⟩
    rw [hs] at this; cases this
  | ok n =>
    obtain ⟨hn, hle⟩ := encCtxSize_ok.mp hs
    subst hn
    by_cases ha : env.alloc .aad = true
    · simp only [ha, Bool.not_true, Bool.false_eq_true, if_false]
      have hser := (encCtxSerialize_ok (b := ⟨ctxLen ctx, []⟩) (b' := ⟨ctxLen ctx, ctxBytes ctx⟩) (m := ctx) (by simp)).mpr
        ⟨hle, by simp, by simp⟩
      rw [hser]
      simp only [Except.ok.injEq]
      constructor
      · rintro rfl; exact ⟨hle, trivial, rfl⟩
      · rintro ⟨-, -, rfl⟩; rfl
    · simp [ha]

theorem ctxBytes_sameMap {m1 m2 : EncCtx} (h1 : DistinctKeys m1) (h2 : DistinctKeys m2) (h : SameMap m1 m2) :
    ctxBytes m1 = ctxBytes m2 ∧ ctxLen m1 = ctxLen m2 := by
  have hp := perm_of_find h1 h2 h
  have : sortByKey m1 = sortByKey m2 := sortByKey_unique
    ((sortByKey_perm m1).trans (hp.trans (sortByKey_perm m2).symm)) (sortByKey_sorted _) (sortByKey_sorted _) (WF_sort h1)
  have hb : ctxBytes m1 = ctxBytes m2 := by rw [← wireCtx_sort, ← wireCtx_sort, this]
  exact ⟨hb, by rw [← length_ctxBytes, ← length_ctxBytes, hb]⟩

/-! ### the public calls -/

theorem dataKeyLenOK_iff (alg : Nat) (k : KeyBuf) : dataKeyLenOK alg k = true ↔ RightLength alg k.bytes := by
  unfold dataKeyLenOK RightLength
  cases hp : algProps alg with
  | none =>
    simp only [Bool.false_eq_true, false_iff]
    rintro ⟨row, hr, rfl, -⟩
    obtain ⟨p, hp'⟩ := algProps_of_row hr
    rw [hp] at hp'; cases hp'
  | some p =>
    simp only [decide_eq_true_eq]
    obtain ⟨row, hr, hid⟩ := algProps_isSome hp
    subst hid
    have hk := (rowFacts hr hp).dataKey
    constructor
    · intro h; exact ⟨row, hr, rfl, by rw [h, hk]⟩
    · rintro ⟨row', hr', hid, h⟩
      rw [row_unique' hr' hr hid] at h
      rw [h, hk]

theorem rightLength_of_props {alg : Nat} {p : AlgProps} (hp : algProps alg = some p) {b : Bytes} :
    RightLength alg b ↔ b.length = p.dataKeyLen := by
  have := dataKeyLenOK_iff alg ⟨0, b, 0, 0⟩
  simp only [dataKeyLenOK, hp, decide_eq_true_eq] at this
  exact this.symm

/-! ### lists -/

theorem transferLoop_all {push : Nat → Bool} (h : ∀ i, push i = true) (i : Nat) (dest src : List α) :
    transferLoop push i dest src = (dest ++ src, true) := by
  induction src generalizing i dest with
  | nil => simp [transferLoop]
  | cons x src ih => simp [transferLoop, h i, ih]

theorem transferLoop_prefix (push : Nat → Bool) (i : Nat) (dest src : List α) :
    ∃ l, l <+: src ∧ (transferLoop push i dest src).1 = dest ++ l ∧ ((transferLoop push i dest src).2 = true → l = src) ∧
      ((transferLoop push i dest src).2 = false → l ≠ src) := by
  induction src generalizing i dest with
  | nil => exact ⟨[], List.nil_prefix, by simp [transferLoop], by simp, by simp [transferLoop]⟩
  | cons x src ih =>
    rw [transferLoop]
    split
    · obtain ⟨l, hl, h1, h2, h3⟩ := ih (i + 1) (dest ++ [x])
      refine ⟨x :: l, ?_, by rw [h1]; simp, fun h => by rw [h2 h], fun h => by simpa using h3 h⟩
      rw [List.cons_prefix_cons]; exact ⟨rfl, hl⟩
    · exact ⟨[], List.nil_prefix, by simp, by simp, by simp⟩

theorem popTo_append (dest l : List α) : popTo dest.length (dest ++ l) = dest := by
  generalize hn : l.length = n
  induction n generalizing l with
  | zero =>
    have := List.length_eq_zero_iff.mp hn; subst this
    rw [popTo]; simp
  | succ n ih =>
    have hne : l ≠ [] := by rintro rfl; simp at hn
    rw [popTo, dif_pos (by simp; omega), List.dropLast_append_of_ne_nil hne]
    exact ih _ (by simp; omega)

theorem copyLoop_ok (clone : Nat → α → Option α) (push : Nat → Bool) (i : Nat) (dest src : List α) :
    ∃ l, (copyLoop clone push i dest src).1 = dest ++ l ∧
      ((copyLoop clone push i dest src).2 = true ↔
        ∀ j (hj : j < src.length), (clone (i + j) src[j]).isSome = true ∧ push (i + j) = true) ∧
      ((copyLoop clone push i dest src).2 = true →
        l.length = src.length ∧ ∀ j (hj : j < src.length), l[j]? = clone (i + j) src[j]) := by
  induction src generalizing i dest with
  | nil => exact ⟨[], by simp [copyLoop]⟩
  | cons x src ih =>
    rw [copyLoop]
    cases hc : clone i x with
    | none =>
      refine ⟨[], by simp, ?_, by simp⟩
      simp only [Bool.false_eq_true, false_iff]
      intro h
      have := (h 0 (by simp)).1
      simp [hc] at this
    | some y =>
      simp only
      by_cases hp : push i = true
      · rw [if_pos hp]
        obtain ⟨l, h1, h2, h3⟩ := ih (i + 1) (dest ++ [y])
        refine ⟨y :: l, by rw [h1]; simp, ?_, ?_⟩
        · rw [h2]
          constructor
          · intro h j hj
            cases j with
            | zero => simp [hc, hp]
            | succ j =>
              have := h j (by simp at hj; omega)
              rw [show i + 1 + j = i + (j + 1) by omega] at this
              simpa using this
          · intro h j hj
            have := h (j + 1) (by simp; omega)
            rw [show i + 1 + j = i + (j + 1) by omega]
            simpa using this
        · intro h
          obtain ⟨hl, he⟩ := h3 h
          refine ⟨by simp [hl], ?_⟩
          intro j hj
          cases j with
          | zero => simp [hc]
          | succ j =>
            have := he j (by simp at hj; omega)
            rw [show i + 1 + j = i + (j + 1) by omega] at this
            simpa using this
      · rw [if_neg hp]
        refine ⟨[], by simp, ?_, by simp⟩
        simp only [Bool.false_eq_true, false_iff]
        intro h
        exact hp (h 0 (by simp)).2

/-! ### multi-keyring -/

theorem allSucceed_append {ctx : EncCtx} {alg : Nat} {k1 k2 : List Keyring} {s s1 s2 : EncState}
    (h1 : AllSucceed ctx alg k1 s s1) (h2 : AllSucceed ctx alg k2 s1 s2) : AllSucceed ctx alg (k1 ++ k2) s s2 := by
  induction h1 with
  | nil => exact h2
  | cons h _ ih => exact .cons h (ih h2)

theorem callOnEncryptList_iff (ctx : EncCtx) (alg : Nat) (krs : List Keyring) (s s' : EncState) :
    callOnEncryptList ctx alg krs s = (.ok, s') ↔ AllSucceed ctx alg krs s s' := by
  induction krs generalizing s with
  | nil =>
    simp only [callOnEncryptList, Prod.mk.injEq, true_and]
    constructor
    · rintro rfl; exact .nil _
    · intro h; cases h; rfl
  | cons kr krs ih =>
    rw [callOnEncryptList]
    rcases hk : keyringOnEncrypt kr ctx alg s with ⟨r, s1⟩
    cases r with
    | ok =>
      simp only
      rw [ih]
      constructor
      · exact .cons hk
      · rintro (_ | ⟨h, h2⟩)
        rw [hk] at h; cases h; exact h2
    | fail =>
      simp only [Prod.mk.injEq, reduceCtorEq, false_and, false_iff]
      rintro (_ | ⟨h, h2⟩)
      rw [hk] at h; cases h
    | ub =>
      simp only [Prod.mk.injEq, reduceCtorEq, false_and, false_iff]
      rintro (_ | ⟨h, h2⟩)
      rw [hk] at h; cases h

theorem callGenerator_iff (ctx : EncCtx) (alg : Nat) (gen : Option Keyring) (s s' : EncState) :
    callGenerator ctx alg gen s = (.ok, s') ↔ AllSucceed ctx alg gen.toList s s' := by
  cases gen with
  | none =>
    simp only [callGenerator, Option.toList_none, Prod.mk.injEq, true_and]
    constructor
    · rintro rfl; exact .nil _
    · intro h; cases h; rfl
  | some kr =>
    simp only [callGenerator, Option.toList_some]
    constructor
    · intro h; exact .cons h (.nil _)
    · rintro (_ | ⟨h, h2⟩); cases h2; exact h

/-- What a call of a keyring does to the key, when it succeeds. -/
theorem publicEnc_key {kr : Keyring} {ctx : EncCtx} {alg : Nat} {s s' : EncState}
    (h : keyringOnEncrypt kr ctx alg s = (.ok, s')) : checkEncKey alg s.key s'.key = true := by
  unfold keyringOnEncrypt at h
  split at h
  · cases h
  · split at h
    · cases h
    · rename_i f hf
      dsimp only at h
      split at h
      · rename_i hu; rw [h] at hu; cases hu
      · split at h
        · rename_i hc; rw [h] at hc; exact hc
        · cases h

theorem allSucceed_key {ctx : EncCtx} {alg : Nat} {krs : List Keyring} {s s' : EncState} (h : AllSucceed ctx alg krs s s')
    {k : KeyBuf} (hk : s.key = some k) : s'.key.map KeyBuf.meta_ = some k.meta_ := by
  induction h generalizing k with
  | nil => simp [hk]
  | @cons kr krs s s1 s2 h1 _ ih =>
    have hc := publicEnc_key h1
    rw [hk] at hc
    simp only [checkEncKey, decide_eq_true_eq] at hc
    cases h2 : s1.key with
    | none => rw [h2] at hc; cases hc
    | some k1 =>
      rw [h2] at hc
      simp only [Option.map_some, Option.some.injEq] at hc
      rw [ih h2, hc]

theorem multiDecLoop_ok (edks : List Edk) (ctx : EncCtx) (alg : Nat) (failed : Bool) (krs : List Keyring) (s : DecState)
    (hk : s.key = none) :
    (∃ pre kr post s1 s2 r f, krs = pre ++ kr :: post ∧ NoneDecrypted edks ctx alg pre s s1 f ∧ s1.key = none ∧
        keyringOnDecrypt kr edks ctx alg s1 = (r, s2) ∧ r ≠ .ub ∧ s2.key.isSome = true ∧
        multiDecLoop edks ctx alg failed krs s = (.ok, s2)) ∨
    (∃ s1 f, NoneDecrypted edks ctx alg krs s s1 f ∧ s1.key = none ∧
        multiDecLoop edks ctx alg failed krs s = (if failed || f then .fail else .ok, s1)) ∨
    (∃ pre kr post s1 s2 f, krs = pre ++ kr :: post ∧ NoneDecrypted edks ctx alg pre s s1 f ∧
        keyringOnDecrypt kr edks ctx alg s1 = (.ub, s2) ∧ multiDecLoop edks ctx alg failed krs s = (.ub, s2)) := by
  induction krs generalizing s failed with
  | nil => exact Or.inr (Or.inl ⟨s, false, .nil s, hk, by simp [multiDecLoop]⟩)
  | cons kr krs ih =>
    rw [multiDecLoop]
    rcases hr : keyringOnDecrypt kr edks ctx alg s with ⟨r, s1⟩
    by_cases hub : r = .ub
    · subst hub
      exact Or.inr (Or.inr ⟨[], kr, krs, s, s1, false, rfl, .nil s, hr, rfl⟩)
    · by_cases hs : s1.key.isSome = true
      · refine Or.inl ⟨[], kr, krs, s, s1, r, false, rfl, .nil s, hk, hr, hub, hs, ?_⟩
        cases r <;> simp_all
      · have hn : s1.key = none := by cases h : s1.key <;> simp_all
        have step : ∀ {l s2 f}, NoneDecrypted edks ctx alg l s1 s2 f →
            NoneDecrypted edks ctx alg (kr :: l) s s2 (decide (r = .fail) || f) := by
          intro l s2 f h
          cases r with
          | ok => simpa using NoneDecrypted.ok hr hn h
          | fail => simpa using NoneDecrypted.fail hr hn h
          | ub => exact absurd rfl hub
        rcases ih (failed || decide (r = .fail)) s1 hn with
          ⟨pre, kr', post, s2, s3, r', f, rfl, h1, h2, h3, h4, h5, h6⟩ | ⟨s2, f, h1, h2, h3⟩ | ⟨pre, kr', post, s2, s3, f, rfl, h1, h2, h3⟩
        · refine Or.inl ⟨kr :: pre, kr', post, s2, s3, r', _, rfl, step h1, h2, h3, h4, h5, ?_⟩
          rw [← h6]; cases r <;> first | (simp [hn]; done) | exact absurd rfl hub
        · refine Or.inr (Or.inl ⟨s2, _, step h1, h2, ?_⟩)
          rw [← Bool.or_assoc, ← h3]; cases r <;> first | (simp [hn]; done) | exact absurd rfl hub
        · refine Or.inr (Or.inr ⟨kr :: pre, kr', post, s2, s3, _, rfl, step h1, h2, ?_⟩)
          rw [← h3]; cases r <;> first | (simp [hn]; done) | exact absurd rfl hub

end Verif
