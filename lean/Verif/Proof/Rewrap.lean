import Verif.Spec.Rewrap
/-
Proofs for C113: each keyring of the library, call by call.
-/
namespace Verif.Proof
open Verif Verif.Spec

/-- Two keyrings that do the same but for the names of the data keys. -/
structure SameKr (φ : Bytes → Bytes) (kr kr' : Keyring) : Prop where
  enc : ∀ ctx alg s, keyringOnEncrypt kr' ctx alg (rekeyEnc φ s) =
    ((keyringOnEncrypt kr ctx alg s).1, rekeyEnc φ (keyringOnEncrypt kr ctx alg s).2)
  dec : ∀ edks ctx alg s, keyringOnDecrypt kr' edks ctx alg (rekeyDec φ s) =
    ((keyringOnDecrypt kr edks ctx alg s).1, rekeyDec φ (keyringOnDecrypt kr edks ctx alg s).2)

theorem dataKeyLenOK_rekey {φ : Bytes → Bytes} (hl : ∀ k, (φ k).length = k.length) (alg : Nat) (k : KeyBuf) :
    dataKeyLenOK alg (rekeyBuf φ k) = dataKeyLenOK alg k := by
  unfold dataKeyLenOK
  simp only [rekeyBuf, hl]

theorem meta_rekey {φ : Bytes → Bytes} (hl : ∀ k, (φ k).length = k.length) (k : KeyBuf) : (rekeyBuf φ k).meta_ = k.meta_ := by
  simp only [rekeyBuf, KeyBuf.meta_, hl]

theorem checkEncKey_rekey {φ : Bytes → Bytes} (hl : ∀ k, (φ k).length = k.length) (alg : Nat) (b c : Option KeyBuf) :
    checkEncKey alg (b.map (rekeyBuf φ)) (c.map (rekeyBuf φ)) = checkEncKey alg b c := by
  cases b with
  | none =>
    cases c with
    | none => rfl
    | some c => exact dataKeyLenOK_rekey hl alg c
  | some b =>
    cases c with
    | none => rfl
    | some c => simp only [checkEncKey, Option.map_some, meta_rekey hl]

/-- The checks of `aws_cryptosdk_keyring_on_encrypt` and `aws_cryptosdk_keyring_on_decrypt` look at no byte of a data key. -/
theorem sameKr_of {φ : Bytes → Bytes} (hl : ∀ k, (φ k).length = k.length) {f f' : EncCtx → Nat → EncState → KRet × EncState}
    {g g' : List Edk → EncCtx → Nat → DecState → KRet × DecState}
    (hf : ∀ ctx alg s, f' ctx alg (rekeyEnc φ s) = ((f ctx alg s).1, rekeyEnc φ (f ctx alg s).2))
    (hg : ∀ edks ctx alg s, s.key = none → g' edks ctx alg s = ((g edks ctx alg s).1, rekeyDec φ (g edks ctx alg s).2)) :
    SameKr φ ⟨some f, some g⟩ ⟨some f', some g'⟩ := by
  constructor
  · intro ctx alg s
    simp only [keyringOnEncrypt, hf]
    have h1 : (rekeyEnc φ s).key.isNone = s.key.isNone := by simp [rekeyEnc]
    have h2 : (rekeyEnc φ s).edks = s.edks := rfl
    have h3 := checkEncKey_rekey hl alg s.key (f ctx alg s).2.key
    rw [h1, h2]
    split
    · rfl
    · split
      · rfl
      · rw [show (rekeyEnc φ s).key = s.key.map (rekeyBuf φ) from rfl,
          show (rekeyEnc φ (f ctx alg s).2).key = (f ctx alg s).2.key.map (rekeyBuf φ) from rfl, h3]
        split <;> rfl
  · intro edks ctx alg s
    obtain ⟨key, trace, errno⟩ := s
    cases key with
    | some k => rfl
    | none =>
      have h := hg edks ctx alg ⟨none, trace, errno⟩ rfl
      simp only [keyringOnDecrypt, rekeyDec, Option.map_none, Option.isSome_none, Bool.false_eq_true, if_false, h]
      generalize g edks ctx alg ⟨none, trace, errno⟩ = r
      obtain ⟨ret, key, tr, er⟩ := r
      split
      · rfl
      · cases key with
        | none => rfl
        | some k =>
          simp only [Option.map_some, dataKeyLenOK_rekey hl]
          split <;> rfl

/-! ### raw keyrings -/

theorem serializeAad_rewrap {φ : Bytes → Bytes} {e e' : KrEnv} (h : RawRewrap φ e e') (ctx : EncCtx) : serializeAad e' ctx = serializeAad e ctx := by
  unfold serializeAad
  rw [h.alloc]

theorem addTrace_rewrap {φ : Bytes → Bytes} {e e' : KrEnv} (h : RawRewrap φ e e') (t : List TraceRec) (er : Err) (r : TraceRec) :
    addTrace e' t er r = addTrace e t er r := by
  unfold addTrace
  rw [h.alloc]

theorem aesWrap_rewrap {φ : Bytes → Bytes} (hl : ∀ k, (φ k).length = k.length) {e e' : KrEnv} (h : RawRewrap φ e e') (kr : RawAes) (ctx : EncCtx)
    (p : AlgProps) (key iv : Bytes) : aesWrap e' kr ctx p (φ key) iv = aesWrap e kr ctx p key iv := by
  simp only [aesWrap, serializeAad_rewrap h, aesGcmEncrypt, h.alloc, h.junk, h.aesSeal, hl]

theorem aesFinish_rewrap {φ : Bytes → Bytes} (hl : ∀ k, (φ k).length = k.length) {e e' : KrEnv} (h : RawRewrap φ e e') (kr : RawAes) (ctx : EncCtx)
    (p : AlgProps) (iv : Bytes) (k : KeyBuf) (flags : Nat) (s : EncState) :
    aesFinish e' kr ctx p iv (rekeyBuf φ k) flags (rekeyEnc φ s) =
      ((aesFinish e kr ctx p iv k flags s).1, rekeyEnc φ (aesFinish e kr ctx p iv k flags s).2) := by
  simp only [aesFinish, show (rekeyBuf φ k).bytes = φ k.bytes from rfl, aesWrap_rewrap hl h, addTrace_rewrap h]
  cases aesWrap e kr ctx p k.bytes iv with
  | error er =>
    simp only [rekeyEnc]
    split <;> rfl
  | ok edk => rfl

theorem aesOnEncrypt_rewrap {φ : Bytes → Bytes} (hl : ∀ k, (φ k).length = k.length) {e e' : KrEnv} (h : RawRewrap φ e e') (kr : RawAes) (ctx : EncCtx)
    (alg : Nat) (s : EncState) : aesOnEncrypt e' kr ctx alg (rekeyEnc φ s) =
      ((aesOnEncrypt e kr ctx alg s).1, rekeyEnc φ (aesOnEncrypt e kr ctx alg s).2) := by
  obtain ⟨key, trace, edks, errno⟩ := s
  simp only [aesOnEncrypt, h.iv, h.dataKey, h.alloc, h.ptr, h.heap]
  cases algProps alg with
  | none => rfl
  | some p =>
    cases e.random 0 12 with
    | none => rfl
    | some iv =>
      cases key with
      | some k => exact aesFinish_rewrap hl h kr ctx p iv k 0 ⟨some k, trace, edks, errno⟩
      | none =>
        simp only [rekeyEnc, Option.map_none]
        split
        · rfl
        · cases e.random 1 p.dataKeyLen with
          | none => rfl
          | some b => exact aesFinish_rewrap hl h kr ctx p iv ⟨e.ptr, b, p.dataKeyLen, e.heap⟩ 1 ⟨none, trace, edks, errno⟩

theorem aesGcmDecrypt_rewrap {φ : Bytes → Bytes} {e e' : KrEnv} (h : RawRewrap φ e e') (key iv aad ct tag : Bytes) (cap : Nat) :
    aesGcmDecrypt e'.crypto key iv aad ct tag cap = (aesGcmDecrypt e.crypto key iv aad ct tag cap).map φ := by
  unfold aesGcmDecrypt
  rw [h.aesOpen]
  split <;> rfl

theorem rsaUnwrap_rewrap {φ : Bytes → Bytes} {e e' : KrEnv} (h : RawRewrap φ e e') (kr : RawRsa) (priv ct : Bytes) :
    rsaUnwrap e' kr priv ct = (rsaUnwrap e kr priv ct).map φ := by
  unfold rsaUnwrap
  rw [h.rsaDecrypt]
  split <;> rfl

theorem aesDecLoop_rewrap {φ : Bytes → Bytes} {e e' : KrEnv} (h : RawRewrap φ e e') (kr : RawAes) (p : AlgProps) (aad : Bytes) (edks : List Edk) :
    ∀ er, aesDecLoop e' kr p aad er edks = ((aesDecLoop e kr p aad er edks).1.map φ, (aesDecLoop e kr p aad er edks).2) := by
  induction edks with
  | nil => intro er; rfl
  | cons x xs ih =>
    intro er
    simp only [aesDecLoop]
    cases aesMatch kr p x with
    | none => exact ih er
    | some y =>
      obtain ⟨iv, ct, tag⟩ := y
      simp only [aesGcmDecrypt_rewrap h]
      cases aesGcmDecrypt e.crypto kr.key iv aad ct tag p.dataKeyLen with
      | error er => exact ih _
      | ok pt => rfl

theorem aesOnDecrypt_rewrap {φ : Bytes → Bytes} {e e' : KrEnv} (h : RawRewrap φ e e') (kr : RawAes) (edks : List Edk) (ctx : EncCtx) (alg : Nat)
    (s : DecState) (hs : s.key = none) : aesOnDecrypt e' kr edks ctx alg s =
      ((aesOnDecrypt e kr edks ctx alg s).1, rekeyDec φ (aesOnDecrypt e kr edks ctx alg s).2) := by
  obtain ⟨key, trace, errno⟩ := s
  cases hs
  simp only [aesOnDecrypt, serializeAad_rewrap h, h.alloc, h.ptr, h.heap, aesDecLoop_rewrap h, addTrace_rewrap h]
  cases serializeAad e ctx with
  | error er => rfl
  | ok aad =>
    cases algProps alg with
    | none => rfl
    | some p =>
      simp only []
      split
      · rfl
      · generalize aesDecLoop e kr p aad errno edks = r
        obtain ⟨b, er⟩ := r
        cases b <;> rfl

theorem rsaFinish_rewrap {φ : Bytes → Bytes} {e e' : KrEnv} (h : RawRewrap φ e e') (kr : RawRsa) (pub : Bytes) (k : KeyBuf) (flags : Nat)
    (s : EncState) : rsaFinish e' kr pub (rekeyBuf φ k) flags (rekeyEnc φ s) =
      ((rsaFinish e kr pub k flags s).1, rekeyEnc φ (rsaFinish e kr pub k flags s).2) := by
  have hw : rsaWrap e' kr pub (φ k.bytes) = rsaWrap e kr pub k.bytes := by simp only [rsaWrap, h.rsaEncrypt, h.alloc]
  simp only [rsaFinish, show (rekeyBuf φ k).bytes = φ k.bytes from rfl, hw, addTrace_rewrap h]
  cases rsaWrap e kr pub k.bytes with
  | error er =>
    simp only [rekeyEnc]
    split <;> rfl
  | ok edk => rfl

theorem rsaOnEncrypt_rewrap {φ : Bytes → Bytes} {e e' : KrEnv} (h : RawRewrap φ e e') (kr : RawRsa) (ctx : EncCtx)
    (alg : Nat) (s : EncState) : rsaOnEncrypt e' kr ctx alg (rekeyEnc φ s) =
      ((rsaOnEncrypt e kr ctx alg s).1, rekeyEnc φ (rsaOnEncrypt e kr ctx alg s).2) := by
  obtain ⟨key, trace, edks, errno⟩ := s
  simp only [rsaOnEncrypt, h.dataKey, h.alloc, h.ptr, h.heap]
  cases kr.pub with
  | none => rfl
  | some pub =>
    cases key with
    | some k => exact rsaFinish_rewrap h kr pub k 0 ⟨some k, trace, edks, errno⟩
    | none =>
      simp only [rekeyEnc, Option.map_none]
      cases algProps alg with
      | none => rfl
      | some p =>
        simp only []
        split
        · rfl
        · cases e.random 1 p.dataKeyLen with
          | none => rfl
          | some b => exact rsaFinish_rewrap h kr pub ⟨e.ptr, b, p.dataKeyLen, e.heap⟩ 1 ⟨none, trace, edks, errno⟩

theorem rsaDecLoop_rewrap {φ : Bytes → Bytes} {e e' : KrEnv} (h : RawRewrap φ e e') (kr : RawRsa) (priv : Bytes) (edks : List Edk) :
    ∀ er, rsaDecLoop e' kr priv er edks = ((rsaDecLoop e kr priv er edks).1.map φ, (rsaDecLoop e kr priv er edks).2) := by
  induction edks with
  | nil => intro er; rfl
  | cons x xs ih =>
    intro er
    simp only [rsaDecLoop]
    split
    · simp only [rsaUnwrap_rewrap h]
      cases rsaUnwrap e kr priv x.ciphertext with
      | error er => exact ih _
      | ok pt => rfl
    · exact ih er

theorem rsaOnDecrypt_rewrap {φ : Bytes → Bytes} (hl : ∀ k, (φ k).length = k.length) {e e' : KrEnv} (h : RawRewrap φ e e') (kr : RawRsa)
    (edks : List Edk) (ctx : EncCtx) (alg : Nat) (s : DecState) (hs : s.key = none) : rsaOnDecrypt e' kr edks ctx alg s =
      ((rsaOnDecrypt e kr edks ctx alg s).1, rekeyDec φ (rsaOnDecrypt e kr edks ctx alg s).2) := by
  obtain ⟨key, trace, errno⟩ := s
  cases hs
  simp only [rsaOnDecrypt, h.ptr, h.heap, rsaDecLoop_rewrap h, addTrace_rewrap h]
  cases kr.priv with
  | none => rfl
  | some priv =>
    simp only []
    generalize rsaDecLoop e kr priv errno edks = r
    obtain ⟨b, er⟩ := r
    cases b with
    | none => rfl
    | some b => simp only [Option.map_some, hl]; rfl

/-! ### KMS keyrings -/

theorem kmsTrace_rewrap {φ : Bytes → Bytes} {e e' : KmsEnv} (h : KmsRewrap φ e e') (i : Nat) (t : List TraceRec) (er : Err) (name : Bytes) (fl : Nat) :
    kmsTrace e' i t er name fl = kmsTrace e i t er name fl := by
  unfold kmsTrace
  rw [h.alloc]

theorem kmsAppend_rewrap {φ : Bytes → Bytes} {e e' : KmsEnv} (h : KmsRewrap φ e e') (i : Nat) (my : KmsLocal) (id ct name : Bytes) (fl : Nat) :
    kmsAppend e' i my id ct name fl = kmsAppend e i my id ct name fl := by
  unfold kmsAppend
  rw [h.alloc, kmsTrace_rewrap h]

theorem dupKey_rewrap {φ : Bytes → Bytes} (hl : ∀ k, (φ k).length = k.length) {e e' : KmsEnv} (h : KmsRewrap φ e e') (pt : Bytes) :
    dupKey e' (φ pt) = (dupKey e pt).map (fun k => k.map (rekeyBuf φ)) := by
  unfold dupKey
  have h0 : φ pt = [] ↔ pt = [] := by rw [← List.length_eq_zero_iff, ← List.length_eq_zero_iff, hl]
  simp only [h0, hl, h.alloc, h.ptr, h.heap]
  split
  · rfl
  · split <;> rfl

theorem kmsEncLoop_rewrap {φ : Bytes → Bytes} {e e' : KmsEnv} (h : KmsRewrap φ e e') (grants : List Bytes) (ctx : EncCtx) (key : Bytes) (ids : List Bytes) :
    ∀ i my, kmsEncLoop e' grants ctx (φ key) i my ids =
      ((kmsEncLoop e grants ctx key i my ids).1, (kmsEncLoop e grants ctx key i my ids).2.map (rekeyCall φ)) := by
  induction ids with
  | nil => intro i my; rfl
  | cons id ids ih =>
    intro i my
    simp only [kmsEncLoop, h.client, h.encrypt, kmsAppend_rewrap h]
    cases e.client i (parseRegion id) with
    | none => rfl
    | some c =>
      simp only []
      cases e.encrypt i c ⟨id, key, ctx, grants⟩ with
      | none => rfl
      | some x =>
        obtain ⟨keyId, ct⟩ := x
        simp only []
        cases kmsAppend e i my keyId ct id (2 + 8) with
        | none => rfl
        | some my' =>
          simp only [ih, List.map_cons]
          rfl

theorem kmsTransfer_rewrap {φ : Bytes → Bytes} {e e' : KmsEnv} (h : KmsRewrap φ e e') (s : EncState) (key : Option KeyBuf) (fresh : Bool) (my : KmsLocal) :
    kmsTransfer e' (rekeyEnc φ s) (key.map (rekeyBuf φ)) fresh my = ((kmsTransfer e s key fresh my).1, rekeyEnc φ (kmsTransfer e s key fresh my).2) := by
  simp only [kmsTransfer, h.pushEdk, h.pushTrace, rekeyEnc]
  split
  · cases fresh <;> rfl
  · rfl

theorem keyBytes_rekey {φ : Bytes → Bytes} (hl : ∀ k, (φ k).length = k.length) (key : Option KeyBuf) :
    keyBytes (key.map (rekeyBuf φ)) = φ (keyBytes key) := by
  cases key with
  | none => exact (List.length_eq_zero_iff.mp (hl [])).symm
  | some k => rfl

theorem kmsEncRest_rewrap {φ : Bytes → Bytes} (hl : ∀ k, (φ k).length = k.length) {e e' : KmsEnv} (h : KmsRewrap φ e e') (kr : KmsKeyring) (ctx : EncCtx)
    (s : EncState) (key : Option KeyBuf) (fresh : Bool) (i : Nat) (my : KmsLocal) (ids : List Bytes) :
    kmsEncRest e' kr ctx (rekeyEnc φ s) (key.map (rekeyBuf φ)) fresh i my ids =
      ((kmsEncRest e kr ctx s key fresh i my ids).1, rekeyEnc φ (kmsEncRest e kr ctx s key fresh i my ids).2.1,
        (kmsEncRest e kr ctx s key fresh i my ids).2.2.map (rekeyCall φ)) := by
  simp only [kmsEncRest, keyBytes_rekey hl, kmsEncLoop_rewrap h, kmsTransfer_rewrap h]
  generalize kmsEncLoop e kr.grants ctx (keyBytes key) i my ids = r
  obtain ⟨x, calls⟩ := r
  cases x with
  | error er => cases fresh <;> rfl
  | ok my' => rfl

theorem kmsOnEncrypt_rewrap {φ : Bytes → Bytes} (hl : ∀ k, (φ k).length = k.length) {e e' : KmsEnv} (h : KmsRewrap φ e e') (kr : KmsKeyring) (ctx : EncCtx)
    (alg : Nat) (s : EncState) : kmsOnEncrypt e' kr ctx alg (rekeyEnc φ s) =
      ((kmsOnEncrypt e kr ctx alg s).1, rekeyEnc φ (kmsOnEncrypt e kr ctx alg s).2.1, (kmsOnEncrypt e kr ctx alg s).2.2.map (rekeyCall φ)) := by
  obtain ⟨key, trace, edks, errno⟩ := s
  simp only [kmsOnEncrypt, h.alloc, h.client, h.generate]
  cases kr.keyIds with
  | nil => rfl
  | cons id ids =>
    simp only []
    split
    · rfl
    · cases key with
      | some k => exact kmsEncRest_rewrap hl h kr ctx ⟨some k, trace, edks, errno⟩ (some k) false 0 ⟨[], [], errno⟩ (id :: ids)
      | none =>
        simp only [rekeyEnc, Option.map_none]
        cases algProps alg with
        | none => rfl
        | some p =>
          simp only []
          cases e.client 0 (parseRegion id) with
          | none => rfl
          | some c =>
            simp only []
            cases e.generate c ⟨id, p.dataKeyLen, ctx, kr.grants⟩ with
            | none => rfl
            | some x =>
              obtain ⟨keyId, ct, pt⟩ := x
              simp only [Option.map_some, kmsAppend_rewrap h, dupKey_rewrap hl h]
              cases kmsAppend e 0 ⟨[], [], errno⟩ keyId ct id (1 + 2 + 8) with
              | none => cases dupKey e pt <;> rfl
              | some my =>
                cases dupKey e pt with
                | none => rfl
                | some k =>
                  have := kmsEncRest_rewrap hl h kr ctx ⟨none, trace, edks, errno⟩ k true 1 my ids
                  simp only [rekeyEnc, Option.map_none] at this
                  simp only [Option.map_some, this, List.map_cons]
                  rfl

theorem kmsDecLoop_rewrap {φ : Bytes → Bytes} (hl : ∀ k, (φ k).length = k.length) {e e' : KmsEnv} (h : KmsRewrap φ e e') (kr : KmsKeyring) (ctx : EncCtx)
    (edks : List Edk) : ∀ i s, s.key = none → kmsDecLoop e' kr ctx i s edks =
      ((kmsDecLoop e kr ctx i s edks).1, rekeyDec φ (kmsDecLoop e kr ctx i s edks).2.1, (kmsDecLoop e kr ctx i s edks).2.2.map (rekeyCall φ)) := by
  induction edks with
  | nil =>
    intro i s hs
    obtain ⟨key, trace, errno⟩ := s
    cases hs
    rfl
  | cons x xs ih =>
    intro i s hs
    obtain ⟨key, trace, errno⟩ := s
    cases hs
    simp only [kmsDecLoop, h.client, h.decrypt, kmsTrace_rewrap h]
    cases kmsPlan kr x with
    | none => exact ih (i + 1) _ rfl
    | some region =>
      simp only []
      cases e.client i region with
      | none => exact ih (i + 1) _ rfl
      | some c =>
        simp only []
        cases e.decrypt i c ⟨x.providerInfo, x.ciphertext, ctx, kr.grants⟩ with
        | none =>
          simp only [Option.map_none, ih (i + 1) ⟨none, trace, errno⟩ rfl, List.map_cons]
          rfl
        | some y =>
          obtain ⟨keyId, pt⟩ := y
          simp only [Option.map_some, dupKey_rewrap hl h]
          split
          · cases dupKey e pt <;> rfl
          · rfl

theorem mrkOnEncrypt_rewrap {φ : Bytes → Bytes} (hl : ∀ k, (φ k).length = k.length) {e e' : KmsEnv} (h : KmsRewrap φ e e') (kr : MrkKeyring) (ctx : EncCtx)
    (alg : Nat) (s : EncState) : mrkOnEncrypt e' kr ctx alg (rekeyEnc φ s) =
      ((mrkOnEncrypt e kr ctx alg s).1, rekeyEnc φ (mrkOnEncrypt e kr ctx alg s).2.1, (mrkOnEncrypt e kr ctx alg s).2.2.map (rekeyCall φ)) := by
  obtain ⟨key, trace, edks, errno⟩ := s
  simp only [mrkOnEncrypt, h.alloc, h.client, h.generate]
  split
  · rfl
  · split
    · rfl
    · cases key with
      | none =>
        simp only [rekeyEnc, Option.map_none]
        cases algProps alg with
        | none => rfl
        | some p =>
          simp only []
          cases e.client 0 (parseRegion kr.keyId) with
          | none => rfl
          | some c =>
            simp only []
            cases e.generate c ⟨kr.keyId, p.dataKeyLen, ctx, kr.grants⟩ with
            | none => rfl
            | some x =>
              obtain ⟨keyId, ct, pt⟩ := x
              simp only [Option.map_some, hl, kmsAppend_rewrap h, dupKey_rewrap hl h]
              split
              · rfl
              · cases kmsAppend e 0 ⟨[], [], errno⟩ keyId ct kr.keyId (1 + 2 + 8) with
                | none => cases dupKey e pt <;> rfl
                | some my =>
                  cases dupKey e pt with
                  | none => rfl
                  | some k =>
                    have := kmsTransfer_rewrap h ⟨none, trace, edks, errno⟩ k true my
                    simp only [rekeyEnc, Option.map_none] at this
                    simp only [Option.map_some, mrkEncFinish, this]
                    rfl
      | some k =>
        have ht := fun my => kmsTransfer_rewrap h ⟨some k, trace, edks, errno⟩ (some k) false my
        simp only [rekeyEnc, Option.map_some] at ht
        simp only [rekeyEnc, Option.map_some]
        cases e.client 0 (parseRegion kr.keyId) with
        | none => rfl
        | some c =>
          simp only [show (rekeyBuf φ k).bytes = φ k.bytes from rfl, h.encrypt, kmsAppend_rewrap h]
          cases e.encrypt 0 c ⟨kr.keyId, k.bytes, ctx, kr.grants⟩ with
          | none => rfl
          | some x =>
            obtain ⟨keyId, ct⟩ := x
            simp only []
            split
            · rfl
            · cases kmsAppend e 0 ⟨[], [], errno⟩ keyId ct kr.keyId (2 + 8) with
              | none => rfl
              | some my =>
                simp only [mrkEncFinish, ht]
                rfl

theorem mrkDecLoop_rewrap {φ : Bytes → Bytes} (hl : ∀ k, (φ k).length = k.length) {e e' : KmsEnv} (h : KmsRewrap φ e e') (kr : MrkKeyring) (ctx : EncCtx)
    (alg : Nat) (edks : List Edk) : ∀ i failed s, s.key = none → mrkDecLoop e' kr ctx alg i failed s edks =
      ((mrkDecLoop e kr ctx alg i failed s edks).1, rekeyDec φ (mrkDecLoop e kr ctx alg i failed s edks).2.1,
        (mrkDecLoop e kr ctx alg i failed s edks).2.2.map (rekeyCall φ)) := by
  induction edks with
  | nil =>
    intro i failed s hs
    obtain ⟨key, trace, errno⟩ := s
    cases hs
    cases failed <;> rfl
  | cons x xs ih =>
    intro i failed s hs
    obtain ⟨key, trace, errno⟩ := s
    cases hs
    simp only [mrkDecLoop, h.client, h.decrypt, kmsTrace_rewrap h]
    cases mrkPlan kr x with
    | none => exact ih (i + 1) failed _ rfl
    | some y =>
      obtain ⟨region, arn⟩ := y
      simp only []
      cases e.client i region with
      | none => exact ih (i + 1) failed _ rfl
      | some c =>
        simp only []
        cases e.decrypt i c ⟨arn, x.ciphertext, ctx, kr.grants⟩ with
        | none =>
          simp only [Option.map_none, ih (i + 1) (failed || !kr.isDiscovery) ⟨none, trace, errno⟩ rfl, List.map_cons]
          rfl
        | some y =>
          obtain ⟨keyId, pt⟩ := y
          simp only [Option.map_some, hl, dupKey_rewrap hl h]
          cases algProps alg with
          | none => rfl
          | some p =>
            simp only []
            split
            · simp only [ih (i + 1) true ⟨none, trace, errno⟩ rfl, List.map_cons]
              rfl
            · cases dupKey e pt <;> rfl

theorem mrkOnDecrypt_rewrap {φ : Bytes → Bytes} (hl : ∀ k, (φ k).length = k.length) {e e' : KmsEnv} (h : KmsRewrap φ e e') (kr : MrkKeyring)
    (edks : List Edk) (ctx : EncCtx) (alg : Nat) (s : DecState) (hs : s.key = none) : mrkOnDecrypt e' kr edks ctx alg s =
      ((mrkOnDecrypt e kr edks ctx alg s).1, rekeyDec φ (mrkOnDecrypt e kr edks ctx alg s).2.1,
        (mrkOnDecrypt e kr edks ctx alg s).2.2.map (rekeyCall φ)) := by
  obtain ⟨key, trace, errno⟩ := s
  cases hs
  exact mrkDecLoop_rewrap hl h kr ctx alg edks 0 false _ rfl

/-! ### multi-keyrings -/

/-- Lists of such keyrings. -/
inductive SameKrs (φ : Bytes → Bytes) : List Keyring → List Keyring → Prop
  | nil : SameKrs φ [] []
  | cons {a b : Keyring} {as bs : List Keyring} : SameKr φ a b → SameKrs φ as bs → SameKrs φ (a :: as) (b :: bs)

theorem SameKrs.append {φ : Bytes → Bytes} {a b c d : List Keyring} (h : SameKrs φ a b) (h' : SameKrs φ c d) : SameKrs φ (a ++ c) (b ++ d) := by
  induction h with
  | nil => exact h'
  | cons h _ ih => exact .cons h ih

theorem callOnEncryptList_rewrap {φ : Bytes → Bytes} (ctx : EncCtx) (alg : Nat) : ∀ {krs krs' : List Keyring}, SameKrs φ krs krs' →
    ∀ s, callOnEncryptList ctx alg krs' (rekeyEnc φ s) = ((callOnEncryptList ctx alg krs s).1, rekeyEnc φ (callOnEncryptList ctx alg krs s).2)
  | _, _, .nil, s => rfl
  | _, _, .cons (a := kr) hk hks, s => by
    simp only [callOnEncryptList, hk.enc]
    generalize keyringOnEncrypt kr ctx alg s = r
    obtain ⟨ret, s'⟩ := r
    cases ret with
    | ok => exact callOnEncryptList_rewrap ctx alg hks s'
    | fail => rfl
    | ub => rfl

theorem multiDecLoop_rewrap {φ : Bytes → Bytes} (edks : List Edk) (ctx : EncCtx) (alg : Nat) : ∀ {krs krs' : List Keyring}, SameKrs φ krs krs' →
    ∀ failed s, multiDecLoop edks ctx alg failed krs' (rekeyDec φ s) =
      ((multiDecLoop edks ctx alg failed krs s).1, rekeyDec φ (multiDecLoop edks ctx alg failed krs s).2)
  | _, _, .nil, failed, s => rfl
  | _, _, .cons (a := kr) hk hks, failed, s => by
    simp only [multiDecLoop, hk.dec]
    generalize keyringOnDecrypt kr edks ctx alg s = r
    obtain ⟨ret, key, trace, errno⟩ := r
    have hi := fun f => multiDecLoop_rewrap edks ctx alg hks f ⟨key, trace, errno⟩
    cases key with
    | none => cases ret <;> first | exact hi _ | rfl
    | some k => cases ret <;> rfl

theorem multi_rewrap {φ : Bytes → Bytes} (hl : ∀ k, (φ k).length = k.length) (a : MultiAlloc) {gen gen' : Option Keyring} {krs krs' : List Keyring}
    (hg : SameKrs φ gen.toList gen'.toList) (hk : SameKrs φ krs krs') :
    SameKr φ (multiKeyring a gen krs) (multiKeyring a gen' krs') := by
  have hcall : ∀ ctx alg s, callGenerator ctx alg gen' (rekeyEnc φ s) = ((callGenerator ctx alg gen s).1, rekeyEnc φ (callGenerator ctx alg gen s).2) := by
    intro ctx alg s
    cases gen with
    | none =>
      cases gen' with
      | none => rfl
      | some g' => cases hg
    | some g =>
      cases gen' with
      | none => cases hg
      | some g' =>
        cases hg with
        | cons h1 _ => exact h1.enc ctx alg s
  refine sameKr_of hl (fun ctx alg s => ?_) (fun edks ctx alg s hs => ?_)
  · have h1 := hcall ctx alg { s with trace := [], edks := [] }
    simp only [multiOnEncrypt]
    rw [show ({ rekeyEnc φ s with trace := [], edks := [] } : EncState) = rekeyEnc φ { s with trace := [], edks := [] } from rfl, h1]
    generalize callGenerator ctx alg gen { s with trace := [], edks := [] } = r
    obtain ⟨ret, key, trace, edks, errno⟩ := r
    split
    · rfl
    · cases ret with
      | fail => rfl
      | ub => rfl
      | ok =>
        cases key with
        | none => rfl
        | some k =>
          have h2 := callOnEncryptList_rewrap ctx alg hk ⟨some k, trace, edks, errno⟩
          simp only [rekeyEnc, Option.map_some] at h2 ⊢
          rw [h2]
          generalize callOnEncryptList ctx alg krs ⟨some k, trace, edks, errno⟩ = c
          obtain ⟨ret2, key2, trace2, edks2, errno2⟩ := c
          cases ret2 with
          | fail => rfl
          | ub => rfl
          | ok =>
            simp only [multiTransfer]
            split <;> rfl
  · have := multiDecLoop_rewrap edks ctx alg (hg.append hk) false s
    have hs' : rekeyDec φ s = s := by
      obtain ⟨key, trace, errno⟩ := s
      cases hs
      rfl
    rw [hs'] at this
    exact this

theorem leaf_rewrap {φ : Bytes → Bytes} {a a' : Around} (h : Rewrap φ a a') (p : List Nat) (l : Leaf) : SameKr φ (l.keyring a p) (l.keyring a' p) := by
  cases l with
  | raw r =>
    have hr : RawRewrap φ ((a.at p).krEnv 0) ((a'.at p).krEnv 0) := h.raw p
    cases r with
    | aes kr => exact sameKr_of h.len (aesOnEncrypt_rewrap h.len hr kr) (aesOnDecrypt_rewrap hr kr)
    | rsa kr => exact sameKr_of h.len (rsaOnEncrypt_rewrap hr kr) (rsaOnDecrypt_rewrap h.len hr kr)
  | kms kr =>
    refine sameKr_of h.len (fun ctx alg s => ?_) (fun edks ctx alg s hs => ?_)
    · simp only [kmsOnEncrypt_rewrap h.len (h.kms p)]
    · simp only [kmsOnDecrypt, kmsDecLoop_rewrap h.len (h.kms p) kr ctx edks 0 s hs]
  | mrk kr =>
    refine sameKr_of h.len (fun ctx alg s => ?_) (fun edks ctx alg s hs => ?_)
    · simp only [mrkOnEncrypt_rewrap h.len (h.kms p)]
    · simp only [mrkOnDecrypt_rewrap h.len (h.kms p) kr edks ctx alg s hs]

mutual
theorem tree_rewrap {φ : Bytes → Bytes} {a a' : Around} (h : Rewrap φ a a') : ∀ (t : KrTree) (p : List Nat), SameKr φ (t.keyring a p) (t.keyring a' p)
  | .leaf l, p => leaf_rewrap h p l
  | .multi ts, p => by
    simp only [KrTree.keyring, h.multi]
    exact multi_rewrap h.len _ .nil (trees_rewrap h ts p 1)
  | .multiGen g ts, p => by
    simp only [KrTree.keyring, h.multi]
    exact multi_rewrap h.len _ (.cons (tree_rewrap h g (0 :: p)) .nil) (trees_rewrap h ts p 1)
theorem trees_rewrap {φ : Bytes → Bytes} {a a' : Around} (h : Rewrap φ a a') : ∀ (ts : List KrTree) (p : List Nat) (i : Nat),
    SameKrs φ (keyringsAt a p i ts) (keyringsAt a' p i ts)
  | [], _, _ => .nil
  | t :: ts, p, i => .cons (tree_rewrap h t (i :: p)) (trees_rewrap h ts p (i + 1))
end

end Verif.Proof
