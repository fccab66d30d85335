import Verif.Model.Cipher
import Verif.Proof.Frame
import Verif.Spec.Crypto
/-
Helper lemmas about key derivation and frame authentication.
-/
namespace Verif
open Spec

/-- Facts about every row of the suite table, read off the model. -/
structure SuiteFacts (a : Nat) (p : AlgProps) : Prop where
  id : p.algId = a
  small : a < 65536
  version : p.msgFormatVersion = 1 ∨ p.msgFormatVersion = 2
  iv : p.ivLen = 12
  tag : p.tagLen = 16
  keyLen : p.contentKeyLen = p.dataKeyLen
  commit : p.commitmentLen = if p.msgFormatVersion = 2 then 32 else 0
  suiteData : p.algSuiteDataLen = p.commitmentLen
  committing : algorithmIsCommitting a = decide (p.msgFormatVersion = 2)
  sha : p.msgFormatVersion = 2 → whichSha a ≠ .nosha
  midLen : messageIdLen p = if p.msgFormatVersion = 1 then 16 else 32
  authtag : authtagLen p = if p.msgFormatVersion = 1 then 28 else 16
  sigLen : p.signatureLen < 65536

theorem suiteFacts {a : Nat} {p : AlgProps} (hp : algProps a = some p) : SuiteFacts a p := by
  unfold algProps at hp
  split at hp <;> first
    | (cases hp; done)
    | (simp only [Option.some.injEq] at hp; subst hp
       exact ⟨by decide, by decide, by decide, by decide, by decide, by decide, by decide, by decide, by decide, by decide,
         by decide, by decide, by decide⟩)

theorem hkdfT_length (H : Hmac) (sha : Sha) (f : Bytes → Bytes → Bytes) (hf : ∀ k m, H.mac sha k m = some (f k m))
    (prk info : Bytes) (i : Nat) : (hkdfT f prk info (i + 1)).length = hashLen sha := H.mac_len _ _ _ _ (hf _ _)

theorem hkdfExpandLoop_eq (H : Hmac) (sha : Sha) (f : Bytes → Bytes → Bytes) (hf : ∀ k m, H.mac sha k m = some (f k m))
    (prk info : Bytes) (n i remaining : Nat) (okm : Bytes) (hr : remaining ≤ n * hashLen sha) :
    hkdfExpandLoop H sha prk info n (i + 1) (hkdfT f prk info i) remaining okm =
      some (okm ++ (((List.range' i n).map (fun j => hkdfT f prk info (j + 1))).flatten).take remaining) := by
  induction n generalizing i remaining okm with
  | zero =>
    have : remaining = 0 := by omega
    subst this
    simp [hkdfExpandLoop]
  | succ n ih =>
    have hmsg : (if i + 1 ≠ 1 then hkdfT f prk info i else []) = hkdfT f prk info i := by
      cases i with
      | zero => simp [hkdfT]
      | succ i => simp
    have hT : H.mac sha prk ((if i + 1 ≠ 1 then hkdfT f prk info i else []) ++ info ++ [UInt8.ofNat (i + 1)]) =
        some (hkdfT f prk info (i + 1)) := by rw [hmsg, hf]; rfl
    have hl := hkdfT_length H sha f hf prk info i
    rw [hkdfExpandLoop]
    simp only [hT]
    rw [Nat.succ_mul] at hr
    by_cases hlt : remaining < hashLen sha
    · rw [if_pos hlt, Nat.sub_self, ih _ _ _ (by omega)]
      simp only [List.range'_succ, List.map_cons, List.flatten_cons]
      rw [List.take_append_of_le_length (by omega)]
      simp
    · rw [if_neg hlt, ih _ _ _ (by omega)]
      simp only [List.range'_succ, List.map_cons, List.flatten_cons]
      rw [List.take_append, hl, List.take_of_length_le (i := hashLen sha) (by omega),
        List.take_of_length_le (i := remaining) (by omega), List.append_assoc]

theorem hkdfExpandLoop_none_or_len (H : Hmac) (sha : Sha) (prk info : Bytes) (n idx : Nat) (t : Bytes) (remaining : Nat) (okm : Bytes)
    (hr : remaining ≤ n * hashLen sha) :
    ∀ out, hkdfExpandLoop H sha prk info n idx t remaining okm = some out → out.length = okm.length + remaining := by
  induction n generalizing idx t remaining okm with
  | zero =>
    intro out h
    simp only [hkdfExpandLoop, Option.some.injEq] at h
    subst h
    omega
  | succ n ih =>
    intro out h
    rw [hkdfExpandLoop] at h
    rw [Nat.succ_mul] at hr
    simp only at h
    split at h
    · cases h
    · rename_i t' ht
      have hl := H.mac_len _ _ _ _ ht
      by_cases hlt : remaining < hashLen sha
      · rw [if_pos hlt] at h
        have := ih _ _ _ _ (by omega) out h
        rw [List.length_append, List.length_take, hl] at this
        omega
      · rw [if_neg hlt] at h
        have := ih _ _ _ _ (by omega) out h
        rw [List.length_append, List.length_take, hl] at this
        omega

/-! ### commitment comparison -/

theorem xor_eq_zero (a b : Nat) : a ^^^ b = 0 ↔ a = b := by
  constructor
  · intro h
    have : a ^^^ b ^^^ b = 0 ^^^ b := by rw [h]
    simpa [Nat.xor_assoc] using this
  · rintro rfl; simp

theorem foldl_or_zero (l : List (Nat × Nat)) (acc : Nat) :
    l.foldl (fun acc w => acc ||| (w.1 ^^^ w.2)) acc = 0 ↔ acc = 0 ∧ ∀ w ∈ l, w.1 = w.2 := by
  induction l generalizing acc with
  | nil => simp
  | cons w l ih =>
    rw [List.foldl_cons, ih, Nat.or_eq_zero_iff, xor_eq_zero]
    simp only [List.mem_cons, forall_eq_or_imp]
    constructor
    · rintro ⟨⟨h1, h2⟩, h3⟩; exact ⟨h1, h2, h3⟩
    · rintro ⟨h1, h2, h3⟩; exact ⟨⟨h1, h2⟩, h3⟩

theorem unbe_inj_len {a b : Bytes} (hl : a.length = b.length) (h : unbe a = unbe b) : a = b := by
  rw [← be_unbe a, ← be_unbe b, hl, h]

theorem words8_zip {n : Nat} : ∀ {a b : Bytes}, a.length = 8 * n → b.length = 8 * n →
    ((∀ w ∈ (words8 a).zip (words8 b), w.1 = w.2) ↔ a = b) := by
  induction n with
  | zero =>
    intro a b ha hb
    have ha' := List.length_eq_zero_iff.mp (by omega : a.length = 0)
    have hb' := List.length_eq_zero_iff.mp (by omega : b.length = 0)
    subst ha' hb'
    simp [words8]
  | succ n ih =>
    intro a b ha hb
    match a, b, ha, hb with
    | a1 :: a2 :: a3 :: a4 :: a5 :: a6 :: a7 :: a8 :: r, b1 :: b2 :: b3 :: b4 :: b5 :: b6 :: b7 :: b8 :: r', ha, hb =>
      simp only [List.length_cons] at ha hb
      simp only [words8, List.zip_cons_cons, List.mem_cons, forall_eq_or_imp]
      rw [ih (by omega) (by omega)]
      constructor
      · rintro ⟨h1, rfl⟩
        have := unbe_inj_len (by rfl) h1
        simp only [List.cons.injEq, and_true] at this
        obtain ⟨rfl, rfl, rfl, rfl, rfl, rfl, rfl, rfl⟩ := this
        rfl
      · intro h
        simp only [List.cons.injEq] at h
        obtain ⟨rfl, rfl, rfl, rfl, rfl, rfl, rfl, rfl, rfl⟩ := h
        exact ⟨rfl, rfl⟩

theorem commitmentEq_iff (a b : Bytes) : commitmentEq a b = true ↔ a = b ∧ (a.length = 0 ∨ a.length = 32) := by
  unfold commitmentEq
  by_cases hl : a.length = b.length
  · rw [if_neg (by simpa using hl)]
    by_cases h0 : a.length = 0
    · rw [if_pos h0]
      have ha := List.length_eq_zero_iff.mp h0
      have hb := List.length_eq_zero_iff.mp (hl ▸ h0)
      subst ha hb
      simp
    · rw [if_neg h0]
      by_cases h32 : a.length = 32
      · rw [if_neg (by simpa using h32), beq_iff_eq, foldl_or_zero, words8_zip (n := 4) (by omega) (by omega)]
        simp [h32]
      · rw [if_pos h32]
        simp only [Bool.false_eq_true, false_iff]
        rintro ⟨-, h | h⟩
        · exact h0 h
        · exact h32 h
  · rw [if_pos hl]
    simp only [Bool.false_eq_true, false_iff]
    rintro ⟨rfl, -⟩
    exact hl rfl

theorem frameAad_eq_bodyAad {mid : Bytes} {t : FrameType} {s n : Nat} (hs : s < 2 ^ 32) (hn : n < 2 ^ 64) :
    frameAad mid t s n = bodyAad mid t s n := by
  unfold frameAad bodyAad u64be
  rw [u32_eq_be _ hs, u32_eq_be _ (by omega), u32_eq_be _ (by omega)]
  cases t <;> rfl

/-- The IV of the body frame with number `n`. -/
theorem frameIv_eq_bodyIv {a : Nat} {p : AlgProps} (hp : algProps a = some p) {n : Nat} (hn : n < 2 ^ 64) :
    frameIv p n = bodyIv n := by
  unfold frameIv bodyIv
  rw [(suiteFacts hp).iv, u64be_eq_be _ hn]
  rfl

end Verif
