import Verif.Spec.Signature
import Verif.Proof.Bytes
/-
Lemmas about the DER encoding and the loop of `aws_cryptosdk_sig_sign_finish`.
-/
namespace Verif

theorem beMin_zero : beMin 0 = [] := by rw [beMin]; rfl

theorem beMin_pos {n : Nat} (h : n ≠ 0) : beMin n = beMin (n / 256) ++ [UInt8.ofNat (n % 256)] := by rw [beMin, if_neg h]

theorem beMin_ne_nil {n : Nat} (h : n ≠ 0) : beMin n ≠ [] := by rw [beMin_pos h]; simp

theorem derIntBody_small {n : Nat} (h : n < 128) : derIntBody n = [UInt8.ofNat n] := by
  unfold derIntBody
  by_cases h0 : n = 0
  · subst h0; rw [beMin_zero]; rfl
  · have h1 : n / 256 = 0 := by omega
    rw [beMin_pos h0, h1, beMin_zero, Nat.mod_eq_of_lt (by omega)]
    simp only [List.nil_append]
    rw [if_neg]
    rw [UInt8.toNat_ofNat', Nat.mod_eq_of_lt (by omega)]
    omega

theorem derIntBody_mid {n : Nat} (h : 128 ≤ n) (h' : n < 256) : derIntBody n = [0, UInt8.ofNat n] := by
  unfold derIntBody
  have h1 : n / 256 = 0 := by omega
  rw [beMin_pos (by omega), h1, beMin_zero, Nat.mod_eq_of_lt (by omega)]
  simp only [List.nil_append]
  rw [if_pos]
  rw [UInt8.toNat_ofNat', Nat.mod_eq_of_lt (by omega)]
  omega

theorem derIntBody_big {n : Nat} (h : 256 ≤ n) : derIntBody n = derIntBody (n / 256) ++ [UInt8.ofNat (n % 256)] := by
  unfold derIntBody
  rw [beMin_pos (by omega : n ≠ 0)]
  cases hb : beMin (n / 256) with
  | nil => exact absurd hb (beMin_ne_nil (by omega))
  | cons b r =>
    simp only [List.cons_append]
    split <;> rfl

theorem unbe_derIntBody (n : Nat) : unbe (derIntBody n) = n := by
  induction n using Nat.strongRecOn with
  | ind n ih =>
    by_cases h1 : n < 128
    · rw [derIntBody_small h1]; simp [unbe]; omega
    · by_cases h2 : n < 256
      · rw [derIntBody_mid (by omega) h2]; simp [unbe]; omega
      · rw [derIntBody_big (by omega)]
        have := ih (n / 256) (by omega)
        unfold unbe at this ⊢
        rw [List.foldl_append, this]
        simp
        omega

/-- Number of bytes of a DER integer. -/
theorem derIntBody_le (n k : Nat) (hk : 0 < k) : (derIntBody n).length ≤ k ↔ n < 2 ^ (8 * k - 1) := by
  induction n using Nat.strongRecOn generalizing k with
  | ind n ih =>
    by_cases h1 : n < 128
    · rw [derIntBody_small h1]
      have : 2 ^ 7 ≤ 2 ^ (8 * k - 1) := Nat.pow_le_pow_right (by omega) (by omega)
      simp only [List.length_cons, List.length_nil]
      omega
    · by_cases h2 : n < 256
      · rw [derIntBody_mid (by omega) h2]
        simp only [List.length_cons, List.length_nil]
        by_cases hk1 : k = 1
        · subst hk1
          simp only [show 8 * 1 - 1 = 7 from rfl]
          omega
        · have : 2 ^ 15 ≤ 2 ^ (8 * k - 1) := Nat.pow_le_pow_right (by omega) (by omega)
          omega
      · rw [derIntBody_big (by omega)]
        simp only [List.length_append, List.length_cons, List.length_nil]
        by_cases hk1 : k = 1
        · subst hk1
          have : 0 < (derIntBody (n / 256)).length := by
            rcases Nat.eq_zero_or_pos (derIntBody (n / 256)).length with h | h
            · have := unbe_derIntBody (n / 256)
              rw [List.length_eq_zero_iff.mp h] at this
              simp [unbe] at this
              omega
            · exact h
          simp only [show 8 * 1 - 1 = 7 from rfl]
          omega
        · have hi := ih (n / 256) (by omega) (k - 1) (by omega)
          have hp : 2 ^ (8 * k - 1) = 2 ^ (8 * (k - 1) - 1) * 256 := by
            rw [show 8 * k - 1 = (8 * (k - 1) - 1) + 8 by omega, Nat.pow_add]
          have : n < 2 ^ (8 * k - 1) ↔ n / 256 < 2 ^ (8 * (k - 1) - 1) := by
            rw [hp, Nat.div_lt_iff_lt_mul (by omega)]
          rw [this, ← hi]
          omega

theorem derIntBody_pos (n : Nat) : 0 < (derIntBody n).length := by
  by_cases h1 : n < 128
  · rw [derIntBody_small h1]; simp
  · by_cases h2 : n < 256
    · rw [derIntBody_mid (by omega) h2]; simp
    · rw [derIntBody_big (by omega)]; simp

theorem rd_append_len (a b : Bytes) : rd a.length (a ++ b) = some (a, b) := by
  unfold rd
  simp

theorem derRead_derTlv (tag : UInt8) (body rest : Bytes) (h : body.length < 65536) :
    derRead tag (derTlv tag body ++ rest) = some (body, rest) := by
  unfold derRead derTlv derLen
  by_cases h1 : body.length < 128
  · rw [if_pos h1]
    simp only [List.cons_append, List.nil_append, ne_eq, not_true_eq_false, if_false]
    rw [UInt8.toNat_ofNat', Nat.mod_eq_of_lt (by omega), if_pos h1, rd_append_len]
  · rw [if_neg h1]
    by_cases h2 : body.length < 256
    · rw [if_pos h2]
      simp only [List.cons_append, List.nil_append, ne_eq, not_true_eq_false, if_false]
      rw [if_neg (by decide), if_pos trivial]
      rw [UInt8.toNat_ofNat', Nat.mod_eq_of_lt (by omega), rd_append_len]
    · rw [if_neg h2]
      simp only [List.cons_append, List.nil_append, ne_eq, not_true_eq_false, if_false]
      rw [if_neg (by decide), if_neg (by decide), if_pos trivial]
      rw [UInt8.toNat_ofNat', UInt8.toNat_ofNat',
        show body.length / 256 % 2 ^ 8 * 256 + body.length % 2 ^ 8 = body.length by omega, rd_append_len]

theorem d2iInt_derInt (n : Nat) (rest : Bytes) (h : (derIntBody n).length < 65536) : d2iInt (derInt n ++ rest) = some (n, rest) := by
  unfold d2iInt derInt
  rw [derRead_derTlv _ _ _ h]
  simp [unbe_derIntBody]

theorem derLen_length {n : Nat} : (derLen n).length = if n < 128 then 1 else if n < 256 then 2 else 3 := by
  unfold derLen
  split
  · rfl
  · split <;> rfl

theorem derInt_length (n : Nat) : (derInt n).length = 1 + (derLen (derIntBody n).length).length + (derIntBody n).length := by
  simp only [derInt, derTlv, List.length_cons, List.length_append]
  omega

theorem derInt_length_short {n : Nat} (h : (derIntBody n).length < 128) : (derInt n).length = 2 + (derIntBody n).length := by
  rw [derInt_length, derLen_length, if_pos h]

theorem derSig_length_short {r s : Nat} (h : (derIntBody r).length + (derIntBody s).length < 124) :
    (derSig r s).length = 6 + (derIntBody r).length + (derIntBody s).length := by
  simp only [derSig, derTlv, List.length_cons, List.length_append]
  rw [derInt_length_short (by omega), derInt_length_short (by omega), derLen_length, if_pos (by omega)]
  omega

theorem d2iSig_derSig {r s : Nat} (rest : Bytes) (h : (derIntBody r).length + (derIntBody s).length < 124) :
    d2iSig (derSig r s ++ rest) = some ((r, s), rest) := by
  unfold d2iSig derSig
  rw [derRead_derTlv]
  · simp only
    rw [d2iInt_derInt _ _ (by omega)]
    simp only
    rw [← List.append_nil (derInt s), d2iInt_derInt _ _ (by omega)]
  · rw [List.length_append, derInt_length_short (by omega), derInt_length_short (by omega)]
    omega

theorem order_lt (c : Curve) : c.order < 2 ^ (8 * c.bytes) := by cases c <;> decide

theorem half_lt_order (c : Curve) : 2 ^ (8 * c.bytes - 1) < c.order := by cases c <;> decide

/-- Numbers below the order have at most one byte more than the order. -/
theorem body_order {c : Curve} {n : Nat} (h : n < c.order) : (derIntBody n).length ≤ c.bytes + 1 := by
  rw [derIntBody_le _ _ (by omega)]
  have := order_lt c
  have : 2 ^ (8 * c.bytes) ≤ 2 ^ (8 * (c.bytes + 1) - 1) := Nat.pow_le_pow_right (by omega) (by omega)
  omega

theorem bytes_le (c : Curve) : 32 ≤ c.bytes ∧ c.bytes ≤ 48 := by cases c <;> decide

theorem ecdsaSize_eq (c : Curve) : ecdsaSize c = 2 * c.bytes + 8 := by cases c <;> decide

theorem sig_fits {c : Curve} {r s : Nat} (hr : r < c.order) (hs : s < c.order) : (derSig r s).length ≤ ecdsaSize c := by
  have h1 := body_order hr
  have h2 := body_order hs
  have := bytes_le c
  rw [derSig_length_short (by omega), ecdsaSize_eq]
  omega

theorem d2iSig_order {c : Curve} {r s : Nat} (rest : Bytes) (hr : r < c.order) (hs : s < c.order) :
    d2iSig (derSig r s ++ rest) = some ((r, s), rest) := by
  have h1 := body_order hr
  have h2 := body_order hs
  have := bytes_le c
  exact d2iSig_derSig _ (by omega)

theorem ecdsaVerifyDer_derSig {ec : Ec} {c : Curve} {q : Nat} {m : Bytes} {r s : Nat} (hr : r < c.order) (hs : s < c.order) :
    ecdsaVerifyDer ec c q m (derSig r s) = ec.verify c q m r s := by
  unfold ecdsaVerifyDer
  rw [← List.append_nil (derSig r s), d2iSig_order _ hr hs]
  simp

theorem add_add (w : Live) (k : SigObj) (a b : Int) : (w.add k a).add k b = w.add k (a + b) := by
  funext j
  unfold Live.add
  split <;> omega

theorem add_zero (w : Live) (k : SigObj) : w.add k 0 = w := by
  funext j
  unfold Live.add
  split <;> omega

/-- What the signing loop returns is one of the drawn signatures, or one with `s` negated; it has the target length. -/
theorem signLoop_ok {ec : Ec} {cv : Curve} {t d : Nat} {m : Bytes} {cap fuel : Nat} {i : Nat} {buf : Bytes} {w : Live}
    {sig : Bytes} {w' : Live} (h : signLoop ec cv t d m cap fuel i buf w = (.ok sig, w')) :
    sig.length = t ∧ (sig = buf ∨ ∃ j, i ≤ j ∧ (sig = derSig (ec.draw cv d m j).1 (ec.draw cv d m j).2 ∨
      sig = derSig (ec.draw cv d m j).1 (cv.order - (ec.draw cv d m j).2))) := by
  induction fuel generalizing i buf w with
  | zero => cases h
  | succ fuel ih =>
    unfold signLoop at h
    by_cases h1 : buf.length = t
    · rw [if_pos h1] at h
      cases h
      exact ⟨h1, Or.inl rfl⟩
    · rw [if_neg h1] at h
      split at h
      · cases h
      · simp only at h
        split at h
        · cases h
        · split at h
          · rename_i h2
            cases h
            exact ⟨h2, Or.inr ⟨i, Nat.le_refl _, Or.inl rfl⟩⟩
          · have hd := ec.draw_range cv d m i
            have hdec := d2iSig_order (c := cv) [] hd.2.1 hd.2.2.2
            rw [List.append_nil] at hdec
            cases hin : ec.ok (.sigIn i) with
            | false =>
              rw [hin] at h
              simp only [Bool.false_eq_true, if_false] at h
              obtain ⟨a, b⟩ := ih h
              refine ⟨a, Or.inr ?_⟩
              rcases b with b | ⟨j, hj, b⟩
              · exact ⟨i, Nat.le_refl _, Or.inl b⟩
              · exact ⟨j, by omega, b⟩
            | true =>
              rw [hin, if_pos rfl, hdec] at h
              simp only at h
              split at h
              · cases h
              · split at h
                · cases h
                · split at h
                  · cases h
                  · split at h
                    · cases h
                    · obtain ⟨a, b⟩ := ih h
                      refine ⟨a, Or.inr ?_⟩
                      rcases b with b | ⟨j, hj, b⟩
                      · exact ⟨i, Nat.le_refl _, Or.inr b⟩
                      · exact ⟨j, by omega, b⟩

theorem signLoop_no_ub {ec : Ec} {cv : Curve} {t d : Nat} {m : Bytes} {fuel : Nat} {i : Nat} {buf : Bytes} {w : Live} :
    (signLoop ec cv t d m (ecdsaSize cv) fuel i buf w).1 ≠ .ub := by
  induction fuel generalizing i buf w with
  | zero => simp [signLoop]
  | succ fuel ih =>
    have hd := ec.draw_range cv d m i
    have f1 := sig_fits hd.2.1 hd.2.2.2
    have f2 := sig_fits (c := cv) hd.2.1 (s := cv.order - (ec.draw cv d m i).2) (by omega)
    have hdec := d2iSig_order (c := cv) [] hd.2.1 hd.2.2.2
    rw [List.append_nil] at hdec
    unfold signLoop
    split
    · simp
    · split
      · simp
      · simp only
        rw [if_neg (Nat.not_lt.mpr f1)]
        split
        · simp
        · cases hin : ec.ok (.sigIn i) with
          | false =>
            simp only [Bool.false_eq_true, if_false]
            exact ih
          | true =>
            rw [if_pos rfl, hdec]
            simp only
            split
            · simp
            · split
              · simp
              · split
                · simp
                · rw [if_neg (Nat.not_lt.mpr f2)]
                  exact ih

/-- The loop frees what it allocates, unless exactly one of the two calls of `BN_dup` fails. -/
theorem signLoop_live {ec : Ec} {cv : Curve} {t d : Nat} {m : Bytes} {cap fuel : Nat} {i : Nat} {buf : Bytes} {w : Live}
    (hdup : ∀ i, ec.ok (.dupR i) = ec.ok (.dupS i)) (h1 : (signLoop ec cv t d m cap fuel i buf w).1 ≠ .ub)
    (h2 : (signLoop ec cv t d m cap fuel i buf w).1 ≠ .diverge) : (signLoop ec cv t d m cap fuel i buf w).2 = w := by
  induction fuel generalizing i buf w with
  | zero => exact absurd rfl h2
  | succ fuel ih =>
    unfold signLoop at h1 h2 ⊢
    split
    · rfl
    · rename_i c1
      rw [if_neg c1] at h1 h2
      split
      · rfl
      · rename_i c2
        rw [if_neg c2] at h1 h2
        simp only at h1 h2 ⊢
        split
        · rfl
        · rename_i c3
          rw [if_neg c3] at h1 h2
          split
          · rfl
          · rename_i c4
            rw [if_neg c4] at h1 h2
            cases hm : (if ec.ok (.sigIn i) = true then d2iSig (derSig (ec.draw cv d m i).1 (ec.draw cv d m i).2) else none) with
            | none =>
              rw [hm] at h1 h2
              exact ih h1 h2
            | some x =>
              obtain ⟨⟨r, s⟩, rest⟩ := x
              rw [hm] at h1 h2
              simp only at h1 h2 ⊢
              have hd := hdup i
              cases hs : ec.ok (.dupS i) with
              | false =>
                rw [hs] at hd
                simp only [hd, hs, Bool.false_eq_true, if_false, Bool.not_false, or_self, if_true]
                funext k
                cases k <;> simp [Live.add] <;> omega
              | true =>
                rw [hs] at hd
                simp only [hd, hs, if_true, Bool.not_true, Bool.false_eq_true, or_self, if_false] at h1 h2 ⊢
                split
                · funext k
                  cases k <;> simp [Live.add] <;> omega
                · rename_i c5
                  rw [if_neg c5] at h1 h2
                  split
                  · funext k
                    cases k <;> simp [Live.add] <;> omega
                  · rename_i c6
                    rw [if_neg c6] at h1 h2
                    split
                    · rename_i c7
                      rw [if_pos c7] at h1
                      exact absurd rfl h1
                    · rename_i c7
                      rw [if_neg c7] at h1 h2
                      rw [ih h1 h2]
                      funext k
                      cases k <;> simp [Live.add] <;> omega

/-- One iteration in which no call fails. -/
theorem signLoop_step {ec : Ec} {cv : Curve} {t d : Nat} {m : Bytes} {fuel : Nat} {i : Nat} {buf : Bytes} {w : Live}
    (hok : ∀ s, ec.ok s = true) (hb : buf.length ≠ t) :
    signLoop ec cv t d m (ecdsaSize cv) (fuel + 1) i buf w =
      (if (derSig (ec.draw cv d m i).1 (ec.draw cv d m i).2).length = t then
        (.ok (derSig (ec.draw cv d m i).1 (ec.draw cv d m i).2), w)
      else signLoop ec cv t d m (ecdsaSize cv) fuel (i + 1)
        (derSig (ec.draw cv d m i).1 (cv.order - (ec.draw cv d m i).2)) w) := by
  have hd := ec.draw_range cv d m i
  have f1 := sig_fits hd.2.1 hd.2.2.2
  have f2 := sig_fits (c := cv) hd.2.1 (s := cv.order - (ec.draw cv d m i).2) (by omega)
  have hdec := d2iSig_order (c := cv) [] hd.2.1 hd.2.2.2
  rw [List.append_nil] at hdec
  rw [signLoop, if_neg hb]
  simp only [hok, Bool.not_true, Bool.false_eq_true, if_false, if_true, or_self]
  rw [if_neg (Nat.not_lt.mpr f1)]
  split
  · rfl
  · rw [hdec]
    simp only
    rw [if_neg (Nat.not_lt.mpr f2)]
    congr 1
    funext k
    cases k <;> simp [Live.add] <;> omega

/-- If no drawn signature and no negated one has the target length, the loop goes on. -/
theorem signLoop_diverge {ec : Ec} {cv : Curve} {t d : Nat} {m : Bytes} {fuel : Nat} {i : Nat} {buf : Bytes} {w : Live}
    (hok : ∀ s, ec.ok s = true) (hb : buf.length ≠ t)
    (hbad : ∀ j, i ≤ j → (derSig (ec.draw cv d m j).1 (ec.draw cv d m j).2).length ≠ t ∧
      (derSig (ec.draw cv d m j).1 (cv.order - (ec.draw cv d m j).2)).length ≠ t) :
    (signLoop ec cv t d m (ecdsaSize cv) fuel i buf w).1 = .diverge := by
  induction fuel generalizing i buf w with
  | zero => rfl
  | succ fuel ih =>
    rw [signLoop_step hok hb, if_neg (hbad i (Nat.le_refl _)).1]
    exact ih (hbad i (Nat.le_refl _)).2 (fun j hj => hbad j (by omega))

/-- If the `j`-th drawn signature, or its negation, has the target length, the loop ends by then. -/
theorem signLoop_converge {ec : Ec} {cv : Curve} {t d : Nat} {m : Bytes} {fuel : Nat} {i j : Nat} {buf : Bytes} {w : Live}
    (hok : ∀ s, ec.ok s = true) (hij : i ≤ j) (hf : j + 2 ≤ i + fuel)
    (hgood : (derSig (ec.draw cv d m j).1 (ec.draw cv d m j).2).length = t ∨
      (derSig (ec.draw cv d m j).1 (cv.order - (ec.draw cv d m j).2)).length = t) :
    ∃ sig, signLoop ec cv t d m (ecdsaSize cv) fuel i buf w = (.ok sig, w) := by
  induction fuel generalizing i buf with
  | zero => omega
  | succ fuel ih =>
    by_cases hb : buf.length = t
    · exact ⟨buf, by rw [signLoop, if_pos hb]⟩
    · rw [signLoop_step hok hb]
      split
      · exact ⟨_, rfl⟩
      · rename_i hne
        by_cases hj : i = j
        · subst hj
          have hg : (derSig (ec.draw cv d m i).1 (cv.order - (ec.draw cv d m i).2)).length = t := by
            rcases hgood with h | h
            · exact absurd h hne
            · exact h
          cases fuel with
          | zero => omega
          | succ fuel => exact ⟨_, by rw [signLoop, if_pos hg]⟩
        · exact ih (by omega) (by omega)

open Spec

theorem sigBegin_signer {ec : Ec} {d q : Nat} {p : AlgProps} {w w' : Live} {c : SigC}
    (h : sigBegin ec ⟨some d, some q⟩ p w = (.ok c, w')) : IsSigner p d q [] c := by
  unfold sigBegin at h
  simp only at h
  repeat' split at h
  all_goals cases h
  exact ⟨rfl, rfl, rfl, rfl, rfl⟩

theorem sigBegin_ok {ec : Ec} (hok : ∀ s, ec.ok s = true) (k : EcKey) (p : AlgProps) (w : Live) :
    ∃ c w', sigBegin ec k p w = (.ok c, w') := by
  unfold sigBegin
  simp [hok]

/-- What is held afterwards: `g` more on success, nothing more on failure. -/
def Grows (w w' : Live) (r : Except Err α) (g : SigObj → Int) : Prop :=
  w' = fun o => w o + (match r with | .ok _ => g o | .error _ => 0)

theorem sigBegin_live {ec : Ec} {k : EcKey} {p : AlgProps} {w w' : Live} {r : Except Err SigC} (h : sigBegin ec k p w = (r, w')) :
    Grows w w' r held := by
  unfold sigBegin at h
  simp only at h
  repeat' split at h
  all_goals
    cases h
    funext o
    cases o <;> simp [sigAbort, Live.add, held] <;> omega

theorem serializePubkey_live {ec : Ec} {cv : Curve} {k : EcKey} {w w' : Live} {r : Except Err Bytes}
    (h : serializePubkey ec cv k w = (r, w')) : Grows w w' r heldStr := by
  unfold serializePubkey at h
  cases hk : k.pub with
  | none =>
    rw [hk] at h
    cases h
    funext o
    simp
  | some q =>
    rw [hk] at h
    simp only at h
    repeat' split at h
    all_goals
      cases h
      funext o
      cases o <;> simp [Live.add, heldStr] <;> omega

/-- Stripping the NUL byte restores the text. -/
theorem stripNul_text {b : Bytes} (h : (0 : UInt8) ∉ b) (nul : Bool) : stripNul (b ++ (if nul then [0] else [])) = b := by
  unfold stripNul
  cases nul with
  | true => simp
  | false =>
    simp only [Bool.false_eq_true, if_false, List.append_nil]
    rw [if_neg]
    intro hl
    exact h (List.mem_of_getLast? hl)

theorem sigMd_len {ec : Ec} {a : Nat} {cv : Curve} (h : sigCurve a = some cv) (x : Bytes) : (ec.hash (sigMd a) x).length ≤ 64 := by
  unfold sigCurve at h
  unfold sigMd
  split at h
  · simp only [ec.hash_len.1]; omega
  all_goals first | (simp only [ec.hash_len.2]; omega) | cases h

theorem curve_facts {a : Nat} {p : AlgProps} (hp : algProps a = some p) {row : SuiteRow} (hrow : row ∈ suiteTable) (hid : row.id = a) :
    p.algId = a ∧ a < 65536 ∧ p.signatureLen = signatureBytes row.curveBits ∧ sigMd a = signatureDigest row.curveBits ∧
    (sigCurve a = none ↔ row.curveBits = 0) ∧
    (∀ cv, sigCurve a = some cv → row.curveBits = 8 * cv.bytes ∧ p.signatureLen = 2 * cv.bytes + 7) := by
  subst hid
  revert p
  have : ∀ row ∈ suiteTable, ∀ p, algProps row.id = some p → p.algId = row.id ∧ row.id < 65536 ∧
    p.signatureLen = signatureBytes row.curveBits ∧ sigMd row.id = signatureDigest row.curveBits ∧
    (sigCurve row.id = none ↔ row.curveBits = 0) ∧
    (∀ cv, sigCurve row.id = some cv → row.curveBits = 8 * cv.bytes ∧ p.signatureLen = 2 * cv.bytes + 7) := by
    intro row hrow p hp
    simp only [suiteTable, List.mem_cons, List.not_mem_nil, or_false] at hrow
    rcases hrow with rfl | rfl | rfl | rfl | rfl | rfl | rfl | rfl | rfl | rfl | rfl <;>
      (cases hp; refine ⟨rfl, by decide, rfl, rfl, by decide, ?_⟩; intro cv h; cases h <;> exact ⟨rfl, rfl⟩)
  exact fun {p} hp => this row hrow p hp

theorem sigSignFinish_eq {ec : Ec} {fuel : Nat} {p : AlgProps} {d q : Nat} {data : Bytes} {c : SigC} {w : Live} {cv : Curve}
    (hc : IsSigner p d q data c) (hcv : sigCurve p.algId = some cv) :
    sigSignFinish ec fuel c w =
      (if !ec.ok .digestFinal then (.err .cryptoUnknown, sigAbort c w)
      else if !ec.ok .pkeyCtxNew then (.err .oom, sigAbort c w)
      else if !ec.ok .signInit ∨ !ec.ok .signSize then (.err .cryptoUnknown, sigAbort c ((w.add .pkeyCtx 1).add .pkeyCtx (-1)))
      else if !ec.ok .sigBuf then (.err .oom, sigAbort c ((w.add .pkeyCtx 1).add .pkeyCtx (-1)))
      else match signLoop ec cv p.signatureLen d (ec.hash (sigMd p.algId) data) (ecdsaSize cv) fuel 0 [] ((w.add .pkeyCtx 1).add .mem 1) with
        | (.ok sig, w) =>
          if !ec.ok .sigStr then (.err .oom, (sigAbort c (w.add .pkeyCtx (-1))).add .mem (-1))
          else (.ok sig, (sigAbort c ((w.add .mem 1).add .pkeyCtx (-1))).add .mem (-1))
        | (.err e, w) => (.err e, (sigAbort c (w.add .pkeyCtx (-1))).add .mem (-1))
        | (.ub, w) => (.ub, w)
        | (.diverge, w) => (.diverge, w)) := by
  unfold sigSignFinish
  rw [hc.props, hcv, hc.keypair, hc.md]
  simp only
  rw [if_neg (by have := sigMd_len (ec := ec) hcv data; omega)]
  rfl

theorem sigSignFinish_ok {ec : Ec} {fuel : Nat} {p : AlgProps} {d q : Nat} {data : Bytes} {c : SigC} {w w' : Live} {cv : Curve}
    {sig : Bytes} (hc : IsSigner p d q data c) (hcv : sigCurve p.algId = some cv) (h : sigSignFinish ec fuel c w = (.ok sig, w')) :
    ∃ w1 w2, signLoop ec cv p.signatureLen d (ec.hash (sigMd p.algId) data) (ecdsaSize cv) fuel 0 [] w1 = (.ok sig, w2) := by
  rw [sigSignFinish_eq hc hcv] at h
  refine ⟨(w.add .pkeyCtx 1).add .mem 1, ?_⟩
  cases hl : signLoop ec cv p.signatureLen d (ec.hash (sigMd p.algId) data) (ecdsaSize cv) fuel 0 [] ((w.add .pkeyCtx 1).add .mem 1) with
  | mk r w2 =>
    rw [hl] at h
    refine ⟨w2, ?_⟩
    repeat' split at h
    all_goals first | cases h | skip
    all_goals simp_all

theorem sigAbort_signer {p : AlgProps} {d q : Nat} {data : Bytes} {c : SigC} (hc : IsSigner p d q data c) (w : Live) :
    sigAbort c w = fun o => w o - held o := by
  unfold sigAbort
  simp only [hc.md, hc.pkey, hc.keypair, Option.isSome_some, if_true]
  funext o
  cases o <;> simp [Live.add, held] <;> omega

theorem sigAbort_verifier {p : AlgProps} {q : Nat} {data : Bytes} {c : SigC} (hc : IsVerifier p q data c) (w : Live) :
    sigAbort c w = fun o => w o - held o := by
  unfold sigAbort
  simp only [hc.md, hc.pkey, hc.keypair, Option.isSome_some, if_true]
  funext o
  cases o <;> simp [Live.add, held] <;> omega

theorem privkeyLoad_live {ec : Ec} {cv : Curve} {a b : Nat} {rest : Bytes} {w w' : Live} {r : Except Err (EcKey × Bytes)}
    {k : Option EcKey} (h : privkeyLoad ec cv a b rest w = (r, k, w')) :
    match r with
    | .ok (k', _) => k = some k' ∧ w' = w.add .ecKey 1
    | .error _ => w' = if k.isSome then w.add .ecKey 1 else w := by
  unfold privkeyLoad at h
  simp only at h
  repeat' split at h
  all_goals
    cases h
    first
      | rfl
      | (refine ⟨rfl, ?_⟩; funext o; cases o <;> simp [Live.add] <;> omega)
      | (show _ = _; funext o; cases o <;> simp [Live.add] <;> omega)

theorem loadPubkey_live {ec : Ec} {cv : Curve} {pub : Bytes} {w w' : Live} {r : Except Err EcKey}
    (h : loadPubkey ec cv pub w = (r, w')) : w' = match r with | .ok _ => w.add .ecKey 1 | .error _ => w := by
  unfold loadPubkey at h
  simp only at h
  repeat' split at h
  all_goals
    cases h
    first
      | rfl
      | (funext o; cases o <;> simp [Live.add] <;> omega)

theorem sigSignStart_ne_none {ec : Ec} {wantPub : Bool} {p : AlgProps} {s : Bytes} {w : Live} {cv : Curve}
    (hcv : sigCurve p.algId = some cv) : (sigSignStart ec wantPub p s w).1 ≠ .ok none := by
  unfold sigSignStart
  rw [hcv]
  simp only
  split
  · simp
  · split
    · simp
    · generalize privkeyLoad ec cv _ _ _ w = x
      obtain ⟨r, k, w1⟩ := x
      cases r with
      | error e => simp
      | ok y =>
        obtain ⟨k1, rest⟩ := y
        simp only
        split
        · simp
        · generalize (if wantPub = true then serializePubkey ec cv k1 w1 else (.ok [], w1)) = z
          obtain ⟨r, w2⟩ := z
          cases r with
          | error e => simp
          | ok pub =>
            simp only
            generalize sigBegin ec k1 p w2 = u
            obtain ⟨r, w3⟩ := u
            cases r <;> simp

theorem intBytes_iff (n k : Nat) : IntBytes n k ↔ (derIntBody n).length = k := by
  unfold IntBytes
  constructor
  · rintro ⟨h1, h2, h3⟩
    have hle := (derIntBody_le n k h1).mpr h2
    rcases h3 with rfl | h3
    · have := derIntBody_pos n; omega
    · by_cases hk : k = 1
      · have := derIntBody_pos n; omega
      · have := mt (derIntBody_le n (k - 1) (by omega)).mp (by omega)
        omega
  · intro h
    have hp := derIntBody_pos n
    refine ⟨by omega, (derIntBody_le n k (by omega)).mp (by omega), ?_⟩
    by_cases hk : k = 1
    · exact Or.inl hk
    · right
      have := mt (derIntBody_le n (k - 1) (by omega)).mpr (by omega)
      omega

theorem rightLength_iff {c : Curve} {r s : Nat} (hr : r < c.order) (hs : s < c.order) :
    RightSigLength c r s ↔ (derSig r s).length = 2 * c.bytes + 7 := by
  have h1 := body_order hr
  have h2 := body_order hs
  have := bytes_le c
  rw [derSig_length_short (by omega)]
  unfold RightSigLength
  constructor
  · rintro ⟨a, b, ha, hb, hab⟩
    rw [intBytes_iff] at ha hb
    omega
  · intro h
    exact ⟨_, _, (intBytes_iff _ _).mpr rfl, (intBytes_iff _ _).mpr rfl, by omega⟩

end Verif
