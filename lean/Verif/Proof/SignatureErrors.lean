import Verif.Proof.Signature
import Verif.Proof.Crypto
import Verif.Spec.SignatureErrors
/-
Helpers for C90: the codes of the signature functions.
-/
namespace Verif.Proof
open Verif.Spec

theorem firstFailure_append (a b : List (Bool × Err)) :
    firstFailure (a ++ b) = match firstFailure a with | some e => some e | none => firstFailure b := by
  induction a with
  | nil => rfl
  | cons x r ih =>
    obtain ⟨g, e⟩ := x
    cases g <;> simp [firstFailure, ih]

theorem reports_append {α : Type} {r : Except Err α} {a b : List (Bool × Err)}
    (h1 : ∀ e, firstFailure a = some e → r = .error e) (h2 : firstFailure a = none → Reports r b) : Reports r (a ++ b) := by
  unfold Reports
  rw [firstFailure_append]
  cases h : firstFailure a with
  | some e => exact h1 e h
  | none => exact h2 h

theorem firstFailure_mem {l : List (Bool × Err)} {e : Err} (h : firstFailure l = some e) : (false, e) ∈ l := by
  induction l with
  | nil => cases h
  | cons x r ih =>
    obtain ⟨g, e'⟩ := x
    cases g with
    | false => simp [firstFailure] at h; simp [h]
    | true => exact List.mem_cons_of_mem _ (ih (by simpa [firstFailure] using h))

theorem reports_error {α : Type} {r : Except Err α} {l : List (Bool × Err)} {e : Err} (h : Reports r l) (he : r = .error e) :
    firstFailure l = some e := by
  unfold Reports at h
  revert h
  generalize firstFailure l = z
  cases z <;> simp [he]
  exact Eq.symm

theorem sigBegin_reports (ec : Ec) (k : EcKey) (p : AlgProps) (w : Live) :
    Reports (sigBegin ec k p w).1 ([(ec.ok .ctxMem, .oom)] ++ objectChecks ec) := by
  unfold sigBegin Reports objectChecks
  cases h1 : ec.ok .ctxMem <;> cases h2 : ec.ok .pkeyNew <;> cases h3 : ec.ok .pkeySet <;> cases h4 : ec.ok .mdNew <;>
    cases h5 : ec.ok .mdInit <;> simp [firstFailure]

theorem serializePubkey_reports (ec : Ec) (cv : Curve) (d : Option Nat) (q : Nat) (w : Live) :
    Reports (serializePubkey ec cv ⟨d, some q⟩ w).1 (pubkeyChecks ec (ec.pubOut cv q).length) := by
  unfold serializePubkey Reports pubkeyChecks
  have hb : (maxPubkeySizeB64 < ((ec.pubOut cv q).length + 2) / 3 * 4 + 1) ↔ ¬ (ec.pubOut cv q).length ≤ 63 := by
    have : maxPubkeySizeB64 = 88 := by decide
    omega
  cases h1 : ec.ok .pubOut
  · simp [firstFailure]
  · by_cases h2 : (ec.pubOut cv q).length ≤ 63
    · cases h3 : ec.ok .pubStr <;> simp [firstFailure, hb, h2]
    · simp [firstFailure, hb, h2]

theorem loadPubkey_reports (ec : Ec) (cv : Curve) (pub : Bytes) (w : Live) : Reports (loadPubkey ec cv pub w).1
    [(decide (∃ bin ∈ ec.unb64 pub, bin.length ≤ 64), .badCiphertext), (ec.ok .groupNew, .cryptoUnknown), (ec.ok .keyNew, .oom),
     (ec.ok .keySetGroup, .cryptoUnknown), (ec.ok .pubIn, .badCiphertext),
     (decide (∃ bin ∈ ec.unb64 pub, (ec.pubIn cv bin).isSome), .badCiphertext)] := by
  unfold loadPubkey Reports
  cases h0 : ec.unb64 pub with
  | none => simp [firstFailure]
  | some bin =>
    have hm : maxPubkeySize = 64 := rfl
    by_cases h1 : bin.length ≤ 64
    · have h1' : ¬ maxPubkeySize < bin.length := by omega
      cases h2 : ec.ok .groupNew <;> cases h3 : ec.ok .keyNew <;> cases h4 : ec.ok .keySetGroup <;> cases h5 : ec.ok .pubIn <;>
        cases h6 : ec.pubIn cv bin <;> simp [firstFailure, h1, h1', h6]
    · have h1' : maxPubkeySize < bin.length := by omega
      simp [firstFailure, h1, h1']

theorem unbe_one (s : Bytes) (i : Nat) (h : i < s.length) : unbe ((s.drop i).take 1) = numAt s i := by
  unfold numAt
  have : (s.drop i).take 1 = [s[i]] := by rw [List.drop_eq_getElem_cons h]; rfl
  rw [this]
  simp [unbe, List.getD, h]

theorem unbe_two (s : Bytes) (h : 2 ≤ s.length) : unbe (s.take 2) = numAt s 0 * 256 + numAt s 1 := by
  match s, h with
  | a :: b :: r, _ => simp [unbe, numAt]

/-- The part of `privkeyChecks` about the two keys. -/
def loadChecks (ec : Ec) (cv : Curve) (s : Bytes) : List (Bool × Err) :=
  [(ec.ok .keyNew, .oom), (ec.ok .groupNew, .cryptoUnknown), (ec.ok .keySetGroup, .cryptoUnknown),
   (decide (4 + numAt s 2 ≤ s.length), .cryptoUnknown), (ec.ok .pubIn, .cryptoUnknown), ((ec.pubIn cv (pubPart s)).isSome, .cryptoUnknown),
   (decide (4 + numAt s 2 + numAt s 3 ≤ s.length), .cryptoUnknown), (ec.ok .privIn, .cryptoUnknown),
   (decide (∃ d ∈ d2iInt (privPart s), d.2 = []), .cryptoUnknown), (ec.ok .asn1ToBn, .oom), (ec.ok .keySetPriv, .oom)]

theorem privkeyChecks_eq (ec : Ec) (cv : Curve) (a : Nat) (s : Bytes) : privkeyChecks ec cv a s =
    [(decide (5 ≤ s.length), .cryptoUnknown), (decide (numAt s 0 * 256 + numAt s 1 = a), .cryptoUnknown)] ++ loadChecks ec cv s ++
    [(decide (s.length = 4 + numAt s 2 + numAt s 3), .cryptoUnknown)] := rfl

theorem privkeyLoad_reports (ec : Ec) (cv : Curve) (s : Bytes) (h5 : 5 ≤ s.length) (w : Live) :
    Reports (privkeyLoad ec cv (numAt s 2) (numAt s 3) (s.drop 4) w).1
      (loadChecks ec cv s) := by
  unfold privkeyLoad Reports loadChecks
  cases h1 : ec.ok .keyNew
  · simp [firstFailure]
  cases h2 : ec.ok .groupNew
  · simp [firstFailure]
  cases h3 : ec.ok .keySetGroup
  · simp [firstFailure]
  by_cases h4 : 4 + numAt s 2 ≤ s.length
  · have h4' : numAt s 2 ≤ (s.drop 4).length := by simp; omega
    have e1 : rd (numAt s 2) (s.drop 4) = some (pubPart s, s.drop (4 + numAt s 2)) := by
      unfold rd pubPart
      rw [if_pos h4', List.drop_drop]
    rw [e1]
    cases h6 : ec.ok .pubIn
    · simp [firstFailure, h4]
    cases h7 : ec.pubIn cv (pubPart s) with
    | none => simp [firstFailure, h4, h7]
    | some q =>
      by_cases h8 : 4 + numAt s 2 + numAt s 3 ≤ s.length
      · have h8' : numAt s 3 ≤ (s.drop (4 + numAt s 2)).length := by simp; omega
        have e2 : rd (numAt s 3) (s.drop (4 + numAt s 2)) = some (privPart s, s.drop (4 + numAt s 2 + numAt s 3)) := by
          unfold rd privPart
          rw [if_pos h8', List.drop_drop]
        cases h9 : ec.ok .privIn
        · simp [firstFailure, h4, h7, h8, e2]
        cases h10 : d2iInt (privPart s) with
        | none => simp [firstFailure, h4, h7, h8, e2, h10]
        | some x =>
          obtain ⟨d, more⟩ := x
          by_cases h11 : more = []
          · cases h12 : ec.ok .asn1ToBn <;> cases h13 : ec.ok .keySetPriv <;> simp [firstFailure, h4, h7, h8, e2, h10, h11]
          · simp [firstFailure, h4, h7, h8, e2, h10, h11]
      · have e2 : rd (numAt s 3) (s.drop (4 + numAt s 2)) = none := by
          unfold rd
          rw [if_neg (by simp; omega)]
        simp [firstFailure, h4, h7, h8, e2]
  · have e1 : rd (numAt s 2) (s.drop 4) = none := by
      unfold rd
      rw [if_neg (by simp; omega)]
    simp [firstFailure, h4, e1]

/-- The end that generating a key and beginning to sign have in common. -/
theorem end_reports (ec : Ec) (cv : Curve) (p : AlgProps) (d q : Nat) (wantPub : Bool) (w : Live) (F G H : Live → Live) :
    Reports (match (if wantPub then serializePubkey ec cv ⟨some d, some q⟩ w else (.ok [], w)) with
      | (.error e, w) => ((.error e : Except Err (Option (SigC × Option Bytes))), F w)
      | (.ok pub, w) => match sigBegin ec ⟨some d, some q⟩ p w with
        | (.error e, w) => (.error e, G w)
        | (.ok c, w) => (.ok (some (c, if wantPub then some pub else none)), H w)).1
      ((if wantPub then pubkeyChecks ec (ec.pubOut cv q).length else []) ++ [(ec.ok .ctxMem, .oom)] ++ objectChecks ec) ∧
    (match (if wantPub then serializePubkey ec cv ⟨some d, some q⟩ w else (.ok [], w)) with
      | (.error e, w) => ((.error e : Except Err (Option (SigC × Option Bytes))), F w)
      | (.ok pub, w) => match sigBegin ec ⟨some d, some q⟩ p w with
        | (.error e, w) => (.error e, G w)
        | (.ok c, w) => (.ok (some (c, if wantPub then some pub else none)), H w)).1 ≠ .ok none := by
  have key : ∀ pub w1, Reports (match sigBegin ec ⟨some d, some q⟩ p w1 with
        | (.error e, w) => ((.error e : Except Err (Option (SigC × Option Bytes))), G w)
        | (.ok c, w) => (.ok (some (c, if wantPub then some pub else none)), H w)).1 ([(ec.ok .ctxMem, .oom)] ++ objectChecks ec) ∧
      (match sigBegin ec ⟨some d, some q⟩ p w1 with
        | (.error e, w) => ((.error e : Except Err (Option (SigC × Option Bytes))), G w)
        | (.ok c, w) => (.ok (some (c, if wantPub then some pub else none)), H w)).1 ≠ .ok none := by
    intro pub w1
    have hb := sigBegin_reports ec ⟨some d, some q⟩ p w1
    revert hb
    cases sigBegin ec ⟨some d, some q⟩ p w1 with
    | mk r w2 =>
      unfold Reports
      generalize firstFailure _ = z
      cases r <;> cases z <;> simp
  have hs := serializePubkey_reports ec cv (some d) q w
  rw [List.append_assoc]
  cases wantPub with
  | false => exact key [] w
  | true =>
    simp only [if_true] at key ⊢
    revert hs
    cases serializePubkey ec cv ⟨some d, some q⟩ w with
    | mk r w2 =>
      cases r with
      | error e =>
        unfold Reports
        rw [firstFailure_append]
        generalize firstFailure (pubkeyChecks _ _) = z
        cases z <;> simp
      | ok pub =>
        intro hs
        refine ⟨?_, (key pub w2).2⟩
        have := (key pub w2).1
        unfold Reports at hs this ⊢
        rw [firstFailure_append]
        revert hs
        generalize firstFailure (pubkeyChecks _ _) = z
        cases z with
        | some e => simp
        | none => intro _; exact this

/-- What a successful reading of a private key gives. -/
theorem privkeyLoad_value {ec : Ec} {cv : Curve} {s : Bytes} {w : Live} {x : EcKey × Bytes} (h5 : 5 ≤ s.length)
    (h : (privkeyLoad ec cv (numAt s 2) (numAt s 3) (s.drop 4) w).1 = .ok x) :
    ∃ q d, ec.pubIn cv (pubPart s) = some q ∧ x = (⟨some d, some q⟩, s.drop (4 + numAt s 2 + numAt s 3)) ∧
      4 + numAt s 2 + numAt s 3 ≤ s.length := by
  unfold privkeyLoad at h
  split at h
  · cases h
  · simp only at h
    split at h
    · cases h
    · split at h
      · cases h
      · split at h
        · cases h
        · rename_i e1
          unfold rd at e1
          split at e1
          · rename_i hle
            cases e1
            split at h
            · cases h
            · rename_i q hq
              split at h
              · cases h
              · rename_i e2
                unfold rd at e2
                split at e2
                · rename_i hle2
                  cases e2
                  split at h
                  · cases h
                  · rename_i d more hd
                    split at h
                    · cases h
                    · split at h
                      · cases h
                      · split at h
                        · cases h
                        · cases h
                          refine ⟨q, d, ?_, ?_, ?_⟩
                          · split at hq
                            · exact hq
                            · cases hq
                          · rw [List.drop_drop, List.drop_drop, Nat.add_assoc]
                          · simp at hle hle2; omega
                · cases e2
          · cases e1

/-- A round that fails. -/
theorem signLoop_fails {ec : Ec} {cv : Curve} {t d : Nat} {m : Bytes} {fuel i : Nat} {buf : Bytes} {w : Live} {e : Err}
    (ht : t = 2 * cv.bytes + 7) (hb : buf.length ≠ t) (h : RoundFails ec cv d m i e) :
    (signLoop ec cv t d m (ecdsaSize cv) (fuel + 1) i buf w).1 = .err e := by
  have hd := ec.draw_range cv d m i
  have f1 := sig_fits hd.2.1 hd.2.2.2
  have hdec := d2iSig_order (c := cv) [] hd.2.1 hd.2.2.2
  rw [List.append_nil] at hdec
  obtain ⟨right, hr, h⟩ := h
  unfold drawn at hr
  rw [rightLength_iff hd.2.1 hd.2.2.2, ← ht] at hr
  unfold roundChecks at h
  rw [signLoop, if_neg hb]
  cases h1 : ec.ok (.sign i)
  · simp [firstFailure, h1] at h
    simp [h]
  simp only [Bool.not_true, Bool.false_eq_true, if_false]
  rw [if_neg (Nat.not_lt.mpr f1)]
  cases right with
  | true => simp [firstFailure, h1] at h
  | false =>
    rw [if_neg (by rw [← hr]; simp)]
    cases h2 : ec.ok (.sigIn i)
    · simp [firstFailure, h1, h2] at h
    simp only [if_true]
    rw [hdec]
    cases h3 : ec.ok (.dupR i)
    · simp [firstFailure, h1, h2, h3] at h
      simp [h]
    cases h4 : ec.ok (.dupS i)
    · simp [firstFailure, h1, h2, h3, h4] at h
      simp [h]
    cases h5 : ec.ok (.bnSub i)
    · simp [firstFailure, h1, h2, h3, h4, h5] at h
      simp [h]
    cases h6 : ec.ok (.sigOut i)
    · simp [firstFailure, h1, h2, h3, h4, h5, h6] at h
      simp [h]
    · simp [firstFailure, h1, h2, h3, h4, h5, h6] at h

/-- A round in which nothing fails. -/
theorem signLoop_goes {ec : Ec} {cv : Curve} {t d : Nat} {m : Bytes} {fuel i : Nat} {buf : Bytes} {w : Live}
    (hb : buf.length ≠ t) (hn : (derSig (drawn ec cv d m i).1 (drawn ec cv d m i).2).length ≠ t)
    (h : firstFailure (roundChecks ec false i) = none) :
    ∃ w1, signLoop ec cv t d m (ecdsaSize cv) (fuel + 1) i buf w = signLoop ec cv t d m (ecdsaSize cv) fuel (i + 1)
      (if ec.ok (.sigIn i) then derSig (negated ec cv d m i).1 (negated ec cv d m i).2
        else derSig (drawn ec cv d m i).1 (drawn ec cv d m i).2) w1 := by
  have hd := ec.draw_range cv d m i
  have f1 := sig_fits hd.2.1 hd.2.2.2
  have f2 := sig_fits (c := cv) hd.2.1 (s := cv.order - (ec.draw cv d m i).2) (by omega)
  have hdec := d2iSig_order (c := cv) [] hd.2.1 hd.2.2.2
  rw [List.append_nil] at hdec
  unfold drawn at hn
  unfold roundChecks at h
  rw [signLoop, if_neg hb]
  cases h1 : ec.ok (.sign i)
  · simp [firstFailure, h1] at h
  simp only [Bool.not_true, Bool.false_eq_true, if_false]
  rw [if_neg (Nat.not_lt.mpr f1), if_neg hn]
  cases h2 : ec.ok (.sigIn i)
  · exact ⟨w, rfl⟩
  simp only [if_true]
  rw [hdec]
  cases h3 : ec.ok (.dupR i)
  · simp [firstFailure, h1, h2, h3] at h
  cases h4 : ec.ok (.dupS i)
  · simp [firstFailure, h1, h2, h3, h4] at h
  cases h5 : ec.ok (.bnSub i)
  · simp [firstFailure, h1, h2, h3, h4, h5] at h
  cases h6 : ec.ok (.sigOut i)
  · simp [firstFailure, h1, h2, h3, h4, h5, h6] at h
  simp only [Bool.not_true, Bool.false_eq_true, if_false, or_self, if_true]
  rw [if_neg (Nat.not_lt.mpr f2)]
  exact ⟨_, rfl⟩

/-- The lengths of the two candidates of a round. -/
theorem right_drawn {ec : Ec} {cv : Curve} {d : Nat} {m : Bytes} {i : Nat} : RightSigLength cv (drawn ec cv d m i).1 (drawn ec cv d m i).2 ↔
    (derSig (drawn ec cv d m i).1 (drawn ec cv d m i).2).length = 2 * cv.bytes + 7 :=
  rightLength_iff (ec.draw_range cv d m i).2.1 (ec.draw_range cv d m i).2.2.2

theorem right_negated {ec : Ec} {cv : Curve} {d : Nat} {m : Bytes} {i : Nat} :
    RightSigLength cv (negated ec cv d m i).1 (negated ec cv d m i).2 ↔
    (derSig (negated ec cv d m i).1 (negated ec cv d m i).2).length = 2 * cv.bytes + 7 :=
  rightLength_iff (ec.draw_range cv d m i).2.1 (by have := ec.draw_range cv d m i; unfold negated; simp only; omega)

/-- A round that gives a signature: the loop ends there or at the test before the next. -/
theorem signLoop_gives {ec : Ec} {cv : Curve} {t d : Nat} {m : Bytes} {fuel i : Nat} {buf : Bytes} {w : Live} {x : Nat × Nat}
    (ht : t = 2 * cv.bytes + 7) (hb : buf.length ≠ t) (h : RoundGives ec cv d m i x) :
    (signLoop ec cv t d m (ecdsaSize cv) (fuel + 2) i buf w).1 = .ok (derSig x.1 x.2) := by
  obtain ⟨hx, h⟩ := h
  rcases h with ⟨rfl, h⟩ | ⟨rfl, hn, hs, h⟩
  · have hd := ec.draw_range cv d m i
    have f1 := sig_fits hd.2.1 hd.2.2.2
    rw [right_drawn, ← ht] at hx
    unfold drawn at hx ⊢
    rw [signLoop, if_neg hb]
    cases h1 : ec.ok (.sign i)
    · simp [firstFailure, roundChecks, h1] at h
    simp only [Bool.not_true, Bool.false_eq_true, if_false]
    rw [if_neg (Nat.not_lt.mpr f1), if_pos hx]
  · rw [right_drawn, ← ht] at hn
    rw [right_negated, ← ht] at hx
    obtain ⟨w1, e⟩ := signLoop_goes (fuel := fuel + 1) (w := w) hb hn h
    rw [e, hs, if_pos rfl, signLoop, if_pos hx]

/-- Rounds in vain. -/
theorem signLoop_vain {ec : Ec} {cv : Curve} {t d : Nat} {m : Bytes} {fuel i n : Nat} {buf : Bytes} {w : Live}
    (ht : t = 2 * cv.bytes + 7) (hb : buf.length ≠ t) (h : ∀ j, i ≤ j → j < i + n → RoundInVain ec cv d m j) :
    ∃ buf' w', buf'.length ≠ t ∧ signLoop ec cv t d m (ecdsaSize cv) (fuel + n) i buf w =
      signLoop ec cv t d m (ecdsaSize cv) fuel (i + n) buf' w' := by
  induction n generalizing i buf w with
  | zero => exact ⟨buf, w, hb, rfl⟩
  | succ n ih =>
    obtain ⟨h1, h2, h3⟩ := h i (Nat.le_refl _) (by omega)
    rw [right_drawn, ← ht] at h2
    rw [right_negated, ← ht] at h3
    obtain ⟨w1, e⟩ := signLoop_goes (fuel := fuel + n) (w := w) hb h2 h1
    have hb' : (if ec.ok (.sigIn i) then derSig (negated ec cv d m i).1 (negated ec cv d m i).2
        else derSig (drawn ec cv d m i).1 (drawn ec cv d m i).2).length ≠ t := by
      split
      · exact h3 ‹_›
      · exact h2
    obtain ⟨b2, w2, hb2, e2⟩ := ih (i := i + 1) (w := w1) hb' (fun j hj hj' => h j (by omega) (by omega))
    exact ⟨b2, w2, hb2, by rw [show fuel + (n + 1) = fuel + n + 1 from rfl, e, e2, show i + 1 + n = i + (n + 1) by omega]⟩

theorem rd_some {n : Nat} {b x r : Bytes} (h : rd n b = some (x, r)) : b = x ++ r ∧ x.length = n := by
  unfold rd at h
  split at h
  · cases h
    exact ⟨(List.take_append_drop n b).symm, by simp; omega⟩
  · cases h

/-- What `derRead` accepts. -/
theorem derRead_iff (tag : UInt8) (b body r : Bytes) :
    derRead tag b = some (body, r) ↔ ∃ form, b = tag :: (form ++ (body ++ r)) ∧ LengthForm body.length form := by
  constructor
  · intro h
    unfold derRead at h
    split at h
    · rename_i t l r'
      split at h
      · cases h
      · rename_i ht
        have ht : t = tag := by simpa using ht
        subst ht
        split at h
        · rename_i hl
          obtain ⟨rfl, e2⟩ := rd_some h
          exact ⟨[l], rfl, .inl ⟨by omega, by rw [e2]; simp⟩⟩
        · split at h
          · rename_i hl
            split at h
            · rename_i m r'
              obtain ⟨rfl, e2⟩ := rd_some h
              exact ⟨[l, m], rfl, .inr (.inl ⟨by have := m.toNat_lt; omega, by rw [e2, hl]; simp⟩)⟩
            · cases h
          · split at h
            · rename_i hl
              split at h
              · rename_i m m' r'
                obtain ⟨rfl, e2⟩ := rd_some h
                have h1 := m.toNat_lt
                have h2 := m'.toNat_lt
                refine ⟨[l, m, m'], rfl, .inr (.inr ⟨by omega, ?_⟩)⟩
                rw [e2, hl, show (m.toNat * 256 + m'.toNat) / 256 = m.toNat by omega, show (m.toNat * 256 + m'.toNat) % 256 = m'.toNat by omega]
                simp
              · cases h
            · cases h
    · cases h
  · rintro ⟨form, rfl, h⟩
    have e : rd body.length (body ++ r) = some (body, r) := rd_append_len body r
    rcases h with ⟨h, rfl⟩ | ⟨h, rfl⟩ | ⟨h, rfl⟩
    · unfold derRead
      simp only [List.cons_append, List.nil_append, ne_eq, not_true_eq_false, if_false, UInt8.toNat_ofNat']
      rw [show body.length % 2 ^ 8 = body.length by omega, if_pos h, e]
    · unfold derRead
      simp only [List.cons_append, List.nil_append, ne_eq, not_true_eq_false, if_false, UInt8.toNat_ofNat']
      rw [show body.length % 2 ^ 8 = body.length by omega, if_neg (by decide), if_pos trivial, e]
    · unfold derRead
      simp only [List.cons_append, List.nil_append, ne_eq, not_true_eq_false, if_false, UInt8.toNat_ofNat']
      rw [show body.length / 256 % 2 ^ 8 = body.length / 256 by omega, show body.length % 256 % 2 ^ 8 = body.length % 256 by omega,
        if_neg (by decide), if_neg (by decide), if_pos trivial, show body.length / 256 * 256 + body.length % 256 = body.length by omega, e]

theorem sigLen_of_curve {a : Nat} {p : AlgProps} {cv : Curve} (hp : algProps a = some p) (hcv : sigCurve a = some cv) :
    p.algId = a ∧ p.signatureLen = 2 * cv.bytes + 7 := by
  obtain ⟨row, hrow, hid⟩ : ∃ row ∈ suiteTable, row.id = a := by
    unfold sigCurve at hcv
    split at hcv
    · exact ⟨⟨0x0214, 1, 128, 256, 256, 0⟩, by decide, rfl⟩
    · exact ⟨⟨0x0346, 1, 192, 384, 384, 0⟩, by decide, rfl⟩
    · exact ⟨⟨0x0378, 1, 256, 384, 384, 0⟩, by decide, rfl⟩
    · exact ⟨⟨0x0578, 2, 256, 512, 384, 32⟩, by decide, rfl⟩
    · cases hcv
  have f := curve_facts hp hrow hid
  exact ⟨f.1, (f.2.2.2.2.2 cv hcv).2⟩

/-- The code of signing, with the loop set apart. -/
theorem sigSignFinish_code {ec : Ec} {fuel : Nat} {p : AlgProps} {d q : Nat} {data : Bytes} {c : SigC} {w : Live} {cv : Curve}
    (hc : IsSigner p d q data c) (hcv : sigCurve p.algId = some cv) (h : firstFailure (signFinishChecks ec) = none) :
    (sigSignFinish ec fuel c w).1 =
      match (signLoop ec cv p.signatureLen d (ec.hash (sigMd p.algId) data) (ecdsaSize cv) fuel 0 [] ((w.add .pkeyCtx 1).add .mem 1)).1 with
      | .ok sig => if ec.ok .sigStr then .ok sig else .err .oom
      | .err e => .err e
      | .ub => .ub
      | .diverge => .diverge := by
  rw [sigSignFinish_eq hc hcv]
  unfold signFinishChecks at h
  cases h1 : ec.ok .digestFinal
  · simp [firstFailure, h1] at h
  cases h2 : ec.ok .pkeyCtxNew
  · simp [firstFailure, h1, h2] at h
  cases h3 : ec.ok .signInit
  · simp [firstFailure, h1, h2, h3] at h
  cases h4 : ec.ok .signSize
  · simp [firstFailure, h1, h2, h3, h4] at h
  cases h5 : ec.ok .sigBuf
  · simp [firstFailure, h1, h2, h3, h4, h5] at h
  simp only [Bool.not_true, Bool.false_eq_true, if_false, or_self]
  generalize signLoop ec cv _ _ _ _ _ _ _ _ = r
  obtain ⟨r, w1⟩ := r
  cases r <;> cases h6 : ec.ok .sigStr <;> rfl

end Verif.Proof
