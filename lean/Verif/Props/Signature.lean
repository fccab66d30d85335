import Verif.Proof.Signature
/-
C67: signatures have exactly the length of the suite, verify, and never overflow the buffer; when signing ends.
C68: a signing key survives serialisation, and only complete keys of the right suite are accepted.
C69: verification accepts exactly valid signatures of the data, however it was sliced.
C70: the signature functions free what they do not return.
-/
namespace Verif.Props
open Spec

/-! ### C67 -/

/-- A signature that is returned has exactly the length of the suite. -/
theorem C67_length (ec : Ec) (fuel : Nat) (a : Nat) (p : AlgProps) (row : SuiteRow) (hp : algProps a = some p) (hrow : row ∈ suiteTable)
    (hid : row.id = a) (d q : Nat) (data : Bytes) (c : SigC) (hc : IsSigner p d q data c) (w w' : Live) (sig : Bytes)
    (h : sigSignFinish ec fuel c w = (.ok sig, w')) : row.curveBits ≠ 0 ∧ sig.length = signatureBytes row.curveBits := by
  obtain ⟨f1, -, f3, -, f5, -⟩ := curve_facts hp hrow hid
  cases hcv : sigCurve a with
  | none =>
    unfold sigSignFinish at h
    rw [hc.props, f1, hcv] at h
    cases h
  | some cv =>
    obtain ⟨w1, w2, hl⟩ := sigSignFinish_ok hc (by rw [f1]; exact hcv) h
    refine ⟨fun h0 => ?_, ?_⟩
    · rw [f5.mpr h0] at hcv; cases hcv
    · rw [(signLoop_ok hl).1, f3]

/-- A signature that is returned is accepted by a context for verification with the public key that was given the same data. -/
theorem C67_verifies (ec ec' : Ec) (fuel : Nat) (p : AlgProps) (cv : Curve) (hcv : sigCurve p.algId = some cv) (hlen : p.signatureLen ≠ 0)
    (d q : Nat) (data : Bytes) (c v : SigC) (hc : IsSigner p d q data c) (hv : IsVerifier p q data v) (hk : KeyPair ec cv d q)
    (hn : Negatable ec) (hs : SameEc ec ec') (w w' w1 : Live) (sig : Bytes) (h : sigSignFinish ec fuel c w = (.ok sig, w')) :
    (sigVerifyFinish ec' v sig w1).1 = .ok () := by
  obtain ⟨w1, w2, hl⟩ := sigSignFinish_ok hc hcv h
  obtain ⟨h1, h2⟩ := signLoop_ok hl
  have hver : ecdsaVerifyDer ec' cv q (ec'.hash (sigMd p.algId) data) sig = true := by
    rcases h2 with h2 | ⟨j, -, h2⟩
    · rw [h2] at h1; exact absurd h1.symm hlen
    · have hd := ec.draw_range cv d (ec.hash (sigMd p.algId) data) j
      have hsig := hk.signs (ec.hash (sigMd p.algId) data) j
      rcases h2 with h2 | h2
      · rw [h2, ecdsaVerifyDer_derSig hd.2.1 hd.2.2.2, ← hs.verify, ← hs.hash]
        exact hsig
      · rw [h2, ecdsaVerifyDer_derSig hd.2.1 (by omega), ← hs.verify, ← hs.hash, hn _ _ _ _ _ hd.2.2.1 hd.2.2.2]
        exact hsig
  unfold sigVerifyFinish
  rw [hv.props, hcv, hv.keypair, hv.md]
  simp only
  rw [if_pos hver]

/-- Re-encoding a signature never writes past the buffer that was allocated for it. -/
theorem C67_no_overflow (ec : Ec) (fuel : Nat) (p : AlgProps) (cv : Curve) (hcv : sigCurve p.algId = some cv)
    (d q : Nat) (data : Bytes) (c : SigC) (hc : IsSigner p d q data c) (w : Live) : (sigSignFinish ec fuel c w).1 ≠ .ub := by
  rw [sigSignFinish_eq hc hcv]
  have hl := signLoop_no_ub (ec := ec) (cv := cv) (t := p.signatureLen) (d := d) (m := ec.hash (sigMd p.algId) data) (fuel := fuel)
    (i := 0) (buf := []) (w := (w.add .pkeyCtx 1).add .mem 1)
  repeat' split
  all_goals simp_all

/-- If no call fails, signing ends exactly if OpenSSL at some time draws a signature that has the right length, or would have it with
`s` negated. -/
theorem C67_ends_iff (ec : Ec) (hok : ∀ s, ec.ok s = true) (a : Nat) (p : AlgProps) (hp : algProps a = some p) (cv : Curve)
    (hcv : sigCurve a = some cv) (d q : Nat) (data : Bytes) (c : SigC) (hc : IsSigner p d q data c) (w : Live) :
    (∃ fuel sig w', sigSignFinish ec fuel c w = (.ok sig, w')) ↔
    ∃ i, RightSigLength cv (ec.draw cv d (ec.hash (sigMd a) data) i).1 (ec.draw cv d (ec.hash (sigMd a) data) i).2 ∨
      RightSigLength cv (ec.draw cv d (ec.hash (sigMd a) data) i).1 (cv.order - (ec.draw cv d (ec.hash (sigMd a) data) i).2) := by
  obtain ⟨row, hrow, hid⟩ : ∃ row ∈ suiteTable, row.id = a := by
    unfold sigCurve at hcv
    split at hcv
    · exact ⟨⟨0x0214, 1, 128, 256, 256, 0⟩, by decide, rfl⟩
    · exact ⟨⟨0x0346, 1, 192, 384, 384, 0⟩, by decide, rfl⟩
    · exact ⟨⟨0x0378, 1, 256, 384, 384, 0⟩, by decide, rfl⟩
    · exact ⟨⟨0x0578, 2, 256, 512, 384, 32⟩, by decide, rfl⟩
    · cases hcv
  obtain ⟨f1, -, -, -, -, f6⟩ := curve_facts hp hrow hid
  have ht := (f6 cv hcv).2
  have hcv' : sigCurve p.algId = some cv := by rw [f1]; exact hcv
  have hiff : ∀ i, ∀ s, s < cv.order → (RightSigLength cv (ec.draw cv d (ec.hash (sigMd a) data) i).1 s ↔
      (derSig (ec.draw cv d (ec.hash (sigMd a) data) i).1 s).length = p.signatureLen) := by
    intro i s hs
    rw [rightLength_iff (ec.draw_range cv d _ i).2.1 hs, ht]
  constructor
  · rintro ⟨fuel, sig, w', h⟩
    obtain ⟨w1, w2, hl⟩ := sigSignFinish_ok hc hcv' h
    rw [f1] at hl
    obtain ⟨h1, h2⟩ := signLoop_ok hl
    rcases h2 with h2 | ⟨j, -, h2⟩
    · rw [h2] at h1
      rw [ht] at h1
      simp at h1
    · have hd := ec.draw_range cv d (ec.hash (sigMd a) data) j
      refine ⟨j, ?_⟩
      rw [hiff j _ hd.2.2.2, hiff j _ (by omega)]
      rcases h2 with h2 | h2
      · exact Or.inl (by rw [← h2]; exact h1)
      · exact Or.inr (by rw [← h2]; exact h1)
  · rintro ⟨j, h⟩
    have hd := ec.draw_range cv d (ec.hash (sigMd a) data) j
    rw [hiff j _ hd.2.2.2, hiff j _ (by omega)] at h
    refine ⟨j + 2, ?_⟩
    rw [sigSignFinish_eq hc hcv', f1]
    obtain ⟨sig, hs⟩ := signLoop_converge (fuel := j + 2) (i := 0) (buf := []) (w := (w.add .pkeyCtx 1).add .mem 1) hok (Nat.zero_le j)
      (by omega) h
    rw [hs]
    simp [hok]

/-- All but a small fraction of signatures have the right length or get it when `s` is negated: those for which `r`, `s` and `n - s`
are not smaller than a 1/512 of the range, and `s` is not one of the few numbers between `n - 2 ^ (8 * bytes - 1)` and
`2 ^ (8 * bytes - 1)`. -/
theorem C67_typical_draw (cv : Curve) (r s : Nat) (hr : 2 ^ (8 * cv.bytes - 9) ≤ r) (hr' : r < cv.order)
    (hs : 2 ^ (8 * cv.bytes - 9) ≤ s) (hs' : s + 2 ^ (8 * cv.bytes - 9) ≤ cv.order)
    (hm : s + 2 ^ (8 * cv.bytes - 1) ≤ cv.order ∨ 2 ^ (8 * cv.bytes - 1) ≤ s) :
    RightSigLength cv r s ∨ RightSigLength cv r (cv.order - s) := by
  have hb := bytes_le cv
  have ho := order_lt cv
  have hh := half_lt_order cv
  have hdouble : 2 ^ (8 * cv.bytes) = 2 ^ (8 * cv.bytes - 1) * 2 := by
    rw [show 8 * cv.bytes = (8 * cv.bytes - 1) + 1 by omega, Nat.pow_succ]; rfl
  have hhi : ∀ n, n < cv.order → 2 ^ (8 * cv.bytes - 1) ≤ n → IntBytes n (cv.bytes + 1) := by
    intro n h1 h2
    refine ⟨by omega, ?_, Or.inr ?_⟩
    · have : 2 ^ (8 * cv.bytes) ≤ 2 ^ (8 * (cv.bytes + 1) - 1) := Nat.pow_le_pow_right (by omega) (by omega)
      omega
    · rw [show 8 * (cv.bytes + 1 - 1) - 1 = 8 * cv.bytes - 1 by omega]; exact h2
  have hlo : ∀ n, n < 2 ^ (8 * cv.bytes - 1) → 2 ^ (8 * cv.bytes - 9) ≤ n → IntBytes n cv.bytes := by
    intro n h1 h2
    refine ⟨by omega, h1, Or.inr ?_⟩
    rw [show 8 * (cv.bytes - 1) - 1 = 8 * cv.bytes - 9 by omega]; exact h2
  have hp9 : 0 < 2 ^ (8 * cv.bytes - 9) := Nat.pow_pos (by omega)
  by_cases cr : 2 ^ (8 * cv.bytes - 1) ≤ r
  · by_cases cs : 2 ^ (8 * cv.bytes - 1) ≤ s
    · exact Or.inr ⟨_, _, hhi r hr' cr, hlo _ (by omega) (by omega), by omega⟩
    · exact Or.inl ⟨_, _, hhi r hr' cr, hlo s (by omega) hs, by omega⟩
  · by_cases cs : 2 ^ (8 * cv.bytes - 1) ≤ s
    · exact Or.inl ⟨_, _, hlo r (by omega) hr, hhi s (by omega) cs, by omega⟩
    · exact Or.inr ⟨_, _, hlo r (by omega) hr, hhi _ (by omega) (by omega), by omega⟩

/-! ### C68 -/

/-- What a serialised signing key is: the suite, two lengths, the public key and the private key, nothing else; whatever else is given
is refused. -/
theorem C68_accepts_only (ec : Ec) (wantPub : Bool) (p : AlgProps) (s : Bytes) (w w' : Live) (c : SigC)
    (pub : Option Bytes) (h : sigSignStart ec wantPub p s w = (.ok (some (c, pub)), w')) :
    ∃ cv d q x y, sigCurve p.algId = some cv ∧ ec.pubIn cv x = some q ∧ d2iInt y = some (d, []) ∧ IsSigner p d q [] c ∧
      x.length < 256 ∧ y.length < 256 ∧ s = be 2 p.algId ++ [UInt8.ofNat x.length, UInt8.ofNat y.length] ++ x ++ y := by
  unfold sigSignStart at h
  cases hcv : sigCurve p.algId with
  | none => rw [hcv] at h; cases h
  | some cv =>
    rw [hcv] at h
    simp only at h
    split at h
    · cases h
    · rename_i hlen
      split at h
      · cases h
      · rename_i halg
        have halg : unbe (s.take 2) = p.algId := by simpa using halg
        obtain ⟨b0, b1, b2, b3, rest, rfl⟩ : ∃ b0 b1 b2 b3 rest, s = b0 :: b1 :: b2 :: b3 :: rest := by
          match s, hlen with
          | b0 :: b1 :: b2 :: b3 :: rest, _ => exact ⟨b0, b1, b2, b3, rest, rfl⟩
          | [], h => simp at h
          | [_], h => simp at h
          | [_, _], h => simp at h
          | [_, _, _], h => simp at h
        have hu2 : unbe [b2] = b2.toNat := by simp [unbe]
        have hu3 : unbe [b3] = b3.toNat := by simp [unbe]
        simp only [List.drop_succ_cons, List.drop_zero, List.take_succ_cons, List.take_zero, hu2, hu3] at h
        have halg' : be 2 p.algId = [b0, b1] := by
          rw [← halg]
          exact be_unbe [b0, b1]
        unfold privkeyLoad at h
        simp only at h
        cases hk1 : ec.ok .keyNew with
        | false => rw [hk1] at h; cases h
        | true =>
        rw [hk1] at h
        simp only [Bool.not_true, Bool.false_eq_true, if_false] at h
        cases hk2 : ec.ok .groupNew with
        | false => rw [hk2] at h; cases h
        | true =>
        rw [hk2] at h
        simp only [Bool.not_true, Bool.false_eq_true, if_false] at h
        cases hk3 : ec.ok .keySetGroup with
        | false => rw [hk3] at h; cases h
        | true =>
        rw [hk3] at h
        simp only [Bool.not_true, Bool.false_eq_true, if_false] at h
        cases hr1 : rd b2.toNat rest with
        | none => rw [hr1] at h; cases h
        | some x1 =>
        obtain ⟨x, r1⟩ := x1
        rw [hr1] at h
        simp only at h
        cases hpi : (if ec.ok .pubIn = true then ec.pubIn cv x else none) with
        | none => rw [hpi] at h; cases h
        | some q =>
        rw [hpi] at h
        simp only at h
        have hq : ec.pubIn cv x = some q := by
          split at hpi
          · exact hpi
          · cases hpi
        cases hr2 : rd b3.toNat r1 with
        | none => rw [hr2] at h; cases h
        | some x2 =>
        obtain ⟨y, r2⟩ := x2
        rw [hr2] at h
        simp only at h
        cases hdi : (if ec.ok .privIn = true then d2iInt y else none) with
        | none => rw [hdi] at h; cases h
        | some z =>
        obtain ⟨d, more⟩ := z
        rw [hdi] at h
        simp only at h
        have hd : d2iInt y = some (d, more) := by
          split at hdi
          · exact hdi
          · cases hdi
        by_cases hmore : more = []
        · rw [if_neg (by simpa using hmore)] at h
          cases hk4 : ec.ok .asn1ToBn with
          | false => rw [hk4] at h; cases h
          | true =>
          rw [hk4] at h
          simp only [Bool.not_true, Bool.false_eq_true, if_false] at h
          cases hk5 : ec.ok .keySetPriv with
          | false => rw [hk5] at h; cases h
          | true =>
          rw [hk5] at h
          simp only [Bool.not_true, Bool.false_eq_true, if_false] at h
          by_cases hrest : r2 = []
          · rw [if_neg (by simpa using hrest)] at h
            subst hrest hmore
            obtain ⟨e1, e2⟩ := rd_some hr1
            obtain ⟨e3, e4⟩ := rd_some hr2
            have hsig : IsSigner p d q [] c := by
              cases hpub : (if wantPub = true then serializePubkey ec cv ⟨some d, some q⟩
                  (((((((w.add .ecKey 1).add .group 1).add .group (-1)).add .asn1 1).add .asn1 (-1)).add .bn 1).add .bn (-1))
                else (.ok [], ((((((w.add .ecKey 1).add .group 1).add .group (-1)).add .asn1 1).add .asn1 (-1)).add .bn 1).add .bn (-1))) with
              | mk r wp =>
                rw [hpub] at h
                cases r with
                | error e => cases h
                | ok pb =>
                  simp only at h
                  cases hb : sigBegin ec ⟨some d, some q⟩ p wp with
                  | mk r wb =>
                    rw [hb] at h
                    cases r with
                    | error e => cases h
                    | ok c1 =>
                      cases h
                      exact sigBegin_signer hb
            refine ⟨cv, d, q, x, y, rfl, hq, hd, hsig, ?_, ?_, ?_⟩
            · rw [e2]; exact UInt8.toNat_lt b2
            · rw [e4]; exact UInt8.toNat_lt b3
            · rw [halg', e2, e4, e1, e3]
              simp
          · rw [if_pos hrest] at h; cases h
        · rw [if_pos hmore] at h; cases h

/-- A key serialised for one suite is not accepted for another. -/
theorem C68_wrong_suite (e1 e2 : Ec) (b1 b2 : Bool) (p1 p2 : AlgProps) (h1 : p1.algId < 65536) (h2 : p2.algId < 65536)
    (hne : p1.algId ≠ p2.algId) (s : Bytes) (w1 w2 : Live) (c : SigC) (pub : Option Bytes) (w : Live)
    (h : sigSignStart e1 b1 p1 s w1 = (.ok (some (c, pub)), w)) : ∀ x, (sigSignStart e2 b2 p2 s w2).1 ≠ .ok (some x) := by
  rintro ⟨c', pub'⟩ h'
  obtain ⟨_, _, _, x1, y1, _, _, _, _, _, _, e1⟩ := C68_accepts_only _ _ _ _ _ _ _ _ h
  obtain ⟨_, _, _, x2, y2, _, _, _, _, _, _, e2⟩ := C68_accepts_only _ _ _ _ _ (sigSignStart e2 b2 p2 s w2).2 c' pub' (by rw [← h'])
  rw [e1] at e2
  rw [List.append_assoc, List.append_assoc, List.append_assoc, List.append_assoc] at e2
  exact hne (be_inj (by omega) (by omega) (List.append_inj e2 (by simp)).1)

/-- No accepted key is a proper beginning of another: truncated keys and keys followed by other bytes are refused. -/
theorem C68_prefix_free (e1 e2 : Ec) (b1 b2 : Bool) (p1 p2 : AlgProps) (s1 s2 : Bytes) (w1 w2 w1' w2' : Live)
    (x1 x2 : SigC × Option Bytes) (h1 : sigSignStart e1 b1 p1 s1 w1 = (.ok (some x1), w1'))
    (h2 : sigSignStart e2 b2 p2 s2 w2 = (.ok (some x2), w2')) (hpre : s1 <+: s2) : s1 = s2 := by
  obtain ⟨c1, u1⟩ := x1
  obtain ⟨c2, u2⟩ := x2
  obtain ⟨_, _, _, x1, y1, _, _, _, _, k1, k2, e1⟩ := C68_accepts_only _ _ _ _ _ _ _ _ h1
  obtain ⟨_, _, _, x2, y2, _, _, _, _, k3, k4, e2⟩ := C68_accepts_only _ _ _ _ _ _ _ _ h2
  obtain ⟨t, ht⟩ := hpre
  have h4 : s1.take 4 = s2.take 4 := by
    rw [← ht, List.take_append, show 4 - s1.length = 0 by rw [e1]; simp; omega]
    simp
  have f : ∀ (a : Nat) (x y : Bytes), (be 2 a ++ [UInt8.ofNat x.length, UInt8.ofNat y.length] ++ x ++ y).take 4 =
      be 2 a ++ [UInt8.ofNat x.length, UInt8.ofNat y.length] := by
    intro a x y
    rw [List.append_assoc, List.take_append, List.take_of_length_le (by simp)]
    simp
  rw [e1, e2, f, f] at h4
  have h5 := List.append_inj h4 (by simp)
  simp only [List.cons.injEq, and_true] at h5
  have n1 := congrArg UInt8.toNat h5.2.1
  have n2 := congrArg UInt8.toNat h5.2.2
  rw [UInt8.toNat_ofNat', UInt8.toNat_ofNat', Nat.mod_eq_of_lt (by omega), Nat.mod_eq_of_lt (by omega)] at n1 n2
  have hl : s1.length = s2.length := by
    rw [e1, e2]
    simp only [List.length_append, length_be, List.length_cons, List.length_nil]
    omega
  have : t = [] := by
    have := congrArg List.length ht
    rw [List.length_append] at this
    exact List.length_eq_zero_iff.mp (by omega)
  rw [← ht, this, List.append_nil]

/-- A context made from a serialised key has the same key pair as the context it was taken from, and has absorbed nothing; so its
signatures verify with the same public key. -/
theorem C68_round_trip (ec ec' : Ec) (cv : Curve) (p : AlgProps) (hp : p.algId < 65536) (hcv : sigCurve p.algId = some cv) (d q : Nat)
    (data : Bytes) (c : SigC) (hc : IsSigner p d q data c) (hcod : Codec ec cv q) (hs : SameEc ec ec') (w w' : Live) (s : Bytes)
    (h : sigGetPrivkey ec cv c w = (.ok s, w')) (wantPub : Bool) (w1 : Live) (x : Option (SigC × Option Bytes))
    (h' : (sigSignStart ec' wantPub p s w1).1 = .ok x) : ∃ c' pub, x = some (c', pub) ∧ IsSigner p d q [] c' := by
  have hs1 : (derInt d).length ≤ 255 ∧ (ec.pubOut cv q).length ≤ 255 ∧
      s = be 2 p.algId ++ [UInt8.ofNat (ec.pubOut cv q).length, UInt8.ofNat (derInt d).length] ++ ec.pubOut cv q ++ derInt d := by
    have h := congrArg Prod.fst h
    unfold sigGetPrivkey at h
    rw [hc.keypair] at h
    simp only at h
    split at h
    · cases h
    · simp only at h
      split at h
      · cases h
      · unfold privkeyText at h
        rw [hc.props] at h
        split at h
        · cases h
        · rename_i hle
          repeat' split at h
          all_goals first | cases h | skip
          exact ⟨by omega, by omega, rfl⟩
  cases x with
  | none =>
    exact absurd h' (sigSignStart_ne_none hcv)
  | some x =>
    obtain ⟨c', pub⟩ := x
    obtain ⟨cv2, d2, q2, x2, y2, a1, a2, a3, a4, a5, a6, a7⟩ := C68_accepts_only _ _ _ _ _ (sigSignStart ec' wantPub p s w1).2 c' pub
      (by rw [← h'])
    rw [hcv] at a1
    cases a1
    refine ⟨c', pub, rfl, ?_⟩
    obtain ⟨l1, l2, l3⟩ := hs1
    rw [l3, List.append_assoc, List.append_assoc, List.append_assoc, List.append_assoc] at a7
    have h5 := List.append_inj a7 (by simp)
    have h6 := List.append_inj h5.2 (by simp)
    simp only [List.cons.injEq, and_true] at h6
    have n1 := congrArg UInt8.toNat h6.1.1
    rw [UInt8.toNat_ofNat', UInt8.toNat_ofNat', Nat.mod_eq_of_lt (by omega), Nat.mod_eq_of_lt (by omega)] at n1
    have h7 := List.append_inj h6.2 n1
    rw [← h7.1, ← hs.pubIn, hcod.point] at a2
    cases a2
    rw [← h7.2] at a3
    have := d2iInt_derInt d [] (by
      have := derInt_length d
      omega)
    rw [List.append_nil, a3] at this
    cases this
    exact a4

/-- If no call fails, the key of every context for signing can be serialised and made into a context again. -/
theorem C68_succeeds (ec : Ec) (hok : ∀ s, ec.ok s = true) (cv : Curve) (p : AlgProps) (hp : p.algId < 65536)
    (hcv : sigCurve p.algId = some cv) (d q : Nat) (hk : KeyPair ec cv d q) (data : Bytes) (c : SigC) (hc : IsSigner p d q data c)
    (hcod : Codec ec cv q) (w : Live) :
    ∃ s w1, sigGetPrivkey ec cv c w = (.ok s, w1) ∧ ∀ wantPub w, ∃ x w2, sigSignStart ec wantPub p s w = (.ok (some x), w2) := by
  have hb := bytes_le cv
  have hbody := body_order hk.range.2
  have hlen : (derInt d).length ≤ 51 := by rw [derInt_length_short (by omega)]; omega
  have hpl := hcod.pointLen
  refine ⟨be 2 p.algId ++ [UInt8.ofNat (ec.pubOut cv q).length, UInt8.ofNat (derInt d).length] ++ ec.pubOut cv q ++ derInt d, ?_⟩
  unfold sigGetPrivkey privkeyText
  rw [hc.keypair]
  simp only [hok, Bool.not_true, Bool.false_eq_true, if_false, if_true, or_self]
  rw [if_neg (by omega), if_neg (by unfold maxPubkeySize; omega), if_neg (by unfold maxPubkeySize; omega), hc.props]
  refine ⟨_, rfl, fun wantPub w => ?_⟩
  have hu1 : UInt8.toNat (UInt8.ofNat (ec.pubOut cv q).length) = (ec.pubOut cv q).length := by
    rw [UInt8.toNat_ofNat', Nat.mod_eq_of_lt (by omega)]
  have hu2 : UInt8.toNat (UInt8.ofNat (derInt d).length) = (derInt d).length := by
    rw [UInt8.toNat_ofNat', Nat.mod_eq_of_lt (by omega)]
  have hl2 : 2 ≤ (derInt d).length := by rw [derInt_length_short (by omega)]; omega
  obtain ⟨b0, b1, hbe⟩ : ∃ b0 b1, be 2 p.algId = [b0, b1] := ⟨_, _, rfl⟩
  have hub : unbe [b0, b1] = p.algId := by rw [← hbe]; exact unbe_be (by omega)
  unfold sigSignStart privkeyLoad
  rw [hcv, hbe]
  simp only [List.cons_append, List.nil_append, List.length_cons, List.length_append, List.take_succ_cons, List.take_zero,
    List.drop_succ_cons, List.drop_zero, hub, ne_eq, not_true_eq_false, if_false]
  rw [if_neg (by omega)]
  simp only [hok, Bool.not_true, Bool.false_eq_true, if_false, if_true]
  have hun : ∀ b : UInt8, unbe [b] = b.toNat := by intro b; simp [unbe]
  rw [hun, hun, hu1, hu2, rd_append_len]
  simp only [hcod.point]
  rw [← List.append_nil (derInt d), List.length_append, List.length_nil, Nat.add_zero, rd_append_len]
  simp only
  have := d2iInt_derInt d [] (by omega)
  rw [List.append_nil] at this
  rw [this]
  simp only [ne_eq, not_true_eq_false, if_false]
  cases wantPub with
  | true =>
    simp only [if_true]
    unfold serializePubkey
    simp only [hok, Bool.not_true, Bool.false_eq_true, if_false]
    rw [if_neg (by unfold maxPubkeySizeB64 maxPubkeySize; omega)]
    simp only
    obtain ⟨c1, w1, hb⟩ := sigBegin_ok hok ⟨some d, some q⟩ p
      ((((((((((w.add .ecKey 1).add .group 1).add .group (-1)).add .asn1 1).add .asn1 (-1)).add .bn 1).add .bn (-1)).add .osslBuf 1).add .mem 1).add .osslBuf (-1))
    rw [hb]
    exact ⟨_, _, rfl⟩
  | false =>
    simp only [Bool.false_eq_true, if_false]
    obtain ⟨c1, w1, hb⟩ := sigBegin_ok hok ⟨some d, some q⟩ p
      (((((((w.add .ecKey 1).add .group 1).add .group (-1)).add .asn1 1).add .asn1 (-1)).add .bn 1).add .bn (-1))
    rw [hb]
    exact ⟨_, _, rfl⟩

/-! ### C69 -/

/-- Slices do not matter: a context for signing ends up with the concatenation. -/
theorem C69_slices_sign (p : AlgProps) (d q : Nat) (data : Bytes) (c : SigC) (hc : IsSigner p d q data c) (xs : List Bytes) :
    ∃ c', feed c xs = .ok c' ∧ IsSigner p d q (data ++ xs.flatten) c' := by
  induction xs generalizing c data with
  | nil => exact ⟨c, rfl, by simpa using hc⟩
  | cons x r ih =>
    unfold feed sigUpdate
    by_cases h : x.length = 0
    · rw [if_pos h]
      have : x = [] := List.length_eq_zero_iff.mp h
      subst this
      simpa using ih data c hc
    · rw [if_neg h]
      simp only [Bool.false_eq_true, if_false]
      have := ih (data ++ x) { c with md := c.md.map (· ++ x) } ⟨hc.props, hc.keypair, hc.pkey, by rw [hc.md]; rfl, hc.isSign⟩
      simpa using this

/-- Slices do not matter for a context for verification either. -/
theorem C69_slices_verify (p : AlgProps) (q : Nat) (data : Bytes) (c : SigC) (hc : IsVerifier p q data c) (xs : List Bytes) :
    ∃ c', feed c xs = .ok c' ∧ IsVerifier p q (data ++ xs.flatten) c' := by
  induction xs generalizing c data with
  | nil => exact ⟨c, rfl, by simpa using hc⟩
  | cons x r ih =>
    unfold feed sigUpdate
    by_cases h : x.length = 0
    · rw [if_pos h]
      have : x = [] := List.length_eq_zero_iff.mp h
      subst this
      simpa using ih data c hc
    · rw [if_neg h]
      simp only [Bool.false_eq_true, if_false]
      have := ih (data ++ x) { c with md := c.md.map (· ++ x) } ⟨hc.props, hc.keypair, hc.pkey, by rw [hc.md]; rfl, hc.isSign⟩
      simpa using this

/-- A context for verification has the public key that the text encodes. -/
theorem C69_verify_start (ec : Ec) (pub : Bytes) (p : AlgProps) (w w' : Live) (v : SigC)
    (h : sigVerifyStart ec pub p w = (.ok (some v), w')) :
    ∃ cv bin q, sigCurve p.algId = some cv ∧ ec.unb64 pub = some bin ∧ ec.pubIn cv bin = some q ∧ IsVerifier p q [] v := by
  unfold sigVerifyStart at h
  cases hcv : sigCurve p.algId with
  | none => rw [hcv] at h; cases h
  | some cv =>
    rw [hcv] at h
    simp only at h
    split at h
    · cases h
    · cases hl : loadPubkey ec cv pub (w.add .mem 1) with
      | mk r w1 =>
        rw [hl] at h
        cases r with
        | error e => cases h
        | ok k =>
          simp only at h
          repeat' split at h
          all_goals first | cases h | skip
          unfold loadPubkey at hl
          cases hu : ec.unb64 pub with
          | none => rw [hu] at hl; cases hl
          | some bin =>
            rw [hu] at hl
            simp only at hl
            cases hpi : (if ec.ok .pubIn = true then ec.pubIn cv bin else none) with
            | none =>
              rw [hpi] at hl
              simp only at hl
              repeat' split at hl
              all_goals cases hl
            | some q =>
              rw [hpi] at hl
              have hq : ec.pubIn cv bin = some q := by
                split at hpi
                · exact hpi
                · cases hpi
              simp only at hl
              repeat' split at hl
              all_goals first | cases hl | skip
              exact ⟨cv, bin, q, rfl, rfl, hq, rfl, rfl, rfl, rfl, rfl⟩

/-- Verification accepts only the DER encoding of a pair that verifies for the digest of the data under the public key, and accepts
each such pair. -/
theorem C69_verify_iff (ec : Ec) (a : Nat) (p : AlgProps) (row : SuiteRow) (hp : algProps a = some p) (hrow : row ∈ suiteTable)
    (hid : row.id = a) (cv : Curve) (hcv : sigCurve a = some cv) (q : Nat) (data : Bytes) (v : SigC) (hv : IsVerifier p q data v) (sig : Bytes) (w : Live) :
    ((sigVerifyFinish ec v sig w).1 = .ok () → ∃ r s, sig = derSig r s ∧
      ec.verify cv q (ec.hash (signatureDigest row.curveBits) data) r s = true) ∧
    (∀ r s, r < cv.order → s < cv.order → ec.verify cv q (ec.hash (signatureDigest row.curveBits) data) r s = true → sig = derSig r s →
      (sigVerifyFinish ec v sig w).1 = .ok ()) ∧
    ((sigVerifyFinish ec v sig w).1 = .ok () ∨ (sigVerifyFinish ec v sig w).1 = .error .badCiphertext) := by
  obtain ⟨f1, -, -, f4, -, -⟩ := curve_facts hp hrow hid
  unfold sigVerifyFinish
  rw [hv.props, f1, hcv, hv.keypair, hv.md, f4]
  simp only
  refine ⟨?_, ?_, ?_⟩
  · intro h
    split at h
    · rename_i hver
      unfold ecdsaVerifyDer at hver
      split at hver
      · split at hver
        · rename_i r s _ heq
          exact ⟨_, _, heq.symm, hver⟩
        · cases hver
      · cases hver
    · cases h
  · rintro r s hr hs hver rfl
    rw [if_pos (by rw [ecdsaVerifyDer_derSig hr hs]; exact hver)]
  · split
    · exact Or.inl rfl
    · exact Or.inr rfl

/-- With enough memory every text that decodes to a public key of at most 64 bytes is accepted. -/
theorem C69_verify_start_succeeds (ec : Ec) (hok : ∀ s, ec.ok s = true) (pub : Bytes) (p : AlgProps) (cv : Curve)
    (hcv : sigCurve p.algId = some cv) (bin : Bytes) (q : Nat) (h1 : ec.unb64 pub = some bin) (h2 : bin.length ≤ 64)
    (h3 : ec.pubIn cv bin = some q) (w : Live) :
    ∃ v w', sigVerifyStart ec pub p w = (.ok (some v), w') ∧ IsVerifier p q [] v := by
  have hrun : ∃ v w', sigVerifyStart ec pub p w = (.ok (some v), w') := by
    unfold sigVerifyStart loadPubkey
    simp [hcv, hok, h1, h3, maxPubkeySize, Nat.not_lt.mpr h2]
  obtain ⟨v, w', h⟩ := hrun
  obtain ⟨cv', bin', q', d1, d2, d3, d4⟩ := C69_verify_start ec pub p w w' v h
  rw [hcv] at d1; cases d1
  rw [h1] at d2; cases d2
  rw [h3] at d3; cases d3
  exact ⟨v, w', h, d4⟩

/-- A generated key: the context has the generated key pair, and the text of the public key decodes to it. -/
theorem C69_keygen (ec : Ec) (p : AlgProps) (cv : Curve) (hcv : sigCurve p.algId = some cv) (hcod : Codec ec cv (ec.genKey cv).2)
    (wantPub : Bool) (w w' : Live) (c : SigC) (pub : Option Bytes) (h : sigKeygen ec wantPub p w = (.ok (some (c, pub)), w')) :
    IsSigner p (ec.genKey cv).1 (ec.genKey cv).2 [] c ∧ (pub.isSome = wantPub) ∧
    ∀ t, pub = some t → ∃ bin, ec.unb64 t = some bin ∧ bin.length = cv.bytes + 1 ∧ ec.pubIn cv bin = some (ec.genKey cv).2 := by
  unfold sigKeygen at h
  rw [hcv] at h
  simp only at h
  split at h
  · cases h
  · split at h
    · cases h
    · split at h
      · cases h
      · cases wantPub with
        | true =>
          simp only [if_true] at h
          cases hs : serializePubkey ec cv ⟨some (ec.genKey cv).1, some (ec.genKey cv).2⟩ ((w.add .group 1).add .ecKey 1) with
          | mk r w1 =>
            rw [hs] at h
            cases r with
            | error e => cases h
            | ok t =>
              simp only at h
              cases hb : sigBegin ec ⟨some (ec.genKey cv).1, some (ec.genKey cv).2⟩ p w1 with
              | mk r w2 =>
                rw [hb] at h
                cases r with
                | error e => cases h
                | ok c1 =>
                  cases h
                  refine ⟨sigBegin_signer hb, rfl, ?_⟩
                  rintro _ ⟨⟩
                  unfold serializePubkey at hs
                  simp only at hs
                  rw [stripNul_text (hcod.text _)] at hs
                  repeat' split at hs
                  all_goals first | cases hs | skip
                  exact ⟨ec.pubOut cv (ec.genKey cv).2, hcod.base64 _, hcod.pointLen, hcod.point⟩
        | false =>
          simp only [Bool.false_eq_true, if_false] at h
          cases hb : sigBegin ec ⟨some (ec.genKey cv).1, some (ec.genKey cv).2⟩ p ((w.add .group 1).add .ecKey 1) with
          | mk r w2 =>
            rw [hb] at h
            cases r with
            | error e => cases h
            | ok c1 =>
              cases h
              exact ⟨sigBegin_signer hb, rfl, by simp⟩

/-- And key generation succeeds if no call fails, with the base64 text of the compressed public key. -/
theorem C69_keygen_succeeds (ec : Ec) (hok : ∀ s, ec.ok s = true) (p : AlgProps) (cv : Curve) (hcv : sigCurve p.algId = some cv)
    (hlen : (ec.pubOut cv (ec.genKey cv).2).length = cv.bytes + 1) (htext : (0 : UInt8) ∉ ec.b64 (ec.pubOut cv (ec.genKey cv).2)) (w : Live) :
    ∃ c w', sigKeygen ec true p w = (.ok (some (c, some (ec.b64 (ec.pubOut cv (ec.genKey cv).2)))), w') := by
  have hb := bytes_le cv
  unfold sigKeygen
  rw [hcv]
  simp only [hok, Bool.not_true, Bool.false_eq_true, if_false, or_self, if_true]
  unfold serializePubkey
  simp only [hok, Bool.not_true, Bool.false_eq_true, if_false]
  rw [if_neg (by rw [hlen]; have : maxPubkeySizeB64 = 88 := by decide
                 omega), stripNul_text htext]
  simp only
  obtain ⟨c, w', hc⟩ := sigBegin_ok hok ⟨some (ec.genKey cv).1, some (ec.genKey cv).2⟩ p
    ((((w.add .group 1).add .ecKey 1).add .osslBuf 1).add .mem 1 |>.add .osslBuf (-1))
  rw [hc]
  exact ⟨c, _, rfl⟩

/-- From key generation to verification: a signature made with a generated key over data given in some slices is accepted by a
context that was made from the text of the public key and given the same data in other slices. -/
theorem C69_end_to_end (ec ec' : Ec) (p : AlgProps) (cv : Curve) (hcv : sigCurve p.algId = some cv) (hlen : p.signatureLen ≠ 0)
    (hcod : Codec ec cv (ec.genKey cv).2) (hk : KeyPair ec cv (ec.genKey cv).1 (ec.genKey cv).2) (hn : Negatable ec) (hs : SameEc ec ec')
    (w w1 w2 w3 w4 w5 w6 : Live) (c c1 v v1 : SigC) (pub : Bytes) (xs ys : List Bytes) (hxy : xs.flatten = ys.flatten) (fuel : Nat) (sig : Bytes)
    (h1 : sigKeygen ec true p w = (.ok (some (c, some pub)), w1)) (h2 : feed c xs = .ok c1)
    (h3 : sigSignFinish ec fuel c1 w2 = (.ok sig, w3)) (h4 : sigVerifyStart ec' pub p w4 = (.ok (some v), w5)) (h5 : feed v ys = .ok v1) :
    (sigVerifyFinish ec' v1 sig w6).1 = .ok () := by
  obtain ⟨a1, -, a3⟩ := C69_keygen ec p cv hcv hcod true w w1 c (some pub) h1
  obtain ⟨bin, b1, -, b2⟩ := a3 pub rfl
  obtain ⟨cv', bin', q', d1, d2, d3, d4⟩ := C69_verify_start ec' pub p w4 w5 v h4
  rw [hcv] at d1
  cases d1
  rw [← hs.unb64, b1] at d2
  cases d2
  rw [← hs.pubIn, b2] at d3
  cases d3
  obtain ⟨c', e1, e2⟩ := C69_slices_sign _ _ _ _ _ a1 xs
  obtain ⟨v', e3, e4⟩ := C69_slices_verify _ _ _ _ d4 ys
  rw [h2] at e1
  cases e1
  rw [h5] at e3
  cases e3
  rw [hxy] at e2
  exact C67_verifies ec ec' fuel p cv hcv hlen _ _ _ _ _ e2 e4 hk hn hs _ _ _ _ h3

/-- For a suite without signature there is no context, no failure and nothing to free. -/
theorem C69_no_signature (ec : Ec) (a : Nat) (p : AlgProps) (row : SuiteRow) (hp : algProps a = some p) (hrow : row ∈ suiteTable)
    (hid : row.id = a) (hc : row.curveBits = 0) (wantPub : Bool) (x : Bytes) (w : Live) :
    sigKeygen ec wantPub p w = (.ok none, w) ∧ sigSignStart ec wantPub p x w = (.ok none, w) ∧ sigVerifyStart ec x p w = (.ok none, w) := by
  obtain ⟨f1, -, -, -, f5, -⟩ := curve_facts hp hrow hid
  have : sigCurve p.algId = none := by rw [f1]; exact f5.mpr hc
  unfold sigKeygen sigSignStart sigVerifyStart
  rw [this]
  exact ⟨rfl, rfl, rfl⟩

/-! ### C70 -/

/-- What a start function holds afterwards in addition: on success a context and, if asked for, the text of the public key; otherwise
nothing. -/
def startHeld (r : Except Err (Option (SigC × Option Bytes))) (o : SigObj) : Int :=
  match r with
  | .ok (some (_, some _)) => held o + heldStr o
  | .ok (some (_, none)) => held o
  | _ => 0

theorem C70_keygen (ec : Ec) (wantPub : Bool) (p : AlgProps) (w : Live) (o : SigObj) :
    (sigKeygen ec wantPub p w).2 o = w o + startHeld (sigKeygen ec wantPub p w).1 o := by
  unfold sigKeygen
  cases sigCurve p.algId with
  | none => simp [startHeld]
  | some cv =>
    simp only
    split
    · simp [startHeld]
    · split
      · cases o <;> simp [startHeld, Live.add] <;> omega
      · split
        · cases o <;> simp [startHeld, Live.add] <;> omega
        · cases wantPub with
          | true =>
            simp only [if_true]
            cases hs : serializePubkey ec cv ⟨some (ec.genKey cv).1, some (ec.genKey cv).2⟩ ((w.add .group 1).add .ecKey 1) with
            | mk r w1 =>
              have h1 := serializePubkey_live hs
              unfold Grows at h1
              subst h1
              cases r with
              | error e => cases o <;> simp [startHeld, Live.add] <;> omega
              | ok t =>
                simp only
                cases hb : sigBegin ec ⟨some (ec.genKey cv).1, some (ec.genKey cv).2⟩ p
                    (fun o => ((w.add .group 1).add .ecKey 1) o + heldStr o) with
                | mk r w2 =>
                  have h2 := sigBegin_live hb
                  unfold Grows at h2
                  subst h2
                  cases r <;> cases o <;> simp [startHeld, Live.add, held, heldStr] <;> omega
          | false =>
            simp only [Bool.false_eq_true, if_false]
            cases hb : sigBegin ec ⟨some (ec.genKey cv).1, some (ec.genKey cv).2⟩ p ((w.add .group 1).add .ecKey 1) with
            | mk r w2 =>
              have h2 := sigBegin_live hb
              unfold Grows at h2
              subst h2
              cases r <;> cases o <;> simp [startHeld, Live.add, held] <;> omega

theorem C70_sign_start (ec : Ec) (wantPub : Bool) (p : AlgProps) (s : Bytes) (w : Live) (o : SigObj) :
    (sigSignStart ec wantPub p s w).2 o = w o + startHeld (sigSignStart ec wantPub p s w).1 o := by
  unfold sigSignStart
  cases sigCurve p.algId with
  | none => simp [startHeld]
  | some cv =>
    simp only
    split
    · simp [startHeld]
    · split
      · simp [startHeld]
      · cases hl : privkeyLoad ec cv (unbe (List.take 1 (List.drop 2 s))) (unbe (List.take 1 (List.drop 3 s))) (List.drop 4 s) w with
        | mk r x =>
        obtain ⟨k, w1⟩ := x
        have h0 := privkeyLoad_live hl
        cases r with
        | error e =>
          simp only at h0
          subst h0
          cases k <;> cases o <;> simp [startHeld, keyFree, Live.add] <;> omega
        | ok y =>
          obtain ⟨k1, rest⟩ := y
          simp only at h0
          obtain ⟨hk, h0⟩ := h0
          subst hk
          subst h0
          simp only
          split
          · cases o <;> simp [startHeld, keyFree, Live.add] <;> omega
          · cases wantPub with
            | true =>
              simp only [if_true]
              cases hs : serializePubkey ec cv k1 (w.add .ecKey 1) with
              | mk r w1 =>
                have h1 := serializePubkey_live hs
                unfold Grows at h1
                subst h1
                cases r with
                | error e => cases o <;> simp [startHeld, keyFree, Live.add] <;> omega
                | ok t =>
                  simp only
                  cases hb : sigBegin ec k1 p (fun o => (w.add .ecKey 1) o + heldStr o) with
                  | mk r w2 =>
                    have h2 := sigBegin_live hb
                    unfold Grows at h2
                    subst h2
                    cases r <;> cases o <;> simp [startHeld, keyFree, Live.add, held, heldStr] <;> omega
            | false =>
              simp only [Bool.false_eq_true, if_false]
              cases hb : sigBegin ec k1 p (w.add .ecKey 1) with
              | mk r w2 =>
                have h2 := sigBegin_live hb
                unfold Grows at h2
                subst h2
                cases r <;> cases o <;> simp [startHeld, keyFree, Live.add, held] <;> omega

/-- Starting a verification holds a context on success and nothing otherwise. -/
theorem C70_verify_start (ec : Ec) (pub : Bytes) (p : AlgProps) (w : Live) (o : SigObj) :
    (sigVerifyStart ec pub p w).2 o = w o + (match (sigVerifyStart ec pub p w).1 with | .ok (some _) => held o | _ => 0) := by
  cases hv : sigVerifyStart ec pub p w with
  | mk r w' =>
    unfold sigVerifyStart at hv
    cases hcv : sigCurve p.algId with
    | none => rw [hcv] at hv; cases hv; simp
    | some cv =>
      rw [hcv] at hv
      simp only at hv
      split at hv
      · cases hv; simp
      · cases hl : loadPubkey ec cv pub (w.add .mem 1) with
        | mk r1 w1 =>
          rw [hl] at hv
          have h1 := loadPubkey_live hl
          cases r1 with
          | error e =>
            simp only at h1
            subst h1
            cases hv
            cases o <;> simp [sigAbort, Live.add] <;> omega
          | ok k =>
            simp only at h1
            subst h1
            simp only at hv
            repeat' split at hv
            all_goals
              cases hv
              cases o <;> simp [sigAbort, Live.add, held] <;> omega

/-- Serialising a key gives a string on success and nothing otherwise. -/
theorem C70_get_keys (ec : Ec) (cv : Curve) (c : SigC) (w : Live) (o : SigObj) :
    (sigGetPubkey ec cv c w).2 o = w o + (match (sigGetPubkey ec cv c w).1 with | .ok _ => heldStr o | .error _ => 0) ∧
    (sigGetPrivkey ec cv c w).2 o = w o + (match (sigGetPrivkey ec cv c w).1 with | .ok _ => heldStr o | .error _ => 0) := by
  constructor
  · unfold sigGetPubkey
    cases hk : c.keypair with
    | none => simp
    | some k =>
      simp only
      cases hs : serializePubkey ec cv k w with
      | mk r w1 =>
        have h1 := serializePubkey_live hs
        unfold Grows at h1
        subst h1
        cases r <;> rfl
  · unfold sigGetPrivkey
    split
    · simp only
      split
      · simp
      · simp only
        generalize (if (!ec.ok .privOut) = true ∨ (!ec.ok .pubOut2) = true then Except.error Err.oom else _) = r
        cases r <;> cases ec.ok .privOut <;> cases ec.ok .pubOut2 <;> cases o <;> simp [Live.add, heldStr] <;> omega
    · simp

/-- Ending a verification frees the context, whatever the result. -/
theorem C70_verify_finish (ec : Ec) (p : AlgProps) (q : Nat) (data : Bytes) (v : SigC) (hv : IsVerifier p q data v) (sig : Bytes) (w : Live)
    (o : SigObj) : (sigVerifyFinish ec v sig w).2 o = w o - held o := by
  unfold sigVerifyFinish
  simp only
  rw [sigAbort_verifier hv]

/-- Aborting frees the context. -/
theorem C70_abort (p : AlgProps) (d q : Nat) (data : Bytes) (c v : SigC) (hc : IsSigner p d q data c) (hv : IsVerifier p q data v) (w : Live)
    (o : SigObj) : sigAbort c w o = w o - held o ∧ sigAbort v w o = w o - held o := by
  rw [sigAbort_signer hc, sigAbort_verifier hv]
  exact ⟨rfl, rfl⟩

/-- Ending a signature frees the context and everything it needed, whatever the result, if not exactly one of the two calls of `BN_dup`
of an iteration fails.  Missing: that case (`C70_sign_finish_refuted`). -/
theorem C70_sign_finish_partial (ec : Ec) (hdup : ∀ i, ec.ok (.dupR i) = ec.ok (.dupS i)) (fuel : Nat) (p : AlgProps) (cv : Curve)
    (hcv : sigCurve p.algId = some cv) (d q : Nat) (data : Bytes) (c : SigC) (hc : IsSigner p d q data c) (w : Live) (o : SigObj)
    (hend : (sigSignFinish ec fuel c w).1 ≠ .diverge) :
    (sigSignFinish ec fuel c w).2 o = w o - held o + (match (sigSignFinish ec fuel c w).1 with | .ok _ => heldStr o | _ => 0) := by
  have hub := C67_no_overflow ec fuel p cv hcv d q data c hc w
  cases hr : sigSignFinish ec fuel c w with
  | mk r w' =>
    rw [hr] at hend hub
    rw [sigSignFinish_eq hc hcv] at hr
    simp only at hend hub ⊢
    split at hr
    · cases hr; rw [sigAbort_signer hc]; simp
    · split at hr
      · cases hr; rw [sigAbort_signer hc]; simp
      · split at hr
        · cases hr; rw [sigAbort_signer hc]; cases o <;> simp [Live.add, held] <;> omega
        · split at hr
          · cases hr; rw [sigAbort_signer hc]; cases o <;> simp [Live.add, held] <;> omega
          · cases hl : signLoop ec cv p.signatureLen d (ec.hash (sigMd p.algId) data) (ecdsaSize cv) fuel 0 []
                ((w.add .pkeyCtx 1).add .mem 1) with
            | mk r1 w1 =>
              have hlive := signLoop_live (ec := ec) (cv := cv) (t := p.signatureLen) (d := d) (m := ec.hash (sigMd p.algId) data)
                (cap := ecdsaSize cv) (fuel := fuel) (i := 0) (buf := []) (w := (w.add .pkeyCtx 1).add .mem 1) hdup
              rw [hl] at hr hlive
              simp only at hlive
              cases r1 with
              | ub => cases hr; exact absurd rfl hub
              | diverge => cases hr; exact absurd rfl hend
              | err e =>
                have := hlive (by simp) (by simp)
                subst this
                cases hr
                rw [sigAbort_signer hc]
                cases o <;> simp [Live.add, held] <;> omega
              | ok sig =>
                have := hlive (by simp) (by simp)
                subst this
                simp only at hr
                split at hr <;> cases hr <;> rw [sigAbort_signer hc] <;> cases o <;> simp [Live.add, held, heldStr] <;> omega

/-- Creating a digest holds two objects on success and nothing otherwise. -/
theorem C70_md_init (known newOk initOk memOk : Bool) (w : Live) (o : SigObj) :
    (mdInit known newOk initOk memOk w).2 o = w o + (match (mdInit known newOk initOk memOk w).1 with
      | .ok _ => (if o = .mdCtx ∨ o = .mem then 1 else 0)
      | .error _ => 0) := by
  cases known <;> cases newOk <;> cases initOk <;> cases memOk <;> cases o <;> simp [mdInit, Live.add] <;> omega

/-! ### Examples -/

/-- The suite of the examples. -/
def C67_props : AlgProps := staticAlgProps 0x0578 2 "sha512" 256 103 256 256

/-- A generated key and some data. -/
def C67_ctx : SigC := ⟨C67_props, some ⟨some 77, some 77⟩, some true, some [1, 2, 3], true⟩

theorem toy_unhex (x : Bytes) :
    toyEc.unhex (x.flatMap (fun b => [UInt8.ofNat (1 + b.toNat / 16), UInt8.ofNat (1 + b.toNat % 16)])) = some x := by
  induction x with
  | nil => rfl
  | cons b r ih =>
    simp only [List.flatMap_cons, List.cons_append, List.nil_append, toyEc.unhex, ih, Option.map_some, Option.some.injEq, List.cons.injEq, and_true]
    have := b.toNat_lt
    apply UInt8.toNat.inj
    simp only [UInt8.toNat_ofNat']
    omega

/-- The toy meets the assumptions about ECDSA and the encodings. -/
theorem toy_facts (ok : SigSite → Bool) (nul : Bool) (c : Curve) : KeyPair (toyEc ok nul) c 77 77 ∧ Negatable (toyEc ok nul) ∧
    Codec (toyEc ok nul) c 77 ∧ ∀ ok' nul', SameEc (toyEc ok nul) (toyEc ok' nul') := by
  refine ⟨⟨by cases c <;> decide, ?_⟩, ?_, ⟨by cases c <;> rfl, by cases c <;> rfl, toy_unhex, ?_⟩, fun _ _ => ⟨rfl, rfl, rfl, rfl, rfl, rfl⟩⟩
  · intro m i
    simp [toyEc]
  · intro c q m r s _ _
    rfl
  · intro x h
    simp only [toyEc, List.mem_flatMap, List.mem_cons, List.not_mem_nil, or_false] at h
    obtain ⟨b, -, h⟩ := h
    have := b.toNat_lt
    rcases h with h | h <;>
    · have := congrArg UInt8.toNat h
      simp only [UInt8.toNat_ofNat', UInt8.toNat_zero] at this
      omega

/-- From key generation to verification, with a NUL byte after base64 and with the negation of `s` in the first iteration; the context
made from the serialised key signs the same. -/
example : let ec := toyEc (fun _ => true) true
    IsSigner C67_props 77 77 [1, 2, 3] C67_ctx ∧
    (∃ pub w1, sigKeygen ec true C67_props (fun _ => 0) = (.ok (some (⟨C67_props, some ⟨some 77, some 77⟩, some true, some [], true⟩, some pub)), w1) ∧
      ∃ v w2, sigVerifyStart ec pub C67_props (fun _ => 0) = (.ok (some v), w2) ∧ IsVerifier C67_props 77 [] v) ∧
    (∃ sig w1, sigSignFinish ec 2 C67_ctx (fun _ => 0) = (.ok sig, w1) ∧ sig.length = 103) ∧
    (match (sigGetPrivkey ec .p384 C67_ctx (fun _ => 0)).1 with
      | .ok s => (match (sigSignStart ec false C67_props s (fun _ => 0)).1 with
        | .ok (some (c, _)) => c.keypair == C67_ctx.keypair && c.isSign
        | _ => false)
      | .error _ => false) = true ∧
    ¬ RightSigLength .p384 (ec.draw .p384 77 [] 0).1 (ec.draw .p384 77 [] 0).2 := by
  refine ⟨⟨rfl, rfl, rfl, rfl, rfl⟩, ⟨_, _, rfl, _, _, rfl, ⟨rfl, by decide +kernel, rfl, rfl, rfl⟩⟩, ?_, by decide +kernel, ?_⟩
  · have h : ((sigSignFinish (toyEc (fun _ => true) true) 2 C67_ctx (fun _ => 0)).1 |> fun r => match r with | .ok s => s.length == 103 | _ => false) = true := by
      decide +kernel
    cases hs : sigSignFinish (toyEc (fun _ => true) true) 2 C67_ctx (fun _ => 0) with
    | mk r w =>
      rw [hs] at h
      cases r with
      | ok s => exact ⟨s, w, rfl, eq_of_beq h⟩
      | _ => cases h
  · rw [rightLength_iff (by decide +kernel) (by decide +kernel)]
    decide +kernel

/-- Key generation with the toy, for `C69_keygen_succeeds`. -/
example : ∃ c w', sigKeygen (toyEc (fun _ => true) true) true C67_props (fun _ => 0) =
    (.ok (some (c, some ((toyEc (fun _ => true) true).b64 (2 :: be 48 77)))), w') :=
  C69_keygen_succeeds (toyEc (fun _ => true) true) (fun _ => rfl) C67_props .p384 (by decide +kernel) (by decide +kernel)
    ((toy_facts (fun _ => true) true .p384).2.2.1.text _) (fun _ => 0)

/-- A suitable public key for `C69_verify_start_succeeds`. -/
example : ∃ bin, (toyEc (fun _ => true) true).unb64 ((toyEc (fun _ => true) true).b64 (2 :: be 48 77)) = some bin ∧ bin.length ≤ 64 ∧
    (toyEc (fun _ => true) true).pubIn .p384 bin = some 77 := ⟨2 :: be 48 77, toy_unhex _, by decide +kernel, by decide +kernel⟩

/-- The hypotheses of `C67_typical_draw` in numbers: for P-256 the excluded middle is less than `2 ^ 225` wide. -/
example : 2 ^ 255 + 2 ^ 255 - Curve.order .p256 < 2 ^ 225 ∧ 2 ^ 383 + 2 ^ 383 - Curve.order .p384 < 2 ^ 190 ∧
    2 ^ (8 * Curve.bytes .p256 - 9) ≤ (2 ^ 254 : Nat) ∧ 2 ^ 254 + 2 ^ (8 * Curve.bytes .p256 - 1) ≤ Curve.order .p256 := by decide

/-- If the copy of `r` cannot be allocated while that of `s` can, the latter is never freed: the full statement of C70 is false. -/
theorem C70_sign_finish_refuted :
    let ec := toyEc (fun s => s ≠ .dupR 0) true
    (sigSignFinish ec 2 C67_ctx held).1 = .err .oom ∧ (sigSignFinish ec 2 C67_ctx held).2 .bn = 1 ∧
    ∀ o, o ≠ .bn → (sigSignFinish ec 2 C67_ctx held).2 o = 0 := by
  refine ⟨by decide +kernel, by decide +kernel, ?_⟩
  intro o ho
  cases o <;> first | exact absurd rfl ho | decide +kernel

/-- A case in which a call in the middle fails and everything is freed. -/
example : (sigSignFinish (toyEc (fun s => s ≠ .bnSub 0) true) 2 C67_ctx held).1 = .err .cryptoUnknown ∧
    (sigSignFinish (toyEc (fun s => s ≠ .bnSub 0) true) 2 C67_ctx held).2 .bn = 0 := by
  constructor <;> decide +kernel

end Verif.Props
