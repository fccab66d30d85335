import Verif.Proof.SignatureErrors
import Verif.Props.Signature
/-
C90: the codes that the functions for trailing signatures report.
-/
namespace Verif.Props
open Verif.Spec Verif.Proof

/-! ### C90 -/

/-- Generating a key: a context, or the code of the first thing that fails. -/
theorem C90_keygen (ec : Ec) (wantPub : Bool) (p : AlgProps) (cv : Curve) (hcv : sigCurve p.algId = some cv) (w : Live) :
    Reports (sigKeygen ec wantPub p w).1 (keygenChecks ec cv wantPub) ∧ (sigKeygen ec wantPub p w).1 ≠ .ok none := by
  unfold sigKeygen keygenChecks
  rw [hcv]
  cases h1 : ec.ok .groupNew
  · simp [Reports, firstFailure]
  cases h2 : ec.ok .keyNew
  · simp [Reports, firstFailure]
  cases h3 : ec.ok .keySetGroup
  · simp [Reports, firstFailure]
  cases h4 : ec.ok .keyGen
  · simp [Reports, firstFailure]
  simp only [Bool.not_true, Bool.false_eq_true, or_self, if_false]
  have h := end_reports ec cv p (ec.genKey cv).1 (ec.genKey cv).2 wantPub ((w.add .group 1).add .ecKey 1)
    (fun w => (w.add .ecKey (-1)).add .group (-1)) (fun w => (((if wantPub then w.add .mem (-1) else w).add .ecKey (-1)).add .group (-1)))
    (fun w => (w.add .ecKey (-1)).add .group (-1))
  exact h

/-- Beginning to sign with a serialised private key: a context, or the code of the first thing that is wrong with it or fails. -/
theorem C90_sign_start (ec : Ec) (wantPub : Bool) (p : AlgProps) (cv : Curve) (hcv : sigCurve p.algId = some cv) (s : Bytes) (w : Live) :
    Reports (sigSignStart ec wantPub p s w).1 (signStartChecks ec cv p.algId wantPub s) ∧ (sigSignStart ec wantPub p s w).1 ≠ .ok none := by
  unfold signStartChecks
  rw [privkeyChecks_eq, List.append_assoc, List.append_assoc, List.append_assoc, List.append_assoc]
  unfold sigSignStart
  rw [hcv]
  by_cases h5 : 5 ≤ s.length
  · have h5' : ¬ s.length < 5 := by omega
    simp only [if_neg h5']
    rw [unbe_two s (by omega), unbe_one s 2 (by omega), unbe_one s 3 (by omega)]
    by_cases ha : numAt s 0 * 256 + numAt s 1 = p.algId
    · rw [if_neg (by simpa using ha)]
      have hl := privkeyLoad_reports ec cv s h5 w
      have hv := fun x => privkeyLoad_value (ec := ec) (cv := cv) (s := s) (w := w) (x := x) h5
      revert hl hv
      cases privkeyLoad ec cv (numAt s 2) (numAt s 3) (s.drop 4) w with
      | mk r x =>
        obtain ⟨k, w1⟩ := x
        intro hl hv
        cases r with
        | error e =>
          refine ⟨reports_append (by simp [firstFailure, h5, ha]) fun _ => reports_append ?_ ?_, by simp⟩
          · intro e' he'
            unfold Reports at hl
            rw [he'] at hl
            simpa using hl
          · intro hn
            unfold Reports at hl
            rw [hn] at hl
            simp at hl
        | ok x =>
          obtain ⟨q, d, hq, rfl, hle⟩ := hv x rfl
          have hn : firstFailure (loadChecks ec cv s) = none := by
            unfold Reports at hl
            revert hl
            generalize firstFailure _ = z
            cases z <;> simp
          simp only
          by_cases hrest : s.length = 4 + numAt s 2 + numAt s 3
          · have h0 : s.drop (4 + numAt s 2 + numAt s 3) = [] := by rw [← hrest]; simp
            rw [if_neg (by simpa using h0)]
            have h := end_reports ec cv p d q wantPub w1 (keyFree (some ⟨some d, some q⟩))
              (fun w => keyFree (some ⟨some d, some q⟩) (if wantPub then w.add .mem (-1) else w)) (keyFree (some ⟨some d, some q⟩))
            refine ⟨?_, h.2⟩
            refine reports_append (by simp [firstFailure, h5, ha]) fun _ => reports_append (by rw [hn]; simp) fun _ =>
              reports_append (by simp [firstFailure, hrest]) fun _ => ?_
            rw [hq]
            rw [← List.append_assoc]
            exact h.1
          · have h0 : s.drop (4 + numAt s 2 + numAt s 3) ≠ [] := by
              intro h0
              have := congrArg List.length h0
              simp at this
              omega
            rw [if_pos h0]
            refine ⟨?_, by simp⟩
            refine reports_append (by simp [firstFailure, h5, ha]) fun _ => reports_append (by rw [hn]; simp) fun _ => ?_
            simp [Reports, firstFailure, hrest]
    · rw [if_pos ha]
      simp [Reports, firstFailure, h5, ha]
  · have h5' : s.length < 5 := by omega
    simp [Reports, firstFailure, h5, h5']

/-- Beginning to verify: a context, or the code of the first thing that is wrong with the public key or fails. -/
theorem C90_verify_start (ec : Ec) (p : AlgProps) (cv : Curve) (hcv : sigCurve p.algId = some cv) (pub : Bytes) (w : Live) :
    Reports (sigVerifyStart ec pub p w).1 (verifyStartChecks ec cv pub) ∧ (sigVerifyStart ec pub p w).1 ≠ .ok none := by
  unfold sigVerifyStart verifyStartChecks
  rw [hcv]
  cases h0 : ec.ok .ctxMem
  · simp [Reports, firstFailure]
  simp only [Bool.not_true, Bool.false_eq_true, if_false]
  have hl := loadPubkey_reports ec cv pub (w.add .mem 1)
  revert hl
  cases loadPubkey ec cv pub (w.add .mem 1) with
  | mk r w1 =>
    cases r with
    | error e =>
      intro hl
      refine ⟨?_, by simp⟩
      unfold Reports at hl ⊢
      rw [firstFailure_append]
      rw [firstFailure, if_pos rfl]
      revert hl
      generalize firstFailure _ = z
      cases z <;> simp
    | ok k =>
      intro hl
      have hn : ∀ l e, Reports (.ok k) l → firstFailure ((true, e) :: l) = none := by
        intro l e hl
        unfold Reports at hl
        rw [firstFailure, if_pos rfl]
        revert hl
        generalize firstFailure _ = z
        cases z <;> simp
      have hn := hn _ .oom hl
      unfold Reports
      rw [firstFailure_append, hn]
      unfold objectChecks
      cases h2 : ec.ok .pkeyNew <;> cases h3 : ec.ok .pkeySet <;> cases h4 : ec.ok .mdNew <;> cases h5 : ec.ok .mdInit <;> simp [firstFailure]

/-- Writing the public key. -/
theorem C90_get_pubkey (ec : Ec) (cv : Curve) (p : AlgProps) (d q : Nat) (data : Bytes) (c v : SigC) (hc : IsSigner p d q data c)
    (hv : IsVerifier p q data v) (w : Live) :
    Reports (sigGetPubkey ec cv c w).1 (pubkeyChecks ec (ec.pubOut cv q).length) ∧
    Reports (sigGetPubkey ec cv v w).1 (pubkeyChecks ec (ec.pubOut cv q).length) := by
  unfold sigGetPubkey
  rw [hc.keypair, hv.keypair]
  exact ⟨serializePubkey_reports ec cv (some d) q w, serializePubkey_reports ec cv none q w⟩

/-- Serialising the private key. -/
theorem C90_get_privkey (ec : Ec) (cv : Curve) (p : AlgProps) (d q : Nat) (data : Bytes) (c : SigC) (hc : IsSigner p d q data c) (w : Live) :
    Reports (sigGetPrivkey ec cv c w).1 (getPrivkeyChecks ec (ec.pubOut cv q).length (derInt d).length) := by
  unfold sigGetPrivkey getPrivkeyChecks privkeyText
  rw [hc.keypair]
  simp only
  cases h1 : ec.ok .asn1New
  · simp [Reports, firstFailure]
  cases h2 : ec.ok .privOut
  · simp [Reports, firstFailure]
  cases h3 : ec.ok .pubOut2
  · simp [Reports, firstFailure]
  have hm : maxPubkeySize * 2 + 2 = 130 := rfl
  rw [hm]
  generalize (ec.pubOut cv q).length = n
  by_cases h4 : n ≤ 255
  · by_cases h5 : (derInt d).length ≤ 255
    · have h45 : ¬ (255 < (derInt d).length ∨ 255 < n) := by omega
      by_cases h6 : n + (derInt d).length ≤ 126
      · have h6' : ¬ 130 < 4 + n := by omega
        have h6'' : ¬ 130 < 4 + n + (derInt d).length := by omega
        cases h7 : ec.ok .privStr <;> simp [Reports, firstFailure, h4, h5, h45, h6, h6', h6'']
      · by_cases h7 : 130 < 4 + n
        · simp [Reports, firstFailure, h4, h5, h45, h6, h7]
        · have h8 : 130 < 4 + n + (derInt d).length := by omega
          simp [Reports, firstFailure, h4, h5, h45, h6, h7, h8]
    · have h45 : 255 < (derInt d).length ∨ 255 < n := by omega
      simp [Reports, firstFailure, h4, h5, h45]
  · have h45 : 255 < (derInt d).length ∨ 255 < n := by omega
    simp [Reports, firstFailure, h4, h45]

/-- Giving data to a context. -/
theorem C90_update (fails : Bool) (x : Bytes) (c : SigC) : Reports (sigUpdate fails x c) [(decide (x = [] ∨ fails = false), .cryptoUnknown)] := by
  unfold sigUpdate
  cases x <;> cases fails <;> simp [Reports, firstFailure]

/-- Before a signature is drawn, signing reports the first thing that fails. -/
theorem C90_sign_finish_error (ec : Ec) (fuel : Nat) (p : AlgProps) (cv : Curve) (hcv : sigCurve p.algId = some cv)
    (d q : Nat) (data : Bytes) (c : SigC) (hc : IsSigner p d q data c) (w : Live) (e : Err)
    (h : firstFailure (signFinishChecks ec) = some e) : (sigSignFinish ec fuel c w).1 = .err e := by
  rw [sigSignFinish_eq hc hcv]
  unfold signFinishChecks at h
  cases h1 : ec.ok .digestFinal
  · simp [firstFailure, h1] at h; simp [h]
  cases h2 : ec.ok .pkeyCtxNew
  · simp [firstFailure, h1, h2] at h; simp [h]
  cases h3 : ec.ok .signInit
  · simp [firstFailure, h1, h2, h3] at h; simp [h]
  cases h4 : ec.ok .signSize
  · simp [firstFailure, h1, h2, h3, h4] at h; simp [h]
  cases h5 : ec.ok .sigBuf
  · simp [firstFailure, h1, h2, h3, h4, h5] at h; simp [h]
  · simp [firstFailure, h1, h2, h3, h4, h5] at h

/-- Otherwise the first round that is not in vain decides: its code, or its signature, if there is memory for that. -/
theorem C90_sign_finish_round (ec : Ec) (a : Nat) (p : AlgProps) (hp : algProps a = some p) (cv : Curve) (hcv : sigCurve a = some cv)
    (d q : Nat) (data : Bytes) (c : SigC) (hc : IsSigner p d q data c) (w : Live) (h : firstFailure (signFinishChecks ec) = none)
    (i fuel : Nat) (hi : ∀ j, j < i → RoundInVain ec cv d (ec.hash (sigMd a) data) j) (hf : i + 2 ≤ fuel) :
    (∀ e, RoundFails ec cv d (ec.hash (sigMd a) data) i e → (sigSignFinish ec fuel c w).1 = .err e) ∧
    (∀ x, RoundGives ec cv d (ec.hash (sigMd a) data) i x →
      (sigSignFinish ec fuel c w).1 = if ec.ok .sigStr then .ok (derSig x.1 x.2) else .err .oom) := by
  obtain ⟨e1, e2⟩ := sigLen_of_curve hp hcv
  obtain ⟨f, rfl⟩ : ∃ f, fuel = f + 2 + i := ⟨fuel - 2 - i, by omega⟩
  rw [sigSignFinish_code hc (by rw [e1]; exact hcv) h, e1]
  obtain ⟨b, w1, hb, e⟩ := signLoop_vain (ec := ec) (cv := cv) (t := p.signatureLen) (d := d) (m := ec.hash (sigMd a) data) (fuel := f + 2)
    (i := 0) (n := i) (buf := []) (w := (w.add .pkeyCtx 1).add .mem 1) e2 (by rw [e2]; simp) (fun j _ hj => hi j (by omega))
  rw [e, Nat.zero_add]
  refine ⟨fun e h => ?_, fun x h => ?_⟩
  · rw [signLoop_fails e2 hb h]
  · rw [signLoop_gives e2 hb h]

/-- While all rounds are in vain, signing goes on. -/
theorem C90_sign_finish_in_vain (ec : Ec) (a : Nat) (p : AlgProps) (hp : algProps a = some p) (cv : Curve) (hcv : sigCurve a = some cv)
    (d q : Nat) (data : Bytes) (c : SigC) (hc : IsSigner p d q data c) (w : Live) (h : firstFailure (signFinishChecks ec) = none)
    (fuel : Nat) (hi : ∀ j, j < fuel → RoundInVain ec cv d (ec.hash (sigMd a) data) j) : (sigSignFinish ec fuel c w).1 = .diverge := by
  obtain ⟨e1, e2⟩ := sigLen_of_curve hp hcv
  rw [sigSignFinish_code hc (by rw [e1]; exact hcv) h, e1]
  obtain ⟨b, w1, hb, e⟩ := signLoop_vain (ec := ec) (cv := cv) (t := p.signatureLen) (d := d) (m := ec.hash (sigMd a) data) (fuel := 0)
    (i := 0) (n := fuel) (buf := []) (w := (w.add .pkeyCtx 1).add .mem 1) e2 (by rw [e2]; simp) (fun j _ hj => hi j (by omega))
  rw [Nat.zero_add] at e
  rw [e]
  rfl

/-- Every round fails, gives a signature or is in vain. -/
theorem C90_rounds (ec : Ec) (cv : Curve) (d : Nat) (m : Bytes) (i : Nat) :
    (∃ e, RoundFails ec cv d m i e) ∨ (∃ x, RoundGives ec cv d m i x) ∨ RoundInVain ec cv d m i := by
  by_cases hr : RightSigLength cv (drawn ec cv d m i).1 (drawn ec cv d m i).2
  · cases h : firstFailure (roundChecks ec true i) with
    | some e => exact .inl ⟨e, true, by simpa using hr, h⟩
    | none => exact .inr (.inl ⟨_, hr, .inl ⟨rfl, h⟩⟩)
  · cases h : firstFailure (roundChecks ec false i) with
    | some e => exact .inl ⟨e, false, by simpa using hr, h⟩
    | none =>
      by_cases hs : ec.ok (.sigIn i) = true ∧ RightSigLength cv (negated ec cv d m i).1 (negated ec cv d m i).2
      · exact .inr (.inl ⟨_, hs.2, .inr ⟨rfl, hr, hs.1, h⟩⟩)
      · exact .inr (.inr ⟨h, hr, fun h1 h2 => hs ⟨h1, h2⟩⟩)

/-- Making a digest context. -/
theorem C90_md_init (known newOk initOk memOk : Bool) (w : Live) :
    Reports (mdInit known newOk initOk memOk w).1 [(known, .cryptoUnknown), (newOk, .oom), (initOk, .cryptoUnknown), (memOk, .oom)] := by
  cases known <;> cases newOk <;> cases initOk <;> cases memOk <;> simp [mdInit, Reports, firstFailure]

/-- The code for lack of memory is reported only if a call that gives memory failed, and the code for a bad message by no function but
the one that begins to verify, if the public key is not the base64 text of a point. -/
theorem C90_codes (ec : Ec) (wantPub : Bool) (p : AlgProps) (cv : Curve) (hcv : sigCurve p.algId = some cv) (s pub : Bytes) (w : Live) :
    ((sigKeygen ec wantPub p w).1 = .error .oom ∨ (sigSignStart ec wantPub p s w).1 = .error .oom ∨ (sigVerifyStart ec pub p w).1 = .error .oom →
      ∃ x, givesMemory x = true ∧ ec.ok x = false) ∧
    (sigKeygen ec wantPub p w).1 ≠ .error .badCiphertext ∧ (sigSignStart ec wantPub p s w).1 ≠ .error .badCiphertext ∧
    ((∀ x, ec.ok x = true) → ((sigVerifyStart ec pub p w).1 = .error .badCiphertext ↔
      ¬∃ bin q, ec.unb64 pub = some bin ∧ bin.length ≤ 64 ∧ ec.pubIn cv bin = some q)) := by
  refine ⟨?_, ?_, ?_, ?_⟩
  · have key : ∀ l : List (Bool × Err), firstFailure l = some .oom →
        (∀ g, (g, Err.oom) ∈ l → ∃ x, givesMemory x = true ∧ g = ec.ok x) → ∃ x, givesMemory x = true ∧ ec.ok x = false := by
      intro l h1 h2
      obtain ⟨x, h3, h4⟩ := h2 false (firstFailure_mem h1)
      exact ⟨x, h3, h4.symm⟩
    have hobj : ∀ g, (g, Err.oom) ∈ objectChecks ec → ∃ x, givesMemory x = true ∧ g = ec.ok x := by
      intro g hg
      simp [objectChecks] at hg
      rcases hg with rfl | rfl | rfl <;> exact ⟨_, rfl, rfl⟩
    have hpub : ∀ n g, (g, Err.oom) ∈ (if wantPub then pubkeyChecks ec n else []) → ∃ x, givesMemory x = true ∧ g = ec.ok x := by
      intro n g hg
      cases wantPub <;> simp [pubkeyChecks] at hg
      exact ⟨_, rfl, hg⟩
    rintro (h | h | h)
    · refine key _ (reports_error (C90_keygen ec wantPub p cv hcv w).1 h) fun g hg => ?_
      rcases List.mem_append.mp hg with hg | hg
      · rcases List.mem_append.mp hg with hg | hg
        · rcases List.mem_append.mp hg with hg | hg
          · simp at hg
          · exact hpub _ g hg
        · simp at hg; exact ⟨_, rfl, hg⟩
      · exact hobj g hg
    · refine key _ (reports_error (C90_sign_start ec wantPub p cv hcv s w).1 h) fun g hg => ?_
      rcases List.mem_append.mp hg with hg | hg
      · rcases List.mem_append.mp hg with hg | hg
        · rcases List.mem_append.mp hg with hg | hg
          · simp [privkeyChecks] at hg
            rcases hg with rfl | rfl | rfl <;> exact ⟨_, rfl, rfl⟩
          · exact hpub _ g hg
        · simp at hg; exact ⟨_, rfl, hg⟩
      · exact hobj g hg
    · refine key _ (reports_error (C90_verify_start ec p cv hcv pub w).1 h) fun g hg => ?_
      rcases List.mem_append.mp hg with hg | hg
      · simp at hg
        rcases hg with rfl | rfl <;> exact ⟨_, rfl, rfl⟩
      · exact hobj g hg
  · intro h
    have := firstFailure_mem (reports_error (C90_keygen ec wantPub p cv hcv w).1 h)
    cases wantPub <;> simp [keygenChecks, pubkeyChecks, objectChecks] at this
  · intro h
    have := firstFailure_mem (reports_error (C90_sign_start ec wantPub p cv hcv s w).1 h)
    cases wantPub <;> simp [signStartChecks, privkeyChecks, pubkeyChecks, objectChecks] at this
  · intro hok
    have hr := (C90_verify_start ec p cv hcv pub w).1
    constructor
    · intro h
      have := firstFailure_mem (reports_error hr h)
      rintro ⟨bin, q, h1, h2, h3⟩
      simp [verifyStartChecks, objectChecks, hok, h1, h2, h3] at this
    · intro h
      unfold Reports verifyStartChecks objectChecks at hr
      simp only [hok, firstFailure, List.cons_append, List.nil_append, if_true] at hr
      by_cases h1 : ∃ bin ∈ ec.unb64 pub, bin.length ≤ 64
      · by_cases h2 : ∃ bin ∈ ec.unb64 pub, (ec.pubIn cv bin).isSome
        · obtain ⟨bin, hb, hl⟩ := h1
          obtain ⟨bin', hb', hq⟩ := h2
          rw [hb] at hb'
          cases hb'
          obtain ⟨q, hq⟩ := Option.isSome_iff_exists.mp hq
          exact absurd ⟨bin, q, hb, hl, hq⟩ h
        · rw [decide_eq_true h1, decide_eq_false h2] at hr
          exact hr
      · rw [decide_eq_false h1] at hr
        exact hr

/-- The private part of a key is understood exactly if it is a DER integer that is not negative and as short as possible; the length may be
written in any of three ways. -/
theorem C90_private_integer (y rest : Bytes) (d : Nat) : d2iInt y = some (d, rest) ↔
    ∃ form body, y = 2 :: (form ++ (body ++ rest)) ∧ LengthForm body.length form ∧ unbe body = d ∧ IntBytes d body.length := by
  unfold d2iInt
  constructor
  · intro h
    split at h
    · cases h
    · rename_i body r hd
      obtain ⟨form, e, hf⟩ := (derRead_iff _ _ _ _).mp hd
      split at h
      · rename_i hmin
        cases h
        exact ⟨form, body, e, hf, rfl, by rw [intBytes_iff, hmin]⟩
      · cases h
  · rintro ⟨form, body, e, hf, hu, hb⟩
    rw [(derRead_iff 2 y body rest).mpr ⟨form, e, hf⟩]
    have : derIntBody (unbe body) = body := by
      rw [intBytes_iff] at hb
      rw [hu]
      exact unbe_inj_len hb (by rw [unbe_derIntBody, hu])
    simp only
    rw [if_pos this, hu]

/-! ### Examples -/

/-- Failing calls and what is reported. -/
example : (sigKeygen (toyEc (fun s => s ≠ .pkeySet) true) true C67_props held).1 = .error .oom ∧
    (sigKeygen (toyEc (fun s => s ≠ .keyGen) true) true C67_props held).1 = .error .cryptoUnknown ∧
    firstFailure (keygenChecks (toyEc (fun s => s ≠ .keyGen ∧ s ≠ .ctxMem) true) .p384 true) = some .cryptoUnknown ∧
    firstFailure (keygenChecks (toyEc (fun _ => true) true) .p384 true) = none := by
  refine ⟨?_, ?_, ?_, ?_⟩ <;> decide +kernel

/-- A serialised key that is cut off, of another suite, or too long. -/
example : (sigSignStart (toyEc (fun _ => true) true) true C67_props [5, 0x78, 1, 3, 2] held).1 = .error .cryptoUnknown ∧
    (sigSignStart (toyEc (fun _ => true) true) true C67_props [5, 0x77, 1, 3, 9, 2, 1, 7] held).1 = .error .cryptoUnknown ∧
    (sigSignStart (toyEc (fun _ => true) true) true C67_props [5, 0x78, 1, 3, 9, 2, 1, 7, 0] held).1 = .error .cryptoUnknown ∧
    firstFailure (privkeyChecks (toyEc (fun _ => true) true) .p384 0x578 [5, 0x78, 1, 3, 9, 2, 1, 7]) = none ∧
    firstFailure (privkeyChecks (toyEc (fun s => s ≠ .keySetPriv) true) .p384 0x578 [5, 0x78, 1, 3, 9, 2, 1, 7]) = some .oom := by
  refine ⟨?_, ?_, ?_, ?_, ?_⟩ <;> decide +kernel

/-- A public key that is not base64, and one for which there is no memory. -/
example : (sigVerifyStart (toyEc (fun _ => true) true) [1] C67_props held).1 = .error .badCiphertext ∧
    (sigVerifyStart (toyEc (fun s => s ≠ .keyNew) true) [1, 1] C67_props held).1 = .error .oom ∧
    firstFailure (verifyStartChecks (toyEc (fun _ => true) true) .p384 [1, 1]) = none := by
  refine ⟨?_, ?_, ?_⟩ <;> decide +kernel

/-- The first round gives the negated signature; it fails if the subtraction fails, and is in vain if the drawn signature is not decoded. -/
example : (∃ x, RoundGives (toyEc (fun _ => true) true) .p384 77 [] 0 x) ∧
    RoundFails (toyEc (fun s => s ≠ .bnSub 0) true) .p384 77 [] 0 .cryptoUnknown ∧
    RoundInVain (toyEc (fun s => s ≠ .sigIn 0) true) .p384 77 [] 0 := by
  refine ⟨⟨_, ?_, .inr ⟨rfl, ?_, by decide, by decide⟩⟩, ⟨false, ?_, by decide⟩, by decide, ?_, ?_⟩
  · rw [right_negated]; decide +kernel
  · rw [right_drawn]; decide +kernel
  · rw [right_drawn]; decide +kernel
  · rw [right_drawn]; decide +kernel
  · intro h; exact absurd h (by decide)

/-- Both codes of the end of signing. -/
example : (sigSignFinish (toyEc (fun s => s ≠ .sigStr) true) 2 C67_ctx held).1 = .err .oom ∧
    (sigSignFinish (toyEc (fun s => s ≠ .sigOut 0) true) 2 C67_ctx held).1 = .err .cryptoUnknown ∧
    firstFailure (signFinishChecks (toyEc (fun s => s ≠ .sigBuf) true)) = some .oom := by
  refine ⟨?_, ?_, ?_⟩ <;> decide +kernel

/-- Two ways to write the same number. -/
example : d2iInt [2, 1, 7] = some (7, []) ∧ d2iInt [2, 0x81, 1, 7] = some (7, []) ∧ d2iInt [2, 2, 0, 7] = none := by decide +kernel

end Verif.Props
