import Verif.Proof.SessionFacts
/-
Which parts of the environment a call can depend on.
-/
namespace Verif
open Spec

/-! ### requests to the CMM -/

/-- The environment with another decryption function of the CMM. -/
def Env.withDecrypt (env : Env) (d : DecRequest → Except Err DecMaterials) : Env := { env with cmm := { env.cmm with decrypt := d } }

theorem unwrapKeys_withDecrypt (env : Env) (d : DecRequest → Except Err DecMaterials) (s : Session)
    (hd : ∀ req, req.edks = s.header.edks → env.cmm.decrypt req = d req) : unwrapKeys (env.withDecrypt d) s = unwrapKeys env s := by
  unfold unwrapKeys
  simp only
  cases hp : algProps s.header.algId with
  | none => rfl
  | some p =>
    simp only
    have h1 : (env.withDecrypt d).cmm.decrypt { encCtx := s.header.encCtx, edks := s.header.edks, alg := p.algId } =
        env.cmm.decrypt { encCtx := s.header.encCtx, edks := s.header.edks, alg := p.algId } := (hd _ rfl).symm
    have h2 : (env.withDecrypt d).alloc = env.alloc := rfl
    have h3 : unwrapWith (env.withDecrypt d) = unwrapWith env := rfl
    rw [h1, h2, h3]

theorem parsedHeader_withDecrypt (env : Env) (d : DecRequest → Except Err DecMaterials) (s : Session) (buf : WBuf) (inp rest : Bytes)
    (hd : ∀ req, req.edks = s.header.edks → env.cmm.decrypt req = d req) :
    parsedHeader (env.withDecrypt d) s buf inp rest = parsedHeader env s buf inp rest := by
  unfold parsedHeader
  have h2 : (env.withDecrypt d).alloc = env.alloc := rfl
  simp only [h2]
  split
  · rfl
  · split
    · rfl
    · split
      · rfl
      · split
        · rfl
        · rename_i s' hc
          rw [unwrapKeys_withDecrypt env d s' (by rw [changeState_eq hc]; exact hd)]

theorem sessionStep_withDecrypt (env : Env) (d : DecRequest → Except Err DecMaterials) (s : Session) (hI : Inv s) (h0 : s.maxEdks ≠ 0)
    (hd : ∀ req, req.edks.length ≤ s.maxEdks → env.cmm.decrypt req = d req) (buf : WBuf) (inp : Bytes) (inNull : Bool) :
    sessionStep (env.withDecrypt d) s buf inp inNull = sessionStep env s buf inp inNull := by
  have hst := hI.st
  unfold StInv at hst
  unfold sessionStep
  cases h : s.state <;> simp only [h] at hst ⊢ <;> try rfl
  unfold tryParseHeader hdrParseInto
  cases hp : hdrParse s.maxEdks inp with
  | error e => rfl
  | ok x =>
    obtain ⟨hh, rest⟩ := x
    obtain ⟨r, hok, hle, -, -⟩ := hdrParse_iff.mp hp
    have hle : hh.edks.length ≤ s.maxEdks := by
      rcases hle with h | h
      · exact absurd h h0
      · exact h
    simp only
    exact parsedHeader_withDecrypt env d _ buf inp rest (fun req hr => hd req (by rw [hr]; exact hle))

theorem processLoop_withDecrypt (env : Env) (d : DecRequest → Except Err DecMaterials) (inNull : Bool) (fuel : Nat) (s : Session) (out : WBuf)
    (inp : Bytes) (hI : Inv s) (h0 : s.maxEdks ≠ 0) (hd : ∀ req, req.edks.length ≤ s.maxEdks → env.cmm.decrypt req = d req) :
    processLoop (env.withDecrypt d) inNull fuel s out inp = processLoop env inNull fuel s out inp := by
  induction fuel generalizing s out inp with
  | zero => rfl
  | succ n ih =>
    unfold processLoop
    rw [sessionStep_withDecrypt env d s hI h0 hd]
    have hs := sessionStep_ok env s hI (out.mem.drop out.len) inp inNull
    have hk := sessionStep_keeps env s hI (out.mem.drop out.len) inp inNull
    generalize sessionStep env s ⟨out.mem.drop out.len, 0⟩ inp inNull = r at hs hk ⊢
    cases hr : r.res <;> simp only [hr]
    split
    · exact ih r.s _ r.inp (hs.inv hr) (by rw [hk.maxEdks]; exact h0) (by rw [hk.maxEdks]; exact hd)
    · rfl

theorem process_withDecrypt (env : Env) (d : DecRequest → Except Err DecMaterials) (s : Session) (hI : Inv s) (h0 : s.maxEdks ≠ 0)
    (hd : ∀ req, req.edks.length ≤ s.maxEdks → env.cmm.decrypt req = d req) (mem inp : Bytes) (inNull : Bool) :
    process (env.withDecrypt d) s mem inp inNull = process env s mem inp inNull := by
  unfold process
  rw [processLoop_withDecrypt env d inNull _ s ⟨mem, 0⟩ inp hI h0 hd]

/-! ### calls of the AEAD -/

/-- The environment with another AEAD encryption. -/
def Env.withSeal (env : Env) (f : Bytes → Bytes → Bytes → Bytes → Option (Bytes × Bytes))
    (hf : ∀ key iv aad pt ct tag, f key iv aad pt = some (ct, tag) → ct.length = pt.length ∧ tag.length = 16) : Env :=
  { env with crypto := { env.crypto with aeadSeal := f, aeadSeal_len := hf } }

/-- Two AEAD functions agree on the recorded (key, IV) pairs. -/
def AgreeOn (l : List (Bytes × Bytes)) (f g : Bytes → Bytes → Bytes → Bytes → Option (Bytes × Bytes)) : Prop :=
  ∀ x ∈ l, ∀ aad pt, f x.1 x.2 aad pt = g x.1 x.2 aad pt

section Seal
variable (env : Env) (f : Bytes → Bytes → Bytes → Bytes → Option (Bytes × Bytes))
  (hf : ∀ key iv aad pt ct tag, f key iv aad pt = some (ct, tag) → ct.length = pt.length ∧ tag.length = 16)

theorem signHeaderEnd_nonces (s : Session) (copy : Bytes) : (signHeaderEnd env s copy).1.nonces = s.nonces := by
  unfold signHeaderEnd
  simp only
  split
  · rfl
  · split
    · rename_i s' hc; rw [changeState_eq hc]
    · rfl

theorem signHeaderTag_nonces (s : Session) (p : AlgProps) (copy : Bytes) :
    (signHeaderTag env s p copy).1.nonces = s.nonces ++ [(s.contentKey, List.replicate p.ivLen 0)] := by
  unfold signHeaderTag
  simp only
  split
  · rfl
  · split
    · split
      · rfl
      · rw [signHeaderEnd_nonces]
    · rfl

theorem signHeader_withSeal {p : AlgProps} (hp : p.ivLen = 12) (k hdr : Bytes) (n : Nat)
    (h : ∀ aad pt, env.crypto.aeadSeal k (List.replicate 12 0) aad pt = f k (List.replicate 12 0) aad pt) :
    signHeader (env.withSeal f hf).crypto p k n hdr = signHeader env.crypto p k n hdr := by
  unfold signHeader
  have h1 : (env.withSeal f hf).crypto.aeadSeal = f := rfl
  rw [h1, hp, h]

theorem signHeaderTag_withSeal (s : Session) {p : AlgProps} (hp : p.ivLen = 12) (copy : Bytes)
    (h : AgreeOn (signHeaderTag env s p copy).1.nonces env.crypto.aeadSeal f) :
    signHeaderTag (env.withSeal f hf) s p copy = signHeaderTag env s p copy := by
  rw [signHeaderTag_nonces] at h
  have hk := h (s.contentKey, List.replicate p.ivLen 0) (by simp)
  rw [hp] at hk
  unfold signHeaderTag
  simp only
  rw [signHeader_withSeal env f hf hp _ _ _ hk]
  rfl

theorem signHeaderStep_withSeal (s : Session) {p : AlgProps} (hp : p.ivLen = 12)
    (h : AgreeOn (signHeaderStep env s p).1.nonces env.crypto.aeadSeal f) :
    signHeaderStep (env.withSeal f hf) s p = signHeaderStep env s p := by
  unfold signHeaderStep at h ⊢
  have ha : (env.withSeal f hf).alloc = env.alloc := rfl
  simp only [ha] at h ⊢
  split
  · rfl
  · rename_i h0
    rw [if_neg h0] at h
    split
    · rfl
    · rename_i h1
      rw [if_neg h1] at h
      split
      · rename_i copy n heq
        rw [heq] at h
        simp only at h
        split
        · rfl
        · rename_i h2
          rw [if_neg h2] at h
          exact signHeaderTag_withSeal env f hf _ hp copy h
      · rfl

theorem buildHeader_withSeal (s : Session) {p : AlgProps} (hp : p.ivLen = 12) (m : EncMaterials)
    (h : AgreeOn (buildHeader env s p m).1.nonces env.crypto.aeadSeal f) :
    buildHeader (env.withSeal f hf) s p m = buildHeader env s p m := by
  unfold buildHeader at h ⊢
  have ha : (env.withSeal f hf).alloc = env.alloc := rfl
  simp only [ha] at h ⊢
  split
  · rfl
  · rename_i h0
    rw [if_neg h0] at h
    split
    · rfl
    · rename_i h1
      rw [if_neg h1] at h
      split
      · rfl
      · rename_i h2
        rw [if_neg h2] at h
        exact signHeaderStep_withSeal env f hf _ hp h

theorem genKeyDerive_withSeal (s : Session) {p : AlgProps} (hp : p.ivLen = 12) (m : EncMaterials)
    (h : AgreeOn (genKeyDerive env s p m).1.nonces env.crypto.aeadSeal f) :
    genKeyDerive (env.withSeal f hf) s p m = genKeyDerive env s p m := by
  unfold genKeyDerive at h ⊢
  have ha : (env.withSeal f hf).crypto.hkdf = env.crypto.hkdf := rfl
  simp only [ha] at h ⊢
  split
  · rfl
  · rfl
  · rename_i k c heq
    rw [heq] at h
    exact buildHeader_withSeal env f hf _ hp m h

theorem genKeyMessageId_withSeal (s : Session) {p : AlgProps} (hp : p.ivLen = 12) (m : EncMaterials)
    (h : AgreeOn (genKeyMessageId env s p m).1.nonces env.crypto.aeadSeal f) :
    genKeyMessageId (env.withSeal f hf) s p m = genKeyMessageId env s p m := by
  unfold genKeyMessageId at h ⊢
  have ha : (env.withSeal f hf).alloc = env.alloc := rfl
  have hb : (env.withSeal f hf).crypto.random = env.crypto.random := rfl
  simp only [ha, hb] at h ⊢
  split
  · rfl
  · rename_i h0
    rw [if_neg h0] at h
    split
    · rfl
    · rename_i mid heq
      rw [heq] at h
      exact genKeyDerive_withSeal env f hf _ hp m h

theorem tryGenKey_withSeal (s : Session) (h : AgreeOn (tryGenKey env s).1.nonces env.crypto.aeadSeal f) :
    tryGenKey (env.withSeal f hf) s = tryGenKey env s := by
  unfold tryGenKey at h ⊢
  have ha : (env.withSeal f hf).cmm = env.cmm := rfl
  simp only [ha] at h ⊢
  split
  · rfl
  · rename_i m heq
    rw [heq] at h
    simp only at h
    unfold genKeyWith at h ⊢
    simp only at h ⊢
    cases hp : algProps m.alg with
    | none => rfl
    | some p =>
      rw [hp] at h
      simp only at h ⊢
      split
      · rfl
      · rename_i hc
        rw [hc] at h
        exact genKeyMessageId_withSeal env f hf _ (suiteFacts hp).iv m h

theorem encryptBodyEnd_nonces (s : Session) (type : FrameType) (n : Nat) (buf out : WBuf) (inp r : Bytes) :
    (encryptBodyEnd env s type n buf out inp r).s.nonces = s.nonces := by
  unfold encryptBodyEnd
  split
  · rfl
  · simp only
    split
    · unfold enter
      split
      · rename_i s' hc; rw [changeState_eq hc]
      · rfl
    · rfl

theorem encryptBodyFill_nonces (s : Session) (p : AlgProps) (type : FrameType) (n : Nat) (buf : WBuf) (inp : Bytes) (inNull : Bool)
    (loc : FrameLoc) (out : WBuf) (x : Bytes × Bytes) (hx : (if inNull then none else rd n inp) = some x) :
    (encryptBodyFill env s p type n buf inp inNull loc out).s.nonces = s.nonces ++ [(s.contentKey, frameIv p s.seqno)] := by
  unfold encryptBodyFill
  rw [hx]
  obtain ⟨pt, r⟩ := x
  simp only
  split
  · rfl
  · split
    · rw [encryptBodyEnd_nonces]
    · rfl

theorem tryEncryptBody_withSeal (s : Session) (buf : WBuf) (inp : Bytes) (inNull : Bool)
    (h : AgreeOn (tryEncryptBody env s buf inp inNull).s.nonces env.crypto.aeadSeal f) :
    tryEncryptBody (env.withSeal f hf) s buf inp inNull = tryEncryptBody env s buf inp inNull := by
  unfold tryEncryptBody at h ⊢
  split
  · rfl
  · rename_i type n heq
    rw [heq] at h
    simp only at h
    unfold encryptBodyFrame at h ⊢
    split
    · rfl
    · rename_i h0
      rw [if_neg h0] at h
      split
      · rfl
      · rename_i p hp
        rw [hp] at h
        simp only at h ⊢
        have ha : (env.withSeal f hf).uninit = env.uninit := rfl
        rw [ha]
        split
        · rfl
        · rename_i loc hl
          rw [hl] at h
          simp only at h
          cases hx : (if inNull then none else rd n inp) with
          | none => unfold encryptBodyFill; rw [hx]
          | some x =>
            rw [encryptBodyFill_nonces _ _ _ _ _ _ _ _ _ _ x hx] at h
            have hk := h (s.contentKey, frameIv p s.seqno) (by simp)
            unfold encryptBodyFill
            rw [hx]
            obtain ⟨pt, r⟩ := x
            simp only
            have : encryptBody (env.withSeal f hf).crypto p s.contentKey s.header.messageId type s.seqno pt n =
                encryptBody env.crypto p s.contentKey s.header.messageId type s.seqno pt n := by
              unfold encryptBody
              have h1 : (env.withSeal f hf).crypto.aeadSeal = f := rfl
              rw [h1, hk]
            rw [this]
            rfl

theorem sessionStep_withSeal (s : Session) (buf : WBuf) (inp : Bytes) (inNull : Bool)
    (h : AgreeOn (sessionStep env s buf inp inNull).s.nonces env.crypto.aeadSeal f) :
    sessionStep (env.withSeal f hf) s buf inp inNull = sessionStep env s buf inp inNull := by
  unfold sessionStep at h ⊢
  cases hst : s.state <;> simp only [hst] at h ⊢ <;> try rfl
  · rw [tryGenKey_withSeal env f hf s h]
  · exact tryEncryptBody_withSeal env f hf s buf inp inNull h

/-- Steps only add to the record. -/
theorem sessionStep_nonces (s : Session) (hI : Inv s) (mem inp : Bytes) (inNull : Bool) :
    ∃ l, (sessionStep env s ⟨mem, 0⟩ inp inNull).s.nonces = s.nonces ++ l := by
  have hc := sessionStep_cases env s hI mem inp inNull
  generalize sessionStep env s ⟨mem, 0⟩ inp inNull = r at hc ⊢
  cases hc with
  | cfgFail h hr => subst hr; exact ⟨[], by simp⟩
  | cfgEnc h _ _ _ hr => subst hr; exact ⟨[], by simp⟩
  | cfgDec h _ _ _ hr => subst hr; exact ⟨[], by simp⟩
  | done h hr => subst hr; exact ⟨[], by simp⟩
  | error h hr => subst hr; exact ⟨[], by simp⟩
  | parse h hc =>
    cases hc with
    | fail e hr hbuf hinp hs => exact ⟨[], by simpa using hs.nonces⟩
    | stall est hr hbuf hinp hs => rw [hs]; exact ⟨[], by simp⟩
    | opened hb hd row p m k sg hr hbuf hk => rw [hk.result]; exact ⟨[], by simp⟩
  | dec h hc =>
    cases hc with
    | fail e i o q sg hr hs => rw [hs]; exact ⟨[], by simp⟩
    | stall i o hr hs => rw [hs]; exact ⟨[], by simp⟩
    | opened f pt sg i hr _ _ _ _ _ _ _ _ hs => rw [hs]; unfold decFrameState; exact ⟨[], by simp⟩
  | check h hc =>
    cases hc with
    | fail e ctx sg hr hctx hs => rw [hs]; exact ⟨[], by simp⟩
    | stall n ctx hr hctx hs => rw [hs]; exact ⟨[], by simp⟩
    | noSig hr hctx hs => rw [hs]; exact ⟨[], by simp⟩
    | verified ctx sig hr hctx hver hs => rw [hs]; exact ⟨[], by simp⟩
  | gen h hc =>
    cases hc with
    | fail e hr hs =>
      rcases hs.nonces with h | ⟨k, h⟩
      · exact ⟨[], by simpa using h⟩
      · exact ⟨_, h⟩
    | ok ctx m p mid k c ct tag sg hr hk => rw [hk.result]; exact ⟨_, rfl⟩
  | header h hc =>
    cases hc with
    | wrote c hcp hroom hr => subst hr; exact ⟨[], by simp⟩
    | stall c hcp hroom hr => subst hr; exact ⟨[], by simp⟩
  | body p h hsp hp hc =>
    cases hc with
    | fail e o i ns hr hinp hs hns =>
      rw [hs]
      rcases hns with rfl | ⟨rfl, -, -⟩
      · exact ⟨[], by simp⟩
      · exact ⟨_, rfl⟩
    | stall o i hr hinp hs => rw [hs]; exact ⟨[], by simp⟩
    | wrote type pt ct tag sg hr hk hinp hnull hs => rw [hs]; unfold encFrameState; exact ⟨_, rfl⟩
  | trailer p h hsp hp hc =>
    cases hc with
    | fail e hr hinp hsig hs => rw [hs]; exact ⟨[], by simp⟩
    | stall hr hinp hs => rw [hs]; exact ⟨[], by simp⟩
    | unsigned hr hinp hs => rw [hs]; exact ⟨[], by simp⟩
    | signed ctx sig hr hinp hsig hctx hsign hs => rw [hs]; exact ⟨[], by simp⟩

theorem processLoop_withSeal (inNull : Bool) (fuel : Nat) (s : Session) (out : WBuf) (inp : Bytes) (hI : Inv s)
    (h : AgreeOn (processLoop env inNull fuel s out inp).s.nonces env.crypto.aeadSeal f) :
    processLoop (env.withSeal f hf) inNull fuel s out inp = processLoop env inNull fuel s out inp ∧
    ∃ l, (processLoop env inNull fuel s out inp).s.nonces = s.nonces ++ l := by
  induction fuel generalizing s out inp with
  | zero => exact ⟨rfl, [], by simp [processLoop]⟩
  | succ n ih =>
    unfold processLoop at h ⊢
    have hs := sessionStep_ok env s hI (out.mem.drop out.len) inp inNull
    obtain ⟨l, hl⟩ := sessionStep_nonces env s hI (out.mem.drop out.len) inp inNull
    have hw := sessionStep_withSeal env f hf s ⟨out.mem.drop out.len, 0⟩ inp inNull
    simp only at h ⊢
    generalize sessionStep env s ⟨out.mem.drop out.len, 0⟩ inp inNull = r at hs hl hw h ⊢
    cases hr : r.res <;> simp only [hr] at h
    · split at h
      · rename_i hp
        obtain ⟨h1, l2, h2⟩ := ih r.s _ r.inp (hs.inv hr) h
        have hw := hw (fun x hx => h x (by rw [h2]; simp [hx]))
        rw [hw]
        simp only [hr]
        rw [if_pos hp, if_pos hp]
        exact ⟨h1, l ++ l2, by rw [h2, hl, List.append_assoc]⟩
      · rename_i hp
        rw [hw h]
        simp only [hr]
        rw [if_neg hp, if_neg hp]
        exact ⟨rfl, l, hl⟩
    all_goals
      rw [hw h]
      simp only [hr]
      exact ⟨trivial, l, hl⟩

theorem process_withSeal (s : Session) (mem inp : Bytes) (inNull : Bool) (hI : Inv s)
    (h : AgreeOn (process env s mem inp inNull).s.nonces env.crypto.aeadSeal f) :
    process (env.withSeal f hf) s mem inp inNull = process env s mem inp inNull := by
  have key : (process env s mem inp inNull).s.nonces = (processLoop env inNull (processFuel mem inp) s ⟨mem, 0⟩ inp).s.nonces := by
    unfold process
    simp only
    split
    · rfl
    · simp only; split <;> rfl
    · rfl
  rw [key] at h
  unfold process
  rw [(processLoop_withSeal env f hf inNull _ s ⟨mem, 0⟩ inp hI h).1]

end Seal

end Verif
