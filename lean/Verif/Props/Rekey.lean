import Verif.Spec.Rekey
import Verif.Spec.Blind
import Verif.Proof.SessionHist
import Verif.Proof.CacheUsage
import Verif.Spec.SessionExample
/-
C108: a session uses a data key for nothing but to derive keys from it, unless the suite has no key derivation.
-/
namespace Verif.Props
open Verif Verif.Spec

theorem algProps_id {a : Nat} {p : AlgProps} (h : algProps a = some p) : p.algId = a := by
  unfold algProps at h
  split at h <;> cases h <;> rfl

theorem derives_sha {a : Nat} {p : AlgProps} (h : algProps a = some p) (hd : DerivesKeys a) : whichSha p.algId ≠ .nosha := by
  unfold DerivesKeys at hd
  unfold algProps at h
  split at h <;> cases h <;> first
    | exact absurd rfl (hd ⟨_, 1, 128, 0, 0, 0⟩ (by decide) rfl)
    | exact absurd rfl (hd ⟨_, 1, 192, 0, 0, 0⟩ (by decide) rfl)
    | exact absurd rfl (hd ⟨_, 1, 256, 0, 0, 0⟩ (by decide) rfl)
    | decide

theorem committing_derives {a : Nat} (h : algorithmIsCommitting a = true) : DerivesKeys a := by
  unfold algorithmIsCommitting at h
  split at h
  · unfold DerivesKeys; decide
  · unfold DerivesKeys; decide
  · cases h

/-- The commitment policy, if it is one, is the default. -/
def Committing (s : Session) : Prop := s.policy.isValid = true → s.policy = .requireRequire

theorem Committing.encrypt {s : Session} (h : Committing s) {a : Nat} (ha : allowedForEncrypt a s.policy = true) : algorithmIsCommitting a = true := by
  unfold Committing at h
  generalize s.policy = p at h ha
  cases p with
  | requireRequire => exact ha
  | requireAllow => cases h rfl
  | forbidAllow => cases h rfl
  | other n => cases ha

theorem Committing.decrypt {s : Session} (h : Committing s) {a : Nat} (ha : allowedForDecrypt a s.policy = true) : algorithmIsCommitting a = true := by
  unfold Committing at h
  generalize s.policy = p at h ha
  cases p with
  | requireRequire => exact ha
  | requireAllow => cases h rfl
  | forbidAllow => cases h rfl
  | other n => cases ha

theorem deriveKey_rekey {φ : Bytes → Bytes} {hk hk' : HkdfFn} (h : Renames φ hk hk') {p : AlgProps} (hs : whichSha p.algId ≠ .nosha) {k : Bytes}
    (hl : k.length = p.dataKeyLen) (mid : Bytes) (n : Nat) : deriveKey hk' p (φ k) mid n = deriveKey hk p k mid n := by
  have h1 : (φ k).take p.dataKeyLen = φ k := List.take_of_length_le (by rw [h.len, hl]; exact Nat.le_refl _)
  have h2 : k.take p.dataKeyLen = k := List.take_of_length_le (by rw [hl]; exact Nat.le_refl _)
  unfold deriveKey deriveKeyV1 deriveKeyV2
  simp only [h1, h2, if_neg hs, h.hkdf]

/-- The environment with both replacements. -/
def rekeyEnv (φ : Bytes → Bytes) (hk : HkdfFn) (hl : ∀ sha salt ikm info n k, hk sha salt ikm info n = .ok k → k.length = n) (e : Env) : Env :=
  { e with cmm := rekeyCmm φ e.cmm, crypto := withHkdf e.crypto hk hl }

theorem genKeyWith_rekey {φ : Bytes → Bytes} {hk : HkdfFn} {hl : ∀ sha salt ikm info n k, hk sha salt ikm info n = .ok k → k.length = n} {e : Env}
    (h : Renames φ e.crypto.hkdf hk) (s : Session) (m : EncMaterials)
    (hd : allowedForEncrypt m.alg s.policy = true → DerivesKeys m.alg) :
    genKeyWith (rekeyEnv φ hk hl e) s { m with dataKey := φ m.dataKey } = genKeyWith e s m := by
  unfold genKeyWith
  cases hp : algProps m.alg with
  | none => rfl
  | some p =>
    have hc : ∀ s : Session, genKeyCheck s p { m with dataKey := φ m.dataKey } = genKeyCheck s p m := by
      intro s
      unfold genKeyCheck
      simp only [h.len]
    simp only [hc]
    generalize hck : genKeyCheck { s with algProps := some p } p m = r
    cases r with
    | some _ => rfl
    | none =>
      have hlen : m.dataKey.length = p.dataKeyLen := by
        unfold genKeyCheck at hck
        split at hck
        · cases hck
        · rename_i hne; exact Decidable.not_not.mp hne
      have hall : allowedForEncrypt m.alg s.policy = true := by
        cases ha : allowedForEncrypt m.alg s.policy with
        | true => rfl
        | false =>
          unfold genKeyCheck at hck
          simp only [ha, Bool.not_false, if_true] at hck
          split at hck
          · cases hck
          split at hck
          · cases hck
          split at hck
          · cases hck
          split at hck <;> cases hck
      replace hd := hd hall
      have hder : ∀ s, genKeyDerive (rekeyEnv φ hk hl e) s p { m with dataKey := φ m.dataKey } = genKeyDerive e s p m := by
        intro s
        unfold genKeyDerive
        rw [show (rekeyEnv φ hk hl e).crypto.hkdf = hk from rfl]
        simp only [deriveKey_rekey h (derives_sha hp hd) hlen]
        rfl
      simp only [genKeyMessageId, hder]
      rfl

theorem tryGenKey_rekey {φ : Bytes → Bytes} {hk : HkdfFn} {hl : ∀ sha salt ikm info n k, hk sha salt ikm info n = .ok k → k.length = n} {e : Env}
    (h : Renames φ e.crypto.hkdf hk) (s : Session) (ho : OnlyDerives e.cmm ∨ Committing s) :
    tryGenKey (rekeyEnv φ hk hl e) s = tryGenKey e s := by
  unfold tryGenKey
  simp only
  generalize hr : EncRequest.mk s.header.encCtx 0 (if s.preciseKnown then s.preciseSize else s.sizeBound) s.policy = req
  have h1 : (rekeyEnv φ hk hl e).cmm.generate req =
    ((e.cmm.generate req).1, (e.cmm.generate req).2.map (fun m => { m with dataKey := φ m.dataKey })) := rfl
  rw [h1]
  have hg : ∀ ctx m, e.cmm.generate req = (ctx, .ok m) → allowedForEncrypt m.alg s.policy = true → DerivesKeys m.alg := by
    intro ctx m hm ha
    cases ho with
    | inl ho => exact ho.generate req ctx m hm
    | inr hp => exact committing_derives (hp.encrypt ha)
  generalize e.cmm.generate req = g at hg
  obtain ⟨ctx, res⟩ := g
  cases res with
  | error x => rfl
  | ok m => exact genKeyWith_rekey h _ m (hg ctx m rfl)

theorem unwrapWith_rekey {φ : Bytes → Bytes} {hk : HkdfFn} {hl : ∀ sha salt ikm info n k, hk sha salt ikm info n = .ok k → k.length = n} {e : Env}
    (h : Renames φ e.crypto.hkdf hk) (s : Session) {p : AlgProps} (hs : allowedForDecrypt p.algId s.policy = true → whichSha p.algId ≠ .nosha) (m : DecMaterials) :
    unwrapWith (rekeyEnv φ hk hl e) s p { m with dataKey := φ m.dataKey } = unwrapWith e s p m := by
  have hd : ∀ s' : Session, s'.policy = s.policy →
      deriveDataKey (rekeyEnv φ hk hl e) s' p { m with dataKey := φ m.dataKey } = deriveDataKey e s' p m := by
    intro s' hp
    unfold deriveDataKey
    simp only [h.len]
    split
    · rfl
    · rename_i hne
      rw [hp]
      split
      · rfl
      · rename_i ha
        simp only [rekeyEnv, withHkdf, deriveKey_rekey h (hs (by simpa using ha)) (Decidable.not_not.mp hne)]
  unfold unwrapWith unwrapValidate
  simp only
  rw [hd { s with trace := s.trace ++ m.trace, cmmSuccess := true } rfl]
  rfl

theorem unwrapKeys_rekey {φ : Bytes → Bytes} {hk : HkdfFn} {hl : ∀ sha salt ikm info n k, hk sha salt ikm info n = .ok k → k.length = n} {e : Env}
    (h : Renames φ e.crypto.hkdf hk) (s : Session) (ho : OnlyDerives e.cmm ∨ Committing s) :
    unwrapKeys (rekeyEnv φ hk hl e) s = unwrapKeys e s := by
  unfold unwrapKeys
  simp only
  cases hp : algProps s.header.algId with
  | none => rfl
  | some p =>
    simp only
    rw [show (rekeyEnv φ hk hl e).alloc = e.alloc from rfl]
    split
    · rfl
    · have h1 : ∀ req, (rekeyEnv φ hk hl e).cmm.decrypt req = (e.cmm.decrypt req).map (fun m => { m with dataKey := φ m.dataKey }) := fun _ => rfl
      rw [h1]
      have hg : ∀ m, e.cmm.decrypt { encCtx := s.header.encCtx, edks := s.header.edks, alg := p.algId } = .ok m →
          allowedForDecrypt p.algId s.policy = true → DerivesKeys p.algId := by
        intro m hm ha
        cases ho with
        | inl ho => exact ho.decrypt _ m hm
        | inr hp => exact committing_derives (hp.decrypt ha)
      generalize e.cmm.decrypt _ = g at hg
      cases g with
      | error x => rfl
      | ok m =>
        exact unwrapWith_rekey h { s with algProps := some p } (fun ha => derives_sha hp (algProps_id hp ▸ hg m rfl ha)) m

theorem rekeyEnv_alloc (φ : Bytes → Bytes) (hk : HkdfFn) (hl : ∀ sha salt ikm info n k, hk sha salt ikm info n = .ok k → k.length = n) (e : Env) :
    (rekeyEnv φ hk hl e).alloc = e.alloc := rfl

theorem sessionStep_rekey {φ : Bytes → Bytes} {hk : HkdfFn} {hl : ∀ sha salt ikm info n k, hk sha salt ikm info n = .ok k → k.length = n} {e : Env}
    (h : Renames φ e.crypto.hkdf hk) (s : Session) (ho : OnlyDerives e.cmm ∨ Committing s) (buf : WBuf) (inp : Bytes) (inNull : Bool) :
    sessionStep (rekeyEnv φ hk hl e) s buf inp inNull = sessionStep e s buf inp inNull := by
  unfold sessionStep
  split
  case h_2 =>
    have hu : ∀ s' : Session, s'.policy = s.policy → unwrapKeys (rekeyEnv φ hk hl e) s' = unwrapKeys e s' :=
      fun s' hp => unwrapKeys_rekey h s' (ho.imp id (fun hc hv => by rw [hp] at hv ⊢; exact hc hv))
    have hq : ∀ (s' : Session) (rest : Bytes), s'.policy = s.policy →
        parsedHeader (rekeyEnv φ hk hl e) s' buf inp rest = parsedHeader e s' buf inp rest := by
      intro s' rest hp
      unfold parsedHeader
      simp only [rekeyEnv_alloc]
      by_cases h1 : intToSize (hdrSize s'.header) = 0
      · rw [if_pos h1, if_pos h1]
      rw [if_neg h1, if_neg h1]
      by_cases h2 : intToSize (hdrSize s'.header) ≠ inp.length - rest.length
      · rw [if_pos h2, if_pos h2]
      rw [if_neg h2, if_neg h2]
      by_cases h3 : e.alloc .headerCopy = true
      case neg => simp only [h3, Bool.not_false, if_true]
      simp only [h3, Bool.not_true, Bool.false_eq_true, if_false]
      generalize hs3 : changeState _ St.unwrapKey = o
      cases o with
      | none => rfl
      | some s3 =>
        have h3 : s3.policy = s.policy := by
          rw [← hp]
          unfold changeState at hs3
          repeat' split at hs3
          all_goals first | cases hs3; rfl | cases hs3
        simp only [hu s3 h3]
    unfold tryParseHeader
    cases hh : hdrParseInto s.header s.maxEdks inp with
    | mk hd r =>
      cases r with
      | error x => rfl
      | ok rest => exact hq _ rest rfl
  case h_3 => simp only [unwrapKeys_rekey h s ho]
  case h_6 => simp only [tryGenKey_rekey h s ho]
  all_goals rfl

theorem processLoop_rekey {φ : Bytes → Bytes} {hk : HkdfFn} {hl : ∀ sha salt ikm info n k, hk sha salt ikm info n = .ok k → k.length = n} {e : Env}
    (h : Renames φ e.crypto.hkdf hk) (inNull : Bool) (fuel : Nat) (s : Session) (out : WBuf) (inp : Bytes)
    (ho : OnlyDerives e.cmm ∨ (Inv s ∧ Committing s)) :
    processLoop (rekeyEnv φ hk hl e) inNull fuel s out inp = processLoop e inNull fuel s out inp := by
  induction fuel generalizing s out inp with
  | zero => rfl
  | succ n ih =>
    unfold processLoop
    have hk : OnlyDerives e.cmm ∨ ((sessionStep e s ⟨out.mem.drop out.len, 0⟩ inp inNull).res = .ok →
        Inv (sessionStep e s ⟨out.mem.drop out.len, 0⟩ inp inNull).s ∧ Committing (sessionStep e s ⟨out.mem.drop out.len, 0⟩ inp inNull).s) := by
      refine ho.imp id (fun hc hok => ⟨(sessionStep_ok e s hc.1 _ _ _).inv hok, fun hv => ?_⟩)
      rw [(sessionStep_keeps e s hc.1 _ _ _).policy] at hv ⊢
      exact hc.2 hv
    simp only [sessionStep_rekey h s (ho.imp id And.right)]
    generalize sessionStep e s ⟨out.mem.drop out.len, 0⟩ inp inNull = r at hk
    obtain ⟨rs, rb, ri, rr⟩ := r
    cases rr with
    | ok =>
      simp only
      split
      · exact ih _ _ _ (hk.imp id (fun hk => hk rfl))
      · rfl
    | _ => rfl

theorem apply_rekey {φ : Bytes → Bytes} {hk : HkdfFn} {hl : ∀ sha salt ikm info n k, hk sha salt ikm info n = .ok k → k.length = n} {e : Env}
    (h : Renames φ e.crypto.hkdf hk) (v : View) (ho : OnlyDerives e.cmm ∨ ∃ E, HInv E .requireRequire v) (op : Op) :
    apply (rekeyEnv φ hk hl e) v op = apply e v op := by
  have hp : ∀ s mem inp inNull, OnlyDerives e.cmm ∨ (Inv s ∧ Committing s) →
      process (rekeyEnv φ hk hl e) s mem inp inNull = process e s mem inp inNull := by
    intro s mem inp inNull hs
    unfold process
    rw [processLoop_rekey h _ _ _ _ _ hs]
  have hv : OnlyDerives e.cmm ∨ (Inv v.s ∧ Committing v.s) := ho.imp id (fun ⟨_, hI⟩ => ⟨hI.inv, hI.polOk⟩)
  cases op with
  | process mem inp => simp only [apply, hp _ _ _ _ hv]
  | processFull mem inp old =>
    have hf : ∀ mem inp inNull old, processFull (rekeyEnv φ hk hl e) v.s mem inp inNull old = processFull e v.s mem inp inNull old := by
      intro mem inp inNull old
      have hs : OnlyDerives e.cmm ∨ (Inv (if v.s.mode = .encrypt then setMessageSize e v.s inp.length else (v.s, .ok)).1 ∧
          Committing (if v.s.mode = .encrypt then setMessageSize e v.s inp.length else (v.s, .ok)).1) := by
        refine ho.imp id (fun ⟨E, hI⟩ => ?_)
        split
        · exact ⟨(hinv_setMessageSize e hI inp.length).1.inv, (hinv_setMessageSize e hI inp.length).1.polOk⟩
        · exact ⟨hI.inv, hI.polOk⟩
      unfold processFull
      rw [show setMessageSize (rekeyEnv φ hk hl e) v.s inp.length = setMessageSize e v.s inp.length from rfl]
      simp only [hp _ _ _ _ hs]
    simp only [apply, hf]
  | _ => rfl

/-- **C108, one call.**  Replace every data key that the CMM gives by another of the same length, and HKDF by one that derives from the
replacement what was derived from the key.  If the suites derive their keys, no call of the session API on any session, encrypting or
decrypting, notices: the session, the counts, the released bytes and the result are the same.  So data keys are input of HKDF and
nothing else. -/
theorem C108_call {e e' : Env} (h : Rekeyed e e') (ho : OnlyDerives e.cmm) (v : View) (op : Op) : apply e' v op = apply e v op := by
  obtain ⟨φ, hk, hl, hr, rfl⟩ := h.same
  exact apply_rekey hr v (Or.inl ho) op

/-- **C108, the output buffer.**  Nor does a call write anything else to the output buffer. -/
theorem C108_process {e e' : Env} (h : Rekeyed e e') (ho : OnlyDerives e.cmm) (s : Session) (mem inp : Bytes) (inNull : Bool) :
    process e' s mem inp inNull = process e s mem inp inNull := by
  obtain ⟨φ, hk, hl, hr, rfl⟩ := h.same
  unfold process
  rw [show ({ e with cmm := rekeyCmm φ e.cmm, crypto := withHkdf e.crypto hk hl } : Env) = rekeyEnv φ hk hl e from rfl, processLoop_rekey hr _ _ _ _ _ (Or.inl ho)]

/-- **C108, histories.**  Nor does any history of calls, each with its own environment. -/
theorem C108_history (calls : List (Env × Env × Op)) (h : ∀ c ∈ calls, Rekeyed c.1 c.2.1 ∧ OnlyDerives c.1.cmm) (v : View) :
    run v (calls.map (fun c => (c.2.1, c.2.2))) = run v (calls.map (fun c => (c.1, c.2.2))) ∧
    results v (calls.map (fun c => (c.2.1, c.2.2))) = results v (calls.map (fun c => (c.1, c.2.2))) := by
  induction calls generalizing v with
  | nil => exact ⟨rfl, rfl⟩
  | cons c calls ih =>
    have h1 := C108_call (h c List.mem_cons_self).1 (h c List.mem_cons_self).2 v c.2.2
    have h2 := ih (fun x hx => h x (List.mem_cons_of_mem _ hx)) (apply c.1 v c.2.2).1
    simp only [List.map_cons, run, List.foldl_cons, results, h1] at h2 ⊢
    exact ⟨h2.1, by rw [h2.2]⟩

/-- **C108, under the default policy.**  Under the default commitment policy nothing need be supposed of the CMM: the policy admits
only suites that derive their keys. -/
theorem C108_default_policy {E : Env → Prop} {v : View} (hv : Reach E .requireRequire v) {e e' : Env} (h : Rekeyed e e') (op : Op) :
    apply e' v op = apply e v op := by
  obtain ⟨φ, hk, hl, hr, rfl⟩ := h.same
  exact apply_rekey hr v (Or.inr ⟨E, hv.hinv⟩) op

/-- **C108, histories under the default policy.**  Nor does any history of calls that sets no other policy. -/
theorem C108_default_history {E : Env → Prop} {v : View} (hv : Reach E .requireRequire v) (calls : List (Env × Env × Op))
    (h : ∀ c ∈ calls, Rekeyed c.1 c.2.1) (hp : ∀ c ∈ calls, ∀ p, c.2.2 = .setPolicy p → p = .requireRequire) :
    run v (calls.map (fun c => (c.2.1, c.2.2))) = run v (calls.map (fun c => (c.1, c.2.2))) ∧
    results v (calls.map (fun c => (c.2.1, c.2.2))) = results v (calls.map (fun c => (c.1, c.2.2))) := by
  have hv' : Reach (fun _ => True) .requireRequire v := hv.mono fun _ _ => trivial
  clear hv
  induction calls generalizing v with
  | nil => exact ⟨rfl, rfl⟩
  | cons c calls ih =>
    have h1 := C108_default_policy hv' (h c List.mem_cons_self) c.2.2
    have h3 : polAfter .requireRequire c.2.2 = .requireRequire := by
      have := hp c List.mem_cons_self
      unfold polAfter
      split
      · rename_i p hc
        rw [this p hc]; rfl
      · rfl
    have h2 := ih (fun x hx => h x (List.mem_cons_of_mem _ hx)) (fun x hx => hp x (List.mem_cons_of_mem _ hx)) (v := (apply c.1 v c.2.2).1)
      (h3 ▸ Reach.call c.2.2 hv' trivial)
    simp only [List.map_cons, run, List.foldl_cons, results, h1] at h2 ⊢
    exact ⟨h2.1, by rw [h2.2]⟩

/-- Which suites these are: all but the first three. -/
theorem C108_suites (row : SuiteRow) (h : row ∈ suiteTable) : DerivesKeys row.id ↔ row.id ≠ 0x0014 ∧ row.id ≠ 0x0046 ∧ row.id ≠ 0x0078 := by
  have key : ∀ row ∈ suiteTable, (∀ r ∈ suiteTable, r.id = row.id → r.kdfBits ≠ 0) ↔
    row.id ≠ 0x0014 ∧ row.id ≠ 0x0046 ∧ row.id ≠ 0x0078 := by decide
  exact key row h

/-- A toy HKDF that repeats a byte of the key, less `d`. -/
def toyHkdf (d : UInt8) : HkdfFn := fun _ _ ikm _ n => .ok (List.replicate n (match ikm with | [] => 0 | b :: _ => b - d))

theorem toyHkdf_len (d : UInt8) : ∀ sha salt ikm info n k, toyHkdf d sha salt ikm info n = .ok k → k.length = n := by
  intro _ _ _ _ n k h
  cases h
  simp

theorem toy_renames : Renames (fun k => k.map (· + 1)) (toyHkdf 0) (toyHkdf 1) where
  len k := by simp
  hkdf _ _ k _ n := by
    cases k with
    | nil => rfl
    | cons b k =>
      have : b + 1 - 1 = b - 0 := by
        rw [UInt8.add_sub_cancel, UInt8.sub_zero]
      simp only [toyHkdf, List.map_cons, this]

/-- An environment with that HKDF and one suite. -/
def toyEnv (alg : Nat) (signed : Bool) : Env := { Example.env with
  cmm := { Example.cmm alg signed with decrypt := fun req => if req.alg = alg then (Example.cmm alg signed).decrypt req else .error .badState }
  crypto := withHkdf Example.crypto (toyHkdf 0) (toyHkdf_len 0) }

/-- The same with other data keys. -/
def toyEnv' (alg : Nat) (signed : Bool) : Env := rekeyEnv (fun k => k.map (· + 1)) (toyHkdf 1) (toyHkdf_len 1) (toyEnv alg signed)

theorem toy_rekeyed (alg : Nat) (signed : Bool) : Rekeyed (toyEnv alg signed) (toyEnv' alg signed) :=
  ⟨_, _, _, toy_renames, rfl⟩

/-- **C108, the hypothesis is needed.**  With a suite without key derivation the data key is the content key: there are environments
that differ only in this way and a session that tells them apart. -/
theorem C108_no_derivation_refuted : ∃ e e', Rekeyed e e' ∧ ¬ OnlyDerives e.cmm ∧ ∃ v pol op, Reach (fun _ => True) pol v ∧
    (apply e v op).2 = .ok ∧ apply e' v op ≠ apply e v op := by
  refine ⟨toyEnv 0x0078 false, toyEnv' 0x0078 false, toy_rekeyed _ _, ?_, ?_⟩
  · intro h
    have := h.generate ⟨[], 0, 0, .forbidAllow⟩ _ _ rfl ⟨0x0078, 1, 256, 0, 0, 0⟩ (by decide) rfl
    exact this rfl
  · refine ⟨(apply Example.env Example.encNew (.setPolicy .forbidAllow)).1, .forbidAllow, .process (Example.zeros 300) (some []),
      .call (pol := .requireRequire) (.setPolicy .forbidAllow) (.new (mode := .encrypt) rfl) trivial, by decide +kernel, ?_⟩
    intro h
    have h1 : (apply (toyEnv' 0x0078 false) (apply Example.env Example.encNew (.setPolicy .forbidAllow)).1 (.process (Example.zeros 300) (some []))).1.s.contentKey ≠
      (apply (toyEnv 0x0078 false) (apply Example.env Example.encNew (.setPolicy .forbidAllow)).1 (.process (Example.zeros 300) (some []))).1.s.contentKey := by
      decide +kernel
    exact h1 (by rw [h])

/-- The hypotheses hold of a run that writes a whole message, in which the data keys do differ. -/
example : Rekeyed (toyEnv 0x0578 true) (toyEnv' 0x0578 true) ∧ OnlyDerives (toyEnv 0x0578 true).cmm ∧
    ((toyEnv 0x0578 true).cmm.generate ⟨[], 0, 0, .requireRequire⟩).2.toOption.map (·.dataKey) = some (List.replicate 32 1) ∧
    ((toyEnv' 0x0578 true).cmm.generate ⟨[], 0, 0, .requireRequire⟩).2.toOption.map (·.dataKey) = some (List.replicate 32 2) ∧
    isDone (run Example.encNew (Example.encHist.map (fun c => (toyEnv' 0x0578 true, c.2)))).s = true ∧
    (run Example.encNew (Example.encHist.map (fun c => (toyEnv' 0x0578 true, c.2)))).s.contentKey = List.replicate 32 1 := by
  have hd : DerivesKeys 0x0578 := (C108_suites ⟨0x0578, 2, 256, 512, 384, 32⟩ (by decide)).mpr (by decide)
  refine ⟨toy_rekeyed _ _, ⟨fun req ctx m h => ?_, fun req m h => ?_⟩, by decide +kernel, by decide +kernel, by decide +kernel, by decide +kernel⟩
  · cases h; exact hd
  · simp only [toyEnv] at h
    split at h
    · rename_i ha; rw [ha]; exact hd
    · cases h

end Verif.Props
