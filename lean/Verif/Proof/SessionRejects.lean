import Verif.Proof.SessionErrors
/-
Why a decrypting session fails, and that there is only one reason.
-/
namespace Verif
open Spec

/-! ### what fails -/

/-- The header of a message being decrypted was accepted. -/
theorem accepted_of_log {e : Env} {pol : Policy} {v : View} {hb : Bytes} {h : Hdr} {row : SuiteRow} {p : AlgProps} {m : DecMaterials} {k : Bytes}
    {fr : List (Frame × Bytes)} (hl : DecLog (· = e) pol v hb h row p m k fr) : HeaderAccepted e pol v.s.mode row h m k := by
  obtain ⟨a1, a2, a3, ⟨_, rfl, a4⟩, a5, a6, -⟩ := decLog_facts hl
  obtain ⟨env, s, s', inp, rest, sg, rfl, hk, k1, k2, k3⟩ := hl.hdr
  have hf := rowFacts a3 a2
  have hdk := hk.dataKey
  have hpp := hk.props
  rw [hk.ok.id, a2] at hpp
  cases hpp
  refine ⟨⟨?_, hk.cmm, ?_⟩, ?_, a6, a4, fun h0 => ?_⟩
  · have hs := hk.size
    rw [hk.bytes] at hs
    exact (size_iff_small hk.ok).mp hs
  · obtain ⟨mp, q1, q2⟩ := hk.malg
    obtain ⟨r, r1, r2, r3⟩ := row_of_props q1
    exact ⟨r, r1, r2, fun hmode => r3.mp (q2 (k2.trans hmode))⟩
  · rw [← hf.dataKey]; exact hdk
  · rcases hk.sig with ⟨h1, -⟩ | ⟨-, ctx, -, h1, -⟩
    · exact absurd (hf.sig.mp h1) h0
    · exact ⟨ctx, h1⟩

/-- Why a step of a decrypting session fails. -/
theorem step_err {e : Env} {pol : Policy} {v : View} (h : HInv (· = e) pol v) (hs : SetUp v.s) {mem inp : Bytes} {inNull : Bool} {c : Err}
    (hres : (sessionStep e v.s ⟨mem, 0⟩ inp inNull).res = .err c) :
    Rejected e pol v.s.maxEdks v.s.mode (v.consumed ++ inp) c ∨ OutsideFails e c := by
  have hl := h.live hs.live
  have hpol := h.polOk hs.policy
  have hst := h.inv.st
  have hne : ¬ v.s.mode = .encrypt := fun he => by have := hs.mode; rw [he] at this; cases this
  unfold LiveLog at hl
  unfold StInv at hst
  unfold sessionStep at hres
  cases hstate : v.s.state <;> simp only [hstate] at hl hst hres
  · -- config
    rw [if_neg (by simp [hs.cmm hstate, hs.policy]), if_neg hne] at hres
    unfold enter at hres
    split at hres <;> cases hres
  · -- done
    cases hres
  · -- readHeader
    obtain ⟨h1, -, -⟩ := hl
    rw [h1, List.nil_append]
    rcases tryParseHeader_err hstate hs.mode hres with h | ⟨row, hd, rest, a1, a2, a3, a4⟩ | h
    · exact Or.inl (.malformed h)
    · rw [hpol] at a4
      exact Or.inl (.header a1 a2 a3 a4)
    · exact Or.inr h
  · -- decryptBody
    obtain ⟨hb, hd, row, p, m, k, fr, a1, a2, a3, a4⟩ := hl
    obtain ⟨hm, -, p', hsp, hp⟩ := hst
    obtain ⟨b1, b2, b3, -, b5, -⟩ := decLog_facts a1
    have hfs : v.s.frameSize < 2 ^ 32 := h.inv.frameSize
    rcases tryDecryptBody_err hp hsp hstate hfs hres with h | h
    · rw [a1.key, a1.header, a1.frameSize, a1.seqno] at h
      exact Or.inl (.frame b5 (accepted_of_log a1) a1.frames a2 (by rw [a3, b1]) h)
    · exact Or.inr h
  · -- checkTrailer
    obtain ⟨hb, hd, row, p, m, k, fr, a1, a2, a3⟩ := hl
    obtain ⟨b1, b2, b3, -, b5, -⟩ := decLog_facts a1
    rcases checkTrailer_err hres with ⟨ctx, sig, rest, c1, c2, c3, c4⟩ | h
    · rcases a3 with ⟨a3, a4⟩ | ⟨tr, -, a3, -⟩
      · rcases a4 with ⟨-, a4⟩ | ⟨a5, a6, a4⟩
        · rw [c1] at a4; cases a4
        · obtain ⟨ctx0, hc0⟩ := Option.isSome_iff_exists.mp a6
          rw [c1, hc0] at a4
          simp only [absorbed, Option.map_some, Option.some.injEq] at a4
          subst a4
          rw [b1] at c4
          refine Or.inl (.signature (rest := rest) b5 (accepted_of_log a1) a1.frames a2 (fun h0 => a5 ((rowFacts b3 b2).sig.mpr h0)) hc0 c3 ?_ c4)
          rw [a3, b1, c2]; simp only [List.append_assoc]
      · rw [c1] at a3; cases a3
    · exact Or.inr h
  all_goals first | exact absurd hst.1 hne | exact absurd hl (by simp)

theorem Spec.SetUp.step {e : Env} {s : Session} (hI : Inv s) (hs : SetUp s) {mem inp : Bytes} {inNull : Bool}
    (hok : (sessionStep e s ⟨mem, 0⟩ inp inNull).res = .ok) : SetUp (sessionStep e s ⟨mem, 0⟩ inp inNull).s := by
  have hk := sessionStep_keeps e s hI mem inp inNull
  refine ⟨by rw [hk.mode]; exact hs.mode, sessionStep_not_error e s hI hs.live mem inp inNull, by rw [hk.policy]; exact hs.policy, fun hc => ?_⟩
  exfalso
  have hr := sessionStep_rank e s hI mem inp inNull hok
  have h5 : s.state.rank ≤ 5 := by cases s.state <;> decide
  have hsc : s.state = .config := by
    rcases hr with h | h
    · rw [← h]; exact hc
    · rw [hc] at h
      exact absurd h (Nat.not_lt.mpr h5)
  have hcs := sessionStep_cases e s hI mem inp inNull
  generalize sessionStep e s ⟨mem, 0⟩ inp inNull = r at hcs hok hc
  cases hcs with
  | cfgFail h hr => subst hr; cases hok
  | cfgEnc h _ _ _ hr => subst hr; cases hc
  | cfgDec h _ _ _ hr => subst hr; cases hc
  | parse h => rw [hsc] at h; cases h
  | dec h => rw [hsc] at h; cases h
  | check h => rw [hsc] at h; cases h
  | gen h => rw [hsc] at h; cases h
  | header h => rw [hsc] at h; cases h
  | body p h => rw [hsc] at h; cases h
  | trailer p h => rw [hsc] at h; cases h
  | done h => rw [hsc] at h; cases h
  | error h => rw [hsc] at h; cases h

theorem Spec.SetUp.steps {e : Env} {s s' : Session} {inNull : Bool} {inp inp' o : Bytes} (hI : Inv s) (hs : SetUp s) (h : Steps e inNull s inp o s' inp') :
    SetUp s' :=
  h.induct (I := fun s _ _ => SetUp s) (fun _ _ _ _ hI h hok => h.step hI hok) hI [] hs

/-- Why a call of `process` of a decrypting session fails. -/
theorem process_err {e : Env} {pol : Policy} {v : View} (h : HInv (· = e) pol v) (hs : SetUp v.s) {mem inp : Bytes} {inNull : Bool} {c : Err}
    (hres : (process e v.s mem inp inNull).res = .err c) :
    Rejected e pol v.s.maxEdks v.s.mode (v.consumed ++ inp) c ∨ OutsideFails e c := by
  have hc := process_cases e v.s h.inv mem inp inNull
  generalize process e v.s mem inp inNull = o at hc hres
  cases hc with
  | ok rest hr => rw [hr] at hres; cases hres
  | err c' out inp1 mem1 s1 hr hmem hw hrl hI hst hsteps hI1 hfail hso =>
    have hs1 := hs.steps h.inv hsteps
    obtain ⟨b, hb, h1⟩ := hsteps.hinv (E := (· = e)) rfl (C := v.consumed) (R := v.released) h
    have hk := hsteps.keeps h.inv
    have := step_err h1 hs1 hfail
    simp only [hk.mode, hk.maxEdks, List.append_assoc, ← hb] at this
    rcases hso with ⟨-, h2⟩ | ⟨h2, -⟩
    · exact absurd h2 hs1.live
    · have : c = c' := by
        rw [hr, h2] at hres
        exact (Res.err.inj hres).symm
      subst this
      assumption

/-! ### only one reason -/

namespace Spec

theorem HeaderRejected.bare {e : Env} {pol : Policy} {mode : Mode} {row : SuiteRow} {h : Hdr} {c : Err} (hr : HeaderRejected e pol mode row h c) :
    HeaderRejected e pol mode row h.bare c := by
  have ok : ∀ {m}, MaterialsOK e mode row h m → MaterialsOK e mode row h.bare m := fun h => ⟨h.small, h.cmm, h.suite⟩
  cases hr with
  | tooLong hl => exact .tooLong hl
  | cmm hs hc => exact .cmm hs hc
  | suite hs hc hu => exact .suite hs hc hu
  | signed hs hc hr hid hm hsig => exact .signed hs hc hr hid hm hsig
  | dataKey hm hd => exact .dataKey (ok hm) hd
  | policy hm hd hp => exact .policy (ok hm) hd hp
  | kdf hm hd hp hk => exact .kdf (ok hm) hd hp hk
  | commitment hm hd hp hk hne => exact .commitment (ok hm) hd hp hk hne
  | tag hm hd hp hk ht => exact .tag (ok hm) hd hp hk ht
  | noKey hm hd hp hv hs hn =>
    have := hv.ok
    exact .noKey (ok hm) hd hp ⟨⟨this.suite, this.id, this.messageId, this.suiteData, this.iv, this.tag, this.frameLen, this.edksNonempty,
      this.edksCount, this.edksFit, this.ctxKeys, this.ctxFits⟩, hv.cmm, hv.key, hv.tag⟩ hs hn

theorem HeaderAccepted.bare {e : Env} {pol : Policy} {mode : Mode} {row : SuiteRow} {h : Hdr} {m : DecMaterials} {k : Bytes}
    (ha : HeaderAccepted e pol mode row h m k) : HeaderAccepted e pol mode row h.bare m k := by
  have := ha.verified.ok
  exact ⟨⟨ha.materials.small, ha.materials.cmm, ha.materials.suite⟩, ha.dataKey, ha.policy,
    ⟨⟨this.suite, this.id, this.messageId, this.suiteData, this.iv, this.tag, this.frameLen, this.edksNonempty,
      this.edksCount, this.edksFit, this.ctxKeys, this.ctxFits⟩, ha.verified.cmm, ha.verified.key, ha.verified.tag⟩, ha.verifier⟩

theorem MaterialsOK.unique {e : Env} {mode : Mode} {row : SuiteRow} {h : Hdr} {m m' : DecMaterials} (h1 : MaterialsOK e mode row h m)
    (h2 : MaterialsOK e mode row h m') : m = m' := by
  have := h1.cmm; rw [h2.cmm] at this; exact (Except.ok.inj this).symm

/-- A header is turned down for its materials: the first four reasons. -/
theorem MaterialsOK.not_rejected {e : Env} {mode : Mode} {row : SuiteRow} {h : Hdr} {m : DecMaterials} (h1 : MaterialsOK e mode row h m) :
    ¬ 2 ^ 31 ≤ (wireHeader row.version h).length ∧
    (∀ c, e.cmm.decrypt { encCtx := h.encCtx, edks := h.edks, alg := h.algId } ≠ .error c) ∧
    (∀ m', e.cmm.decrypt { encCtx := h.encCtx, edks := h.edks, alg := h.algId } = .ok m' →
      (¬ ∀ r ∈ suiteTable, r.id ≠ m'.alg) ∧ ∀ r ∈ suiteTable, r.id = m'.alg → mode = .decryptUnsigned → r.curveBits = 0) := by
  obtain ⟨a, b, r, hr, hid, hc⟩ := h1
  refine ⟨by omega, fun c h => (by rw [b] at h; cases h), fun m' h => ?_⟩
  rw [b] at h
  cases h
  refine ⟨fun h => h r hr hid, fun r' hr' hid' => ?_⟩
  have := row_unique' hr hr' (hid.trans hid'.symm)
  subst this
  exact hc

/-- How far a header gets. -/
inductive Stage (e : Env) (pol : Policy) (mode : Mode) (row : SuiteRow) (h : Hdr) (c : Err) : Prop
  | first (m : Option DecMaterials) (hn : ∀ m, ¬ MaterialsOK e mode row h m) (hc : ((2 ^ 31 ≤ (wireHeader row.version h).length ∧
      c = (if (wireHeader row.version h).length % 2 ^ 32 = 0 then .badCiphertext else .cryptoUnknown)) ∨
      ((wireHeader row.version h).length < 2 ^ 31 ∧
      (e.cmm.decrypt { encCtx := h.encCtx, edks := h.edks, alg := h.algId } = .error c ∨
      ∃ m, e.cmm.decrypt { encCtx := h.encCtx, edks := h.edks, alg := h.algId } = .ok m ∧
        (((∀ r ∈ suiteTable, r.id ≠ m.alg) ∧ c = .badState) ∨ (∃ r ∈ suiteTable, r.id = m.alg ∧ c = .signedNotAllowed))))))
  | second (m : DecMaterials) (hm : MaterialsOK e mode row h m) (hc : (m.dataKey.length ≠ row.keyBits / 8 ∧ c = .cryptoUnknown) ∨
      (m.dataKey.length = row.keyBits / 8 ∧ ((¬ MayDecrypt pol row ∧ c = .policyViolation) ∨ (MayDecrypt pol row ∧
       (((¬ ∃ k c, DerivedKey e.crypto.hkdf row m.dataKey h.messageId k c) ∧ c = .raw (-1)) ∨
        ∃ k d, DerivedKey e.crypto.hkdf row m.dataKey h.messageId k d ∧ ((d ≠ h.algSuiteData ∧ c = .badCiphertext) ∨ (d = h.algSuiteData ∧
          (e.crypto.aeadOpen k (if row.version = 1 then h.iv else List.replicate 12 0) (wireAuthPart row.version h) [] h.authTag = .error c ∨
           ((∃ x, e.crypto.aeadOpen k (if row.version = 1 then h.iv else List.replicate 12 0) (wireAuthPart row.version h) [] h.authTag = .ok x) ∧
            row.curveBits ≠ 0 ∧ m.signctx = none ∧ c = .badCiphertext)))))))))

theorem HeaderRejected.stage {e : Env} {pol : Policy} {mode : Mode} {row : SuiteRow} {h : Hdr} {c : Err} (hr : HeaderRejected e pol mode row h c) :
    Stage e pol mode row h c := by
  cases hr with
  | tooLong hl => exact .first none (fun m hm => hm.not_rejected.1 hl) (Or.inl ⟨hl, rfl⟩)
  | cmm hs hc => exact .first none (fun m hm => hm.not_rejected.2.1 _ hc) (Or.inr ⟨hs, Or.inl hc⟩)
  | suite hs hc hu => exact .first none (fun m hm => (hm.not_rejected.2.2 _ hc).1 hu) (Or.inr ⟨hs, Or.inr ⟨_, hc, Or.inl ⟨hu, rfl⟩⟩⟩)
  | signed hs hc hr hid hm hsig =>
    exact .first none (fun m hm' => hsig ((hm'.not_rejected.2.2 _ hc).2 _ hr hid hm)) (Or.inr ⟨hs, Or.inr ⟨_, hc, Or.inr ⟨_, hr, hid, rfl⟩⟩⟩)
  | dataKey hm hd => exact .second _ hm (Or.inl ⟨hd, rfl⟩)
  | policy hm hd hp => exact .second _ hm (Or.inr ⟨hd, Or.inl ⟨hp, rfl⟩⟩)
  | kdf hm hd hp hk => exact .second _ hm (Or.inr ⟨hd, Or.inr ⟨hp, Or.inl ⟨hk, rfl⟩⟩⟩)
  | commitment hm hd hp hk hne => exact .second _ hm (Or.inr ⟨hd, Or.inr ⟨hp, Or.inr ⟨_, _, hk, Or.inl ⟨hne, rfl⟩⟩⟩⟩)
  | tag hm hd hp hk ht => exact .second _ hm (Or.inr ⟨hd, Or.inr ⟨hp, Or.inr ⟨_, _, hk, Or.inr ⟨rfl, Or.inl ht⟩⟩⟩⟩)
  | noKey hm hd hp hv hs hn =>
    have := hv.cmm
    rw [hm.cmm] at this
    cases this
    exact .second _ hm (Or.inr ⟨hd, Or.inr ⟨hp, Or.inr ⟨_, _, hv.key, Or.inr ⟨rfl, Or.inr ⟨hv.tag, hs, hn, rfl⟩⟩⟩⟩⟩)

theorem HeaderRejected.unique {e : Env} {pol : Policy} {mode : Mode} {row : SuiteRow} {h : Hdr} {c c' : Err}
    (h1 : HeaderRejected e pol mode row h c) (h2 : HeaderRejected e pol mode row h c') : c = c' := by
  cases h1.stage with
  | first _ n1 a =>
    cases h2.stage with
    | second m hm => exact absurd hm (n1 m)
    | first _ _ b =>
      rcases a with ⟨a1, a2⟩ | ⟨a1, a2⟩ <;> rcases b with ⟨b1, b2⟩ | ⟨b1, b2⟩
      · rw [a2, b2]
      · omega
      · omega
      rcases a2 with a2 | ⟨m, a2, a3⟩ <;> rcases b2 with b2 | ⟨m', b2, b3⟩ <;> rw [a2] at b2 <;> cases b2
      · rfl
      rcases a3 with ⟨a3, a4⟩ | ⟨r, a3, a4, a5⟩ <;> rcases b3 with ⟨b3, b4⟩ | ⟨r', b3, b4, b5⟩
      · rw [a4, b4]
      · exact absurd b4 (a3 _ b3)
      · exact absurd a4 (b3 _ a3)
      · rw [a5, b5]
  | second m hm a =>
    cases h2.stage with
    | first _ n1 => exact absurd hm (n1 m)
    | second m' hm' b =>
      have := hm.unique hm'
      subst this
      rcases a with ⟨a1, a2⟩ | ⟨a1, a2⟩ <;> rcases b with ⟨b1, b2⟩ | ⟨b1, b2⟩
      · rw [a2, b2]
      · exact absurd b1 a1
      · exact absurd a1 b1
      rcases a2 with ⟨a1, a2⟩ | ⟨a1, a2⟩ <;> rcases b2 with ⟨b1, b2⟩ | ⟨b1, b2⟩
      · rw [a2, b2]
      · exact absurd b1 a1
      · exact absurd a1 b1
      rcases a2 with ⟨a1, a2⟩ | ⟨k, d, a1, a2⟩ <;> rcases b2 with ⟨b1, b2⟩ | ⟨k', d', b1, b2⟩
      · rw [a2, b2]
      · exact absurd ⟨_, _, b1⟩ a1
      · exact absurd ⟨_, _, a1⟩ b1
      obtain ⟨rfl, rfl⟩ := derivedKey_unique a1 b1
      rcases a2 with ⟨a1, a2⟩ | ⟨a1, a2⟩ <;> rcases b2 with ⟨b1, b2⟩ | ⟨b1, b2⟩
      · rw [a2, b2]
      · exact absurd b1 a1
      · exact absurd a1 b1
      rcases a2 with a2 | ⟨⟨x, a2⟩, -, -, a3⟩ <;> rcases b2 with b2 | ⟨⟨y, b2⟩, -, -, b3⟩
      · rw [a2] at b2; cases b2; rfl
      · rw [a2] at b2; cases b2
      · rw [a2] at b2; cases b2
      · rw [a3, b3]

theorem HeaderAccepted.not_rejected {e : Env} {pol : Policy} {mode : Mode} {row : SuiteRow} {h : Hdr} {m : DecMaterials} {k : Bytes} {c : Err}
    (ha : HeaderAccepted e pol mode row h m k) (hr : HeaderRejected e pol mode row h c) : False := by
  cases hr.stage with
  | first _ n => exact n m ha.materials
  | second m' hm a =>
    have := ha.materials.unique hm
    subst this
    rcases a with ⟨a1, a2⟩ | ⟨a1, a2⟩
    · exact a1 ha.dataKey
    rcases a2 with ⟨a1, a2⟩ | ⟨a1, a2⟩
    · exact a1 ha.policy
    rcases a2 with ⟨a1, a2⟩ | ⟨k, d, a1, a2⟩
    · exact a1 ⟨_, _, ha.verified.key⟩
    obtain ⟨rfl, rfl⟩ := derivedKey_unique a1 ha.verified.key
    rcases a2 with ⟨a1, a2⟩ | ⟨a1, a2⟩
    · exact a1 rfl
    obtain ⟨x, hx⟩ := ha.verified.tag
    rcases a2 with a2 | ⟨-, a2, a3, -⟩
    · rw [hx] at a2; cases a2
    · obtain ⟨ctx, hc⟩ := ha.verifier a2
      rw [a3] at hc; cases hc

theorem HeaderAccepted.unique {e : Env} {pol : Policy} {mode : Mode} {row : SuiteRow} {h : Hdr} {m m' : DecMaterials} {k k' : Bytes}
    (h1 : HeaderAccepted e pol mode row h m k) (h2 : HeaderAccepted e pol mode row h m' k') : m = m' ∧ k = k' := by
  have := h1.materials.unique h2.materials
  subst this
  exact ⟨rfl, (derivedKey_unique h1.verified.key h2.verified.key).1⟩

theorem FrameRejected.unique {e : Env} {k mid : Bytes} {fs i : Nat} (hfs : fs < 2 ^ 32) {x : Bytes} {c c' : Err} (h1 : FrameRejected e k mid fs i x c)
    (h2 : FrameRejected e k mid fs i x c') : c = c' := by
  cases h1 with
  | bytes h =>
    cases h2 with
    | bytes => rfl
    | number => rfl
    | tag hok hx => exact absurd (by rw [List.append_nil]; exact hx) (h _ [] _ hok)
  | number hok hx hn =>
    cases h2 with
    | bytes => rfl
    | number => rfl
    | tag hok' hx' hn' =>
      obtain ⟨rfl, rfl⟩ := frame_unique hfs hok hok' (hx.symm.trans hx')
      exact absurd hn' hn
  | tag hok hx hn ht =>
    cases h2 with
    | bytes h => exact absurd (by rw [List.append_nil]; exact hx) (h _ [] _ hok)
    | number hok' hx' hn' =>
      obtain ⟨rfl, rfl⟩ := frame_unique hfs hok hok' (hx.symm.trans hx')
      exact absurd hn hn'
    | tag hok' hx' hn' ht' =>
      obtain ⟨rfl, rfl⟩ := frame_unique hfs hok hok' (hx.symm.trans hx')
      rw [ht] at ht'; cases ht'; rfl

theorem FrameRejected.not_opened {e : Env} {k mid : Bytes} {fs i : Nat} (hfs : fs < 2 ^ 32) {x rest : Bytes} {c : Err} {f : Frame} {pt : Bytes}
    (h1 : FrameRejected e k mid fs i x c) (h2 : OpenedFrame (· = e) k mid fs i f pt) (hx2 : x = wireFrame f ++ rest) : False := by
  cases h1 with
  | bytes h => exact absurd (by rw [List.append_nil]; exact hx2) (h _ [] _ h2.ok)
  | number hok hx hn =>
    obtain ⟨rfl, rfl⟩ := frame_unique hfs hok h2.ok (hx.symm.trans hx2)
    exact hn h2.seqno
  | tag hok hx hn ht =>
    obtain ⟨rfl, rfl⟩ := frame_unique hfs hok h2.ok (hx.symm.trans hx2)
    obtain ⟨_, rfl, ho⟩ := h2.opened
    rw [ht] at ho; cases ho

end Spec

/-- Where a longer body goes on. -/
theorem position_agree {e : Env} {k mid : Bytes} {fs : Nat} (hfs : fs < 2 ^ 32) {fr fr' : List (Frame × Bytes)} {r r' : Bytes}
    (h1 : AllFrames (OpenedFrame (· = e) k mid fs) fr) (h2 : AllFrames (OpenedFrame (· = e) k mid fs) fr')
    (h : bodyBytes fr ++ r = bodyBytes fr' ++ r') :
    (fr.length < fr'.length → ∃ f pt rest, OpenedFrame (· = e) k mid fs (fr.length + 1) f pt ∧ r = wireFrame f ++ rest) ∧
    (fr.length = fr'.length → fr = fr' ∧ r = r') := by
  have ha := opened_agree hfs (fun e1 e2 h1 h2 => by rw [h1, h2]) h1 h2 h
  constructor
  · intro hlt
    have ht : fr'.take fr.length = fr := by
      apply List.ext_getElem
      · simp; omega
      · intro j h3 h4
        rw [List.getElem_take]
        exact (ha j h4 (by omega)).symm
    have hb := bodyBytes_take_succ hlt
    rw [ht] at hb
    rw [hb, List.append_assoc] at h
    have := List.append_cancel_left h
    rw [List.append_assoc] at this
    exact ⟨_, _, _, h2 fr.length hlt, this⟩
  · intro he
    have : fr = fr' := List.ext_getElem he (fun j h3 h4 => ha j h3 h4)
    subst this
    exact ⟨rfl, List.append_cancel_left h⟩

theorem ongoing_not_complete {fr : List (Frame × Bytes)} (h1 : Ongoing fr) (h2 : Complete fr) : False := by
  obtain ⟨init, last, rfl, -, h⟩ := h2
  exact h (h1 last (by simp))

/-- A frame that is turned down does not lie within an opened body. -/
theorem frame_not_within {e : Env} {k mid : Bytes} {fs : Nat} (hfs : fs < 2 ^ 32) {fr fr' : List (Frame × Bytes)} {r r' : Bytes} {c : Err}
    (h1 : AllFrames (OpenedFrame (· = e) k mid fs) fr) (h2 : AllFrames (OpenedFrame (· = e) k mid fs) fr')
    (h : bodyBytes fr ++ r = bodyBytes fr' ++ r') (hr : FrameRejected e k mid fs (fr.length + 1) r c) : fr'.length ≤ fr.length := by
  apply Nat.le_of_not_lt
  intro hlt
  obtain ⟨f, pt, rest, ho, hx⟩ := (position_agree hfs h1 h2 h).1 hlt
  exact hr.not_opened hfs ho hx

theorem frame_signature_clash {e : Env} {k mid : Bytes} {fs : Nat} (hfs : fs < 2 ^ 32) {fr fr' : List (Frame × Bytes)} {r r' : Bytes} {c : Err}
    (h1 : AllFrames (OpenedFrame (· = e) k mid fs) fr) (h2 : AllFrames (OpenedFrame (· = e) k mid fs) fr')
    (h : bodyBytes fr ++ r = bodyBytes fr' ++ r') (hr : FrameRejected e k mid fs (fr.length + 1) r c) (ho : Ongoing fr) (hc : Complete fr') : False := by
  have hle := frame_not_within hfs h1 h2 h hr
  have ha := opened_agree hfs (fun e1 e2 h1 h2 => by rw [h1, h2]) h1 h2 h
  have := (prefix_of_complete (body_of (Or.inl ho)) hc ha).length_le
  obtain ⟨rfl, -⟩ := (position_agree hfs h1 h2 h).2 (by omega)
  exact ongoing_not_complete ho hc

theorem wireTrailer_unique {s1 s2 x1 x2 : Bytes} (h1 : s1.length < 65536) (h2 : s2.length < 65536) (h : wireTrailer s1 ++ x1 = wireTrailer s2 ++ x2) :
    s1 = s2 ∧ x1 = x2 := by
  simp only [wireTrailer, List.append_assoc] at h
  obtain ⟨ha, hb⟩ := List.append_inj h (by simp [u16])
  have hl : s1.length = s2.length := by
    rw [u16_eq_be, u16_eq_be] at ha
    exact be_inj (n := 2) (by omega) (by omega) ha
  exact List.append_inj hb hl

/-- A message that is not turned down at its header has one that is well formed. -/
theorem header_of_rejected {mx : Nat} {row : SuiteRow} {h : Hdr} {x rest : Bytes} {c : Err}
    (hok : HeaderOK row h) (hl : mx = 0 ∨ h.edks.length ≤ mx) (hx : x = wireHeader row.version h ++ rest) (hr : HeaderMalformed mx x c) : False := by
  cases hr with
  | edks ht =>
    have h1 := hdrParse_tooMany ht
    rw [hx, hdrParse_wire hok hl] at h1
    cases h1
  | bytes _ hn => exact hn row h [] rest hok (by rw [List.append_nil]; exact hx)

/-- There is only one reason to turn a message down. -/
theorem Spec.Rejected.unique {e : Env} {pol : Policy} {mx : Nat} {mode : Mode} {x : Bytes} {c c' : Err} (h1 : Rejected e pol mx mode x c)
    (h2 : Rejected e pol mx mode x c') : c = c' := by
  have bok : ∀ {row : SuiteRow} {h : Hdr}, HeaderOK row h → HeaderOK row h.bare := fun this =>
    ⟨this.suite, this.id, this.messageId, this.suiteData, this.iv, this.tag, this.frameLen, this.edksNonempty,
      this.edksCount, this.edksFit, this.ctxKeys, this.ctxFits⟩
  cases h1 with
  | malformed a =>
    cases h2 with
    | malformed b =>
      cases a with
      | edks a => cases b with
        | edks => rfl
        | bytes b => exact absurd a b
      | bytes a => cases b with
        | edks b => exact absurd b a
        | bytes => rfl
    | header hok hl hx => exact (header_of_rejected hok hl hx a).elim
    | frame hl ha hf ho hx =>
      exact (header_of_rejected ha.verified.ok hl (by rw [hx, List.append_assoc]) a).elim
    | signature hl ha hf hc hs hm hsl hx =>
      exact (header_of_rejected ha.verified.ok hl (by rw [hx, List.append_assoc, List.append_assoc]) a).elim
  | header hok hl hx hr =>
    cases h2 with
    | malformed b => exact (header_of_rejected hok hl hx b).elim
    | header hok' hl' hx' hr' =>
      obtain ⟨rfl, hb, rfl⟩ := header_unique hok hok' (hx.symm.trans hx')
      have h1 := hr.bare
      rw [hb] at h1
      exact h1.unique hr'.bare
    | frame hl' ha hf ho hx' =>
      rw [List.append_assoc] at hx'
      obtain ⟨rfl, hb, rfl⟩ := header_unique hok ha.verified.ok (hx.symm.trans hx')
      have h1 := hr.bare
      rw [hb] at h1
      exact (ha.bare.not_rejected h1).elim
    | signature hl' ha hf hc hs hm hsl hx' =>
      rw [List.append_assoc, List.append_assoc] at hx'
      obtain ⟨rfl, hb, rfl⟩ := header_unique hok ha.verified.ok (hx.symm.trans hx')
      have h1 := hr.bare
      rw [hb] at h1
      exact (ha.bare.not_rejected h1).elim
  | @frame row h m k fr rest c hl ha hf ho hx hr =>
    have hfs : h.frameLen < 2 ^ 32 := ha.verified.ok.frameLen
    have haf := ha.bare
    rw [List.append_assoc] at hx
    cases h2 with
    | malformed b => exact (header_of_rejected ha.verified.ok hl hx b).elim
    | header hok' hl' hx' hr' =>
      obtain ⟨rfl, hb, h3⟩ := header_unique ha.verified.ok hok' (hx.symm.trans hx')
      rw [hb] at haf
      exact (haf.not_rejected hr'.bare).elim
    | @frame row' h' m' k' fr' rest' c' hl' ha' hf' ho' hx' hr' =>
      rw [List.append_assoc] at hx'
      obtain ⟨rfl, hb, h3⟩ := header_unique ha.verified.ok ha'.verified.ok (hx.symm.trans hx')
      rw [hb] at haf
      obtain ⟨rfl, rfl⟩ := haf.unique ha'.bare
      have hb1 : h'.frameLen = h.frameLen := by have := congrArg Hdr.frameLen hb.symm; exact this
      have hb2 : h'.messageId = h.messageId := by have := congrArg Hdr.messageId hb.symm; exact this
      rw [hb1, hb2] at hf' hr'
      have l1 := frame_not_within hfs hf hf' h3 hr
      have l2 := frame_not_within hfs hf' hf h3.symm hr'
      obtain ⟨rfl, rfl⟩ := (position_agree hfs hf hf' h3).2 (by omega)
      exact hr.unique hfs hr'
    | @signature row' h' m' k' fr' ctx sig rest' c' hl' ha' hf' hc hs hm hsl hx' hv =>
      rw [List.append_assoc, List.append_assoc] at hx'
      obtain ⟨rfl, hb, h3⟩ := header_unique ha.verified.ok ha'.verified.ok (hx.symm.trans hx')
      rw [hb] at haf
      obtain ⟨rfl, rfl⟩ := haf.unique ha'.bare
      have hb1 : h'.frameLen = h.frameLen := by have := congrArg Hdr.frameLen hb.symm; exact this
      have hb2 : h'.messageId = h.messageId := by have := congrArg Hdr.messageId hb.symm; exact this
      rw [hb1, hb2] at hf'
      exact (frame_signature_clash hfs hf hf' h3 hr ho hc).elim
  | @signature row h m k fr ctx sig rest c hl ha hf hc hs hm hsl hx hv =>
    have hfs : h.frameLen < 2 ^ 32 := ha.verified.ok.frameLen
    have haf := ha.bare
    rw [List.append_assoc, List.append_assoc] at hx
    cases h2 with
    | malformed b => exact (header_of_rejected ha.verified.ok hl hx b).elim
    | header hok' hl' hx' hr' =>
      obtain ⟨rfl, hb, h3⟩ := header_unique ha.verified.ok hok' (hx.symm.trans hx')
      rw [hb] at haf
      exact (haf.not_rejected hr'.bare).elim
    | @frame row' h' m' k' fr' rest' c' hl' ha' hf' ho' hx' hr' =>
      rw [List.append_assoc] at hx'
      obtain ⟨rfl, hb, h3⟩ := header_unique ha.verified.ok ha'.verified.ok (hx.symm.trans hx')
      rw [hb] at haf
      obtain ⟨rfl, rfl⟩ := haf.unique ha'.bare
      have hb1 : h'.frameLen = h.frameLen := by have := congrArg Hdr.frameLen hb.symm; exact this
      have hb2 : h'.messageId = h.messageId := by have := congrArg Hdr.messageId hb.symm; exact this
      rw [hb1, hb2] at hf' hr'
      exact (frame_signature_clash hfs hf' hf h3.symm hr' ho' hc).elim
    | @signature row' h' m' k' fr' ctx' sig' rest' c' hl' ha' hf' hc' hs' hm' hsl' hx' hv' =>
      rw [List.append_assoc, List.append_assoc] at hx'
      obtain ⟨rfl, hb, h3⟩ := header_unique ha.verified.ok ha'.verified.ok (hx.symm.trans hx')
      rw [hb] at haf
      obtain ⟨rfl, rfl⟩ := haf.unique ha'.bare
      have hb1 : h'.frameLen = h.frameLen := by have := congrArg Hdr.frameLen hb.symm; exact this
      have hb2 : h'.messageId = h.messageId := by have := congrArg Hdr.messageId hb.symm; exact this
      rw [hb1, hb2] at hf'
      have hag := opened_agree hfs (fun e1 e2 h1 h2 => by rw [h1, h2]) hf hf' h3
      have l1 := (prefix_of_complete (body_of (Or.inr hc)) hc' hag).length_le
      have l2 := (prefix_of_complete (body_of (Or.inr hc')) hc (fun i h1 h2 => (hag i h2 h1).symm)).length_le
      obtain ⟨rfl, h4⟩ := (position_agree hfs hf hf' h3).2 (by omega)
      obtain ⟨rfl, rfl⟩ := wireTrailer_unique hsl hsl' h4
      have hw : wireHeader row.version h' = wireHeader row.version h := by
        have : wireHeader row.version h'.bare = wireHeader row.version h.bare := by rw [hb]
        exact this
      rw [hm] at hm'
      cases hm'
      rw [hw, hv] at hv'
      cases hv'; rfl

end Verif
