import Verif.Spec.OnePlaintext
import Verif.Proof.Integrity
import Verif.Proof.SessionDet
/-
C101: a message with a committing suite has one plaintext, whoever reads it.
-/
namespace Verif.Props
open Verif Verif.Spec Verif.Proof

theorem row_v2_commitment {row : SuiteRow} (h : row ∈ suiteTable) (hv : row.version = 2) : row.commitment = 32 := by
  revert row; decide

/-- The first byte of a header is its version. -/
theorem head_wireHeader {row : SuiteRow} (h : row ∈ suiteTable) (hd : Hdr) (x : Bytes) :
    (wireHeader row.version hd ++ x).head? = some (UInt8.ofNat row.version) := by
  rcases row_version h with hv | hv <;> rw [hv] <;> rfl

/-- **C101**: two decrypting sessions have read beginnings of one message of format version 2 (the committing suites), in slices
of their own, with CMMs of their own that may return different data keys.  What one of them released is the beginning of what the
other released, and when both are done they released the same; or two data keys have the same commitment. -/
theorem C101_one_plaintext (E1 E2 : Env → Prop) (pol1 pol2 : Policy) (v1 v2 : View) (h1 : Reach E1 pol1 v1) (h2 : Reach E2 pol2 v2)
    (hm1 : v1.s.mode.isDecrypt = true) (hm2 : v2.s.mode.isDecrypt = true) (hE : SamePrimitives E1 E2) (msg : Bytes)
    (hv : msg.head? = some 2) (hp1 : v1.consumed <+: msg) (hp2 : v2.consumed <+: msg) :
    ((v1.released <+: v2.released ∨ v2.released <+: v1.released) ∧
      (isDone v1.s = true → v2.released <+: v1.released ∧ (isDone v2.s = true → v1.released = v2.released))) ∨
    CommitmentCollides E1 E2 := by
  rcases decrypted_of h1.hinv hm1 with ⟨a1, a2, a3⟩ | ⟨row1, hd1, m1, k1, fr1, tr1, a1, af, a2, a3⟩
  · refine Or.inl ⟨Or.inl (by rw [a2]; exact List.nil_prefix), fun hd => ?_⟩
    have hst : v1.s.state = .done := by simpa [isDone] using hd
    rw [hst] at a3
    rcases a3 with h | h | h <;> cases h
  rcases decrypted_of h2.hinv hm2 with ⟨b1, b2, b3⟩ | ⟨row2, hd2, m2, k2, fr2, tr2, b1, bf, b2, b3⟩
  · refine Or.inl ⟨Or.inr (by rw [b2]; exact List.nil_prefix), fun _ => ⟨by rw [b2]; exact List.nil_prefix, fun hd => ?_⟩⟩
    have hst : v2.s.state = .done := by simpa [isDone] using hd
    rw [hst] at b3
    rcases b3 with h | h | h <;> cases h
  obtain ⟨e1, he1, hv1⟩ := a1.header
  obtain ⟨e2, he2, hv2⟩ := b1.header
  obtain ⟨x1, hx1⟩ := hp1
  obtain ⟨x2, hx2⟩ := hp2
  rw [a1.consumed, List.append_assoc, List.append_assoc] at hx1
  rw [b1.consumed, List.append_assoc, List.append_assoc] at hx2
  obtain ⟨hrow, hbare, hrest⟩ := header_unique hv1.ok hv2.ok (hx1.trans hx2.symm)
  subst hrow
  have hmid : hd1.messageId = hd2.messageId := congrArg (·.messageId) hbare
  have hfl : hd1.frameLen = hd2.frameLen := congrArg (·.frameLen) hbare
  have hsd : hd1.algSuiteData = hd2.algSuiteData := congrArg (·.algSuiteData) hbare
  have hctx : hd1.encCtx = hd2.encCtx := congrArg (·.encCtx) hbare
  have hedks : hd1.edks = hd2.edks := congrArg (·.edks) hbare
  have halg : hd1.algId = hd2.algId := congrArg (·.algId) hbare
  have hver : row1.version = 2 := by
    have := head_wireHeader hv1.ok.suite hd1 (bodyBytes fr1 ++ (tr1 ++ x1))
    rw [hx1, hv] at this
    rcases row_version hv1.ok.suite with hv' | hv'
    · rw [hv'] at this; exact absurd this (by decide)
    · exact hv'
  have hcl := row_v2_commitment hv1.ok.suite hver
  by_cases hdk : m1.dataKey = m2.dataKey
  · left
    have hk : k1 = k2 := by
      have q1 := hv1.key
      have q2 := hv2.key
      rw [hdk, hmid] at q1
      exact (derivedKey_agree (hE e1 e2 he1 he2).2 q1 q2).1
    subst hk
    have hf2 := b1.frames
    rw [← hmid, ← hfl] at hf2
    have hag := opened_agree hv1.ok.frameLen (fun e1 e2 h h' => (hE e1 e2 h h').1) a1.frames hf2 hrest
    have hpre : ∀ {fr fr' : List (Frame × Bytes)}, (∀ i (h : i < fr.length) (h' : i < fr'.length), fr[i] = fr'[i]) →
        fr.length ≤ fr'.length → bodyText fr <+: bodyText fr' := fun h hl => bodyText_prefix (prefix_of_getElem hl h)
    rw [a1.released, b1.released]
    constructor
    · rcases Nat.le_total fr1.length fr2.length with hl | hl
      · exact Or.inl (hpre hag hl)
      · exact Or.inr (hpre (fun i h h' => (hag i h' h).symm) hl)
    · intro hd
      have hst : v1.s.state = .done := by simpa [isDone] using hd
      have hle := prefix_of_complete (body_of b2) (a3 hst).1 (fun i h h' => (hag i h' h).symm)
      refine ⟨bodyText_prefix hle, fun hd' => ?_⟩
      have hst' : v2.s.state = .done := by simpa [isDone] using hd'
      have hge := prefix_of_complete (body_of a2) (b3 hst').1 hag
      rw [hle.eq_of_length_le hge.length_le]
  · right
    have q1 := hv1.key.2
    have q2 := hv2.key.2
    have hne : ¬ row1.commitment = 0 := by omega
    rw [if_neg hne] at q1 q2
    obtain ⟨s1, hs1, q1⟩ := q1
    obtain ⟨s2, hs2, q2⟩ := q2
    have hs : s1 = s2 := hashLen_inj (by omega)
    subst hs
    rw [hcl] at q1 q2
    rw [← hmid, ← hsd] at q2
    have hc2 := hv2.cmm
    rw [← hctx, ← hedks, ← halg] at hc2
    exact ⟨e1, e2, _, m1, m2, s1, hd1.messageId, hd1.algSuiteData, he1, he2, hv1.cmm, hc2, hdk, q1, q2⟩

/-- **C101** (policy): what a session accepts under the policy that requires commitment has format version 2. -/
theorem C101_required_by_policy (E : Env → Prop) (v : View) (h : Reach E .requireRequire v) (hm : v.s.mode.isDecrypt = true)
    (hne : v.s.state ≠ .error) (hc : v.consumed ≠ []) : v.consumed.head? = some 2 := by
  rcases decrypted_of h.hinv hm with ⟨a1, -⟩ | ⟨row, hd, m, k, fr, tr, a1, af, -⟩
  · exact absurd a1 hc
  obtain ⟨e, he, hv⟩ := a1.header
  obtain ⟨pol', hp, hpe⟩ := af.policy
  rw [hpe hne] at hp
  rw [a1.consumed, List.append_assoc, head_wireHeader hv.ok.suite]
  rcases row_version hv.ok.suite with hv' | hv'
  · exact absurd (row_v1_commitment hv.ok.suite hv') hp
  · rw [hv']; rfl

/-! ### two readers with different data keys -/

/-- An AEAD that, like GCM, does not commit to its key: under another key another plaintext comes out. -/
def C101_crypto : Crypto :=
  { Example.crypto with
    hkdf := fun _ _ ikm _ n => .ok (List.replicate n (ikm.headD 0))
    hkdf_len := by intro _ _ _ _ n k h; cases h; simp
    aeadOpen := fun k _ _ ct tag => if tag = List.replicate 16 7 then .ok (ct.map (· + k.headD 0)) else .error .badCiphertext
    aeadOpen_len := by
      intro _ _ _ ct tag pt h
      split at h <;> cases h
      simp }

/-- A user with the data key `d, d, ...`. -/
def C101_env (alg : Nat) (d : UInt8) : Env :=
  ⟨{ generate := fun req => (req.encCtx, .ok ⟨alg, List.replicate 32 d, [Example.edk], [], none⟩)
     decrypt := fun req => .ok ⟨req.alg, List.replicate 32 d, [], none⟩ }, C101_crypto, fun _ => true, 0, .unknown⟩

/-- A message written with the data key 0, 0, ... -/
def C101_msg (alg : Nat) (pol : Policy) : Bytes :=
  (run Example.encNew [(C101_env alg 0, .setPolicy pol), (C101_env alg 0, .setFrameSize 4), (C101_env alg 0, .setMessageSize 6),
    (C101_env alg 0, .process (Example.zeros 300) (some [1, 2, 3, 4, 5, 6]))]).released

def C101_reader (alg : Nat) (d : UInt8) (pol : Policy) : View :=
  run (Example.decNew .decrypt) [(C101_env alg d, .setPolicy pol), (C101_env alg d, .process (Example.zeros 50) (some (C101_msg alg pol)))]

theorem C101_reader_reach (alg : Nat) (d : UInt8) (pol : Policy) (hp : pol.isValid = true) :
    Reach (· = C101_env alg d) pol (C101_reader alg d pol) := by
  have h1 : Reach (· = C101_env alg d) pol (apply (C101_env alg d) (Example.decNew .decrypt) (.setPolicy pol)).1 := by
    have := Reach.call (.setPolicy pol) (Example.decNew_reach (· = C101_env alg d) .decrypt (Or.inl rfl)) (rfl : C101_env alg d = C101_env alg d)
    simpa only [polAfter, hp, if_true] using this
  exact Reach.call (.process (Example.zeros 50) (some (C101_msg alg pol))) h1 rfl

/-- The hypotheses hold for a committing message; the reader with the right key reads it and the reader with another key does not. -/
example : SamePrimitives (· = C101_env 0x0478 0) (· = C101_env 0x0478 1) ∧ (C101_msg 0x0478 .requireRequire).head? = some 2 ∧
    (C101_reader 0x0478 0 .requireRequire).consumed = C101_msg 0x0478 .requireRequire ∧
    (C101_reader 0x0478 0 .requireRequire).released = [1, 2, 3, 4, 5, 6] ∧ isDone (C101_reader 0x0478 0 .requireRequire).s = true ∧
    (C101_reader 0x0478 1 .requireRequire).released = [] ∧ (C101_reader 0x0478 1 .requireRequire).s.state = .error := by
  refine ⟨?_, by decide +kernel, by decide +kernel, by decide +kernel, by decide +kernel, by decide +kernel, by decide +kernel⟩
  rintro _ _ rfl rfl
  exact ⟨rfl, fun _ _ _ _ _ _ _ h h' => by rw [show (C101_env 0x0478 1).crypto = (C101_env 0x0478 0).crypto from rfl, h] at h'; exact Except.ok.inj h'⟩

/-- **C101** (suites without commitment): with an AEAD that does not commit to its key, two readers of the same message of format
version 1, with different data keys, are done with different plaintexts. -/
theorem C101_uncommitted_refuted : ∃ (E1 E2 : Env → Prop) (v1 v2 : View), Reach E1 .forbidAllow v1 ∧ Reach E2 .forbidAllow v2 ∧
    v1.s.mode.isDecrypt = true ∧ v2.s.mode.isDecrypt = true ∧ SamePrimitives E1 E2 ∧ ¬ CommitmentCollides E1 E2 ∧
    v1.consumed = v2.consumed ∧ isDone v1.s = true ∧ isDone v2.s = true ∧ v1.released ≠ v2.released := by
  refine ⟨(· = C101_env 0x0178 0), (· = C101_env 0x0178 1), C101_reader 0x0178 0 .forbidAllow, C101_reader 0x0178 1 .forbidAllow,
    C101_reader_reach _ _ _ rfl, C101_reader_reach _ _ _ rfl, by decide +kernel, by decide +kernel, ?_, ?_, by decide +kernel, by decide +kernel,
    by decide +kernel, by decide +kernel⟩
  · rintro _ _ rfl rfl
    exact ⟨rfl, fun _ _ _ _ _ _ _ h h' => by rw [show (C101_env 0x0178 1).crypto = (C101_env 0x0178 0).crypto from rfl, h] at h'; exact Except.ok.inj h'⟩
  · rintro ⟨_, _, req, m1, m2, sha, mid, c, rfl, rfl, h1, h2, -, h3, h4⟩
    cases h1; cases h2; cases h3
    simp [C101_env, C101_crypto] at h4

end Verif.Props
