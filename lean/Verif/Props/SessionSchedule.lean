import Verif.Proof.SessionDet
import Verif.Props.Session
/-
C16, C17, C18: the way the caller slices its buffers does not matter.
-/
namespace Verif.Props
open Verif Verif.Spec

/-! ### C18: decryption -/

/-- Two decrypting sessions that were given prefixes of the same ciphertext, in whatever slices, and whose environments have the
same CMM answers and crypto primitives: what one has released is a prefix of what the other has, and a session that is done has
released the most. -/
theorem C18_two_schedules (D : DecRequest → Except Err DecMaterials) (C : Crypto) (T : Bytes) (E1 E2 : Env → Prop)
    (hE1 : ∀ e, E1 e → e.cmm.decrypt = D ∧ e.crypto = C) (hE2 : ∀ e, E2 e → e.cmm.decrypt = D ∧ e.crypto = C)
    (pol1 pol2 : Policy) (v1 v2 : View) (h1 : Reach E1 pol1 v1) (h2 : Reach E2 pol2 v2)
    (hm1 : v1.s.mode.isDecrypt = true) (hm2 : v2.s.mode.isDecrypt = true) (hc1 : v1.consumed <+: T) (hc2 : v2.consumed <+: T) :
    (v1.released <+: v2.released ∨ v2.released <+: v1.released) ∧ (isDone v1.s = true → v2.released <+: v1.released) := by
  rcases decrypted_of h1.hinv hm1 with ⟨a1, a2, a3⟩ | ⟨row1, hd1, m1, k1, fr1, tr1, a1, -, a2, a3⟩
  · refine ⟨Or.inl (by rw [a2]; exact List.nil_prefix), fun hd => ?_⟩
    have : v1.s.state = .done := by simpa [isDone] using hd
    rw [this] at a3; simp at a3
  · rcases decrypted_of h2.hinv hm2 with ⟨b1, b2, -⟩ | ⟨row2, hd2, m2, k2, fr2, tr2, b1, -, b2, -⟩
    · exact ⟨Or.inr (by rw [b2]; exact List.nil_prefix), fun _ => by rw [b2]; exact List.nil_prefix⟩
    · obtain ⟨e1, he1, hv1⟩ := a1.header
      obtain ⟨e2, he2, hv2⟩ := b1.header
      obtain ⟨y1, hy1⟩ := hc1
      obtain ⟨y2, hy2⟩ := hc2
      rw [a1.consumed] at hy1
      rw [b1.consumed] at hy2
      have hT := hy1.trans hy2.symm
      simp only [List.append_assoc] at hT
      obtain ⟨rfl, hbare, hrest⟩ := header_unique hv1.ok hv2.ok hT
      have e_mid : hd1.messageId = hd2.messageId := by have := congrArg Hdr.messageId hbare; exact this
      have e_fl : hd1.frameLen = hd2.frameLen := by have := congrArg Hdr.frameLen hbare; exact this
      have e_ctx : hd1.encCtx = hd2.encCtx := by have := congrArg Hdr.encCtx hbare; exact this
      have e_edks : hd1.edks = hd2.edks := by have := congrArg Hdr.edks hbare; exact this
      have e_alg : hd1.algId = hd2.algId := by have := congrArg Hdr.algId hbare; exact this
      have hm : m1 = m2 := by
        have c1 := hv1.cmm
        have c2 := hv2.cmm
        rw [(hE1 e1 he1).1, e_ctx, e_edks, e_alg] at c1
        rw [(hE2 e2 he2).1, c1] at c2
        cases c2; rfl
      subst hm
      have hk : k1 = k2 := by
        have c1 := hv1.key
        have c2 := hv2.key
        rw [(hE1 e1 he1).2, e_mid] at c1
        rw [(hE2 e2 he2).2] at c2
        exact (derivedKey_unique c1 c2).1
      subst hk
      have hfs : hd2.frameLen < 2 ^ 32 := hv2.ok.frameLen
      have f1 := a1.frames
      rw [e_mid, e_fl] at f1
      have hag := opened_agree hfs (fun e1 e2 h1 h2 => by rw [(hE1 e1 h1).2, (hE2 e2 h2).2]) f1 b1.frames hrest
      rw [a1.released, b1.released]
      constructor
      · by_cases hle : fr1.length ≤ fr2.length
        · exact Or.inl (bodyText_prefix (prefix_of_getElem hle hag))
        · exact Or.inr (bodyText_prefix (prefix_of_getElem (by omega) (fun i h1 h2 => (hag i h2 h1).symm)))
      · intro hd
        have hst : v1.s.state = .done := by simpa [isDone] using hd
        exact bodyText_prefix (prefix_of_complete (body_of b2) (a3 hst).1 (fun i h1 h2 => (hag i h2 h1).symm))

/-- A ciphertext and the answers of CMM and primitives determine one plaintext: every decrypting session that is fed this
ciphertext, in whatever slices and with whatever settings, releases a prefix of it, and all of it when it is done. -/
theorem C18_schedule_independent (D : DecRequest → Except Err DecMaterials) (C : Crypto) (T : Bytes) :
    ∃ X : Bytes, ∀ (E : Env → Prop) (pol : Policy) (v : View), (∀ e, E e → e.cmm.decrypt = D ∧ e.crypto = C) → Reach E pol v →
      v.s.mode.isDecrypt = true → v.consumed <+: T → v.released <+: X ∧ (isDone v.s = true → v.released = X) := by
  obtain ⟨X, h1, h2⟩ := chain_max
    (fun a => ∃ (E : Env → Prop) (pol : Policy) (v : View), (∀ e, E e → e.cmm.decrypt = D ∧ e.crypto = C) ∧ Reach E pol v ∧
      v.s.mode.isDecrypt = true ∧ v.consumed <+: T ∧ v.released = a)
    (by
      rintro a b ⟨E1, p1, v1, x1, x2, x3, x4, rfl⟩ ⟨E2, p2, v2, y1, y2, y3, y4, rfl⟩
      exact (C18_two_schedules D C T E1 E2 x1 y1 p1 p2 v1 v2 x2 y2 x3 y3 x4 y4).1)
    T.length
    (by
      rintro a ⟨E, p, v, x1, x2, x3, x4, rfl⟩
      rcases decrypted_of x2.hinv x3 with ⟨-, a2, -⟩ | ⟨row, hd, m, k, fr, tr, a1, -⟩
      · rw [a2]; simp
      · have := x4.length_le
        rw [a1.consumed] at this
        simp only [List.length_append] at this
        have hb := bodyText_le_bodyBytes a1.frames (fun i f pt h => by have := h.len; have := @wireFrame_ge f; omega)
        rw [a1.released]
        omega)
  refine ⟨X, fun E pol v x1 x2 x3 x4 => ⟨h1 _ ⟨E, pol, v, x1, x2, x3, x4, rfl⟩, fun hd => ?_⟩⟩
  obtain ⟨E', p', w, y1, y2, y3, y4, y5⟩ := h2 ⟨_, E, pol, v, x1, x2, x3, x4, rfl⟩
  have ha := h1 _ ⟨E, pol, v, x1, x2, x3, x4, rfl⟩
  have hb := (C18_two_schedules D C T E E' x1 y1 pol p' v w x2 y2 x3 y3 x4 y4).2 hd
  rw [y5] at hb
  exact ha.eq_of_length_le hb.length_le

example : (run (Example.decNew .decrypt) Example.decHist).consumed = Example.msg ∧
    (run (Example.decNew .decrypt) Example.decHist).released = [1, 2, 3, 4, 5, 6] ∧
    (run (Example.decNew .decrypt) (Example.decHist.take 2)).consumed = Example.msg.take 145 ∧
    (run (Example.decNew .decrypt) (Example.decHist.take 2)).released = [1, 2, 3, 4] := by decide +kernel

/-! ### C17: encryption -/

/-- Every environment in `E` answers every request for materials with `m` (leaving the context `ctx`) and has the primitives
(including the random bytes) of `C`. -/
def FixedEncrypt (ctx : EncCtx) (m : EncMaterials) (C : Crypto) (E : Env → Prop) : Prop :=
  ∀ e, E e → (∀ req, e.cmm.generate req = (ctx, .ok m)) ∧ e.crypto = C

/-- `v` is an encrypting session with frame size `fs` that has been given a prefix of the plaintext `P` and, if it has been told
a message size, the length of `P`. -/
structure Encrypting (fs : Nat) (P : Bytes) (v : View) : Prop where
  mode : v.s.mode = .encrypt
  frame : v.s.frameSize = fs
  input : v.consumed <+: P
  size : v.s.preciseKnown = true → v.s.preciseSize = P.length

/-- The session has written the whole message. -/
def Full (E : Env → Prop) (v : View) : Prop :=
  ∃ row hd m k fr tr, Encrypted E row hd m k fr tr v.consumed v.released ∧ hd.frameLen = v.s.frameSize ∧ EncMade E hd m ∧
    Complete fr ∧ v.consumed.length = v.s.preciseSize ∧ v.s.preciseKnown = true ∧
    Signed E row m (wireHeader row.version hd ++ bodyBytes fr) tr

theorem full_of_done {E : Env → Prop} {pol : Policy} {v : View} (h : Reach E pol v) (hm : v.s.mode = .encrypt) (hd : isDone v.s = true) :
    Full E v := by
  have hst : v.s.state = .done := by simpa [isDone] using hd
  rcases encrypted_of h.hinv hm with ⟨hc, hr⟩ | ⟨row, hd, m, k, fr, tr, a1, a2, a3, a4⟩
  · exfalso
    obtain ⟨row, hd, m, k, fr, tr, a1, -⟩ := C60_done_means_complete E pol v h hm hd
    have := a1.released
    rw [hr] at this
    have hl := congrArg List.length this
    obtain ⟨e, -, hmade⟩ := a1.header
    obtain ⟨ct, hct⟩ := hmade.tag
    have ht := (e.crypto.aeadSeal_len _ _ _ _ _ _ hct).2
    unfold wireHeader at hl
    simp only [List.length_append, List.length_nil] at hl
    omega
  · obtain ⟨b1, b2⟩ := a4 hst
    rcases a3 with ⟨c1, -⟩ | ⟨-, c1, c2, -⟩
    · obtain ⟨init, last, rfl, -, hl⟩ := b1
      exact absurd (c1 last (by simp)) hl
    · exact ⟨row, hd, m, k, fr, tr, a1, a2.frameLen, a2.made, b1, c2, c1, b2⟩

theorem full_dominates {ctx : EncCtx} {m : EncMaterials} {C : Crypto} {fs : Nat} {P : Bytes} {E1 E2 : Env → Prop}
    (hE1 : FixedEncrypt ctx m C E1) (hE2 : FixedEncrypt ctx m C E2) {pol2 : Policy} {v1 v2 : View} (hf : Full E1 v1)
    (h2 : Reach E2 pol2 v2) (e1 : Encrypting fs P v1) (e2 : Encrypting fs P v2) : v2.released <+: v1.released := by
  obtain ⟨row1, hd1, m1, k1, fr1, tr1, a1, a2, a3, a4, a5, a6, a7⟩ := hf
  rcases encrypted_of h2.hinv e2.mode with ⟨-, hr⟩ | ⟨row2, hd2, m2, k2, fr2, tr2, b1, b2, b3, b4⟩
  · rw [hr]; exact List.nil_prefix
  · obtain ⟨rfl, rfl, rfl, hmid, hw⟩ := headerMade_unique hE1 hE2 a1.header b1.header a3 b2.made (by rw [a2, b2.frameLen, e1.frame, e2.frame])
    have hfl : hd1.frameLen = hd2.frameLen := by rw [a2, b2.frameLen, e1.frame, e2.frame]
    have hp1 := e1.input
    have hp2 := e2.input
    rw [a1.consumed] at hp1
    rw [b1.consumed] at hp2
    have f1 := a1.frames
    rw [hmid, hfl] at f1
    have len1 : (bodyText fr1).length = P.length := by rw [← a1.consumed, a5]; exact e1.size a6
    have ho2 : Ongoing fr2 ∨ (Complete fr2 ∧ (bodyText fr2).length = P.length) := by
      rcases b3 with ⟨c, -⟩ | ⟨c1, c2, c3, -⟩
      · exact Or.inl c
      · exact Or.inr ⟨c1, by rw [← b1.consumed, c3]; exact e2.size c2⟩
    have hag := sealed_agree (fun e1 e2 h1 h2 => by rw [(hE1 e1 h1).2, (hE2 e2 h2).2]) f1 b1.frames hp1 hp2 (Or.inr ⟨a4, len1⟩) ho2
    have hpre := prefix_of_complete (body_of (ho2.imp id (fun h => h.1))) a4 (fun i h1 h2 => (hag i h2 h1).symm)
    rw [a1.released, b1.released, hw]
    rcases b3 with ⟨-, rfl⟩ | ⟨c1, -, -, c4⟩
    · rw [List.append_nil, List.append_assoc, List.prefix_append_right_inj]
      exact (bodyBytes_prefix hpre).trans (List.prefix_append _ _)
    · have hpre' := prefix_of_complete (body_of (Or.inr a4)) c1 hag
      have hfr : fr2 = fr1 := hpre.eq_of_length_le hpre'.length_le
      subst hfr
      rw [List.append_assoc, List.append_assoc, List.prefix_append_right_inj, List.prefix_append_right_inj]
      rcases c4 with rfl | c4
      · exact List.nil_prefix
      · rw [hw] at a7
        rw [signed_unique (fun e h => (hE1 e h).2) (fun e h => (hE2 e h).2) a7 c4]
        exact List.prefix_refl _

theorem unfinished {E : Env → Prop} {pol : Policy} {v : View} (h : Reach E pol v) (hm : v.s.mode = .encrypt) :
    Full E v ∨ v.released = [] ∨
    ∃ row hd m k fr, Encrypted E row hd m k fr [] v.consumed v.released ∧ hd.frameLen = v.s.frameSize ∧ EncMade E hd m ∧
      (Ongoing fr ∨ (Complete fr ∧ v.s.preciseKnown = true ∧ v.consumed.length = v.s.preciseSize)) := by
  rcases encrypted_of h.hinv hm with ⟨-, hr⟩ | ⟨row, hd, m, k, fr, tr, a1, a2, a3, a4⟩
  · exact Or.inr (Or.inl hr)
  · rcases a3 with ⟨c1, rfl⟩ | ⟨c1, c2, c3, c4⟩
    · exact Or.inr (Or.inr ⟨row, hd, m, k, fr, a1, a2.frameLen, a2.made, Or.inl c1⟩)
    · rcases c4 with rfl | c4
      · exact Or.inr (Or.inr ⟨row, hd, m, k, fr, a1, a2.frameLen, a2.made, Or.inr ⟨c1, c2, c3⟩⟩)
      · exact Or.inl ⟨row, hd, m, k, fr, tr, a1, a2.frameLen, a2.made, c1, c3, c2, c4⟩

/-- Two encrypting sessions with the same materials, primitives, frame size and plaintext, given prefixes of the plaintext in
whatever slices: what one has released is a prefix of what the other has, and a session that is done has released the most. -/
theorem C17_two_schedules (ctx : EncCtx) (m : EncMaterials) (C : Crypto) (fs : Nat) (P : Bytes) (E1 E2 : Env → Prop)
    (hE1 : FixedEncrypt ctx m C E1) (hE2 : FixedEncrypt ctx m C E2) (pol1 pol2 : Policy) (v1 v2 : View)
    (h1 : Reach E1 pol1 v1) (h2 : Reach E2 pol2 v2) (e1 : Encrypting fs P v1) (e2 : Encrypting fs P v2) :
    (v1.released <+: v2.released ∨ v2.released <+: v1.released) ∧ (isDone v1.s = true → v2.released <+: v1.released) := by
  refine ⟨?_, fun hd => full_dominates hE1 hE2 (full_of_done h1 e1.mode hd) h2 e1 e2⟩
  rcases unfinished h1 e1.mode with hf | hr | ⟨row1, hd1, m1, k1, fr1, a1, a2, a3, a4⟩
  · exact Or.inr (full_dominates hE1 hE2 hf h2 e1 e2)
  · exact Or.inl (by rw [hr]; exact List.nil_prefix)
  · rcases unfinished h2 e2.mode with hf | hr | ⟨row2, hd2, m2, k2, fr2, b1, b2, b3, b4⟩
    · exact Or.inl (full_dominates hE2 hE1 hf h1 e2 e1)
    · exact Or.inr (by rw [hr]; exact List.nil_prefix)
    · obtain ⟨rfl, rfl, rfl, hmid, hw⟩ := headerMade_unique hE1 hE2 a1.header b1.header a3 b3 (by rw [a2, b2, e1.frame, e2.frame])
      have hfl : hd1.frameLen = hd2.frameLen := by rw [a2, b2, e1.frame, e2.frame]
      have hp1 := e1.input
      have hp2 := e2.input
      rw [a1.consumed] at hp1
      rw [b1.consumed] at hp2
      have f1 := a1.frames
      rw [hmid, hfl] at f1
      have hag := sealed_agree (fun e1 e2 h1 h2 => by rw [(hE1 e1 h1).2, (hE2 e2 h2).2]) f1 b1.frames hp1 hp2
        (a4.imp id (fun h => ⟨h.1, by rw [← a1.consumed, h.2.2]; exact e1.size h.2.1⟩))
        (b4.imp id (fun h => ⟨h.1, by rw [← b1.consumed, h.2.2]; exact e2.size h.2.1⟩))
      rw [a1.released, b1.released, hw, List.append_nil, List.append_nil, List.prefix_append_right_inj, List.prefix_append_right_inj]
      by_cases hle : fr1.length ≤ fr2.length
      · exact Or.inl (bodyBytes_prefix (prefix_of_getElem hle hag))
      · exact Or.inr (bodyBytes_prefix (prefix_of_getElem (by omega) (fun i h1 h2 => (hag i h2 h1).symm)))

/-- Plaintext, frame size, materials and primitives determine one message: every encrypting session that is fed this plaintext,
in whatever slices, releases a prefix of it, and all of it when it is done. -/
theorem C17_schedule_independent (ctx : EncCtx) (m : EncMaterials) (C : Crypto) (fs : Nat) (P : Bytes) :
    ∃ X : Bytes, ∀ (E : Env → Prop) (pol : Policy) (v : View), FixedEncrypt ctx m C E → Reach E pol v → Encrypting fs P v →
      v.released <+: X ∧ (isDone v.s = true → v.released = X) := by
  by_cases hfull : ∃ (E : Env → Prop) (pol : Policy) (v : View), FixedEncrypt ctx m C E ∧ Reach E pol v ∧ Encrypting fs P v ∧ Full E v
  · obtain ⟨E', pol', w, y1, y2, y3, y4⟩ := hfull
    refine ⟨w.released, fun E pol v x1 x2 x3 => ⟨full_dominates y1 x1 y4 x2 y3 x3, fun hd => ?_⟩⟩
    have ha := full_dominates y1 x1 y4 x2 y3 x3
    have hb := (C17_two_schedules ctx m C fs P E E' x1 y1 pol pol' v w x2 y2 x3 y3).2 hd
    exact ha.eq_of_length_le hb.length_le
  · have hN : ∃ N, ∀ (E : Env → Prop) (pol : Policy) (v : View), FixedEncrypt ctx m C E → Reach E pol v → Encrypting fs P v → v.released.length ≤ N := by
      by_cases hs : ∃ (E : Env → Prop) (pol : Policy) (v : View), FixedEncrypt ctx m C E ∧ Reach E pol v ∧ Encrypting fs P v ∧ v.released ≠ []
      · obtain ⟨E', pol', w, y1, y2, y3, y4⟩ := hs
        rcases unfinished y2 y3.mode with hf | hr | ⟨row2, hd2, m2, k2, fr2, b1, b2, b3, b4⟩
        · exact absurd ⟨E', pol', w, y1, y2, y3, hf⟩ hfull
        · exact absurd hr y4
        · refine ⟨(wireHeader row2.version hd2).length + (41 * P.length + 40), fun E pol v x1 x2 x3 => ?_⟩
          rcases unfinished x2 x3.mode with hf | hr | ⟨row1, hd1, m1, k1, fr1, a1, a2, a3, a4⟩
          · exact absurd ⟨E, pol, v, x1, x2, x3, hf⟩ hfull
          · rw [hr]; simp
          · obtain ⟨-, -, -, -, hw⟩ := headerMade_unique x1 y1 a1.header b1.header a3 b3 (by rw [a2, b2, x3.frame, y3.frame])
            rw [a1.released, hw]
            have h1 := sealed_bytes_le a1.frames (body_of (a4.imp id (fun h => h.1)))
            have h2 := x3.input.length_le
            rw [a1.consumed] at h2
            simp only [List.length_append, List.length_nil]
            omega
      · exact ⟨0, fun E pol v x1 x2 x3 => Nat.le_of_eq (by
          rw [Decidable.byContradiction (fun hne => hs ⟨E, pol, v, x1, x2, x3, hne⟩)]; rfl)⟩
    obtain ⟨N, hN⟩ := hN
    obtain ⟨X, h1, h2⟩ := chain_max
      (fun a => ∃ (E : Env → Prop) (pol : Policy) (v : View), FixedEncrypt ctx m C E ∧ Reach E pol v ∧ Encrypting fs P v ∧ v.released = a)
      (by
        rintro a b ⟨E1, p1, v1, x1, x2, x3, rfl⟩ ⟨E2, p2, v2, y1, y2, y3, rfl⟩
        exact (C17_two_schedules ctx m C fs P E1 E2 x1 y1 p1 p2 v1 v2 x2 y2 x3 y3).1)
      N
      (by
        rintro a ⟨E, p, v, x1, x2, x3, rfl⟩
        exact hN E p v x1 x2 x3)
    refine ⟨X, fun E pol v x1 x2 x3 => ⟨h1 _ ⟨E, pol, v, x1, x2, x3, rfl⟩, fun hd => ?_⟩⟩
    exact absurd ⟨E, pol, v, x1, x2, x3, full_of_done x2 x3.mode hd⟩ hfull

/-- Fixed materials. -/
def C17_m : EncMaterials := ⟨0x0578, List.replicate 32 1, [Example.edk], [], some ⟨⟨0, none, none⟩, []⟩⟩

/-- A CMM that always answers with them. -/
def C17_env : Env := { Example.env with cmm := { Example.env.cmm with generate := fun _ => ([([1], [2])], .ok C17_m) } }

def C17_run (sizes : List (Nat × Bytes)) (last : Bytes) : View :=
  run Example.encNew ([(C17_env, .setFrameSize 4)] ++ sizes.map (fun x => (C17_env, .process (Example.zeros x.1) (some x.2))) ++
    [(C17_env, .setMessageSize 6), (C17_env, .process (Example.zeros 300) (some last))])

/-- Two schedules meet the hypotheses; both are done. -/
example : FixedEncrypt [([1], [2])] C17_m Example.crypto (· = C17_env) ∧
    Encrypting 4 [1, 2, 3, 4, 5, 6] (C17_run [(200, [1, 2, 3, 4, 5]), (7, [5])] [5, 6]) ∧
    Encrypting 4 [1, 2, 3, 4, 5, 6] (C17_run [(20, [1]), (109, []), (10, [1, 2, 3, 4])] [1, 2, 3, 4, 5, 6]) ∧
    isDone (C17_run [(200, [1, 2, 3, 4, 5]), (7, [5])] [5, 6]).s = true ∧
    isDone (C17_run [(20, [1]), (109, []), (10, [1, 2, 3, 4])] [1, 2, 3, 4, 5, 6]).s = true := by
  refine ⟨?_, ⟨?_, ?_, ?_, ?_⟩, ⟨?_, ?_, ?_, ?_⟩, ?_, ?_⟩
  · rintro e rfl; exact ⟨fun _ => rfl, rfl⟩
  all_goals decide +kernel

/-! ### C16: encryption followed by decryption -/

/-- The decrypting side `E2` undoes the encrypting side `E1`, if its CMM is asked a request of `R`: what one seals the other opens, both
derive keys alike, and for encrypted data keys that came with a data key, under the same suite and context, the CMM of the decrypting
side, if it answers, answers with that data key. -/
structure UndoesFor (R : DecRequest → Prop) (E1 E2 : Env → Prop) : Prop where
  aead : ∀ e1 e2 k iv aad pt ct tag, E1 e1 → E2 e2 → e1.crypto.aeadSeal k iv aad pt = some (ct, tag) →
    e2.crypto.aeadOpen k iv aad ct tag = .ok pt
  hkdf : ∀ e1 e2 sha salt ikm info n x y, E1 e1 → E2 e2 → e1.crypto.hkdf sha salt ikm info n = .ok x →
    e2.crypto.hkdf sha salt ikm info n = .ok y → x = y
  dataKey : ∀ e1 e2 req ctx ctx' m m', E1 e1 → E2 e2 → DistinctKeys req.encCtx → e1.cmm.generate req = (ctx, .ok m) → ctx.Perm ctx' →
    R { encCtx := ctx', edks := m.edks, alg := m.alg } →
    e2.cmm.decrypt { encCtx := ctx', edks := m.edks, alg := m.alg } = .ok m' → m'.dataKey = m.dataKey

/-- The decrypting side `E2` undoes the encrypting side `E1`, whatever its CMM is asked. -/
def Undoes (E1 E2 : Env → Prop) : Prop := UndoesFor (fun _ => True) E1 E2

/-- What the CMM of the encrypting side returns can be stored in a header: the context is a map, and there are fewer than 65536
encrypted data keys, each with fields of fewer than 65536 bytes. -/
def Storable (E : Env → Prop) : Prop :=
  ∀ e req ctx m, E e → DistinctKeys req.encCtx → e.cmm.generate req = (ctx, .ok m) → DistinctKeys ctx ∧ m.edks.length < 65536 ∧
    ∀ x ∈ m.edks, x.providerId.length < 65536 ∧ x.providerInfo.length < 65536 ∧ x.ciphertext.length < 65536

/-- `C16_round_trip` for a reader whose CMM is asked a request of `R`. -/
theorem round_trip_for {R : DecRequest → Prop} {E1 E2 : Env → Prop} (hu : UndoesFor R E1 E2) (hs : Storable E1) (pol1 pol2 : Policy) (v1 v2 : View)
    (h1 : Reach E1 pol1 v1) (h2 : Reach E2 pol2 v2) (hR : R ⟨v1.s.header.sorted.encCtx, v1.s.header.edks, v1.s.header.algId⟩)
    (hm1 : v1.s.mode = .encrypt) (hm2 : v2.s.mode.isDecrypt = true)
    (hd1 : isDone v1.s = true) (hc : v2.consumed <+: v1.released) :
    v2.released <+: v1.consumed ∧
    (isDone v2.s = true → v2.released = v1.consumed ∧
      ∃ ctx1 ctx2, getEncCtx v1.s = some ctx1 ∧ getEncCtx v2.s = some ctx2 ∧ ctx1.Perm ctx2) := by
  have hst1 : v1.s.state = .done := by simpa [isDone] using hd1
  rcases encrypted_of h1.hinv hm1 with ⟨-, hr⟩ | ⟨row1, hd1, m1, k1, fr1, tr1, a1, a2, a3, a4⟩
  · exfalso
    obtain ⟨row, hd, m, k, fr, tr, a1, -⟩ := full_of_done h1 hm1 hd1
    have := a1.released
    rw [hr] at this
    have hl := congrArg List.length this
    obtain ⟨e, -, hmade⟩ := a1.header
    obtain ⟨ct, hct⟩ := hmade.tag
    have ht := (e.crypto.aeadSeal_len _ _ _ _ _ _ hct).2
    unfold wireHeader at hl
    simp only [List.length_append, List.length_nil] at hl
    omega
  · obtain ⟨hcomp, -⟩ := a4 hst1
    rcases decrypted_of h2.hinv hm2 with ⟨-, b2, b3⟩ | ⟨row2, hd2, m2, k2, fr2, tr2, b1, b2, b3, b4⟩
    · refine ⟨by rw [b2]; exact List.nil_prefix, fun hd => ?_⟩
      have : v2.s.state = .done := by simpa [isDone] using hd
      rw [this] at b3; simp at b3
    · obtain ⟨e1, he1, hmade⟩ := a1.header
      obtain ⟨e2, he2, hver⟩ := b1.header
      obtain ⟨e3, req, ctx, he3, ht, hgen, hsort, hclen⟩ := a2.made.ctx
      obtain ⟨st1, st2, st3⟩ := hs e3 req ctx m1 he3 ht hgen
      have hok1 := headerOK_of_made hmade a2.made (fun e req ctx he ht hg => (hs e req ctx m1 he ht hg).1) st2 st3
      obtain ⟨y, hy⟩ := hc
      rw [b1.consumed, a1.released, ← wireHeader_received row1.version hd1] at hy
      simp only [List.append_assoc] at hy
      obtain ⟨rfl, hbare, hrest⟩ := header_unique hver.ok hok1 hy
      have e_mid : hd2.messageId = hd1.messageId := by have := congrArg Hdr.messageId hbare; exact this
      have e_fl : hd2.frameLen = hd1.frameLen := by have := congrArg Hdr.frameLen hbare; exact this
      have e_ctx : hd2.encCtx = hd1.encCtx := by have := congrArg Hdr.encCtx hbare; exact this
      have e_edks : hd2.edks = hd1.edks := by have := congrArg Hdr.edks hbare; exact this
      have e_alg : hd2.algId = hd1.algId := by have := congrArg Hdr.algId hbare; exact this
      have hdk : m2.dataKey = m1.dataKey := by
        have := hver.cmm
        rw [e_edks, e_ctx, e_alg, hmade.edks, hmade.alg.1, ← hmade.alg.2] at this
        exact hu.dataKey e3 e2 req ctx hd1.encCtx m1 m2 he3 he2 ht hgen (by rw [hsort]; exact (sortByKey_perm ctx).symm)
          (by
            have hsh := a2.shown (by rw [hst1]; simp)
            have e1 : v1.s.header.sorted.encCtx = hd1.encCtx := by rw [hsh]
            have e2 : v1.s.header.edks = hd1.edks := by rw [← hsh]; rfl
            have e3 : v1.s.header.algId = hd1.algId := by rw [← hsh]; rfl
            rw [e1, e2, e3, hmade.edks, hmade.alg.1, ← hmade.alg.2] at hR
            exact hR) this
      have hk : k2 = k1 := by
        have c1 := hmade.key
        have c2 := hver.key
        rw [e_mid, hdk] at c2
        exact (derivedKey_agree (fun _ _ _ _ _ _ _ h h' => hu.hkdf e1 e2 _ _ _ _ _ _ _ he1 he2 h h') c1 c2).1.symm
      subst hk
      have f2 := b1.frames
      rw [e_mid, e_fl] at f2
      have hag := frames_agree a2.made.frame (fun _ _ _ h => h.ok) (fun _ _ _ h => h.ok)
        (fun i f p1 p2 o1 o2 => by
          obtain ⟨e1, he1, ho1⟩ := o1.opened
          obtain ⟨e2, he2, ho2⟩ := o2.sealed
          have := hu.aead _ _ _ _ _ _ _ _ he2 he1 ho2
          rw [← o2.iv, ← o2.len, ho1] at this
          exact Except.ok.inj this)
        f2 a1.frames hrest
      have hpre := prefix_of_complete (body_of b3) hcomp hag
      rw [b1.released, a1.consumed]
      refine ⟨bodyText_prefix hpre, fun hd => ?_⟩
      have hst2 : v2.s.state = .done := by simpa [isDone] using hd
      have hpre' := prefix_of_complete (body_of (Or.inr hcomp)) (b4 hst2).1 (fun i h1 h2 => (hag i h2 h1).symm)
      refine ⟨by rw [hpre.eq_of_length_le hpre'.length_le], v1.s.header.encCtx, v2.s.header.encCtx, ?_, ?_, ?_⟩
      · unfold getEncCtx; rw [if_neg (by rw [hm1]; simp [Mode.isDecrypt])]
      · have := (b2.shown (by rw [hst2]; simp)).2.1
        unfold getEncCtx; rw [if_neg (by rw [this]; simp)]
      · rw [(b2.shown (by rw [hst2]; simp)).1, e_ctx, ← a2.shown (by rw [hst1]; simp)]
        exact (sortByKey_perm _).symm

/-- A message written by one session, read back by another in whatever slices: what is released is a prefix of the plaintext,
all of it when the decrypting session is done, and the encryption context it shows is that of the encrypting session. -/
theorem C16_round_trip (E1 E2 : Env → Prop) (hu : Undoes E1 E2) (hs : Storable E1) (pol1 pol2 : Policy) (v1 v2 : View)
    (h1 : Reach E1 pol1 v1) (h2 : Reach E2 pol2 v2) (hm1 : v1.s.mode = .encrypt) (hm2 : v2.s.mode.isDecrypt = true)
    (hd1 : isDone v1.s = true) (hc : v2.consumed <+: v1.released) :
    v2.released <+: v1.consumed ∧
    (isDone v2.s = true → v2.released = v1.consumed ∧
      ∃ ctx1 ctx2, getEncCtx v1.s = some ctx1 ∧ getEncCtx v2.s = some ctx2 ∧ ctx1.Perm ctx2) :=
  round_trip_for (R := fun _ => True) hu hs pol1 pol2 v1 v2 h1 h2 trivial hm1 hm2 hd1 hc

/-- The toy environment is its own inverse, its CMM returns storable materials for contexts without repeated keys (here always
the same one), and both runs complete. -/
example : Undoes (· = C17_env) (· = Example.env) ∧ Storable (· = C17_env) ∧
    isDone (C17_run [(200, [1, 2, 3, 4, 5]), (7, [5])] [5, 6]).s = true ∧
    isDone (run (Example.decNew .decrypt) Example.decHist).s = true ∧
    (run (Example.decNew .decrypt) Example.decHist).consumed = (C17_run [(200, [1, 2, 3, 4, 5]), (7, [5])] [5, 6]).released := by
  refine ⟨⟨?_, ?_, ?_⟩, ?_, by decide +kernel, by decide +kernel, by decide +kernel⟩
  · rintro e1 e2 k iv aad pt ct tag rfl rfl h
    simp only [C17_env, Example.env, Example.crypto, Option.some.injEq, Prod.mk.injEq] at h
    obtain ⟨rfl, rfl⟩ := h
    rfl
  · rintro e1 e2 sha salt ikm info n x y rfl rfl h h'; exact Except.ok.inj (h.symm.trans h')
  · rintro e1 e2 req ctx ctx' m m' rfl rfl - h - - h'
    simp only [C17_env, Prod.mk.injEq, Except.ok.injEq] at h
    obtain ⟨rfl, rfl⟩ := h
    cases h'
    rfl
  · rintro e req ctx m rfl - h
    simp only [C17_env, Prod.mk.injEq, Except.ok.injEq] at h
    obtain ⟨rfl, rfl⟩ := h
    exact ⟨by simp [DistinctKeys], by decide, by decide⟩

end Verif.Props
