import Verif.Spec.Stack
import Verif.Props.RawKeyring
import Verif.Props.DefaultCmm
import Verif.Props.Signature
import Verif.Props.SessionComplete
/-
Lemmas for the composition of the layers.
-/
namespace Verif.Props
open Spec

/-! ### encryption by keyrings -/

/-- The encrypted data key `e` was made by `r` in one of the worlds `W` for the data key `key`. -/
def Wrapped (W : World → Prop) (ctx : EncCtx) (key : Bytes) : RawKr → Edk → Prop
  | .aes a, e => ∃ w iv ct tag aad, W w ∧ AesEdk a.ns a.name key.length e iv ct tag ∧ CtxAad ctx aad ∧
      w.base.aeadSeal a.key iv aad key = some (ct, tag) ∧ a.key.length ∈ [16, 24, 32] ∧ wireLen ctx ≤ 65535
  | .rsa a, e => ∃ w i pub ct, W w ∧ a.pub = some pub ∧ a.padding < 3 ∧ (w.kr i).rsaEncrypt pub a.padding key = .ok ct ∧ e = ⟨a.ns, a.name, ct⟩

theorem raw_encrypt {W : World → Prop} {w : World} (hw : W w) {i : Nat} {ctx : EncCtx} {alg : Nat} {s s' : EncState} {r : RawKr}
    (hd : DistinctKeys ctx) (hk : ∀ k, s.key = some k → RightLength alg k.bytes)
    (h : keyringOnEncrypt (r.keyring (w.krEnv i)) ctx alg s = (.ok, s')) :
    ∃ k e, s'.key = some k ∧ RightLength alg k.bytes ∧ (∀ k0, s.key = some k0 → k0 = k) ∧ s'.edks = s.edks ++ [e] ∧
      Wrapped W ctx k.bytes r e := by
  cases r with
  | aes a =>
    obtain ⟨k, e, iv, ct, tag, aad, h1, h2, h3, h4, h5, -, h7, h8, h9, h10, -⟩ := C49_encrypt_form _ a ctx alg s s' hd hk h
    refine ⟨k, e, h1, h2, ?_, h4, w, iv, ct, tag, aad, hw, h5, h7, h8, h9, h10⟩
    rintro k0 hk0
    rcases h3 with h3 | ⟨h3, -⟩
    · rw [hk0] at h3; cases h3; rfl
    · rw [hk0] at h3; cases h3
  | rsa a =>
    obtain ⟨pub, k, ct, hp, hpad, h1, h2, h3, h4, -⟩ := C50_encrypt_form _ a ctx alg s s' h
    refine ⟨k, _, h1, ?_, ?_, h4, w, i, pub, ct, hw, hp, hpad, h3, rfl⟩
    · rcases h2 with h2 | ⟨-, h2, -⟩
      · exact hk k h2
      · exact h2
    · rintro k0 hk0
      rcases h2 with h2 | ⟨h2, -⟩
      · rw [hk0] at h2; cases h2; rfl
      · rw [hk0] at h2; cases h2

theorem list_encrypt {W : World → Prop} {w : World} (hw : W w) {ctx : EncCtx} {alg : Nat} (hd : DistinctKeys ctx) :
    ∀ (rs : List RawKr) (i : Nat) (s s' : EncState), (∀ k, s.key = some k → RightLength alg k.bytes) →
      AllSucceed ctx alg (keyringsFrom w i rs) s s' →
      (∀ k0, s.key = some k0 → s'.key = some k0) ∧
      ∀ k, s'.key = some k → RightLength alg k.bytes ∧ ∃ es, s'.edks = s.edks ++ es ∧ es.length = rs.length ∧
        (∀ e ∈ es, ∃ r ∈ rs, Wrapped W ctx k.bytes r e) ∧ ∀ r ∈ rs, ∃ e ∈ es, Wrapped W ctx k.bytes r e := by
  intro rs
  induction rs with
  | nil =>
    intro i s s' hk h
    cases h
    exact ⟨fun _ h => h, fun k h => ⟨hk k h, [], by simp, rfl, by simp, by simp⟩⟩
  | cons r rs ih =>
    intro i s s' hk h
    cases h with
    | @cons _ _ _ s1 _ h1 h2 =>
      obtain ⟨k, e, a1, a2, a3, a4, a5⟩ := raw_encrypt hw hd hk h1
      obtain ⟨b1, b2⟩ := ih (i + 1) s1 s' (fun k' h' => by rw [a1] at h'; cases h'; exact a2) h2
      refine ⟨fun k0 h0 => a3 k0 h0 ▸ b1 k a1, fun k' hk' => ?_⟩
      have hkk := b1 k a1
      rw [hk'] at hkk; cases hkk
      obtain ⟨c1, es, c2, c3, c4, c5⟩ := b2 _ hk'
      refine ⟨c1, e :: es, by rw [c2, a4]; simp, by simp [c3], ?_, ?_⟩
      · intro x hx
        rcases List.mem_cons.mp hx with rfl | hx
        · exact ⟨r, by simp, a5⟩
        · obtain ⟨r', hr', hx⟩ := c4 x hx
          exact ⟨r', by simp [hr'], hx⟩
      · intro x hx
        rcases List.mem_cons.mp hx with rfl | hx
        · exact ⟨e, by simp, a5⟩
        · obtain ⟨e', he', hx⟩ := c5 x hx
          exact ⟨e', by simp [he'], hx⟩

theorem multi_members (w : World) (gen : Option RawKr) (children : List RawKr) :
    ∃ i, (gen.map (RawKr.keyring (w.krEnv 0))).toList ++ keyringsFrom w 1 children = keyringsFrom w i (gen.toList ++ children) := by
  cases gen with
  | none => exact ⟨1, rfl⟩
  | some g => exact ⟨0, rfl⟩

theorem user_encrypt {W : World → Prop} {w : World} (hw : W w) {ctx : EncCtx} {alg : Nat} (hd : DistinctKeys ctx) {kr : UserKr}
    {s' : EncState} {errno : Err} (h : keyringOnEncrypt (kr.keyring w) ctx alg ⟨none, [], [], errno⟩ = (.ok, s')) :
    ∃ k, s'.key = some k ∧ RightLength alg k.bytes ∧ s'.edks.length = (members kr).length ∧
      (∀ e ∈ s'.edks, ∃ r ∈ members kr, Wrapped W ctx k.bytes r e) ∧ ∀ r ∈ members kr, ∃ e ∈ s'.edks, Wrapped W ctx k.bytes r e := by
  cases kr with
  | one r =>
    obtain ⟨k, e, a1, a2, -, a4, a5⟩ := raw_encrypt hw hd (by simp) h
    simp only [List.nil_append] at a4
    refine ⟨k, a1, a2, by simp [a4, members], ?_, ?_⟩
    · simp [a4, members, a5]
    · simp [a4, members, a5]
  | multi gen children =>
    obtain ⟨my, recs, b1, b2, b3, b4, -⟩ := C47_success _ _ _ ctx alg _ s' h
    obtain ⟨i, hi⟩ := multi_members w gen children
    rw [hi] at b1
    obtain ⟨-, c2⟩ := list_encrypt hw hd _ i _ my (by simp) b1
    obtain ⟨k, hk⟩ := Option.isSome_iff_exists.mp b2
    obtain ⟨d1, es, d2, d3, d4, d5⟩ := c2 k hk
    simp only [List.nil_append] at d2 b4
    rw [b4, d2]
    exact ⟨k, by rw [b3, hk], d1, d3, d4, d5⟩

/-! ### decryption by keyrings -/

theorem firstOpened_exists {Opens : Edk → Bytes → Prop} {edks : List Edk} {e : Edk} {k : Bytes} (he : e ∈ edks) (h : Opens e k) :
    ∃ k', FirstOpened Opens edks k' := by
  induction edks with
  | nil => cases he
  | cons x r ih =>
    by_cases hx : ∃ k, Opens x k
    · obtain ⟨k', hx⟩ := hx
      exact ⟨k', [], x, r, rfl, by simp, hx⟩
    · have he' : e ∈ r := by
        rcases List.mem_cons.mp he with rfl | he
        · exact absurd ⟨k, h⟩ hx
        · exact he
      obtain ⟨k', pre, y, post, h1, h2, h3⟩ := ih he'
      refine ⟨k', x :: pre, y, post, by rw [h1]; rfl, ?_, h3⟩
      intro z hz k'' hk''
      rcases List.mem_cons.mp hz with rfl | hz
      · exact hx ⟨k'', hk''⟩
      · exact h2 z hz k'' hk''

theorem firstOpened_mem {Opens : Edk → Bytes → Prop} {edks : List Edk} {k : Bytes} (h : FirstOpened Opens edks k) :
    ∃ e ∈ edks, Opens e k := by
  obtain ⟨pre, e, post, rfl, -, h⟩ := h
  exact ⟨e, by simp, h⟩

section
variable {Pair : Curve → Nat → Nat → Prop} {RsaPair : Bytes → Bytes → Prop} {W1 W2 : World → Prop}

theorem ctxAad_perm {ctx ctx' : EncCtx} (hd : DistinctKeys ctx) (hp : ctx.Perm ctx') {a a' : Bytes} (h : CtxAad ctx a) (h' : CtxAad ctx' a') :
    a = a' := by
  have hd' : DistinctKeys ctx' := (WF_perm hp).mp hd
  rw [ctxAad_iff hd] at h
  rw [ctxAad_iff hd'] at h'
  rw [h, h', (ctxBytes_sameMap hd hd' (fun k => find_perm hd hp k)).1]

theorem aesEdk_name {ns ns' name name' : Bytes} {n n' : Nat} {e : Edk} {iv iv' ct ct' tag tag' : Bytes} (h : AesEdk ns name n e iv ct tag)
    (h' : AesEdk ns' name' n' e iv' ct' tag') : ns = ns' ∧ name = name' ∧ iv = iv' := by
  have e1 := h.info.symm.trans h'.info
  have hl := congrArg List.length e1
  simp only [List.length_append, h.ivLen, h'.ivLen] at hl
  rw [List.append_assoc, List.append_assoc, List.append_assoc, List.append_assoc] at e1
  obtain ⟨e2, e3⟩ := List.append_inj e1 (by omega)
  have e4 := List.append_inj e3 rfl
  exact ⟨h.id.symm.trans h'.id, e2, (List.append_inj e4.2 rfl).2⟩

theorem len_u32 (n : Nat) : (u32 n).length = 4 := by simp [u32]

theorem aes_only (hP : Primitives Pair RsaPair W1 W2) {w2 : World} (hw2 : W2 w2) {i alg : Nat} {ctx ctx' : EncCtx} (hd : DistinctKeys ctx)
    (hp : ctx.Perm ctx') {key k : Bytes} {r : RawKr} {b : RawAes} {e : Edk} (h : Wrapped W1 ctx key r e)
    (hfit : Unlocks RsaPair r (.aes b) ∨ NotFor r (.aes b)) (hlen : RightLength alg key) (ho : AesOpens (w2.krEnv i) b ctx' alg e k) : k = key := by
  obtain ⟨hl, -, -, iv, ct, tag, aad, ho, ha, hopen⟩ := ho
  cases r with
  | aes a =>
    obtain ⟨w, iv', ct', tag', aad', hw, he, ha', hseal, -⟩ := h
    obtain ⟨h1, h2, h3⟩ := aesEdk_name he ho
    rcases hfit with ⟨rfl, -⟩ | hfit
    · subst h3
      have hc := he.cipher.symm.trans ho.cipher
      obtain ⟨row, hr, hid, hkl⟩ := hlen
      obtain ⟨row', hr', hid', hkl'⟩ := hl
      have := row_unique' hr hr' (hid.trans hid'.symm)
      subst this
      obtain ⟨c1, c2⟩ := List.append_inj hc (by rw [he.ctLen, ho.ctLen, hkl, hkl'])
      subst c1 c2
      rw [← ctxAad_perm hd hp ha' ha] at hopen
      have hop := hP.aead w w2 _ _ _ _ _ _ hw hw2 hseal
      have hop' : (w2.base).aeadOpen a.key iv' aad' ct' tag' = .ok k := hopen
      rw [hop] at hop'
      cases hop'; rfl
    · rcases hfit with hfit | hfit
      · exact absurd h1 hfit
      · exact absurd h2 hfit
  | rsa a =>
    obtain ⟨w, j, pub, ct', hw, hpub, hpad, henc, rfl⟩ := h
    rcases hfit with hfit | hfit
    · cases hfit
    · exfalso
      rcases hfit with hfit | hfit
      · exact hfit ho.id
      · have := congrArg List.length ho.info
        simp only [List.length_append, ho.ivLen, len_u32] at this
        omega

theorem aes_opens (hP : Primitives Pair RsaPair W1 W2) {w2 : World} (hw2 : W2 w2) {i alg : Nat} {ctx ctx' : EncCtx}
    (hp : ctx.Perm ctx') {key : Bytes} {b : RawAes} {e : Edk} (h : Wrapped W1 ctx key (.aes b) e) (hns : b.ns ≠ []) (hlen : RightLength alg key) :
    AesOpens (w2.krEnv i) b ctx' alg e key := by
  obtain ⟨w, iv, ct, tag, aad, hw, he, ha, hseal, hkey, -⟩ := h
  refine ⟨hlen, hns, hkey, iv, ct, tag, aad, he, ?_, hP.aead w w2 _ _ _ _ _ _ hw hw2 hseal⟩
  obtain ⟨m, h1, h2, h3⟩ := ha
  exact ⟨m, h1.trans hp, h2, h3⟩

theorem rsa_only (hP : Primitives Pair RsaPair W1 W2) {w2 : World} (hw2 : W2 w2) {i : Nat} {ctx : EncCtx} {key k priv : Bytes} {r : RawKr}
    {b : RawRsa} {e : Edk} (h : Wrapped W1 ctx key r e) (hfit : Unlocks RsaPair r (.rsa b) ∨ NotFor r (.rsa b)) (hpriv : b.priv = some priv)
    (ho : RsaOpens (w2.krEnv i) b priv e k) : k = key := by
  obtain ⟨-, -, o1, o2, -, -, hopen⟩ := ho
  cases r with
  | aes a =>
    obtain ⟨w, iv', ct', tag', aad', hw, he, -⟩ := h
    rcases hfit with hfit | hfit
    · cases hfit
    · exfalso
      rcases hfit with hfit | hfit | hfit
      · rw [hpriv] at hfit; cases hfit
      · exact hfit (he.id.symm.trans o1)
      · have := congrArg List.length (he.info.symm.trans o2)
        simp only [List.length_append, he.ivLen, len_u32] at this
        omega
  | rsa a =>
    obtain ⟨w, j, pub, ct, hw, hpub, hpad, henc, rfl⟩ := h
    rcases hfit with ⟨f1, f2, f3, f4, f5, pub', priv', f6, f7, f8⟩ | hfit
    · rw [hpub] at f6; cases f6
      rw [hpriv] at f7; cases f7
      have := (hP.rsa w w2 j i pub priv a.padding key ct hw hw2 f8 henc).2
      have hop : (w2.kr i).rsaDecrypt priv b.padding ct = .ok k := hopen
      rw [f3, this] at hop
      cases hop; rfl
    · exfalso
      rcases hfit with hfit | hfit | hfit
      · rw [hpriv] at hfit; cases hfit
      · exact hfit o1
      · exact hfit o2

theorem rsa_opens (hP : Primitives Pair RsaPair W1 W2) {w2 : World} (hw2 : W2 w2) {i : Nat} {ctx : EncCtx} {key : Bytes} {a b : RawRsa}
    {priv : Bytes} {e : Edk} (h : Wrapped W1 ctx key (.rsa a) e) (hfit : Unlocks RsaPair (.rsa a) (.rsa b)) (hpriv : b.priv = some priv) :
    RsaOpens (w2.krEnv i) b priv e key := by
  obtain ⟨w, j, pub, ct, hw, hpub, hpad, henc, rfl⟩ := h
  obtain ⟨f1, f2, f3, f4, f5, pub', priv', f6, f7, f8⟩ := hfit
  rw [hpub] at f6; cases f6
  rw [hpriv] at f7; cases f7
  obtain ⟨g1, g2⟩ := hP.rsa w w2 j i pub priv a.padding key ct hw hw2 f8 henc
  exact ⟨f1 ▸ f4, f2 ▸ f5, f1.symm, f2.symm, g1, f3 ▸ hpad, f3 ▸ g2⟩

theorem aesOnDecrypt_fail {env : KrEnv} {kr : RawAes} {edks : List Edk} {ctx : EncCtx} {alg : Nat} {s s' : DecState}
    (h : aesOnDecrypt env kr edks ctx alg s = (.fail, s')) : s'.key = s.key := by
  unfold aesOnDecrypt at h
  repeat' split at h
  all_goals cases h
  all_goals rfl

theorem aes_not {w2 : World} {i alg : Nat} {ctx ctx' : EncCtx} {key k : Bytes} {r : RawKr} {b : RawAes} {e : Edk} (h : Wrapped W1 ctx key r e)
    (hfit : NotFor r (.aes b)) (ho : AesOpens (w2.krEnv i) b ctx' alg e k) : False := by
  obtain ⟨hl, -, -, iv, ct, tag, aad, ho, ha, hopen⟩ := ho
  cases r with
  | aes a =>
    obtain ⟨w, iv', ct', tag', aad', hw, he, ha', hseal, -⟩ := h
    obtain ⟨h1, h2, h3⟩ := aesEdk_name he ho
    rcases hfit with hfit | hfit
    · exact absurd h1 hfit
    · exact absurd h2 hfit
  | rsa a =>
    obtain ⟨w, j, pub, ct', hw, hpub, hpad, henc, rfl⟩ := h
    rcases hfit with hfit | hfit
    · exact hfit ho.id
    · have := congrArg List.length ho.info
      simp only [List.length_append, ho.ivLen, len_u32] at this
      omega

theorem rsa_not {w2 : World} {i : Nat} {ctx : EncCtx} {key k priv : Bytes} {r : RawKr} {b : RawRsa} {e : Edk} (h : Wrapped W1 ctx key r e)
    (hfit : NotFor r (.rsa b)) (hpriv : b.priv = some priv) (ho : RsaOpens (w2.krEnv i) b priv e k) : False := by
  obtain ⟨-, -, o1, o2, -, -, hopen⟩ := ho
  cases r with
  | aes a =>
    obtain ⟨w, iv', ct', tag', aad', hw, he, -⟩ := h
    rcases hfit with hfit | hfit | hfit
    · rw [hpriv] at hfit; cases hfit
    · exact hfit (he.id.symm.trans o1)
    · have := congrArg List.length (he.info.symm.trans o2)
      simp only [List.length_append, he.ivLen, len_u32] at this
      omega
  | rsa a =>
    obtain ⟨w, j, pub, ct, hw, hpub, hpad, henc, rfl⟩ := h
    rcases hfit with hfit | hfit | hfit
    · rw [hpriv] at hfit; cases hfit
    · exact hfit o1
    · exact hfit o2

/-- A keyring to which none of the encrypted data keys is addressed reports no data key with success. -/
theorem raw_none {w2 : World} {i alg : Nat} {ctx ctx' : EncCtx} (hd' : DistinctKeys ctx') {key : Bytes} {rs : List RawKr} {r' : RawKr}
    {edks : List Edk} (h1 : ∀ e ∈ edks, (∃ r ∈ rs, Wrapped W1 ctx key r e) ∨ e.providerId ≠ nsOf r') (hfit : ∀ r ∈ rs, NotFor r r') {s s' : DecState} {res : KRet}
    (h : keyringOnDecrypt (r'.keyring (w2.krEnv i)) edks ctx' alg s = (res, s')) (hs : s.key = none) : s'.key = none := by
  have key' : ∀ {f : List Edk → EncCtx → Nat → DecState → KRet × DecState} (g : Option (EncCtx → Nat → EncState → KRet × EncState)),
      (∀ res s1, f edks ctx' alg s = (res, s1) → s1.key = none) →
      keyringOnDecrypt ⟨g, some f⟩ edks ctx' alg s = (res, s') → s'.key = none := by
    intro f g hf hr
    cases hx : f edks ctx' alg s with
    | mk r1 s1 =>
      have hk := hf r1 s1 hx
      simp only [keyringOnDecrypt, hs, hx, hk] at hr
      simp at hr
      rw [← hr.2]; exact hk
  cases r' with
  | aes b =>
    refine key' _ (fun res s1 hx => ?_) h
    have hno : ∀ k, ¬ FirstOpened (AesOpens (w2.krEnv i) b ctx' alg) edks k := by
      intro k hk
      obtain ⟨e, he, ho⟩ := firstOpened_mem hk
      rcases h1 e he with ⟨r, hr, hwr⟩ | hx
      · exact aes_not hwr (hfit r hr) ho
      · obtain ⟨_, _, _, _, _, _, _, h3, _⟩ := ho
        exact hx h3.id
    cases res with
    | ok =>
      cases hk : s1.key with
      | none => rfl
      | some k => exact absurd (((aesOnDecrypt_ok hd' hx).1 k.bytes).mp (by rw [hk]; rfl)) (hno _)
    | fail => rw [aesOnDecrypt_fail hx, hs]
    | ub =>
      unfold aesOnDecrypt at hx
      repeat' split at hx
      all_goals cases hx
      exact hs
  | rsa b =>
    refine key' _ (fun res s1 hx => ?_) h
    cases hpr : b.priv with
    | none =>
      simp only [rsaOnDecrypt, hpr] at hx
      cases hx; exact hs
    | some priv =>
      obtain ⟨s2, c0, c1, -⟩ := rsaOnDecrypt_eq (env := w2.krEnv i) (edks := edks) (ctx := ctx') (alg := alg) hpr hs
      rw [hx] at c0; cases c0
      cases hk : s1.key with
      | none => rfl
      | some k =>
        obtain ⟨e, he, ho⟩ := firstOpened_mem ((c1 k.bytes).mp (by rw [hk]; rfl))
        rcases h1 e he with ⟨r, hr, hwr⟩ | hx
        · exact (rsa_not hwr (hfit r hr) hpr ho).elim
        · exact absurd ho.2.2.1 hx

theorem list_none {edks : List Edk} {ctx : EncCtx} {alg : Nat} {w : World} :
    ∀ (rs : List RawKr) (i : Nat) (failed : Bool) (s : DecState), s.key = none →
      (∀ r ∈ rs, ∀ i s res s', keyringOnDecrypt (r.keyring (w.krEnv i)) edks ctx alg s = (res, s') → s.key = none → s'.key = none) →
      (multiDecLoop edks ctx alg failed (keyringsFrom w i rs) s).2.key = none := by
  intro rs
  induction rs with
  | nil => intro i failed s hs _; exact hs
  | cons r rs ih =>
    intro i failed s hs hr
    simp only [keyringsFrom, multiDecLoop]
    cases hx : keyringOnDecrypt (r.keyring (w.krEnv i)) edks ctx alg s with
    | mk res s' =>
      have hn := hr r (by simp) i s res s' hx hs
      cases res with
      | ub => exact hn
      | ok => simp only [hn]; exact ih (i + 1) _ s' hn (fun x hx => hr x (by simp [hx]))
      | fail => simp only [hn]; exact ih (i + 1) _ s' hn (fun x hx => hr x (by simp [hx]))

theorem user_none {w2 : World} {alg : Nat} {ctx ctx' : EncCtx} (hd' : DistinctKeys ctx') {key : Bytes} {kr1 kr2 : UserKr}
    (hc : ∀ r ∈ members kr1, ∀ r' ∈ members kr2, NotFor r r') {edks : List Edk}
    (h1 : ∀ e ∈ edks, ∃ r ∈ members kr1, Wrapped W1 ctx key r e) {s s' : DecState} {res : KRet} (hs : s.key = none)
    (h : keyringOnDecrypt (kr2.keyring w2) edks ctx' alg s = (res, s')) : s'.key = none := by
  have ht : ∀ r' ∈ members kr2, ∀ i s res s', keyringOnDecrypt (r'.keyring (w2.krEnv i)) edks ctx' alg s = (res, s') → s.key = none → s'.key = none :=
    fun r' hr' i s res s' h hs => raw_none hd' (fun e he => .inl (h1 e he)) (fun r hr => hc r hr r' hr') h hs
  cases kr2 with
  | one x => exact ht x (by simp [members]) 0 s res s' h hs
  | multi gen children =>
    obtain ⟨i, hi⟩ := multi_members w2 gen children
    have hn := list_none (members (.multi gen children)) i false s hs ht
    cases hx : multiOnDecrypt (gen.map (RawKr.keyring (w2.krEnv 0))) (keyringsFrom w2 1 children) edks ctx' alg s with
    | mk r1 s1 =>
      have hk : s1.key = none := by
        have : (multiOnDecrypt (gen.map (RawKr.keyring (w2.krEnv 0))) (keyringsFrom w2 1 children) edks ctx' alg s).2.key = none := by
          unfold multiOnDecrypt
          rw [hi]
          exact hn
        rw [hx] at this
        exact this
      simp only [UserKr.keyring, keyringOnDecrypt, multiKeyring, hs, hx, hk] at h
      simp at h
      rw [← h.2]; exact hk

/-- What a keyring does with encrypted data keys of `key`: nothing, or it finds that key. -/
def Tries (kr : Keyring) (edks : List Edk) (ctx : EncCtx) (alg : Nat) (key : Bytes) (found : Prop) : Prop :=
  ∀ s : DecState, s.key = none → ∃ res s', keyringOnDecrypt kr edks ctx alg s = (res, s') ∧ res ≠ .ub ∧
    (s'.key = none ∨ ∃ k, s'.key = some k ∧ k.bytes = key ∧ res = .ok) ∧ (found → s'.key ≠ none)

theorem raw_decrypt (hP : Primitives Pair RsaPair W1 W2) {w2 : World} (hw2 : W2 w2) {i alg : Nat} {ctx ctx' : EncCtx}
    (hd : DistinctKeys ctx) (hp : ctx.Perm ctx') {key : Bytes} (hlen : RightLength alg key) {rs : List RawKr} {r' : RawKr} {edks : List Edk}
    (h1 : ∀ e ∈ edks, (∃ r ∈ rs, Wrapped W1 ctx key r e) ∨ e.providerId ≠ nsOf r') (h2 : ∀ r ∈ rs, ∃ e ∈ edks, Wrapped W1 ctx key r e)
    (hfit : ∀ r ∈ rs, Unlocks RsaPair r r' ∨ NotFor r r') :
    Tries (r'.keyring (w2.krEnv i)) edks ctx' alg key (Healthy w2 ∧ ∃ r ∈ rs, Unlocks RsaPair r r') := by
  intro s hs
  have hd' : DistinctKeys ctx' := (WF_perm hp).mp hd
  obtain ⟨row, hrow, hid, hkl⟩ := hlen
  subst hid
  have hlen : RightLength row.id key := ⟨row, hrow, rfl, hkl⟩
  cases r' with
  | aes b =>
    have honly : ∀ k, FirstOpened (AesOpens (w2.krEnv i) b ctx' row.id) edks k → k = key := by
      intro k hk
      obtain ⟨e, he, ho⟩ := firstOpened_mem hk
      rcases h1 e he with ⟨r, hr, hwr⟩ | hx
      · exact aes_only hP hw2 hd hp hwr (hfit r hr) hlen ho
      · obtain ⟨_, _, _, _, _, _, _, h3, _⟩ := ho
        exact absurd h3.id hx
    have hub := (C49_no_undefined_behaviour (w2.krEnv i) b ctx' row hrow).2 edks s
    cases hr : keyringOnDecrypt (aesKeyring (w2.krEnv i) b) edks ctx' row.id s with
    | mk res s' =>
      have hfound : Healthy w2 ∧ (∃ r ∈ rs, Unlocks RsaPair r (.aes b)) → res = .ok ∧ s'.key ≠ none := by
        rintro ⟨hh, r, hr', hu⟩
        cases r with
        | rsa a => cases hu
        | aes a =>
          obtain ⟨rfl, hns⟩ := hu
          obtain ⟨e, he, hwr⟩ := h2 _ hr'
          have hsz : wireLen ctx' ≤ 65535 := by
            obtain ⟨_, _, _, _, _, _, _, _, _, _, hsz'⟩ := hwr
            rw [wireLen_eq] at hsz' ⊢
            rw [← (ctxBytes_sameMap hd hd' (fun k => find_perm hd hp k)).2]
            exact hsz'
          obtain ⟨s2, hr2⟩ := C49_decrypt_succeeds (w2.krEnv i) a edks ctx' row s hrow hd' hsz (fun x => hh.keyrings i x) hs
          rw [hr] at hr2
          cases hr2
          refine ⟨rfl, fun hn => ?_⟩
          obtain ⟨k, hk⟩ := firstOpened_exists he (aes_opens hP hw2 (i := i) hp hwr hns hlen)
          have := ((C49_decrypt_exact _ a edks ctx' row.id s s' hd' hr).1 k).mpr hk
          rw [hn] at this
          cases this
      refine ⟨res, s', hr, by rw [hr] at hub; exact hub, ?_, fun h => (hfound h).2⟩
      cases res with
      | ub => rw [hr] at hub; exact absurd rfl hub
      | ok =>
        cases hk : s'.key with
        | none => exact Or.inl rfl
        | some k => exact Or.inr ⟨k, rfl, honly _ (((C49_decrypt_exact _ b edks ctx' row.id s s' hd' hr).1 k.bytes).mp (by rw [hk]; rfl)), rfl⟩
      | fail =>
        left
        cases hx : aesOnDecrypt (w2.krEnv i) b edks ctx' row.id s with
        | mk r1 s1 =>
          unfold keyringOnDecrypt at hr
          simp only [hs, Option.isSome_none, Bool.false_eq_true, if_false, aesKeyring, hx] at hr
          split at hr
          · cases hr; simp_all
          · cases r1 with
            | ub => simp_all
            | fail =>
              have := aesOnDecrypt_fail hx
              rw [hs] at this
              rw [this] at hr
              cases hr
              exact this
            | ok =>
              have hkk := (aesOnDecrypt_ok hd' hx).1
              cases hk1 : s1.key with
              | none => rw [hk1] at hr; cases hr
              | some k =>
                have hkey := honly k.bytes ((hkk k.bytes).mp (by rw [hk1]; rfl))
                have hok : dataKeyLenOK row.id k = true := (dataKeyLenOK_iff ..).mpr (hkey ▸ hlen)
                rw [hk1] at hr
                simp only [hok, if_true] at hr
                cases hr
  | rsa b =>
    cases hpr : b.priv with
    | none =>
      refine ⟨.fail, { s with errno := .badState }, ?_, by simp, Or.inl hs, ?_⟩
      · simp [keyringOnDecrypt, hs, RawKr.keyring, rsaKeyring, rsaOnDecrypt, hpr]
      · rintro ⟨-, r, hr', hu⟩
        cases r with
        | aes a => cases hu
        | rsa a =>
          obtain ⟨-, -, -, -, -, _, _, -, hq, -⟩ := hu
          rw [hpr] at hq; cases hq
    | some priv =>
      obtain ⟨res, s', c0, c1, c2, -⟩ := C50_decrypt_exact (w2.krEnv i) b edks ctx' row.id s priv hpr hs
      have honly : ∀ k, FirstOpened (RsaOpens (w2.krEnv i) b priv) edks k → k = key := by
        intro k hk
        obtain ⟨e, he, ho⟩ := firstOpened_mem hk
        rcases h1 e he with ⟨r, hr, hwr⟩ | hx
        · exact rsa_only hP hw2 hwr (hfit r hr) hpr ho
        · exact absurd ho.2.2.1 hx
      have hok := c2 (fun k hk => honly k hk ▸ hlen)
      refine ⟨res, s', c0, by simp [hok], ?_, ?_⟩
      · cases hk : s'.key with
        | none => exact Or.inl rfl
        | some k => exact Or.inr ⟨k, rfl, honly _ ((c1 k.bytes).mp (by rw [hk]; rfl)), hok⟩
      · rintro ⟨-, r, hr', hu⟩ hn
        cases r with
        | aes a => cases hu
        | rsa a =>
          obtain ⟨e, he, hwr⟩ := h2 _ hr'
          obtain ⟨k, hk⟩ := firstOpened_exists he (rsa_opens hP hw2 (i := i) hwr hu hpr)
          have := (c1 k).mpr hk
          rw [hn] at this
          cases this

theorem list_decrypt {edks : List Edk} {ctx : EncCtx} {alg : Nat} {key : Bytes} {F : RawKr → Prop} {w : World} :
    ∀ (rs : List RawKr) (i : Nat) (failed : Bool) (s : DecState), s.key = none →
      (∀ r ∈ rs, ∀ i, Tries (r.keyring (w.krEnv i)) edks ctx alg key (F r)) →
      ∃ res s', multiDecLoop edks ctx alg failed (keyringsFrom w i rs) s = (res, s') ∧ res ≠ .ub ∧
        (s'.key = none ∨ ∃ k, s'.key = some k ∧ k.bytes = key ∧ res = .ok) ∧ ((∃ r ∈ rs, F r) → s'.key ≠ none) := by
  intro rs
  induction rs with
  | nil =>
    intro i failed s hs _
    refine ⟨_, s, rfl, by split <;> simp, Or.inl hs, ?_⟩
    rintro ⟨r, h, -⟩; cases h
  | cons r rs ih =>
    intro i failed s hs ht
    obtain ⟨res, s', h1, h2, h3, h4⟩ := ht r (by simp) i s hs
    rcases h3 with h3 | ⟨k, h3, h5, -⟩
    · obtain ⟨res2, s2, j1, j2, j3, j4⟩ := ih (i + 1) (failed || res = .fail) s' h3 (fun x hx => ht x (by simp [hx]))
      refine ⟨res2, s2, ?_, j2, j3, ?_⟩
      · rw [← j1]
        simp only [keyringsFrom, multiDecLoop, h1, h3]
        cases res with
        | ub => exact absurd rfl h2
        | ok => simp
        | fail => simp
      · rintro ⟨x, hx, hFx⟩
        rcases List.mem_cons.mp hx with rfl | hx
        · exact absurd h3 (h4 hFx)
        · exact j4 ⟨x, hx, hFx⟩
    · refine ⟨.ok, s', ?_, by simp, Or.inr ⟨k, h3, h5, rfl⟩, fun _ => by rw [h3]; simp⟩
      simp only [keyringsFrom, multiDecLoop, h1, h3]
      cases res with
      | ub => exact absurd rfl h2
      | ok => simp
      | fail => simp

theorem user_tries (hP : Primitives Pair RsaPair W1 W2) {w2 : World} (hw2 : W2 w2) {alg : Nat} {ctx ctx' : EncCtx}
    (hd : DistinctKeys ctx) (hp : ctx.Perm ctx') {key : Bytes} (hlen : RightLength alg key) {kr1 kr2 : UserKr} (hc : CanRead RsaPair kr1 kr2)
    {edks : List Edk} (h1 : ∀ e ∈ edks, ∃ r ∈ members kr1, Wrapped W1 ctx key r e)
    (h2 : ∀ r ∈ members kr1, ∃ e ∈ edks, Wrapped W1 ctx key r e) :
    Tries (kr2.keyring w2) edks ctx' alg key (Healthy w2) := by
  have ht : ∀ r' ∈ members kr2, ∀ i, Tries (r'.keyring (w2.krEnv i)) edks ctx' alg key (Healthy w2 ∧ ∃ r ∈ members kr1, Unlocks RsaPair r r') :=
    fun r' hr' i => raw_decrypt hP hw2 hd hp hlen (fun e he => .inl (h1 e he)) h2 (fun r hr => hc.all r hr r' hr')
  obtain ⟨r, hr, r', hr', hu⟩ := hc.some
  intro s hs
  cases kr2 with
  | one x =>
    have : r' = x := by simpa [members] using hr'
    subst this
    obtain ⟨res, s', a1, a2, a3, a4⟩ := ht r' (by simp [members]) 0 s hs
    exact ⟨res, s', a1, a2, a3, fun hh => a4 ⟨hh, r, hr, hu⟩⟩
  | multi gen children =>
    obtain ⟨i, hi⟩ := multi_members w2 gen children
    obtain ⟨res, s', b1, b2, b3, b4⟩ := list_decrypt (members (.multi gen children)) i false s hs ht
    refine ⟨res, s', ?_, b2, b3, fun hh => b4 ⟨r', hr', hh, r, hr, hu⟩⟩
    have hx : multiOnDecrypt (gen.map (RawKr.keyring (w2.krEnv 0))) (keyringsFrom w2 1 children) edks ctx' alg s = (res, s') := by
      unfold multiOnDecrypt
      rw [hi]
      exact b1
    simp only [UserKr.keyring, keyringOnDecrypt, multiKeyring, hs, hx, b2]
    rcases b3 with b3 | ⟨k, b3, b5, -⟩
    · simp [b3]
    · have hok : dataKeyLenOK alg k = true := (dataKeyLenOK_iff ..).mpr (b5 ▸ hlen)
      simp [b3, hok]

theorem user_decrypt (hP : Primitives Pair RsaPair W1 W2) {w2 : World} (hw2 : W2 w2) (hh : Healthy w2) {alg : Nat} {ctx ctx' : EncCtx}
    (hd : DistinctKeys ctx) (hp : ctx.Perm ctx') {key : Bytes} (hlen : RightLength alg key) {kr1 kr2 : UserKr} (hc : CanRead RsaPair kr1 kr2)
    {edks : List Edk} (h1 : ∀ e ∈ edks, ∃ r ∈ members kr1, Wrapped W1 ctx key r e)
    (h2 : ∀ r ∈ members kr1, ∃ e ∈ edks, Wrapped W1 ctx key r e) (errno : Err) :
    ∃ s' k, keyringOnDecrypt (kr2.keyring w2) edks ctx' alg ⟨none, [], errno⟩ = (.ok, s') ∧ s'.key = some k ∧ k.bytes = key := by
  obtain ⟨res, s', a1, -, a3, a4⟩ := user_tries hP hw2 hd hp hlen hc h1 h2 ⟨none, [], errno⟩ rfl
  rcases a3 with a3 | ⟨k, a3, a5, rfl⟩
  · exact absurd a3 (a4 hh)
  · exact ⟨s', k, a1, a3, a5⟩

/-! ### HKDF -/

theorem expandLoop_mono {H1 H2 : Hmac} (h : ∀ sha k m t, H1.mac sha k m = some t → H2.mac sha k m = some t) (sha : Sha) (prk info : Bytes) :
    ∀ (n idx : Nat) (t : Bytes) (rem : Nat) (okm x : Bytes), hkdfExpandLoop H1 sha prk info n idx t rem okm = some x →
      hkdfExpandLoop H2 sha prk info n idx t rem okm = some x := by
  intro n
  induction n with
  | zero => intro _ _ _ _ _ hx; exact hx
  | succ n ih =>
    intro idx t rem okm x hx
    simp only [hkdfExpandLoop] at hx ⊢
    generalize (if idx ≠ 1 then t else []) ++ info ++ [UInt8.ofNat idx] = m at hx ⊢
    cases hm : H1.mac sha prk m with
    | none => rw [hm] at hx; cases hx
    | some t' =>
      rw [hm] at hx
      rw [h _ _ _ _ hm]
      exact ih _ _ _ _ _ hx

theorem hkdf_mono {H1 H2 : Hmac} (h : ∀ sha k m t, H1.mac sha k m = some t → H2.mac sha k m = some t) {sha : Sha} {salt ikm info old x : Bytes}
    (hx : hkdf H1 sha salt ikm info old = (x, .ok ())) : hkdf H2 sha salt ikm info old = (x, .ok ()) := by
  have he : ∀ prk, hkdfExtract H1 sha salt ikm = .ok prk → hkdfExtract H2 sha salt ikm = .ok prk := by
    intro prk hp
    unfold hkdfExtract at hp ⊢
    split at hp
    · cases hp
    · rename_i hs
      rw [if_neg hs]
      simp only at hp ⊢
      generalize (if salt.length ≠ 0 then salt else List.replicate (hashLen sha) 0) = m at hp ⊢
      cases hm : H1.mac sha m ikm with
      | none => rw [hm] at hp; cases hp
      | some t =>
        rw [hm] at hp
        rw [h _ _ _ _ hm]
        exact hp
  unfold hkdf at hx ⊢
  cases hp : hkdfExtract H1 sha salt ikm with
  | error e => rw [hp] at hx; cases hx
  | ok prk =>
    rw [hp] at hx
    rw [he prk hp]
    simp only at hx ⊢
    unfold hkdfExpand at hx ⊢
    simp only at hx ⊢
    split at hx
    · cases hx
    · rename_i h1
      rw [if_neg h1]
      split at hx
      · cases hx
      · rename_i h2
        rw [if_neg h2]
        split at hx
        · cases hx
        · rename_i h3
          rw [if_neg h3]
          cases hl : hkdfExpandLoop H1 sha prk info ((old.length + hashLen sha - 1) / hashLen sha) 1 [] old.length [] with
          | none => rw [hl] at hx; cases hx
          | some okm =>
            rw [hl] at hx
            rw [expandLoop_mono h _ _ _ _ _ _ _ _ _ hl]
            exact hx

theorem hkdfOf_mono {H1 H2 : Hmac} (h : ∀ sha k m t, H1.mac sha k m = some t → H2.mac sha k m = some t) {sha : Sha} {salt ikm info : Bytes}
    {n : Nat} {x : Bytes} (hx : hkdfOf H1 sha salt ikm info n = .ok x) : hkdfOf H2 sha salt ikm info n = .ok x := by
  unfold hkdfOf at hx ⊢
  cases hk : hkdf H1 sha salt ikm info (List.replicate n 0) with
  | mk out r =>
    rw [hk] at hx
    cases r with
    | error e => cases hx
    | ok u =>
      rw [hkdf_mono h hk]
      exact hx

/-! ### signatures -/

theorem signOf_length {ec : Ec} {fuel : Nat} {x : SigCtx} {sig : Bytes} (h : signOf ec fuel x = .ok sig) : sig.length < 65536 := by
  unfold signOf SigCtx.full at h
  cases hp : algProps x.key.alg with
  | none => rw [hp] at h; cases h
  | some p =>
    rw [hp] at h
    simp only [Option.map_some] at h
    obtain ⟨row, hrow, hid⟩ := algProps_isSome hp
    obtain ⟨f1, -, f3, -, f5, f6⟩ := curve_facts hp hrow hid
    cases hpr : x.key.priv with
    | none =>
      rw [hpr] at h
      unfold sigSignFinish at h
      simp only at h
      split at h <;> first | cases h | skip
      rename_i h'
      split at h' <;> first | cases h' | skip
      rename_i hc
      simp_all
    | some d =>
      cases hcv : sigCurve x.key.alg with
      | none =>
        unfold sigSignFinish at h
        rw [f1, hcv] at h
        cases h
      | some cv =>
        cases hf : sigSignFinish ec fuel ⟨p, some ⟨some d, x.key.pub⟩, some true, some x.data, true⟩ (fun _ => 0) with
        | mk r w =>
          rw [hpr] at h
          simp only [Option.isSome_some] at h
          rw [hf] at h
          cases r with
          | err e => cases h
          | ub => cases h
          | diverge => cases h
          | ok s =>
            cases h
            unfold sigSignFinish at hf
            simp only at hf
            rw [f1, hcv] at hf
            simp only at hf
            split at hf
            · cases hf
            split at hf
            · cases hf
            split at hf
            · cases hf
            split at hf
            · cases hf
            split at hf
            · cases hf
            generalize hl : signLoop ec cv _ _ _ _ _ _ _ _ = r at hf
            obtain ⟨r, w1⟩ := r
            cases r with
            | err e => cases hf
            | ub => cases hf
            | diverge => cases hf
            | ok s =>
            simp only at hf
            split at hf <;> cases hf
            have := (signLoop_ok hl).1
            have hb := bytes_le cv
            have := (f6 cv hcv).2
            omega

theorem keygenOf_ok {ec : Ec} {alg : Nat} {sc : SigCtx} {pub : Bytes} {p : AlgProps} (hp : algProps alg = some p) {cv : Curve}
    (hcv : sigCurve p.algId = some cv) (hcod : Codec ec cv (ec.genKey cv).2) (h : keygenOf ec alg = .ok (sc, pub)) :
    sc = ⟨⟨p.algId, some (ec.genKey cv).1, some (ec.genKey cv).2⟩, []⟩ ∧
    ∃ bin, ec.unb64 pub = some bin ∧ bin.length = cv.bytes + 1 ∧ ec.pubIn cv bin = some (ec.genKey cv).2 := by
  unfold keygenOf at h
  rw [hp] at h
  simp only at h
  cases hk : sigKeygen ec true p (fun _ => 0) with
  | mk r w =>
    rw [hk] at h
    cases r with
    | error e => cases h
    | ok o =>
      cases o with
      | none => cases h
      | some x =>
        obtain ⟨c, t⟩ := x
        obtain ⟨a1, a2, a3⟩ := C69_keygen ec p cv hcv hcod true _ w c t hk
        cases t with
        | none => cases a2
        | some t =>
          cases h
          refine ⟨?_, a3 _ rfl⟩
          unfold SigC.view
          rw [a1.props, a1.keypair, a1.md]
          rfl

theorem verifyStartOf_ok {ec : Ec} (hok : ∀ s, ec.ok s = true) {alg : Nat} {pub bin : Bytes} {q : Nat} {p : AlgProps} (hp : algProps alg = some p)
    {cv : Curve} (hcv : sigCurve p.algId = some cv) (h1 : ec.unb64 pub = some bin) (h2 : bin.length ≤ 64) (h3 : ec.pubIn cv bin = some q) :
    verifyStartOf ec alg pub = .ok ⟨⟨p.algId, none, some q⟩, []⟩ := by
  obtain ⟨v, w, hv, hi⟩ := C69_verify_start_succeeds ec hok pub p cv hcv bin q h1 h2 h3 (fun _ => 0)
  unfold verifyStartOf
  rw [hp]
  simp only
  rw [hv]
  simp only [SigC.view, hi.props, hi.keypair, hi.md]
  rfl

theorem verifies_of {e1 e2 : Ec} {fuel : Nat} {p : AlgProps} (hp : algProps p.algId = some p) {cv : Curve} (hcv : sigCurve p.algId = some cv)
    (hlen : p.signatureLen ≠ 0) {d q : Nat} (hk : KeyPair e1 cv d q) (hn : Negatable e1) (hs : SameEc e1 e2) {data sig : Bytes}
    (h : signOf e1 fuel ⟨⟨p.algId, some d, some q⟩, data⟩ = .ok sig) : verifyOf e2 ⟨⟨p.algId, none, some q⟩, data⟩ sig = .ok () := by
  unfold signOf SigCtx.full at h
  unfold verifyOf SigCtx.full
  simp only [hp, Option.map_some, Option.isSome_some] at h ⊢
  cases hf : sigSignFinish e1 fuel ⟨p, some ⟨some d, some q⟩, some true, some data, true⟩ (fun _ => 0) with
  | mk r w =>
    rw [hf] at h
    cases r with
    | err e => cases h
    | ub => cases h
    | diverge => cases h
    | ok s =>
      cases h
      exact C67_verifies e1 e2 fuel p cv hcv hlen d q data _ _ ⟨rfl, rfl, rfl, rfl, rfl⟩ ⟨rfl, rfl, rfl, rfl, rfl⟩ hk hn hs _ w _ _ hf

/-! ### the CMM -/

theorem generate_distinct {env : CmmEnv} {c : DefaultCmm} {req : EncRequest} (hd : DistinctKeys req.encCtx) :
    DistinctKeys (c.generate env req).1 := by
  unfold DefaultCmm.generate
  repeat' split
  all_goals first | exact hd | exact WF_put hd _ _

theorem toCmm_generate {w : World} {kr : UserKr} {da : Option Nat} {req : EncRequest} {ctx : EncCtx} {m : EncMaterials}
    (h : (w.env kr da).cmm.generate req = (ctx, .ok m)) : DefaultCmm.generate w.cmmEnv ⟨kr.keyring w, da⟩ req = (ctx, .ok m) := by
  have h1 : (DefaultCmm.generate w.cmmEnv ⟨kr.keyring w, da⟩ req).1 = ctx := (Prod.mk.inj h).1
  have h2 : (DefaultCmm.generate w.cmmEnv ⟨kr.keyring w, da⟩ req).2.toExcept = .ok m := (Prod.mk.inj h).2
  cases hg : DefaultCmm.generate w.cmmEnv ⟨kr.keyring w, da⟩ req with
  | mk c r =>
    rw [hg] at h1 h2
    cases r with
    | ok a => cases h1; cases h2; rfl
    | err e => cases h2
    | ub => cases h2

/-- The signature contexts of writer and reader: none, or the key pair and its public key. -/
def SigPair (Pair : Curve → Nat → Nat → Prop) (alg : Nat) (x y : Option SigCtx) : Prop :=
  (x = none ∧ y = none) ∨ ∃ p cv d q, algProps alg = some p ∧ p.algId = alg ∧ sigCurve alg = some cv ∧ p.signatureLen ≠ 0 ∧ Pair cv d q ∧
    x = some ⟨⟨alg, some d, some q⟩, []⟩ ∧ y = some ⟨⟨alg, none, some q⟩, []⟩

theorem sigPair_verifies (hP : Primitives Pair RsaPair W1 W2) {alg : Nat} {x y : Option SigCtx} (h : SigPair Pair alg x y) {c : SigCtx}
    (hx : x = some c) : ∃ c', y = some c' ∧ ∀ w1 w2 data sig, W1 w1 → W2 w2 →
      w1.crypto.sign { c with data := c.data ++ data } = .ok sig → w2.crypto.verify { c' with data := c'.data ++ data } sig = .ok () := by
  rcases h with ⟨rfl, -⟩ | ⟨p, cv, d, q, hp, rfl, hcv, hl, hpair, rfl, rfl⟩
  · cases hx
  · cases hx
    refine ⟨_, rfl, fun w3 w4 data sig hw3 hw4 hsig => ?_⟩
    exact verifies_of hp hcv hl (hP.signs w3 cv _ _ hw3 hpair) (hP.negation w3 hw3) (hP.same w3 w4 hw3 hw4) hsig

/-- The reader's default CMM answers for what the writer's default CMM made, also for another order of the encrypted data keys. -/
theorem default_answers (hP : Primitives Pair RsaPair W1 W2) {kr1 kr2 : UserKr} (hc : CanRead RsaPair kr1 kr2) (da1 da2 : Option Nat)
    {w1 w2 : World} (hw1 : W1 w1) (hw2 : W2 w2) (hh : Healthy w2) {req : EncRequest} {ctx ctx' : EncCtx} {m : EncMaterials} {edks : List Edk}
    (hd : DistinctKeys req.encCtx) (h : (w1.env kr1 da1).cmm.generate req = (ctx, .ok m)) (hp : ctx.Perm ctx') (he : m.edks.Perm edks) :
    ∃ m', (w2.env kr2 da2).cmm.decrypt { encCtx := ctx', edks := edks, alg := m.alg } = .ok m' ∧ m'.dataKey = m.dataKey ∧ m'.alg = m.alg ∧
      SigPair Pair m.alg m.signctx m'.signctx := by
  have hg := toCmm_generate h
  have hdc : DistinctKeys ctx := by
    have := generate_distinct (env := w1.cmmEnv) (c := ⟨kr1.keyring w1, da1⟩) hd
    rw [hg] at this
    exact this
  obtain ⟨g1, -, row, hrow, hid, g3, g4, s, g5, g6, -, g8, -⟩ := C51_generate _ _ _ _ _ hg
  obtain ⟨k, u1, u2, u3, u4, u5⟩ := user_encrypt hw1 hdc g5
  have hmk := (g8 k u1).1
  rw [g6] at he
  have u4' : ∀ e ∈ edks, ∃ r ∈ members kr1, Wrapped W1 ctx k.bytes r e := fun e hx => u4 e (he.mem_iff.mpr hx)
  have u5' : ∀ r ∈ members kr1, ∃ e ∈ edks, Wrapped W1 ctx k.bytes r e := fun r hr => by
    obtain ⟨e, hx, hwr⟩ := u5 r hr
    exact ⟨e, he.mem_iff.mp hx, hwr⟩
  obtain ⟨s', k', v1, v2, v3⟩ := user_decrypt hP hw2 hh hdc hp u2 hc u4' u5' w2.lastErr
  obtain ⟨p, hpr⟩ := algProps_of_row hrow
  rw [hid] at hpr
  obtain ⟨f1, -, f3, -, f5, f6⟩ := curve_facts hpr hrow hid
  have hcall : ∀ m', DefaultCmm.decrypt w2.cmmEnv ⟨kr2.keyring w2, da2⟩ { encCtx := ctx', edks := edks, alg := m.alg } = .ok m' →
      (w2.env kr2 da2).cmm.decrypt { encCtx := ctx', edks := edks, alg := m.alg } = .ok m' := by
    intro m' h
    show (DefaultCmm.decrypt w2.cmmEnv ⟨kr2.keyring w2, da2⟩ { encCtx := ctx', edks := edks, alg := m.alg }).toExcept = _
    rw [h]; rfl
  have hlook : ∀ x, ctx'.lookup x = ctx.lookup x := fun x => (find_perm hdc hp x).symm
  by_cases hcb : row.curveBits = 0
  · obtain ⟨hctx, hsc⟩ := g3 hcb
    refine ⟨⟨m.alg, k'.bytes, s'.trace, none⟩, hcall _ ?_, by rw [v3, hmk], rfl, .inl ⟨hsc, rfl⟩⟩
    rw [C51_decrypt _ _ _ _ hh.materials]
    exact ⟨s', k', row, v1, v2, hrow, hid, rfl, rfl, by rw [v3]; exact u2, rfl, Or.inl ⟨hcb, by rw [hlook, hctx]; exact g1, rfl⟩⟩
  · obtain ⟨sc, pub, hkg, hsc, hsame⟩ := g4 hcb
    have hcv : ∃ cv, sigCurve p.algId = some cv := by
      cases hx : sigCurve p.algId with
      | some cv => exact ⟨cv, rfl⟩
      | none => rw [f1] at hx; exact absurd (f5.mp hx) hcb
    obtain ⟨cv, hcv⟩ := hcv
    have hpair := hP.newKey w1 cv hw1
    obtain ⟨rfl, bin, b1, b2, b3⟩ := keygenOf_ok hpr hcv (hP.codec w1 cv _ _ hw1 hpair) hkg
    have hsm := hP.same w1 w2 hw1 hw2
    have hbl := bytes_le cv
    have hvs := verifyStartOf_ok hh.ec (pub := pub) hpr hcv (by rw [← hsm.unb64]; exact b1) (by omega) (by rw [← hsm.pubIn]; exact b3)
    refine ⟨⟨m.alg, k'.bytes, s'.trace, some ⟨⟨p.algId, none, some (w1.ec.genKey cv).2⟩, []⟩⟩, hcall _ ?_, by rw [v3, hmk], rfl, ?_⟩
    · rw [C51_decrypt _ _ _ _ hh.materials]
      refine ⟨s', k', row, v1, v2, hrow, hid, rfl, rfl, by rw [v3]; exact u2, rfl, Or.inr ⟨hcb, pub, _, ?_, hvs, rfl⟩⟩
      rw [hlook, hsame]
      simp
    · exact .inr ⟨p, cv, _, _, hpr, f1, by rw [← f1]; exact hcv, by rw [(f6 cv (f1 ▸ hcv)).2]; omega, hpair, by rw [hsc, f1], by rw [f1]⟩

theorem stack_opens (hP : Primitives Pair RsaPair W1 W2) (hh : ∀ w, W2 w → Healthy w) {kr1 kr2 : UserKr} (hc : CanRead RsaPair kr1 kr2)
    (da1 da2 : Option Nat) : Opens (Sessions W1 kr1 da1) (Sessions W2 kr2 da2) where
  aead := by
    rintro _ _ k iv aad pt ct tag ⟨w1, hw1, rfl⟩ ⟨w2, hw2, rfl⟩ h
    exact hP.aead w1 w2 k iv aad pt ct tag hw1 hw2 h
  hkdf := by
    rintro _ _ sha salt ikm info n x ⟨w1, hw1, rfl⟩ ⟨w2, hw2, rfl⟩ h
    exact hkdfOf_mono (fun sha k m t => hP.hmac w1 w2 sha k m t hw1 hw2) h
  alloc := by
    rintro _ site ⟨w2, hw2, rfl⟩
    exact (hh w2 hw2).alloc site
  digest := by
    rintro _ ctx x ⟨w2, hw2, rfl⟩
    exact (hh w2 hw2).digest ctx x
  sigLen := by
    rintro _ ctx sig ⟨w1, hw1, rfl⟩ h
    exact signOf_length h
  answers := by
    rintro _ _ req ctx ctx' m ⟨w1, hw1, rfl⟩ ⟨w2, hw2, rfl⟩ hd h hp -
    obtain ⟨m', a1, a2, a3, a4⟩ := default_answers hP hc da1 da2 hw1 hw2 (hh w2 hw2) hd h hp (.refl _)
    refine ⟨m', a1, a2, a3, fun c hx => ?_⟩
    obtain ⟨c', b1, b2⟩ := sigPair_verifies hP a4 hx
    refine ⟨c', b1, ?_⟩
    rintro _ _ data sig ⟨w3, hw3, rfl⟩ ⟨w4, hw4, rfl⟩ hsig
    exact b2 w3 w4 data sig hw3 hw4 hsig

theorem wrapped_fits (hP : Primitives Pair RsaPair W1 W2) {alg : Nat} {ctx : EncCtx} {key : Bytes} (u2 : RightLength alg key) {r : RawKr} {x : Edk}
    (hsn : ShortNames r) (hwr : Wrapped W1 ctx key r x) :
    x.providerId.length < 65536 ∧ x.providerInfo.length < 65536 ∧ x.ciphertext.length < 65536 := by
  cases r with
  | aes a =>
    obtain ⟨w, iv, ct, tag, aad, -, he, -⟩ := hwr
    obtain ⟨row', hr', -, hkl⟩ := u2
    have hkb : ∀ r ∈ suiteTable, r.keyBits / 8 ≤ 32 := by decide
    have := hkb row' hr'
    have h1 := he.ivLen
    have h2 := he.ctLen
    have h3 := he.tagLen
    obtain ⟨n1, n2⟩ := hsn
    refine ⟨by rw [he.id]; exact n1, ?_, ?_⟩
    · rw [he.info]
      simp only [List.length_append, len_u32]
      omega
    · rw [he.cipher]
      simp only [List.length_append]
      omega
  | rsa a =>
    obtain ⟨w, i, pub, ct, hw, hpub, hpad, henc, rfl⟩ := hwr
    exact ⟨hsn.1, hsn.2, hP.rsaLen w i pub a.padding _ ct hw henc⟩

theorem stack_storable (hP : Primitives Pair RsaPair W1 W2) {kr1 : UserKr} (hn : (members kr1).length < 65536)
    (hs : ∀ r ∈ members kr1, ShortNames r) (da1 : Option Nat) : Storable (Sessions W1 kr1 da1) := by
  rintro _ req ctx m ⟨w1, hw1, rfl⟩ hd h
  have hg := toCmm_generate h
  have hdc : DistinctKeys ctx := by
    have := generate_distinct (env := w1.cmmEnv) (c := ⟨kr1.keyring w1, da1⟩) hd
    rw [hg] at this
    exact this
  obtain ⟨-, -, row, hrow, hid, -, -, s, g5, g6, -, -, -⟩ := C51_generate _ _ _ _ _ hg
  obtain ⟨k, -, u2, u3, u4, -⟩ := user_encrypt hw1 hdc g5
  refine ⟨hdc, by rw [g6, u3]; exact hn, ?_⟩
  intro x hx
  rw [g6] at hx
  obtain ⟨r, hr, hwr⟩ := u4 x hx
  exact wrapped_fits hP u2 (hs r hr) hwr

/-- If the reader's default CMM answers for what the writer's default CMM made, then with the same data key. -/
theorem default_dataKey (hP : Primitives Pair RsaPair W1 W2) {kr1 kr2 : UserKr} (hc : CanRead RsaPair kr1 kr2) (da1 da2 : Option Nat)
    {w1 w2 : World} (hw1 : W1 w1) (hw2 : W2 w2) {req : EncRequest} {ctx ctx' : EncCtx} {m : EncMaterials} {m' : DecMaterials} {edks : List Edk}
    (hd : DistinctKeys req.encCtx) (h : (w1.env kr1 da1).cmm.generate req = (ctx, .ok m)) (hp : ctx.Perm ctx') (he : m.edks.Perm edks)
    (h' : (w2.env kr2 da2).cmm.decrypt { encCtx := ctx', edks := edks, alg := m.alg } = .ok m') : m'.dataKey = m.dataKey := by
  have hg := toCmm_generate h
  have hdc : DistinctKeys ctx := by
    have := generate_distinct (env := w1.cmmEnv) (c := ⟨kr1.keyring w1, da1⟩) hd
    rw [hg] at this
    exact this
  obtain ⟨-, -, row, hrow, hid, -, -, s, g5, g6, -, g8, -⟩ := C51_generate _ _ _ _ _ hg
  obtain ⟨k, u1, u2, u3, u4, u5⟩ := user_encrypt hw1 hdc g5
  have hmk := (g8 k u1).1
  rw [g6] at he
  have u4' : ∀ e ∈ edks, ∃ r ∈ members kr1, Wrapped W1 ctx k.bytes r e := fun e hx => u4 e (he.mem_iff.mpr hx)
  have u5' : ∀ r ∈ members kr1, ∃ e ∈ edks, Wrapped W1 ctx k.bytes r e := fun r hr => by
    obtain ⟨e, hx, hwr⟩ := u5 r hr
    exact ⟨e, he.mem_iff.mp hx, hwr⟩
  obtain ⟨res, s', v1, -, v3, -⟩ := user_tries hP hw2 hdc hp u2 hc u4' u5' ⟨none, [], w2.lastErr⟩ rfl
  cases hdec : DefaultCmm.decrypt w2.cmmEnv ⟨kr2.keyring w2, da2⟩ { encCtx := ctx', edks := edks, alg := m.alg } with
  | err e =>
    have : (DefaultCmm.decrypt w2.cmmEnv ⟨kr2.keyring w2, da2⟩ { encCtx := ctx', edks := edks, alg := m.alg }).toExcept = .ok m' := h'
    rw [hdec] at this; cases this
  | ub =>
    have : (DefaultCmm.decrypt w2.cmmEnv ⟨kr2.keyring w2, da2⟩ { encCtx := ctx', edks := edks, alg := m.alg }).toExcept = .ok m' := h'
    rw [hdec] at this; cases this
  | ok x =>
    have : (DefaultCmm.decrypt w2.cmmEnv ⟨kr2.keyring w2, da2⟩ { encCtx := ctx', edks := edks, alg := m.alg }).toExcept = .ok m' := h'
    rw [hdec] at this; cases this
    have hmat : w2.cmmEnv.allocMat = true := by
      cases hm : w2.cmmEnv.allocMat with
      | true => rfl
      | false => simp [DefaultCmm.decrypt, hm] at hdec
    rw [C51_decrypt _ _ _ _ hmat] at hdec
    obtain ⟨s2, k2, row2, d1, d2, -, -, -, d6, -⟩ := hdec
    have d1' : keyringOnDecrypt (kr2.keyring w2) edks ctx' m.alg ⟨none, [], w2.lastErr⟩ = (.ok, s2) := d1
    rw [v1] at d1'
    cases d1'
    rcases v3 with v3 | ⟨k3, v3, v4, -⟩
    · rw [v3] at d2; cases d2
    · rw [v3] at d2; cases d2
      rw [d6, v4, hmk]

theorem stack_undoes (hP : Primitives Pair RsaPair W1 W2) {kr1 kr2 : UserKr} (hc : CanRead RsaPair kr1 kr2) (da1 da2 : Option Nat) :
    Undoes (Sessions W1 kr1 da1) (Sessions W2 kr2 da2) where
  aead := by
    rintro _ _ k iv aad pt ct tag ⟨w1, hw1, rfl⟩ ⟨w2, hw2, rfl⟩ h
    exact hP.aead w1 w2 k iv aad pt ct tag hw1 hw2 h
  hkdf := by
    rintro _ _ sha salt ikm info n x y ⟨w1, hw1, rfl⟩ ⟨w2, hw2, rfl⟩ h h'
    have := hkdfOf_mono (fun sha k m t => hP.hmac w1 w2 sha k m t hw1 hw2) h
    have h'' : hkdfOf w2.hmac sha salt ikm info n = .ok y := h'
    rw [this] at h''
    cases h''; rfl
  dataKey := by
    rintro _ _ req ctx ctx' m m' ⟨w1, hw1, rfl⟩ ⟨w2, hw2, rfl⟩ hd h hp - h'
    exact default_dataKey hP hc da1 da2 hw1 hw2 hd h hp (.refl _) h'

/-- The default CMM of a reader who is not addressed does not answer, in whatever order it gets the encrypted data keys. -/
theorem default_refuses {kr1 kr2 : UserKr} (hc : ∀ r ∈ members kr1, ∀ r' ∈ members kr2, NotFor r r') (da1 da2 : Option Nat) {w1 w2 : World}
    (hw1 : W1 w1) {req : EncRequest} {ctx ctx' : EncCtx} {m : EncMaterials} {m' : DecMaterials} {edks : List Edk}
    (hd : DistinctKeys req.encCtx) (h : (w1.env kr1 da1).cmm.generate req = (ctx, .ok m)) (hp : ctx.Perm ctx') (he : m.edks.Perm edks)
    (h' : (w2.env kr2 da2).cmm.decrypt { encCtx := ctx', edks := edks, alg := m.alg } = .ok m') : False := by
  have hg := toCmm_generate h
  have hdc : DistinctKeys ctx := by
    have := generate_distinct (env := w1.cmmEnv) (c := ⟨kr1.keyring w1, da1⟩) hd
    rw [hg] at this
    exact this
  obtain ⟨-, -, row, hrow, hid, -, -, s, g5, g6, -, -, -⟩ := C51_generate _ _ _ _ _ hg
  obtain ⟨k, u1, u2, u3, u4, u5⟩ := user_encrypt hw1 hdc g5
  rw [g6] at he
  have u4' : ∀ e ∈ edks, ∃ r ∈ members kr1, Wrapped W1 ctx k.bytes r e := fun e hx => u4 e (he.mem_iff.mpr hx)
  have hx : (DefaultCmm.decrypt w2.cmmEnv ⟨kr2.keyring w2, da2⟩ { encCtx := ctx', edks := edks, alg := m.alg }).toExcept = .ok m' := h'
  cases hk : keyringOnDecrypt (kr2.keyring w2) edks ctx' m.alg ⟨none, [], w2.cmmEnv.errno⟩ with
  | mk res s' =>
    have hn := user_none ((WF_perm hp).mp hdc) hc u4' rfl hk
    unfold DefaultCmm.decrypt at hx
    simp only [hk] at hx
    split at hx
    · cases hx
    · cases res with
      | ub => cases hx
      | fail => cases hx
      | ok => simp [DefaultCmm.finish, hn, CRes.toExcept] at hx

theorem stack_refuses {kr1 kr2 : UserKr} (hc : ∀ r ∈ members kr1, ∀ r' ∈ members kr2, NotFor r r') (da1 da2 : Option Nat) {e1 e2 : Env}
    {req : EncRequest} {ctx ctx' : EncCtx} {m : EncMaterials} {m' : DecMaterials} (h1 : Sessions W1 kr1 da1 e1) (h2 : Sessions W2 kr2 da2 e2)
    (hd : DistinctKeys req.encCtx) (h : e1.cmm.generate req = (ctx, .ok m)) (hp : ctx.Perm ctx')
    (h' : e2.cmm.decrypt { encCtx := ctx', edks := m.edks, alg := m.alg } = .ok m') : False := by
  obtain ⟨w1, hw1, rfl⟩ := h1
  obtain ⟨w2, -, rfl⟩ := h2
  exact default_refuses hc da1 da2 hw1 hd h hp (.refl _) h'

/-- A reader that is given a prefix of a message and whose CMM never answers for what the writer's CMM made accepts no header. -/
theorem refused_reads_nothing_for {R : DecRequest → Prop} {E1 E2 : Env → Prop} (hs : Storable E1)
    (href : ∀ e1 e2 req ctx ctx' m m', E1 e1 → E2 e2 → DistinctKeys req.encCtx → e1.cmm.generate req = (ctx, .ok m) → ctx.Perm ctx' →
      R { encCtx := ctx', edks := m.edks, alg := m.alg } → e2.cmm.decrypt { encCtx := ctx', edks := m.edks, alg := m.alg } = .ok m' → False)
    {pol1 pol2 : Policy} {v1 v2 : View} (h1 : Reach E1 pol1 v1) (h2 : Reach E2 pol2 v2) (hm1 : v1.s.mode = .encrypt)
    (hne : v1.s.state ≠ .error ∨ ∀ r, R r) (hR : R ⟨v1.s.header.sorted.encCtx, v1.s.header.edks, v1.s.header.algId⟩)
    (hm2 : v2.s.mode.isDecrypt = true) (hc : v2.consumed <+: v1.released) : v2.consumed = [] ∧ v2.released = [] := by
  rcases decrypted_of h2.hinv hm2 with ⟨b1, b2, -⟩ | ⟨row2, hd2, m2, k2, fr2, tr2, b1, b2, b3, b4⟩
  · exact ⟨b1, b2⟩
  · exfalso
    obtain ⟨e2, he2, hver⟩ := b1.header
    rcases encrypted_of h1.hinv hm1 with ⟨-, hr⟩ | ⟨row1, hd1, m1, k1, fr1, tr1, a1, a2, a3, a4⟩
    · obtain ⟨y, hy⟩ := hc
      rw [b1.consumed, hr] at hy
      have hl := congrArg List.length hy
      have : 0 < (wireHeader row2.version hd2).length := by
        have ht := hver.ok.tag
        unfold wireHeader
        simp only [List.length_append]
        omega
      simp only [List.length_append, List.length_nil] at hl
      omega
    · obtain ⟨e1, he1, hmade⟩ := a1.header
      obtain ⟨e3, req, ctx, he3, ht, hgen, hsort, hclen⟩ := a2.made.ctx
      obtain ⟨st1, st2, st3⟩ := hs e3 req ctx m1 he3 ht hgen
      have hok1 := headerOK_of_made hmade a2.made (fun e req ctx he ht hg => (hs e req ctx m1 he ht hg).1) st2 st3
      obtain ⟨y, hy⟩ := hc
      rw [b1.consumed, a1.released, ← wireHeader_received row1.version hd1] at hy
      simp only [List.append_assoc] at hy
      obtain ⟨rfl, hbare, hrest⟩ := header_unique hver.ok hok1 hy
      have e_ctx : hd2.encCtx = hd1.encCtx := by have := congrArg Hdr.encCtx hbare; exact this
      have e_edks : hd2.edks = hd1.edks := by have := congrArg Hdr.edks hbare; exact this
      have e_alg : hd2.algId = hd1.algId := by have := congrArg Hdr.algId hbare; exact this
      have := hver.cmm
      rw [e_edks, e_ctx, e_alg, hmade.edks, hmade.alg.1, ← hmade.alg.2] at this
      exact href e3 e2 req ctx hd1.encCtx m1 m2 he3 he2 ht hgen (by rw [hsort]; exact (sortByKey_perm ctx).symm)
        (by
          rcases hne with hne | hne
          · have hsh := a2.shown hne
            have e1 : v1.s.header.sorted.encCtx = hd1.encCtx := by rw [hsh]
            have e2 : v1.s.header.edks = hd1.edks := by rw [← hsh]; rfl
            have e3 : v1.s.header.algId = hd1.algId := by rw [← hsh]; rfl
            rw [e1, e2, e3, hmade.edks, hmade.alg.1, ← hmade.alg.2] at hR
            exact hR
          · exact hne _) this

theorem refused_reads_nothing {E1 E2 : Env → Prop} (hs : Storable E1)
    (href : ∀ e1 e2 req ctx ctx' m m', E1 e1 → E2 e2 → DistinctKeys req.encCtx → e1.cmm.generate req = (ctx, .ok m) → ctx.Perm ctx' →
      e2.cmm.decrypt { encCtx := ctx', edks := m.edks, alg := m.alg } = .ok m' → False)
    {pol1 pol2 : Policy} {v1 v2 : View} (h1 : Reach E1 pol1 v1) (h2 : Reach E2 pol2 v2) (hm1 : v1.s.mode = .encrypt)
    (hm2 : v2.s.mode.isDecrypt = true) (hc : v2.consumed <+: v1.released) : v2.consumed = [] ∧ v2.released = [] :=
  refused_reads_nothing_for (R := fun _ => True) hs (fun e1 e2 req ctx ctx' m m' a b c d e _ => href e1 e2 req ctx ctx' m m' a b c d e)
    h1 h2 hm1 (.inr fun _ => trivial) trivial hm2 hc

end

end Verif.Props
