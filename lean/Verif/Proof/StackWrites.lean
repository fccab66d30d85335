import Verif.Spec.StackWrites
import Verif.Proof.Stack
import Verif.Proof.SessionFinishes
/-
Lemmas: with the whole library, writing works.
-/
namespace Verif.Props
open Spec

variable {Pair : Curve → Nat → Nat → Prop} {sz : Sizes} {W : World → Prop}

/-! ### keyrings -/

theorem keyBits_le {row : SuiteRow} (h : row ∈ suiteTable) : row.keyBits / 8 ≤ 32 := by
  revert row; decide

theorem rightLength_row {row : SuiteRow} (h : row ∈ suiteTable) {k : Bytes} (hk : RightLength row.id k) : k.length = row.keyBits / 8 := by
  obtain ⟨r, hr, hid, hl⟩ := hk
  rw [hl, row_unique' hr h hid]

theorem raw_encrypts {w : World} (hw : W w) (hp : CanProduce Pair sz w) {i : Nat} {ctx : EncCtx} {row : SuiteRow} (hrow : row ∈ suiteTable)
    (hd : DistinctKeys ctx) (hc : wireLen ctx ≤ 65535) {r : RawKr} (hr : CanWrap W sz r) {s : EncState}
    (hk : ∀ k, s.key = some k → RightLength row.id k.bytes) (hs : s.key = none → s.edks = []) :
    ∃ s' k e, keyringOnEncrypt (r.keyring (w.krEnv i)) ctx row.id s = (.ok, s') ∧ s'.key = some k ∧ RightLength row.id k.bytes ∧
      s'.edks = s.edks ++ [e] ∧ edkWire e = wrapLen sz (row.keyBits / 8) r := by
  have hmem : ∀ x, (w.krEnv i).alloc x = true := hp.healthy.keyrings i
  cases r with
  | aes a =>
    obtain ⟨s', h⟩ := C49_encrypt_succeeds (w.krEnv i) a ctx row s hrow hc (fun x _ => hmem x) (hp.keyringRandom i) (by simpa [CanWrap] using hr)
      (fun iv aad pt hiv => by
        obtain ⟨ct, tag, h⟩ := hp.aead a.key iv aad pt hr hiv
        exact ⟨_, h⟩) hk hs
    obtain ⟨k, e, iv, ct, tag, aad, h1, h2, -, h4, h5, -⟩ := C49_encrypt_form _ a ctx row.id s s' hd hk h
    refine ⟨s', k, e, h, h1, h2, h4, ?_⟩
    have hl := rightLength_row hrow h2
    have a1 := h5.ivLen
    have a2 := h5.ctLen
    have a3 := h5.tagLen
    unfold edkWire wrapLen
    rw [h5.id, h5.info, h5.cipher]
    simp only [List.length_append, len_u32]
    omega
  | rsa a =>
    obtain ⟨hpad, pub, hpub, hrsa⟩ := hr
    obtain ⟨s', h⟩ := C50_encrypt_succeeds (w.krEnv i) a ctx row s hrow pub hpub hpad (fun x _ => hmem x) (hp.keyringRandom i 1)
      (fun key hkey => by
        obtain ⟨ct, h, -⟩ := hrsa w i key hw (by rw [rightLength_row hrow hkey]; exact keyBits_le hrow)
        exact ⟨ct, h⟩) hk hs
    obtain ⟨pub', k, ct, h0, -, h1, h2, h3, h4, -⟩ := C50_encrypt_form _ a ctx row.id s s' h
    have hrl : RightLength row.id k.bytes := by
      rcases h2 with h2 | ⟨-, h2, -⟩
      · exact hk k h2
      · exact h2
    refine ⟨s', k, _, h, h1, hrl, h4, ?_⟩
    rw [hpub] at h0; cases h0
    obtain ⟨ct', b1, b2⟩ := hrsa w i k.bytes hw (by rw [rightLength_row hrow hrl]; exact keyBits_le hrow)
    have : Except.ok ct = (Except.ok ct' : Except Err Bytes) := h3.symm.trans b1
    cases this
    unfold edkWire wrapLen
    simp only [hpub, Option.getD_some, b2]

theorem list_encrypts {w : World} (hw : W w) (hp : CanProduce Pair sz w) {ctx : EncCtx} {row : SuiteRow} (hrow : row ∈ suiteTable)
    (hd : DistinctKeys ctx) (hc : wireLen ctx ≤ 65535) : ∀ (rs : List RawKr) (i : Nat) (s : EncState), (∀ r ∈ rs, CanWrap W sz r) →
      ∀ k, s.key = some k → RightLength row.id k.bytes →
      ∃ s' es, AllSucceed ctx row.id (keyringsFrom w i rs) s s' ∧ s'.edks = s.edks ++ es ∧
        es.map edkWire = rs.map (wrapLen sz (row.keyBits / 8)) := by
  intro rs
  induction rs with
  | nil => intro i s _ k _ _; exact ⟨s, [], .nil s, by simp, rfl⟩
  | cons r rs ih =>
    intro i s hr k hk hl
    obtain ⟨s1, k1, e, h1, h2, h3, h4, h5⟩ := raw_encrypts (i := i) hw hp hrow hd hc (hr r (by simp)) (s := s)
      (fun k' h' => by rw [hk] at h'; cases h'; exact hl) (fun h => by rw [hk] at h; cases h)
    obtain ⟨s', es, a1, a2, a3⟩ := ih (i + 1) s1 (fun r h => hr r (by simp [h])) k1 h2 h3
    exact ⟨s', e :: es, .cons h1 a1, by rw [a2, h4]; simp, by simp [h5, a3]⟩

theorem user_encrypts {w : World} (hw : W w) (hp : CanProduce Pair sz w) {ctx : EncCtx} {row : SuiteRow} (hrow : row ∈ suiteTable)
    (hd : DistinctKeys ctx) (hc : wireLen ctx ≤ 65535) {kr : UserKr} (hr : ∀ r ∈ members kr, CanWrap W sz r) (hg : HasGenerator kr)
    (errno : Err) :
    ∃ s', keyringOnEncrypt (kr.keyring w) ctx row.id ⟨none, [], [], errno⟩ = (.ok, s') ∧
      s'.edks.map edkWire = (members kr).map (wrapLen sz (row.keyBits / 8)) := by
  cases kr with
  | one r =>
    obtain ⟨s', k, e, h1, -, -, h4, h5⟩ := raw_encrypts (i := 0) hw hp hrow hd hc (hr r (by simp [members])) (s := ⟨none, [], [], errno⟩)
      (by simp) (by simp)
    exact ⟨s', h1, by rw [h4]; simp [members, h5]⟩
  | multi gen children =>
    cases gen with
    | none => cases hg
    | some g =>
      obtain ⟨s1, k, e, h1, h2, h3, h4, h5⟩ := raw_encrypts (i := 0) hw hp hrow hd hc (hr g (by simp [members])) (s := ⟨none, [], [], errno⟩)
        (by simp) (by simp)
      obtain ⟨s2, es, a1, a2, a3⟩ := list_encrypts hw hp hrow hd hc children 1 s1 (fun r h => hr r (by simp [members, h])) k h2 h3
      obtain ⟨s', b1, -, b3⟩ := C47_completeness w.multi (some (g.keyring (w.krEnv 0))) (keyringsFrom w 1 children) ctx row.id
        ⟨none, [], [], errno⟩ s1 s2 hp.lists (.cons h1 (.nil s1)) (by rw [h2]; rfl) a1 (by simp)
      refine ⟨s', b1, ?_⟩
      rw [b3, a2, h4]
      simp [members, h5, a3]

/-! ### primitives -/

theorem hkdf_works {H : Hmac} (hH : ∀ sha k m, sha ≠ .nosha → ∃ t, H.mac sha k m = some t) {sha : Sha} (hs : sha ≠ .nosha) (salt ikm info : Bytes)
    {n : Nat} (h0 : 0 < n) (hn : n ≤ 255 * hashLen sha) : ∃ k, hkdfOf H sha salt ikm info n = .ok k := by
  have hl : 0 < hashLen sha := by cases sha <;> first | exact absurd rfl hs | decide
  have loop : ∀ prk m idx t rem okm, ∃ r, hkdfExpandLoop H sha prk info m idx t rem okm = some r := by
    intro prk m
    induction m with
    | zero => intro idx t rem okm; exact ⟨okm, rfl⟩
    | succ m ih =>
      intro idx t rem okm
      obtain ⟨t', ht⟩ := hH sha prk ((if idx ≠ 1 then t else []) ++ info ++ [UInt8.ofNat idx]) hs
      rw [hkdfExpandLoop]
      simp only [ht]
      exact ih _ _ _ _
  obtain ⟨prk, hprk⟩ := hH sha (if salt.length ≠ 0 then salt else List.replicate (hashLen sha) 0) ikm hs
  have hpl := H.mac_len _ _ _ _ hprk
  unfold hkdfOf hkdf hkdfExtract
  rw [if_neg hs]
  simp only [hprk]
  rw [if_neg (by omega)]
  simp only
  unfold hkdfExpand
  simp only [List.length_replicate]
  rw [if_neg hs, if_neg (by omega), if_neg]
  · obtain ⟨r, hr⟩ := loop prk ((n + hashLen sha - 1) / hashLen sha) 1 [] n []
    rw [hr]
    exact ⟨r, rfl⟩
  · have : (n + hashLen sha - 1) / hashLen sha < 256 := by
      rw [Nat.div_lt_iff_lt_mul hl]
      omega
    omega

theorem sigBytes_eq {row : SuiteRow} (h : row ∈ suiteTable) : sigBytes row = signatureBytes row.curveBits := by
  revert row; decide

theorem curve_of {row : SuiteRow} (h : row ∈ suiteTable) (hc : row.curveBits ≠ 0) : ∃ cv, sigCurve row.id = some cv ∧ cv.bytes = row.curveBits / 8 := by
  have key : ∀ r ∈ suiteTable, r.curveBits ≠ 0 → (sigCurve r.id).any (fun cv => cv.bytes == r.curveBits / 8) = true := by decide
  have := key row h hc
  cases hx : sigCurve row.id with
  | none => rw [hx] at this; cases this
  | some cv => rw [hx] at this; exact ⟨cv, rfl, by simpa using this⟩

theorem signOf_works {w : World} (hp : CanProduce Pair sz w) {row : SuiteRow} (hrow : row ∈ suiteTable) {cv : Curve} (hcv : sigCurve row.id = some cv)
    {d q : Nat} (hpair : Pair cv d q) (data : Bytes) :
    ∃ sig, signOf w.ec w.fuel ⟨⟨row.id, some d, some q⟩, data⟩ = .ok sig ∧ sig.length = sigBytes row := by
  obtain ⟨p, hpr⟩ := algProps_of_row hrow
  obtain ⟨f1, -, f3, -, f5, f6⟩ := curve_facts hpr hrow rfl
  have ht := (f6 cv hcv).2
  have hc : IsSigner p d q data ⟨p, some ⟨some d, some q⟩, some true, some data, true⟩ := ⟨rfl, rfl, rfl, rfl, rfl⟩
  have hcv' : sigCurve p.algId = some cv := by rw [f1]; exact hcv
  obtain ⟨j, hj, hgood⟩ := hp.draws cv d q (w.ec.hash (sigMd row.id) data) hpair
  have hr := w.ec.draw_range cv d (w.ec.hash (sigMd row.id) data) j
  rw [rightLength_iff hr.2.1 hr.2.2.2, rightLength_iff hr.2.1 (by omega)] at hgood
  have hfin : ∃ sig w', sigSignFinish w.ec w.fuel ⟨p, some ⟨some d, some q⟩, some true, some data, true⟩ (fun _ => 0) = (.ok sig, w') := by
    rw [sigSignFinish_eq hc hcv', f1]
    obtain ⟨sig, hs⟩ := signLoop_converge (t := p.signatureLen) (fuel := w.fuel) (i := 0) (buf := []) (w := Live.add (Live.add (fun _ => 0) .pkeyCtx 1) .mem 1)
      hp.healthy.ec (Nat.zero_le j) (by omega) (by rw [ht]; exact hgood)
    rw [hs]
    simp [hp.healthy.ec]
  obtain ⟨sig, w', hfin⟩ := hfin
  refine ⟨sig, ?_, ?_⟩
  · unfold signOf SigCtx.full
    simp only [hpr, Option.map_some, Option.isSome_some, hfin]
  · rw [sigBytes_eq hrow]
    exact (C67_length w.ec w.fuel row.id p row hpr hrow rfl d q data _ hc _ w' sig hfin).2

theorem keygenOf_works {w : World} (hp : CanProduce Pair sz w) {row : SuiteRow} (hrow : row ∈ suiteTable) {cv : Curve} (hcv : sigCurve row.id = some cv) :
    keygenOf w.ec row.id = .ok (⟨⟨row.id, some (w.ec.genKey cv).1, some (w.ec.genKey cv).2⟩, []⟩, w.ec.b64 (w.ec.pubOut cv (w.ec.genKey cv).2)) := by
  obtain ⟨p, hpr⟩ := algProps_of_row hrow
  obtain ⟨f1, -⟩ := curve_facts hpr hrow rfl
  obtain ⟨c, w', hk⟩ := C69_keygen_succeeds w.ec hp.healthy.ec p cv (by rw [f1]; exact hcv) (hp.point _ _) (hp.base64 _).2 (fun _ => 0)
  unfold keygenOf
  rw [hpr]
  simp only [hk]
  have hs : IsSigner p (w.ec.genKey cv).1 (w.ec.genKey cv).2 [] c := by
    unfold sigKeygen at hk
    rw [f1, hcv] at hk
    simp only [hp.healthy.ec, Bool.not_true, Bool.false_eq_true, if_false, or_self, if_true] at hk
    repeat' split at hk
    all_goals first | cases hk | skip
    exact sigBegin_signer (by assumption)
  unfold SigC.view
  rw [hs.props, hs.keypair, hs.md, f1]
  rfl

/-! ### the CMM -/

theorem wireLen_perm {m1 m2 : EncCtx} (h : m1.Perm m2) : wireLen m1 = wireLen m2 := by
  unfold wireLen
  by_cases h1 : m1 = []
  · subst h1
    have := h.symm.eq_nil
    rw [this]
  · have h2 : m2 ≠ [] := fun h2 => h1 (by subst h2; exact h.eq_nil)
    rw [if_neg h1, if_neg h2, (h.map _).sum_nat]

theorem written_len {sz : Sizes} {row : SuiteRow} (hc : row.curveBits ≠ 0) {ctx ctx' : EncCtx} {pub : Bytes} (hd : DistinctKeys ctx)
    (hd' : DistinctKeys ctx') (hn : ctx.lookup publicKeyName = none) (hs : SameMap ctx' ((publicKeyName, pub) :: ctx))
    (hp : pub.length = sz.b64 (row.curveBits / 8 + 1)) : wireLen ctx' = writtenCtxLen sz row ctx := by
  have hd2 : DistinctKeys ((publicKeyName, pub) :: ctx) := by
    refine List.nodup_cons.mpr ⟨fun hm => ?_, hd⟩
    obtain ⟨e, he, hk⟩ := List.mem_map.mp hm
    have := List.lookup_eq_none_iff.mp hn e he
    simp only at hk
    simp [hk] at this
  have hperm : ctx'.Perm ((publicKeyName, pub) :: ctx) := perm_of_find hd' hd2 hs
  rw [wireLen_perm hperm]
  unfold writtenCtxLen wireLen
  rw [if_neg hc, if_neg (by simp)]
  have hpl : publicKeyName.length = 21 := by decide
  simp only [List.map_cons, List.sum_cons, hpl, hp]
  split
  · rename_i h
    subst h
    simp; omega
  · omega

theorem stack_answers {w : World} (hw : W w) (hp : CanProduce Pair sz w) {kr : UserKr} (hr : ∀ r ∈ members kr, CanWrap W sz r) (hg : HasGenerator kr)
    {da : Option Nat} {row : SuiteRow} {s : Session} (hrow : SuiteIs da s.policy row) (hf : Fits sz kr row s) (hd : DistinctKeys s.header.encCtx)
    (n : Nat) : ∃ ctx m, (w.env kr da).cmm.generate ⟨s.header.encCtx, 0, n, s.policy⟩ = (ctx, .ok m) ∧ Usable s.policy s.maxEdks row ctx m ∧
      wireLen ctx = writtenCtxLen sz row s.header.encCtx ∧ m.edks.map edkWire = (members kr).map (wrapLen sz (row.keyBits / 8)) := by
  have hmem := hrow.mem
  have hkg : row.curveBits ≠ 0 → ∃ sc pub, w.cmmEnv.keygen row.id = .ok (sc, pub) := by
    intro hc
    obtain ⟨cv, h1, -⟩ := curve_of hmem hc
    exact ⟨_, _, keygenOf_works hp hmem h1⟩
  have hlen : ∀ ctx, DistinctKeys ctx → (row.curveBits = 0 → ctx = s.header.encCtx) →
      (row.curveBits ≠ 0 → ∃ sc pub, w.cmmEnv.keygen row.id = .ok (sc, pub) ∧ SameMap ctx ((publicKeyName, pub) :: s.header.encCtx)) →
      wireLen ctx = writtenCtxLen sz row s.header.encCtx := by
    intro ctx hdc h0 h1
    by_cases hc : row.curveBits = 0
    · rw [h0 hc]
      unfold writtenCtxLen
      rw [if_pos hc]
    · obtain ⟨sc, pub, h2, h3⟩ := h1 hc
      obtain ⟨cv, h4, h5⟩ := curve_of hmem hc
      have h6 : keygenOf w.ec row.id = .ok (sc, pub) := h2
      rw [keygenOf_works hp hmem h4] at h6
      cases h6
      refine written_len hc hd hdc hf.free h3 ?_
      rw [(hp.base64 _).1, hp.point, h5]
  have hch : ChosenSuite da ⟨s.header.encCtx, 0, n, s.policy⟩ row.id := by
    rcases hrow.chosen with h | ⟨h1, h2⟩
    · exact Or.inr (Or.inl ⟨rfl, h⟩)
    · have ha := hrow.admitted
      cases hpol : s.policy with
      | requireRequire => exact Or.inr (Or.inr (Or.inl ⟨rfl, h1, Or.inl rfl, by rw [h2, hpol]; rfl⟩))
      | requireAllow => exact Or.inr (Or.inr (Or.inl ⟨rfl, h1, Or.inr rfl, by rw [h2, hpol]; rfl⟩))
      | forbidAllow => exact Or.inr (Or.inr (Or.inr ⟨rfl, h1, by simp, by rw [h2, hpol]; rfl⟩))
      | other k => rw [hpol] at ha; exact ha.elim
  obtain ⟨ctx, m, hgen⟩ := C51_generate_succeeds w.cmmEnv ⟨kr.keyring w, da⟩ ⟨s.header.encCtx, 0, n, s.policy⟩ row hmem hch hf.free hd
    hp.healthy.materials (fun _ => hp.entry) hkg (fun ctx h1 h2 h3 => by
      obtain ⟨s', h, -⟩ := user_encrypts hw hp hmem h1 (by rw [hlen ctx h1 h2 h3]; exact hf.ctxFits) hr hg w.cmmEnv.errno
      exact ⟨s', h⟩)
  have hdc : DistinctKeys ctx := by
    have := generate_distinct (env := w.cmmEnv) (c := ⟨kr.keyring w, da⟩) (req := ⟨s.header.encCtx, 0, n, s.policy⟩) hd
    rw [hgen] at this
    exact this
  obtain ⟨-, g2, row', hrow', hid', g3, g4, s', g5, g6, -, g8, g9⟩ := C51_generate _ _ _ _ _ hgen
  have hid : m.alg = row.id := by
    have h1 := (pickAlg_chosen ..).mpr g2
    have h2 := (pickAlg_chosen ⟨kr.keyring w, da⟩ _ _).mpr hch
    exact h1.symm.trans h2
  have hrr : row' = row := row_unique' hrow' hmem (by rw [hid', hid])
  subst hrr
  have hwl := hlen ctx hdc (fun h => (g3 h).1) (fun h => by
    obtain ⟨sc, pub, h1, -, h3⟩ := g4 h
    exact ⟨sc, pub, hid ▸ h1, h3⟩)
  obtain ⟨s2, h2, h3⟩ := user_encrypts hw hp hmem hdc (by rw [hwl]; exact hf.ctxFits) hr hg w.cmmEnv.errno
  rw [hid] at g5
  have : s' = s2 := by
    have := g5.symm.trans h2
    simpa using this
  subst this
  obtain ⟨k, u1, u2, u3, -⟩ := user_encrypt (W := W) hw hdc g5
  have hne : m.edks.length = (members kr).length := by rw [g6, u3]
  refine ⟨ctx, m, ?_, ⟨hmem, hid, hrow.admitted, ?_, ?_, ?_, ?_, ?_, ?_⟩, hwl, by rw [g6, h3]⟩
  · show ((DefaultCmm.generate w.cmmEnv ⟨kr.keyring w, da⟩ _).1, (DefaultCmm.generate w.cmmEnv ⟨kr.keyring w, da⟩ _).2.toExcept) = _
    rw [hgen]
    rfl
  · rw [(g8 k u1).1]
    exact rightLength_row hmem u2
  · intro h0
    rw [h0] at hne
    cases kr with
    | one r => cases hne
    | multi g c => cases g with
      | none => cases hg
      | some g => simp [members] at hne
  · rw [hne]
    exact hf.limit
  · constructor
    · intro h1 h0
      rw [(g3 h0).2] at h1
      cases h1
    · intro h1
      obtain ⟨sc, pub, -, h2, -⟩ := g4 h1
      rw [h2]; rfl
  · rw [hwl]; exact hf.ctxFits
  · unfold headerLen
    rw [hwl, g6, h3]
    exact hf.fits

theorem stack_works (hp : ∀ w, W w → CanProduce Pair sz w) (kr : UserKr) (da : Option Nat) : Works (Sessions W kr da) where
  alloc := by
    rintro _ ⟨w, hw, rfl⟩ site
    exact (hp w hw).healthy.alloc site
  random := by
    rintro _ ⟨w, hw, rfl⟩ n
    exact (hp w hw).random n
  hkdf := by
    rintro _ ⟨w, hw, rfl⟩ sha salt ikm info n hs h0 hn
    exact hkdf_works (hp w hw).hmac hs salt ikm info h0 hn
  aead := by
    rintro _ ⟨w, hw, rfl⟩ k iv aad pt hk hiv
    exact (hp w hw).aead k iv aad pt hk hiv
  digest := by
    rintro _ ⟨w, hw, rfl⟩ ctx x
    exact (hp w hw).healthy.digest ctx x
  sign := by
    rintro _ _ ⟨w, hw, rfl⟩ ⟨w', hw', rfl⟩ req ctx m row c data hg hrow hid hc
    obtain ⟨-, -, row', hrow', hid', g3, g4, -⟩ := C51_generate _ _ _ _ _ (toCmm_generate hg)
    have hrr : row' = row := row_unique' hrow' hrow (by rw [hid', hid])
    subst hrr
    by_cases hcb : row'.curveBits = 0
    · rw [(g3 hcb).2] at hc; cases hc
    · obtain ⟨sc, pub, h1, h2, -⟩ := g4 hcb
      rw [hc] at h2; cases h2
      obtain ⟨cv, h4, -⟩ := curve_of hrow hcb
      have h5 : keygenOf w'.ec m.alg = .ok (c, pub) := h1
      rw [← hid', keygenOf_works (hp w' hw') hrow h4] at h5
      cases h5
      exact signOf_works (hp w hw) hrow h4 ((hp w' hw').newKey cv) _

end Verif.Props
