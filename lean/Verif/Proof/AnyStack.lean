import Verif.Spec.AnyStack
import Verif.Proof.Stack
/-
Lemmas for the library with any keyring.
-/
namespace Verif.Props
open Spec

section
variable {Pair : Curve → Nat → Nat → Prop} {M1 M2 M3 : Moment → Prop}

theorem envWith_generate {w : World} {kr : Keyring} {da : Option Nat} {req : EncRequest} {ctx : EncCtx} {m : EncMaterials}
    (h : (w.envWith kr da).cmm.generate req = (ctx, .ok m)) : DefaultCmm.generate w.cmmEnv ⟨kr, da⟩ req = (ctx, .ok m) := by
  have h1 : (DefaultCmm.generate w.cmmEnv ⟨kr, da⟩ req).1 = ctx := (Prod.mk.inj h).1
  have h2 : (DefaultCmm.generate w.cmmEnv ⟨kr, da⟩ req).2.toExcept = .ok m := (Prod.mk.inj h).2
  cases hg : DefaultCmm.generate w.cmmEnv ⟨kr, da⟩ req with
  | mk c r =>
    rw [hg] at h1 h2
    cases r with
    | ok a => cases h1; cases h2; rfl
    | err e => cases h2
    | ub => cases h2

/-- What a writer's CMM made, seen from the keyring. -/
theorem writer_gave (hw : GoodWriter M1) {m1 : Moment} (hm : M1 m1) {da : Option Nat} {req : EncRequest} {ctx : EncCtx} {m : EncMaterials}
    (hd : DistinctKeys req.encCtx) (h : (m1.world.envWith m1.kr da).cmm.generate req = (ctx, .ok m)) :
    DistinctKeys ctx ∧ Gave M1 ctx m.alg m.dataKey m.edks ∧ RightLength m.alg m.dataKey := by
  have hg := envWith_generate h
  have hdc : DistinctKeys ctx := by
    have := generate_distinct (env := m1.world.cmmEnv) (c := ⟨m1.kr, da⟩) hd
    rw [hg] at this
    exact this
  obtain ⟨-, -, row, hrow, hid, -, -, s, g5, g6, -, g8, -⟩ := C51_generate _ _ _ _ _ hg
  cases hk : s.key with
  | none => exact absurd hk (hw.key m1 ctx m.alg s hm hdc g5)
  | some k =>
    obtain ⟨a1, a2⟩ := g8 k hk
    exact ⟨hdc, ⟨m1, s, k, hm, g5, hk, a1.symm, g6.symm⟩, a2⟩

theorem pair_verifies {W1 W2 : World → Prop} (hP : Ciphers Pair W1 W2) {alg : Nat} {x y : Option SigCtx} (h : SigPair Pair alg x y) {c : SigCtx}
    (hx : x = some c) : ∃ c', y = some c' ∧ ∀ w1 w2 data sig, W1 w1 → W2 w2 →
      w1.crypto.sign { c with data := c.data ++ data } = .ok sig → w2.crypto.verify { c' with data := c'.data ++ data } sig = .ok () := by
  rcases h with ⟨rfl, -⟩ | ⟨p, cv, d, q, hp, rfl, hcv, hl, hpair, rfl, rfl⟩
  · cases hx
  · cases hx
    refine ⟨_, rfl, fun w3 w4 data sig hw3 hw4 hsig => ?_⟩
    exact verifies_of hp hcv hl (hP.signs w3 cv _ _ hw3 hpair) (hP.negation w3 hw3) (hP.same w3 w4 hw3 hw4) hsig

/-- The reader's default CMM answers for what the writer's default CMM made, if its keyring finds the data key. -/
theorem any_answers_from (hP : Ciphers Pair (worlds M1) (worlds M2)) (hw : GoodWriter M1) (da1 da2 : Option Nat)
    {m1 m2 : Moment} (hm1 : M1 m1) (hm2 : M2 m2) (hh : Sound m2.world) {req : EncRequest} {ctx ctx' : EncCtx} {edks : List Edk} {m : EncMaterials}
    (hd : DistinctKeys req.encCtx) (h : (m1.world.envWith m1.kr da1).cmm.generate req = (ctx, .ok m)) (hp : ctx.Perm ctx')
    (hf : ∃ s k, keyringOnDecrypt m2.kr edks ctx' m.alg ⟨none, [], m2.world.lastErr⟩ = (.ok, s) ∧ s.key = some k ∧ k.bytes = m.dataKey) :
    ∃ m', (m2.world.envWith m2.kr da2).cmm.decrypt { encCtx := ctx', edks := edks, alg := m.alg } = .ok m' ∧ m'.dataKey = m.dataKey ∧
      m'.alg = m.alg ∧ SigPair Pair m.alg m.signctx m'.signctx := by
  obtain ⟨hdc, -, hrl⟩ := writer_gave hw hm1 hd h
  have hg := envWith_generate h
  have hw1 : worlds M1 m1.world := ⟨m1, hm1, rfl⟩
  have hw2 : worlds M2 m2.world := ⟨m2, hm2, rfl⟩
  obtain ⟨g1, -, row, hrow, hid, g3, g4, -⟩ := C51_generate _ _ _ _ _ hg
  obtain ⟨s', k', v1, v2, v3⟩ := hf
  obtain ⟨p, hpr⟩ := algProps_of_row hrow
  rw [hid] at hpr
  obtain ⟨f1, -, f3, -, f5, f6⟩ := curve_facts hpr hrow hid
  have hcall : ∀ m', DefaultCmm.decrypt m2.world.cmmEnv ⟨m2.kr, da2⟩ { encCtx := ctx', edks := edks, alg := m.alg } = .ok m' →
      (m2.world.envWith m2.kr da2).cmm.decrypt { encCtx := ctx', edks := edks, alg := m.alg } = .ok m' := by
    intro m' h
    show (DefaultCmm.decrypt m2.world.cmmEnv ⟨m2.kr, da2⟩ { encCtx := ctx', edks := edks, alg := m.alg }).toExcept = _
    rw [h]; rfl
  have hlook : ∀ x, ctx'.lookup x = ctx.lookup x := fun x => (find_perm hdc hp x).symm
  by_cases hcb : row.curveBits = 0
  · obtain ⟨hctx, hsc⟩ := g3 hcb
    refine ⟨⟨m.alg, k'.bytes, s'.trace, none⟩, hcall _ ?_, v3, rfl, .inl ⟨hsc, rfl⟩⟩
    rw [C51_decrypt _ _ _ _ hh.materials]
    exact ⟨s', k', row, v1, v2, hrow, hid, rfl, rfl, by rw [v3]; exact hrl, rfl, Or.inl ⟨hcb, by rw [hlook, hctx]; exact g1, rfl⟩⟩
  · obtain ⟨sc, pub, hkg, hsc, hsame⟩ := g4 hcb
    have hcv : ∃ cv, sigCurve p.algId = some cv := by
      cases hx : sigCurve p.algId with
      | some cv => exact ⟨cv, rfl⟩
      | none => rw [f1] at hx; exact absurd (f5.mp hx) hcb
    obtain ⟨cv, hcv⟩ := hcv
    have hpair := hP.newKey m1.world cv hw1
    obtain ⟨rfl, bin, b1, b2, b3⟩ := keygenOf_ok hpr hcv (hP.codec m1.world cv _ _ hw1 hpair) hkg
    have hsm := hP.same m1.world m2.world hw1 hw2
    have hbl := bytes_le cv
    have hvs := verifyStartOf_ok hh.ec (pub := pub) hpr hcv (by rw [← hsm.unb64]; exact b1) (by omega) (by rw [← hsm.pubIn]; exact b3)
    refine ⟨⟨m.alg, k'.bytes, s'.trace, some ⟨⟨p.algId, none, some (m1.world.ec.genKey cv).2⟩, []⟩⟩, hcall _ ?_, v3, rfl, ?_⟩
    · rw [C51_decrypt _ _ _ _ hh.materials]
      refine ⟨s', k', row, v1, v2, hrow, hid, rfl, rfl, by rw [v3]; exact hrl, rfl, Or.inr ⟨hcb, pub, _, ?_, hvs, rfl⟩⟩
      rw [hlook, hsame]
      simp
    · exact .inr ⟨p, cv, _, _, hpr, f1, by rw [← f1]; exact hcv, by rw [(f6 cv (f1 ▸ hcv)).2]; omega, hpair, by rw [hsc, f1], by rw [f1]⟩

/-- The reader's default CMM answers for what the writer's default CMM made. -/
theorem any_answers (hP : Ciphers Pair (worlds M1) (worlds M2)) (hw : GoodWriter M1) (hf : AlwaysFinds M1 M2) (da1 da2 : Option Nat)
    {m1 m2 : Moment} (hm1 : M1 m1) (hm2 : M2 m2) (hh : Sound m2.world) {req : EncRequest} {ctx ctx' : EncCtx} {m : EncMaterials}
    (hd : DistinctKeys req.encCtx) (h : (m1.world.envWith m1.kr da1).cmm.generate req = (ctx, .ok m)) (hp : ctx.Perm ctx') :
    ∃ m', (m2.world.envWith m2.kr da2).cmm.decrypt { encCtx := ctx', edks := m.edks, alg := m.alg } = .ok m' ∧ m'.dataKey = m.dataKey ∧
      m'.alg = m.alg ∧ SigPair Pair m.alg m.signctx m'.signctx := by
  obtain ⟨hdc, hgave, -⟩ := writer_gave hw hm1 hd h
  exact any_answers_from hP hw da1 da2 hm1 hm2 hh hd h hp (hf ctx ctx' m.alg m.dataKey m.edks m2 hdc hgave hp hm2)

theorem any_opens (hP : Ciphers Pair (worlds M1) (worlds M2)) (hh : ∀ w, worlds M2 w → Sound w) (hw : GoodWriter M1) (hf : AlwaysFinds M1 M2)
    (da1 da2 : Option Nat) : Opens (SessionsAt M1 da1) (SessionsAt M2 da2) where
  aead := by
    rintro _ _ k iv aad pt ct tag ⟨m1, hm1, rfl⟩ ⟨m2, hm2, rfl⟩ h
    exact hP.aead m1.world m2.world k iv aad pt ct tag ⟨m1, hm1, rfl⟩ ⟨m2, hm2, rfl⟩ h
  hkdf := by
    rintro _ _ sha salt ikm info n x ⟨m1, hm1, rfl⟩ ⟨m2, hm2, rfl⟩ h
    exact hkdfOf_mono (fun sha k m t => hP.hmac m1.world m2.world sha k m t ⟨m1, hm1, rfl⟩ ⟨m2, hm2, rfl⟩) h
  alloc := by
    rintro _ site ⟨m2, hm2, rfl⟩
    exact (hh _ ⟨m2, hm2, rfl⟩).alloc site
  digest := by
    rintro _ ctx x ⟨m2, hm2, rfl⟩
    exact (hh _ ⟨m2, hm2, rfl⟩).digest ctx x
  sigLen := by
    rintro _ ctx sig ⟨m1, hm1, rfl⟩ h
    exact signOf_length h
  answers := by
    rintro _ _ req ctx ctx' m ⟨m1, hm1, rfl⟩ ⟨m2, hm2, rfl⟩ hd h hp -
    obtain ⟨m', a1, a2, a3, a4⟩ := any_answers hP hw hf da1 da2 hm1 hm2 (hh _ ⟨m2, hm2, rfl⟩) hd h hp
    refine ⟨m', a1, a2, a3, fun c hx => ?_⟩
    obtain ⟨c', b1, b2⟩ := pair_verifies hP a4 hx
    refine ⟨c', b1, ?_⟩
    rintro _ _ data sig ⟨m3, hm3, rfl⟩ ⟨m4, hm4, rfl⟩ hsig
    exact b2 m3.world m4.world data sig ⟨m3, hm3, rfl⟩ ⟨m4, hm4, rfl⟩ hsig

theorem any_storable (hw : GoodWriter M1) (da1 : Option Nat) : Storable (SessionsAt M1 da1) := by
  rintro _ req ctx m ⟨m1, hm1, rfl⟩ hd h
  obtain ⟨hdc, hgave, -⟩ := writer_gave hw hm1 hd h
  exact ⟨hdc, hw.fits _ _ _ _ hdc hgave⟩

/-- The reader's default CMM, if it answers, got the data key from its keyring. -/
theorem reader_found {m2 : Moment} {da2 : Option Nat} {edks : List Edk} {ctx : EncCtx} {alg : Nat} {m' : DecMaterials}
    (h : (m2.world.envWith m2.kr da2).cmm.decrypt { encCtx := ctx, edks := edks, alg := alg } = .ok m') :
    ∃ s k, keyringOnDecrypt m2.kr edks ctx alg ⟨none, [], m2.world.lastErr⟩ = (.ok, s) ∧ s.key = some k ∧ m'.dataKey = k.bytes := by
  have hx : (DefaultCmm.decrypt m2.world.cmmEnv ⟨m2.kr, da2⟩ { encCtx := ctx, edks := edks, alg := alg }).toExcept = .ok m' := h
  cases hdec : DefaultCmm.decrypt m2.world.cmmEnv ⟨m2.kr, da2⟩ { encCtx := ctx, edks := edks, alg := alg } with
  | err e => rw [hdec] at hx; cases hx
  | ub => rw [hdec] at hx; cases hx
  | ok x =>
    rw [hdec] at hx; cases hx
    have hmat : m2.world.cmmEnv.allocMat = true := by
      cases hm : m2.world.cmmEnv.allocMat with
      | true => rfl
      | false => simp [DefaultCmm.decrypt, hm] at hdec
    rw [C51_decrypt _ _ _ _ hmat] at hdec
    obtain ⟨s, k, row, d1, d2, -, -, -, d6, -⟩ := hdec
    exact ⟨s, k, d1, d2, d6⟩

theorem any_undoes (hP : Ciphers Pair (worlds M1) (worlds M2)) (hw : GoodWriter M1) (hn : NeverMistaken M1 M2) (da1 da2 : Option Nat) :
    Undoes (SessionsAt M1 da1) (SessionsAt M2 da2) where
  aead := by
    rintro _ _ k iv aad pt ct tag ⟨m1, hm1, rfl⟩ ⟨m2, hm2, rfl⟩ h
    exact hP.aead m1.world m2.world k iv aad pt ct tag ⟨m1, hm1, rfl⟩ ⟨m2, hm2, rfl⟩ h
  hkdf := by
    rintro _ _ sha salt ikm info n x y ⟨m1, hm1, rfl⟩ ⟨m2, hm2, rfl⟩ h h'
    have := hkdfOf_mono (fun sha k m t => hP.hmac m1.world m2.world sha k m t ⟨m1, hm1, rfl⟩ ⟨m2, hm2, rfl⟩) h
    have h'' : hkdfOf m2.world.hmac sha salt ikm info n = .ok y := h'
    rw [this] at h''
    cases h''; rfl
  dataKey := by
    rintro _ _ req ctx ctx' m m' ⟨m1, hm1, rfl⟩ ⟨m2, hm2, rfl⟩ hd h hp - h'
    obtain ⟨hdc, hgave, -⟩ := writer_gave hw hm1 hd h
    obtain ⟨s, k, d1, d2, d3⟩ := reader_found h'
    rw [d3]
    exact hn _ _ _ _ _ m2 s k hdc hgave hp hm2 d1 d2

theorem any_refuses (hw : GoodWriter M1) (hn : NeverFinds M1 M2) (da1 da2 : Option Nat) {e1 e2 : Env}
    {req : EncRequest} {ctx ctx' : EncCtx} {m : EncMaterials} {m' : DecMaterials} (h1 : SessionsAt M1 da1 e1) (h2 : SessionsAt M2 da2 e2)
    (hd : DistinctKeys req.encCtx) (h : e1.cmm.generate req = (ctx, .ok m)) (hp : ctx.Perm ctx')
    (h' : e2.cmm.decrypt { encCtx := ctx', edks := m.edks, alg := m.alg } = .ok m') : False := by
  obtain ⟨m1, hm1, rfl⟩ := h1
  obtain ⟨m2, hm2, rfl⟩ := h2
  obtain ⟨hdc, hgave, -⟩ := writer_gave hw hm1 hd h
  obtain ⟨s, k, d1, d2, -⟩ := reader_found h'
  rw [hn _ _ _ _ _ m2 s hdc hgave hp hm2 d1] at d2
  cases d2

end

end Verif.Props
