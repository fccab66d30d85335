import Verif.Props.RawKeyring
/-
Property C51: the default CMM.
-/
namespace Verif.Props
open Verif Verif.Spec Verif.Example

theorem publicKeyName_eq : ecPublicKeyField = publicKeyName := rfl

theorem pickAlg_chosen (c : DefaultCmm) (req : EncRequest) (alg : Nat) : c.pickAlg req = alg ↔ ChosenSuite c.defaultAlg req alg := by
  unfold DefaultCmm.pickAlg ChosenSuite
  by_cases h0 : req.requestedAlg = 0
  · cases hd : c.defaultAlg with
    | some a => simp [h0]
    | none => cases hp : req.policy <;> simp [h0, Policy.encryptMustIncludeCommitment, eq_comm]
  · simp [h0, eq_comm]

theorem sameMap_put {m : EncCtx} {k v : Bytes} : SameMap (EncCtx.put m k v) ((k, v) :: m) := by
  intro x
  have hrem : ∀ m : EncCtx, (EncCtx.remove m k).lookup x = if x = k then none else m.lookup x := by
    intro m
    induction m with
    | nil => simp [EncCtx.remove]
    | cons e m ih =>
      obtain ⟨a, b⟩ := e
      unfold EncCtx.remove at ih ⊢
      by_cases ha : a = k
      · subst ha
        simp only [ne_eq, not_true, decide_false, Bool.false_eq_true, not_false_eq_true, List.filter_cons_of_neg, ih]
        split
        · rfl
        · rename_i hx
          have hb : (x == a) = false := by simpa using hx
          simp [List.lookup_cons, hb]
      · simp only [ne_eq, ha, not_false_eq_true, decide_true, List.filter_cons_of_pos, List.lookup_cons, ih]
        by_cases hxa : x = a
        · subst hxa; simp [ha]
        · have hb : (x == a) = false := by simpa using hxa
          simp [hb]
  unfold EncCtx.put
  rw [List.lookup_append, hrem]
  by_cases hx : x = k
  · subst hx; simp
  · have hb : (x == k) = false := by simpa using hx
    simp [hx, List.lookup_cons, hb]

/-- C51: what it means that the default CMM returns encryption materials.  The request did not contain the reserved name; the suite is
the documented choice and one of the table; the context of the message is the requested one, with the public key under the reserved
name exactly for signing suites; the signing context belongs to that public key; data key, EDKs and trace are those which the
keyring made for that context and that suite. -/
theorem C51_generate (env : CmmEnv) (c : DefaultCmm) (req : EncRequest) (ctx : EncCtx) (m : EncMaterials)
    (h : c.generate env req = (ctx, .ok m)) :
    req.encCtx.lookup publicKeyName = none ∧ ChosenSuite c.defaultAlg req m.alg ∧
    ∃ row ∈ suiteTable, row.id = m.alg ∧
      (row.curveBits = 0 → ctx = req.encCtx ∧ m.signctx = none) ∧
      (row.curveBits ≠ 0 → ∃ sc pub, env.keygen m.alg = .ok (sc, pub) ∧ m.signctx = some sc ∧
        SameMap ctx ((publicKeyName, pub) :: req.encCtx)) ∧
      ∃ s, keyringOnEncrypt c.kr ctx m.alg ⟨none, [], [], env.errno⟩ = (.ok, s) ∧ m.edks = s.edks ∧ m.trace = s.trace ∧
        (∀ k, s.key = some k → m.dataKey = k.bytes ∧ RightLength m.alg m.dataKey) ∧ (s.key = none → m.dataKey = []) := by
  have hcall : ∀ ctx alg sc m, c.callKeyring env ctx alg sc = .ok m → m.alg = alg ∧ m.signctx = sc ∧
      ∃ s, keyringOnEncrypt c.kr ctx alg ⟨none, [], [], env.errno⟩ = (.ok, s) ∧ m.edks = s.edks ∧ m.trace = s.trace ∧
        (∀ k, s.key = some k → m.dataKey = k.bytes ∧ RightLength alg m.dataKey) ∧ (s.key = none → m.dataKey = []) := by
    intro ctx alg sc m h
    unfold DefaultCmm.callKeyring at h
    split at h
    · cases h
    · cases h
    · rename_i s hs
      cases h
      refine ⟨rfl, rfl, s, hs, rfl, rfl, ?_, ?_⟩
      · intro k hk
        have := ((C45_encrypt_contract ..).mp hs).2.2.1 rfl k hk
        simp [hk, this]
      · intro hk; simp [hk]
  unfold DefaultCmm.generate at h
  split at h
  · cases h
  · rename_i hn
    have hn' : req.encCtx.lookup publicKeyName = none := by
      rw [← publicKeyName_eq]
      cases hl : EncCtx.find req.encCtx ecPublicKeyField with
      | none => exact hl
      | some x => simp [hl] at hn
    refine ⟨hn', ?_⟩
    split at h
    · cases h
    · rename_i p hp
      obtain ⟨row, hr, hid⟩ := algProps_isSome hp
      have hsig := (rowFacts hr (hid ▸ hp)).sig
      split at h
      · cases h
      · split at h
        · rename_i hs0
          simp only [Prod.mk.injEq] at h
          obtain ⟨rfl, h⟩ := h
          obtain ⟨h1, h2, h3⟩ := hcall _ _ _ _ h
          rw [h1]
          refine ⟨(pickAlg_chosen ..).mp rfl, row, hr, hid, fun _ => ⟨rfl, h2⟩, fun hc => absurd (hsig.mp hs0) hc, h3⟩
        · rename_i hs0
          split at h
          · cases h
          · rename_i sc pub hkg
            split at h
            · cases h
            · simp only [Prod.mk.injEq] at h
              obtain ⟨rfl, h⟩ := h
              obtain ⟨h1, h2, h3⟩ := hcall _ _ _ _ h
              rw [h1]
              refine ⟨(pickAlg_chosen ..).mp rfl, row, hr, hid, fun hc => absurd (hsig.mpr hc) hs0, fun _ => ?_, h3⟩
              exact ⟨sc, pub, hkg, h2, sameMap_put⟩

/-- C51: and it does return materials: if the request is without the reserved name, the documented suite is one of the table, memory
does not fail, nor, for a suite with signature, key generation, and the keyring succeeds on the context described above. -/
theorem C51_generate_succeeds (env : CmmEnv) (c : DefaultCmm) (req : EncRequest) (row : SuiteRow) (hrow : row ∈ suiteTable)
    (hch : ChosenSuite c.defaultAlg req row.id) (hres : req.encCtx.lookup publicKeyName = none) (hd : DistinctKeys req.encCtx)
    (hmem : env.allocMat = true) (hput : row.curveBits ≠ 0 → env.allocPut = true)
    (hkg : row.curveBits ≠ 0 → ∃ sc pub, env.keygen row.id = .ok (sc, pub))
    (hkr : ∀ ctx, DistinctKeys ctx → (row.curveBits = 0 → ctx = req.encCtx) →
      (row.curveBits ≠ 0 → ∃ sc pub, env.keygen row.id = .ok (sc, pub) ∧ SameMap ctx ((publicKeyName, pub) :: req.encCtx)) →
      ∃ s, keyringOnEncrypt c.kr ctx row.id ⟨none, [], [], env.errno⟩ = (.ok, s)) :
    ∃ ctx m, c.generate env req = (ctx, .ok m) := by
  obtain ⟨p, hp⟩ := algProps_of_row hrow
  have hsig := (rowFacts hrow hp).sig
  have hpick := (pickAlg_chosen ..).mpr hch
  have hcall : ∀ ctx sc, (∃ s, keyringOnEncrypt c.kr ctx row.id ⟨none, [], [], env.errno⟩ = (.ok, s)) → ∃ m, c.callKeyring env ctx row.id sc = .ok m := by
    rintro ctx sc ⟨s, hs⟩
    unfold DefaultCmm.callKeyring
    rw [hs]
    exact ⟨_, rfl⟩
  unfold DefaultCmm.generate
  have hf : EncCtx.find req.encCtx ecPublicKeyField = none := hres
  rw [hf, hpick, hp]
  simp only [Option.isSome_none, Bool.false_eq_true, if_false, hmem, Bool.not_true]
  split
  · rename_i h0
    have h0' := hsig.mp h0
    obtain ⟨m, hm⟩ := hcall req.encCtx none (hkr _ hd (fun _ => rfl) (fun h => absurd h0' h))
    exact ⟨_, m, by rw [hm]⟩
  · rename_i h0
    have h0' : row.curveBits ≠ 0 := fun h => h0 (hsig.mpr h)
    obtain ⟨sc, pub, hkg'⟩ := hkg h0'
    simp only [hkg', hput h0', Bool.not_true, Bool.false_eq_true, if_false]
    obtain ⟨m, hm⟩ := hcall (EncCtx.put req.encCtx ecPublicKeyField pub) (some sc)
      (hkr _ (WF_put hd _ _) (fun h => absurd h h0') (fun _ => ⟨sc, pub, hkg', sameMap_put⟩))
    exact ⟨_, m, by rw [hm]⟩

/-- C51: a request that contains the reserved name is refused and left alone. -/
theorem C51_reserved_name_refused (env : CmmEnv) (c : DefaultCmm) (req : EncRequest) (v : Bytes)
    (h : req.encCtx.lookup publicKeyName = some v) : c.generate env req = (req.encCtx, .err .reservedName) := by
  have : EncCtx.find req.encCtx ecPublicKeyField = some v := h
  simp [DefaultCmm.generate, this]

/-- C51: exactly when the default CMM returns decryption materials: the keyring found a data key; a suite without signature goes with a
context without the reserved name, a signing suite with one whose value is accepted as public key. -/
theorem C51_decrypt (env : CmmEnv) (c : DefaultCmm) (req : DecRequest) (m : DecMaterials) (hm : env.allocMat = true) :
    c.decrypt env req = .ok m ↔
      ∃ s k row, keyringOnDecrypt c.kr req.edks req.encCtx req.alg ⟨none, [], env.errno⟩ = (.ok, s) ∧ s.key = some k ∧
        row ∈ suiteTable ∧ row.id = req.alg ∧ m.alg = req.alg ∧ m.dataKey = k.bytes ∧ RightLength req.alg m.dataKey ∧ m.trace = s.trace ∧
        ((row.curveBits = 0 ∧ req.encCtx.lookup publicKeyName = none ∧ m.signctx = none) ∨
         (row.curveBits ≠ 0 ∧ ∃ pub sc, req.encCtx.lookup publicKeyName = some pub ∧ env.verifyStart req.alg pub = .ok sc ∧
           m.signctx = some sc)) := by
  unfold DefaultCmm.decrypt
  simp only [hm, Bool.not_true, Bool.false_eq_true, if_false]
  rcases hr : keyringOnDecrypt c.kr req.edks req.encCtx req.alg ⟨none, [], env.errno⟩ with ⟨r, s⟩
  cases r with
  | ub => simp
  | fail => simp
  | ok =>
    simp only [Prod.mk.injEq, true_and]
    unfold DefaultCmm.finish
    have hlen := ((C46_decrypt_contract ..).mp hr).2.2
    cases hk : s.key with
    | none =>
      simp only [reduceCtorEq, false_iff]
      rintro ⟨s', k, row, rfl, h, -⟩
      rw [hk] at h; cases h
    | some k =>
      obtain ⟨row, hrow, hid, hl⟩ := hlen k hk
      obtain ⟨p, hp⟩ := algProps_of_row hrow
      have hsig := (rowFacts hrow hp).sig
      rw [hid] at hp
      simp only [hp]
      have hfind : EncCtx.find req.encCtx ecPublicKeyField = req.encCtx.lookup publicKeyName := rfl
      rw [hfind]
      have back : ∀ Q : SuiteRow → Prop, (∃ s' k' row', s = s' ∧ s'.key = some k' ∧ row' ∈ suiteTable ∧ row'.id = req.alg ∧
          m.alg = req.alg ∧ m.dataKey = k'.bytes ∧ RightLength req.alg m.dataKey ∧ m.trace = s'.trace ∧ Q row') ↔
          m.alg = req.alg ∧ m.dataKey = k.bytes ∧ m.trace = s.trace ∧ Q row := by
        intro Q
        constructor
        · rintro ⟨s', k', row', rfl, h1, h2, h3, h4, h5, -, h6, h7⟩
          rw [hk] at h1; cases h1
          rw [row_unique' h2 hrow (by rw [h3, hid])] at h7
          exact ⟨h4, h5, h6, h7⟩
        · rintro ⟨h4, h5, h6, h7⟩
          exact ⟨s, k, row, rfl, hk, hrow, hid, h4, h5, ⟨row, hrow, hid, by rw [h5, hl]⟩, h6, h7⟩
      rw [back (fun row => ((row.curveBits = 0 ∧ req.encCtx.lookup publicKeyName = none ∧ m.signctx = none) ∨
         (row.curveBits ≠ 0 ∧ ∃ pub sc, req.encCtx.lookup publicKeyName = some pub ∧ env.verifyStart req.alg pub = .ok sc ∧
           m.signctx = some sc)))]
      have hmk : ∀ sc, (CRes.ok (⟨req.alg, k.bytes, s.trace, sc⟩ : DecMaterials) = CRes.ok m) ↔
          m.alg = req.alg ∧ m.dataKey = k.bytes ∧ m.trace = s.trace ∧ m.signctx = sc := by
        intro sc
        obtain ⟨a, b, c, d⟩ := m
        simp only [CRes.ok.injEq, DecMaterials.mk.injEq]
        constructor
        · rintro ⟨h1, h2, h3, h4⟩; exact ⟨h1.symm, h2.symm, h3.symm, h4.symm⟩
        · rintro ⟨h1, h2, h3, h4⟩; exact ⟨h1.symm, h2.symm, h3.symm, h4.symm⟩
      cases hc : req.encCtx.lookup publicKeyName with
      | none =>
        simp only
        by_cases hs0 : p.signatureLen = 0
        · rw [if_pos hs0, hmk]
          simp [hsig.mp hs0]
        · have : row.curveBits ≠ 0 := fun h => hs0 (hsig.mpr h)
          simp [hs0, this]
      | some pub =>
        simp only
        by_cases hs0 : p.signatureLen = 0
        · simp [hs0, hsig.mp hs0]
        · have hcb : row.curveBits ≠ 0 := fun h => hs0 (hsig.mpr h)
          simp only [hs0, if_false]
          cases hv : env.verifyStart req.alg pub with
          | error e => simp [hv]
          | ok sc =>
            simp only
            rw [hmk]
            simp [hcb, hv]

/-- C51: the errors of decryption: no data key, a signing suite without public key, another suite with one. -/
theorem C51_decrypt_refusals (env : CmmEnv) (c : DefaultCmm) (req : DecRequest) (s : DecState) (row : SuiteRow) (hm : env.allocMat = true)
    (hrow : row ∈ suiteTable) (hid : row.id = req.alg)
    (hk : keyringOnDecrypt c.kr req.edks req.encCtx req.alg ⟨none, [], env.errno⟩ = (.ok, s)) :
    (s.key = none → c.decrypt env req = .err .cannotDecrypt) ∧
    (s.key ≠ none → row.curveBits ≠ 0 → req.encCtx.lookup publicKeyName = none → c.decrypt env req = .err .badCiphertext) ∧
    (s.key ≠ none → row.curveBits = 0 → req.encCtx.lookup publicKeyName ≠ none → c.decrypt env req = .err .badCiphertext) := by
  obtain ⟨p, hp⟩ := algProps_of_row hrow
  have hsig := (rowFacts hrow hp).sig
  rw [hid] at hp
  have hfind : EncCtx.find req.encCtx ecPublicKeyField = req.encCtx.lookup publicKeyName := rfl
  unfold DefaultCmm.decrypt
  simp only [hm, Bool.not_true, Bool.false_eq_true, if_false, hk, DefaultCmm.finish, hp, hfind]
  refine ⟨fun h => by simp [h], fun h1 h2 h3 => ?_, fun h1 h2 h3 => ?_⟩
  · cases hkk : s.key with
    | none => exact absurd hkk h1
    | some k => simp [h3, hsig, h2]
  · cases hkk : s.key with
    | none => exact absurd hkk h1
    | some k =>
      cases hc : req.encCtx.lookup publicKeyName with
      | none => exact absurd hc h3
      | some pub => simp [hsig, h2]

/-- C51: only known suites can be configured. -/
theorem C51_set_alg (c : DefaultCmm) (alg : Nat) :
    ((∃ row ∈ suiteTable, row.id = alg) → c.setAlg alg = ({ c with defaultAlg := some alg }, .ok ())) ∧
    ((¬ ∃ row ∈ suiteTable, row.id = alg) → c.setAlg alg = (c, .error .unsupportedFormat)) := by
  have hiff : algorithmIsKnown alg = true ↔ ∃ row ∈ suiteTable, row.id = alg := by
    rw [algProps_of_known]
    constructor
    · rintro ⟨p, hp⟩
      exact algProps_isSome hp
    · rintro ⟨row, hr, rfl⟩
      exact algProps_of_row hr
  unfold DefaultCmm.setAlg
  constructor
  · intro h; simp [hiff.mpr h]
  · intro h
    have : algorithmIsKnown alg = false := by
      cases hb : algorithmIsKnown alg
      · rfl
      · exact absurd (hiff.mp hb) h
    simp [this]

/-- The documentation of `generate_enc_materials` (include/aws/cryptosdk/materials.h:468-477) says that a failure sets an error code.
For an unknown requested suite none is set: the error reported is whatever the thread had before. -/
theorem C51_unknown_suite_reports_no_error (env : CmmEnv) (c : DefaultCmm) (req : EncRequest) (hr : req.requestedAlg ≠ 0)
    (hu : ¬ ∃ row ∈ suiteTable, row.id = req.requestedAlg) (hres : req.encCtx.lookup publicKeyName = none) :
    c.generate env req = (req.encCtx, .err env.errno) := by
  have hf : EncCtx.find req.encCtx ecPublicKeyField = none := hres
  have hp : algProps (c.pickAlg req) = none := by
    have : c.pickAlg req = req.requestedAlg := by simp [DefaultCmm.pickAlg, hr]
    rw [this]
    cases h : algProps req.requestedAlg with
    | none => rfl
    | some p => exact absurd (algProps_isSome h) hu
  simp [DefaultCmm.generate, hf, hp]

/-- A default CMM whose keyring has no undefined behaviour on the suites of the table has none. -/
theorem C51_no_undefined_behaviour (env : CmmEnv) (c : DefaultCmm)
    (hk : ∀ row ∈ suiteTable, ∀ ctx, (∀ s, (keyringOnEncrypt c.kr ctx row.id s).1 ≠ .ub) ∧
      (∀ edks s, (keyringOnDecrypt c.kr edks ctx row.id s).1 ≠ .ub)) :
    (∀ req, (c.generate env req).2 ≠ .ub) ∧ (∀ req, (∃ row ∈ suiteTable, row.id = req.alg) → c.decrypt env req ≠ .ub) := by
  constructor
  · intro req
    have hcall : ∀ row ∈ suiteTable, ∀ ctx sc, c.callKeyring env ctx row.id sc ≠ .ub := by
      intro row hr ctx sc
      unfold DefaultCmm.callKeyring
      have := (hk row hr ctx).1 ⟨none, [], [], env.errno⟩
      rcases hx : keyringOnEncrypt c.kr ctx row.id ⟨none, [], [], env.errno⟩ with ⟨r, s⟩
      rw [hx] at this
      cases r <;> simp_all
    unfold DefaultCmm.generate
    split
    · simp
    · split
      · simp
      · rename_i p hp
        obtain ⟨row, hr, hid⟩ := algProps_isSome hp
        rw [← hid]
        split
        · simp
        · split
          · exact hcall row hr _ _
          · split
            · simp
            · split
              · simp
              · exact hcall row hr _ _
  · rintro req ⟨row, hr, hid⟩
    obtain ⟨p, hp⟩ := algProps_of_row hr
    rw [hid] at hp
    unfold DefaultCmm.decrypt DefaultCmm.finish
    split
    · simp
    · have := (hk row hr req.encCtx).2 req.edks ⟨none, [], env.errno⟩
      rw [hid] at this
      rcases hx : keyringOnDecrypt c.kr req.edks req.encCtx req.alg ⟨none, [], env.errno⟩ with ⟨r, s⟩
      rw [hx] at this
      cases r with
      | ub => simp at this
      | fail => simp
      | ok =>
        simp only [hp]
        split
        · simp
        · split
          · split <;> simp
          · split
            · simp
            · split <;> simp

end Verif.Props

namespace Verif.Example
open Verif Verif.Spec

/-- Toy signature keys. -/
def cmmEnv : CmmEnv := ⟨fun _ => .ok (⟨⟨5, none, none⟩, []⟩, [80, 75]), fun _ pub => if pub = [80, 75] then .ok ⟨⟨5, none, none⟩, []⟩ else .error .badCiphertext,
  true, true, .raw 0⟩

/-- A default CMM over the raw AES keyring. -/
def defCmm : DefaultCmm := defaultCmmNew (aesKeyring krEnv aes)

end Verif.Example

namespace Verif.Props
open Verif Verif.Spec Verif.Example

/-- Non-vacuity: encryption materials with the default suite, a signing one, and their decryption. -/
example : ∃ ctx m, defCmm.generate cmmEnv ⟨krCtx, 0, 100, .requireRequire⟩ = (ctx, .ok m) ∧ m.alg = 0x0578 ∧
    ctx.lookup publicKeyName = some [80, 75] ∧ m.edks.length = 1 ∧
    ∃ d, defCmm.decrypt cmmEnv ⟨ctx, m.edks, m.alg⟩ = .ok d ∧ d.dataKey = m.dataKey ∧ d.signctx = m.signctx :=
  ⟨_, _, rfl, by decide +kernel, by decide +kernel, by decide +kernel, _, rfl, by decide +kernel⟩

/-- Non-vacuity: the other default, and a request with the reserved name. -/
example : (∃ ctx m, defCmm.generate cmmEnv ⟨krCtx, 0, 100, .forbidAllow⟩ = (ctx, .ok m) ∧ m.alg = 0x0378) ∧
    defCmm.generate cmmEnv ⟨[(publicKeyName, [1])], 0, 100, .forbidAllow⟩ = ([(publicKeyName, [1])], .err .reservedName) :=
  ⟨⟨_, _, rfl, by decide +kernel⟩, rfl⟩

end Verif.Props
