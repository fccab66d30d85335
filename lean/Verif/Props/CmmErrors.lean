import Verif.Spec.CmmErrors
import Verif.Proof.KeyringErrors
import Verif.Props.DefaultCmm
/-
C81: when the default CMM fails, and with which error.
-/
namespace Verif.Props
open Verif Verif.Spec Verif.Example

/-- The checks decide how a call of a CMM ends. -/
def CEnds {α : Type} (checks : List Check) (r : CRes α) : Prop := ((∃ a, r = .ok a) ∧ NoneFails checks) ∨ ∃ c, r = .err c ∧ FirstFails checks c

theorem CEnds.ok {α : Type} {a : α} : CEnds [] (.ok a) := Or.inl ⟨⟨a, rfl⟩, noneFails_nil⟩

theorem CEnds.check {α : Type} {q : Check} {ps : List Check} {r : CRes α} (h1 : ∀ c, q c → r = .err c) (h2 : (∀ c, ¬ q c) → CEnds ps r) :
    CEnds (q :: ps) r := by
  by_cases hq : ∃ c, q c
  · obtain ⟨c, hc⟩ := hq
    exact Or.inr ⟨c, h1 c hc, firstFails_cons.mpr (Or.inl hc)⟩
  · have hq : ∀ c, ¬ q c := fun c hc => hq ⟨c, hc⟩
    rcases h2 hq with ⟨h, h'⟩ | ⟨c, h, h'⟩
    · exact Or.inl ⟨h, noneFails_cons.mpr ⟨hq, h'⟩⟩
    · exact Or.inr ⟨c, h, firstFails_cons.mpr (Or.inr ⟨hq, h'⟩)⟩

theorem CEnds.cons {α : Type} {p : Prop} {e : Err} {ps : List Check} {r : CRes α} (h1 : p → r = .err e) (h2 : ¬ p → CEnds ps r) :
    CEnds (failsIf p e :: ps) r :=
  .check (fun c h => by rw [h.2]; exact h1 h.1) (fun h => h2 (failsIf_none.mp h))

theorem CEnds.iff {α : Type} {checks : List Check} {r : CRes α} (hf : Functional checks) (h : CEnds checks r) :
    ((∃ a, r = .ok a) ↔ NoneFails checks) ∧ ∀ c, (r = .err c ↔ FirstFails checks c) := by
  rcases h with ⟨⟨a, rfl⟩, h⟩ | ⟨c, rfl, h⟩
  · exact ⟨by simp [h], fun c => by simp [h.not_first]⟩
  · refine ⟨by simp; exact fun h' => h'.not_first h, fun c' => ?_⟩
    simp only [CRes.err.injEq]
    exact ⟨fun e => e ▸ h, fun h' => h.unique hf h'⟩

theorem put_new {m : EncCtx} {k v : Bytes} (h : m.lookup k = none) : EncCtx.put m k v = m ++ [(k, v)] := by
  unfold EncCtx.put EncCtx.remove
  rw [List.filter_eq_self.mpr]
  intro e he
  have : e.1 ≠ k := by
    rintro rfl
    rw [List.lookup_eq_none_iff] at h
    exact absurd (h e he) (by simp)
  simpa using this

/-- A request for encryption materials succeeds if no check fails; otherwise it fails with the error of the first check that fails. -/
theorem C81_generate (env : CmmEnv) (c : DefaultCmm) (req : EncRequest) (row : SuiteRow) (hrow : row ∈ suiteTable)
    (hch : ChosenSuite c.defaultAlg req row.id)
    (hub : ∀ ctx, (keyringOnEncrypt c.kr ctx row.id ⟨none, [], [], env.errno⟩).1 ≠ .ub) :
    ((∃ m, (c.generate env req).2 = .ok m) ↔ NoneFails (generateChecks env c req.encCtx row)) ∧
    ∀ e, ((c.generate env req).2 = .err e ↔ FirstFails (generateChecks env c req.encCtx row) e) := by
  obtain ⟨p, hp⟩ := algProps_of_row hrow
  have hsig := (rowFacts hrow hp).sig
  have hpick := (pickAlg_chosen ..).mpr hch
  have hfind : EncCtx.find req.encCtx ecPublicKeyField = req.encCtx.lookup publicKeyName := rfl
  refine CEnds.iff ?_ ?_
  · unfold generateChecks
    simp only [functional_cons, functional_nil, and_true]
    refine ⟨functional_failsIf, functional_failsIf, ?_, functional_failsIf, ?_⟩
    · rintro e e' ⟨-, h⟩ ⟨-, h'⟩
      rw [h] at h'; exact Except.error.inj h'
    · rintro e e' ⟨x, s, hx, hs, rfl⟩ ⟨x', s', hx', hs', rfl⟩
      have : x = x' := by
        rcases hx with ⟨h0, rfl⟩ | ⟨h0, sc, pub, hk, rfl⟩ <;> rcases hx' with ⟨h0', rfl⟩ | ⟨h0', sc', pub', hk', rfl⟩
        · rfl
        · exact absurd h0 h0'
        · exact absurd h0' h0
        · rw [hk] at hk'; cases hk'; rfl
      subst this
      rw [hs] at hs'; cases hs'; rfl
  · unfold DefaultCmm.generate generateChecks
    rw [hpick, hp, hfind]
    simp only
    refine .cons (fun h => ?_) (fun h => ?_)
    · rw [if_pos (by cases hx : req.encCtx.lookup publicKeyName <;> simp_all)]
    have hno : req.encCtx.lookup publicKeyName = none := Decidable.not_not.mp h
    rw [if_neg (by rw [hno]; simp)]
    refine .cons (fun h => by rw [h]; rfl) (fun h => ?_)
    rw [if_neg (by simpa using h)]
    have hcall : ∀ ctx sc, CtxGiven env req.encCtx row ctx → (∀ ctx', CtxGiven env req.encCtx row ctx' → ctx' = ctx) →
        CEnds [fun e => ∃ ctx' s, CtxGiven env req.encCtx row ctx' ∧ keyringOnEncrypt c.kr ctx' row.id ⟨none, [], [], env.errno⟩ = (.fail, s) ∧ s.errno = e]
          (c.callKeyring env ctx row.id sc) := by
      intro ctx sc hg hu
      refine .check ?_ ?_
      · rintro e ⟨ctx', s, h1, h2, rfl⟩
        rw [hu _ h1] at h2
        unfold DefaultCmm.callKeyring
        rw [h2]
      · intro hn
        unfold DefaultCmm.callKeyring
        cases hk : keyringOnEncrypt c.kr ctx row.id ⟨none, [], [], env.errno⟩ with
        | mk r s =>
          cases r with
          | ub => exact absurd (by rw [hk]) (hub ctx)
          | fail => exact absurd ⟨ctx, s, hg, hk, rfl⟩ (hn s.errno)
          | ok => exact .ok
    by_cases h0 : row.curveBits = 0
    · rw [if_pos (hsig.mpr h0)]
      refine .check (fun e h => absurd h0 h.1) (fun _ => .cons (fun h => absurd h0 h.1) (fun _ => ?_))
      refine hcall _ _ (.inl ⟨h0, rfl⟩) ?_
      rintro ctx' (⟨-, h⟩ | ⟨h, -⟩)
      · exact h
      · exact absurd h0 h
    · rw [if_neg (fun h => h0 (hsig.mp h))]
      refine .check (fun e h => by rw [h.2]) (fun hk => ?_)
      cases hkg : env.keygen row.id with
      | error e => exact absurd ⟨h0, hkg⟩ (hk e)
      | ok r =>
        obtain ⟨sc, pub⟩ := r
        simp only
        refine .cons (fun h => by rw [h.2]; rfl) (fun h => ?_)
        rw [if_neg (by simpa [h0] using h)]
        rw [publicKeyName_eq, put_new hno]
        refine hcall _ _ (.inr ⟨h0, sc, pub, hkg, rfl⟩) ?_
        rintro ctx' (⟨h, -⟩ | ⟨-, sc', pub', h, rfl⟩)
        · exact absurd h h0
        · rw [hkg] at h; cases h; rfl

/-- What the request's context is afterwards: as before, or with the public key, and then the same request is refused from then on. -/
theorem C81_context_after (env : CmmEnv) (c : DefaultCmm) (req : EncRequest) :
    (c.generate env req).1 = req.encCtx ∨
    ∃ alg sc pub, ChosenSuite c.defaultAlg req alg ∧ env.keygen alg = .ok (sc, pub) ∧
      (c.generate env req).1 = req.encCtx ++ [(publicKeyName, pub)] ∧
      ∀ env' c' req', req'.encCtx = (c.generate env req).1 → DefaultCmm.generate env' c' req' = (req'.encCtx, .err .reservedName) := by
  have hfind : EncCtx.find req.encCtx ecPublicKeyField = req.encCtx.lookup publicKeyName := rfl
  unfold DefaultCmm.generate
  rw [hfind]
  by_cases h : (req.encCtx.lookup publicKeyName).isSome = true
  · rw [if_pos h]; exact Or.inl rfl
  rw [if_neg h]
  have hno : req.encCtx.lookup publicKeyName = none := by cases hl : req.encCtx.lookup publicKeyName with
    | none => rfl
    | some x => rw [hl] at h; exact absurd rfl h
  split
  · exact Or.inl rfl
  split
  · exact Or.inl rfl
  split
  · exact Or.inl rfl
  split
  · exact Or.inl rfl
  rename_i sc pub hk
  split
  · exact Or.inl rfl
  right
  refine ⟨_, sc, pub, (pickAlg_chosen ..).mp rfl, hk, by rw [publicKeyName_eq, put_new hno], ?_⟩
  intro env' c' req' hr
  have hf : EncCtx.find req'.encCtx ecPublicKeyField = some pub := by
    rw [hr, publicKeyName_eq, put_new hno]
    show List.lookup publicKeyName (req.encCtx ++ [(publicKeyName, pub)]) = _
    rw [List.lookup_append, hno]
    simp
  rw [if_pos (by rw [hf]; rfl)]

/-- A request for decryption materials of a suite of the table. -/
theorem C81_decrypt (env : CmmEnv) (c : DefaultCmm) (req : DecRequest) (row : SuiteRow) (hrow : row ∈ suiteTable) (hid : row.id = req.alg)
    (hub : (keyringOnDecrypt c.kr req.edks req.encCtx row.id ⟨none, [], env.errno⟩).1 ≠ .ub) :
    ((∃ m, c.decrypt env req = .ok m) ↔ NoneFails (decryptChecks env c req row)) ∧
    ∀ e, (c.decrypt env req = .err e ↔ FirstFails (decryptChecks env c req row) e) := by
  obtain ⟨p, hp⟩ := algProps_of_row hrow
  have hsig := (rowFacts hrow hp).sig
  have hfind : EncCtx.find req.encCtx ecPublicKeyField = req.encCtx.lookup publicKeyName := rfl
  refine CEnds.iff ?_ ?_
  · unfold decryptChecks
    simp only [functional_cons, functional_nil, and_true]
    refine ⟨functional_failsIf, ?_, functional_failsIf, functional_failsIf, ?_⟩
    · rintro e e' ⟨s, h, rfl⟩ ⟨s', h', rfl⟩
      rw [h] at h'; cases h'; rfl
    · rintro e e' ⟨-, pub, h, hv⟩ ⟨-, pub', h', hv'⟩
      rw [h] at h'; cases h'
      rw [hv] at hv'; exact Except.error.inj hv'
  · unfold DefaultCmm.decrypt decryptChecks
    rw [← hid]
    refine .cons (fun h => by rw [h]; rfl) (fun h => ?_)
    rw [if_neg (by simpa using h)]
    cases hk : keyringOnDecrypt c.kr req.edks req.encCtx row.id ⟨none, [], env.errno⟩ with
    | mk r s =>
      rw [hk] at hub
      cases r with
      | ub => exact absurd rfl hub
      | fail =>
        refine .check ?_ (fun hn => absurd ⟨s, rfl, rfl⟩ (hn s.errno))
        rintro e ⟨s', h1, rfl⟩
        cases h1
        rfl
      | ok =>
        refine .check (fun e => ?_) (fun _ => ?_)
        · rintro ⟨s', h1, -⟩; cases h1
        unfold DefaultCmm.finish
        simp only [← hid, hp, hfind]
        refine .cons ?_ (fun hkey => ?_)
        · rintro ⟨s', h1, h2⟩
          cases h1
          rw [h2]
        cases hkk : s.key with
        | none => exact absurd ⟨s, rfl, hkk⟩ hkey
        | some k =>
          simp only
          refine .cons (fun h => ?_) (fun h => ?_)
          · cases hl : req.encCtx.lookup publicKeyName with
            | none =>
              simp only
              rw [if_neg]
              intro h0
              exact h (by simp [hsig.mp h0, hl])
            | some pub =>
              simp only
              rw [if_pos]
              refine Decidable.byContradiction fun h0 => h ?_
              have : row.curveBits ≠ 0 := fun h' => h0 (hsig.mpr h')
              simp [this, hl]
          · have h := Decidable.not_not.mp h
            cases hl : req.encCtx.lookup publicKeyName with
            | none =>
              have h0 : row.curveBits = 0 := by simpa [hl] using h
              simp only
              rw [if_pos (hsig.mpr h0)]
              exact .check (fun e h => absurd h0 h.1) (fun _ => .ok)
            | some pub =>
              have h0 : row.curveBits ≠ 0 := by simpa [hl] using h
              simp only
              rw [if_neg (fun h => h0 (hsig.mp h))]
              refine .check ?_ (fun hv => ?_)
              · rintro e ⟨-, pub', h1, h2⟩
                cases h1
                rw [h2]
              · cases hvs : env.verifyStart row.id pub with
                | error e => exact absurd ⟨h0, pub, rfl, hvs⟩ (hv e)
                | ok sc => exact .ok

/-- Non-vacuity: a request that the keyring cannot serve (no random numbers), after which the context has the public key, so that the
repeated request is refused for the reserved name. -/
example : let c := defaultCmmNew (aesKeyring { krEnv with random := fun _ _ => none, random_len := by intro _ _ _ h; cases h } aes)
    FirstFails (generateChecks cmmEnv c krCtx ⟨0x0578, 2, 256, 512, 384, 32⟩) .cryptoUnknown ∧
    (c.generate cmmEnv ⟨krCtx, 0, 100, .requireRequire⟩).2 = .err .cryptoUnknown ∧
    (c.generate cmmEnv ⟨(c.generate cmmEnv ⟨krCtx, 0, 100, .requireRequire⟩).1, 0, 100, .requireRequire⟩).2 = .err .reservedName := by
  intro c
  have hr : (c.generate cmmEnv ⟨krCtx, 0, 100, .requireRequire⟩).2 = .err .cryptoUnknown := rfl
  refine ⟨?_, hr, rfl⟩
  refine ((C81_generate cmmEnv c ⟨krCtx, 0, 100, .requireRequire⟩ ⟨0x0578, 2, 256, 512, 384, 32⟩ (by decide) ?_ ?_).2 _).mp hr
  · exact .inr (.inr (.inl ⟨rfl, rfl, .inl rfl, rfl⟩))
  · intro ctx; exact (C49_no_undefined_behaviour _ _ _ ⟨0x0578, 2, 256, 512, 384, 32⟩ (by decide)).1 _

/-- Non-vacuity: no data key found; and a suite without signature with the reserved name in the context. -/
example : defCmm.decrypt cmmEnv ⟨krCtx, [], 0x0478⟩ = .err .cannotDecrypt ∧
    FirstFails (decryptChecks cmmEnv defCmm ⟨krCtx, [], 0x0478⟩ ⟨0x0478, 2, 256, 512, 0, 32⟩) .cannotDecrypt := by
  have hr : defCmm.decrypt cmmEnv ⟨krCtx, [], 0x0478⟩ = .err .cannotDecrypt := rfl
  refine ⟨hr, ?_⟩
  refine ((C81_decrypt cmmEnv defCmm ⟨krCtx, [], 0x0478⟩ ⟨0x0478, 2, 256, 512, 0, 32⟩ (by decide) rfl ?_).2 _).mp hr
  intro h; cases h

end Verif.Props
