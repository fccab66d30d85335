import Verif.Spec.LocalRuns
import Verif.Proof.CacheConc
import Verif.Proof.EncCtx
/-
What the steps of the local cache do to entries, and what they answer.
-/
namespace Verif.Proof
open Verif Verif.Spec

/-- The entry is the same except for references, life and expiry. -/
structure SameE (e e' : Entry) : Prop where
  id : e'.cacheId = e.cacheId
  creation : e'.creation = e.creation
  mat : e'.mat = e.mat
  bytes : e'.usageBytes = e.usageBytes
  messages : e'.usageMessages = e.usageMessages
  key : e'.keyMat = e.keyMat

theorem SameE.refl (e : Entry) : SameE e e := ⟨rfl, rfl, rfl, rfl, rfl, rfl⟩

theorem SameE.trans {a b c : Entry} (h1 : SameE a b) (h2 : SameE b c) : SameE a c :=
  ⟨h2.id.trans h1.id, h2.creation.trans h1.creation, h2.mat.trans h1.mat, h2.bytes.trans h1.bytes, h2.messages.trans h1.messages, h2.key.trans h1.key⟩

/-- Every entry was there before. -/
def SameC (c c' : Cache) : Prop := c.next ≤ c'.next ∧ ∀ m e', c'.mem m = some e' → ∃ e, c.mem m = some e ∧ SameE e e'

theorem SameC.refl (c : Cache) : SameC c c := ⟨Nat.le_refl _, fun _ e h => ⟨e, h, .refl e⟩⟩

theorem SameC.kept {c c' : Cache} (h : Kept c c') (hn : c.next ≤ c'.next) : SameC c c' := by
  refine ⟨hn, fun m e' he' => ?_⟩
  obtain ⟨e, k, z, he, rfl, -⟩ := h m e' he'
  exact ⟨e, he, rfl, rfl, rfl, rfl, rfl, rfl⟩

theorem SameC.decref {c c' : Cache} {n : Nat} (h : decref c n = .ok c') : SameC c c' := by
  unfold Verif.decref at h
  cases hm : c.mem n with
  | none => simp [Cache.entry, hm] at h
  | some e =>
    rw [entry_some hm] at h
    simp only at h
    split at h
    · cases h
    · split at h
      · split at h
        · cases h; exact .kept .free (Nat.le_refl _)
        · cases h
      · cases h; exact .kept (.setRef hm) (Nat.le_refl _)

theorem SameC.trans {a b c : Cache} (h1 : SameC a b) (h2 : SameC b c) : SameC a c := by
  refine ⟨Nat.le_trans h1.1 h2.1, fun m e he => ?_⟩
  obtain ⟨f, hf, h3⟩ := h2.2 m e he
  obtain ⟨g, hg, h4⟩ := h1.2 m f hf
  exact ⟨g, hg, h4.trans h3⟩

theorem SameC.invalidate {c c' : Cache} {n : Nat} {b : Bool} (h : invalidate c n b = .ok c') : SameC c c' := by
  unfold Verif.invalidate at h
  cases hm : c.mem n with
  | none => simp [Cache.entry, hm] at h
  | some e =>
    rw [entry_some hm] at h
    simp only at h
    split at h
    · cases h; exact .refl c
    · split at h
      · cases h
      · have h2 := SameC.decref h
        refine SameC.trans ?_ h2
        refine ⟨Nat.le_refl _, fun m e' he' => ?_⟩
        simp only [Cache.set] at he'
        split at he'
        · next hmn => cases he'; subst hmn; exact ⟨e, hm, rfl, rfl, rfl, rfl, rfl, rfl⟩
        · exact ⟨e', he', .refl e'⟩

theorem SameC.hint {c c' : Cache} {n t : Nat} {push : Bool} (h : cacheHint n t push c = .ok c') : SameC c c' := by
  unfold cacheHint at h
  cases hm : c.mem n with
  | none => simp [Cache.entry, hm] at h
  | some e =>
    rw [entry_some hm] at h
    simp only at h
    split at h
    · cases h; exact .refl c
    · split at h <;>
      · cases h
        refine ⟨Nat.le_refl _, fun m e' he' => ?_⟩
        simp only [Cache.set] at he'
        split at he'
        · next hmn => cases he'; subst hmn; exact ⟨e, hm, rfl, rfl, rfl, rfl, rfl, rfl⟩
        · exact ⟨e', he', .refl e'⟩

/-- What the first step of a call does. -/
inductive Start (c : Cache) : CacheOp → Cache → After → Prop where
  | findNone {clk id c'} : SameC c c' → Start c (.find clk id) c' (.ret (.handle none))
  | find {clk id c' n e} : SameC c c' → c'.mem n = some e → e.cacheId = id → Start c (.find clk id) c' (.ret (.handle (some n)))
  | putEncNone {env id m bytes messages ctx c'} : SameC c c' → Start c (.putEnc env id m bytes messages ctx) c' (.ret (.handle none))
  | putEnc {env id m bytes messages ctx c' now k} : c.mem c.next = none → c.next < c'.next → env.clkNew = some now → storedKey env m.signctx = some k →
      c'.mem c.next = some ⟨2, id, noExpiry, now, .enc { m with signctx := none } ctx, k, messages, bytes, false⟩ →
      (∀ j e', j ≠ c.next → c'.mem j = some e' → ∃ e, c.mem j = some e ∧ SameE e e') →
      Start c (.putEnc env id m bytes messages ctx) c' (.ret (.handle (some c.next)))
  | putDecNone {env id m c'} : SameC c c' → Start c (.putDec env id m) c' (.ret (.handle none))
  | putDec {env id m c' now k} : c.mem c.next = none → c.next < c'.next → env.clkNew = some now → storedKey env m.signctx = some k →
      c'.mem c.next = some ⟨2, id, noExpiry, now, .dec { m with signctx := none }, k, 0, 0, false⟩ →
      (∀ j e', j ≠ c.next → c'.mem j = some e' → ∃ e, c.mem j = some e ∧ SameE e e') →
      Start c (.putDec env id m) c' (.ret (.handle (some c.next)))
  | useFail {n bytes messages e} : c.mem n = some e → Start c (.use n bytes messages) c (.ret (.usage (.error .badState)))
  | use {n bytes messages e} : c.mem n = some e → Start c (.use n bytes messages) c (.wait (.addBytes n bytes messages))
  | getEncFail {env n ctx ctx' x e} : c.mem n = some e →
      (ctx' = ctx ∨ env.cloneFails = some ctx' ∨ ∃ m ectx, e.mat = .enc m ectx ∧ ctx' = encCtxClone ctx ectx) → Start c (.getEnc env n ctx) c (.ret (.encMaterials ctx' (.error x)))
  | getEnc {env n ctx e m ectx sc} : c.mem n = some e → e.mat = .enc m ectx → startSig env m.alg e.keyMat = .ok sc →
      Start c (.getEnc env n ctx) c (.ret (.encMaterials (encCtxClone ctx ectx) (.ok { m with signctx := sc })))
  | getDecFail {env n x e} : c.mem n = some e → Start c (.getDec env n) c (.ret (.decMaterials (.error x)))
  | getDec {env n e m sc} : c.mem n = some e → e.mat = .dec m → startSig env m.alg e.keyMat = .ok sc → Start c (.getDec env n) c (.ret (.decMaterials (.ok { m with signctx := sc })))
  | created {n e} : c.mem n = some e → Start c (.created n) c (.ret (.time e.creation))
  | hintFast {n t push e} : c.mem n = some e → Start c (.hint n t push) c (.ret .done)
  | hint {n t push e} : c.mem n = some e → Start c (.hint n t push) c (.wait (.hintLock n t push))
  | relLock {n e} : c.mem n = some e → Start c (.release n true) c (.wait (.relLock n))
  | relPlain {n inv e} : c.mem n = some e → Start c (.release n inv) c (.wait (.relPlain n))
  | clear {c'} : SameC c c' → Start c .clear c' (.ret .done)
  | count {k} : Start c .count c (.ret (.number k))

theorem start_spec {held : List Nat} {c : Cache} (h : COk held c) {op : CacheOp} (hop : ∀ n, op.on = some n → n ∈ held) {c' : Cache} {a : After}
    (hs : startCall op c = .ok (c', a)) : Start c op c' a := by
  have live : ∀ n, op.on = some n → ∃ e, c.mem n = some e := fun n hn => h.inv.heldLive n (hop n hn)
  cases op with
  | find clk id =>
    obtain ⟨c1, r, kept, h1, -, h3, -, -, -, h7, -, h9⟩ := cacheFind_spec h clk id
    simp only [startCall, cacheCall, h1, Except.map] at hs
    cases hs
    cases r with
    | none => exact .findNone (.kept h3 (Nat.le_of_eq h7.symm))
    | some n =>
      obtain ⟨e, he, hid, -⟩ := h9 n rfl
      exact .find (.kept h3 (Nat.le_of_eq h7.symm)) he hid
  | putEnc env id m bytes messages ctx =>
    obtain ⟨c1, r, h1, h2, h3, -, h5⟩ := cachePut_spec h env id (.enc { m with signctx := none } ctx) (storedKey env m.signctx) bytes messages
    simp only [startCall, cacheCall, cachePutEnc, h1, Except.map] at hs
    cases hs
    rcases h5 with ⟨rfl, -, h7, -⟩ | ⟨rfl, -, h7, h8, -, now, k, h9, hk, h10⟩
    · exact .putEncNone (.kept h7 h3)
    · refine .putEnc h7 (by omega) h9 hk h10 (fun j e' hj he' => ?_)
      obtain ⟨e, k, z, he, rfl, -⟩ := h2 j e' hj he'
      exact ⟨e, he, rfl, rfl, rfl, rfl, rfl, rfl⟩
  | putDec env id m =>
    obtain ⟨c1, r, h1, h2, h3, -, h5⟩ := cachePut_spec h env id (.dec { m with signctx := none }) (storedKey env m.signctx) 0 0
    simp only [startCall, cacheCall, cachePutDec, h1, Except.map] at hs
    cases hs
    rcases h5 with ⟨rfl, -, h7, -⟩ | ⟨rfl, -, h7, h8, -, now, k, h9, hk, h10⟩
    · exact .putDecNone (.kept h7 h3)
    · refine .putDec h7 (by omega) h9 hk h10 (fun j e' hj he' => ?_)
      obtain ⟨e, k, z, he, rfl, -⟩ := h2 j e' hj he'
      exact ⟨e, he, rfl, rfl, rfl, rfl, rfl, rfl⟩
  | use n bytes messages =>
    obtain ⟨e, hm⟩ := live n rfl
    simp only [startCall, entry_some hm] at hs
    split at hs <;> cases hs
    · exact .useFail hm
    · exact .use hm
  | getEnc env n ctx =>
    obtain ⟨e, hm⟩ := live n rfl
    simp only [startCall, cacheCall, cacheGetEnc, entry_some hm] at hs
    cases hmat : e.mat with
    | dec m => rw [hmat] at hs; simp only [Except.map] at hs; cases hs; exact .getEncFail hm (.inl rfl)
    | enc m ectx =>
      rw [hmat] at hs
      simp only at hs
      split at hs
      · next hx =>
        split at hx
        · simp [Except.map] at hx
        · split at hx
          · simp [Except.map] at hx
          · split at hx <;> simp [Except.map] at hx
      · next hx =>
        cases hs
        split at hx
        · simp only [Except.map] at hx; cases hx; exact .getEncFail hm (.inl rfl)
        · split at hx
          · next hcl => simp only [Except.map] at hx; cases hx; exact .getEncFail hm (.inr (.inl hcl))
          · split at hx
            · simp only [Except.map] at hx; cases hx; exact .getEncFail hm (.inr (.inr ⟨m, ectx, hmat, rfl⟩))
            · next hsc => simp only [Except.map] at hx; cases hx; exact .getEnc hm hmat hsc
  | getDec env n =>
    obtain ⟨e, hm⟩ := live n rfl
    simp only [startCall, cacheCall, cacheGetDec, entry_some hm] at hs
    cases hmat : e.mat with
    | enc m ectx => rw [hmat] at hs; simp only [Except.map] at hs; cases hs; exact .getDecFail hm
    | dec m =>
      rw [hmat] at hs
      simp only at hs
      split at hs
      · next hx =>
        split at hx
        · simp [Except.map] at hx
        · split at hx <;> simp [Except.map] at hx
      · next hx =>
        cases hs
        split at hx
        · simp only [Except.map] at hx; cases hx; exact .getDecFail hm
        · split at hx
          · simp only [Except.map] at hx; cases hx; exact .getDecFail hm
          · next hsc => simp only [Except.map] at hx; cases hx; exact .getDec hm hmat hsc
  | created n =>
    obtain ⟨e, hm⟩ := live n rfl
    simp only [startCall, cacheCall, cacheCreation, entry_some hm, Except.map] at hs
    cases hs
    exact .created hm
  | hint n t push =>
    obtain ⟨e, hm⟩ := live n rfl
    simp only [startCall, entry_some hm] at hs
    split at hs <;> cases hs
    · exact .hintFast hm
    · exact .hint hm
  | release n inv =>
    obtain ⟨e, hm⟩ := live n rfl
    simp only [startCall, entry_some hm] at hs
    split at hs
    · next hi => cases hs; obtain ⟨rfl, -⟩ := hi; exact .relLock hm
    · cases hs; exact .relPlain hm
  | clear =>
    obtain ⟨c1, h1, -, -, h4, h5, -⟩ := cacheClear_spec h
    simp only [startCall, cacheCall, h1, Except.map] at hs
    cases hs
    exact .clear (.kept h4 (Nat.le_of_eq h5.symm))
  | count =>
    simp only [startCall, cacheCall] at hs
    cases hs
    exact .count

/-- What the other steps do. -/
inductive Resume (c : Cache) : Pending → Cache → After → Prop where
  | addBytes {n bytes messages e} : c.mem n = some e →
      Resume c (.addBytes n bytes messages) (c.set n (some { e with usageBytes := u64 (e.usageBytes + bytes) }))
        (.wait (.addMessages n (u64 (e.usageBytes + bytes)) messages))
  | addMessages {n sum messages e} : c.mem n = some e →
      Resume c (.addMessages n sum messages) (c.set n (some { e with usageMessages := u64 (e.usageMessages + messages) }))
        (.ret (.usage (.ok (sum, u64 (e.usageMessages + messages)))))
  | hint {n t push c'} : SameC c c' → Resume c (.hintLock n t push) c' (.ret .done)
  | relPlain {n c'} : SameC c c' → Resume c (.relPlain n) c' (.ret .done)
  | relLock {n c'} : SameC c c' → Resume c (.relLock n) c' (.ret .done)
  | relLockWait {n c'} : SameC c c' → Resume c (.relLock n) c' (.wait (.relHeld n))
  | relHeld {n c'} : SameC c c' → Resume c (.relHeld n) c' (.ret .done)

theorem resume_spec {c c' : Cache} {p : Pending} {a : After} (hp : p ≠ .idle) (hs : resumeCall p c = .ok (c', a)) : Resume c p c' a := by
  cases p with
  | idle => exact absurd rfl hp
  | addBytes n bytes messages =>
    simp only [resumeCall] at hs
    cases hm : c.mem n with
    | none => simp [Cache.entry, hm] at hs
    | some e => rw [entry_some hm] at hs; cases hs; exact .addBytes hm
  | addMessages n sum messages =>
    simp only [resumeCall] at hs
    cases hm : c.mem n with
    | none => simp [Cache.entry, hm] at hs
    | some e => rw [entry_some hm] at hs; cases hs; exact .addMessages hm
  | hintLock n t push =>
    simp only [resumeCall] at hs
    split at hs
    · cases hs
    · next h => cases hs; exact .hint (.hint h)
  | relPlain n =>
    simp only [resumeCall] at hs
    split at hs
    · cases hs
    · next h => cases hs; exact .relPlain (.decref h)
  | relLock n =>
    simp only [resumeCall] at hs
    split at hs
    · cases hs
    · split at hs
      · cases hs
      · next h =>
        split at hs <;> cases hs
        · exact .relLock (.decref h)
        · exact .relLockWait (.decref h)
  | relHeld n =>
    simp only [resumeCall] at hs
    split at hs
    · cases hs
    · split at hs
      · cases hs; exact .relHeld (.refl c)
      · split at hs
        · cases hs
        · next h => cases hs; exact .relHeld (.invalidate h)

end Verif.Proof
