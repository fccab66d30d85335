import Verif.Proof.LocalCacheOps
import Verif.Proof.EncCtx
import Verif.Spec.CachingCmm
/-
What one call of a caching CMM does to the cache.
-/
namespace Verif
open Spec (WithinTtl)

/-! ### relations between entries -/

/-- The parts of an entry that never change. -/
def SameCore (e e' : Entry) : Prop :=
  e'.cacheId = e.cacheId ∧ e'.creation = e.creation ∧ e'.mat = e.mat ∧ e'.keyMat = e.keyMat

/-- The usage counters are equal. -/
def SameUse (e e' : Entry) : Prop := e'.usageBytes = e.usageBytes ∧ e'.usageMessages = e.usageMessages

/-- Every entry of `c'` comes from `c`, with the same usage counters except possibly for entry `n`. -/
def From (x : Option Nat) (c c' : Cache) : Prop :=
  ∀ n e', c'.mem n = some e' → ∃ e, c.mem n = some e ∧ SameCore e e' ∧ (x ≠ some n → SameUse e e')

theorem From.refl (x : Option Nat) (c : Cache) : From x c c := fun _ e h => ⟨e, h, ⟨rfl, rfl, rfl, rfl⟩, fun _ => ⟨rfl, rfl⟩⟩

theorem From.trans {x : Option Nat} {a b c : Cache} (h1 : From x a b) (h2 : From x b c) : From x a c := by
  intro n e' h
  obtain ⟨e, he, hc, hu⟩ := h2 n e' h
  obtain ⟨f, hf, hc', hu'⟩ := h1 n e he
  refine ⟨f, hf, ⟨hc.1.trans hc'.1, hc.2.1.trans hc'.2.1, hc.2.2.1.trans hc'.2.2.1, hc.2.2.2.trans hc'.2.2.2⟩, fun hx => ?_⟩
  exact ⟨(hu hx).1.trans (hu' hx).1, (hu hx).2.trans (hu' hx).2⟩

theorem From.weaken {x : Option Nat} {c c' : Cache} (h : From none c c') : From x c c' := by
  intro n e' he'
  obtain ⟨e, he, hc, hu⟩ := h n e' he'
  exact ⟨e, he, hc, fun _ => hu (by simp)⟩

theorem Kept.from {c c' : Cache} (h : Kept c c') : From none c c' := by
  intro n e' he'
  obtain ⟨e, k, z, he, rfl, -⟩ := h n e' he'
  exact ⟨e, he, ⟨rfl, rfl, rfl, rfl⟩, fun _ => ⟨rfl, rfl⟩⟩

/-- If the exceptional entry is gone, nothing exceptional happened. -/
theorem From.gone {n : Nat} {c c' : Cache} (h : From (some n) c c') (hn : c'.mem n = none) : From none c c' := by
  intro m e' he'
  obtain ⟨e, he, hc, hu⟩ := h m e' he'
  have hmn : m ≠ n := by rintro rfl; rw [hn] at he'; cases he'
  exact ⟨e, he, hc, fun _ => hu (fun hh => hmn (Option.some.inj hh).symm)⟩

/-! ### pieces of the calls -/

theorem checkTtl_ok {held : List Nat} {c : Cache} (h : COk held c) {n : Nat} (hn : n ∈ held) (cmm : CachingCmm) (clk : Option Nat)
    (push : Bool) :
    ∃ c' b, checkTtl cmm clk push n c = .ok (c', b) ∧ COk held c' ∧ From none c c' ∧
      (∃ e e', c.mem n = some e ∧ c'.mem n = some e' ∧ e'.zombie = e.zombie ∧ (b = true → WithinTtl cmm.ttl clk e.creation)) := by
  obtain ⟨e, hm⟩ := h.inv.heldLive n hn
  unfold checkTtl
  by_cases ht : cmm.ttl = 2 ^ 64 - 1
  · rw [if_pos ht]
    exact ⟨c, true, rfl, h, From.refl _ c, e, e, hm, hm, rfl, fun _ => .inr (.inr ht)⟩
  · rw [if_neg ht]
    unfold cacheCreation
    rw [entry_some hm]
    simp only
    by_cases ho : u64 (e.creation + cmm.ttl) < e.creation
    · rw [if_pos ho]
      refine ⟨c, true, rfl, h, From.refl _ c, e, e, hm, hm, rfl, fun _ => .inr (.inl ?_)⟩
      apply Classical.byContradiction
      intro hlt
      unfold u64 at ho
      rw [Nat.mod_eq_of_lt (by omega)] at ho
      omega
    · rw [if_neg ho]
      cases clk with
      | none => exact ⟨c, false, rfl, h, From.refl _ c, e, e, hm, hm, rfl, by simp⟩
      | some now =>
        simp only
        by_cases hnow : now ≥ u64 (e.creation + cmm.ttl)
        · rw [if_pos hnow]
          exact ⟨c, false, rfl, h, From.refl _ c, e, e, hm, hm, rfl, by simp⟩
        · rw [if_neg hnow]
          obtain ⟨c', h1, h2, -, -, -, h3⟩ := cacheHint_spec h hn (u64 (e.creation + cmm.ttl)) push
          rw [h1]
          obtain ⟨e', hm'⟩ := h2.inv.heldLive n hn
          refine ⟨c', true, rfl, h2, ?_, e, e', hm, hm', ?_, fun _ => ?_⟩
          · intro m f' hf'
            obtain ⟨f, x, hf, rfl⟩ := h3 m f' hf'
            exact ⟨f, hf, ⟨rfl, rfl, rfl, rfl⟩, fun _ => ⟨rfl, rfl⟩⟩
          · obtain ⟨f, x, hf, rfl⟩ := h3 n e' hm'
            rw [hm] at hf; cases hf; rfl
          · by_cases hov : 2 ^ 64 ≤ e.creation + cmm.ttl
            · exact .inr (.inl hov)
            · refine .inl ⟨now, rfl, ?_⟩
              unfold u64 at hnow
              rw [Nat.mod_eq_of_lt (by omega)] at hnow
              omega

theorem setTtlOnMiss_ok {held : List Nat} {c : Cache} (h : COk held c) {n : Nat} (hn : n ∈ held) (cmm : CachingCmm) (push : Bool) :
    ∃ c', setTtlOnMiss cmm push n c = .ok c' ∧ COk held c' ∧ From none c c' := by
  obtain ⟨e, hm⟩ := h.inv.heldLive n hn
  unfold setTtlOnMiss
  by_cases ht : cmm.ttl = 2 ^ 64 - 1
  · rw [if_pos ht]; exact ⟨c, rfl, h, From.refl _ c⟩
  · rw [if_neg ht]
    unfold cacheCreation
    rw [entry_some hm]
    simp only
    by_cases ho : u64 (e.creation + cmm.ttl) > e.creation
    · rw [if_pos ho]
      obtain ⟨c', h1, h2, -, -, -, h3⟩ := cacheHint_spec h hn (u64 (e.creation + cmm.ttl)) push
      refine ⟨c', h1, h2, ?_⟩
      intro m f' hf'
      obtain ⟨f, x, hf, rfl⟩ := h3 m f' hf'
      exact ⟨f, hf, ⟨rfl, rfl, rfl, rfl⟩, fun _ => ⟨rfl, rfl⟩⟩
    · rw [if_neg ho]; exact ⟨c, rfl, h, From.refl _ c⟩

/-- Releasing the only handle with invalidation frees the entry. -/
theorem release_true_ok {c : Cache} {n : Nat} (h : COk [n] c) :
    ∃ c', cacheRelease n true c = .ok c' ∧ COk [] c' ∧ Kept c c' ∧ c'.mem n = none := by
  obtain ⟨c', e, hm, hr, hi, -, hc, -, ht, hoth, hme, -⟩ := cacheRelease_ok h.inv (n := n) (by simp) true
  obtain ⟨c2, hr2, hok, hk, -⟩ := cacheRelease_spec h (n := n) (by simp) true
  rw [hr] at hr2; cases hr2
  have he : [n].erase n = [] := by simp
  rw [he] at hok
  refine ⟨c', hr, hok, hk, ?_⟩
  cases hm' : c'.mem n with
  | none => rfl
  | some e' =>
    obtain ⟨k, z, rfl, -, hz⟩ := hme e' hm'
    have h1 := hok.inv.rc n _ hm'
    have h2 := hok.inv.pos n _ hm'
    rw [hz rfl] at h1
    simp only [List.count_nil, if_true] at h1 h2
    omega

theorem release_ok {c : Cache} {n : Nat} (h : COk [n] c) (inv : Bool) :
    ∃ c', cacheRelease n inv c = .ok c' ∧ COk [] c' ∧ Kept c c' := by
  obtain ⟨c', hr, hok, hk, -⟩ := cacheRelease_spec h (n := n) (by simp) inv
  have he : [n].erase n = [] := by simp
  rw [he] at hok
  exact ⟨c', hr, hok, hk⟩

theorem dropEntry_ok {c : Cache} {n : Nat} (h : COk [n] c) (ctx : EncCtx) :
    ∃ c', dropEntry n ctx c = .ok (c', ctx, none) ∧ COk [] c' ∧ Kept c c' ∧ c'.mem n = none := by
  obtain ⟨c', h1, h2, h3, h4⟩ := release_true_ok h
  refine ⟨c', ?_, h2, h3, h4⟩
  unfold dropEntry
  rw [h1]

/-- What it means that a lookup gave materials. -/
structure Hit (cmm : CachingCmm) (env : GenEnv) (id : Bytes) (req : EncRequest) (c c' : Cache) (ctx' : EncCtx) (m : EncMaterials) (n : Nat)
    (e : Entry) (m0 : EncMaterials) (ectx : EncCtx) : Prop where
  mem : c.mem n = some e
  id : e.cacheId = id
  mat : e.mat = .enc m0 ectx
  ctx : ctx' = encCtxClone req.encCtx ectx
  sig : ∃ sc, startSig env.get m0.alg e.keyMat = .ok sc ∧ m = { m0 with signctx := sc }
  ttl : WithinTtl cmm.ttl env.clkTtl e.creation
  bytes : u64 (e.usageBytes + req.plaintextSize) ≤ cmm.limitBytes
  messages : u64 (e.usageMessages + 1) ≤ cmm.limitMessages
  rest : From (some n) c c'
  used : ∀ e', c'.mem n = some e' →
    e'.usageBytes = u64 (e.usageBytes + req.plaintextSize) ∧ e'.usageMessages = u64 (e.usageMessages + 1)

/-- The context with which the upstream CMM is called after a miss: that of the request; or, after a failed attempt to use an entry, what
a failing copy left or a copy of the context of the entry. -/
def MissCtx (env : GenEnv) (req : EncRequest) (c : Cache) (ctx : EncCtx) : Prop :=
  ctx = req.encCtx ∨ env.get.cloneFails = some ctx ∨
    ∃ n e m ectx, c.mem n = some e ∧ e.mat = .enc m ectx ∧ ctx = encCtxClone req.encCtx ectx

theorem genTry_full {c : Cache} (h : COk [] c) (cmm : CachingCmm) (env : GenEnv) (id : Bytes) (req : EncRequest) :
    ∃ c' ctx' r, genTry cmm env id req c = .ok (c', ctx', r) ∧ COk [] c' ∧
      (r = none → From none c c' ∧ MissCtx env req c ctx') ∧
      (∀ m, r = some m → ∃ n e m0 ectx, Hit cmm env id req c c' ctx' m n e m0 ectx) := by
  unfold genTry
  obtain ⟨c1, r1, kept, hf, hok1, hk1, -, -, -, -, -, hfound⟩ := cacheFind_spec h env.clkFind id
  rw [hf]
  cases r1 with
  | none => exact ⟨c1, req.encCtx, none, rfl, hok1, fun _ => ⟨hk1.from, .inl rfl⟩, by simp⟩
  | some n =>
    simp only at hok1 ⊢
    obtain ⟨e1, hm1, hid1, hz1⟩ := hfound n rfl
    rw [entry_some hm1]
    simp only
    obtain ⟨e, he, hcore, huse⟩ := hk1.from n e1 hm1
    cases henc : e1.isEncrypt with
    | false =>
      simp only [Bool.not_false, if_true]
      obtain ⟨c', h1, h2, h3, -⟩ := dropEntry_ok hok1 req.encCtx
      exact ⟨c', req.encCtx, none, h1, h2, fun _ => ⟨(hk1.trans h3).from, .inl rfl⟩, by simp⟩
    | true =>
      simp only [Bool.not_true, Bool.false_eq_true, if_false]
      obtain ⟨c2, b, ht, hok2, hf2, e1', e2, hm1', hm2, hz2, httl⟩ := checkTtl_ok hok1 (n := n) (by simp) cmm env.clkTtl env.pushHit
      rw [hm1] at hm1'; cases hm1'
      rw [ht]
      cases b with
      | false =>
        simp only
        obtain ⟨c', h1, h2, h3, -⟩ := dropEntry_ok hok2 req.encCtx
        exact ⟨c', req.encCtx, none, h1, h2, fun _ => ⟨(hk1.from.trans hf2).trans h3.from, .inl rfl⟩, by simp⟩
      | true =>
        simp only
        obtain ⟨e2', he2', hcore2, huse2⟩ := hf2 n e2 hm2
        rw [hm1] at he2'; cases he2'
        obtain ⟨c3, r3, e2'', hm2', hu, hok3, -, -, -, hoth3, hcase3⟩ := cacheUpdateUsage_spec hok2 (n := n) (by simp) req.plaintextSize 1
        rw [hm2] at hm2'; cases hm2'
        rw [hu]
        have henc2 : e2.isEncrypt = true := by
          unfold Entry.isEncrypt at henc ⊢
          rw [hcore2.2.2.1]; exact henc
        have hzf : e2.zombie = false := by rw [hz2]; exact hz1
        rw [if_neg (by rw [hzf, henc2]; simp)] at hcase3
        obtain ⟨rfl, hm3⟩ := hcase3
        simp only
        have hf3 : From (some n) c2 c3 := by
          intro m f' hf'
          by_cases hmn : m = n
          · subst hmn
            rw [hm3] at hf'; cases hf'
            exact ⟨e2, hm2, ⟨rfl, rfl, rfl, rfl⟩, fun hh => absurd rfl hh⟩
          · rw [hoth3 m hmn] at hf'
            exact ⟨f', hf', ⟨rfl, rfl, rfl, rfl⟩, fun _ => ⟨rfl, rfl⟩⟩
        have hf13 : From (some n) c c3 := (hk1.from.trans hf2).weaken.trans hf3
        have hdrop : ∀ ctx, ∃ c', dropEntry n ctx c3 = .ok (c', ctx, none) ∧ COk [] c' ∧ From none c c' := by
          intro ctx
          obtain ⟨c', h1, h2, h3, h4⟩ := dropEntry_ok hok3 ctx
          exact ⟨c', h1, h2, (hf13.trans h3.from.weaken).gone h4⟩
        unfold genUse
        by_cases hlim : u64 (e2.usageBytes + req.plaintextSize) > cmm.limitBytes ∨ u64 (e2.usageMessages + 1) > cmm.limitMessages
        · rw [if_pos hlim]
          obtain ⟨c', h1, h2, h3⟩ := hdrop req.encCtx
          exact ⟨c', _, none, h1, h2, fun _ => ⟨h3, .inl rfl⟩, by simp⟩
        · rw [if_neg hlim]
          unfold cacheGetEnc
          rw [entry_some hm3]
          simp only
          have hub : e2.usageBytes = e.usageBytes := by
            rw [(huse2 (by simp)).1, (huse (by simp)).1]
          have hum : e2.usageMessages = e.usageMessages := by
            rw [(huse2 (by simp)).2, (huse (by simp)).2]
          cases hmat : e2.mat with
          | dec _ => unfold Entry.isEncrypt at henc2; rw [hmat] at henc2; cases henc2
          | enc m0 ectx =>
            simp only
            cases hcopy : env.get.copy with
            | false =>
              simp only [Bool.not_false, if_true]
              obtain ⟨c', h1, h2, h3⟩ := hdrop req.encCtx
              exact ⟨c', _, none, h1, h2, fun _ => ⟨h3, .inl rfl⟩, by simp⟩
            | true =>
              simp only [Bool.not_true, Bool.false_eq_true, if_false]
              cases hcl : env.get.cloneFails with
              | some x =>
                simp only
                obtain ⟨c', h1, h2, h3⟩ := hdrop x
                exact ⟨c', _, none, h1, h2, fun _ => ⟨h3, .inr (.inl hcl)⟩, by simp⟩
              | none =>
                simp only
                cases hss : startSig env.get m0.alg e2.keyMat with
                | error err =>
                  simp only
                  obtain ⟨c', h1, h2, h3⟩ := hdrop (encCtxClone req.encCtx ectx)
                  exact ⟨c', _, none, h1, h2, fun _ => ⟨h3, .inr (.inr ⟨n, e, m0, ectx, he, by rw [← hcore.2.2.1, ← hcore2.2.2.1]; exact hmat, rfl⟩)⟩, by simp⟩
                | ok sc =>
                  simp only
                  obtain ⟨c', h1, h2, h3⟩ := release_ok hok3 (decide (u64 (e2.usageMessages + 1) = cmm.limitMessages))
                  rw [h1]
                  refine ⟨c', _, some _, rfl, h2, by simp, ?_⟩
                  intro m hm
                  cases hm
                  have hkm : e2.keyMat = e.keyMat := by rw [hcore2.2.2.2, hcore.2.2.2]
                  refine ⟨n, e, m0, ectx, ⟨he, ?_, ?_, rfl, ⟨sc, by rw [← hkm]; exact hss, rfl⟩, ?_, ?_, ?_, hf13.trans h3.from.weaken, ?_⟩⟩
                  · rw [← hcore.1]; exact hid1
                  · rw [← hcore.2.2.1, ← hcore2.2.2.1]; exact hmat
                  · rw [← hcore.2.1]; exact httl rfl
                  · rw [← hub]; omega
                  · rw [← hum]; omega
                  · intro e' he'
                    obtain ⟨f, hf', -, huf⟩ := h3.from n e' he'
                    rw [hm3] at hf'; cases hf'
                    have := huf (by simp)
                    rw [this.1, this.2, ← hub, ← hum]
                    exact ⟨rfl, rfl⟩

theorem genTry_ok {c : Cache} (h : COk [] c) (cmm : CachingCmm) (env : GenEnv) (id : Bytes) (req : EncRequest) :
    ∃ c' ctx' r, genTry cmm env id req c = .ok (c', ctx', r) ∧ COk [] c' ∧
      (r = none → From none c c') ∧
      (∀ m, r = some m → ∃ n e m0 ectx, Hit cmm env id req c c' ctx' m n e m0 ectx) := by
  obtain ⟨c', ctx', r, h1, h2, h3, h4⟩ := genTry_full h cmm env id req
  exact ⟨c', ctx', r, h1, h2, fun hr => (h3 hr).1, h4⟩

/-- Storing materials: the entries afterwards are those of before, and possibly the new one. -/
theorem genStore_ok {c : Cache} (h : COk [] c) (cmm : CachingCmm) (env : GenEnv) (id : Bytes) (size : Nat) (ctx : EncCtx) (m : EncMaterials)
    (hk : ∃ p, algProps m.alg = some p) :
    ∃ c', genStore cmm env id size ctx m c = .ok c' ∧ COk [] c' ∧
      (∀ n e', c'.mem n = some e' → (∃ e, c.mem n = some e ∧ SameCore e e' ∧ SameUse e e') ∨
        (n = c.next ∧ c.mem n = none ∧ e'.mat = .enc { m with signctx := none } ctx ∧ e'.cacheId = id ∧ env.put.clkNew = some e'.creation ∧
          storedKey env.put m.signctx = some e'.keyMat ∧ e'.usageBytes = size ∧ e'.usageMessages = 1)) := by
  obtain ⟨p, hp⟩ := hk
  unfold genStore canCache
  rw [hp]
  simp only
  cases hmd : p.mdName.isSome with
  | false => exact ⟨c, rfl, h, fun n e' he' => .inl ⟨e', he', ⟨rfl, rfl, rfl, rfl⟩, rfl, rfl⟩⟩
  | true =>
    simp only
    unfold cachePutEnc
    obtain ⟨c1, r1, hr1, hkb, -, -, hcase⟩ := cachePut_spec h env.put id (.enc { m with signctx := none } ctx) (storedKey env.put m.signctx) size 1
    rw [hr1]
    rcases hcase with ⟨rfl, hok, hkept, -⟩ | ⟨rfl, hok, hfree, -, -, now, k, hnow, hkey, hmem⟩
    · simp only
      refine ⟨c1, rfl, hok, fun n e' he' => .inl ?_⟩
      obtain ⟨e, he, hc, hu⟩ := hkept.from n e' he'
      exact ⟨e, he, hc, hu (by simp)⟩
    · simp only
      obtain ⟨c2, h2, hok2, hf2⟩ := setTtlOnMiss_ok hok (n := c.next) (by simp) cmm env.pushMiss
      rw [h2]
      simp only
      obtain ⟨c3, h3, hok3, hk3⟩ := release_ok hok2 false
      refine ⟨c3, h3, hok3, fun n e' he' => ?_⟩
      obtain ⟨e1, he1, hc, hu⟩ := (hf2.trans hk3.from) n e' he'
      by_cases hn : n = c.next
      · subst hn
        rw [hmem] at he1; cases he1
        refine .inr ⟨rfl, hfree, hc.2.2.1, hc.1, ?_, ?_, (hu (by simp)).1, (hu (by simp)).2⟩
        · rw [hc.2.1]; exact hnow
        · rw [hc.2.2.2]; exact hkey
      · obtain ⟨e, k', z', he, rfl, -⟩ := hkb n e1 hn he1
        exact .inl ⟨e, he, hc, hu (by simp)⟩

/-! ### decryption -/

theorem dropDec_ok {c : Cache} {n : Nat} (h : COk [n] c) : ∃ c', dropDec n c = .ok (c', none) ∧ COk [] c' ∧ Kept c c' := by
  obtain ⟨c', h1, h2, h3, -⟩ := release_true_ok h
  refine ⟨c', ?_, h2, h3⟩
  unfold dropDec
  rw [h1]

/-- What it means that a lookup gave decryption materials. -/
structure DHit (cmm : CachingCmm) (env : DecEnv) (id : Bytes) (c : Cache) (m : DecMaterials) (n : Nat) (e : Entry) (m0 : DecMaterials) : Prop where
  mem : c.mem n = some e
  id : e.cacheId = id
  mat : e.mat = .dec m0
  sig : ∃ sc, startSig env.get m0.alg e.keyMat = .ok sc ∧ m = { m0 with signctx := sc }
  ttl : WithinTtl cmm.ttl env.clkTtl e.creation

theorem decTry_ok {c : Cache} (h : COk [] c) (cmm : CachingCmm) (env : DecEnv) (id : Bytes) :
    ∃ c' r, decTry cmm env id c = .ok (c', r) ∧ COk [] c' ∧ From none c c' ∧
      (∀ m, r = some m → ∃ n e m0, DHit cmm env id c m n e m0) := by
  unfold decTry
  obtain ⟨c1, r1, kept, hf, hok1, hk1, -, -, -, -, -, hfound⟩ := cacheFind_spec h env.clkFind id
  rw [hf]
  cases r1 with
  | none => exact ⟨c1, none, rfl, hok1, hk1.from, by simp⟩
  | some n =>
    simp only at hok1 ⊢
    obtain ⟨e1, hm1, hid1, hz1⟩ := hfound n rfl
    rw [entry_some hm1]
    simp only
    obtain ⟨e, he, hcore, huse⟩ := hk1.from n e1 hm1
    cases henc : e1.isEncrypt with
    | true =>
      simp only [if_true]
      obtain ⟨c', h1, h2, h3⟩ := dropDec_ok hok1
      exact ⟨c', none, h1, h2, (hk1.trans h3).from, by simp⟩
    | false =>
      simp only [Bool.false_eq_true, if_false]
      obtain ⟨c2, b, ht, hok2, hf2, e1', e2, hm1', hm2, hz2, httl⟩ := checkTtl_ok hok1 (n := n) (by simp) cmm env.clkTtl env.pushHit
      rw [hm1] at hm1'; cases hm1'
      rw [ht]
      cases b with
      | false =>
        simp only
        obtain ⟨c', h1, h2, h3⟩ := dropDec_ok hok2
        exact ⟨c', none, h1, h2, (hk1.from.trans hf2).trans h3.from, by simp⟩
      | true =>
        simp only
        obtain ⟨e2', he2', hcore2, huse2⟩ := hf2 n e2 hm2
        rw [hm1] at he2'; cases he2'
        unfold decUse cacheGetDec
        rw [entry_some hm2]
        simp only
        have henc2 : e2.isEncrypt = false := by
          unfold Entry.isEncrypt at henc ⊢
          rw [hcore2.2.2.1]; exact henc
        cases hmat : e2.mat with
        | enc _ _ => unfold Entry.isEncrypt at henc2; rw [hmat] at henc2; cases henc2
        | dec m0 =>
          simp only
          have hdrop : ∃ c', dropDec n c2 = .ok (c', none) ∧ COk [] c' ∧ From none c c' := by
            obtain ⟨c', h1, h2, h3⟩ := dropDec_ok hok2
            exact ⟨c', h1, h2, (hk1.from.trans hf2).trans h3.from⟩
          cases hcopy : env.get.copy with
          | false =>
            simp only [Bool.not_false, if_true]
            obtain ⟨c', h1, h2, h3⟩ := hdrop
            exact ⟨c', none, h1, h2, h3, by simp⟩
          | true =>
            simp only [Bool.not_true, Bool.false_eq_true, if_false]
            cases hss : startSig env.get m0.alg e2.keyMat with
            | error err =>
              simp only
              obtain ⟨c', h1, h2, h3⟩ := hdrop
              exact ⟨c', none, h1, h2, h3, by simp⟩
            | ok sc =>
              simp only
              obtain ⟨c', h1, h2, h3⟩ := release_ok hok2 false
              rw [h1]
              refine ⟨c', some _, rfl, h2, (hk1.from.trans hf2).trans h3.from, ?_⟩
              intro m hm
              cases hm
              have hkm : e2.keyMat = e.keyMat := by rw [hcore2.2.2.2, hcore.2.2.2]
              refine ⟨n, e, m0, ⟨he, ?_, ?_, ⟨sc, by rw [← hkm]; exact hss, rfl⟩, ?_⟩⟩
              · rw [← hcore.1]; exact hid1
              · rw [← hcore.2.2.1, ← hcore2.2.2.1]; exact hmat
              · rw [← hcore.2.1]; exact httl rfl

theorem decStore_ok {c : Cache} (h : COk [] c) (cmm : CachingCmm) (env : DecEnv) (id : Bytes) (m : DecMaterials) :
    ∃ c', decStore cmm env id m c = .ok c' ∧ COk [] c' ∧
      (∀ n e', c'.mem n = some e' → (∃ e, c.mem n = some e ∧ SameCore e e' ∧ SameUse e e') ∨
        (n = c.next ∧ c.mem n = none ∧ e'.mat = .dec { m with signctx := none } ∧ e'.cacheId = id ∧ env.put.clkNew = some e'.creation ∧
          storedKey env.put m.signctx = some e'.keyMat)) := by
  unfold decStore cachePutDec
  obtain ⟨c1, r1, hr1, hkb, -, -, hcase⟩ := cachePut_spec h env.put id (.dec { m with signctx := none }) (storedKey env.put m.signctx) 0 0
  rw [hr1]
  rcases hcase with ⟨rfl, hok, hkept, -⟩ | ⟨rfl, hok, hfree, -, -, now, k, hnow, hkey, hmem⟩
  · simp only
    refine ⟨c1, rfl, hok, fun n e' he' => .inl ?_⟩
    obtain ⟨e, he, hc, hu⟩ := hkept.from n e' he'
    exact ⟨e, he, hc, hu (by simp)⟩
  · simp only
    obtain ⟨c2, h2, hok2, hf2⟩ := setTtlOnMiss_ok hok (n := c.next) (by simp) cmm env.pushMiss
    rw [h2]
    simp only
    obtain ⟨c3, h3, hok3, hk3⟩ := release_ok hok2 false
    refine ⟨c3, h3, hok3, fun n e' he' => ?_⟩
    obtain ⟨e1, he1, hc, hu⟩ := (hf2.trans hk3.from) n e' he'
    by_cases hn : n = c.next
    · subst hn
      rw [hmem] at he1; cases he1
      refine .inr ⟨rfl, hfree, hc.2.2.1, hc.1, ?_, ?_⟩
      · rw [hc.2.1]; exact hnow
      · rw [hc.2.2.2]; exact hkey
    · obtain ⟨e, k', z', he, rfl, -⟩ := hkb n e1 hn he1
      exact .inl ⟨e, he, hc, hu (by simp)⟩

end Verif
