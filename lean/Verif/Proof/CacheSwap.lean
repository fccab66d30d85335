import Verif.Spec.CacheSwap
/-
Proofs for C114: each function of the local cache and of the caching CMM commutes with a replacement of what is cached.
-/
namespace Verif.Proof
open Verif Verif.Spec

variable (w : Swap)

theorem entry_swap (c : Cache) (n : Nat) : (w.cache c).entry n = (c.entry n).map w.entry := by
  unfold Cache.entry
  simp only [Swap.cache]
  cases c.mem n <;> rfl

theorem set_swap (c : Cache) (n : Nat) (e : Option Entry) : (w.cache c).set n (e.map w.entry) = w.cache (c.set n e) := by
  unfold Cache.set Swap.cache
  simp only
  congr 1
  funext m
  by_cases h : m = n
  · simp only [h, if_true]
  · simp only [h, if_false]

theorem set_some_swap (c : Cache) (n : Nat) (e : Entry) : (w.cache c).set n (some (w.entry e)) = w.cache (c.set n (some e)) :=
  set_swap w c n (some e)

theorem set_none_swap (c : Cache) (n : Nat) : (w.cache c).set n none = w.cache (c.set n none) := set_swap w c n none

theorem isEncrypt_swap (e : Entry) : (w.entry e).isEncrypt = e.isEncrypt := by
  obtain ⟨a, b, c, d, m, k, f, g, z⟩ := e
  cases m <;> rfl

theorem decref_swap (c : Cache) (n : Nat) : decref (w.cache c) n = (decref c n).map w.cache := by
  unfold decref
  rw [entry_swap]
  cases c.entry n with
  | error f => rfl
  | ok e =>
    simp only [Except.map]
    rw [show (w.entry e).refcount = e.refcount from rfl, show (w.entry e).zombie = e.zombie from rfl]
    split
    · rfl
    split
    · split
      · simp only [set_none_swap]
      · rfl
    · simp only [← set_some_swap]; rfl

theorem invalidate_swap (c : Cache) (n : Nat) (skip : Bool) : invalidate (w.cache c) n skip = (invalidate c n skip).map w.cache := by
  unfold invalidate
  rw [entry_swap]
  cases c.entry n with
  | error f => rfl
  | ok e =>
    simp only [Except.map]
    rw [show (w.entry e).zombie = e.zombie from rfl, show (w.entry e).cacheId = e.cacheId from rfl, show (w.entry e).expiry = e.expiry from rfl,
      show (w.cache c).table = c.table from rfl, show (w.cache c).ttl = c.ttl from rfl, show (w.cache c).lru = c.lru from rfl]
    split
    · rfl
    split
    · rfl
    · have h := decref_swap w ({ c with ttl := if e.expiry ≠ noExpiry then c.ttl.erase n else c.ttl
                                        table := if skip then c.table else tableRemove c.table e.cacheId
                                        lru := c.lru.erase n }.set n (some { e with zombie := true })) n
      rw [← set_some_swap] at h
      exact h

theorem lockedRelease_swap (c : Cache) (n : Nat) (inv : Bool) : lockedRelease (w.cache c) n inv = (lockedRelease c n inv).map w.cache := by
  unfold lockedRelease
  rw [entry_swap]
  cases c.entry n with
  | error f => rfl
  | ok e =>
    simp only [Except.map]
    rw [show (w.entry e).refcount = e.refcount from rfl, show (w.entry e).zombie = e.zombie from rfl]
    split
    · rfl
    split
    · split
      · simp only [set_none_swap]
      · rfl
    split
    · have h := invalidate_swap w (c.set n (some { e with refcount := e.refcount - 1 })) n false
      rw [← set_some_swap] at h
      exact h
    · exact congrArg Except.ok (set_some_swap w c n { e with refcount := e.refcount - 1 })

theorem cacheRelease_swap (c : Cache) (n : Nat) (inv : Bool) : cacheRelease n inv (w.cache c) = (cacheRelease n inv c).map w.cache := by
  unfold cacheRelease
  rw [entry_swap]
  cases c.entry n with
  | error f => rfl
  | ok e =>
    simp only [Except.map]
    rw [show (w.entry e).zombie = e.zombie from rfl]
    split
    · exact lockedRelease_swap w c n inv
    · exact decref_swap w c n

theorem ttlKey_swap (c : Cache) (n : Nat) : (w.cache c).ttlKey n = c.ttlKey n := by
  unfold Cache.ttlKey
  simp only [Swap.cache]
  cases c.mem n <;> rfl

theorem ttlLt_swap (c : Cache) (a b : Nat) : (w.cache c).ttlLt a b = c.ttlLt a b := by
  unfold Cache.ttlLt
  rw [ttlKey_swap, ttlKey_swap]

theorem ttlTop_swap (c : Cache) (l : List Nat) : (w.cache c).ttlTop l = c.ttlTop l := by
  induction l with
  | nil => rfl
  | cons n l ih => simp only [Cache.ttlTop, ttlLt_swap, ih]

theorem ttlLoop_swap (now k : Nat) : ∀ c : Cache, ttlLoop now k (w.cache c) = (ttlLoop now k c).map w.cache := by
  induction k with
  | zero => intro c; rfl
  | succ k ih =>
    intro c
    unfold ttlLoop
    rw [ttlTop_swap, show (w.cache c).ttl = c.ttl from rfl]
    have hn : (fun n => ((w.cache c).mem n).isNone) = (fun n => (c.mem n).isNone) := by
      funext n
      simp only [Swap.cache, Option.isNone_map]
    rw [hn]
    split
    · rfl
    · cases c.ttlTop c.ttl with
      | none => rfl
      | some n =>
        simp only [entry_swap]
        cases c.entry n with
        | error f => rfl
        | ok e =>
          simp only [Except.map]
          rw [show (w.entry e).expiry = e.expiry from rfl, invalidate_swap]
          split
          · cases invalidate c n false with
            | error f => rfl
            | ok c' => exact ih c'
          · rfl

theorem processTtls_swap (clk : Option Nat) (c : Cache) : processTtls clk (w.cache c) = (processTtls clk c).map w.cache := by
  cases clk with
  | none => rfl
  | some now => exact ttlLoop_swap w now ttlBatch c

theorem cacheFind_swap (clk : Option Nat) (id : Bytes) (c : Cache) :
    cacheFind clk id (w.cache c) = (cacheFind clk id c).map (fun r => (w.cache r.1, r.2)) := by
  unfold cacheFind
  rw [processTtls_swap]
  cases processTtls clk c with
  | error f => rfl
  | ok c =>
    simp only [Except.map]
    rw [show (w.cache c).table = c.table from rfl, show (w.cache c).lru = c.lru from rfl]
    cases c.table.lookup id with
    | none => rfl
    | some n =>
      simp only
      show (match (w.cache { c with lru := n :: c.lru.erase n }).entry n with
        | .error f => Except.error f
        | .ok e => Except.ok ((w.cache { c with lru := n :: c.lru.erase n }).set n (some { e with refcount := e.refcount + 1 }), some n)) = _
      rw [entry_swap]
      cases Cache.entry { c with lru := n :: c.lru.erase n } n with
      | error f => rfl
      | ok e =>
        simp only [Except.map]
        have hs := set_some_swap w { c with lru := n :: c.lru.erase n } n { e with refcount := e.refcount + 1 }
        rw [← hs]
        rfl

theorem evict_swap (n k : Nat) : ∀ c : Cache, evict n k (w.cache c) = (evict n k c).map w.cache := by
  induction k with
  | zero =>
    intro c
    unfold evict
    rw [show (w.cache c).table = c.table from rfl, show (w.cache c).capacity = c.capacity from rfl]
    split <;> rfl
  | succ k ih =>
    intro c
    unfold evict
    rw [show (w.cache c).table = c.table from rfl, show (w.cache c).capacity = c.capacity from rfl, show (w.cache c).lru = c.lru from rfl]
    split
    · cases c.lru.getLast? with
      | none => rfl
      | some m =>
        simp only
        split
        · rfl
        · rw [invalidate_swap]
          cases invalidate c m false with
          | error f => rfl
          | ok c' => exact ih c'
    · rfl

theorem dropOld_swap (c : Cache) (id : Bytes) : dropOld (w.cache c) id = (dropOld c id).map w.cache := by
  unfold dropOld
  rw [show (w.cache c).table = c.table from rfl]
  cases c.table.lookup id with
  | none => rfl
  | some old => exact invalidate_swap w c old true

theorem insertEntry_swap (clk : Option Nat) (create : Bool) (n : Nat) (id : Bytes) (c : Cache) :
    insertEntry clk create n id (w.cache c) = (insertEntry clk create n id c).map (fun r => (w.cache r.1, r.2)) := by
  unfold insertEntry
  rw [processTtls_swap]
  cases processTtls clk c with
  | error f => rfl
  | ok c =>
    simp only [Except.map]
    split
    · rfl
    · rw [dropOld_swap]
      cases dropOld c id with
      | error f => rfl
      | ok c =>
        simp only [Except.map]
        have he := evict_swap w n ((id, n) :: tableRemove c.table id).length { c with table := (id, n) :: tableRemove c.table id, lru := n :: c.lru }
        rw [show w.cache { c with table := (id, n) :: tableRemove c.table id, lru := n :: c.lru } =
          { w.cache c with table := (id, n) :: tableRemove (w.cache c).table id, lru := n :: (w.cache c).lru } from rfl] at he
        rw [show (w.cache c).table = c.table from rfl] at he ⊢
        rw [he]
        cases evict n ((id, n) :: tableRemove c.table id).length { c with table := (id, n) :: tableRemove c.table id, lru := n :: c.lru } <;> rfl

theorem cachePut_swap (env : PutEnv) (id : Bytes) (mat : Mat) (key : Option (Option Bytes)) (bytes messages : Nat) (c : Cache) :
    cachePut env id (w.mat mat) key bytes messages (w.cache c) = (cachePut env id mat key bytes messages c).map (fun r => (w.cache r.1, r.2)) := by
  unfold cachePut
  cases env.clkNew with
  | none => rfl
  | some now =>
    simp only
    split
    · rfl
    · cases key with
      | none => rfl
      | some k =>
        simp only
        have hi := insertEntry_swap w env.clkTtl env.create c.next id
          ({ c with next := c.next + 1 }.set c.next (some ⟨1, id, noExpiry, now, mat, k, messages, bytes, false⟩))
        rw [← set_some_swap] at hi
        rw [show (w.cache c).next = c.next from rfl]
        rw [show ({ w.cache c with next := c.next + 1 } : Cache).set c.next (some ⟨1, id, noExpiry, now, w.mat mat, k, messages, bytes, false⟩) =
          (w.cache { c with next := c.next + 1 }).set c.next (some (w.entry ⟨1, id, noExpiry, now, mat, k, messages, bytes, false⟩)) from rfl, hi]
        cases insertEntry env.clkTtl env.create c.next id
          ({ c with next := c.next + 1 }.set c.next (some ⟨1, id, noExpiry, now, mat, k, messages, bytes, false⟩)) with
        | error f => rfl
        | ok r =>
          obtain ⟨c', b⟩ := r
          cases b with
          | false => simp only [Except.map, set_none_swap]
          | true =>
            simp only [Except.map, entry_swap]
            cases c'.entry c.next with
            | error f => rfl
            | ok e =>
              simp only
              rw [← set_some_swap w c' c.next { e with refcount := e.refcount + 1 }]
              rfl

theorem cachePutEnc_swap (env : PutEnv) (id : Bytes) (m : EncMaterials) (bytes messages : Nat) (ctx : EncCtx) (c : Cache) :
    cachePutEnc env id (w.encMat m) bytes messages ctx (w.cache c) =
      (cachePutEnc env id m bytes messages ctx c).map (fun r => (w.cache r.1, r.2)) :=
  cachePut_swap w env id (.enc { m with signctx := none } ctx) (storedKey env m.signctx) bytes messages c

theorem cachePutDec_swap (env : PutEnv) (id : Bytes) (m : DecMaterials) (c : Cache) :
    cachePutDec env id (w.decMat m) (w.cache c) = (cachePutDec env id m c).map (fun r => (w.cache r.1, r.2)) :=
  cachePut_swap w env id (.dec { m with signctx := none }) (storedKey env m.signctx) 0 0 c

theorem cacheUpdateUsage_swap (n bytes messages : Nat) (c : Cache) :
    cacheUpdateUsage n bytes messages (w.cache c) = (cacheUpdateUsage n bytes messages c).map (fun r => (w.cache r.1, r.2)) := by
  unfold cacheUpdateUsage
  rw [entry_swap]
  cases c.entry n with
  | error f => rfl
  | ok e =>
    simp only [Except.map, isEncrypt_swap]
    rw [show (w.entry e).zombie = e.zombie from rfl]
    split
    · rfl
    · simp only [← set_some_swap]
      rfl

theorem cacheGetEnc_swap (env : GetEnv) (n : Nat) (ctx : EncCtx) (c : Cache) :
    cacheGetEnc env n ctx (w.cache c) = (cacheGetEnc env n ctx c).map (fun r => (r.1, r.2.map w.encMat)) := by
  unfold cacheGetEnc
  rw [entry_swap]
  cases c.entry n with
  | error f => rfl
  | ok e =>
    obtain ⟨a1, a2, a3, a4, m, k, a5, a6, a7⟩ := e
    cases m with
    | dec m => rfl
    | enc m ectx =>
      simp only [Except.map, Swap.entry, Swap.mat]
      split
      · rfl
      · cases env.cloneFails with
        | some x => rfl
        | none =>
          simp only
          rw [show (w.encMat m).alg = m.alg from rfl]
          cases startSig env m.alg k <;> rfl

theorem cacheGetDec_swap (env : GetEnv) (n : Nat) (c : Cache) :
    cacheGetDec env n (w.cache c) = (cacheGetDec env n c).map (fun r => r.map w.decMat) := by
  unfold cacheGetDec
  rw [entry_swap]
  cases c.entry n with
  | error f => rfl
  | ok e =>
    obtain ⟨a1, a2, a3, a4, m, k, a5, a6, a7⟩ := e
    cases m with
    | enc m ectx => rfl
    | dec m =>
      simp only [Except.map, Swap.entry, Swap.mat]
      split
      · rfl
      · rw [show (w.decMat m).alg = m.alg from rfl]
        cases startSig env m.alg k <;> rfl

theorem cacheCreation_swap (n : Nat) (c : Cache) : cacheCreation n (w.cache c) = cacheCreation n c := by
  unfold cacheCreation
  rw [entry_swap]
  cases c.entry n <;> rfl

theorem cacheHint_swap (n t : Nat) (push : Bool) (c : Cache) : cacheHint n t push (w.cache c) = (cacheHint n t push c).map w.cache := by
  unfold cacheHint
  rw [entry_swap]
  cases c.entry n with
  | error f => rfl
  | ok e =>
    simp only [Except.map]
    rw [show (w.entry e).zombie = e.zombie from rfl, show (w.entry e).expiry = e.expiry from rfl, show (w.cache c).ttl = c.ttl from rfl]
    split
    · rfl
    split
    · simp only [← set_some_swap]; rfl
    · simp only [← set_some_swap]; rfl

theorem clearLoop_swap (l : List (Bytes × Nat)) : ∀ c : Cache, clearLoop l (w.cache c) = (clearLoop l c).map w.cache := by
  induction l with
  | nil => intro c; rfl
  | cons x l ih =>
    intro c
    obtain ⟨id, n⟩ := x
    simp only [clearLoop, invalidate_swap]
    cases invalidate c n true with
    | error f => rfl
    | ok c => exact ih { c with table := tableRemove c.table id }

theorem cacheClear_swap (c : Cache) : cacheClear (w.cache c) = (cacheClear c).map w.cache := clearLoop_swap w c.table c

theorem cacheDestroy_swap (c : Cache) : cacheDestroy (w.cache c) = w.cache (cacheDestroy c) := by
  unfold cacheDestroy Swap.cache
  simp only
  congr 1
  funext n
  split <;> rfl

/-! ### the caching CMM -/

theorem checkTtl_swap (cmm : CachingCmm) (clk : Option Nat) (push : Bool) (n : Nat) (c : Cache) :
    checkTtl cmm clk push n (w.cache c) = (checkTtl cmm clk push n c).map (fun r => (w.cache r.1, r.2)) := by
  unfold checkTtl
  rw [cacheCreation_swap]
  split
  · rfl
  · cases cacheCreation n c with
    | error f => rfl
    | ok t =>
      simp only
      split
      · rfl
      · cases clk with
        | none => rfl
        | some now =>
          simp only
          split
          · rfl
          · rw [cacheHint_swap]
            cases cacheHint n (u64 (t + cmm.ttl)) push c <;> rfl

theorem setTtlOnMiss_swap (cmm : CachingCmm) (push : Bool) (n : Nat) (c : Cache) :
    setTtlOnMiss cmm push n (w.cache c) = (setTtlOnMiss cmm push n c).map w.cache := by
  unfold setTtlOnMiss
  rw [cacheCreation_swap]
  split
  · rfl
  · cases cacheCreation n c with
    | error f => rfl
    | ok t =>
      simp only
      split
      · exact cacheHint_swap w n _ push c
      · rfl

theorem dropEntry_swap (n : Nat) (ctx : EncCtx) (c : Cache) :
    dropEntry n ctx (w.cache c) = (dropEntry n ctx c).map (fun r => (w.cache r.1, r.2.1, r.2.2.map w.encMat)) := by
  unfold dropEntry
  rw [cacheRelease_swap]
  cases cacheRelease n true c <;> rfl

theorem genUse_swap (cmm : CachingCmm) (env : GenEnv) (n bytes messages : Nat) (ctx : EncCtx) (c : Cache) :
    genUse cmm (w.genEnv env) n bytes messages ctx (w.cache c) =
      (genUse cmm env n bytes messages ctx c).map (fun r => (w.cache r.1, r.2.1, r.2.2.map w.encMat)) := by
  unfold genUse
  rw [show (w.genEnv env).get = env.get from rfl, cacheGetEnc_swap]
  split
  · exact dropEntry_swap w n ctx c
  · cases cacheGetEnc env.get n ctx c with
    | error f => rfl
    | ok r =>
      obtain ⟨ctx', r⟩ := r
      cases r with
      | error x => exact dropEntry_swap w n ctx' c
      | ok m =>
        simp only [Except.map, cacheRelease_swap]
        cases cacheRelease n (messages = cmm.limitMessages) c <;> rfl

theorem genTry_swap (cmm : CachingCmm) (env : GenEnv) (id : Bytes) (req : EncRequest) (c : Cache) :
    genTry cmm (w.genEnv env) id req (w.cache c) =
      (genTry cmm env id req c).map (fun r => (w.cache r.1, r.2.1, r.2.2.map w.encMat)) := by
  unfold genTry
  rw [show (w.genEnv env).clkFind = env.clkFind from rfl, show (w.genEnv env).clkTtl = env.clkTtl from rfl,
    show (w.genEnv env).pushHit = env.pushHit from rfl, cacheFind_swap]
  cases cacheFind env.clkFind id c with
  | error f => rfl
  | ok r =>
    obtain ⟨c, r⟩ := r
    cases r with
    | none => rfl
    | some n =>
      simp only [Except.map, entry_swap]
      cases c.entry n with
      | error f => rfl
      | ok e =>
        simp only [isEncrypt_swap]
        split
        · exact dropEntry_swap w n req.encCtx c
        · rw [checkTtl_swap]
          cases checkTtl cmm env.clkTtl env.pushHit n c with
          | error f => rfl
          | ok r =>
            obtain ⟨c, b⟩ := r
            cases b with
            | false => exact dropEntry_swap w n req.encCtx c
            | true =>
              simp only [Except.map, cacheUpdateUsage_swap]
              cases cacheUpdateUsage n req.plaintextSize 1 c with
              | error f => rfl
              | ok r =>
                obtain ⟨c, r⟩ := r
                cases r with
                | error x => exact dropEntry_swap w n req.encCtx c
                | ok u => exact genUse_swap w cmm env n u.1 u.2 req.encCtx c

theorem genStore_swap (cmm : CachingCmm) (env : GenEnv) (id : Bytes) (size : Nat) (ctx : EncCtx) (m : EncMaterials) (c : Cache) :
    genStore cmm (w.genEnv env) id size ctx (w.encMat m) (w.cache c) = (genStore cmm env id size ctx m c).map w.cache := by
  unfold genStore
  rw [show (w.encMat m).alg = m.alg from rfl, show (w.genEnv env).put = env.put from rfl, show (w.genEnv env).pushMiss = env.pushMiss from rfl]
  cases canCache m.alg with
  | error f => rfl
  | ok b =>
    cases b with
    | false => rfl
    | true =>
      simp only [cachePutEnc_swap]
      cases cachePutEnc env.put id m size 1 ctx c with
      | error f => rfl
      | ok r =>
        obtain ⟨c, o⟩ := r
        cases o with
        | none => rfl
        | some n =>
          simp only [Except.map, setTtlOnMiss_swap]
          cases setTtlOnMiss cmm env.pushMiss n c with
          | error f => rfl
          | ok c => exact cacheRelease_swap w c n false

theorem genMiss_swap (cmm : CachingCmm) (env : GenEnv) (id : Bytes) (req : EncRequest) (ctx : EncCtx) (c : Cache) :
    genMiss cmm (w.genEnv env) id req ctx (w.cache c) = (genMiss cmm env id req ctx c).map (fun r => (w.cache r.1, w.genOut r.2)) := by
  unfold genMiss
  rw [show (w.genEnv env).up { req with encCtx := ctx } = ((env.up { req with encCtx := ctx }).1, (env.up { req with encCtx := ctx }).2.map w.encMat) from rfl]
  generalize env.up { req with encCtx := ctx } = u
  obtain ⟨ctx', r⟩ := u
  cases r with
  | error e => rfl
  | ok m =>
    simp only [Except.map, genStore_swap]
    cases genStore cmm env id req.plaintextSize ctx' m c <;> rfl

theorem genCached_swap (sha : Bytes → Bytes) (cmm : CachingCmm) (env : GenEnv) (req : EncRequest) (c : Cache) :
    genCached sha cmm (w.genEnv env) req (w.cache c) = (genCached sha cmm env req c).map (fun r => (w.cache r.1, w.genOut r.2)) := by
  unfold genCached
  rw [show (w.genEnv env).ids = env.ids from rfl]
  cases hashEnc sha env.ids cmm.partition req with
  | error e => rfl
  | ok id =>
    simp only [genTry_swap]
    cases genTry cmm env id req c with
    | error f => rfl
    | ok r =>
      obtain ⟨c, ctx, o⟩ := r
      cases o with
      | some m => rfl
      | none => exact genMiss_swap w cmm env id req ctx c

theorem cachingGenerate_swap (sha : Bytes → Bytes) (cmm : CachingCmm) (env : GenEnv) (req : EncRequest) (c : Cache) :
    cachingGenerate sha cmm (w.genEnv env) req (w.cache c) = (cachingGenerate sha cmm env req c).map (fun r => (w.cache r.1, w.genOut r.2)) := by
  unfold cachingGenerate
  split
  · rfl
  split
  · exact genCached_swap w sha cmm env req c
  · cases canCache req.requestedAlg with
    | error f => rfl
    | ok b =>
      cases b with
      | false => rfl
      | true => exact genCached_swap w sha cmm env req c

theorem dropDec_swap (n : Nat) (c : Cache) : dropDec n (w.cache c) = (dropDec n c).map (fun r => (w.cache r.1, r.2.map w.decMat)) := by
  unfold dropDec
  rw [cacheRelease_swap]
  cases cacheRelease n true c <;> rfl

theorem decUse_swap (env : DecEnv) (n : Nat) (c : Cache) :
    decUse (w.decEnv env) n (w.cache c) = (decUse env n c).map (fun r => (w.cache r.1, r.2.map w.decMat)) := by
  unfold decUse
  rw [show (w.decEnv env).get = env.get from rfl, cacheGetDec_swap]
  cases cacheGetDec env.get n c with
  | error f => rfl
  | ok r =>
    cases r with
    | error x => exact dropDec_swap w n c
    | ok m =>
      simp only [Except.map, cacheRelease_swap]
      cases cacheRelease n false c <;> rfl

theorem decTry_swap (cmm : CachingCmm) (env : DecEnv) (id : Bytes) (c : Cache) :
    decTry cmm (w.decEnv env) id (w.cache c) = (decTry cmm env id c).map (fun r => (w.cache r.1, r.2.map w.decMat)) := by
  unfold decTry
  rw [show (w.decEnv env).clkFind = env.clkFind from rfl, show (w.decEnv env).clkTtl = env.clkTtl from rfl,
    show (w.decEnv env).pushHit = env.pushHit from rfl, cacheFind_swap]
  cases cacheFind env.clkFind id c with
  | error f => rfl
  | ok r =>
    obtain ⟨c, r⟩ := r
    cases r with
    | none => rfl
    | some n =>
      simp only [Except.map, entry_swap]
      cases c.entry n with
      | error f => rfl
      | ok e =>
        simp only [Except.map, isEncrypt_swap]
        split
        · exact dropDec_swap w n c
        · rw [checkTtl_swap]
          cases checkTtl cmm env.clkTtl env.pushHit n c with
          | error f => rfl
          | ok r =>
            obtain ⟨c, b⟩ := r
            cases b with
            | false => exact dropDec_swap w n c
            | true => exact decUse_swap w env n c

theorem decStore_swap (cmm : CachingCmm) (env : DecEnv) (id : Bytes) (m : DecMaterials) (c : Cache) :
    decStore cmm (w.decEnv env) id (w.decMat m) (w.cache c) = (decStore cmm env id m c).map w.cache := by
  unfold decStore
  rw [show (w.decEnv env).put = env.put from rfl, show (w.decEnv env).pushMiss = env.pushMiss from rfl, cachePutDec_swap]
  cases cachePutDec env.put id m c with
  | error f => rfl
  | ok r =>
    obtain ⟨c, o⟩ := r
    cases o with
    | none => rfl
    | some n =>
      simp only [Except.map, setTtlOnMiss_swap]
      cases setTtlOnMiss cmm env.pushMiss n c with
      | error f => rfl
      | ok c => exact cacheRelease_swap w c n false

theorem decCached_swap (sha : Bytes → Bytes) (cmm : CachingCmm) (env : DecEnv) (req : DecRequest) (c : Cache) :
    decCached sha cmm (w.decEnv env) req (w.cache c) = (decCached sha cmm env req c).map (fun r => (w.cache r.1, w.decOut r.2)) := by
  unfold decCached
  rw [show (w.decEnv env).ids = env.ids from rfl]
  cases hashDec sha env.ids cmm.partition req with
  | error f => rfl
  | ok r =>
    cases r with
    | error e => rfl
    | ok id =>
      simp only [decTry_swap]
      cases decTry cmm env id c with
      | error f => rfl
      | ok r =>
        obtain ⟨c, o⟩ := r
        cases o with
        | some m => rfl
        | none =>
          simp only [Except.map, Option.map_none]
          rw [show (w.decEnv env).up req = (env.up req).map w.decMat from rfl]
          cases env.up req with
          | error e => rfl
          | ok m =>
            simp only [Except.map, decStore_swap]
            cases decStore cmm env id m c <;> rfl

theorem cachingDecrypt_swap (sha : Bytes → Bytes) (cmm : CachingCmm) (env : DecEnv) (req : DecRequest) (c : Cache) :
    cachingDecrypt sha cmm (w.decEnv env) req (w.cache c) = (cachingDecrypt sha cmm env req c).map (fun r => (w.cache r.1, w.decOut r.2)) := by
  unfold cachingDecrypt
  cases canCache req.alg with
  | error f => rfl
  | ok b =>
    cases b with
    | false => rfl
    | true => exact decCached_swap w sha cmm env req c

theorem rekeyCmm_cancel {φ ψ : Bytes → Bytes} (h : ∀ k, φ (ψ k) = k) (cm : Cmm) : rekeyCmm φ (rekeyCmm ψ cm) = cm := by
  have hg : ∀ r : Except Err EncMaterials,
      (r.map (fun m => { m with dataKey := ψ m.dataKey })).map (fun m => { m with dataKey := φ m.dataKey }) = r := by
    intro r
    cases r with
    | error e => rfl
    | ok m => simp only [Except.map, h]
  have hd : ∀ r : Except Err DecMaterials,
      (r.map (fun m => { m with dataKey := ψ m.dataKey })).map (fun m => { m with dataKey := φ m.dataKey }) = r := by
    intro r
    cases r with
    | error e => rfl
    | ok m => simp only [Except.map, h]
  obtain ⟨g, d⟩ := cm
  simp only [rekeyCmm, hg, hd]

end Verif.Proof
