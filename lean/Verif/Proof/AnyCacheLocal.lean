import Verif.Model.AnyCache
/-
The caching CMM over the local cache (Model/CachingCmm) is the caching CMM over any cache, with the local cache answering.
-/
set_option linter.unusedSimpArgs false

namespace Verif.Proof
open Verif

variable {α β σ η : Type}

theorem run_bind (ans : (q : CacheQuery η) → σ → Except Fault (σ × q.Ans)) (p : Prog η α) (f : α → Prog η β) (s : σ) :
    (p.bind f).run ans s = match p.run ans s with
      | .error x => .error x
      | .ok (s, a) => (f a).run ans s := by
  induction p generalizing s with
  | ret a => rfl
  | fault x => rfl
  | ask q k ih =>
    simp only [Prog.bind, Prog.run]
    cases h : ans q s with
    | error x => rfl
    | ok y => exact ih y.2 y.1

theorem run_call (ans : (q : CacheQuery η) → σ → Except Fault (σ × q.Ans)) (q : CacheQuery η) (s : σ) :
    (askCache localVt q).run ans s = ans q s := by
  have h : localVt.has q.fn = true := by cases q <;> rfl
  unfold askCache
  rw [if_pos h]
  simp only [Prog.run]
  cases ans q s with
  | error x => rfl
  | ok y => rfl

variable {cmm : CachingCmm} {lenv : LocalEnv}

theorem run_checkTtl (clk : Option Nat) (n : Nat) (c : Cache) :
    (anyCheckTtl localVt cmm clk n).run (localAnswer lenv) (c, false) = answered false (checkTtl cmm clk lenv.pushHit n c) := by
  unfold anyCheckTtl checkTtl
  split
  · rfl
  · rw [run_bind, run_call]
    simp only [localAnswer]
    cases cacheCreation n c with
    | error f => rfl
    | ok t =>
      simp only [unchanged]
      split
      · rfl
      · cases clk with
        | none => rfl
        | some now =>
          dsimp only
          split
          · rfl
          · rw [run_bind, run_call]
            simp only [localAnswer, Bool.false_eq_true, if_false]
            cases cacheHint n (u64 (t + cmm.ttl)) lenv.pushHit c <;> rfl

theorem run_afterPut (o : Option Nat) (c : Cache) :
    (anyAfterPut localVt cmm o).run (localAnswer lenv) (c, true) =
      match o with
      | none => .ok ((c, true), ())
      | some n =>
        match setTtlOnMiss cmm lenv.pushMiss n c with
        | .error f => .error f
        | .ok c => silent true (cacheRelease n false c) := by
  cases o with
  | none => rfl
  | some n =>
    unfold anyAfterPut setTtlOnMiss
    dsimp only
    rw [run_bind]
    by_cases ht : cmm.ttl = 2 ^ 64 - 1
    · rw [if_pos ht, if_pos ht]
      simp only [Prog.run]
      rw [run_call]; rfl
    · rw [if_neg ht, if_neg ht, run_bind, run_call]
      simp only [localAnswer]
      cases cacheCreation n c with
      | error f => rfl
      | ok t =>
        simp only [unchanged]
        by_cases hx : u64 (t + cmm.ttl) > t
        · rw [if_pos hx, if_pos hx, run_call]
          simp only [localAnswer, if_true]
          cases cacheHint n (u64 (t + cmm.ttl)) lenv.pushMiss c with
          | error f => rfl
          | ok c' => simp only [silent]; rw [run_call]; rfl
        · rw [if_neg hx, if_neg hx]
          simp only [Prog.run]
          rw [run_call]; rfl

theorem run_drop (n : Nat) (a : α) (c : Cache) :
    (anyDrop localVt n a).run (localAnswer lenv) (c, false) =
      match cacheRelease n true c with
      | .error f => .error f
      | .ok c => .ok ((c, false), a) := by
  unfold anyDrop
  rw [run_bind, run_call]
  simp only [localAnswer]
  cases cacheRelease n true c <;> rfl

theorem run_dropEntry (n : Nat) (ctx : EncCtx) (c : Cache) :
    (anyDrop localVt n (ctx, (none : Option EncMaterials))).run (localAnswer lenv) (c, false) = answered false (dropEntry n ctx c) := by
  rw [run_drop]
  unfold dropEntry
  cases cacheRelease n true c <;> rfl

theorem run_dropDec (n : Nat) (c : Cache) :
    (anyDrop localVt n (none : Option DecMaterials)).run (localAnswer lenv) (c, false) = answered false (dropDec n c) := by
  rw [run_drop]
  unfold dropDec
  cases cacheRelease n true c <;> rfl

theorem ofGen_find (env : GenEnv) : (ofGen env).clkFind = env.clkFind := rfl
theorem ofGen_hit (env : GenEnv) : (ofGen env).pushHit = env.pushHit := rfl
theorem ofGen_get (env : GenEnv) : (ofGen env).get = env.get := rfl
theorem ofGen_put (env : GenEnv) : (ofGen env).put = env.put := rfl
theorem ofGen_miss (env : GenEnv) : (ofGen env).pushMiss = env.pushMiss := rfl
theorem ofDec_find (env : DecEnv) : (ofDec env).clkFind = env.clkFind := rfl
theorem ofDec_hit (env : DecEnv) : (ofDec env).pushHit = env.pushHit := rfl
theorem ofDec_get (env : DecEnv) : (ofDec env).get = env.get := rfl
theorem ofDec_put (env : DecEnv) : (ofDec env).put = env.put := rfl
theorem ofDec_miss (env : DecEnv) : (ofDec env).pushMiss = env.pushMiss := rfl
theorem toGen_ids (env : GenEnv) : (toGen env).ids = env.ids := rfl
theorem toGen_clk (env : GenEnv) : (toGen env).clk = env.clkTtl := rfl
theorem toDec_ids (env : DecEnv) : (toDec env).ids = env.ids := rfl
theorem toDec_clk (env : DecEnv) : (toDec env).clk = env.clkTtl := rfl

theorem run_use (env : GenEnv) (n bytes messages : Nat) (req : EncRequest) (c : Cache) :
    (anyUse localVt cmm n req (.ok (bytes, messages))).run (localAnswer (ofGen env)) (c, false) =
      answered false (genUse cmm env n bytes messages req.encCtx c) := by
  unfold anyUse genUse
  dsimp only
  split
  · exact run_dropEntry n req.encCtx c
  · rw [run_bind, run_call]
    simp only [localAnswer]
    simp only [ofGen_find, ofGen_hit, ofGen_get, ofGen_put, ofGen_miss, ofDec_find, ofDec_hit, ofDec_get, ofDec_put, ofDec_miss, toGen_ids,
      toGen_clk, toDec_ids, toDec_clk]
    cases cacheGetEnc env.get n req.encCtx c with
    | error f => rfl
    | ok x =>
      obtain ⟨ctx, r⟩ := x
      simp only [unchanged]
      cases r with
      | error e => exact run_dropEntry n ctx c
      | ok m =>
        dsimp only
        rw [run_bind, run_call]
        simp only [localAnswer]
        cases cacheRelease n (decide (messages = cmm.limitMessages)) c <;> rfl

theorem run_try (env : GenEnv) (id : Bytes) (req : EncRequest) (c : Cache) :
    (anyTry localVt cmm env.clkTtl id req).run (localAnswer (ofGen env)) (c, false) = answered false (genTry cmm env id req c) := by
  unfold anyTry genTry
  rw [run_bind, run_call]
  simp only [localAnswer]
  simp only [ofGen_find, ofGen_hit, ofGen_get, ofGen_put, ofGen_miss, ofDec_find, ofDec_hit, ofDec_get, ofDec_put, ofDec_miss, toGen_ids,
    toGen_clk, toDec_ids, toDec_clk]
  cases cacheFind env.clkFind id c with
  | error f => rfl
  | ok x =>
    obtain ⟨c', o⟩ := x
    cases o with
    | none => rfl
    | some n =>
      simp only [foundKind]
      cases c'.entry n with
      | error f => rfl
      | ok e =>
        simp only [unchanged]
        cases he : e.isEncrypt with
        | false => exact run_dropEntry n req.encCtx c'
        | true =>
          simp only [Bool.false_eq_true, Bool.true_eq_false, or_self, if_false, Bool.not_true]
          rw [run_bind, run_checkTtl]
          simp only [ofGen_find, ofGen_hit, ofGen_get, ofGen_put, ofGen_miss, ofDec_find, ofDec_hit, ofDec_get, ofDec_put, ofDec_miss, toGen_ids,
            toGen_clk, toDec_ids, toDec_clk]
          cases checkTtl cmm env.clkTtl env.pushHit n c' with
          | error f => rfl
          | ok y =>
            obtain ⟨c2, ok⟩ := y
            simp only [answered]
            cases ok with
            | false => exact run_dropEntry n req.encCtx c2
            | true =>
              simp only [if_true]
              rw [run_bind, run_call]
              simp only [localAnswer]
              cases cacheUpdateUsage n req.plaintextSize 1 c2 with
              | error f => rfl
              | ok z =>
                obtain ⟨c3, r⟩ := z
                simp only [answered]
                cases r with
                | error e => exact run_dropEntry n req.encCtx c3
                | ok bm => exact run_use env n bm.1 bm.2 req c3

theorem run_miss (env : GenEnv) (id : Bytes) (req : EncRequest) (ctx : EncCtx) (c : Cache) :
    plain ((anyMiss localVt cmm (toGen env) id req ctx).run (localAnswer (ofGen env)) (c, false)) = genMiss cmm env id req ctx c := by
  unfold anyMiss genMiss
  simp only [toGen]
  cases hup : env.up { req with encCtx := ctx } with
  | mk ctx' r =>
    cases r with
    | error e => rfl
    | ok m =>
      unfold genStore
      dsimp only
      cases canCache m.alg with
      | error f => rfl
      | ok b =>
        cases b with
        | false => rfl
        | true =>
          dsimp only
          rw [run_bind, run_call]
          simp only [localAnswer]
          simp only [ofGen_find, ofGen_hit, ofGen_get, ofGen_put, ofGen_miss, ofDec_find, ofDec_hit, ofDec_get, ofDec_put, ofDec_miss, toGen_ids,
            toGen_clk, toDec_ids, toDec_clk]
          cases cachePutEnc env.put id m req.plaintextSize 1 ctx' c with
          | error f => rfl
          | ok x =>
            obtain ⟨c2, o⟩ := x
            simp only [answered]
            rw [run_bind, run_afterPut]
            cases o with
            | none => rfl
            | some n =>
              dsimp only
              simp only [ofGen_find, ofGen_hit, ofGen_get, ofGen_put, ofGen_miss, ofDec_find, ofDec_hit, ofDec_get, ofDec_put, ofDec_miss, toGen_ids,
                toGen_clk, toDec_ids, toDec_clk]
              cases setTtlOnMiss cmm env.pushMiss n c2 with
              | error f => rfl
              | ok c3 =>
                dsimp only
                cases cacheRelease n false c3 <;> rfl

theorem run_genCached (sha : Bytes → Bytes) (env : GenEnv) (req : EncRequest) (c : Cache) :
    plain ((anyGenCached sha localVt cmm (toGen env) req).run (localAnswer (ofGen env)) (c, false)) = genCached sha cmm env req c := by
  unfold anyGenCached genCached
  simp only [ofGen_find, ofGen_hit, ofGen_get, ofGen_put, ofGen_miss, ofDec_find, ofDec_hit, ofDec_get, ofDec_put, ofDec_miss, toGen_ids,
    toGen_clk, toDec_ids, toDec_clk]
  cases hashEnc sha env.ids cmm.partition req with
  | error e => rfl
  | ok id =>
    dsimp only
    rw [run_bind]
    rw [run_try]
    cases genTry cmm env id req c with
    | error f => rfl
    | ok x =>
      obtain ⟨c2, ctx, o⟩ := x
      simp only [answered]
      cases o with
      | none => exact run_miss env id req ctx c2
      | some m => rfl

theorem run_generate (sha : Bytes → Bytes) (env : GenEnv) (req : EncRequest) (c : Cache) :
    plain ((anyGenerate sha localVt cmm (toGen env) req).run (localAnswer (ofGen env)) (c, false)) = cachingGenerate sha cmm env req c := by
  unfold anyGenerate cachingGenerate
  split
  · rfl
  · split
    · exact run_genCached sha env req c
    · cases canCache req.requestedAlg with
      | error f => rfl
      | ok b => cases b with
        | false => rfl
        | true => exact run_genCached sha env req c

theorem run_decTry (env : DecEnv) (id : Bytes) (c : Cache) :
    (anyDecTry localVt cmm env.clkTtl id).run (localAnswer (ofDec env)) (c, false) = answered false (decTry cmm env id c) := by
  unfold anyDecTry decTry
  rw [run_bind, run_call]
  simp only [localAnswer]
  simp only [ofGen_find, ofGen_hit, ofGen_get, ofGen_put, ofGen_miss, ofDec_find, ofDec_hit, ofDec_get, ofDec_put, ofDec_miss, toGen_ids,
    toGen_clk, toDec_ids, toDec_clk]
  cases cacheFind env.clkFind id c with
  | error f => rfl
  | ok x =>
    obtain ⟨c', o⟩ := x
    cases o with
    | none => rfl
    | some n =>
      simp only [foundKind]
      cases c'.entry n with
      | error f => rfl
      | ok e =>
        simp only [unchanged]
        cases he : e.isEncrypt with
        | true => exact run_dropDec n c'
        | false =>
          simp only [Bool.false_eq_true, or_self, if_false]
          rw [run_bind, run_checkTtl]
          simp only [ofGen_find, ofGen_hit, ofGen_get, ofGen_put, ofGen_miss, ofDec_find, ofDec_hit, ofDec_get, ofDec_put, ofDec_miss, toGen_ids,
            toGen_clk, toDec_ids, toDec_clk]
          cases checkTtl cmm env.clkTtl env.pushHit n c' with
          | error f => rfl
          | ok y =>
            obtain ⟨c2, ok⟩ := y
            simp only [answered]
            cases ok with
            | false => exact run_dropDec n c2
            | true =>
              simp only [if_true]
              unfold decUse
              rw [run_bind, run_call]
              simp only [localAnswer]
              simp only [ofGen_find, ofGen_hit, ofGen_get, ofGen_put, ofGen_miss, ofDec_find, ofDec_hit, ofDec_get, ofDec_put, ofDec_miss, toGen_ids,
                toGen_clk, toDec_ids, toDec_clk]
              cases cacheGetDec env.get n c2 with
              | error f => rfl
              | ok r =>
                simp only [unchanged]
                cases r with
                | error e => exact run_dropDec n c2
                | ok m =>
                  dsimp only
                  rw [run_bind, run_call]
                  simp only [localAnswer]
                  cases cacheRelease n false c2 <;> rfl

theorem run_decMiss (env : DecEnv) (id : Bytes) (req : DecRequest) (c : Cache) :
    plain ((anyDecMiss localVt cmm (toDec env) id req).run (localAnswer (ofDec env)) (c, false)) =
      match env.up req with
      | .error e => .ok (c, ⟨.error e, true⟩)
      | .ok m =>
        match decStore cmm env id m c with
        | .error f => .error f
        | .ok c => .ok (c, ⟨.ok m, true⟩) := by
  unfold anyDecMiss
  simp only [toDec]
  cases env.up req with
  | error e => rfl
  | ok m =>
    unfold decStore
    dsimp only
    rw [run_bind, run_call]
    simp only [localAnswer]
    simp only [ofGen_find, ofGen_hit, ofGen_get, ofGen_put, ofGen_miss, ofDec_find, ofDec_hit, ofDec_get, ofDec_put, ofDec_miss, toGen_ids,
      toGen_clk, toDec_ids, toDec_clk]
    cases cachePutDec env.put id m c with
    | error f => rfl
    | ok x =>
      obtain ⟨c2, o⟩ := x
      simp only [answered]
      rw [run_bind, run_afterPut]
      cases o with
      | none => rfl
      | some n =>
        dsimp only
        simp only [ofGen_find, ofGen_hit, ofGen_get, ofGen_put, ofGen_miss, ofDec_find, ofDec_hit, ofDec_get, ofDec_put, ofDec_miss, toGen_ids,
          toGen_clk, toDec_ids, toDec_clk]
        cases setTtlOnMiss cmm env.pushMiss n c2 with
        | error f => rfl
        | ok c3 =>
          dsimp only
          cases cacheRelease n false c3 <;> rfl

theorem run_decrypt (sha : Bytes → Bytes) (env : DecEnv) (req : DecRequest) (c : Cache) :
    plain ((anyDecrypt sha localVt cmm (toDec env) req).run (localAnswer (ofDec env)) (c, false)) = cachingDecrypt sha cmm env req c := by
  unfold anyDecrypt cachingDecrypt
  cases canCache req.alg with
  | error f => rfl
  | ok b =>
    cases b with
    | false => rfl
    | true =>
      unfold decCached
      dsimp only
      simp only [ofGen_find, ofGen_hit, ofGen_get, ofGen_put, ofGen_miss, ofDec_find, ofDec_hit, ofDec_get, ofDec_put, ofDec_miss, toGen_ids,
        toGen_clk, toDec_ids, toDec_clk]
      cases hashDec sha env.ids cmm.partition req with
      | error f => rfl
      | ok r =>
        cases r with
        | error e => rfl
        | ok id =>
          dsimp only
          rw [run_bind]
          rw [run_decTry]
          cases decTry cmm env id c with
          | error f => rfl
          | ok x =>
            obtain ⟨c2, o⟩ := x
            simp only [answered]
            cases o with
            | none => exact run_decMiss env id req c2
            | some m => rfl

end Verif.Proof
