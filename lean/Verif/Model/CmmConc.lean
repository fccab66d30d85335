import Verif.Model.CacheConc
import Verif.Model.CachingCmm
/-
Several threads calling caching CMMs that share one local cache: `generate_enc_materials`, source/caching_cmm.c:488-581, as a program whose
steps are the steps of its calls of the cache (Model/CacheConc).

Calls that do not touch the cache (digests, clocks, the upstream CMM) need no step of their own, except that the upstream call is one.
What they return is given by the same `GenEnv` as in Model/CachingCmm.  Between `generate_enc_materials` calls a thread may make any
other calls of the cache, except storing encryption materials and updating usage statistics, which only `generate_enc_materials` does;
`decrypt_materials` (source/caching_cmm.c:583-647) and clearing the cache are covered by this.
-/
namespace Verif

/-- The arguments of a `generate_enc_materials` call, what it meets outside, and the cache identifier computed from the request. -/
structure GenCall where
  cmm : CachingCmm
  env : GenEnv
  req : EncRequest
  id : Bytes

/-- Where a thread is in `generate_enc_materials`; `n` is the entry it works with. -/
inductive Pc where
  /-- not in the function -/
  | idle
  /-- before `find_entry`, source/caching_cmm.c:520 -/
  | find (g : GenCall)
  /-- in `check_ttl`, before `get_creation_time`, source/caching_cmm.c:228 -/
  | created (g : GenCall) (n : Nat)
  /-- in `check_ttl`, before the expiration hint, source/caching_cmm.c:245 -/
  | hint (g : GenCall) (n t : Nat)
  /-- before `update_usage_stats`, source/caching_cmm.c:530 -/
  | use (g : GenCall) (n : Nat)
  /-- before `get_enc_materials`, source/caching_cmm.c:547 -/
  | get (g : GenCall) (n bytes messages : Nat)
  /-- before releasing an unusable entry, source/caching_cmm.c:559; the request's encryption context is `ctx` -/
  | drop (g : GenCall) (n : Nat) (ctx : EncCtx)
  /-- before releasing the entry at the end, source/caching_cmm.c:551 and 576 -/
  | fin (n : Nat) (inv : Bool)
  /-- before calling the upstream CMM, source/caching_cmm.c:563 -/
  | up (g : GenCall) (ctx : EncCtx)
  /-- before storing its materials, source/caching_cmm.c:568 -/
  | put (g : GenCall) (ctx : EncCtx) (m : EncMaterials)
  /-- in `set_ttl_on_miss`, before `get_creation_time`, source/caching_cmm.c:479 -/
  | createdMiss (g : GenCall) (n : Nat)
  /-- in `set_ttl_on_miss`, before the expiration hint, source/caching_cmm.c:483 -/
  | hintMiss (g : GenCall) (n t : Nat)

/-- The call of the cache a thread makes next. -/
def Pc.op : Pc → Option CacheOp
  | .idle => none
  | .find g => some (.find g.env.clkFind g.id)
  | .created _ n => some (.created n)
  | .hint g n t => some (.hint n t g.env.pushHit)
  | .use g n => some (.use n g.req.plaintextSize 1)
  | .get g n _ _ => some (.getEnc g.env.get n g.req.encCtx)
  | .drop _ n _ => some (.release n true)
  | .fin n inv => some (.release n inv)
  | .up _ _ => none
  | .put g ctx m => some (.putEnc g.env.put g.id m g.req.plaintextSize 1 ctx)
  | .createdMiss _ n => some (.created n)
  | .hintMiss g n t => some (.hint n t g.env.pushMiss)

/-- `*is_encrypt` for a found entry, source/local_cache.c:528-530 (read under the mutex there; it never changes). -/
def Cache.isEncrypt (c : Cache) (n : Nat) : Bool :=
  match c.mem n with
  | none => false
  | some e => e.isEncrypt

/-- The entry is unusable if it cannot be used before `t + ttl`, `check_ttl`, source/caching_cmm.c:229-247. -/
def afterCreated (g : GenCall) (n t : Nat) : Pc :=
  if u64 (t + g.cmm.ttl) < t then .use g n
  else match g.env.clkTtl with
    | none => .drop g n g.req.encCtx
    | some now => if now ≥ u64 (t + g.cmm.ttl) then .drop g n g.req.encCtx else .hint g n (u64 (t + g.cmm.ttl))

/-- What the program does when its call of the cache returned `r`; `c` is the cache then.  With the materials, the event of the request
being served. -/
def Pc.after (c : Cache) : Pc → CacheResult → Pc × Option CmmEvent
  | .find g, .handle none => (.up g g.req.encCtx, none)
  | .find g, .handle (some n) =>
    (if c.isEncrypt n = false then .drop g n g.req.encCtx else if g.cmm.ttl = 2 ^ 64 - 1 then .use g n else .created g n, none)
  | .created g n, .time t => (afterCreated g n t, none)
  | .hint g n _, _ => (.use g n, none)
  | .use g n, .usage (.ok (bytes, messages)) =>
    (if bytes > g.cmm.limitBytes ∨ messages > g.cmm.limitMessages then .drop g n g.req.encCtx else .get g n bytes messages, none)
  | .use g n, _ => (.drop g n g.req.encCtx, none)
  | .get g n _ messages, .encMaterials ctx (.ok m) =>
    (.fin n (messages = g.cmm.limitMessages), some (.gen g.cmm g.env g.req ⟨ctx, .ok m, false⟩))
  | .get g n _ _, .encMaterials ctx (.error _) => (.drop g n ctx, none)
  | .drop g _ ctx, _ => (.up g ctx, none)
  | .put g _ _, .handle (some n) => (if g.cmm.ttl = 2 ^ 64 - 1 then .fin n false else .createdMiss g n, none)
  | .createdMiss g n, .time t => (if u64 (t + g.cmm.ttl) > t then .hintMiss g n (u64 (t + g.cmm.ttl)) else .fin n false, none)
  | .hintMiss _ n _, _ => (.fin n false, none)
  | _, _ => (.idle, none)

/-- `generate_enc_materials` up to the lookup, source/caching_cmm.c:493-519. -/
def genStart (sha : Bytes → Bytes) (cmm : CachingCmm) (env : GenEnv) (req : EncRequest) : Except Fault (Pc × Option CmmEvent) :=
  let bypass : Pc × Option CmmEvent := (.idle, some (.gen cmm env req ⟨(env.up req).1, (env.up req).2, true⟩))
  let cached : Pc × Option CmmEvent :=
    match hashEnc sha env.ids cmm.partition req with
    | .error e => (.idle, some (.gen cmm env req ⟨req.encCtx, .error e, false⟩))
    | .ok id => (.find ⟨cmm, env, req, id⟩, none)
  if req.plaintextSize > cmm.limitBytes then .ok bypass
  else if req.requestedAlg = 0 then .ok cached
  else match canCache req.requestedAlg with
    | .error f => .error f
    | .ok false => .ok bypass
    | .ok true => .ok cached

/-- The call of the upstream CMM and the test whether its materials can be cached, source/caching_cmm.c:563-567. -/
def genUp (g : GenCall) (ctx : EncCtx) : Except Fault (Pc × Option CmmEvent) :=
  match g.env.up { g.req with encCtx := ctx } with
  | (ctx', .error e) => .ok (.idle, some (.gen g.cmm g.env g.req ⟨ctx', .error e, true⟩))
  | (ctx', .ok m) =>
    match canCache m.alg with
    | .error f => .error f
    | .ok b => .ok (if b then .put g ctx' m else .idle, some (.gen g.cmm g.env g.req ⟨ctx', .ok m, true⟩))

/-- Calls of the cache that other functions than `generate_enc_materials` make. -/
def CacheOp.foreign : CacheOp → Bool
  | .use _ _ _ => false
  | .putEnc _ _ _ _ _ _ => false
  | _ => true

/-- Threads calling caching CMMs. -/
structure CmmConc where
  conc : Conc
  pc : Nat → Pc

/-- A scheduled step: a thread begins a `generate_enc_materials` call, or goes on in it: with the upstream call, with a call of the
cache, or with the next step of that call; or, outside of `generate_enc_materials`, it makes another call of the cache. -/
inductive CmmMove where
  | start (cmm : CachingCmm) (env : GenEnv) (req : EncRequest)
  | up
  | call
  | go
  | other (op : CacheOp)

/-- The thread `t` is outside of `generate_enc_materials`. -/
def Pc.isIdle : Pc → Bool
  | .idle => true
  | _ => false

/-- A step without a call of the cache. -/
def CmmConc.local (s : CmmConc) (t : Nat) (r : Except Fault (Pc × Option CmmEvent)) : Except Fault (CmmConc × Option CmmEvent) :=
  match r with
  | .error f => .error f
  | .ok (p, ev) => .ok ({ s with pc := fun i => if i = t then p else s.pc i }, ev)

/-- A step of a call of the cache. -/
def CmmConc.shared (s : CmmConc) (t : Nat) (r : Option (Except Fault (Conc × Option CacheResult))) :
    Option (Except Fault (CmmConc × Option CmmEvent)) :=
  match r with
  | none => none
  | some (.error f) => some (.error f)
  | some (.ok (s', none)) => some (.ok (⟨s', s.pc⟩, none))
  | some (.ok (s', some r)) =>
    some (.ok (⟨s', fun i => if i = t then ((s.pc t).after s'.cache r).1 else s.pc i⟩, ((s.pc t).after s'.cache r).2))

/-- One step of thread `t`, with the event of a request being answered; `none` if the step is not possible. -/
def CmmConc.step (sha : Bytes → Bytes) (s : CmmConc) (t : Nat) (mv : CmmMove) : Option (Except Fault (CmmConc × Option CmmEvent)) :=
  match mv with
  | .start cmm env req =>
    if t < s.conc.num ∧ (s.conc.thr t).doing = .idle ∧ (s.pc t).isIdle = true then some (s.local t (genStart sha cmm env req)) else none
  | .up =>
    match s.pc t with
    | .up g ctx => if t < s.conc.num then some (s.local t (genUp g ctx)) else none
    | _ => none
  | .call =>
    match (s.pc t).op with
    | none => none
    | some op => s.shared t (s.conc.step t (.call op))
  | .go => s.shared t (s.conc.step t .go)
  | .other op => if (s.pc t).isIdle = true ∧ op.foreign = true then s.shared t (s.conc.step t (.call op)) else none

/-- A new cache used by `num` threads. -/
def cmmConcNew (addr : Nat → Nat) (cap num : Nat) : CmmConc := ⟨concNew addr cap num, fun _ => .idle⟩

end Verif
