import Verif.Model.CmmConc
/-
Threads that make both `generate_enc_materials` and `decrypt_materials` calls (source/caching_cmm.c:488-581 and 583-647) on caching CMMs
sharing one local cache, and clear the cache.

`decrypt_materials` is a program whose steps are the steps of its calls of the cache, as `generate_enc_materials` is in Model/CmmConc.
Digests, clocks and the upstream CMM answer as in Model/CachingCmm.
-/
namespace Verif

/-- The arguments of a `decrypt_materials` call, what it meets outside, and the cache identifier computed from the request. -/
structure DecCall where
  cmm : CachingCmm
  env : DecEnv
  req : DecRequest
  id : Bytes

/-- Where a thread is in `decrypt_materials`; `n` is the entry it works with. -/
inductive DPc where
  /-- not in the function -/
  | idle
  /-- before `find_entry`, source/caching_cmm.c:604 -/
  | find (g : DecCall)
  /-- in `check_ttl`, before `get_creation_time`, source/caching_cmm.c:228 -/
  | created (g : DecCall) (n : Nat)
  /-- in `check_ttl`, before the expiration hint, source/caching_cmm.c:245 -/
  | hint (g : DecCall) (n t : Nat)
  /-- before `get_dec_materials`, source/caching_cmm.c:617 -/
  | get (g : DecCall) (n : Nat)
  /-- before releasing an unusable entry, source/caching_cmm.c:631 -/
  | drop (g : DecCall) (n : Nat)
  /-- before releasing the entry at the end, source/caching_cmm.c:621 and 643 -/
  | fin (n : Nat)
  /-- before calling the upstream CMM, source/caching_cmm.c:634 -/
  | up (g : DecCall)
  /-- before storing its materials, source/caching_cmm.c:638 -/
  | put (g : DecCall) (m : DecMaterials)
  /-- in `set_ttl_on_miss`, before `get_creation_time`, source/caching_cmm.c:479 -/
  | createdMiss (g : DecCall) (n : Nat)
  /-- in `set_ttl_on_miss`, before the expiration hint, source/caching_cmm.c:483 -/
  | hintMiss (g : DecCall) (n t : Nat)

/-- The thread is outside of `decrypt_materials`. -/
def DPc.isIdle : DPc → Bool
  | .idle => true
  | _ => false

/-- The call of the cache a thread makes next. -/
def DPc.op : DPc → Option CacheOp
  | .idle => none
  | .find g => some (.find g.env.clkFind g.id)
  | .created _ n => some (.created n)
  | .hint g n t => some (.hint n t g.env.pushHit)
  | .get g n => some (.getDec g.env.get n)
  | .drop _ n => some (.release n true)
  | .fin n => some (.release n false)
  | .up _ => none
  | .put g m => some (.putDec g.env.put g.id m)
  | .createdMiss _ n => some (.created n)
  | .hintMiss g n t => some (.hint n t g.env.pushMiss)

/-- The entry is unusable if it cannot be used before `t + ttl`, `check_ttl`, source/caching_cmm.c:229-247. -/
def decAfterCreated (g : DecCall) (n t : Nat) : DPc :=
  if u64 (t + g.cmm.ttl) < t then .get g n
  else match g.env.clkTtl with
    | none => .drop g n
    | some now => if now ≥ u64 (t + g.cmm.ttl) then .drop g n else .hint g n (u64 (t + g.cmm.ttl))

/-- What the program does when its call of the cache returned `r`; `c` is the cache then.  With the materials, the event of the request
being served. -/
def DPc.after (c : Cache) : DPc → CacheResult → DPc × Option CmmEvent
  | .find g, .handle none => (.up g, none)
  | .find g, .handle (some n) =>
    (if c.isEncrypt n = true then .drop g n else if g.cmm.ttl = 2 ^ 64 - 1 then .get g n else .created g n, none)
  | .created g n, .time t => (decAfterCreated g n t, none)
  | .hint g n _, _ => (.get g n, none)
  | .get g n, .decMaterials (.ok m) => (.fin n, some (.dec g.cmm g.env g.req ⟨.ok m, false⟩))
  | .get g n, _ => (.drop g n, none)
  | .drop g _, _ => (.up g, none)
  | .put g _, .handle (some n) => (if g.cmm.ttl = 2 ^ 64 - 1 then .fin n else .createdMiss g n, none)
  | .createdMiss g n, .time t => (if u64 (t + g.cmm.ttl) > t then .hintMiss g n (u64 (t + g.cmm.ttl)) else .fin n, none)
  | .hintMiss _ n _, _ => (.fin n, none)
  | _, _ => (.idle, none)

/-- `decrypt_materials` up to the lookup, source/caching_cmm.c:588-603. -/
def decStart (sha : Bytes → Bytes) (cmm : CachingCmm) (env : DecEnv) (req : DecRequest) : Except Fault (DPc × Option CmmEvent) :=
  match canCache req.alg with
  | .error f => .error f
  | .ok false => .ok (.idle, some (.dec cmm env req ⟨env.up req, true⟩))
  | .ok true =>
    match hashDec sha env.ids cmm.partition req with
    | .error f => .error f
    | .ok (.error e) => .ok (.idle, some (.dec cmm env req ⟨.error e, false⟩))
    | .ok (.ok id) => .ok (.find ⟨cmm, env, req, id⟩, none)

/-- The call of the upstream CMM, source/caching_cmm.c:634-636. -/
def decUp (g : DecCall) : DPc × Option CmmEvent :=
  match g.env.up g.req with
  | .error e => (.idle, some (.dec g.cmm g.env g.req ⟨.error e, true⟩))
  | .ok m => (.put g m, some (.dec g.cmm g.env g.req ⟨.ok m, true⟩))

/-- Threads calling caching CMMs to encrypt (`base`) and to decrypt. -/
structure CmmAll where
  base : CmmConc
  dpc : Nat → DPc

/-- A scheduled step: a thread begins one of the two calls or clears the cache, or it goes on in its call: with the upstream call, with a
call of the cache, or with the next step of that call. -/
inductive AllMove where
  | gen (cmm : CachingCmm) (env : GenEnv) (req : EncRequest)
  | dec (cmm : CachingCmm) (env : DecEnv) (req : DecRequest)
  | up
  | call
  | go
  | clear

/-- A step in `generate_enc_materials`. -/
def CmmAll.lift (s : CmmAll) (r : Option (Except Fault (CmmConc × Option CmmEvent))) : Option (Except Fault (CmmAll × Option CmmEvent)) :=
  match r with
  | none => none
  | some (.error f) => some (.error f)
  | some (.ok (b, ev)) => some (.ok (⟨b, s.dpc⟩, ev))

/-- A step in `decrypt_materials` without a call of the cache. -/
def CmmAll.local (s : CmmAll) (t : Nat) (r : Except Fault (DPc × Option CmmEvent)) : Except Fault (CmmAll × Option CmmEvent) :=
  match r with
  | .error f => .error f
  | .ok (p, ev) => .ok ({ s with dpc := fun i => if i = t then p else s.dpc i }, ev)

/-- A step of a call of the cache in `decrypt_materials`. -/
def CmmAll.shared (s : CmmAll) (t : Nat) (r : Option (Except Fault (Conc × Option CacheResult))) :
    Option (Except Fault (CmmAll × Option CmmEvent)) :=
  match r with
  | none => none
  | some (.error f) => some (.error f)
  | some (.ok (k, none)) => some (.ok (⟨⟨k, s.base.pc⟩, s.dpc⟩, none))
  | some (.ok (k, some r)) =>
    some (.ok (⟨⟨k, s.base.pc⟩, fun i => if i = t then ((s.dpc t).after k.cache r).1 else s.dpc i⟩, ((s.dpc t).after k.cache r).2))

/-- One step of thread `t`, with the event of a request being answered; `none` if the step is not possible. -/
def CmmAll.step (sha : Bytes → Bytes) (s : CmmAll) (t : Nat) (mv : AllMove) : Option (Except Fault (CmmAll × Option CmmEvent)) :=
  match mv with
  | .gen cmm env req => if (s.dpc t).isIdle = true then s.lift (s.base.step sha t (.start cmm env req)) else none
  | .dec cmm env req =>
    if t < s.base.conc.num ∧ (s.base.conc.thr t).doing = .idle ∧ (s.base.pc t).isIdle = true ∧ (s.dpc t).isIdle = true then
      some (s.local t (decStart sha cmm env req))
    else none
  | .up =>
    match s.dpc t with
    | .idle => s.lift (s.base.step sha t .up)
    | .up g => if t < s.base.conc.num then some (s.local t (.ok (decUp g))) else none
    | _ => none
  | .call =>
    if (s.dpc t).isIdle = true then s.lift (s.base.step sha t .call)
    else match (s.dpc t).op with
      | none => none
      | some op => s.shared t (s.base.conc.step t (.call op))
  | .go => if (s.dpc t).isIdle = true then s.lift (s.base.step sha t .go) else s.shared t (s.base.conc.step t .go)
  | .clear => if (s.dpc t).isIdle = true then s.lift (s.base.step sha t (.other .clear)) else none

/-- A new cache used by `num` threads. -/
def cmmAllNew (addr : Nat → Nat) (cap num : Nat) : CmmAll := ⟨cmmConcNew addr cap num, fun _ => .idle⟩

end Verif
