import Verif.Model.CachingCmm
/-
The caching CMM (source/caching_cmm.c) over a materials cache of any kind, called through the table of functions of
include/aws/cryptosdk/cache.h, which an application may fill with functions of its own.

A call of the caching CMM is a program that asks the cache questions and goes on depending on the answers.  Nothing is assumed about
the answers here: what the cache does between them, which other threads it serves, is left open.
-/
namespace Verif

/-- The functions of `struct aws_cryptosdk_materials_cache_vt`, include/aws/cryptosdk/cache.h:99-286, that are called on behalf of a
caching CMM. -/
inductive CacheFn where
  | find | usage | getEnc | getDec | putEnc | putDec | release | creation | hint
deriving DecidableEq

/-- The place of the function pointer in the table, include/aws/cryptosdk/cache.h:99-286, with pointers and sizes of eight bytes:
`vt_size` and `name` come first, `destroy` and `entry_count` before `entry_release`. -/
def CacheFn.offset : CacheFn → Nat
  | .find => 16
  | .usage => 24
  | .getEnc => 32
  | .getDec => 40
  | .putEnc => 48
  | .putDec => 56
  | .release => 80
  | .creation => 88
  | .hint => 96

/-- A table of functions: its declared size and which pointers in it are not null. -/
structure CacheVt where
  vtSize : Nat
  set : CacheFn → Bool

/-- `AWS_CRYPTOSDK_PRIVATE_VT_GET_NULL`, include/aws/cryptosdk/vtable.h:28-39: whether the function is there. -/
def CacheVt.has (vt : CacheVt) (f : CacheFn) : Bool := f.offset + 8 ≤ vt.vtSize && vt.set f

/-- The questions to a cache, with the arguments that matter; `η` is the type of entry handles. -/
inductive CacheQuery (η : Type) where
  | find (id : Bytes)
  | usage (h : η) (bytes messages : Nat)
  | getEnc (h : η) (ctx : EncCtx)
  | getDec (h : η)
  | putEnc (id : Bytes) (m : EncMaterials) (bytes messages : Nat) (ctx : EncCtx)
  | putDec (id : Bytes) (m : DecMaterials)
  | release (h : η) (inv : Bool)
  | creation (h : η)
  | hint (h : η) (time : Nat)

/-- The function that is asked. -/
def CacheQuery.fn {η : Type} : CacheQuery η → CacheFn
  | .find _ => .find
  | .usage _ _ _ => .usage
  | .getEnc _ _ => .getEnc
  | .getDec _ => .getDec
  | .putEnc _ _ _ _ _ => .putEnc
  | .putDec _ _ => .putDec
  | .release _ _ => .release
  | .creation _ => .creation
  | .hint _ _ => .hint

/-- The answers.  `find_entry`: whether it reports failure, and the handle with the kind of the entry (true for encryption), if a handle
is given; the kind of an entry that is given is assumed to be written.  `update_usage_stats`: the sums of bytes and messages.
`get_enc_materials`: what it leaves of the encryption context, and the materials. -/
abbrev CacheQuery.Ans {η : Type} : CacheQuery η → Type
  | .find _ => Bool × Option (η × Bool)
  | .usage _ _ _ => Except Err (Nat × Nat)
  | .getEnc _ _ => EncCtx × Except Err EncMaterials
  | .getDec _ => Except Err DecMaterials
  | .putEnc _ _ _ _ _ => Option η
  | .putDec _ _ => Option η
  | .release _ _ => Unit
  | .creation _ => Nat
  | .hint _ _ => Unit

/-- What the calls do when the function is missing, include/aws/cryptosdk/cache.h:288-448.  (The error AWS_ERROR_UNSUPPORTED_OPERATION is
not told apart from other errors by the caching CMM, and is `unimplemented` here.) -/
def CacheQuery.missing {η : Type} : (q : CacheQuery η) → q.Ans
  | .find _ => (false, none)
  | .usage _ _ _ => .error .unimplemented
  | .getEnc _ ctx => (ctx, .error .unimplemented)
  | .getDec _ => .error .unimplemented
  | .putEnc _ _ _ _ _ => none
  | .putDec _ _ => none
  | .release _ _ => ()
  | .creation _ => (0 : Nat)
  | .hint _ _ => ()

/-- Programs that ask a cache. -/
inductive Prog (η α : Type) where
  | ret (a : α)
  | fault (f : Fault)
  | ask (q : CacheQuery η) (k : q.Ans → Prog η α)

/-- One program after the other. -/
def Prog.bind {η α β : Type} (p : Prog η α) (f : α → Prog η β) : Prog η β :=
  match p with
  | .ret a => f a
  | .fault x => .fault x
  | .ask q k => .ask q (fun a => (k a).bind f)

variable {η : Type}

/-- A call through include/aws/cryptosdk/cache.h:288-448: the function if it is there, otherwise the default. -/
def askCache (vt : CacheVt) (q : CacheQuery η) : Prog η q.Ans := if vt.has q.fn then .ask q .ret else .ret q.missing

/-- `check_ttl`, source/caching_cmm.c:223-248. -/
def anyCheckTtl (vt : CacheVt) (cmm : CachingCmm) (clk : Option Nat) (h : η) : Prog η Bool :=
  if cmm.ttl = 2 ^ 64 - 1 then .ret true
  else (askCache vt (.creation h)).bind fun (t : Nat) =>
    if u64 (t + cmm.ttl) < t then .ret true
    else match clk with
      | none => .ret false
      | some now =>
        if now ≥ u64 (t + cmm.ttl) then .ret false
        else (askCache vt (.hint h (u64 (t + cmm.ttl)))).bind fun _ => .ret true

/-- `set_ttl_on_miss`, source/caching_cmm.c:477-486, and the release of the entry that was put, 574-577 and 641-643. -/
def anyAfterPut (vt : CacheVt) (cmm : CachingCmm) : Option η → Prog η Unit
  | none => .ret ()
  | some h =>
    (if cmm.ttl = 2 ^ 64 - 1 then .ret ()
     else (askCache vt (.creation h)).bind fun (t : Nat) =>
      if u64 (t + cmm.ttl) > t then askCache vt (.hint h (u64 (t + cmm.ttl))) else .ret ()).bind fun (_ : Unit) =>
    askCache vt (.release h false)

/-- What a call meets outside of the cache: failures while computing the identifier, the clock read by `check_ttl`, and the upstream CMM. -/
structure AnyGenEnv where
  ids : IdEnv
  clk : Option Nat
  up : EncRequest → EncCtx × Except Err EncMaterials

/-- Giving up an entry, source/caching_cmm.c:553-561. -/
def anyDrop {α : Type} (vt : CacheVt) (h : η) (a : α) : Prog η α := (askCache vt (.release h true)).bind fun _ => .ret a

/-- Using an entry after its usage was updated, source/caching_cmm.c:531-552. -/
def anyUse (vt : CacheVt) (cmm : CachingCmm) (h : η) (req : EncRequest) : Except Err (Nat × Nat) → Prog η (EncCtx × Option EncMaterials)
  | .error _ => anyDrop vt h (req.encCtx, none)
  | .ok (bytes, messages) =>
    if bytes > cmm.limitBytes ∨ messages > cmm.limitMessages then anyDrop vt h (req.encCtx, none)
    else (askCache vt (.getEnc h req.encCtx)).bind fun x =>
      match x with
      | (ctx, .error _) => anyDrop vt h (ctx, none)
      | (ctx, .ok m) => (askCache vt (.release h (messages = cmm.limitMessages))).bind fun _ => .ret (ctx, some m)

/-- The cache lookup of `generate_enc_materials`, source/caching_cmm.c:520-561. -/
def anyTry (vt : CacheVt) (cmm : CachingCmm) (clk : Option Nat) (id : Bytes) (req : EncRequest) : Prog η (EncCtx × Option EncMaterials) :=
  (askCache vt (.find id)).bind fun x =>
    match x with
    | (_, none) => .ret (req.encCtx, none)
    | (fails, some (h, isEncrypt)) =>
      if fails ∨ isEncrypt = false then anyDrop vt h (req.encCtx, none)
      else (anyCheckTtl vt cmm clk h).bind fun ok =>
        if ok then (askCache vt (.usage h req.plaintextSize 1)).bind (anyUse vt cmm h req)
        else anyDrop vt h (req.encCtx, none)

/-- The rest of `generate_enc_materials` after a cache miss, source/caching_cmm.c:563-581. -/
def anyMiss (vt : CacheVt) (cmm : CachingCmm) (env : AnyGenEnv) (id : Bytes) (req : EncRequest) (ctx : EncCtx) : Prog η GenOut :=
  match env.up { req with encCtx := ctx } with
  | (ctx', .error e) => .ret ⟨ctx', .error e, true⟩
  | (ctx', .ok m) =>
    match canCache m.alg with
    | .error f => .fault f
    | .ok false => .ret ⟨ctx', .ok m, true⟩
    | .ok true =>
      (askCache vt (.putEnc id m req.plaintextSize 1 ctx')).bind fun (e : Option η) =>
        (anyAfterPut vt cmm e).bind fun _ => .ret ⟨ctx', .ok m, true⟩

/-- `generate_enc_materials` past the bypass, source/caching_cmm.c:514-581. -/
def anyGenCached (sha : Bytes → Bytes) (vt : CacheVt) (cmm : CachingCmm) (env : AnyGenEnv) (req : EncRequest) : Prog η GenOut :=
  match hashEnc sha env.ids cmm.partition req with
  | .error e => .ret ⟨req.encCtx, .error e, false⟩
  | .ok id =>
    (anyTry vt cmm env.clk id req).bind fun x =>
      match x with
      | (ctx, some m) => .ret ⟨ctx, .ok m, false⟩
      | (ctx, none) => anyMiss vt cmm env id req ctx

/-- `generate_enc_materials`, source/caching_cmm.c:488-581. -/
def anyGenerate (sha : Bytes → Bytes) (vt : CacheVt) (cmm : CachingCmm) (env : AnyGenEnv) (req : EncRequest) : Prog η GenOut :=
  if req.plaintextSize > cmm.limitBytes then .ret ⟨(env.up req).1, (env.up req).2, true⟩
  else if req.requestedAlg = 0 then anyGenCached sha vt cmm env req
  else match canCache req.requestedAlg with
    | .error f => .fault f
    | .ok false => .ret ⟨(env.up req).1, (env.up req).2, true⟩
    | .ok true => anyGenCached sha vt cmm env req

/-- The same for a decryption call. -/
structure AnyDecEnv where
  ids : IdEnv
  clk : Option Nat
  up : DecRequest → Except Err DecMaterials

/-- The cache lookup of `decrypt_materials`, source/caching_cmm.c:604-631. -/
def anyDecTry (vt : CacheVt) (cmm : CachingCmm) (clk : Option Nat) (id : Bytes) : Prog η (Option DecMaterials) :=
  (askCache vt (.find id)).bind fun x =>
    match x with
    | (_, none) => .ret none
    | (fails, some (h, isEncrypt)) =>
      if fails ∨ isEncrypt = true then anyDrop vt h none
      else (anyCheckTtl vt cmm clk h).bind fun ok =>
        if ok then
          (askCache vt (.getDec h)).bind fun (r : Except Err DecMaterials) =>
            match r with
            | .error _ => anyDrop vt h none
            | .ok m => (askCache vt (.release h false)).bind fun _ => .ret (some m)
        else anyDrop vt h none

/-- The rest of `decrypt_materials` after a cache miss, source/caching_cmm.c:633-646. -/
def anyDecMiss (vt : CacheVt) (cmm : CachingCmm) (env : AnyDecEnv) (id : Bytes) (req : DecRequest) : Prog η DecOut :=
  match env.up req with
  | .error e => .ret ⟨.error e, true⟩
  | .ok m =>
    (askCache vt (.putDec id m)).bind fun (e : Option η) =>
      (anyAfterPut vt cmm e).bind fun _ => .ret ⟨.ok m, true⟩

/-- `decrypt_materials`, source/caching_cmm.c:583-647. -/
def anyDecrypt (sha : Bytes → Bytes) (vt : CacheVt) (cmm : CachingCmm) (env : AnyDecEnv) (req : DecRequest) : Prog η DecOut :=
  match canCache req.alg with
  | .error f => .fault f
  | .ok false => .ret ⟨env.up req, true⟩
  | .ok true =>
    match hashDec sha env.ids cmm.partition req with
    | .error f => .fault f
    | .ok (.error e) => .ret ⟨.error e, false⟩
    | .ok (.ok id) =>
      (anyDecTry vt cmm env.clk id).bind fun x =>
        match x with
        | some m => .ret ⟨.ok m, false⟩
        | none => anyDecMiss vt cmm env id req

/-! ## the local cache as one of the caches -/

/-- Answering a program's questions with a cache that is in some state. -/
def Prog.run {α σ : Type} (answer : (q : CacheQuery η) → σ → Except Fault (σ × q.Ans)) : Prog η α → σ → Except Fault (σ × α)
  | .ret a, s => .ok (s, a)
  | .fault f, _ => .error f
  | .ask q k, s =>
    match answer q s with
    | .error f => .error f
    | .ok (s, a) => (k a).run answer s

/-- What the local cache meets outside in a call of the caching CMM: its clock, allocations (for expiration hints before and after
materials are put), and the calls of signature functions. -/
structure LocalEnv where
  clkFind : Option Nat
  pushHit : Bool
  get : GetEnv
  put : PutEnv
  pushMiss : Bool

/-- Giving a handle of an entry together with its kind, source/local_cache.c:528-533. -/
def foundKind (c : Cache) : Option Nat → Except Fault (Bool × Option (Nat × Bool))
  | none => .ok (false, none)
  | some n =>
    match c.entry n with
    | .error f => .error f
    | .ok e => .ok (false, some (n, e.isEncrypt))

/-- An answer that leaves the cache in state `c`; `put` says whether materials have been put in this call. -/
def answered {α : Type} (put : Bool) : Except Fault (Cache × α) → Except Fault ((Cache × Bool) × α)
  | .error f => .error f
  | .ok (c, a) => .ok ((c, put), a)

/-- An answer that does not change the cache. -/
def unchanged {α : Type} (c : Cache × Bool) : Except Fault α → Except Fault ((Cache × Bool) × α)
  | .error f => .error f
  | .ok a => .ok (c, a)

/-- A call without an answer. -/
def silent (put : Bool) : Except Fault Cache → Except Fault ((Cache × Bool) × Unit)
  | .error f => .error f
  | .ok c => .ok ((c, put), ())

/-- The functions of the local cache (Model/LocalCache), in the table at source/local_cache.c:894-907. -/
def localAnswer (env : LocalEnv) : (q : CacheQuery Nat) → Cache × Bool → Except Fault ((Cache × Bool) × q.Ans)
  | .find id, c =>
    match cacheFind env.clkFind id c.1 with
    | .error f => .error f
    | .ok (c', o) => unchanged (c', c.2) (foundKind c' o)
  | .usage n bytes messages, c => answered c.2 (cacheUpdateUsage n bytes messages c.1)
  | .getEnc n ctx, c => unchanged c (cacheGetEnc env.get n ctx c.1)
  | .getDec n, c => unchanged c (cacheGetDec env.get n c.1)
  | .putEnc id m bytes messages ctx, c => answered true (cachePutEnc env.put id m bytes messages ctx c.1)
  | .putDec id m, c => answered true (cachePutDec env.put id m c.1)
  | .release n inv, c => silent c.2 (cacheRelease n inv c.1)
  | .creation n, c => unchanged c (cacheCreation n c.1)
  | .hint n t, c => silent c.2 (cacheHint n t (if c.2 then env.pushMiss else env.pushHit) c.1)

/-- The table of the local cache, source/local_cache.c:894-907: complete. -/
def localVt : CacheVt := ⟨112, fun _ => true⟩

/-- The parts of what a call meets (Model/CachingCmm) that the local cache and that the caching CMM meet. -/
def ofGen (env : GenEnv) : LocalEnv := ⟨env.clkFind, env.pushHit, env.get, env.put, env.pushMiss⟩
def toGen (env : GenEnv) : AnyGenEnv := ⟨env.ids, env.clkTtl, env.up⟩
def ofDec (env : DecEnv) : LocalEnv := ⟨env.clkFind, env.pushHit, env.get, env.put, env.pushMiss⟩
def toDec (env : DecEnv) : AnyDecEnv := ⟨env.ids, env.clkTtl, env.up⟩

/-- Dropping the flag. -/
def plain {γ : Type} : Except Fault ((Cache × Bool) × γ) → Except Fault (Cache × γ)
  | .error f => .error f
  | .ok ((c, _), a) => .ok (c, a)

end Verif
