import Verif.Model.Session
/-
The local materials cache: source/local_cache.c, and its calls through include/aws/cryptosdk/cache.h.

Entries live in memory that may be freed; touching a freed entry is the explicit outcome `useAfterFree`, a failing `assert` is
`assertFail`.  Every operation that holds the mutex from beginning to end is one function here; interleavings of threads are modelled in
Model/CacheConc.  Locking itself is assumed to succeed.
-/
namespace Verif

/-- Outcomes of cache operations that are not return values. -/
inductive Fault where
  | useAfterFree | assertFail | diverge | nullDeref | doubleFree
deriving DecidableEq, Repr

/-- `NO_EXPIRY`, source/local_cache.c:29. -/
def noExpiry : Nat := 2 ^ 64 - 1

/-- `TTL_EXPIRATION_BATCH_SIZE`, source/local_cache.c:28. -/
def ttlBatch : Nat := 8

/-- The cached materials of an entry: `enc_materials` with `enc_ctx`, or `dec_materials`, source/local_cache.c:56-60 (exactly one of the
two pointers is set for every entry that is ever visible). -/
inductive Mat where
  | enc (m : EncMaterials) (ctx : EncCtx)
  | dec (m : DecMaterials)
deriving DecidableEq

/-- `struct local_cache_entry`, source/local_cache.c:35-92. -/
structure Entry where
  refcount : Nat
  cacheId : Bytes
  expiry : Nat
  creation : Nat
  mat : Mat
  keyMat : Option Bytes
  usageMessages : Nat
  usageBytes : Nat
  zombie : Bool
deriving DecidableEq

/-- `struct aws_cryptosdk_local_cache`, source/local_cache.c:94-124, together with the memory of its entries: `mem n` is the entry with
number `n`, `none` if it was freed or never allocated; numbers are never reused, so that a dangling pointer is recognisable.
`table` is the hash table, `lru` the list from the most to the least recently used entry, `ttl` the contents of the priority queue in
any order; `addr n` is the address of entry `n`, used by the queue to break ties. -/
structure Cache where
  mem : Nat → Option Entry
  next : Nat
  table : List (Bytes × Nat)
  lru : List Nat
  ttl : List Nat
  capacity : Nat
  addr : Nat → Nat

/-- `aws_cryptosdk_materials_cache_local_new`, source/local_cache.c:918-966; allocation is assumed to succeed. -/
def cacheNew (addr : Nat → Nat) (capacity : Nat) : Cache :=
  { mem := fun _ => none, next := 0, table := [], lru := [], ttl := [], capacity := if capacity < 2 then 2 else capacity, addr := addr }

/-- Reading an entry. -/
def Cache.entry (c : Cache) (n : Nat) : Except Fault Entry :=
  match c.mem n with
  | none => .error .useAfterFree
  | some e => .ok e

/-- Writing (`some`) or freeing (`none`, `destroy_cache_entry`, source/local_cache.c:413-426) an entry. -/
def Cache.set (c : Cache) (n : Nat) (e : Option Entry) : Cache := { c with mem := fun m => if m = n then e else c.mem m }

/-- `aws_hash_table_remove`. -/
def tableRemove (t : List (Bytes × Nat)) (id : Bytes) : List (Bytes × Nat) := t.filter (fun x => x.1 ≠ id)

/-- `locked_release_entry` with `invalidate = false`, source/local_cache.c:327-362. -/
def decref (c : Cache) (n : Nat) : Except Fault Cache :=
  match c.entry n with
  | .error f => .error f
  | .ok e =>
    if e.refcount = 0 then .error .assertFail
    else if e.refcount = 1 then if e.zombie then .ok (c.set n none) else .error .assertFail
    else .ok (c.set n (some { e with refcount := e.refcount - 1 }))

/-- `locked_invalidate_entry`, source/local_cache.c:222-251. -/
def invalidate (c : Cache) (n : Nat) (skipHash : Bool) : Except Fault Cache :=
  match c.entry n with
  | .error f => .error f
  | .ok e =>
    if e.zombie then .ok c
    else if skipHash = false ∧ c.table.lookup e.cacheId ≠ some n then .error .assertFail
    else
      let c1 := { c with ttl := if e.expiry ≠ noExpiry then c.ttl.erase n else c.ttl
                         table := if skipHash then c.table else tableRemove c.table e.cacheId
                         lru := c.lru.erase n }
      decref (c1.set n (some { e with zombie := true })) n

/-- `locked_release_entry`, source/local_cache.c:327-375. -/
def lockedRelease (c : Cache) (n : Nat) (inv : Bool) : Except Fault Cache :=
  match c.entry n with
  | .error f => .error f
  | .ok e =>
    if e.refcount = 0 then .error .assertFail
    else if e.refcount = 1 then if e.zombie then .ok (c.set n none) else .error .assertFail
    else
      let c1 := c.set n (some { e with refcount := e.refcount - 1 })
      if inv ∧ e.zombie = false then invalidate c1 n false else .ok c1

/-- What `ttl_heap_cmp` compares, source/local_cache.c:184-202: expiry time, then address. -/
def Cache.ttlKey (c : Cache) (n : Nat) : Nat × Nat :=
  match c.mem n with
  | none => (0, c.addr n)
  | some e => (e.expiry, c.addr n)

/-- `ttl_heap_cmp(a, b) < 0`. -/
def Cache.ttlLt (c : Cache) (a b : Nat) : Bool :=
  (c.ttlKey a).1 < (c.ttlKey b).1 ∨ ((c.ttlKey a).1 = (c.ttlKey b).1 ∧ (c.ttlKey a).2 < (c.ttlKey b).2)

/-- `aws_priority_queue_top`: a least element of the queue. -/
def Cache.ttlTop (c : Cache) : List Nat → Option Nat
  | [] => none
  | n :: ns => match c.ttlTop ns with
    | none => some n
    | some m => if c.ttlLt m n then some m else some n

/-- The loop of `locked_process_ttls`, source/local_cache.c:269-273, with `k` iterations left.  Comparing freed entries in the queue
counts as use after free. -/
def ttlLoop (now : Nat) : Nat → Cache → Except Fault Cache
  | 0, c => .ok c
  | k + 1, c =>
    if c.ttl.any (fun n => (c.mem n).isNone) then .error .useAfterFree
    else match c.ttlTop c.ttl with
      | none => .ok c
      | some n =>
        match c.entry n with
        | .error f => .error f
        | .ok e =>
          if e.expiry ≤ now then
            match invalidate c n false with
            | .error f => .error f
            | .ok c => ttlLoop now k c
          else .ok c

/-- `locked_process_ttls`, source/local_cache.c:258-276.  `clk` is the clock reading, `none` if it fails; callers ignore the result. -/
def processTtls (clk : Option Nat) (c : Cache) : Except Fault Cache :=
  match clk with
  | none => .ok c
  | some now => ttlLoop now ttlBatch c

/-- `find_entry`, source/local_cache.c:511-538, with `locked_find_entry`, 278-293: the cache and the handle. -/
def cacheFind (clk : Option Nat) (id : Bytes) (c : Cache) : Except Fault (Cache × Option Nat) :=
  match processTtls clk c with
  | .error f => .error f
  | .ok c =>
    match c.table.lookup id with
    | none => .ok (c, none)
    | some n =>
      let c1 := { c with lru := n :: c.lru.erase n }
      match c1.entry n with
      | .error f => .error f
      | .ok e => .ok (c1.set n (some { e with refcount := e.refcount + 1 }), some n)

/-- `*is_encrypt`, source/local_cache.c:528-530. -/
def Entry.isEncrypt (e : Entry) : Bool :=
  match e.mat with
  | .enc _ _ => true
  | .dec _ => false

/-- The eviction loop of `locked_insert_entry`, source/local_cache.c:316-322, after inserting entry `n`.  The fuel is the number of
entries in the table; more iterations are not needed (`evict_ok`). -/
def evict (n : Nat) : Nat → Cache → Except Fault Cache
  | 0, c => if c.table.length > c.capacity then .error .diverge else .ok c
  | k + 1, c =>
    if c.table.length > c.capacity then
      match c.lru.getLast? with
      | none => .error .assertFail
      | some m =>
        if m = n then .error .assertFail
        else match invalidate c m false with
          | .error f => .error f
          | .ok c => evict n k c
    else .ok c

/-- Replacing the entry stored under the same id, source/local_cache.c:305-308. -/
def dropOld (c : Cache) (id : Bytes) : Except Fault Cache :=
  match c.table.lookup id with
  | none => .ok c
  | some old => invalidate c old true

/-- `locked_insert_entry`, source/local_cache.c:295-325; `create` says whether `aws_hash_table_create` succeeds.  The second component
is false for AWS_OP_ERR. -/
def insertEntry (clk : Option Nat) (create : Bool) (n : Nat) (id : Bytes) (c : Cache) : Except Fault (Cache × Bool) :=
  match processTtls clk c with
  | .error f => .error f
  | .ok c =>
    if !create then .ok (c, false)
    else match dropOld c id with
      | .error f => .error f
      | .ok c =>
        let c1 := { c with table := (id, n) :: tableRemove c.table id, lru := n :: c.lru }
        match evict n c1.table.length c1 with
        | .error f => .error f
        | .ok c => .ok (c, true)

/-- Outcomes of the calls made by `put_entry_for_*`: the clock reading for `new_entry`, whether all allocations and copies before the
insertion succeed, the clock reading of `locked_process_ttls`, whether the hash table can create an element, and the extraction of the
private or public key from a signature context (`none` if it fails). -/
structure PutEnv where
  clkNew : Option Nat
  alloc : Bool
  clkTtl : Option Nat
  create : Bool
  getKey : SigCtx → Option Bytes

/-- The key stored beside the materials, source/local_cache.c:672-676 and 728-732: `none` is failure. -/
def storedKey (env : PutEnv) : Option SigCtx → Option (Option Bytes)
  | none => some none
  | some sc => (env.getKey sc).map some

/-- `put_entry_for_encrypt` and `put_entry_for_decrypt` after building the materials `mat`, source/local_cache.c:638-700 and 702-754,
with `new_entry`, 377-407.  Returns the handle. -/
def cachePut (env : PutEnv) (id : Bytes) (mat : Mat) (key : Option (Option Bytes)) (bytes messages : Nat) (c : Cache) :
    Except Fault (Cache × Option Nat) :=
  match env.clkNew with
  | none => .ok (c, none)
  | some now =>
    if !env.alloc then .ok (c, none)
    else match key with
      | none => .ok (c, none)
      | some k =>
        let n := c.next
        let e : Entry := ⟨1, id, noExpiry, now, mat, k, messages, bytes, false⟩
        match insertEntry env.clkTtl env.create n id ({ c with next := n + 1 }.set n (some e)) with
        | .error f => .error f
        | .ok (c, false) => .ok (c.set n none, none)
        | .ok (c, true) =>
          match c.entry n with
          | .error f => .error f
          | .ok e => .ok (c.set n (some { e with refcount := e.refcount + 1 }), some n)

/-- `put_entry_for_encrypt`, source/local_cache.c:638-700; the signature context itself is not stored (`copy_enc_materials`, 444-461). -/
def cachePutEnc (env : PutEnv) (id : Bytes) (m : EncMaterials) (bytes messages : Nat) (ctx : EncCtx) (c : Cache) :
    Except Fault (Cache × Option Nat) :=
  cachePut env id (.enc { m with signctx := none } ctx) (storedKey env m.signctx) bytes messages c

/-- `put_entry_for_decrypt`, source/local_cache.c:702-754. -/
def cachePutDec (env : PutEnv) (id : Bytes) (m : DecMaterials) (c : Cache) : Except Fault (Cache × Option Nat) :=
  cachePut env id (.dec { m with signctx := none }) (storedKey env m.signctx) 0 0 c

/-- `update_usage_stats`, source/local_cache.c:540-557: adds to both counters (64-bit wrap) and returns the sums (bytes, messages). -/
def cacheUpdateUsage (n : Nat) (bytes messages : Nat) (c : Cache) : Except Fault (Cache × Except Err (Nat × Nat)) :=
  match c.entry n with
  | .error f => .error f
  | .ok e =>
    if e.zombie ∨ e.isEncrypt = false then .ok (c, .error .badState)
    else
      .ok (c.set n (some { e with usageBytes := u64 (e.usageBytes + bytes), usageMessages := u64 (e.usageMessages + messages) }),
           .ok (u64 (e.usageBytes + bytes), u64 (e.usageMessages + messages)))

/-- Outcomes of the calls made by `get_enc_materials` and `get_dec_materials`: whether the materials can be copied, whether the context
can be cloned (if not, what it then contains), and the start of a signature with a stored key. -/
structure GetEnv where
  copy : Bool
  cloneFails : Option EncCtx
  sigStart : (alg : Nat) → (key : Bytes) → Except Err SigCtx

/-- The signature context of returned materials, source/local_cache.c:586-593 and 622-626. -/
def startSig (env : GetEnv) (alg : Nat) : Option Bytes → Except Err (Option SigCtx)
  | none => .ok none
  | some k => match env.sigStart alg k with
    | .error e => .error e
    | .ok sc => .ok (some sc)

/-- `get_enc_materials`, source/local_cache.c:559-602: the caller's encryption context afterwards and the materials. -/
def cacheGetEnc (env : GetEnv) (n : Nat) (ctx : EncCtx) (c : Cache) : Except Fault (EncCtx × Except Err EncMaterials) :=
  match c.entry n with
  | .error f => .error f
  | .ok e =>
    match e.mat with
    | .dec _ => .ok (ctx, .error .badState)
    | .enc m ectx =>
      if !env.copy then .ok (ctx, .error .oom)
      else match env.cloneFails with
        | some x => .ok (x, .error .oom)
        | none =>
          match startSig env m.alg e.keyMat with
          | .error err => .ok (encCtxClone ctx ectx, .error err)
          | .ok sc => .ok (encCtxClone ctx ectx, .ok { m with signctx := sc })

/-- `get_dec_materials`, source/local_cache.c:603-636. -/
def cacheGetDec (env : GetEnv) (n : Nat) (c : Cache) : Except Fault (Except Err DecMaterials) :=
  match c.entry n with
  | .error f => .error f
  | .ok e =>
    match e.mat with
    | .enc _ _ => .ok (.error .badState)
    | .dec m =>
      if !env.copy then .ok (.error .oom)
      else match startSig env m.alg e.keyMat with
        | .error err => .ok (.error err)
        | .ok sc => .ok (.ok { m with signctx := sc })

/-- `get_creation_time`, source/local_cache.c:756-765. -/
def cacheCreation (n : Nat) (c : Cache) : Except Fault Nat :=
  match c.entry n with
  | .error f => .error f
  | .ok e => .ok e.creation

/-- `set_expiration_hint`, source/local_cache.c:767-816; `push` says whether the queue can take the element. -/
def cacheHint (n t : Nat) (push : Bool) (c : Cache) : Except Fault Cache :=
  match c.entry n with
  | .error f => .error f
  | .ok e =>
    if e.zombie ∨ e.expiry ≤ t then .ok c
    else
      let rest := if e.expiry < noExpiry then c.ttl.erase n else c.ttl
      if push then .ok ({ c with ttl := n :: rest }.set n (some { e with expiry := t }))
      else .ok ({ c with ttl := rest }.set n (some { e with expiry := noExpiry }))

/-- `release_entry`, source/local_cache.c:818-866, without interference (the steps between which other threads may run are modelled in
Model/CacheConc). -/
def cacheRelease (n : Nat) (inv : Bool) (c : Cache) : Except Fault Cache :=
  match c.entry n with
  | .error f => .error f
  | .ok e => if inv ∧ e.zombie = false then lockedRelease c n inv else decref c n

/-- The loop of `clear_cache`, source/local_cache.c:875-887, over the entries of the table. -/
def clearLoop : List (Bytes × Nat) → Cache → Except Fault Cache
  | [], c => .ok c
  | (id, n) :: es, c =>
    match invalidate c n true with
    | .error f => .error f
    | .ok c => clearLoop es { c with table := tableRemove c.table id }

/-- `clear_cache`, source/local_cache.c:868-892. -/
def cacheClear (c : Cache) : Except Fault Cache := clearLoop c.table c

/-- `entry_count`, source/local_cache.c:493-509. -/
def cacheCount (c : Cache) : Nat := c.table.length

/-- `destroy_cache`, source/local_cache.c:476-491: frees the entries of the table. -/
def cacheDestroy (c : Cache) : Cache :=
  { c with mem := fun n => if c.table.any (fun x => x.2 = n) then none else c.mem n, table := [], ttl := [] }

end Verif
