/-
Which fields of the local cache and its entries each function reads and writes, and where it holds the mutex.
-/
namespace Verif.CacheFields

/-- Fields of `struct local_cache_entry` (source/local_cache.c:36-92), and the three parts of the cache itself that change (lines 94-122). -/
inductive Field where
  | refcount | owner | cacheId | creation | expiry | encMaterials | decMaterials | usageBytes | usageMessages | encCtx | keyMaterials
  | heapNode | lruNode | zombie
  | entries | lruHead | ttlHeap
deriving DecidableEq, Repr

/-- The field is one of the cache, not of an entry. -/
def Field.ofCache : Field → Bool
  | .entries | .lruHead | .ttlHeap => true
  | _ => false

/-- What a function does. -/
inductive Act where
  | lock
  | unlock
  /-- plain write to a new entry, before it is inserted -/
  | make (f : Field)
  | read (f : Field)
  | write (f : Field)
  /-- atomic operation -/
  | atomic (f : Field)
  /-- the atomic addition to the reference count by which the caller gets its reference -/
  | obtain
deriving DecidableEq, Repr

/-- `locked_invalidate_entry` (local_cache.c:222-251), with `locked_release_entry` (327-375) as called at its end. -/
def invalidate : List Act :=
  [.read .owner, .read .zombie, .read .expiry, .write .ttlHeap, .write .heapNode, .read .cacheId, .write .entries, .write .lruNode, .write .lruHead,
   .write .zombie, .atomic .refcount, .read .zombie]

/-- `locked_process_ttls` (258-276); `ttl_heap_cmp` (184-201) reads expiry times while the heap is put in order. -/
def processTtls : List Act := [.read .ttlHeap, .read .expiry] ++ invalidate

/-- `new_entry` and what follows until the entry is inserted (377-407, 653-681, 715-735). -/
def makeEntry : List Act :=
  [.make .refcount, .make .owner, .make .cacheId, .make .creation, .make .expiry, .make .encMaterials, .make .decMaterials, .make .usageBytes,
   .make .usageMessages, .make .encCtx, .make .keyMaterials, .make .heapNode, .make .lruNode, .make .zombie]

/-- `locked_insert_entry` (295-325). -/
def insertEntry : List Act :=
  processTtls ++ [.read .cacheId, .write .entries] ++ invalidate ++ [.write .lruHead, .write .lruNode]

/-- The functions of the vtable of the local cache (894-908), without `destroy`. -/
inductive Fn where
  | findEntry | updateUsage | getEnc | getDec | putEnc | putDec | entryCount | release | creationTime | ttlHint | clear
deriving DecidableEq, Repr

/-- What each function may do, in the order of its text; branches stand one after the other, and what stands here may be left out or repeated.
Destruction of entries is left out. -/
def Fn.body : Fn → List Act
  /- 511-538, with `locked_find_entry` (278-293) -/
  | .findEntry => [.lock] ++ processTtls ++ [.read .entries, .read .cacheId, .write .lruHead, .write .lruNode, .obtain, .read .encMaterials, .unlock]
  /- 540-557 -/
  | .updateUsage => [.read .zombie, .read .encMaterials, .atomic .usageBytes, .atomic .usageMessages]
  /- 559-602 -/
  | .getEnc => [.read .encMaterials, .read .encCtx, .read .keyMaterials]
  /- 603-636 -/
  | .getDec => [.read .decMaterials, .read .keyMaterials]
  /- 638-700 -/
  | .putEnc => [.lock] ++ makeEntry ++ insertEntry ++ [.obtain, .unlock]
  /- 702-754 -/
  | .putDec => [.lock] ++ makeEntry ++ insertEntry ++ [.obtain, .unlock]
  /- 494-509 -/
  | .entryCount => [.lock, .read .entries, .unlock]
  /- 818-866: invalidating through `locked_release_entry` (327-375), else without the mutex -/
  | .release => [.read .owner, .read .zombie, .lock, .atomic .refcount, .read .zombie] ++ invalidate ++ [.unlock, .atomic .refcount, .read .zombie]
  /- 756-765 -/
  | .creationTime => [.read .owner, .read .creation]
  /- 767-816 -/
  | .ttlHint => [.read .owner, .read .zombie, .read .expiry, .lock, .read .zombie, .read .expiry, .write .ttlHeap, .write .heapNode, .write .expiry,
      .write .ttlHeap, .write .heapNode, .write .expiry, .unlock]
  /- 868-892 -/
  | .clear => [.lock, .read .entries] ++ invalidate ++ [.write .entries, .unlock]

/-- Each act with whether the mutex is held, counting lock and unlock themselves. -/
def mark : Bool → List Act → List (Bool × Act)
  | _, [] => []
  | _, .lock :: l => (true, .lock) :: mark true l
  | _, .unlock :: l => (true, .unlock) :: mark false l
  | b, a :: l => (b, a) :: mark b l

end Verif.CacheFields
