/-
The atomic operations on reference counts and the memory orders with which the code calls them.
-/
namespace Verif.MemoryOrder

/-- `enum aws_memory_order` of aws-c-common. -/
inductive Order where
  | relaxed | acquire | release | acqRel | seqCst
deriving DecidableEq, Repr

/-- The operations on a reference count, each a `aws_atomic_fetch_add_explicit` or `aws_atomic_fetch_sub_explicit` of 1. -/
inductive Site where
  /-- `aws_cryptosdk_private_refcount_up`, for CMMs, keyrings and caches -/
  | retain
  /-- `aws_cryptosdk_private_refcount_down`, for CMMs, keyrings and caches -/
  | release
  /-- `find_entry` of the local cache -/
  | findEntry
  /-- `put_entry_for_encrypt` of the local cache -/
  | putEncrypt
  /-- `put_entry_for_decrypt` of the local cache -/
  | putDecrypt
  /-- `locked_release_entry` of the local cache -/
  | lockedRelease
  /-- `release_entry` of the local cache -/
  | releaseEntry
deriving DecidableEq, Repr

/-- The order that the code passes: include/aws/cryptosdk/materials.h:356 and 326; source/local_cache.c:526, 685, 739, 354 and 854. -/
def Site.order : Site → Order
  | .retain => .relaxed
  | .release => .acqRel
  | .findEntry => .relaxed
  | .putEncrypt => .acqRel
  | .putDecrypt => .acqRel
  | .lockedRelease => .release
  | .releaseEntry => .release

/-- Whether the operation adds (the same lines). -/
def Site.adds : Site → Bool
  | .retain | .findEntry | .putEncrypt | .putDecrypt => true
  | .release | .lockedRelease | .releaseEntry => false

/-- The count is a `size_t`; this is what the operation leaves of `v`. -/
def Site.apply (s : Site) (v : Nat) : Nat := if s.adds then (v + 1) % 2 ^ 64 else (v + (2 ^ 64 - 1)) % 2 ^ 64

/-- `aws_atomic_init_int(&…->refcount, 1)`: materials.h:441 and 595, cache.h:96, local_cache.c:398. -/
def initialCount : Nat := 1

/-- `old_count == 1` has the object destroyed: materials.h:330 with 451-453 and 604-606, cache.h:503-511, local_cache.c:357-361 and 857-865. -/
def destroysAt (old : Nat) : Bool := old == 1

end Verif.MemoryOrder
