import Verif.Model.LocalCache
/-
The functions that the local cache gives to the containers of aws-c-common (source/local_cache.c): hash and equality of cache ids for the
hash table, the order of entries for the priority queue.

Pointers matter here: the hash table stores pointers to buffers and the queue pointers to entries, and C can compare pointers as well as
what they point to.
-/
namespace Verif

/-- A `struct aws_byte_buf` as a key of the hash table: where it is, and its contents. -/
structure IdBuf where
  addr : Nat
  bytes : Bytes
deriving DecidableEq, Repr

/-- Byte order of the host. -/
inductive Endian where
  | little | big
deriving DecidableEq, Repr

/-- The value of an unsigned integer object whose bytes in memory are `m`. -/
def readUint (en : Endian) (m : Bytes) : Nat :=
  match en with
  | .little => unbe m.reverse
  | .big => unbe m

/-- `aws_ntoh64` (aws-c-common, byte_order.inl): the identity on big-endian hosts, otherwise the eight bytes are swapped. -/
def ntoh64 (en : Endian) (x : Nat) : Nat :=
  match en with
  | .little => unbe (be 8 x).reverse
  | .big => x

/-- `hash_cache_id`, source/local_cache.c:156-175: at most 8 bytes are copied to the end of a zeroed `uint64_t`, which is then converted
from network order. -/
def hashCacheId (en : Endian) (k : IdBuf) : Nat :=
  let copylen := if k.bytes.length > 8 then 8 else k.bytes.length
  let mem := List.replicate (8 - copylen) 0 ++ k.bytes.take copylen
  ntoh64 en (readUint en mem)

/-- `eq_cache_id`, source/local_cache.c:177-182; `aws_byte_buf_eq` (aws-c-common) compares lengths and bytes. -/
def eqCacheId (a b : IdBuf) : Bool := a.bytes.length == b.bytes.length && a.bytes == b.bytes

/-- `ttl_heap_cmp`, source/local_cache.c:184-202, for entries number `a` and `b`. -/
def Cache.ttlCmp (c : Cache) (a b : Nat) : Int :=
  if c.addr a = c.addr b then 0
  else if (c.ttlKey a).1 < (c.ttlKey b).1 then -1
  else if (c.ttlKey a).1 > (c.ttlKey b).1 then 1
  else if c.addr a < c.addr b then -1
  else 1

end Verif
