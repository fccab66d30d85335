/-!
Reference counts: which objects are allocated, and who frees them.

The model covers include/aws/cryptosdk/materials.h 298-362 (`refcount_down`, `refcount_up`), 432-466 and
585-620 (base_init, retain and release of CMMs and keyrings), include/aws/cryptosdk/cache.h 92-97 and
490-515 (the same for materials caches), and every constructor, destructor and setter of the library that
creates, passes on or gives up a reference.

The heap holds the allocated objects.  Each object has a reference count and the objects it points to and
must release.  Memory with a single owner (strings, the child array, a session) is an object whose count
is always 1: `aws_string_destroy`, `aws_array_list_clean_up` and `aws_cryptosdk_session_destroy` are then a
release.  Memory that one call allocates and frees again before it returns is not shown.  Addresses are
never reused, so that a stale pointer is always recognised.

The decrement in a release is one atomic step (materials.h 326); the destructor that may follow is a
sequence of further steps, kept on the stack of the thread, and the steps of the threads interleave in any
order.  Everything else that a call does is one step: it works on memory no other thread can see, except
for `aws_cryptosdk_multi_keyring_add_child`, which has no lock, so that the caller has to keep other
threads away from the multi-keyring.
-/

namespace Verif
namespace Lifetime

/-- The kinds of objects: `keyring` is a raw or KMS keyring, `buffer` memory with a single owner. -/
inductive Kind where
  | keyring | multi | defaultCmm | cachingCmm | cache | session | buffer
  deriving DecidableEq, Repr

/-- What the code does not survive. -/
inductive Fault where
  /-- memory is used, or freed, that is not allocated -/
  | useAfterFree
  /-- `assert(old_count != 0)`, materials.h 328 and 358 -/
  | countZero
  /-- `assert(old_count != SIZE_MAX)`, materials.h 358 -/
  | countOverflow
  /-- a pointer is cast to a structure of another kind -/
  | wrongKind
  deriving DecidableEq, Repr

/-- `SIZE_MAX` -/
def sizeMax : Nat := 18446744073709551615

/-- An allocated object.  `children` are the children of a multi-keyring; `fixed` is everything else the
destructor releases, in the order in which it does so. -/
structure Obj where
  kind : Kind
  count : Nat
  children : List Nat := []
  fixed : List Nat := []
  deriving DecidableEq, Repr

/-- What the destructor releases, in this order (multi_keyring.c 129-144: children, generator, array). -/
def Obj.holds (o : Obj) : List Nat := o.children ++ o.fixed

abbrev Heap := List (Nat × Obj)

namespace Heap

def find (h : Heap) (x : Nat) : Option Obj := (h.find? fun e => e.1 == x).map (·.2)

def set (h : Heap) (x : Nat) (o : Obj) : Heap := h.map fun e => if e.1 = x then (x, o) else e

def erase (h : Heap) (x : Nat) : Heap := h.filter fun e => decide (e.1 ≠ x)

end Heap

/-- What a thread still has to do in destructors. -/
inductive Act where
  | rel (x : Nat)
  | free (x : Nat)
  deriving DecidableEq, Repr

structure St where
  heap : Heap
  /-- the next address -/
  next : Nat
  /-- for each thread, the rest of the call it is in -/
  threads : List (List Act)
  deriving Repr

/-- `n` threads and no object. -/
def St.init (n : Nat) : St := { heap := [], next := 0, threads := List.replicate n [] }

/-- `aws_mem_acquire` that succeeds, together with `base_init` (materials.h 441, 595; cache.h 96): the count
is 1. -/
def St.new (s : St) (k : Kind) (fixed : List Nat) : St × Nat :=
  ({ s with heap := (s.next, { kind := k, count := 1, fixed := fixed }) :: s.heap, next := s.next + 1 }, s.next)

/-- `aws_cryptosdk_private_refcount_up` (materials.h 336-362). -/
def St.retain (s : St) (x : Nat) : Except Fault St :=
  match s.heap.find x with
  | none => .error .useAfterFree
  | some o =>
    if o.count = 0 then .error .countZero
    else if o.count = sizeMax then .error .countOverflow
    else .ok { s with heap := s.heap.set x { o with count := o.count + 1 } }

/-- One step of thread `i`.
`rel`: `refcount_down` (materials.h 301-331) and, if it was the last reference, the entry into the
destructor (materials.h 449-454, 602-607; cache.h 501-514): `destroy` releases what the object holds and
then frees the object (multi_keyring.c 129-144, default_cmm.c 152-156, caching_cmm.c 52-59,
raw_aes_keyring.c 260-266, raw_rsa_keyring.c 155-162, session.c 139-151, kms_keyring.cpp 44-47).
`free`: `aws_mem_release`. -/
def St.tick (s : St) (i : Nat) : Except Fault St :=
  match s.threads[i]? with
  | none => .ok s
  | some [] => .ok s
  | some (.rel x :: st) =>
    match s.heap.find x with
    | none => .error .useAfterFree
    | some o =>
      if o.count = 0 then .error .countZero
      else if o.count = 1 then
        .ok { s with
          heap := s.heap.set x { o with count := 0, children := [], fixed := [] }
          threads := s.threads.set i (o.holds.map .rel ++ .free x :: st) }
      else
        .ok { s with
          heap := s.heap.set x { o with count := o.count - 1 }
          threads := s.threads.set i st }
  | some (.free x :: st) =>
    match s.heap.find x with
    | none => .error .useAfterFree
    | some _ => .ok { s with heap := s.heap.erase x, threads := s.threads.set i st }

/-- The calls.  The booleans say whether the allocations and other calls outside the library succeed. -/
inductive Op where
  /-- `aws_cryptosdk_raw_aes_keyring_new` -/
  | rawAes (ok : Bool)
  /-- `aws_cryptosdk_raw_rsa_keyring_new`: are there a private and a public key; does the allocation of the
  structure and names, of the public and of the private key succeed -/
  | rawRsa (priv pub : Bool) (ok okPub okPriv : Bool)
  /-- a `Build` of a KMS keyring -/
  | kms (ok : Bool)
  /-- `aws_cryptosdk_multi_keyring_new` -/
  | multi (gen : Option Nat) (ok : Bool)
  /-- `aws_cryptosdk_multi_keyring_add_child`; does growing the array succeed -/
  | addChild (m c : Nat) (ok : Bool)
  /-- `aws_cryptosdk_default_cmm_new` -/
  | defaultCmm (kr : Nat) (ok : Bool)
  /-- `aws_cryptosdk_materials_cache_local_new` -/
  | cache (ok : Bool)
  /-- `aws_cryptosdk_caching_cmm_new_from_cmm`: is the time limit valid, is there a partition id, does the
  allocation succeed -/
  | cachingCmm (cache up : Nat) (ttl pid ok : Bool)
  /-- `aws_cryptosdk_caching_cmm_new_from_keyring` -/
  | cachingFromKeyring (cache kr : Nat) (okDefault ttl pid ok : Bool)
  /-- `aws_cryptosdk_session_new_from_cmm_2` -/
  | session (cmm : Nat) (ok : Bool)
  /-- `aws_cryptosdk_session_new_from_keyring_2` -/
  | sessionFromKeyring (kr : Nat) (okCmm ok : Bool)
  /-- `aws_cryptosdk_keyring_retain`, `aws_cryptosdk_cmm_retain`, `aws_cryptosdk_materials_cache_retain` -/
  | retain (x : Nat)
  /-- `aws_cryptosdk_keyring_release`, `aws_cryptosdk_cmm_release`, `aws_cryptosdk_materials_cache_release`;
  `none` is the null pointer -/
  | release (x : Option Nat)
  /-- `aws_cryptosdk_session_destroy` -/
  | destroy (x : Nat)
  /-- `KmsMrkAwareSymmetricKeyring::MultiKeyringBuilder::Build` and `BuildDiscovery` (without a generator):
  is there a generator and is it made; is the multi-keyring made; for each child, is it made and added -/
  | mrkBuild (gen : Option Bool) (ok : Bool) (children : List (Bool × Bool))
  deriving Repr

/-- The rest of thread `i`'s call becomes `acts`. -/
def St.push (s : St) (i : Nat) (acts : List Act) : St :=
  { s with threads := s.threads.set i (acts ++ (s.threads[i]?).getD []) }

/-- raw_aes_keyring.c 274-309: the keyring with its name, namespace and key.  A failure frees everything
(304-308; the key is allocated last). -/
def rawAesNew (s : St) (ok : Bool) : St × Option Nat :=
  if !ok then (s, none)
  else
    let (s, name) := s.new .buffer []
    let (s, ns) := s.new .buffer []
    let (s, key) := s.new .buffer []
    let (s, kr) := s.new .keyring [name, ns, key]
    (s, some kr)

/-- raw_rsa_keyring.c 170-220.  The error path (215-219) frees the names and the structure, but not the
public key, which is allocated before the private one. -/
def rawRsaNew (s : St) (priv pub : Bool) (ok okPub okPriv : Bool) : St × Option Nat :=
  if !ok || (!priv && !pub) then (s, none)
  else if pub then
    if !okPub then (s, none)
    else
      let (s, pubKey) := s.new .buffer []
      if priv then
        if !okPriv then (s, none)
        else
          let (s, name) := s.new .buffer []
          let (s, ns) := s.new .buffer []
          let (s, privKey) := s.new .buffer []
          let (s, kr) := s.new .keyring [name, ns, privKey, pubKey]
          (s, some kr)
      else
        let (s, name) := s.new .buffer []
        let (s, ns) := s.new .buffer []
        let (s, kr) := s.new .keyring [name, ns, pubKey]
        (s, some kr)
  else if !okPriv then (s, none)
  else
    let (s, name) := s.new .buffer []
    let (s, ns) := s.new .buffer []
    let (s, privKey) := s.new .buffer []
    let (s, kr) := s.new .keyring [name, ns, privKey]
    (s, some kr)

/-- multi_keyring.c 152-170: the array for the children is freed last (142). -/
def multiNew (s : St) (gen : Option Nat) (ok : Bool) : Except Fault (St × Option Nat) :=
  if !ok then .ok (s, none)
  else
    match gen with
    | none =>
      let (s, arr) := s.new .buffer []
      let (s, m) := s.new .multi [arr]
      .ok (s, some m)
    | some g =>
      match s.retain g with
      | .error f => .error f
      | .ok s =>
        let (s, arr) := s.new .buffer []
        let (s, m) := s.new .multi [g, arr]
        .ok (s, some m)

/-- multi_keyring.c 181-189: the reference is taken before the array grows and is not given back if that
fails.  There is no check of the kind of `m`. -/
def addChild (s : St) (m c : Nat) (ok : Bool) : Except Fault St :=
  match s.heap.find m with
  | none => .error .useAfterFree
  | some om =>
    if om.kind ≠ .multi then .error .wrongKind
    else
      match s.retain c with
      | .error f => .error f
      | .ok s =>
        if !ok then .ok s
        else
          match s.heap.find m with
          | none => .error .useAfterFree
          | some om => .ok { s with heap := s.heap.set m { om with children := om.children ++ [c] } }

/-- default_cmm.c 165-179 -/
def defaultCmmNew (s : St) (kr : Nat) (ok : Bool) : Except Fault (St × Option Nat) :=
  if !ok then .ok (s, none)
  else
    match s.retain kr with
    | .error f => .error f
    | .ok s =>
      let (s, cmm) := s.new .defaultCmm [kr]
      .ok (s, some cmm)

/-- caching_cmm.c 162-201: the string with the partition id (173) is not freed if the allocation of the CMM
(179-182) fails. -/
def cachingCmmNew (s : St) (cache up : Nat) (ttl pid ok : Bool) : Except Fault (St × Option Nat) :=
  if !ttl || !pid then .ok (s, none)
  else
    let (s, p) := s.new .buffer []
    if !ok then .ok (s, none)
    else
      match s.retain up with
      | .error f => .error f
      | .ok s =>
        match s.retain cache with
        | .error f => .error f
        | .ok s =>
          let (s, cmm) := s.new .cachingCmm [p, cache, up]
          .ok (s, some cmm)

/-- One more child of `MultiKeyringBuilder` (kms_mrk_keyring.cpp 844-870 and 942-960): `made` are the children
so far.  `false` is the way to `cleanup`. -/
def mrkChild (s : St) (m : Nat) (made : List Nat) (c : Bool × Bool) : Except Fault (St × List Nat × Bool) :=
  if !c.1 then .ok (s, made, false)
  else
    let (s, kr) := s.new .keyring []
    match addChild s m kr c.2 with
    | .error f => .error f
    | .ok s => .ok (s, made ++ [kr], c.2)

/-- The loop over the children. -/
def mrkChildren (s : St) (m : Nat) (made : List Nat) : List (Bool × Bool) → Except Fault (St × List Nat × Bool)
  | [] => .ok (s, made, true)
  | c :: cs =>
    match mrkChild s m made c with
    | .error f => .error f
    | .ok (s, made, false) => .ok (s, made, false)
    | .ok (s, made, true) => mrkChildren s m made cs

/-- kms_mrk_keyring.cpp 798-893 and 922-975, after the checks of the arguments.  The way to `cleanup`
releases generator, children and multi-keyring (882-892, 967-974); the way out with success (880, 965) releases
nothing. -/
def mrkBuild (s : St) (i : Nat) (gen : Option Bool) (ok : Bool) (children : List (Bool × Bool)) :
    Except Fault (St × Option Nat) :=
  match gen with
  | some false => .ok (s, none)
  | some true =>
    let (s, g) := s.new .keyring []
    match multiNew s (some g) ok with
    | .error f => .error f
    | .ok (s, none) => .ok (s.push i [.rel g], none)
    | .ok (s, some m) =>
      match mrkChildren s m [] children with
      | .error f => .error f
      | .ok (s, made, false) => .ok (s.push i (.rel g :: (made.map .rel ++ [.rel m])), none)
      | .ok (s, _, true) => .ok (s, some m)
  | none =>
    match multiNew s none ok with
    | .error f => .error f
    | .ok (s, none) => .ok (s, none)
    | .ok (s, some m) =>
      match mrkChildren s m [] children with
      | .error f => .error f
      | .ok (s, made, false) => .ok (s.push i (made.map .rel ++ [.rel m]), none)
      | .ok (s, _, true) => .ok (s, some m)

/-- Thread `i` makes a call.  The result is the new object, if the call makes one. -/
def St.call (s : St) (i : Nat) : Op → Except Fault (St × Option Nat)
  | .rawAes ok => .ok (rawAesNew s ok)
  | .rawRsa priv pub ok okPub okPriv => .ok (rawRsaNew s priv pub ok okPub okPriv)
  | .kms ok => if !ok then .ok (s, none) else let (s, kr) := s.new .keyring []; .ok (s, some kr)
  | .multi gen ok => multiNew s gen ok
  | .addChild m c ok => (addChild s m c ok).map fun s => (s, none)
  | .defaultCmm kr ok => defaultCmmNew s kr ok
  | .cache ok => if !ok then .ok (s, none) else let (s, c) := s.new .cache []; .ok (s, some c)
  | .cachingCmm cache up ttl pid ok => cachingCmmNew s cache up ttl pid ok
  -- caching_cmm.c 203-217
  | .cachingFromKeyring cache kr okDefault ttl pid ok =>
    match defaultCmmNew s kr okDefault with
    | .error f => .error f
    | .ok (s, none) => .ok (s, none)
    | .ok (s, some up) =>
      match cachingCmmNew s cache up ttl pid ok with
      | .error f => .error f
      | .ok (s, res) => .ok (s.push i [.rel up], res)
  -- session.c 106-117
  | .session cmm ok =>
    if !ok then .ok (s, none)
    else
      match s.retain cmm with
      | .error f => .error f
      | .ok s =>
        let (s, ses) := s.new .session [cmm]
        .ok (s, some ses)
  -- session.c 119-137
  | .sessionFromKeyring kr okCmm ok =>
    match defaultCmmNew s kr okCmm with
    | .error f => .error f
    | .ok (s, none) => .ok (s, none)
    | .ok (s, some cmm) =>
      if !ok then .ok (s.push i [.rel cmm], none)
      else
        let (s, ses) := s.new .session [cmm]
        .ok (s, some ses)
  | .retain x => (s.retain x).map fun s => (s, none)
  | .release none => .ok (s, none)
  | .release (some x) => .ok (s.push i [.rel x], none)
  | .destroy x => .ok (s.push i [.rel x], none)
  | .mrkBuild gen ok children => mrkBuild s i gen ok children

end Lifetime
end Verif
