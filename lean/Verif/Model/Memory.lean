/-
Who owns which block of heap memory: every allocation, move, sharing and release of the code for encrypted data keys (EDKs), keyring traces,
encryption contexts, materials, headers, request digests, cache entries, raw keyrings, caching CMMs and sessions.

Only addresses are kept; contents are not.  Everything that decides which way the code goes (whether an allocation succeeds, whether OpenSSL
and KMS calls and checks succeed, how many elements a message has, whether a key is already in a table, which cache entry is found) is
asked from a list of answers, 0 standing for "goes well".  So a statement about all lists of answers is a statement about all failures at
all places.

Releasing or reading a block that is not live is recorded as a fault, and the run goes on.  Places where the code loses or shares
memory when something fails are recorded as events, together with the failure.

aws-c-common is not in the repository and is trusted here for: `aws_byte_buf_init` of length 0 succeeds without a block; a list grows by
acquiring a new block and releasing the old one (twice the size), and `aws_array_list_clear` sets the length to 0; a hash table is
one block, replaced when it grows; `aws_hash_table_put` on a key that is there destroys the old key and value; static strings
(without allocator) are never released.  Signature contexts are one block each (their inside: Model/Signature.lean).  Mutexes do not fail.
Reference counts of keyrings and CMMs are in Model/Lifetime.lean; cache entries in use by other threads in Model/CacheConc.lean.
-/
namespace Verif.Memory

/-- What the code does to memory besides acquiring and releasing, when something fails. -/
inductive Event where
  /-- list_utils.c:27: some elements are in both lists, and the function fails -/
  | transferPartly
  /-- caching_cmm.c:407-410, 436-437, 469-470: the context of the digest of the encryption context is released a second time -/
  | staleDigest
  /-- header.c:316: an EDK did not fit into the list, and nobody looks -/
  | edkDropped (blocks : List Nat)
  /-- raw_rsa_keyring.c:215-219 -/
  | publicKeyLost (blocks : List Nat)
  /-- caching_cmm.c:181-184 -/
  | partitionIdLost (blocks : List Nat)
  /-- caching_cmm.c:275-277: the first context is not released when the second cannot be had -/
  | digestLost (blocks : List Nat)
deriving DecidableEq, Repr

structure Heap where
  /-- what will be answered -/
  answers : List Nat := []
  /-- the next address -/
  next : Nat := 0
  /-- addresses of blocks acquired and not released -/
  live : List Nat := []
  /-- addresses released or read while not live -/
  faults : List Nat := []
  /-- an allocation, or an OpenSSL call on a digest, has failed -/
  failed : Bool := false
  /-- an EDK field longer than 65535 bytes was to be hashed -/
  oversize : Bool := false
  events : List Event := []
deriving DecidableEq, Repr

/-- Programs over the heap. -/
def MM (α : Type) : Type := Heap → α × Heap

instance : Monad MM where
  pure a := fun h => (a, h)
  bind f g := fun h => let r := f h; g r.1 r.2

/-- The next answer; 0 when there is none left. -/
def ask : MM Nat := fun h => (h.answers.headD 0, { h with answers := h.answers.tail })

/-- Does a call or a check that involves no memory go well? -/
def goesWell : MM Bool := do
  let a ← ask
  pure (a == 0)

/-- An allocation or a digest call failed; what happens then is recorded. -/
def fails (ev : List Event) : MM Unit := fun h => ((), { h with failed := true, events := ev ++ h.events })

/-- A field was too long. -/
def tooLong (ev : List Event) : MM Unit := fun h => ((), { h with oversize := true, events := ev ++ h.events })

/-- `aws_mem_acquire` that succeeds. -/
def acquire : MM Nat := fun h => (h.next, { h with live := h.next :: h.live, next := h.next + 1 })

/-- `aws_mem_release`. -/
def release (x : Nat) : MM Unit := fun h =>
  if x ∈ h.live then ((), { h with live := h.live.erase x }) else ((), { h with faults := x :: h.faults })

/-- Reading a block. -/
def use (x : Nat) : MM Unit := fun h => if x ∈ h.live then ((), h) else ((), { h with faults := x :: h.faults })

/-- `aws_mem_acquire`; `ev` is recorded if it fails. -/
def alloc (ev : List Event) : MM (Option Nat) := do
  let a ← ask
  if a = 0 then do
    let x ← acquire
    pure (some x)
  else do
    fails ev
    pure none

/-- A byte buffer or string as a field of a structure: `none` stands for a null pointer, an empty buffer, a buffer without allocator and a
static string, all of which have no block. -/
abbrev Buf := Option Nat

def freeBuf : Buf → MM Unit
  | none => pure ()
  | some x => release x

def useBuf : Buf → MM Unit
  | none => pure ()
  | some x => use x

/-- `aws_byte_buf_init`, `aws_byte_buf_init_copy`, `aws_string_new_from_*`, `aws_cryptosdk_string_dup` (utils.c:50-56): fails, or gives a block, or
succeeds without one (length 0, static string). -/
def bufInit : MM (Option Buf) := do
  let a ← ask
  if a = 0 then do
    let x ← acquire
    pure (some (some x))
  else if a = 1 then pure (some none)
  else do
    fails []
    pure none

/-- Does `f` to each element. -/
def forEach {α : Type} (f : α → MM Unit) : List α → MM Unit
  | [] => pure ()
  | x :: xs => do
    f x
    forEach f xs

/-- `struct aws_array_list` with its own storage. -/
structure AList (α : Type) where
  data : Buf
  cap : Nat
  items : List α
deriving DecidableEq, Repr

/-- `aws_array_list_init_dynamic`. -/
def listInit {α : Type} (cap : Nat) : MM (Option (AList α)) :=
  if cap = 0 then pure (some ⟨none, 0, []⟩)
  else do
    match ← alloc [] with
    | none => pure none
    | some d => pure (some ⟨some d, cap, []⟩)

/-- `aws_array_list_push_back`: the list grows if it is full; `ev` is recorded if it cannot. -/
def push {α : Type} (l : AList α) (x : α) (ev : List Event) : MM (Option (AList α)) :=
  if l.items.length < l.cap then pure (some { l with items := l.items ++ [x] })
  else do
    match ← alloc ev with
    | none => pure none
    | some d => do
      freeBuf l.data
      pure (some ⟨some d, max (2 * l.cap) (l.items.length + 1), l.items ++ [x]⟩)

/-- `aws_cryptosdk_edk_list_clear` (edk.c:31-42), `aws_cryptosdk_keyring_trace_clear` (keyring_trace.c:235-246). -/
def listClear {α : Type} (clean : α → MM Unit) (l : AList α) : MM (AList α) := do
  useBuf l.data
  forEach clean l.items
  pure { l with items := [] }

/-- `aws_cryptosdk_edk_list_clean_up` (edk.c:44-47), `aws_cryptosdk_keyring_trace_clean_up` (keyring_trace.c:248-253). -/
def listCleanUp {α : Type} (clean : α → MM Unit) (l : AList α) : MM Unit := do
  useBuf l.data
  forEach clean l.items
  freeBuf l.data

/-- The loop of `aws_cryptosdk_transfer_list` (list_utils.c:24-28); the flag tells that nothing has been moved yet. -/
def transferLoop {α : Type} : Bool → List α → AList α → MM (Bool × AList α)
  | _, [], dest => pure (true, dest)
  | first, x :: xs, dest => do
    match ← push dest x (if first then [] else [Event.transferPartly]) with
    | none => pure (false, dest)
    | some d => transferLoop false xs d

/-- `aws_cryptosdk_transfer_list` (list_utils.c:17-37): shallow copies; the source is emptied only at the end.  Gives the two lists afterwards. -/
def transfer {α : Type} (dest src : AList α) : MM (Bool × AList α × AList α) := do
  useBuf src.data
  let (ok, d) ← transferLoop true src.items dest
  pure (ok, d, if ok then { src with items := [] } else src)

/-- The loop of `list_copy_all` (list_utils.c:67-82). -/
def copyLoop {α : Type} (clone : α → MM (Option α)) (clean : α → MM Unit) : List α → AList α → MM (Bool × AList α)
  | [], dest => pure (true, dest)
  | x :: xs, dest => do
    match ← clone x with
    | none => pure (false, dest)
    | some y => do
      match ← push dest y [] with
      | none => do
        clean y
        pure (false, dest)
      | some d => copyLoop clone clean xs d

/-- `list_copy_all` (list_utils.c:43-104): when it fails, what was added is cleaned up and taken off. -/
def copyAll {α : Type} (clone : α → MM (Option α)) (clean : α → MM Unit) (dest src : AList α) : MM (Bool × AList α) := do
  match ← alloc [] with
  | none => pure (false, dest)
  | some tmp => do
    useBuf src.data
    let (ok, d) ← copyLoop clone clean src.items dest
    release tmp
    if ok then pure (true, d)
    else do
      forEach clean (d.items.drop dest.items.length)
      pure (false, { d with items := d.items.take dest.items.length })

/-- `struct aws_cryptosdk_edk`. -/
structure Edk where
  id : Buf
  info : Buf
  ct : Buf
deriving DecidableEq, Repr

/-- `aws_cryptosdk_edk_clean_up` (edk.c:22-29). -/
def edkCleanUp (e : Edk) : MM Unit := do
  freeBuf e.id
  freeBuf e.info
  freeBuf e.ct

/-- Filling the three buffers of an EDK; if one cannot be had, or something else fails, those that were filled are released:
`parse_edk` (header.c:160-187), `aws_cryptosdk_edk_init_clone` (edk.c:49-67), raw_aes_keyring.c:108-131 and 138-139,
raw_rsa_keyring.c:40-56 and 62-63, `append_aws_byte_buf_key_dup_to_edks` (cpputils.cpp:67-84).  The order of the fields differs; it is kept
fixed here. -/
def newEdk : MM (Option Edk) := do
  match ← bufInit with
  | none => pure none
  | some a => do
    if ← goesWell then do
      match ← bufInit with
      | none => do
        edkCleanUp ⟨a, none, none⟩
        pure none
      | some b => do
        match ← bufInit with
        | none => do
          edkCleanUp ⟨a, b, none⟩
          pure none
        | some c => do
          if ← goesWell then pure (some ⟨a, b, c⟩)
          else do
            edkCleanUp ⟨a, b, c⟩
            pure none
    else do
      edkCleanUp ⟨a, none, none⟩
      pure none

/-- Reading the fields of EDKs. -/
def readEdk (e : Edk) : MM Unit := do
  useBuf e.id
  useBuf e.info
  useBuf e.ct

def cloneEdk (e : Edk) : MM (Option Edk) := do
  readEdk e
  newEdk

/-- `aws_cryptosdk_edk_list_init` (edk.c:17-20). -/
def edkListInit : MM (Option (AList Edk)) := listInit 4

/-- `append_aws_byte_buf_key_dup_to_edks` (cpputils.cpp:67-84), and raw_aes_keyring.c:133-141, raw_rsa_keyring.c:58-64. -/
def appendEdk (l : AList Edk) : MM (Bool × AList Edk) := do
  match ← newEdk with
  | none => pure (false, l)
  | some e => do
    match ← push l e [] with
    | none => do
      edkCleanUp e
      pure (false, l)
    | some l' => pure (true, l')

/-- `struct aws_cryptosdk_keyring_trace_record`. -/
structure Rec where
  ns : Buf
  name : Buf
deriving DecidableEq, Repr

/-- `aws_cryptosdk_keyring_trace_record_clean_up` (keyring_trace.c:46-57). -/
def recCleanUp (r : Rec) : MM Unit := do
  freeBuf r.ns
  freeBuf r.name

/-- `record_init_from_*` and `record_init_check` (keyring_trace.c:59-101), `aws_cryptosdk_keyring_trace_record_init_clone` (keyring_trace.c:185-210):
both strings are made, then looked at. -/
def newRec : MM (Option Rec) := do
  let a ← bufInit
  let b ← bufInit
  match a, b with
  | some a, some b => pure (some ⟨a, b⟩)
  | some a, none => do
    recCleanUp ⟨a, none⟩
    pure none
  | none, some b => do
    recCleanUp ⟨none, b⟩
    pure none
  | none, none => pure none

def readRec (r : Rec) : MM Unit := do
  useBuf r.ns
  useBuf r.name

def cloneRec (r : Rec) : MM (Option Rec) := do
  readRec r
  newRec

/-- `aws_cryptosdk_keyring_trace_init` (keyring_trace.c:169-183). -/
def traceInit : MM (Option (AList Rec)) := listInit 10

/-- `aws_cryptosdk_keyring_trace_add_record*` and `push_record_onto_trace` (keyring_trace.c:103-167); every caller ignores the result. -/
def addRecord (t : AList Rec) : MM (AList Rec) := do
  match ← newRec with
  | none => pure t
  | some r => do
    match ← push t r [] with
    | none => do
      recCleanUp r
      pure t
    | some t' => pure t'

/-- An encryption context: a hash table of strings. -/
structure Ctx where
  table : Buf
  items : List (Buf × Buf)
deriving DecidableEq, Repr

def pairCleanUp (p : Buf × Buf) : MM Unit := do
  freeBuf p.1
  freeBuf p.2

/-- `aws_cryptosdk_enc_ctx_init` (enc_ctx.c:25-41). -/
def ctxInit : MM (Option Ctx) := do
  match ← alloc [] with
  | none => pure none
  | some t => pure (some ⟨some t, []⟩)

/-- `aws_cryptosdk_enc_ctx_clear` (enc_ctx.h:54-58). -/
def ctxClear (c : Ctx) : MM Ctx := do
  forEach pairCleanUp c.items
  pure { c with items := [] }

/-- `aws_cryptosdk_enc_ctx_clean_up` (enc_ctx.h:64-71). -/
def ctxCleanUp (c : Ctx) : MM Unit := do
  forEach pairCleanUp c.items
  freeBuf c.table

/-- The table may have to grow before an element is added. -/
def tableGrow (t : Buf) : MM (Option Buf) := do
  let a ← ask
  if a = 0 then pure (some t)
  else do
    match ← alloc [] with
    | none => pure none
    | some d => do
      freeBuf t
      pure (some (some d))

/-- `aws_hash_table_put`: fails, or adds the pair (`some true`), or puts it in the place of an old one, which is destroyed (`some false`). -/
def ctxPut (c : Ctx) (p : Buf × Buf) : MM (Option Bool × Ctx) := do
  useBuf c.table
  let a ← ask
  if a = 0 then do
    match ← tableGrow c.table with
    | none => pure (none, c)
    | some t => pure (some true, ⟨t, c.items ++ [p]⟩)
  else
    match c.items.drop (a - 1) with
    | [] => pure (some true, { c with items := c.items ++ [p] })
    | old :: rest => do
      pairCleanUp old
      pure (some false, { c with items := c.items.take (a - 1) ++ p :: rest })

/-- The loop of `aws_cryptosdk_enc_ctx_deserialize` (enc_ctx.c:150-176). -/
def deserializeLoop : Nat → Ctx → MM (Bool × Ctx)
  | 0, c => pure (true, c)
  | n + 1, c => do
    if ← goesWell then do
      let k ← bufInit
      let v ← bufInit
      match k, v with
      | some k, some v => do
        match ← ctxPut c (k, v) with
        | (none, c') => do
          pairCleanUp (k, v)
          pure (false, c')
        | (some true, c') => deserializeLoop n c'
        | (some false, c') => pure (false, c')
      | some k, none => do
        pairCleanUp (k, none)
        pure (false, c)
      | none, some v => do
        pairCleanUp (none, v)
        pure (false, c)
      | none, none => pure (false, c)
    else pure (false, c)

/-- `aws_cryptosdk_enc_ctx_deserialize` (enc_ctx.c:131-188), of `n` pairs. -/
def ctxDeserialize (n : Nat) (c : Ctx) : MM (Bool × Ctx) := do
  let c ← ctxClear c
  match ← deserializeLoop n c with
  | (true, c) => pure (true, c)
  | (false, c) => do
    let c ← ctxClear c
    pure (false, c)

/-- `clone_or_reuse_string` (enc_ctx.c:190-200). -/
def cloneStr : Buf → MM (Option Buf)
  | none => pure (some none)
  | some x => do
    use x
    match ← alloc [] with
    | none => pure none
    | some y => pure (some (some y))

/-- The first loop of `aws_cryptosdk_enc_ctx_clone` (enc_ctx.c:208-218): pairs whose key is not in the source are deleted. -/
def cloneDrop : List (Buf × Buf) → MM (List (Buf × Buf))
  | [] => pure []
  | p :: ps => do
    if ← goesWell then do
      let rest ← cloneDrop ps
      pure (p :: rest)
    else do
      pairCleanUp p
      cloneDrop ps

/-- One step of the second loop (enc_ctx.c:221-254): the pair is there already, or its value is replaced, or it is added. -/
def cloneStep (c : Ctx) (p : Buf × Buf) : MM (Bool × Ctx) := do
  let a ← ask
  if a = 0 then do
    let k ← cloneStr p.1
    let v ← cloneStr p.2
    match k, v with
    | some k, some v => do
      match ← tableGrow c.table with
      | none => do
        pairCleanUp (k, v)
        pure (false, c)
      | some t => pure (true, ⟨t, c.items ++ [(k, v)]⟩)
    | some k, none => do
      pairCleanUp (k, none)
      pure (false, c)
    | none, some v => do
      pairCleanUp (none, v)
      pure (false, c)
    | none, none => pure (false, c)
  else
    match c.items.drop (a - 1) with
    | [] => pure (true, c)
    | old :: rest => do
      match ← cloneStr p.2 with
      | none => pure (false, c)
      | some v => do
        freeBuf old.2
        pure (true, { c with items := c.items.take (a - 1) ++ (old.1, v) :: rest })

def cloneLoop : List (Buf × Buf) → Ctx → MM (Bool × Ctx)
  | [], c => pure (true, c)
  | p :: ps, c => do
    match ← cloneStep c p with
    | (false, c) => pure (false, c)
    | (true, c) => cloneLoop ps c

/-- `aws_cryptosdk_enc_ctx_clone` (enc_ctx.c:202-257). -/
def ctxClone (dest src : Ctx) : MM (Bool × Ctx) := do
  let items ← cloneDrop dest.items
  cloneLoop src.items { dest with items := items }

/-- `aws_cryptosdk_enc_ctx_serialize` (enc_ctx.c:82-129) and `aws_cryptosdk_hash_elems_array_init` (utils.c:28-48): a list of the elements for sorting.  Writes cannot
fail, since the room is checked first (enc_ctx.c:94). -/
def serializeCtx : MM Bool := do
  if ← goesWell then do
    match ← alloc [] with
    | none => pure false
    | some d => do
      release d
      pure true
  else goesWell

/-- `serialize_aad_init` (raw_aes_keyring.c:29-43); also the buffer of the serialized context in caching_cmm.c:296-300 and 398-404. -/
def serializeAad : MM (Option Buf) := do
  if ← goesWell then do
    match ← bufInit with
    | none => pure none
    | some b => do
      if ← serializeCtx then pure (some b)
      else do
        freeBuf b
        pure none
  else pure none

/-- Encryption materials. -/
structure EncMat where
  self : Nat
  key : Buf
  edks : AList Edk
  trace : AList Rec
  sig : Buf
deriving DecidableEq, Repr

/-- `aws_cryptosdk_enc_materials_new` (materials.c:18-42): the object and its two lists; the other fields are empty. -/
def encMatNew : MM (Option (Nat × AList Edk × AList Rec)) := do
  match ← alloc [] with
  | none => pure none
  | some s => do
    match ← edkListInit with
    | none => do
      release s
      pure none
    | some edks => do
      match ← traceInit with
      | none => do
        listCleanUp edkCleanUp edks
        release s
        pure none
      | some trace => pure (some (s, edks, trace))

/-- `aws_cryptosdk_enc_materials_destroy` (materials.c:44-54). -/
def encMatDestroy (m : EncMat) : MM Unit := do
  freeBuf m.sig
  freeBuf m.key
  listCleanUp edkCleanUp m.edks
  listCleanUp recCleanUp m.trace
  release m.self

/-- Decryption materials. -/
structure DecMat where
  self : Nat
  key : Buf
  trace : AList Rec
  sig : Buf
deriving DecidableEq, Repr

/-- `aws_cryptosdk_dec_materials_new` (materials.c:57-76): the object and its trace. -/
def decMatNew : MM (Option (Nat × AList Rec)) := do
  match ← alloc [] with
  | none => pure none
  | some s => do
    match ← traceInit with
    | none => do
      release s
      pure none
    | some trace => pure (some (s, trace))

/-- `aws_cryptosdk_dec_materials_destroy` (materials.c:78-86). -/
def decMatDestroy (m : DecMat) : MM Unit := do
  freeBuf m.sig
  freeBuf m.key
  listCleanUp recCleanUp m.trace
  release m.self

mutual
/-- Keyrings by what they do to memory: raw AES, raw RSA, KMS (or KMS multi-region) with a number of key ids, multi-keyring with and without a
generator. -/
inductive Kr where
  | aes
  | rsa
  | kms (ids : Nat)
  | multiGen (gen : Kr) (children : Krs)
  | multi (children : Krs)
inductive Krs where
  | nil
  | cons (k : Kr) (ks : Krs)
end

/-- What OnEncrypt works on. -/
structure EncSt where
  key : Buf
  edks : AList Edk
  trace : AList Rec
deriving DecidableEq, Repr

/-- A new data key: raw_aes_keyring.c:159-168, raw_rsa_keyring.c:80-92. -/
def newKey : MM (Option Nat) := do
  match ← alloc [] with
  | none => pure none
  | some k => do
    if ← goesWell then pure (some k)
    else do
      release k
      pure none

/-- Wrapping the data key in raw keyrings, with the buffer of the additional authenticated data if there is one
(`aws_cryptosdk_raw_aes_keyring_encrypt_data_key_with_iv`, raw_aes_keyring.c:90-142; `encrypt_data_key`, raw_rsa_keyring.c:33-65). -/
def wrapKey (withAad : Bool) (l : AList Edk) : MM (Bool × AList Edk) :=
  if withAad then do
    match ← serializeAad with
    | none => pure (false, l)
    | some aad => do
      let r ← appendEdk l
      freeBuf aad
      pure r
  else appendEdk l

/-- `raw_aes_keyring_on_encrypt` (raw_aes_keyring.c:144-183), `raw_rsa_keyring_on_encrypt` (raw_rsa_keyring.c:67-103). -/
def rawOnEncrypt (withAad : Bool) (st : EncSt) : MM (Bool × EncSt) := do
  if ← goesWell then
    match st.key with
    | some k => do
      use k
      match ← wrapKey withAad st.edks with
      | (false, edks) => pure (false, { st with edks := edks })
      | (true, edks) => do
        let trace ← addRecord st.trace
        pure (true, ⟨some k, edks, trace⟩)
    | none => do
      match ← newKey with
      | none => pure (false, st)
      | some k => do
        match ← wrapKey withAad st.edks with
        | (false, edks) => do
          release k
          pure (false, ⟨none, edks, st.trace⟩)
        | (true, edks) => do
          let trace ← addRecord st.trace
          pure (true, ⟨some k, edks, trace⟩)
  else pure (false, st)

/-- The loop over the key ids (kms_keyring.cpp:244-291). -/
def kmsLoop : Nat → AList Edk → AList Rec → MM (Bool × AList Edk × AList Rec)
  | 0, edks, trace => pure (true, edks, trace)
  | n + 1, edks, trace => do
    if ← goesWell then do
      match ← appendEdk edks with
      | (false, edks) => pure (false, edks, trace)
      | (true, edks) => do
        let trace ← addRecord trace
        kmsLoop n edks trace
    else pure (false, edks, trace)

/-- The end of `OnEncrypt`: the lists of the call go to the lists `dE`, `dT` of the caller (kms_keyring.cpp:292-295, multi_keyring.c:78-84); then they are cleaned up
(`ListRaii`; multi_keyring.c:86-89).  `ok` tells whether all went well so far. -/
def handOver (ok : Bool) (dE : AList Edk) (dT : AList Rec) (edks : AList Edk) (trace : AList Rec) :
    MM (Bool × AList Edk × AList Rec) :=
  if ok then do
    match ← transfer dE edks with
    | (false, d, s) => do
      listCleanUp edkCleanUp s
      listCleanUp recCleanUp trace
      pure (false, d, dT)
    | (true, d, s) => do
      let (_, dt, ts) ← transfer dT trace
      listCleanUp edkCleanUp s
      listCleanUp recCleanUp ts
      pure (true, d, dt)
  else do
    listCleanUp edkCleanUp edks
    listCleanUp recCleanUp trace
    pure (false, dE, dT)

/-- `OnEncrypt` of the KMS keyrings (kms_keyring.cpp:161-301; kms_mrk_keyring.cpp has the same shape). -/
def kmsOnEncrypt (ids : Nat) (st : EncSt) : MM (Bool × EncSt) :=
  match ids with
  | 0 => pure (true, st)
  | n + 1 => do
    match ← edkListInit with
    | none => pure (false, st)
    | some edks => do
      match ← traceInit with
      | none => do
        listCleanUp edkCleanUp edks
        pure (false, st)
      | some trace =>
        match st.key with
        | some k => do
          use k
          let (ok, edks, trace) ← kmsLoop (n + 1) edks trace
          let (ok, dE, dT) ← handOver ok st.edks st.trace edks trace
          pure (ok, ⟨some k, dE, dT⟩)
        | none => do
          if ← goesWell then do
            match ← appendEdk edks with
            | (false, edks) => do
              let (_, dE, dT) ← handOver false st.edks st.trace edks trace
              pure (false, ⟨none, dE, dT⟩)
            | (true, edks) => do
              match ← bufInit with
              | none => do
                let (_, dE, dT) ← handOver false st.edks st.trace edks trace
                pure (false, ⟨none, dE, dT⟩)
              | some key => do
                let trace ← addRecord trace
                let (ok, edks, trace) ← kmsLoop n edks trace
                let (ok, dE, dT) ← handOver ok st.edks st.trace edks trace
                if ok then pure (true, ⟨key, dE, dT⟩)
                else do
                  freeBuf key
                  pure (false, ⟨none, dE, dT⟩)
          else do
            let (_, dE, dT) ← handOver false st.edks st.trace edks trace
            pure (false, ⟨none, dE, dT⟩)

/-- The checks around a keyring (`aws_cryptosdk_keyring_on_encrypt`, materials.c:88-136): before the call, and of a new key after it. -/
def guardEnc (f : EncSt → MM (Bool × EncSt)) (st : EncSt) : MM (Bool × EncSt) :=
  if st.key.isNone && !st.edks.items.isEmpty then pure (false, st)
  else do
    let (ok, st') ← f st
    if st.key.isNone && st'.key.isSome then do
      if ← goesWell then pure (ok, st')
      else pure (false, st')
    else pure (ok, st')

/-- The inside of `multi_keyring_on_encrypt` (multi_keyring.c:39-90), given what the generator and the children do. -/
def multiOnEncrypt (gen children : EncSt → MM (Bool × EncSt)) (st : EncSt) : MM (Bool × EncSt) := do
  match ← edkListInit with
  | none => pure (false, st)
  | some edks => do
    match ← traceInit with
    | none => do
      listCleanUp edkCleanUp edks
      pure (false, st)
    | some trace => do
      let (ok, my) ← gen ⟨st.key, edks, trace⟩
      if ok && my.key.isSome then do
        let (ok, my) ← children my
        let (ok, dE, dT) ← handOver ok st.edks st.trace my.edks my.trace
        pure (ok, ⟨my.key, dE, dT⟩)
      else do
        let (_, dE, dT) ← handOver false st.edks st.trace my.edks my.trace
        pure (false, ⟨my.key, dE, dT⟩)

mutual
/-- OnEncrypt of a tree of keyrings. -/
def onEncrypt : Kr → EncSt → MM (Bool × EncSt)
  | .aes => guardEnc (rawOnEncrypt true)
  | .rsa => guardEnc (rawOnEncrypt false)
  | .kms n => guardEnc (kmsOnEncrypt n)
  | .multiGen g ks => guardEnc (multiOnEncrypt (onEncrypt g) (onEncryptAll ks))
  | .multi ks => guardEnc (multiOnEncrypt (fun st => pure (true, st)) (onEncryptAll ks))
/-- `call_on_encrypt_on_list` (multi_keyring.c:20-37). -/
def onEncryptAll : Krs → EncSt → MM (Bool × EncSt)
  | .nil => fun st => pure (true, st)
  | .cons k ks => fun st => do
    match ← onEncrypt k st with
    | (false, st) => pure (false, st)
    | (true, st) => onEncryptAll ks st
end

/-- What OnDecrypt works on. -/
structure DecSt where
  key : Buf
  trace : AList Rec
deriving DecidableEq, Repr

/-- `raw_aes_keyring_on_decrypt` (raw_aes_keyring.c:185-258); `edks` are read. -/
def aesOnDecrypt (edks : List Edk) (st : DecSt) : MM (Bool × DecSt) := do
  match ← serializeAad with
  | none => pure (false, st)
  | some aad => do
    match ← alloc [] with
    | none => do
      freeBuf aad
      pure (false, st)
    | some k => do
      forEach readEdk edks
      if ← goesWell then do
        let trace ← addRecord st.trace
        freeBuf aad
        pure (true, ⟨some k, trace⟩)
      else do
        release k
        freeBuf aad
        pure (true, st)

/-- `raw_rsa_keyring_on_decrypt` (raw_rsa_keyring.c:105-153) and `OnDecrypt` of KMS keyrings (kms_keyring.cpp:50-159): the buffer is made when an EDK
has been decrypted. -/
def bufOnDecrypt (edks : List Edk) (st : DecSt) : MM (Bool × DecSt) := do
  forEach readEdk edks
  if ← goesWell then do
    match ← bufInit with
    | none => pure (false, st)
    | some key => do
      let trace ← addRecord st.trace
      pure (true, ⟨key, trace⟩)
  else do
    let ok ← goesWell
    pure (ok, st)

/-- The checks around a keyring (`aws_cryptosdk_keyring_on_decrypt`, materials.c:138-168). -/
def guardDec (f : DecSt → MM (Bool × DecSt)) (st : DecSt) : MM (Bool × DecSt) :=
  if st.key.isSome then pure (false, st)
  else do
    let (ok, st') ← f st
    if st'.key.isSome then do
      if ← goesWell then pure (ok, st')
      else pure (false, st')
    else pure (ok, st')

mutual
/-- OnDecrypt of a tree of keyrings; `multi_keyring_on_decrypt` is multi_keyring.c:92-127. -/
def onDecrypt (edks : List Edk) : Kr → DecSt → MM (Bool × DecSt)
  | .aes => guardDec (aesOnDecrypt edks)
  | .rsa => guardDec (bufOnDecrypt edks)
  | .kms _ => guardDec (bufOnDecrypt edks)
  | .multiGen g ks => guardDec fun st => do
    let (ok, st) ← onDecrypt edks g st
    if st.key.isSome then pure (true, st)
    else onDecryptAny edks ks ok st
  | .multi ks => guardDec (onDecryptAny edks ks true)
def onDecryptAny (edks : List Edk) : Krs → Bool → DecSt → MM (Bool × DecSt)
  | .nil => fun ok st => pure (ok, st)
  | .cons k ks => fun ok st => do
    let (ok', st) ← onDecrypt edks k st
    if st.key.isSome then pure (true, st)
    else onDecryptAny edks ks (ok && ok') st
end

/-- A signature context together with a key string (`aws_cryptosdk_sig_sign_start_keygen`, cipher_openssl.c:447-514). -/
def keygen : MM (Option (Nat × Nat)) := do
  match ← alloc [] with
  | none => pure none
  | some s => do
    match ← alloc [] with
    | none => do
      release s
      pure none
    | some p => pure (some (s, p))

/-- A signature key for new materials (default_cmm.c:70-80); the suite may have none.  Gives the context and the encryption context; `none` stands
for failure. -/
def signStart (ctx : Ctx) : MM (Option Buf × Ctx) := do
  if ← goesWell then do
    match ← keygen with
    | none => pure (none, ctx)
    | some (s, p) => do
      match ← ctxPut ctx (none, some p) with
      | (none, ctx) => do
        release p
        release s
        pure (none, ctx)
      | (some _, ctx) => pure (some (some s), ctx)
  else pure (some none, ctx)

/-- `default_cmm_generate_enc_materials` (default_cmm.c:35-98). -/
def defaultGen (kr : Kr) (ctx : Ctx) : MM (Option EncMat × Ctx) := do
  if ← goesWell then do
    match ← encMatNew with
    | none => pure (none, ctx)
    | some (self, edks, trace) => do
      match ← signStart ctx with
      | (none, ctx) => do
        encMatDestroy ⟨self, none, edks, trace, none⟩
        pure (none, ctx)
      | (some sig, ctx) => do
        let (ok, st) ← onEncrypt kr ⟨none, edks, trace⟩
        if ok then pure (some ⟨self, st.key, st.edks, st.trace, sig⟩, ctx)
        else do
          encMatDestroy ⟨self, st.key, st.edks, st.trace, sig⟩
          pure (none, ctx)
  else pure (none, ctx)

/-- `default_cmm_decrypt_materials` (default_cmm.c:100-150). -/
def defaultDec (kr : Kr) (edks : List Edk) : MM (Option DecMat) := do
  match ← decMatNew with
  | none => pure none
  | some (self, trace) => do
    let (ok, st) ← onDecrypt edks kr ⟨none, trace⟩
    if ok && st.key.isSome then do
      if ← goesWell then do
        match ← bufInit with
        | none => do
          decMatDestroy ⟨self, st.key, st.trace, none⟩
          pure none
        | some sig => pure (some ⟨self, st.key, st.trace, sig⟩)
      else do
        decMatDestroy ⟨self, st.key, st.trace, none⟩
        pure none
    else do
      decMatDestroy ⟨self, st.key, st.trace, none⟩
      pure none

/-- `struct aws_cryptosdk_md_context` and the OpenSSL context in it. -/
structure Md where
  evp : Nat
  self : Nat
deriving DecidableEq, Repr

/-- `aws_cryptosdk_md_init` (cipher_openssl.c:116-150); `ev` is recorded if it fails. -/
def mdInit (ev : List Event) : MM (Option Md) := do
  match ← alloc ev with
  | none => pure none
  | some e => do
    if ← goesWell then do
      match ← alloc ev with
      | none => do
        release e
        pure none
      | some s => pure (some ⟨e, s⟩)
    else do
      release e
      fails ev
      pure none

/-- `aws_cryptosdk_md_abort` (cipher_openssl.c:194-202). -/
def mdAbort (m : Md) : MM Unit := do
  release m.evp
  release m.self

/-- `aws_cryptosdk_md_update` (cipher_openssl.c:159-170). -/
def mdUpdate (m : Md) (ev : List Event) : MM Bool := do
  use m.self
  use m.evp
  if ← goesWell then pure true
  else do
    fails ev
    pure false

/-- `aws_cryptosdk_md_finish` (cipher_openssl.c:172-192): the context is gone in any case. -/
def mdFinish (m : Md) (ev : List Event) : MM Bool := do
  let ok ← mdUpdate m ev
  mdAbort m
  pure ok

/-- `hash_enc_request` (caching_cmm.c:250-323). -/
def hashEnc : MM Bool := do
  match ← mdInit [] with
  | none => pure false
  | some m => do
    match ← mdInit [Event.digestLost [m.evp, m.self]] with
    | none => pure false
    | some c => do
      if ← mdUpdate m [] then do
        match ← serializeAad with
        | none => do
          mdAbort m
          mdAbort c
          pure false
        | some buf => do
          if ← mdUpdate c [] then do
            if ← mdFinish c [] then do
              if ← mdUpdate m [] then do
                freeBuf buf
                mdFinish m []
              else do
                freeBuf buf
                mdAbort m
                pure false
            else do
              freeBuf buf
              mdAbort m
              pure false
          else do
            freeBuf buf
            mdAbort m
            mdAbort c
            pure false
      else do
        mdAbort m
        mdAbort c
        pure false

/-- The three fields of an EDK (`hash_edk_field`, caching_cmm.c:335-349): a field may be too long. -/
def hashFields (m : Md) : Nat → MM Bool
  | 0 => pure true
  | n + 1 => do
    if ← goesWell then do
      if ← mdUpdate m [Event.staleDigest] then hashFields m n
      else pure false
    else do
      tooLong [Event.staleDigest]
      pure false

/-- `hash_edk_for_decrypt` (caching_cmm.c:351-369), called from the loop of `hash_dec_request`. -/
def hashEdk : MM Bool := do
  match ← mdInit [Event.staleDigest] with
  | none => pure false
  | some m => do
    if ← hashFields m 3 then mdFinish m [Event.staleDigest]
    else do
      mdAbort m
      pure false

/-- The loop of `hash_dec_request` (caching_cmm.c:424-443); the list has room for all. -/
def hashEdks : Nat → MM Bool
  | 0 => pure true
  | n + 1 => do
    if ← hashEdk then hashEdks n
    else pure false

/-- `hash_dec_request` (caching_cmm.c:371-475) for `n` EDKs.  After `aws_cryptosdk_md_finish` (407) `md_context` still points to the released context;
the error path of the loop aborts it (436-437, 469-470). -/
def hashDec (n : Nat) : MM Bool := do
  match ← (listInit n : MM (Option (AList Unit))) with
  | none => pure false
  | some l => do
    match ← mdInit [] with
    | none => do
      freeBuf l.data
      pure false
    | some m => do
      match ← serializeAad with
      | none => do
        mdAbort m
        freeBuf l.data
        pure false
      | some buf => do
        if ← mdUpdate m [] then do
          if ← mdFinish m [] then do
            if ← hashEdks n then do
              match ← mdInit [] with
              | none => do
                freeBuf buf
                freeBuf l.data
                pure false
              | some m2 => do
                if ← mdUpdate m2 [] then do
                  let ok ← mdFinish m2 []
                  freeBuf buf
                  freeBuf l.data
                  pure ok
                else do
                  mdAbort m2
                  freeBuf buf
                  freeBuf l.data
                  pure false
            else do
              mdAbort m
              freeBuf buf
              freeBuf l.data
              pure false
          else do
            freeBuf buf
            freeBuf l.data
            pure false
        else do
          mdAbort m
          freeBuf buf
          freeBuf l.data
          pure false

/-- `struct local_cache_entry`. -/
structure Entry where
  self : Nat
  id : Buf
  enc : Option EncMat
  dec : Option DecMat
  key : Buf
  ctx : Option Ctx
deriving DecidableEq, Repr

def optDo {α : Type} (f : α → MM Unit) : Option α → MM Unit
  | none => pure ()
  | some x => f x

/-- `destroy_cache_entry` (local_cache.c:413-426). -/
def entryDestroy (e : Entry) : MM Unit := do
  optDo encMatDestroy e.enc
  optDo decMatDestroy e.dec
  freeBuf e.key
  optDo ctxCleanUp e.ctx
  freeBuf e.id
  release e.self

/-- `new_entry` (local_cache.c:377-407): the object and its id. -/
def newEntry : MM (Option (Nat × Buf)) := do
  if ← goesWell then do
    match ← alloc [] with
    | none => pure none
    | some s => do
      match ← bufInit with
      | none => do
        release s
        pure none
      | some id => pure (some (s, id))
  else pure none

/-- `copy_enc_materials` (local_cache.c:442-457) into new materials with lists `edks` and `trace`: the key and the lists. -/
def copyEnc (edks : AList Edk) (trace : AList Rec) (src : EncMat) : MM (Bool × Buf × AList Edk × AList Rec) := do
  useBuf src.key
  match ← bufInit with
  | none => pure (false, none, edks, trace)
  | some k => do
    match ← copyAll cloneEdk edkCleanUp edks src.edks with
    | (false, edks) => pure (false, k, edks, trace)
    | (true, edks) => do
      let (ok, trace) ← copyAll cloneRec recCleanUp trace src.trace
      pure (ok, k, edks, trace)

/-- `copy_dec_materials` (local_cache.c:459-473). -/
def copyDec (trace : AList Rec) (src : DecMat) : MM (Bool × Buf × AList Rec) := do
  useBuf src.key
  match ← bufInit with
  | none => pure (false, none, trace)
  | some k => do
    let (ok, trace) ← copyAll cloneRec recCleanUp trace src.trace
    pure (ok, k, trace)

/-- The local cache: the object, its hash table, its heap of expiry times, and the entries. -/
structure Cache where
  self : Nat
  table : Buf
  heap : Buf
  entries : List Entry
deriving DecidableEq, Repr

/-- Entries leave the cache because their time is over (`locked_process_ttls`, local_cache.c:258-276), because they are least recently used or are
replaced (`locked_insert_entry`, local_cache.c:295-325).  No one else holds them, so they are destroyed (`locked_invalidate_entry`,
local_cache.c:222-251; `locked_release_entry`, 327-375). -/
def evict : Nat → List Entry → MM (List Entry)
  | 0, es => pure es
  | n + 1, es => do
    let i ← ask
    match es.drop i with
    | [] => evict n es
    | e :: rest => do
      entryDestroy e
      evict n (es.take i ++ rest)

/-- `locked_insert_entry` (local_cache.c:295-325). -/
def insertEntry (c : Cache) (e : Entry) : MM (Bool × Cache) := do
  let n ← ask
  let es ← evict n c.entries
  match ← tableGrow c.table with
  | none => pure (false, { c with entries := es })
  | some t => pure (true, { c with table := t, entries := e :: es })

/-- `put_entry_for_encrypt` (local_cache.c:638-700). -/
def putEnc (c : Cache) (m : EncMat) (ctx : Ctx) : MM Cache := do
  match ← newEntry with
  | none => pure c
  | some (self, id) => do
    match ← encMatNew with
    | none => do
      entryDestroy ⟨self, id, none, none, none, none⟩
      pure c
    | some (ms, edks, trace) => do
      let (ok, key, edks, trace) ← copyEnc edks trace m
      if ok then do
        match ← ctxInit with
        | none => do
          entryDestroy ⟨self, id, some ⟨ms, key, edks, trace, none⟩, none, none, none⟩
          pure c
        | some ec => do
          match ← ctxClone ec ctx with
          | (false, ec) => do
            entryDestroy ⟨self, id, some ⟨ms, key, edks, trace, none⟩, none, none, some ec⟩
            pure c
          | (true, ec) => do
            useBuf m.sig
            match ← bufInit with
            | none => do
              entryDestroy ⟨self, id, some ⟨ms, key, edks, trace, none⟩, none, none, some ec⟩
              pure c
            | some k => do
              match ← insertEntry c ⟨self, id, some ⟨ms, key, edks, trace, none⟩, none, k, some ec⟩ with
              | (true, c) => pure c
              | (false, c) => do
                entryDestroy ⟨self, id, some ⟨ms, key, edks, trace, none⟩, none, k, some ec⟩
                pure c
      else do
        entryDestroy ⟨self, id, some ⟨ms, key, edks, trace, none⟩, none, none, none⟩
        pure c

/-- `put_entry_for_decrypt` (local_cache.c:702-754). -/
def putDec (c : Cache) (m : DecMat) : MM Cache := do
  match ← newEntry with
  | none => pure c
  | some (self, id) => do
    match ← decMatNew with
    | none => do
      entryDestroy ⟨self, id, none, none, none, none⟩
      pure c
    | some (ms, trace) => do
      let (ok, key, trace) ← copyDec trace m
      if ok then do
        useBuf m.sig
        match ← bufInit with
        | none => do
          entryDestroy ⟨self, id, none, some ⟨ms, key, trace, none⟩, none, none⟩
          pure c
        | some k => do
          match ← insertEntry c ⟨self, id, none, some ⟨ms, key, trace, none⟩, k, none⟩ with
          | (true, c) => pure c
          | (false, c) => do
            entryDestroy ⟨self, id, none, some ⟨ms, key, trace, none⟩, k, none⟩
            pure c
      else do
        entryDestroy ⟨self, id, none, some ⟨ms, key, trace, none⟩, none, none⟩
        pure c

/-- `set_expiration_hint` (local_cache.c:767-816): the heap of expiry times may grow; if it cannot, the entry has no expiry time. -/
def ttlHint (heap : Buf) : MM Buf := do
  match ← tableGrow heap with
  | none => pure heap
  | some t => pure t

/-- `get_enc_materials` (local_cache.c:559-602). -/
def getEnc (e : Entry) (ctx : Ctx) : MM (Option EncMat × Ctx) := do
  use e.self
  match e.enc, e.ctx with
  | some src, some ec => do
    match ← encMatNew with
    | none => pure (none, ctx)
    | some (self, edks, trace) => do
      let (ok, key, edks, trace) ← copyEnc edks trace src
      if ok then do
        match ← ctxClone ctx ec with
        | (false, ctx) => do
          encMatDestroy ⟨self, key, edks, trace, none⟩
          pure (none, ctx)
        | (true, ctx) => do
          useBuf e.key
          match ← bufInit with
          | none => do
            encMatDestroy ⟨self, key, edks, trace, none⟩
            pure (none, ctx)
          | some s => pure (some ⟨self, key, edks, trace, s⟩, ctx)
      else do
        encMatDestroy ⟨self, key, edks, trace, none⟩
        pure (none, ctx)
  | _, _ => pure (none, ctx)

/-- `get_dec_materials` (local_cache.c:603-636). -/
def getDec (e : Entry) : MM (Option DecMat) := do
  use e.self
  match e.dec with
  | some src => do
    match ← decMatNew with
    | none => pure none
    | some (self, trace) => do
      let (ok, key, trace) ← copyDec trace src
      if ok then do
        useBuf e.key
        match ← bufInit with
        | none => do
          decMatDestroy ⟨self, key, trace, none⟩
          pure none
        | some s => pure (some ⟨self, key, trace, s⟩)
      else do
        decMatDestroy ⟨self, key, trace, none⟩
        pure none
  | none => pure none

/-- The entry at a place taken out of the cache and destroyed: `release_entry` with `invalidate` (local_cache.c:818-848). -/
def dropAt (c : Cache) (i : Nat) : MM Cache :=
  match c.entries.drop i with
  | [] => pure c
  | e :: rest => do
    entryDestroy e
    pure { c with entries := c.entries.take i ++ rest }

/-- After a miss: upstream materials, which are entered if the suite can be cached (caching_cmm.c:565-580). -/
def missEnc (kr : Kr) (ctx : Ctx) (c : Cache) : MM (Option EncMat × Ctx × Cache) := do
  match ← defaultGen kr ctx with
  | (none, ctx) => pure (none, ctx, c)
  | (some m, ctx) => do
    if ← goesWell then do
      let c ← putEnc c m ctx
      let heap ← ttlHint c.heap
      pure (some m, ctx, { c with heap := heap })
    else pure (some m, ctx, c)

/-- `generate_enc_materials` of the caching CMM (caching_cmm.c:488-581), over a default CMM. -/
def cachingGen (kr : Kr) (ctx : Ctx) (c : Cache) : MM (Option EncMat × Ctx × Cache) := do
  if ← goesWell then do
    if ← hashEnc then do
      let n ← ask
      let es ← evict n c.entries
      let c := { c with entries := es }
      let i ← ask
      match c.entries.drop i with
      | [] => missEnc kr ctx c
      | e :: _ => do
        if ← goesWell then do
          let heap ← ttlHint c.heap
          let c := { c with heap := heap }
          match ← getEnc e ctx with
          | (some m, ctx) => do
            if ← goesWell then pure (some m, ctx, c)
            else do
              let c ← dropAt c i
              pure (some m, ctx, c)
          | (none, ctx) => do
            let c ← dropAt c i
            missEnc kr ctx c
        else do
          let c ← dropAt c i
          missEnc kr ctx c
    else pure (none, ctx, c)
  else do
    let (m, ctx) ← defaultGen kr ctx
    pure (m, ctx, c)

/-- After a miss on decryption (caching_cmm.c:634-646). -/
def missDec (kr : Kr) (edks : List Edk) (c : Cache) : MM (Option DecMat × Cache) := do
  match ← defaultDec kr edks with
  | none => pure (none, c)
  | some m => do
    let c ← putDec c m
    let heap ← ttlHint c.heap
    pure (some m, { c with heap := heap })

/-- `decrypt_materials` of the caching CMM (caching_cmm.c:583-647). -/
def cachingDec (kr : Kr) (edks : List Edk) (c : Cache) : MM (Option DecMat × Cache) := do
  if ← goesWell then do
    if ← hashDec edks.length then do
      let n ← ask
      let es ← evict n c.entries
      let c := { c with entries := es }
      let i ← ask
      match c.entries.drop i with
      | [] => missDec kr edks c
      | e :: _ => do
        if ← goesWell then do
          let heap ← ttlHint c.heap
          let c := { c with heap := heap }
          match ← getDec e with
          | some m => pure (some m, c)
          | none => do
            let c ← dropAt c i
            missDec kr edks c
        else do
          let c ← dropAt c i
          missDec kr edks c
    else pure (none, c)
  else do
    let m ← defaultDec kr edks
    pure (m, c)

/-- `struct aws_cryptosdk_hdr`. -/
structure Hdr where
  ctx : Ctx
  edks : AList Edk
  iv : Buf
  tag : Buf
  msgId : Buf
  suiteData : Buf
deriving DecidableEq, Repr

/-- `aws_cryptosdk_hdr_init` (header.c:111-126). -/
def hdrInit : MM (Option Hdr) := do
  match ← ctxInit with
  | none => pure none
  | some ctx => do
    match ← edkListInit with
    | none => do
      ctxCleanUp ctx
      pure none
    | some edks => pure (some ⟨ctx, edks, none, none, none, none⟩)

/-- The four buffers of a header. -/
def hdrBufs (h : Hdr) : MM Unit := do
  freeBuf h.iv
  freeBuf h.tag
  freeBuf h.msgId
  freeBuf h.suiteData

/-- `aws_cryptosdk_hdr_clear` (header.c:128-142): what is left in the header, all buffers being empty. -/
def hdrClear (h : Hdr) : MM (Ctx × AList Edk) := do
  hdrBufs h
  let edks ← listClear edkCleanUp h.edks
  let ctx ← ctxClear h.ctx
  pure (ctx, edks)

/-- `aws_cryptosdk_hdr_clean_up` (header.c:144-158). -/
def hdrCleanUp (h : Hdr) : MM Unit := do
  hdrBufs h
  listCleanUp edkCleanUp h.edks
  ctxCleanUp h.ctx

/-- The loop of `aws_cryptosdk_priv_hdr_parse_edks` (header.c:313-317): the result of the push is ignored. -/
def parseEdks : Nat → AList Edk → MM (Bool × AList Edk)
  | 0, l => pure (true, l)
  | n + 1, l => do
    match ← newEdk with
    | none => pure (false, l)
    | some e => do
      match ← push l e [Event.edkDropped (e.id.toList ++ e.info.toList ++ e.ct.toList)] with
      | none => parseEdks n l
      | some l' => parseEdks n l'

/-- The end of `aws_cryptosdk_hdr_parse` (header.c:209-227): algorithm suite data, IV and tag; each may be missing, or fail. -/
def parseTail : MM (Bool × Buf × Buf × Buf) := do
  match ← bufInit with
  | none => pure (false, none, none, none)
  | some d => do
    match ← bufInit with
    | none => pure (false, none, none, d)
    | some iv => do
      match ← bufInit with
      | none => pure (false, iv, none, d)
      | some tag => do
        let ok ← goesWell
        pure (ok, iv, tag, d)

/-- The steps of `aws_cryptosdk_hdr_parse` (header.c:201-227), from a header that was cleared. -/
def parseSteps (ctx : Ctx) (edks : AList Edk) : MM (Bool × Hdr) := do
  match ← bufInit with
  | none => pure (false, ⟨ctx, edks, none, none, none, none⟩)
  | some i => do
    let n ← ask
    match ← ctxDeserialize n ctx with
    | (false, ctx) => pure (false, ⟨ctx, edks, none, none, i, none⟩)
    | (true, ctx) => do
      let k ← ask
      match ← parseEdks k edks with
      | (false, edks) => pure (false, ⟨ctx, edks, none, none, i, none⟩)
      | (true, edks) => do
        let (ok, iv, tag, d) ← parseTail
        pure (ok, ⟨ctx, edks, iv, tag, i, d⟩)

/-- `aws_cryptosdk_hdr_parse` (header.c:189-228) with its error paths (396-414): the header is cleared before, and again on failure. -/
def hdrParse (h : Hdr) : MM (Bool × Hdr) := do
  let (ctx, edks) ← hdrClear h
  match ← parseSteps ctx edks with
  | (true, h) => pure (true, h)
  | (false, h) => do
    let (ctx, edks) ← hdrClear h
    pure (false, ⟨ctx, edks, none, none, none, none⟩)

/-- Where a session is: before anything, within a message (or failed). -/
inductive Stage where
  | start
  | busy
deriving DecidableEq, Repr

/-- `struct aws_cryptosdk_session`. -/
structure Session where
  self : Nat
  hdr : Hdr
  copy : Buf
  trace : AList Rec
  sig : Buf
  stage : Stage
deriving DecidableEq, Repr

/-- `aws_cryptosdk_session_reset` (session.c:29-69): what is left in the session. -/
def resetParts (s : Session) : MM (Ctx × AList Edk × AList Rec) := do
  freeBuf s.copy
  let (ctx, edks) ← hdrClear s.hdr
  let trace ← listClear recCleanUp s.trace
  freeBuf s.sig
  pure (ctx, edks, trace)

def sessionReset (s : Session) : MM Session := do
  let (ctx, edks, trace) ← resetParts s
  pure ⟨s.self, ⟨ctx, edks, none, none, none, none⟩, none, trace, none, .start⟩

/-- What is done after a reset when a session goes (session.c:97-99, 145-150). -/
def sessionFree (self : Nat) (ctx : Ctx) (edks : AList Edk) (trace : AList Rec) : MM Unit := do
  hdrCleanUp ⟨ctx, edks, none, none, none, none⟩
  listCleanUp recCleanUp trace
  release self

/-- `aws_cryptosdk_session_new` (session.c:71-104). -/
def sessionNew : MM (Option Session) := do
  match ← alloc [] with
  | none => pure none
  | some self => do
    match ← hdrInit with
    | none => do
      release self
      pure none
    | some hdr => do
      match ← traceInit with
      | none => do
        hdrCleanUp hdr
        release self
        pure none
      | some trace => do
        let (ctx, edks, trace) ← resetParts ⟨self, hdr, none, trace, none, .start⟩
        if ← goesWell then pure (some ⟨self, ⟨ctx, edks, none, none, none, none⟩, none, trace, none, .start⟩)
        else do
          sessionFree self ctx edks trace
          pure none

/-- `aws_cryptosdk_session_destroy` (session.c:139-151). -/
def sessionDestroy (s : Session) : MM Unit := do
  let (ctx, edks, trace) ← resetParts s
  sessionFree s.self ctx edks trace

/-- The buffers made in `build_header` (session_encrypt.c:169-178). -/
def headerBufs : MM (Bool × Buf × Buf) := do
  match ← bufInit with
  | none => pure (false, none, none)
  | some iv => do
    match ← bufInit with
    | none => pure (false, iv, none)
    | some tag => pure (true, iv, tag)

/-- `sign_header` (session_encrypt.c:183-269): the copy of the header. -/
def signHeader (h : Hdr) (sig : Buf) : MM Buf := do
  if ← goesWell then do
    match ← alloc [] with
    | none => pure none
    | some c => do
      forEach readEdk h.edks.items
      if ← serializeCtx then do
        if ← goesWell then do
          forEach readEdk h.edks.items
          if ← serializeCtx then do
            useBuf sig
            pure (some c)
          else pure (some c)
        else pure (some c)
      else pure (some c)
  else pure none

/-- `aws_cryptosdk_priv_try_gen_key` (session_encrypt.c:50-150) from the materials on (71), with the encryption context `ctx` they came with: header
and session get their parts; in `build_header` (152-181) the EDK lists of header and materials change places; the materials are destroyed. -/
def takeMaterials (s : Session) (ctx : Ctx) (m : EncMat) : MM Session := do
  if ← goesWell then do
    let (_, trace, rest) ← transfer s.trace m.trace
    match ← bufInit with
    | none => do
      encMatDestroy ⟨m.self, m.key, m.edks, rest, none⟩
      pure { s with hdr := { s.hdr with ctx := ctx }, trace := trace, sig := m.sig, stage := .busy }
    | some i => do
      if ← goesWell then do
        let (ok, iv, tag) ← headerBufs
        if ok then do
          let copy ← signHeader { s.hdr with edks := m.edks } m.sig
          encMatDestroy ⟨m.self, m.key, s.hdr.edks, rest, none⟩
          pure { s with hdr := { s.hdr with ctx := ctx, edks := m.edks, iv := iv, tag := tag, msgId := i },
                        copy := copy, trace := trace, sig := m.sig, stage := .busy }
        else do
          encMatDestroy ⟨m.self, m.key, s.hdr.edks, rest, none⟩
          pure { s with hdr := { s.hdr with ctx := ctx, edks := m.edks, iv := iv, tag := tag, msgId := i },
                        trace := trace, sig := m.sig, stage := .busy }
      else do
        encMatDestroy ⟨m.self, m.key, m.edks, rest, none⟩
        pure { s with hdr := { s.hdr with ctx := ctx, msgId := i }, trace := trace, sig := m.sig, stage := .busy }
  else do
    encMatDestroy m
    pure { s with hdr := { s.hdr with ctx := ctx }, stage := .busy }

/-- The key of a message (session_encrypt.c:50-150). -/
def genKey (kr : Kr) (caching : Bool) (s : Session) (cache : Option Cache) : MM (Session × Option Cache) :=
  match caching, cache with
  | true, some c => do
    match ← cachingGen kr s.hdr.ctx c with
    | (none, ctx, c) => pure ({ s with hdr := { s.hdr with ctx := ctx }, stage := .busy }, some c)
    | (some m, ctx, c) => do
      let s ← takeMaterials s ctx m
      pure (s, some c)
  | _, cache => do
    match ← defaultGen kr s.hdr.ctx with
    | (none, ctx) => pure ({ s with hdr := { s.hdr with ctx := ctx }, stage := .busy }, cache)
    | (some m, ctx) => do
      let s ← takeMaterials s ctx m
      pure (s, cache)

/-- The EDKs of a request are shallow copies without allocators (`fill_request`, session_decrypt.c:33-65); only the list is the request's own. -/
def fillLoop : Nat → AList Unit → MM (Bool × AList Unit)
  | 0, l => pure (true, l)
  | n + 1, l => do
    match ← push l () [] with
    | none => pure (false, l)
    | some l' => fillLoop n l'

def fillRequest (s : Session) : MM (Option (AList Unit)) := do
  match ← (listInit 4 : MM (Option (AList Unit))) with
  | none => pure none
  | some l => do
    match ← fillLoop s.hdr.edks.items.length l with
    | (true, l) => pure (some l)
    | (false, l) => do
      freeBuf l.data
      pure none

/-- From the decryption materials on (session_decrypt.c:141-183): the session gets the trace and the signature context, and the materials are
destroyed. -/
def takeDec (s : Session) (m : DecMat) : MM Session := do
  let (_, trace, rest) ← transfer s.trace m.trace
  if ← goesWell then do
    useBuf s.copy
    decMatDestroy ⟨m.self, m.key, rest, none⟩
    pure { s with trace := trace, sig := m.sig }
  else do
    decMatDestroy ⟨m.self, m.key, rest, m.sig⟩
    pure { s with trace := trace }

/-- `aws_cryptosdk_priv_unwrap_keys` (session_decrypt.c:125-186). -/
def unwrapKeys (kr : Kr) (caching : Bool) (s : Session) (cache : Option Cache) : MM (Session × Option Cache) := do
  match ← fillRequest s with
  | none => pure (s, cache)
  | some req =>
    match caching, cache with
    | true, some c => do
      match ← cachingDec kr s.hdr.edks.items c with
      | (none, c) => do
        freeBuf req.data
        pure (s, some c)
      | (some m, c) => do
        let s ← takeDec s m
        freeBuf req.data
        pure (s, some c)
    | _, cache => do
      match ← defaultDec kr s.hdr.edks.items with
      | none => do
        freeBuf req.data
        pure (s, cache)
      | some m => do
        let s ← takeDec s m
        freeBuf req.data
        pure (s, cache)

/-- `aws_cryptosdk_priv_try_parse_header` (session_decrypt.c:188-229): with too little input the header is parsed again later. -/
def parseHeader (kr : Kr) (caching : Bool) (s : Session) (cache : Option Cache) : MM (Session × Option Cache) := do
  match ← hdrParse s.hdr with
  | (false, hdr) => do
    if ← goesWell then pure ({ s with hdr := hdr }, cache)
    else pure ({ s with hdr := hdr, stage := .busy }, cache)
  | (true, hdr) => do
    let s := { s with hdr := hdr, stage := .busy }
    match ← alloc [] with
    | none => pure (s, cache)
    | some c => unwrapKeys kr caching { s with copy := some c } cache

/-- `aws_cryptosdk_priv_write_trailer` (session_encrypt.c:400-448) and `aws_cryptosdk_priv_check_trailer` (session_decrypt.c:307-345): the signature
context ends, and the string of the signature is released.  When the string cannot be made for checking, the context stays. -/
def trailer (s : Session) : MM Session :=
  match s.sig with
  | none => pure s
  | some g => do
    match ← alloc [] with
    | none => do
      if ← goesWell then pure s
      else do
        release g
        pure { s with sig := none }
    | some str => do
      use g
      release g
      release str
      pure { s with sig := none }

/-- `aws_cryptosdk_session_get_keyring_trace_ptr` (session.c:570-576) and what a program does with it: reading the records. -/
def readTrace (s : Session) : MM Unit := do
  useBuf s.trace.data
  forEach readRec s.trace.items

/-- A program adds a pair of strings to the encryption context of a session. -/
def userPut (s : Session) : MM Session := do
  let k ← bufInit
  let v ← bufInit
  match k, v with
  | some k, some v => do
    match ← ctxPut s.hdr.ctx (k, v) with
    | (none, ctx) => do
      pairCleanUp (k, v)
      pure { s with hdr := { s.hdr with ctx := ctx } }
    | (some _, ctx) => pure { s with hdr := { s.hdr with ctx := ctx } }
  | some k, none => do
    pairCleanUp (k, none)
    pure s
  | none, some v => do
    pairCleanUp (none, v)
    pure s
  | none, none => pure s

/-- `aws_cryptosdk_materials_cache_local_new` (local_cache.c:918-966). -/
def cacheNew : MM (Option Cache) := do
  match ← alloc [] with
  | none => pure none
  | some s => do
    if ← goesWell then do
      match ← alloc [] with
      | none => do
        release s
        pure none
      | some t => do
        match ← alloc [] with
        | none => do
          release t
          release s
          pure none
        | some h => pure (some ⟨s, some t, some h, []⟩)
    else do
      release s
      pure none

/-- `clear_cache` (local_cache.c:868-892). -/
def cacheClear (c : Cache) : MM Cache := do
  forEach entryDestroy c.entries
  pure { c with entries := [] }

/-- `destroy_cache` (local_cache.c:477-492). -/
def cacheDestroy (c : Cache) : MM Unit := do
  freeBuf c.heap
  forEach entryDestroy c.entries
  freeBuf c.table
  release c.self

/-- A raw keyring: the object and its strings. -/
structure Raw where
  self : Nat
  name : Buf
  ns : Buf
  key1 : Buf
  key2 : Buf
deriving DecidableEq, Repr

/-- `raw_aes_keyring_destroy` (raw_aes_keyring.c:260-266), `raw_rsa_keyring_destroy` (raw_rsa_keyring.c:155-162). -/
def rawDestroy (r : Raw) : MM Unit := do
  freeBuf r.name
  freeBuf r.ns
  freeBuf r.key1
  freeBuf r.key2
  release r.self

/-- The beginning of both constructors (raw_aes_keyring.c:286-296 and 304-308, raw_rsa_keyring.c:183-191 and 215-219): object, name and namespace. -/
def rawBegin : MM (Option (Nat × Buf × Buf)) := do
  match ← alloc [] with
  | none => pure none
  | some s => do
    match ← bufInit with
    | none => do
      release s
      pure none
    | some n => do
      match ← bufInit with
      | none => do
        freeBuf n
        release s
        pure none
      | some ns => pure (some (s, n, ns))

/-- `oom_err` and `err`: only the names and the object are released (raw_aes_keyring.c:304-308, raw_rsa_keyring.c:215-219). -/
def rawUndo (s : Nat) (n ns : Buf) : MM Unit := do
  freeBuf n
  freeBuf ns
  release s

/-- `aws_cryptosdk_raw_aes_keyring_new` (raw_aes_keyring.c:274-309). -/
def aesNew : MM (Option Raw) := do
  match ← rawBegin with
  | none => pure none
  | some (s, n, ns) => do
    match ← alloc [] with
    | none => do
      rawUndo s n ns
      pure none
    | some k => pure (some ⟨s, n, ns, some k, none⟩)

/-- A key of an RSA keyring, if one is given; `ev` is recorded if it cannot be copied. -/
def rsaKey (given : Bool) (ev : List Event) : MM (Option Buf) :=
  if given then do
    match ← alloc ev with
    | none => pure none
    | some p => pure (some (some p))
  else pure (some none)

/-- `aws_cryptosdk_raw_rsa_keyring_new` (raw_rsa_keyring.c:170-220): either key may be absent, but not both. -/
def rsaNew (pub priv : Bool) : MM (Option Raw) := do
  match ← rawBegin with
  | none => pure none
  | some (s, n, ns) =>
    if pub || priv then do
      match ← rsaKey pub [] with
      | none => do
        rawUndo s n ns
        pure none
      | some p => do
        match ← rsaKey priv (match p with | none => [] | some x => [Event.publicKeyLost [x]]) with
        | none => do
          rawUndo s n ns
          pure none
        | some q => pure (some ⟨s, n, ns, p, q⟩)
    else do
      rawUndo s n ns
      pure none

/-- A caching CMM: the object and its partition id. -/
structure CCmm where
  self : Nat
  pid : Nat
deriving DecidableEq, Repr

/-- `hash_or_generate_partition_id` (caching_cmm.c:68-99); `named` tells that a partition name is given. -/
def partitionId (named : Bool) : MM (Option Nat) :=
  if named then do
    match ← mdInit [] with
    | none => pure none
    | some m => do
      if ← mdUpdate m [] then do
        if ← mdFinish m [] then alloc []
        else pure none
      else do
        mdAbort m
        pure none
  else do
    if ← goesWell then alloc []
    else pure none

/-- `aws_cryptosdk_caching_cmm_new_from_cmm` (caching_cmm.c:162-201). -/
def ccmmNew (named : Bool) : MM (Option CCmm) := do
  match ← partitionId named with
  | none => pure none
  | some p => do
    match ← alloc [Event.partitionIdLost [p]] with
    | none => pure none
    | some s => pure (some ⟨s, p⟩)

/-- `destroy_caching_cmm` (caching_cmm.c:52-59). -/
def ccmmDestroy (c : CCmm) : MM Unit := do
  release c.pid
  release c.self

/-- The objects of a program. -/
structure Objs where
  sessions : List Session := []
  cache : Option Cache := none
  raws : List Raw := []
  ccmms : List CCmm := []
deriving DecidableEq, Repr

/-- What a program may do.  Encryption and decryption name the keyring tree that is used, and whether the CMM is a caching one. -/
inductive Op where
  | newSession
  | resetSession (i : Nat)
  | destroySession (i : Nat)
  | putContext (i : Nat)
  /-- the key and the header of a message -/
  | encrypt (i : Nat) (kr : Kr) (caching : Bool)
  /-- parsing a header, and the key of a message -/
  | decrypt (i : Nat) (kr : Kr) (caching : Bool)
  | trailer (i : Nat)
  | readTrace (i : Nat)
  /-- `aws_cryptosdk_cmm_decrypt_materials` called by the program itself, with `n` EDKs of its own; the materials are destroyed -/
  | askDec (kr : Kr) (caching : Bool) (n : Nat)
  | newCache
  | clearCache
  | destroyCache
  | newAes
  | newRsa (pub priv : Bool)
  | destroyRaw (i : Nat)
  | newCachingCmm (named : Bool)
  | destroyCachingCmm (i : Nat)

/-- The session at a place is changed. -/
def withSession (o : Objs) (i : Nat) (f : Session → Option Cache → MM (Session × Option Cache)) : MM Objs :=
  match o.sessions.drop i with
  | [] => pure o
  | s :: rest => do
    let (s', cache) ← f s o.cache
    pure { o with sessions := o.sessions.take i ++ s' :: rest, cache := cache }

def step (o : Objs) : Op → MM Objs
  | .newSession => do
    match ← sessionNew with
    | none => pure o
    | some s => pure { o with sessions := s :: o.sessions }
  | .resetSession i => withSession o i fun s c => do
    let s ← sessionReset s
    pure (s, c)
  | .destroySession i =>
    match o.sessions.drop i with
    | [] => pure o
    | s :: rest => do
      sessionDestroy s
      pure { o with sessions := o.sessions.take i ++ rest }
  | .putContext i => withSession o i fun s c => do
    let s ← userPut s
    pure (s, c)
  | .encrypt i kr caching => withSession o i fun s c =>
    if s.stage = .start then genKey kr caching s c else pure (s, c)
  | .decrypt i kr caching => withSession o i fun s c =>
    if s.stage = .start then parseHeader kr caching s c else pure (s, c)
  | .trailer i => withSession o i fun s c => do
    let s ← trailer s
    pure (s, c)
  | .readTrace i => withSession o i fun s c => do
    readTrace s
    pure (s, c)
  | .askDec kr caching n =>
    match caching, o.cache with
    | true, some c => do
      match ← cachingDec kr (List.replicate n ⟨none, none, none⟩) c with
      | (none, c) => pure { o with cache := some c }
      | (some m, c) => do
        decMatDestroy m
        pure { o with cache := some c }
    | _, _ => do
      match ← defaultDec kr (List.replicate n ⟨none, none, none⟩) with
      | none => pure o
      | some m => do
        decMatDestroy m
        pure o
  | .newCache =>
    match o.cache with
    | some _ => pure o
    | none => do
      let c ← cacheNew
      pure { o with cache := c }
  | .clearCache =>
    match o.cache with
    | none => pure o
    | some c => do
      let c ← cacheClear c
      pure { o with cache := some c }
  | .destroyCache =>
    match o.cache with
    | none => pure o
    | some c => do
      cacheDestroy c
      pure { o with cache := none }
  | .newAes => do
    match ← aesNew with
    | none => pure o
    | some r => pure { o with raws := r :: o.raws }
  | .newRsa pub priv => do
    match ← rsaNew pub priv with
    | none => pure o
    | some r => pure { o with raws := r :: o.raws }
  | .destroyRaw i =>
    match o.raws.drop i with
    | [] => pure o
    | r :: rest => do
      rawDestroy r
      pure { o with raws := o.raws.take i ++ rest }
  | .newCachingCmm named => do
    match ← ccmmNew named with
    | none => pure o
    | some c => pure { o with ccmms := c :: o.ccmms }
  | .destroyCachingCmm i =>
    match o.ccmms.drop i with
    | [] => pure o
    | c :: rest => do
      ccmmDestroy c
      pure { o with ccmms := o.ccmms.take i ++ rest }

/-- A program. -/
def run : List Op → Objs → MM Objs
  | [], o => pure o
  | op :: ops, o => do
    let o ← step o op
    run ops o

/-- A program that destroys all it has at the end. -/
def closeAll (o : Objs) : MM Unit := do
  forEach sessionDestroy o.sessions
  optDo cacheDestroy o.cache
  forEach rawDestroy o.raws
  forEach ccmmDestroy o.ccmms

end Verif.Memory
