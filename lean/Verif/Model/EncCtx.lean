import Verif.Model.Bytes
/-
Encryption contexts: source/enc_ctx.c and source/utils.c:19-48.
-/
namespace Verif

/-- An encryption context (`struct aws_hash_table` from strings to strings): the list of entries in hash
table iteration order.  The order is arbitrary; keys are distinct (`EncCtx.WF`). -/
abbrev EncCtx := List (Bytes × Bytes)

/-- Representation invariant of the hash table: no key occurs twice. -/
def EncCtx.WF (m : EncCtx) : Prop := (m.map Prod.fst).Nodup

/-- `aws_hash_table_find`. -/
def EncCtx.find (m : EncCtx) (k : Bytes) : Option Bytes := m.lookup k

/-- `aws_hash_table_remove`. -/
def EncCtx.remove (m : EncCtx) (k : Bytes) : EncCtx := m.filter (fun e => e.1 ≠ k)

/-- `aws_hash_table_put`: replaces an existing entry, else adds one. -/
def EncCtx.put (m : EncCtx) (k v : Bytes) : EncCtx := m.remove k ++ [(k, v)]

/-- Number of bytes taken by one entry: two 16-bit lengths, key and value (source/enc_ctx.c:65-67). -/
def entrySize (e : Bytes × Bytes) : Nat := e.1.length + e.2.length + 4

/-- The loop of `aws_cryptosdk_enc_ctx_size`, source/enc_ctx.c:58-74, from accumulated length `acc`.
`aws_add_size_checked_varargs` raises AWS_ERROR_OVERFLOW_DETECTED past `SIZE_MAX`. -/
def encCtxSizeLoop (acc : Nat) : EncCtx → Except Err Nat
  | [] => .ok acc
  | e :: m =>
    if acc + entrySize e ≥ 2 ^ 64 then .error .overflow
    else if acc + entrySize e > 65535 then .error .limitExceeded
    else encCtxSizeLoop (acc + entrySize e) m

/-- `aws_cryptosdk_enc_ctx_size`, source/enc_ctx.c:43-80. -/
def encCtxSize (m : EncCtx) : Except Err Nat :=
  if m.length > 65535 then .error .limitExceeded
  else if m.length = 0 then .ok 0
  else encCtxSizeLoop 2 m

/-- `aws_string_compare(a,b) <= 0` (aws-c-common): lexicographic by unsigned bytes, a proper prefix
comes first.  Used by source/utils.c:19-26. -/
def bytesLe : Bytes → Bytes → Bool
  | [], _ => true
  | _ :: _, [] => false
  | a :: as, b :: bs => if a < b then true else if b < a then false else bytesLe as bs

/-- Insertion into a list sorted by key. -/
def insertByKey (e : Bytes × Bytes) : EncCtx → EncCtx
  | [] => [e]
  | f :: m => if bytesLe e.1 f.1 then e :: f :: m else f :: insertByKey e m

/-- `aws_array_list_sort` by `aws_cryptosdk_compare_hash_elems_by_key_string` (source/enc_ctx.c:101-103,
source/utils.c:19-48).  `qsort` is modelled by insertion sort: with distinct keys every sorting
algorithm gives the same list (`sortByKey_unique` in Proof/EncCtx). -/
def sortByKey : EncCtx → EncCtx
  | [] => []
  | e :: m => insertByKey e (sortByKey m)

/-- An output buffer (`struct aws_byte_buf` over caller memory): capacity and what was written so far. -/
structure OBuf where
  cap : Nat
  data : Bytes
deriving Repr, DecidableEq

/-- `aws_byte_buf_write*`: append, or fail without writing if it does not fit. -/
def OBuf.write (b : OBuf) (x : Bytes) : Option OBuf :=
  if b.data.length + x.length ≤ b.cap then some { b with data := b.data ++ x } else none

/-- The writing loop of `aws_cryptosdk_enc_ctx_serialize`, source/enc_ctx.c:105-121.  `none` is the jump
to WRITE_ERR. -/
def encCtxWriteEntries (b : OBuf) : EncCtx → Option OBuf
  | [] => some b
  | (k, v) :: m => do
    let b ← b.write (be 2 k.length)
    let b ← b.write k
    let b ← b.write (be 2 v.length)
    let b ← b.write v
    encCtxWriteEntries b m

/-- `aws_cryptosdk_enc_ctx_serialize`, source/enc_ctx.c:82-129.  Returns the buffer after the call and the
result; after WRITE_ERR the buffer is cleaned up (lines 97, 127), i.e. zero capacity.  Note that line 94
compares the *capacity*, not the remaining space.  Allocation of the temporary array is assumed to
succeed. -/
def encCtxSerialize (b : OBuf) (m : EncCtx) : OBuf × Except Err Unit :=
  if m.length > 65535 then (b, .error .limitExceeded)
  else match encCtxSize m with
    | .error e => (b, .error e)
    | .ok len =>
      if len = 0 then (b, .ok ())
      else if b.cap < len then (b, .error .shortBuffer)
      else match b.write (be 2 m.length) with
        | none => ({ cap := 0, data := [] }, .error .shortBuffer)
        | some b1 =>
          match encCtxWriteEntries b1 (sortByKey m) with
          | none => ({ cap := 0, data := [] }, .error .shortBuffer)
          | some b2 => (b2, .ok ())

/-- The reading loop of `aws_cryptosdk_enc_ctx_deserialize`, source/enc_ctx.c:150-176, for `n` more
entries with `m` already stored.  Allocation is assumed to succeed. -/
def encCtxReadEntries : (n : Nat) → (m : EncCtx) → P EncCtx
  | 0, m => pure m
  | n + 1, m => do
    let klen ← rdBE 2
    let k ← rdN klen
    let vlen ← rdBE 2
    let v ← rdN vlen
    if (m.find k).isSome then P.fail .badCiphertext
    else encCtxReadEntries n (m ++ [(k, v)])

/-- `aws_cryptosdk_enc_ctx_deserialize`, source/enc_ctx.c:139-188, as a parser, ignoring the effect on the
destination table (`encCtxDeserialize` below models that; `encCtxDeserialize_eq` relates the two). -/
def encCtxParse : P EncCtx := fun bs =>
  if bs.length = 0 then .ok ([], bs)
  else (do
    let n ← rdBE 2
    if n = 0 then P.fail .badCiphertext
    else encCtxReadEntries n []) bs

/-- `aws_cryptosdk_enc_ctx_clear` (include/aws/cryptosdk/private/enc_ctx.h): empties the table. -/
def encCtxClear (_ : EncCtx) : EncCtx := []

/-- The reading loop of source/enc_ctx.c:150-176 with its effect on the table `t`: returns the table at the
point where the loop ends or jumps to SHORT_BUF / RETHROW, and the remaining cursor or the error raised.  The
entry is put into the table (replacing an entry with the same key) before the duplicate is noticed. -/
def encCtxReadLoop : (n : Nat) → (t : EncCtx) → Bytes → EncCtx × Except Err Bytes
  | 0, t, bs => (t, .ok bs)
  | n + 1, t, bs =>
    match rd 2 bs with
    | none => (t, .error .shortBuffer)
    | some (kl, bs) =>
      match rd (unbe kl) bs with
      | none => (t, .error .shortBuffer)
      | some (k, bs) =>
        match rd 2 bs with
        | none => (t, .error .shortBuffer)
        | some (vl, bs) =>
          match rd (unbe vl) bs with
          | none => (t, .error .shortBuffer)
          | some (v, bs) =>
            let wasCreated := (t.find k).isNone
            let t' := t.put k v
            if wasCreated then encCtxReadLoop n t' bs else (t', .error .badCiphertext)

/-- `aws_cryptosdk_enc_ctx_deserialize`, source/enc_ctx.c:131-188, with its effect on the destination
table: the old contents are cleared first (line 137), and on failure the table is cleared again (line 183;
the zero-count failure of line 148 returns without clearing).  Returns the table and the remaining cursor or
the error (the cursor position after a failure is not modelled). -/
def encCtxDeserialize (old : EncCtx) (bs : Bytes) : EncCtx × Except Err Bytes :=
  let t := encCtxClear old
  if bs.length = 0 then (t, .ok bs)
  else match rd 2 bs with
    | none => (encCtxClear t, .error .shortBuffer)
    | some (c, r) =>
      if unbe c = 0 then (t, .error .badCiphertext)
      else match encCtxReadLoop (unbe c) t r with
        | (t, .ok r) => (t, .ok r)
        | (t, .error e) => (encCtxClear t, .error e)

/-- First loop of `aws_cryptosdk_enc_ctx_clone`, source/enc_ctx.c:209-218: drop destination keys that are
not in the source. -/
def cloneDropStale (dest src : EncCtx) : EncCtx :=
  dest.filter (fun e => (src.find e.1).isSome)

/-- One iteration of the second loop of `aws_cryptosdk_enc_ctx_clone`, source/enc_ctx.c:221-254:
update the value in place, add the pair, or leave it. -/
def cloneStep (dest : EncCtx) (e : Bytes × Bytes) : EncCtx :=
  match dest.find e.1 with
  | some v =>
    if v ≠ e.2 then dest.map (fun d => if d.1 = e.1 then (d.1, e.2) else d)
    else dest
  | none => dest.put e.1 e.2

/-- `aws_cryptosdk_enc_ctx_clone`, source/enc_ctx.c:202-257, with successful allocations. -/
def encCtxClone (dest src : EncCtx) : EncCtx :=
  src.foldl cloneStep (cloneDropStale dest src)

end Verif
