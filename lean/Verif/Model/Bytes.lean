/-
Byte strings, error codes, big-endian integers and byte-cursor reads.

The C code manipulates `struct aws_byte_cursor`/`struct aws_byte_buf` from aws-c-common.  That library is
not part of /repo; the behaviour assumed of it is stated at each definition.
-/
namespace Verif

/-- A byte string (contents of a cursor, buffer or `aws_string`). -/
abbrev Bytes := List UInt8

/-- Error codes raised with `aws_raise_error` (include/aws/cryptosdk/error.h:29-62 and the aws-c-common
codes used by the library).  `raw n` is any other value handed to `aws_raise_error`, e.g. the `-1`
re-raised by source/session_decrypt.c:91-93. -/
inductive Err where
  | shortBuffer | oom | unimplemented | invalidArgument | unknown | overflow
  | badCiphertext | limitExceeded | badState | cryptoUnknown | unsupportedFormat
  | policyViolation | signedNotAllowed | kmsFailure | invalidState | reservedName | invalidEncoding
  | cannotDecrypt | invalidBufferSize
  | raw (n : Int)
deriving DecidableEq, Repr, Inhabited

deriving instance DecidableEq for Except

/-- `v` as `n` big-endian bytes, truncated to `n` bytes like the C cast before
`aws_byte_buf_write_be16/32/64`. -/
def be : (n v : Nat) → Bytes
  | 0, _ => []
  | n + 1, v => be n (v / 256) ++ [UInt8.ofNat (v % 256)]

/-- Value of a big-endian byte string (`aws_byte_cursor_read_be16/32/64`). -/
def unbe (bs : Bytes) : Nat := bs.foldl (fun a b => a * 256 + b.toNat) 0

/-- `aws_byte_cursor_advance(_nospec)` / `aws_byte_cursor_read`: take `n` bytes off the front, or fail
without consuming when fewer remain.  (Lengths above `SIZE_MAX/2` cannot occur for real buffers.) -/
def rd (n : Nat) (bs : Bytes) : Option (Bytes × Bytes) :=
  if n ≤ bs.length then some (bs.take n, bs.drop n) else none

/-- A parser over a cursor: either an error code, or a value and the remaining bytes. -/
def P (α : Type) := Bytes → Except Err (α × Bytes)

namespace P
/-- Parser that consumes nothing. -/
def pure (a : α) : P α := fun bs => .ok (a, bs)
/-- Parser that raises an error. -/
def fail (e : Err) : P α := fun _ => .error e
/-- Sequencing: the second parser runs on what the first left. -/
def bind (p : P α) (f : α → P β) : P β := fun bs =>
  match p bs with
  | .error e => .error e
  | .ok (a, r) => f a r
instance : Monad P where
  pure := P.pure
  bind := P.bind
end P

/-- Read `n` bytes, `AWS_ERROR_SHORT_BUFFER` if fewer remain. -/
def rdN (n : Nat) : P Bytes := fun bs =>
  match rd n bs with
  | some x => .ok x
  | none => .error .shortBuffer

/-- Read an `n`-byte big-endian integer, `AWS_ERROR_SHORT_BUFFER` if too few bytes remain. -/
def rdBE (n : Nat) : P Nat := fun bs =>
  match rd n bs with
  | some (x, r) => .ok (unbe x, r)
  | none => .error .shortBuffer

/-- Wrap-around to an unsigned 64-bit value (`size_t`, `uint64_t`). -/
def u64 (n : Nat) : Nat := n % 2 ^ 64

/-- Unsigned 64-bit subtraction `a - b` with wrap-around. -/
def u64sub (a b : Nat) : Nat := (a + 2 ^ 64 - b % 2 ^ 64) % 2 ^ 64

/-- UTF-8/ASCII bytes of a literal used in the C sources. -/
def ascii (s : String) : Bytes := s.toList.map (fun c => UInt8.ofNat c.toNat)

end Verif
