/-
Independent specification of the encryption-context wire format, written from the message-format
description (not from the model): no model definitions are used.
-/
namespace Verif.Spec

/-- Two association lists denote the same key/value map: every key looks up to the same value. -/
def SameMap (m1 m2 : List (List UInt8 × List UInt8)) : Prop := ∀ k, m1.lookup k = m2.lookup k

/-- No key occurs twice. -/
def DistinctKeys (m : List (List UInt8 × List UInt8)) : Prop := (m.map Prod.fst).Nodup

/-- A 16-bit big-endian integer. -/
def u16 (n : Nat) : List UInt8 := [UInt8.ofNat (n / 256), UInt8.ofNat (n % 256)]

/-- One serialised entry: key length, key, value length, value. -/
def wireEntry (e : List UInt8 × List UInt8) : List UInt8 :=
  u16 e.1.length ++ e.1 ++ u16 e.2.length ++ e.2

/-- A serialised context whose entries are written in the order of the list: the entry count and the
entries; nothing at all for the empty context. -/
def wireCtx (m : List (List UInt8 × List UInt8)) : List UInt8 :=
  if m = [] then [] else u16 m.length ++ (m.map wireEntry).flatten

/-- All lengths fit the 16-bit fields. -/
def FieldsFit (m : List (List UInt8 × List UInt8)) : Prop :=
  m.length < 65536 ∧ ∀ e ∈ m, e.1.length < 65536 ∧ e.2.length < 65536

/-- Length of the serialised context: 2 bytes of count and 4 bytes of lengths per entry. -/
def wireLen (m : List (List UInt8 × List UInt8)) : Nat :=
  if m = [] then 0 else 2 + (m.map (fun e => 4 + e.1.length + e.2.length)).sum

end Verif.Spec
