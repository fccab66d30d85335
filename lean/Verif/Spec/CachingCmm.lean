import Verif.Model.CachingCmm
import Verif.Spec.Header
/-
Specification vocabulary for caching CMMs: histories of calls made on caching CMMs that share one cache, and what can be counted in
them.
-/
namespace Verif

/-- Limits and partition that the constructor and setters of a caching CMM can produce. -/
structure CachingCmm.Valid (cmm : CachingCmm) : Prop where
  messages : 1 ≤ cmm.limitMessages ∧ cmm.limitMessages ≤ 2 ^ 32
  bytes : cmm.limitBytes ≤ 2 ^ 63 - 1
  partition : cmm.partition.length = 64

/-- One call in a history, with the configuration of the CMM at that time, what it met outside, and what it returned. -/
inductive CmmEvent where
  | gen (cmm : CachingCmm) (env : GenEnv) (req : EncRequest) (out : GenOut)
  | dec (cmm : CachingCmm) (env : DecEnv) (req : DecRequest) (out : DecOut)
  | clear

/-- Histories (latest call first) of any number of caching CMMs sharing one cache: their limits and time to live may change between
calls, and the cache may be cleared. -/
inductive CmmHistory (sha : Bytes → Bytes) (addr : Nat → Nat) (cap : Nat) : List CmmEvent → Cache → Prop where
  | new : CmmHistory sha addr cap [] (cacheNew addr cap)
  | gen {log c cmm env req c' out} : CmmHistory sha addr cap log c → cmm.Valid → cachingGenerate sha cmm env req c = .ok (c', out) →
      CmmHistory sha addr cap (.gen cmm env req out :: log) c'
  | dec {log c cmm env req c' out} : CmmHistory sha addr cap log c → cmm.Valid → cachingDecrypt sha cmm env req c = .ok (c', out) →
      CmmHistory sha addr cap (.dec cmm env req out :: log) c'
  | clear {log c c'} : CmmHistory sha addr cap log c → cacheClear c = .ok c' → CmmHistory sha addr cap (.clear :: log) c'

namespace Spec

/-- The data key an encryption request was served with. -/
def servedKey : CmmEvent → Option Bytes
  | .gen _ _ _ out =>
    match out.res with
    | .ok m => some m.dataKey
    | .error _ => none
  | _ => none

/-- The declared plaintext size of an encryption request. -/
def declaredSize : CmmEvent → Nat
  | .gen _ _ req _ => req.plaintextSize
  | _ => 0

/-- The encryption requests served with data key `k`. -/
def servedWith (k : Bytes) (log : List CmmEvent) : List CmmEvent := log.filter (fun e => servedKey e = some k)

/-- How many messages were served with data key `k`. -/
def messagesWith (k : Bytes) (log : List CmmEvent) : Nat := (servedWith k log).length

/-- Sum of the declared sizes of the messages served with data key `k`. -/
def bytesWith (k : Bytes) (log : List CmmEvent) : Nat := ((servedWith k log).map declaredSize).sum

/-- The upstream CMM never returned a data key with which a request had been served before. -/
def FreshKeys : List CmmEvent → Prop
  | [] => True
  | .gen _ _ _ out :: log => (∀ m, out.upstream = true → out.res = .ok m → messagesWith m.dataKey log = 0) ∧ FreshKeys log
  | _ :: log => FreshKeys log

/-- The time limit allows serving, at clock reading `clk`, what was stored at time `t`: the limit has not been reached; or the sum cannot
be represented in 64 bits, so that no clock reading can reach it; or there is no limit. -/
def WithinTtl (ttl : Nat) (clk : Option Nat) (t : Nat) : Prop :=
  (∃ now, clk = some now ∧ now < t + ttl) ∨ 2 ^ 64 ≤ t + ttl ∨ ttl = 2 ^ 64 - 1

/-! ### cache identifiers -/

/-- The serialization of an encryption context, its entries in some order. -/
def CtxString (ctx : EncCtx) (x : Bytes) : Prop := ∃ s, s.Perm ctx ∧ x = wireCtx s

/-- The strings digested for an encryption request: its context, and the partition, the requested algorithm and the digest of the
context. -/
def EncStrings (sha : Bytes → Bytes) (partition : Bytes) (req : EncRequest) (x : Bytes) : Prop :=
  CtxString req.encCtx x ∨
  ∃ y, CtxString req.encCtx y ∧ x = partition ++ (if req.requestedAlg = 0 then [0] else 1 :: u16 req.requestedAlg) ++ sha y

/-- The strings digested for a decryption request: its context, its encrypted data keys, and the partition, the algorithm, the digests
of the encrypted data keys (in some order), 64 zero bytes and the digest of the context. -/
def DecStrings (sha : Bytes → Bytes) (partition : Bytes) (req : DecRequest) (x : Bytes) : Prop :=
  CtxString req.encCtx x ∨ (∃ e ∈ req.edks, x = wireEdk e) ∨
  ∃ (y : Bytes) (ds : List Bytes), CtxString req.encCtx y ∧ ds.Perm (req.edks.map (fun e => sha (wireEdk e))) ∧
    x = partition ++ u16 req.alg ++ ds.flatten ++ List.replicate 64 0 ++ sha y

/-- The hash function collides on a string of `S` and a string of `T`. -/
def Collides (sha : Bytes → Bytes) (S T : Bytes → Prop) : Prop := ∃ x y, S x ∧ T y ∧ x ≠ y ∧ sha x = sha y

end Spec
end Verif
