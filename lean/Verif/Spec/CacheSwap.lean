import Verif.Model.CachingCmm
import Verif.Spec.Rekey
import Verif.Spec.CacheUsage
/-
Cached materials under other names: what a cache and a caching CMM do is compared with what they do when data keys, encrypted data keys and
keyring traces are replaced wherever they come from or are kept.
-/
namespace Verif.Spec
open Verif

/-- Any replacement of what materials hold besides the suite and the signature context. -/
structure Swap where
  enc : Bytes → List Edk → List TraceRec → Bytes × List Edk × List TraceRec
  dec : Bytes → List TraceRec → Bytes × List TraceRec

/-- Materials with the replacement. -/
def Swap.encMat (w : Swap) (m : EncMaterials) : EncMaterials :=
  { m with dataKey := (w.enc m.dataKey m.edks m.trace).1, edks := (w.enc m.dataKey m.edks m.trace).2.1, trace := (w.enc m.dataKey m.edks m.trace).2.2 }

def Swap.decMat (w : Swap) (m : DecMaterials) : DecMaterials :=
  { m with dataKey := (w.dec m.dataKey m.trace).1, trace := (w.dec m.dataKey m.trace).2 }

def Swap.mat (w : Swap) : Mat → Mat
  | .enc m ctx => .enc (w.encMat m) ctx
  | .dec m => .dec (w.decMat m)

def Swap.entry (w : Swap) (e : Entry) : Entry := { e with mat := w.mat e.mat }

/-- A cache with the replacement in every entry. -/
def Swap.cache (w : Swap) (c : Cache) : Cache := { c with mem := fun n => (c.mem n).map w.entry }

/-- Outcomes with the replacement. -/
def Swap.genOut (w : Swap) (o : GenOut) : GenOut := { o with res := o.res.map w.encMat }

def Swap.decOut (w : Swap) (o : DecOut) : DecOut := { o with res := o.res.map w.decMat }

/-- The surroundings of a call whose upstream CMM gives the replaced materials. -/
def Swap.genEnv (w : Swap) (e : GenEnv) : GenEnv := { e with up := fun req => ((e.up req).1, (e.up req).2.map w.encMat) }

def Swap.decEnv (w : Swap) (e : DecEnv) : DecEnv := { e with up := fun req => (e.up req).map w.decMat }

/-- The replacement of data keys alone. -/
def keySwap (φ : Bytes → Bytes) : Swap := ⟨fun k edks t => (φ k, edks, t), fun k t => (φ k, t)⟩

/-- A caching CMM with its cache, as a session sees it.  An undefined outcome is shown as an error. -/
def cachingAsCmm (sha : Bytes → Bytes) (cmm : CachingCmm) (g : GenEnv) (d : DecEnv) (c : Cache) : Cmm where
  generate req :=
    match cachingGenerate sha cmm g req c with
    | .error _ => (req.encCtx, .error .unknown)
    | .ok (_, out) => (out.ctx, out.res)
  decrypt req :=
    match cachingDecrypt sha cmm d req c with
    | .error _ => .error .unknown
    | .ok (_, out) => out.res

/-- A call of a caching CMM. -/
inductive CachingCall where
  | generate (cmm : CachingCmm) (env : GenEnv) (req : EncRequest)
  | decrypt (cmm : CachingCmm) (env : DecEnv) (req : DecRequest)

/-- Its outcome. -/
inductive CachingOut where
  | generate (o : GenOut)
  | decrypt (o : DecOut)

/-- Calls one after the other of caching CMMs that share a cache. -/
def cachingCalls (sha : Bytes → Bytes) : List CachingCall → Cache → Except Fault (Cache × List CachingOut)
  | [], c => .ok (c, [])
  | .generate cmm env req :: l, c =>
    match cachingGenerate sha cmm env req c with
    | .error f => .error f
    | .ok (c, o) =>
      match cachingCalls sha l c with
      | .error f => .error f
      | .ok (c, os) => .ok (c, .generate o :: os)
  | .decrypt cmm env req :: l, c =>
    match cachingDecrypt sha cmm env req c with
    | .error f => .error f
    | .ok (c, o) =>
      match cachingCalls sha l c with
      | .error f => .error f
      | .ok (c, os) => .ok (c, .decrypt o :: os)

def Swap.call (w : Swap) : CachingCall → CachingCall
  | .generate cmm env req => .generate cmm (w.genEnv env) req
  | .decrypt cmm env req => .decrypt cmm (w.decEnv env) req

def Swap.out (w : Swap) : CachingOut → CachingOut
  | .generate o => .generate (w.genOut o)
  | .decrypt o => .decrypt (w.decOut o)

/-- A call of a session that calls the CMM, for decryption materials, with the request `req` and no other. -/
def AsksToDecrypt (req : DecRequest) (env : Env) (v : View) (op : Op) : Prop :=
  ¬ Quiet env v op ∧ ∀ cmm : Cmm, cmm.decrypt req = env.cmm.decrypt req → apply { env with cmm := cmm } v op = apply env v op

/-- A call on session `i`, with a caching CMM, what this meets if it is asked, and what the session meets besides (the CMM in `env` is not
used). -/
structure SharingCall where
  i : Nat
  env : Env
  cmm : CachingCmm
  gen : GenEnv
  dec : DecEnv
  op : Op

/-- What the session meets when the cache is `c`. -/
def SharingCall.seen (sha : Bytes → Bytes) (c : Cache) (x : SharingCall) : Env := { x.env with cmm := cachingAsCmm sha x.cmm x.gen x.dec c }

/-- The sessions after the call. -/
def SharingCall.after (sha : Bytes → Bytes) (c : Cache) (x : SharingCall) (vs : Nat → View) : Nat → View :=
  fun j => if j = x.i then (apply (x.seen sha c) (vs x.i) x.op).1 else vs j

/-- Histories of sessions, `vs0` at first, whose caching CMMs share a cache that was new: the calls (latest first) with what they returned, the
cache and the sessions afterwards. -/
inductive Sharing (sha : Bytes → Bytes) (addr : Nat → Nat) (cap : Nat) (vs0 : Nat → View) :
    List SharingCall → List Res → Cache → (Nat → View) → Prop where
  | start : Sharing sha addr cap vs0 [] [] (cacheNew addr cap) vs0
  | quiet {l os c vs} (x : SharingCall) : Sharing sha addr cap vs0 l os c vs → Quiet (x.seen sha c) (vs x.i) x.op →
      Sharing sha addr cap vs0 (x :: l) ((apply (x.seen sha c) (vs x.i) x.op).2 :: os) c (x.after sha c vs)
  | generate {l os c vs req c' out} (x : SharingCall) : Sharing sha addr cap vs0 l os c vs → AsksFor req (x.seen sha c) (vs x.i) x.op →
      cachingGenerate sha x.cmm x.gen req c = .ok (c', out) →
      Sharing sha addr cap vs0 (x :: l) ((apply (x.seen sha c) (vs x.i) x.op).2 :: os) c' (x.after sha c vs)
  | decrypt {l os c vs req c' out} (x : SharingCall) : Sharing sha addr cap vs0 l os c vs → AsksToDecrypt req (x.seen sha c) (vs x.i) x.op →
      cachingDecrypt sha x.cmm x.dec req c = .ok (c', out) →
      Sharing sha addr cap vs0 (x :: l) ((apply (x.seen sha c) (vs x.i) x.op).2 :: os) c' (x.after sha c vs)

/-- The call with data keys replaced by `φ` upstream, and an HKDF that applies `ψ` to data keys. -/
def SharingCall.rekey (φ ψ : Bytes → Bytes) (x : SharingCall) : SharingCall :=
  { x with env := { x.env with crypto := withHkdf x.env.crypto (fun sha salt k info n => x.env.crypto.hkdf sha salt (ψ k) info n)
                                  (fun _ _ _ _ _ _ h => x.env.crypto.hkdf_len _ _ _ _ _ _ h) }
           gen := (keySwap φ).genEnv x.gen
           dec := (keySwap φ).decEnv x.dec }

end Verif.Spec
