import Verif.Spec.CacheSwap
import Verif.Spec.CmmConcDec
/-
The replacement of what is cached (Spec/CacheSwap), in threads that share a cache.
-/
namespace Verif.Spec
open Verif

/-- A call of the cache, and its result, with the replacement in the materials that are passed. -/
def Swap.op (w : Swap) : CacheOp → CacheOp
  | .putEnc env id m bytes messages ctx => .putEnc env id (w.encMat m) bytes messages ctx
  | .putDec env id m => .putDec env id (w.decMat m)
  | x => x

def Swap.result (w : Swap) : CacheResult → CacheResult
  | .encMaterials ctx r => .encMaterials ctx (r.map w.encMat)
  | .decMaterials r => .decMaterials (r.map w.decMat)
  | x => x

/-- The cache with the threads that are in calls of it. -/
def Swap.conc (w : Swap) (s : Conc) : Conc := { s with cache := w.cache s.cache }

/-- A call of a caching CMM that a thread is in. -/
def Swap.genCall (w : Swap) (g : GenCall) : GenCall := { g with env := w.genEnv g.env }

def Swap.decCall (w : Swap) (g : DecCall) : DecCall := { g with env := w.decEnv g.env }

/-- Where a thread is; on its way to the cache are replaced materials. -/
def Swap.pc (w : Swap) : Pc → Pc
  | .idle => .idle
  | .find g => .find (w.genCall g)
  | .created g n => .created (w.genCall g) n
  | .hint g n t => .hint (w.genCall g) n t
  | .use g n => .use (w.genCall g) n
  | .get g n b m => .get (w.genCall g) n b m
  | .drop g n ctx => .drop (w.genCall g) n ctx
  | .fin n inv => .fin n inv
  | .up g ctx => .up (w.genCall g) ctx
  | .put g ctx m => .put (w.genCall g) ctx (w.encMat m)
  | .createdMiss g n => .createdMiss (w.genCall g) n
  | .hintMiss g n t => .hintMiss (w.genCall g) n t

def Swap.dpc (w : Swap) : DPc → DPc
  | .idle => .idle
  | .find g => .find (w.decCall g)
  | .created g n => .created (w.decCall g) n
  | .hint g n t => .hint (w.decCall g) n t
  | .get g n => .get (w.decCall g) n
  | .drop g n => .drop (w.decCall g) n
  | .fin n => .fin n
  | .up g => .up (w.decCall g)
  | .put g m => .put (w.decCall g) (w.decMat m)
  | .createdMiss g n => .createdMiss (w.decCall g) n
  | .hintMiss g n t => .hintMiss (w.decCall g) n t

/-- Threads in calls of caching CMMs. -/
def Swap.threads (w : Swap) (s : CmmAll) : CmmAll := ⟨⟨w.conc s.base.conc, fun i => w.pc (s.base.pc i)⟩, fun i => w.dpc (s.dpc i)⟩

/-- A request that was answered: the upstream CMM and the answer have the replacement. -/
def Swap.event (w : Swap) : CmmEvent → CmmEvent
  | .gen cmm env req out => .gen cmm (w.genEnv env) req (w.genOut out)
  | .dec cmm env req out => .dec cmm (w.decEnv env) req (w.decOut out)
  | .clear => .clear

/-- A scheduled step: a call begins with an upstream CMM that gives replaced materials. -/
def Swap.move (w : Swap) : AllMove → AllMove
  | .gen cmm env req => .gen cmm (w.genEnv env) req
  | .dec cmm env req => .dec cmm (w.decEnv env) req
  | x => x

/-- The execution of a schedule from a state: impossible, undefined behaviour, or the requests that were answered (latest first) and the
state. -/
def execution (sha : Bytes → Bytes) (s : CmmAll) : List (Nat × AllMove) → Option (Except Fault (List CmmEvent × CmmAll))
  | [] => some (.ok ([], s))
  | (t, mv) :: rest =>
    match s.step sha t mv with
    | none => none
    | some (.error f) => some (.error f)
    | some (.ok (s', ev)) =>
      match execution sha s' rest with
      | none => none
      | some (.error f) => some (.error f)
      | some (.ok (log, s'')) => some (.ok (log ++ ev.toList, s''))

end Verif.Spec
