import Verif.Model.Memory

/-
Who should release what: the blocks an object owns, by its type alone.
-/
namespace Verif.Memory

/-- The blocks an object owns. -/
class Blocks (α : Type) where
  blocks : α → List Nat

export Blocks (blocks)

instance : Blocks Bool := ⟨fun _ => []⟩
instance : Blocks Unit := ⟨fun _ => []⟩
/-- A number is the address of a block. -/
instance : Blocks Nat := ⟨fun x => [x]⟩
instance {α : Type} [Blocks α] : Blocks (Option α) := ⟨fun o => match o with | none => [] | some x => blocks x⟩
instance {α β : Type} [Blocks α] [Blocks β] : Blocks (α × β) := ⟨fun p => blocks p.1 ++ blocks p.2⟩
instance {α : Type} [Blocks α] : Blocks (List α) := ⟨fun xs => xs.flatMap blocks⟩
instance {α : Type} [Blocks α] : Blocks (AList α) := ⟨fun l => blocks l.data ++ blocks l.items⟩
instance : Blocks Edk := ⟨fun e => blocks e.id ++ (blocks e.info ++ blocks e.ct)⟩
instance : Blocks Rec := ⟨fun r => blocks r.ns ++ blocks r.name⟩
instance : Blocks Ctx := ⟨fun c => blocks c.table ++ blocks c.items⟩
instance : Blocks EncMat := ⟨fun m => blocks m.self ++ (blocks m.key ++ (blocks m.edks ++ (blocks m.trace ++ blocks m.sig)))⟩
instance : Blocks DecMat := ⟨fun m => blocks m.self ++ (blocks m.key ++ (blocks m.trace ++ blocks m.sig))⟩
instance : Blocks EncSt := ⟨fun s => blocks s.key ++ (blocks s.edks ++ blocks s.trace)⟩
instance : Blocks DecSt := ⟨fun s => blocks s.key ++ blocks s.trace⟩
instance : Blocks Md := ⟨fun m => blocks m.evp ++ blocks m.self⟩
instance : Blocks Entry :=
  ⟨fun e => blocks e.self ++ (blocks e.id ++ (blocks e.enc ++ (blocks e.dec ++ (blocks e.key ++ blocks e.ctx))))⟩
instance : Blocks Cache := ⟨fun c => blocks c.self ++ (blocks c.table ++ (blocks c.heap ++ blocks c.entries))⟩
instance : Blocks Hdr :=
  ⟨fun h => blocks h.ctx ++ (blocks h.edks ++ (blocks h.iv ++ (blocks h.tag ++ (blocks h.msgId ++ blocks h.suiteData))))⟩
instance : Blocks Session := ⟨fun s => blocks s.self ++ (blocks s.hdr ++ (blocks s.copy ++ (blocks s.trace ++ blocks s.sig)))⟩
instance : Blocks Raw := ⟨fun r => blocks r.self ++ (blocks r.name ++ (blocks r.ns ++ (blocks r.key1 ++ blocks r.key2)))⟩
instance : Blocks CCmm := ⟨fun c => blocks c.self ++ blocks c.pid⟩
instance : Blocks Objs := ⟨fun o => blocks o.sessions ++ (blocks o.cache ++ (blocks o.raws ++ blocks o.ccmms))⟩

/-- The blocks that an event makes unreachable. -/
def Event.lost : Event → List Nat
  | .transferPartly => []
  | .staleDigest => []
  | .edkDropped bs => bs
  | .publicKeyLost bs => bs
  | .partitionIdLost bs => bs
  | .digestLost bs => bs

/-- Events after which something is released twice, or may be. -/
def Event.corrupting : Event → Prop
  | .transferPartly => True
  | .staleDigest => True
  | _ => False

instance (e : Event) : Decidable e.corrupting := by
  cases e <;> simp only [Event.corrupting] <;> infer_instance

/-- All blocks lost so far. -/
def lost (h : Heap) : List Nat := h.events.flatMap Event.lost

/-- One of the two dangerous things has happened. -/
def Corrupt (h : Heap) : Prop := ∃ e ∈ h.events, e.corrupting

/-- A heap with nothing in it, and answers to come. -/
def start (answers : List Nat) : Heap := { answers := answers }

end Verif.Memory
