import Verif.Proof.AnyCache
/-
The calls of caching CMMs over a cache of any kind: what they ask, and the handles they hold.
-/
namespace Verif.Proof
open Verif Verif.Spec

variable {η α β : Type} {sha : Bytes → Bytes} {vt : CacheVt} {cmm : CachingCmm}

/-! ## what is asked -/

/-- What an encryption call may ask. -/
def GenAsk (sha : Bytes → Bytes) (cmm : CachingCmm) (env : AnyGenEnv) (req : EncRequest) (e : CacheEvent η) : Prop :=
  match e.q with
  | .find id => hashEnc sha env.ids cmm.partition req = .ok id
  | .usage _ bytes messages => bytes = req.plaintextSize ∧ messages = 1 ∧ req.plaintextSize ≤ cmm.limitBytes
  | .getEnc _ ctx => ctx = req.encCtx
  | .getDec _ => False
  | .putEnc id m bytes messages ctx => hashEnc sha env.ids cmm.partition req = .ok id ∧ bytes = req.plaintextSize ∧ messages = 1 ∧
      req.plaintextSize ≤ cmm.limitBytes ∧ canCache m.alg = .ok true ∧ ∃ ctx0, env.up { req with encCtx := ctx0 } = (ctx, .ok m)
  | .putDec _ _ => False
  | _ => True

/-- What a decryption call may ask. -/
def DecAsk (sha : Bytes → Bytes) (cmm : CachingCmm) (env : AnyDecEnv) (req : DecRequest) (e : CacheEvent η) : Prop :=
  match e.q with
  | .find id => hashDec sha env.ids cmm.partition req = .ok (.ok id)
  | .usage _ _ _ => False
  | .getEnc _ _ => False
  | .putEnc _ _ _ _ _ => False
  | .putDec id m => hashDec sha env.ids cmm.partition req = .ok (.ok id) ∧ env.up req = .ok m
  | _ => True

theorem Evs.mono {P Q : CacheEvent η → Prop} {p : Prog η α} (h : Evs P p) (hpq : ∀ e, P e → Q e) : Evs Q p :=
  fun es o hp e he => hpq e (h es o hp e he)

theorem aux_gen {env : AnyGenEnv} {req : EncRequest} {h : η} {e : CacheEvent η} (he : Aux h e) : GenAsk sha cmm env req e := by
  rcases he with ⟨t, rfl⟩ | ⟨t, rfl⟩ | ⟨i, rfl⟩ <;> exact trivial

theorem aux_dec {env : AnyDecEnv} {req : DecRequest} {h : η} {e : CacheEvent η} (he : Aux h e) : DecAsk sha cmm env req e := by
  rcases he with ⟨t, rfl⟩ | ⟨t, rfl⟩ | ⟨i, rfl⟩ <;> exact trivial

theorem evs_try {env : AnyGenEnv} {req : EncRequest} {id : Bytes} (hid : hashEnc sha env.ids cmm.partition req = .ok id)
    (hs : req.plaintextSize ≤ cmm.limitBytes) : Evs (η := η) (GenAsk sha cmm env req) (anyTry vt cmm env.clk id req) := by
  have drop : ∀ {h : η} {a : EncCtx × Option EncMaterials}, Evs (GenAsk sha cmm env req) (anyDrop vt h a) :=
    fun {h a} => evs_drop.mono fun e he => aux_gen he
  unfold anyTry
  refine evs_bind (evs_call fun a => hid) fun x => ?_
  split
  · exact evs_ret
  · split
    · exact drop
    · refine evs_bind (evs_checkTtl.mono fun e he => aux_gen he) fun ok => ?_
      split
      · refine evs_bind (evs_call fun a => ⟨rfl, rfl, hs⟩) fun r => ?_
        unfold anyUse
        split
        · exact drop
        · split
          · exact drop
          · refine evs_bind (evs_call fun a => rfl) fun x => ?_
            split
            · exact drop
            · exact evs_bind (evs_call fun a => trivial) fun _ => evs_ret
      · exact drop

theorem evs_miss {env : AnyGenEnv} {req : EncRequest} {id : Bytes} (hid : hashEnc sha env.ids cmm.partition req = .ok id)
    (hs : req.plaintextSize ≤ cmm.limitBytes) (ctx : EncCtx) :
    Evs (η := η) (GenAsk sha cmm env req) (anyMiss vt cmm env id req ctx) := by
  unfold anyMiss
  split
  · exact evs_ret
  · next ctx' m hup =>
    split
    · exact evs_fault
    · exact evs_ret
    · next hc =>
      refine evs_bind (evs_call fun a => ⟨hid, rfl, rfl, hs, hc, ctx, hup⟩) fun o => ?_
      exact evs_bind (evs_afterPut.mono fun e ⟨h, _, he⟩ => aux_gen he) fun _ => evs_ret

theorem evs_genCached {env : AnyGenEnv} {req : EncRequest} (hs : req.plaintextSize ≤ cmm.limitBytes) :
    Evs (η := η) (GenAsk sha cmm env req) (anyGenCached sha vt cmm env req) := by
  unfold anyGenCached
  split
  · exact evs_ret
  · next id hid =>
    refine evs_bind (evs_try hid hs) fun x => ?_
    split
    · exact evs_ret
    · exact evs_miss hid hs _

theorem evs_generate {env : AnyGenEnv} {req : EncRequest} : Evs (η := η) (GenAsk sha cmm env req) (anyGenerate sha vt cmm env req) := by
  unfold anyGenerate
  split
  · exact evs_ret
  · have hs : req.plaintextSize ≤ cmm.limitBytes := by omega
    split
    · exact evs_genCached hs
    · split
      · exact evs_fault
      · exact evs_ret
      · exact evs_genCached hs

theorem evs_decTry {env : AnyDecEnv} {req : DecRequest} {id : Bytes} (hid : hashDec sha env.ids cmm.partition req = .ok (.ok id)) :
    Evs (η := η) (DecAsk sha cmm env req) (anyDecTry vt cmm env.clk id) := by
  have drop : ∀ {h : η} {a : Option DecMaterials}, Evs (DecAsk sha cmm env req) (anyDrop vt h a) :=
    fun {h a} => evs_drop.mono fun e he => aux_dec he
  unfold anyDecTry
  refine evs_bind (evs_call fun a => hid) fun x => ?_
  split
  · exact evs_ret
  · split
    · exact drop
    · refine evs_bind (evs_checkTtl.mono fun e he => aux_dec he) fun ok => ?_
      split
      · refine evs_bind (evs_call fun a => trivial) fun r => ?_
        split
        · exact drop
        · exact evs_bind (evs_call fun a => trivial) fun _ => evs_ret
      · exact drop

theorem evs_decrypt {env : AnyDecEnv} {req : DecRequest} : Evs (η := η) (DecAsk sha cmm env req) (anyDecrypt sha vt cmm env req) := by
  unfold anyDecrypt
  split
  · exact evs_fault
  · exact evs_ret
  · split
    · exact evs_fault
    · exact evs_ret
    · next id hid =>
      refine evs_bind (evs_decTry hid) fun x => ?_
      split
      · exact evs_ret
      · unfold anyDecMiss
        split
        · exact evs_ret
        · next m hup =>
          refine evs_bind (evs_call fun a => ⟨hid, hup⟩) fun o => ?_
          exact evs_bind (evs_afterPut.mono fun e ⟨h, _, he⟩ => aux_dec he) fun _ => evs_ret

/-! ## at most one entry is put in a call -/

/-- An event that puts materials. -/
def isPut (e : CacheEvent η) : Bool := (stores e.q).isSome

theorem aux_put {h : η} {e : CacheEvent η} (he : Aux h e) : isPut e = false := by
  rcases he with ⟨t, rfl⟩ | ⟨t, rfl⟩ | ⟨i, rfl⟩ <;> rfl

theorem noPut_try {clk : Option Nat} {id : Bytes} {req : EncRequest} : Evs (η := η) (fun e => isPut e = false) (anyTry vt cmm clk id req) := by
  have drop : ∀ {h : η} {a : EncCtx × Option EncMaterials}, Evs (fun e => isPut e = false) (anyDrop vt h a) :=
    fun {h a} => evs_drop.mono fun e he => aux_put he
  unfold anyTry
  refine evs_bind (evs_call fun a => rfl) fun x => ?_
  split
  · exact evs_ret
  · split
    · exact drop
    · refine evs_bind (evs_checkTtl.mono fun e he => aux_put he) fun ok => ?_
      split
      · refine evs_bind (evs_call fun a => rfl) fun r => ?_
        unfold anyUse
        split
        · exact drop
        · split
          · exact drop
          · refine evs_bind (evs_call fun a => rfl) fun x => ?_
            split
            · exact drop
            · exact evs_bind (evs_call fun a => rfl) fun _ => evs_ret
      · exact drop

theorem noPut_decTry {clk : Option Nat} {id : Bytes} : Evs (η := η) (fun e => isPut e = false) (anyDecTry vt cmm clk id) := by
  have drop : ∀ {h : η} {a : Option DecMaterials}, Evs (fun e => isPut e = false) (anyDrop vt h a) :=
    fun {h a} => evs_drop.mono fun e he => aux_put he
  unfold anyDecTry
  refine evs_bind (evs_call fun a => rfl) fun x => ?_
  split
  · exact evs_ret
  · split
    · exact drop
    · refine evs_bind (evs_checkTtl.mono fun e he => aux_put he) fun ok => ?_
      split
      · refine evs_bind (evs_call fun a => rfl) fun r => ?_
        split
        · exact drop
        · exact evs_bind (evs_call fun a => rfl) fun _ => evs_ret
      · exact drop

theorem atMost_ret {b : CacheEvent η → Bool} {n : Nat} {a : α} : AtMost n b (.ret a : Prog η α) :=
  (atMost_of_evs (p := (.ret a : Prog η α)) evs_ret).mono (Nat.zero_le _)

theorem atMost_fault {b : CacheEvent η → Bool} {n : Nat} {f : Fault} : AtMost n b (.fault f : Prog η α) :=
  (atMost_of_evs (p := (.fault f : Prog η α)) evs_fault).mono (Nat.zero_le _)

theorem onePut_after {q : CacheQuery η} {k : q.Ans → Option η} {a : α} :
    AtMost 1 isPut ((askCache vt q).bind fun x => (anyAfterPut vt cmm (k x)).bind fun _ => (.ret a : Prog η α)) := by
  refine (atMost_bind (n := 1) (m := 0) atMost_call fun x => ?_)
  refine (atMost_bind (n := 0) (m := 0) (atMost_of_evs ?_) fun _ => atMost_ret)
  exact evs_afterPut.mono fun e ⟨h, _, he⟩ => aux_put he

theorem onePut_genCached {env : AnyGenEnv} {req : EncRequest} : AtMost (η := η) 1 isPut (anyGenCached sha vt cmm env req) := by
  unfold anyGenCached
  split
  · exact atMost_ret
  · refine (atMost_bind (n := 0) (m := 1) (atMost_of_evs noPut_try) fun x => ?_)
    split
    · exact atMost_ret
    · unfold anyMiss
      split
      · exact atMost_ret
      · split
        · exact atMost_fault
        · exact atMost_ret
        · exact onePut_after (q := .putEnc _ _ _ _ _) (k := fun x => x)

theorem onePut_generate {env : AnyGenEnv} {req : EncRequest} : AtMost (η := η) 1 isPut (anyGenerate sha vt cmm env req) := by
  unfold anyGenerate
  split
  · exact atMost_ret
  · split
    · exact onePut_genCached
    · split
      · exact atMost_fault
      · exact atMost_ret
      · exact onePut_genCached

theorem onePut_decrypt {env : AnyDecEnv} {req : DecRequest} : AtMost (η := η) 1 isPut (anyDecrypt sha vt cmm env req) := by
  unfold anyDecrypt
  split
  · exact atMost_fault
  · exact atMost_ret
  · split
    · exact atMost_fault
    · exact atMost_ret
    · refine (atMost_bind (n := 0) (m := 1) (atMost_of_evs noPut_decTry) fun x => ?_)
      split
      · exact atMost_ret
      · unfold anyDecMiss
        split
        · exact atMost_ret
        · exact onePut_after (q := .putDec _ _) (k := fun x => x)

/-! ## handles -/

variable [DecidableEq η]

theorem held_append (hs : List η) (e1 e2 : List (CacheEvent η)) : heldHandles hs (e1 ++ e2) = (heldHandles hs e1).bind fun x => heldHandles x e2 := by
  induction e1 generalizing hs with
  | nil => rfl
  | cons e es ih =>
    simp only [List.cons_append, heldHandles]
    split
    · exact ih _
    · split
      · exact ih _
      · rfl

/-- Beginning with the handles `hs`, a program uses only handles it holds, and holds `fin a` when it ends with `a`. -/
def Holds (hs : List η) (p : Prog η α) (fin : α → List η) : Prop :=
  ∀ es o, Path p es o → ∃ x, heldHandles hs es = some x ∧ ∀ a, o = some a → x = fin a

theorem holds_ret {hs : List η} {a : α} {fin : α → List η} (h : fin a = hs) : Holds hs (.ret a) fin := by
  intro es o hp
  cases hp with
  | stop => exact ⟨hs, rfl, fun _ h => nomatch h⟩
  | ret => exact ⟨hs, rfl, fun b hb => by cases hb; exact h.symm⟩

theorem holds_fault {hs : List η} {f : Fault} {fin : α → List η} : Holds hs (.fault f) fin := by
  intro es o hp
  cases hp with
  | stop => exact ⟨hs, rfl, fun _ h => nomatch h⟩

theorem holds_bind {hs : List η} {p : Prog η α} {f : α → Prog η β} {mid : α → List η} {fin : β → List η} (hp : Holds hs p mid)
    (hf : ∀ a, Holds (mid a) (f a) fin) : Holds hs (p.bind f) fin := by
  intro es o h
  rcases path_bind.1 h with ⟨rfl, h0⟩ | ⟨a, e1, e2, rfl, h1, h2⟩
  · obtain ⟨x, hx, -⟩ := hp _ _ h0
    exact ⟨x, hx, fun _ h => nomatch h⟩
  · obtain ⟨x, hx, hm⟩ := hp _ _ h1
    obtain rfl := hm a rfl
    obtain ⟨y, hy, hn⟩ := hf a _ _ h2
    exact ⟨y, by rw [held_append, hx]; exact hy, hn⟩

/-- One call. -/
theorem holds_call {hs : List η} {q : CacheQuery η} {fin : q.Ans → List η} (hm : vt.has q.fn = false → fin q.missing = hs)
    (hc : vt.has q.fn = true → ∀ a, heldHandles hs [⟨q, a⟩] = some (fin a)) : Holds hs (askCache vt q) fin := by
  unfold askCache
  split
  · next h =>
    intro es o hp
    cases hp with
    | stop => exact ⟨hs, rfl, fun _ h => nomatch h⟩
    | ask a hp =>
      refine ⟨fin a, ?_, ?_⟩
      · cases hp <;> exact hc h a
      · intro b hb
        subst hb
        rw [(path_ret.1 hp).2]
  · next h => exact holds_ret (hm (by simpa using h))

/-- A call about a handle that is held, and not released. -/
theorem holds_use {hs : List η} {q : CacheQuery η} {h : η} (hu : uses q = some h) (hr : isRelease q = false) (hm : h ∈ hs) :
    Holds hs (askCache vt q) (fun _ => hs) :=
  holds_call (fun _ => rfl) fun _ a => by simp [heldHandles, hu, hr, hm]

/-- Releasing a handle. -/
theorem holds_release (hrel : vt.has .release = true) {h : η} {inv : Bool} : Holds [h] (askCache vt (.release h inv)) (fun _ => []) :=
  holds_call (fun hn => by rw [show (CacheQuery.release h inv).fn = .release from rfl, hrel] at hn; cases hn) fun _ a => by
    simp [heldHandles, uses, isRelease]

theorem holds_drop (hrel : vt.has .release = true) {h : η} {a : α} : Holds [h] (anyDrop vt h a) (fun _ => []) :=
  holds_bind (holds_release hrel) fun _ => holds_ret rfl

theorem holds_checkTtl {clk : Option Nat} {h : η} : Holds [h] (anyCheckTtl vt cmm clk h) (fun _ => [h]) := by
  unfold anyCheckTtl
  split
  · exact holds_ret rfl
  · refine holds_bind (holds_use (h := h) rfl rfl (by simp)) fun t => ?_
    split
    · exact holds_ret rfl
    · split
      · exact holds_ret rfl
      · split
        · exact holds_ret rfl
        · exact holds_bind (holds_use (h := h) rfl rfl (by simp)) fun _ => holds_ret rfl

theorem holds_afterPut (hrel : vt.has .release = true) {o : Option η} : Holds o.toList (anyAfterPut vt cmm o) (fun _ => []) := by
  cases o with
  | none => exact holds_ret rfl
  | some h =>
    unfold anyAfterPut
    refine holds_bind (mid := fun _ => [h]) ?_ fun _ => holds_release hrel
    split
    · exact holds_ret rfl
    · refine holds_bind (holds_use (h := h) rfl rfl (by simp)) fun t => ?_
      split
      · exact holds_use (h := h) rfl rfl (by simp)
      · exact holds_ret rfl

theorem holds_find {id : Bytes} : Holds [] (askCache vt (.find id)) (fun x => (x.2.map Prod.fst).toList (α := η)) := by
  refine holds_call (fun _ => rfl) fun _ a => ?_
  obtain ⟨f, o⟩ := a
  rcases o with _ | ⟨h, k⟩ <;> simp [heldHandles, uses, gives]

theorem holds_putEnc {id : Bytes} {m : EncMaterials} {b n : Nat} {ctx : EncCtx} :
    Holds [] (askCache vt (.putEnc id m b n ctx)) (fun x => Option.toList (α := η) x) := by
  refine holds_call (fun _ => rfl) fun _ a => ?_
  cases a <;> simp [heldHandles, uses, gives]

theorem holds_putDec {id : Bytes} {m : DecMaterials} :
    Holds [] (askCache vt (.putDec id m)) (fun x => Option.toList (α := η) x) := by
  refine holds_call (fun _ => rfl) fun _ a => ?_
  cases a <;> simp [heldHandles, uses, gives]

theorem holds_try (hrel : vt.has .release = true) {clk : Option Nat} {id : Bytes} {req : EncRequest} :
    Holds (η := η) [] (anyTry vt cmm clk id req) (fun _ => []) := by
  unfold anyTry
  refine holds_bind holds_find fun x => ?_
  obtain ⟨f, o⟩ := x
  rcases o with _ | ⟨h, k⟩
  · exact holds_ret rfl
  · dsimp only [Option.map, Option.toList]
    split
    · exact holds_drop hrel
    · refine holds_bind holds_checkTtl fun ok => ?_
      split
      · refine holds_bind (holds_use (h := h) rfl rfl (by simp)) fun r => ?_
        unfold anyUse
        split
        · exact holds_drop hrel
        · split
          · exact holds_drop hrel
          · refine holds_bind (holds_use (h := h) rfl rfl (by simp)) fun x => ?_
            split
            · exact holds_drop hrel
            · exact holds_bind (holds_release hrel) fun _ => holds_ret rfl
      · exact holds_drop hrel

theorem holds_decTry (hrel : vt.has .release = true) {clk : Option Nat} {id : Bytes} :
    Holds (η := η) [] (anyDecTry vt cmm clk id) (fun _ => []) := by
  unfold anyDecTry
  refine holds_bind holds_find fun x => ?_
  obtain ⟨f, o⟩ := x
  rcases o with _ | ⟨h, k⟩
  · exact holds_ret rfl
  · dsimp only [Option.map, Option.toList]
    split
    · exact holds_drop hrel
    · refine holds_bind holds_checkTtl fun ok => ?_
      split
      · refine holds_bind (holds_use (h := h) rfl rfl (by simp)) fun r => ?_
        split
        · exact holds_drop hrel
        · exact holds_bind (holds_release hrel) fun _ => holds_ret rfl
      · exact holds_drop hrel

theorem holds_genCached (hrel : vt.has .release = true) {env : AnyGenEnv} {req : EncRequest} :
    Holds (η := η) [] (anyGenCached sha vt cmm env req) (fun _ => []) := by
  unfold anyGenCached
  split
  · exact holds_ret rfl
  · refine holds_bind (holds_try hrel) fun x => ?_
    split
    · exact holds_ret rfl
    · unfold anyMiss
      split
      · exact holds_ret rfl
      · split
        · exact holds_fault
        · exact holds_ret rfl
        · exact holds_bind holds_putEnc fun o => holds_bind (holds_afterPut hrel) fun _ => holds_ret rfl

theorem holds_generate (hrel : vt.has .release = true) {env : AnyGenEnv} {req : EncRequest} :
    Holds (η := η) [] (anyGenerate sha vt cmm env req) (fun _ => []) := by
  unfold anyGenerate
  split
  · exact holds_ret rfl
  · split
    · exact holds_genCached hrel
    · split
      · exact holds_fault
      · exact holds_ret rfl
      · exact holds_genCached hrel

theorem holds_decrypt (hrel : vt.has .release = true) {env : AnyDecEnv} {req : DecRequest} :
    Holds (η := η) [] (anyDecrypt sha vt cmm env req) (fun _ => []) := by
  unfold anyDecrypt
  split
  · exact holds_fault
  · exact holds_ret rfl
  · split
    · exact holds_fault
    · exact holds_ret rfl
    · refine holds_bind (holds_decTry hrel) fun x => ?_
      split
      · exact holds_ret rfl
      · unfold anyDecMiss
        split
        · exact holds_ret rfl
        · exact holds_bind holds_putDec fun o => holds_bind (holds_afterPut hrel) fun _ => holds_ret rfl

end Verif.Proof
