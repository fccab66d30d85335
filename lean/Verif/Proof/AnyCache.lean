import Verif.Spec.AnyCache
/-
Paths of the programs in Model/AnyCache.
-/
namespace Verif.Proof
open Verif Verif.Spec

variable {η α β : Type}

/-! ## finished paths -/

theorem path_ret {a b : α} {es : List (CacheEvent η)} : Path (.ret a) es (some b) ↔ es = [] ∧ a = b := by
  constructor
  · intro h; cases h; exact ⟨rfl, rfl⟩
  · rintro ⟨rfl, rfl⟩; exact .ret a

theorem path_fault {f : Fault} {b : α} {es : List (CacheEvent η)} : ¬ Path (.fault f : Prog η α) es (some b) := by
  intro h; cases h

theorem path_bind {p : Prog η α} {f : α → Prog η β} {es : List (CacheEvent η)} {o : Option β} :
    Path (p.bind f) es o ↔
      (o = none ∧ Path p es none) ∨ ∃ a e1 e2, es = e1 ++ e2 ∧ Path p e1 (some a) ∧ Path (f a) e2 o := by
  induction p generalizing es with
  | ret a =>
    constructor
    · intro h; exact .inr ⟨a, [], es, rfl, .ret a, h⟩
    · rintro (⟨rfl, h⟩ | ⟨a', e1, e2, rfl, h, h'⟩)
      · cases h; exact .stop _
      · obtain ⟨rfl, rfl⟩ := path_ret.1 h; exact h'
  | fault x =>
    constructor
    · intro h; cases h; exact .inl ⟨rfl, .stop _⟩
    · rintro (⟨rfl, h⟩ | ⟨a', e1, e2, rfl, h, h'⟩)
      · cases h; exact .stop _
      · exact absurd h path_fault
  | ask q k ih =>
    constructor
    · intro h
      cases h with
      | stop => exact .inl ⟨rfl, .stop _⟩
      | ask a h =>
        rcases (ih a).1 h with ⟨rfl, h2⟩ | ⟨b, e1, e2, rfl, h2, h'⟩
        · exact .inl ⟨rfl, .ask a h2⟩
        · exact .inr ⟨b, _, e2, rfl, .ask a h2, h'⟩
    · rintro (⟨rfl, h⟩ | ⟨b, e1, e2, rfl, h, h'⟩)
      · cases h with
        | stop => exact .stop _
        | ask a h => exact .ask a ((ih a).2 (.inl ⟨rfl, h⟩))
      · cases h with
        | ask a h => exact .ask a ((ih a).2 (.inr ⟨b, _, e2, rfl, h, h'⟩))

theorem path_seq {p : Prog η α} {f : α → Prog η β} {es : List (CacheEvent η)} {b : β} :
    Path (p.bind f) es (some b) ↔ ∃ a e1 e2, es = e1 ++ e2 ∧ Path p e1 (some a) ∧ Path (f a) e2 (some b) := by
  rw [path_bind]; simp

theorem path_call {vt : CacheVt} {q : CacheQuery η} {es : List (CacheEvent η)} {a : q.Ans} :
    Path (askCache vt q) es (some a) ↔ (vt.has q.fn = true ∧ es = [⟨q, a⟩]) ∨ (vt.has q.fn = false ∧ es = [] ∧ a = q.missing) := by
  unfold askCache
  split
  · next h =>
    constructor
    · intro hp
      cases hp with
      | ask x hp => obtain ⟨rfl, rfl⟩ := path_ret.1 hp; exact .inl ⟨h, rfl⟩
    · rintro (⟨-, rfl⟩ | ⟨h', -⟩)
      · exact .ask a (.ret a)
      · rw [h] at h'; cases h'
  · next h =>
    have h : vt.has q.fn = false := by simpa using h
    rw [path_ret]
    constructor
    · rintro ⟨rfl, rfl⟩; exact .inr ⟨h, rfl, rfl⟩
    · rintro (⟨h', -⟩ | ⟨-, rfl, rfl⟩)
      · rw [h] at h'; cases h'
      · exact ⟨rfl, rfl⟩

/-! ## what all events of a program's paths have in common -/

/-- All events of all paths satisfy `P`. -/
def Evs (P : CacheEvent η → Prop) (p : Prog η α) : Prop := ∀ es o, Path p es o → ∀ e ∈ es, P e

theorem evs_ret {P : CacheEvent η → Prop} {a : α} : Evs P (.ret a) := by
  intro es o h; cases h <;> simp

theorem evs_fault {P : CacheEvent η → Prop} {f : Fault} : Evs P (.fault f : Prog η α) := by
  intro es o h; cases h; simp

theorem evs_bind {P : CacheEvent η → Prop} {p : Prog η α} {f : α → Prog η β} (hp : Evs P p) (hf : ∀ a, Evs P (f a)) : Evs P (p.bind f) := by
  intro es o h e he
  rcases path_bind.1 h with ⟨-, h⟩ | ⟨a, e1, e2, rfl, h1, h2⟩
  · exact hp _ _ h e he
  · rcases List.mem_append.1 he with he | he
    · exact hp _ _ h1 e he
    · exact hf a _ _ h2 e he

theorem evs_call {P : CacheEvent η → Prop} {vt : CacheVt} {q : CacheQuery η} (h : ∀ a, P ⟨q, a⟩) : Evs P (askCache vt q) := by
  intro es o hp e he
  unfold askCache at hp
  split at hp
  · cases hp with
    | stop => simp at he
    | ask a hp =>
      rcases List.mem_cons.1 he with rfl | he
      · exact h a
      · exact absurd he (by have := evs_ret (P := fun _ => False) _ _ hp e; simpa using this)
  · exact absurd he (by have := evs_ret (P := fun _ => False) _ _ hp e; simpa using this)

/-- At most `n` events of a path satisfy `b`. -/
def AtMost (n : Nat) (b : CacheEvent η → Bool) (p : Prog η α) : Prop := ∀ es o, Path p es o → es.countP b ≤ n

theorem atMost_of_evs {b : CacheEvent η → Bool} {p : Prog η α} (h : Evs (fun e => b e = false) p) : AtMost 0 b p := by
  intro es o hp
  rw [Nat.le_zero, List.countP_eq_zero]
  intro e he
  simp [h _ _ hp e he]

theorem atMost_bind {b : CacheEvent η → Bool} {n m : Nat} {p : Prog η α} {f : α → Prog η β} (hp : AtMost n b p) (hf : ∀ a, AtMost m b (f a)) :
    AtMost (n + m) b (p.bind f) := by
  intro es o h
  rcases path_bind.1 h with ⟨-, h⟩ | ⟨a, e1, e2, rfl, h1, h2⟩
  · exact Nat.le_trans (hp _ _ h) (Nat.le_add_right _ _)
  · rw [List.countP_append]
    exact Nat.add_le_add (hp _ _ h1) (hf a _ _ h2)

theorem AtMost.mono {b : CacheEvent η → Bool} {n m : Nat} {p : Prog η α} (h : AtMost n b p) (hm : n ≤ m) : AtMost m b p :=
  fun es o hp => Nat.le_trans (h es o hp) hm

theorem atMost_call {b : CacheEvent η → Bool} {vt : CacheVt} {q : CacheQuery η} : AtMost 1 b (askCache vt q) := by
  intro es o hp
  unfold askCache at hp
  split at hp
  · cases hp with
    | stop => simp
    | ask a hp =>
      cases hp <;>
      · rw [List.countP_cons]; simp; split <;> omega
  · cases hp <;> simp

/-! ## the pieces of the caching CMM -/

/-- An event about handle `h` that does not store, update or get. -/
def Aux (h : η) (e : CacheEvent η) : Prop := (∃ t, e = ⟨.creation h, t⟩) ∨ (∃ t, e = ⟨.hint h t, ()⟩) ∨ ∃ inv, e = ⟨.release h inv, ()⟩

theorem evs_checkTtl {vt : CacheVt} {cmm : CachingCmm} {clk : Option Nat} {h : η} : Evs (Aux h) (anyCheckTtl vt cmm clk h) := by
  unfold anyCheckTtl
  split
  · exact evs_ret
  · refine evs_bind (evs_call fun a => .inl ⟨a, rfl⟩) fun t => ?_
    split
    · exact evs_ret
    · split
      · exact evs_ret
      · split
        · exact evs_ret
        · exact evs_bind (evs_call fun a => .inr (.inl ⟨_, rfl⟩)) fun _ => evs_ret

theorem evs_drop {vt : CacheVt} {h : η} {a : α} : Evs (Aux h) (anyDrop vt h a) := by
  unfold anyDrop
  exact evs_bind (evs_call fun _ => .inr (.inr ⟨_, rfl⟩)) fun _ => evs_ret

theorem evs_afterPut {vt : CacheVt} {cmm : CachingCmm} {o : Option η} : Evs (fun e => ∃ h, o = some h ∧ Aux h e) (anyAfterPut vt cmm o) := by
  cases o with
  | none => exact evs_ret
  | some h =>
    unfold anyAfterPut
    refine evs_bind ?_ fun _ => evs_call fun _ => ⟨h, rfl, .inr (.inr ⟨_, rfl⟩)⟩
    split
    · exact evs_ret
    · refine evs_bind (evs_call fun a => ⟨h, rfl, .inl ⟨a, rfl⟩⟩) fun t => ?_
      split
      · exact evs_call fun _ => ⟨h, rfl, .inr (.inl ⟨_, rfl⟩)⟩
      · exact evs_ret

/-- `check_ttl` says that an entry may be used. -/
theorem path_checkTtl {vt : CacheVt} {cmm : CachingCmm} {clk : Option Nat} {h : η} {es : List (CacheEvent η)}
    (hp : Path (anyCheckTtl vt cmm clk h) es (some true)) :
    (∀ e ∈ es, (∃ t, e = ⟨.creation h, t⟩) ∨ ∃ t, e = ⟨.hint h t, ()⟩) ∧
    (cmm.ttl = 2 ^ 64 - 1 ∨ ∃ t : Nat, ((vt.has .creation = true ∧ ⟨.creation h, t⟩ ∈ es) ∨ (vt.has .creation = false ∧ t = 0)) ∧
      (t < 2 ^ 64 → WithinTtl cmm.ttl clk t)) := by
  unfold anyCheckTtl at hp
  split at hp
  · next h1 => obtain ⟨rfl, -⟩ := path_ret.1 hp; exact ⟨by simp, .inl h1⟩
  · next h1 =>
    obtain ⟨t, e1, e2, rfl, h2, hq⟩ := path_seq.1 hp; clear hp; have hp := hq; clear hq
    have ht : (vt.has .creation = true ∧ (⟨.creation h, t⟩ : CacheEvent η) ∈ e1 ++ e2) ∨ (vt.has .creation = false ∧ t = (0 : Nat)) := by
      rcases path_call.1 h2 with ⟨h3, rfl⟩ | ⟨h3, -, rfl⟩
      · exact .inl ⟨h3, by simp⟩
      · exact .inr ⟨h3, rfl⟩
    have he1 : ∀ e ∈ e1, (∃ t, e = ⟨.creation h, t⟩) ∨ ∃ t, e = ⟨.hint h t, ()⟩ := by
      rcases path_call.1 h2 with ⟨h3, rfl⟩ | ⟨h3, rfl, rfl⟩
      · intro e he; exact .inl ⟨t, by simpa using he⟩
      · simp
    have fin : (∀ e ∈ e2, (∃ t, e = ⟨.creation h, t⟩) ∨ ∃ t, e = ⟨.hint h t, ()⟩) ∧ ((t : Nat) < 2 ^ 64 → WithinTtl cmm.ttl clk t) := by
      change Nat at t
      split at hp
      · next h4 =>
        obtain ⟨rfl, -⟩ := path_ret.1 hp
        refine ⟨by simp, fun hlt => .inr (.inl ?_)⟩
        unfold u64 at h4
        omega
      · next h4 =>
        split at hp
        · cases (path_ret.1 hp).2
        · rename_i now
          split at hp
          · cases (path_ret.1 hp).2
          · next h5 =>
            obtain ⟨u, e3, e4, rfl, h6, hq⟩ := path_seq.1 hp; clear hp; have hp := hq; clear hq
            obtain ⟨rfl, -⟩ := path_ret.1 hp
            constructor
            · rcases path_call.1 h6 with ⟨-, rfl⟩ | ⟨-, rfl, -⟩
              · intro e he; exact .inr ⟨_, by simpa using he⟩
              · simp
            · intro hlt
              refine .inl ⟨now, rfl, ?_⟩
              unfold u64 at h4 h5
              have : (t + cmm.ttl) % 2 ^ 64 ≤ t + cmm.ttl := Nat.mod_le _ _
              omega
    refine ⟨?_, .inr ⟨t, ht, fin.2⟩⟩
    intro e he
    rcases List.mem_append.1 he with he | he
    · exact he1 e he
    · exact fin.1 e he

/-! ## requests served from the cache -/

theorem path_drop {vt : CacheVt} {h : η} {a b : α} {es : List (CacheEvent η)} (hp : Path (anyDrop vt h a) es (some b)) : a = b := by
  unfold anyDrop at hp
  obtain ⟨_, _, _, -, -, hq⟩ := path_seq.1 hp; clear hp; have hp := hq; clear hq
  exact (path_ret.1 hp).2

/-- The time-to-live check of a hit. -/
def TtlEvents (vt : CacheVt) (ttl : Nat) (clk : Option Nat) (h : η) (es : List (CacheEvent η)) : Prop :=
  (∀ e ∈ es, (∃ t, e = ⟨.creation h, t⟩) ∨ ∃ t, e = ⟨.hint h t, ()⟩) ∧
    (ttl = 2 ^ 64 - 1 ∨ ∃ t : Nat, ((vt.has .creation = true ∧ ⟨.creation h, t⟩ ∈ es) ∨ (vt.has .creation = false ∧ t = 0)) ∧
      (t < 2 ^ 64 → WithinTtl ttl clk t))

theorem path_try {vt : CacheVt} {cmm : CachingCmm} {clk : Option Nat} {id : Bytes} {req : EncRequest} {es : List (CacheEvent η)}
    {ctx : EncCtx} {m : EncMaterials} (hp : Path (anyTry vt cmm clk id req) es (some (ctx, some m))) :
    ∃ h mid bytes messages rel,
      es = ⟨.find id, (false, some (h, true))⟩ :: (mid ++ ⟨.usage h req.plaintextSize 1, .ok (bytes, messages)⟩ ::
        ⟨.getEnc h req.encCtx, (ctx, .ok m)⟩ :: rel) ∧
      TtlEvents vt cmm.ttl clk h mid ∧ bytes ≤ cmm.limitBytes ∧ messages ≤ cmm.limitMessages ∧
      rel = (if vt.has .release then [⟨.release h (messages = cmm.limitMessages), ()⟩] else []) := by
  unfold anyTry at hp
  obtain ⟨⟨fails, o⟩, e1, e2, rfl, h1, hq⟩ := path_seq.1 hp; clear hp; have hp := hq; clear hq
  cases o with
  | none => have := (path_ret.1 hp).2; simp at this
  | some x =>
    obtain ⟨h, isEnc⟩ := x
    have h1 : e1 = [⟨.find id, (fails, some (h, isEnc))⟩] := by
      rcases path_call.1 h1 with ⟨-, h⟩ | ⟨-, -, h⟩
      · exact h
      · simp [CacheQuery.missing] at h
    subst h1
    dsimp only at hp
    split at hp
    · have := path_drop hp; simp at this
    · next hk =>
      have hk : fails = false ∧ isEnc = true := by simpa using hk
      obtain ⟨rfl, rfl⟩ := hk
      obtain ⟨ok, mid, e3, rfl, h2, hq⟩ := path_seq.1 hp; clear hp; have hp := hq; clear hq
      split at hp
      · next hok =>
        subst hok
        obtain ⟨r, e4, e5, rfl, h3, hq⟩ := path_seq.1 hp; clear hp; have hp := hq; clear hq
        cases r with
        | error e => unfold anyUse at hp; have := path_drop hp; simp at this
        | ok bm =>
          obtain ⟨bytes, messages⟩ := bm
          have h3 : e4 = [⟨.usage h req.plaintextSize 1, .ok (bytes, messages)⟩] := by
            rcases path_call.1 h3 with ⟨-, h⟩ | ⟨-, -, h⟩
            · exact h
            · cases h
          subst h3
          unfold anyUse at hp
          simp only at hp
          split at hp
          · have := path_drop hp; simp at this
          · next hl =>
            obtain ⟨⟨ctx', g⟩, e6, e7, rfl, h4, hq⟩ := path_seq.1 hp; clear hp; have hp := hq; clear hq
            cases g with
            | error e => have := path_drop hp; simp at this
            | ok m' =>
              have h4 : e6 = [⟨.getEnc h req.encCtx, (ctx', .ok m')⟩] := by
                rcases path_call.1 h4 with ⟨-, h⟩ | ⟨-, -, h⟩
                · exact h
                · cases h
              subst h4
              simp only at hp
              obtain ⟨u, e8, e9, rfl, h5, hq⟩ := path_seq.1 hp; clear hp; have hp := hq; clear hq
              obtain ⟨rfl, hp⟩ := path_ret.1 hp
              cases hp
              refine ⟨h, mid, bytes, messages, e8, by simp, path_checkTtl h2, by omega, by omega, ?_⟩
              rcases path_call.1 h5 with ⟨h6, rfl⟩ | ⟨h6, rfl, -⟩
              · have h6 : vt.has .release = true := h6
                simp [h6]
              · have h6 : vt.has .release = false := h6
                simp [h6]
      · have := path_drop hp; simp at this

theorem path_decTry {vt : CacheVt} {cmm : CachingCmm} {clk : Option Nat} {id : Bytes} {es : List (CacheEvent η)}
    {m : DecMaterials} (hp : Path (anyDecTry vt cmm clk id) es (some (some m))) :
    ∃ h mid rel,
      es = ⟨.find id, (false, some (h, false))⟩ :: (mid ++ ⟨.getDec h, .ok m⟩ :: rel) ∧
      TtlEvents vt cmm.ttl clk h mid ∧ rel = (if vt.has .release then [⟨.release h false, ()⟩] else []) := by
  unfold anyDecTry at hp
  obtain ⟨⟨fails, o⟩, e1, e2, rfl, h1, hq⟩ := path_seq.1 hp; clear hp; have hp := hq; clear hq
  cases o with
  | none => have := (path_ret.1 hp).2; simp at this
  | some x =>
    obtain ⟨h, isEnc⟩ := x
    have h1 : e1 = [⟨.find id, (fails, some (h, isEnc))⟩] := by
      rcases path_call.1 h1 with ⟨-, h⟩ | ⟨-, -, h⟩
      · exact h
      · simp [CacheQuery.missing] at h
    subst h1
    dsimp only at hp
    split at hp
    · have := path_drop hp; simp at this
    · next hk =>
      have hk : fails = false ∧ isEnc = false := by simpa using hk
      obtain ⟨rfl, rfl⟩ := hk
      obtain ⟨ok, mid, e3, rfl, h2, hq⟩ := path_seq.1 hp; clear hp; have hp := hq; clear hq
      split at hp
      · next hok =>
        subst hok
        obtain ⟨r, e4, e5, rfl, h3, hq⟩ := path_seq.1 hp; clear hp; have hp := hq; clear hq
        cases r with
        | error e => have := path_drop hp; simp at this
        | ok m' =>
          have h3 : e4 = [⟨.getDec h, .ok m'⟩] := by
            rcases path_call.1 h3 with ⟨-, h⟩ | ⟨-, -, h⟩
            · exact h
            · cases h
          subst h3
          simp only at hp
          obtain ⟨u, e8, e9, rfl, h5, hq⟩ := path_seq.1 hp; clear hp; have hp := hq; clear hq
          obtain ⟨rfl, hp⟩ := path_ret.1 hp
          cases hp
          refine ⟨h, mid, e8, by simp, path_checkTtl h2, ?_⟩
          rcases path_call.1 h5 with ⟨h6, rfl⟩ | ⟨h6, rfl, -⟩
          · have h6 : vt.has .release = true := h6
            simp [h6]
          · have h6 : vt.has .release = false := h6
            simp [h6]
      · have := path_drop hp; simp at this

end Verif.Proof
