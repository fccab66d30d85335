import Verif.Props.AnyCache
/-
C95: histories of calls over caches that keep their promises, and what a cache may do to the limits otherwise.
-/
namespace Verif.Props
open Verif Verif.Spec Verif.Proof

/-! ## executions -/

namespace AnyCacheExample

/-- Answering questions by their number. -/
def walk {α : Type} (ans : Nat → (q : CacheQuery Nat) → q.Ans) : Nat → Prog Nat α → List (CacheEvent Nat) × Option α
  | _, .ret a => ([], some a)
  | _, .fault _ => ([], none)
  | n, .ask q k => let r := walk ans (n + 1) (k (ans n q)); (⟨q, ans n q⟩ :: r.1, r.2)

theorem walk_path {α : Type} (ans : Nat → (q : CacheQuery Nat) → q.Ans) (p : Prog Nat α) (n : Nat) :
    Path p (walk ans n p).1 (walk ans n p).2 := by
  induction p generalizing n with
  | ret a => exact .ret a
  | fault f => exact .stop _
  | ask q k ih => exact .ask (ans n q) (ih _ _)

/-- A toy digest. -/
def dig : Bytes → Bytes := fun _ => List.replicate 64 0
def vt : CacheVt := ⟨112, fun _ => true⟩
def ids : IdEnv := ⟨none, none, none, none⟩
def mat (key : Bytes) : EncMaterials := ⟨0x0178, key, [], [], none⟩
def dmat (key : Bytes) : DecMaterials := ⟨0x0178, key, [], none⟩
def env (key : Bytes) : AnyGenEnv := ⟨ids, none, fun r => (r.encCtx, .ok (mat key))⟩
def denv (now : Nat) (key : Bytes) : AnyDecEnv := ⟨ids, some now, fun _ => .ok (dmat key)⟩
def req (size : Nat) : EncRequest := { encCtx := [([1], [2])], requestedAlg := 0, plaintextSize := size, policy := .forbidAllow }
def dreq : DecRequest := { encCtx := [([1], [2])], edks := [⟨[4], [], [5]⟩], alg := 0x0178 }
def cid : Bytes := List.replicate 64 0

/-- No time to live, `n` messages, `b` bytes. -/
def cmm (n b : Nat) : CachingCmm := ⟨List.replicate 64 1, n, b, 2 ^ 64 - 1⟩
def dcmm : CachingCmm := ⟨List.replicate 64 1, 3, 100, 50⟩


/-! ### a hit -/

/-- Two calls: materials are put and used. -/
def ev1 : List (Nat × CacheEvent Nat) :=
  [(0, ⟨.find cid, (false, none)⟩), (0, ⟨.putEnc cid (mat [1]) 30 1 [([1], [2])], some 7⟩), (0, ⟨.release 7 false, ()⟩),
   (1, ⟨.find cid, (false, some (7, true))⟩), (1, ⟨.usage 7 40 1, .ok (70, 2)⟩), (1, ⟨.getEnc 7 [([1], [2])], ([([1], [2])], .ok (mat [1]))⟩),
   (1, ⟨.release 7 false, ()⟩)]

def out (key : Bytes) (up : Bool) : GenOut := ⟨[([1], [2])], .ok (mat key), up⟩

def calls1 : List AnyCall :=
  [.gen (cmm 3 100) (env [1]) (req 30) (some (out [1] true)), .gen (cmm 3 100) (env [2]) (req 40) (some (out [1] false))]

def ans1 : Nat → (q : CacheQuery Nat) → q.Ans
  | 10, .find _ => (false, some (7, true))
  | _, .find _ => (false, none)
  | _, .usage _ _ _ => .ok (70, 2)
  | _, .getEnc _ ctx => (ctx, .ok (mat [1]))
  | _, .getDec _ => .error .badState
  | _, .putEnc _ _ _ _ _ => some 7
  | _, .putDec _ _ => none
  | _, .release _ _ => ()
  | _, .creation _ => (0 : Nat)
  | _, .hint _ _ => ()

theorem history1 : History dig vt calls1 ev1 where
  made := by simp [ev1, calls1]
  does := by
    intro t call h
    rcases t with _ | _ | t
    · cases h
      exact walk_path ans1 (anyGenerate dig vt (cmm 3 100) (env [1]) (req 30)) 0
    · cases h
      exact walk_path ans1 (anyGenerate dig vt (cmm 3 100) (env [2]) (req 40)) 10
    · simp [calls1] at h

def ents : Entries := ⟨fun _ => 1, fun _ => 0, fun i => i, fun i => i⟩

theorem keeps1 : CacheKeeps ev1 ents where
  find := by
    intro i t id f h k hi
    rcases i with _ | _ | _ | _ | _ | _ | _ | i <;> simp [ev1] at hi
    obtain ⟨-, rfl, -, -, rfl⟩ := hi
    exact ⟨by decide, _, rfl, rfl⟩
  put := by
    intro i t e hi he
    rcases i with _ | _ | _ | _ | _ | _ | _ | i <;> simp [ev1] at hi <;> obtain ⟨-, rfl⟩ := hi <;> first | rfl | cases he
  same := by intros; rfl
  usage := by
    intro i t h b n b' n' hi _
    rcases i with _ | _ | _ | _ | _ | _ | _ | i <;> simp [ev1] at hi
    obtain ⟨-, -, rfl, rfl⟩ := hi
    decide +kernel
  enc := by
    intro i t h c c' m hi
    rcases i with _ | _ | _ | _ | _ | _ | _ | i <;> simp [ev1] at hi
    obtain ⟨-, -, rfl, rfl⟩ := hi
    exact ⟨_, _, _, _, _, _, _, rfl, rfl, rfl, rfl, rfl, fun _ => rfl⟩
  dec := by
    intro i t h m hi
    rcases i with _ | _ | _ | _ | _ | _ | _ | i <;> simp [ev1] at hi
  creation := by
    intro i t h m hi
    rcases i with _ | _ | _ | _ | _ | _ | _ | i <;> simp [ev1] at hi
  born := by intro e; exact (by decide : 0 < 2 ^ 64)

theorem fresh1 : FreshAny calls1 ev1 := by
  have key : ∀ t k, UpstreamGave calls1 ev1 t k → t = 0 := by
    rintro t k (⟨c, e, r, o, m, h1, h2, -⟩ | ⟨id, m, b, n, ctx, o, h1, -⟩)
    · rcases t with _ | _ | t
      · rfl
      · cases h1; cases h2
      · simp [calls1] at h1
    · simp [ev1] at h1
      exact h1.1
  intro t u k h1 h2
  rw [key t k h1, key u k h2]

/-! ### the byte counter overflows -/

/-- Three calls with 2^63 - 1 bytes each.  The second finds the limit exceeded, but the cache does not forget the entry, and for the
third the counter has started again. -/
def ev2 : List (Nat × CacheEvent Nat) :=
  [(0, ⟨.find cid, (false, none)⟩), (0, ⟨.putEnc cid (mat [1]) (2 ^ 63 - 1) 1 [([1], [2])], some 7⟩), (0, ⟨.release 7 false, ()⟩),
   (1, ⟨.find cid, (false, some (7, true))⟩), (1, ⟨.usage 7 (2 ^ 63 - 1) 1, .ok (2 ^ 64 - 2, 2)⟩), (1, ⟨.release 7 true, ()⟩),
   (1, ⟨.putEnc cid (mat [2]) (2 ^ 63 - 1) 1 [([1], [2])], none⟩),
   (2, ⟨.find cid, (false, some (7, true))⟩), (2, ⟨.usage 7 (2 ^ 63 - 1) 1, .ok (2 ^ 63 - 3, 3)⟩),
   (2, ⟨.getEnc 7 [([1], [2])], ([([1], [2])], .ok (mat [1]))⟩), (2, ⟨.release 7 false, ()⟩)]

def calls2 : List AnyCall :=
  [.gen (cmm 5 (2 ^ 63 - 1)) (env [1]) (req (2 ^ 63 - 1)) (some (out [1] true)),
   .gen (cmm 5 (2 ^ 63 - 1)) (env [2]) (req (2 ^ 63 - 1)) (some (out [2] true)),
   .gen (cmm 5 (2 ^ 63 - 1)) (env [3]) (req (2 ^ 63 - 1)) (some (out [1] false))]

def ans2 : Nat → (q : CacheQuery Nat) → q.Ans
  | 0, .find _ => (false, none)
  | _, .find _ => (false, some (7, true))
  | 11, .usage _ _ _ => .ok (2 ^ 64 - 2, 2)
  | _, .usage _ _ _ => .ok (2 ^ 63 - 3, 3)
  | _, .getEnc _ ctx => (ctx, .ok (mat [1]))
  | _, .getDec _ => .error .badState
  | 1, .putEnc _ _ _ _ _ => some 7
  | _, .putEnc _ _ _ _ _ => none
  | _, .putDec _ _ => none
  | _, .release _ _ => ()
  | _, .creation _ => (0 : Nat)
  | _, .hint _ _ => ()

theorem history2 : History dig vt calls2 ev2 where
  made := by simp [ev2, calls2]
  does := by
    intro t call h
    rcases t with _ | _ | _ | t
    · cases h
      exact walk_path ans2 (anyGenerate dig vt (cmm 5 (2 ^ 63 - 1)) (env [1]) (req (2 ^ 63 - 1))) 0
    · cases h
      exact walk_path ans2 (anyGenerate dig vt (cmm 5 (2 ^ 63 - 1)) (env [2]) (req (2 ^ 63 - 1))) 10
    · cases h
      exact walk_path ans2 (anyGenerate dig vt (cmm 5 (2 ^ 63 - 1)) (env [3]) (req (2 ^ 63 - 1))) 20
    · simp [calls2] at h

def ents2 (n : Nat) : Entries := ⟨fun i => if i = n then n else 1, fun _ => 0, fun i => i, fun i => i⟩

theorem keeps2 : CacheKeeps ev2 (ents2 6) where
  find := by
    intro i t id f h k hi
    rcases i with _ | _ | _ | _ | _ | _ | _ | _ | _ | _ | _ | i <;> simp [ev2] at hi <;> obtain ⟨-, rfl, -, -, rfl⟩ := hi <;>
      exact ⟨by decide, _, rfl, rfl⟩
  put := by
    intro i t e hi he
    rcases i with _ | _ | _ | _ | _ | _ | _ | _ | _ | _ | _ | i <;> simp [ev2] at hi <;> obtain ⟨-, rfl⟩ := hi <;> first | rfl | cases he
  same := by
    intro i j t e e' h _ hj hg hi hu _
    rcases i with _ | _ | _ | _ | _ | _ | _ | _ | _ | _ | _ | i <;> simp [ev2] at hi <;> obtain ⟨-, rfl⟩ := hi <;> try (cases hu; done)
    all_goals
      rcases j with _ | _ | _ | _ | _ | _ | _ | _ | _ | _ | _ | j <;> simp [ev2] at hj <;> obtain ⟨-, rfl⟩ := hj <;> first | rfl | cases hg
  usage := by
    intro i t h b n b' n' hi _
    rcases i with _ | _ | _ | _ | _ | _ | _ | _ | _ | _ | _ | i <;> simp [ev2] at hi <;> obtain ⟨-, -, rfl, rfl⟩ := hi <;> decide +kernel
  enc := by
    intro i t h c c' m hi
    rcases i with _ | _ | _ | _ | _ | _ | _ | _ | _ | _ | _ | i <;> simp [ev2] at hi
    obtain ⟨-, -, rfl, rfl⟩ := hi
    exact ⟨_, _, _, _, _, _, _, rfl, rfl, rfl, rfl, rfl, fun _ => rfl⟩
  dec := by
    intro i t h m hi
    rcases i with _ | _ | _ | _ | _ | _ | _ | _ | _ | _ | _ | i <;> simp [ev2] at hi
  creation := by
    intro i t h m hi
    rcases i with _ | _ | _ | _ | _ | _ | _ | _ | _ | _ | _ | i <;> simp [ev2] at hi
  born := by intro e; exact (by decide : 0 < 2 ^ 64)

theorem fresh2 : FreshAny calls2 ev2 := by
  have key : ∀ t k, UpstreamGave calls2 ev2 t k → (t = 0 ∧ k = [1]) ∨ (t = 1 ∧ k = [2]) := by
    rintro t k (⟨c, e, r, o, m, h1, h2, h3, rfl⟩ | ⟨id, m, b, n, ctx, o, h1, rfl⟩)
    · rcases t with _ | _ | _ | t
      · cases h1; cases h3; exact .inl ⟨rfl, rfl⟩
      · cases h1; cases h3; exact .inr ⟨rfl, rfl⟩
      · cases h1; cases h2
      · simp [calls2] at h1
    · simp [ev2] at h1
      rcases h1 with ⟨rfl, ⟨-, rfl, -⟩, -⟩ | ⟨rfl, ⟨-, rfl, -⟩, -⟩
      · exact .inl ⟨rfl, rfl⟩
      · exact .inr ⟨rfl, rfl⟩
  intro t u k h1 h2
  rcases key t k h1 with ⟨rfl, rfl⟩ | ⟨rfl, rfl⟩ <;> rcases key u _ h2 with ⟨rfl, h⟩ | ⟨rfl, h⟩ <;> first | rfl | cases h

/-! ### usage of invalidated entries is unspecified -/

/-- A caching CMM with a limit of one message.  Two calls find the entry; the first exceeds the limit and invalidates it; the second is
told a usage of zero. -/
def ev3 : List (Nat × CacheEvent Nat) :=
  [(0, ⟨.find cid, (false, none)⟩), (0, ⟨.putEnc cid (mat [1]) 30 1 [([1], [2])], some 7⟩), (0, ⟨.release 7 false, ()⟩),
   (1, ⟨.find cid, (false, some (7, true))⟩), (2, ⟨.find cid, (false, some (7, true))⟩),
   (1, ⟨.usage 7 30 1, .ok (60, 2)⟩), (1, ⟨.release 7 true, ()⟩), (1, ⟨.putEnc cid (mat [2]) 30 1 [([1], [2])], none⟩),
   (2, ⟨.usage 7 30 1, .ok (0, 0)⟩), (2, ⟨.getEnc 7 [([1], [2])], ([([1], [2])], .ok (mat [1]))⟩), (2, ⟨.release 7 false, ()⟩)]

def calls3 : List AnyCall :=
  [.gen (cmm 1 100) (env [1]) (req 30) (some (out [1] true)), .gen (cmm 1 100) (env [2]) (req 30) (some (out [2] true)),
   .gen (cmm 1 100) (env [3]) (req 30) (some (out [1] false))]

def ans3 : Nat → (q : CacheQuery Nat) → q.Ans
  | 0, .find _ => (false, none)
  | _, .find _ => (false, some (7, true))
  | 11, .usage _ _ _ => .ok (60, 2)
  | _, .usage _ _ _ => .ok (0, 0)
  | _, .getEnc _ ctx => (ctx, .ok (mat [1]))
  | _, .getDec _ => .error .badState
  | 1, .putEnc _ _ _ _ _ => some 7
  | _, .putEnc _ _ _ _ _ => none
  | _, .putDec _ _ => none
  | _, .release _ _ => ()
  | _, .creation _ => (0 : Nat)
  | _, .hint _ _ => ()

theorem history3 : History dig vt calls3 ev3 where
  made := by simp [ev3, calls3]
  does := by
    intro t call h
    rcases t with _ | _ | _ | t
    · cases h
      exact walk_path ans3 (anyGenerate dig vt (cmm 1 100) (env [1]) (req 30)) 0
    · cases h
      exact walk_path ans3 (anyGenerate dig vt (cmm 1 100) (env [2]) (req 30)) 10
    · cases h
      exact walk_path ans3 (anyGenerate dig vt (cmm 1 100) (env [3]) (req 30)) 20
    · simp [calls3] at h

theorem promised3 : CachePromised ev3 (ents2 7) where
  find := by
    intro i t id f h k hi
    rcases i with _ | _ | _ | _ | _ | _ | _ | _ | _ | _ | _ | i <;> simp [ev3] at hi <;> obtain ⟨-, rfl, -, -, rfl⟩ := hi <;>
      exact ⟨by decide, _, rfl, rfl⟩
  put := by
    intro i t e hi he
    rcases i with _ | _ | _ | _ | _ | _ | _ | _ | _ | _ | _ | i <;> simp [ev3] at hi <;> obtain ⟨-, rfl⟩ := hi <;> first | rfl | cases he
  same := by
    intro i j t e e' h _ hj hg hi hu _
    rcases i with _ | _ | _ | _ | _ | _ | _ | _ | _ | _ | _ | i <;> simp [ev3] at hi <;> obtain ⟨-, rfl⟩ := hi <;> try (cases hu; done)
    all_goals
      rcases j with _ | _ | _ | _ | _ | _ | _ | _ | _ | _ | _ | j <;> simp [ev3] at hj <;> obtain ⟨-, rfl⟩ := hj <;> first | rfl | cases hg
  usage := by
    intro i t h b n b' n' hi hnd
    by_cases h8 : i = 8
    · subst h8
      exact absurd rfl (hnd 6 1 7 (by decide) rfl)
    rcases i with _ | _ | _ | _ | _ | _ | _ | _ | _ | _ | _ | i <;> simp [ev3] at hi <;> obtain ⟨-, -, rfl, rfl⟩ := hi <;>
      first | decide +kernel | exact absurd rfl h8
  enc := by
    intro i t h c c' m hi
    rcases i with _ | _ | _ | _ | _ | _ | _ | _ | _ | _ | _ | i <;> simp [ev3] at hi
    obtain ⟨-, -, rfl, rfl⟩ := hi
    exact ⟨_, _, _, _, _, _, _, rfl, rfl, rfl, rfl, rfl, fun _ => rfl⟩
  dec := by
    intro i t h m hi
    rcases i with _ | _ | _ | _ | _ | _ | _ | _ | _ | _ | _ | i <;> simp [ev3] at hi
  creation := by
    intro i t h m hi
    rcases i with _ | _ | _ | _ | _ | _ | _ | _ | _ | _ | _ | i <;> simp [ev3] at hi
  born := by intro e; exact (by decide : 0 < 2 ^ 64)

theorem fresh3 : FreshAny calls3 ev3 := by
  have key : ∀ t k, UpstreamGave calls3 ev3 t k → (t = 0 ∧ k = [1]) ∨ (t = 1 ∧ k = [2]) := by
    rintro t k (⟨c, e, r, o, m, h1, h2, h3, rfl⟩ | ⟨id, m, b, n, ctx, o, h1, rfl⟩)
    · rcases t with _ | _ | _ | t
      · cases h1; cases h3; exact .inl ⟨rfl, rfl⟩
      · cases h1; cases h3; exact .inr ⟨rfl, rfl⟩
      · cases h1; cases h2
      · simp [calls3] at h1
    · simp [ev3] at h1
      rcases h1 with ⟨rfl, ⟨-, rfl, -⟩, -⟩ | ⟨rfl, ⟨-, rfl, -⟩, -⟩
      · exact .inl ⟨rfl, rfl⟩
      · exact .inr ⟨rfl, rfl⟩
  intro t u k h1 h2
  rcases key t k h1 with ⟨rfl, rfl⟩ | ⟨rfl, rfl⟩ <;> rcases key u _ h2 with ⟨rfl, h⟩ | ⟨rfl, h⟩ <;> first | rfl | cases h

/-! ### decryption -/

/-- Decryption materials are put at time 10 and used at time 20; the time to live is 50. -/
def ev4 : List (Nat × CacheEvent Nat) :=
  [(0, ⟨.find cid, (false, none)⟩), (0, ⟨.putDec cid (dmat [1]), some 7⟩), (0, ⟨.creation 7, (10 : Nat)⟩), (0, ⟨.hint 7 60, ()⟩),
   (0, ⟨.release 7 false, ()⟩),
   (1, ⟨.find cid, (false, some (7, false))⟩), (1, ⟨.creation 7, (10 : Nat)⟩), (1, ⟨.hint 7 60, ()⟩), (1, ⟨.getDec 7, .ok (dmat [1])⟩),
   (1, ⟨.release 7 false, ()⟩)]

def calls4 : List AnyCall :=
  [.dec dcmm (denv 10 [1]) dreq (some ⟨.ok (dmat [1]), true⟩), .dec dcmm (denv 20 [2]) dreq (some ⟨.ok (dmat [1]), false⟩)]

def ans4 : Nat → (q : CacheQuery Nat) → q.Ans
  | 0, .find _ => (false, none)
  | _, .find _ => (false, some (7, false))
  | _, .usage _ _ _ => .error .badState
  | _, .getEnc _ ctx => (ctx, .error .badState)
  | _, .getDec _ => .ok (dmat [1])
  | _, .putEnc _ _ _ _ _ => none
  | _, .putDec _ _ => some 7
  | _, .release _ _ => ()
  | _, .creation _ => (10 : Nat)
  | _, .hint _ _ => ()

theorem history4 : History dig vt calls4 ev4 where
  made := by simp [ev4, calls4]
  does := by
    intro t call h
    rcases t with _ | _ | t
    · cases h
      exact walk_path ans4 (anyDecrypt dig vt dcmm (denv 10 [1]) dreq) 0
    · cases h
      exact walk_path ans4 (anyDecrypt dig vt dcmm (denv 20 [2]) dreq) 10
    · simp [calls4] at h

def ents4 : Entries := ⟨fun _ => 1, fun _ => 10, fun i => i, fun i => i⟩

theorem keeps4 : CacheKeeps ev4 ents4 where
  find := by
    intro i t id f h k hi
    rcases i with _ | _ | _ | _ | _ | _ | _ | _ | _ | _ | i <;> simp [ev4] at hi
    obtain ⟨-, rfl, -, -, rfl⟩ := hi
    exact ⟨by decide, _, rfl, rfl⟩
  put := by
    intro i t e hi he
    rcases i with _ | _ | _ | _ | _ | _ | _ | _ | _ | _ | i <;> simp [ev4] at hi <;> obtain ⟨-, rfl⟩ := hi <;> first | rfl | cases he
  same := by intros; rfl
  usage := by
    intro i t h b n b' n' hi _
    rcases i with _ | _ | _ | _ | _ | _ | _ | _ | _ | _ | i <;> simp [ev4] at hi
  enc := by
    intro i t h c c' m hi
    rcases i with _ | _ | _ | _ | _ | _ | _ | _ | _ | _ | i <;> simp [ev4] at hi
  dec := by
    intro i t h m hi
    rcases i with _ | _ | _ | _ | _ | _ | _ | _ | _ | _ | i <;> simp [ev4] at hi
    obtain ⟨-, -, rfl⟩ := hi
    exact ⟨_, _, _, _, rfl, rfl, rfl, rfl⟩
  creation := by
    intro i t h m hi
    rcases i with _ | _ | _ | _ | _ | _ | _ | _ | _ | _ | i <;> simp [ev4] at hi <;> obtain ⟨-, -, rfl⟩ := hi <;> exact .inl rfl
  born := by intro e; exact (by decide : 10 < 2 ^ 64)

theorem valid : (cmm 3 100).Valid ∧ (cmm 5 (2 ^ 63 - 1)).Valid ∧ (cmm 1 100).Valid ∧ dcmm.Valid :=
  ⟨⟨by decide, by decide, by decide⟩, ⟨by decide, by decide, by decide⟩, ⟨by decide, by decide, by decide⟩, ⟨by decide, by decide, by decide⟩⟩

end AnyCacheExample

open AnyCacheExample

/-! ## what the promises have to say -/

/-- C95: the byte limit holds only as long as the cache's 64-bit counters do not overflow: a cache that keeps all promises, but does not
forget an entry that is to be invalidated, gives a data key for twice the byte limit. -/
theorem C95_wrap_refutes : ∃ (calls : List AnyCall) (H : List (Nat × CacheEvent Nat)) (E : Entries) (k : Bytes),
    History dig vt calls H ∧ CacheKeeps H E ∧ FreshAny calls H ∧
    (∀ cmm env req out, .gen cmm env req out ∈ calls → cmm.Valid ∧ cmm.limitBytes = 2 ^ 63 - 1 ∧ req.plaintextSize ≤ cmm.limitBytes) ∧
    anyBytes k calls = 2 * (2 ^ 63 - 1) := by
  refine ⟨calls2, ev2, ents2 6, [1], history2, keeps2, fresh2, ?_, by decide +kernel⟩
  intro c e r o h
  simp [calls2] at h
  rcases h with ⟨rfl, -, rfl, -⟩ | ⟨rfl, -, rfl, -⟩ | ⟨rfl, -, rfl, -⟩ <;> exact ⟨valid.2.1, rfl, Nat.le_refl _⟩

/-- C95: what the comments in include/aws/cryptosdk/cache.h promise of usage counters is not enough for the message limit: when one call
has invalidated an entry that another has found, the other may be told any usage. -/
theorem C95_promised_refutes : ∃ (calls : List AnyCall) (H : List (Nat × CacheEvent Nat)) (E : Entries) (k : Bytes),
    History dig vt calls H ∧ CachePromised H E ∧ FreshAny calls H ∧
    (∀ cmm env req out, .gen cmm env req out ∈ calls → cmm.Valid ∧ cmm.limitMessages = 1) ∧ anyMessages k calls = 2 := by
  refine ⟨calls3, ev3, ents2 7, [1], history3, promised3, fresh3, ?_, by decide +kernel⟩
  intro c e r o h
  simp [calls3] at h
  rcases h with ⟨rfl, -, rfl, -⟩ | ⟨rfl, -, rfl, -⟩ | ⟨rfl, -, rfl, -⟩ <;> exact ⟨valid.2.2.1, rfl⟩

/-! ## examples -/

/-- The limits on a history with a hit: data key `[1]` is given for two messages and 70 bytes. -/
example : anyMessages [1] calls1 = 2 ∧ anyMessages [1] calls1 ≤ 3 ∧ anyBytes [1] calls1 = 70 ∧ anyBytes [1] calls1 ≤ 100 := by
  have hm : ∀ c e r o, .gen c e r o ∈ calls1 → c.limitMessages ≤ 3 ∧ c.limitBytes ≤ 100 := by
    intro c e r o h
    simp [calls1] at h
    rcases h with ⟨rfl, -⟩ | ⟨rfl, -⟩ <;> exact ⟨by decide, by decide⟩
  refine ⟨by decide +kernel, C95_message_limit history1 keeps1 fresh1 (fun c e r o h => (hm c e r o h).1) (by decide) (by decide) [1],
    by decide +kernel, ?_⟩
  rcases C95_byte_limit history1 keeps1 fresh1 (fun c e r o h => (hm c e r o h).2) (by decide) [1] with h | ⟨t, c, e, r, o, h1, -⟩
  · exact h
  · have h2 : callsWith [1] calls1 = [0, 1] := by decide +kernel
    rw [h2] at h1; cases h1

/-- The hit in this history. -/
example : ∃ cmm0 env0 req0 out0, .gen cmm0 env0 req0 out0 ∈ calls1 ∧ ∃ ctx ctx0 m0, env0.up { req0 with encCtx := ctx } = (ctx0, .ok m0) ∧
    m0.dataKey = [1] := by
  obtain ⟨cmm0, env0, req0, out0, ctx, m0, ctx0, e, h1, h2, -, h3, -⟩ :=
    C95_encrypt_hit (t := 1) (fun _ => rfl) history1 keeps1 rfl rfl rfl (by
      intro c e r o h
      simp [calls1] at h
      rcases h with ⟨rfl, -, rfl, -⟩ | ⟨rfl, -, rfl, -⟩ <;> exact ⟨valid.1, by decide, by unfold DistinctKeys; decide⟩)
  exact ⟨cmm0, env0, req0, out0, h1, ctx, ctx0, m0, h2, h3.symm⟩

/-- A hit for decryption, within the time to live. -/
example : ∃ e, (∃ u id m0 o, ev4[e]? = some (u, ⟨.putDec id m0, o⟩)) ∧ WithinTtl 50 (some 20) (ents4.born e) := by
  obtain ⟨cmm0, env0, req0, out0, m0, e, -, -, -, -, -, ⟨u, id, o, h1⟩, h2, -⟩ :=
    C95_decrypt_hit (t := 1) (fun _ => rfl) history4 keeps4 rfl rfl rfl (by
      intro c e r o h
      simp [calls4] at h
      rcases h with ⟨rfl, -, rfl, -⟩ | ⟨rfl, -, rfl, -⟩ <;> exact ⟨valid.2.2.2, by decide, by unfold DistinctKeys; decide⟩)
  exact ⟨e, ⟨u, id, m0, o, h1⟩, h2⟩

/-- The handles in these histories; a cache that lacks a function. -/
example : heldHandles [] (eventsOf 1 ev2) = some [] ∧ heldHandles [] (eventsOf 1 ev4) = some [] ∧ vt.has .release = true ∧
    (⟨80, fun _ => true⟩ : CacheVt).has .release = false ∧ (⟨80, fun _ => true⟩ : CacheVt).has .find = true := by decide +kernel

/-- Handles that are lost, used after they were returned, or returned twice. -/
example : heldHandles [] ([⟨.find [], (true, some (7, true))⟩] : List (CacheEvent Nat)) = some [7] ∧
    heldHandles [] ([⟨.find [], (false, some (7, true))⟩, ⟨.release 7 false, ()⟩, ⟨.getDec 7, .error .badState⟩] : List (CacheEvent Nat)) = none ∧
    heldHandles [] ([⟨.find [], (false, some (7, true))⟩, ⟨.release 7 false, ()⟩, ⟨.release 7 true, ()⟩] : List (CacheEvent Nat)) = none := by
  decide +kernel

end Verif.Props
