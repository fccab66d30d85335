import Verif.Props.LocalRuns
/-
C97: four encryption calls of one caching CMM over a local cache, in threads, can make the cache access an entry that has been freed.
-/
namespace Verif.Props
open Verif Verif.Spec Verif.Proof

namespace RaceExample
open AnyCacheExample LocalRunsExample

def cmm8 : CachingCmm := cmm 3 100

/-- Four requests that differ in nothing. -/
def calls8 : List AnyCall :=
  [.gen cmm8 (env [1]) (req 1) none, .gen cmm8 (env [2]) (req 1) none, .gen cmm8 (env [3]) (req 1) none, .gen cmm8 (env [4]) (req 1) none]

def ctx8 : EncCtx := [([1], [2])]
def find8 (t : Nat) (a : Option (Nat × Bool)) : LocalEvent := ⟨t, .find (some 10) cid, ⟨.find cid, (false, a)⟩⟩
def put8 : LocalEvent := ⟨0, .putEnc penv7 cid (mat [1]) 1 1 ctx8, ⟨.putEnc cid (mat [1]) 1 1 ctx8, some 0⟩⟩
def use8 (t k : Nat) : LocalEvent := ⟨t, .use 0 1 1, ⟨.usage 0 1 1, .ok (k, k)⟩⟩
def get8 (t : Nat) : LocalEvent := ⟨t, .getEnc genv7 0 ctx8, ⟨.getEnc 0 ctx8, (ctx8, .ok (mat [1]))⟩⟩
def rel8 (t : Nat) (inv : Bool) : LocalEvent := ⟨t, .release 0 inv, ⟨.release 0 inv, ()⟩⟩

/-- Call 0 stores materials; calls 1 and 2 find them, the latter with the last message that the limit allows; call 3 finds them with one message too
many and gives the entry back, to be invalidated; call 1 gives it back. -/
def log8 : List LocalEvent :=
  [find8 0 none, put8, rel8 0 false, find8 1 (some (0, true)), use8 1 2, get8 1, find8 2 (some (0, true)), use8 2 3, get8 2, find8 3 (some (0, true)), use8 3 4,
   rel8 3 true, rel8 1 false]

def ans8 (found : Bool) (k : Nat) : Nat → (q : CacheQuery Nat) → q.Ans
  | _, .find _ => (false, if found then some (0, true) else none)
  | _, .usage _ _ _ => .ok (k, k)
  | _, .getEnc _ _ => (ctx8, .ok (mat [1]))
  | _, .getDec _ => .error .badState
  | _, .putEnc _ _ _ _ _ => some 0
  | _, .putDec _ _ => none
  | _, .release _ _ => ()
  | _, .creation _ => (0 : Nat)
  | _, .hint _ _ => ()

theorem path_prefix {η α : Type} {rest : List (CacheEvent η)} {o : Option α} : ∀ {es : List (CacheEvent η)} {p : Prog η α},
    Path p (es ++ rest) o → Path p es none := by
  intro es
  induction es with
  | nil => intro p _; exact .stop p
  | cons e es ih =>
    intro p h
    cases h with
    | ask x h => exact .ask x (ih h)

/-- With any number of events left out at the end of each call, what the calls do is a history. -/
theorem history_of8 (log : List LocalEvent) (hm : ∀ x ∈ log, x.t < 4)
    (h0 : eventsOf 0 (asHistory log) <+: eventsOf 0 (asHistory log8)) (h1 : eventsOf 1 (asHistory log) <+: eventsOf 1 (asHistory log8))
    (h2 : eventsOf 2 (asHistory log) <+: eventsOf 2 (asHistory (log8 ++ [rel8 2 true]))) (h3 : eventsOf 3 (asHistory log) <+: eventsOf 3 (asHistory log8)) :
    History dig localVt calls8 (asHistory log) where
  made := by
    intro x hx
    simp only [asHistory, List.mem_map] at hx
    obtain ⟨y, hy, rfl⟩ := hx
    exact hm y hy
  does := by
    intro t call h
    rcases t with _ | _ | _ | _ | t
    · cases h
      obtain ⟨r, hr⟩ := h0
      have hw : Path _ (eventsOf 0 (asHistory log8)) _ := walk_path (ans8 false 1) (anyGenerate dig vt cmm8 (env [1]) (req 1)) 0
      rw [← hr] at hw
      exact path_prefix hw
    · cases h
      obtain ⟨r, hr⟩ := h1
      have hw : Path _ (eventsOf 1 (asHistory log8)) _ := walk_path (ans8 true 2) (anyGenerate dig vt cmm8 (env [2]) (req 1)) 0
      rw [← hr] at hw
      exact path_prefix hw
    · cases h
      obtain ⟨r, hr⟩ := h2
      have hw : Path _ (eventsOf 2 (asHistory (log8 ++ [rel8 2 true]))) _ := walk_path (ans8 true 3) (anyGenerate dig vt cmm8 (env [3]) (req 1)) 0
      rw [← hr] at hw
      exact path_prefix hw
    · cases h
      obtain ⟨r, hr⟩ := h3
      have hw : Path _ (eventsOf 3 (asHistory log8) ++ [⟨.putEnc cid (mat [4]) 1 1 ctx8, some 0⟩, ⟨.release 0 false, ()⟩]) _ :=
        walk_path (ans8 true 4) (anyGenerate dig vt cmm8 (env [4]) (req 1)) 0
      rw [← hr, List.append_assoc] at hw
      exact path_prefix hw
    · simp [calls8] at h

/-- With the release that call 2 is about to end. -/
theorem history8 : History dig localVt calls8 (asHistory (log8 ++ [rel8 2 true])) :=
  history_of8 _ (by simp [log8, find8, put8, use8, get8, rel8]) ⟨[], by rfl⟩ ⟨[], by rfl⟩ ⟨[], by rfl⟩ ⟨[], by rfl⟩

theorem fits8 (op : CacheOp) (h : ∀ x, clockOf op = some x → x < 2 ^ 64)
    (h1 : ∀ env id m bytes messages ctx, op = .putEnc env id m bytes messages ctx → ctx = ctx8) (h2 : ∀ env n ctx, op = .getEnc env n ctx → ctx = ctx8) : OpFits op := by
  have hd : DistinctKeys ctx8 := by unfold DistinctKeys ctx8; simp
  exact ⟨h, fun env id m b k ctx he => by rw [h1 env id m b k ctx he]; exact hd, fun env n ctx he => by rw [h2 env n ctx he]; exact hd⟩

theorem fitsFind {t a} : OpFits (find8 t a).op := fits8 _ (by intro x h; cases h) (by intros; rename_i h; cases h) (by intros; rename_i h; cases h)
theorem fitsUse {t k} : OpFits (use8 t k).op := fits8 _ (by intro x h; cases h) (by intros; rename_i h; cases h) (by intros; rename_i h; cases h)
theorem fitsGet {t} : OpFits (get8 t).op := fits8 _ (by intro x h; cases h) (by intros; rename_i h; cases h) (by intros; rename_i h; cases h; rfl)
theorem fitsRel {t i} : OpFits (rel8 t i).op := fits8 _ (by intro x h; cases h) (by intros; rename_i h; cases h) (by intros; rename_i h; cases h)
theorem fitsPut : OpFits put8.op := fits8 _ (by intro x h; cases h; decide) (by intros; rename_i h; cases h; rfl) (by intros; rename_i h; cases h)

/-- The question at position `k` of the record was asked. -/
theorem asks8 (k : Nat) (x : LocalEvent) (hx : (log8 ++ [rel8 2 true])[k]? = some x) (hf : OpFits x.op) (hq : questionOf x.op = some x.ev.q) :
    Asks dig calls8 ((log8 ++ [rel8 2 true]).take k) x.t x.op := by
  refine asks_of (rest := (log8 ++ [rel8 2 true]).drop (k + 1)) ?_ hf hq
  have : (log8 ++ [rel8 2 true]).take k ++ x :: (log8 ++ [rel8 2 true]).drop (k + 1) = log8 ++ [rel8 2 true] := by
    obtain ⟨hk, he⟩ := List.getElem?_eq_some_iff.1 hx
    subst he
    simp only [List.getElem_cons_drop, List.take_append_drop]
  rw [this]
  exact history8

end RaceExample

open AnyCacheExample LocalRunsExample RaceExample in
/-- **C97, refuted in general.**  Four encryption calls of one caching CMM in four threads, with the same request and a limit of three messages: call 2
has decremented the reference count and has the mutex, call 3 has invalidated the entry, call 1 gives back the last handle, which frees the
entry; call 2 goes on to read it (source/local_cache.c:365). -/
theorem C97_caching_cmms_race_refuted :
    ∃ log asked s, LocalRuns dig calls8 id 2 4 log asked s ∧ History dig localVt calls8 (asHistory log) ∧ cmm8.limitMessages = 3 ∧
      s.step 2 .go = some (.error .useAfterFree) := by
  have hH : History dig localVt calls8 (asHistory log8) :=
    history_of8 _ (by simp [log8, find8, put8, use8, get8, rel8]) ⟨[], by rfl⟩ ⟨[], by rfl⟩ ⟨[⟨.release 0 true, ()⟩], by rfl⟩ ⟨[], by rfl⟩
  have r0 := LocalRuns.returns (ev := (find8 0 none).ev) (LocalRuns.new (addr := id) (cap := 2) (num := 4)) (asks8 0 _ rfl fitsFind rfl) (by rfl) (by rfl)
  have r1 := LocalRuns.returns (ev := put8.ev) r0 (asks8 1 _ rfl fitsPut rfl) (by rfl) (by rfl)
  have r2 := LocalRuns.begins r1 (asks8 2 _ rfl fitsRel rfl) (by rfl)
  have r3 := LocalRuns.ends (t := 0) (ev := (rel8 0 false).ev) r2 (by rfl) (by rfl) (by rfl)
  have r4 := LocalRuns.returns (ev := (find8 1 (some (0, true))).ev) r3 (asks8 3 _ rfl fitsFind rfl) (by rfl) (by rfl)
  have r5 := LocalRuns.begins r4 (asks8 4 _ rfl fitsUse rfl) (by rfl)
  have r6 := LocalRuns.goes (t := 1) r5 (by rfl)
  have r7 := LocalRuns.ends (t := 1) (ev := (use8 1 2).ev) r6 (by rfl) (by rfl) (by rfl)
  have r8 := LocalRuns.returns (ev := (get8 1).ev) r7 (asks8 5 _ rfl fitsGet rfl) (by rfl) (by rfl)
  have r9 := LocalRuns.returns (ev := (find8 2 (some (0, true))).ev) r8 (asks8 6 _ rfl fitsFind rfl) (by rfl) (by rfl)
  have r10 := LocalRuns.begins r9 (asks8 7 _ rfl fitsUse rfl) (by rfl)
  have r11 := LocalRuns.goes (t := 2) r10 (by rfl)
  have r12 := LocalRuns.ends (t := 2) (ev := (use8 2 3).ev) r11 (by rfl) (by rfl) (by rfl)
  have r13 := LocalRuns.returns (ev := (get8 2).ev) r12 (asks8 8 _ rfl fitsGet rfl) (by rfl) (by rfl)
  have a14 : Asks dig calls8 (log8.take 9) 2 (.release 0 true) := asks8 13 _ rfl fitsRel rfl
  have r14 := LocalRuns.begins r13 a14 (by rfl)
  have r15 := LocalRuns.returns (ev := (find8 3 (some (0, true))).ev) r14 (asks8 9 _ rfl fitsFind rfl) (by rfl) (by rfl)
  have r16 := LocalRuns.begins r15 (asks8 10 _ rfl fitsUse rfl) (by rfl)
  have r17 := LocalRuns.goes (t := 3) r16 (by rfl)
  have r18 := LocalRuns.ends (t := 3) (ev := (use8 3 4).ev) r17 (by rfl) (by rfl) (by rfl)
  have r19 := LocalRuns.begins r18 (asks8 11 _ rfl fitsRel rfl) (by rfl)
  have r20 := LocalRuns.goes (t := 3) r19 (by rfl)
  have r21 := LocalRuns.ends (t := 3) (ev := (rel8 3 true).ev) r20 (by rfl) (by rfl) (by rfl)
  have r22 := LocalRuns.goes (t := 2) r21 (by rfl)
  have r23 := LocalRuns.begins r22 (asks8 12 _ rfl fitsRel rfl) (by rfl)
  have r24 := LocalRuns.ends (t := 1) (ev := (rel8 1 false).ev) r23 (by rfl) (by rfl) (by rfl)
  exact ⟨_, _, _, r24, hH, rfl, by rfl⟩

end Verif.Props
