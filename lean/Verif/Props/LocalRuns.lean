import Verif.Proof.LocalRunsHeld
import Verif.Props.ThreadUsage
/-
C97: the local cache keeps the promises of a materials cache, however its calls are interleaved in threads; so the limits of caching CMMs hold
for sessions in any number of threads that share a local cache.
-/
namespace Verif.Props
open Verif Verif.Spec Verif.Proof

section
variable {W : Crypto → Prop} {sha : Bytes → Bytes} {calls : List AnyCall} {addr : Nat → Nat} {cap num : Nat} {log : List LocalEvent}
  {asked : Nat → Option CacheOp} {s : Conc} {ms : List ThreadMessage}

/-- **C97.**  The local cache keeps the promises of a materials cache, whatever calls of caching CMMs are made in whatever threads and however their
steps are interleaved.  The creation time of an entry is what the clock gave when it was put. -/
theorem C97_local_cache_keeps (h : LocalRuns sha calls addr cap num log asked s) (hs : Settled s) :
    ∃ E, CacheKeeps (asHistory log) E ∧ ∀ (e : Nat) (x : LocalEvent) (c : Nat), log[e]? = some x → clockOf x.op = some c → E.born e = c := by
  obtain ⟨-, G, pos, pend, led, hlr⟩ := LocalRuns.lr h
  exact ⟨entriesOf G, keepsAt_mono hlr.keeps fun _ _ => hs, fun e x c hx hc => entriesOf_born hlr.log hx hc⟩

/-- C97: threads that are between the two additions of `update_usage_stats` can go on to the return of the call, whatever the other threads do. -/
theorem C97_settles (h : LocalRuns sha calls addr cap num log asked s) (hH : History sha localVt calls (asHistory log)) :
    ∃ ext asked' s', LocalRuns sha calls addr cap num (log ++ ext) asked' s' ∧ History sha localVt calls (asHistory (log ++ ext)) ∧ Settled s' ∧
      ext.length ≤ num ∧ ∀ x ∈ ext, ∃ n b k r, x.ev = ⟨.usage n b k, .ok r⟩ := by
  obtain ⟨ext, asked', s', h1, h2, h3, h4, h5⟩ := settle h hH num (Nat.le_refl _)
  refine ⟨ext, asked', s', h1, h2, fun t n sum m ht => h5 t n sum m ?_, h3, h4⟩
  rw [(LocalRuns.lr h1).1] at ht
  exact ht

/-- C97: no call that returns is missing in the record, with a question of the caching CMM that made it. -/
theorem C97_every_answer_is_recorded (h : LocalRuns sha calls addr cap num log asked s) {t : Nat} {s' : Conc} {r : CacheResult} :
    (∀ op, Asks sha calls log t op → s.step t (.call op) = some (.ok (s', some r)) → ∃ ev, recordOf s'.cache op r = some ev ∧ questionOf op = some ev.q) ∧
    (s.step t .go = some (.ok (s', some r)) → ∃ op ev, asked t = some op ∧ recordOf s'.cache op r = some ev ∧ questionOf op = some ev.q) := by
  obtain ⟨-, G, pos, pend, led, hlr⟩ := LocalRuns.lr h
  constructor
  · intro op hask hs
    suffices hh : ∃ ev, recordOf s'.cache op r = some ev from by
      obtain ⟨ev, hev⟩ := hh
      exact ⟨ev, hev, recordOf_question hev⟩
    obtain ⟨-, -, q, -, hq, -⟩ := hask
    rcases hlr.cc.step hs with ⟨s2, x, he, -, hk⟩ | ⟨n, hmv, -⟩
    · cases he
      generalize hx : some r = x at hk
      cases hk with
      | @call _ c' a ht hidle hop hl hst hz1 hz2 hz3 hz4 =>
        have hsp := start_spec hlr.cc.ok (fun n hn => by
          have := hop n hn
          exact ((s.refs_split ht).mem_iff).2 (by simp [Thread.refs, this])) hst
        clear hz1 hz2 hz3 hz4
        cases hsp <;> first | (cases hx; done) | (cases hq; done) | skip
        case find clk id n e hid hsame hm =>
          cases hx
          exact ⟨⟨.find id, (false, some (n, e.isEncrypt))⟩, by simp only [recordOf, Conc.update, hm, Option.map_some]⟩
        all_goals cases hx; exact ⟨_, rfl⟩
    · cases hmv
  · intro hs
    suffices hh : ∃ op ev, asked t = some op ∧ recordOf s'.cache op r = some ev from by
      obtain ⟨op, ev, ha, hev⟩ := hh
      exact ⟨op, ev, ha, hev, recordOf_question hev⟩
    rcases hlr.cc.step hs with ⟨s2, x, he, -, hk⟩ | ⟨n, -, -, -, -, he⟩
    · cases he
      generalize hx : some r = x at hk
      cases hk with
      | @go c' a ht hidle hl hst hz1 hz2 hz3 =>
        have hsp := resume_spec hidle hst
        have hd := hlr.doing t ht
        clear hz1 hz2 hz3
        generalize (s.thr t).doing = p at hsp hd
        cases hsp <;> first | (cases hx; done) | skip
        case addMessages n sum m e hm => cases hx; obtain ⟨-, b, o, row, h1, -⟩ := hd; exact ⟨_, _, h1, rfl⟩
        case hint n x push hsame => cases hx; exact ⟨_, _, hd.1, rfl⟩
        case relPlain n hsame => cases hx; obtain ⟨inv, h1, -⟩ := hd; exact ⟨_, _, h1, rfl⟩
        case relLock n hsame => cases hx; exact ⟨_, _, hd.1, rfl⟩
        case relHeld n hsame => cases hx; exact ⟨_, _, hd.1, rfl⟩
    · cases he

/-- C97: what a caching CMM asks is about handles that it holds; the call is possible as soon as no other thread has the mutex, and its first step does
not fault.  (The later steps of an invalidating release can, C44.) -/
theorem C97_calls_are_possible (h : LocalRuns sha calls addr cap num log asked s) {t : Nat} {op : CacheOp} (hask : Asks sha calls log t op) (ht : t < num)
    (hidle : (s.thr t).doing = .idle) (hl : op.locking = true → s.unlocked = true) : ∃ s' r, s.step t (.call op) = some (.ok (s', r)) :=
  LocalRuns.possible h hask ht hidle hl

/-- **C97.**  No data key is used for more messages than the largest message limit of the caching CMMs that share a local cache, in any number of
threads, if the upstream CMMs do not give the same data key twice. -/
theorem C97_message_limit {L : Nat} (h : Threads W calls ms) (hr : LocalRuns sha calls addr cap num log asked s)
    (hH : History sha localVt calls (asHistory log)) (hf : FreshAny calls (asHistory log))
    (hL : ∀ cmm env req out, .gen cmm env req out ∈ calls → cmm.limitMessages ≤ L) (h1 : 1 ≤ L) (hlen : log.length + num < 2 ^ 64) (k : Bytes) :
    threadMessages k calls ms ≤ L := by
  obtain ⟨ext, asked', s', h2, h3, h4, h5, h6⟩ := C97_settles hr hH
  obtain ⟨E, h7, -⟩ := C97_local_cache_keeps h2 h4
  refine C96_message_limit h h3 h7 (FreshAny.ext hf h6) hL h1 ?_ k
  simp only [asHistory, List.length_map, List.length_append]
  omega

/-- **C97.**  The plaintexts of the messages under a data key that are complete, or whose size was set before processing began, have together no
more bytes than the largest byte limit of these caching CMMs; or there is just one message under the data key, for which more was declared than
the limit. -/
theorem C97_byte_limit {L : Nat} (h : Threads W calls ms) (hr : LocalRuns sha calls addr cap num log asked s)
    (hH : History sha localVt calls (asHistory log)) (hf : FreshAny calls (asHistory log))
    (hL : ∀ cmm env req out, .gen cmm env req out ∈ calls → cmm.limitBytes ≤ L) (hlen : (log.length + num) * L < 2 ^ 64) (k : Bytes) :
    threadBytes k calls ms ≤ L ∨
    (threadMessages k calls ms ≤ 1 ∧
      ∃ t cmm env req out, callsWith k calls = [t] ∧ calls[t]? = some (.gen cmm env req out) ∧ cmm.limitBytes < req.plaintextSize) := by
  obtain ⟨ext, asked', s', h2, h3, h4, h5, h6⟩ := C97_settles hr hH
  obtain ⟨E, h7, -⟩ := C97_local_cache_keeps h2 h4
  refine C96_byte_limit h h3 h7 (FreshAny.ext hf h6) hL (Nat.lt_of_le_of_lt ?_ hlen) k
  refine Nat.mul_le_mul_right _ ?_
  simp only [asHistory, List.length_map, List.length_append]
  omega

end

/-! ### two sessions in two threads that share a local cache -/

namespace LocalRunsExample
open AnyCacheExample UsageExample ThreadExample

def penv7 : PutEnv := ⟨some 10, true, some 10, true, fun _ => none⟩
def genv7 : GetEnv := ⟨true, none, fun _ _ => .error .badState⟩

def x0 : LocalEvent := ⟨0, .find (some 10) cid, ⟨.find cid, (false, none)⟩⟩
def x1 : LocalEvent := ⟨0, .putEnc penv7 cid (mat6 (key 1)) 6 1 [], ⟨.putEnc cid (mat6 (key 1)) 6 1 [], some 0⟩⟩
def x2 : LocalEvent := ⟨1, .find (some 11) cid, ⟨.find cid, (false, some (0, true))⟩⟩
def x3 : LocalEvent := ⟨0, .release 0 false, ⟨.release 0 false, ()⟩⟩
def x4 : LocalEvent := ⟨1, .use 0 5 1, ⟨.usage 0 5 1, .ok (11, 2)⟩⟩
def x5 : LocalEvent := ⟨1, .getEnc genv7 0 [], ⟨.getEnc 0 [], ([], .ok (mat6 (key 1)))⟩⟩
def x6 : LocalEvent := ⟨1, .release 0 false, ⟨.release 0 false, ()⟩⟩

def log7 : List LocalEvent := [x0, x1, x2, x3, x4, x5, x6]

def ans7 : Nat → (q : CacheQuery Nat) → q.Ans
  | 10, .find _ => (false, some (0, true))
  | _, .find _ => (false, none)
  | _, .usage _ _ _ => .ok (11, 2)
  | _, .getEnc _ ctx => (ctx, .ok (mat6 (key 1)))
  | _, .getDec _ => .error .badState
  | _, .putEnc _ _ _ _ _ => some 0
  | _, .putDec _ _ => none
  | _, .release _ _ => ()
  | _, .creation _ => (0 : Nat)
  | _, .hint _ _ => ()

theorem history7 : History dig localVt calls6 (asHistory log7) where
  made := by simp [log7, x0, x1, x2, x3, x4, x5, x6, asHistory, calls6]
  does := by
    intro t call h
    rcases t with _ | _ | t
    · cases h
      exact walk_path ans7 (anyGenerate dig vt (cmm 3 12) (up6 (key 1)) (reqOf jobA)) 0
    · cases h
      exact walk_path ans7 (anyGenerate dig vt (cmm 3 12) (up6 (key 2)) (reqOf jobB)) 10
    · simp [calls6] at h

theorem fresh7 : FreshAny calls6 (asHistory log7) := by
  have key : ∀ t k, UpstreamGave calls6 (asHistory log7) t k → t = 0 := by
    rintro t k (⟨c, e, r, o, m, h1, h2, -⟩ | ⟨id, m, b, n, ctx, o, h1, -⟩)
    · rcases t with _ | _ | t
      · rfl
      · cases h1; cases h2
      · simp [calls6] at h1
    · simp [asHistory, log7, x0, x1, x2, x3, x4, x5, x6] at h1
      exact h1.1
  intro t u k h1 h2
  rw [key t k h1, key u k h2]

/-- The part of a path before a question. -/
theorem path_before {η α : Type} {q : CacheQuery η} {a0 : q.Ans} {rest : List (CacheEvent η)} {o : Option α} : ∀ {es : List (CacheEvent η)} {p : Prog η α},
    Path p (es ++ ⟨q, a0⟩ :: rest) o → ∀ a, Path p (es ++ [⟨q, a⟩]) none := by
  intro es
  induction es with
  | nil =>
    intro p h a
    cases h with
    | ask _ h => exact .ask a (.stop _)
  | cons e es ih =>
    intro p h a
    cases h with
    | ask x h => exact .ask x (ih h a)

/-- What is in the record was asked. -/
theorem asks_of {sha : Bytes → Bytes} {calls : List AnyCall} {log rest : List LocalEvent} {x : LocalEvent}
    (hH : History sha localVt calls (asHistory (log ++ x :: rest))) (hf : OpFits x.op) (hq : questionOf x.op = some x.ev.q) :
    Asks sha calls log x.t x.op := by
  have hlt := hH.made (x.t, x.ev) (by simp [asHistory])
  obtain ⟨call, hc⟩ : ∃ call, calls[x.t]? = some call := ⟨_, List.getElem?_eq_getElem hlt⟩
  refine ⟨hf, call, x.ev.q, hc, hq, fun a => ?_⟩
  have hd := hH.does x.t call hc
  have he : eventsOf x.t (asHistory (log ++ x :: rest)) = eventsOf x.t (asHistory log) ++ ⟨x.ev.q, x.ev.a⟩ :: eventsOf x.t (asHistory rest) := by
    simp [eventsOf, asHistory, List.filter_append]
  rw [he] at hd
  cases call with
  | gen cmm env req out => exact path_before hd a
  | dec cmm env req out => exact path_before hd a

theorem fits (op : CacheOp) (h : ∀ x, clockOf op = some x → x < 2 ^ 64)
    (h1 : ∀ env id m bytes messages ctx, op = .putEnc env id m bytes messages ctx → ctx = []) (h2 : ∀ env n ctx, op = .getEnc env n ctx → ctx = []) : OpFits op :=
  ⟨h, fun env id m b k ctx he => by rw [h1 env id m b k ctx he]; exact List.Pairwise.nil, fun env n ctx he => by rw [h2 env n ctx he]; exact List.Pairwise.nil⟩

/-- The second thread is between the two additions of `update_usage_stats` when the first gives its handle back. -/
theorem runs7 : ∃ asked s, LocalRuns dig calls6 id 2 2 log7 asked s ∧ s.num = 2 ∧ (s.thr 0).doing = .idle ∧ (s.thr 1).doing = .idle := by
  have f0 := fits x0.op (by intro x h; cases h) (by intros; rename_i h; cases h) (by intros; rename_i h; cases h)
  have f1 := fits x1.op (by intro x h; cases h; decide) (by intros; rename_i h; cases h; rfl) (by intros; rename_i h; cases h)
  have f2 := fits x2.op (by intro x h; cases h) (by intros; rename_i h; cases h) (by intros; rename_i h; cases h)
  have f3 := fits x3.op (by intro x h; cases h) (by intros; rename_i h; cases h) (by intros; rename_i h; cases h)
  have f4 := fits x4.op (by intro x h; cases h) (by intros; rename_i h; cases h) (by intros; rename_i h; cases h)
  have f5 := fits x5.op (by intro x h; cases h) (by intros; rename_i h; cases h) (by intros; rename_i h; cases h; rfl)
  have f6 := fits x6.op (by intro x h; cases h) (by intros; rename_i h; cases h) (by intros; rename_i h; cases h)
  have a0 := asks_of (log := []) (rest := [x1, x2, x3, x4, x5, x6]) history7 f0 rfl
  have a1 := asks_of (log := [x0]) (rest := [x2, x3, x4, x5, x6]) history7 f1 rfl
  have a2 := asks_of (log := [x0, x1]) (rest := [x3, x4, x5, x6]) history7 f2 rfl
  have a3 := asks_of (log := [x0, x1, x2]) (rest := [x4, x5, x6]) history7 f3 rfl
  have a4 : Asks dig calls6 [x0, x1, x2] x4.t x4.op := asks_of (log := [x0, x1, x2, x3]) (rest := [x5, x6]) history7 f4 rfl
  have a5 := asks_of (log := [x0, x1, x2, x3, x4]) (rest := [x6]) history7 f5 rfl
  have a6 := asks_of (log := [x0, x1, x2, x3, x4, x5]) (rest := []) history7 f6 rfl
  have r0 := LocalRuns.returns (ev := x0.ev) (LocalRuns.new (addr := id) (cap := 2) (num := 2)) a0 (by rfl) (by rfl)
  have r1 := LocalRuns.returns (ev := x1.ev) r0 a1 (by rfl) (by rfl)
  have r2 := LocalRuns.returns (ev := x2.ev) r1 a2 (by rfl) (by rfl)
  have r3 := LocalRuns.begins r2 a3 (by rfl)
  have r4 := LocalRuns.begins r3 a4 (by rfl)
  have r5 := LocalRuns.goes (t := 1) r4 (by rfl)
  have r6 := LocalRuns.ends (t := 0) (ev := x3.ev) r5 (by rfl) (by rfl) (by rfl)
  have r7 := LocalRuns.ends (t := 1) (ev := x4.ev) r6 (by rfl) (by rfl) (by rfl)
  have r8 := LocalRuns.returns (ev := x5.ev) r7 a5 (by rfl) (by rfl)
  have r9 := LocalRuns.begins r8 a6 (by rfl)
  have r10 := LocalRuns.ends (t := 1) (ev := x6.ev) r9 (by rfl) (by rfl) (by rfl)
  exact ⟨_, _, r10, by rfl, by rfl, by rfl⟩

end LocalRunsExample

open LocalRunsExample ThreadExample UsageExample in
/-- Two messages and eleven bytes under one data key; the limits are three and twelve. -/
example : threadMessages (key 1) calls6 after = 2 ∧ threadMessages (key 1) calls6 after ≤ 3 ∧ threadBytes (key 1) calls6 after = 11 ∧
    threadBytes (key 1) calls6 after ≤ 12 ∧ ∃ E, CacheKeeps (asHistory log7) E ∧ E.born 1 = 10 := by
  obtain ⟨asked, s, hr, hn, h0, h1⟩ := runs7
  have hs : Settled s := by
    intro t n sum m ht
    rw [hn] at ht
    rcases t with _ | _ | t
    · rw [h0]; exact nofun
    · rw [h1]; exact nofun
    · omega
  have hm : ∀ c e r o, .gen c e r o ∈ calls6 → c.limitMessages ≤ 3 ∧ c.limitBytes ≤ 12 := by
    intro c e r o h
    simp [calls6] at h
    rcases h with ⟨rfl, -⟩ | ⟨rfl, -⟩ <;> exact ⟨by decide, by decide⟩
  have h2 : threadMessages (key 1) calls6 after = 2 := by decide +kernel
  refine ⟨h2, C97_message_limit threads6 hr history7 fresh7 (fun c e r o h => (hm c e r o h).1) (by decide) (by decide) _, by decide +kernel, ?_, ?_⟩
  · rcases C97_byte_limit threads6 hr history7 fresh7 (fun c e r o h => (hm c e r o h).2) (by decide) (key 1) with h | ⟨h, -⟩
    · exact h
    · omega
  · obtain ⟨E, h1, h2⟩ := C97_local_cache_keeps hr hs
    exact ⟨E, h1, h2 1 x1 10 rfl rfl⟩

end Verif.Props
