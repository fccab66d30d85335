import Verif.Proof.LocalRunsKeeps
/-
Every execution over a local cache goes on to one in which no thread is between the two additions of `update_usage_stats`.
-/
namespace Verif.Proof
open Verif Verif.Spec

section
variable {η α : Type}

/-- After its result a program asks nothing. -/
theorem path_over {p : Prog η α} {es : List (CacheEvent η)} {o : Option α} (h : Path p es o) : ∀ {a e es' o'}, o = some a → ¬ Path p (es ++ e :: es') o' := by
  induction h with
  | stop p => intro a e es' o' ho; cases ho
  | ret a => intro _ e es' o' _ hp; cases hp
  | ask x _ ih =>
    intro a e es' o' ho hp
    cases hp with
    | ask _ hp => exact ih ho hp

theorem Does_over {sha : Bytes → Bytes} {vt : CacheVt} {call : AnyCall} {es : List (CacheEvent η)} {e : CacheEvent η} (h : call.Does sha vt es)
    (h' : call.begun.Does sha vt (es ++ [e])) : call.Does sha vt (es ++ [e]) := by
  cases call with
  | gen cmm env req out =>
    cases out with
    | none => exact h'
    | some a => exact absurd h' (path_over h rfl)
  | dec cmm env req out =>
    cases out with
    | none => exact h'
    | some a => exact absurd h' (path_over h rfl)
end

theorem eventsOf_snoc_self {t : Nat} {log : List LocalEvent} {x : LocalEvent} (h : x.t = t) :
    eventsOf t (asHistory (log ++ [x])) = eventsOf t (asHistory log) ++ [x.ev] := by
  simp [eventsOf, asHistory, List.filter_append, h]
theorem eventsOf_snoc_other {t : Nat} {log : List LocalEvent} {x : LocalEvent} (h : x.t ≠ t) :
    eventsOf t (asHistory (log ++ [x])) = eventsOf t (asHistory log) := by
  simp [eventsOf, asHistory, List.filter_append, h]

section
variable {sha : Bytes → Bytes} {calls : List AnyCall} {addr : Nat → Nat} {cap num : Nat} {log : List LocalEvent} {asked : Nat → Option CacheOp} {s : Conc}

/-- A thread whose call of the cache has not returned still asks what it asked. -/
def StillAsks (sha : Bytes → Bytes) (calls : List AnyCall) (log : List LocalEvent) (asked : Nat → Option CacheOp) (s : Conc) : Prop :=
  ∀ t op, asked t = some op → Asks sha calls log t op ∧ (s.thr t).doing ≠ .idle

theorem Asks.other {t : Nat} {op : CacheOp} {x : LocalEvent} (h : Asks sha calls log t op) (hx : x.t ≠ t) : Asks sha calls (log ++ [x]) t op := by
  unfold Asks at h ⊢
  rwa [eventsOf_snoc_other hx]

theorem LocalRuns.still (h : LocalRuns sha calls addr cap num log asked s) : StillAsks sha calls log asked s := by
  induction h with
  | new => intro t op h; cases h
  | @begins log asked s t op s' hr hask hs ih =>
    obtain ⟨-, G, pos, pend, led, hlr⟩ := LocalRuns.lr hr
    rcases hlr.cc.step hs with ⟨s2, x, he, -, hk⟩ | ⟨n, hmv, -⟩
    · cases he
      generalize hx : (none : Option CacheResult) = x at hk
      cases hk with
      | @call _ c' a ht hidle hop hl hst hz1 hz2 hz3 hz4 =>
        intro u op' hu
        by_cases hut : u = t
        · subst hut
          rw [setAsked_self] at hu
          cases hu
          refine ⟨hask, ?_⟩
          rw [update_self]
          have hsp := start_spec hlr.cc.ok (fun n hn => by
            have := hop n hn
            exact ((s.refs_split ht).mem_iff).2 (by simp [Thread.refs, this])) hst
          cases hsp <;> first | (cases hx; done) | exact nofun
        · rw [setAsked_other hut] at hu
          rw [update_other s hut]
          exact ih u op' hu
    · cases hmv
  | @returns log asked s t op s' r ev hr hask hs hev ih =>
    obtain ⟨-, G, pos, pend, led, hlr⟩ := LocalRuns.lr hr
    rcases hlr.cc.step hs with ⟨s2, x, he, -, hk⟩ | ⟨n, hmv, -⟩
    · cases he
      generalize hx : some r = x at hk
      cases hk with
      | @call _ c' a ht hidle hop hl hst hz1 hz2 hz3 hz4 =>
        intro u op' hu
        have h1 := ih u op' hu
        have hut : u ≠ t := by rintro rfl; exact h1.2 hidle
        rw [update_other s hut]
        exact ⟨Asks.other h1.1 (Ne.symm hut), h1.2⟩
    · cases hmv
  | @goes log asked s t s' hr hs ih =>
    obtain ⟨-, G, pos, pend, led, hlr⟩ := LocalRuns.lr hr
    rcases hlr.cc.step hs with ⟨s2, x, he, -, hk⟩ | ⟨n, -, -, -, -, he⟩
    · cases he
      generalize hx : (none : Option CacheResult) = x at hk
      cases hk with
      | @go c' a ht hidle hl hst hz1 hz2 hz3 =>
        intro u op' hu
        have h1 := ih u op' hu
        refine ⟨h1.1, ?_⟩
        by_cases hut : u = t
        · subst hut
          rw [update_self]
          have hsp := resume_spec hidle hst
          clear h1 hz1 hz2 hz3 hst hl hidle hlr
          generalize (s.thr u).doing = p at hsp
          cases hsp <;> first | (cases hx; done) | exact nofun
        · rw [update_other s hut]
          exact h1.2
    · cases he
  | @ends log asked s t op s' r ev hr ha hs hev ih =>
    obtain ⟨-, G, pos, pend, led, hlr⟩ := LocalRuns.lr hr
    rcases hlr.cc.step hs with ⟨s2, x, he, -, hk⟩ | ⟨n, -, -, -, -, he⟩
    · cases he
      generalize hx : some r = x at hk
      cases hk with
      | @go c' a ht hidle hl hst hz1 hz2 hz3 =>
        intro u op' hu
        by_cases hut : u = t
        · subst hut
          rw [setAsked_self] at hu
          cases hu
        · rw [setAsked_other hut] at hu
          have h1 := ih u op' hu
          rw [update_other s hut]
          exact ⟨Asks.other h1.1 (Ne.symm hut), h1.2⟩
    · cases he
  | @other log asked s t op s' r hr hq hs ih =>
    obtain ⟨-, G, pos, pend, led, hlr⟩ := LocalRuns.lr hr
    rcases hlr.cc.step hs with ⟨s2, x, he, -, hk⟩ | ⟨n, hmv, -⟩
    · cases he
      cases hk with
      | @call _ c' a ht hidle hop hl hst hz1 hz2 hz3 hz4 =>
        intro u op' hu
        have h1 := ih u op' hu
        have hut : u ≠ t := by rintro rfl; exact h1.2 hidle
        rw [update_other s hut]
        exact h1
    · cases hmv

/-- A history with one more event of a call that still asks. -/
theorem History.snoc (hH : History sha localVt calls (asHistory log)) {t : Nat} {op : CacheOp} {ev : CacheEvent Nat} (hask : Asks sha calls log t op)
    (hq : questionOf op = some ev.q) : History sha localVt calls (asHistory (log ++ [⟨t, op, ev⟩])) := by
  obtain ⟨-, call, q, hc, hq', hd⟩ := hask
  rw [hq] at hq'
  cases hq'
  constructor
  · intro x hx
    unfold asHistory at hx
    rw [List.map_append, List.mem_append] at hx
    rcases hx with hx | hx
    · exact hH.made x hx
    · simp only [List.map_cons, List.map_nil, List.mem_singleton] at hx
      subst hx
      exact (List.getElem?_eq_some_iff.1 hc).1
  · intro u call' hu
    by_cases hut : t = u
    · subst hut
      rw [hc] at hu
      cases hu
      rw [eventsOf_snoc_self (x := ⟨t, op, ev⟩) rfl]
      exact Does_over (hH.does t call hc) (hd ev.a)
    · rw [eventsOf_snoc_other (x := ⟨t, op, ev⟩) hut]
      exact hH.does u call' hu

/-- An answered event has the question of the call. -/
theorem recordOf_question {c : Cache} {op : CacheOp} {r : CacheResult} {ev : CacheEvent Nat} (h : recordOf c op r = some ev) : questionOf op = some ev.q := by
  cases op <;> cases r <;> first | (cases h; done) | skip
  case find.handle clk id o =>
    cases o with
    | none => cases h; rfl
    | some n =>
      simp only [recordOf] at h
      cases hm : c.mem n with
      | none => rw [hm] at h; cases h
      | some e => rw [hm] at h; cases h; rfl
  all_goals cases h; rfl

/-- The thread between the two additions makes the second. -/
theorem settle_one (h : LocalRuns sha calls addr cap num log asked s) (hH : History sha localVt calls (asHistory log)) {t n sum messages : Nat}
    (ht : t < num) (hd : (s.thr t).doing = .addMessages n sum messages) : ∃ b k s',
    LocalRuns sha calls addr cap num (log ++ [⟨t, .use n b messages, ⟨.usage n b messages, .ok (sum, k)⟩⟩]) (setAsked asked t none) s' ∧
    History sha localVt calls (asHistory (log ++ [⟨t, .use n b messages, ⟨.usage n b messages, .ok (sum, k)⟩⟩])) ∧
    (s'.thr t).doing = .idle ∧ ∀ u, u ≠ t → s'.thr u = s.thr u := by
  obtain ⟨hn, G, pos, pend, led, hlr⟩ := LocalRuns.lr h
  have hdo := hlr.doing t (by omega)
  rw [hd] at hdo
  obtain ⟨-, b, o, row, h1, -⟩ := hdo
  have hstep : ∃ r, s.step t .go = some r := by
    have hc : t < s.num ∧ (s.thr t).doing ≠ .idle ∧ ((s.thr t).doing.needsLock = true → s.unlocked = true) := by
      rw [hd]
      exact ⟨by omega, nofun, nofun⟩
    exact ⟨_, if_pos hc⟩
  obtain ⟨r, hs⟩ := hstep
  rcases hlr.cc.step hs with ⟨s', x, rfl, hcc, hk⟩ | ⟨n', -, -, hh, -⟩
  · cases hk with
    | @go c' a ht' hidle hl hst hz1 hz2 hz3 =>
      clear hz1 hz2 hz3
      have hsp := resume_spec hidle hst
      rw [hd] at hsp
      cases hsp with
      | @addMessages _ _ _ e hm =>
        have hrun := LocalRuns.ends (ev := ⟨.usage n b messages, .ok (sum, u64 (e.usageMessages + messages))⟩) h h1 hs rfl
        exact ⟨b, u64 (e.usageMessages + messages), _, hrun, History.snoc hH (LocalRuns.still h t _ h1).1 rfl, by rw [update_self]; rfl,
          fun u hu => update_other s hu _ _⟩
  · rw [hd] at hh; cases hh

theorem settle (h : LocalRuns sha calls addr cap num log asked s) (hH : History sha localVt calls (asHistory log)) : ∀ m, m ≤ num →
    ∃ ext asked' s', LocalRuns sha calls addr cap num (log ++ ext) asked' s' ∧ History sha localVt calls (asHistory (log ++ ext)) ∧ ext.length ≤ m ∧
      (∀ x ∈ ext, ∃ n b k r, x.ev = ⟨.usage n b k, .ok r⟩) ∧ ∀ t n sum messages, t < m → (s'.thr t).doing ≠ .addMessages n sum messages := by
  intro m
  induction m with
  | zero => intro _; exact ⟨[], asked, s, by simpa using h, by simpa using hH, Nat.le_refl _, by simp, by omega⟩
  | succ m ih =>
    intro hm
    obtain ⟨ext, asked', s', h1, h2, h3, h4, h5⟩ := ih (by omega)
    by_cases hd : ∃ n sum messages, (s'.thr m).doing = .addMessages n sum messages
    · obtain ⟨n, sum, messages, hd⟩ := hd
      obtain ⟨b, k, s2, h6, h7, h8, h9⟩ := settle_one h1 h2 (by omega) hd
      refine ⟨ext ++ [⟨m, .use n b messages, ⟨.usage n b messages, .ok (sum, k)⟩⟩], _, s2, by rw [← List.append_assoc]; exact h6,
        by rw [← List.append_assoc]; exact h7, by simp; omega, ?_, ?_⟩
      · intro x hx
        rcases List.mem_append.1 hx with hx | hx
        · exact h4 x hx
        · rw [List.mem_singleton] at hx; subst hx; exact ⟨_, _, _, _, rfl⟩
      · intro t n' sum' m' ht
        by_cases htm : t = m
        · subst htm; rw [h8]; exact nofun
        · rw [h9 t htm]; exact h5 t n' sum' m' (by omega)
    · refine ⟨ext, asked', s', h1, h2, by omega, h4, ?_⟩
      intro t n' sum' m' ht
      by_cases htm : t = m
      · subst htm; exact fun hh => hd ⟨_, _, _, hh⟩
      · exact h5 t n' sum' m' (by omega)

/-- Reported usage does not come from upstream CMMs. -/
theorem FreshAny.ext {ext : List LocalEvent} (h : FreshAny calls (asHistory log)) (he : ∀ x ∈ ext, ∃ n b k r, x.ev = ⟨.usage n b k, .ok r⟩) :
    FreshAny calls (asHistory (log ++ ext)) := by
  have key : ∀ t k, UpstreamGave calls (asHistory (log ++ ext)) t k → UpstreamGave calls (asHistory log) t k := by
    rintro t k (h1 | ⟨id, m, b, n, ctx, o, h1, h2⟩)
    · exact .inl h1
    · refine .inr ⟨id, m, b, n, ctx, o, ?_, h2⟩
      unfold asHistory at h1
      rw [List.map_append, List.mem_append] at h1
      rcases h1 with h1 | h1
      · exact h1
      · obtain ⟨x, hx, he'⟩ := List.mem_map.1 h1
        obtain ⟨n, b, k, r, hr⟩ := he x hx
        injection he' with _ he'
        rw [hr] at he'
        cases he'
  intro t u k ht hu
  exact h t u k (key t k ht) (key u k hu)

end

end Verif.Proof
