import Verif.Proof.LocalRunsSettle
import Verif.Props.AnyCache
/-
The handles that threads hold in executions over a local cache are those that their calls of caching CMMs have been given and not returned.
-/
namespace Verif.Proof
open Verif Verif.Spec Verif.Props

theorem heldHandles_snoc {η : Type} [DecidableEq η] {e : CacheEvent η} : ∀ {es : List (CacheEvent η)} {hs hs' : List η},
    heldHandles hs es = some hs' → heldHandles hs (es ++ [e]) = heldHandles hs' [e] := by
  intro es
  induction es with
  | nil => intro hs hs' h; cases h; rfl
  | cons x es ih =>
    intro hs hs' h
    rw [List.cons_append]
    unfold heldHandles at h ⊢
    split
    · next hu => rw [hu] at h; exact ih h
    · next n hu =>
      rw [hu] at h
      simp only at h
      split at h
      · next hm => rw [if_pos hm]; exact ih h
      · cases h

section
variable {sha : Bytes → Bytes} {calls : List AnyCall} {addr : Nat → Nat} {cap num : Nat} {log : List LocalEvent} {asked : Nat → Option CacheOp} {s : Conc}

theorem asks_held {t n : Nat} {op : CacheOp} {hs : List Nat} (h : Asks sha calls log t op) (hh : heldHandles [] (eventsOf t (asHistory log)) = some hs)
    (hn : op.on = some n) : n ∈ hs := by
  obtain ⟨-, call, q, -, hq, hd⟩ := h
  have key : ∀ a : q.Ans, (heldHandles [] (eventsOf t (asHistory log) ++ [⟨q, a⟩])).isSome = true := by
    intro a
    have := hd a
    cases call with
    | gen cmm env req out => exact (C95_handles_encrypt rfl this).1
    | dec cmm env req out => exact (C95_handles_decrypt rfl this).1
  have key2 : uses q = some n := by
    cases op <;> cases hq <;> cases hn <;> rfl
  have a : q.Ans := q.missing
  have h1 := key a
  rw [heldHandles_snoc hh] at h1
  unfold heldHandles at h1
  rw [key2] at h1
  simp only at h1
  split at h1
  · assumption
  · cases h1

/-- The handles of thread `t` when those given and not returned are `hs`. -/
def heldBy (hs : List Nat) : Option CacheOp → List Nat
  | some (.release n _) => hs.erase n
  | _ => hs

def HeldOk (log : List LocalEvent) (asked : Nat → Option CacheOp) (s : Conc) : Prop :=
  ∀ t, ∃ hs, heldHandles [] (eventsOf t (asHistory log)) = some hs ∧ (s.thr t).held = heldBy hs (asked t)

theorem LocalRuns.held (h : LocalRuns sha calls addr cap num log asked s) : HeldOk log asked s := by
  induction h with
  | new => intro t; exact ⟨[], rfl, rfl⟩
  | @begins log asked s t op s' hr hask hs ih =>
    obtain ⟨-, G, pos, pend, led, hlr⟩ := LocalRuns.lr hr
    have hst := LocalRuns.still hr
    rcases hlr.cc.step hs with ⟨s2, x, he, -, hk⟩ | ⟨n, hmv, -⟩
    · cases he
      generalize hx : (none : Option CacheResult) = x at hk
      cases hk with
      | @call _ c' a ht hidle hop hl hstart hz1 hz2 hz3 hz4 =>
        intro u
        obtain ⟨hs, h1, h2⟩ := ih u
        refine ⟨hs, h1, ?_⟩
        by_cases hut : u = t
        · subst hut
          have hnone : asked u = none := by
            cases hau : asked u with
            | none => rfl
            | some o => exact absurd hidle (hst u o hau).2
          rw [hnone] at h2
          rw [setAsked_self, update_self]
          simp only
          rw [h2]
          cases a with
          | ret r => cases hx
          | wait p => cases op <;> rfl
        · rw [setAsked_other hut, update_other s hut]
          exact h2
    · cases hmv
  | @returns log asked s t op s' r ev hr hask hs hev ih =>
    obtain ⟨-, G, pos, pend, led, hlr⟩ := LocalRuns.lr hr
    have hst := LocalRuns.still hr
    rcases hlr.cc.step hs with ⟨s2, x, he, -, hk⟩ | ⟨n, hmv, -⟩
    · cases he
      generalize hx : some r = x at hk
      cases hk with
      | @call _ c' a ht hidle hop hl hstart hz1 hz2 hz3 hz4 =>
        intro u
        obtain ⟨hs, h1, h2⟩ := ih u
        by_cases hut : u = t
        · subst hut
          have hnone : asked u = none := by
            cases hau : asked u with
            | none => rfl
            | some o => exact absurd hidle (hst u o hau).2
          rw [hnone] at h2 ⊢
          rw [update_self, eventsOf_snoc_self (x := ⟨u, op, ev⟩) rfl, heldHandles_snoc h1]
          simp only
          rw [h2]
          cases a with
          | wait p => cases hx
          | ret r' =>
            cases hx
            have hmem := fun n => asks_held (n := n) hask h1
            have hrel : ∀ n inv, op ≠ .release n inv := by
              rintro n inv rfl
              have hsp := start_spec hlr.cc.ok (fun k hk => by
                have := hop k hk
                exact ((s.refs_split ht).mem_iff).2 (by simp [Thread.refs, this])) hstart
              cases hsp
            clear hz1 hz2 hz3 hz4 hstart hop hl hs hask
            cases op <;> cases r <;> first | (cases hev; done) | skip
            case find.handle clk id o =>
              cases o with
              | none => cases hev; exact ⟨_, rfl, rfl⟩
              | some n =>
                simp only [recordOf] at hev
                cases hm : (s.update u c' ⟨heldAfter (some (.find clk id)) (.ret (.handle (some n))) (s.thr u).held, .idle⟩).cache.mem n with
                | none => rw [show Conc.cache _ = _ from rfl] at hev; simp only [Conc.update] at hm; simp [Conc.update, hm] at hev
                | some e =>
                  simp only [Conc.update] at hm
                  simp only [Conc.update, hm, Option.map_some] at hev
                  cases hev
                  exact ⟨_, rfl, rfl⟩
            case putEnc.handle o => cases hev; cases o <;> exact ⟨_, rfl, rfl⟩
            case putDec.handle o => cases hev; cases o <;> exact ⟨_, rfl, rfl⟩
            case release.done n inv => exact absurd rfl (hrel n inv)
            all_goals
              cases hev
              exact ⟨hs, if_pos (hmem _ rfl), rfl⟩
        · refine ⟨hs, ?_, ?_⟩
          · rw [eventsOf_snoc_other (x := ⟨t, op, ev⟩) (Ne.symm hut)]; exact h1
          · rw [update_other s hut]; exact h2
    · cases hmv
  | @goes log asked s t s' hr hs ih =>
    obtain ⟨-, G, pos, pend, led, hlr⟩ := LocalRuns.lr hr
    rcases hlr.cc.step hs with ⟨s2, x, he, -, hk⟩ | ⟨n, -, -, -, -, he⟩
    · cases he
      generalize hx : (none : Option CacheResult) = x at hk
      cases hk with
      | @go c' a ht hidle hl hst hz1 hz2 hz3 =>
        intro u
        obtain ⟨hs, h1, h2⟩ := ih u
        refine ⟨hs, h1, ?_⟩
        by_cases hut : u = t
        · subst hut
          rw [update_self]
          cases a with
          | ret r => cases hx
          | wait p => exact h2
        · rw [update_other s hut]
          exact h2
    · cases he
  | @ends log asked s t op s' r ev hr ha hs hev ih =>
    obtain ⟨-, G, pos, pend, led, hlr⟩ := LocalRuns.lr hr
    have hst := LocalRuns.still hr
    rcases hlr.cc.step hs with ⟨s2, x, he, -, hk⟩ | ⟨n, -, -, -, -, he⟩
    · cases he
      generalize hx : some r = x at hk
      cases hk with
      | @go c' a ht hidle hlk hresume hz1 hz2 hz3 =>
        intro u
        obtain ⟨hl, h1, h2⟩ := ih u
        by_cases hut : u = t
        · subst hut
          rw [update_self, setAsked_self, eventsOf_snoc_self (x := ⟨u, op, ev⟩) rfl, heldHandles_snoc h1]
          simp only
          have hmem := fun n => asks_held (n := n) (hst u op ha).1 h1
          have hd := hlr.doing u ht
          have hsp := resume_spec hidle hresume
          rw [ha] at h2
          clear hz1 hz2 hz3 hresume hlk hidle
          generalize (s.thr u).doing = p at hsp hd
          cases hsp <;> first | (cases hx; done) | skip
          case addMessages n sum m e hm =>
            obtain ⟨-, b, o, row, h3, -⟩ := hd
            rw [ha] at h3
            cases h3; cases hx; cases hev
            exact ⟨hl, if_pos (hmem _ rfl), h2⟩
          case hint n y push hsame =>
            have h3 := hd.1
            rw [ha] at h3
            cases h3; cases hx; cases hev
            exact ⟨hl, if_pos (hmem _ rfl), h2⟩
          case relPlain n hsame =>
            obtain ⟨inv, h3, -⟩ := hd
            rw [ha] at h3
            cases h3; cases hx; cases hev
            exact ⟨hl.erase n, if_pos (hmem _ rfl), h2⟩
          case relLock n hsame =>
            have h3 := hd.1
            rw [ha] at h3
            cases h3; cases hx; cases hev
            exact ⟨hl.erase n, if_pos (hmem _ rfl), h2⟩
          case relHeld n hsame =>
            have h3 := hd.1
            rw [ha] at h3
            cases h3; cases hx; cases hev
            exact ⟨hl.erase n, if_pos (hmem _ rfl), h2⟩
        · refine ⟨hl, ?_, ?_⟩
          · rw [eventsOf_snoc_other (x := ⟨t, op, ev⟩) (Ne.symm hut)]; exact h1
          · rw [update_other s hut, setAsked_other hut]; exact h2
    · cases he
  | @other log asked s t op s' r hr hq hs ih =>
    obtain ⟨-, G, pos, pend, led, hlr⟩ := LocalRuns.lr hr
    rcases hlr.cc.step hs with ⟨s2, x, he, -, hk⟩ | ⟨n, hmv, -⟩
    · cases he
      cases hk with
      | @call _ c' a ht hidle hop hl hst hz1 hz2 hz3 hz4 =>
        intro u
        obtain ⟨hs, h1, h2⟩ := ih u
        refine ⟨hs, h1, ?_⟩
        by_cases hut : u = t
        · subst hut
          rw [update_self]
          have hsp := start_spec hlr.cc.ok (fun n hn => by
            have := hop n hn
            exact ((s.refs_split ht).mem_iff).2 (by simp [Thread.refs, this])) hst
          clear hz1 hz2 hz3 hz4
          cases hsp <;> first | (cases hq; done) | exact h2
        · rw [update_other s hut]
          exact h2
    · cases hmv

/-- A call that is made is possible. -/
theorem LocalRuns.possible (h : LocalRuns sha calls addr cap num log asked s) {t : Nat} {op : CacheOp} (hask : Asks sha calls log t op) (ht : t < num)
    (hidle : (s.thr t).doing = .idle) (hl : op.locking = true → s.unlocked = true) : ∃ s' r, s.step t (.call op) = some (.ok (s', r)) := by
  obtain ⟨hn, G, pos, pend, led, hlr⟩ := LocalRuns.lr h
  obtain ⟨hs, h1, h2⟩ := LocalRuns.held h t
  have hnone : asked t = none := by
    cases hau : asked t with
    | none => rfl
    | some o => exact absurd hidle (LocalRuns.still h t o hau).2
  rw [hnone] at h2
  have hc : t < s.num ∧ (s.thr t).doing = .idle ∧ (∀ n, op.on = some n → n ∈ (s.thr t).held) ∧ (op.locking = true → s.unlocked = true) :=
    ⟨by omega, hidle, fun n hn => by rw [h2]; exact asks_held hask h1 hn, hl⟩
  have hstep : s.step t (.call op) = some (s.finish t (some op) (startCall op s.cache)) := if_pos hc
  rcases hlr.cc.step hstep with ⟨s', x, he, -⟩ | ⟨n, hmv, -⟩
  · exact ⟨s', x, by rw [hstep, he]⟩
  · cases hmv

end

end Verif.Proof
