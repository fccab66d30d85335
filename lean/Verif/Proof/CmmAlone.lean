import Verif.Spec.CmmAlone
/-
Proofs for C116: a call of a caching CMM by a thread that is not interrupted is the call of the sequential model.
-/
namespace Verif.Proof.CmmAlone
open Verif Verif.Spec Verif.Proof

/-! ### The cache -/

theorem unlocked_update {s : Conc} {t : Nat} {c : Cache} {th : Thread} (h : s.unlocked = true) (hl : th.doing.locked = false) :
    (s.update t c th).unlocked = true := by
  unfold Conc.unlocked at *
  rw [List.all_eq_true] at *
  intro i hi
  have := h i hi
  simp only [Conc.update]
  split
  · rw [hl]; rfl
  · exact this

theorem update_update (s : Conc) (t : Nat) (c c' : Cache) (th th' : Thread) : (s.update t c th).update t c' th' = s.update t c' th' := by
  unfold Conc.update
  congr 1
  funext i
  simp only
  split <;> rfl

theorem update_thr (s : Conc) (t : Nat) (c : Cache) (th : Thread) : (s.update t c th).thr t = th := by
  unfold Conc.update
  simp only [if_true]

theorem set_set' (c : Cache) (n : Nat) (a b : Option Entry) : (c.set n a).set n b = c.set n b := by
  unfold Cache.set
  congr 1
  funext i
  simp only
  split <;> rfl

theorem entry_set (c : Cache) (n : Nat) (e : Entry) : (c.set n (some e)).entry n = .ok e := by
  unfold Cache.entry Cache.set
  simp only [if_true]

/-- A step `.go` of thread `t`. -/
theorem go_step {s : Conc} {t : Nat} {c c' : Cache} {h : List Nat} {p : Pending} {a : After} (ht : t < s.num) (hp : p ≠ .idle)
    (hu : p.needsLock = true → (s.update t c ⟨h, p⟩).unlocked = true) (hr : resumeCall p c = .ok (c', a)) :
    (s.update t c ⟨h, p⟩).step t .go = some (.ok (s.update t c' ((Thread.mk h p).next none a), a.result)) := by
  have hc : t < (s.update t c ⟨h, p⟩).num ∧ ((s.update t c ⟨h, p⟩).thr t).doing ≠ .idle ∧
      (((s.update t c ⟨h, p⟩).thr t).doing.needsLock = true → (s.update t c ⟨h, p⟩).unlocked = true) := by
    rw [update_thr]; exact ⟨ht, hp, hu⟩
  simp only [Conc.step]
  rw [if_pos hc, update_thr, show (s.update t c ⟨h, p⟩).cache = c from rfl]
  simp only [hr, Conc.finish, update_thr, update_update]

/-- The first step of a call. -/
theorem call_step {s : Conc} {t : Nat} {c c' : Cache} {h : List Nat} {op : CacheOp} {a : After} (ht : t < s.num) (hu : s.unlocked = true)
    (hh : ∀ n, op.on = some n → n ∈ h) (hr : startCall op c = .ok (c', a)) :
    (s.update t c ⟨h, .idle⟩).step t (.call op) = some (.ok (s.update t c' ((Thread.mk h .idle).next (some op) a), a.result)) := by
  have hc : t < (s.update t c ⟨h, .idle⟩).num ∧ ((s.update t c ⟨h, .idle⟩).thr t).doing = .idle ∧
      (∀ n, op.on = some n → n ∈ ((s.update t c ⟨h, .idle⟩).thr t).held) ∧
      (op.locking = true → (s.update t c ⟨h, .idle⟩).unlocked = true) := by
    rw [update_thr]; exact ⟨ht, rfl, hh, fun _ => unlocked_update hu rfl⟩
  simp only [Conc.step]
  rw [if_pos hc, show (s.update t c ⟨h, .idle⟩).cache = c from rfl]
  simp only [hr, Conc.finish, update_thr, update_update]

theorem callRun {s : Conc} {t : Nat} {c c' : Cache} {h : List Nat} {op : CacheOp} {r : CacheResult} (ht : t < s.num) (hu : s.unlocked = true)
    (hh : ∀ n, op.on = some n → n ∈ h) (hr : cacheCall op c = .ok (c', r)) :
    CallRun t op (s.update t c ⟨h, .idle⟩) (s.update t c' ⟨handlesAfter op r h, .idle⟩) r := by
  have one : startCall op c = .ok (c', .ret r) → CallRun t op (s.update t c ⟨h, .idle⟩) (s.update t c' ⟨handlesAfter op r h, .idle⟩) r := by
    intro hs
    refine Or.inl ?_
    rw [call_step ht hu hh hs]
    have : (Thread.mk h .idle).next (some op) (.ret r) = ⟨handlesAfter op r h, .idle⟩ := by
      unfold Thread.next heldAfter handlesAfter
      cases op <;> cases r <;> first | rfl | (rename_i x; cases x <;> rfl)
    rw [this]
    rfl
  cases op with
  | use n b m =>
    simp only [cacheCall, cacheUpdateUsage] at hr
    cases he : c.entry n with
    | error f => rw [he] at hr; cases hr
    | ok e =>
      rw [he] at hr
      simp only at hr
      by_cases hz : e.zombie ∨ e.isEncrypt = false
      · rw [if_pos hz] at hr
        cases hr
        exact one (by simp only [startCall, he]; rw [if_pos hz])
      · rw [if_neg hz] at hr
        cases hr
        have h1 : startCall (.use n b m) c = .ok (c, .wait (.addBytes n b m)) := by simp only [startCall, he]; rw [if_neg hz]
        have h2 : resumeCall (.addBytes n b m) c = .ok (c.set n (some { e with usageBytes := u64 (e.usageBytes + b) }),
            .wait (.addMessages n (u64 (e.usageBytes + b)) m)) := by simp only [resumeCall, he]
        have h3 : resumeCall (.addMessages n (u64 (e.usageBytes + b)) m) (c.set n (some { e with usageBytes := u64 (e.usageBytes + b) })) =
            .ok (c.set n (some { e with usageBytes := u64 (e.usageBytes + b), usageMessages := u64 (e.usageMessages + m) }),
              .ret (.usage (.ok (u64 (e.usageBytes + b), u64 (e.usageMessages + m))))) := by simp only [resumeCall, entry_set, set_set']
        exact Or.inr ⟨_, call_step ht hu hh h1, .more (go_step (p := .addBytes n b m) ht (by nofun) (by nofun) h2)
          (.last (go_step (p := .addMessages n (u64 (e.usageBytes + b)) m) ht (by nofun) (by nofun) h3))⟩
  | hint n x p =>
    simp only [cacheCall] at hr
    cases hk : cacheHint n x p c with
    | error f => rw [hk] at hr; cases hr
    | ok c1 =>
      rw [hk] at hr
      cases hr
      have hk' := hk
      unfold cacheHint at hk
      cases he : c.entry n with
      | error f => rw [he] at hk; cases hk
      | ok e =>
        rw [he] at hk
        simp only at hk
        by_cases hz : e.zombie ∨ e.expiry ≤ x
        · rw [if_pos hz] at hk
          cases hk
          exact one (by simp only [startCall, he]; rw [if_pos hz])
        · have h1 : startCall (.hint n x p) c = .ok (c, .wait (.hintLock n x p)) := by simp only [startCall, he]; rw [if_neg hz]
          have h2 : resumeCall (.hintLock n x p) c = .ok (c', .ret .done) := by simp only [resumeCall, hk']
          exact Or.inr ⟨_, call_step ht hu hh h1,
            .last (go_step (p := .hintLock n x p) ht (by nofun) (fun _ => unlocked_update hu rfl) h2)⟩
  | release n inv =>
    simp only [cacheCall, cacheRelease] at hr
    cases he : c.entry n with
    | error f => rw [he] at hr; cases hr
    | ok e =>
      rw [he] at hr
      simp only at hr
      by_cases hz : inv = true ∧ e.zombie = false
      · rw [if_pos hz] at hr
        have h1 : startCall (.release n inv) c = .ok (c, .wait (.relLock n)) := by simp only [startCall, he]; rw [if_pos hz]
        refine Or.inr ⟨_, call_step ht hu hh h1, ?_⟩
        clear h1
        unfold lockedRelease at hr
        rw [he] at hr
        simp only at hr
        by_cases h0 : e.refcount = 0
        · rw [if_pos h0] at hr; cases hr
        · rw [if_neg h0] at hr
          by_cases h1 : e.refcount = 1
          · rw [if_pos h1, hz.2] at hr; cases hr
          · rw [if_neg h1, if_pos hz] at hr
            have hd : decref c n = .ok (c.set n (some { e with refcount := e.refcount - 1 })) := by
              unfold decref
              rw [he]
              simp only
              rw [if_neg h0, if_neg h1]
            have h2 : resumeCall (.relLock n) c = .ok (c.set n (some { e with refcount := e.refcount - 1 }), .wait (.relHeld n)) := by
              simp only [resumeCall, he, hd]; rw [if_neg h1]
            refine .more (go_step (p := .relLock n) ht (by nofun) (fun _ => unlocked_update hu rfl) h2) ?_
            cases hi : invalidate (c.set n (some { e with refcount := e.refcount - 1 })) n false with
            | error f => rw [hi] at hr; cases hr
            | ok c2 =>
              rw [hi] at hr
              cases hr
              refine .last (go_step (p := .relHeld n) ht (by nofun) (by nofun) (a := .ret .done) ?_)
              simp only [resumeCall, entry_set, hi]
              rw [hz.2]
              rfl
      · rw [if_neg hz] at hr
        have h1 : startCall (.release n inv) c = .ok (c, .wait (.relPlain n)) := by simp only [startCall, he]; rw [if_neg hz]
        refine Or.inr ⟨_, call_step ht hu hh h1, ?_⟩
        cases hd : decref c n with
        | error f => rw [hd] at hr; cases hr
        | ok c2 =>
          rw [hd] at hr
          cases hr
          have h2 : resumeCall (.relPlain n) c = .ok (c', .ret .done) := by simp only [resumeCall, hd]
          exact .last (go_step (p := .relPlain n) ht (by nofun) (by nofun) h2)
  | find clk id => exact one (by simp only [startCall, hr])
  | putEnc env id m b k ctx => exact one (by simp only [startCall, hr])
  | putDec env id m => exact one (by simp only [startCall, hr])
  | getEnc env n ctx => exact one (by simp only [startCall, hr])
  | getDec env n => exact one (by simp only [startCall, hr])
  | created n => exact one (by simp only [startCall, hr])
  | clear => exact one (by simp only [startCall, hr])
  | count => exact one (by simp only [startCall, hr])

/-! ### The programs -/

/-- Steps of thread `t` alone that are forced. -/
inductive Alone (sha : Bytes → Bytes) (t : Nat) : CmmAll → List CmmEvent → CmmAll → Prop where
  | stop {s} : Alone sha t s [] s
  | step {s mv s1 ev log s'} : s.step sha t mv = some (.ok (s1, ev)) → (∀ mv', (s.step sha t mv').isSome = true → mv' = mv) →
      Alone sha t s1 log s' → Alone sha t s (log ++ ev.toList) s'

theorem conc_call_some {k : Conc} {t : Nat} {op : CacheOp} (h : (k.step t (.call op)).isSome = true) : (k.thr t).doing = .idle := by
  simp only [Conc.step] at h
  split at h
  · rename_i hc; exact hc.2.1
  · cases h

theorem conc_go_some {k : Conc} {t : Nat} (h : (k.step t .go).isSome = true) : (k.thr t).doing ≠ .idle := by
  simp only [Conc.step] at h
  split at h
  · rename_i hc; exact hc.2.1
  · cases h

theorem lift_some {s : CmmAll} {r : Option (Except Fault (CmmConc × Option CmmEvent))} (h : (s.lift r).isSome = true) : r.isSome = true := by
  cases r with
  | none => cases h
  | some _ => rfl

theorem shared_some {s : CmmConc} {t : Nat} {r : Option (Except Fault (Conc × Option CacheResult))} (h : (s.shared t r).isSome = true) :
    r.isSome = true := by
  cases r with
  | none => cases h
  | some _ => rfl

theorem allShared_some {s : CmmAll} {t : Nat} {r : Option (Except Fault (Conc × Option CacheResult))} (h : (s.shared t r).isSome = true) :
    r.isSome = true := by
  cases r with
  | none => cases h
  | some _ => rfl

/-- Where a thread is when a step is possible. -/
def Can (s : CmmAll) (t : Nat) : AllMove → Prop
  | .gen _ _ _ => (s.base.pc t).isIdle = true ∧ (s.dpc t).isIdle = true
  | .dec _ _ _ => (s.base.pc t).isIdle = true ∧ (s.dpc t).isIdle = true
  | .clear => (s.base.pc t).isIdle = true ∧ (s.dpc t).isIdle = true
  | .up => (∃ g c, s.base.pc t = .up g c) ∨ ∃ g, s.dpc t = .up g
  | .call => (s.base.conc.thr t).doing = .idle ∧ (((s.dpc t).isIdle = true ∧ (s.base.pc t).op ≠ none) ∨ (s.dpc t).op ≠ none)
  | .go => (s.base.conc.thr t).doing ≠ .idle

theorem can {sha : Bytes → Bytes} {s : CmmAll} {t : Nat} {mv : AllMove} (h : (s.step sha t mv).isSome = true) : Can s t mv := by
  cases mv with
  | gen cmm env req =>
    simp only [CmmAll.step] at h
    split at h
    · rename_i hd
      have := lift_some h
      simp only [CmmConc.step] at this
      split at this
      · rename_i hc; exact ⟨hc.2.2, hd⟩
      · cases this
    · cases h
  | dec cmm env req =>
    simp only [CmmAll.step] at h
    split at h
    · rename_i hc; exact hc.2.2
    · cases h
  | clear =>
    simp only [CmmAll.step] at h
    split at h
    · rename_i hd
      have := lift_some h
      simp only [CmmConc.step] at this
      split at this
      · rename_i hc; exact ⟨hc.1, hd⟩
      · cases this
    · cases h
  | up =>
    simp only [CmmAll.step] at h
    cases hd : s.dpc t with
    | idle =>
      rw [hd] at h
      have := lift_some h
      simp only [CmmConc.step] at this
      cases hp : s.base.pc t with
      | up g c => exact Or.inl ⟨g, c, hp⟩
      | _ => rw [hp] at this; cases this
    | up g => exact Or.inr ⟨g, hd⟩
    | _ => rw [hd] at h; cases h
  | call =>
    simp only [CmmAll.step] at h
    split at h
    · rename_i hd
      have := lift_some h
      simp only [CmmConc.step] at this
      cases hp : (s.base.pc t).op with
      | none => rw [hp] at this; cases this
      | some op =>
        rw [hp] at this
        exact ⟨conc_call_some (shared_some this), Or.inl ⟨hd, by rw [hp]; nofun⟩⟩
    · cases hp : (s.dpc t).op with
      | none => rw [hp] at h; cases h
      | some op =>
        rw [hp] at h
        exact ⟨conc_call_some (allShared_some h), Or.inr (by rw [hp]; nofun)⟩
  | go =>
    simp only [CmmAll.step] at h
    split at h
    · exact conc_go_some (shared_some (s := s.base) (t := t) (lift_some h))
    · exact conc_go_some (allShared_some h)

/-- A thread between calls of the cache, about to make one. -/
theorem only_call {sha : Bytes → Bytes} {s : CmmAll} {t : Nat} (hd : (s.base.conc.thr t).doing = .idle)
    (hc : (s.dpc t = .idle ∧ (s.base.pc t).op ≠ none) ∨ (s.base.pc t = .idle ∧ (s.dpc t).op ≠ none)) :
    ∀ mv', (s.step sha t mv').isSome = true → mv' = .call := by
  have hn : ¬ ((s.base.pc t).isIdle = true ∧ (s.dpc t).isIdle = true) := by
    intro h
    rcases hc with ⟨_, h2⟩ | ⟨_, h2⟩
    · cases hp : s.base.pc t <;> rw [hp] at h h2 <;> first | exact h2 rfl | cases h.1
    · cases hp : s.dpc t <;> rw [hp] at h h2 <;> first | exact h2 rfl | cases h.2
  intro mv' h
  have h := can h
  cases mv' with
  | gen => exact absurd h hn
  | dec => exact absurd h hn
  | clear => exact absurd h hn
  | call => rfl
  | go => exact absurd hd h
  | up =>
    exfalso
    rcases h with ⟨g, c, h⟩ | ⟨g, h⟩ <;> rcases hc with ⟨h1, h2⟩ | ⟨h1, h2⟩
    · rw [h] at h2; exact h2 rfl
    · rw [h] at h1; cases h1
    · rw [h] at h1; cases h1
    · rw [h] at h2; exact h2 rfl

/-- A thread in a call of the cache. -/
theorem only_go {sha : Bytes → Bytes} {s : CmmAll} {t : Nat} (hd : (s.base.conc.thr t).doing ≠ .idle)
    (hc : (s.dpc t = .idle ∧ (s.base.pc t).op ≠ none) ∨ (s.base.pc t = .idle ∧ (s.dpc t).op ≠ none)) :
    ∀ mv', (s.step sha t mv').isSome = true → mv' = .go := by
  have hn : ¬ ((s.base.pc t).isIdle = true ∧ (s.dpc t).isIdle = true) := by
    intro h
    rcases hc with ⟨_, h2⟩ | ⟨_, h2⟩
    · cases hp : s.base.pc t <;> rw [hp] at h h2 <;> first | exact h2 rfl | cases h.1
    · cases hp : s.dpc t <;> rw [hp] at h h2 <;> first | exact h2 rfl | cases h.2
  intro mv' h
  have h := can h
  cases mv' with
  | gen => exact absurd h hn
  | dec => exact absurd h hn
  | clear => exact absurd h hn
  | call => exact absurd h.1 hd
  | go => rfl
  | up =>
    exfalso
    rcases h with ⟨g, c, h⟩ | ⟨g, h⟩ <;> rcases hc with ⟨h1, h2⟩ | ⟨h1, h2⟩
    · rw [h] at h2; exact h2 rfl
    · rw [h] at h1; cases h1
    · rw [h] at h1; cases h1
    · rw [h] at h2; exact h2 rfl

/-- A thread about to call the CMM underneath. -/
theorem only_up {sha : Bytes → Bytes} {s : CmmAll} {t : Nat} (hd : (s.base.conc.thr t).doing = .idle)
    (hc : (s.dpc t = .idle ∧ ∃ g c, s.base.pc t = .up g c) ∨ (s.base.pc t = .idle ∧ ∃ g, s.dpc t = .up g)) :
    ∀ mv', (s.step sha t mv').isSome = true → mv' = .up := by
  have hn : ¬ ((s.base.pc t).isIdle = true ∧ (s.dpc t).isIdle = true) := by
    intro h
    rcases hc with ⟨_, g, c, h2⟩ | ⟨_, g, h2⟩
    · rw [h2] at h; cases h.1
    · rw [h2] at h; cases h.2
  intro mv' h
  have h := can h
  cases mv' with
  | gen => exact absurd h hn
  | dec => exact absurd h hn
  | clear => exact absurd h hn
  | up => rfl
  | go => exact absurd hd h
  | call =>
    exfalso
    rcases hc with ⟨h1, g, c, h2⟩ | ⟨h1, g, h2⟩ <;> rcases h.2 with ⟨a, b⟩ | b
    · rw [h2] at b; exact b rfl
    · rw [h1] at b; exact b rfl
    · rw [h1] at b; exact b rfl
    · rw [h2] at b; exact b rfl

theorem Alone.trans {sha : Bytes → Bytes} {t : Nat} {s s1 s2 : CmmAll} {l1 l2 : List CmmEvent} (h : Alone sha t s l1 s1)
    (h2 : Alone sha t s1 l2 s2) : Alone sha t s (l2 ++ l1) s2 := by
  induction h with
  | stop => rw [List.append_nil]; exact h2
  | step hs ho _ ih => rw [← List.append_assoc]; exact .step hs ho (ih h2)

theorem Alone.execution {sha : Bytes → Bytes} {t : Nat} {s s' : CmmAll} {log : List CmmEvent} (h : Alone sha t s log s') :
    ∃ mvs : List AllMove, execution sha s (mvs.map (fun mv => (t, mv))) = some (.ok (log, s')) ∧ Forced sha t s mvs := by
  induction h with
  | stop => exact ⟨[], rfl, trivial⟩
  | @step s mv s1 ev log s' hs ho _ ih =>
    obtain ⟨mvs, hm, hf⟩ := ih
    refine ⟨mv :: mvs, ?_, ho, ?_⟩
    · simp only [List.map_cons, Spec.execution, hs, hm]
    · intro s2 ev2 h2
      rw [hs] at h2
      cases h2
      exact hf

/-- A step of thread `t`, and what is forced then. -/
def Begun (sha : Bytes → Bytes) (t : Nat) (mv : AllMove) (s : CmmAll) (log : List CmmEvent) (s' : CmmAll) : Prop :=
  ∃ s1 ev l, s.step sha t mv = some (.ok (s1, ev)) ∧ Alone sha t s1 l s' ∧ log = l ++ ev.toList

theorem Begun.execution {sha : Bytes → Bytes} {t : Nat} {mv : AllMove} {s s' : CmmAll} {log : List CmmEvent} (h : Begun sha t mv s log s') :
    ∃ mvs : List AllMove, execution sha s ((mv :: mvs).map (fun mv => (t, mv))) = some (.ok (log, s')) ∧
      ∀ s1 ev, s.step sha t mv = some (.ok (s1, ev)) → Forced sha t s1 mvs := by
  obtain ⟨s1, ev, l, hs, ha, rfl⟩ := h
  obtain ⟨mvs, hm, hf⟩ := ha.execution
  refine ⟨mvs, ?_, ?_⟩
  · simp only [List.map_cons, Spec.execution, hs, hm]
  · intro s2 ev2 h2
    rw [hs] at h2
    cases h2
    exact hf

/-- The threads when thread `t` is in no call of the cache: the cache, the entries that `t` holds, and where it is. -/
def place (s : CmmAll) (t : Nat) (c : Cache) (h : List Nat) (p : Pc) (d : DPc) : CmmAll :=
  ⟨⟨s.base.conc.update t c ⟨h, .idle⟩, fun i => if i = t then p else s.base.pc i⟩, fun i => if i = t then d else s.dpc i⟩

theorem goRun_base {sha : Bytes → Bytes} {t : Nat} {k k' : Conc} {r : CacheResult} {f : Nat → Pc} {g : Nat → DPc} (hg : (g t).isIdle = true)
    (hf : (f t).op ≠ none) (h : GoRun t k k' r) :
    Alone sha t ⟨⟨k, f⟩, g⟩ ((f t).after k'.cache r).2.toList ⟨⟨k', fun i => if i = t then ((f t).after k'.cache r).1 else f i⟩, g⟩ := by
  have hi : g t = .idle := by cases hx : g t <;> rw [hx] at hg <;> first | rfl | cases hg
  induction h with
  | last hs =>
    refine Alone.step (mv := .go) (log := []) ?_ (only_go (conc_go_some (by rw [hs]; rfl)) (Or.inl ⟨hi, hf⟩)) .stop
    simp only [CmmAll.step]
    rw [if_pos hg]
    simp only [CmmConc.step, hs, CmmConc.shared, CmmAll.lift]
  | @more k k1 k' r hs _ ih =>
    have := Alone.step (sha := sha) (s := ⟨⟨k, f⟩, g⟩) (mv := .go) (ev := none) (s1 := ⟨⟨k1, f⟩, g⟩) (by
      simp only [CmmAll.step]
      rw [if_pos hg]
      simp only [CmmConc.step, hs, CmmConc.shared, CmmAll.lift]) (only_go (conc_go_some (by rw [hs]; rfl)) (Or.inl ⟨hi, hf⟩)) ih
    rw [Option.toList_none, List.append_nil] at this
    exact this

theorem goRun_dec {sha : Bytes → Bytes} {t : Nat} {k k' : Conc} {r : CacheResult} {f : Nat → Pc} {g : Nat → DPc} (hg : (g t).isIdle = false)
    (hf : f t = .idle) (hk : (g t).op ≠ none) (h : GoRun t k k' r) :
    Alone sha t ⟨⟨k, f⟩, g⟩ ((g t).after k'.cache r).2.toList ⟨⟨k', f⟩, fun i => if i = t then ((g t).after k'.cache r).1 else g i⟩ := by
  have hg' : ¬ (g t).isIdle = true := by rw [hg]; nofun
  induction h with
  | last hs =>
    refine Alone.step (mv := .go) (log := []) ?_ (only_go (conc_go_some (by rw [hs]; rfl)) (Or.inr ⟨hf, hk⟩)) .stop
    simp only [CmmAll.step]
    rw [if_neg hg']
    simp only [hs, CmmAll.shared]
  | @more k k1 k' r hs _ ih =>
    have := Alone.step (sha := sha) (s := ⟨⟨k, f⟩, g⟩) (mv := .go) (ev := none) (s1 := ⟨⟨k1, f⟩, g⟩) (by
      simp only [CmmAll.step]
      rw [if_neg hg']
      simp only [hs, CmmAll.shared]) (only_go (conc_go_some (by rw [hs]; rfl)) (Or.inr ⟨hf, hk⟩)) ih
    rw [Option.toList_none, List.append_nil] at this
    exact this

variable {sha : Bytes → Bytes} {s : CmmAll} {t : Nat}

/-- A call of the cache in `generate_enc_materials`. -/
theorem genCall (ht : t < s.base.conc.num) (hu : s.base.conc.unlocked = true) {c c' : Cache} {h : List Nat} {p : Pc} {op : CacheOp}
    {r : CacheResult} (ho : p.op = some op) (hh : ∀ n, op.on = some n → n ∈ h) (hr : cacheCall op c = .ok (c', r)) {p' : Pc}
    {ev : Option CmmEvent} (ha : p.after c' r = (p', ev)) :
    Alone sha t (place s t c h p .idle) ev.toList (place s t c' (handlesAfter op r h) p' .idle) := by
  have key : Alone sha t (place s t c h p .idle) (p.after c' r).2.toList (place s t c' (handlesAfter op r h) (p.after c' r).1 .idle) := by
    have hp : (place s t c h p .idle).base.pc t = p := by simp only [place, if_true]
    have hd : ((place s t c h p .idle).dpc t).isIdle = true := by simp only [place, if_true]; rfl
    have fin : ∀ (q : Pc), (fun i => if i = t then q else (place s t c h p .idle).base.pc i) = fun i => if i = t then q else s.base.pc i := by
      intro q; funext i; simp only [place]; split <;> rfl
    have only := only_call (sha := sha) (s := place s t c h p .idle) (t := t)
      (by rw [show (place s t c h p .idle).base.conc.thr t = ⟨h, .idle⟩ from update_thr _ _ _ _])
      (Or.inl ⟨by simp only [place, if_true], by rw [hp, ho]; nofun⟩)
    rcases callRun (s := s.base.conc) ht hu hh hr with h1 | ⟨k, h1, h2⟩
    · have := Alone.step (sha := sha) (t := t) (s := place s t c h p .idle) (mv := .call) (log := []) (s1 := place s t c' (handlesAfter op r h)
        (p.after c' r).1 .idle) (ev := (p.after c' r).2) (by
          simp only [CmmAll.step]
          rw [if_pos hd]
          simp only [CmmConc.step, hp, ho]
          rw [show (place s t c h p .idle).base.conc = s.base.conc.update t c ⟨h, .idle⟩ from rfl, h1]
          simp only [CmmConc.shared, CmmAll.lift, hp]
          rw [fin]
          rfl) only .stop
      exact this
    · have g := goRun_base (sha := sha) (f := (place s t c h p .idle).base.pc) hd (by rw [hp, ho]; nofun) h2
      rw [hp, fin] at g
      have := Alone.step (sha := sha) (t := t) (s := place s t c h p .idle) (mv := .call) (ev := none) (by
          simp only [CmmAll.step]
          rw [if_pos hd]
          simp only [CmmConc.step, hp, ho]
          rw [show (place s t c h p .idle).base.conc = s.base.conc.update t c ⟨h, .idle⟩ from rfl, h1]
          simp only [CmmConc.shared, CmmAll.lift]) only g
      rw [Option.toList_none, List.append_nil] at this
      exact this
  rw [ha] at key
  exact key

/-- A call of the cache in `decrypt_materials`. -/
theorem decCall (ht : t < s.base.conc.num) (hu : s.base.conc.unlocked = true) {c c' : Cache} {h : List Nat} {d : DPc} {op : CacheOp}
    {r : CacheResult} (ho : d.op = some op) (hh : ∀ n, op.on = some n → n ∈ h) (hr : cacheCall op c = .ok (c', r)) {d' : DPc}
    {ev : Option CmmEvent} (ha : d.after c' r = (d', ev)) :
    Alone sha t (place s t c h .idle d) ev.toList (place s t c' (handlesAfter op r h) .idle d') := by
  have key : Alone sha t (place s t c h .idle d) (d.after c' r).2.toList (place s t c' (handlesAfter op r h) .idle (d.after c' r).1) := by
    have hp : (place s t c h .idle d).dpc t = d := by simp only [place, if_true]
    have hi : d.isIdle = false := by cases d <;> first | rfl | cases ho
    have hd : ¬ d.isIdle = true := by rw [hi]; nofun
    have fin : ∀ (q : DPc), (fun i => if i = t then q else (place s t c h .idle d).dpc i) = fun i => if i = t then q else s.dpc i := by
      intro q; funext i; simp only [place]; split <;> rfl
    have hq : (place s t c h .idle d).base.pc t = .idle := by simp only [place, if_true]
    have only := only_call (sha := sha) (s := place s t c h .idle d) (t := t)
      (by rw [show (place s t c h .idle d).base.conc.thr t = ⟨h, .idle⟩ from update_thr _ _ _ _])
      (Or.inr ⟨hq, by rw [hp, ho]; nofun⟩)
    rcases callRun (s := s.base.conc) ht hu hh hr with h1 | ⟨k, h1, h2⟩
    · have := Alone.step (sha := sha) (t := t) (s := place s t c h .idle d) (mv := .call) (log := []) (s1 := place s t c' (handlesAfter op r h)
        .idle (d.after c' r).1) (ev := (d.after c' r).2) (by
          simp only [CmmAll.step, hp]
          rw [if_neg hd]
          simp only [ho]
          rw [show (place s t c h .idle d).base.conc = s.base.conc.update t c ⟨h, .idle⟩ from rfl, h1]
          simp only [CmmAll.shared, hp]
          rw [fin]
          rfl) only .stop
      exact this
    · have g := goRun_dec (sha := sha) (f := (place s t c h .idle d).base.pc) (g := (place s t c h .idle d).dpc) (by rw [hp]; exact hi) hq (by rw [hp, ho]; nofun) h2
      rw [hp, fin] at g
      have := Alone.step (sha := sha) (t := t) (s := place s t c h .idle d) (mv := .call) (ev := none) (by
          simp only [CmmAll.step, hp]
          rw [if_neg hd]
          simp only [ho]
          rw [show (place s t c h .idle d).base.conc = s.base.conc.update t c ⟨h, .idle⟩ from rfl, h1]
          simp only [CmmAll.shared]) only g
      rw [Option.toList_none, List.append_nil] at this
      exact this
  rw [ha] at key
  exact key


theorem erase_held (n : Nat) (h : List Nat) : (n :: h).erase n = h := List.erase_cons_head n h

theorem Alone.nil_trans {s1 s2 s3 : CmmAll} {l : List CmmEvent} (h : Alone sha t s1 [] s2) (h2 : Alone sha t s2 l s3) : Alone sha t s1 l s3 := by
  have := h.trans h2
  rw [List.append_nil] at this
  exact this

theorem isEncrypt_entry {c : Cache} {n : Nat} {e : Entry} (he : c.entry n = .ok e) : c.isEncrypt n = e.isEncrypt := by
  unfold Cache.entry at he
  unfold Cache.isEncrypt
  cases hm : c.mem n with
  | none => rw [hm] at he; cases he
  | some e' => rw [hm] at he; cases he; rfl

/-! #### `generate_enc_materials` -/

section
variable (ht : t < s.base.conc.num) (hu : s.base.conc.unlocked = true)
include ht hu

theorem gen_drop {c c' : Cache} {h : List Nat} (g : GenCall) {n : Nat} (ctx : EncCtx) (hr : cacheRelease n true c = .ok c') :
    Alone sha t (place s t c (n :: h) (.drop g n ctx) .idle) [] (place s t c' h (.up g ctx) .idle) := by
  have := genCall (sha := sha) ht hu (c := c) (c' := c') (h := n :: h) (p := .drop g n ctx) (op := .release n true) (r := .done) rfl
    (by intro m hm; cases hm; exact .head _) (by simp only [cacheCall, hr]; rfl) (p' := .up g ctx) (ev := none) rfl
  rw [show handlesAfter (.release n true) .done (n :: h) = (n :: h).erase n from rfl, erase_held] at this
  exact this

theorem gen_fin {c c' : Cache} {h : List Nat} {n : Nat} {inv : Bool} (hr : cacheRelease n inv c = .ok c') :
    Alone sha t (place s t c (n :: h) (.fin n inv) .idle) [] (place s t c' h .idle .idle) := by
  have := genCall (sha := sha) ht hu (c := c) (c' := c') (h := n :: h) (p := .fin n inv) (op := .release n inv) (r := .done) rfl
    (by intro m hm; cases hm; exact .head _) (by simp only [cacheCall, hr]; rfl) (p' := .idle) (ev := none) rfl
  rw [show handlesAfter (.release n inv) .done (n :: h) = (n :: h).erase n from rfl, erase_held] at this
  exact this

/-- Where a thread is after the lookup, and what it has answered. -/
def tried (g : GenCall) (ctx : EncCtx) : Option EncMaterials → Pc × List CmmEvent
  | none => (.up g ctx, [])
  | some m => (.idle, [.gen g.cmm g.env g.req ⟨ctx, .ok m, false⟩])

theorem gen_use {c c' : Cache} {h : List Nat} {g : GenCall} {n bytes messages : Nat} {ctx : EncCtx} {o : Option EncMaterials}
    (hr : genUse g.cmm g.env n bytes messages g.req.encCtx c = .ok (c', ctx, o)) :
    Alone sha t (place s t c (n :: h) (if bytes > g.cmm.limitBytes ∨ messages > g.cmm.limitMessages then .drop g n g.req.encCtx
      else .get g n bytes messages) .idle) (tried g ctx o).2 (place s t c' h (tried g ctx o).1 .idle) := by
  unfold genUse at hr
  by_cases hl : bytes > g.cmm.limitBytes ∨ messages > g.cmm.limitMessages
  · rw [if_pos hl] at hr ⊢
    unfold dropEntry at hr
    cases hk : cacheRelease n true c with
    | error f => rw [hk] at hr; cases hr
    | ok c1 => rw [hk] at hr; cases hr; exact gen_drop ht hu g _ hk
  · rw [if_neg hl] at hr ⊢
    cases hg : cacheGetEnc g.env.get n g.req.encCtx c with
    | error f => rw [hg] at hr; cases hr
    | ok r =>
      obtain ⟨ctx1, r⟩ := r
      rw [hg] at hr
      have hc : cacheCall (.getEnc g.env.get n g.req.encCtx) c = .ok (c, .encMaterials ctx1 r) := by simp only [cacheCall, hg]; rfl
      have hh : ∀ m, (CacheOp.getEnc g.env.get n g.req.encCtx).on = some m → m ∈ n :: h := by intro m hm; cases hm; exact .head _
      cases r with
      | error e =>
        unfold dropEntry at hr
        simp only at hr
        cases hk : cacheRelease n true c with
        | error f => rw [hk] at hr; cases hr
        | ok c1 =>
          rw [hk] at hr
          cases hr
          exact (genCall (sha := sha) ht hu (p := .get g n bytes messages) rfl hh hc (ev := none) rfl).nil_trans (gen_drop ht hu g _ hk)
      | ok m =>
        simp only at hr
        cases hk : cacheRelease n (decide (messages = g.cmm.limitMessages)) c with
        | error f => rw [hk] at hr; cases hr
        | ok c1 =>
          rw [hk] at hr
          cases hr
          exact (genCall (sha := sha) ht hu (p := .get g n bytes messages) rfl hh hc rfl).trans (gen_fin ht hu hk)

theorem gen_ttl {c c' : Cache} {h : List Nat} {g : GenCall} {n : Nat} {b : Bool}
    (hr : checkTtl g.cmm g.env.clkTtl g.env.pushHit n c = .ok (c', b)) :
    Alone sha t (place s t c (n :: h) (if g.cmm.ttl = 2 ^ 64 - 1 then .use g n else .created g n) .idle) []
      (place s t c' (n :: h) (if b then .use g n else .drop g n g.req.encCtx) .idle) := by
  unfold checkTtl at hr
  by_cases hl : g.cmm.ttl = 2 ^ 64 - 1
  · rw [if_pos hl] at hr ⊢
    cases hr
    exact .stop
  · rw [if_neg hl] at hr ⊢
    cases hc : cacheCreation n c with
    | error f => rw [hc] at hr; cases hr
    | ok x =>
      rw [hc] at hr
      simp only at hr
      have h1 := genCall (sha := sha) ht hu (c := c) (h := n :: h) (p := .created g n) (op := .created n) (r := .time x) rfl
        (by intro m hm; cases hm; exact .head _) (by simp only [cacheCall, hc]; rfl) (p' := afterCreated g n x) (ev := none) rfl
      refine h1.nil_trans ?_
      rw [show handlesAfter (.created n) (.time x) (n :: h) = n :: h from rfl]
      unfold afterCreated
      by_cases hw : u64 (x + g.cmm.ttl) < x
      · rw [if_pos hw] at hr ⊢
        cases hr
        exact .stop
      · rw [if_neg hw] at hr ⊢
        cases hk : g.env.clkTtl with
        | none =>
          rw [hk] at hr
          cases hr
          exact .stop
        | some now =>
          rw [hk] at hr
          simp only at hr ⊢
          by_cases hn : now ≥ u64 (x + g.cmm.ttl)
          · rw [if_pos hn] at hr ⊢
            cases hr
            exact .stop
          · rw [if_neg hn] at hr ⊢
            cases hi : cacheHint n (u64 (x + g.cmm.ttl)) g.env.pushHit c with
            | error f => rw [hi] at hr; cases hr
            | ok c1 =>
              rw [hi] at hr
              cases hr
              exact genCall (sha := sha) ht hu (h := n :: h) (p := .hint g n (u64 (x + g.cmm.ttl)))
                (op := .hint n (u64 (x + g.cmm.ttl)) g.env.pushHit) (r := .done) rfl (by intro m hm; cases hm; exact .head _)
                (by simp only [cacheCall, hi]; rfl) (p' := .use g n) (ev := none) rfl

theorem gen_try {c c' : Cache} {h : List Nat} {g : GenCall} {ctx : EncCtx} {o : Option EncMaterials}
    (hr : genTry g.cmm g.env g.id g.req c = .ok (c', ctx, o)) :
    Alone sha t (place s t c h (.find g) .idle) (tried g ctx o).2 (place s t c' h (tried g ctx o).1 .idle) := by
  unfold genTry at hr
  cases hf : cacheFind g.env.clkFind g.id c with
  | error f => rw [hf] at hr; cases hr
  | ok r =>
    obtain ⟨c1, on⟩ := r
    rw [hf] at hr
    have hc : cacheCall (.find g.env.clkFind g.id) c = .ok (c1, .handle on) := by simp only [cacheCall, hf]; rfl
    have h1 := genCall (sha := sha) ht hu (h := h) (p := .find g) rfl (by nofun) hc rfl
    cases on with
    | none => cases hr; exact h1
    | some n =>
      simp only at hr
      refine h1.nil_trans ?_
      clear h1
      rw [show handlesAfter (.find g.env.clkFind g.id) (.handle (some n)) h = n :: h from rfl]
      cases he : c1.entry n with
      | error f => rw [he] at hr; cases hr
      | ok e =>
        rw [he] at hr
        simp only at hr
        show Alone sha t (place s t c1 (n :: h) (if c1.isEncrypt n = false then .drop g n g.req.encCtx
          else if g.cmm.ttl = 2 ^ 64 - 1 then .use g n else .created g n) .idle) _ _
        rw [isEncrypt_entry he]
        cases hi : e.isEncrypt with
        | false =>
          rw [hi] at hr
          simp only [Bool.not_false, if_true] at hr ⊢
          unfold dropEntry at hr
          cases hk : cacheRelease n true c1 with
          | error f => rw [hk] at hr; cases hr
          | ok c2 => rw [hk] at hr; cases hr; exact gen_drop ht hu g _ hk
        | true =>
          rw [hi] at hr
          rw [if_neg (by nofun)] at hr ⊢
          cases hl : checkTtl g.cmm g.env.clkTtl g.env.pushHit n c1 with
          | error f => rw [hl] at hr; cases hr
          | ok r =>
            obtain ⟨c2, b⟩ := r
            rw [hl] at hr
            refine (gen_ttl ht hu hl).nil_trans ?_
            cases b with
            | false =>
              simp only at hr
              unfold dropEntry at hr
              cases hk : cacheRelease n true c2 with
              | error f => rw [hk] at hr; cases hr
              | ok c3 => rw [hk] at hr; cases hr; exact gen_drop ht hu g _ hk
            | true =>
              simp only at hr
              rw [if_pos rfl]
              cases hk : cacheUpdateUsage n g.req.plaintextSize 1 c2 with
              | error f => rw [hk] at hr; cases hr
              | ok r =>
                obtain ⟨c3, r⟩ := r
                rw [hk] at hr
                have hc : cacheCall (.use n g.req.plaintextSize 1) c2 = .ok (c3, .usage r) := by simp only [cacheCall, hk]; rfl
                have hh : ∀ m, (CacheOp.use n g.req.plaintextSize 1).on = some m → m ∈ n :: h := by intro m hm; cases hm; exact .head _
                cases r with
                | error x =>
                  simp only at hr
                  unfold dropEntry at hr
                  cases hk : cacheRelease n true c3 with
                  | error f => rw [hk] at hr; cases hr
                  | ok c4 =>
                    rw [hk] at hr
                    cases hr
                    exact (genCall (sha := sha) ht hu (p := .use g n) rfl hh hc (ev := none) rfl).nil_trans (gen_drop ht hu g _ hk)
                | ok x => exact (genCall (sha := sha) ht hu (p := .use g n) rfl hh hc (ev := none) rfl).nil_trans (gen_use ht hu hr)

theorem gen_ttlMiss {c c' : Cache} {h : List Nat} {g : GenCall} {n : Nat} (hr : setTtlOnMiss g.cmm g.env.pushMiss n c = .ok c') :
    Alone sha t (place s t c (n :: h) (if g.cmm.ttl = 2 ^ 64 - 1 then .fin n false else .createdMiss g n) .idle) []
      (place s t c' (n :: h) (.fin n false) .idle) := by
  unfold setTtlOnMiss at hr
  by_cases hl : g.cmm.ttl = 2 ^ 64 - 1
  · rw [if_pos hl] at hr ⊢
    cases hr
    exact .stop
  · rw [if_neg hl] at hr ⊢
    cases hc : cacheCreation n c with
    | error f => rw [hc] at hr; cases hr
    | ok x =>
      rw [hc] at hr
      simp only at hr
      have h1 := genCall (sha := sha) ht hu (c := c) (h := n :: h) (p := .createdMiss g n) (op := .created n) (r := .time x) rfl
        (by intro m hm; cases hm; exact .head _) (by simp only [cacheCall, hc]; rfl) (ev := none) rfl
      refine h1.nil_trans ?_
      rw [show handlesAfter (.created n) (.time x) (n :: h) = n :: h from rfl]
      by_cases hw : u64 (x + g.cmm.ttl) > x
      · rw [if_pos hw] at hr ⊢
        exact genCall (sha := sha) ht hu (h := n :: h) (p := .hintMiss g n (u64 (x + g.cmm.ttl)))
          (op := .hint n (u64 (x + g.cmm.ttl)) g.env.pushMiss) (r := .done) rfl (by intro m hm; cases hm; exact .head _)
          (by simp only [cacheCall, hr]; rfl) (p' := .fin n false) (ev := none) rfl
      · rw [if_neg hw] at hr ⊢
        cases hr
        exact .stop

theorem gen_up {c : Cache} {h : List Nat} {g : GenCall} {ctx : EncCtx} {p : Pc} {ev : Option CmmEvent} (hg : genUp g ctx = .ok (p, ev)) :
    Alone sha t (place s t c h (.up g ctx) .idle) ev.toList (place s t c h p .idle) := by
  refine Alone.step (mv := .up) (log := []) ?_
    (only_up (by rw [show (place s t c h (.up g ctx) .idle).base.conc.thr t = ⟨h, .idle⟩ from update_thr _ _ _ _])
      (Or.inl ⟨by simp only [place, if_true], g, ctx, by simp only [place, if_true]⟩)) .stop
  simp only [CmmAll.step]
  rw [show (place s t c h (.up g ctx) .idle).dpc t = .idle by simp only [place, if_true]]
  simp only [CmmConc.step]
  rw [show (place s t c h (.up g ctx) .idle).base.pc t = .up g ctx by simp only [place, if_true]]
  simp only
  rw [if_pos (show t < (place s t c h (.up g ctx) .idle).base.conc.num from ht), hg]
  simp only [CmmConc.local, CmmAll.lift, place]
  congr 5
  funext i
  split <;> rfl

theorem gen_miss {c c' : Cache} {h : List Nat} {g : GenCall} {ctx : EncCtx} {o : GenOut}
    (hr : genMiss g.cmm g.env g.id g.req ctx c = .ok (c', o)) :
    Alone sha t (place s t c h (.up g ctx) .idle) [.gen g.cmm g.env g.req o] (place s t c' h .idle .idle) := by
  unfold genMiss at hr
  cases hup : g.env.up { g.req with encCtx := ctx } with
  | mk ctx1 r =>
    rw [hup] at hr
    cases r with
    | error e =>
      cases hr
      exact gen_up ht hu (ev := some _) (by simp only [genUp, hup])
    | ok m =>
      simp only [genStore] at hr
      cases hcan : canCache m.alg with
      | error f => rw [hcan] at hr; cases hr
      | ok b =>
        rw [hcan] at hr
        have h1 := gen_up (sha := sha) ht hu (c := c) (h := h) (g := g) (ctx := ctx) (by simp only [genUp, hup, hcan]; rfl)
        cases b with
        | false => cases hr; exact h1
        | true =>
          simp only at hr
          have done : ∀ {o'}, Alone sha t (place s t c h (.put g ctx1 m) .idle) [] (place s t c' h .idle .idle) → o' = o →
              o' = (⟨ctx1, .ok m, true⟩ : GenOut) →
              Alone sha t (place s t c h (.up g ctx) .idle) [.gen g.cmm g.env g.req o] (place s t c' h .idle .idle) := by
            intro o' h2 e1 e2
            subst e1
            subst e2
            exact h1.trans h2
          cases hp : cachePutEnc g.env.put g.id m g.req.plaintextSize 1 ctx1 c with
          | error f => rw [hp] at hr; cases hr
          | ok r =>
            obtain ⟨c1, on⟩ := r
            rw [hp] at hr
            have h2 := genCall (sha := sha) ht hu (c := c) (c' := c1) (h := h) (p := .put g ctx1 m) (r := .handle on) rfl (by nofun)
              (by simp only [cacheCall, hp]; rfl) rfl
            cases on with
            | none => cases hr; exact done h2 rfl rfl
            | some n =>
              simp only at hr
              cases hl : setTtlOnMiss g.cmm g.env.pushMiss n c1 with
              | error f => rw [hl] at hr; cases hr
              | ok c2 =>
                rw [hl] at hr
                simp only at hr
                cases hk : cacheRelease n false c2 with
                | error f => rw [hk] at hr; cases hr
                | ok c3 =>
                  rw [hk] at hr
                  cases hr
                  exact done ((h2.nil_trans (gen_ttlMiss ht hu hl)).nil_trans (gen_fin ht hu hk)) rfl rfl

theorem gen_start {c : Cache} {h : List Nat} {cmm : CachingCmm} {env : GenEnv} {req : EncRequest} {p : Pc} {ev : Option CmmEvent}
    (hg : genStart sha cmm env req = .ok (p, ev)) : (place s t c h .idle .idle).step sha t (.gen cmm env req) = some (.ok (place s t c h p .idle, ev)) := by
  simp only [CmmAll.step]
  rw [show (place s t c h .idle .idle).dpc t = .idle by simp only [place, if_true], if_pos (show DPc.idle.isIdle = true from rfl)]
  simp only [CmmConc.step]
  rw [if_pos ⟨show t < (place s t c h .idle .idle).base.conc.num from ht,
    by rw [show (place s t c h .idle .idle).base.conc.thr t = ⟨h, .idle⟩ from update_thr _ _ _ _],
    by rw [show (place s t c h .idle .idle).base.pc t = .idle by simp only [place, if_true]]; rfl⟩, hg]
  simp only [CmmConc.local, CmmAll.lift, place]
  congr 5
  funext i
  split <;> rfl

theorem gen_alone {c c' : Cache} {h : List Nat} {cmm : CachingCmm} {env : GenEnv} {req : EncRequest} {o : GenOut}
    (hr : cachingGenerate sha cmm env req c = .ok (c', o)) :
    Begun sha t (.gen cmm env req) (place s t c h .idle .idle) [.gen cmm env req o] (place s t c' h .idle .idle) := by
  have cached : genCached sha cmm env req c = .ok (c', o) → (genStart sha cmm env req = .ok
      (match hashEnc sha env.ids cmm.partition req with
      | .error e => (.idle, some (.gen cmm env req ⟨req.encCtx, .error e, false⟩))
      | .ok id => (.find ⟨cmm, env, req, id⟩, none))) →
      Begun sha t (.gen cmm env req) (place s t c h .idle .idle) [.gen cmm env req o] (place s t c' h .idle .idle) := by
    intro hr hs
    unfold genCached at hr
    cases hh : hashEnc sha env.ids cmm.partition req with
    | error e =>
      rw [hh] at hr hs
      cases hr
      exact ⟨_, _, [], gen_start ht hu hs, .stop, rfl⟩
    | ok id =>
      rw [hh] at hr hs
      simp only at hr
      refine ⟨_, none, _, gen_start ht hu hs, ?_, (List.append_nil _).symm⟩
      cases hy : genTry cmm env id req c with
      | error f => rw [hy] at hr; cases hr
      | ok r =>
        obtain ⟨c1, ctx, om⟩ := r
        rw [hy] at hr
        have h1 := gen_try (sha := sha) ht hu (h := h) (g := ⟨cmm, env, req, id⟩) hy
        cases om with
        | some m => cases hr; exact h1
        | none => exact h1.nil_trans (gen_miss ht hu (g := ⟨cmm, env, req, id⟩) hr)
  unfold cachingGenerate at hr
  by_cases h1 : req.plaintextSize > cmm.limitBytes
  · rw [if_pos h1] at hr
    cases hr
    exact ⟨_, some _, [], gen_start ht hu (by unfold genStart; simp only; rw [if_pos h1]), .stop, rfl⟩
  · rw [if_neg h1] at hr
    by_cases h2 : req.requestedAlg = 0
    · rw [if_pos h2] at hr
      exact cached hr (by unfold genStart; simp only; rw [if_neg h1, if_pos h2]; cases hashEnc sha env.ids cmm.partition req <;> rfl)
    · rw [if_neg h2] at hr
      cases hcan : canCache req.requestedAlg with
      | error f => rw [hcan] at hr; cases hr
      | ok b =>
        rw [hcan] at hr
        cases b with
        | false =>
          cases hr
          exact ⟨_, some _, [], gen_start ht hu (by unfold genStart; simp only; rw [if_neg h1, if_neg h2, hcan]), .stop, rfl⟩
        | true =>
          exact cached hr (by
            unfold genStart; simp only; rw [if_neg h1, if_neg h2, hcan]; cases hashEnc sha env.ids cmm.partition req <;> rfl)

/-! #### `decrypt_materials` -/

theorem dec_drop {c c' : Cache} {h : List Nat} (g : DecCall) {n : Nat} (hr : cacheRelease n true c = .ok c') :
    Alone sha t (place s t c (n :: h) .idle (.drop g n)) [] (place s t c' h .idle (.up g)) := by
  have := decCall (sha := sha) ht hu (c := c) (c' := c') (h := n :: h) (d := .drop g n) (op := .release n true) (r := .done) rfl
    (by intro m hm; cases hm; exact .head _) (by simp only [cacheCall, hr]; rfl) (d' := .up g) (ev := none) rfl
  rw [show handlesAfter (.release n true) .done (n :: h) = (n :: h).erase n from rfl, erase_held] at this
  exact this

theorem dec_fin {c c' : Cache} {h : List Nat} {n : Nat} (hr : cacheRelease n false c = .ok c') :
    Alone sha t (place s t c (n :: h) .idle (.fin n)) [] (place s t c' h .idle .idle) := by
  have := decCall (sha := sha) ht hu (c := c) (c' := c') (h := n :: h) (d := .fin n) (op := .release n false) (r := .done) rfl
    (by intro m hm; cases hm; exact .head _) (by simp only [cacheCall, hr]; rfl) (d' := .idle) (ev := none) rfl
  rw [show handlesAfter (.release n false) .done (n :: h) = (n :: h).erase n from rfl, erase_held] at this
  exact this

/-- Where a thread is after the lookup, and what it has answered. -/
def triedDec (g : DecCall) : Option DecMaterials → DPc × List CmmEvent
  | none => (.up g, [])
  | some m => (.idle, [.dec g.cmm g.env g.req ⟨.ok m, false⟩])

theorem dec_use {c c' : Cache} {h : List Nat} {g : DecCall} {n : Nat} {o : Option DecMaterials} (hr : decUse g.env n c = .ok (c', o)) :
    Alone sha t (place s t c (n :: h) .idle (.get g n)) (triedDec g o).2 (place s t c' h .idle (triedDec g o).1) := by
  unfold decUse at hr
  cases hg : cacheGetDec g.env.get n c with
  | error f => rw [hg] at hr; cases hr
  | ok r =>
    rw [hg] at hr
    have hc : cacheCall (.getDec g.env.get n) c = .ok (c, .decMaterials r) := by simp only [cacheCall, hg]; rfl
    have hh : ∀ m, (CacheOp.getDec g.env.get n).on = some m → m ∈ n :: h := by intro m hm; cases hm; exact .head _
    cases r with
    | error e =>
      unfold dropDec at hr
      simp only at hr
      cases hk : cacheRelease n true c with
      | error f => rw [hk] at hr; cases hr
      | ok c1 =>
        rw [hk] at hr
        cases hr
        exact (decCall (sha := sha) ht hu (d := .get g n) rfl hh hc (ev := none) rfl).nil_trans (dec_drop ht hu g hk)
    | ok m =>
      simp only at hr
      cases hk : cacheRelease n false c with
      | error f => rw [hk] at hr; cases hr
      | ok c1 =>
        rw [hk] at hr
        cases hr
        exact (decCall (sha := sha) ht hu (d := .get g n) rfl hh hc rfl).trans (dec_fin ht hu hk)

theorem dec_ttl {c c' : Cache} {h : List Nat} {g : DecCall} {n : Nat} {b : Bool}
    (hr : checkTtl g.cmm g.env.clkTtl g.env.pushHit n c = .ok (c', b)) :
    Alone sha t (place s t c (n :: h) .idle (if g.cmm.ttl = 2 ^ 64 - 1 then .get g n else .created g n)) []
      (place s t c' (n :: h) .idle (if b then .get g n else .drop g n)) := by
  unfold checkTtl at hr
  by_cases hl : g.cmm.ttl = 2 ^ 64 - 1
  · rw [if_pos hl] at hr ⊢
    cases hr
    exact .stop
  · rw [if_neg hl] at hr ⊢
    cases hc : cacheCreation n c with
    | error f => rw [hc] at hr; cases hr
    | ok x =>
      rw [hc] at hr
      simp only at hr
      have h1 := decCall (sha := sha) ht hu (c := c) (h := n :: h) (d := .created g n) (op := .created n) (r := .time x) rfl
        (by intro m hm; cases hm; exact .head _) (by simp only [cacheCall, hc]; rfl) (d' := decAfterCreated g n x) (ev := none) rfl
      refine h1.nil_trans ?_
      rw [show handlesAfter (.created n) (.time x) (n :: h) = n :: h from rfl]
      unfold decAfterCreated
      by_cases hw : u64 (x + g.cmm.ttl) < x
      · rw [if_pos hw] at hr ⊢
        cases hr
        exact .stop
      · rw [if_neg hw] at hr ⊢
        cases hk : g.env.clkTtl with
        | none =>
          rw [hk] at hr
          cases hr
          exact .stop
        | some now =>
          rw [hk] at hr
          simp only at hr ⊢
          by_cases hn : now ≥ u64 (x + g.cmm.ttl)
          · rw [if_pos hn] at hr ⊢
            cases hr
            exact .stop
          · rw [if_neg hn] at hr ⊢
            cases hi : cacheHint n (u64 (x + g.cmm.ttl)) g.env.pushHit c with
            | error f => rw [hi] at hr; cases hr
            | ok c1 =>
              rw [hi] at hr
              cases hr
              exact decCall (sha := sha) ht hu (h := n :: h) (d := .hint g n (u64 (x + g.cmm.ttl)))
                (op := .hint n (u64 (x + g.cmm.ttl)) g.env.pushHit) (r := .done) rfl (by intro m hm; cases hm; exact .head _)
                (by simp only [cacheCall, hi]; rfl) (d' := .get g n) (ev := none) rfl

theorem dec_try {c c' : Cache} {h : List Nat} {g : DecCall} {o : Option DecMaterials} (hr : decTry g.cmm g.env g.id c = .ok (c', o)) :
    Alone sha t (place s t c h .idle (.find g)) (triedDec g o).2 (place s t c' h .idle (triedDec g o).1) := by
  unfold decTry at hr
  cases hf : cacheFind g.env.clkFind g.id c with
  | error f => rw [hf] at hr; cases hr
  | ok r =>
    obtain ⟨c1, on⟩ := r
    rw [hf] at hr
    have hc : cacheCall (.find g.env.clkFind g.id) c = .ok (c1, .handle on) := by simp only [cacheCall, hf]; rfl
    have h1 := decCall (sha := sha) ht hu (h := h) (d := .find g) rfl (by nofun) hc rfl
    cases on with
    | none => cases hr; exact h1
    | some n =>
      simp only at hr
      refine h1.nil_trans ?_
      clear h1
      rw [show handlesAfter (.find g.env.clkFind g.id) (.handle (some n)) h = n :: h from rfl]
      cases he : c1.entry n with
      | error f => rw [he] at hr; cases hr
      | ok e =>
        rw [he] at hr
        simp only at hr
        show Alone sha t (place s t c1 (n :: h) .idle (if c1.isEncrypt n = true then .drop g n
          else if g.cmm.ttl = 2 ^ 64 - 1 then .get g n else .created g n)) _ _
        rw [isEncrypt_entry he]
        by_cases hi : e.isEncrypt = true
        · rw [if_pos hi] at hr ⊢
          unfold dropDec at hr
          cases hk : cacheRelease n true c1 with
          | error f => rw [hk] at hr; cases hr
          | ok c2 => rw [hk] at hr; cases hr; exact dec_drop ht hu g hk
        · rw [if_neg hi] at hr ⊢
          cases hl : checkTtl g.cmm g.env.clkTtl g.env.pushHit n c1 with
          | error f => rw [hl] at hr; cases hr
          | ok r =>
            obtain ⟨c2, b⟩ := r
            rw [hl] at hr
            refine (dec_ttl ht hu hl).nil_trans ?_
            cases b with
            | false =>
              simp only at hr
              unfold dropDec at hr
              cases hk : cacheRelease n true c2 with
              | error f => rw [hk] at hr; cases hr
              | ok c3 => rw [hk] at hr; cases hr; exact dec_drop ht hu g hk
            | true => exact dec_use ht hu hr

theorem dec_ttlMiss {c c' : Cache} {h : List Nat} {g : DecCall} {n : Nat} (hr : setTtlOnMiss g.cmm g.env.pushMiss n c = .ok c') :
    Alone sha t (place s t c (n :: h) .idle (if g.cmm.ttl = 2 ^ 64 - 1 then .fin n else .createdMiss g n)) []
      (place s t c' (n :: h) .idle (.fin n)) := by
  unfold setTtlOnMiss at hr
  by_cases hl : g.cmm.ttl = 2 ^ 64 - 1
  · rw [if_pos hl] at hr ⊢
    cases hr
    exact .stop
  · rw [if_neg hl] at hr ⊢
    cases hc : cacheCreation n c with
    | error f => rw [hc] at hr; cases hr
    | ok x =>
      rw [hc] at hr
      simp only at hr
      have h1 := decCall (sha := sha) ht hu (c := c) (h := n :: h) (d := .createdMiss g n) (op := .created n) (r := .time x) rfl
        (by intro m hm; cases hm; exact .head _) (by simp only [cacheCall, hc]; rfl) (ev := none) rfl
      refine h1.nil_trans ?_
      rw [show handlesAfter (.created n) (.time x) (n :: h) = n :: h from rfl]
      by_cases hw : u64 (x + g.cmm.ttl) > x
      · rw [if_pos hw] at hr ⊢
        exact decCall (sha := sha) ht hu (h := n :: h) (d := .hintMiss g n (u64 (x + g.cmm.ttl)))
          (op := .hint n (u64 (x + g.cmm.ttl)) g.env.pushMiss) (r := .done) rfl (by intro m hm; cases hm; exact .head _)
          (by simp only [cacheCall, hr]; rfl) (d' := .fin n) (ev := none) rfl
      · rw [if_neg hw] at hr ⊢
        cases hr
        exact .stop

theorem dec_up {c : Cache} {h : List Nat} {g : DecCall} {d : DPc} {ev : Option CmmEvent} (hg : decUp g = (d, ev)) :
    Alone sha t (place s t c h .idle (.up g)) ev.toList (place s t c h .idle d) := by
  refine Alone.step (mv := .up) (log := []) ?_
    (only_up (by rw [show (place s t c h .idle (.up g)).base.conc.thr t = ⟨h, .idle⟩ from update_thr _ _ _ _])
      (Or.inr ⟨by simp only [place, if_true], g, by simp only [place, if_true]⟩)) .stop
  simp only [CmmAll.step]
  rw [show (place s t c h .idle (.up g)).dpc t = .up g by simp only [place, if_true]]
  simp only
  rw [if_pos (show t < (place s t c h .idle (.up g)).base.conc.num from ht), hg]
  simp only [CmmAll.local, place]
  congr 4
  funext i
  split <;> rfl

theorem dec_start {c : Cache} {h : List Nat} {cmm : CachingCmm} {env : DecEnv} {req : DecRequest} {d : DPc} {ev : Option CmmEvent}
    (hg : decStart sha cmm env req = .ok (d, ev)) : (place s t c h .idle .idle).step sha t (.dec cmm env req) = some (.ok (place s t c h .idle d, ev)) := by
  simp only [CmmAll.step]
  rw [if_pos ⟨show t < (place s t c h .idle .idle).base.conc.num from ht,
    by rw [show (place s t c h .idle .idle).base.conc.thr t = ⟨h, .idle⟩ from update_thr _ _ _ _],
    by rw [show (place s t c h .idle .idle).base.pc t = .idle by simp only [place, if_true]]; rfl,
    by rw [show (place s t c h .idle .idle).dpc t = .idle by simp only [place, if_true]]; rfl⟩, hg]
  simp only [CmmAll.local, place]
  congr 4
  funext i
  split <;> rfl

theorem dec_alone {c c' : Cache} {h : List Nat} {cmm : CachingCmm} {env : DecEnv} {req : DecRequest} {o : DecOut}
    (hr : cachingDecrypt sha cmm env req c = .ok (c', o)) :
    Begun sha t (.dec cmm env req) (place s t c h .idle .idle) [.dec cmm env req o] (place s t c' h .idle .idle) := by
  unfold cachingDecrypt at hr
  cases hcan : canCache req.alg with
  | error f => rw [hcan] at hr; cases hr
  | ok b =>
    rw [hcan] at hr
    cases b with
    | false =>
      cases hr
      exact ⟨_, some _, [], dec_start ht hu (by unfold decStart; rw [hcan]), .stop, rfl⟩
    | true =>
      simp only [decCached] at hr
      cases hh : hashDec sha env.ids cmm.partition req with
      | error f => rw [hh] at hr; cases hr
      | ok r =>
        rw [hh] at hr
        cases r with
        | error e =>
          cases hr
          have h0 : decStart sha cmm env req = .ok (.idle, some (.dec cmm env req ⟨.error e, false⟩)) := by unfold decStart; rw [hcan, hh]
          exact ⟨_, _, [], dec_start ht hu h0, .stop, rfl⟩
        | ok id =>
          simp only at hr
          have h0 : decStart sha cmm env req = .ok (.find ⟨cmm, env, req, id⟩, none) := by unfold decStart; rw [hcan, hh]
          refine ⟨_, none, _, dec_start ht hu h0, ?_, (List.append_nil _).symm⟩
          cases hy : decTry cmm env id c with
          | error f => rw [hy] at hr; cases hr
          | ok r =>
            obtain ⟨c1, om⟩ := r
            rw [hy] at hr
            have h1 := dec_try (sha := sha) ht hu (h := h) (g := ⟨cmm, env, req, id⟩) hy
            cases om with
            | some m => cases hr; exact h1
            | none =>
              simp only at hr
              refine h1.nil_trans ?_
              clear h1
              cases hup : env.up req with
              | error e =>
                rw [hup] at hr
                cases hr
                exact dec_up ht hu (ev := some _) (by unfold decUp; simp only [hup])
              | ok m =>
                rw [hup] at hr
                simp only [decStore] at hr
                have h1 := dec_up (sha := sha) ht hu (c := c1) (h := h) (g := ⟨cmm, env, req, id⟩) (d := .put ⟨cmm, env, req, id⟩ m)
                  (ev := some (.dec cmm env req ⟨.ok m, true⟩)) (by unfold decUp; simp only [hup])
                cases hp : cachePutDec env.put id m c1 with
                | error f => rw [hp] at hr; cases hr
                | ok r =>
                  obtain ⟨c2, on⟩ := r
                  rw [hp] at hr
                  have h2 := decCall (sha := sha) ht hu (c := c1) (c' := c2) (h := h) (d := .put ⟨cmm, env, req, id⟩ m) (r := .handle on) rfl
                    (by nofun) (by simp only [cacheCall, hp]; rfl) rfl
                  cases on with
                  | none => cases hr; exact h1.trans h2
                  | some n =>
                    simp only at hr
                    cases hl : setTtlOnMiss cmm env.pushMiss n c2 with
                    | error f => rw [hl] at hr; cases hr
                    | ok c3 =>
                      rw [hl] at hr
                      simp only at hr
                      cases hk : cacheRelease n false c3 with
                      | error f => rw [hk] at hr; cases hr
                      | ok c4 =>
                        rw [hk] at hr
                        cases hr
                        exact h1.trans ((h2.nil_trans (dec_ttlMiss ht hu (g := ⟨cmm, env, req, id⟩) hl)).nil_trans (dec_fin ht hu hk))

theorem clear_alone {c c' : Cache} {h : List Nat} (hr : cacheClear c = .ok c') :
    (place s t c h .idle .idle).step sha t .clear = some (.ok (place s t c' h .idle .idle, none)) := by
  have h1 : startCall .clear c = .ok (c', .ret .done) := by simp only [startCall, cacheCall, hr]; rfl
  simp only [CmmAll.step]
  rw [show (place s t c h .idle .idle).dpc t = .idle by simp only [place, if_true], if_pos (show DPc.idle.isIdle = true from rfl)]
  simp only [CmmConc.step]
  have hp : (place s t c h .idle .idle).base.pc t = .idle := by simp only [place, if_true]
  rw [hp, if_pos ⟨rfl, rfl⟩, show (place s t c h .idle .idle).base.conc = s.base.conc.update t c ⟨h, .idle⟩ from rfl,
    call_step (h := h) ht hu (by nofun) h1]
  simp only [After.result, CmmConc.shared, CmmAll.lift, hp]
  simp only [place]
  congr 5
  funext i
  split <;> rfl

end

theorem execution_append {a b : List (Nat × AllMove)} {s s1 s2 : CmmAll} {l1 l2 : List CmmEvent}
    (h : execution sha s a = some (.ok (l1, s1))) (h2 : execution sha s1 b = some (.ok (l2, s2))) :
    execution sha s (a ++ b) = some (.ok (l2 ++ l1, s2)) := by
  induction a generalizing s l1 with
  | nil => cases h; rw [List.append_nil]; exact h2
  | cons m rest ih =>
    obtain ⟨u, mv⟩ := m
    simp only [List.cons_append, Spec.execution] at h ⊢
    cases hs : s.step sha u mv with
    | none => rw [hs] at h; cases h
    | some r =>
      rw [hs] at h
      cases r with
      | error f => cases h
      | ok x =>
        obtain ⟨s', ev⟩ := x
        simp only at h ⊢
        cases he : Spec.execution sha s' rest with
        | none => rw [he] at h; cases h
        | some r =>
          rw [he] at h
          cases r with
          | error f => cases h
          | ok x =>
            obtain ⟨l, s''⟩ := x
            cases h
            rw [ih he]
            simp only [List.append_assoc]

/-- A thread that is in no call. -/
theorem place_self {h : List Nat} (hp : s.base.pc t = .idle) (hd : s.dpc t = .idle) (hh : s.base.conc.thr t = ⟨h, .idle⟩) :
    place s t s.base.conc.cache h .idle .idle = s := by
  obtain ⟨⟨⟨c, num, thr⟩, pc⟩, dpc⟩ := s
  simp only [place, Conc.update] at *
  congr 1
  · congr 1
    · congr 1
      funext i
      split
      · rename_i e; rw [e, hh]
      · rfl
    · funext i
      split
      · rename_i e; rw [e, hp]
      · rfl
  · funext i
    split
    · rename_i e; rw [e, hd]
    · rfl

theorem place_cache {h : List Nat} (hp : s.base.pc t = .idle) (hd : s.dpc t = .idle) (hh : s.base.conc.thr t = ⟨h, .idle⟩) (c : Cache) :
    place s t c h .idle .idle = ⟨⟨{ s.base.conc with cache := c }, s.base.pc⟩, s.dpc⟩ :=
  place_self (s := ⟨⟨{ s.base.conc with cache := c }, s.base.pc⟩, s.dpc⟩) hp hd hh

end Verif.Proof.CmmAlone
