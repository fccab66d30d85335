import Verif.Proof.CmmConcDec
/-
The encryption requests in an execution of Spec/CmmConcDec form an execution of Spec/CmmConc; and threads in `decrypt_materials` hold the
handles they need.
-/
namespace Verif

open Spec

section
variable {sha : Bytes → Bytes} {allow : CachingCmm → Prop} {num : Nat} {log : List CmmEvent} {s : CmmAll} {t : Nat}

/-! ### projection -/

theorem pc_after_gen {c : Cache} {p : Pc} {r : CacheResult} {x : CmmEvent} (h : (p.after c r).2 = some x) : isGen x = true := by
  cases p <;> cases r <;> simp only [Pc.after] at h <;> (repeat' split at h) <;> cases h <;> rfl

theorem dpc_after_dec {c : Cache} {p : DPc} {r : CacheResult} {x : CmmEvent} (h : (p.after c r).2 = some x) : isGen x = false := by
  cases p <;> cases r <;> simp only [DPc.after] at h <;> (repeat' split at h) <;> cases h <;> rfl

theorem genStart_gen {cmm : CachingCmm} {env : GenEnv} {req : EncRequest} {p : Pc} {x : CmmEvent}
    (hs : genStart sha cmm env req = .ok (p, some x)) : isGen x = true := by
  have := enc_start (allow := fun _ => True) (log := []) (c := cacheNew id 0) trivial hs
  unfold genStart at hs
  cases x with
  | gen _ _ _ _ => rfl
  | dec _ _ _ _ =>
    exfalso
    cases hh : hashEnc sha env.ids cmm.partition req <;> rw [hh] at hs <;> simp only at hs <;>
      (split at hs; cases hs; split at hs; cases hs; cases hc : canCache req.requestedAlg with
        | error f => rw [hc] at hs; cases hs
        | ok b => rw [hc] at hs; cases b <;> cases hs)
  | clear =>
    exfalso
    cases hh : hashEnc sha env.ids cmm.partition req <;> rw [hh] at hs <;> simp only at hs <;>
      (split at hs; cases hs; split at hs; cases hs; cases hc : canCache req.requestedAlg with
        | error f => rw [hc] at hs; cases hs
        | ok b => rw [hc] at hs; cases b <;> cases hs)

theorem genUp_gen {g : GenCall} {ctx : EncCtx} {p : Pc} {x : CmmEvent} (hs : genUp g ctx = .ok (p, some x)) : isGen x = true := by
  unfold genUp at hs
  cases hup : g.env.up { g.req with encCtx := ctx } with
  | mk ctx' r =>
    rw [hup] at hs
    cases r with
    | error e => cases hs; rfl
    | ok m =>
      simp only at hs
      cases hc : canCache m.alg with
      | error f => rw [hc] at hs; cases hs
      | ok b => rw [hc] at hs; cases hs; rfl

theorem decStart_dec {cmm : CachingCmm} {env : DecEnv} {req : DecRequest} {p : DPc} {x : CmmEvent}
    (hs : decStart sha cmm env req = .ok (p, some x)) : isGen x = false := by
  unfold decStart at hs
  repeat' split at hs
  all_goals first | (cases hs; done) | (cases hs; rfl)

theorem decUp_dec {g : DecCall} {x : CmmEvent} (hs : (decUp g).2 = some x) : isGen x = false := by
  unfold decUp at hs
  split at hs <;> cases hs <;> rfl

/-- Steps of `CmmConc` answer encryption requests only. -/
theorem base_gen {b b' : CmmConc} {bm : CmmMove} {x : CmmEvent} (hs : b.step sha t bm = some (.ok (b', some x))) : isGen x = true := by
  have loc : ∀ r, b.local t r = .ok (b', some x) → ∃ p, r = .ok (p, some x) := by
    intro r hr
    unfold CmmConc.local at hr
    cases r with
    | error f => cases hr
    | ok y => obtain ⟨p, ev⟩ := y; cases hr; exact ⟨p, rfl⟩
  have sh : ∀ r, b.shared t r = some (.ok (b', some x)) → isGen x = true := by
    intro r hr
    unfold CmmConc.shared at hr
    split at hr
    · cases hr
    · cases hr
    · cases hr
    · next k y =>
      simp only [Option.some.injEq, Except.ok.injEq, Prod.mk.injEq] at hr
      exact pc_after_gen hr.2
  cases bm with
  | start cmm env req =>
    simp only [CmmConc.step] at hs
    split at hs
    · obtain ⟨p, hp⟩ := loc _ (Option.some.inj hs); exact genStart_gen hp
    · cases hs
  | up =>
    simp only [CmmConc.step] at hs
    split at hs
    · split at hs
      · obtain ⟨p, hp⟩ := loc _ (Option.some.inj hs); exact genUp_gen hp
      · cases hs
    · cases hs
  | call =>
    simp only [CmmConc.step] at hs
    split at hs
    · cases hs
    · exact sh _ hs
  | go => exact sh _ hs
  | other op =>
    simp only [CmmConc.step] at hs
    split at hs
    · exact sh _ hs
    · cases hs

/-- A step of `CmmConc` changes the program point of its thread only. -/
theorem base_other {b b' : CmmConc} {bm : CmmMove} {ev : Option CmmEvent} (hs : b.step sha t bm = some (.ok (b', ev))) :
    ∀ i, i ≠ t → b'.pc i = b.pc i := by
  intro i hi
  have loc : ∀ r, b.local t r = .ok (b', ev) → b'.pc i = b.pc i := by
    intro r hr
    unfold CmmConc.local at hr
    cases r with
    | error f => cases hr
    | ok y => obtain ⟨p, ev⟩ := y; cases hr; simp [hi]
  have sh : ∀ r, b.shared t r = some (.ok (b', ev)) → b'.pc i = b.pc i := by
    intro r hr
    unfold CmmConc.shared at hr
    split at hr
    · cases hr
    · cases hr
    · cases hr; rfl
    · next k y =>
      simp only [Option.some.injEq, Except.ok.injEq, Prod.mk.injEq] at hr
      rw [← hr.1]
      simp [hi]
  cases bm with
  | start cmm env req =>
    simp only [CmmConc.step] at hs
    split at hs
    · exact loc _ (Option.some.inj hs)
    · cases hs
  | up =>
    simp only [CmmConc.step] at hs
    split at hs
    · split at hs
      · exact loc _ (Option.some.inj hs)
      · cases hs
    · cases hs
  | call =>
    simp only [CmmConc.step] at hs
    split at hs
    · cases hs
    · exact sh _ hs
  | go => exact sh _ hs
  | other op =>
    simp only [CmmConc.step] at hs
    split at hs
    · exact sh _ hs
    · cases hs

/-- The steps of the system: a step of `CmmConc` while the thread is not in `decrypt_materials`; the start of `decrypt_materials`, its
upstream call, or a step of a call of the cache in it. -/
inductive AllKind (sha : Bytes → Bytes) (s : CmmAll) (t : Nat) : AllMove → CmmAll → Option CmmEvent → Prop where
  | base {mv bm b ev} : (s.dpc t).isIdle = true → s.base.step sha t bm = some (.ok (b, ev)) →
      (∀ cmm env req, bm = .start cmm env req → mv = .gen cmm env req) → AllKind sha s t mv ⟨b, s.dpc⟩ ev
  | loc {mv p ev} : t < s.base.conc.num → ((s.dpc t).isIdle = true → (s.base.pc t).isIdle = true) → p.isIdle = true ∨
      (∃ g, p = .find g ∧ (s.base.conc.thr t).doing = .idle) ∨ (∃ g m, p = .put g m) →
      (∀ x, ev = some x → isGen x = false) →
      AllKind sha s t mv ⟨s.base, fun i => if i = t then p else s.dpc i⟩ ev
  | sh {mv cm k x} : (s.dpc t).isIdle = false → s.base.conc.step t cm = some (.ok (k, x)) → (∀ op, cm = .call op → (s.dpc t).op = some op) →
      AllKind sha s t mv
        ⟨⟨k, s.base.pc⟩, match x with | none => s.dpc | some r => fun i => if i = t then ((s.dpc t).after k.cache r).1 else s.dpc i⟩
        (match x with | none => none | some r => ((s.dpc t).after k.cache r).2)

theorem all_kind {mv : AllMove} {s' : CmmAll} {ev : Option CmmEvent} (hs : s.step sha t mv = some (.ok (s', ev))) :
    AllKind sha s t mv s' ev := by
  have loc : ∀ (r : Except Fault (DPc × Option CmmEvent)), s.local t r = .ok (s', ev) →
      ∃ p, r = .ok (p, ev) ∧ s' = ⟨s.base, fun i => if i = t then p else s.dpc i⟩ := by
    intro r hr
    unfold CmmAll.local at hr
    cases r with
    | error f => cases hr
    | ok y => obtain ⟨p, ev'⟩ := y; cases hr; exact ⟨p, rfl, rfl⟩
  have sh : ∀ cm, (s.dpc t).isIdle = false → s.shared t (s.base.conc.step t cm) = some (.ok (s', ev)) →
      (∀ op, cm = .call op → (s.dpc t).op = some op) → AllKind sha s t mv s' ev := by
    intro cm hi hr hop
    cases hk : s.base.conc.step t cm with
    | none => rw [hk] at hr; cases hr
    | some y =>
      rw [hk] at hr
      cases y with
      | error f => cases hr
      | ok y =>
        obtain ⟨k, x⟩ := y
        have := AllKind.sh (sha := sha) (mv := mv) hi hk hop
        cases x with
        | none => cases hr; exact this
        | some r => cases hr; exact this
  cases mv with
  | gen cmm env req =>
    simp only [CmmAll.step] at hs
    split at hs
    · next hi =>
      obtain ⟨b, hb, rfl⟩ := lift_ok hs
      exact .base hi hb (fun _ _ _ hh => by cases hh; rfl)
    · cases hs
  | dec cmm env req =>
    simp only [CmmAll.step] at hs
    split at hs
    · next hc =>
      obtain ⟨p, hp, rfl⟩ := loc _ (Option.some.inj hs)
      refine .loc hc.1 (fun _ => hc.2.2.1) ?_ (fun x hx => by subst hx; exact decStart_dec hp)
      unfold decStart at hp
      repeat' split at hp
      all_goals cases hp
      · exact .inl rfl
      · exact .inl rfl
      · exact .inr (.inl ⟨_, rfl, hc.2.1⟩)
    · cases hs
  | up =>
    simp only [CmmAll.step] at hs
    cases hp : s.dpc t with
    | idle =>
      rw [hp] at hs
      obtain ⟨b, hb, rfl⟩ := lift_ok hs
      exact .base (by rw [hp]; rfl) hb (fun _ _ _ hh => nomatch hh)
    | up g =>
      rw [hp] at hs
      simp only at hs
      split at hs
      · next ht =>
        obtain ⟨p, he, rfl⟩ := loc _ (Option.some.inj hs)
        have he := Except.ok.inj he
        refine .loc ht (fun h => by rw [hp] at h; cases h) ?_ (fun x hx => by subst hx; exact decUp_dec (by rw [he]))
        unfold decUp at he
        split at he <;> cases he
        · exact .inl rfl
        · exact .inr (.inr ⟨_, _, rfl⟩)
      · cases hs
    | _ => rw [hp] at hs; cases hs
  | call =>
    simp only [CmmAll.step] at hs
    split at hs
    · next hi =>
      obtain ⟨b, hb, rfl⟩ := lift_ok hs
      exact .base hi hb (fun _ _ _ hh => nomatch hh)
    · next hi =>
      cases hop : (s.dpc t).op with
      | none => rw [hop] at hs; cases hs
      | some op => rw [hop] at hs; exact sh _ (by simpa using hi) hs (fun op' ho' => by cases ho'; exact hop)
  | go =>
    simp only [CmmAll.step] at hs
    split at hs
    · next hi =>
      obtain ⟨b, hb, rfl⟩ := lift_ok hs
      exact .base hi hb (fun _ _ _ hh => nomatch hh)
    · next hi => exact sh _ (by simpa using hi) hs (fun op' ho' => nomatch ho')
  | clear =>
    simp only [CmmAll.step] at hs
    split at hs
    · next hi =>
      obtain ⟨b, hb, rfl⟩ := lift_ok hs
      exact .base hi hb (fun _ _ _ hh => nomatch hh)
    · cases hs

theorem dpc_op_foreign {p : DPc} {op : CacheOp} (h : p.op = some op) : op.foreign = true := by
  cases p <;> cases h <;> rfl

/-- The encryption requests of an execution, and that a thread is never in both functions. -/
theorem Spec.AllRuns.proj {addr : Nat → Nat} {cap : Nat} (h : AllRuns sha allow addr cap num log s) :
    CmmRuns sha allow addr cap num (log.filter isGen) s.base ∧ ∀ t, (s.dpc t).isIdle = false → (s.base.pc t).isIdle = true := by
  induction h with
  | new => exact ⟨.new, fun t h => nomatch h⟩
  | @step log s t mv s' ev hr ha hs ih =>
    obtain ⟨ih1, ih2⟩ := ih
    have drop : (∀ x, ev = some x → isGen x = false) → (ev.toList ++ log).filter isGen = log.filter isGen := by
      intro h
      cases ev with
      | none => rfl
      | some x => simp [Option.toList, h x rfl]
    cases all_kind hs with
    | base hi hb hmv =>
      constructor
      · have : (ev.toList ++ log).filter isGen = ev.toList ++ log.filter isGen := by
          cases ev with
          | none => rfl
          | some x => simp [Option.toList, base_gen hb]
        rw [this]
        exact .step ih1 (fun cmm env req hh => by rw [hmv cmm env req hh] at ha; exact ha) hb
      · intro i hd
        by_cases hit : i = t
        · subst hit; rw [hi] at hd; cases hd
        · show (CmmConc.pc _ i).isIdle = true
          rw [base_other hb i hit]
          exact ih2 i hd
    | @loc p _ ht hp hnew hev =>
      refine ⟨by rw [drop hev]; exact ih1, fun i hd => ?_⟩
      show (s.base.pc i).isIdle = true
      by_cases hit : i = t
      · subst hit
        cases hdi : (s.dpc i).isIdle with
        | true => exact hp hdi
        | false => exact ih2 i hdi
      · simp only [hit, if_false] at hd
        exact ih2 i hd
    | @sh cm k x hi hk hop =>
      have hpc := ih2 t hi
      have same : (⟨k, s.base.pc⟩ : CmmConc) = ⟨k, fun i => if i = t then .idle else s.base.pc i⟩ := by
        congr 1
        funext i
        split
        · next h => rw [h]; exact pc_idle hpc
        · rfl
      have hsh : s.base.shared t (s.base.conc.step t cm) = some (.ok (⟨k, s.base.pc⟩, none)) := by
        rw [hk]
        cases x with
        | none => rfl
        | some r =>
          simp only [CmmConc.shared]
          rw [pc_idle hpc, same]
          cases r <;> rfl
      have hstep : ∃ bm, s.base.step sha t bm = some (.ok (⟨k, s.base.pc⟩, none)) ∧ ∀ cmm env req, bm ≠ .start cmm env req := by
        cases cm with
        | go => exact ⟨.go, hsh, fun _ _ _ hh => nomatch hh⟩
        | call op =>
          refine ⟨.other op, ?_, fun _ _ _ hh => nomatch hh⟩
          simp only [CmmConc.step]
          rw [if_pos ⟨hpc, dpc_op_foreign (hop op rfl)⟩]
          exact hsh
      obtain ⟨bm, hbm, hne⟩ := hstep
      constructor
      · have := CmmRuns.step ih1 (fun cmm env req hh => absurd hh (hne cmm env req)) hbm
        rw [drop]
        · exact this
        · intro y hy
          cases x with
          | none => cases hy
          | some r => exact dpc_after_dec hy
      · intro i hd
        show (s.base.pc i).isIdle = true
        by_cases hit : i = t
        · subst hit; exact hpc
        · refine ih2 i ?_
          cases x with
          | none => exact hd
          | some r => simpa only [hit, if_false] using hd

theorem servedKey_gen {x : CmmEvent} {k : Bytes} (h : servedKey x = some k) : isGen x = true := by
  cases x with
  | gen _ _ _ _ => rfl
  | _ => cases h

theorem servedWith_filter (k : Bytes) (log : List CmmEvent) : servedWith k (log.filter isGen) = servedWith k log := by
  unfold servedWith
  rw [List.filter_filter]
  apply List.filter_congr
  intro x _
  by_cases hx : servedKey x = some k
  · simp [hx, servedKey_gen hx]
  · simp [hx]

theorem messagesWith_filter (k : Bytes) (log : List CmmEvent) : messagesWith k (log.filter isGen) = messagesWith k log := by
  unfold messagesWith; rw [servedWith_filter]

theorem bytesWith_filter (k : Bytes) (log : List CmmEvent) : bytesWith k (log.filter isGen) = bytesWith k log := by
  unfold bytesWith; rw [servedWith_filter]

theorem freshKeys_filter {log : List CmmEvent} (h : FreshKeys log) : FreshKeys (log.filter isGen) := by
  induction log with
  | nil => exact h
  | cons x log ih =>
    cases x with
    | gen cmm env req out =>
      simp only [FreshKeys] at h
      simp only [List.filter_cons, isGen, if_true, FreshKeys]
      exact ⟨fun m hu hm => by rw [messagesWith_filter]; exact h.1 m hu hm, ih h.2⟩
    | dec _ _ _ _ => exact ih h
    | clear => exact ih h

/-! ### handles -/

/-- The entry a thread in `decrypt_materials` works with. -/
def DPc.ref : DPc → Option Nat
  | .created _ n => some n
  | .hint _ n _ => some n
  | .get _ n => some n
  | .drop _ n => some n
  | .fin n => some n
  | .createdMiss _ n => some n
  | .hintMiss _ n _ => some n
  | _ => none

/-- It is about to release the entry. -/
def DPc.releasing : DPc → Bool
  | .drop _ _ => true
  | .fin _ => true
  | _ => false

/-- A thread in `decrypt_materials` holds the handle it works with, unless it is releasing it. -/
def HeldOk (th : Thread) (p : DPc) : Prop := ∀ n, p.ref = some n → n ∈ th.held ∨ (p.releasing = true ∧ th.doing ≠ .idle)

theorem after_ref {c : Cache} {p : DPc} {r : CacheResult} {n : Nat} (h : (p.after c r).1.ref = some n) :
    (p.ref = some n ∧ p.releasing = false) ∨ r = .handle (some n) := by
  cases p <;> cases r <;> simp only [DPc.after, decAfterCreated] at h <;> (try (rename_i x; cases x)) <;> (try simp only at h) <;>
    (repeat' split at h) <;> first | (cases h; done) | (cases h; exact .inl ⟨rfl, rfl⟩) | (cases h; exact .inr rfl)

theorem heldAfter_mem {a : After} {held : List Nat} {n : Nat} (h : n ∈ held) (op : Option CacheOp) (hop : ∀ m inv, op ≠ some (.release m inv)) :
    n ∈ heldAfter op a held := by
  unfold heldAfter
  split
  · next m inv => exact absurd rfl (hop m inv)
  · exact .tail _ h
  · exact h

theorem heldAfter_ret {n : Nat} {held : List Nat} (op : Option CacheOp) (hop : ∀ m inv, op ≠ some (.release m inv)) :
    n ∈ heldAfter op (.ret (.handle (some n))) held := by
  unfold heldAfter
  split
  · next m inv => exact absurd rfl (hop m inv)
  · next h => cases h; exact .head _
  · next h => first | exact absurd rfl (h n) | exact absurd rfl (h n rfl) | (rename_i h2; exact absurd rfl (h2 n))

theorem resume_wait {p q : Pending} {c c' : Cache} (h : resumeCall p c = .ok (c', .wait q)) (hp : p ≠ .idle) : q ≠ .idle := by
  cases p <;> simp only [resumeCall] at h <;> (repeat' split at h) <;> cases h <;> first | exact absurd rfl hp | (intro hq; cases hq)

theorem start_release {n : Nat} {inv : Bool} {c c' : Cache} {a : After} (h : startCall (.release n inv) c = .ok (c', a)) :
    ∃ q, a = .wait q ∧ q ≠ .idle := by
  simp only [startCall] at h
  repeat' split at h
  all_goals cases h
  · exact ⟨_, rfl, by simp⟩
  · exact ⟨_, rfl, by simp⟩

theorem dpc_op_release {p : DPc} {n : Nat} {inv : Bool} (h : p.op = some (.release n inv)) : p.releasing = true := by
  cases p <;> cases h <;> rfl

theorem releasing_op {p : DPc} (h : p.releasing = true) : ∃ n inv, p.op = some (.release n inv) := by
  cases p <;> first | (cases h; done) | exact ⟨_, _, rfl⟩

/-- Threads in `decrypt_materials` hold the handles they need. -/
theorem Spec.AllRuns.held {addr : Nat → Nat} {cap : Nat} (h : AllRuns sha allow addr cap num log s) :
    ∀ t, HeldOk (s.base.conc.thr t) (s.dpc t) := by
  induction h with
  | new => intro t n hn; cases hn
  | @step log s t mv s' ev hr ha hs ih =>
    have hcc := hr.inv.cc
    -- a step of the cache by another thread
    have other : ∀ {cm k x}, s.base.conc.step t cm = some (.ok (k, x)) → ∀ i, i ≠ t → k.thr i = s.base.conc.thr i := by
      intro cm k x hk i hi
      obtain ⟨-, -, -, hstep⟩ := conc_step hcc hk
      rcases hstep with ⟨op, -, -, -, a, -, -, he⟩ | ⟨-, -, -, a, -, -, he⟩ <;> (rw [he]; simp [Conc.update, hi])
    cases all_kind hs with
    | @base bm b _ hi hb hmv =>
      intro i n hn
      by_cases hit : i = t
      · subst hit
        have : s.dpc i = .idle := dpc_idle hi
        simp only [this] at hn
        cases hn
      · have hthr : b.conc.thr i = s.base.conc.thr i := by
          have sh : ∀ cm, s.base.shared t (s.base.conc.step t cm) = some (.ok (b, ev)) → b.conc.thr i = s.base.conc.thr i := by
            intro cm hsh
            cases hk : s.base.conc.step t cm with
            | none => rw [hk] at hsh; cases hsh
            | some y =>
              rw [hk] at hsh
              cases y with
              | error f => cases hsh
              | ok y =>
                obtain ⟨k, x⟩ := y
                have := other hk i hit
                cases x <;> (cases hsh; exact this)
          have loc : ∀ r, s.base.local t r = .ok (b, ev) → b.conc.thr i = s.base.conc.thr i := by
            intro r hr
            unfold CmmConc.local at hr
            cases r with
            | error f => cases hr
            | ok y => cases hr; rfl
          cases bm with
          | start cmm env req =>
            simp only [CmmConc.step] at hb
            split at hb
            · exact loc _ (Option.some.inj hb)
            · cases hb
          | up =>
            simp only [CmmConc.step] at hb
            split at hb
            · split at hb
              · exact loc _ (Option.some.inj hb)
              · cases hb
            · cases hb
          | call =>
            simp only [CmmConc.step] at hb
            split at hb
            · cases hb
            · exact sh _ hb
          | go => exact sh _ hb
          | other op =>
            simp only [CmmConc.step] at hb
            split at hb
            · exact sh _ hb
            · cases hb
        show n ∈ (b.conc.thr i).held ∨ _ ∧ (b.conc.thr i).doing ≠ .idle
        rw [hthr]
        exact ih i n hn
    | @loc p _ ht hp hnew hev =>
      intro i n hn
      by_cases hit : i = t
      · subst hit
        simp only [if_true] at hn
        rcases hnew with h | ⟨g, h, -⟩ | ⟨g, m, h⟩
        · rw [dpc_idle h] at hn; cases hn
        · rw [h] at hn; cases hn
        · rw [h] at hn; cases hn
      · simp only [hit, if_false] at hn ⊢
        exact ih i n hn
    | @sh cm k x hi hk hop =>
      intro i n hn
      by_cases hit : i = t
      · subst hit
        obtain ⟨-, -, -, hstep⟩ := conc_step hcc hk
        rcases hstep with ⟨op, rfl, -, hd, a, hst, rfl, he⟩ | ⟨rfl, -, hd, a, hst, rfl, he⟩
        · have hth : k.thr i = ⟨heldAfter (some op) a (s.base.conc.thr i).held, a.doing⟩ := by rw [he]; simp [Conc.update]
          have hpo := hop op rfl
          by_cases hrel : ∃ m inv, op = .release m inv
          · obtain ⟨m, inv, rfl⟩ := hrel
            obtain ⟨q, rfl, hq⟩ := start_release hst
            right
            show DPc.releasing (s.dpc i) = true ∧ (k.thr i).doing ≠ .idle
            rw [hth]
            exact ⟨dpc_op_release hpo, hq⟩
          · have hne : ∀ m inv, some op ≠ some (.release m inv) := fun m inv hh => hrel ⟨m, inv, Option.some.inj hh⟩
            left
            show n ∈ (k.thr i).held
            rw [hth]
            have old : (s.dpc i).ref = some n → n ∈ heldAfter (some op) a (s.base.conc.thr i).held := by
              intro h
              rcases ih i n h with h1 | h1
              · exact heldAfter_mem h1 _ hne
              · exact absurd hd h1.2
            cases a with
            | wait q => exact old hn
            | ret r =>
              simp only [After.result, if_true] at hn
              rcases after_ref hn with h1 | h1
              · exact old h1.1
              · subst h1; exact heldAfter_ret _ hne
        · have hth : k.thr i = ⟨heldAfter none a (s.base.conc.thr i).held, a.doing⟩ := by rw [he]; simp [Conc.update]
          have hne : ∀ m inv, (none : Option CacheOp) ≠ some (.release m inv) := fun m inv hh => nomatch hh
          cases a with
          | wait q =>
            rcases ih i n hn with h1 | h1
            · left
              show n ∈ (k.thr i).held
              rw [hth]
              exact heldAfter_mem (a := .wait q) h1 _ hne
            · right
              show DPc.releasing (s.dpc i) = true ∧ (k.thr i).doing ≠ .idle
              rw [hth]
              exact ⟨h1.1, resume_wait hst hd⟩
          | ret r =>
            simp only [After.result, if_true] at hn
            left
            show n ∈ (k.thr i).held
            rw [hth]
            rcases after_ref hn with h1 | h1
            · rcases ih i n h1.1 with h2 | h2
              · exact heldAfter_mem h2 _ hne
              · rw [h1.2] at h2; cases h2.1
            · exact ((resumeCall_result hst).1 _ (by rw [h1])).elim
      · have hthr := other hk i hit
        have hdp : (match x with | none => s.dpc | some r => fun i => if i = t then ((s.dpc t).after k.cache r).1 else s.dpc i) i = s.dpc i := by
          cases x with
          | none => rfl
          | some r => simp [hit]
        show n ∈ (k.thr i).held ∨ DPc.releasing _ = true ∧ (k.thr i).doing ≠ .idle
        rw [hthr]
        have hn' : (s.dpc i).ref = some n := by rw [← hdp]; exact hn
        have := ih i n hn'
        rw [← hdp] at this
        exact this

end
end Verif
