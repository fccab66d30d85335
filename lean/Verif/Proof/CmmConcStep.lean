import Verif.Proof.CmmConc
/-
Every step of every thread keeps the counts.
-/
namespace Verif

open Spec

/-- The program point after a step of a call of the cache. -/
def newPc (c : Cache) (p : Pc) : After → Pc
  | .wait _ => p
  | .ret r => (p.after c r).1

/-- The event of such a step. -/
def newEv (c : Cache) (p : Pc) : After → Option CmmEvent
  | .wait _ => none
  | .ret r => (p.after c r).2

section
variable {LB LM K : Nat} {log : List CmmEvent} {s : CmmConc} {t : Nat}

theorem shared_eq (s : CmmConc) (t : Nat) (c' : Cache) (th : Thread) (a : After) :
    s.shared t (some (.ok (s.conc.update t c' th, a.result))) =
      some (.ok (s.upd t c' th (newPc c' (s.pc t) a), newEv c' (s.pc t) a)) := by
  cases a with
  | wait p =>
    simp only [CmmConc.shared, After.result, CmmConc.upd, newPc, newEv]
    congr 3
    congr 1
    funext i
    split
    · next h => rw [h]
    · rfl
  | ret r => rfl

theorem local_eq (s : CmmConc) (t : Nat) (p : Pc) : ({ s with pc := fun i => if i = t then p else s.pc i } : CmmConc) =
    s.upd t s.conc.cache (s.conc.thr t) p := by
  unfold CmmConc.upd Conc.update
  cases s with
  | mk conc pc =>
    cases conc with
    | mk cache num thr =>
      simp only
      congr 2
      funext i
      split
      · next h => rw [h]
      · rfl

theorem update_same (c : Conc) (t : Nat) : c.update t c.cache (c.thr t) = c := by
  cases c with
  | mk cache num thr =>
    unfold Conc.update
    simp only
    congr 1
    funext i
    split
    · next h => rw [h]
    · rfl

theorem live_lt {held : List Nat} {c : Cache} (h : COk held c) {n : Nat} {e : Entry} (he : c.mem n = some e) : n < c.next := by
  apply Classical.byContradiction
  intro hn
  rw [h.inv.fresh n (by omega)] at he
  cases he

/-- A local step that is not counted and does not store. -/
theorem GInv.localStep {p : Pc} (h : GInv LB LM K log s) (ht : t < K) (hd : (s.conc.thr t).doing = .idle)
    (hlim : ∀ g, p.gen = some g → g.req.plaintextSize ≤ g.cmm.limitBytes ∧ g.cmm.limitBytes ≤ LB ∧ g.cmm.limitMessages ≤ LM)
    (href : p.ref = none)
    (hput : ∀ k b, p.putKey = some (k, b) → messagesWith k log = 1 ∧ bytesWith k log = b ∧
      (∀ n e, s.conc.cache.mem n = some e → matKey e.mat ≠ some k) ∧ (∀ u, u < K → u ≠ t → ∀ b', (s.pc u).putKey ≠ some (k, b')))
    (hold : (s.pc t).ref = none) : GInv LB LM K log (s.upd t s.conc.cache (s.conc.thr t) p) := by
  have zero : ∀ q : Pc, q.ref = none → ∀ n, wPB n q .idle = 0 ∧ wPM n q .idle = 0 ∧ wA1 LB n q .idle = 0 ∧ wA2 n q .idle = 0 ∧
      wOV LB n q .idle = 0 ∧ wDR n q .idle = 0 := by
    intro q hq n
    cases q <;> first | exact ⟨rfl, rfl, rfl, rfl, rfl, rfl⟩ | cases hq
  refine h.calm ht (by rw [update_same]; exact h.cc) (.refl _) (fun _ _ _ _ hh => by cases hh) ?_ hput ?_
  · refine ⟨hlim, by rw [hd]; trivial, ?_, ?_, ?_, fun _ _ _ => hd⟩
    · intro n hn; rw [href] at hn; cases hn
    · intro n hn; rw [href] at hn; cases hn
    · intro g n ctx hp; rw [hp] at href; cases href
  · intro n e' k _ _
    obtain ⟨a1, a2, a3, a4, a5, a6⟩ := zero _ hold n
    obtain ⟨b1, b2, b3, b4, b5, b6⟩ := zero _ href n
    rw [hd]
    exact ⟨by omega, by omega, fun _ => ⟨by omega, by omega⟩, fun _ => ⟨by omega, by omega⟩⟩

/-- The start of `generate_enc_materials`. -/
theorem GInv.genStart {sha : Bytes → Bytes} {cmm : CachingCmm} {env : GenEnv} {req : EncRequest} {p : Pc} {ev : Option CmmEvent}
    (h : GInv LB LM K log s) (ht : t < K) (hd : (s.conc.thr t).doing = .idle) (hidle : (s.pc t).isIdle = true)
    (hv : cmm.limitBytes ≤ LB ∧ cmm.limitMessages ≤ LM) (hLM : 1 ≤ LM) (hs : genStart sha cmm env req = .ok (p, ev))
    (hf : FreshKeys (ev.toList ++ log)) : GInv LB LM K (ev.toList ++ log) (s.upd t s.conc.cache (s.conc.thr t) p) := by
  have hpc : s.pc t = .idle := by
    cases hp : s.pc t <;> rw [hp] at hidle <;> first | rfl | cases hidle
  have none_ref : (s.pc t).ref = none := by rw [hpc]; rfl
  have bypass : p = .idle ∧ ev = some (.gen cmm env req ⟨(env.up req).1, (env.up req).2, true⟩) →
      GInv LB LM K (ev.toList ++ log) (s.upd t s.conc.cache (s.conc.thr t) p) := by
    rintro ⟨rfl, rfl⟩
    have hg : GInv LB LM K (.gen cmm env req ⟨(env.up req).1, (env.up req).2, true⟩ :: log) s := by
      cases hr : (env.up req).2 with
      | error e =>
        have : GenOut.mk (env.up req).1 (.error e) true = ⟨(env.up req).1, (env.up req).2, true⟩ := by rw [hr]
        exact h.quiet (by simp [servedKey])
      | ok m =>
        have hf' := hf
        simp only [Option.toList, List.cons_append, List.nil_append] at hf'
        unfold FreshKeys at hf'
        have h0 := hf'.1 m rfl hr
        exact (h.fresh (out := ⟨(env.up req).1, .ok m, true⟩) rfl h0 hLM hv.1).1
    exact hg.localStep ht hd (fun g hh => by cases hh) rfl (fun k b hh => by cases hh) none_ref
  have cached : (match hashEnc sha env.ids cmm.partition req with
      | .error e => (Pc.idle, some (CmmEvent.gen cmm env req ⟨req.encCtx, .error e, false⟩))
      | .ok id => (.find ⟨cmm, env, req, id⟩, none)) = (p, ev) → req.plaintextSize ≤ cmm.limitBytes →
      GInv LB LM K (ev.toList ++ log) (s.upd t s.conc.cache (s.conc.thr t) p) := by
    intro heq hsz
    cases hh : hashEnc sha env.ids cmm.partition req with
    | error e =>
      rw [hh] at heq
      simp only [Prod.mk.injEq] at heq
      obtain ⟨rfl, rfl⟩ := heq
      have hg : GInv LB LM K (.gen cmm env req ⟨req.encCtx, .error e, false⟩ :: log) s := h.quiet (by simp [servedKey])
      exact hg.localStep ht hd (fun g hh => by cases hh) rfl (fun k b hh => by cases hh) none_ref
    | ok id =>
      rw [hh] at heq
      simp only [Prod.mk.injEq] at heq
      obtain ⟨rfl, rfl⟩ := heq
      exact h.localStep ht hd (fun g hh => by cases hh; exact ⟨hsz, hv.1, hv.2⟩) rfl (fun k b hh => by cases hh) none_ref
  unfold Verif.genStart at hs
  by_cases h1 : req.plaintextSize > cmm.limitBytes
  · rw [if_pos h1] at hs
    cases hs
    exact bypass ⟨rfl, rfl⟩
  · rw [if_neg h1] at hs
    by_cases h2 : req.requestedAlg = 0
    · rw [if_pos h2] at hs
      exact cached (Except.ok.inj hs) (by omega)
    · rw [if_neg h2] at hs
      cases hc : canCache req.requestedAlg with
      | error f => rw [hc] at hs; cases hs
      | ok b =>
        rw [hc] at hs
        cases b with
        | false => cases hs; exact bypass ⟨rfl, rfl⟩
        | true => exact cached (Except.ok.inj hs) (by omega)

/-- The call of the upstream CMM. -/
theorem GInv.genUp {g : GenCall} {ctx : EncCtx} {p : Pc} {ev : Option CmmEvent} (h : GInv LB LM K log s) (ht : t < K)
    (hpc : s.pc t = .up g ctx) (hLM : 1 ≤ LM) (hs : genUp g ctx = .ok (p, ev)) (hf : FreshKeys (ev.toList ++ log)) :
    GInv LB LM K (ev.toList ++ log) (s.upd t s.conc.cache (s.conc.thr t) p) := by
  have hd := (h.thr t ht).upIdle g ctx hpc
  have hlim := (h.thr t ht).lim g (by rw [hpc]; rfl)
  have none_ref : (s.pc t).ref = none := by rw [hpc]; rfl
  unfold Verif.genUp at hs
  cases hu : g.env.up { g.req with encCtx := ctx } with
  | mk ctx' r =>
    rw [hu] at hs
    cases r with
    | error e =>
      cases hs
      exact (h.quiet (x := .gen g.cmm g.env g.req ⟨ctx', .error e, true⟩) (by simp [servedKey])).localStep ht hd (fun g hh => by cases hh) rfl
        (fun k b hh => by cases hh) none_ref
    | ok m =>
      simp only at hs
      cases hc : canCache m.alg with
      | error f => rw [hc] at hs; cases hs
      | ok b =>
        rw [hc] at hs
        simp only [Except.ok.injEq, Prod.mk.injEq] at hs
        obtain ⟨hp, rfl⟩ := hs
        have hf' := hf
        simp only [Option.toList, List.cons_append, List.nil_append] at hf'
        unfold FreshKeys at hf'
        obtain ⟨g1, g2, g3, g4, g5⟩ := h.fresh (cmm := g.cmm) (env := g.env) (req := g.req) (out := ⟨ctx', .ok m, true⟩) rfl (hf'.1 m rfl rfl) hLM
          hlim.2.1
        subst hp
        cases b with
        | false => exact g1.localStep ht hd (fun g hh => by cases hh) rfl (fun k b hh => by cases hh) none_ref
        | true =>
          refine g1.localStep ht hd (fun g' hh => by cases hh; exact hlim) rfl (fun k b hh => ?_) none_ref
          cases hh
          exact ⟨g2, g3, g4, fun u hu _ => g5 u hu⟩

theorem afterCreated_cases (g : GenCall) (n t0 : Nat) : afterCreated g n t0 = .use g n ∨ (∃ ctx, afterCreated g n t0 = .drop g n ctx) ∨
    ∃ t', afterCreated g n t0 = .hint g n t' := by
  unfold afterCreated
  split
  · exact .inl rfl
  · cases g.env.clkTtl with
    | none => exact .inr (.inl ⟨_, rfl⟩)
    | some now =>
      simp only
      split
      · exact .inr (.inl ⟨_, rfl⟩)
      · exact .inr (.inr ⟨_, rfl⟩)

/-- The weights of a thread that is not counting. -/
theorem calm_of_zero {n : Nat} {z : Bool} {p p' : Pc} {d d' : Pending}
    (h : wPB n p' d' = 0 ∧ wPM n p' d' = 0 ∧ wA1 LB n p' d' = 0 ∧ wA2 n p' d' = 0) (h' : wOV LB n p d = 0 ∧ wDR n p d = 0) :
    Calm LB n z p d p' d' := by
  obtain ⟨h1, h2, h3, h4⟩ := h
  exact ⟨by omega, by omega, fun _ => ⟨by omega, by omega⟩, fun _ => ⟨by omega, by omega⟩⟩

/-- The first step of a call of the cache by `generate_enc_materials`. -/
theorem GInv.startCall {op : CacheOp} {c' : Cache} {a : After} (h : GInv LB LM K log s) (ht : t < K) (hLM : 1 ≤ LM)
    (hop : (s.pc t).op = some op) (hidle : (s.conc.thr t).doing = .idle) (hon : ∀ n, op.on = some n → n ∈ (s.conc.thr t).held)
    (hst : startCall op s.conc.cache = .ok (c', a)) (hev : Evolve s.conc.cache c' (newEntry op a))
    (hnew : ∀ n, a = .ret (.handle (some n)) → ∃ e, c'.mem n = some e ∧ e.zombie = false)
    (hcc : CC (s.conc.update t c' ⟨heldAfter (some op) a (s.conc.thr t).held, a.doing⟩)) :
    GInv LB LM K ((newEv c' (s.pc t) a).toList ++ log)
      (s.upd t c' ⟨heldAfter (some op) a (s.conc.thr t).held, a.doing⟩ (newPc c' (s.pc t) a)) := by
  have hT := h.thr t ht
  have hlive : ∀ n, n ∈ (s.conc.thr t).held → ∃ e, s.conc.cache.mem n = some e := fun n hn =>
    h.cc.ok.inv.heldLive n ((s.conc.refs_split (by rw [h.num]; exact ht)).symm.subset (List.mem_append_left _ (List.mem_append_left _ hn)))
  cases hp : s.pc t with
  | idle => rw [hp] at hop; cases hop
  | up g ctx => rw [hp] at hop; cases hop
  | find g =>
    rw [hp] at hop
    cases hop
    have hlim := hT.lim g (by rw [hp]; rfl)
    simp only [Verif.startCall, cacheCall] at hst
    cases hc : cacheFind g.env.clkFind g.id s.conc.cache with
    | error f => rw [hc] at hst; cases hst
    | ok x =>
      obtain ⟨c1, r⟩ := x
      rw [hc] at hst
      change Except.ok (c1, After.ret (.handle r)) = .ok (c', a) at hst
      injection hst with hst
      injection hst with hst1 hst2
      subst hst1 hst2
      cases r with
      | none =>
        refine h.calm ht hcc hev (fun _ _ _ _ hh => by cases hh) ?_ (fun k b hh => by cases hh) ?_
        · exact ⟨fun g' hh => (by cases hh; exact hlim), trivial, fun n hh => (by cases hh), fun n hh => (by cases hh),
            fun _ _ _ hh => (by cases hh), fun _ _ _ => rfl⟩
        · intro n e' k _ _
          exact calm_of_zero ⟨rfl, rfl, rfl, rfl⟩ (by rw [hp]; exact ⟨rfl, rfl⟩)
      | some n =>
        obtain ⟨e, he, -⟩ := hnew n rfl
        have hlt : n < c1.next := live_lt hcc.ok he
        have hq : ∃ q, newPc c1 (.find g) (.ret (.handle (some n))) = q ∧ newEv c1 (.find g) (.ret (.handle (some n))) = none ∧
            (q = .use g n ∨ (∃ ctx, q = .drop g n ctx) ∨ q = .created g n) := by
          refine ⟨_, rfl, rfl, ?_⟩
          by_cases hi : c1.isEncrypt n = false
          · exact .inr (.inl ⟨_, if_pos hi⟩)
          · by_cases hq : g.cmm.ttl = 2 ^ 64 - 1
            · exact .inl ((if_neg hi).trans (if_pos hq))
            · exact .inr (.inr ((if_neg hi).trans (if_neg hq)))
        obtain ⟨q, h1, h2, h3⟩ := hq
        show GInv LB LM K ((newEv c1 (.find g) (.ret (.handle (some n)))).toList ++ log) (s.upd t c1 _ (newPc c1 (.find g) (.ret (.handle (some n)))))
        rw [h1, h2]
        refine h.calm ht hcc hev (fun _ _ _ _ hh => by cases hh) ?_ ?_ ?_
        · refine ⟨?_, trivial, ?_, ?_, ?_, ?_⟩
          · intro g' hh
            rcases h3 with rfl | ⟨ctx, rfl⟩ | rfl <;> cases hh <;> exact hlim
          · intro m hh
            rcases h3 with rfl | ⟨ctx, rfl⟩ | rfl <;> cases hh <;> exact hlt
          · intro m hh _
            rcases h3 with rfl | ⟨ctx, rfl⟩ | rfl <;> cases hh <;> exact List.mem_cons_self
          · intro _ _ _ _ hh; cases hh
          · intro _ _ _; rfl
        · intro k b hh
          rcases h3 with rfl | ⟨ctx, rfl⟩ | rfl <;> cases hh
        · intro m e' k _ _
          refine calm_of_zero ?_ (by rw [hp]; exact ⟨rfl, rfl⟩)
          rcases h3 with rfl | ⟨ctx, rfl⟩ | rfl <;> exact ⟨rfl, rfl, rfl, rfl⟩
  | created g n =>
    rw [hp] at hop
    cases hop
    have hlim := hT.lim g (by rw [hp]; rfl)
    have hlt := hT.next n (by rw [hp]; rfl)
    simp only [Verif.startCall, cacheCall] at hst
    cases hc : cacheCreation n s.conc.cache with
    | error f => rw [hc] at hst; cases hst
    | ok x =>
      rw [hc] at hst
      cases hst
      have hq : newPc s.conc.cache (.created g n) (.ret (.time x)) = afterCreated g n x := rfl
      show GInv LB LM K log (s.upd t s.conc.cache _ (newPc s.conc.cache (.created g n) (.ret (.time x))))
      rw [hq]
      have h3 := afterCreated_cases g n x
      generalize hqq : afterCreated g n x = q at h3
      refine h.calm ht hcc hev (fun _ _ _ _ hh => by cases hh) ?_ ?_ ?_
      · refine ⟨?_, trivial, ?_, ?_, ?_, ?_⟩
        · intro g' hh
          rcases h3 with rfl | ⟨ctx, rfl⟩ | ⟨t', rfl⟩ <;> cases hh <;> exact hlim
        · intro m hh
          rcases h3 with rfl | ⟨ctx, rfl⟩ | ⟨t', rfl⟩ <;> cases hh <;> exact hlt
        · intro m hh _
          rcases h3 with rfl | ⟨ctx, rfl⟩ | ⟨t', rfl⟩ <;> cases hh <;> exact hon n rfl
        · intro _ _ _ _ hh; cases hh
        · intro _ _ _; rfl
      · intro k b hh
        rcases h3 with rfl | ⟨ctx, rfl⟩ | ⟨t', rfl⟩ <;> cases hh
      · intro m e' k _ _
        refine calm_of_zero ?_ (by rw [hp]; exact ⟨rfl, rfl⟩)
        rcases h3 with rfl | ⟨ctx, rfl⟩ | ⟨t', rfl⟩ <;> exact ⟨rfl, rfl, rfl, rfl⟩
  | hint g n t0 =>
    rw [hp] at hop
    cases hop
    have hlim := hT.lim g (by rw [hp]; rfl)
    have hlt := hT.next n (by rw [hp]; rfl)
    obtain ⟨e, he⟩ := hlive n (hon n rfl)
    simp only [Verif.startCall, entry_some he] at hst
    split at hst
    · cases hst
      refine h.calm ht hcc hev (fun _ _ _ _ hh => by cases hh) ?_ (fun k b hh => by cases hh) ?_
      · refine ⟨fun g' hh => (by cases hh; exact hlim), trivial, fun m hh => (by cases hh; exact hlt), fun m hh _ => (by cases hh; exact hon n rfl),
          fun _ _ _ hh => (by cases hh), fun _ _ hh => by cases hh⟩
      · intro m e' k _ _
        exact calm_of_zero ⟨rfl, rfl, rfl, rfl⟩ (by rw [hp]; exact ⟨rfl, rfl⟩)
    · cases hst
      refine h.calm ht hcc hev (fun _ _ _ _ hh => by cases hh) ?_ (fun k b hh => by cases hh) ?_
      · refine ⟨fun g' hh => (by cases hh; exact hlim), .inr (.inl ⟨g, t0, rfl⟩), fun m hh => (by cases hh; exact hlt), fun m _ hh => (by cases hh),
          fun _ _ _ hh => (by cases hh), fun _ _ hh => by cases hh⟩
      · intro m e' k _ _
        exact calm_of_zero ⟨rfl, rfl, rfl, rfl⟩ (by rw [hp]; exact ⟨rfl, rfl⟩)
  | use g n =>
    rw [hp] at hop
    cases hop
    have hlim := hT.lim g (by rw [hp]; rfl)
    have hlt := hT.next n (by rw [hp]; rfl)
    obtain ⟨e, he⟩ := hlive n (hon n rfl)
    simp only [Verif.startCall, entry_some he] at hst
    split at hst
    · cases hst
      refine h.calm ht hcc hev (fun _ _ _ _ hh => by cases hh) ?_ (fun k b hh => by cases hh) ?_
      · refine ⟨fun g' hh => (by cases hh; exact hlim), trivial, fun m hh => (by cases hh; exact hlt), fun m hh _ => (by cases hh; exact hon n rfl),
          fun _ _ _ _ hh => (by cases hh), fun _ _ hh => by cases hh⟩
      · intro m e' k _ _
        exact calm_of_zero ⟨rfl, rfl, rfl, rfl⟩ (by rw [hp, hidle]; exact ⟨rfl, rfl⟩)
    · next hz =>
      cases hst
      have hze : e.zombie = false := by
        cases hx : e.zombie with
        | false => rfl
        | true => exact absurd (.inl hx) hz
      refine h.calm ht hcc hev (fun _ _ _ _ hh => by cases hh) ?_ (fun k b hh => by cases hh) ?_
      · refine ⟨fun g' hh => (by cases hh; exact hlim), ⟨g, rfl, rfl, rfl⟩, fun m hh => (by cases hh; exact hlt), fun m _ hh => (by cases hh),
          fun _ _ _ hh => (by cases hh), fun _ _ hh => by cases hh⟩
      · intro m e' k he' _
        rw [hp, hidle]
        refine ⟨Nat.le_refl _, Nat.le_refl _, ?_, fun _ => ⟨Nat.le_refl _, Nat.le_refl _⟩⟩
        intro hz'
        have hne : n ≠ m := by
          rintro rfl
          rw [he] at he'; cases he'
          rw [hze] at hz'; cases hz'
        simp [newPc, After.doing, wA1, wA2, hne]
  | get g n b ms =>
    rw [hp] at hop
    cases hop
    have hlim := hT.lim g (by rw [hp]; rfl)
    have hlt := hT.next n (by rw [hp]; rfl)
    obtain ⟨e, he⟩ := hlive n (hon n rfl)
    simp only [Verif.startCall, cacheCall] at hst
    cases hc : cacheGetEnc g.env.get n g.req.encCtx s.conc.cache with
    | error f => rw [hc] at hst; cases hst
    | ok x =>
      obtain ⟨ctx, r⟩ := x
      rw [hc] at hst
      cases hst
      cases r with
      | error err =>
        refine h.calm ht hcc hev (fun _ _ _ _ hh => by cases hh) ?_ (fun k b hh => by cases hh) ?_
        · refine ⟨fun g' hh => (by cases hh; exact hlim), trivial, fun m hh => (by cases hh; exact hlt), fun m hh _ => (by cases hh; exact hon n rfl),
            fun _ _ _ _ hh => (by cases hh), fun _ _ hh => by cases hh⟩
        · intro m e' k _ _
          exact calm_of_zero ⟨rfl, rfl, rfl, rfl⟩ (by rw [hp]; exact ⟨rfl, rfl⟩)
      | ok m =>
        have hk : matKey e.mat = some m.dataKey := by
          unfold cacheGetEnc at hc
          rw [entry_some he] at hc
          simp only at hc
          cases hm : e.mat with
          | dec x => rw [hm] at hc; cases hc
          | enc m0 ectx =>
            rw [hm] at hc
            simp only at hc
            split at hc
            · cases hc
            · cases hcl : g.env.get.cloneFails with
              | some x => rw [hcl] at hc; cases hc
              | none =>
                rw [hcl] at hc
                simp only at hc
                cases hss : startSig g.env.get m0.alg e.keyMat with
                | error err => rw [hss] at hc; cases hc
                | ok sc => rw [hss] at hc; cases hc; rfl
        have := h.served (out := ⟨ctx, .ok m, false⟩) (inv := decide (ms = g.cmm.limitMessages)) ht hp hcc ?_ rfl he rfl hk
        · exact this
        · exact ⟨fun g' hh => (by cases hh), trivial, fun m hh => (by cases hh; exact hlt), fun m hh _ => (by cases hh; exact hon n rfl),
            fun _ _ _ hh => (by cases hh), fun _ _ hh => by cases hh⟩
  | drop g n ctx =>
    rw [hp] at hop
    cases hop
    have hlim := hT.lim g (by rw [hp]; rfl)
    have hlt := hT.next n (by rw [hp]; rfl)
    obtain ⟨e, he⟩ := hlive n (hon n rfl)
    simp only [Verif.startCall, entry_some he] at hst
    split at hst
    · cases hst
      refine h.calm ht hcc hev (fun _ _ _ _ hh => by cases hh) ?_ (fun k b hh => by cases hh) ?_
      · refine ⟨fun g' hh => (by cases hh; exact hlim), .inr (.inl ⟨g, ctx, rfl⟩), fun m hh => (by cases hh; exact hlt), fun m _ hh => (by cases hh),
          fun _ _ _ _ hh => (by cases hh), fun _ _ hh => by cases hh⟩
      · intro m e' k _ _
        rw [hp, hidle]
        exact .refl LB m e'.zombie (.drop g n ctx) .idle
    · next hz =>
      cases hst
      have hze : e.zombie = true := by
        cases hx : e.zombie with
        | true => rfl
        | false => exact absurd ⟨trivial, hx⟩ hz
      refine h.calm ht hcc hev (fun _ _ _ _ hh => by cases hh) ?_ (fun k b hh => by cases hh) ?_
      · refine ⟨fun g' hh => (by cases hh; exact hlim), .inr (.inl ⟨g, ctx, rfl⟩), fun m hh => (by cases hh; exact hlt), fun m _ hh => (by cases hh),
          fun _ _ _ hh _ f hf => ?_, fun _ _ hh => by cases hh⟩
        cases hh
        rw [he] at hf; cases hf; exact hze
      · intro m e' k _ _
        rw [hp, hidle]
        exact .refl LB m e'.zombie (.drop g n ctx) .idle
  | fin n inv =>
    rw [hp] at hop
    cases hop
    have hlt := hT.next n (by rw [hp]; rfl)
    obtain ⟨e, he⟩ := hlive n (hon n rfl)
    simp only [Verif.startCall, entry_some he] at hst
    split at hst
    · cases hst
      refine h.calm ht hcc hev (fun _ _ _ _ hh => by cases hh) ?_ (fun k b hh => by cases hh) ?_
      · refine ⟨fun g' hh => (by cases hh), .inr (.inr ⟨inv, rfl⟩), fun m hh => (by cases hh; exact hlt), fun m _ hh => (by cases hh),
          fun _ _ _ hh => (by cases hh), fun _ _ hh => by cases hh⟩
      · intro m e' k _ _
        exact calm_of_zero ⟨rfl, rfl, rfl, rfl⟩ (by rw [hp]; exact ⟨rfl, rfl⟩)
    · cases hst
      refine h.calm ht hcc hev (fun _ _ _ _ hh => by cases hh) ?_ (fun k b hh => by cases hh) ?_
      · refine ⟨fun g' hh => (by cases hh), .inr (.inr ⟨inv, rfl⟩), fun m hh => (by cases hh; exact hlt), fun m _ hh => (by cases hh),
          fun _ _ _ hh => (by cases hh), fun _ _ hh => by cases hh⟩
      · intro m e' k _ _
        exact calm_of_zero ⟨rfl, rfl, rfl, rfl⟩ (by rw [hp]; exact ⟨rfl, rfl⟩)
  | put g ctx m =>
    rw [hp] at hop
    cases hop
    have hlim := hT.lim g (by rw [hp]; rfl)
    simp only [Verif.startCall, cacheCall] at hst
    cases hc : cachePutEnc g.env.put g.id m g.req.plaintextSize 1 ctx s.conc.cache with
    | error f => rw [hc] at hst; cases hst
    | ok x =>
      obtain ⟨c1, r⟩ := x
      rw [hc] at hst
      change Except.ok (c1, After.ret (.handle r)) = .ok (c', a) at hst
      injection hst with hst
      injection hst with hst1 hst2
      subst hst1 hst2
      cases r with
      | none =>
        refine h.calm ht hcc hev (fun _ _ _ _ hh => by cases hh) ?_ (fun k b hh => by cases hh) ?_
        · exact ⟨fun g' hh => (by cases hh), trivial, fun n hh => (by cases hh), fun n hh => (by cases hh),
            fun _ _ _ hh => (by cases hh), fun _ _ _ => rfl⟩
        · intro n e' k _ _
          exact calm_of_zero ⟨rfl, rfl, rfl, rfl⟩ (by rw [hp]; exact ⟨rfl, rfl⟩)
      | some n =>
        obtain ⟨e, he, -⟩ := hnew n rfl
        have hlt : n < c1.next := live_lt hcc.ok he
        have hq : ∃ q, newPc c1 (.put g ctx m) (.ret (.handle (some n))) = q ∧ newEv c1 (.put g ctx m) (.ret (.handle (some n))) = none ∧
            (q = .fin n false ∨ q = .createdMiss g n) := by
          refine ⟨_, rfl, rfl, ?_⟩
          by_cases hq : g.cmm.ttl = 2 ^ 64 - 1
          · exact .inl (if_pos hq)
          · exact .inr (if_neg hq)
        obtain ⟨q, h1, h2, h3⟩ := hq
        show GInv LB LM K ((newEv c1 (.put g ctx m) (.ret (.handle (some n)))).toList ++ log)
          (s.upd t c1 _ (newPc c1 (.put g ctx m) (.ret (.handle (some n)))))
        rw [h1, h2]
        refine h.stored ht hp hcc hev rfl ?_ ?_ hLM ?_
        · refine ⟨?_, trivial, ?_, ?_, ?_, ?_⟩
          · intro g' hh
            rcases h3 with rfl | rfl <;> cases hh; exact hlim
          · intro m hh
            rcases h3 with rfl | rfl <;> cases hh <;> exact hlt
          · intro m hh _
            rcases h3 with rfl | rfl <;> cases hh <;> exact List.mem_cons_self
          · intro _ _ _ _ hh; cases hh
          · intro _ _ _; rfl
        · rcases h3 with rfl | rfl <;> rfl
        · intro k
          rcases h3 with rfl | rfl <;> exact ⟨rfl, rfl, rfl, rfl⟩
  | createdMiss g n =>
    rw [hp] at hop
    cases hop
    have hlim := hT.lim g (by rw [hp]; rfl)
    have hlt := hT.next n (by rw [hp]; rfl)
    simp only [Verif.startCall, cacheCall] at hst
    cases hc : cacheCreation n s.conc.cache with
    | error f => rw [hc] at hst; cases hst
    | ok x =>
      rw [hc] at hst
      cases hst
      have hq : ∃ q, newPc s.conc.cache (.createdMiss g n) (.ret (.time x)) = q ∧ newEv s.conc.cache (.createdMiss g n) (.ret (.time x)) = none ∧
            (q = .fin n false ∨ ∃ t', q = .hintMiss g n t') := by
        refine ⟨_, rfl, rfl, ?_⟩
        by_cases hlt2 : u64 (x + g.cmm.ttl) > x
        · exact .inr ⟨_, if_pos hlt2⟩
        · exact .inl (if_neg hlt2)
      obtain ⟨q, h1, h2, h3⟩ := hq
      show GInv LB LM K ((newEv s.conc.cache (.createdMiss g n) (.ret (.time x))).toList ++ log)
        (s.upd t s.conc.cache _ (newPc s.conc.cache (.createdMiss g n) (.ret (.time x))))
      rw [h1, h2]
      refine h.calm ht hcc hev (fun _ _ _ _ hh => by cases hh) ?_ ?_ ?_
      · refine ⟨?_, trivial, ?_, ?_, ?_, ?_⟩
        · intro g' hh
          rcases h3 with rfl | ⟨t', rfl⟩ <;> cases hh; exact hlim
        · intro m hh
          rcases h3 with rfl | ⟨t', rfl⟩ <;> cases hh <;> exact hlt
        · intro m hh _
          rcases h3 with rfl | ⟨t', rfl⟩ <;> cases hh <;> exact hon n rfl
        · intro _ _ _ _ hh; cases hh
        · intro _ _ _; rfl
      · intro k b hh
        rcases h3 with rfl | ⟨t', rfl⟩ <;> cases hh
      · intro m e' k _ _
        refine calm_of_zero ?_ (by rw [hp]; exact ⟨rfl, rfl⟩)
        rcases h3 with rfl | ⟨t', rfl⟩ <;> exact ⟨rfl, rfl, rfl, rfl⟩
  | hintMiss g n t0 =>
    rw [hp] at hop
    cases hop
    have hlim := hT.lim g (by rw [hp]; rfl)
    have hlt := hT.next n (by rw [hp]; rfl)
    obtain ⟨e, he⟩ := hlive n (hon n rfl)
    simp only [Verif.startCall, entry_some he] at hst
    split at hst
    · cases hst
      refine h.calm ht hcc hev (fun _ _ _ _ hh => by cases hh) ?_ (fun k b hh => by cases hh) ?_
      · refine ⟨fun g' hh => (by cases hh), trivial, fun m hh => (by cases hh; exact hlt), fun m hh _ => (by cases hh; exact hon n rfl),
          fun _ _ _ hh => (by cases hh), fun _ _ hh => by cases hh⟩
      · intro m e' k _ _
        exact calm_of_zero ⟨rfl, rfl, rfl, rfl⟩ (by rw [hp]; exact ⟨rfl, rfl⟩)
    · cases hst
      refine h.calm ht hcc hev (fun _ _ _ _ hh => by cases hh) ?_ (fun k b hh => by cases hh) ?_
      · refine ⟨fun g' hh => (by cases hh; exact hlim), .inr (.inr ⟨g, t0, rfl⟩), fun m hh => (by cases hh; exact hlt), fun m _ hh => (by cases hh),
          fun _ _ _ hh => (by cases hh), fun _ _ hh => by cases hh⟩
      · intro m e' k _ _
        exact calm_of_zero ⟨rfl, rfl, rfl, rfl⟩ (by rw [hp]; exact ⟨rfl, rfl⟩)

theorem idle_after (c : Cache) (r : CacheResult) : Pc.after c .idle r = (.idle, none) := by
  cases r <;> rfl

theorem newPc_idle (c : Cache) (a : After) : newPc c .idle a = .idle ∧ newEv c .idle a = none := by
  cases a with
  | wait p => exact ⟨rfl, rfl⟩
  | ret r => simp only [newPc, newEv, idle_after]; exact ⟨trivial, trivial⟩

/-- The first step of another call of the cache. -/
theorem GInv.foreign {op : CacheOp} {c' : Cache} {a : After} (h : GInv LB LM K log s) (ht : t < K)
    (hpc : s.pc t = .idle) (hf : op.foreign = true)
    (hst : Verif.startCall op s.conc.cache = .ok (c', a)) (hev : Evolve s.conc.cache c' (newEntry op a)) {th : Thread} (hd : th.doing = a.doing)
    (hcc : CC (s.conc.update t c' th)) : GInv LB LM K log (s.upd t c' th .idle) := by
  refine h.calm ht hcc hev ?_ ?_ (fun k b hh => by cases hh) ?_
  · intro m mat b k hn
    cases op with
    | putEnc _ _ _ _ _ _ => cases hf
    | putDec e i dm =>
      simp only [newEntry] at hn
      split at hn
      · next heq => cases heq
      · cases hn; rfl
      · cases hn
    | _ => cases a <;> simp [newEntry] at hn
  · refine ⟨fun g hh => (by cases hh), ?_, fun n hh => (by cases hh), fun n hh => (by cases hh), fun _ _ _ hh => (by cases hh), fun _ _ hh => (by cases hh)⟩
    rw [hd]
    cases op with
    | use _ _ _ => cases hf
    | putEnc _ _ _ _ _ _ => cases hf
    | release n inv =>
      simp only [Verif.startCall] at hst
      cases he : s.conc.cache.entry n with
      | error f => rw [he] at hst; cases hst
      | ok e => rw [he] at hst; simp only at hst; split at hst <;> cases hst <;> exact .inl rfl
    | hint n _ _ =>
      simp only [Verif.startCall] at hst
      cases he : s.conc.cache.entry n with
      | error f => rw [he] at hst; cases hst
      | ok e =>
        rw [he] at hst; simp only at hst
        split at hst
        · cases hst; trivial
        · cases hst; exact .inl rfl
    | find a1 a2 =>
      simp only [Verif.startCall] at hst
      cases hc : cacheCall (.find a1 a2) s.conc.cache with
      | error f => rw [hc] at hst; cases hst
      | ok p => rw [hc] at hst; cases hst; trivial
    | putDec a1 a2 a3 =>
      simp only [Verif.startCall] at hst
      cases hc : cacheCall (.putDec a1 a2 a3) s.conc.cache with
      | error f => rw [hc] at hst; cases hst
      | ok p => rw [hc] at hst; cases hst; trivial
    | getEnc a1 a2 a3 =>
      simp only [Verif.startCall] at hst
      cases hc : cacheCall (.getEnc a1 a2 a3) s.conc.cache with
      | error f => rw [hc] at hst; cases hst
      | ok p => rw [hc] at hst; cases hst; trivial
    | getDec a1 a2 =>
      simp only [Verif.startCall] at hst
      cases hc : cacheCall (.getDec a1 a2) s.conc.cache with
      | error f => rw [hc] at hst; cases hst
      | ok p => rw [hc] at hst; cases hst; trivial
    | created a1 =>
      simp only [Verif.startCall] at hst
      cases hc : cacheCall (.created a1) s.conc.cache with
      | error f => rw [hc] at hst; cases hst
      | ok p => rw [hc] at hst; cases hst; trivial
    | clear =>
      simp only [Verif.startCall] at hst
      cases hc : cacheCall .clear s.conc.cache with
      | error f => rw [hc] at hst; cases hst
      | ok p => rw [hc] at hst; cases hst; trivial
    | count => cases hst; trivial
  · intro m e' k _ _
    exact calm_of_zero ⟨rfl, rfl, rfl, rfl⟩ (by rw [hpc]; exact ⟨rfl, rfl⟩)

/-- Counting bytes. -/
theorem GInv.addBytes (h : GInv LB LM K log s) (ht : t < K) {g : GenCall} {n : Nat} (hpc : s.pc t = .use g n)
    (hd : (s.conc.thr t).doing = .addBytes n g.req.plaintextSize 1) {e : Entry} (he : s.conc.cache.mem n = some e)
    {held : List Nat}
    (hcc : CC (s.conc.update t (s.conc.cache.set n (some { e with usageBytes := u64 (e.usageBytes + g.req.plaintextSize) }))
      ⟨held, .addMessages n (u64 (e.usageBytes + g.req.plaintextSize)) 1⟩)) :
    GInv LB LM K log (s.upd t (s.conc.cache.set n (some { e with usageBytes := u64 (e.usageBytes + g.req.plaintextSize) }))
      ⟨held, .addMessages n (u64 (e.usageBytes + g.req.plaintextSize)) 1⟩ (.use g n)) := by
  have hT := h.thr t ht
  have hlim := hT.lim g (by rw [hpc]; rfl)
  have hlt := hT.next n (by rw [hpc]; rfl)
  refine h.counted ht he rfl rfl hcc ?_ rfl ?_ ?_
  · exact ⟨fun g' hh => (by cases hh; exact hlim), ⟨g, rfl, rfl⟩, fun m hh => (by cases hh; exact hlt), fun m _ hh => (by cases hh),
      fun _ _ _ hh => (by cases hh), fun _ _ hh => (by cases hh)⟩
  · intro k hk hent
    obtain ⟨h1, ⟨h2, h3⟩, hb, ⟨jm1, jm2⟩, hjb⟩ := hent
    have o1 : wPB n (s.pc t) (s.conc.thr t).doing = 0 := by rw [hpc, hd]; rfl
    have o2 : wPM n (s.pc t) (s.conc.thr t).doing = 0 := by rw [hpc]; rfl
    have o3 : wOV LB n (s.pc t) (s.conc.thr t).doing = 0 := by rw [hpc, hd]; rfl
    have o4 : wDR n (s.pc t) (s.conc.thr t).doing = 0 := by rw [hpc]; rfl
    have o5 : wA1 LB n (s.pc t) (s.conc.thr t).doing = LB := by rw [hpc, hd]; simp [wA1]
    have o6 : wA2 n (s.pc t) (s.conc.thr t).doing = 1 := by rw [hpc, hd]; simp [wA2]
    have n2 : wPM n (.use g n) (.addMessages n (u64 (e.usageBytes + g.req.plaintextSize)) 1) = 0 := rfl
    have n4 : wDR n (.use g n) (.addMessages n (u64 (e.usageBytes + g.req.plaintextSize)) 1) = 0 := rfl
    have n5 : wA1 LB n (.use g n) (.addMessages n (u64 (e.usageBytes + g.req.plaintextSize)) 1) = 0 := rfl
    have n6 : wA2 n (.use g n) (.addMessages n (u64 (e.usageBytes + g.req.plaintextSize)) 1) = 1 := by simp [wA2]
    have n1 : wPB n (.use g n) (.addMessages n (u64 (e.usageBytes + g.req.plaintextSize)) 1) =
        if u64 (e.usageBytes + g.req.plaintextSize) ≤ g.cmm.limitBytes then g.req.plaintextSize else 0 := by simp [wPB]
    have n3 : wOV LB n (.use g n) (.addMessages n (u64 (e.usageBytes + g.req.plaintextSize)) 1) =
        if u64 (e.usageBytes + g.req.plaintextSize) ≤ g.cmm.limitBytes then 0 else LB := by
      by_cases hs : u64 (e.usageBytes + g.req.plaintextSize) ≤ g.cmm.limitBytes
      · rw [if_pos hs]; simp [wOV]; omega
      · rw [if_neg hs]; simp [wOV]; omega
    have hov := tot_ov (LB := LB) (K := K) n s
    -- the thread itself is one of those that add
    have hA1 : LB ≤ tot K (fun i => wA1 LB n (s.pc i) (s.conc.thr i).doing) := by
      have := upd_tot (K := K) (s := s) (c' := s.conc.cache) (th := ⟨[], .idle⟩) (p := .idle) ht (wA1 LB n)
      have h0 : wA1 LB n .idle (Thread.mk [] .idle).doing = 0 := rfl
      omega
    have hA2 : 1 ≤ tot K (fun i => wA2 n (s.pc i) (s.conc.thr i).doing) := by
      have := upd_tot (K := K) (s := s) (c' := s.conc.cache) (th := ⟨[], .idle⟩) (p := .idle) ht (wA2 n)
      have h0 : wA2 n .idle (Thread.mk [] .idle).doing = 0 := rfl
      omega
    have nowrap : NoWrap LB K → u64 (e.usageBytes + g.req.plaintextSize) = e.usageBytes + g.req.plaintextSize := by
      intro hw
      unfold u64
      apply Nat.mod_eq_of_lt
      have hw' : LB + LB * K < 2 ^ 64 := hw
      cases hz : e.zombie with
      | true => have := (hjb hw).1 hz; omega
      | false => have := (hjb hw).2 hz; omega
    rw [o1, o2, o3, o4, o5, o6, n1, n2, n3, n4, n5, n6]
    refine ⟨h1, ⟨?_, ?_⟩, fun hw => ⟨?_, ?_⟩, ⟨fun hz => ?_, fun hz => ?_⟩, fun hw => ⟨fun hz => ?_, fun hz => ?_⟩⟩
    · show _ ≤ e.usageMessages; omega
    · omega
    · show _ ≤ u64 (e.usageBytes + g.req.plaintextSize)
      rw [nowrap hw]
      have := hb hw
      split <;> omega
    · rw [nowrap hw]
      have := hb hw
      split <;> omega
    · have := jm1 hz
      show e.usageMessages + _ ≤ _
      omega
    · have := jm2 hz
      show e.usageMessages ≤ _
      omega
    · have := (hjb hw).1 hz
      show u64 (e.usageBytes + g.req.plaintextSize) + _ ≤ _
      rw [nowrap hw]
      omega
    · have := (hjb hw).2 hz
      show u64 (e.usageBytes + g.req.plaintextSize) ≤ _
      rw [nowrap hw]
      split <;> omega
  · intro m z hm
    rw [hpc, hd]
    have hm' : ¬ n = m := fun hh => hm hh.symm
    simp [Calm, wPB, wPM, wA1, wA2, wOV, wDR, hm']

/-- Counting messages. -/
theorem GInv.addMessages (h : GInv LB LM K log s) (ht : t < K) (hM : LM + K < 2 ^ 64) {g : GenCall} {n sum : Nat} (hpc : s.pc t = .use g n)
    (hd : (s.conc.thr t).doing = .addMessages n sum 1) {e : Entry} (he : s.conc.cache.mem n = some e)
    {held : List Nat} (hheld : n ∈ held)
    (hcc : CC (s.conc.update t (s.conc.cache.set n (some { e with usageMessages := u64 (e.usageMessages + 1) })) ⟨held, .idle⟩)) :
    GInv LB LM K log (s.upd t (s.conc.cache.set n (some { e with usageMessages := u64 (e.usageMessages + 1) })) ⟨held, .idle⟩
      (if sum > g.cmm.limitBytes ∨ u64 (e.usageMessages + 1) > g.cmm.limitMessages then .drop g n g.req.encCtx
        else .get g n sum (u64 (e.usageMessages + 1)))) := by
  have hT := h.thr t ht
  have hlim := hT.lim g (by rw [hpc]; rfl)
  have hlt := hT.next n (by rw [hpc]; rfl)
  have o1 : wPB n (s.pc t) (s.conc.thr t).doing = if sum ≤ g.cmm.limitBytes then g.req.plaintextSize else 0 := by
    rw [hpc, hd]; simp [wPB]
  have o2 : wPM n (s.pc t) (s.conc.thr t).doing = 0 := by rw [hpc]; rfl
  have o3 : wOV LB n (s.pc t) (s.conc.thr t).doing = if sum ≤ g.cmm.limitBytes then 0 else LB := by
    rw [hpc, hd]
    by_cases hs : sum ≤ g.cmm.limitBytes
    · rw [if_pos hs]; simp [wOV]; omega
    · rw [if_neg hs]; simp [wOV]; omega
  have o4 : wDR n (s.pc t) (s.conc.thr t).doing = 0 := by rw [hpc]; rfl
  have o5 : wA1 LB n (s.pc t) (s.conc.thr t).doing = 0 := by rw [hpc, hd]; rfl
  have o6 : wA2 n (s.pc t) (s.conc.thr t).doing = 1 := by rw [hpc, hd]; simp [wA2]
  have hA2 : 1 ≤ tot K (fun i => wA2 n (s.pc i) (s.conc.thr i).doing) := by
    have := upd_tot (K := K) (s := s) (c' := s.conc.cache) (th := ⟨[], .idle⟩) (p := .idle) ht (wA2 n)
    have h0 : wA2 n .idle (Thread.mk [] .idle).doing = 0 := rfl
    omega
  have hPB : (if sum ≤ g.cmm.limitBytes then g.req.plaintextSize else 0) ≤ tot K (fun i => wPB n (s.pc i) (s.conc.thr i).doing) := by
    have := upd_tot (K := K) (s := s) (c' := s.conc.cache) (th := ⟨[], .idle⟩) (p := .idle) ht (wPB n)
    have h0 : wPB n .idle (Thread.mk [] .idle).doing = 0 := rfl
    omega
  have hOV : (if sum ≤ g.cmm.limitBytes then 0 else LB) ≤ tot K (fun i => wOV LB n (s.pc i) (s.conc.thr i).doing) := by
    have := upd_tot (K := K) (s := s) (c' := s.conc.cache) (th := ⟨[], .idle⟩) (p := .idle) ht (wOV LB n)
    have h0 : wOV LB n .idle (Thread.mk [] .idle).doing = 0 := rfl
    omega
  have hdr := tot_dr (K := K) n s
  have other : ∀ m z, m ≠ n → ∀ q, (q = .drop g n g.req.encCtx ∨ q = .get g n sum (u64 (e.usageMessages + 1))) →
      Calm LB m z (s.pc t) (s.conc.thr t).doing q .idle := by
    intro m z hm q hq
    rw [hpc, hd]
    have hm' : ¬ n = m := fun hh => hm hh.symm
    rcases hq with rfl | rfl <;> simp [Calm, wPB, wPM, wA1, wA2, wOV, wDR, hm']
  by_cases hc : sum > g.cmm.limitBytes ∨ u64 (e.usageMessages + 1) > g.cmm.limitMessages
  · rw [if_pos hc]
    refine h.counted ht he rfl rfl hcc ?_ rfl ?_ (fun m z hm => other m z hm _ (.inl rfl))
    · exact ⟨fun g' hh => (by cases hh; exact hlim), trivial, fun m hh => (by cases hh; exact hlt), fun m hh _ => (by cases hh; exact hheld),
        fun _ _ _ _ hh => (by cases hh), fun _ _ hh => (by cases hh)⟩
    · intro k hk hent
      obtain ⟨h1, ⟨h2, h3⟩, hb, ⟨jm1, jm2⟩, hjb⟩ := hent
      have nowrap : u64 (e.usageMessages + 1) = e.usageMessages + 1 := by
        unfold u64
        apply Nat.mod_eq_of_lt
        cases hz : e.zombie with
        | true => have := jm1 hz; omega
        | false => have := jm2 hz; omega
      have n1 : wPB n (.drop g n g.req.encCtx) .idle = 0 := rfl
      have n2 : wPM n (.drop g n g.req.encCtx) .idle = 0 := rfl
      have n3 : wOV LB n (.drop g n g.req.encCtx) .idle = LB := by simp [wOV]
      have n4 : wDR n (.drop g n g.req.encCtx) .idle = 1 := by simp [wDR]
      have n5 : wA1 LB n (.drop g n g.req.encCtx) .idle = 0 := rfl
      have n6 : wA2 n (.drop g n g.req.encCtx) .idle = 0 := rfl
      rw [o1, o2, o3, o4, o5, o6, n1, n2, n3, n4, n5, n6]
      refine ⟨h1, ⟨?_, ?_⟩, fun hw => ⟨?_, ?_⟩, ⟨fun hz => ?_, fun hz => ?_⟩, fun hw => ⟨fun hz => ?_, fun hz => ?_⟩⟩
      · show _ ≤ u64 (e.usageMessages + 1); rw [nowrap]; omega
      · omega
      · have := hb hw
        show _ ≤ e.usageBytes
        omega
      · have := hb hw; omega
      · have := jm1 hz
        show u64 (e.usageMessages + 1) + _ ≤ _
        rw [nowrap]; omega
      · have := jm2 hz
        show u64 (e.usageMessages + 1) ≤ _
        rw [nowrap]; omega
      · have := (hjb hw).1 hz
        show e.usageBytes + _ ≤ _
        omega
      · have := (hjb hw).2 hz
        show e.usageBytes ≤ _
        split at hOV
        · next hs => rw [if_pos hs]; omega
        · next hs => rw [if_neg hs]; omega
  · rw [if_neg hc]
    have hc1 : sum ≤ g.cmm.limitBytes := by omega
    have hc2 : u64 (e.usageMessages + 1) ≤ g.cmm.limitMessages := by omega
    rw [if_pos hc1] at o1 o3 hPB hOV
    refine h.counted ht he rfl rfl hcc ?_ rfl ?_ (fun m z hm => other m z hm _ (.inr rfl))
    · exact ⟨fun g' hh => (by cases hh; exact hlim), trivial, fun m hh => (by cases hh; exact hlt), fun m hh _ => (by cases hh; exact hheld),
        fun _ _ _ hh => (by cases hh), fun _ _ hh => (by cases hh)⟩
    · intro k hk hent
      obtain ⟨h1, ⟨h2, h3⟩, hb, ⟨jm1, jm2⟩, hjb⟩ := hent
      have nowrap : u64 (e.usageMessages + 1) = e.usageMessages + 1 := by
        unfold u64
        apply Nat.mod_eq_of_lt
        cases hz : e.zombie with
        | true => have := jm1 hz; omega
        | false => have := jm2 hz; omega
      have n1 : wPB n (.get g n sum (u64 (e.usageMessages + 1))) .idle = g.req.plaintextSize := by simp [wPB]
      have n2 : wPM n (.get g n sum (u64 (e.usageMessages + 1))) .idle = 1 := by simp [wPM]
      have n3 : wOV LB n (.get g n sum (u64 (e.usageMessages + 1))) .idle = 0 := rfl
      have n4 : wDR n (.get g n sum (u64 (e.usageMessages + 1))) .idle = 0 := rfl
      have n5 : wA1 LB n (.get g n sum (u64 (e.usageMessages + 1))) .idle = 0 := rfl
      have n6 : wA2 n (.get g n sum (u64 (e.usageMessages + 1))) .idle = 0 := rfl
      rw [nowrap] at hc2
      rw [o1, o2, o3, o4, o5, o6, n1, n2, n3, n4, n5, n6]
      refine ⟨h1, ⟨?_, ?_⟩, fun hw => ⟨?_, ?_⟩, ⟨fun hz => ?_, fun hz => ?_⟩, fun hw => ⟨fun hz => ?_, fun hz => ?_⟩⟩
      · show _ ≤ u64 (e.usageMessages + 1); rw [nowrap]; omega
      · omega
      · have := hb hw
        show _ ≤ e.usageBytes
        omega
      · have := hb hw; omega
      · have := jm1 hz
        show u64 (e.usageMessages + 1) + _ ≤ _
        rw [nowrap]; omega
      · show u64 (e.usageMessages + 1) ≤ _
        rw [nowrap]; omega
      · have := (hjb hw).1 hz
        show e.usageBytes + _ ≤ _
        omega
      · have := (hjb hw).2 hz
        show e.usageBytes ≤ _
        omega

theorem fin_after (c : Cache) (n : Nat) (inv : Bool) (r : CacheResult) : Pc.after c (.fin n inv) r = (.idle, none) := by
  cases r <;> rfl

theorem drop_after (c : Cache) (g : GenCall) (n : Nat) (ctx : EncCtx) (r : CacheResult) : Pc.after c (.drop g n ctx) r = (.up g ctx, none) := by
  cases r <;> rfl

/-- A later step of a call of the cache. -/
theorem GInv.goStep {c' : Cache} {a : After} (h : GInv LB LM K log s) (ht : t < K) (hM : LM + K < 2 ^ 64)
    (hlater : Later (s.conc.thr t).doing s.conc.cache c' a)
    (hcc : CC (s.conc.update t c' ⟨heldAfter none a (s.conc.thr t).held, a.doing⟩)) :
    GInv LB LM K ((newEv c' (s.pc t) a).toList ++ log)
      (s.upd t c' ⟨heldAfter none a (s.conc.thr t).held, a.doing⟩ (newPc c' (s.pc t) a)) := by
  have hT := h.thr t ht
  have hfit := hT.fit
  have huses := h.cc.uses t (by rw [h.num]; exact ht)
  -- a release that is over
  have finish : ∀ n, ((s.pc t) = .idle ∨ (∃ g ctx, (s.pc t) = .drop g n ctx) ∨ (∃ inv, (s.pc t) = .fin n inv)) →
      Evolve s.conc.cache c' none → a = .ret .done → (∀ g ctx, s.pc t = .drop g n ctx → ∀ e', c'.mem n = some e' → e'.zombie = true) →
      GInv LB LM K ((newEv c' (s.pc t) a).toList ++ log)
        (s.upd t c' ⟨heldAfter none a (s.conc.thr t).held, a.doing⟩ (newPc c' (s.pc t) a)) := by
    rintro n hcase hev rfl hz
    rcases hcase with hp | ⟨g, ctx, hp⟩ | ⟨inv, hp⟩
    · rw [hp]
      rw [(newPc_idle c' _).1, (newPc_idle c' _).2]
      refine h.calm ht hcc hev (fun _ _ _ _ hh => by cases hh) ?_ (fun k b hh => by cases hh) ?_
      · exact ⟨fun g hh => (by cases hh), trivial, fun n hh => (by cases hh), fun n hh => (by cases hh), fun _ _ _ hh => (by cases hh),
          fun _ _ hh => (by cases hh)⟩
      · intro m e' k _ _
        exact calm_of_zero ⟨rfl, rfl, rfl, rfl⟩ (by rw [hp]; exact ⟨rfl, rfl⟩)
    · have hlim := hT.lim g (by rw [hp]; rfl)
      have hz' := hz g ctx hp
      rw [hp]
      refine h.calm ht hcc hev (fun _ _ _ _ hh => by cases hh) ?_ (fun k b hh => by cases hh) ?_
      · exact ⟨fun g hh => (by cases hh; exact hlim), trivial, fun n hh => (by cases hh), fun n hh => (by cases hh), fun _ _ _ hh => (by cases hh),
          fun _ _ _ => rfl⟩
      · intro m e' k he' _
        rw [hp]
        refine ⟨Nat.zero_le _, Nat.zero_le _, fun _ => ⟨Nat.zero_le _, Nat.zero_le _⟩, fun hze => ?_⟩
        have hne : ¬ n = m := by
          rintro rfl
          rw [hz' e' he'] at hze; cases hze
        simp [wOV, wDR, hne]
    · rw [hp]
      refine h.calm ht hcc hev (fun _ _ _ _ hh => by cases hh) ?_ (fun k b hh => by cases hh) ?_
      · exact ⟨fun g hh => (by cases hh), trivial, fun n hh => (by cases hh), fun n hh => (by cases hh), fun _ _ _ hh => (by cases hh),
          fun _ _ hh => (by cases hh)⟩
      · intro m e' k _ _
        exact calm_of_zero ⟨rfl, rfl, rfl, rfl⟩ (by rw [hp]; exact ⟨rfl, rfl⟩)
  cases hd : (s.conc.thr t).doing with
  | idle => rw [hd] at hlater; exact hlater.elim
  | addBytes n b ms =>
    rw [hd] at hlater hfit huses
    obtain ⟨g, hp, rfl, rfl⟩ := hfit
    obtain ⟨e, he, rfl, rfl⟩ := hlater
    rw [hp]
    exact h.addBytes ht hp hd he hcc
  | addMessages n sum ms =>
    rw [hd] at hlater hfit huses
    obtain ⟨g, hp, rfl⟩ := hfit
    obtain ⟨e, he, rfl, rfl⟩ := hlater
    rw [hp]
    exact h.addMessages ht hM hp hd he (huses n rfl) hcc
  | hintLock n t0 push =>
    rw [hd] at hlater hfit huses
    obtain ⟨hev, rfl⟩ := hlater
    rcases hfit with hp | ⟨g, t1, hp⟩ | ⟨g, t1, hp⟩
    · exact finish n (.inl hp) hev rfl (fun g ctx hh => by rw [hp] at hh; cases hh)
    · have hlim := hT.lim g (by rw [hp]; rfl)
      have hlt := hT.next n (by rw [hp]; rfl)
      rw [hp]
      refine h.calm ht hcc hev (fun _ _ _ _ hh => by cases hh) ?_ (fun k b hh => by cases hh) ?_
      · exact ⟨fun g hh => (by cases hh; exact hlim), trivial, fun n hh => (by cases hh; exact Nat.lt_of_lt_of_le hlt hev.next),
          fun n hh _ => (by cases hh; exact huses n rfl), fun _ _ _ hh => (by cases hh), fun _ _ hh => (by cases hh)⟩
      · intro m e' k _ _
        exact calm_of_zero ⟨rfl, rfl, rfl, rfl⟩ (by rw [hp]; exact ⟨rfl, rfl⟩)
    · have hlt := hT.next n (by rw [hp]; rfl)
      rw [hp]
      refine h.calm ht hcc hev (fun _ _ _ _ hh => by cases hh) ?_ (fun k b hh => by cases hh) ?_
      · exact ⟨fun g hh => (by cases hh), trivial, fun n hh => (by cases hh; exact Nat.lt_of_lt_of_le hlt hev.next),
          fun n hh _ => (by cases hh; exact huses n rfl), fun _ _ _ hh => (by cases hh), fun _ _ hh => (by cases hh)⟩
      · intro m e' k _ _
        exact calm_of_zero ⟨rfl, rfl, rfl, rfl⟩ (by rw [hp]; exact ⟨rfl, rfl⟩)
  | relPlain n =>
    rw [hd] at hlater hfit
    obtain ⟨hev, ha⟩ := hlater
    refine finish n hfit hev ha (fun g ctx hh e' he' => ?_)
    rcases hev.old n e' he' with ⟨e, h1, -, -, -, h5, -⟩ | ⟨h1, -⟩
    · exact h5 (hT.drop g n ctx hh hd e h1)
    · cases h1
  | relHeld n =>
    rw [hd] at hlater hfit
    obtain ⟨hev, ha, hz⟩ := hlater
    exact finish n hfit hev ha (fun _ _ _ => hz)
  | relLock n =>
    rw [hd] at hlater hfit
    obtain ⟨hev, ⟨ha, hz⟩ | ⟨rfl, -⟩⟩ := hlater
    · exact finish n hfit hev ha (fun _ _ _ e' he' => by rw [hz] at he'; cases he')
    · have hpk : (s.pc t).putKey = none := by
        rcases hfit with hp | ⟨g, ctx, hp⟩ | ⟨inv, hp⟩ <;> rw [hp] <;> rfl
      have hup : ∀ g ctx, s.pc t ≠ .up g ctx := by
        intro g ctx hh
        rcases hfit with hp | ⟨g, ctx, hp⟩ | ⟨inv, hp⟩ <;> rw [hp] at hh <;> cases hh
      refine h.calm ht hcc hev (fun _ _ _ _ hh => by cases hh) ?_ (fun k b hh => by rw [show newPc c' (s.pc t) (.wait (.relHeld n)) = s.pc t from rfl, hpk] at hh; cases hh) ?_
      · exact ⟨hT.lim, hfit, fun m hh => Nat.lt_of_lt_of_le (hT.next m hh) hev.next, fun m _ hh => (by cases hh),
          fun _ _ _ _ hh => (by cases hh), fun g ctx hh => absurd hh (hup g ctx)⟩
      · intro m e' k _ _
        rw [hd]
        show Calm LB m e'.zombie (s.pc t) (.relLock n) (s.pc t) (.relHeld n)
        rcases hfit with hp | ⟨g, ctx, hp⟩ | ⟨inv, hp⟩ <;> rw [hp]
        · exact calm_of_zero ⟨rfl, rfl, rfl, rfl⟩ ⟨rfl, rfl⟩
        · exact ⟨Nat.le_refl _, Nat.le_refl _, fun _ => ⟨Nat.le_refl _, Nat.le_refl _⟩, fun _ => ⟨Nat.le_refl _, Nat.le_refl _⟩⟩
        · exact calm_of_zero ⟨rfl, rfl, rfl, rfl⟩ ⟨rfl, rfl⟩

/-- Every step keeps the invariant. -/
theorem GInv.step {sha : Bytes → Bytes} {mv : CmmMove} {s' : CmmConc} {ev : Option CmmEvent} (h : GInv LB LM K log s)
    (hLM : 1 ≤ LM) (hM : LM + K < 2 ^ 64)
    (hal : ∀ cmm env req, mv = .start cmm env req → cmm.limitBytes ≤ LB ∧ cmm.limitMessages ≤ LM)
    (hs : s.step sha t mv = some (.ok (s', ev))) (hf : FreshKeys (ev.toList ++ log)) : GInv LB LM K (ev.toList ++ log) s' := by
  have hnum := h.num
  cases mv with
  | start cmm env req =>
    simp only [CmmConc.step] at hs
    split at hs
    · next hc =>
      obtain ⟨h1, h2, h3⟩ := hc
      cases hg : Verif.genStart sha cmm env req with
      | error f => rw [hg] at hs; cases hs
      | ok x =>
        obtain ⟨p, ev'⟩ := x
        rw [hg] at hs
        simp only [CmmConc.local, Option.some.injEq, Except.ok.injEq, Prod.mk.injEq] at hs
        obtain ⟨rfl, rfl⟩ := hs
        rw [local_eq]
        exact h.genStart (by omega) h2 h3 (hal cmm env req rfl) hLM hg hf
    · cases hs
  | up =>
    simp only [CmmConc.step] at hs
    split at hs
    · next g ctx hp =>
      split at hs
      · next hlt =>
        cases hg : Verif.genUp g ctx with
        | error f => rw [hg] at hs; cases hs
        | ok x =>
          obtain ⟨p, ev'⟩ := x
          rw [hg] at hs
          simp only [CmmConc.local, Option.some.injEq, Except.ok.injEq, Prod.mk.injEq] at hs
          obtain ⟨rfl, rfl⟩ := hs
          rw [local_eq]
          exact h.genUp (by omega) hp hLM hg hf
      · cases hs
    · cases hs
  | call =>
    simp only [CmmConc.step] at hs
    cases hop : (s.pc t).op with
    | none => rw [hop] at hs; cases hs
    | some op =>
      rw [hop] at hs
      simp only at hs
      cases hc : s.conc.step t (.call op) with
      | none => rw [hc] at hs; cases hs
      | some r =>
        rw [hc] at hs
        rcases h.cc.step hc with ⟨s2, x, rfl, hcc, hk⟩ | ⟨n, h1, -⟩
        · cases hk with
          | @call op c' a ht hidle hon hl hst hev hlk hcap hnew =>
            rw [shared_eq] at hs
            cases hs
            exact h.startCall (by omega) hLM hop hidle hon hst hev hnew hcc
        · cases h1
  | go =>
    simp only [CmmConc.step] at hs
    cases hc : s.conc.step t .go with
    | none => rw [hc] at hs; cases hs
    | some r =>
      rw [hc] at hs
      rcases h.cc.step hc with ⟨s2, x, rfl, hcc, hk⟩ | ⟨n, -, -, -, -, h1⟩
      · cases hk with
        | @go c' a ht hidle hl hres hlater hcap hrl =>
          rw [shared_eq] at hs
          cases hs
          exact h.goStep (by omega) hM hlater hcc
      · subst h1; cases hs
  | other op =>
    simp only [CmmConc.step] at hs
    split at hs
    · next hcond =>
      have hpc : s.pc t = .idle := by
        have := hcond.1
        cases hp : s.pc t <;> rw [hp] at this <;> first | rfl | cases this
      cases hc : s.conc.step t (.call op) with
      | none => rw [hc] at hs; cases hs
      | some r =>
        rw [hc] at hs
        rcases h.cc.step hc with ⟨s2, x, rfl, hcc, hk⟩ | ⟨n, h1, -⟩
        · cases hk with
          | @call op c' a ht hidle hon hl hst hev hlk hcap hnew =>
            rw [shared_eq, hpc, (newPc_idle c' a).1, (newPc_idle c' a).2] at hs
            cases hs
            exact h.foreign (by omega) hpc hcond.2 hst hev rfl hcc
        · cases h1
    · cases hs

theorem GInv.new (addr : Nat → Nat) (cap : Nat) : GInv LB LM K [] (cmmConcNew addr cap K) := by
  refine ⟨rfl, .new addr cap K, ?_, ?_, ?_, ?_, ?_, ?_⟩
  · intro t _
    exact ⟨fun g hh => (by cases hh), trivial, fun n hh => (by cases hh), fun n hh => (by cases hh), fun _ _ _ hh => (by cases hh),
      fun _ _ hh => (by cases hh)⟩
  · intro n e k he; cases he
  · intro n m e f k he; cases he
  · intro t _ k b hh; cases hh
  · intro k; exact Nat.zero_le _
  · intro k _; exact .inl (Nat.zero_le _)

end

end Verif
