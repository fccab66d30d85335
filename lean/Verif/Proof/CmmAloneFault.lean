import Verif.Proof.CmmAlone
/-
Proofs for C116: a call of a caching CMM by a thread that is not interrupted runs into undefined behaviour as the call of the sequential model.
-/
namespace Verif.Proof.CmmAlone
open Verif Verif.Spec Verif.Proof

/-- A call of the cache that fails, without interruption. -/
inductive GoFail (t : Nat) (f : Fault) : Conc → Prop where
  | last {s} : s.step t .go = some (.error f) → GoFail t f s
  | more {s s1} : s.step t .go = some (.ok (s1, none)) → GoFail t f s1 → GoFail t f s

def CallFail (t : Nat) (op : CacheOp) (s : Conc) (f : Fault) : Prop :=
  s.step t (.call op) = some (.error f) ∨ ∃ s1, s.step t (.call op) = some (.ok (s1, none)) ∧ GoFail t f s1

theorem go_fail {s : Conc} {t : Nat} {c : Cache} {h : List Nat} {p : Pending} {f : Fault} (ht : t < s.num) (hp : p ≠ .idle)
    (hu : p.needsLock = true → (s.update t c ⟨h, p⟩).unlocked = true) (hr : resumeCall p c = .error f) :
    (s.update t c ⟨h, p⟩).step t .go = some (.error f) := by
  have hc : t < (s.update t c ⟨h, p⟩).num ∧ ((s.update t c ⟨h, p⟩).thr t).doing ≠ .idle ∧
      (((s.update t c ⟨h, p⟩).thr t).doing.needsLock = true → (s.update t c ⟨h, p⟩).unlocked = true) := by
    rw [update_thr]; exact ⟨ht, hp, hu⟩
  simp only [Conc.step]
  rw [if_pos hc, update_thr, show (s.update t c ⟨h, p⟩).cache = c from rfl]
  simp only [hr, Conc.finish]

theorem call_fail {s : Conc} {t : Nat} {c : Cache} {h : List Nat} {op : CacheOp} {f : Fault} (ht : t < s.num) (hu : s.unlocked = true)
    (hh : ∀ n, op.on = some n → n ∈ h) (hr : startCall op c = .error f) :
    (s.update t c ⟨h, .idle⟩).step t (.call op) = some (.error f) := by
  have hc : t < (s.update t c ⟨h, .idle⟩).num ∧ ((s.update t c ⟨h, .idle⟩).thr t).doing = .idle ∧
      (∀ n, op.on = some n → n ∈ ((s.update t c ⟨h, .idle⟩).thr t).held) ∧
      (op.locking = true → (s.update t c ⟨h, .idle⟩).unlocked = true) := by
    rw [update_thr]; exact ⟨ht, rfl, hh, fun _ => unlocked_update hu rfl⟩
  simp only [Conc.step]
  rw [if_pos hc, show (s.update t c ⟨h, .idle⟩).cache = c from rfl]
  simp only [hr, Conc.finish]

theorem callFail {s : Conc} {t : Nat} {c : Cache} {h : List Nat} {op : CacheOp} {f : Fault} (ht : t < s.num) (hu : s.unlocked = true)
    (hh : ∀ n, op.on = some n → n ∈ h) (hr : cacheCall op c = .error f) : CallFail t op (s.update t c ⟨h, .idle⟩) f := by
  have one : startCall op c = .error f → CallFail t op (s.update t c ⟨h, .idle⟩) f := fun hs => Or.inl (call_fail ht hu hh hs)
  cases op with
  | use n b m =>
    simp only [cacheCall, cacheUpdateUsage] at hr
    cases he : c.entry n with
    | error f' => rw [he] at hr; cases hr; exact one (by simp only [startCall, he])
    | ok e =>
      rw [he] at hr
      simp only at hr
      split at hr <;> cases hr
  | hint n x p =>
    simp only [cacheCall, cacheHint] at hr
    cases he : c.entry n with
    | error f' => rw [he] at hr; cases hr; exact one (by simp only [startCall, he])
    | ok e =>
      rw [he] at hr
      simp only at hr
      split at hr
      · cases hr
      · split at hr <;> cases hr
  | release n inv =>
    simp only [cacheCall, cacheRelease] at hr
    cases he : c.entry n with
    | error f' => rw [he] at hr; cases hr; exact one (by simp only [startCall, he])
    | ok e =>
      rw [he] at hr
      simp only at hr
      by_cases hz : inv = true ∧ e.zombie = false
      · rw [if_pos hz] at hr
        have h1 : startCall (.release n inv) c = .ok (c, .wait (.relLock n)) := by simp only [startCall, he]; rw [if_pos hz]
        refine Or.inr ⟨_, call_step ht hu hh h1, ?_⟩
        clear h1
        unfold lockedRelease at hr
        rw [he] at hr
        simp only at hr
        have bad : ∀ f', decref c n = .error f' →
            GoFail t f' (s.update t c ((Thread.mk h .idle).next (some (.release n inv)) (.wait (.relLock n)))) := by
          intro f' hd
          exact .last (go_fail (p := .relLock n) ht (by nofun) (fun _ => unlocked_update hu rfl) (by simp only [resumeCall, he, hd]))
        by_cases h0 : e.refcount = 0
        · rw [if_pos h0] at hr
          cases hr
          exact bad _ (by unfold decref; rw [he]; simp only; rw [if_pos h0])
        · rw [if_neg h0] at hr
          by_cases h1 : e.refcount = 1
          · rw [if_pos h1, hz.2] at hr
            cases hr
            exact bad _ (by unfold decref; rw [he]; simp only; rw [if_neg h0, if_pos h1, hz.2]; rfl)
          · rw [if_neg h1, if_pos hz] at hr
            have hd : decref c n = .ok (c.set n (some { e with refcount := e.refcount - 1 })) := by
              unfold decref
              rw [he]
              simp only
              rw [if_neg h0, if_neg h1]
            have h2 : resumeCall (.relLock n) c = .ok (c.set n (some { e with refcount := e.refcount - 1 }), .wait (.relHeld n)) := by
              simp only [resumeCall, he, hd]; rw [if_neg h1]
            refine .more (go_step (p := .relLock n) ht (by nofun) (fun _ => unlocked_update hu rfl) h2) ?_
            cases hi : invalidate (c.set n (some { e with refcount := e.refcount - 1 })) n false with
            | ok c2 => rw [hi] at hr; cases hr
            | error f' =>
              rw [hi] at hr
              cases hr
              refine .last (go_fail (p := .relHeld n) ht (by nofun) (by nofun) ?_)
              simp only [resumeCall, entry_set, hi]
              rw [hz.2]
              rfl
      · rw [if_neg hz] at hr
        have h1 : startCall (.release n inv) c = .ok (c, .wait (.relPlain n)) := by simp only [startCall, he]; rw [if_neg hz]
        refine Or.inr ⟨_, call_step ht hu hh h1, ?_⟩
        cases hd : decref c n with
        | ok c2 => rw [hd] at hr; cases hr
        | error f' =>
          rw [hd] at hr
          cases hr
          exact .last (go_fail (p := .relPlain n) ht (by nofun) (by nofun) (by simp only [resumeCall, hd]))
  | find clk id => exact one (by simp only [startCall, hr])
  | putEnc env id m b k ctx => exact one (by simp only [startCall, hr])
  | putDec env id m => exact one (by simp only [startCall, hr])
  | getEnc env n ctx => exact one (by simp only [startCall, hr])
  | getDec env n => exact one (by simp only [startCall, hr])
  | created n => exact one (by simp only [startCall, hr])
  | clear => exact one (by simp only [startCall, hr])
  | count => exact one (by simp only [startCall, hr])

/-- Thread `t` alone comes to undefined behaviour. -/
inductive Fails (sha : Bytes → Bytes) (t : Nat) (f : Fault) : CmmAll → Prop where
  | now {s mv} : s.step sha t mv = some (.error f) → Fails sha t f s
  | later {s mv s1 ev} : s.step sha t mv = some (.ok (s1, ev)) → Fails sha t f s1 → Fails sha t f s

theorem Alone.fails {sha : Bytes → Bytes} {t : Nat} {f : Fault} {s s1 : CmmAll} {l : List CmmEvent} (h : Alone sha t s l s1)
    (h2 : Fails sha t f s1) : Fails sha t f s := by
  induction h with
  | stop => exact h2
  | step hs _ _ ih => exact .later hs (ih h2)

theorem Fails.execution {sha : Bytes → Bytes} {t : Nat} {f : Fault} {s : CmmAll} (h : Fails sha t f s) :
    ∃ mvs : List AllMove, execution sha s (mvs.map (fun mv => (t, mv))) = some (.error f) := by
  induction h with
  | @now s mv hs => exact ⟨[mv], by simp only [List.map_cons, Spec.execution, hs]⟩
  | @later s mv s1 ev hs _ ih =>
    obtain ⟨mvs, hm⟩ := ih
    exact ⟨mv :: mvs, by simp only [List.map_cons, Spec.execution, hs, hm]⟩

theorem goFail_base {sha : Bytes → Bytes} {t : Nat} {k : Conc} {f : Fault} {p : Nat → Pc} {g : Nat → DPc} (hg : (g t).isIdle = true)
    (h : GoFail t f k) : Fails sha t f ⟨⟨k, p⟩, g⟩ := by
  induction h with
  | last hs =>
    refine .now (mv := .go) ?_
    simp only [CmmAll.step]
    rw [if_pos hg]
    simp only [CmmConc.step, hs, CmmConc.shared, CmmAll.lift]
  | @more k k1 hs _ ih =>
    refine Fails.later (mv := .go) (s1 := ⟨⟨k1, p⟩, g⟩) (ev := none) ?_ ih
    simp only [CmmAll.step]
    rw [if_pos hg]
    simp only [CmmConc.step, hs, CmmConc.shared, CmmAll.lift]

theorem goFail_dec {sha : Bytes → Bytes} {t : Nat} {k : Conc} {f : Fault} {p : Nat → Pc} {g : Nat → DPc} (hg : ¬ (g t).isIdle = true)
    (h : GoFail t f k) : Fails sha t f ⟨⟨k, p⟩, g⟩ := by
  induction h with
  | last hs =>
    refine .now (mv := .go) ?_
    simp only [CmmAll.step]
    rw [if_neg hg]
    simp only [hs, CmmAll.shared]
  | @more k k1 hs _ ih =>
    refine Fails.later (mv := .go) (s1 := ⟨⟨k1, p⟩, g⟩) (ev := none) ?_ ih
    simp only [CmmAll.step]
    rw [if_neg hg]
    simp only [hs, CmmAll.shared]

variable {sha : Bytes → Bytes} {s : CmmAll} {t : Nat} {f : Fault}

section
variable (ht : t < s.base.conc.num) (hu : s.base.conc.unlocked = true)
include ht hu

theorem genFail {c : Cache} {h : List Nat} {p : Pc} {op : CacheOp} (ho : p.op = some op) (hh : ∀ n, op.on = some n → n ∈ h)
    (hr : cacheCall op c = .error f) : Fails sha t f (place s t c h p .idle) := by
  have hp : (place s t c h p .idle).base.pc t = p := by simp only [place, if_true]
  have hd : ((place s t c h p .idle).dpc t).isIdle = true := by simp only [place, if_true]; rfl
  rcases callFail (s := s.base.conc) ht hu hh hr with h1 | ⟨k, h1, h2⟩
  · refine .now (mv := .call) ?_
    simp only [CmmAll.step]
    rw [if_pos hd]
    simp only [CmmConc.step, hp, ho]
    rw [show (place s t c h p .idle).base.conc = s.base.conc.update t c ⟨h, .idle⟩ from rfl, h1]
    rfl
  · refine .later (mv := .call) (ev := none) ?_ (goFail_base (p := (place s t c h p .idle).base.pc) hd h2)
    simp only [CmmAll.step]
    rw [if_pos hd]
    simp only [CmmConc.step, hp, ho]
    rw [show (place s t c h p .idle).base.conc = s.base.conc.update t c ⟨h, .idle⟩ from rfl, h1]
    rfl

theorem decFail {c : Cache} {h : List Nat} {d : DPc} {op : CacheOp} (ho : d.op = some op) (hh : ∀ n, op.on = some n → n ∈ h)
    (hr : cacheCall op c = .error f) : Fails sha t f (place s t c h .idle d) := by
  have hp : (place s t c h .idle d).dpc t = d := by simp only [place, if_true]
  have hi : ¬ d.isIdle = true := by
    intro hi
    cases d <;> first | (exact absurd hi (by decide)) | (exact absurd hi Bool.false_ne_true) | cases ho
  rcases callFail (s := s.base.conc) ht hu hh hr with h1 | ⟨k, h1, h2⟩
  · refine .now (mv := .call) ?_
    simp only [CmmAll.step, hp]
    rw [if_neg hi]
    simp only [ho]
    rw [show (place s t c h .idle d).base.conc = s.base.conc.update t c ⟨h, .idle⟩ from rfl, h1]
    rfl
  · refine .later (mv := .call) (ev := none) ?_ (goFail_dec (p := (place s t c h .idle d).base.pc) (g := (place s t c h .idle d).dpc)
      (by rw [hp]; exact hi) h2)
    simp only [CmmAll.step, hp]
    rw [if_neg hi]
    simp only [ho]
    rw [show (place s t c h .idle d).base.conc = s.base.conc.update t c ⟨h, .idle⟩ from rfl, h1]
    rfl

/-! #### `generate_enc_materials` -/

theorem gen_release_f {c : Cache} {h : List Nat} {p : Pc} {n : Nat} {inv : Bool} (ho : p.op = some (.release n inv))
    (hr : cacheRelease n inv c = .error f) : Fails sha t f (place s t c (n :: h) p .idle) :=
  genFail ht hu ho (by intro m hm; cases hm; exact .head _) (by simp only [cacheCall, hr]; rfl)

theorem gen_drop_f {c : Cache} {h : List Nat} {g : GenCall} {n : Nat} {ctx : EncCtx} (hr : dropEntry n ctx c = .error f) :
    Fails sha t f (place s t c (n :: h) (.drop g n ctx) .idle) := by
  unfold dropEntry at hr
  cases hk : cacheRelease n true c with
  | error f' => rw [hk] at hr; cases hr; exact gen_release_f ht hu rfl hk
  | ok c1 => rw [hk] at hr; cases hr

theorem gen_use_f {c : Cache} {h : List Nat} {g : GenCall} {n bytes messages : Nat}
    (hr : genUse g.cmm g.env n bytes messages g.req.encCtx c = .error f) :
    Fails sha t f (place s t c (n :: h) (if bytes > g.cmm.limitBytes ∨ messages > g.cmm.limitMessages then .drop g n g.req.encCtx
      else .get g n bytes messages) .idle) := by
  unfold genUse at hr
  by_cases hl : bytes > g.cmm.limitBytes ∨ messages > g.cmm.limitMessages
  · rw [if_pos hl] at hr ⊢
    exact gen_drop_f ht hu hr
  · rw [if_neg hl] at hr ⊢
    have hh : ∀ m, (CacheOp.getEnc g.env.get n g.req.encCtx).on = some m → m ∈ n :: h := by intro m hm; cases hm; exact .head _
    cases hg : cacheGetEnc g.env.get n g.req.encCtx c with
    | error f' => rw [hg] at hr; cases hr; exact genFail ht hu (p := .get g n bytes messages) rfl hh (by simp only [cacheCall, hg]; rfl)
    | ok r =>
      obtain ⟨ctx1, r⟩ := r
      rw [hg] at hr
      have hc : cacheCall (.getEnc g.env.get n g.req.encCtx) c = .ok (c, .encMaterials ctx1 r) := by simp only [cacheCall, hg]; rfl
      cases r with
      | error e =>
        exact (genCall (sha := sha) ht hu (p := .get g n bytes messages) rfl hh hc (ev := none) rfl).fails (gen_drop_f ht hu hr)
      | ok m =>
        simp only at hr
        cases hk : cacheRelease n (decide (messages = g.cmm.limitMessages)) c with
        | ok c1 => rw [hk] at hr; cases hr
        | error f' =>
          rw [hk] at hr
          cases hr
          exact (genCall (sha := sha) ht hu (p := .get g n bytes messages) rfl hh hc rfl).fails (gen_release_f ht hu rfl hk)

theorem gen_ttl_f {c : Cache} {h : List Nat} {g : GenCall} {n : Nat}
    (hr : checkTtl g.cmm g.env.clkTtl g.env.pushHit n c = .error f) :
    Fails sha t f (place s t c (n :: h) (if g.cmm.ttl = 2 ^ 64 - 1 then .use g n else .created g n) .idle) := by
  unfold checkTtl at hr
  by_cases hl : g.cmm.ttl = 2 ^ 64 - 1
  · rw [if_pos hl] at hr; cases hr
  · rw [if_neg hl] at hr ⊢
    cases hc : cacheCreation n c with
    | error f' =>
      rw [hc] at hr
      cases hr
      exact genFail ht hu (p := .created g n) rfl (by intro m hm; cases hm; exact .head _) (by simp only [cacheCall, hc]; rfl)
    | ok x =>
      rw [hc] at hr
      simp only at hr
      have h1 := genCall (sha := sha) ht hu (c := c) (h := n :: h) (p := .created g n) (op := .created n) (r := .time x) rfl
        (by intro m hm; cases hm; exact .head _) (by simp only [cacheCall, hc]; rfl) (p' := afterCreated g n x) (ev := none) rfl
      refine h1.fails ?_
      rw [show handlesAfter (.created n) (.time x) (n :: h) = n :: h from rfl]
      unfold afterCreated
      by_cases hw : u64 (x + g.cmm.ttl) < x
      · rw [if_pos hw] at hr; cases hr
      · rw [if_neg hw] at hr ⊢
        cases hk : g.env.clkTtl with
        | none => rw [hk] at hr; cases hr
        | some now =>
          rw [hk] at hr
          simp only at hr ⊢
          by_cases hn : now ≥ u64 (x + g.cmm.ttl)
          · rw [if_pos hn] at hr; cases hr
          · rw [if_neg hn] at hr ⊢
            cases hi : cacheHint n (u64 (x + g.cmm.ttl)) g.env.pushHit c with
            | ok c1 => rw [hi] at hr; cases hr
            | error f' =>
              rw [hi] at hr
              cases hr
              exact genFail ht hu (p := .hint g n (u64 (x + g.cmm.ttl))) rfl (by intro m hm; cases hm; exact .head _)
                (by simp only [cacheCall, hi]; rfl)

theorem gen_try_f {c : Cache} {h : List Nat} {g : GenCall} (hr : genTry g.cmm g.env g.id g.req c = .error f) :
    Fails sha t f (place s t c h (.find g) .idle) := by
  unfold genTry at hr
  cases hf : cacheFind g.env.clkFind g.id c with
  | error f' => rw [hf] at hr; cases hr; exact genFail ht hu (p := .find g) rfl (by nofun) (by simp only [cacheCall, hf]; rfl)
  | ok r =>
    obtain ⟨c1, on⟩ := r
    rw [hf] at hr
    have hc : cacheCall (.find g.env.clkFind g.id) c = .ok (c1, .handle on) := by simp only [cacheCall, hf]; rfl
    have h1 := genCall (sha := sha) ht hu (h := h) (p := .find g) rfl (by nofun) hc rfl
    cases on with
    | none => cases hr
    | some n =>
      simp only at hr
      refine h1.fails ?_
      clear h1
      rw [show handlesAfter (.find g.env.clkFind g.id) (.handle (some n)) h = n :: h from rfl]
      show Fails sha t f (place s t c1 (n :: h) (if c1.isEncrypt n = false then .drop g n g.req.encCtx
        else if g.cmm.ttl = 2 ^ 64 - 1 then .use g n else .created g n) .idle)
      cases he : c1.entry n with
      | error f' =>
        rw [he] at hr
        cases hr
        have hn : c1.isEncrypt n = false := by
          unfold Cache.entry at he
          unfold Cache.isEncrypt
          cases hm : c1.mem n with
          | none => rfl
          | some e => rw [hm] at he; cases he
        rw [if_pos hn]
        exact gen_release_f ht hu rfl (by unfold cacheRelease; rw [he])
      | ok e =>
        rw [he] at hr
        simp only at hr
        rw [isEncrypt_entry he]
        cases hi : e.isEncrypt with
        | false =>
          rw [hi] at hr
          simp only [Bool.not_false, if_true] at hr ⊢
          exact gen_drop_f ht hu hr
        | true =>
          rw [hi] at hr
          rw [if_neg (by nofun)] at hr ⊢
          cases hl : checkTtl g.cmm g.env.clkTtl g.env.pushHit n c1 with
          | error f' => rw [hl] at hr; cases hr; exact gen_ttl_f ht hu hl
          | ok r =>
            obtain ⟨c2, b⟩ := r
            rw [hl] at hr
            refine (gen_ttl ht hu hl).fails ?_
            cases b with
            | false => exact gen_drop_f ht hu hr
            | true =>
              simp only at hr
              rw [if_pos rfl]
              have hh : ∀ m, (CacheOp.use n g.req.plaintextSize 1).on = some m → m ∈ n :: h := by intro m hm; cases hm; exact .head _
              cases hk : cacheUpdateUsage n g.req.plaintextSize 1 c2 with
              | error f' =>
                rw [hk] at hr
                cases hr
                exact genFail ht hu (p := .use g n) rfl hh (by simp only [cacheCall, hk]; rfl)
              | ok r =>
                obtain ⟨c3, r⟩ := r
                rw [hk] at hr
                have hc : cacheCall (.use n g.req.plaintextSize 1) c2 = .ok (c3, .usage r) := by simp only [cacheCall, hk]; rfl
                cases r with
                | error x => exact (genCall (sha := sha) ht hu (p := .use g n) rfl hh hc (ev := none) rfl).fails (gen_drop_f ht hu hr)
                | ok x => exact (genCall (sha := sha) ht hu (p := .use g n) rfl hh hc (ev := none) rfl).fails (gen_use_f ht hu hr)

theorem gen_ttlMiss_f {c : Cache} {h : List Nat} {g : GenCall} {n : Nat} (hr : setTtlOnMiss g.cmm g.env.pushMiss n c = .error f) :
    Fails sha t f (place s t c (n :: h) (if g.cmm.ttl = 2 ^ 64 - 1 then .fin n false else .createdMiss g n) .idle) := by
  unfold setTtlOnMiss at hr
  by_cases hl : g.cmm.ttl = 2 ^ 64 - 1
  · rw [if_pos hl] at hr; cases hr
  · rw [if_neg hl] at hr ⊢
    cases hc : cacheCreation n c with
    | error f' =>
      rw [hc] at hr
      cases hr
      exact genFail ht hu (p := .createdMiss g n) rfl (by intro m hm; cases hm; exact .head _) (by simp only [cacheCall, hc]; rfl)
    | ok x =>
      rw [hc] at hr
      simp only at hr
      have h1 := genCall (sha := sha) ht hu (c := c) (h := n :: h) (p := .createdMiss g n) (op := .created n) (r := .time x) rfl
        (by intro m hm; cases hm; exact .head _) (by simp only [cacheCall, hc]; rfl) (ev := none) rfl
      refine h1.fails ?_
      rw [show handlesAfter (.created n) (.time x) (n :: h) = n :: h from rfl]
      by_cases hw : u64 (x + g.cmm.ttl) > x
      · rw [if_pos hw] at hr ⊢
        exact genFail ht hu (p := .hintMiss g n (u64 (x + g.cmm.ttl))) rfl (by intro m hm; cases hm; exact .head _)
          (by simp only [cacheCall, hr]; rfl)
      · rw [if_neg hw] at hr; cases hr

omit hu in
theorem gen_up_f {c : Cache} {h : List Nat} {g : GenCall} {ctx : EncCtx} (hg : genUp g ctx = .error f) :
    Fails sha t f (place s t c h (.up g ctx) .idle) := by
  refine .now (mv := .up) ?_
  simp only [CmmAll.step]
  rw [show (place s t c h (.up g ctx) .idle).dpc t = .idle by simp only [place, if_true]]
  simp only [CmmConc.step]
  rw [show (place s t c h (.up g ctx) .idle).base.pc t = .up g ctx by simp only [place, if_true]]
  simp only
  rw [if_pos (show t < (place s t c h (.up g ctx) .idle).base.conc.num from ht), hg]
  rfl

theorem gen_miss_f {c : Cache} {h : List Nat} {g : GenCall} {ctx : EncCtx} (hr : genMiss g.cmm g.env g.id g.req ctx c = .error f) :
    Fails sha t f (place s t c h (.up g ctx) .idle) := by
  unfold genMiss at hr
  cases hup : g.env.up { g.req with encCtx := ctx } with
  | mk ctx1 r =>
    rw [hup] at hr
    cases r with
    | error e => cases hr
    | ok m =>
      simp only [genStore] at hr
      cases hcan : canCache m.alg with
      | error f' => rw [hcan] at hr; cases hr; exact gen_up_f ht (by simp only [genUp, hup, hcan])
      | ok b =>
        rw [hcan] at hr
        have h1 := gen_up (sha := sha) ht hu (c := c) (h := h) (g := g) (ctx := ctx) (by simp only [genUp, hup, hcan]; rfl)
        cases b with
        | false => cases hr
        | true =>
          simp only at hr
          refine h1.fails ?_
          show Fails sha t f (place s t c h (.put g ctx1 m) .idle)
          cases hp : cachePutEnc g.env.put g.id m g.req.plaintextSize 1 ctx1 c with
          | error f' => rw [hp] at hr; cases hr; exact genFail ht hu (p := .put g ctx1 m) rfl (by nofun) (by simp only [cacheCall, hp]; rfl)
          | ok r =>
            obtain ⟨c1, on⟩ := r
            rw [hp] at hr
            have h2 := genCall (sha := sha) ht hu (c := c) (c' := c1) (h := h) (p := .put g ctx1 m) (r := .handle on) rfl (by nofun)
              (by simp only [cacheCall, hp]; rfl) rfl
            cases on with
            | none => cases hr
            | some n =>
              simp only at hr
              cases hl : setTtlOnMiss g.cmm g.env.pushMiss n c1 with
              | error f' => rw [hl] at hr; cases hr; exact h2.fails (gen_ttlMiss_f ht hu hl)
              | ok c2 =>
                rw [hl] at hr
                simp only at hr
                cases hk : cacheRelease n false c2 with
                | ok c3 => rw [hk] at hr; cases hr
                | error f' =>
                  rw [hk] at hr
                  cases hr
                  exact (h2.nil_trans (gen_ttlMiss ht hu hl)).fails (gen_release_f ht hu rfl hk)

omit hu in
theorem gen_start_f {c : Cache} {h : List Nat} {cmm : CachingCmm} {env : GenEnv} {req : EncRequest} (hg : genStart sha cmm env req = .error f) :
    (place s t c h .idle .idle).step sha t (.gen cmm env req) = some (.error f) := by
  simp only [CmmAll.step]
  rw [show (place s t c h .idle .idle).dpc t = .idle by simp only [place, if_true], if_pos (show DPc.idle.isIdle = true from rfl)]
  simp only [CmmConc.step]
  rw [if_pos ⟨show t < (place s t c h .idle .idle).base.conc.num from ht,
    by rw [show (place s t c h .idle .idle).base.conc.thr t = ⟨h, .idle⟩ from update_thr _ _ _ _],
    by rw [show (place s t c h .idle .idle).base.pc t = .idle by simp only [place, if_true]]; rfl⟩, hg]
  rfl

/-- A step of thread `t` that fails, or after which it fails. -/
def BegunFails (sha : Bytes → Bytes) (t : Nat) (f : Fault) (mv : AllMove) (s : CmmAll) : Prop :=
  s.step sha t mv = some (.error f) ∨ ∃ s1 ev, s.step sha t mv = some (.ok (s1, ev)) ∧ Fails sha t f s1

omit ht hu in
theorem BegunFails.execution {mv : AllMove} (h : BegunFails sha t f mv s) :
    ∃ mvs : List AllMove, execution sha s ((mv :: mvs).map (fun mv => (t, mv))) = some (.error f) := by
  rcases h with h | ⟨s1, ev, h, h2⟩
  · exact ⟨[], by simp only [List.map_cons, Spec.execution, h]⟩
  · obtain ⟨mvs, hm⟩ := h2.execution
    exact ⟨mvs, by simp only [List.map_cons, Spec.execution, h, hm]⟩

theorem gen_fails {c : Cache} {h : List Nat} {cmm : CachingCmm} {env : GenEnv} {req : EncRequest}
    (hr : cachingGenerate sha cmm env req c = .error f) : BegunFails sha t f (.gen cmm env req) (place s t c h .idle .idle) := by
  have cached : genCached sha cmm env req c = .error f → (genStart sha cmm env req = .ok
      (match hashEnc sha env.ids cmm.partition req with
      | .error e => (.idle, some (.gen cmm env req ⟨req.encCtx, .error e, false⟩))
      | .ok id => (.find ⟨cmm, env, req, id⟩, none))) → BegunFails sha t f (.gen cmm env req) (place s t c h .idle .idle) := by
    intro hr hs
    unfold genCached at hr
    cases hh : hashEnc sha env.ids cmm.partition req with
    | error e => rw [hh] at hr; cases hr
    | ok id =>
      rw [hh] at hr hs
      simp only at hr
      refine Or.inr ⟨_, _, gen_start ht hu hs, ?_⟩
      cases hy : genTry cmm env id req c with
      | error f' => rw [hy] at hr; cases hr; exact gen_try_f ht hu (g := ⟨cmm, env, req, id⟩) hy
      | ok r =>
        obtain ⟨c1, ctx, om⟩ := r
        rw [hy] at hr
        have h1 := gen_try (sha := sha) ht hu (h := h) (g := ⟨cmm, env, req, id⟩) hy
        cases om with
        | some m => cases hr
        | none => exact h1.fails (gen_miss_f ht hu (g := ⟨cmm, env, req, id⟩) hr)
  unfold cachingGenerate at hr
  by_cases h1 : req.plaintextSize > cmm.limitBytes
  · rw [if_pos h1] at hr; cases hr
  · rw [if_neg h1] at hr
    by_cases h2 : req.requestedAlg = 0
    · rw [if_pos h2] at hr
      exact cached hr (by unfold genStart; simp only; rw [if_neg h1, if_pos h2]; cases hashEnc sha env.ids cmm.partition req <;> rfl)
    · rw [if_neg h2] at hr
      cases hcan : canCache req.requestedAlg with
      | error f' =>
        rw [hcan] at hr
        cases hr
        exact Or.inl (gen_start_f ht (by unfold genStart; simp only; rw [if_neg h1, if_neg h2, hcan]))
      | ok b =>
        rw [hcan] at hr
        cases b with
        | false => cases hr
        | true =>
          exact cached hr (by
            unfold genStart; simp only; rw [if_neg h1, if_neg h2, hcan]; cases hashEnc sha env.ids cmm.partition req <;> rfl)

/-! #### `decrypt_materials` -/

theorem dec_release_f {c : Cache} {h : List Nat} {d : DPc} {n : Nat} {inv : Bool} (ho : d.op = some (.release n inv))
    (hr : cacheRelease n inv c = .error f) : Fails sha t f (place s t c (n :: h) .idle d) :=
  decFail ht hu ho (by intro m hm; cases hm; exact .head _) (by simp only [cacheCall, hr]; rfl)

theorem dec_drop_f {c : Cache} {h : List Nat} {g : DecCall} {n : Nat} (hr : dropDec n c = .error f) :
    Fails sha t f (place s t c (n :: h) .idle (.drop g n)) := by
  unfold dropDec at hr
  cases hk : cacheRelease n true c with
  | error f' => rw [hk] at hr; cases hr; exact dec_release_f ht hu rfl hk
  | ok c1 => rw [hk] at hr; cases hr

theorem dec_use_f {c : Cache} {h : List Nat} {g : DecCall} {n : Nat} (hr : decUse g.env n c = .error f) :
    Fails sha t f (place s t c (n :: h) .idle (.get g n)) := by
  unfold decUse at hr
  have hh : ∀ m, (CacheOp.getDec g.env.get n).on = some m → m ∈ n :: h := by intro m hm; cases hm; exact .head _
  cases hg : cacheGetDec g.env.get n c with
  | error f' => rw [hg] at hr; cases hr; exact decFail ht hu (d := .get g n) rfl hh (by simp only [cacheCall, hg]; rfl)
  | ok r =>
    rw [hg] at hr
    have hc : cacheCall (.getDec g.env.get n) c = .ok (c, .decMaterials r) := by simp only [cacheCall, hg]; rfl
    cases r with
    | error e => exact (decCall (sha := sha) ht hu (d := .get g n) rfl hh hc (ev := none) rfl).fails (dec_drop_f ht hu hr)
    | ok m =>
      simp only at hr
      cases hk : cacheRelease n false c with
      | ok c1 => rw [hk] at hr; cases hr
      | error f' =>
        rw [hk] at hr
        cases hr
        exact (decCall (sha := sha) ht hu (d := .get g n) rfl hh hc rfl).fails (dec_release_f ht hu rfl hk)

theorem dec_ttl_f {c : Cache} {h : List Nat} {g : DecCall} {n : Nat}
    (hr : checkTtl g.cmm g.env.clkTtl g.env.pushHit n c = .error f) :
    Fails sha t f (place s t c (n :: h) .idle (if g.cmm.ttl = 2 ^ 64 - 1 then .get g n else .created g n)) := by
  unfold checkTtl at hr
  by_cases hl : g.cmm.ttl = 2 ^ 64 - 1
  · rw [if_pos hl] at hr; cases hr
  · rw [if_neg hl] at hr ⊢
    cases hc : cacheCreation n c with
    | error f' =>
      rw [hc] at hr
      cases hr
      exact decFail ht hu (d := .created g n) rfl (by intro m hm; cases hm; exact .head _) (by simp only [cacheCall, hc]; rfl)
    | ok x =>
      rw [hc] at hr
      simp only at hr
      have h1 := decCall (sha := sha) ht hu (c := c) (h := n :: h) (d := .created g n) (op := .created n) (r := .time x) rfl
        (by intro m hm; cases hm; exact .head _) (by simp only [cacheCall, hc]; rfl) (d' := decAfterCreated g n x) (ev := none) rfl
      refine h1.fails ?_
      rw [show handlesAfter (.created n) (.time x) (n :: h) = n :: h from rfl]
      unfold decAfterCreated
      by_cases hw : u64 (x + g.cmm.ttl) < x
      · rw [if_pos hw] at hr; cases hr
      · rw [if_neg hw] at hr ⊢
        cases hk : g.env.clkTtl with
        | none => rw [hk] at hr; cases hr
        | some now =>
          rw [hk] at hr
          simp only at hr ⊢
          by_cases hn : now ≥ u64 (x + g.cmm.ttl)
          · rw [if_pos hn] at hr; cases hr
          · rw [if_neg hn] at hr ⊢
            cases hi : cacheHint n (u64 (x + g.cmm.ttl)) g.env.pushHit c with
            | ok c1 => rw [hi] at hr; cases hr
            | error f' =>
              rw [hi] at hr
              cases hr
              exact decFail ht hu (d := .hint g n (u64 (x + g.cmm.ttl))) rfl (by intro m hm; cases hm; exact .head _)
                (by simp only [cacheCall, hi]; rfl)

theorem dec_try_f {c : Cache} {h : List Nat} {g : DecCall} (hr : decTry g.cmm g.env g.id c = .error f) :
    Fails sha t f (place s t c h .idle (.find g)) := by
  unfold decTry at hr
  cases hf : cacheFind g.env.clkFind g.id c with
  | error f' => rw [hf] at hr; cases hr; exact decFail ht hu (d := .find g) rfl (by nofun) (by simp only [cacheCall, hf]; rfl)
  | ok r =>
    obtain ⟨c1, on⟩ := r
    rw [hf] at hr
    have hc : cacheCall (.find g.env.clkFind g.id) c = .ok (c1, .handle on) := by simp only [cacheCall, hf]; rfl
    have h1 := decCall (sha := sha) ht hu (h := h) (d := .find g) rfl (by nofun) hc rfl
    cases on with
    | none => cases hr
    | some n =>
      simp only at hr
      refine h1.fails ?_
      clear h1
      rw [show handlesAfter (.find g.env.clkFind g.id) (.handle (some n)) h = n :: h from rfl]
      show Fails sha t f (place s t c1 (n :: h) .idle (if c1.isEncrypt n = true then .drop g n
        else if g.cmm.ttl = 2 ^ 64 - 1 then .get g n else .created g n))
      cases he : c1.entry n with
      | error f' =>
        rw [he] at hr
        cases hr
        have hn : ¬ c1.isEncrypt n = true := by
          unfold Cache.entry at he
          unfold Cache.isEncrypt
          cases hm : c1.mem n with
          | none => nofun
          | some e => rw [hm] at he; cases he
        rw [if_neg hn]
        by_cases hl : g.cmm.ttl = 2 ^ 64 - 1
        · rw [if_pos hl]
          exact decFail ht hu (d := .get g n) rfl (by intro m hm; cases hm; exact .head _)
            (by simp only [cacheCall, cacheGetDec, he]; rfl)
        · rw [if_neg hl]
          exact decFail ht hu (d := .created g n) rfl (by intro m hm; cases hm; exact .head _)
            (by simp only [cacheCall, cacheCreation, he]; rfl)
      | ok e =>
        rw [he] at hr
        simp only at hr
        rw [isEncrypt_entry he]
        by_cases hi : e.isEncrypt = true
        · rw [if_pos hi] at hr ⊢
          exact dec_drop_f ht hu hr
        · rw [if_neg hi] at hr ⊢
          cases hl : checkTtl g.cmm g.env.clkTtl g.env.pushHit n c1 with
          | error f' => rw [hl] at hr; cases hr; exact dec_ttl_f ht hu hl
          | ok r =>
            obtain ⟨c2, b⟩ := r
            rw [hl] at hr
            refine (dec_ttl ht hu hl).fails ?_
            cases b with
            | false => exact dec_drop_f ht hu hr
            | true => exact dec_use_f ht hu hr

theorem dec_ttlMiss_f {c : Cache} {h : List Nat} {g : DecCall} {n : Nat} (hr : setTtlOnMiss g.cmm g.env.pushMiss n c = .error f) :
    Fails sha t f (place s t c (n :: h) .idle (if g.cmm.ttl = 2 ^ 64 - 1 then .fin n else .createdMiss g n)) := by
  unfold setTtlOnMiss at hr
  by_cases hl : g.cmm.ttl = 2 ^ 64 - 1
  · rw [if_pos hl] at hr; cases hr
  · rw [if_neg hl] at hr ⊢
    cases hc : cacheCreation n c with
    | error f' =>
      rw [hc] at hr
      cases hr
      exact decFail ht hu (d := .createdMiss g n) rfl (by intro m hm; cases hm; exact .head _) (by simp only [cacheCall, hc]; rfl)
    | ok x =>
      rw [hc] at hr
      simp only at hr
      have h1 := decCall (sha := sha) ht hu (c := c) (h := n :: h) (d := .createdMiss g n) (op := .created n) (r := .time x) rfl
        (by intro m hm; cases hm; exact .head _) (by simp only [cacheCall, hc]; rfl) (ev := none) rfl
      refine h1.fails ?_
      rw [show handlesAfter (.created n) (.time x) (n :: h) = n :: h from rfl]
      by_cases hw : u64 (x + g.cmm.ttl) > x
      · rw [if_pos hw] at hr ⊢
        exact decFail ht hu (d := .hintMiss g n (u64 (x + g.cmm.ttl))) rfl (by intro m hm; cases hm; exact .head _)
          (by simp only [cacheCall, hr]; rfl)
      · rw [if_neg hw] at hr; cases hr

theorem dec_fails {c : Cache} {h : List Nat} {cmm : CachingCmm} {env : DecEnv} {req : DecRequest}
    (hr : cachingDecrypt sha cmm env req c = .error f) : BegunFails sha t f (.dec cmm env req) (place s t c h .idle .idle) := by
  have bad : ∀ f', decStart sha cmm env req = .error f' → BegunFails sha t f' (.dec cmm env req) (place s t c h .idle .idle) := by
    intro f' h0
    refine Or.inl ?_
    simp only [CmmAll.step]
    rw [if_pos ⟨show t < (place s t c h .idle .idle).base.conc.num from ht,
      by rw [show (place s t c h .idle .idle).base.conc.thr t = ⟨h, .idle⟩ from update_thr _ _ _ _],
      by rw [show (place s t c h .idle .idle).base.pc t = .idle by simp only [place, if_true]]; rfl,
      by rw [show (place s t c h .idle .idle).dpc t = .idle by simp only [place, if_true]]; rfl⟩, h0]
    rfl
  unfold cachingDecrypt at hr
  cases hcan : canCache req.alg with
  | error f' => rw [hcan] at hr; cases hr; exact bad _ (by unfold decStart; rw [hcan])
  | ok b =>
    rw [hcan] at hr
    cases b with
    | false => cases hr
    | true =>
      simp only [decCached] at hr
      cases hh : hashDec sha env.ids cmm.partition req with
      | error f' => rw [hh] at hr; cases hr; exact bad _ (by unfold decStart; rw [hcan, hh])
      | ok r =>
        rw [hh] at hr
        cases r with
        | error e => cases hr
        | ok id =>
          simp only at hr
          have h0 : decStart sha cmm env req = .ok (.find ⟨cmm, env, req, id⟩, none) := by unfold decStart; rw [hcan, hh]
          refine Or.inr ⟨_, _, dec_start ht hu h0, ?_⟩
          cases hy : decTry cmm env id c with
          | error f' => rw [hy] at hr; cases hr; exact dec_try_f ht hu (g := ⟨cmm, env, req, id⟩) hy
          | ok r =>
            obtain ⟨c1, om⟩ := r
            rw [hy] at hr
            have h1 := dec_try (sha := sha) ht hu (h := h) (g := ⟨cmm, env, req, id⟩) hy
            cases om with
            | some m => cases hr
            | none =>
              simp only at hr
              refine h1.fails ?_
              clear h1
              cases hup : env.up req with
              | error e => rw [hup] at hr; cases hr
              | ok m =>
                rw [hup] at hr
                simp only [decStore] at hr
                have h1 := dec_up (sha := sha) ht hu (c := c1) (h := h) (g := ⟨cmm, env, req, id⟩) (d := .put ⟨cmm, env, req, id⟩ m)
                  (ev := some (.dec cmm env req ⟨.ok m, true⟩)) (by unfold decUp; simp only [hup])
                refine h1.fails ?_
                cases hp : cachePutDec env.put id m c1 with
                | error f' =>
                  rw [hp] at hr
                  cases hr
                  exact decFail ht hu (d := .put ⟨cmm, env, req, id⟩ m) rfl (by nofun) (by simp only [cacheCall, hp]; rfl)
                | ok r =>
                  obtain ⟨c2, on⟩ := r
                  rw [hp] at hr
                  have h2 := decCall (sha := sha) ht hu (c := c1) (c' := c2) (h := h) (d := .put ⟨cmm, env, req, id⟩ m) (r := .handle on) rfl
                    (by nofun) (by simp only [cacheCall, hp]; rfl) rfl
                  cases on with
                  | none => cases hr
                  | some n =>
                    simp only at hr
                    cases hl : setTtlOnMiss cmm env.pushMiss n c2 with
                    | error f' => rw [hl] at hr; cases hr; exact h2.fails (dec_ttlMiss_f ht hu (g := ⟨cmm, env, req, id⟩) hl)
                    | ok c3 =>
                      rw [hl] at hr
                      simp only at hr
                      cases hk : cacheRelease n false c3 with
                      | ok c4 => rw [hk] at hr; cases hr
                      | error f' =>
                        rw [hk] at hr
                        cases hr
                        exact (h2.nil_trans (dec_ttlMiss ht hu (g := ⟨cmm, env, req, id⟩) hl)).fails (dec_release_f ht hu rfl hk)

end
end Verif.Proof.CmmAlone
