import Verif.Proof.CacheSwap
import Verif.Spec.CacheSwapThreads
/-
Proofs for C115: each step of a thread commutes with a replacement of what is cached.
-/
namespace Verif.Proof
open Verif Verif.Spec

variable (w : Swap)

/-- The state after a step of a call of the cache, with the replacement. -/
def swapAfter (w : Swap) : After → After
  | .wait p => .wait p
  | .ret r => .ret (w.result r)

theorem cacheCall_swap (op : CacheOp) (c : Cache) :
    cacheCall (w.op op) (w.cache c) = (cacheCall op c).map (fun r => (w.cache r.1, w.result r.2)) := by
  cases op with
  | find clk id => simp only [Swap.op, cacheCall, cacheFind_swap]; cases cacheFind clk id c <;> rfl
  | putEnc env id m b k ctx => simp only [Swap.op, cacheCall, cachePutEnc_swap]; cases cachePutEnc env id m b k ctx c <;> rfl
  | putDec env id m => simp only [Swap.op, cacheCall, cachePutDec_swap]; cases cachePutDec env id m c <;> rfl
  | use h b k => simp only [Swap.op, cacheCall, cacheUpdateUsage_swap]; cases cacheUpdateUsage h b k c <;> rfl
  | getEnc env h ctx => simp only [Swap.op, cacheCall, cacheGetEnc_swap]; cases cacheGetEnc env h ctx c <;> rfl
  | getDec env h => simp only [Swap.op, cacheCall, cacheGetDec_swap]; cases cacheGetDec env h c <;> rfl
  | created h => simp only [Swap.op, cacheCall, cacheCreation_swap]; cases cacheCreation h c <;> rfl
  | hint h t p => simp only [Swap.op, cacheCall, cacheHint_swap]; cases cacheHint h t p c <;> rfl
  | release h i => simp only [Swap.op, cacheCall, cacheRelease_swap]; cases cacheRelease h i c <;> rfl
  | clear => simp only [Swap.op, cacheCall, cacheClear_swap]; cases cacheClear c <;> rfl
  | count => rfl

theorem startCall_swap (op : CacheOp) (c : Cache) :
    startCall (w.op op) (w.cache c) = (startCall op c).map (fun r => (w.cache r.1, swapAfter w r.2)) := by
  have other : ∀ op, (match cacheCall (w.op op) (w.cache c) with
        | .error f => Except.error f
        | .ok (c, r) => .ok (c, After.ret r)) =
      ((match cacheCall op c with
        | .error f => Except.error f
        | .ok (c, r) => .ok (c, After.ret r)) : Except Fault (Cache × After)).map (fun r => (w.cache r.1, swapAfter w r.2)) := by
    intro op
    rw [cacheCall_swap]
    cases cacheCall op c <;> rfl
  cases op with
  | use n b m =>
    simp only [Swap.op, startCall, entry_swap]
    cases c.entry n with
    | error f => rfl
    | ok e =>
      simp only [Except.map, isEncrypt_swap]
      rw [show (w.entry e).zombie = e.zombie from rfl]
      split <;> rfl
  | hint n t p =>
    simp only [Swap.op, startCall, entry_swap]
    cases c.entry n with
    | error f => rfl
    | ok e =>
      simp only [Except.map]
      rw [show (w.entry e).zombie = e.zombie from rfl, show (w.entry e).expiry = e.expiry from rfl]
      split <;> rfl
  | release n i =>
    simp only [Swap.op, startCall, entry_swap]
    cases c.entry n with
    | error f => rfl
    | ok e =>
      simp only [Except.map]
      rw [show (w.entry e).zombie = e.zombie from rfl]
      split <;> rfl
  | find clk id => exact other (.find clk id)
  | putEnc env id m b k ctx => exact other (.putEnc env id m b k ctx)
  | putDec env id m => exact other (.putDec env id m)
  | getEnc env h ctx => exact other (.getEnc env h ctx)
  | getDec env h => exact other (.getDec env h)
  | created h => exact other (.created h)
  | clear => exact other .clear
  | count => exact other .count

theorem resumeCall_swap (p : Pending) (c : Cache) :
    resumeCall p (w.cache c) = (resumeCall p c).map (fun r => (w.cache r.1, swapAfter w r.2)) := by
  cases p with
  | idle => rfl
  | addBytes n b m =>
    simp only [resumeCall, entry_swap]
    cases c.entry n with
    | error f => rfl
    | ok e => simp only [Except.map, ← set_some_swap]; rfl
  | addMessages n b m =>
    simp only [resumeCall, entry_swap]
    cases c.entry n with
    | error f => rfl
    | ok e => simp only [Except.map, ← set_some_swap]; rfl
  | hintLock n t p =>
    simp only [resumeCall, cacheHint_swap]
    cases cacheHint n t p c <;> rfl
  | relPlain n =>
    simp only [resumeCall, decref_swap]
    cases decref c n <;> rfl
  | relLock n =>
    simp only [resumeCall, entry_swap, decref_swap]
    cases c.entry n with
    | error f => rfl
    | ok e =>
      cases decref c n with
      | error f => rfl
      | ok c =>
        simp only [Except.map]
        rw [show (w.entry e).refcount = e.refcount from rfl]
        split <;> rfl
  | relHeld n =>
    simp only [resumeCall, entry_swap, invalidate_swap]
    cases c.entry n with
    | error f => rfl
    | ok e =>
      simp only [Except.map]
      rw [show (w.entry e).zombie = e.zombie from rfl]
      split
      · rfl
      · cases invalidate c n false <;> rfl

/-- A result of a step of the cache's threads. -/
def swapStep (w : Swap) (r : Option (Except Fault (Conc × Option CacheResult))) : Option (Except Fault (Conc × Option CacheResult)) :=
  r.map (fun x => x.map (fun y => (w.conc y.1, y.2.map w.result)))

theorem next_swap (th : Thread) (op : Option CacheOp) (a : After) : th.next (op.map w.op) (swapAfter w a) = th.next op a := by
  have hh : heldAfter (op.map w.op) (swapAfter w a) th.held = heldAfter op a th.held := by
    cases op with
    | none => cases a with
      | wait p => rfl
      | ret r => cases r <;> rfl
    | some op => cases a with
      | wait p => cases op <;> rfl
      | ret r =>
        cases r with
        | handle h => cases op <;> cases h <;> rfl
        | _ => cases op <;> rfl
  unfold Thread.next
  rw [hh]
  cases a <;> rfl

theorem finish_swap (s : Conc) (t : Nat) (op : Option CacheOp) (r : Except Fault (Cache × After)) :
    (w.conc s).finish t (op.map w.op) (r.map (fun r => (w.cache r.1, swapAfter w r.2))) =
      (s.finish t op r).map (fun y => (w.conc y.1, y.2.map w.result)) := by
  cases r with
  | error f => rfl
  | ok r =>
    obtain ⟨c, a⟩ := r
    simp only [Except.map, Conc.finish]
    rw [show ((w.conc s).thr t) = s.thr t from rfl, next_swap]
    cases a <;> rfl

theorem op_on_swap (op : CacheOp) : (w.op op).on = op.on := by cases op <;> rfl
theorem op_locking_swap (op : CacheOp) : (w.op op).locking = op.locking := by cases op <;> rfl

theorem concCall_swap (s : Conc) (t : Nat) (op : CacheOp) :
    (w.conc s).step t (.call (w.op op)) = swapStep w (s.step t (.call op)) := by
  simp only [Conc.step, op_on_swap, op_locking_swap]
  rw [show (w.conc s).num = s.num from rfl, show ((w.conc s).thr t) = s.thr t from rfl, show (w.conc s).unlocked = s.unlocked from rfl]
  by_cases h : t < s.num ∧ (s.thr t).doing = .idle ∧ (∀ n, op.on = some n → n ∈ (s.thr t).held) ∧ (op.locking = true → s.unlocked = true)
  · rw [if_pos h, if_pos h, show (w.conc s).cache = w.cache s.cache from rfl, startCall_swap]
    exact congrArg some (finish_swap w s t (some op) (startCall op s.cache))
  · rw [if_neg h, if_neg h]; rfl

theorem concGo_swap (s : Conc) (t : Nat) : (w.conc s).step t .go = swapStep w (s.step t .go) := by
  simp only [Conc.step]
  rw [show (w.conc s).num = s.num from rfl, show ((w.conc s).thr t) = s.thr t from rfl, show (w.conc s).unlocked = s.unlocked from rfl]
  by_cases h : t < s.num ∧ (s.thr t).doing ≠ .idle ∧ ((s.thr t).doing.needsLock = true → s.unlocked = true)
  · rw [if_pos h, if_pos h, show (w.conc s).cache = w.cache s.cache from rfl, resumeCall_swap]
    exact congrArg some (finish_swap w s t none (resumeCall (s.thr t).doing s.cache))
  · rw [if_neg h, if_neg h]; rfl

theorem cacheIsEncrypt_swap (c : Cache) (n : Nat) : (w.cache c).isEncrypt n = c.isEncrypt n := by
  unfold Cache.isEncrypt
  rw [show (w.cache c).mem n = (c.mem n).map w.entry from rfl]
  cases c.mem n with
  | none => rfl
  | some e => exact isEncrypt_swap w e

/-- A place in a program with an event. -/
def swapPc (w : Swap) (x : Pc × Option CmmEvent) : Pc × Option CmmEvent := (w.pc x.1, x.2.map w.event)
def swapDpc (w : Swap) (x : DPc × Option CmmEvent) : DPc × Option CmmEvent := (w.dpc x.1, x.2.map w.event)

theorem pcOp_swap (p : Pc) : (w.pc p).op = p.op.map w.op := by cases p <;> rfl
theorem dpcOp_swap (p : DPc) : (w.dpc p).op = p.op.map w.op := by cases p <;> rfl

theorem afterCreated_swap (g : GenCall) (n t : Nat) : afterCreated (w.genCall g) n t = w.pc (afterCreated g n t) := by
  unfold afterCreated
  rw [show (w.genCall g).cmm = g.cmm from rfl, show (w.genCall g).env.clkTtl = g.env.clkTtl from rfl]
  by_cases h : u64 (t + g.cmm.ttl) < t
  · rw [if_pos h, if_pos h]; rfl
  · rw [if_neg h, if_neg h]
    cases g.env.clkTtl with
    | none => rfl
    | some now => simp only; split <;> rfl

theorem decAfterCreated_swap (g : DecCall) (n t : Nat) : decAfterCreated (w.decCall g) n t = w.dpc (decAfterCreated g n t) := by
  unfold decAfterCreated
  rw [show (w.decCall g).cmm = g.cmm from rfl, show (w.decCall g).env.clkTtl = g.env.clkTtl from rfl]
  by_cases h : u64 (t + g.cmm.ttl) < t
  · rw [if_pos h, if_pos h]; rfl
  · rw [if_neg h, if_neg h]
    cases g.env.clkTtl with
    | none => rfl
    | some now => simp only; split <;> rfl

theorem ite_pc (P : Prop) [Decidable P] (a b : Pc) : w.pc (if P then a else b) = if P then w.pc a else w.pc b := by split <;> rfl
theorem ite_dpc (P : Prop) [Decidable P] (a b : DPc) : w.dpc (if P then a else b) = if P then w.dpc a else w.dpc b := by split <;> rfl

theorem pcAfter_swap (c : Cache) (p : Pc) (r : CacheResult) : (w.pc p).after (w.cache c) (w.result r) = swapPc w (p.after c r) := by
  cases p with
  | find g =>
    cases r with
    | handle h =>
      cases h with
      | none => rfl
      | some n =>
        show (Pc.find (w.genCall g)).after (w.cache c) (.handle (some n)) = _
        simp only [Pc.after, swapPc, ite_pc, cacheIsEncrypt_swap]; rfl
    | _ => rfl
  | created g n =>
    cases r with
    | time t => simp only [Swap.pc, Swap.result, Pc.after, swapPc, afterCreated_swap]; rfl
    | _ => rfl
  | use g n =>
    cases r with
    | usage x =>
      cases x with
      | error e => rfl
      | ok x =>
        show (Pc.use (w.genCall g) n).after (w.cache c) (.usage (.ok x)) = _
        simp only [Pc.after, swapPc, ite_pc]; rfl
    | _ => rfl
  | get g n b m =>
    cases r with
    | encMaterials ctx x => cases x <;> rfl
    | _ => rfl
  | put g ctx m =>
    cases r with
    | handle h =>
      cases h with
      | none => rfl
      | some n =>
        show (Pc.put (w.genCall g) ctx (w.encMat m)).after (w.cache c) (.handle (some n)) = _
        simp only [Pc.after, swapPc, ite_pc]; rfl
    | _ => rfl
  | createdMiss g n =>
    cases r with
    | time t =>
      show (Pc.createdMiss (w.genCall g) n).after (w.cache c) (.time t) = _
      simp only [Pc.after, swapPc, ite_pc]; rfl
    | _ => rfl
  | _ => cases r <;> rfl

theorem dpcAfter_swap (c : Cache) (p : DPc) (r : CacheResult) : (w.dpc p).after (w.cache c) (w.result r) = swapDpc w (p.after c r) := by
  cases p with
  | find g =>
    cases r with
    | handle h =>
      cases h with
      | none => rfl
      | some n =>
        show (DPc.find (w.decCall g)).after (w.cache c) (.handle (some n)) = _
        simp only [DPc.after, swapDpc, ite_dpc, cacheIsEncrypt_swap]; rfl
    | _ => rfl
  | created g n =>
    cases r with
    | time t => simp only [Swap.dpc, Swap.result, DPc.after, swapDpc, decAfterCreated_swap]; rfl
    | _ => rfl
  | get g n =>
    cases r with
    | decMaterials x => cases x <;> rfl
    | _ => rfl
  | put g m =>
    cases r with
    | handle h =>
      cases h with
      | none => rfl
      | some n =>
        show (DPc.put (w.decCall g) (w.decMat m)).after (w.cache c) (.handle (some n)) = _
        simp only [DPc.after, swapDpc, ite_dpc]; rfl
    | _ => rfl
  | createdMiss g n =>
    cases r with
    | time t =>
      show (DPc.createdMiss (w.decCall g) n).after (w.cache c) (.time t) = _
      simp only [DPc.after, swapDpc, ite_dpc]; rfl
    | _ => rfl
  | _ => cases r <;> rfl

theorem genStart_swap (sha : Bytes → Bytes) (cmm : CachingCmm) (env : GenEnv) (req : EncRequest) :
    genStart sha cmm (w.genEnv env) req = (genStart sha cmm env req).map (swapPc w) := by
  unfold genStart
  simp only
  rw [show (w.genEnv env).ids = env.ids from rfl]
  by_cases h : req.plaintextSize > cmm.limitBytes
  · rw [if_pos h, if_pos h]; rfl
  · rw [if_neg h, if_neg h]
    by_cases h2 : req.requestedAlg = 0
    · rw [if_pos h2, if_pos h2]
      cases hashEnc sha env.ids cmm.partition req <;> rfl
    · rw [if_neg h2, if_neg h2]
      cases canCache req.requestedAlg with
      | error f => rfl
      | ok b =>
        cases b with
        | false => rfl
        | true => cases hashEnc sha env.ids cmm.partition req <;> rfl

theorem genUp_swap (g : GenCall) (ctx : EncCtx) : genUp (w.genCall g) ctx = (genUp g ctx).map (swapPc w) := by
  unfold genUp
  rw [show (w.genCall g).env.up { (w.genCall g).req with encCtx := ctx } =
    ((g.env.up { g.req with encCtx := ctx }).1, (g.env.up { g.req with encCtx := ctx }).2.map w.encMat) from rfl]
  generalize g.env.up { g.req with encCtx := ctx } = r
  obtain ⟨x, y⟩ := r
  cases y with
  | error e => rfl
  | ok m =>
    simp only [Except.map]
    rw [show (w.encMat m).alg = m.alg from rfl]
    cases canCache m.alg with
    | error f => rfl
    | ok b => cases b <;> rfl

theorem decStart_swap (sha : Bytes → Bytes) (cmm : CachingCmm) (env : DecEnv) (req : DecRequest) :
    decStart sha cmm (w.decEnv env) req = (decStart sha cmm env req).map (swapDpc w) := by
  unfold decStart
  rw [show (w.decEnv env).ids = env.ids from rfl]
  cases canCache req.alg with
  | error f => rfl
  | ok b =>
    cases b with
    | false => rfl
    | true =>
      simp only
      cases hashDec sha env.ids cmm.partition req with
      | error f => rfl
      | ok r => cases r <;> rfl

theorem decUp_swap (g : DecCall) : decUp (w.decCall g) = swapDpc w (decUp g) := by
  unfold decUp
  rw [show (w.decCall g).env.up (w.decCall g).req = (g.env.up g.req).map w.decMat from rfl]
  cases g.env.up g.req <;> rfl

/-- Threads in `generate_enc_materials`. -/
def swapBase (w : Swap) (s : CmmConc) : CmmConc := ⟨w.conc s.conc, fun i => w.pc (s.pc i)⟩

theorem pcIdle_swap (p : Pc) : (w.pc p).isIdle = p.isIdle := by cases p <;> rfl
theorem dpcIdle_swap (p : DPc) : (w.dpc p).isIdle = p.isIdle := by cases p <;> rfl

theorem local_swap (s : CmmConc) (t : Nat) (r : Except Fault (Pc × Option CmmEvent)) :
    (swapBase w s).local t (r.map (swapPc w)) = (s.local t r).map (fun y => (swapBase w y.1, y.2.map w.event)) := by
  cases r with
  | error f => rfl
  | ok r =>
    simp only [Except.map, CmmConc.local, swapBase, swapPc]
    congr 3
    funext i
    rw [ite_pc]

theorem shared_swap (s : CmmConc) (t : Nat) (r : Option (Except Fault (Conc × Option CacheResult))) :
    (swapBase w s).shared t (swapStep w r) = (s.shared t r).map (fun x => x.map (fun y => (swapBase w y.1, y.2.map w.event))) := by
  cases r with
  | none => rfl
  | some r =>
    cases r with
    | error f => rfl
    | ok r =>
      obtain ⟨s', r⟩ := r
      cases r with
      | none => rfl
      | some r =>
        simp only [swapStep, Option.map, Except.map, CmmConc.shared]
        rw [show ((swapBase w s).pc t).after (w.conc s').cache (w.result r) = swapPc w ((s.pc t).after s'.cache r) from
          pcAfter_swap w s'.cache (s.pc t) r]
        simp only [swapBase, swapPc]
        congr 4
        funext i
        rw [ite_pc]

theorem baseStart_swap (sha : Bytes → Bytes) (s : CmmConc) (t : Nat) (cmm : CachingCmm) (env : GenEnv) (req : EncRequest) :
    (swapBase w s).step sha t (.start cmm (w.genEnv env) req) =
      (s.step sha t (.start cmm env req)).map (fun x => x.map (fun y => (swapBase w y.1, y.2.map w.event))) := by
  simp only [CmmConc.step]
  rw [show (swapBase w s).conc.num = s.conc.num from rfl, show (swapBase w s).conc.thr t = s.conc.thr t from rfl,
    show (swapBase w s).pc t = w.pc (s.pc t) from rfl, pcIdle_swap, genStart_swap, local_swap]
  split <;> rfl

theorem baseUp_swap (sha : Bytes → Bytes) (s : CmmConc) (t : Nat) :
    (swapBase w s).step sha t .up = (s.step sha t .up).map (fun x => x.map (fun y => (swapBase w y.1, y.2.map w.event))) := by
  simp only [CmmConc.step]
  rw [show (swapBase w s).pc t = w.pc (s.pc t) from rfl]
  cases s.pc t with
  | up g ctx =>
    simp only [Swap.pc]
    rw [show (swapBase w s).conc.num = s.conc.num from rfl, genUp_swap, local_swap]
    split <;> rfl
  | _ => rfl

theorem baseCall_swap (sha : Bytes → Bytes) (s : CmmConc) (t : Nat) :
    (swapBase w s).step sha t .call = (s.step sha t .call).map (fun x => x.map (fun y => (swapBase w y.1, y.2.map w.event))) := by
  simp only [CmmConc.step]
  rw [show (swapBase w s).pc t = w.pc (s.pc t) from rfl, pcOp_swap]
  cases (s.pc t).op with
  | none => rfl
  | some op =>
    simp only [Option.map]
    rw [show (swapBase w s).conc = w.conc s.conc from rfl, concCall_swap]
    exact shared_swap w s t _

theorem baseGo_swap (sha : Bytes → Bytes) (s : CmmConc) (t : Nat) :
    (swapBase w s).step sha t .go = (s.step sha t .go).map (fun x => x.map (fun y => (swapBase w y.1, y.2.map w.event))) := by
  simp only [CmmConc.step]
  rw [show (swapBase w s).conc = w.conc s.conc from rfl, concGo_swap]
  exact shared_swap w s t _

theorem baseClear_swap (sha : Bytes → Bytes) (s : CmmConc) (t : Nat) :
    (swapBase w s).step sha t (.other .clear) =
      (s.step sha t (.other .clear)).map (fun x => x.map (fun y => (swapBase w y.1, y.2.map w.event))) := by
  simp only [CmmConc.step]
  rw [show (swapBase w s).pc t = w.pc (s.pc t) from rfl, pcIdle_swap]
  by_cases h : (s.pc t).isIdle = true ∧ CacheOp.foreign .clear = true
  · rw [if_pos h, if_pos h, show (swapBase w s).conc = w.conc s.conc from rfl, show CacheOp.clear = w.op .clear from rfl, concCall_swap]
    exact shared_swap w s t _
  · rw [if_neg h, if_neg h]; rfl

/-- What a step of the threads leads to, with the replacement. -/
def swapOut (w : Swap) (r : Option (Except Fault (CmmAll × Option CmmEvent))) : Option (Except Fault (CmmAll × Option CmmEvent)) :=
  r.map (fun x => x.map (fun y => (w.threads y.1, y.2.map w.event)))

theorem lift_swap (s : CmmAll) (r : Option (Except Fault (CmmConc × Option CmmEvent))) :
    (w.threads s).lift (r.map (fun x => x.map (fun y => (swapBase w y.1, y.2.map w.event)))) = swapOut w (s.lift r) := by
  cases r with
  | none => rfl
  | some r => cases r <;> rfl

theorem allLocal_swap (s : CmmAll) (t : Nat) (r : Except Fault (DPc × Option CmmEvent)) :
    (w.threads s).local t (r.map (swapDpc w)) = (s.local t r).map (fun y => (w.threads y.1, y.2.map w.event)) := by
  cases r with
  | error f => rfl
  | ok r =>
    simp only [Except.map, CmmAll.local, Swap.threads, swapDpc]
    congr 3
    funext i
    rw [ite_dpc]

theorem allShared_swap (s : CmmAll) (t : Nat) (r : Option (Except Fault (Conc × Option CacheResult))) :
    (w.threads s).shared t (swapStep w r) = swapOut w (s.shared t r) := by
  cases r with
  | none => rfl
  | some r =>
    cases r with
    | error f => rfl
    | ok r =>
      obtain ⟨s', r⟩ := r
      cases r with
      | none => rfl
      | some r =>
        simp only [swapStep, swapOut, Option.map, Except.map, CmmAll.shared]
        rw [show ((w.threads s).dpc t).after (w.conc s').cache (w.result r) = swapDpc w ((s.dpc t).after s'.cache r) from
          dpcAfter_swap w s'.cache (s.dpc t) r]
        simp only [Swap.threads, swapDpc]
        congr 4
        funext i
        rw [ite_dpc]

theorem step_swap (sha : Bytes → Bytes) (s : CmmAll) (t : Nat) (mv : AllMove) :
    (w.threads s).step sha t (w.move mv) = swapOut w (s.step sha t mv) := by
  have hb : (w.threads s).base = swapBase w s.base := rfl
  have hd : (w.threads s).dpc t = w.dpc (s.dpc t) := rfl
  cases mv with
  | gen cmm env req =>
    simp only [Swap.move, CmmAll.step]
    rw [hd, dpcIdle_swap, hb, baseStart_swap, lift_swap]
    split <;> rfl
  | dec cmm env req =>
    simp only [Swap.move, CmmAll.step]
    rw [hd, dpcIdle_swap, hb, show (swapBase w s.base).conc.num = s.base.conc.num from rfl,
      show (swapBase w s.base).conc.thr t = s.base.conc.thr t from rfl, show (swapBase w s.base).pc t = w.pc (s.base.pc t) from rfl, pcIdle_swap,
      decStart_swap, allLocal_swap]
    split <;> rfl
  | up =>
    simp only [Swap.move, CmmAll.step]
    rw [hd, hb, baseUp_swap, lift_swap]
    cases s.dpc t with
    | up g =>
      simp only [Swap.dpc]
      rw [show (swapBase w s.base).conc.num = s.base.conc.num from rfl, decUp_swap]
      have := allLocal_swap w s t (.ok (decUp g))
      rw [show (Except.ok (decUp g) : Except Fault _).map (swapDpc w) = .ok (swapDpc w (decUp g)) from rfl] at this
      rw [this]
      split <;> rfl
    | _ => rfl
  | call =>
    simp only [Swap.move, CmmAll.step]
    rw [hd, hb, dpcIdle_swap, baseCall_swap, lift_swap, dpcOp_swap]
    split
    · rfl
    · cases (s.dpc t).op with
      | none => rfl
      | some op =>
        simp only [Option.map]
        rw [show (swapBase w s.base).conc = w.conc s.base.conc from rfl, concCall_swap]
        exact allShared_swap w s t _
  | go =>
    simp only [Swap.move, CmmAll.step]
    rw [hd, hb, dpcIdle_swap, baseGo_swap, lift_swap, show (swapBase w s.base).conc = w.conc s.base.conc from rfl, concGo_swap, allShared_swap]
    split <;> rfl
  | clear =>
    simp only [Swap.move, CmmAll.step]
    rw [hd, hb, dpcIdle_swap, baseClear_swap, lift_swap]
    split <;> rfl

end Verif.Proof
