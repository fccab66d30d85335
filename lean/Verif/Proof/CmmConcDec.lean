import Verif.Spec.CmmConcDec
import Verif.Proof.CmmConcStep
/-
Where cached materials come from, when several threads encrypt and decrypt with caching CMMs sharing one cache.
-/
namespace Verif

open Spec

/-! ### what the steps of calls do to entries -/

/-- An entry made by the call `op`. -/
def Stored (op : CacheOp) (e : Entry) : Prop :=
  match op with
  | .putEnc env id m _ _ ctx => e.mat = .enc { m with signctx := none } ctx ∧ e.cacheId = id ∧ env.clkNew = some e.creation ∧
      storedKey env m.signctx = some e.keyMat
  | .putDec env id m => e.mat = .dec { m with signctx := none } ∧ e.cacheId = id ∧ env.clkNew = some e.creation ∧
      storedKey env m.signctx = some e.keyMat
  | _ => False

theorem SameCore.rfl {e : Entry} : SameCore e e := ⟨Eq.refl _, Eq.refl _, Eq.refl _, Eq.refl _⟩

theorem SameCore.trans {a b c : Entry} (h1 : SameCore a b) (h2 : SameCore b c) : SameCore a c :=
  ⟨h2.1.trans h1.1, h2.2.1.trans h1.2.1, h2.2.2.1.trans h1.2.2.1, h2.2.2.2.trans h1.2.2.2⟩

/-- Every entry of `c'` is an entry of `c` in what is never changed, or it is the new one. -/
structure Core (op : Option CacheOp) (c c' : Cache) : Prop where
  next : c.next ≤ c'.next
  old : ∀ n e', c'.mem n = some e' → (∃ e, c.mem n = some e ∧ SameCore e e') ∨ (n = c.next ∧ ∃ o, op = some o ∧ Stored o e')

theorem Core.refl (op : Option CacheOp) (c : Cache) : Core op c c := ⟨Nat.le_refl _, fun _ e h => .inl ⟨e, h, .rfl⟩⟩

theorem Core.trans {op : Option CacheOp} {a b c : Cache} (h1 : Core none a b) (h2 : Core none b c) : Core op a c := by
  refine ⟨Nat.le_trans h1.next h2.next, fun n e' he' => ?_⟩
  rcases h2.old n e' he' with ⟨e, he, hc⟩ | ⟨-, o, ho, -⟩
  · rcases h1.old n e he with ⟨f, hf, hc'⟩ | ⟨-, o, ho, -⟩
    · exact .inl ⟨f, hf, hc'.trans hc⟩
    · cases ho
  · cases ho

theorem Core.kept {op : Option CacheOp} {c c' : Cache} (h : Kept c c') (hn : c.next ≤ c'.next) : Core op c c' := by
  refine ⟨hn, fun n e' he' => ?_⟩
  obtain ⟨e, k, z, he, rfl, -⟩ := h n e' he'
  exact .inl ⟨e, he, .rfl⟩

theorem Core.set {c c1 : Cache} {n : Nat} {e : Entry} {e' : Option Entry} (hm : c1.mem = c.mem) (hn : c1.next = c.next)
    (he : c.mem n = some e) (hc : ∀ f, e' = some f → SameCore e f) : Core none c (c1.set n e') := by
  refine ⟨Nat.le_of_eq hn.symm, fun m f hf => ?_⟩
  unfold Cache.set at hf
  simp only [hm] at hf
  split at hf
  · next h => subst h; exact .inl ⟨e, he, hc f hf⟩
  · exact .inl ⟨f, hf, .rfl⟩

theorem decref_core {c c' : Cache} {n : Nat} (h : decref c n = .ok c') : Core none c c' := by
  unfold decref Cache.entry at h
  cases he : c.mem n with
  | none => rw [he] at h; cases h
  | some e =>
    rw [he] at h
    simp only at h
    split at h
    · cases h
    · split at h
      · split at h
        · cases h; exact .set rfl rfl he (fun f hf => by cases hf)
        · cases h
      · cases h; exact .set rfl rfl he (fun f hf => by cases hf; exact .rfl)

theorem invalidate_core {c c' : Cache} {n : Nat} {b : Bool} (h : invalidate c n b = .ok c') : Core none c c' := by
  unfold invalidate Cache.entry at h
  cases he : c.mem n with
  | none => rw [he] at h; cases h
  | some e =>
    rw [he] at h
    simp only at h
    split at h
    · cases h; exact .refl _ _
    · split at h
      · cases h
      · exact Core.trans (.set (e := e) (by rfl) (by rfl) he (fun f hf => by cases hf; exact .rfl)) (decref_core h)

theorem cacheHint_core {c c' : Cache} {n t : Nat} {push : Bool} (h : cacheHint n t push c = .ok c') : Core none c c' := by
  unfold cacheHint Cache.entry at h
  cases he : c.mem n with
  | none => rw [he] at h; cases h
  | some e =>
    rw [he] at h
    simp only at h
    split at h
    · cases h; exact .refl _ _
    · split at h <;> (cases h; exact .set (e := e) (by rfl) (by rfl) he (fun f hf => by cases hf; exact .rfl))

theorem resumeCall_core {p : Pending} {c c' : Cache} {a : After} (h : resumeCall p c = .ok (c', a)) : Core none c c' := by
  cases p with
  | idle => cases h; exact .refl _ _
  | addBytes n bytes messages =>
    simp only [resumeCall, Cache.entry] at h
    cases he : c.mem n with
    | none => rw [he] at h; cases h
    | some e => rw [he] at h; cases h; exact .set rfl rfl he (fun f hf => by cases hf; exact .rfl)
  | addMessages n sum messages =>
    simp only [resumeCall, Cache.entry] at h
    cases he : c.mem n with
    | none => rw [he] at h; cases h
    | some e => rw [he] at h; cases h; exact .set rfl rfl he (fun f hf => by cases hf; exact .rfl)
  | hintLock n t push =>
    simp only [resumeCall] at h
    cases hc : cacheHint n t push c with
    | error f => rw [hc] at h; cases h
    | ok c1 => rw [hc] at h; cases h; exact cacheHint_core hc
  | relPlain n =>
    simp only [resumeCall] at h
    cases hc : decref c n with
    | error f => rw [hc] at h; cases h
    | ok c1 => rw [hc] at h; cases h; exact decref_core hc
  | relLock n =>
    simp only [resumeCall] at h
    cases he : c.entry n with
    | error f => rw [he] at h; cases h
    | ok e =>
      rw [he] at h
      simp only at h
      cases hc : decref c n with
      | error f => rw [hc] at h; cases h
      | ok c1 =>
        rw [hc] at h
        simp only at h
        split at h <;> (cases h; exact decref_core hc)
  | relHeld n =>
    simp only [resumeCall] at h
    cases he : c.entry n with
    | error f => rw [he] at h; cases h
    | ok e =>
      rw [he] at h
      simp only at h
      split at h
      · cases h; exact .refl _ _
      · cases hc : invalidate c n false with
        | error f => rw [hc] at h; cases h
        | ok c1 => rw [hc] at h; cases h; exact invalidate_core hc

theorem startCall_core {held : List Nat} {op : CacheOp} {c c' : Cache} {a : After} (hok : COk held c)
    (h : startCall op c = .ok (c', a)) : Core (some op) c c' := by
  by_cases hs : storing op = true
  · cases op with
    | find clk id =>
      obtain ⟨c1, r, kept, h1, -, h3, -, -, -, h7, -⟩ := cacheFind_spec hok clk id
      simp only [startCall, cacheCall, h1, Except.map] at h
      cases h
      exact .kept h3 (Nat.le_of_eq h7.symm)
    | putEnc env id m bytes messages ctx =>
      obtain ⟨c1, r, h1, h2, h3, -, h5⟩ := cachePut_spec hok env id (.enc { m with signctx := none } ctx) (storedKey env m.signctx) bytes messages
      simp only [startCall, cacheCall, cachePutEnc, h1, Except.map] at h
      cases h
      rcases h5 with ⟨-, -, h6, -⟩ | ⟨-, -, -, -, -, now, k, hn, hk, h8⟩
      · exact .kept h6 h3
      · refine ⟨h3, fun n e' he' => ?_⟩
        by_cases hm : n = c.next
        · subst hm
          rw [h8] at he'
          cases he'
          exact .inr ⟨rfl, _, rfl, rfl, rfl, hn, hk⟩
        · obtain ⟨e, k, z, he, rfl, -⟩ := h2 n e' hm he'
          exact .inl ⟨e, he, .rfl⟩
    | putDec env id m =>
      obtain ⟨c1, r, h1, h2, h3, -, h5⟩ := cachePut_spec hok env id (.dec { m with signctx := none }) (storedKey env m.signctx) 0 0
      simp only [startCall, cacheCall, cachePutDec, h1, Except.map] at h
      cases h
      rcases h5 with ⟨-, -, h6, -⟩ | ⟨-, -, -, -, -, now, k, hn, hk, h8⟩
      · exact .kept h6 h3
      · refine ⟨h3, fun n e' he' => ?_⟩
        by_cases hm : n = c.next
        · subst hm
          rw [h8] at he'
          cases he'
          exact .inr ⟨rfl, _, rfl, rfl, rfl, hn, hk⟩
        · obtain ⟨e, k, z, he, rfl, -⟩ := h2 n e' hm he'
          exact .inl ⟨e, he, .rfl⟩
    | clear =>
      obtain ⟨c1, h1, -, -, h4, h5, -⟩ := cacheClear_spec hok
      simp only [startCall, cacheCall, h1, Except.map] at h
      cases h
      exact .kept h4 (Nat.le_of_eq h5.symm)
    | _ => cases hs
  · have := startCall_lru h (by simpa using hs)
    subst this
    exact .refl _ _

/-- A lookup finds an entry that was stored under the identifier asked for. -/
theorem startCall_find {held : List Nat} {clk : Option Nat} {id : Bytes} {c c' : Cache} {n : Nat} (hok : COk held c)
    (h : startCall (.find clk id) c = .ok (c', .ret (.handle (some n)))) : n < c'.next ∧ ∀ e, c'.mem n = some e → e.cacheId = id := by
  obtain ⟨c1, r, kept, h1, h2, -, -, -, -, -, -, h9⟩ := cacheFind_spec hok clk id
  simp only [startCall, cacheCall, h1, Except.map] at h
  cases h
  obtain ⟨e, he, hid, -⟩ := h9 n rfl
  exact ⟨live_lt h2 he, fun e' he' => by rw [he] at he'; cases he'; exact hid⟩

/-! ### the invariant -/

/-- A `generate_enc_materials` call with its cache identifier. -/
def GenCall.Ok (sha : Bytes → Bytes) (allow : CachingCmm → Prop) (g : GenCall) : Prop :=
  hashEnc sha g.env.ids g.cmm.partition g.req = .ok g.id ∧ allow g.cmm

/-- A `decrypt_materials` call with its cache identifier. -/
def DecCall.Ok (sha : Bytes → Bytes) (allow : CachingCmm → Prop) (g : DecCall) : Prop :=
  hashDec sha g.env.ids g.cmm.partition g.req = .ok (.ok g.id) ∧ allow g.cmm

/-- Entry `n` was stored under the identifier `id`. -/
def Found (c : Cache) (n : Nat) (id : Bytes) : Prop := n < c.next ∧ ∀ e, c.mem n = some e → e.cacheId = id

/-- Entry `n` was stored under the identifier `id` and may be used by the time limit. -/
def Usable (c : Cache) (n : Nat) (id : Bytes) (ttl : Nat) (clk : Option Nat) : Prop :=
  n < c.next ∧ ∀ e, c.mem n = some e → e.cacheId = id ∧ WithinTtl ttl clk e.creation

/-- What a thread in `generate_enc_materials` relies on. -/
def EncOk (sha : Bytes → Bytes) (allow : CachingCmm → Prop) (log : List CmmEvent) (c : Cache) : Pc → Prop
  | .find g => g.Ok sha allow
  | .created g n => g.Ok sha allow ∧ Found c n g.id
  | .hint g n _ => g.Ok sha allow ∧ Usable c n g.id g.cmm.ttl g.env.clkTtl
  | .use g n => g.Ok sha allow ∧ Usable c n g.id g.cmm.ttl g.env.clkTtl
  | .get g n _ _ => g.Ok sha allow ∧ Usable c n g.id g.cmm.ttl g.env.clkTtl
  | .drop g _ _ => g.Ok sha allow
  | .up g _ => g.Ok sha allow
  | .put g ctx m => g.Ok sha allow ∧ .gen g.cmm g.env g.req ⟨ctx, .ok m, true⟩ ∈ log
  | _ => True

/-- What a thread in `decrypt_materials` relies on. -/
def DecOk (sha : Bytes → Bytes) (allow : CachingCmm → Prop) (log : List CmmEvent) (c : Cache) : DPc → Prop
  | .find g => g.Ok sha allow
  | .created g n => g.Ok sha allow ∧ Found c n g.id
  | .hint g n _ => g.Ok sha allow ∧ Usable c n g.id g.cmm.ttl g.env.clkTtl
  | .get g n => g.Ok sha allow ∧ Usable c n g.id g.cmm.ttl g.env.clkTtl
  | .drop g _ => g.Ok sha allow
  | .up g => g.Ok sha allow
  | .put g m => g.Ok sha allow ∧ .dec g.cmm g.env g.req ⟨.ok m, true⟩ ∈ log
  | _ => True

/-- What holds of an event, given the events before. -/
def EvOk (sha : Bytes → Bytes) (allow : CachingCmm → Prop) (log : List CmmEvent) : CmmEvent → Prop
  | .gen cmm env req out => allow cmm ∧
      (∀ m, out.upstream = false → out.res = .ok m → ∃ e m0 ectx sc, Prov sha log e ∧ e.mat = .enc m0 ectx ∧
        hashEnc sha env.ids cmm.partition req = .ok e.cacheId ∧ WithinTtl cmm.ttl env.clkTtl e.creation ∧
        out.ctx = encCtxClone req.encCtx ectx ∧ startSig env.get m0.alg e.keyMat = .ok sc ∧ m = { m0 with signctx := sc }) ∧
      (out.upstream = true → ∃ ctx, env.up { req with encCtx := ctx } = (out.ctx, out.res))
  | .dec cmm env req out => allow cmm ∧
      (∀ m, out.upstream = false → out.res = .ok m → ∃ e m0 sc, Prov sha log e ∧ e.mat = .dec m0 ∧
        hashDec sha env.ids cmm.partition req = .ok (.ok e.cacheId) ∧ WithinTtl cmm.ttl env.clkTtl e.creation ∧
        startSig env.get m0.alg e.keyMat = .ok sc ∧ m = { m0 with signctx := sc }) ∧
      (out.upstream = true → out.res = env.up req)
  | .clear => True

/-- What holds of all events. -/
def LogOk (sha : Bytes → Bytes) (allow : CachingCmm → Prop) : List CmmEvent → Prop
  | [] => True
  | x :: log => EvOk sha allow log x ∧ LogOk sha allow log

structure AInv (sha : Bytes → Bytes) (allow : CachingCmm → Prop) (num : Nat) (log : List CmmEvent) (s : CmmAll) : Prop where
  num : s.base.conc.num = num
  cc : CC s.base.conc
  prov : ∀ n e, s.base.conc.cache.mem n = some e → Prov sha log e
  enc : ∀ t, EncOk sha allow log s.base.conc.cache (s.base.pc t)
  dec : ∀ t, DecOk sha allow log s.base.conc.cache (s.dpc t)
  log : LogOk sha allow log

section
variable {sha : Bytes → Bytes} {allow : CachingCmm → Prop} {num : Nat} {log : List CmmEvent} {s : CmmAll} {t : Nat}

theorem AInv.new (addr : Nat → Nat) (cap : Nat) : AInv sha allow num [] (cmmAllNew addr cap num) :=
  ⟨rfl, .new addr cap num, fun _ _ h => (by cases h), fun _ => trivial, fun _ => trivial, trivial⟩

theorem Found.core {op : Option CacheOp} {c c' : Cache} {n : Nat} {id : Bytes} (h : Found c n id) (hc : Core op c c') : Found c' n id := by
  refine ⟨Nat.lt_of_lt_of_le h.1 hc.next, fun e' he' => ?_⟩
  rcases hc.old n e' he' with ⟨e, he, hs⟩ | ⟨hn, -⟩
  · rw [hs.1]; exact h.2 e he
  · have := h.1; omega

theorem Usable.core {op : Option CacheOp} {c c' : Cache} {n : Nat} {id : Bytes} {ttl : Nat} {clk : Option Nat} (h : Usable c n id ttl clk)
    (hc : Core op c c') : Usable c' n id ttl clk := by
  refine ⟨Nat.lt_of_lt_of_le h.1 hc.next, fun e' he' => ?_⟩
  rcases hc.old n e' he' with ⟨e, he, hs⟩ | ⟨hn, -⟩
  · rw [hs.1, hs.2.1]; exact h.2 e he
  · have := h.1; omega

theorem EncOk.core {op : Option CacheOp} {c c' : Cache} {p : Pc} (h : EncOk sha allow log c p) (hc : Core op c c') :
    EncOk sha allow log c' p := by
  cases p with
  | created g n => exact ⟨h.1, h.2.core hc⟩
  | hint g n _ => exact ⟨h.1, h.2.core hc⟩
  | use g n => exact ⟨h.1, h.2.core hc⟩
  | get g n _ _ => exact ⟨h.1, h.2.core hc⟩
  | _ => exact h

theorem DecOk.core {op : Option CacheOp} {c c' : Cache} {p : DPc} (h : DecOk sha allow log c p) (hc : Core op c c') :
    DecOk sha allow log c' p := by
  cases p with
  | created g n => exact ⟨h.1, h.2.core hc⟩
  | hint g n _ => exact ⟨h.1, h.2.core hc⟩
  | get g n => exact ⟨h.1, h.2.core hc⟩
  | _ => exact h

theorem EncOk.mono {c : Cache} {p : Pc} (x : CmmEvent) (h : EncOk sha allow log c p) : EncOk sha allow (x :: log) c p := by
  cases p with
  | put g ctx m => exact ⟨h.1, .tail _ h.2⟩
  | _ => exact h

theorem DecOk.mono {c : Cache} {p : DPc} (x : CmmEvent) (h : DecOk sha allow log c p) : DecOk sha allow (x :: log) c p := by
  cases p with
  | put g m => exact ⟨h.1, .tail _ h.2⟩
  | _ => exact h

/-- A request is answered. -/
theorem AInv.event (h : AInv sha allow num log s) {ev : Option CmmEvent} (hx : ∀ x, ev = some x → EvOk sha allow log x) :
    AInv sha allow num (ev.toList ++ log) s := by
  cases ev with
  | none => exact h
  | some x => exact ⟨h.num, h.cc, fun n e he => (h.prov n e he).mono x, fun t => (h.enc t).mono x, fun t => (h.dec t).mono x, hx x rfl, h.log⟩

/-- Moving program points. -/
theorem AInv.move (h : AInv sha allow num log s) {pc : Nat → Pc} {dpc : Nat → DPc}
    (h1 : ∀ t, EncOk sha allow log s.base.conc.cache (pc t)) (h2 : ∀ t, DecOk sha allow log s.base.conc.cache (dpc t)) :
    AInv sha allow num log ⟨⟨s.base.conc, pc⟩, dpc⟩ := ⟨h.num, h.cc, h.prov, h1, h2, h.log⟩

/-- A step of a call of the cache. -/
theorem AInv.shared (h : AInv sha allow num log s) {k : Conc} {op : Option CacheOp} (hn : k.num = s.base.conc.num) (hcc : CC k)
    (hc : Core op s.base.conc.cache k.cache) (hput : ∀ o e, op = some o → Stored o e → Prov sha log e) :
    AInv sha allow num log ⟨⟨k, s.base.pc⟩, s.dpc⟩ := by
  refine ⟨hn.trans h.num, hcc, fun n e' he' => ?_, fun t => (h.enc t).core hc, fun t => (h.dec t).core hc, h.log⟩
  rcases hc.old n e' he' with ⟨e, he, hs⟩ | ⟨-, o, ho, hst⟩
  · exact (h.prov n e he).core hs
  · exact hput o e' ho hst

/-- The step of the cache in it: what it does to entries, and what the call returned. -/
theorem conc_step {k k' : Conc} {mv : Move} {x : Option CacheResult} (hcc : CC k) (hs : k.step t mv = some (.ok (k', x))) :
    CC k' ∧ k'.num = k.num ∧ t < k.num ∧
    ((∃ op, mv = .call op ∧ Core (some op) k.cache k'.cache ∧ (k.thr t).doing = .idle ∧
        ∃ a, startCall op k.cache = .ok (k'.cache, a) ∧ x = a.result ∧
          k' = k.update t k'.cache ⟨heldAfter (some op) a (k.thr t).held, a.doing⟩) ∨
     (mv = .go ∧ Core none k.cache k'.cache ∧ (k.thr t).doing ≠ .idle ∧ ∃ a, resumeCall (k.thr t).doing k.cache = .ok (k'.cache, a) ∧
        x = a.result ∧ k' = k.update t k'.cache ⟨heldAfter none a (k.thr t).held, a.doing⟩)) := by
  rcases hcc.step hs with ⟨k2, x2, he, hc2, hk⟩ | ⟨n, -, -, -, -, he⟩
  · cases he
    refine ⟨hc2, ?_⟩
    cases hk with
    | @call op c' a ht hd hop hl hst hev hlk hcap hnew =>
      exact ⟨rfl, ht, .inl ⟨op, rfl, startCall_core hcc.ok hst, hd, a, hst, rfl, rfl⟩⟩
    | go ht hd hl hst hlat hcap hrel => exact ⟨rfl, ht, .inr ⟨rfl, resumeCall_core hst, hd, _, hst, rfl, rfl⟩⟩
  · cases he

/-- Results that a later step of a call can return. -/
theorem resumeCall_result {p : Pending} {c c' : Cache} {a : After} (h : resumeCall p c = .ok (c', a)) :
    (∀ r, a = .ret (.handle r) → False) ∧ (∀ r, a = .ret (.decMaterials r) → False) ∧ (∀ ctx r, a = .ret (.encMaterials ctx r) → False) ∧
    (∀ r, a = .ret (.time r) → False) := by
  cases p <;> simp only [resumeCall] at h <;> (repeat' split at h) <;> cases h <;>
    exact ⟨fun _ hh => (nomatch hh), fun _ hh => (nomatch hh), fun _ _ hh => (nomatch hh), fun _ hh => (nomatch hh)⟩

/-! ### time limits -/

/-- `check_ttl` accepts only within the time limit. -/
theorem ttl_never {ttl t : Nat} {clk : Option Nat} (h : u64 (t + ttl) < t) : WithinTtl ttl clk t := by
  right; left
  unfold u64 at h
  omega

theorem ttl_before {ttl t now : Nat} {clk : Option Nat} (hc : clk = some now) (h : ¬ now ≥ u64 (t + ttl)) : WithinTtl ttl clk t := by
  left
  refine ⟨now, hc, ?_⟩
  unfold u64 at h
  have := Nat.mod_le (t + ttl) (2 ^ 64)
  omega

/-! ### steps in `generate_enc_materials` -/

/-- What a call of the cache returned to `generate_enc_materials`. -/
theorem enc_call {held : List Nat} {c c' : Cache} {p : Pc} {op : CacheOp} {r : CacheResult} (hok : COk held c)
    (hprov : ∀ n e, c'.mem n = some e → Prov sha log e) (h : EncOk sha allow log c p) (hop : p.op = some op)
    (hs : startCall op c = .ok (c', .ret r)) :
    EncOk sha allow log c' (p.after c' r).1 ∧ ∀ x, (p.after c' r).2 = some x → EvOk sha allow log x := by
  have hcore := startCall_core hok hs
  cases p with
  | idle => cases hop
  | up g ctx => cases hop
  | find g =>
    cases hop
    cases r with
    | handle x =>
      cases x with
      | none => exact ⟨h, fun x hx => nomatch hx⟩
      | some n =>
        have hf := startCall_find hok hs
        refine ⟨?_, fun x hx => nomatch hx⟩
        simp only [Pc.after]
        split
        · exact h
        · split
          · next ht => exact ⟨h, hf.1, fun e he => ⟨hf.2 e he, .inr (.inr ht)⟩⟩
          · exact ⟨h, hf⟩
    | _ => exact ⟨trivial, fun x hx => nomatch hx⟩
  | created g n =>
    cases hop
    cases r with
    | time t =>
      refine ⟨?_, fun x hx => nomatch hx⟩
      have hcr : ∃ e, c.mem n = some e ∧ e.creation = t ∧ c' = c := by
        simp only [startCall, cacheCall, cacheCreation, Cache.entry] at hs
        cases he : c.mem n with
        | none => rw [he] at hs; cases hs
        | some e => rw [he] at hs; cases hs; exact ⟨e, rfl, rfl, rfl⟩
      obtain ⟨e, he, hcr, rfl⟩ := hcr
      have use : WithinTtl g.cmm.ttl g.env.clkTtl t → Usable c' n g.id g.cmm.ttl g.env.clkTtl := fun hw =>
        ⟨h.2.1, fun f hf => by rw [he] at hf; cases hf; exact ⟨h.2.2 e he, by rw [hcr]; exact hw⟩⟩
      simp only [Pc.after, afterCreated]
      split
      · next hlt => exact ⟨h.1, use (ttl_never hlt)⟩
      · split
        · exact h.1
        · next now hclk =>
          split
          · exact h.1
          · next hlt => exact ⟨h.1, use (ttl_before hclk hlt)⟩
    | _ => exact ⟨trivial, fun x hx => nomatch hx⟩
  | hint g n u => exact ⟨⟨h.1, h.2.core hcore⟩, fun x hx => by cases r <;> cases hx⟩
  | use g n =>
    have hd : EncOk sha allow log c' (.drop g n g.req.encCtx) := h.1
    cases r with
    | usage y =>
      cases y with
      | error e => exact ⟨hd, fun x hx => nomatch hx⟩
      | ok y =>
        obtain ⟨bytes, messages⟩ := y
        refine ⟨?_, fun x hx => nomatch hx⟩
        simp only [Pc.after]
        split
        · exact hd
        · exact ⟨h.1, h.2.core hcore⟩
    | _ => exact ⟨hd, fun x hx => nomatch hx⟩
  | get g n bytes messages =>
    cases hop
    cases r with
    | encMaterials ctx y =>
      cases y with
      | error e => exact ⟨h.1, fun x hx => nomatch hx⟩
      | ok m =>
        refine ⟨trivial, fun x hx => ?_⟩
        simp only [Pc.after, Option.some.injEq] at hx
        subst hx
        refine ⟨h.1.2, fun m' _ hm => ?_, fun hu => nomatch hu⟩
        cases hm
        have hg : cacheGetEnc g.env.get n g.req.encCtx c = .ok (ctx, .ok m) ∧ c' = c := by
          simp only [startCall, cacheCall] at hs
          cases hg : cacheGetEnc g.env.get n g.req.encCtx c with
          | error f => rw [hg] at hs; cases hs
          | ok y => obtain ⟨y1, y2⟩ := y; rw [hg] at hs; cases hs; exact ⟨rfl, rfl⟩
        obtain ⟨hs, rfl⟩ := hg
        simp only [cacheGetEnc, Cache.entry] at hs
        cases he : c'.mem n with
        | none => rw [he] at hs; cases hs
        | some e =>
          rw [he] at hs
          simp only at hs
          cases hmat : e.mat with
          | dec m0 => rw [hmat] at hs; cases hs
          | enc m0 ectx =>
            rw [hmat] at hs
            simp only at hs
            split at hs
            · cases hs
            · split at hs
              · cases hs
              · cases hsig : startSig g.env.get m0.alg e.keyMat with
                | error er => rw [hsig] at hs; cases hs
                | ok sc =>
                  rw [hsig] at hs
                  cases hs
                  have hu := h.2.2 e he
                  exact ⟨e, m0, ectx, sc, hprov n e he, hmat, by rw [hu.1]; exact h.1.1, hu.2, rfl, hsig, rfl⟩
    | _ => exact ⟨trivial, fun x hx => nomatch hx⟩
  | drop g n ctx => exact ⟨h, fun x hx => by cases r <;> cases hx⟩
  | fin n inv => exact ⟨trivial, fun x hx => by cases r <;> cases hx⟩
  | put g ctx m =>
    cases r with
    | handle y =>
      cases y with
      | none => exact ⟨trivial, fun x hx => nomatch hx⟩
      | some n =>
        refine ⟨?_, fun x hx => nomatch hx⟩
        simp only [Pc.after]
        split <;> trivial
    | _ => exact ⟨trivial, fun x hx => nomatch hx⟩
  | createdMiss g n =>
    cases r with
    | time u =>
      refine ⟨?_, fun x hx => nomatch hx⟩
      simp only [Pc.after]
      split <;> trivial
    | _ => exact ⟨trivial, fun x hx => nomatch hx⟩
  | hintMiss g n u => exact ⟨trivial, fun x hx => by cases r <;> cases hx⟩

/-- What a later step of a call of the cache returned to `generate_enc_materials`. -/
theorem enc_go {c c' : Cache} {p : Pc} {q : Pending} {r : CacheResult} (h : EncOk sha allow log c p)
    (hs : resumeCall q c = .ok (c', .ret r)) :
    EncOk sha allow log c' (p.after c' r).1 ∧ ∀ x, (p.after c' r).2 = some x → EvOk sha allow log x := by
  have hcore := resumeCall_core hs
  have hr := resumeCall_result hs
  have h' := h.core hcore
  cases r with
  | handle y => exact (hr.1 _ rfl).elim
  | decMaterials y => exact (hr.2.1 _ rfl).elim
  | encMaterials ctx y => exact (hr.2.2.1 _ _ rfl).elim
  | time y => exact (hr.2.2.2 _ rfl).elim
  | number y =>
    cases p with
    | hint g n u => exact ⟨h', fun x hx => nomatch hx⟩
    | use g n => exact ⟨h'.1, fun x hx => nomatch hx⟩
    | drop g n ctx => exact ⟨h', fun x hx => nomatch hx⟩
    | _ => exact ⟨trivial, fun x hx => nomatch hx⟩
  | done =>
    cases p with
    | hint g n u => exact ⟨h', fun x hx => nomatch hx⟩
    | use g n => exact ⟨h'.1, fun x hx => nomatch hx⟩
    | drop g n ctx => exact ⟨h', fun x hx => nomatch hx⟩
    | _ => exact ⟨trivial, fun x hx => nomatch hx⟩
  | usage y =>
    cases p with
    | hint g n u => exact ⟨h', fun x hx => nomatch hx⟩
    | use g n =>
      cases y with
      | error e => exact ⟨h'.1, fun x hx => nomatch hx⟩
      | ok y =>
        obtain ⟨bytes, messages⟩ := y
        refine ⟨?_, fun x hx => nomatch hx⟩
        simp only [Pc.after]
        split
        · exact h'.1
        · exact h'
    | drop g n ctx => exact ⟨h', fun x hx => nomatch hx⟩
    | _ => exact ⟨trivial, fun x hx => nomatch hx⟩

/-- The start of `generate_enc_materials`. -/
theorem enc_start {cmm : CachingCmm} {env : GenEnv} {req : EncRequest} {c : Cache} {p : Pc} {ev : Option CmmEvent} (ha : allow cmm)
    (hs : genStart sha cmm env req = .ok (p, ev)) : EncOk sha allow log c p ∧ ∀ x, ev = some x → EvOk sha allow log x := by
  have bypass : (p, ev) = (.idle, some (.gen cmm env req ⟨(env.up req).1, (env.up req).2, true⟩)) →
      EncOk sha allow log c p ∧ ∀ x, ev = some x → EvOk sha allow log x := by
    intro h
    cases h
    refine ⟨trivial, fun x hx => ?_⟩
    cases hx
    exact ⟨ha, fun m hu => (nomatch hu), fun _ => ⟨req.encCtx, rfl⟩⟩
  have cached : (match hashEnc sha env.ids cmm.partition req with
      | .error e => (Pc.idle, some (CmmEvent.gen cmm env req ⟨req.encCtx, .error e, false⟩))
      | .ok id => (.find ⟨cmm, env, req, id⟩, none)) = (p, ev) →
      EncOk sha allow log c p ∧ ∀ x, ev = some x → EvOk sha allow log x := by
    intro h
    cases hh : hashEnc sha env.ids cmm.partition req with
    | error e =>
      rw [hh] at h
      cases h
      refine ⟨trivial, fun x hx => ?_⟩
      cases hx
      exact ⟨ha, fun m _ hm => (nomatch hm), fun hu => (nomatch hu)⟩
    | ok id =>
      rw [hh] at h
      cases h
      exact ⟨⟨hh, ha⟩, fun x hx => nomatch hx⟩
  unfold genStart at hs
  by_cases h1 : req.plaintextSize > cmm.limitBytes
  · rw [if_pos h1] at hs
    exact bypass (Except.ok.inj hs).symm
  · rw [if_neg h1] at hs
    by_cases h2 : req.requestedAlg = 0
    · rw [if_pos h2] at hs
      exact cached (Except.ok.inj hs)
    · rw [if_neg h2] at hs
      cases hc : canCache req.requestedAlg with
      | error f => rw [hc] at hs; cases hs
      | ok b =>
        rw [hc] at hs
        cases b with
        | false => exact bypass (Except.ok.inj hs).symm
        | true => exact cached (Except.ok.inj hs)

/-- The upstream call of `generate_enc_materials`: the event, and then the program point. -/
theorem enc_up {g : GenCall} {ctx : EncCtx} {c : Cache} {p : Pc} {ev : Option CmmEvent} (h : g.Ok sha allow)
    (hs : genUp g ctx = .ok (p, ev)) : (∀ x, ev = some x → EvOk sha allow log x) ∧ EncOk sha allow (ev.toList ++ log) c p := by
  unfold genUp at hs
  cases hup : g.env.up { g.req with encCtx := ctx } with
  | mk ctx' r =>
    rw [hup] at hs
    cases r with
    | error e =>
      cases hs
      refine ⟨fun x hx => ?_, trivial⟩
      cases hx
      exact ⟨h.2, fun m hu => (nomatch hu), fun _ => ⟨ctx, hup⟩⟩
    | ok m =>
      simp only at hs
      cases hc : canCache m.alg with
      | error f => rw [hc] at hs; cases hs
      | ok b =>
        rw [hc] at hs
        cases hs
        refine ⟨fun x hx => ?_, ?_⟩
        · cases hx
          exact ⟨h.2, fun m hu => (nomatch hu), fun _ => ⟨ctx, hup⟩⟩
        · split
          · exact ⟨h, .head _⟩
          · trivial

/-! ### steps in `decrypt_materials` -/

/-- What a call of the cache returned to `decrypt_materials`. -/
theorem dec_call {held : List Nat} {c c' : Cache} {p : DPc} {op : CacheOp} {r : CacheResult} (hok : COk held c)
    (hprov : ∀ n e, c'.mem n = some e → Prov sha log e) (h : DecOk sha allow log c p) (hop : p.op = some op)
    (hs : startCall op c = .ok (c', .ret r)) :
    DecOk sha allow log c' (p.after c' r).1 ∧ ∀ x, (p.after c' r).2 = some x → EvOk sha allow log x := by
  have hcore := startCall_core hok hs
  cases p with
  | idle => cases hop
  | up g => cases hop
  | find g =>
    cases hop
    cases r with
    | handle x =>
      cases x with
      | none => exact ⟨h, fun x hx => nomatch hx⟩
      | some n =>
        have hf := startCall_find hok hs
        refine ⟨?_, fun x hx => nomatch hx⟩
        simp only [DPc.after]
        split
        · exact h
        · split
          · next ht => exact ⟨h, hf.1, fun e he => ⟨hf.2 e he, .inr (.inr ht)⟩⟩
          · exact ⟨h, hf⟩
    | _ => exact ⟨trivial, fun x hx => nomatch hx⟩
  | created g n =>
    cases hop
    cases r with
    | time t =>
      refine ⟨?_, fun x hx => nomatch hx⟩
      have hcr : ∃ e, c.mem n = some e ∧ e.creation = t ∧ c' = c := by
        simp only [startCall, cacheCall, cacheCreation, Cache.entry] at hs
        cases he : c.mem n with
        | none => rw [he] at hs; cases hs
        | some e => rw [he] at hs; cases hs; exact ⟨e, rfl, rfl, rfl⟩
      obtain ⟨e, he, hcr, rfl⟩ := hcr
      have use : WithinTtl g.cmm.ttl g.env.clkTtl t → Usable c' n g.id g.cmm.ttl g.env.clkTtl := fun hw =>
        ⟨h.2.1, fun f hf => by rw [he] at hf; cases hf; exact ⟨h.2.2 e he, by rw [hcr]; exact hw⟩⟩
      simp only [DPc.after, decAfterCreated]
      split
      · next hlt => exact ⟨h.1, use (ttl_never hlt)⟩
      · split
        · exact h.1
        · next now hclk =>
          split
          · exact h.1
          · next hlt => exact ⟨h.1, use (ttl_before hclk hlt)⟩
    | _ => exact ⟨trivial, fun x hx => nomatch hx⟩
  | hint g n u => exact ⟨⟨h.1, h.2.core hcore⟩, fun x hx => by cases r <;> cases hx⟩
  | get g n =>
    cases hop
    cases r with
    | decMaterials y =>
      cases y with
      | error e => exact ⟨h.1, fun x hx => nomatch hx⟩
      | ok m =>
        refine ⟨trivial, fun x hx => ?_⟩
        simp only [DPc.after, Option.some.injEq] at hx
        subst hx
        refine ⟨h.1.2, fun m' _ hm => ?_, fun hu => nomatch hu⟩
        cases hm
        have hg : cacheGetDec g.env.get n c = .ok (.ok m) ∧ c' = c := by
          simp only [startCall, cacheCall] at hs
          cases hg : cacheGetDec g.env.get n c with
          | error f => rw [hg] at hs; cases hs
          | ok y => rw [hg] at hs; cases hs; exact ⟨rfl, rfl⟩
        obtain ⟨hs, rfl⟩ := hg
        simp only [cacheGetDec, Cache.entry] at hs
        cases he : c'.mem n with
        | none => rw [he] at hs; cases hs
        | some e =>
          rw [he] at hs
          simp only at hs
          cases hmat : e.mat with
          | enc m0 ectx => rw [hmat] at hs; cases hs
          | dec m0 =>
            rw [hmat] at hs
            simp only at hs
            split at hs
            · cases hs
            · cases hsig : startSig g.env.get m0.alg e.keyMat with
              | error er => rw [hsig] at hs; cases hs
              | ok sc =>
                rw [hsig] at hs
                cases hs
                have hu := h.2.2 e he
                exact ⟨e, m0, sc, hprov n e he, hmat, by rw [hu.1]; exact h.1.1, hu.2, hsig, rfl⟩
    | _ => exact ⟨h.1, fun x hx => nomatch hx⟩
  | drop g n => exact ⟨h, fun x hx => by cases r <;> cases hx⟩
  | fin n => exact ⟨trivial, fun x hx => by cases r <;> cases hx⟩
  | put g m =>
    cases r with
    | handle y =>
      cases y with
      | none => exact ⟨trivial, fun x hx => nomatch hx⟩
      | some n =>
        refine ⟨?_, fun x hx => nomatch hx⟩
        simp only [DPc.after]
        split <;> trivial
    | _ => exact ⟨trivial, fun x hx => nomatch hx⟩
  | createdMiss g n =>
    cases r with
    | time u =>
      refine ⟨?_, fun x hx => nomatch hx⟩
      simp only [DPc.after]
      split <;> trivial
    | _ => exact ⟨trivial, fun x hx => nomatch hx⟩
  | hintMiss g n u => exact ⟨trivial, fun x hx => by cases r <;> cases hx⟩

/-- What a later step of a call of the cache returned to `decrypt_materials`. -/
theorem dec_go {c c' : Cache} {p : DPc} {q : Pending} {r : CacheResult} (h : DecOk sha allow log c p)
    (hs : resumeCall q c = .ok (c', .ret r)) :
    DecOk sha allow log c' (p.after c' r).1 ∧ ∀ x, (p.after c' r).2 = some x → EvOk sha allow log x := by
  have hcore := resumeCall_core hs
  have hr := resumeCall_result hs
  have h' := h.core hcore
  cases r with
  | handle y => exact (hr.1 _ rfl).elim
  | decMaterials y => exact (hr.2.1 _ rfl).elim
  | encMaterials ctx y => exact (hr.2.2.1 _ _ rfl).elim
  | time y => exact (hr.2.2.2 _ rfl).elim
  | _ =>
    cases p with
    | hint g n u => exact ⟨h', fun x hx => nomatch hx⟩
    | get g n => exact ⟨h'.1, fun x hx => nomatch hx⟩
    | drop g n => exact ⟨h', fun x hx => nomatch hx⟩
    | _ => exact ⟨trivial, fun x hx => nomatch hx⟩

/-- The start of `decrypt_materials`. -/
theorem dec_start {cmm : CachingCmm} {env : DecEnv} {req : DecRequest} {c : Cache} {p : DPc} {ev : Option CmmEvent} (ha : allow cmm)
    (hs : decStart sha cmm env req = .ok (p, ev)) : DecOk sha allow log c p ∧ ∀ x, ev = some x → EvOk sha allow log x := by
  unfold decStart at hs
  cases hc : canCache req.alg with
  | error f => rw [hc] at hs; cases hs
  | ok b =>
    rw [hc] at hs
    cases b with
    | false =>
      cases hs
      refine ⟨trivial, fun x hx => ?_⟩
      cases hx
      exact ⟨ha, fun m hu => (nomatch hu), fun _ => rfl⟩
    | true =>
      simp only at hs
      cases hh : hashDec sha env.ids cmm.partition req with
      | error f => rw [hh] at hs; cases hs
      | ok y =>
        rw [hh] at hs
        cases y with
        | error e =>
          cases hs
          refine ⟨trivial, fun x hx => ?_⟩
          cases hx
          exact ⟨ha, fun m _ hm => (nomatch hm), fun hu => (nomatch hu)⟩
        | ok id => cases hs; exact ⟨⟨hh, ha⟩, fun x hx => nomatch hx⟩

/-- The upstream call of `decrypt_materials`. -/
theorem dec_up {g : DecCall} {c : Cache} (h : g.Ok sha allow) :
    (∀ x, (decUp g).2 = some x → EvOk sha allow log x) ∧ DecOk sha allow ((decUp g).2.toList ++ log) c (decUp g).1 := by
  unfold decUp
  cases hup : g.env.up g.req with
  | error e =>
    refine ⟨fun x hx => ?_, trivial⟩
    cases hx
    exact ⟨h.2, fun m hu => (nomatch hu), fun _ => hup.symm⟩
  | ok m =>
    refine ⟨fun x hx => ?_, h, .head _⟩
    cases hx
    exact ⟨h.2, fun m hu => (nomatch hu), fun _ => hup.symm⟩

/-! ### all steps -/

theorem pc_idle {p : Pc} (h : p.isIdle = true) : p = .idle := by
  cases p <;> first | rfl | cases h

theorem dpc_idle {p : DPc} (h : p.isIdle = true) : p = .idle := by
  cases p <;> first | rfl | cases h

/-- What is stored comes from the log. -/
theorem enc_put {c : Cache} {p : Pc} {op : CacheOp} {e : Entry} (h : EncOk sha allow log c p) (hop : p.op = some op) (he : Stored op e) :
    Prov sha log e := by
  cases p <;> cases hop <;> first | exact False.elim he | skip
  next g ctx m =>
    obtain ⟨h1, h2, h3, h4⟩ := he
    unfold Prov
    rw [h1]
    exact ⟨g.cmm, g.env, g.req, _, m, h.2, rfl, rfl, rfl, rfl, by rw [h2]; exact h.1.1, h3, h4⟩

theorem dec_put {c : Cache} {p : DPc} {op : CacheOp} {e : Entry} (h : DecOk sha allow log c p) (hop : p.op = some op) (he : Stored op e) :
    Prov sha log e := by
  cases p <;> cases hop <;> first | exact False.elim he | skip
  next g m =>
    obtain ⟨h1, h2, h3, h4⟩ := he
    unfold Prov
    rw [h1]
    exact ⟨g.cmm, g.env, g.req, _, m, h.2, rfl, rfl, rfl, by rw [h2]; exact h.1.1, h3, h4⟩

/-- A step in `generate_enc_materials`, or clearing the cache. -/
theorem AInv.base {bm : CmmMove} {b : CmmConc} {ev : Option CmmEvent} (h : AInv sha allow num log s)
    (ha : ∀ cmm env req, bm = .start cmm env req → allow cmm) (ho : ∀ op, bm = .other op → op = .clear)
    (hs : s.base.step sha t bm = some (.ok (b, ev))) : AInv sha allow num (ev.toList ++ log) ⟨b, s.dpc⟩ := by
  have localStep : ∀ (r : Except Fault (Pc × Option CmmEvent)), s.base.local t r = .ok (b, ev) →
      (∀ p ev, r = .ok (p, ev) → (∀ x, ev = some x → EvOk sha allow log x) ∧ EncOk sha allow (ev.toList ++ log) s.base.conc.cache p) →
      AInv sha allow num (ev.toList ++ log) ⟨b, s.dpc⟩ := by
    intro r hr hq
    unfold CmmConc.local at hr
    cases r with
    | error f => cases hr
    | ok y =>
      obtain ⟨p, ev'⟩ := y
      cases hr
      obtain ⟨h1, h2⟩ := hq p ev rfl
      have h' := h.event h1
      refine h'.move (fun i => ?_) h'.dec
      by_cases hi : i = t
      · simp only [hi, if_true]; exact h2
      · simp only [hi, if_false]; exact h'.enc i
  have idle : s.base.pc t = .idle → ∀ c r, (s.base.pc t).after c r = (.idle, none) := by
    intro hp c r; rw [hp]; cases r <;> rfl
  have sharedStep : ∀ cm, s.base.shared t (s.base.conc.step t cm) = some (.ok (b, ev)) →
      (∀ op, cm = .call op → (s.base.pc t).op = some op ∨ (op = .clear ∧ s.base.pc t = .idle)) →
      AInv sha allow num (ev.toList ++ log) ⟨b, s.dpc⟩ := by
    intro cm hr hcm
    cases hk : s.base.conc.step t cm with
    | none => rw [hk] at hr; cases hr
    | some y =>
      rw [hk] at hr
      cases y with
      | error f => cases hr
      | ok y =>
        obtain ⟨k, x⟩ := y
        obtain ⟨hcc, hnum, ht, hstep⟩ := conc_step h.cc hk
        have key : AInv sha allow num log ⟨⟨k, s.base.pc⟩, s.dpc⟩ ∧ ∀ r, x = some r →
            EncOk sha allow log k.cache ((s.base.pc t).after k.cache r).1 ∧
            ∀ x, ((s.base.pc t).after k.cache r).2 = some x → EvOk sha allow log x := by
          rcases hstep with ⟨op, rfl, hcore, hd, a, hst, rfl, -⟩ | ⟨rfl, hcore, -, a, hst, rfl, -⟩
          · rcases hcm op rfl with hop | ⟨rfl, hp⟩
            · have hA := h.shared hnum hcc hcore (fun o e ho he => by cases ho; exact enc_put (h.enc t) hop he)
              refine ⟨hA, fun r hr => ?_⟩
              cases a with
              | wait p => cases hr
              | ret r' => cases hr; exact enc_call h.cc.ok hA.prov (h.enc t) hop hst
            · refine ⟨h.shared hnum hcc hcore (fun o e ho he => by cases ho; exact False.elim he), fun r hr => ?_⟩
              rw [idle hp]
              exact ⟨trivial, fun x hx => nomatch hx⟩
          · refine ⟨h.shared hnum hcc hcore (fun o e ho he => nomatch ho), fun r hr => ?_⟩
            cases a with
            | wait p => cases hr
            | ret r' => cases hr; exact enc_go (h.enc t) hst
        obtain ⟨hA, hres⟩ := key
        cases x with
        | none => cases hr; exact hA
        | some r =>
          simp only [CmmConc.shared, Option.some.injEq, Except.ok.injEq, Prod.mk.injEq] at hr
          obtain ⟨rfl, rfl⟩ := hr
          obtain ⟨h1, h2⟩ := hres r rfl
          refine ((hA.move (pc := fun i => if i = t then ((s.base.pc t).after k.cache r).1 else s.base.pc i) (fun i => ?_) hA.dec).event h2)
          by_cases hi : i = t
          · simp only [hi, if_true]; exact h1
          · simp only [hi, if_false]; exact hA.enc i
  cases bm with
  | start cmm env req =>
    simp only [CmmConc.step] at hs
    split at hs
    · refine localStep _ (Option.some.inj hs) (fun p ev hp => ?_)
      have := enc_start (log := log) (c := s.base.conc.cache) (ha cmm env req rfl) hp
      refine ⟨this.2, ?_⟩
      cases ev with
      | none => exact this.1
      | some x => exact this.1.mono x
    · cases hs
  | up =>
    simp only [CmmConc.step] at hs
    have hok := h.enc t
    cases hp : s.base.pc t with
    | up g ctx =>
      rw [hp] at hs hok
      simp only at hs
      split at hs
      · exact localStep _ (Option.some.inj hs) (fun p ev hp => enc_up hok hp)
      · cases hs
    | _ => rw [hp] at hs; cases hs
  | call =>
    simp only [CmmConc.step] at hs
    cases hop : (s.base.pc t).op with
    | none => rw [hop] at hs; cases hs
    | some op => rw [hop] at hs; exact sharedStep _ hs (fun op' ho' => by cases ho'; exact .inl hop)
  | go => exact sharedStep _ hs (fun op' ho' => nomatch ho')
  | other op =>
    simp only [CmmConc.step] at hs
    have := ho op rfl
    subst this
    split at hs
    · next hi => exact sharedStep _ hs (fun op' ho' => by cases ho'; exact .inr ⟨rfl, pc_idle hi.1⟩)
    · cases hs

theorem lift_ok {s s' : CmmAll} {r : Option (Except Fault (CmmConc × Option CmmEvent))} {ev : Option CmmEvent}
    (h : s.lift r = some (.ok (s', ev))) : ∃ b, r = some (.ok (b, ev)) ∧ s' = ⟨b, s.dpc⟩ := by
  cases r with
  | none => cases h
  | some y =>
    cases y with
    | error f => cases h
    | ok y => obtain ⟨b, ev'⟩ := y; cases h; exact ⟨b, rfl, rfl⟩

/-- Every step keeps the invariant. -/
theorem AInv.step {mv : AllMove} {s' : CmmAll} {ev : Option CmmEvent} (h : AInv sha allow num log s) (ha : AllMove.on allow mv)
    (hs : s.step sha t mv = some (.ok (s', ev))) : AInv sha allow num (ev.toList ++ log) s' := by
  have liftStep : ∀ bm, s.lift (s.base.step sha t bm) = some (.ok (s', ev)) → (∀ cmm env req, bm = .start cmm env req → allow cmm) →
      (∀ op, bm = .other op → op = .clear) → AInv sha allow num (ev.toList ++ log) s' := by
    intro bm hb h1 h2
    obtain ⟨b, hb2, rfl⟩ := lift_ok hb
    exact h.base h1 h2 hb2
  have localStep : ∀ (r : Except Fault (DPc × Option CmmEvent)), s.local t r = .ok (s', ev) →
      (∀ p ev, r = .ok (p, ev) → (∀ x, ev = some x → EvOk sha allow log x) ∧ DecOk sha allow (ev.toList ++ log) s.base.conc.cache p) →
      AInv sha allow num (ev.toList ++ log) s' := by
    intro r hr hq
    unfold CmmAll.local at hr
    cases r with
    | error f => cases hr
    | ok y =>
      obtain ⟨p, ev'⟩ := y
      cases hr
      obtain ⟨h1, h2⟩ := hq p ev rfl
      have h' := h.event h1
      refine h'.move h'.enc (fun i => ?_)
      by_cases hi : i = t
      · simp only [hi, if_true]; exact h2
      · simp only [hi, if_false]; exact h'.dec i
  have sharedStep : ∀ cm, s.shared t (s.base.conc.step t cm) = some (.ok (s', ev)) → (∀ op, cm = .call op → (s.dpc t).op = some op) →
      AInv sha allow num (ev.toList ++ log) s' := by
    intro cm hr hcm
    cases hk : s.base.conc.step t cm with
    | none => rw [hk] at hr; cases hr
    | some y =>
      rw [hk] at hr
      cases y with
      | error f => cases hr
      | ok y =>
        obtain ⟨k, x⟩ := y
        obtain ⟨hcc, hnum, ht, hstep⟩ := conc_step h.cc hk
        have key : AInv sha allow num log ⟨⟨k, s.base.pc⟩, s.dpc⟩ ∧ ∀ r, x = some r →
            DecOk sha allow log k.cache ((s.dpc t).after k.cache r).1 ∧
            ∀ x, ((s.dpc t).after k.cache r).2 = some x → EvOk sha allow log x := by
          rcases hstep with ⟨op, rfl, hcore, hd, a, hst, rfl, -⟩ | ⟨rfl, hcore, -, a, hst, rfl, -⟩
          · have hop := hcm op rfl
            have hA := h.shared hnum hcc hcore (fun o e ho he => by cases ho; exact dec_put (h.dec t) hop he)
            refine ⟨hA, fun r hr => ?_⟩
            cases a with
            | wait p => cases hr
            | ret r' => cases hr; exact dec_call h.cc.ok hA.prov (h.dec t) hop hst
          · refine ⟨h.shared hnum hcc hcore (fun o e ho he => nomatch ho), fun r hr => ?_⟩
            cases a with
            | wait p => cases hr
            | ret r' => cases hr; exact dec_go (h.dec t) hst
        obtain ⟨hA, hres⟩ := key
        cases x with
        | none => cases hr; exact hA
        | some r =>
          simp only [CmmAll.shared, Option.some.injEq, Except.ok.injEq, Prod.mk.injEq] at hr
          obtain ⟨rfl, rfl⟩ := hr
          obtain ⟨h1, h2⟩ := hres r rfl
          refine ((hA.move (dpc := fun i => if i = t then ((s.dpc t).after k.cache r).1 else s.dpc i) hA.enc (fun i => ?_)).event h2)
          by_cases hi : i = t
          · simp only [hi, if_true]; exact h1
          · simp only [hi, if_false]; exact hA.dec i
  cases mv with
  | gen cmm env req =>
    simp only [CmmAll.step] at hs
    split at hs
    · exact liftStep _ hs (fun _ _ _ hh => by cases hh; exact ha) (fun _ hh => nomatch hh)
    · cases hs
  | dec cmm env req =>
    simp only [CmmAll.step] at hs
    split at hs
    · refine localStep _ (Option.some.inj hs) (fun p ev hp => ?_)
      have := dec_start (log := log) (c := s.base.conc.cache) ha hp
      refine ⟨this.2, ?_⟩
      cases ev with
      | none => exact this.1
      | some x => exact this.1.mono x
    · cases hs
  | up =>
    simp only [CmmAll.step] at hs
    have hok := h.dec t
    cases hp : s.dpc t with
    | idle => rw [hp] at hs; exact liftStep _ hs (fun _ _ _ hh => nomatch hh) (fun _ hh => nomatch hh)
    | up g =>
      rw [hp] at hs hok
      simp only at hs
      split at hs
      · refine localStep _ (Option.some.inj hs) (fun p ev hp => ?_)
        have := dec_up (log := log) (c := s.base.conc.cache) hok
        rw [Except.ok.inj hp] at this
        exact this
      · cases hs
    | _ => rw [hp] at hs; cases hs
  | call =>
    simp only [CmmAll.step] at hs
    split at hs
    · exact liftStep _ hs (fun _ _ _ hh => nomatch hh) (fun _ hh => nomatch hh)
    · cases hop : (s.dpc t).op with
      | none => rw [hop] at hs; cases hs
      | some op => rw [hop] at hs; exact sharedStep _ hs (fun op' ho' => by cases ho'; exact hop)
  | go =>
    simp only [CmmAll.step] at hs
    split at hs
    · exact liftStep _ hs (fun _ _ _ hh => nomatch hh) (fun _ hh => nomatch hh)
    · exact sharedStep _ hs (fun op' ho' => nomatch ho')
  | clear =>
    simp only [CmmAll.step] at hs
    split at hs
    · exact liftStep _ hs (fun _ _ _ hh => nomatch hh) (fun op hh => by cases hh; rfl)
    · cases hs

/-- All executions have the invariant. -/
theorem Spec.AllRuns.inv {addr : Nat → Nat} {cap : Nat} (h : AllRuns sha allow addr cap num log s) : AInv sha allow num log s := by
  induction h with
  | new => exact .new addr cap
  | step _ ha hs ih => exact ih.step ha hs

end
end Verif
