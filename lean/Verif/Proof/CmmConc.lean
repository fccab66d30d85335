import Verif.Spec.CmmConc
import Verif.Proof.CacheConc
import Verif.Proof.CachingCmmInv
/-
Counting, over all threads, what was served and what may still be served with a cached data key.
-/
namespace Verif

open Spec

/-- The data key of cached encryption materials. -/
def matKey : Mat → Option Bytes
  | .enc m _ => some m.dataKey
  | .dec _ => none

/-! ### what a thread contributes for entry `n` -/

/-- Bytes that will be served if the request succeeds. -/
def wPB (n : Nat) : Pc → Pending → Nat
  | .get g m _ _, _ => if m = n then g.req.plaintextSize else 0
  | .use g _, .addMessages m sum _ => if m = n ∧ sum ≤ g.cmm.limitBytes then g.req.plaintextSize else 0
  | _, _ => 0

/-- Messages that will be served if the request succeeds. -/
def wPM (n : Nat) : Pc → Pending → Nat
  | .get _ m _ _, _ => if m = n then 1 else 0
  | _, _ => 0

/-- Bytes possibly counted above the limit. -/
def wOV (LB n : Nat) : Pc → Pending → Nat
  | .drop _ m _, _ => if m = n then LB else 0
  | .use g _, .addMessages m sum _ => if m = n ∧ ¬ sum ≤ g.cmm.limitBytes then LB else 0
  | _, _ => 0

/-- Messages possibly counted above the limit. -/
def wDR (n : Nat) : Pc → Pending → Nat
  | .drop _ m _, _ => if m = n then 1 else 0
  | _, _ => 0

/-- Bytes about to be counted. -/
def wA1 (LB n : Nat) : Pc → Pending → Nat
  | .use _ _, .addBytes m _ _ => if m = n then LB else 0
  | _, _ => 0

/-- Messages about to be counted. -/
def wA2 (n : Nat) : Pc → Pending → Nat
  | .use _ _, .addBytes m _ _ => if m = n then 1 else 0
  | .use _ _, .addMessages m _ _ => if m = n then 1 else 0
  | _, _ => 0

theorem wOV_wA1 (LB n : Nat) (p : Pc) (d : Pending) : wOV LB n p d + wA1 LB n p d ≤ LB := by
  cases p <;> cases d <;> simp only [wOV, wA1] <;> (repeat' split) <;> omega

theorem wDR_wA2 (n : Nat) (p : Pc) (d : Pending) : wDR n p d + wA2 n p d ≤ 1 := by
  cases p <;> cases d <;> simp only [wDR, wA2] <;> (repeat' split) <;> omega

/-- Sum over the threads. -/
def tot (K : Nat) (f : Nat → Nat) : Nat := ((List.range K).map f).sum

theorem tot_succ (K : Nat) (f : Nat → Nat) : tot (K + 1) f = tot K f + f K := by
  unfold tot
  rw [List.range_succ, List.map_append, List.sum_append]
  simp

theorem tot_congr {K : Nat} {f g : Nat → Nat} (h : ∀ i, i < K → f i = g i) : tot K f = tot K g := by
  induction K with
  | zero => rfl
  | succ K ih => rw [tot_succ, tot_succ, ih (fun i hi => h i (by omega)), h K (by omega)]

theorem tot_update {K : Nat} {f g : Nat → Nat} {t : Nat} (ht : t < K) (h : ∀ i, i ≠ t → g i = f i) : tot K g + f t = tot K f + g t := by
  induction K with
  | zero => omega
  | succ K ih =>
    rw [tot_succ, tot_succ]
    by_cases hk : t = K
    · subst hk
      rw [tot_congr (f := g) (g := f) (fun i hi => h i (by omega))]
      omega
    · have := ih (by omega)
      rw [h K (by omega)]
      omega

theorem tot_le {K : Nat} {f : Nat → Nat} {b : Nat} (h : ∀ i, i < K → f i ≤ b) : tot K f ≤ b * K := by
  induction K with
  | zero => simp [tot]
  | succ K ih =>
    rw [tot_succ, Nat.mul_succ]
    have := ih (fun i hi => h i (by omega))
    have := h K (by omega)
    omega

theorem tot_add (K : Nat) (f g : Nat → Nat) : tot K (fun i => f i + g i) = tot K f + tot K g := by
  induction K with
  | zero => rfl
  | succ K ih => rw [tot_succ, tot_succ, tot_succ, ih]; omega

theorem tot_zero {K : Nat} {f : Nat → Nat} (h : ∀ i, i < K → f i = 0) : tot K f = 0 := by
  have := tot_le (b := 0) (fun i hi => Nat.le_of_eq (h i hi))
  omega

/-! ### invariants -/

/-- The byte counter of an entry cannot wrap around. -/
abbrev NoWrap (LB K : Nat) : Prop := LB + LB * K < 2 ^ 64

/-- The counts for an entry with key `k`. -/
structure EInv (LB LM K : Nat) (log : List CmmEvent) (k : Bytes) (e : Entry) (pB pM ov dr a1 a2 : Nat) : Prop where
  used : 1 ≤ messagesWith k log
  msgs : messagesWith k log + pM ≤ e.usageMessages ∧ messagesWith k log + pM ≤ LM
  bytes : NoWrap LB K → bytesWith k log + pB ≤ e.usageBytes ∧ bytesWith k log + pB ≤ LB
  jm : (e.zombie = true → e.usageMessages + a2 ≤ LM + K) ∧ (e.zombie = false → e.usageMessages ≤ LM + dr)
  jb : NoWrap LB K → (e.zombie = true → e.usageBytes + a1 ≤ LB + LB * K) ∧ (e.zombie = false → e.usageBytes ≤ LB + ov)

/-- The call a thread is working for. -/
def Pc.gen : Pc → Option GenCall
  | .idle => none
  | .find g => some g
  | .created g _ => some g
  | .hint g _ _ => some g
  | .use g _ => some g
  | .get g _ _ _ => some g
  | .drop g _ _ => some g
  | .fin _ _ => none
  | .up g _ => some g
  | .put g _ _ => some g
  | .createdMiss g _ => some g
  | .hintMiss g _ _ => some g

/-- The entry a thread is working with. -/
def Pc.ref : Pc → Option Nat
  | .idle => none
  | .find _ => none
  | .created _ n => some n
  | .hint _ n _ => some n
  | .use _ n => some n
  | .get _ n _ _ => some n
  | .drop _ n _ => some n
  | .fin n _ => some n
  | .up _ _ => none
  | .put _ _ _ => none
  | .createdMiss _ n => some n
  | .hintMiss _ n _ => some n

/-- The step inside a call of the cache belongs to the call the program makes. -/
def Fit (p : Pc) : Pending → Prop
  | .idle => True
  | .addBytes n b m => ∃ g, p = .use g n ∧ b = g.req.plaintextSize ∧ m = 1
  | .addMessages n _ m => ∃ g, p = .use g n ∧ m = 1
  | .hintLock n _ _ => p = .idle ∨ (∃ g t, p = .hint g n t) ∨ (∃ g t, p = .hintMiss g n t)
  | .relLock n => p = .idle ∨ (∃ g ctx, p = .drop g n ctx) ∨ (∃ inv, p = .fin n inv)
  | .relHeld n => p = .idle ∨ (∃ g ctx, p = .drop g n ctx) ∨ (∃ inv, p = .fin n inv)
  | .relPlain n => p = .idle ∨ (∃ g ctx, p = .drop g n ctx) ∨ (∃ inv, p = .fin n inv)

/-- A thread of the program. -/
structure TInv (LB LM : Nat) (c : Cache) (th : Thread) (p : Pc) : Prop where
  lim : ∀ g, p.gen = some g → g.req.plaintextSize ≤ g.cmm.limitBytes ∧ g.cmm.limitBytes ≤ LB ∧ g.cmm.limitMessages ≤ LM
  fit : Fit p th.doing
  next : ∀ n, p.ref = some n → n < c.next
  held : ∀ n, p.ref = some n → th.doing = .idle → n ∈ th.held
  drop : ∀ g n ctx, p = .drop g n ctx → th.doing = .relPlain n → ∀ e, c.mem n = some e → e.zombie = true
  upIdle : ∀ g ctx, p = .up g ctx → th.doing = .idle

/-- The key of materials that are about to be stored. -/
def Pc.putKey : Pc → Option (Bytes × Nat)
  | .put g _ m => some (m.dataKey, g.req.plaintextSize)
  | _ => none

structure GInv (LB LM K : Nat) (log : List CmmEvent) (s : CmmConc) : Prop where
  num : s.conc.num = K
  cc : CC s.conc
  thr : ∀ t, t < K → TInv LB LM s.conc.cache (s.conc.thr t) (s.pc t)
  ent : ∀ n e k, s.conc.cache.mem n = some e → matKey e.mat = some k →
    EInv LB LM K log k e (tot K fun t => wPB n (s.pc t) (s.conc.thr t).doing) (tot K fun t => wPM n (s.pc t) (s.conc.thr t).doing)
      (tot K fun t => wOV LB n (s.pc t) (s.conc.thr t).doing) (tot K fun t => wDR n (s.pc t) (s.conc.thr t).doing)
      (tot K fun t => wA1 LB n (s.pc t) (s.conc.thr t).doing) (tot K fun t => wA2 n (s.pc t) (s.conc.thr t).doing)
  uniq : ∀ n m e f k, s.conc.cache.mem n = some e → s.conc.cache.mem m = some f → matKey e.mat = some k → matKey f.mat = some k → n = m
  put : ∀ t, t < K → ∀ k b, (s.pc t).putKey = some (k, b) → messagesWith k log = 1 ∧ bytesWith k log = b ∧
    (∀ n e, s.conc.cache.mem n = some e → matKey e.mat ≠ some k) ∧ (∀ u, u < K → u ≠ t → ∀ b', (s.pc u).putKey ≠ some (k, b'))
  logM : ∀ k, messagesWith k log ≤ LM
  logB : ∀ k, NoWrap LB K → bytesWith k log ≤ LB ∨
    ∃ cmm env req out, servedWith k log = [.gen cmm env req out] ∧ cmm.limitBytes < req.plaintextSize

/-- The effect of a step on the counts of one entry, when nothing is counted. -/
theorem EInv.calm {LB LM K : Nat} {log log' : List CmmEvent} {k : Bytes} {e e' : Entry} {pB pM ov dr a1 a2 pB' pM' ov' dr' a1' a2' : Nat}
    (h : EInv LB LM K log k e pB pM ov dr a1 a2) (hB : e'.usageBytes = e.usageBytes) (hM : e'.usageMessages = e.usageMessages)
    (hz : e.zombie = true → e'.zombie = true) (hov : ov + a1 ≤ LB * K) (hdr : dr + a2 ≤ K)
    (h1 : messagesWith k log ≤ messagesWith k log') (h2 : messagesWith k log' + pM' ≤ messagesWith k log + pM)
    (h3 : bytesWith k log' + pB' ≤ bytesWith k log + pB) (h4 : e'.zombie = true → a1' ≤ a1 ∧ a2' ≤ a2)
    (h5 : e'.zombie = false → ov ≤ ov' ∧ dr ≤ dr') : EInv LB LM K log' k e' pB' pM' ov' dr' a1' a2' := by
  obtain ⟨hu, ⟨hm1, hm2⟩, hb, ⟨hjm1, hjm2⟩, hjb⟩ := h
  refine ⟨by omega, ⟨by omega, by omega⟩, fun hw => ⟨by have := hb hw; omega, by have := hb hw; omega⟩, ⟨?_, ?_⟩, fun hw => ⟨?_, ?_⟩⟩
  · intro hz'
    have := h4 hz'
    rw [hM]
    cases hze : e.zombie with
    | true => have := hjm1 hze; omega
    | false => have := hjm2 hze; omega
  · intro hz'
    have := h5 hz'
    have hze : e.zombie = false := by
      cases hze : e.zombie with
      | false => rfl
      | true => rw [hz hze] at hz'; cases hz'
    have := hjm2 hze
    omega
  · intro hz'
    have := h4 hz'
    rw [hB]
    cases hze : e.zombie with
    | true => have := (hjb hw).1 hze; omega
    | false => have := (hjb hw).2 hze; omega
  · intro hz'
    have := h5 hz'
    have hze : e.zombie = false := by
      cases hze : e.zombie with
      | false => rfl
      | true => rw [hz hze] at hz'; cases hz'
    have := (hjb hw).2 hze
    omega

/-- The state after a step of thread `t`. -/
def CmmConc.upd (s : CmmConc) (t : Nat) (c : Cache) (th : Thread) (p : Pc) : CmmConc :=
  ⟨s.conc.update t c th, fun i => if i = t then p else s.pc i⟩

/-- Weights of thread `t` that may change freely when nothing is counted. -/
def Calm (LB n : Nat) (z : Bool) (p : Pc) (d : Pending) (p' : Pc) (d' : Pending) : Prop :=
  wPB n p' d' ≤ wPB n p d ∧ wPM n p' d' ≤ wPM n p d ∧
  (z = true → wA1 LB n p' d' ≤ wA1 LB n p d ∧ wA2 n p' d' ≤ wA2 n p d) ∧
  (z = false → wOV LB n p d ≤ wOV LB n p' d' ∧ wDR n p d ≤ wDR n p' d')

theorem Calm.refl (LB n : Nat) (z : Bool) (p : Pc) (d : Pending) : Calm LB n z p d p d :=
  ⟨Nat.le_refl _, Nat.le_refl _, fun _ => ⟨Nat.le_refl _, Nat.le_refl _⟩, fun _ => ⟨Nat.le_refl _, Nat.le_refl _⟩⟩

section
variable {LB LM K : Nat} {log : List CmmEvent} {s : CmmConc} {t : Nat} {c' : Cache} {th : Thread} {p : Pc}

theorem upd_tot (ht : t < K) (f : Pc → Pending → Nat) :
    tot K (fun i => f ((s.upd t c' th p).pc i) ((s.upd t c' th p).conc.thr i).doing) + f (s.pc t) (s.conc.thr t).doing =
    tot K (fun i => f (s.pc i) (s.conc.thr i).doing) + f p th.doing := by
  have := tot_update (f := fun i => f (s.pc i) (s.conc.thr i).doing)
    (g := fun i => f ((s.upd t c' th p).pc i) ((s.upd t c' th p).conc.thr i).doing) ht (fun i hi => by simp [CmmConc.upd, Conc.update, hi])
  simpa [CmmConc.upd, Conc.update] using this

theorem tot_ov (n : Nat) (s : CmmConc) : tot K (fun i => wOV LB n (s.pc i) (s.conc.thr i).doing) +
    tot K (fun i => wA1 LB n (s.pc i) (s.conc.thr i).doing) ≤ LB * K := by
  rw [← tot_add]
  exact tot_le (fun i _ => wOV_wA1 _ _ _ _)

theorem tot_dr (n : Nat) (s : CmmConc) : tot K (fun i => wDR n (s.pc i) (s.conc.thr i).doing) +
    tot K (fun i => wA2 n (s.pc i) (s.conc.thr i).doing) ≤ K := by
  rw [← tot_add]
  have := tot_le (b := 1) (K := K) (f := fun i => wDR n (s.pc i) (s.conc.thr i).doing + wA2 n (s.pc i) (s.conc.thr i).doing)
    (fun i _ => wDR_wA2 _ _ _)
  omega

/-- Other threads are not affected by a step that keeps old entries and counts. -/
theorem TInv.keep {c : Cache} {th : Thread} {p : Pc} (h : TInv LB LM c th p) (hn : c.next ≤ c'.next)
    (hz : ∀ n e', c'.mem n = some e' → n < c.next → ∃ e, c.mem n = some e ∧ (e.zombie = true → e'.zombie = true)) :
    TInv LB LM c' th p := by
  refine ⟨h.lim, h.fit, fun n hr => Nat.lt_of_lt_of_le (h.next n hr) hn, h.held, ?_, h.upIdle⟩
  intro g n ctx hp hd e' he'
  obtain ⟨e, he, hzz⟩ := hz n e' he' (h.next n (by rw [hp]; rfl))
  exact hzz (h.drop g n ctx hp hd e he)

/-- A step of thread `t` in which nothing is counted. -/
theorem GInv.calm {new : Option (Nat × Mat × Nat × Nat)} (h : GInv LB LM K log s) (ht : t < K) (hcc : CC (s.conc.update t c' th))
    (hev : Evolve s.conc.cache c' new) (hnew : ∀ m mat b k, new = some (m, mat, b, k) → matKey mat = none)
    (hthr : TInv LB LM c' th p)
    (hput : ∀ k b, p.putKey = some (k, b) → messagesWith k log = 1 ∧ bytesWith k log = b ∧
      (∀ n e, s.conc.cache.mem n = some e → matKey e.mat ≠ some k) ∧ (∀ u, u < K → u ≠ t → ∀ b', (s.pc u).putKey ≠ some (k, b')))
    (hcalm : ∀ n e' k, c'.mem n = some e' → matKey e'.mat = some k → Calm LB n e'.zombie (s.pc t) (s.conc.thr t).doing p th.doing) :
    GInv LB LM K log (s.upd t c' th p) := by
  have old : ∀ n e' k, c'.mem n = some e' → matKey e'.mat = some k → ∃ e, s.conc.cache.mem n = some e ∧ e'.mat = e.mat ∧
      e'.usageBytes = e.usageBytes ∧ e'.usageMessages = e.usageMessages ∧ (e.zombie = true → e'.zombie = true) := by
    intro n e' k he' hk
    rcases hev.old n e' he' with ⟨e, h1, h2, h3, h4, h5, -⟩ | ⟨h1, -⟩
    · exact ⟨e, h1, h2, h3, h4, h5⟩
    · rw [hnew _ _ _ _ h1] at hk; cases hk
  have hnum := h.num
  refine ⟨h.num, hcc, ?_, ?_, ?_, ?_, h.logM, h.logB⟩
  · intro i hi
    by_cases hit : i = t
    · subst hit
      simpa [CmmConc.upd, Conc.update] using hthr
    · have := (h.thr i hi).keep hev.next (c' := c') (fun n e' he' hlt => by
        rcases hev.old n e' he' with ⟨e, h1, -, -, -, h5, -⟩ | ⟨-, h1, -⟩
        · exact ⟨e, h1, h5⟩
        · omega)
      simpa [CmmConc.upd, Conc.update, hit] using this
  · intro n e' k he' hk
    have hcm := hcalm n e' k he' hk
    obtain ⟨e, h1, h2, h3, h4, h5⟩ := old n e' k he' hk
    refine (h.ent n e k h1 (by rw [← h2]; exact hk)).calm h3 h4 h5 (tot_ov n s) (tot_dr n s) (Nat.le_refl _) ?_ ?_ ?_ ?_
    · have := upd_tot (s := s) (c' := c') (th := th) (p := p) ht (wPM n); have := hcm.2.1; omega
    · have := upd_tot (s := s) (c' := c') (th := th) (p := p) ht (wPB n); have := hcm.1; omega
    · intro hz
      have := upd_tot (s := s) (c' := c') (th := th) (p := p) ht (wA1 LB n)
      have := upd_tot (s := s) (c' := c') (th := th) (p := p) ht (wA2 n)
      have := hcm.2.2.1 hz
      omega
    · intro hz
      have := upd_tot (s := s) (c' := c') (th := th) (p := p) ht (wOV LB n)
      have := upd_tot (s := s) (c' := c') (th := th) (p := p) ht (wDR n)
      have := hcm.2.2.2 hz
      omega
  · intro n m e f k he hf hke hkf
    obtain ⟨e0, h1, h2, -⟩ := old n e k he hke
    obtain ⟨f0, h3, h4, -⟩ := old m f k hf hkf
    exact h.uniq n m e0 f0 k h1 h3 (by rw [← h2]; exact hke) (by rw [← h4]; exact hkf)
  · intro i hi k b hpk
    have other : ∀ u, u ≠ t → (s.upd t c' th p).pc u = s.pc u := fun u hu => by simp [CmmConc.upd, hu]
    have self : (s.upd t c' th p).pc t = p := by simp [CmmConc.upd]
    have live : (∀ n e, s.conc.cache.mem n = some e → matKey e.mat ≠ some k) → ∀ n e', c'.mem n = some e' → matKey e'.mat ≠ some k := by
      intro h3 n e' he' hk
      obtain ⟨e, g1, g2, -⟩ := old n e' k he' hk
      exact h3 n e g1 (by rw [← g2]; exact hk)
    by_cases hit : i = t
    · subst hit
      rw [self] at hpk
      obtain ⟨h1, h2, h3, h4⟩ := hput k b hpk
      refine ⟨h1, h2, live h3, ?_⟩
      intro u hu hui b' hub
      rw [other u hui] at hub
      exact h4 u hu hui b' hub
    · rw [other i hit] at hpk
      obtain ⟨h1, h2, h3, h4⟩ := h.put i hi k b hpk
      refine ⟨h1, h2, live h3, ?_⟩
      intro u hu hui b' hub
      by_cases hut : u = t
      · subst hut
        rw [self] at hub
        exact (hput k b' hub).2.2.2 i hi hit b hpk
      · rw [other u hut] at hub
        exact h4 u hu hui b' hub

/-- The condition on keys about to be stored, if the thread's key is the same as before. -/
theorem GInv.samePut (h : GInv LB LM K log s) (ht : t < K) (hp : p.putKey = none ∨ p.putKey = (s.pc t).putKey) :
    ∀ k b, p.putKey = some (k, b) → messagesWith k log = 1 ∧ bytesWith k log = b ∧
      (∀ n e, s.conc.cache.mem n = some e → matKey e.mat ≠ some k) ∧ (∀ u, u < K → u ≠ t → ∀ b', (s.pc u).putKey ≠ some (k, b')) := by
  intro k b hk
  rcases hp with hn | he
  · rw [hn] at hk; cases hk
  · rw [he] at hk
    exact h.put t ht k b hk

theorem servedWith_other {k : Bytes} {x : CmmEvent} (log : List CmmEvent) (h : servedKey x ≠ some k) : servedWith k (x :: log) = servedWith k log := by
  unfold servedWith; rw [List.filter_cons]; simp [h]

theorem messagesWith_other {k : Bytes} {x : CmmEvent} (log : List CmmEvent) (h : servedKey x ≠ some k) :
    messagesWith k (x :: log) = messagesWith k log := by
  unfold messagesWith; rw [servedWith_other log h]

theorem bytesWith_other {k : Bytes} {x : CmmEvent} (log : List CmmEvent) (h : servedKey x ≠ some k) :
    bytesWith k (x :: log) = bytesWith k log := by
  unfold bytesWith; rw [servedWith_other log h]

/-- A request that is answered with an error. -/
theorem GInv.quiet (h : GInv LB LM K log s) {x : CmmEvent} (hx : servedKey x = none) : GInv LB LM K (x :: log) s := by
  have hk : ∀ k, servedKey x ≠ some k := by intro k; rw [hx]; simp
  refine ⟨h.num, h.cc, h.thr, ?_, h.uniq, ?_, ?_, ?_⟩
  · intro n e k he hke
    obtain ⟨h1, h2, h3, h4, h5⟩ := h.ent n e k he hke
    rw [← messagesWith_other log (hk k)] at h1 h2
    simp only [← bytesWith_other log (hk k)] at h3
    exact ⟨h1, h2, h3, h4, h5⟩
  · intro t ht k b hp
    have := h.put t ht k b hp
    rw [← messagesWith_other log (hk k), ← bytesWith_other log (hk k)] at this
    exact this
  · intro k; rw [messagesWith_other log (hk k)]; exact h.logM k
  · intro k hw; rw [bytesWith_other log (hk k), servedWith_other log (hk k)]; exact h.logB k hw

/-- A request that is answered with new materials. -/
theorem GInv.fresh (h : GInv LB LM K log s) {cmm : CachingCmm} {env : GenEnv} {req : EncRequest} {out : GenOut} {m : EncMaterials}
    (hm : out.res = .ok m) (hf : messagesWith m.dataKey log = 0) (hLM : 1 ≤ LM) (hLB : cmm.limitBytes ≤ LB) :
    GInv LB LM K (.gen cmm env req out :: log) s ∧
    messagesWith m.dataKey (.gen cmm env req out :: log) = 1 ∧ bytesWith m.dataKey (.gen cmm env req out :: log) = req.plaintextSize ∧
    (∀ n e, s.conc.cache.mem n = some e → matKey e.mat ≠ some m.dataKey) ∧ (∀ u, u < K → ∀ b', (s.pc u).putKey ≠ some (m.dataKey, b')) := by
  have hs : servedKey (.gen cmm env req out) = some m.dataKey := by simp [servedKey, hm]
  have hM : messagesWith m.dataKey (.gen cmm env req out :: log) = 1 := by rw [messagesWith_cons, if_pos hs, hf]
  have hB : bytesWith m.dataKey (.gen cmm env req out :: log) = req.plaintextSize := by
    rw [bytesWith_cons, if_pos hs, bytesWith_zero hf]; rfl
  have hne : ∀ k, k ≠ m.dataKey → servedKey (.gen cmm env req out) ≠ some k := by
    intro k hk hx; rw [hs] at hx; cases hx; exact hk rfl
  have hlive : ∀ n e, s.conc.cache.mem n = some e → matKey e.mat ≠ some m.dataKey := by
    intro n e he hk
    have := (h.ent n e _ he hk).used
    omega
  have hpk : ∀ u, u < K → ∀ b', (s.pc u).putKey ≠ some (m.dataKey, b') := by
    intro u hu b' hk
    have := (h.put u hu _ _ hk).1
    omega
  refine ⟨⟨h.num, h.cc, h.thr, ?_, h.uniq, ?_, ?_, ?_⟩, hM, hB, hlive, hpk⟩
  · intro n e k he hke
    have hk : k ≠ m.dataKey := by rintro rfl; exact hlive n e he hke
    obtain ⟨h1, h2, h3, h4, h5⟩ := h.ent n e k he hke
    rw [← messagesWith_other log (hne k hk)] at h1 h2
    simp only [← bytesWith_other log (hne k hk)] at h3
    exact ⟨h1, h2, h3, h4, h5⟩
  · intro t ht k b hp
    have hk : k ≠ m.dataKey := by rintro rfl; exact hpk t ht b hp
    have := h.put t ht k b hp
    rw [← messagesWith_other log (hne k hk), ← bytesWith_other log (hne k hk)] at this
    exact this
  · intro k
    by_cases hk : k = m.dataKey
    · subst hk; omega
    · rw [messagesWith_other log (hne k hk)]; exact h.logM k
  · intro k hw
    by_cases hk : k = m.dataKey
    · subst hk
      by_cases hsz : req.plaintextSize ≤ cmm.limitBytes
      · left; omega
      · right
        refine ⟨cmm, env, req, out, ?_, by omega⟩
        unfold servedWith
        rw [List.filter_cons]
        simp only [hs, decide_true, if_true]
        have : List.filter (fun e => decide (servedKey e = some m.dataKey)) log = [] := List.length_eq_zero_iff.mp hf
        rw [this]
    · rw [bytesWith_other log (hne k hk), servedWith_other log (hne k hk)]; exact h.logB k hw

/-- A request that is answered with cached materials. -/
theorem GInv.served (h : GInv LB LM K log s) (ht : t < K) {g : GenCall} {n b ms : Nat} (hpc : s.pc t = .get g n b ms)
    (hcc : CC (s.conc.update t s.conc.cache th)) (hthr : TInv LB LM s.conc.cache th (.fin n inv)) (hd : th.doing = .idle) {e : Entry}
    (he : s.conc.cache.mem n = some e) {out : GenOut} {m : EncMaterials} (hm : out.res = .ok m) (hk : matKey e.mat = some m.dataKey) :
    GInv LB LM K (.gen g.cmm g.env g.req out :: log) (s.upd t s.conc.cache th (.fin n inv)) := by
  have hs : servedKey (.gen g.cmm g.env g.req out) = some m.dataKey := by simp [servedKey, hm]
  have hM : messagesWith m.dataKey (.gen g.cmm g.env g.req out :: log) = 1 + messagesWith m.dataKey log := by rw [messagesWith_cons, if_pos hs]
  have hB : bytesWith m.dataKey (.gen g.cmm g.env g.req out :: log) = g.req.plaintextSize + bytesWith m.dataKey log := by
    rw [bytesWith_cons, if_pos hs]; rfl
  have hne : ∀ k, k ≠ m.dataKey → servedKey (.gen g.cmm g.env g.req out) ≠ some k := by
    intro k hk hx; rw [hs] at hx; cases hx; exact hk rfl
  have other : ∀ u, u ≠ t → (s.upd t s.conc.cache th (.fin n inv)).pc u = s.pc u := fun u hu => by simp [CmmConc.upd, hu]
  have self : (s.upd t s.conc.cache th (.fin n inv)).pc t = .fin n inv := by simp [CmmConc.upd]
  have hent := h.ent n e _ he hk
  have tPM := upd_tot (s := s) (c' := s.conc.cache) (th := th) (p := .fin n inv) ht (wPM n)
  have tPB := upd_tot (s := s) (c' := s.conc.cache) (th := th) (p := .fin n inv) ht (wPB n)
  have o1 : wPM n (s.pc t) (s.conc.thr t).doing = 1 := by rw [hpc]; simp [wPM]
  have o2 : wPB n (s.pc t) (s.conc.thr t).doing = g.req.plaintextSize := by rw [hpc]; simp [wPB]
  have o3 : wPM n (.fin n inv) th.doing = 0 := rfl
  have o4 : wPB n (.fin n inv) th.doing = 0 := rfl
  refine ⟨h.num, hcc, ?_, ?_, h.uniq, ?_, ?_, ?_⟩
  · intro i hi
    by_cases hit : i = t
    · subst hit
      simpa [CmmConc.upd, Conc.update] using hthr
    · have := h.thr i hi
      simpa [CmmConc.upd, Conc.update, hit] using this
  · intro n' e' k he' hk'
    have he2 : s.conc.cache.mem n' = some e' := he'
    refine (h.ent n' e' k he' hk').calm rfl rfl id (tot_ov n' s) (tot_dr n' s) ?_ ?_ ?_ ?_ ?_
    · rw [messagesWith_cons]; omega
    · have := upd_tot (s := s) (c' := s.conc.cache) (th := th) (p := .fin n inv) ht (wPM n')
      by_cases hkk : k = m.dataKey
      · subst hkk
        have := h.uniq n n' e e' _ he he2 hk hk'
        subst this
        omega
      · rw [messagesWith_other log (hne k hkk)]
        have : wPM n' (.fin n inv) th.doing = 0 := rfl
        omega
    · have := upd_tot (s := s) (c' := s.conc.cache) (th := th) (p := .fin n inv) ht (wPB n')
      by_cases hkk : k = m.dataKey
      · subst hkk
        have := h.uniq n n' e e' _ he he2 hk hk'
        subst this
        omega
      · rw [bytesWith_other log (hne k hkk)]
        have : wPB n' (.fin n inv) th.doing = 0 := rfl
        omega
    · intro _
      have := upd_tot (s := s) (c' := s.conc.cache) (th := th) (p := .fin n inv) ht (wA1 LB n')
      have := upd_tot (s := s) (c' := s.conc.cache) (th := th) (p := .fin n inv) ht (wA2 n')
      have : wA1 LB n' (.fin n inv) th.doing = 0 := rfl
      have : wA2 n' (.fin n inv) th.doing = 0 := rfl
      omega
    · intro _
      have := upd_tot (s := s) (c' := s.conc.cache) (th := th) (p := .fin n inv) ht (wOV LB n')
      have := upd_tot (s := s) (c' := s.conc.cache) (th := th) (p := .fin n inv) ht (wDR n')
      have : wOV LB n' (s.pc t) (s.conc.thr t).doing = 0 := by rw [hpc]; rfl
      have : wDR n' (s.pc t) (s.conc.thr t).doing = 0 := by rw [hpc]; rfl
      omega
  · intro i hi k b hpk
    by_cases hit : i = t
    · subst hit; rw [self] at hpk; cases hpk
    · rw [other i hit] at hpk
      obtain ⟨h1, h2, h3, h4⟩ := h.put i hi k b hpk
      have hkk : k ≠ m.dataKey := by rintro rfl; exact h3 n e he hk
      refine ⟨by rw [messagesWith_other log (hne k hkk)]; exact h1, by rw [bytesWith_other log (hne k hkk)]; exact h2, h3, ?_⟩
      intro u hu hui b' hub
      by_cases hut : u = t
      · subst hut; rw [self] at hub; cases hub
      · rw [other u hut] at hub; exact h4 u hu hui b' hub
  · intro k
    by_cases hkk : k = m.dataKey
    · subst hkk
      have := hent.msgs.2
      omega
    · rw [messagesWith_other log (hne k hkk)]; exact h.logM k
  · intro k hw
    by_cases hkk : k = m.dataKey
    · subst hkk
      left
      have := (hent.bytes hw).2
      omega
    · rw [bytesWith_other log (hne k hkk), servedWith_other log (hne k hkk)]; exact h.logB k hw

/-- A step that changes only the counters of one entry. -/
theorem GInv.counted (h : GInv LB LM K log s) (ht : t < K) {n : Nat} {e e1 : Entry} (he : s.conc.cache.mem n = some e)
    (hmat : e1.mat = e.mat) (hz1 : e1.zombie = e.zombie) (hcc : CC (s.conc.update t (s.conc.cache.set n (some e1)) th))
    (hthr : TInv LB LM (s.conc.cache.set n (some e1)) th p) (hput : p.putKey = none)
    (hent : ∀ k, matKey e.mat = some k →
      EInv LB LM K log k e (tot K fun t => wPB n (s.pc t) (s.conc.thr t).doing) (tot K fun t => wPM n (s.pc t) (s.conc.thr t).doing)
      (tot K fun t => wOV LB n (s.pc t) (s.conc.thr t).doing) (tot K fun t => wDR n (s.pc t) (s.conc.thr t).doing)
      (tot K fun t => wA1 LB n (s.pc t) (s.conc.thr t).doing) (tot K fun t => wA2 n (s.pc t) (s.conc.thr t).doing) →
      EInv LB LM K log k e1 (tot K (fun t => wPB n (s.pc t) (s.conc.thr t).doing) - wPB n (s.pc t) (s.conc.thr t).doing + wPB n p th.doing)
      (tot K (fun t => wPM n (s.pc t) (s.conc.thr t).doing) - wPM n (s.pc t) (s.conc.thr t).doing + wPM n p th.doing)
      (tot K (fun t => wOV LB n (s.pc t) (s.conc.thr t).doing) - wOV LB n (s.pc t) (s.conc.thr t).doing + wOV LB n p th.doing)
      (tot K (fun t => wDR n (s.pc t) (s.conc.thr t).doing) - wDR n (s.pc t) (s.conc.thr t).doing + wDR n p th.doing)
      (tot K (fun t => wA1 LB n (s.pc t) (s.conc.thr t).doing) - wA1 LB n (s.pc t) (s.conc.thr t).doing + wA1 LB n p th.doing)
      (tot K (fun t => wA2 n (s.pc t) (s.conc.thr t).doing) - wA2 n (s.pc t) (s.conc.thr t).doing + wA2 n p th.doing))
    (hcalm : ∀ m z, m ≠ n → Calm LB m z (s.pc t) (s.conc.thr t).doing p th.doing) :
    GInv LB LM K log (s.upd t (s.conc.cache.set n (some e1)) th p) := by
  have mem_self : (s.conc.cache.set n (some e1)).mem n = some e1 := set_mem_self ..
  have mem_other : ∀ m, m ≠ n → (s.conc.cache.set n (some e1)).mem m = s.conc.cache.mem m := fun m hm => by simp [Cache.set, hm]
  have old : ∀ m e' k, (s.conc.cache.set n (some e1)).mem m = some e' → matKey e'.mat = some k →
      ∃ e0, s.conc.cache.mem m = some e0 ∧ matKey e0.mat = some k := by
    intro m e' k he' hk
    by_cases hm : m = n
    · subst hm
      rw [mem_self] at he'; cases he'
      exact ⟨e, he, by rw [← hmat]; exact hk⟩
    · rw [mem_other m hm] at he'
      exact ⟨e', he', hk⟩
  refine ⟨h.num, hcc, ?_, ?_, ?_, ?_, h.logM, h.logB⟩
  · intro i hi
    by_cases hit : i = t
    · subst hit
      simpa [CmmConc.upd, Conc.update] using hthr
    · have := (h.thr i hi).keep (c' := s.conc.cache.set n (some e1)) (Nat.le_refl _) (fun m e' he' _ => by
        by_cases hm : m = n
        · subst hm
          rw [mem_self] at he'; cases he'
          exact ⟨e, he, by rw [hz1]; exact id⟩
        · rw [mem_other m hm] at he'
          exact ⟨e', he', id⟩)
      simpa [CmmConc.upd, Conc.update, hit] using this
  · intro m e' k he' hk
    have he2 : (s.conc.cache.set n (some e1)).mem m = some e' := he'
    have le : ∀ f : Pc → Pending → Nat, f (s.pc t) (s.conc.thr t).doing ≤ tot K (fun t => f (s.pc t) (s.conc.thr t).doing) := by
      intro f
      have := upd_tot (s := s) (c' := s.conc.cache.set n (some e1)) (th := ⟨[], .idle⟩) (p := .idle) ht (fun p d => f p d)
      have h2 : ∀ (K : Nat), t < K → f (s.pc t) (s.conc.thr t).doing ≤ tot K (fun t => f (s.pc t) (s.conc.thr t).doing) := by
        intro K
        induction K with
        | zero => intro h; omega
        | succ K ih =>
          intro hlt
          rw [tot_succ]
          by_cases hK : t = K
          · subst hK; omega
          · have := ih (by omega); omega
      exact h2 K ht
    have eqs : ∀ f : Pc → Pending → Nat, tot K (fun i => f ((s.upd t (s.conc.cache.set n (some e1)) th p).pc i)
        ((s.upd t (s.conc.cache.set n (some e1)) th p).conc.thr i).doing) =
        tot K (fun t => f (s.pc t) (s.conc.thr t).doing) - f (s.pc t) (s.conc.thr t).doing + f p th.doing := by
      intro f
      have h1 := upd_tot (s := s) (c' := s.conc.cache.set n (some e1)) (th := th) (p := p) ht f
      have h2 := le f
      omega
    by_cases hm : m = n
    · subst hm
      rw [mem_self] at he2; cases he2
      have h0 : matKey e.mat = some k := by rw [← hmat]; exact hk
      have := hent k h0 (h.ent m e k he h0)
      rw [eqs (wPB m), eqs (wPM m), eqs (wOV LB m), eqs (wDR m), eqs (wA1 LB m), eqs (wA2 m)]
      exact this
    · rw [mem_other m hm] at he2
      have hcm := hcalm m e'.zombie hm
      refine (h.ent m e' k he2 hk).calm rfl rfl id (tot_ov m s) (tot_dr m s) (Nat.le_refl _) ?_ ?_ ?_ ?_
      · have := eqs (wPM m); have := hcm.2.1; have := le (wPM m); omega
      · have := eqs (wPB m); have := hcm.1; have := le (wPB m); omega
      · intro hz
        have := eqs (wA1 LB m); have := eqs (wA2 m); have := hcm.2.2.1 hz; have := le (wA1 LB m); have := le (wA2 m)
        omega
      · intro hz
        have := eqs (wOV LB m); have := eqs (wDR m); have := hcm.2.2.2 hz; have := le (wOV LB m); have := le (wDR m)
        omega
  · intro a b ea eb k hea heb hka hkb
    obtain ⟨x, hx, hxk⟩ := old a ea k hea hka
    obtain ⟨y, hy, hyk⟩ := old b eb k heb hkb
    exact h.uniq a b x y k hx hy hxk hyk
  · intro i hi k b hpk
    have other : ∀ u, u ≠ t → (s.upd t (s.conc.cache.set n (some e1)) th p).pc u = s.pc u := fun u hu => by simp [CmmConc.upd, hu]
    have self : (s.upd t (s.conc.cache.set n (some e1)) th p).pc t = p := by simp [CmmConc.upd]
    by_cases hit : i = t
    · subst hit; rw [self, hput] at hpk; cases hpk
    · rw [other i hit] at hpk
      obtain ⟨h1, h2, h3, h4⟩ := h.put i hi k b hpk
      refine ⟨h1, h2, ?_, ?_⟩
      · intro m e' he' hk
        obtain ⟨x, hx, hxk⟩ := old m e' k he' hk
        exact h3 m x hx hxk
      · intro u hu hui b' hub
        by_cases hut : u = t
        · subst hut; rw [self, hput] at hub; cases hub
        · rw [other u hut] at hub; exact h4 u hu hui b' hub

/-- Storing materials. -/
theorem GInv.stored (h : GInv LB LM K log s) (ht : t < K) {g : GenCall} {ctx : EncCtx} {m : EncMaterials} (hpc : s.pc t = .put g ctx m)
    (hcc : CC (s.conc.update t c' th)) {n : Nat} {mat : Mat}
    (hev : Evolve s.conc.cache c' (some (n, mat, g.req.plaintextSize, 1))) (hmat : matKey mat = some m.dataKey)
    (hthr : TInv LB LM c' th p) (hput : p.putKey = none) (hLM : 1 ≤ LM)
    (hw : ∀ m, wPB m p th.doing = 0 ∧ wPM m p th.doing = 0 ∧ wA1 LB m p th.doing = 0 ∧ wA2 m p th.doing = 0) :
    GInv LB LM K log (s.upd t c' th p) := by
  obtain ⟨g1, g2, g3, g4⟩ := h.put t ht m.dataKey g.req.plaintextSize (by rw [hpc]; rfl)
  have hlim := (h.thr t ht).lim g (by rw [hpc]; rfl)
  have other : ∀ u, u ≠ t → (s.upd t c' th p).pc u = s.pc u := fun u hu => by simp [CmmConc.upd, hu]
  have self : (s.upd t c' th p).pc t = p := by simp [CmmConc.upd]
  have old : ∀ a e' k, c'.mem a = some e' → matKey e'.mat = some k →
      (∃ e, s.conc.cache.mem a = some e ∧ e'.mat = e.mat ∧
      e'.usageBytes = e.usageBytes ∧ e'.usageMessages = e.usageMessages ∧ (e.zombie = true → e'.zombie = true)) ∨
      (a = s.conc.cache.next ∧ s.conc.cache.mem a = none ∧ k = m.dataKey ∧ e'.usageBytes = g.req.plaintextSize ∧ e'.usageMessages = 1 ∧
        e'.zombie = false) := by
    intro a e' k he' hk
    rcases hev.old a e' he' with ⟨e, h1, h2, h3, h4, h5, -⟩ | ⟨h1, h2, h3, h4⟩
    · exact .inl ⟨e, h1, h2, h3, h4, h5⟩
    · simp only [Option.some.injEq, Prod.mk.injEq] at h1
      obtain ⟨r1, r2, r3, r4⟩ := h1
      refine .inr ⟨h2, h3, ?_, r3.symm, r4.symm, h4⟩
      rw [← r2, hmat] at hk
      exact (Option.some.inj hk).symm
  refine ⟨h.num, hcc, ?_, ?_, ?_, ?_, h.logM, h.logB⟩
  · intro i hi
    by_cases hit : i = t
    · subst hit
      simpa [CmmConc.upd, Conc.update] using hthr
    · have := (h.thr i hi).keep hev.next (c' := c') (fun n e' he' hlt => by
        rcases hev.old n e' he' with ⟨e, h1, -, -, -, h5, -⟩ | ⟨-, h1, -⟩
        · exact ⟨e, h1, h5⟩
        · omega)
      simpa [CmmConc.upd, Conc.update, hit] using this
  · intro a e' k he' hk
    have z1 : wPB a (s.pc t) (s.conc.thr t).doing = 0 := by rw [hpc]; rfl
    have z2 : wPM a (s.pc t) (s.conc.thr t).doing = 0 := by rw [hpc]; rfl
    have z3 : wA1 LB a (s.pc t) (s.conc.thr t).doing = 0 := by rw [hpc]; rfl
    have z4 : wA2 a (s.pc t) (s.conc.thr t).doing = 0 := by rw [hpc]; rfl
    have z5 : wOV LB a (s.pc t) (s.conc.thr t).doing = 0 := by rw [hpc]; rfl
    have z6 : wDR a (s.pc t) (s.conc.thr t).doing = 0 := by rw [hpc]; rfl
    have e1 := upd_tot (s := s) (c' := c') (th := th) (p := p) ht (wPB a)
    have e2 := upd_tot (s := s) (c' := c') (th := th) (p := p) ht (wPM a)
    have e3 := upd_tot (s := s) (c' := c') (th := th) (p := p) ht (wA1 LB a)
    have e4 := upd_tot (s := s) (c' := c') (th := th) (p := p) ht (wA2 a)
    have e5 := upd_tot (s := s) (c' := c') (th := th) (p := p) ht (wOV LB a)
    have e6 := upd_tot (s := s) (c' := c') (th := th) (p := p) ht (wDR a)
    obtain ⟨w1, w2, w3, w4⟩ := hw a
    rcases old a e' k he' hk with ⟨e, h1, h2, h3, h4, h5⟩ | ⟨h1, h2, h3, h4, h5, h6⟩
    · refine (h.ent a e k h1 (by rw [← h2]; exact hk)).calm h3 h4 h5 (tot_ov a s) (tot_dr a s) (Nat.le_refl _) (by omega) (by omega)
        (fun _ => by omega) (fun _ => by omega)
    · -- no thread works with the new entry
      have hno : ∀ i, i < K → wPB a (s.pc i) (s.conc.thr i).doing = 0 ∧ wPM a (s.pc i) (s.conc.thr i).doing = 0 := by
        intro i hi
        have hlt := (h.thr i hi).next
        have hfit := (h.thr i hi).fit
        cases hp : s.pc i with
        | get g n b m =>
          rw [hp] at hlt
          have := hlt n rfl
          have hne : n ≠ a := by omega
          simp [wPB, wPM, hne]
        | use g n =>
          rw [hp] at hlt hfit
          have := hlt n rfl
          cases hd : (s.conc.thr i).doing with
          | addMessages n' sum ms =>
            rw [hd] at hfit
            obtain ⟨g', hg, -⟩ := hfit
            cases hg
            have hne : n ≠ a := by omega
            simp [wPB, wPM, hne]
          | _ => exact ⟨rfl, rfl⟩
        | _ => exact ⟨rfl, rfl⟩
      have q1 : tot K (fun i => wPB a (s.pc i) (s.conc.thr i).doing) = 0 := tot_zero (fun i hi => (hno i hi).1)
      have q2 : tot K (fun i => wPM a (s.pc i) (s.conc.thr i).doing) = 0 := tot_zero (fun i hi => (hno i hi).2)
      subst h3
      have hz : e'.zombie = true → False := by rw [h6]; intro hh; cases hh
      exact ⟨by omega, ⟨by omega, by omega⟩, fun _ => ⟨by omega, by omega⟩, ⟨fun hh => (hz hh).elim, fun _ => by omega⟩,
        fun _ => ⟨fun hh => (hz hh).elim, fun _ => by omega⟩⟩
  · intro a b ea eb k hea heb hka hkb
    rcases old a ea k hea hka with ⟨x, h1, h2, -⟩ | ⟨h1, h2, h3, -⟩
    · rcases old b eb k heb hkb with ⟨y, r1, r2, -⟩ | ⟨r1, r2, r3, -⟩
      · exact h.uniq a b x y k h1 r1 (by rw [← h2]; exact hka) (by rw [← r2]; exact hkb)
      · subst r3
        exact absurd (by rw [← h2]; exact hka) (g3 a x h1)
    · rcases old b eb k heb hkb with ⟨y, r1, r2, -⟩ | ⟨r1, r2, r3, -⟩
      · subst h3
        exact absurd (by rw [← r2]; exact hkb) (g3 b y r1)
      · omega
  · intro i hi k b hpk
    by_cases hit : i = t
    · subst hit; rw [self, hput] at hpk; cases hpk
    · rw [other i hit] at hpk
      obtain ⟨h1, h2, h3, h4⟩ := h.put i hi k b hpk
      have hkk : k ≠ m.dataKey := by rintro rfl; exact g4 i hi hit b hpk
      refine ⟨h1, h2, ?_, ?_⟩
      · intro a e' he' hk
        rcases old a e' k he' hk with ⟨x, r1, r2, -⟩ | ⟨-, -, r3, -⟩
        · exact h3 a x r1 (by rw [← r2]; exact hk)
        · exact hkk r3
      · intro u hu hui b' hub
        by_cases hut : u = t
        · subst hut; rw [self, hput] at hub; cases hub
        · rw [other u hut] at hub; exact h4 u hu hui b' hub

end

end Verif
