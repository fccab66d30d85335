import Verif.Proof.CacheUsage
import Verif.Props.CachingCmm
import Verif.Spec.SessionExample
/-
C91: the limits of caching CMMs hold for what sessions encrypt.
-/
namespace Verif.Props
open Verif Verif.Spec

/-- **C91.**  However many sessions share a cache, in any interleaving: a session reads and writes nothing for a message before it has got a data
key from the CMM, and everything it then writes is under this data key. -/
theorem C91_messages_use_their_key {W : Crypto → Prop} {sha : Bytes → Bytes} {addr : Nat → Nat} {cap : Nat} {log : List CmmEvent} {c : Cache}
    {ms : List Message} (h : Shared W sha addr cap log c ms) (x : Message) (hx : x ∈ ms) (hne : x.v.consumed ≠ [] ∨ x.v.released ≠ []) :
    ∃ k, x.key = some k ∧ WrittenUnder W k x.v := (shared_messages h x hx).written hne

/-- **C91.**  No data key is used for more messages than the largest message limit of the caching CMMs, if the upstream CMMs do not give
the same data key twice. -/
theorem C91_message_limit {W : Crypto → Prop} {sha : Bytes → Bytes} {addr : Nat → Nat} {cap : Nat} {log : List CmmEvent} {c : Cache}
    {ms : List Message} (h : Shared W sha addr cap log c ms) (hf : FreshKeys log) (L : Nat)
    (hL : ∀ cmm env req out, .gen cmm env req out ∈ log → cmm.limitMessages ≤ L) (k : Bytes) : messagesUnder k ms ≤ L :=
  Nat.le_trans (shared_counts h k).1 (C36_message_limit_total (shared_history h) hf L hL k)

/-- **C91.**  The plaintexts of the messages under a data key that are complete, or whose size was set before processing began, have together
no more bytes than the largest byte limit of the caching CMMs; or there is just one message under the data key, for which more was
declared than the limit.  (Missing: messages that are not completed and whose size is not known when the data key is asked for.) -/
theorem C91_byte_limit_partial {W : Crypto → Prop} {sha : Bytes → Bytes} {addr : Nat → Nat} {cap : Nat} {log : List CmmEvent} {c : Cache}
    {ms : List Message} (h : Shared W sha addr cap log c ms) (hf : FreshKeys log) (L : Nat)
    (hL : ∀ cmm env req out, .gen cmm env req out ∈ log → cmm.limitBytes ≤ L) (k : Bytes) :
    bytesUnder k ms ≤ L ∨
    (messagesUnder k ms ≤ 1 ∧ ∃ cmm env req out, servedWith k log = [.gen cmm env req out] ∧ cmm.limitBytes < req.plaintextSize) := by
  rcases C37_byte_limit_total (shared_history h) hf L hL k with h1 | h1
  · exact .inl (Nat.le_trans (shared_counts h k).2 h1)
  · refine .inr ⟨?_, h1⟩
    obtain ⟨cmm, env, req, out, h2, -⟩ := h1
    have := (shared_counts h k).1
    unfold messagesWith at this
    rw [h2] at this
    exact this

/-- **C91.**  A session never takes in more plaintext than the size that was set before it began to process, whether it finishes or not. -/
theorem C91_size_set_first {E : Env → Prop} {pol : Policy} {v : View} (h : Reach E pol v) (hst : v.s.state = .config) {env : Env} (he : E env) (n : Nat)
    (hn : n < 2 ^ 64) (hset : (apply env v (.setMessageSize n)).2 = .ok) (hist : List (Env × Op)) (hE : ∀ c ∈ hist, E c.1) (hnr : NoReset hist) :
    (run (apply env v (.setMessageSize n)).1 hist).consumed.length ≤ n := by
  have hs : Sized (apply env v (.setMessageSize n)).1 ∧ (apply env v (.setMessageSize n)).1.s.preciseSize = n := by
    have hc : v.consumed = [] := by
      have := h.hinv.live (by simp [hst])
      simp only [LiveLog, hst] at this
      exact this.1
    simp only [apply] at hset ⊢
    rcases setMessageSize_cases env v.s h.hinv.inv n with ⟨e, s', h1, h2⟩ | ⟨hm, _, _, o, i, h1⟩
    · rw [h1] at hset; cases hset
    · rw [h1]
      refine ⟨⟨hm, rfl, by rw [hc]; exact Nat.zero_le _⟩, ?_⟩
      show u64 n = n
      simp only [u64]; omega
  have h1 := Reach.call (.setMessageSize n) h he
  generalize (apply env v (.setMessageSize n)).1 = w at hs h1
  generalize polAfter pol (.setMessageSize n) = pol' at h1
  suffices ∀ w pol', Reach E pol' w → Sized w → w.s.preciseSize = n → Sized (run w hist) ∧ (run w hist).s.preciseSize = n by
    obtain ⟨h2, h3⟩ := this w pol' h1 hs.1 hs.2
    rw [← h3]; exact h2.le
  clear hs h1 w pol'
  induction hist with
  | nil => intro w _ _ h1 h2; exact ⟨h1, h2⟩
  | cons c r ih =>
    intro w pol' hw h1 h2
    have hnc := hnr c (by simp)
    have hEc := hE c (by simp)
    refine ih (fun x hx => hE x (by simp [hx])) (fun x hx => hnr x (by simp [hx])) (apply c.1 w c.2).1 _ (Reach.call c.2 hw hEc)
      (sized_apply hw.hinv hEc c.2 hnc h1) ?_
    exact ((apply_keeps hw.hinv hEc c.2 hnc).precise h1.known).2.trans h2

example : (apply Example.env (apply Example.env Example.encNew (.setFrameSize 4)).1 (.setMessageSize 9)).2 = .ok ∧
    (run (apply Example.env (apply Example.env Example.encNew (.setFrameSize 4)).1 (.setMessageSize 9)).1
      [(Example.env, .process (Example.zeros 600) (some (Example.zeros 20)))]).consumed.length = 9 ∧
    (run (apply Example.env Example.encNew (.setFrameSize 4)).1
      [(Example.env, .process (Example.zeros 600) (some (Example.zeros 20)))]).consumed.length = 20 := by
  decide +kernel

/-! ### a history -/

namespace UsageExample
open CmmExample

/-- Three messages, twelve bytes. -/
def small : CachingCmm := ⟨List.replicate 64 1, 3, 12, 50⟩

theorem small_valid : small.Valid := ⟨by decide, by decide, rfl⟩

/-- The upstream CMM is that of the example sessions without signature; each data key is new. -/
def up (now : Nat) : GenEnv :=
  { genv 0x0478 now [] with up := fun req => (req.encCtx, .ok ⟨0x0478, List.replicate 32 (UInt8.ofNat now), [edk], [], none⟩) }

/-- What a call of the caching CMM gives. -/
def ask (now : Nat) (req : EncRequest) (c : Cache) : Option (Cache × GenOut) :=
  match cachingGenerate tsha small (up now) req c with
  | .ok x => some x
  | .error _ => none

/-- The environment of a session for which the CMM has the answer `out`. -/
def env (out : GenOut) : Env := { Example.envU with cmm := ⟨fun _ => (out.ctx, out.res), fun _ => .error .unknown⟩ }

/-- One session: calls that configure it, and one call that asks for the data key. -/
structure Job where
  setup : List Op
  mem : Bytes
  inp : Bytes
  now : Nat

def configured (j : Job) : View := run Example.encNew (j.setup.map (fun op => (Example.envU, op)))

/-- What a session leaves behind. -/
def work (j : Job) (log : List CmmEvent) (c : Cache) (ms : List Message) : Option (List CmmEvent × Cache × List Message) :=
  let v := configured j
  let req := request v.s
  match ask j.now req c with
  | none => none
  | some (c', out) =>
    some (.gen small (up j.now) req out :: log, c',
      ⟨(apply (env out) v (.process j.mem (some j.inp))).1, some (.gen small (up j.now) req out), v.s.preciseKnown, false⟩ :: ms)

def isSetter : Op → Bool
  | .setFrameSize _ | .setMessageSize _ | .setMessageBound _ => true
  | _ => false

theorem shared_setup {log : List CmmEvent} {c : Cache} {ms : List Message} (ops : List Op) (hops : ops.all isSetter = true) :
    ∀ v, Shared (· = Example.crypto) tsha id 16 log c (.fresh v :: ms) →
      Shared (· = Example.crypto) tsha id 16 log c (.fresh (run v (ops.map (fun op => (Example.envU, op)))) :: ms) := by
  induction ops with
  | nil => intro v h; exact h
  | cons op ops ih =>
    intro v h
    simp only [List.all_cons, Bool.and_eq_true] at hops
    refine ih hops.2 _ ?_
    refine Shared.quiet (pre := []) (x := .fresh v) (post := ms) Example.envU op h rfl rfl ?_ ?_
    · cases op <;> first | rfl | cases hops.1
    · intro cmm
      cases op <;> first | rfl | cases hops.1

/-- A call of `process` that gets beyond asking for materials asks for them. -/
theorem asks_process {pol : Policy} {v : View} (hv : HInv (fun _ => True) pol v) (hm : v.s.mode = .encrypt) (hst : v.s.state = .config) (env : Env) (mem inp : Bytes)
    (hlate : (apply env v (.process mem (some inp))).1.s.state ≠ .error) : AsksFor (request v.s) env v (.process mem (some inp)) := by
  have hinv := hv.inv
  constructor
  · intro hq
    have hq := hq noCmm
    have he : (apply { env with cmm := noCmm } v (.process mem (some inp))).1.s.state = .error ∨
        Early (apply { env with cmm := noCmm } v (.process mem (some inp))).1.s :=
      .inr (Classical.byContradiction fun hl => by
        obtain ⟨_, _, _, h, _⟩ := apply_declared (E := fun _ => True) hv trivial (.process mem (some inp)) rfl hm (.inl hst) hl
        cases h)
    have h2 := process_not_config { env with cmm := noCmm } v.s hinv mem inp false
    have h3 := process_not_genKey { env with cmm := noCmm } v.s hinv mem inp false
    have h4 : (apply { env with cmm := noCmm } v (.process mem (some inp))).1.s = (process { env with cmm := noCmm } v.s mem inp false).s := by
      simp only [apply]; split <;> rfl
    rw [← h4] at h2 h3
    have h5 : (apply { env with cmm := noCmm } v (.process mem (some inp))).1.s.state = .error := by
      rcases he with he | he | he | he
      · exact he
      · exact absurd he h2
      · exact absurd he h3
      · exact he
    rw [hq] at h5
    exact hlate h5
  · intro cmm hc
    simp only [apply]
    rw [process_same_enc env cmm v.s hinv hm (by rw [hst]; simp) (fun _ _ => hc.symm)]

theorem shared_work (j : Job) {log : List CmmEvent} {c : Cache} {ms : List Message} (h : Shared (· = Example.crypto) tsha id 16 log c ms)
    (hops : j.setup.all isSetter = true) (hm : (configured j).s.mode = .encrypt) (hst : (configured j).s.state = .config)
    {log' : List CmmEvent} {c' : Cache} {ms' : List Message} (hw : work j log c ms = some (log', c', ms'))
    (hlate : ∀ x ∈ ms'.head?, x.v.s.state ≠ .error) : Shared (· = Example.crypto) tsha id 16 log' c' ms' := by
  have h1 := shared_setup j.setup hops Example.encNew (.start h rfl)
  have hr : Reach (fun _ => True) .requireRequire Example.encNew := .new (mode := .encrypt) rfl
  unfold work at hw
  simp only at hw
  cases ha : ask j.now (request (configured j).s) c with
  | none => rw [ha] at hw; cases hw
  | some x =>
    obtain ⟨c1, out⟩ := x
    rw [ha] at hw
    simp only [Option.some.injEq, Prod.mk.injEq] at hw
    obtain ⟨rfl, rfl, rfl⟩ := hw
    have hg : cachingGenerate tsha small (up j.now) (request (configured j).s) c = .ok (c1, out) := by
      unfold ask at ha
      split at ha
      · next heq => rw [heq]; cases ha; rfl
      · cases ha
    have hasks : AsksFor (request (configured j).s) (env out) (configured j) (.process j.mem (some j.inp)) :=
      asks_process (reach_run hr (j.setup.map (fun op => (Example.envU, op))) (fun _ _ => trivial)).hinv hm hst (env out) j.mem j.inp (hlate _ rfl)
    have := Shared.asks (pre := []) (x := .fresh (configured j)) (post := ms) (env out) (.process j.mem (some j.inp)) h1 rfl rfl rfl hasks small_valid hg rfl
    simpa [Op.bringsSize, Message.fresh] using this

/-- Two complete messages, the second under the data key of the first, from the cache; and a third, for which there is a new data key since
the byte limit is reached. -/
def jobs : List Job :=
  [⟨[.setFrameSize 4, .setMessageSize 6], Example.zeros 600, Example.zeros 6, 1⟩,
   ⟨[.setFrameSize 4, .setMessageSize 5], Example.zeros 600, Example.zeros 5, 2⟩,
   ⟨[.setFrameSize 4, .setMessageSize 5], Example.zeros 600, Example.zeros 5, 3⟩]

def works : List Job → List CmmEvent × Cache × List Message → Option (List CmmEvent × Cache × List Message)
  | [], st => some st
  | j :: r, st => (work j st.1 st.2.1 st.2.2).bind (works r)

/-- What has to be seen of each session. -/
def checks : List Job → List CmmEvent × Cache × List Message → Bool
  | [], _ => true
  | j :: r, st =>
    j.setup.all isSetter && decide ((configured j).s.mode = .encrypt) && decide ((configured j).s.state = .config) &&
    match work j st.1 st.2.1 st.2.2 with
    | none => false
    | some st' => (st'.2.2.head?.all fun x => decide (x.v.s.state ≠ .error)) && checks r st'

theorem shared_works (js : List Job) : ∀ st, Shared (· = Example.crypto) tsha id 16 st.1 st.2.1 st.2.2 → checks js st = true →
    ∃ st', works js st = some st' ∧ Shared (· = Example.crypto) tsha id 16 st'.1 st'.2.1 st'.2.2 := by
  induction js with
  | nil => intro st h _; exact ⟨st, rfl, h⟩
  | cons j r ih =>
    intro st h hc
    simp only [checks, Bool.and_eq_true, decide_eq_true_eq] at hc
    obtain ⟨⟨⟨h1, h2⟩, h3⟩, h4⟩ := hc
    cases hw : work j st.1 st.2.1 st.2.2 with
    | none => rw [hw] at h4; cases h4
    | some st' =>
      rw [hw] at h4
      simp only [Bool.and_eq_true] at h4
      have := shared_work j h h1 h2 h3 (log' := st'.1) (c' := st'.2.1) (ms' := st'.2.2) hw (by
        intro x hx
        have h5 := h4.1
        rw [Option.mem_def.mp hx] at h5
        simpa using h5)
      obtain ⟨st'', h5, h6⟩ := ih st' this h4.2
      exact ⟨st'', by simp [works, hw, h5], h6⟩

def start : List CmmEvent × Cache × List Message := ([], cacheNew id 16, [])

def outcome (js : List Job) : List CmmEvent × Cache × List Message := (works js start).getD start

theorem shared_outcome (js : List Job) (h : checks js start = true) :
    Shared (· = Example.crypto) tsha id 16 (outcome js).1 (outcome js).2.1 (outcome js).2.2 := by
  obtain ⟨st, h1, h2⟩ := shared_works js start .new h
  simpa [outcome, h1] using h2

/-- The data key given at time `now`. -/
def key (now : Nat) : Bytes := List.replicate 32 (UInt8.ofNat now)

def fresh : List CmmEvent → Bool
  | [] => true
  | .gen _ _ _ out :: log =>
    (match out.res with
     | .ok m => !out.upstream || messagesWith m.dataKey log == 0
     | .error _ => true) && fresh log
  | _ :: log => fresh log

theorem freshKeys_of_fresh (log : List CmmEvent) (h : fresh log = true) : FreshKeys log := by
  induction log with
  | nil => trivial
  | cons ev log ih =>
    cases ev with
    | gen cmm env req out =>
      simp only [fresh, Bool.and_eq_true] at h
      refine ⟨fun m hu hm => ?_, ih h.2⟩
      have h1 := h.1
      rw [hm] at h1
      simpa [hu] using h1
    | _ => exact ih h

/-- What all calls in a log have in common. -/
def calls (p : CachingCmm → EncRequest → Bool) : List CmmEvent → Bool
  | [] => true
  | .gen cmm _ req _ :: log => p cmm req && calls p log
  | _ :: log => calls p log

theorem of_calls {p : CachingCmm → EncRequest → Bool} (log : List CmmEvent) (h : calls p log = true) :
    ∀ cmm env req out, .gen cmm env req out ∈ log → p cmm req = true := by
  induction log with
  | nil => intro _ _ _ _ h; cases h
  | cons ev log ih =>
    intro cmm env req out hm
    rcases List.mem_cons.mp hm with rfl | hm
    · simp only [calls, Bool.and_eq_true] at h; exact h.1
    · refine ih ?_ cmm env req out hm
      cases ev with
      | gen => simp only [calls, Bool.and_eq_true] at h; exact h.2
      | _ => exact h

/-- Six bytes are declared as a bound, twenty are given. -/
def lying : List Job := [⟨[.setFrameSize 4, .setMessageBound 6], Example.zeros 600, Example.zeros 20, 1⟩]

end UsageExample

open UsageExample in
/-- **C91, why partial.**  A bound on the size that was declared for a message is not enforced before the message is finished.  So a session can
encrypt, and give out, more under a data key than the byte limit of the caching CMM that gave it, which was told a size within the limit. -/
theorem C91_byte_limit_refuted : ∃ log c ms x k, Shared (· = Example.crypto) CmmExample.tsha id 16 log c ms ∧ FreshKeys log ∧
    (∀ cmm env req out, .gen cmm env req out ∈ log → cmm.limitBytes = 12 ∧ req.plaintextSize ≤ 12) ∧
    x ∈ ms ∧ x.key = some k ∧ 12 < x.v.consumed.length ∧ x.v.released.length > 12 ∧ x.v.s.state ≠ .error := by
  have hc : checks lying start = true := by decide +kernel
  have hx : ∃ x ∈ (outcome lying).2.2, x.key = some (key 1) ∧ 12 < x.v.consumed.length ∧ x.v.released.length > 12 ∧ x.v.s.state ≠ .error := by
    decide +kernel
  obtain ⟨x, hx, h1⟩ := hx
  refine ⟨_, _, _, x, key 1, shared_outcome lying hc, freshKeys_of_fresh _ (by decide +kernel), ?_, hx, h1⟩
  intro cmm env req out hm
  have := of_calls (p := fun cmm req => decide (cmm.limitBytes = 12 ∧ req.plaintextSize ≤ 12)) (outcome lying).1 (by decide +kernel) cmm env req out hm
  simpa using this

attribute [local irreducible] FreshKeys in
open UsageExample in
example : Shared (· = Example.crypto) CmmExample.tsha id 16 (outcome jobs).1 (outcome jobs).2.1 (outcome jobs).2.2 ∧
    FreshKeys (outcome jobs).1 ∧
    (∀ cmm env req out, .gen cmm env req out ∈ (outcome jobs).1 → cmm.limitMessages ≤ 3 ∧ cmm.limitBytes ≤ 12) ∧
    (outcome jobs).2.2.map (·.key) = [some (key 3), some (key 1), some (key 1)] ∧
    (outcome jobs).2.2.map (·.v.s.state) = [.done, .done, .done] ∧
    messagesUnder (key 1) (outcome jobs).2.2 = 2 ∧ bytesUnder (key 1) (outcome jobs).2.2 = 11 ∧ bytesUnder (key 3) (outcome jobs).2.2 = 5 := by
  have h1 : checks jobs start = true := by decide +kernel
  have h2 : fresh (outcome jobs).1 = true := by decide +kernel
  have h3 : calls (fun cmm _ => decide (cmm.limitMessages ≤ 3 ∧ cmm.limitBytes ≤ 12)) (outcome jobs).1 = true := by decide +kernel
  have h4 := freshKeys_of_fresh (outcome jobs).1 h2
  refine And.intro (shared_outcome jobs h1) (And.intro h4 (And.intro ?_ ?_))
  · exact fun cmm env req out hm => of_decide_eq_true (of_calls _ h3 cmm env req out hm)
  · exact ⟨by decide +kernel, by decide +kernel, by decide +kernel, by decide +kernel, by decide +kernel⟩

end Verif.Props
