import Verif.Proof.ThreadUsage
import Verif.Props.AnyCacheExamples
import Verif.Props.CacheUsage
/-
C96: the limits of caching CMMs hold for what sessions in any number of threads encrypt, over a materials cache of any kind.
-/
namespace Verif.Props
open Verif Verif.Spec Verif.Proof

section
variable {η : Type} {W : Crypto → Prop} {sha : Bytes → Bytes} {vt : CacheVt} {calls : List AnyCall} {H : List (Nat × CacheEvent η)} {E : Entries}
  {ms : List ThreadMessage}

/-- **C96.**  A session reads and writes nothing for a message before it has got a data key, in a call of its CMM that is for this message only;
everything it then writes is under this data key. -/
theorem C96_messages_use_their_key (h : Threads W calls ms) (x : ThreadMessage) (hx : x ∈ ms) (hne : x.v.consumed ≠ [] ∨ x.v.released ≠ []) :
    ∃ t k, x.call = some t ∧ x.key calls = some k ∧ WrittenUnder W k x.v ∧
      ∀ (i j : Nat) (y : ThreadMessage), ms[i]? = some x → ms[j]? = some y → y.call = some t → i = j := by
  have h0 := threads_ok h
  obtain ⟨k, h1, h2⟩ := (h0.1 x hx).1.written hne
  rw [key_asMessage] at h1
  obtain ⟨t, call, h3, -⟩ := key_call h1
  refine ⟨t, k, h3, h1, h2, fun i j y hi hj hy => ?_⟩
  exact one_each h0.2 hi hj h3 hy

/-- **C96.**  No data key is used for more messages than the largest message limit of the caching CMMs, if the cache keeps its promises and the
upstream CMMs do not give the same data key twice. -/
theorem C96_message_limit {L : Nat} (h : Threads W calls ms) (hH : History sha vt calls H) (hk : CacheKeeps H E) (hf : FreshAny calls H)
    (hL : ∀ cmm env req out, .gen cmm env req out ∈ calls → cmm.limitMessages ≤ L) (h1 : 1 ≤ L) (hlen : H.length < 2 ^ 64) (k : Bytes) :
    threadMessages k calls ms ≤ L :=
  Nat.le_trans (threads_counts h k).1 (C95_message_limit hH hk hf hL h1 hlen k)

/-- **C96.**  The plaintexts of the messages under a data key that are complete, or whose size was set before processing began, have together no
more bytes than the largest byte limit of the caching CMMs; or there is just one message under the data key, for which more was declared than
the limit.  (Messages that are not completed and whose size is not known when the data key is asked for are not bound, C91_byte_limit_refuted; nor are
counters of the cache that overflow, C95_wrap_refutes.) -/
theorem C96_byte_limit {L : Nat} (h : Threads W calls ms) (hH : History sha vt calls H) (hk : CacheKeeps H E) (hf : FreshAny calls H)
    (hL : ∀ cmm env req out, .gen cmm env req out ∈ calls → cmm.limitBytes ≤ L) (hlen : H.length * L < 2 ^ 64) (k : Bytes) :
    threadBytes k calls ms ≤ L ∨
    (threadMessages k calls ms ≤ 1 ∧
      ∃ t cmm env req out, callsWith k calls = [t] ∧ calls[t]? = some (.gen cmm env req out) ∧ cmm.limitBytes < req.plaintextSize) := by
  rcases C95_byte_limit hH hk hf hL hlen k with h1 | ⟨t, cmm, env, req, out, h1, h2⟩
  · exact .inl (Nat.le_trans (threads_counts h k).2 h1)
  · refine .inr ⟨?_, t, cmm, env, req, out, h1, h2⟩
    have := (threads_counts h k).1
    unfold anyMessages at this
    rw [h1] at this
    exact this

end

/-! ### two sessions in two threads -/

namespace ThreadExample
open AnyCacheExample UsageExample

def mat6 (key : Bytes) : EncMaterials := ⟨0x0478, key, [CmmExample.edk], [], none⟩
def up6 (key : Bytes) : AnyGenEnv := ⟨ids, none, fun r => (r.encCtx, .ok (mat6 key))⟩
def out6 (key : Bytes) (up : Bool) : GenOut := ⟨[], .ok (mat6 key), up⟩

def jobA : Job := ⟨[.setFrameSize 4, .setMessageSize 6], Example.zeros 600, Example.zeros 6, 1⟩
def jobB : Job := ⟨[.setFrameSize 4, .setMessageSize 5], Example.zeros 600, Example.zeros 5, 2⟩

def reqOf (j : Job) : EncRequest := request (configured j).s

/-- Three messages, twelve bytes. -/
def calls6 : List AnyCall :=
  [.gen (cmm 3 12) (up6 (key 1)) (reqOf jobA) (some (out6 (key 1) true)), .gen (cmm 3 12) (up6 (key 2)) (reqOf jobB) (some (out6 (key 1) false))]

/-- The second call finds what the first has put while the first still holds it. -/
def ev6 : List (Nat × CacheEvent Nat) :=
  [(0, ⟨.find cid, (false, none)⟩), (0, ⟨.putEnc cid (mat6 (key 1)) 6 1 [], some 7⟩),
   (1, ⟨.find cid, (false, some (7, true))⟩), (0, ⟨.release 7 false, ()⟩), (1, ⟨.usage 7 5 1, .ok (11, 2)⟩),
   (1, ⟨.getEnc 7 [], ([], .ok (mat6 (key 1)))⟩), (1, ⟨.release 7 false, ()⟩)]

def ans6 : Nat → (q : CacheQuery Nat) → q.Ans
  | 10, .find _ => (false, some (7, true))
  | _, .find _ => (false, none)
  | _, .usage _ _ _ => .ok (11, 2)
  | _, .getEnc _ ctx => (ctx, .ok (mat6 (key 1)))
  | _, .getDec _ => .error .badState
  | _, .putEnc _ _ _ _ _ => some 7
  | _, .putDec _ _ => none
  | _, .release _ _ => ()
  | _, .creation _ => (0 : Nat)
  | _, .hint _ _ => ()

theorem history6 : History dig vt calls6 ev6 where
  made := by simp [ev6, calls6]
  does := by
    intro t call h
    rcases t with _ | _ | t
    · cases h
      exact walk_path ans6 (anyGenerate dig vt (cmm 3 12) (up6 (key 1)) (reqOf jobA)) 0
    · cases h
      exact walk_path ans6 (anyGenerate dig vt (cmm 3 12) (up6 (key 2)) (reqOf jobB)) 10
    · simp [calls6] at h

theorem keeps6 : CacheKeeps ev6 ents where
  find := by
    intro i t id f h k hi
    rcases i with _ | _ | _ | _ | _ | _ | _ | i <;> simp [ev6] at hi
    obtain ⟨-, rfl, -, -, rfl⟩ := hi
    exact ⟨by decide, _, rfl, rfl⟩
  put := by
    intro i t e hi he
    rcases i with _ | _ | _ | _ | _ | _ | _ | i <;> simp [ev6] at hi <;> obtain ⟨-, rfl⟩ := hi <;> first | rfl | cases he
  same := by intros; rfl
  usage := by
    intro i t h b n b' n' hi _
    rcases i with _ | _ | _ | _ | _ | _ | _ | i <;> simp [ev6] at hi
    obtain ⟨-, -, rfl, rfl⟩ := hi
    decide +kernel
  enc := by
    intro i t h c c' m hi
    rcases i with _ | _ | _ | _ | _ | _ | _ | i <;> simp [ev6] at hi
    obtain ⟨-, -, rfl, rfl⟩ := hi
    exact ⟨_, _, _, _, _, _, _, rfl, rfl, rfl, rfl, rfl, fun _ => rfl⟩
  dec := by
    intro i t h m hi
    rcases i with _ | _ | _ | _ | _ | _ | _ | i <;> simp [ev6] at hi
  creation := by
    intro i t h m hi
    rcases i with _ | _ | _ | _ | _ | _ | _ | i <;> simp [ev6] at hi
  born := by intro e; exact (by decide : 0 < 2 ^ 64)

theorem fresh6 : FreshAny calls6 ev6 := by
  have key : ∀ t k, UpstreamGave calls6 ev6 t k → t = 0 := by
    rintro t k (⟨c, e, r, o, m, h1, h2, -⟩ | ⟨id, m, b, n, ctx, o, h1, -⟩)
    · rcases t with _ | _ | t
      · rfl
      · cases h1; cases h2
      · simp [calls6] at h1
    · simp [ev6] at h1
      exact h1.1
  intro t u k h1 h2
  rw [key t k h1, key u k h2]

theorem threads_setup {calls : List AnyCall} {ms : List ThreadMessage} (ops : List Op) (hops : ops.all isSetter = true) :
    ∀ v, Threads (· = Example.crypto) calls (.fresh v :: ms) →
      Threads (· = Example.crypto) calls (.fresh (run v (ops.map (fun op => (Example.envU, op)))) :: ms) := by
  induction ops with
  | nil => intro v h; exact h
  | cons op ops ih =>
    intro v h
    simp only [List.all_cons, Bool.and_eq_true] at hops
    refine ih hops.2 _ ?_
    refine Threads.quiet (pre := []) (x := .fresh v) (post := ms) Example.envU op h rfl rfl ?_ ?_
    · cases op <;> first | rfl | cases hops.1
    · intro cmm
      cases op <;> first | rfl | cases hops.1

/-- The call that asks for the data key. -/
theorem asks_process (j : Job) (out : GenOut) (hm : (configured j).s.mode = .encrypt) (hst : (configured j).s.state = .config)
    (hlate : (apply (UsageExample.env out) (configured j) (.process j.mem (some j.inp))).1.s.state ≠ .error) :
    AsksFor (reqOf j) (UsageExample.env out) (configured j) (.process j.mem (some j.inp)) := by
  have hr : Reach (fun _ => True) .requireRequire Example.encNew := .new (mode := .encrypt) rfl
  have hinv := (reach_run hr (j.setup.map (fun op => (Example.envU, op))) (fun _ _ => trivial)).hinv.inv
  constructor
  · intro hq
    have hq := hq noCmm
    have he : Early (apply { UsageExample.env out with cmm := noCmm } (configured j) (.process j.mem (some j.inp))).1.s :=
      Classical.byContradiction fun hl => by
        obtain ⟨_, _, _, h, _⟩ := apply_declared (E := fun _ => True) (reach_run hr (j.setup.map (fun op => (Example.envU, op))) (fun _ _ => trivial)).hinv trivial
          (.process j.mem (some j.inp)) rfl hm (.inl hst) hl
        cases h
    have h2 := process_not_config { UsageExample.env out with cmm := noCmm } (configured j).s hinv j.mem j.inp false
    have h3 := process_not_genKey { UsageExample.env out with cmm := noCmm } (configured j).s hinv j.mem j.inp false
    have h4 : (apply { UsageExample.env out with cmm := noCmm } (configured j) (.process j.mem (some j.inp))).1.s =
        (process { UsageExample.env out with cmm := noCmm } (configured j).s j.mem j.inp false).s := by
      simp only [apply]; split <;> rfl
    rw [← h4] at h2 h3
    rcases he with he | he | he
    · exact absurd he h2
    · exact absurd he h3
    · rw [hq] at he
      exact hlate he
  · intro cmm hc
    simp only [apply]
    rw [process_same_enc (UsageExample.env out) cmm (configured j).s hinv hm (by rw [hst]; simp) (fun _ _ => hc.symm)]

/-- Both sessions have asked and been served. -/
def after : List ThreadMessage :=
  [⟨(apply (UsageExample.env (out6 (key 1) false)) (configured jobB) (.process jobB.mem (some jobB.inp))).1, some 1, true, false⟩,
   ⟨(apply (UsageExample.env (out6 (key 1) true)) (configured jobA) (.process jobA.mem (some jobA.inp))).1, some 0, true, false⟩]

theorem threads6 : Threads (· = Example.crypto) calls6 after := by
  have h1 := threads_setup jobA.setup (by decide) Example.encNew (.start (.new (W := (· = Example.crypto)) (calls := calls6)) rfl)
  have h2 := threads_setup jobB.setup (by decide) Example.encNew (.start h1 rfl)
  have h3 := Threads.asks (pre := []) (t := 1) (out := out6 (key 1) false) (UsageExample.env (out6 (key 1) false)) (.process jobB.mem (some jobB.inp)) h2 rfl rfl rfl
    (asks_process jobB _ (by decide +kernel) (by decide +kernel) (by decide +kernel)) rfl (by
      intro y hy
      simp only [List.nil_append, List.mem_cons, List.not_mem_nil, or_false] at hy
      rcases hy with rfl | rfl <;> simp [ThreadMessage.fresh]) rfl
  have h4 := Threads.asks (pre := [_]) (t := 0) (out := out6 (key 1) true) (UsageExample.env (out6 (key 1) true)) (.process jobA.mem (some jobA.inp)) h3 rfl rfl rfl
    (asks_process jobA _ (by decide +kernel) (by decide +kernel) (by decide +kernel)) rfl (by
      intro y hy
      simp only [List.nil_append, List.cons_append, List.mem_cons, List.not_mem_nil, or_false] at hy
      rcases hy with rfl | rfl <;> simp [ThreadMessage.fresh]) rfl
  exact h4

end ThreadExample

open ThreadExample AnyCacheExample in
/-- Two messages and eleven bytes under one data key; the limits are three and twelve. -/
example : threadMessages (UsageExample.key 1) calls6 after = 2 ∧ threadMessages (UsageExample.key 1) calls6 after ≤ 3 ∧
    threadBytes (UsageExample.key 1) calls6 after = 11 ∧ threadBytes (UsageExample.key 1) calls6 after ≤ 12 ∧
    ∃ x ∈ after, x.v.released ≠ [] ∧ WrittenUnder (· = Example.crypto) (UsageExample.key 1) x.v := by
  have hm : ∀ c e r o, .gen c e r o ∈ calls6 → c.limitMessages ≤ 3 ∧ c.limitBytes ≤ 12 := by
    intro c e r o h
    simp [calls6] at h
    rcases h with ⟨rfl, -⟩ | ⟨rfl, -⟩ <;> exact ⟨by decide, by decide⟩
  have hx : ∃ x ∈ after, x.v.released ≠ [] ∧ x.key calls6 = some (UsageExample.key 1) := by decide +kernel
  obtain ⟨x, hx, hr, hk⟩ := hx
  refine ⟨by decide +kernel, C96_message_limit threads6 history6 keeps6 fresh6 (fun c e r o h => (hm c e r o h).1) (by decide) (by decide) _,
    by decide +kernel, ?_, x, hx, hr, ?_⟩
  · rcases C96_byte_limit threads6 history6 keeps6 fresh6 (fun c e r o h => (hm c e r o h).2) (by decide) (UsageExample.key 1) with h | ⟨h, -⟩
    · exact h
    · have h2 : threadMessages (UsageExample.key 1) calls6 after = 2 := by decide +kernel
      omega
  · obtain ⟨t, k, -, h1, h2, -⟩ := C96_messages_use_their_key threads6 x hx (.inr hr)
    rw [hk] at h1
    cases h1
    exact h2

end Verif.Props
