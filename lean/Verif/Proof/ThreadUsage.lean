import Verif.Spec.ThreadUsage
import Verif.Proof.CacheUsage
import Verif.Proof.AnyCacheSums
/-
Sessions in threads over a cache of any kind, for C96.
-/
namespace Verif.Proof
open Verif Verif.Spec

/-- The environment of a call as that of a call over a local cache. -/
def asGenEnv (e : AnyGenEnv) : GenEnv := ⟨e.ids, none, e.clk, false, ⟨false, none, fun _ _ => .error .unknown⟩, e.up, ⟨none, false, none, false, fun _ => none⟩, false⟩

/-- The call as an event. -/
def eventOf : AnyCall → Option CmmEvent
  | .gen cmm env req (some out) => some (.gen cmm (asGenEnv env) req out)
  | _ => none

/-- The message with the event instead of the number of the call. -/
def asMessage (calls : List AnyCall) (x : ThreadMessage) : Message :=
  ⟨x.v, x.call.bind fun t => calls[t]?.bind eventOf, x.sizeFirst, x.over⟩

theorem key_asMessage (calls : List AnyCall) (x : ThreadMessage) : (asMessage calls x).key = x.key calls := by
  obtain ⟨v, c, s, o⟩ := x
  cases c with
  | none => rfl
  | some t =>
    simp only [asMessage, Message.key, ThreadMessage.key, Option.bind_some]
    cases calls[t]? with
    | none => rfl
    | some call =>
      rcases call with ⟨cmm, env, req, _ | ⟨ctx, _ | m, up⟩⟩ | ⟨cmm, env, req, out⟩ <;> rfl

variable {W : Crypto → Prop} {calls : List AnyCall} {ms : List ThreadMessage}

/-- What is known of the messages: what is known of sessions over a local cache, and that no two have the same call. -/
theorem threads_ok (h : Threads W calls ms) :
    (∀ x ∈ ms, MessageOk W (asMessage calls x) ∧ (∀ t, x.call = some t → ∃ cmm env req out, calls[t]? = some (.gen cmm env req (some out)))) ∧
    (ms.filterMap (·.call)).Nodup := by
  induction h with
  | new => exact ⟨(fun x hx => by cases hx), by simp⟩
  | start _ hs ih =>
    refine ⟨fun x hx => ?_, by simpa [ThreadMessage.fresh] using ih.2⟩
    rcases List.mem_cons.mp hx with rfl | hx
    · exact ⟨messageOk_fresh (.new hs) (by cases hs; rfl), fun t h => by cases h⟩
    · exact ih.1 x hx
  | @reset pre x0 post env h ho ih =>
    have h0 := ih.1 x0 (by simp)
    refine ⟨fun x hx => ?_, ?_⟩
    · rcases List.mem_cons.mp hx with rfl | hx
      · obtain ⟨pol, hr⟩ := h0.1.reach
        exact ⟨messageOk_fresh (.restart env .encrypt hr) rfl, fun t h => by cases h⟩
      · rcases List.mem_append.mp hx with hx | hx
        · exact ih.1 x (by simp [hx])
        · rcases List.mem_cons.mp hx with rfl | hx
          · exact ⟨⟨h0.1.mode, h0.1.reach, h0.1.asked, h0.1.event, h0.1.size⟩, h0.2⟩
          · exact ih.1 x (by simp [hx])
    · have := ih.2
      simpa [ThreadMessage.fresh, List.filterMap_append, List.filterMap_cons] using this
  | @quiet pre x0 post env op h ho hw hn hq ih =>
    have h0 := ih.1 x0 (by simp)
    refine ⟨fun x hx => ?_, ?_⟩
    · rcases List.mem_append.mp hx with hx | hx
      · exact ih.1 x (by simp [hx])
      · rcases List.mem_cons.mp hx with rfl | hx
        · exact ⟨h0.1.quiet hw hn hq, h0.2⟩
        · exact ih.1 x (by simp [hx])
    · have := ih.2
      simpa [List.filterMap_append, List.filterMap_cons] using this
  | @asks pre x0 post t cmm genv req out env op h ho hw hn hq hc hnew hg ih =>
    have h0 := ih.1 x0 (by simp)
    have h1 := h0.1.asks hw hn hq cmm (asGenEnv genv) hg
    refine ⟨fun x hx => ?_, ?_⟩
    · rcases List.mem_append.mp hx with hx | hx
      · exact ih.1 x (by simp [hx])
      · rcases List.mem_cons.mp hx with rfl | hx
        · refine ⟨?_, fun u hu => ?_⟩
          · have h2 := h1.2
            simpa [asMessage, hc, eventOf] using h2
          · cases hu; exact ⟨cmm, genv, req, out, hc⟩
        · exact ih.1 x (by simp [hx])
    · have hnone : x0.call = none := by
        cases h2 : x0.call with
        | none => rfl
        | some u =>
          obtain ⟨c', e', r', o', h3⟩ := h0.2 u h2
          have h4 := h1.1
          simp [asMessage, h2, h3, eventOf] at h4
      have h2 := ih.2
      rw [List.filterMap_append, List.filterMap_cons, hnone] at h2
      rw [List.filterMap_append, List.filterMap_cons]
      refine (List.perm_middle.nodup_iff).2 (List.nodup_cons.2 ⟨?_, h2⟩)
      intro hm
      rcases List.mem_append.1 hm with hm | hm <;> obtain ⟨y, hy, hy'⟩ := List.mem_filterMap.1 hm
      · exact hnew y (by simp [hy]) hy'
      · exact hnew y (by simp [hy]) hy'

/-- The calls made for messages under `k`. -/
def callsFor (k : Bytes) (calls : List AnyCall) (ms : List ThreadMessage) : List Nat :=
  (ms.filter (fun x => x.key calls = some k)).filterMap (·.call)

theorem key_call {x : ThreadMessage} {k : Bytes} (h : x.key calls = some k) : ∃ t call, x.call = some t ∧ calls[t]? = some call ∧ call.key = some k := by
  unfold ThreadMessage.key at h
  obtain ⟨t, h1, h2⟩ := Option.bind_eq_some_iff.1 h
  obtain ⟨call, h3, h4⟩ := Option.bind_eq_some_iff.1 h2
  exact ⟨t, call, h1, h3, h4⟩

theorem callsFor_sub (k : Bytes) : ∀ t ∈ callsFor k calls ms, t ∈ callsWith k calls := by
  intro t ht
  obtain ⟨x, hx, hxt⟩ := List.mem_filterMap.1 ht
  have hk : x.key calls = some k := by simpa using (List.mem_filter.1 hx).2
  obtain ⟨u, call, h1, h2, h3⟩ := key_call hk
  rw [h1] at hxt
  cases hxt
  unfold callsWith
  simp only [List.mem_filter, List.mem_range, decide_eq_true_eq]
  exact ⟨(List.getElem?_eq_some_iff.1 h2).1, by rw [h2]; exact h3⟩

theorem callsFor_nodup (h : Threads W calls ms) (k : Bytes) : (callsFor k calls ms).Nodup :=
  List.Pairwise.sublist ((List.filter_sublist).filterMap _) (threads_ok h).2

theorem callsFor_length (k : Bytes) : (callsFor k calls ms).length = threadMessages k calls ms := by
  unfold callsFor threadMessages
  induction ms with
  | nil => rfl
  | cons x ms ih =>
    by_cases hk : x.key calls = some k
    · obtain ⟨t, -, h1, -⟩ := key_call hk
      simp [hk, h1, ih]
    · simp [hk, ih]

theorem threadBytes_le (k : Bytes) (h : ∀ x ∈ ms, MessageOk W (asMessage calls x)) :
    threadBytes k calls ms ≤ ((callsFor k calls ms).map fun t => (calls[t]?.map AnyCall.size).getD 0).sum := by
  unfold callsFor threadBytes
  induction ms with
  | nil => exact Nat.le_refl _
  | cons x ms ih =>
    have ih := ih (fun y hy => h y (by simp [hy]))
    by_cases hk : x.key calls = some k
    · obtain ⟨t, call, h1, h2, h3⟩ := key_call hk
      have hb : x.bytes ≤ call.size := by
        have h4 : (asMessage calls x).served = eventOf call := by simp [asMessage, h1, h2]
        rcases call with ⟨cmm, env, req, _ | out⟩ | ⟨cmm, env, req, out⟩
        · cases h3
        · exact (h x (by simp)).bytes_le h4
        · cases h3
      simp only [List.filter_cons, hk, decide_true, if_true, List.map_cons, List.sum_cons, List.filterMap_cons, h1, h2, Option.map_some, Option.getD_some]
      omega
    · simpa [List.filter_cons, hk] using ih

/-- A number occurs once. -/
theorem one_each : ∀ {l : List ThreadMessage} {i j : Nat} {x y : ThreadMessage} {t : Nat}, (l.filterMap (·.call)).Nodup → l[i]? = some x → l[j]? = some y →
    x.call = some t → y.call = some t → i = j
  | [], _, _, _, _, _, _, hi, _, _, _ => by simp at hi
  | a :: l, i, j, x, y, t, hn, hi, hj, hx, hy => by
    have hl : (l.filterMap (·.call)).Nodup := by
      rw [List.filterMap_cons] at hn
      split at hn
      · exact hn
      · exact (List.nodup_cons.1 hn).2
    have hmem : ∀ z ∈ l, z.call = some t → t ∈ l.filterMap (·.call) := fun z hz h => List.mem_filterMap.2 ⟨z, hz, h⟩
    rcases i with _ | i <;> rcases j with _ | j
    · rfl
    · simp only [List.getElem?_cons_zero, Option.some.injEq] at hi
      subst hi
      rw [List.filterMap_cons, hx] at hn
      exact absurd (hmem y (List.mem_of_getElem? (by simpa using hj)) hy) (List.nodup_cons.1 hn).1
    · simp only [List.getElem?_cons_zero, Option.some.injEq] at hj
      subst hj
      rw [List.filterMap_cons, hy] at hn
      exact absurd (hmem x (List.mem_of_getElem? (by simpa using hi)) hx) (List.nodup_cons.1 hn).1
    · exact congrArg (· + 1) (one_each (i := i) (j := j) hl (by simpa using hi) (by simpa using hj) hx hy)

/-- The messages count for no more than the calls. -/
theorem threads_counts (h : Threads W calls ms) (k : Bytes) :
    threadMessages k calls ms ≤ anyMessages k calls ∧ threadBytes k calls ms ≤ anyBytes k calls := by
  constructor
  · have := sum_le_of_subset (f := fun _ => 1) (callsFor_nodup h k) (callsFor_sub k)
    have h1 : ∀ l : List Nat, (l.map fun _ => 1).sum = l.length := by
      intro l
      induction l with
      | nil => rfl
      | cons a l ih => simp [ih]; omega
    rw [h1, h1] at this
    rw [← callsFor_length]
    exact this
  · exact Nat.le_trans (threadBytes_le k fun x hx => ((threads_ok h).1 x hx).1)
      (sum_le_of_subset (callsFor_nodup h k) (callsFor_sub k))

end Verif.Proof
