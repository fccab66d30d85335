import Verif.Proof.LifetimeCalls
import Verif.Spec.LifetimeExample

/-!
C76: no memory of keyrings, CMMs, caches and sessions is used after it is freed.
C77: when the program has given up its references, everything is freed.
-/

namespace Verif
namespace Props

open Verif.Lifetime Spec.Lifetime Proof.Lifetime

/-- C76: a call by a program that keeps to the rules runs into no fault, whatever the other threads are in
the middle of. -/
theorem C76_calls_are_safe {n s c i op} (h : Reach (fun _ _ => True) n s c) (hs : s.threads[i]? = some [])
    (ha : Allowed s c op) : ∃ s' r, s.call i op = .ok (s', r) := by
  obtain ⟨L, hi, _⟩ := reach_inv (A := False) (fun q => q.elim) h
  obtain ⟨s', r, _, e, _⟩ := inv_call hi hs ha (fun q => q.elim)
  exact ⟨s', r, e⟩

/-- C76: a constructor that is granted everything makes an object of its kind, to which the program owns a
reference, and from which everything can be reached that it was given.  So the program may give up its own
references to these. -/
theorem C76_constructors_keep_what_they_use {n s c i op} (h : Reach (fun _ _ => True) n s c)
    (hs : s.threads[i]? = some []) (ha : Allowed s c op) (hg : granted op = true) :
    ∃ s' x, s.call i op = .ok (s', some x) ∧ (∃ o, s'.heap.find x = some o ∧ o.kind = makes op) ∧
      x ∈ (c.after op (some x)).owned ∧ ∀ y ∈ uses op, Reaches s'.heap x y := by
  obtain ⟨L, hi, _⟩ := reach_inv (A := False) (fun q => q.elim) h
  obtain ⟨s', r, L', e, hi', _⟩ := inv_call hi hs ha (fun q => q.elim)
  have hr := makes_some hg e
  cases r with
  | none => cases hr
  | some x =>
    have hm : x ∈ (c.after op (some x)).owned ∧ (x, makes op) ∈ (c.after op (some x)).types := by
      cases op with
      | retain _ => cases hg
      | release _ => cases hg
      | destroy _ => cases hg
      | _ => exact ⟨List.mem_cons_self, List.mem_cons_self⟩
    obtain ⟨o, eo, _⟩ := hi'.owned (List.mem_append.2 (.inl hm.1))
    exact ⟨s', x, e, ⟨o, eo, (hi'.typed x _ hm.2).2 o eo⟩, hm.1, holds_uses hi ha e⟩

/-- C76: a child that was added can be reached from its multi-keyring. -/
theorem C76_multi_keeps_children {n s c i m k} (h : Reach (fun _ _ => True) n s c) (ha : Allowed s c (.addChild m k true))
    {s' r} (e : s.call i (.addChild m k true) = .ok (s', r)) : Reaches s'.heap m k := by
  obtain ⟨L, hi, _⟩ := reach_inv (A := False) (fun q => q.elim) h
  simp only [St.call] at e
  cases e1 : addChild s m k true with
  | error f => rw [e1] at e; cases e
  | ok s1 =>
    rw [e1] at e
    simp only [Except.map, Except.ok.injEq, Prod.mk.injEq] at e
    rw [← e.1]
    exact (addChild_edge hi (List.mem_append.2 (.inl ha.2.1.1)) ha.2.2 e1).reaches

/-- C76: and so does every step of a destructor. -/
theorem C76_destructors_are_safe {n s c} (h : Reach (fun _ _ => True) n s c) (i : Nat) :
    ∃ s', s.tick i = .ok s' := by
  obtain ⟨L, hi, _⟩ := reach_inv (A := False) (fun q => q.elim) h
  obtain ⟨s', e, _⟩ := inv_tick hi i
  exact ⟨s', e⟩

/-- C76: everything that can be reached from an object to which the program owns a reference (the keyrings
under a session, for example) is allocated and not being destroyed. -/
theorem C76_reachable_is_alive {n s c x y} (h : Reach (fun _ _ => True) n s c) (hx : x ∈ c.owned)
    (hr : Reaches s.heap x y) : Alive s.heap y := by
  obtain ⟨L, hi, _⟩ := reach_inv (A := False) (fun q => q.elim) h
  have key : ∀ a b, Reaches s.heap a b → Alive s.heap a → Alive s.heap b := by
    intro a b r
    induction r with
    | refl => exact id
    | step e m _ ih =>
      intro _
      exact ih (HInv.alive hi (.inr (List.mem_flatMap.2 ⟨_, find_mem e, m⟩)))
  exact key x y hr (hi.owned (List.mem_append.2 (.inl hx)))

/-- C76: an object to which the program owns a reference is still of the kind it was made as. -/
theorem C76_kind_is_kept {n s c x k o} (h : Reach (fun _ _ => True) n s c) (hx : (x, k) ∈ c.types)
    (ho : s.heap.find x = some o) : o.kind = k := by
  obtain ⟨L, hi, _⟩ := reach_inv (A := False) (fun q => q.elim) h
  exact (hi.typed x k hx).2 o ho

/-- C76: the destructors come to an end: the threads together can do only so many steps before they are all
through. -/
theorem C76_destructors_end {n s c} (h : Reach (fun _ _ => True) n s c) :
    ∃ b, ∀ is s', Works s is s' → is.length ≤ b := by
  obtain ⟨L, hi, _⟩ := reach_inv (A := False) (fun q => q.elim) h
  exact ⟨work s, fun is s' w => works_le hi w⟩

/-- C77: when no thread is in a call, exactly those objects are allocated that can be reached from one to
which the program owns a reference.  What is missing: the calls that lose memory (`lossless`) are left
out, see `C77_leaks`. -/
theorem C77_allocated_iff_in_use_partial {n s c x} (h : Reach Careful n s c) (hid : Idle s) :
    (s.heap.find x).isSome ↔ ∃ y ∈ c.owned, Reaches s.heap y x := by
  obtain ⟨L, hi, hL⟩ := reach_inv (A := True) (fun _ _ _ q => q.2) h
  rw [hL (fun _ _ q => q.1), List.append_nil] at hi
  constructor
  · intro q
    apply in_use hi hid
    cases e : s.heap.find x with
    | none => simp [e] at q
    | some o => exact List.mem_map.2 ⟨_, find_mem e, rfl⟩
  · rintro ⟨y, hy, hr⟩
    have key : ∀ a b, Reaches s.heap a b → Alive s.heap a → Alive s.heap b := by
      intro a b r
      induction r with
      | refl => exact id
      | step e m _ ih =>
        intro _
        exact ih (HInv.alive hi (.inr (List.mem_flatMap.2 ⟨_, find_mem e, m⟩)))
    obtain ⟨o, e, _⟩ := key y x hr (hi.owned hy)
    simp [e]

/-- C77: when the program has given up all its references and no thread is in a call, nothing is
allocated. -/
theorem C77_all_freed_partial {n s c} (h : Reach Careful n s c) (hid : Idle s) (h0 : c.owned = []) : s.heap = [] := by
  cases e : s.heap with
  | nil => rfl
  | cons a t =>
    obtain ⟨x, o⟩ := a
    have := (C77_allocated_iff_in_use_partial (x := x) h hid).1 (by rw [e, find_cons]; simp)
    rw [h0] at this
    obtain ⟨y, hy, _⟩ := this
    simp at hy

/-- C77: once the program has given up all its references, the releases that are under way free everything:
they can always come to an end, and however the threads interleave, nothing is allocated then. -/
theorem C77_releases_free_everything_partial {n s c} (h : Reach Careful n s c) (h0 : c.owned = []) :
    (∃ is s', Works s is s' ∧ Idle s') ∧ ∀ is s', Works s is s' → Idle s' → s'.heap = [] := by
  constructor
  · obtain ⟨L, hi, hL⟩ := reach_inv (A := True) (fun _ _ _ q => q.2) h
    exact comes_to_rest (work s) (Nat.le_refl _) hi
  · intro is s' w hid
    exact C77_all_freed_partial (reach_works h w) hid h0

/-! ### Examples -/

theorem play_reach {P : St → Op → Prop} {ok n} (hok : ∀ s op, ok s op = true → P s op) :
    ∀ ms s c s' c', Reach P n s c → play ok s c ms = some (s', c') → Reach P n s' c' := by
  intro ms
  induction ms with
  | nil => intro s c s' c' h e; simp [play] at e; rw [← e.1, ← e.2]; exact h
  | cons m ms ih =>
    intro s c s' c' h e
    cases m with
    | call i op =>
      simp only [play] at e
      split at e
      · rename_i hc
        split at e
        · cases e
        · rename_i s1 r e1
          exact ih _ _ _ _ (.call h hc.1 hc.2.1 (hok s op hc.2.2) e1) e
      · cases e
    | tick i =>
      simp only [play] at e
      split at e
      · cases e
      · rename_i s1 e1
        exact ih _ _ _ _ (.tick h e1) e

theorem tidy_careful (s : St) (op : Op) (h : tidy s op = true) : Careful s op := by
  unfold tidy at h
  rw [Bool.and_eq_true] at h
  refine ⟨h.1, ?_⟩
  cases op with
  | addChild m c ok =>
    have h2 := h.2
    simp only at h2
    intro r
    cases e : s.heap.find c with
    | none => simp [e] at h2
    | some o =>
      simp only [e, Bool.and_eq_true, decide_eq_true_eq, List.all_eq_true] at h2
      cases r with
      | refl => exact h2.1 rfl
      | step e1 hm r1 =>
        rw [e] at e1; injection e1 with e1; subst e1
        have h3 := h2.2 _ hm
        cases r1 with
        | refl => exact h3.1 rfl
        | step e2 hm2 _ =>
          rw [e2] at h3
          have := h3.2
          simp at this
          rw [this] at hm2
          simp at hm2
  | _ => trivial

/-- Two threads share a multi-keyring; each gives up its reference to the session and the multi-keyring while
the other is at it. -/
def sharing : List Move :=
  [.call 0 (.rawAes true), .call 0 (.kms true), .call 0 (.multi (some 3) true), .call 0 (.addChild 6 4 true),
   .call 0 (.release (some 3)), .tick 0, .call 0 (.release (some 4)), .tick 0,
   .call 0 (.retain 6), .call 0 (.sessionFromKeyring 6 true true), .call 1 (.sessionFromKeyring 6 true true),
   .call 0 (.destroy 8), .call 1 (.destroy 10), .tick 0, .tick 1, .tick 1, .tick 0, .tick 1]

/-- The hypotheses of C76 hold in the middle of it, with a thread in a destructor and references owned. -/
example : ∃ s c, Reach (fun _ _ => True) 2 s c ∧ c.owned = [6, 6] ∧ ¬Idle s ∧ Reaches s.heap 6 4 := by
  have e : ∃ r, played (fun _ _ => true) 2 sharing = some r ∧ r.2.owned = [6, 6] ∧
      r.1.threads.all (·.isEmpty) = false ∧ ∃ o, r.1.heap.find 6 = some o ∧ 4 ∈ o.holds :=
    ⟨_, rfl, rfl, rfl, _, rfl, by decide⟩
  obtain ⟨⟨s, c⟩, e, h1, h2, o, h3, h4⟩ := e
  refine ⟨s, c, play_reach (ok := fun _ _ => true) (fun _ _ _ => trivial) _ _ _ _ _ .init e, h1, ?_, ?_⟩
  · intro hid
    have : s.threads.all (·.isEmpty) = true := by
      rw [List.all_eq_true]; intro st hm; rw [hid st hm]; rfl
    rw [this] at h2; cases h2
  · exact .step h3 h4 (.refl _)

/-- And the hypotheses of C77 hold at its end. -/
example : ∃ s c, Reach Careful 2 s c ∧ Idle s ∧ c.owned = [] ∧ s.next = 11 := by
  have e : ∃ r, played tidy 2 (sharing ++
      [.tick 0, .tick 1, .tick 0, .tick 1, .tick 0, .call 0 (.release (some 6)), .call 1 (.release (some 6))] ++
      List.replicate 2 (.tick 1) ++ List.replicate 16 (.tick 0)) = some r ∧ over r = true ∧ r.1.next = 11 :=
    ⟨_, rfl, by decide, by decide⟩
  obtain ⟨⟨s, c⟩, e, h1, h2⟩ := e
  refine ⟨s, c, play_reach tidy_careful _ _ _ _ _ .init e, ?_, ?_, h2⟩
  · intro st hm
    simp [over] at h1
    exact h1.1 st hm
  · simp [over] at h1
    exact h1.2

/-- With a keyring and a cache, a caching CMM over a new default CMM; the program can give up both. -/
example : ∃ s c, Reach (fun _ _ => True) 1 s c ∧ s.threads[0]? = some [] ∧
    Allowed s c (.cachingFromKeyring 1 0 true true true true) ∧ granted (.cachingFromKeyring 1 0 true true true true) = true := by
  have e : ∃ r, played (fun _ _ => true) 1 [.call 0 (.kms true), .call 0 (.cache true)] = some r ∧
      r.1.threads[0]? = some [] ∧ Allowed r.1 r.2 (.cachingFromKeyring 1 0 true true true true) :=
    ⟨_, rfl, by decide, by decide⟩
  obtain ⟨⟨s, c⟩, e, h1, h2⟩ := e
  exact ⟨s, c, play_reach (ok := fun _ _ => true) (fun _ _ _ => trivial) _ _ _ _ _ .init e, h1, h2, rfl⟩

/-! ### Where the code loses memory -/

theorem leak_of (ms : List Move)
    (h : (played (fun _ _ => true) 1 ms).any (fun r => over r && !r.1.heap.isEmpty) = true) :
    ∃ s c, Reach (fun _ _ => True) 1 s c ∧ Idle s ∧ c.owned = [] ∧ s.heap ≠ [] := by
  cases e : played (fun _ _ => true) 1 ms with
  | none => simp [e] at h
  | some r =>
    obtain ⟨s, c⟩ := r
    simp [e, over] at h
    refine ⟨s, c, play_reach (ok := fun _ _ => true) (fun _ _ _ => trivial) _ _ _ _ _ .init e, ?_, ?_, ?_⟩
    · intro st hm; exact h.1.1 st hm
    · exact h.1.2
    · intro q; simp [q] at h

/-- C77 does not hold for `aws_cryptosdk_raw_rsa_keyring_new`: if the copy of the private key cannot be
allocated, the copy of the public key stays allocated (raw_rsa_keyring.c 215-219). -/
theorem C77_leak_rsa : ∃ s c, Reach (fun _ _ => True) 1 s c ∧ Idle s ∧ c.owned = [] ∧ s.heap ≠ [] :=
  leak_of [.call 0 (.rawRsa true true true true false)] (by decide)

/-- C77 does not hold for `MultiKeyringBuilder::Build`: it keeps its own references to the generator and the
children when it succeeds (kms_mrk_keyring.cpp 880, 965), so that they are never freed. -/
theorem C77_leak_mrk : ∃ s c, Reach (fun _ _ => True) 1 s c ∧ Idle s ∧ c.owned = [] ∧ s.heap ≠ [] :=
  leak_of (.call 0 (.mrkBuild (some true) true [(true, true)]) :: .call 0 (.release (some 2)) ::
    List.replicate 8 (.tick 0)) (by decide)

/-- C77 does not hold for `aws_cryptosdk_multi_keyring_add_child`: if the array of the children cannot grow,
the reference that was taken before is not given back (multi_keyring.c 186-188). -/
theorem C77_leak_add_child : ∃ s c, Reach (fun _ _ => True) 1 s c ∧ Idle s ∧ c.owned = [] ∧ s.heap ≠ [] :=
  leak_of ([.call 0 (.kms true), .call 0 (.multi none true), .call 0 (.addChild 2 0 false),
    .call 0 (.release (some 2)), .tick 0, .tick 0, .tick 0, .tick 0, .call 0 (.release (some 0)), .tick 0]) (by decide)

/-- C77 does not hold for `aws_cryptosdk_caching_cmm_new_from_cmm`: if the CMM cannot be allocated, the string
with the partition id stays allocated (caching_cmm.c 179-182). -/
theorem C77_leak_caching : ∃ s c, Reach (fun _ _ => True) 1 s c ∧ Idle s ∧ c.owned = [] ∧ s.heap ≠ [] :=
  leak_of ([.call 0 (.kms true), .call 0 (.cache true), .call 0 (.cachingFromKeyring 1 0 true true true false)] ++
    List.replicate 4 (.tick 0) ++ [.call 0 (.release (some 0)), .tick 0, .tick 0, .call 0 (.release (some 1)), .tick 0,
    .tick 0]) (by decide)

/-- And it does not hold for a multi-keyring that is put into itself. -/
theorem C77_leak_cycle : ∃ s c, Reach (fun _ _ => True) 1 s c ∧ Idle s ∧ c.owned = [] ∧ s.heap ≠ [] :=
  leak_of [.call 0 (.multi none true), .call 0 (.addChild 1 1 true), .call 0 (.release (some 1)), .tick 0] (by decide)

/-- The rules are needed: giving up a reference twice frees the keyring under the other owner. -/
example : ∃ s, (((St.init 1).call 0 (.kms true)).bind fun r => (r.1.call 0 (.release (some 0))).bind fun r =>
    (r.1.tick 0).bind fun s => (s.tick 0).bind fun s => (s.call 0 (.release (some 0))).bind fun r => .ok r.1) = .ok s ∧
    s.tick 0 = .error .useAfterFree := ⟨_, rfl, rfl⟩

end Props
end Verif
