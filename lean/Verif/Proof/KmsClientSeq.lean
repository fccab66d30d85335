import Verif.Proof.KmsClientInv
/-
Client suppliers: what one thread alone sees, and builders of multi-keyrings.
-/
namespace Verif
open Verif.Spec

theorem cacheLookup_assign (m : List (Bytes × Nat)) (r r' : Bytes) (c : Nat) :
    cacheLookup (cacheAssign m r c) r' = if r' = r then some c else cacheLookup m r' := by
  unfold cacheLookup cacheAssign
  by_cases h : r' = r
  · subst h; simp
  · rw [if_neg h, List.find?_cons_of_neg (by simpa using fun e => h e.symm), List.find?_filter]
    congr 2
    funext e
    by_cases he : e.1 = r'
    · simp [he, h]
    · simp [he]

theorem cached_set (caches : List (List (Bytes × Nat))) (o o' : Nat) (r r' : Bytes) (c : Nat) :
    cacheLookup ((caches.set o (cacheAssign (caches.getD o []) r c)).getD o' []) r' =
      if o = o' ∧ o < caches.length ∧ r' = r then some c else cacheLookup (caches.getD o' []) r' := by
  simp only [List.getD_eq_getElem?_getD]
  rw [List.getElem?_set]
  by_cases ho : o = o'
  · subst ho
    by_cases hl : o < caches.length
    · rw [if_pos rfl, if_pos hl, Option.getD_some, cacheLookup_assign]
      by_cases hr : r' = r
      · rw [if_pos hr, if_pos ⟨rfl, hl, hr⟩]
      · rw [if_neg hr, if_neg (fun h => hr h.2.2)]
    · rw [if_pos rfl, if_neg hl, if_neg (fun h => hl h.2.1), List.getElem?_eq_none (by omega)]
  · rw [if_neg ho, if_neg (fun h => ho h.1)]

theorem cached_append (caches : List (List (Bytes × Nat))) (o : Nat) : (caches ++ [[]]).getD o [] = caches.getD o [] := by
  simp only [List.getD_eq_getElem?_getD, List.getElem?_append]
  split
  · rfl
  · rename_i h
    rw [List.getElem?_eq_none (l := caches) (by omega)]
    cases hx : o - caches.length with
    | zero => rfl
    | succ n => rfl

/-- The maps change only when a thread reports a client. -/
theorem step_cached (s : KmsSys) (t : Nat) (ch : KmsChoice) (o : Nat) (r : Bytes) :
    (s.step t ch).cached o r = s.cached o r ∨
      ∃ th k c, s.threads[t]? = some (some th) ∧ th.prog = .report k ∧ th.report = .store o r c ∧ (s.step t ch).cached o r = some c := by
  unfold KmsSys.step
  cases ht : s.threads[t]? with
  | none => exact .inl rfl
  | some x =>
    cases x with
    | none => exact .inl rfl
    | some th =>
      dsimp only
      cases hp : th.prog with
      | done r => exact .inl rfl
      | client sup i region k =>
        cases sup with
        | single c => exact .inl rfl
        | custom c => exact .inl rfl
        | caching o' =>
          dsimp only
          split
          · exact .inl rfl
          · split
            · exact .inl rfl
            · split <;> exact .inl rfl
      | report k =>
        dsimp only
        cases hr : th.report with
        | unset => exact .inl rfl
        | noop => exact .inl rfl
        | store o' r' c =>
          dsimp only [KmsSys.cached]
          rw [cached_set]
          by_cases h : o' = o ∧ o' < s.caches.length ∧ r = r'
          · rw [if_pos h]
            obtain ⟨rfl, -, rfl⟩ := h
            exact .inr ⟨th, k, c, rfl, hp, hr, rfl⟩
          · rw [if_neg h]; exact .inl rfl
      | decrypt i c r k => exact .inl rfl
      | encrypt i c r k => exact .inl rfl
      | generate c r k => exact .inl rfl
      | newClient region k => exact .inl rfl
      | newSupplier k => left; dsimp only [KmsSys.cached]; rw [cached_append]

/-- One thread alone. -/
structure SeqInv (s : KmsSys) : Prop where
  len : s.threads.length = 1
  store : ∀ th, s.threads[0]? = some (some th) → ∀ o r c, th.report = .store o r c → s.cached o r = none ∨ s.cached o r = some c
  missed : ∀ th, s.threads[0]? = some (some th) → th.missed = true →
    ∃ o i r k, th.prog = .client (.caching o) i r k ∧ s.cached o r = none

theorem seq_step {s : KmsSys} (inv : SeqInv s) (t : Nat) (ch : KmsChoice) : SeqInv (s.step t ch) := by
  by_cases h0 : t = 0
  case neg =>
    have : s.step t ch = s := by
      unfold KmsSys.step
      rw [List.getElem?_eq_none (by rw [inv.len]; omega)]
    rw [this]; exact inv
  subst h0
  have hlen := inv.len
  have gs : ∀ x : Option KmsThread, (s.threads.set 0 x)[0]? = some x := by
    intro x; rw [List.getElem?_set, if_pos rfl, if_pos (by omega)]
  have ls : ∀ x : Option KmsThread, (s.threads.set 0 x).length = 1 := by intro x; rw [List.length_set]; exact hlen
  unfold KmsSys.step
  cases ht : s.threads[0]? with
  | none => exact inv
  | some x =>
    cases x with
    | none => exact inv
    | some th =>
      have is := inv.store th ht
      have im := inv.missed th ht
      have nm : (∀ o i r k, th.prog ≠ .client (.caching o) i r k) → th.missed = false := by
        intro h
        cases hm : th.missed with
        | false => rfl
        | true => obtain ⟨o, i, r, k, hp, -⟩ := im hm; exact absurd hp (h o i r k)
      dsimp only
      cases hp : th.prog with
      | done r =>
        dsimp only
        refine ⟨ls _, fun th' h => ?_, fun th' h => ?_⟩ <;> (dsimp only at h; rw [gs] at h; cases h)
      | client sup i region k =>
        cases sup with
        | single c =>
          have hm := nm (fun _ _ _ _ h => by rw [hp] at h; cases h)
          refine ⟨ls _, fun th' h => ?_, fun th' h h' => ?_⟩ <;> (dsimp only at h; rw [gs] at h; cases h)
          · intro o r c h; cases h
          · rw [hm] at h'; cases h'
        | custom c =>
          have hm := nm (fun _ _ _ _ h => by rw [hp] at h; cases h)
          refine ⟨ls _, fun th' h => ?_, fun th' h h' => ?_⟩ <;> (dsimp only at h; rw [gs] at h; cases h)
          · intro o r c h; dsimp only at h; split at h <;> cases h
          · rw [hm] at h'; cases h'
        | caching o =>
          dsimp only
          by_cases hno : s.caches.length ≤ o
          · rw [if_pos hno]; exact inv
          rw [if_neg hno]
          by_cases hm : th.missed = true
          · rw [if_pos hm]
            obtain ⟨o', i', r', k', hp', hc⟩ := im hm
            rw [hp] at hp'; cases hp'
            refine ⟨ls _, fun th' h => ?_, fun th' h h' => ?_⟩ <;> (dsimp only at h; rw [gs] at h; cases h)
            · intro o r c h; cases h; exact .inl hc
            · cases h'
          · rw [if_neg hm]
            cases hl : cacheLookup (s.caches.getD o []) region with
            | none =>
              refine ⟨ls _, fun th' h => ?_, fun th' h h' => ?_⟩ <;> (dsimp only at h; rw [gs] at h; cases h)
              · exact is
              · exact ⟨o, i, region, k, rfl, hl⟩
            | some c =>
              refine ⟨ls _, fun th' h => ?_, fun th' h h' => ?_⟩ <;> (dsimp only at h; rw [gs] at h; cases h)
              · intro o r c h; cases h
              · exact absurd h' hm
      | report k =>
        have hm := nm (fun _ _ _ _ h => by rw [hp] at h; cases h)
        dsimp only
        cases hr : th.report with
        | unset =>
          refine ⟨ls _, fun th' h => ?_, fun th' h h' => ?_⟩ <;> (dsimp only at h; rw [gs] at h; cases h)
          · intro o r c h; cases h
          · rw [hm] at h'; cases h'
        | noop =>
          refine ⟨ls _, fun th' h => ?_, fun th' h h' => ?_⟩ <;> (dsimp only at h; rw [gs] at h; cases h)
          · intro o r c h; cases h
          · rw [hm] at h'; cases h'
        | store o r c =>
          refine ⟨ls _, fun th' h => ?_, fun th' h h' => ?_⟩ <;> (dsimp only at h; rw [gs] at h; cases h)
          · intro o' r' c' h
            cases h
            dsimp only [KmsSys.cached]
            rw [cached_set]
            split
            · exact .inr rfl
            · exact is _ _ _ hr
          · rw [hm] at h'; cases h'
      | decrypt i c r k =>
        have hm := nm (fun _ _ _ _ h => by rw [hp] at h; cases h)
        refine ⟨ls _, fun th' h => ?_, fun th' h h' => ?_⟩ <;> (dsimp only at h; rw [gs] at h; cases h)
        · exact is
        · rw [hm] at h'; cases h'
      | encrypt i c r k =>
        have hm := nm (fun _ _ _ _ h => by rw [hp] at h; cases h)
        refine ⟨ls _, fun th' h => ?_, fun th' h h' => ?_⟩ <;> (dsimp only at h; rw [gs] at h; cases h)
        · exact is
        · rw [hm] at h'; cases h'
      | generate c r k =>
        have hm := nm (fun _ _ _ _ h => by rw [hp] at h; cases h)
        refine ⟨ls _, fun th' h => ?_, fun th' h h' => ?_⟩ <;> (dsimp only at h; rw [gs] at h; cases h)
        · exact is
        · rw [hm] at h'; cases h'
      | newClient region k =>
        have hm := nm (fun _ _ _ _ h => by rw [hp] at h; cases h)
        refine ⟨ls _, fun th' h => ?_, fun th' h h' => ?_⟩ <;> (dsimp only at h; rw [gs] at h; cases h)
        · exact is
        · rw [hm] at h'; cases h'
      | newSupplier k =>
        have hm := nm (fun _ _ _ _ h => by rw [hp] at h; cases h)
        refine ⟨ls _, fun th' h => ?_, fun th' h h' => ?_⟩ <;> (dsimp only at h; rw [gs] at h; cases h)
        · intro o r c h
          dsimp only [KmsSys.cached]
          rw [cached_append]
          exact is o r c h
        · rw [hm] at h'; cases h'

theorem seqInv {P : KmsJob → Prop} {s : KmsSys} (h : KmsReach P 1 s) : SeqInv s := by
  induction h with
  | init => exact ⟨rfl, fun th h => (by cases h), fun th h => (by cases h)⟩
  | makeClient region _ inv => exact ⟨inv.len, inv.store, inv.missed⟩
  | @makeSupplier s' _ inv =>
    have e : ∀ o r, s'.makeSupplier.cached o r = s'.cached o r := fun o r => by
      dsimp only [KmsSys.cached, KmsSys.makeSupplier]; rw [cached_append]
    refine ⟨inv.len, fun th h o r c hs => ?_, fun th h hm => ?_⟩
    · rw [e]; exact inv.store th h o r c hs
    · obtain ⟨o, i, r, k, hp, hc⟩ := inv.missed th h hm
      exact ⟨o, i, r, k, hp, by rw [e]; exact hc⟩
  | @start s' t job _ ht hP ha inv =>
    have hlen := inv.len
    have h0 : t = 0 := by
      have := (List.getElem?_eq_some_iff.1 ht).1
      omega
    subst h0
    refine ⟨by dsimp only [KmsSys.start]; rw [List.length_set]; exact inv.len, fun th h => ?_, fun th h h' => ?_⟩ <;>
      (dsimp only [KmsSys.start] at h; rw [List.getElem?_set, if_pos rfl, if_pos (by omega)] at h; cases h)
    · intro o r c h; cases h
    · cases h'
  | step t ch _ _ inv => exact seq_step inv t ch

/-! ### No report -/

def NoReport {α : Type} : KmsProg α → Prop
  | .done _ => True
  | .client _ _ _ k => ∀ c, NoReport (k c)
  | .report _ => False
  | .decrypt _ _ _ k => ∀ a, NoReport (k a)
  | .encrypt _ _ _ k => ∀ a, NoReport (k a)
  | .generate _ _ k => ∀ a, NoReport (k a)
  | .newClient _ k => ∀ n, NoReport (k n)
  | .newSupplier k => ∀ n, NoReport (k n)

theorem NoReport.bind {α β : Type} {p : KmsProg α} {f : α → KmsProg β} (hp : NoReport p) (hf : ∀ a, NoReport (f a)) : NoReport (p.bind f) := by
  induction p with
  | done a => exact hf a
  | client sup i region k ih => exact fun c => ih c (hp c)
  | report k ih => exact hp.elim
  | decrypt i c r k ih => exact fun a => ih a (hp a)
  | encrypt i c r k ih => exact fun a => ih a (hp a)
  | generate c r k ih => exact fun a => ih a (hp a)
  | newClient region k ih => exact fun a => ih a (hp a)
  | newSupplier k ih => exact fun a => ih a (hp a)

theorem mrkBuildProg_noReport (c : Nat) (grants : List Bytes) (id : Bytes) : NoReport (mrkBuildProg { client := some c, grants := grants } id) := by
  unfold mrkBuildProg
  split
  · trivial
  · exact NoReport.bind (f := _) (p := buildSupplier [id] _) trivial (fun _ => trivial)

theorem mrkBuildFilterProg_noReport (b : KmsBuilder) (region : Bytes) (f : Option DiscoveryFilter) : NoReport (mrkBuildFilterProg b region f) := by
  unfold mrkBuildFilterProg
  split <;> trivial

theorem mrkChildrenProg_noReport (child : Nat → Bool) (sup : Supplier) (grants : List Bytes) (ids : List Bytes) : ∀ i,
    NoReport (mrkChildrenProg child sup grants i ids) := by
  induction ids with
  | nil => intro i; trivial
  | cons id ids ih =>
    intro i
    rw [mrkChildrenProg]
    split
    · trivial
    · intro c
      cases c with
      | none => trivial
      | some c =>
        refine NoReport.bind (mrkBuildProg_noReport ..) fun r => ?_
        cases r with
        | none => trivial
        | some kr =>
          dsimp only
          split
          · trivial
          · refine NoReport.bind (ih _) fun r => ?_
            cases r <;> trivial

theorem mrkRegionsProg_noReport (child : Nat → Bool) (sup : Supplier) (grants : List Bytes) (f : Option DiscoveryFilter) (rs : List Bytes) : ∀ i,
    NoReport (mrkRegionsProg child sup grants f i rs) := by
  induction rs with
  | nil => intro i; trivial
  | cons id ids ih =>
    intro i
    rw [mrkRegionsProg]
    intro c
    cases c with
    | none => trivial
    | some c =>
      refine NoReport.bind (mrkBuildFilterProg_noReport ..) fun r => ?_
      cases r with
      | none => trivial
      | some kr =>
        dsimp only
        split
        · trivial
        · refine NoReport.bind (ih _) fun r => ?_
          cases r <;> trivial

theorem supplierOrDefault_noReport (b : KmsBuilder) : NoReport (supplierOrDefault b) := by
  unfold supplierOrDefault
  split
  · trivial
  · intro n; trivial

theorem mrkMultiProg__noReport (multi : Bool) (child : Nat → Bool) (b : KmsBuilder) (g : Bytes) (ids : List Bytes) :
    NoReport (mrkMultiProg_ multi child b g ids) := by
  unfold mrkMultiProg_
  split
  · trivial
  · dsimp only
    generalize ((if g.length > 0 then [g] else []) ++ ids) = all
    split
    · trivial
    · split
      · trivial
      · refine NoReport.bind (supplierOrDefault_noReport b) fun sup => ?_
        refine NoReport.bind ?_ fun r => ?_
        · unfold mrkGeneratorProg
          split
          · trivial
          · intro c
            cases c with
            | none => trivial
            | some c =>
              refine NoReport.bind (mrkBuildProg_noReport ..) fun r => ?_
              cases r <;> trivial
        · cases r with
          | none => trivial
          | some gs =>
            dsimp only
            split
            · trivial
            · refine NoReport.bind (mrkChildrenProg_noReport ..) fun r => ?_
              cases r <;> trivial

theorem multi_noReport {job : KmsJob} (h : BuildsMulti job) : NoReport job.prog := by
  cases job with
  | multi l mem child g ids =>
    refine NoReport.bind ?_ fun r => trivial
    unfold mrkMultiProg
    cases g with
    | none => exact mrkMultiProg__noReport ..
    | some g =>
      dsimp only
      split
      · trivial
      · exact mrkMultiProg__noReport ..
  | multiDiscovery l mem child rs f =>
    refine NoReport.bind ?_ fun r => trivial
    unfold mrkMultiDiscoveryProg
    split
    · trivial
    · split
      · trivial
      · refine NoReport.bind (supplierOrDefault_noReport _) fun sup => ?_
        split
        · trivial
        · exact mrkRegionsProg_noReport ..
  | _ => exact h.elim

structure MultiInv (s : KmsSys) : Prop where
  threads : ∀ (t : Nat) (th : KmsThread), s.threads[t]? = some (some th) → NoReport th.prog
  caches : ∀ m ∈ s.caches, m = []

theorem multi_step {s : KmsSys} (inv : MultiInv s) (t : Nat) (ch : KmsChoice) : MultiInv (s.step t ch) := by
  unfold KmsSys.step
  cases ht : s.threads[t]? with
  | none => exact inv
  | some x =>
    cases x with
    | none => exact inv
    | some th =>
      have hn := inv.threads t th ht
      have set : ∀ x : Option KmsThread, (∀ th', x = some th' → NoReport th'.prog) → ∀ (t' : Nat) (th' : KmsThread),
          (s.threads.set t x)[t']? = some (some th') → NoReport th'.prog := by
        intro x hx t' th' h
        rw [List.getElem?_set] at h
        split at h
        · split at h
          · exact hx th' (Option.some.inj h)
          · cases h
        · exact inv.threads t' th' h
      dsimp only
      cases hp : th.prog with
      | done r => exact ⟨set _ fun th' h => (by cases h), inv.caches⟩
      | client sup i region k =>
        rw [hp] at hn
        cases sup with
        | single c => exact ⟨set _ fun th' h => (by cases h; exact hn _), inv.caches⟩
        | custom c => exact ⟨set _ fun th' h => (by cases h; exact hn _), inv.caches⟩
        | caching o =>
          dsimp only
          by_cases hno : s.caches.length ≤ o
          · rw [if_pos hno]; exact inv
          rw [if_neg hno]
          split
          · exact ⟨set _ fun th' h => (by cases h; exact hn _), inv.caches⟩
          · split
            · exact ⟨set _ fun th' h => (by cases h; exact hn _), inv.caches⟩
            · exact ⟨set _ fun th' h => (by cases h; exact hn), inv.caches⟩
      | report k => rw [hp] at hn; exact hn.elim
      | decrypt i c r k => rw [hp] at hn; exact ⟨set _ fun th' h => (by cases h; exact hn _), inv.caches⟩
      | encrypt i c r k => rw [hp] at hn; exact ⟨set _ fun th' h => (by cases h; exact hn _), inv.caches⟩
      | generate c r k => rw [hp] at hn; exact ⟨set _ fun th' h => (by cases h; exact hn _), inv.caches⟩
      | newClient region k => rw [hp] at hn; exact ⟨set _ fun th' h => (by cases h; exact hn _), inv.caches⟩
      | newSupplier k =>
        rw [hp] at hn
        refine ⟨set _ fun th' h => (by cases h; exact hn _), fun m hm => ?_⟩
        rcases List.mem_append.1 hm with hm | hm
        · exact inv.caches m hm
        · exact List.mem_singleton.1 hm

theorem multiInv {P : KmsJob → Prop} (hP : ∀ job, P job → BuildsMulti job) {n : Nat} {s : KmsSys} (h : KmsReach P n s) : MultiInv s := by
  induction h with
  | init =>
    refine ⟨fun t th ht => ?_, fun m hm => (by cases hm)⟩
    rw [List.getElem?_replicate] at ht
    split at ht <;> cases ht
  | makeClient region _ inv => exact ⟨inv.threads, inv.caches⟩
  | makeSupplier _ inv =>
    refine ⟨inv.threads, fun m hm => ?_⟩
    rcases List.mem_append.1 hm with hm | hm
    · exact inv.caches m hm
    · exact List.mem_singleton.1 hm
  | start t job _ ht hj ha inv =>
    refine ⟨fun t' th' h => ?_, inv.caches⟩
    dsimp only [KmsSys.start] at h
    rw [List.getElem?_set] at h
    split at h
    · split at h
      · cases h; exact multi_noReport (hP job hj)
      · cases h
    · exact inv.threads t' th' h
  | step t ch _ _ inv => exact multi_step inv t ch

end Verif
