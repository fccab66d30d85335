import Verif.Proof.KmsClientSeq
/-
Client suppliers: clients that were used successfully are entered.
-/
namespace Verif
open Verif.Spec

/-- The program asks only the supplier `o`, calls KMS only for keys of the region asked last, and then reports every success. -/
def Reports {α : Type} (o : Nat) (cur : Option Bytes) : KmsProg α → Prop
  | .done _ => True
  | .client sup _ region k => sup = .caching o ∧ ∀ c, Reports o (some region) (k c)
  | .report k => Reports o cur k
  | .decrypt _ _ r k => cur = some (parseRegion r.keyId) ∧ ∀ a, (a.isSome = true → ∃ k', k a = .report k') ∧ Reports o cur (k a)
  | .encrypt _ _ r k => cur = some (parseRegion r.keyId) ∧ ∀ a, (a.isSome = true → ∃ k', k a = .report k') ∧ Reports o cur (k a)
  | .generate _ r k => cur = some (parseRegion r.keyId) ∧ ∀ a, (a.isSome = true → ∃ k', k a = .report k') ∧ Reports o cur (k a)
  | .newClient _ k => ∀ n, Reports o cur (k n)
  | .newSupplier k => ∀ n, Reports o cur (k n)

theorem Reports.bind {α β : Type} {o : Nat} {f : α → KmsProg β} (hf : ∀ cur a, Reports o cur (f a)) {p : KmsProg α} :
    ∀ {cur : Option Bytes}, Reports o cur p → Reports o cur (p.bind f) := by
  have b : ∀ {k : KmsProg α}, (∃ k', k = .report k') → ∃ k', k.bind f = .report k' := by rintro _ ⟨k', rfl⟩; exact ⟨_, rfl⟩
  induction p with
  | done a => intro cur _; exact hf cur a
  | client sup i region k ih => intro cur h; exact ⟨h.1, fun c => ih c (h.2 c)⟩
  | report k ih => intro cur h; exact ih h
  | decrypt i c r k ih => intro cur h; exact ⟨h.1, fun a => ⟨fun ha => b ((h.2 a).1 ha), ih a (h.2 a).2⟩⟩
  | encrypt i c r k ih => intro cur h; exact ⟨h.1, fun a => ⟨fun ha => b ((h.2 a).1 ha), ih a (h.2 a).2⟩⟩
  | generate c r k ih => intro cur h; exact ⟨h.1, fun a => ⟨fun ha => b ((h.2 a).1 ha), ih a (h.2 a).2⟩⟩
  | newClient region k ih => intro cur h; exact fun n => ih n (h n)
  | newSupplier k ih => intro cur h; exact fun n => ih n (h n)

theorem kmsPlan_region {kr : KmsKeyring} {e : Edk} {region : Bytes} (h : kmsPlan kr e = some region) : region = parseRegion e.providerInfo := by
  unfold kmsPlan at h
  repeat' split at h
  all_goals first | (cases h; done) | exact (Option.some.inj h).symm

theorem kmsDecProg_reports (env : KmsEnv) (o : Nat) (kr : KmsKeyring) (ctx : EncCtx) (s : DecState) (edks : List Edk) : ∀ i cur,
    Reports o cur (kmsDecProg env (.caching o) kr ctx i s edks) := by
  induction edks with
  | nil => intro i cur; trivial
  | cons e edks ih =>
    intro i cur
    rw [kmsDecProg]
    cases hp : kmsPlan kr e with
    | none => exact ih ..
    | some region =>
      refine ⟨rfl, fun c => ?_⟩
      cases c with
      | none => exact ih ..
      | some c =>
        refine ⟨by rw [kmsPlan_region hp], fun a => ?_⟩
        cases a with
        | none => exact ⟨fun h => (by cases h), ih ..⟩
        | some a => exact ⟨fun _ => ⟨_, rfl⟩, trivial⟩

theorem kmsEncProgLoop_reports (env : KmsEnv) (o : Nat) (grants : List Bytes) (ctx : EncCtx) (key : Bytes) (ids : List Bytes) : ∀ i my cur,
    Reports o cur (kmsEncProgLoop env (.caching o) grants ctx key i my ids) := by
  induction ids with
  | nil => intro i my cur; trivial
  | cons id ids ih =>
    intro i my cur
    rw [kmsEncProgLoop]
    refine ⟨rfl, fun c => ?_⟩
    cases c with
    | none => trivial
    | some c =>
      refine ⟨rfl, fun a => ?_⟩
      cases a with
      | none => exact ⟨fun h => (by cases h), trivial⟩
      | some a =>
        refine ⟨fun _ => ⟨_, rfl⟩, ?_⟩
        show Reports o _ (match kmsAppend env i my a.1 a.2 id (2 + 8) with
              | none => KmsProg.done (.error .oom)
              | some my => kmsEncProgLoop env (.caching o) grants ctx key (i + 1) my ids)
        cases kmsAppend env i my a.1 a.2 id (2 + 8) with
        | none => trivial
        | some my => exact ih ..

theorem kmsEncProgRest_reports (env : KmsEnv) (o : Nat) (kr : KmsKeyring) (ctx : EncCtx) (s : EncState) (key : Option KeyBuf) (fresh : Bool) (i : Nat)
    (my : KmsLocal) (ids : List Bytes) (cur : Option Bytes) : Reports o cur (kmsEncProgRest env (.caching o) kr ctx s key fresh i my ids) := by
  refine Reports.bind (fun cur a => ?_) (kmsEncProgLoop_reports ..)
  cases a <;> trivial

theorem kmsEncProg_reports (env : KmsEnv) (o : Nat) (kr : KmsKeyring) (ctx : EncCtx) (alg : Nat) (s : EncState) (cur : Option Bytes) :
    Reports o cur (kmsEncProg env (.caching o) kr ctx alg s) := by
  unfold kmsEncProg
  cases hk : kr.keyIds with
  | nil => trivial
  | cons id ids =>
    dsimp only
    split
    · trivial
    · cases s.key with
      | some k => exact kmsEncProgRest_reports ..
      | none =>
        dsimp only
        cases algProps alg with
        | none => trivial
        | some p =>
          refine ⟨rfl, fun c => ?_⟩
          cases c with
          | none => trivial
          | some c =>
            refine ⟨rfl, fun a => ?_⟩
            cases a with
            | none => exact ⟨fun h => (by cases h), trivial⟩
            | some a =>
              refine ⟨fun _ => ⟨_, rfl⟩, ?_⟩
              show Reports o _ (match kmsAppend env 0 ⟨[], [], s.errno⟩ a.1 a.2.1 id (1 + 2 + 8), dupKey env a.2.2 with
                    | some my, some key => kmsEncProgRest env (.caching o) kr ctx s key true 1 my ids
                    | _, _ => KmsProg.done (.fail, { s with key := none, errno := .oom }))
              cases kmsAppend env 0 ⟨[], [], s.errno⟩ a.1 a.2.1 id (1 + 2 + 8) with
              | none => trivial
              | some my =>
                cases dupKey env a.2.2 with
                | none => trivial
                | some key => exact kmsEncProgRest_reports ..

theorem job_reports {o : Nat} {job : KmsJob} (h : UsesCaching o job) : Reports o none job.prog := by
  cases job with
  | encrypt l kr mem ctx alg s =>
    cases kr with
    | kms kr sup =>
      have h : sup = .caching o := h
      subst h
      exact Reports.bind (f := fun r => .done (KmsResult.encrypted r.1 r.2)) (fun _ _ => trivial) (kmsEncProg_reports ..)
    | mrk kr sup => exact h.elim
  | decrypt l kr mem edks ctx alg s =>
    cases kr with
    | kms kr sup =>
      have h : sup = .caching o := h
      subst h
      exact Reports.bind (f := fun r => .done (KmsResult.decrypted r.1 r.2)) (fun _ _ => trivial) (kmsDecProg_reports ..)
    | mrk kr sup => exact h.elim
  | _ => exact h.elim

structure RepThread (s : KmsSys) (th : KmsThread) : Prop where
  good : ∀ o, UsesCaching o th.job → ∃ cur, Reports o cur th.prog ∧ ∀ r, cur = some r → (∃ c, th.report = .store o r c) ∨ (s.cached o r).isSome = true
  exist : ∀ o r c, th.report = .store o r c → o < s.caches.length

/-- The success of this call was or will be entered. -/
def Entered (s : KmsSys) (o : Nat) (r : Bytes) : Prop :=
  (s.cached o r).isSome = true ∨ ∃ (t : Nat) (th : KmsThread) (k : KmsProg KmsResult) (c : Nat), s.threads[t]? = some (some th) ∧ th.prog = .report k ∧ th.report = .store o r c

structure RepInv (s : KmsSys) : Prop where
  threads : ∀ (t : Nat) (th : KmsThread), s.threads[t]? = some (some th) → RepThread s th
  log : ∀ job call, (job, call, true) ∈ s.log → ∀ o, UsesCaching o job → Entered s o (parseRegion call.keyId)

theorem RepThread.mono {s s' : KmsSys} {th : KmsThread} (h : RepThread s th) (hc : ∀ o r, (s.cached o r).isSome = true → (s'.cached o r).isSome = true)
    (hl : s.caches.length ≤ s'.caches.length) : RepThread s' th where
  good := fun o ho => let ⟨cur, h1, h2⟩ := h.good o ho; ⟨cur, h1, fun r hr => (h2 r hr).imp id (hc o r)⟩
  exist := fun o r c e => Nat.lt_of_lt_of_le (h.exist o r c e) hl

/-- After a step of thread `t` in which it becomes `x`. -/
theorem rep_set {s s' : KmsSys} (inv : RepInv s) {t : Nat} {th : KmsThread} (ht : s.threads[t]? = some (some th)) {x : Option KmsThread}
    (hth : s'.threads = s.threads.set t x) (hc : ∀ o r, (s.cached o r).isSome = true → (s'.cached o r).isSome = true)
    (hl : s.caches.length ≤ s'.caches.length) (hx : ∀ th', x = some th' → RepThread s' th')
    (hp : ∀ k o r c, th.prog = .report k → th.report = .store o r c → (s'.cached o r).isSome = true)
    (hlog : ∀ e ∈ s'.log, e ∈ s.log ∨ ∀ job call, e = (job, call, true) → ∀ o, UsesCaching o job → Entered s' o (parseRegion call.keyId)) :
    RepInv s' := by
  have hlt : t < s.threads.length := (List.getElem?_eq_some_iff.1 ht).1
  refine ⟨fun t' th' h => ?_, fun job call hm o ho => ?_⟩
  · rw [hth, List.getElem?_set] at h
    split at h
    · exact hx th' (Option.some.inj h)
    · exact (inv.threads t' th' h).mono hc hl
  · rcases hlog _ hm with hm | h
    · rcases inv.log job call hm o ho with h | ⟨t', th', k, c, h1, h2, h3⟩
      · exact .inl (hc _ _ h)
      · by_cases e : t = t'
        · subst e
          rw [ht] at h1
          cases h1
          exact .inl (hp k _ _ c h2 h3)
        · refine .inr ⟨t', th', k, c, ?_, h2, h3⟩
          rw [hth, List.getElem?_set, if_neg e]; exact h1
    · exact h job call rfl o ho

theorem rep_step {s : KmsSys} (inv : RepInv s) (t : Nat) (ch : KmsChoice) : RepInv (s.step t ch) := by
  have stays : ∀ o r, (s.cached o r).isSome = true → ((s.step t ch).cached o r).isSome = true := by
    intro o r h
    rcases step_cached s t ch o r with e | ⟨th, k, c, -, -, -, e⟩
    · rw [e]; exact h
    · rw [e]; rfl
  revert stays
  unfold KmsSys.step
  cases ht : s.threads[t]? with
  | none => intro _; exact inv
  | some x =>
    cases x with
    | none => intro _; exact inv
    | some th =>
      have it := inv.threads t th ht
      have hlt : t < s.threads.length := (List.getElem?_eq_some_iff.1 ht).1
      dsimp only
      cases hp : th.prog with
      | done r =>
        intro stays
        exact rep_set inv ht rfl stays (Nat.le_refl _) (fun th' h => by cases h) (fun k o r c h => by rw [hp] at h; cases h) (fun e h => .inl h)
      | client sup i region k =>
        have none' : ∀ k' o r c, th.prog = .report k' → th.report = .store o r c → ∀ b : Bool, b = true := by
          intro k' o r c h; rw [hp] at h; cases h
        cases sup with
        | single c =>
          intro stays
          refine rep_set inv ht rfl stays (Nat.le_refl _) (fun th' h => ?_) (fun k o r c h h' => none' k o r c h h' _) (fun e h => .inl h)
          cases h
          refine ⟨fun o ho => ?_, fun o r c h => by cases h⟩
          obtain ⟨cur, h1, -⟩ := it.good o ho
          rw [hp] at h1; cases h1.1
        | custom c =>
          intro stays
          refine rep_set inv ht rfl stays (Nat.le_refl _) (fun th' h => ?_) (fun k o r c h h' => none' k o r c h h' _) (fun e h => .inl h)
          cases h
          refine ⟨fun o ho => ?_, fun o r c h => by dsimp only at h; split at h <;> cases h⟩
          obtain ⟨cur, h1, -⟩ := it.good o ho
          rw [hp] at h1; cases h1.1
        | caching o =>
          dsimp only
          by_cases hno : s.caches.length ≤ o
          · rw [if_pos hno]; intro _; exact inv
          rw [if_neg hno]
          by_cases hm : th.missed = true
          · rw [if_pos hm]
            intro stays
            refine rep_set inv ht rfl stays (Nat.le_refl _) (fun th' h => ?_) (fun k o r c h h' => none' k o r c h h' _) (fun e h => .inl h)
            cases h
            refine ⟨fun o' ho => ?_, fun o' r c h => by cases h; exact Nat.lt_of_not_le hno⟩
            obtain ⟨cur, h1, -⟩ := it.good o' ho
            rw [hp] at h1
            have e : o = o' := Supplier.caching.inj h1.1
            subst e
            exact ⟨some region, h1.2 _, fun r hr => .inl (by cases hr; exact ⟨_, rfl⟩)⟩
          · rw [if_neg hm]
            cases hlook : cacheLookup (s.caches.getD o []) region with
            | none =>
              intro stays
              refine rep_set inv ht rfl stays (Nat.le_refl _) (fun th' h => ?_) (fun k o r c h h' => none' k o r c h h' _) (fun e h => .inl h)
              cases h
              refine ⟨fun o' ho => ?_, it.exist⟩
              obtain ⟨cur, h1, h2⟩ := it.good o' ho
              rw [hp] at h1
              exact ⟨cur, h1, h2⟩
            | some c =>
              intro stays
              refine rep_set inv ht rfl stays (Nat.le_refl _) (fun th' h => ?_) (fun k o r c h h' => none' k o r c h h' _) (fun e h => .inl h)
              cases h
              refine ⟨fun o' ho => ?_, fun o' r c h => by cases h⟩
              obtain ⟨cur, h1, -⟩ := it.good o' ho
              rw [hp] at h1
              have e : o = o' := Supplier.caching.inj h1.1
              subst e
              refine ⟨some region, h1.2 _, fun r hr => .inr ?_⟩
              cases hr
              show (cacheLookup (s.caches.getD o []) region).isSome = true
              rw [hlook]; rfl
      | report k =>
        dsimp only
        cases hr : th.report with
        | unset =>
          intro stays
          refine rep_set inv ht rfl stays (Nat.le_refl _) (fun th' h => ?_) (fun k o r c _ h => by rw [hr] at h; cases h) (fun e h => .inl h)
          cases h
          refine ⟨fun o ho => ⟨none, trivial, fun r h => by cases h⟩, fun o r c h => by cases h⟩
        | noop =>
          intro stays
          refine rep_set inv ht rfl stays (Nat.le_refl _) (fun th' h => ?_) (fun k o r c _ h => by rw [hr] at h; cases h) (fun e h => .inl h)
          cases h
          refine ⟨fun o ho => ?_, fun o r c h => by cases h⟩
          obtain ⟨cur, h1, h2⟩ := it.good o ho
          rw [hp] at h1
          refine ⟨cur, h1, fun r hc => (h2 r hc).imp (fun ⟨c, h⟩ => ?_) id⟩
          rw [hr] at h; cases h
        | store o region c =>
          have hlo := it.exist o region c hr
          intro stays
          refine rep_set inv ht rfl stays (by simp) (fun th' h => ?_) (fun k' o' r' c' _ h => ?_) (fun e h => .inl h)
          · cases h
            refine ⟨fun o' ho => ?_, fun o' r c h => by cases h; simpa using hlo⟩
            obtain ⟨cur, h1, h2⟩ := it.good o' ho
            rw [hp] at h1
            refine ⟨cur, h1, fun r hc => ?_⟩
            rcases h2 r hc with ⟨c', h⟩ | h
            · rw [hr] at h; cases h; exact .inl ⟨_, rfl⟩
            · exact .inr (stays _ _ h)
          · rw [hr] at h; cases h
            dsimp only [KmsSys.cached]
            rw [cached_set, if_pos ⟨rfl, hlo, rfl⟩]; rfl
      | decrypt i c r k =>
        intro stays
        refine rep_set inv ht rfl stays (Nat.le_refl _) (fun th' h => ?_) (fun k' o r' c' h => by rw [hp] at h; cases h) (fun e h => ?_)
        · cases h
          refine ⟨fun o ho => ?_, it.exist⟩
          obtain ⟨cur, h1, h2⟩ := it.good o ho
          rw [hp] at h1
          exact ⟨cur, (h1.2 _).2, h2⟩
        · rcases List.mem_append.1 h with h | h
          · exact .inl h
          · refine .inr fun job call he o ho => ?_
            rw [List.mem_singleton.1 h] at he
            obtain ⟨rfl, he⟩ := Prod.ext_iff.1 he
            obtain ⟨rfl, hok⟩ := Prod.ext_iff.1 he
            obtain ⟨cur, h1, h2⟩ := it.good o ho
            rw [hp] at h1
            rcases h2 _ h1.1 with ⟨c', hc'⟩ | hc'
            · obtain ⟨k', hk'⟩ := (h1.2 ch.answer).1 hok
              exact .inr ⟨t, { th with prog := k ch.answer }, k', c', by dsimp only; rw [List.getElem?_set, if_pos rfl, if_pos hlt], hk', hc'⟩
            · exact .inl (stays _ _ hc')
      | encrypt i c r k =>
        intro stays
        refine rep_set inv ht rfl stays (Nat.le_refl _) (fun th' h => ?_) (fun k' o r' c' h => by rw [hp] at h; cases h) (fun e h => ?_)
        · cases h
          refine ⟨fun o ho => ?_, it.exist⟩
          obtain ⟨cur, h1, h2⟩ := it.good o ho
          rw [hp] at h1
          exact ⟨cur, (h1.2 _).2, h2⟩
        · rcases List.mem_append.1 h with h | h
          · exact .inl h
          · refine .inr fun job call he o ho => ?_
            rw [List.mem_singleton.1 h] at he
            obtain ⟨rfl, he⟩ := Prod.ext_iff.1 he
            obtain ⟨rfl, hok⟩ := Prod.ext_iff.1 he
            obtain ⟨cur, h1, h2⟩ := it.good o ho
            rw [hp] at h1
            rcases h2 _ h1.1 with ⟨c', hc'⟩ | hc'
            · obtain ⟨k', hk'⟩ := (h1.2 ch.answer).1 hok
              exact .inr ⟨t, { th with prog := k ch.answer }, k', c', by dsimp only; rw [List.getElem?_set, if_pos rfl, if_pos hlt], hk', hc'⟩
            · exact .inl (stays _ _ hc')
      | generate c r k =>
        intro stays
        refine rep_set inv ht rfl stays (Nat.le_refl _) (fun th' h => ?_) (fun k' o r' c' h => by rw [hp] at h; cases h) (fun e h => ?_)
        · cases h
          refine ⟨fun o ho => ?_, it.exist⟩
          obtain ⟨cur, h1, h2⟩ := it.good o ho
          rw [hp] at h1
          exact ⟨cur, (h1.2 _).2, h2⟩
        · rcases List.mem_append.1 h with h | h
          · exact .inl h
          · refine .inr fun job call he o ho => ?_
            rw [List.mem_singleton.1 h] at he
            obtain ⟨rfl, he⟩ := Prod.ext_iff.1 he
            obtain ⟨rfl, hok⟩ := Prod.ext_iff.1 he
            obtain ⟨cur, h1, h2⟩ := it.good o ho
            rw [hp] at h1
            rcases h2 _ h1.1 with ⟨c', hc'⟩ | hc'
            · obtain ⟨k', hk'⟩ := (h1.2 ch.generated).1 hok
              exact .inr ⟨t, { th with prog := k ch.generated }, k', c', by dsimp only; rw [List.getElem?_set, if_pos rfl, if_pos hlt], hk', hc'⟩
            · exact .inl (stays _ _ hc')
      | newClient region k =>
        intro stays
        refine rep_set inv ht rfl stays (Nat.le_refl _) (fun th' h => ?_) (fun k' o r' c' h => by rw [hp] at h; cases h) (fun e h => .inl h)
        cases h
        refine ⟨fun o ho => ?_, it.exist⟩
        obtain ⟨cur, h1, h2⟩ := it.good o ho
        rw [hp] at h1
        exact ⟨cur, h1 _, h2⟩
      | newSupplier k =>
        intro stays
        refine rep_set inv ht rfl stays (by simp) (fun th' h => ?_) (fun k' o r' c' h => by rw [hp] at h; cases h) (fun e h => .inl h)
        cases h
        refine ⟨fun o ho => ?_, fun o r c h => by have := it.exist o r c h; simp only [List.length_append]; omega⟩
        obtain ⟨cur, h1, h2⟩ := it.good o ho
        rw [hp] at h1
        exact ⟨cur, h1 _, fun r hc => (h2 r hc).imp id (stays _ _)⟩

theorem repInv {P : KmsJob → Prop} {n : Nat} {s : KmsSys} (h : KmsReach P n s) : RepInv s := by
  induction h with
  | init =>
    refine ⟨fun t th ht => ?_, fun job call hm => by cases hm⟩
    rw [List.getElem?_replicate] at ht
    split at ht <;> cases ht
  | makeClient region _ inv => exact ⟨fun t th ht => (inv.threads t th ht).mono (fun _ _ h => h) (Nat.le_refl _), inv.log⟩
  | @makeSupplier s' _ inv =>
    have e : ∀ o r, s'.makeSupplier.cached o r = s'.cached o r := fun o r => by
      dsimp only [KmsSys.cached, KmsSys.makeSupplier]; rw [cached_append]
    refine ⟨fun t th ht => (inv.threads t th ht).mono (fun o r h => by rw [e]; exact h) (by simp [KmsSys.makeSupplier]), fun job call hm o ho => ?_⟩
    rcases inv.log job call hm o ho with h | h
    · exact .inl (by rw [e]; exact h)
    · exact .inr h
  | @start s' t job _ ht hP ha inv =>
    refine ⟨fun t' th' h => ?_, fun job' call hm o ho => ?_⟩
    · dsimp only [KmsSys.start] at h
      rw [List.getElem?_set] at h
      split at h
      · split at h
        · cases h
          exact ⟨fun o ho => ⟨none, job_reports ho, fun r h => by cases h⟩, fun o r c h => by cases h⟩
        · cases h
      · exact (inv.threads t' th' h).mono (fun _ _ h => h) (Nat.le_refl _)
    · rcases inv.log job' call hm o ho with h | ⟨t', th', k, c, h1, h2, h3⟩
      · exact .inl h
      · refine .inr ⟨t', th', k, c, ?_, h2, h3⟩
        dsimp only [KmsSys.start]
        rw [List.getElem?_set]
        split
        · rename_i e
          rw [e] at ht; rw [ht] at h1; cases h1
        · exact h1
  | step t ch _ _ inv => exact rep_step inv t ch

end Verif
