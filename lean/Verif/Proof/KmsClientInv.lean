import Verif.Proof.KmsClientGood
/-
Client suppliers: what holds in every state that can be reached.
-/
namespace Verif
open Verif.Spec

/-- KMS was called with the client, successfully. -/
def Used (log : List (KmsJob × KmsCall × Bool)) (c : Nat) : Prop := ∃ job call, (job, call, true) ∈ log ∧ call.client = c

structure ThreadInv (R : List Bytes) (log : List (KmsJob × KmsCall × Bool)) (th : KmsThread) (cur : Option (Supplier × Option Nat)) (ok : Bool) : Prop where
  good : Good th.job (ResGood th.job.settings) R cur ok th.prog ∨ (th.prog = .done .threw ∧ ∃ o, OneKey th.job (.custom o))
  store : ∀ o r c, th.report = .store o r c → cur = some (.caching o, some c) ∧ R[c]? = some r
  unset : th.report = .unset → cur = none ∨ ∃ o, cur = some (.custom o, none)
  used : ok = true → ∀ sup c, cur = some (sup, some c) → Used log c

theorem ThreadInv.mono {R R' : List Bytes} {log log' : List (KmsJob × KmsCall × Bool)} (h : R <+: R') (hl : log ⊆ log') {th : KmsThread}
    {cur : Option (Supplier × Option Nat)} {ok : Bool} (i : ThreadInv R log th cur ok) : ThreadInv R' log' th cur ok where
  good := i.good.imp (Good.mono h) id
  store := fun o r c e => ⟨(i.store o r c e).1, prefix_get h (i.store o r c e).2⟩
  unset := i.unset
  used := fun ho sup c hc => let ⟨job, call, hm, hx⟩ := i.used ho sup c hc; ⟨job, call, hl hm, hx⟩

structure KmsInv (P : KmsJob → Prop) (s : KmsSys) : Prop where
  threads : ∀ (t : Nat) (th : KmsThread), s.threads[t]? = some (some th) → P th.job ∧ ∃ cur ok, ThreadInv s.regions s.log th cur ok
  built : ∀ x ∈ s.built, BuiltGood x.1 s.regions x.2
  log : ∀ x ∈ s.log, CallGood x.1.settings s.regions x.2.1
  caches : ∀ m ∈ s.caches, (m.map (·.1)).Nodup ∧ ∀ e ∈ m, s.regions[e.2]? = some e.1
  used : ∀ m ∈ s.caches, ∀ e ∈ m, Used s.log e.2 ∨ ∃ job o, P job ∧ OneKey job (.caching o)

/-- The other threads after a step of one. -/
theorem threads_set {P : KmsJob → Prop} {s : KmsSys} (inv : KmsInv P s) {R' : List Bytes} {log' : List (KmsJob × KmsCall × Bool)}
    (h : s.regions <+: R') (hl : s.log ⊆ log') {t : Nat} {th : KmsThread} (hP : P th.job) {cur : Option (Supplier × Option Nat)} {ok : Bool}
    (hi : ThreadInv R' log' th cur ok) :
    ∀ (t' : Nat) (th' : KmsThread), (s.threads.set t (some th))[t']? = some (some th') → P th'.job ∧ ∃ cur ok, ThreadInv R' log' th' cur ok := by
  intro t' th' h'
  rw [List.getElem?_set] at h'
  split at h'
  · split at h'
    · cases h'; exact ⟨hP, cur, ok, hi⟩
    · cases h'
  · obtain ⟨hp, cur', ok', i⟩ := inv.threads t' th' h'
    exact ⟨hp, cur', ok', i.mono h hl⟩

theorem mem_set_cases {α : Type} {l : List α} {i : Nat} {x y : α} (h : y ∈ l.set i x) : y = x ∧ i < l.length ∨ y ∈ l := by
  obtain ⟨j, hj⟩ := List.mem_iff_getElem?.1 h
  rw [List.getElem?_set] at hj
  split at hj
  · split at hj
    · rename_i hlt; cases hj; exact .inl ⟨rfl, by omega⟩
    · cases hj
  · exact .inr (List.mem_iff_getElem?.2 ⟨j, hj⟩)

theorem cacheAssign_mem {m : List (Bytes × Nat)} {r : Bytes} {c : Nat} {e : Bytes × Nat} (h : e ∈ cacheAssign m r c) : e = (r, c) ∨ e ∈ m := by
  rcases List.mem_cons.1 h with h | h
  · exact .inl h
  · exact .inr (List.mem_filter.1 h).1

theorem cacheAssign_nodup {m : List (Bytes × Nat)} {r : Bytes} {c : Nat} (h : (m.map (·.1)).Nodup) : ((cacheAssign m r c).map (·.1)).Nodup := by
  rw [cacheAssign, List.map_cons, List.nodup_cons]
  constructor
  · intro hm
    obtain ⟨e, he, hr⟩ := List.mem_map.1 hm
    exact absurd hr (by simpa using (List.mem_filter.1 he).2)
  · exact h.sublist (List.Sublist.map _ (List.filter_sublist ..))

theorem mem_getD {α : Type} {l : List (List α)} {o : Nat} {x : α} (h : x ∈ l.getD o []) : l.getD o [] ∈ l := by
  rw [List.getD_eq_getElem?_getD] at h ⊢
  cases hx : l[o]? with
  | none => rw [hx] at h; cases h
  | some m => exact List.mem_iff_getElem?.2 ⟨o, by simpa using hx⟩

theorem cacheLookup_mem {m : List (Bytes × Nat)} {r : Bytes} {c : Nat} (h : cacheLookup m r = some c) : (r, c) ∈ m := by
  unfold cacheLookup at h
  cases hf : m.find? (fun e => e.1 = r) with
  | none => rw [hf] at h; cases h
  | some e =>
    rw [hf] at h
    have h1 : e.2 = c := Option.some.inj h
    have h2 : e.1 = r := by simpa using List.find?_some hf
    rw [← h1, ← h2]; exact List.mem_of_find?_eq_some hf

theorem step_inv {P : KmsJob → Prop} {s : KmsSys} {t : Nat} {ch : KmsChoice} (inv : KmsInv P s) (hh : Honest s t ch) : KmsInv P (s.step t ch) := by
  unfold KmsSys.step
  cases ht : s.threads[t]? with
  | none => exact inv
  | some x =>
    cases x with
    | none => exact inv
    | some th =>
      obtain ⟨hP, cur, ok, ti⟩ := inv.threads t th ht
      dsimp only
      have pr := List.prefix_refl s.regions
      have sr : s.log ⊆ s.log := fun _ h => h
      -- a step that only moves the program on
      have move : ∀ th' cur' ok', th'.job = th.job → ThreadInv s.regions s.log th' cur' ok' →
          KmsInv P { s with threads := s.threads.set t (some th') } := by
        intro th' cur' ok' hj hi
        exact { threads := threads_set inv pr sr (by rw [hj]; exact hP) hi, built := inv.built, log := inv.log, caches := inv.caches, used := inv.used }
      -- a call of KMS
      have call : ∀ th' cl b cur' ok', th'.job = th.job → CallGood th.job.settings s.regions cl →
          ThreadInv s.regions (s.log ++ [(th.job, cl, b)]) th' cur' ok' →
          KmsInv P { s with log := s.log ++ [(th.job, cl, b)], threads := s.threads.set t (some th') } := by
        intro th' cl b cur' ok' hj hcl hi
        have sub : s.log ⊆ s.log ++ [(th.job, cl, b)] := fun _ h => List.mem_append_left _ h
        refine { threads := threads_set inv pr sub (by rw [hj]; exact hP) hi, built := inv.built, log := ?_, caches := inv.caches, used := ?_ }
        · intro x hx
          rcases List.mem_append.1 hx with hx | hx
          · exact inv.log x hx
          · rw [List.mem_singleton.1 hx]; exact hcl
        · intro m hm e he
          rcases inv.used m hm e he with ⟨j, c, h1, h2⟩ | h
          · exact .inl ⟨j, c, sub h1, h2⟩
          · exact .inr h
      -- a new client
      have fresh : ∀ region th' cur' ok', th'.job = th.job → ThreadInv (s.regions ++ [region]) s.log th' cur' ok' →
          KmsInv P { s with regions := s.regions ++ [region], threads := s.threads.set t (some th') } := by
        intro region th' cur' ok' hj hi
        have pre : s.regions <+: s.regions ++ [region] := List.prefix_append ..
        exact { threads := threads_set inv pre sr (by rw [hj]; exact hP) hi
                built := fun x hx => (inv.built x hx).mono pre
                log := fun x hx => (inv.log x hx).mono pre
                caches := fun m hm => ⟨(inv.caches m hm).1, fun e he => prefix_get pre ((inv.caches m hm).2 e he)⟩
                used := inv.used }
      cases hp : th.prog with
      | done r =>
        dsimp only
        refine { threads := ?_, built := ?_, log := inv.log, caches := inv.caches, used := inv.used }
        · intro t' th' h'
          rw [List.getElem?_set] at h'
          split at h'
          · split at h' <;> cases h'
          · exact inv.threads t' th' h'
        · intro x hx
          rcases List.mem_append.1 hx with hx | hx
          · exact inv.built x hx
          · rcases ti.good with hg | ⟨hg, -⟩
            · rw [hp] at hg
              have hr := (hg _ pr).1 x hx
              rw [hr.1]; exact hr.2
            · rw [hp] at hg
              cases hg
              cases hx
      | client sup i region k =>
        have hg : Good th.job (ResGood th.job.settings) s.regions cur ok (.client sup i region k) := by
          rcases ti.good with hg | ⟨hg, -⟩
          · rw [hp] at hg; exact hg
          · rw [hp] at hg; cases hg
        cases sup with
        | single c =>
          refine move { th with prog := k c, report := .noop } (some (.single c, c)) false rfl
            { good := .inl (hg.2 _ pr c fun n hn => (hg.1 _ pr).1 n (by rw [hn])), store := ?_, unset := ?_, used := ?_ }
          · intro o r c' h; cases h
          · intro h; cases h
          · intro h; cases h
        | custom o =>
          have hon := hh th o i region k ht hp
          refine move { th with prog := k ch.client, report := if ch.setsReport then .noop else .unset } (some (.custom o, ch.client)) false rfl
            { good := .inl (hg.2 _ pr ch.client fun n hn => ⟨fun _ => (hon n hn).1, fun c hc => ?_⟩), store := ?_, unset := ?_, used := ?_ }
          · have := (hg.1 _ pr).2 (fun c h => by cases h)
            rw [this] at hc; cases hc
          · intro o' r c' h
            dsimp only at h
            split at h <;> cases h
          · intro h
            right
            refine ⟨o, ?_⟩
            cases hc : ch.client with
            | none => rfl
            | some n =>
              dsimp only at h
              rw [(hon n hc).2] at h
              cases h
          · intro h; cases h
        | caching o =>
          have hfix := (hg.1 _ pr).2 (fun c h => by cases h)
          dsimp only
          by_cases hno : s.caches.length ≤ o
          · rw [if_pos hno]; exact inv
          rw [if_neg hno]
          by_cases hm : th.missed = true
          · rw [if_pos hm]
            have hget : (s.regions ++ [region])[s.regions.length]? = some region := by simp
            refine fresh region { th with prog := k (some s.regions.length), report := .store o region s.regions.length, missed := false }
              (some (.caching o, some s.regions.length)) false rfl
              { good := .inl (hg.2 _ (List.prefix_append ..) _ fun n hn => ?_), store := ?_, unset := ?_, used := ?_ }
            · cases hn
              exact ⟨fun _ => hget, fun c hc => by rw [hfix] at hc; cases hc⟩
            · intro o' r c' h
              cases h
              exact ⟨rfl, hget⟩
            · intro h; cases h
            · intro h; cases h
          · rw [if_neg hm]
            cases hl : cacheLookup (s.caches.getD o []) region with
            | none =>
              dsimp only
              exact move { th with prog := .client (.caching o) i region k, missed := true } cur ok rfl { good := .inl hg, store := ti.store, unset := ti.unset, used := ti.used }
            | some c =>
              dsimp only
              have hmem := cacheLookup_mem hl
              have hreg := (inv.caches _ (mem_getD hmem)).2 _ hmem
              refine move { th with prog := k (some c), report := .noop } (some (.caching o, some c)) false rfl
                { good := .inl (hg.2 _ pr _ fun n hn => ?_), store := ?_, unset := ?_, used := ?_ }
              · cases hn
                exact ⟨fun _ => hreg, fun c hc => by rw [hfix] at hc; cases hc⟩
              · intro o' r c' h; cases h
              · intro h; cases h
              · intro h; cases h
      | report k =>
        have hg : Good th.job (ResGood th.job.settings) s.regions cur ok (.report k) := by
          rcases ti.good with hg | ⟨hg, -⟩
          · rw [hp] at hg; exact hg
          · rw [hp] at hg; cases hg
        dsimp only
        cases hr : th.report with
        | unset =>
          dsimp only
          refine move { th with prog := .done .threw, report := .unset } cur ok rfl
            { good := .inr ⟨rfl, ?_⟩, store := fun o r c h => (by cases h), unset := fun _ => ti.unset hr, used := ti.used }
          rcases ti.unset hr with hc | ⟨o, hc⟩
          · rcases hg.1 with ⟨-, sup, n, h⟩ | ⟨sup, c, -, h⟩ <;> rw [hc] at h <;> cases h
          · rcases hg.1 with ⟨-, sup, n, h⟩ | ⟨sup, c, hone, h⟩
            · rw [hc] at h; cases h
            · rw [hc] at h; cases h; exact ⟨o, hone⟩
        | noop =>
          dsimp only
          exact move { th with prog := k, report := .noop } cur ok rfl
            { good := .inl hg.2, store := fun o r c h => (by cases h), unset := fun h => (by cases h), used := ti.used }
        | store o region c =>
          dsimp only
          obtain ⟨hcur, hreg⟩ := ti.store o region c hr
          refine { threads := threads_set (th := { th with prog := k, report := .store o region c }) (cur := cur) (ok := ok) inv pr sr hP
                     { good := .inl hg.2
                       store := fun o' r' c' h => (by cases h; exact ⟨hcur, hreg⟩)
                       unset := fun h => (by cases h)
                       used := ti.used }
                   built := inv.built, log := inv.log, caches := ?_, used := ?_ }
          · intro m hm
            rcases mem_set_cases hm with ⟨rfl, hlt⟩ | hm
            · have hold : s.caches.getD o [] ∈ s.caches := by
                rw [List.getD_eq_getElem?_getD, List.getElem?_eq_getElem hlt]; exact List.getElem_mem hlt
              refine ⟨cacheAssign_nodup (inv.caches _ hold).1, fun e he => ?_⟩
              rcases cacheAssign_mem he with rfl | he
              · exact hreg
              · exact (inv.caches _ hold).2 e he
            · exact inv.caches m hm
          · intro m hm e he
            rcases mem_set_cases hm with ⟨rfl, hlt⟩ | hm
            · have hold : s.caches.getD o [] ∈ s.caches := by
                rw [List.getD_eq_getElem?_getD, List.getElem?_eq_getElem hlt]; exact List.getElem_mem hlt
              rcases cacheAssign_mem he with rfl | he
              · rcases hg.1 with ⟨hok, sup, n, h⟩ | ⟨sup, c', hone, h⟩
                · exact .inl (ti.used hok _ _ hcur)
                · rw [hcur] at h; cases h
                  exact .inr ⟨th.job, o, hP, hone⟩
              · exact inv.used _ hold e he
            · exact inv.used m hm e he
      | decrypt i c r k =>
        have hg : Good th.job (ResGood th.job.settings) s.regions cur ok (.decrypt i c r k) := by
          rcases ti.good with hg | ⟨hg, -⟩
          · rw [hp] at hg; exact hg
          · rw [hp] at hg; cases hg
        refine call { th with prog := k ch.answer } (.decrypt c r) ch.answer.isSome cur ch.answer.isSome rfl (hg.2.1 _ pr)
          { good := .inl (hg.2.2 _), store := ti.store, unset := ti.unset, used := fun ho sup c' hc => ?_ }
        obtain ⟨sup', hc'⟩ := hg.1
        rw [hc'] at hc; cases hc
        exact ⟨th.job, .decrypt c r, List.mem_append_right _ (by rw [ho]; exact List.mem_singleton.2 rfl), rfl⟩
      | encrypt i c r k =>
        have hg : Good th.job (ResGood th.job.settings) s.regions cur ok (.encrypt i c r k) := by
          rcases ti.good with hg | ⟨hg, -⟩
          · rw [hp] at hg; exact hg
          · rw [hp] at hg; cases hg
        refine call { th with prog := k ch.answer } (.encrypt c r) ch.answer.isSome cur ch.answer.isSome rfl (hg.2.1 _ pr)
          { good := .inl (hg.2.2 _), store := ti.store, unset := ti.unset, used := fun ho sup c' hc => ?_ }
        obtain ⟨sup', hc'⟩ := hg.1
        rw [hc'] at hc; cases hc
        exact ⟨th.job, .encrypt c r, List.mem_append_right _ (by rw [ho]; exact List.mem_singleton.2 rfl), rfl⟩
      | generate c r k =>
        have hg : Good th.job (ResGood th.job.settings) s.regions cur ok (.generate c r k) := by
          rcases ti.good with hg | ⟨hg, -⟩
          · rw [hp] at hg; exact hg
          · rw [hp] at hg; cases hg
        refine call { th with prog := k ch.generated } (.generate c r) ch.generated.isSome cur ch.generated.isSome rfl (hg.2.1 _ pr)
          { good := .inl (hg.2.2 _), store := ti.store, unset := ti.unset, used := fun ho sup c' hc => ?_ }
        obtain ⟨sup', hc'⟩ := hg.1
        rw [hc'] at hc; cases hc
        exact ⟨th.job, .generate c r, List.mem_append_right _ (by rw [ho]; exact List.mem_singleton.2 rfl), rfl⟩
      | newClient region k =>
        have hg : Good th.job (ResGood th.job.settings) s.regions cur ok (.newClient region k) := by
          rcases ti.good with hg | ⟨hg, -⟩
          · rw [hp] at hg; exact hg
          · rw [hp] at hg; cases hg
        have pre : s.regions <+: s.regions ++ [region] := List.prefix_append ..
        have ti' := ti.mono pre sr
        exact fresh region { th with prog := k s.regions.length } cur ok rfl
          { good := .inl (hg _ pre _ (by simp)), store := ti'.store, unset := ti'.unset, used := ti'.used }
      | newSupplier k =>
        have hg : Good th.job (ResGood th.job.settings) s.regions cur ok (.newSupplier k) := by
          rcases ti.good with hg | ⟨hg, -⟩
          · rw [hp] at hg; exact hg
          · rw [hp] at hg; cases hg
        dsimp only
        refine { threads := threads_set (th := { th with prog := k s.caches.length }) (cur := cur) (ok := ok) inv pr sr hP
                   { good := .inl (hg _), store := ti.store, unset := ti.unset, used := ti.used }
                 built := inv.built, log := inv.log, caches := ?_, used := ?_ }
        · intro m hm
          rcases List.mem_append.1 hm with hm | hm
          · exact inv.caches m hm
          · rw [List.mem_singleton.1 hm]; exact ⟨List.nodup_nil, fun e he => by cases he⟩
        · intro m hm e he
          rcases List.mem_append.1 hm with hm | hm
          · exact inv.used m hm e he
          · rw [List.mem_singleton.1 hm] at he; cases he

theorem kmsReach_inv {P : KmsJob → Prop} {n : Nat} {s : KmsSys} (h : KmsReach P n s) : KmsInv P s := by
  induction h with
  | init =>
    refine ⟨fun t th ht => ?_, fun _ h => (by cases h), fun _ h => (by cases h), fun _ h => (by cases h), fun _ h => (by cases h)⟩
    rw [List.getElem?_replicate] at ht
    split at ht <;> cases ht
  | makeClient region _ inv =>
    have pre : ∀ s : KmsSys, s.regions <+: (s.makeClient region).regions := fun s => List.prefix_append ..
    exact { threads := fun t th ht => let ⟨hp, cur, ok, i⟩ := inv.threads t th ht; ⟨hp, cur, ok, i.mono (pre _) (fun _ h => h)⟩
            built := fun x hx => (inv.built x hx).mono (pre _)
            log := fun x hx => (inv.log x hx).mono (pre _)
            caches := fun m hm => ⟨(inv.caches m hm).1, fun e he => prefix_get (pre _) ((inv.caches m hm).2 e he)⟩
            used := inv.used }
  | makeSupplier _ inv =>
    refine { threads := inv.threads, built := inv.built, log := inv.log, caches := ?_, used := ?_ }
    · intro m hm
      rcases List.mem_append.1 hm with hm | hm
      · exact inv.caches m hm
      · rw [List.mem_singleton.1 hm]; exact ⟨List.nodup_nil, fun e he => by cases he⟩
    · intro m hm e he
      rcases List.mem_append.1 hm with hm | hm
      · exact inv.used m hm e he
      · rw [List.mem_singleton.1 hm] at he; cases he
  | start t job _ ht hP ha inv =>
    exact { threads := threads_set (th := { job := job, prog := job.prog }) (cur := none) (ok := false) inv (List.prefix_refl _) (fun _ h => h) hP
              { good := .inl (job_good ha inv.built), store := fun _ _ _ h => (by cases h), unset := fun _ => .inl rfl, used := fun h => (by cases h) }
            built := inv.built, log := inv.log, caches := inv.caches, used := inv.used }
  | step t ch _ hh inv => exact step_inv inv hh

end Verif
