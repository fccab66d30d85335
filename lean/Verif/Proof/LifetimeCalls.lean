import Verif.Proof.Lifetime

/-!
No call of a program that keeps to the rules fails, and every reference is accounted for.
-/

namespace Verif
namespace Proof.Lifetime

open Verif.Lifetime Spec.Lifetime

theorem Inv.untype {A s T ty} (hi : Inv A s T ty) {ty'} (sub : ∀ p, p ∈ ty' → p ∈ ty) : Inv A s T ty' :=
  HInv.untype hi sub

theorem find_new (s : St) (k : Kind) (l : List Nat) (x : Nat) :
    (s.new k l).1.heap.find x = if s.next = x then some { kind := k, count := 1, fixed := l } else s.heap.find x :=
  find_cons _ _ _ _

theorem room_new {s : St} {x : Nat} (h : Room s x) (k : Kind) (l : List Nat) : Room (s.new k l).1 x := by
  intro o e
  rw [find_new] at e
  by_cases q : s.next = x
  · simp [q] at e; subst e; simp [sizeMax]
  · rw [if_neg q] at e; exact h o e

theorem room_retain {A s T ty} (hi : Inv A s T ty) {x y : Nat} {o : Obj} (e : s.heap.find x = some o) (hne : x ≠ y)
    (h : Room s y) (n : Nat) : Room { s with heap := s.heap.set x { o with count := n } } y := by
  intro o' e'
  simp only [find_set hi.nodup e] at e'
  rw [if_neg hne] at e'
  exact h o' e'

/-- an own object of two kinds does not exist -/
theorem Inv.kinds {A s T ty} (hi : Inv A s T ty) {x y : Nat} {k k' : Kind} (hx : x ∈ T) (h1 : (x, k) ∈ ty)
    (h2 : (y, k') ∈ ty) (hne : k ≠ k') : x ≠ y := by
  rintro rfl
  obtain ⟨o, e, _⟩ := hi.owned hx
  exact hne ((hi.typed x k h1).2 o e ▸ (hi.typed x k' h2).2 o e)

theorem multiNew_ok {A s T ty} (hi : Inv A s T ty) (gen : Option Nat) (hg : ∀ g, gen = some g → g ∈ T ∧ Room s g) :
    ∃ s' m, multiNew s gen true = .ok (s', some m) ∧ s'.threads = s.threads ∧
      Inv A s' (m :: T) ((m, .multi) :: ty) := by
  cases gen with
  | none =>
    refine ⟨((s.new .buffer []).1.new .multi [s.next]).1, s.next + 1, rfl, rfl, ?_⟩
    have h1 := hi.new0 .buffer
    have h2 := h1.new .multi [s.next] T (by intro x; simp [List.count_cons]; omega)
    refine h2.untype ?_
    intro p q
    rcases List.mem_cons.1 q with q | q
    · subst q; simp [St.new]
    · simp [q]
  | some g =>
    obtain ⟨hgT, hgr⟩ := hg g rfl
    obtain ⟨o, s1, eo, es, hi1, hs1⟩ := hi.retain hgT hgr
    refine ⟨((s1.new .buffer []).1.new .multi [g, s1.next]).1, s1.next + 1, ?_, ?_, ?_⟩
    · simp [multiNew, es, St.new]
    · simp [St.new, hs1]
    · have h1 := hi1.new0 .buffer
      have h2 := h1.new .multi [g, s1.next] T (by intro x; simp only [List.count_cons, List.count_nil]; omega)
      refine h2.untype ?_
      intro p q
      rcases List.mem_cons.1 q with q | q
      · subst q; simp [St.new]
      · simp [q]

theorem reaches_heap_eq {h h' : Heap} (e : ∀ x y, Edge h' x y → Edge h x y) {a b : Nat} (n : ¬Reaches h a b) :
    ¬Reaches h' a b := fun r => n (reaches_sub e r)

theorem addChild_ok {A s T ty} (hi : Inv A s T ty) {m c : Nat} (hm : m ∈ T) (hmt : (m, Kind.multi) ∈ ty) (hc : c ∈ T)
    (hr : Room s c) (hA : A → ¬Reaches s.heap c m) (ok : Bool) :
    ∃ s', addChild s m c ok = .ok s' ∧ s'.threads = s.threads ∧ s'.next = s.next ∧
      Inv A s' (if ok then T else c :: T) ty := by
  obtain ⟨om, eom, hom⟩ := hi.owned hm
  obtain ⟨oc, s1, eoc, es, hi1, hs1⟩ := hi.retain hc hr
  have hk := (hi.typed m .multi hmt).2 om eom
  cases ok with
  | false => exact ⟨s1, by simp [addChild, eom, hk, es], by rw [hs1], by rw [hs1], by simpa using hi1⟩
  | true =>
    obtain ⟨om', eom', hom'⟩ := hi1.owned (List.mem_cons_of_mem _ hm)
    refine ⟨{ s1 with heap := s1.heap.set m { om' with children := om'.children ++ [c] } },
      by simp [addChild, eom, hk, es, eom'], by rw [hs1], by rw [hs1], ?_⟩
    refine HInv.child hi1 eom' hom' (fun ha => ?_)
    rw [hs1]
    exact reaches_heap_eq (edge_set (o' := { oc with count := oc.count + 1 }) hi.nodup eoc (fun _ q => q)) (hA ha)

theorem defaultCmmNew_ok {A s T ty} (hi : Inv A s T ty) {kr : Nat} (hk : kr ∈ T) (hr : Room s kr) :
    ∃ o s' cmm, s.heap.find kr = some o ∧ defaultCmmNew s kr true = .ok (s', some cmm) ∧ s'.threads = s.threads ∧
      s' = (St.new { s with heap := s.heap.set kr { o with count := o.count + 1 } } .defaultCmm [kr]).1 ∧
      Inv A s' (cmm :: T) ((cmm, .defaultCmm) :: ty) := by
  obtain ⟨o, s1, eo, es, hi1, hs1⟩ := hi.retain hk hr
  refine ⟨o, (s1.new .defaultCmm [kr]).1, s1.next, eo, by simp [defaultCmmNew, es, St.new],
    by rw [hs1]; rfl, by rw [hs1], ?_⟩
  exact hi1.new .defaultCmm [kr] T (by intro x; simp only [List.count_cons, List.count_nil]; omega)

theorem cachingCmmNew_ok {A s T ty} (hi : Inv A s T ty) {cache up : Nat} (hc : cache ∈ T) (hcr : Room s cache)
    (hu : up ∈ T) (hur : Room s up) (hne : up ≠ cache) (ttl pid ok : Bool) :
    ∃ s' r L, cachingCmmNew s cache up ttl pid ok = .ok (s', r) ∧ s'.threads = s.threads ∧
      (ok || !ttl || !pid → L = []) ∧
      match r with
      | none => Inv A s' (L ++ T) ty
      | some x => Inv A s' (x :: (L ++ T)) ((x, .cachingCmm) :: ty) := by
  unfold cachingCmmNew
  by_cases h1 : (!ttl || !pid) = true
  · rw [if_pos h1]; exact ⟨s, none, [], rfl, rfl, fun _ => rfl, hi⟩
  · rw [if_neg h1]
    have hi1 := hi.new0 .buffer
    cases ok with
    | false =>
      refine ⟨_, none, [s.next], rfl, rfl, ?_, ?_⟩
      · intro q; simp at q h1; rcases q with q | q <;> simp [h1] at q
      · exact hi1.untype (fun p q => List.mem_cons_of_mem _ q)
    | true =>
      obtain ⟨o, s2, eo, es, hi2, hs2⟩ := hi1.retain (List.mem_cons_of_mem _ hu) (room_new hur _ _)
      have hcr2 : Room s2 cache := by
        rw [hs2]; exact room_retain hi1 eo hne (room_new hcr .buffer []) (o.count + 1)
      obtain ⟨o2, s3, eo2, es2, hi3, hs3⟩ :=
        hi2.retain (x := cache) (List.mem_cons_of_mem _ (List.mem_cons_of_mem _ hc)) hcr2
      refine ⟨(s3.new .cachingCmm [s.next, cache, up]).1, some s3.next, [], ?_, by rw [hs3, hs2]; rfl, fun _ => rfl, ?_⟩
      · simp only [St.new] at es ⊢
        simp only [es, es2]
        simp
      · have h4 := hi3.new .cachingCmm [s.next, cache, up] T
          (by intro x; simp only [List.count_cons, List.count_nil]; omega)
        refine h4.untype ?_
        intro p q
        rcases List.mem_cons.1 q with q | q
        · subst q; simp
        · simp [q]

/-- The loop over the children of `MultiKeyringBuilder`. -/
theorem mrkChildren_ok {A m} (cs : List (Bool × Bool)) : ∀ {s T ty} (made : List Nat), Inv A s T ty → m ∈ T →
    (m, Kind.multi) ∈ ty → ∃ s' new L b, mrkChildren s m made cs = .ok (s', made ++ new, b) ∧
      s'.threads = s.threads ∧ Inv A s' (new ++ L ++ T) ty ∧ (stops cs = true → b = false ∧ L = []) := by
  induction cs with
  | nil =>
    intro s T ty made hi hm hmt
    exact ⟨s, [], [], true, by simp [mrkChildren], rfl, by simpa using hi, by simp [stops]⟩
  | cons c cs ih =>
    intro s T ty made hi hm hmt
    obtain ⟨c1, c2⟩ := c
    unfold mrkChildren mrkChild
    cases c1 with
    | false => exact ⟨s, [], [], false, by simp, rfl, by simpa using hi, by simp⟩
    | true =>
      have hi1 := hi.new0 .keyring
      have hlt : m < s.next := HInv.lt_next hi (.inl (List.mem_append.2 (.inl hm)))
      have hr : Room (s.new .keyring []).1 s.next := by
        intro o e; rw [find_new] at e; simp at e; subst e; simp [sizeMax]
      have hA : A → ¬Reaches (s.new .keyring []).1.heap s.next m := by
        intro _ r
        cases r with
        | refl => omega
        | step e q _ => rw [find_new] at e; simp at e; subst e; simp [Obj.holds] at q
      obtain ⟨s2, es, ht, hn, hi2⟩ := addChild_ok hi1 (List.mem_cons_of_mem _ hm) (List.mem_cons_of_mem _ hmt)
        List.mem_cons_self hr hA c2
      have es' : addChild (s.new .keyring []).1 m (s.new .keyring []).2 c2 = .ok s2 := es
      simp only [Bool.not_true, Bool.false_eq_true, if_false, es']
      have hi3 : Inv A s2 (if c2 then s.next :: T else s.next :: s.next :: T) ty :=
        hi2.untype (fun p q => List.mem_cons_of_mem _ q)
      cases c2 with
      | false =>
        refine ⟨s2, [s.next], [s.next], false, rfl, ht, ?_, by simp [stops]⟩
        simpa using hi3
      | true =>
        simp at hi3
        obtain ⟨s4, new, L, b, e4, t4, hi4, hst⟩ := ih (made ++ [s.next]) hi3 (List.mem_cons_of_mem _ hm) hmt
        refine ⟨s4, s.next :: new, L, b, ?_, by rw [t4, ht]; rfl, ?_, ?_⟩
        · have e5 : mrkChildren s2 m (made ++ [(s.new .keyring []).2]) cs = _ := e4
          simp only [e5]
          simp
        · refine hi4.congr (fun x => ?_)
          simp only [List.count_append, List.count_cons]
          omega
        · intro q; exact hst (by simpa [stops] using q)

/-- Every call succeeds or fails cleanly, and the references are those of the program, those that were lost
before, and those that this call loses if it is one of those that do. -/
theorem inv_call {A s c L i op} (hi : Inv A s (c.owned ++ L) c.types) (hs : s.threads[i]? = some [])
    (ha : Allowed s c op) (hA : A → NoCycle s op) :
    ∃ s' r L', s.call i op = .ok (s', r) ∧ Inv A s' ((c.after op r).owned ++ L') (c.after op r).types ∧
      (lossless op = true → L' = L) := by
  have own : ∀ {x ks}, c.has x ks → x ∈ c.owned ++ L := fun h => List.mem_append.2 (.inl h.1)
  cases op with
  | rawAes ok =>
    cases ok with
    | false => exact ⟨s, none, L, rfl, hi, fun _ => rfl⟩
    | true =>
      have h1 := ((hi.new0 .buffer).new0 .buffer).new0 .buffer
      have h2 := h1.new .keyring [s.next, s.next + 1, s.next + 2] (c.owned ++ L)
        (by intro x; simp only [List.count_cons, List.count_nil, St.new, Nat.add_assoc, Nat.reduceAdd]; omega)
      refine ⟨_, some (s.next + 3), L, rfl, ?_, fun _ => rfl⟩
      refine h2.untype ?_
      intro p q
      simp only [Client.after, makes, List.mem_cons] at q ⊢
      rcases q with q | q
      · exact .inl q
      · exact .inr (.inr (.inr (.inr q)))
  | rawRsa priv pub ok okPub okPriv =>
    by_cases h1 : (!ok || (!priv && !pub)) = true
    · exact ⟨s, none, L, by simp only [St.call, rawRsaNew]; rw [if_pos h1], hi, fun _ => rfl⟩
    · have hok : ok = true := by cases ok <;> simp_all
      subst hok
      cases pub with
      | true =>
        cases okPub with
        | false => exact ⟨s, none, L, by cases priv <;> rfl, hi, fun _ => rfl⟩
        | true =>
          have g0 := hi.new0 .buffer
          cases priv with
          | true =>
            cases okPriv with
            | false =>
              refine ⟨_, none, s.next :: L, rfl, ?_, by simp [lossless]⟩
              refine Inv.congr (g0.untype (fun p q => List.mem_cons_of_mem _ q)) (fun x => ?_)
              simp only [Client.after, List.count_append, List.count_cons]; omega
            | true =>
              have h1 := ((g0.new0 .buffer).new0 .buffer).new0 .buffer
              have h2 := h1.new .keyring [s.next + 1, s.next + 2, s.next + 3, s.next] (c.owned ++ L)
                (by intro x; simp only [List.count_cons, List.count_nil, St.new, Nat.add_assoc, Nat.reduceAdd]; omega)
              refine ⟨_, some (s.next + 4), L, rfl, ?_, fun _ => rfl⟩
              refine h2.untype ?_
              intro p q
              simp only [Client.after, makes, List.mem_cons] at q ⊢
              rcases q with q | q
              · exact .inl q
              · exact .inr (.inr (.inr (.inr (.inr q))))
          | false =>
            have h1 := (g0.new0 .buffer).new0 .buffer
            have h2 := h1.new .keyring [s.next + 1, s.next + 2, s.next] (c.owned ++ L)
              (by intro x; simp only [List.count_cons, List.count_nil, St.new, Nat.add_assoc, Nat.reduceAdd]; omega)
            refine ⟨_, some (s.next + 3), L, rfl, ?_, fun _ => rfl⟩
            refine h2.untype ?_
            intro p q
            simp only [Client.after, makes, List.mem_cons] at q ⊢
            rcases q with q | q
            · exact .inl q
            · exact .inr (.inr (.inr (.inr q)))
      | false =>
        have hp : priv = true := by cases priv <;> simp_all
        subst hp
        cases okPriv with
        | false => exact ⟨s, none, L, rfl, hi, fun _ => rfl⟩
        | true =>
          have h1 := ((hi.new0 .buffer).new0 .buffer).new0 .buffer
          have h2 := h1.new .keyring [s.next, s.next + 1, s.next + 2] (c.owned ++ L)
            (by intro x; simp only [List.count_cons, List.count_nil, St.new, Nat.add_assoc, Nat.reduceAdd]; omega)
          refine ⟨_, some (s.next + 3), L, rfl, ?_, fun _ => rfl⟩
          refine h2.untype ?_
          intro p q
          simp only [Client.after, makes, List.mem_cons] at q ⊢
          rcases q with q | q
          · exact .inl q
          · exact .inr (.inr (.inr (.inr q)))
  | kms ok =>
    cases ok with
    | false => exact ⟨s, none, L, rfl, hi, fun _ => rfl⟩
    | true => exact ⟨_, some s.next, L, rfl, hi.new0 .keyring, fun _ => rfl⟩
  | cache ok =>
    cases ok with
    | false => exact ⟨s, none, L, rfl, hi, fun _ => rfl⟩
    | true => exact ⟨_, some s.next, L, rfl, hi.new0 .cache, fun _ => rfl⟩
  | multi gen ok =>
    cases ok with
    | false => exact ⟨s, none, L, rfl, hi, fun _ => rfl⟩
    | true =>
      obtain ⟨s', m, e, _, hi'⟩ := multiNew_ok hi gen (fun g q => by subst q; exact ⟨own ha.1, ha.2⟩)
      exact ⟨s', some m, L, e, hi', fun _ => rfl⟩
  | addChild m k ok =>
    obtain ⟨hm, hk, hr⟩ := ha
    have hmt : (m, Kind.multi) ∈ c.types := by
      obtain ⟨_, k, hk, q⟩ := hm; simp at hk; subst hk; exact q
    obtain ⟨s', e, _, _, hi'⟩ := addChild_ok hi (own hm) hmt (own hk) hr hA ok
    cases ok with
    | true => exact ⟨s', none, L, by simp only [St.call, e]; rfl, by simpa [Client.after] using hi', fun _ => rfl⟩
    | false =>
      refine ⟨s', none, k :: L, by simp only [St.call, e]; rfl, ?_, by simp [lossless]⟩
      refine Inv.congr hi' (fun x => ?_)
      simp [Client.after, List.count_append, List.count_cons]; omega
  | defaultCmm kr ok =>
    cases ok with
    | false => exact ⟨s, none, L, rfl, hi, fun _ => rfl⟩
    | true =>
      obtain ⟨_, s', cmm, _, e, _, _, hi'⟩ := defaultCmmNew_ok hi (own ha.1) ha.2
      exact ⟨s', some cmm, L, e, hi', fun _ => rfl⟩
  | cachingCmm cache up ttl pid ok =>
    obtain ⟨h1, h2, h3, h4⟩ := ha
    have hne : up ≠ cache := by
      obtain ⟨_, k, hk, q⟩ := id h1
      obtain ⟨_, k', hk', q'⟩ := id h3
      refine hi.kinds (own h3) q' q ?_
      simp [cmms] at hk hk'
      subst hk
      rcases hk' with rfl | rfl <;> simp
    obtain ⟨s', r, L', e, _, hL, hi'⟩ := cachingCmmNew_ok hi (own h1) h2 (own h3) h4 hne ttl pid ok
    refine ⟨s', r, L' ++ L, e, ?_, fun q => by rw [hL (by simpa [lossless] using q)]; rfl⟩
    cases r with
    | none =>
      refine Inv.congr hi' (fun x => ?_)
      simp only [Client.after, List.count_append]; omega
    | some y =>
      refine Inv.congr hi' (fun x => ?_)
      simp only [Client.after, List.count_append, List.count_cons]; omega
  | cachingFromKeyring cache kr okDefault ttl pid ok =>
    obtain ⟨h1, h2, h3, h4⟩ := ha
    cases okDefault with
    | false => exact ⟨s, none, L, rfl, hi, fun _ => rfl⟩
    | true =>
      have hne : kr ≠ cache := by
        obtain ⟨_, k, hk, q⟩ := id h1
        obtain ⟨_, k', hk', q'⟩ := id h3
        refine hi.kinds (own h3) q' q ?_
        simp [keyrings] at hk hk'
        subst hk
        rcases hk' with rfl | rfl <;> simp
      obtain ⟨o, s1, up, eo, e1, t1, hs1, hi1⟩ := defaultCmmNew_ok hi (own h3) h4
      have hlt : cache < s.next := HInv.lt_next hi (.inl (List.mem_append.2 (.inl (own h1))))
      have hup : up = s.next := by
        have := e1
        obtain ⟨o', s1', eo', es', _, rfl⟩ := hi.retain (own h3) h4
        simp [defaultCmmNew, es', St.new] at this
        exact this.2.symm
      have hr1 : Room s1 cache := by rw [hs1]; exact room_new (room_retain hi eo hne h2 _) _ _
      have hr2 : Room s1 up := by
        rw [hs1, hup]; intro o' e'
        rw [find_new] at e'
        simp at e'; subst e'; simp [sizeMax]
      obtain ⟨s', r, L', e, t2, hL, hi'⟩ :=
        cachingCmmNew_ok hi1 (List.mem_cons_of_mem _ (own h1)) hr1 List.mem_cons_self hr2 (by omega) ttl pid ok
      have hs' : s'.threads[i]? = some [] := by rw [t2, t1]; exact hs
      refine ⟨s'.push i [.rel up], r, L' ++ L, by simp only [St.call, e1, e], ?_,
        fun q => by rw [hL (by simpa [lossless] using q)]; rfl⟩
      cases r with
      | none =>
        have h5 : Inv A s' (L' ++ up :: (c.owned ++ L)) c.types := hi'.untype (fun p q => List.mem_cons_of_mem _ q)
        refine h5.push hs' [up] (fun x => ?_)
        simp only [Client.after, List.count_append, List.count_cons, List.count_nil]; omega
      | some y =>
        have h5 : Inv A s' (y :: (L' ++ up :: (c.owned ++ L))) ((y, .cachingCmm) :: c.types) :=
          hi'.untype (fun p q => by
            rcases List.mem_cons.1 q with q | q
            · simp [q]
            · simp [q])
        refine h5.push hs' [up] (fun x => ?_)
        simp only [Client.after, List.count_append, List.count_cons, List.count_nil]; omega
  | session cmm ok =>
    cases ok with
    | false => exact ⟨s, none, L, rfl, hi, fun _ => rfl⟩
    | true =>
      obtain ⟨o, s1, eo, es, hi1, rfl⟩ := hi.retain (own ha.1) ha.2
      refine ⟨_, some s.next, L, by simp only [St.call, es]; rfl, ?_, fun _ => rfl⟩
      exact hi1.new .session [cmm] (c.owned ++ L) (by intro x; simp only [List.count_cons, List.count_nil]; omega)
  | sessionFromKeyring kr okCmm ok =>
    cases okCmm with
    | false => exact ⟨s, none, L, rfl, hi, fun _ => rfl⟩
    | true =>
      obtain ⟨o, s1, cmm, eo, e1, t1, _, hi1⟩ := defaultCmmNew_ok hi (own ha.1) ha.2
      have hs' : s1.threads[i]? = some [] := by rw [t1]; exact hs
      cases ok with
      | false =>
        refine ⟨s1.push i [.rel cmm], none, L, by simp only [St.call, e1]; rfl, ?_, fun _ => rfl⟩
        have h5 : Inv A s1 (cmm :: (c.owned ++ L)) c.types := hi1.untype (fun p q => List.mem_cons_of_mem _ q)
        refine h5.push hs' [cmm] (fun x => ?_)
        simp only [Client.after, List.count_append, List.count_cons, List.count_nil]; omega
      | true =>
        refine ⟨_, some s1.next, L, by simp only [St.call, e1]; rfl, ?_, fun _ => rfl⟩
        have h5 := hi1.new .session [cmm] (c.owned ++ L)
          (by intro x; simp only [List.count_cons, List.count_nil]; omega)
        exact h5.untype (fun p q => by
            rcases List.mem_cons.1 q with q | q
            · simp [q, makes]
            · simp [q])
  | retain x =>
    obtain ⟨o, s1, eo, es, hi1, _⟩ := hi.retain (own ha.1) ha.2
    exact ⟨s1, none, L, by simp only [St.call, es]; rfl, hi1, fun _ => rfl⟩
  | release x =>
    cases x with
    | none => exact ⟨s, none, L, rfl, hi, fun _ => rfl⟩
    | some x =>
      refine ⟨_, none, L, rfl, ?_, fun _ => rfl⟩
      refine hi.push hs [x] (fun y => ?_)
      have hm := ha.1
      have hp := List.count_pos_iff.2 hm
      simp only [Client.after, List.count_append, List.count_cons, List.count_nil, List.count_erase]
      by_cases q : x = y
      · subst q; simp; omega
      · simp [q]
  | destroy x =>
    refine ⟨_, none, L, rfl, ?_, fun _ => rfl⟩
    refine hi.push hs [x] (fun y => ?_)
    have hm := ha.1
    have hp := List.count_pos_iff.2 hm
    simp only [Client.after, List.count_append, List.count_cons, List.count_nil, List.count_erase]
    by_cases q : x = y
    · subst q; simp; omega
    · simp [q]
  | mrkBuild gen ok children =>
    cases gen with
    | none =>
      cases ok with
      | false => exact ⟨s, none, L, rfl, hi, fun _ => rfl⟩
      | true =>
        obtain ⟨s1, m, e1, t1, hi1⟩ := multiNew_ok hi none (by simp)
        obtain ⟨s2, new, L2, b, e2, t2, hi2, hst⟩ :=
          mrkChildren_ok children [] hi1 List.mem_cons_self List.mem_cons_self
        have hs' : s2.threads[i]? = some [] := by rw [t2, t1]; exact hs
        cases b with
        | true =>
          refine ⟨s2, some m, new ++ L2 ++ L, by simp only [St.call, mrkBuild, e1, e2], ?_, ?_⟩
          · refine Inv.congr hi2 (fun x => ?_)
            simp only [Client.after, List.count_append, List.count_cons]; omega
          · intro q
            have := hst (by simpa [lossless] using q)
            simp at this
        | false =>
          refine ⟨s2.push i (new.map .rel ++ [.rel m]), none, L2 ++ L,
            by simp only [St.call, mrkBuild, e1, e2]; simp, ?_, ?_⟩
          · have h5 : Inv A s2 (new ++ L2 ++ m :: (c.owned ++ L)) c.types :=
              hi2.untype (fun p q => List.mem_cons_of_mem _ q)
            have h6 := h5.push hs' (T' := c.owned ++ (L2 ++ L)) (new ++ [m]) (fun x => by
              simp only [List.count_append, List.count_cons, List.count_nil]; omega)
            simpa [Client.after] using h6
          · intro q
            rw [(hst (by simpa [lossless] using q)).2]; rfl
    | some g =>
      cases g with
      | false => exact ⟨s, none, L, rfl, hi, fun _ => rfl⟩
      | true =>
        have hi0 := hi.new0 .keyring
        cases ok with
        | false =>
          refine ⟨(s.new .keyring []).1.push i [.rel s.next], none, L, rfl, ?_, fun _ => rfl⟩
          have h5 : Inv A (s.new .keyring []).1 (s.next :: (c.owned ++ L)) c.types :=
            hi0.untype (fun p q => List.mem_cons_of_mem _ q)
          refine h5.push (st := []) hs [s.next] (fun x => ?_)
          simp only [Client.after, List.count_append, List.count_cons, List.count_nil]; omega
        | true =>
          have hr : Room (s.new .keyring []).1 s.next := by
            intro o e; rw [find_new] at e; simp at e; subst e; simp [sizeMax]
          obtain ⟨s1, m, e1, t1, hi1⟩ := multiNew_ok hi0 (some s.next)
            (fun g q => by injection q with q; subst q; exact ⟨List.mem_cons_self, hr⟩)
          have e1' : multiNew (s.new .keyring []).1 (some (s.new .keyring []).2) true = .ok (s1, some m) := e1
          obtain ⟨s2, new, L2, b, e2, t2, hi2, hst⟩ :=
            mrkChildren_ok children [] hi1 List.mem_cons_self List.mem_cons_self
          have hs' : s2.threads[i]? = some [] := by rw [t2, t1]; exact hs
          cases b with
          | true =>
            refine ⟨s2, some m, s.next :: (new ++ L2 ++ L), by simp only [St.call, mrkBuild, e1', e2], ?_, ?_⟩
            · have h5 : Inv A s2 (new ++ L2 ++ m :: s.next :: (c.owned ++ L)) ((m, .multi) :: c.types) :=
                hi2.untype (fun p q => by
                  rcases List.mem_cons.1 q with q | q
                  · simp [q]
                  · simp [q])
              refine Inv.congr h5 (fun x => ?_)
              simp only [Client.after, List.count_append, List.count_cons]; omega
            · intro q
              have := hst (by simpa [lossless] using q)
              simp at this
          | false =>
            refine ⟨s2.push i (.rel s.next :: (new.map .rel ++ [.rel m])), none, L2 ++ L,
              by simp only [St.call, mrkBuild, e1', e2]; simp [St.new], ?_, ?_⟩
            · have h5 : Inv A s2 (new ++ L2 ++ m :: s.next :: (c.owned ++ L)) c.types :=
                hi2.untype (fun p q => List.mem_cons_of_mem _ (List.mem_cons_of_mem _ q))
              have h6 := h5.push hs' (T' := c.owned ++ (L2 ++ L)) (s.next :: (new ++ [m])) (fun x => by
                simp only [List.count_append, List.count_cons, List.count_nil]; omega)
              simpa [Client.after] using h6
            · intro q
              rw [(hst (by simpa [lossless] using q)).2]; rfl

/-! ### What a constructor keeps -/

theorem edge_new (s : St) (k : Kind) (l : List Nat) {A T ty} (hi : Inv A s T ty) {a b : Nat} (h : Edge s.heap a b) :
    Edge (s.new k l).1.heap a b := by
  obtain ⟨o, e, m⟩ := h
  refine ⟨o, ?_, m⟩
  rw [find_new, if_neg, e]
  intro q
  rw [← q, HInv.next_free hi] at e
  cases e

theorem new_edge (s : St) (k : Kind) (l : List Nat) {b : Nat} (h : b ∈ l) : Edge (s.new k l).1.heap s.next b :=
  ⟨_, by rw [find_new, if_pos rfl], by simpa [Obj.holds] using h⟩

theorem edge_retain {A s T ty} (hi : Inv A s T ty) {x s'} (e : s.retain x = .ok s') {a b : Nat} (h : Edge s.heap a b) :
    Edge s'.heap a b := by
  unfold St.retain at e
  cases eo : s.heap.find x with
  | none => simp [eo] at e
  | some o =>
    simp only [eo] at e
    split at e
    · cases e
    · split at e
      · cases e
      · injection e with e
        subst e
        obtain ⟨oa, ea, m⟩ := h
        by_cases q : x = a
        · subst q
          rw [eo] at ea; injection ea with ea; subst ea
          exact ⟨{ o with count := o.count + 1 }, by simp [find_set hi.nodup eo], m⟩
        · exact ⟨oa, by simp only [find_set hi.nodup eo]; rw [if_neg q]; exact ea, m⟩

theorem retain_next {s x s'} (e : St.retain s x = .ok s') : s'.next = s.next := by
  unfold St.retain at e
  split at e
  · cases e
  · split at e
    · cases e
    · split at e
      · cases e
      · injection e with e; subst e; rfl

/-- What the constructor of a multi-keyring, default CMM or caching CMM was given is held by the object. -/
theorem defaultCmmNew_holds {s kr s' x} (e : defaultCmmNew s kr true = .ok (s', some x)) : Edge s'.heap x kr := by
  unfold defaultCmmNew at e
  simp only [Bool.not_true, Bool.false_eq_true, if_false] at e
  split at e
  · cases e
  · rename_i s1 e1
    simp only [Except.ok.injEq, Prod.mk.injEq, Option.some.injEq] at e
    rw [← e.1, ← e.2]
    exact new_edge s1 .defaultCmm [kr] (by simp)

theorem multiNew_holds {s g s' x} (e : multiNew s (some g) true = .ok (s', some x)) : Edge s'.heap x g := by
  unfold multiNew at e
  simp only [Bool.not_true, Bool.false_eq_true, if_false] at e
  split at e
  · cases e
  · rename_i s1 e1
    simp only [Except.ok.injEq, Prod.mk.injEq, Option.some.injEq] at e
    rw [← e.1, ← e.2]
    exact new_edge (s1.new .buffer []).1 .multi _ (by simp)

theorem cachingCmmNew_holds {A s T ty cache up s' x} (hi : Inv A s T ty) (hu : up ∈ T) (hur : Room s up)
    (e : cachingCmmNew s cache up true true true = .ok (s', some x)) :
    Edge s'.heap x cache ∧ Edge s'.heap x up ∧ ∀ a b, Edge s.heap a b → Edge s'.heap a b := by
  have hi1 := hi.new0 .buffer
  obtain ⟨o, s2, eo, es, hi2, hs2⟩ := hi1.retain (List.mem_cons_of_mem _ hu) (room_new hur _ _)
  have es' : St.retain (s.new .buffer []).1 up = .ok s2 := es
  unfold cachingCmmNew at e
  simp only [Bool.not_true, Bool.or_self, Bool.false_eq_true, if_false, es'] at e
  split at e
  · cases e
  · rename_i s3 e3
    simp only [Except.ok.injEq, Prod.mk.injEq, Option.some.injEq] at e
    rw [← e.1, ← e.2]
    refine ⟨new_edge s3 .cachingCmm _ (by simp), new_edge s3 .cachingCmm _ (by simp), fun a b h => ?_⟩
    have h1 := edge_retain hi2 e3 (edge_retain hi1 es' (edge_new s .buffer [] hi h))
    obtain ⟨oa, ea, m⟩ := h1
    refine ⟨oa, ?_, m⟩
    rw [find_new, if_neg, ea]
    intro q
    rw [retain_next e3, hs2] at q
    have hn : (s.new Kind.buffer []).1.next = s.next + 1 := rfl
    have hlt : a < s.next := by
      obtain ⟨oh, eh, _⟩ := h
      exact hi.fresh a (List.mem_map.2 ⟨_, find_mem eh, rfl⟩)
    simp only [hn] at q
    omega

theorem mrkChildren_all {m} (cs : List (Bool × Bool)) (hall : cs.all (fun c => c.1 && c.2) = true) :
    ∀ {s made s' made' b}, mrkChildren s m made cs = .ok (s', made', b) → b = true := by
  induction cs with
  | nil => intro s made s' made' b e; simp [mrkChildren] at e; exact e.2.2
  | cons c cs ih =>
    intro s made s' made' b e
    obtain ⟨c1, c2⟩ := c
    simp only [List.all_cons, Bool.and_eq_true] at hall
    obtain ⟨⟨h1, h2⟩, h3⟩ := hall
    subst h1; subst h2
    unfold mrkChildren mrkChild at e
    simp only [Bool.not_true, Bool.false_eq_true, if_false] at e
    split at e
    · cases e
    · rename_i q
      split at q
      · cases q
      · simp at q
    · rename_i q
      split at q
      · cases q
      · exact ih h3 e

/-- A constructor that is granted everything makes an object. -/
theorem makes_some {s : St} {i : Nat} {op : Op} {s' : St} {r : Option Nat} (hg : granted op = true) (e : s.call i op = .ok (s', r)) : r.isSome := by
  cases op with
  | rawAes ok => simp [granted] at hg; subst hg; simp [St.call, rawAesNew] at e; rw [← e.2]; rfl
  | rawRsa priv pub ok okPub okPriv =>
    cases priv <;> cases pub <;> cases ok <;> cases okPub <;> cases okPriv <;> simp [granted] at hg <;>
      simp [St.call, rawRsaNew] at e <;> (rw [← e.2]; rfl)
  | kms ok => simp [granted] at hg; subst hg; simp [St.call] at e; rw [← e.2]; rfl
  | cache ok => simp [granted] at hg; subst hg; simp [St.call] at e; rw [← e.2]; rfl
  | multi gen ok =>
    simp [granted] at hg; subst hg
    simp only [St.call, multiNew] at e
    cases gen with
    | none => simp at e; rw [← e.2]; rfl
    | some g =>
      simp only [Bool.not_true, Bool.false_eq_true, if_false] at e
      split at e
      · cases e
      · simp at e; rw [← e.2]; rfl
  | addChild m k ok => simp [granted] at hg
  | defaultCmm kr ok =>
    simp [granted] at hg; subst hg
    simp only [St.call, defaultCmmNew, Bool.not_true, Bool.false_eq_true, if_false] at e
    split at e
    · cases e
    · simp at e; rw [← e.2]; rfl
  | cachingCmm cache up ttl pid ok =>
    simp [granted] at hg
    obtain ⟨⟨h1, h2⟩, h3⟩ := hg
    subst h1; subst h2; subst h3
    simp only [St.call, cachingCmmNew, Bool.not_true, Bool.or_self, Bool.false_eq_true, if_false] at e
    split at e
    · cases e
    · split at e
      · cases e
      · simp at e; rw [← e.2]; rfl
  | cachingFromKeyring cache kr okDefault ttl pid ok =>
    simp [granted] at hg
    obtain ⟨⟨⟨h0, h1⟩, h2⟩, h3⟩ := hg
    subst h0; subst h1; subst h2; subst h3
    simp only [St.call, defaultCmmNew, cachingCmmNew, Bool.not_true, Bool.or_self, Bool.false_eq_true, if_false] at e
    split at e
    · cases e
    · rename_i q
      split at q
      · cases q
      · simp at q
    · split at e
      · cases e
      · rename_i q
        split at q
        · cases q
        · split at q
          · cases q
          · simp at q e; rw [← e.2, ← q.2]; rfl
  | session cmm ok =>
    simp [granted] at hg; subst hg
    simp only [St.call, Bool.not_true, Bool.false_eq_true, if_false] at e
    split at e
    · cases e
    · simp at e; rw [← e.2]; rfl
  | sessionFromKeyring kr okCmm ok =>
    simp [granted] at hg
    obtain ⟨h0, h1⟩ := hg
    subst h0; subst h1
    simp only [St.call, defaultCmmNew, Bool.not_true, Bool.false_eq_true, if_false] at e
    split at e
    · cases e
    · rename_i q
      split at q
      · cases q
      · simp at q
    · simp at e; rw [← e.2]; rfl
  | retain x => simp [granted] at hg
  | release x => simp [granted] at hg
  | destroy x => simp [granted] at hg
  | mrkBuild gen ok children =>
    simp only [granted, Bool.and_eq_true] at hg
    obtain ⟨⟨h0, h1⟩, h2⟩ := hg
    subst h1
    cases gen with
    | none =>
      simp only [St.call, mrkBuild] at e
      split at e
      · cases e
      · rename_i q; simp [multiNew] at q
      · split at e
        · cases e
        · rename_i q; have := mrkChildren_all children h2 q; cases this
        · simp at e; rw [← e.2]; rfl
    | some g =>
      cases g with
      | false => simp at h0
      | true =>
        simp only [St.call, mrkBuild] at e
        split at e
        · cases e
        · rename_i q
          simp only [multiNew, Bool.not_true, Bool.false_eq_true, if_false] at q
          split at q
          · cases q
          · simp at q
        · split at e
          · cases e
          · rename_i q; have := mrkChildren_all children h2 q; cases this
          · simp at e; rw [← e.2]; rfl

/-- What a constructor was given can be reached from what it made. -/
theorem holds_uses {A s c L i op s' x} (hi : Inv A s (c.owned ++ L) c.types) (ha : Allowed s c op)
    (e : s.call i op = .ok (s', some x)) : ∀ y ∈ uses op, Reaches s'.heap x y := by
  have own : ∀ {x ks}, c.has x ks → x ∈ c.owned ++ L := fun h => List.mem_append.2 (.inl h.1)
  intro y hy
  cases op with
  | multi gen ok =>
    cases gen with
    | none => simp [uses] at hy
    | some g =>
      simp [uses] at hy; subst hy
      cases ok with
      | false => simp [St.call, multiNew] at e
      | true => exact (multiNew_holds e).reaches
  | defaultCmm kr ok =>
    simp [uses] at hy; subst hy
    cases ok with
    | false => simp [St.call, defaultCmmNew] at e
    | true => exact (defaultCmmNew_holds e).reaches
  | cachingCmm cache up ttl pid ok =>
    have ho : ttl = true ∧ pid = true ∧ ok = true := by
      cases ttl <;> cases pid <;> cases ok <;> simp [St.call, cachingCmmNew] at e ⊢
    obtain ⟨rfl, rfl, rfl⟩ := ho
    obtain ⟨h1, h2, _⟩ := cachingCmmNew_holds hi (own ha.2.2.1) ha.2.2.2 e
    simp [uses] at hy
    rcases hy with rfl | rfl
    · exact h1.reaches
    · exact h2.reaches
  | cachingFromKeyring cache kr okDefault ttl pid ok =>
    obtain ⟨a1, a2, a3, a4⟩ := ha
    cases okDefault with
    | false => simp [St.call, defaultCmmNew] at e
    | true =>
      obtain ⟨o, s1, up, eo, e1, t1, hs1, hi1⟩ := defaultCmmNew_ok hi (own a3) a4
      have hup : up = s.next := by
        have := e1
        obtain ⟨o', s1', eo', es', _, rfl⟩ := hi.retain (own a3) a4
        simp [defaultCmmNew, es', St.new] at this
        exact this.2.symm
      have hr2 : Room s1 up := by
        rw [hs1, hup]; intro o' e'
        rw [find_new] at e'
        simp at e'; subst e'; simp [sizeMax]
      simp only [St.call, e1] at e
      split at e
      · cases e
      · rename_i s2 r2 e2
        simp only [Except.ok.injEq, Prod.mk.injEq] at e
        obtain ⟨rfl, rfl⟩ := e
        have ho : ttl = true ∧ pid = true ∧ ok = true := by
          cases ttl <;> cases pid <;> cases ok <;> simp [cachingCmmNew] at e2 ⊢
        obtain ⟨rfl, rfl, rfl⟩ := ho
        obtain ⟨h1, h2, h3⟩ := cachingCmmNew_holds hi1 List.mem_cons_self hr2 e2
        simp [uses] at hy
        rcases hy with rfl | rfl
        · exact h1.reaches
        · exact Reaches.trans h2.reaches (h3 _ _ (defaultCmmNew_holds e1)).reaches
  | session cmm ok =>
    simp [uses] at hy; subst hy
    cases ok with
    | false => simp [St.call] at e
    | true =>
      simp only [St.call, Bool.not_true, Bool.false_eq_true, if_false] at e
      split at e
      · cases e
      · rename_i s1 e1
        simp only [Except.ok.injEq, Prod.mk.injEq, Option.some.injEq] at e
        rw [← e.1, ← e.2]
        exact (new_edge s1 .session [y] (by simp)).reaches
  | sessionFromKeyring kr okCmm ok =>
    simp [uses] at hy; subst hy
    cases okCmm with
    | false => simp [St.call, defaultCmmNew] at e
    | true =>
      obtain ⟨o, s1, cmm, eo, e1, t1, hs1, hi1⟩ := defaultCmmNew_ok hi (own ha.1) ha.2
      cases ok with
      | false => simp [St.call, e1] at e
      | true =>
        simp only [St.call, e1, Bool.not_true, Bool.false_eq_true, if_false] at e
        simp only [Except.ok.injEq, Prod.mk.injEq, Option.some.injEq] at e
        rw [← e.1, ← e.2]
        exact Reaches.trans (new_edge s1 .session [cmm] (by simp)).reaches
          (edge_new s1 .session [cmm] hi1 (defaultCmmNew_holds e1)).reaches
  | _ => simp [uses] at hy

/-- A child that was added can be reached from the multi-keyring. -/
theorem addChild_edge {A s T ty m c s'} (hi : Inv A s T ty) (hc : c ∈ T) (hr : Room s c)
    (e : addChild s m c true = .ok s') : Edge s'.heap m c := by
  obtain ⟨oc, s1, eoc, es, hi1, hs1⟩ := hi.retain hc hr
  unfold addChild at e
  split at e
  · cases e
  · split at e
    · cases e
    · simp only [es] at e
      simp only [Bool.not_true, Bool.false_eq_true, if_false] at e
      split at e
      · cases e
      · rename_i om eom
        injection e with e
        subst e
        exact ⟨_, by simp only [find_set hi1.nodup eom, if_true]; rfl, by simp [Obj.holds]⟩

theorem reach_inv {A : Prop} {P n s c} (hA : A → ∀ s op, P s op → NoCycle s op) (h : Reach P n s c) :
    ∃ L, Inv A s (c.owned ++ L) c.types ∧ ((∀ s op, P s op → lossless op = true) → L = []) := by
  induction h with
  | init => exact ⟨[], inv_init A n, fun _ => rfl⟩
  | @call s c i op s' r _ hs ha hP e ih =>
    obtain ⟨L, hi, hL⟩ := ih
    obtain ⟨s2, r2, L2, e2, hi2, hL2⟩ := inv_call hi hs ha (fun a => hA a s op hP)
    rw [e] at e2
    injection e2 with e2
    injection e2 with e3 e4
    subst e3; subst e4
    exact ⟨L2, hi2, fun q => by rw [hL2 (q s op hP), hL q]⟩
  | @tick s c i s' _ e ih =>
    obtain ⟨L, hi, hL⟩ := ih
    obtain ⟨s2, e2, hi2⟩ := inv_tick hi i
    rw [e] at e2
    injection e2 with e2
    subst e2
    exact ⟨L, hi2, hL⟩

/-! ### Destructors end -/

/-- What is left to do at most. -/
def work (s : St) : Nat :=
  (s.threads.map List.length).sum + (s.heap.map fun e => 2 * e.2.count + e.2.holds.length).sum

theorem sum_set (ts : List (List Act)) (i : Nat) (st st' : List Act) (e : ts[i]? = some st) :
    ((ts.set i st').map List.length).sum + st.length = (ts.map List.length).sum + st'.length := by
  induction ts generalizing i with
  | nil => simp at e
  | cons a ts ih =>
    cases i with
    | zero => simp at e; subst e; simp; omega
    | succ i =>
      simp at e
      have := ih i e
      simp only [List.set_cons_succ, List.map_cons, List.sum_cons]
      omega

theorem work_tick {A s T ty} (hi : Inv A s T ty) {i a st s'} (hs : s.threads[i]? = some (a :: st))
    (e : s.tick i = .ok s') : work s' < work s := by
  unfold St.tick at e
  rw [hs] at e
  have hset := fun st' => sum_set s.threads i _ st' hs
  cases a with
  | rel x =>
    simp only at e
    cases eo : s.heap.find x with
    | none => simp [eo] at e
    | some o =>
      simp only [eo] at e
      obtain ⟨l, r, eh, hl, hr⟩ := split hi.nodup eo
      by_cases h0 : o.count = 0
      · simp [h0] at e
      · rw [if_neg h0] at e
        by_cases h1 : o.count = 1
        · rw [if_pos h1] at e
          injection e with e
          subst e
          have := hset (o.holds.map .rel ++ .free x :: st)
          unfold work
          simp only
          rw [eh, set_split hl hr]
          simp [Obj.holds, -List.map_set] at this ⊢
          omega
        · rw [if_neg h1] at e
          injection e with e
          subst e
          have := hset st
          unfold work
          simp only
          rw [eh, set_split hl hr]
          simp [Obj.holds, -List.map_set] at this ⊢
          omega
  | free x =>
    simp only at e
    cases eo : s.heap.find x with
    | none => simp [eo] at e
    | some o =>
      simp only [eo] at e
      obtain ⟨l, r, eh, hl, hr⟩ := split hi.nodup eo
      injection e with e
      subst e
      have := hset st
      unfold work
      simp only
      rw [eh, erase_split hl hr]
      simp [-List.map_set] at this ⊢
      omega

theorem works_le {A s T ty is s'} (hi : Inv A s T ty) (h : Works s is s') : is.length ≤ work s := by
  induction h with
  | nil => simp
  | @cons s i a st s1 is s' hs e _ ih =>
    have h1 := work_tick hi hs e
    obtain ⟨s2, e2, hi2⟩ := inv_tick hi i
    rw [e] at e2
    injection e2 with e2
    subst e2
    have := ih hi2
    simp; omega

/-- The threads can come to rest. -/
theorem comes_to_rest {A T ty} : ∀ (k : Nat) {s : St}, work s ≤ k → Inv A s T ty → ∃ is s', Works s is s' ∧ Idle s' := by
  intro k
  induction k with
  | zero =>
    intro s hk hi
    refine ⟨[], s, .nil s, ?_⟩
    intro st hm
    obtain ⟨i, hs⟩ := List.getElem?_of_mem hm
    cases st with
    | nil => rfl
    | cons a st =>
      obtain ⟨s', e, _⟩ := inv_tick hi i
      have := work_tick hi hs e
      omega
  | succ k ih =>
    intro s hk hi
    by_cases hid : Idle s
    · exact ⟨[], s, .nil s, hid⟩
    · unfold Idle at hid
      simp only [Classical.not_forall] at hid
      obtain ⟨st, hm, hne⟩ := hid
      obtain ⟨i, hs⟩ := List.getElem?_of_mem hm
      cases st with
      | nil => exact absurd rfl hne
      | cons a st =>
        obtain ⟨s', e, hi'⟩ := inv_tick hi i
        have := work_tick hi hs e
        obtain ⟨is, s2, hw, h2⟩ := ih (by omega) hi'
        exact ⟨i :: is, s2, .cons hs e hw, h2⟩

theorem reach_works {P n s c is s'} (h : Reach P n s c) (w : Works s is s') : Reach P n s' c := by
  induction w with
  | nil => exact h
  | cons _ e _ ih => exact ih (.tick h e)

/-! ### Nothing is left over -/

/-- In a finite heap where each object of a set is held by one of the set, there is a cycle. -/
theorem chain {h : Heap} {S : Nat → Prop} (hS : ∀ x, S x → x ∈ ids h ∧ ∃ y, S y ∧ Edge h y x) (hA : Acyclic h) :
    ∀ (k : Nat) (P : List Nat), (ids h).length - P.length = k → P.Nodup → (∀ x ∈ P, x ∈ ids h) → ∀ x, S x →
      P.head? = some x → (∀ y ∈ P, Reaches h x y) → False := by
  intro k
  induction k with
  | zero =>
    intro P hk hn hsub x hx hh hr
    obtain ⟨_, y, hy, he⟩ := hS x hx
    have hyP : y ∉ P := fun q => hA y x he (hr y q)
    have := List.Nodup.length_le_of_subset (l₁ := y :: P) (l₂ := ids h) (List.nodup_cons.2 ⟨hyP, hn⟩)
      (fun z hz => by
        rcases List.mem_cons.1 hz with q | q
        · subst q; exact (hS _ hy).1
        · exact hsub z q)
    simp at this
    omega
  | succ k ih =>
    intro P hk hn hsub x hx hh hr
    obtain ⟨_, y, hy, he⟩ := hS x hx
    have hyP : y ∉ P := fun q => hA y x he (hr y q)
    refine ih (y :: P) (by simp; omega) (List.nodup_cons.2 ⟨hyP, hn⟩) ?_ y hy rfl ?_
    · intro z hz
      rcases List.mem_cons.1 hz with q | q
      · subst q; exact (hS _ hy).1
      · exact hsub z q
    · intro z hz
      rcases List.mem_cons.1 hz with q | q
      · subst q; exact .refl _
      · exact Reaches.trans he.reaches (hr z q)

theorem idle_rels {s : St} (h : Idle s) : rels s.threads = [] ∧ frees s.threads = [] := by
  unfold Idle at h
  constructor
  · simp only [rels, List.flatMap_eq_nil_iff]; intro st hs; rw [h st hs]; rfl
  · simp only [frees, List.flatMap_eq_nil_iff]; intro st hs; rw [h st hs]; rfl

/-- Without losses and cycles, what is allocated at rest is in use. -/
theorem in_use {s c} (hi : Inv True s c.owned c.types) (hid : Idle s) {x : Nat} (hx : x ∈ ids s.heap) :
    ∃ y ∈ Client.owned c, Reaches s.heap y x := by
  apply Classical.byContradiction
  intro hno
  obtain ⟨hr, hf⟩ := idle_rels hid
  have hc : ∀ z, z ∈ ids s.heap → z ∈ c.owned ∨ z ∈ refs s.heap := by
    intro z hz
    cases e : s.heap.find z with
    | none => exact absurd hz (find_none.1 e)
    | some o =>
      have h1 := hi.dying z o e
      have h2 := hi.count z
      rw [hf] at h1
      rw [hr] at h2
      unfold total at h2
      simp [e] at h1 h2
      have : 0 < c.owned.count z + (refs s.heap).count z := by omega
      by_cases q : 0 < c.owned.count z
      · exact .inl (List.count_pos_iff.1 q)
      · exact .inr (List.count_pos_iff.1 (by omega))
  refine chain (h := s.heap) (S := fun z => z ∈ ids s.heap ∧ ¬∃ y ∈ c.owned, Reaches s.heap y z) ?_ (hi.acyclic trivial)
    _ [x] rfl (by simp) (by simpa using hx) x ⟨hx, hno⟩ rfl (by simpa using Reaches.refl x)
  rintro z ⟨hz, hzn⟩
  refine ⟨hz, ?_⟩
  rcases hc z hz with q | q
  · exact absurd ⟨z, q, .refl z⟩ hzn
  · obtain ⟨⟨y, oy⟩, hy, hm⟩ := List.mem_flatMap.1 q
    have ey := mem_find hi.nodup hy
    have hed : Edge s.heap y z := ⟨oy, ey, hm⟩
    refine ⟨y, ⟨List.mem_map.2 ⟨_, hy, rfl⟩, ?_⟩, hed⟩
    rintro ⟨w, hw, hwr⟩
    exact hzn ⟨w, hw, Reaches.trans hwr hed.reaches⟩

end Proof.Lifetime
end Verif
