import Verif.Proof.LocalRunsBooks
/-
The local cache keeps the promises of a materials cache, whatever threads use it.
-/
namespace Verif.Proof
open Verif Verif.Spec

/-- What is known about a thread inside a call of the cache. -/
def Doing (G : List Row) (pos : Nat → Nat) (led : List UseRec) (next : Nat) (pend : Option UseRec) (asked : Option CacheOp) : Pending → Prop
  | .idle => pend = none
  | .addBytes n b m => asked = some (.use n b m) ∧ pend = none
  | .addMessages n sum m => n < next ∧ ∃ b o row, asked = some (.use n b m) ∧ pend = some ⟨pos n, o, b⟩ ∧ o < led.length ∧
      sum = sumTo (pos n) o led % 2 ^ 64 ∧ G[pos n]? = some row ∧ row.time ≤ o
  | .hintLock n x push => asked = some (.hint n x push) ∧ pend = none ∧ n < next
  | .relLock n => asked = some (.release n true) ∧ pend = none ∧ n < next
  | .relHeld n => asked = some (.release n true) ∧ pend = none ∧ n < next
  | .relPlain n => ∃ inv, asked = some (.release n inv) ∧ pend = none ∧ n < next

/-- Books that have grown. -/
structure Grew (G G' : List Row) (pos pos' : Nat → Nat) (led led' : List UseRec) (next next' : Nat) : Prop where
  g : ∀ (i : Nat) (row : Row), G[i]? = some row → G'[i]? = some row
  p : ∀ n, n < next → pos' n = pos n
  len : led.length ≤ led'.length
  l : ∀ e o, o < led.length → sumTo e o led' = sumTo e o led
  n : next ≤ next'

section
variable {G G' : List Row} {pos pos' : Nat → Nat} {led led' : List UseRec} {next next' : Nat} {pend : Option UseRec} {asked : Option CacheOp}

theorem Grew.refl : Grew G G pos pos led led next next := ⟨fun _ _ h => h, fun _ _ => rfl, Nat.le_refl _, fun _ _ _ => rfl, Nat.le_refl _⟩

theorem Grew.more (h : next ≤ next') : Grew G G pos pos led led next next' := ⟨fun _ _ h => h, fun _ _ => rfl, Nat.le_refl _, fun _ _ _ => rfl, h⟩

theorem sumTo_snoc {e o : Nat} {u : UseRec} (h : o < u.ord) : sumTo e o (led ++ [u]) = sumTo e o led := by
  rw [sumTo_append]
  have : sumTo e o [u] = 0 := by
    simp only [sumTo, List.map_cons, List.map_nil, List.sum_cons, List.sum_nil, Nat.add_zero]
    rw [if_neg (by omega)]
  omega

theorem Grew.event {r : Row} {u : UseRec} (hu : u.ord = led.length) (hp : ∀ n, n < next → pos' n = pos n) (hn : next ≤ next') :
    Grew G (G ++ [r]) pos pos' led (led ++ [u]) next next' :=
  ⟨fun _ _ h => getElem?_append_some h, hp, by simp, fun _ _ h => sumTo_snoc (by omega), hn⟩

theorem Doing.grew (hg : Grew G G' pos pos' led led' next next') {p : Pending} (h : Doing G pos led next pend asked p) :
    Doing G' pos' led' next' pend asked p := by
  have hn := hg.n
  have hlen := hg.len
  cases p with
  | idle => exact h
  | addBytes n b m => exact h
  | addMessages n sum m =>
    obtain ⟨h0, b, o, row, h1, h2, h3, h4, h5, h6⟩ := h
    refine ⟨by omega, b, o, row, h1, ?_, by omega, ?_, ?_, h6⟩
    · rw [hg.p n h0]; exact h2
    · rw [hg.p n h0, hg.l _ _ h3]; exact h4
    · rw [hg.p n h0]; exact hg.g _ _ h5
  | hintLock n x push => exact ⟨h.1, h.2.1, by have := h.2.2; omega⟩
  | relLock n => exact ⟨h.1, h.2.1, by have := h.2.2; omega⟩
  | relHeld n => exact ⟨h.1, h.2.1, by have := h.2.2; omega⟩
  | relPlain n => obtain ⟨inv, h1, h2, h3⟩ := h; exact ⟨inv, h1, h2, by omega⟩
end

/-- Everything known about an execution. -/
structure LR (log : List LocalEvent) (asked : Nat → Option CacheOp) (s : Conc) (G : List Row) (pos : Nat → Nat) (pend : Nat → Option UseRec)
    (led : List UseRec) : Prop where
  cc : CC s
  log : log = G.map Row.x
  books : Books G pos pend led s.num s.cache
  le : ∀ n, pos n ≤ G.length
  doing : ∀ t, t < s.num → Doing G pos led s.cache.next (pend t) (asked t) (s.thr t).doing

section
variable {log : List LocalEvent} {asked : Nat → Option CacheOp} {s : Conc} {G : List Row} {pos : Nat → Nat} {pend : Nat → Option UseRec}
  {led : List UseRec}

theorem LR.next {log' asked' G' pos' pend' led'} (h : LR log asked s G pos pend led) {t : Nat} {c' : Cache} {th : Thread} (hcc : CC (s.update t c' th))
    (hlog : log' = G'.map Row.x) (hb : Books G' pos' pend' led' s.num c') (hle : ∀ n, pos' n ≤ G'.length) (hg : Grew G G' pos pos' led led' s.cache.next c'.next)
    (ho : ∀ i, i ≠ t → pend' i = pend i ∧ asked' i = asked i) (hd : Doing G' pos' led' c'.next (pend' t) (asked' t) th.doing) :
    LR log' asked' (s.update t c' th) G' pos' pend' led' := by
  refine ⟨hcc, hlog, hb, hle, fun i hi => ?_⟩
  by_cases hit : i = t
  · subst hit
    rw [update_self]
    exact hd
  · rw [update_other s hit]
    rw [(ho i hit).1, (ho i hit).2]
    exact (h.doing i hi).grew hg

theorem LR.snoc_le (h : LR log asked s G pos pend led) {r : Row} : ∀ n, pos n ≤ (G ++ [r]).length := fun n => by
  have := h.le n
  rw [List.length_append]; omega

theorem setAsked_self (t : Nat) (x : Option CacheOp) : setAsked asked t x t = x := by simp [setAsked]
theorem setAsked_other {t i : Nat} (h : i ≠ t) (x : Option CacheOp) : setAsked asked t x i = asked i := by simp [setAsked, h]
theorem setPend_same (t : Nat) (x : Option UseRec) : setPend pend t x t = x := by simp [setPend]
theorem setPend_other {t i : Nat} (h : i ≠ t) (x : Option UseRec) : setPend pend t x i = pend i := by simp [setPend, h]

/-- The row of an event about a live entry. -/
theorem LR.entry (h : LR log asked s G pos pend led) {n : Nat} {e : Entry} (hm : s.cache.mem n = some e) :
    n < s.cache.next ∧ pos n < G.length ∧ ∃ row, G[pos n]? = some row ∧ Stored row n e :=
  ⟨(h.books.mem n e hm).1, h.books.pos_lt hm, (h.books.mem n e hm).2⟩

/-- A call that begins and waits. -/
theorem LR.begins (h : LR log asked s G pos pend led) {t : Nat} {op : CacheOp} {s' : Conc} (hq : questionOf op ≠ none)
    (hs : s.step t (.call op) = some (.ok (s', none))) : ∃ G' pos' pend' led', LR log (setAsked asked t (some op)) s' G' pos' pend' led' := by
  rcases h.cc.step hs with ⟨s2, x, he, hcc, hk⟩ | ⟨n, hmv, -⟩
  · cases he
    generalize hx : (none : Option CacheResult) = x at hk
    cases hk with
    | @call _ c' a ht hidle hop hl hst hz1 hz2 hz3 hz4 =>
      clear hz1 hz2 hz3 hz4
      have hsp := start_spec h.cc.ok (fun n hn => by
        have := hop n hn
        exact ((s.refs_split ht).mem_iff).2 (by simp [Thread.refs, this])) hst
      have hp : pend t = none := by have := h.doing t ht; rw [hidle] at this; exact this
      have fin : Doing G pos led s.cache.next (pend t) (some op) a.doing → c' = s.cache → 
          ∃ G' pos' pend' led', LR log (setAsked asked t (some op)) (s.update t c' ⟨heldAfter (some op) a (s.thr t).held, a.doing⟩) G' pos' pend' led' := by
        rintro hd rfl
        refine ⟨G, pos, pend, led, h.next hcc h.log h.books h.le .refl (fun i hi => ⟨rfl, setAsked_other hi _⟩) ?_⟩
        rw [setAsked_self]; exact hd
      cases hsp <;> first | (cases hx; done) | skip
      case use n b m e hm => exact fin ⟨rfl, hp⟩ rfl
      case hint n x push e hm => exact fin ⟨rfl, hp, (h.entry hm).1⟩ rfl
      case relLock n e hm => exact fin ⟨rfl, hp, (h.entry hm).1⟩ rfl
      case relPlain n inv e hm => exact fin ⟨inv, rfl, hp, (h.entry hm).1⟩ rfl
  · cases hmv

/-- A call of the cache that caching CMMs do not make. -/
theorem LR.other (h : LR log asked s G pos pend led) {t : Nat} {op : CacheOp} {s' : Conc} {r : Option CacheResult} (hq : questionOf op = none)
    (hs : s.step t (.call op) = some (.ok (s', r))) : ∃ G' pos' pend' led', LR log asked s' G' pos' pend' led' := by
  rcases h.cc.step hs with ⟨s2, x, he, hcc, hk⟩ | ⟨n, hmv, -⟩
  · cases he
    cases hk with
    | @call _ c' a ht hidle hop hl hst hz1 hz2 hz3 hz4 =>
      clear hz1 hz2 hz3 hz4
      have hsp := start_spec h.cc.ok (fun n hn => by
        have := hop n hn
        exact ((s.refs_split ht).mem_iff).2 (by simp [Thread.refs, this])) hst
      have hp : pend t = none := by have := h.doing t ht; rw [hidle] at this; exact this
      cases hsp <;> first | (cases hq; done) | skip
      case clear hsame => exact ⟨G, pos, pend, led, h.next hcc h.log (h.books.same hsame) h.le (.more hsame.1) (fun i hi => ⟨rfl, rfl⟩) hp⟩
      case count k => exact ⟨G, pos, pend, led, h.next hcc h.log h.books h.le .refl (fun i hi => ⟨rfl, rfl⟩) hp⟩
  · cases hmv

theorem map_snoc (h : log = G.map Row.x) (x : LocalEvent) (e t : Nat) : log ++ [x] = (G ++ [(⟨x, e, t⟩ : Row)]).map Row.x := by
  rw [List.map_append, ← h]; rfl

/-- A call that returns in its first step. -/
theorem LR.returns (h : LR log asked s G pos pend led) {t : Nat} {op : CacheOp} {s' : Conc} {r : CacheResult} {ev : CacheEvent Nat} (hf : OpFits op)
    (hs : s.step t (.call op) = some (.ok (s', some r))) (hev : recordOf s'.cache op r = some ev) :
    ∃ G' pos' pend' led', LR (log ++ [⟨t, op, ev⟩]) asked s' G' pos' pend' led' := by
  rcases h.cc.step hs with ⟨s2, x, he, hcc, hk⟩ | ⟨n, hmv, -⟩
  · cases he
    generalize hx : some r = x at hk
    cases hk with
    | @call _ c' a ht hidle hop hl hst hz1 hz2 hz3 hz4 =>
      clear hz1 hz2 hz3 hz4
      have hsp := start_spec h.cc.ok (fun n hn => by
        have := hop n hn
        exact ((s.refs_split ht).mem_iff).2 (by simp [Thread.refs, this])) hst
      have hp : pend t = none := by have := h.doing t ht; rw [hidle] at this; exact this
      have hc : (s.update t c' ⟨heldAfter (some op) a (s.thr t).held, a.doing⟩).cache = c' := rfl
      rw [hc] at hev
      have hidle' : ∀ y, a = .ret y → a.doing = .idle := by rintro y rfl; rfl
      -- an event about a live entry that adds nothing
      have about : ∀ (n : Nat) (e : Entry), c'.mem n = some e → SameC s.cache c' → (gives ev = some n ∨ uses ev.q = some n) →
          (∀ k, gives ev = some k ∨ uses ev.q = some k → k = n) → adds ev = (0, 0) → a.doing = .idle →
          (∀ row, G[pos n]? = some row → Stored row n e → pos n < G.length →
            RowOk (G ++ [⟨⟨t, op, ev⟩, pos n, led.length⟩]) (led ++ [⟨pos n, led.length, (adds ev).1⟩]) G.length ⟨⟨t, op, ev⟩, pos n, led.length⟩) →
          ∃ G' pos' pend' led', LR (log ++ [⟨t, op, ev⟩]) asked (s.update t c' ⟨heldAfter (some op) a (s.thr t).held, a.doing⟩) G' pos' pend' led' := by
        intro n e hm hsame hn hk ha hd hrow
        have hb := h.books.same hsame
        obtain ⟨h1, row, h2, h3⟩ := hb.mem n e hm
        have hlt := hb.pos_lt hm
        refine ⟨_, pos, pend, _, h.next hcc (map_snoc h.log _ _ _) (hb.event ⟨t, op, ev⟩ (pos n) (Nat.le_of_lt hlt) (hrow row h2 h3 hlt)
          (fun k hk' => by rw [hk k hk']; exact ⟨rfl, h1⟩) hf.1 (fun _ _ _ _ => ha)) h.snoc_le (.event rfl (fun _ _ => rfl) hsame.1) (fun i hi => ⟨rfl, rfl⟩) ?_⟩
        simp only [hd]; exact hp
      -- an event without entry
      have alone : SameC s.cache c' → (∀ k, ¬ (gives ev = some k ∨ uses ev.q = some k)) → a.doing = .idle →
          RowOk (G ++ [⟨⟨t, op, ev⟩, G.length, led.length⟩]) (led ++ [⟨G.length, led.length, (adds ev).1⟩]) G.length ⟨⟨t, op, ev⟩, G.length, led.length⟩ →
          ∃ G' pos' pend' led', LR (log ++ [⟨t, op, ev⟩]) asked (s.update t c' ⟨heldAfter (some op) a (s.thr t).held, a.doing⟩) G' pos' pend' led' := by
        intro hsame hn hd hrow
        have hb := h.books.same hsame
        refine ⟨_, pos, pend, _, h.next hcc (map_snoc h.log _ _ _) (hb.event ⟨t, op, ev⟩ G.length (Nat.le_refl _) hrow
          (fun k hk' => absurd hk' (hn k)) hf.1 (fun n e hm hpn => ?_)) h.snoc_le (.event rfl (fun _ _ => rfl) hsame.1) (fun i hi => ⟨rfl, rfl⟩) ?_⟩
        · exact absurd (hb.pos_lt hm) (by omega)
        · simp only [hd]; exact hp
      cases hsp <;> first | (cases hx; done) | skip
      case findNone clk id hsame =>
        cases hx; cases hev
        refine alone hsame (by rintro k (hk | hk) <;> cases hk) rfl ?_
        constructor <;> intros <;> first | rfl | (rename_i hr; cases hr)
      case find clk id n e hid hsame hm =>
        cases hx
        simp only [recordOf, hm, Option.map_some] at hev
        cases hev
        refine about n e hm hsame (.inl rfl) (by rintro k (hk | hk) <;> cases hk; rfl) rfl rfl ?_
        intro row hrow hst hlt
        constructor
        · intro hh; cases hh
        · intro id' f k b hr
          cases hr
          exact ⟨hlt, row, getElem?_append_some hrow, by rw [hst.stores, hid]⟩
        all_goals intros; rename_i hr; cases hr
      case putEncNone env id m b k ctx hsame =>
        cases hx; cases hev
        refine alone hsame (by rintro k (hk | hk) <;> cases hk) rfl ?_
        constructor <;> intros <;> first | rfl | (rename_i hr; cases hr)
      case putDecNone env id m hsame =>
        cases hx; cases hev
        refine alone hsame (by rintro k (hk | hk) <;> cases hk) rfl ?_
        constructor <;> intros <;> first | rfl | (rename_i hr; cases hr)
      case putEnc env id m b k ctx now km hfree hclk hkey hnx hm hold =>
        cases hx; cases hev
        refine ⟨_, _, pend, _, h.next hcc (map_snoc h.log _ _ _) (h.books.put ⟨t, _, _⟩ hfree hnx rfl rfl hm ?_ hf.1 rfl hold)
          (fun n => by have := h.le n; simp only [List.length_append, List.length_singleton]; split <;> omega) (.event rfl (fun n hn => if_neg (by omega)) (Nat.le_of_lt hnx)) (fun i hi => ⟨rfl, rfl⟩) hp⟩
        refine ⟨rfl, rfl, hclk, ?_, ?_⟩
        · intro m' ctx' hh
          cases hh
          exact ⟨hf.2.1 _ _ _ _ _ _ rfl, _, _, _, _, _, rfl, rfl, env, rfl, hkey⟩
        · intro m' hh; cases hh
      case putDec env id m now km hfree hclk hkey hnx hm hold =>
        cases hx; cases hev
        refine ⟨_, _, pend, _, h.next hcc (map_snoc h.log _ _ _) (h.books.put ⟨t, _, _⟩ hfree hnx rfl rfl hm ?_ hf.1 rfl hold)
          (fun n => by have := h.le n; simp only [List.length_append, List.length_singleton]; split <;> omega) (.event rfl (fun n hn => if_neg (by omega)) (Nat.le_of_lt hnx)) (fun i hi => ⟨rfl, rfl⟩) hp⟩
        refine ⟨rfl, rfl, hclk, ?_, ?_⟩
        · intro m' ctx' hh; cases hh
        · intro m' hh
          cases hh
          exact ⟨_, _, _, rfl, rfl, env, rfl, hkey⟩
      case useFail n b m e hm =>
        cases hx; cases hev
        refine about n e hm (.refl _) (.inr rfl) (by rintro k (hk | hk) <;> cases hk; rfl) rfl rfl ?_
        intro row hrow hst hlt
        constructor <;> intros <;> first | (rename_i hr; cases hr)
      case getEncFail env n ctx ctx' x e hm hctx =>
        cases hx; cases hev
        refine about n e hm (.refl _) (.inr rfl) (by rintro k (hk | hk) <;> cases hk; rfl) rfl rfl ?_
        intro row hrow hstd hlt
        constructor
        case maps =>
          intro n' c1 c2 m' hr
          cases hr
          refine ⟨env, rfl, ?_⟩
          rcases hctx with rfl | hcl | ⟨m, ectx, hmat, rfl⟩
          · exact .inr (hf.2.2 _ _ _ rfl)
          · exact .inl hcl
          · exact .inr (encCtxClone_spec (hf.2.2 _ _ _ rfl) (hstd.enc m ectx hmat).1).1
        all_goals (intros; rename_i hr; cases hr)
      case getEnc env n ctx e m ectx sc hm hmat hsc =>
        cases hx; cases hev
        refine about n e hm (.refl _) (.inr rfl) (by rintro k (hk | hk) <;> cases hk; rfl) rfl rfl ?_
        intro row hrow hst hlt
        obtain ⟨hdk, id, m0, b, k, o, hre, hme, penv, hop, hkey⟩ := hst.enc m ectx hmat
        constructor
        case enc =>
          intro n' c1 c2 m' hr
          cases hr
          refine ⟨row, id, m0, b, k, ectx, o, getElem?_append_some hrow, hre, ?_⟩
          subst hme
          exact ⟨rfl, rfl, rfl, rfl, (encCtxClone_spec (hf.2.2 _ _ _ rfl) hdk).2⟩
        case signer =>
          intro n' c1 c2 m' hr
          cases hr
          subst hme
          exact ⟨row, id, m0, b, k, ectx, env, penv, e.keyMat, getElem?_append_some hrow, hop, rfl, hkey, hsc⟩
        case maps =>
          intro n' c1 c2 m' hr
          cases hr
          exact ⟨env, rfl, .inr (encCtxClone_spec (hf.2.2 _ _ _ rfl) hdk).1⟩
        all_goals (intros; rename_i hr; cases hr)
      case getDecFail env n x e hm =>
        cases hx; cases hev
        refine about n e hm (.refl _) (.inr rfl) (by rintro k (hk | hk) <;> cases hk; rfl) rfl rfl ?_
        intro row hrow hst hlt
        constructor <;> intros <;> first | (rename_i hr; cases hr)
      case getDec env n e m sc hm hmat hsc =>
        cases hx; cases hev
        refine about n e hm (.refl _) (.inr rfl) (by rintro k (hk | hk) <;> cases hk; rfl) rfl rfl ?_
        intro row hrow hst hlt
        obtain ⟨id, m0, o, hre, hme, penv, hop, hkey⟩ := hst.dec m hmat
        constructor
        case dec =>
          intro n' m' hr
          cases hr
          refine ⟨row, id, m0, o, getElem?_append_some hrow, hre, ?_⟩
          subst hme
          exact ⟨rfl, rfl, rfl⟩
        case verifier =>
          intro n' m' hr
          cases hr
          subst hme
          exact ⟨row, id, m0, env, penv, e.keyMat, getElem?_append_some hrow, hop, rfl, hkey, hsc⟩
        all_goals (intros; rename_i hr; cases hr)
      case created n e hm =>
        cases hx; cases hev
        refine about n e hm (.refl _) (.inr rfl) (by rintro k (hk | hk) <;> cases hk; rfl) rfl rfl ?_
        intro row hrow hst hlt
        constructor
        case creation =>
          intro n' y hr
          cases hr
          exact ⟨row, getElem?_append_some hrow, hst.clock⟩
        all_goals (intros; rename_i hr; cases hr)
      case hintFast n x push e hm =>
        cases hx; cases hev
        refine about n e hm (.refl _) (.inr rfl) (by rintro k (hk | hk) <;> cases hk; rfl) rfl rfl ?_
        intro row hrow hst hlt
        constructor <;> intros <;> first | (rename_i hr; cases hr)
      case clear hsame => cases hx; cases hev
      case count k => cases hx; cases hev
  · cases hmv

/-- A later step with which the call does not return. -/
theorem LR.goes (h : LR log asked s G pos pend led) {t : Nat} {s' : Conc} (hs : s.step t .go = some (.ok (s', none))) :
    ∃ G' pos' pend' led', LR log asked s' G' pos' pend' led' := by
  rcases h.cc.step hs with ⟨s2, x, he, hcc, hk⟩ | ⟨n, -, -, -, -, he⟩
  · cases he
    generalize hx : (none : Option CacheResult) = x at hk
    cases hk with
    | @go c' a ht hidle hl hst hz1 hz2 hz3 =>
      clear hz1 hz2 hz3
      have hsp := resume_spec hidle hst
      have hd := h.doing t ht
      generalize hdo : (s.thr t).doing = p at hsp hd
      cases hsp <;> first | (cases hx; done) | skip
      case addBytes n b m e hm =>
        obtain ⟨ha, hp⟩ := hd
        obtain ⟨hb, hsum, row, hrow, htime⟩ := h.books.addBytes (bytes := b) ht hp hm
        refine ⟨G, pos, _, _, h.next hcc h.log hb h.le ⟨fun _ _ h => h, fun _ _ => rfl, by simp, fun _ _ h => sumTo_snoc (u := ⟨_, led.length, _⟩) h, Nat.le_refl _⟩
          (fun i hi => ⟨setPend_other hi _, rfl⟩) ?_⟩
        rw [setPend_same]
        exact ⟨(h.entry hm).1, b, led.length, row, ha, rfl, by simp, hsum, hrow, htime⟩
      case relLockWait n hsame =>
        exact ⟨G, pos, pend, led, h.next hcc h.log (h.books.same hsame) h.le (.more hsame.1) (fun i hi => ⟨rfl, rfl⟩)
          ⟨hd.1, hd.2.1, Nat.lt_of_lt_of_le hd.2.2 hsame.1⟩⟩
  · cases he

/-- A later step with which the call returns. -/
theorem LR.ends (h : LR log asked s G pos pend led) {t : Nat} {s' : Conc} {op : CacheOp} {r : CacheResult} {ev : CacheEvent Nat}
    (ha : asked t = some op) (hs : s.step t .go = some (.ok (s', some r))) (hev : recordOf s'.cache op r = some ev) :
    ∃ G' pos' pend' led', LR (log ++ [⟨t, op, ev⟩]) (setAsked asked t none) s' G' pos' pend' led' := by
  rcases h.cc.step hs with ⟨s2, x, he, hcc, hk⟩ | ⟨n, -, -, -, -, he⟩
  · cases he
    generalize hx : some r = x at hk
    cases hk with
    | @go c' a ht hidle hl hst hz1 hz2 hz3 =>
      clear hz1 hz2 hz3
      have hsp := resume_spec hidle hst
      have hd := h.doing t ht
      have hc : (s.update t c' ⟨heldAfter none a (s.thr t).held, a.doing⟩).cache = c' := rfl
      rw [hc] at hev
      generalize hdo : (s.thr t).doing = p at hsp hd
      -- an event that adds nothing
      have about : ∀ (n : Nat), n < s.cache.next → SameC s.cache c' → pend t = none → a.doing = .idle → gives ev = none → uses ev.q = some n →
          adds ev = (0, 0) → clockOf op = none → (∀ e0 : Nat,
            RowOk (G ++ [⟨⟨t, op, ev⟩, e0, led.length⟩]) (led ++ [⟨e0, led.length, (adds ev).1⟩]) G.length ⟨⟨t, op, ev⟩, e0, led.length⟩) →
          ∃ G' pos' pend' led', LR (log ++ [⟨t, op, ev⟩]) (setAsked asked t none) (s.update t c' ⟨heldAfter none a (s.thr t).held, a.doing⟩) G' pos' pend' led' := by
        intro n hn hsame hp hi hg hu hadd hclk hrow
        have hb := h.books.same hsame
        refine ⟨_, pos, pend, _, h.next hcc (map_snoc h.log _ _ _) (hb.event ⟨t, op, ev⟩ (pos n) (h.le n) (hrow _) ?_ ?_ (fun _ _ _ _ => hadd)) h.snoc_le
          (.event rfl (fun _ _ => rfl) hsame.1) (fun i hi => ⟨rfl, setAsked_other hi _⟩) ?_⟩
        · intro k hk
          simp only at hk
          rw [hg, hu] at hk
          rcases hk with hk | hk
          · cases hk
          · cases hk; exact ⟨rfl, Nat.lt_of_lt_of_le hn hsame.1⟩
        · intro y hy
          simp only at hy
          rw [hclk] at hy; cases hy
        · simp only [hi]; exact hp
      cases hsp <;> first | (cases hx; done) | skip
      case addMessages n sum m e hm =>
        obtain ⟨hn, b, o, row, h1, h2, h3, h4, h5, h6⟩ := hd
        rw [ha] at h1
        cases h1
        cases hx; cases hev
        refine ⟨_, pos, _, led, h.next hcc (map_snoc h.log _ _ _) (h.books.addMessages (op := .use n b m) ht h2 hm rfl h3 h4 h5 h6) h.snoc_le
          ⟨fun _ _ hh => getElem?_append_some hh, fun _ _ => rfl, Nat.le_refl _, fun _ _ _ => rfl, Nat.le_refl _⟩
          (fun i hi => ⟨setPend_other hi _, setAsked_other hi _⟩) (setPend_same t none)⟩
      case hint n x push hsame =>
        obtain ⟨h1, h2, h3⟩ := hd
        rw [ha] at h1
        cases h1
        cases hx; cases hev
        exact about n h3 hsame h2 rfl rfl rfl rfl rfl (fun e0 => by constructor <;> intros <;> rename_i hr <;> cases hr)
      case relPlain n hsame =>
        obtain ⟨inv, h1, h2, h3⟩ := hd
        rw [ha] at h1
        cases h1
        cases hx; cases hev
        exact about n h3 hsame h2 rfl rfl rfl rfl rfl (fun e0 => by constructor <;> intros <;> rename_i hr <;> cases hr)
      case relLock n hsame =>
        obtain ⟨h1, h2, h3⟩ := hd
        rw [ha] at h1
        cases h1
        cases hx; cases hev
        exact about n h3 hsame h2 rfl rfl rfl rfl rfl (fun e0 => by constructor <;> intros <;> rename_i hr <;> cases hr)
      case relHeld n hsame =>
        obtain ⟨h1, h2, h3⟩ := hd
        rw [ha] at h1
        cases h1
        cases hx; cases hev
        exact about n h3 hsame h2 rfl rfl rfl rfl rfl (fun e0 => by constructor <;> intros <;> rename_i hr <;> cases hr)
  · cases he

end

theorem LR.new (addr : Nat → Nat) (cap num : Nat) : LR [] (fun _ => none) (concNew addr cap num) [] (fun _ => 0) (fun _ => none) [] where
  cc := CC.new addr cap num
  log := rfl
  books := Books.new addr cap num
  le := fun _ => Nat.le_refl _
  doing := fun _ _ => rfl

theorem Conc.step_num {s s' : Conc} {t : Nat} {mv : Move} {r : Option CacheResult} (hs : s.step t mv = some (.ok (s', r))) : s'.num = s.num := by
  have fin : ∀ op x, s.finish t op x = .ok (s', r) → s'.num = s.num := by
    intro op x hx
    unfold Conc.finish at hx
    split at hx
    · cases hx
    · cases hx; rfl
  unfold Conc.step at hs
  split at hs
  all_goals
    split at hs
    · injection hs with hs; exact fin _ _ hs
    · cases hs

theorem LocalRuns.lr {sha : Bytes → Bytes} {calls : List AnyCall} {addr : Nat → Nat} {cap num : Nat} {log : List LocalEvent}
    {asked : Nat → Option CacheOp} {s : Conc} (h : LocalRuns sha calls addr cap num log asked s) :
    s.num = num ∧ ∃ G pos pend led, LR log asked s G pos pend led := by
  induction h with
  | new => exact ⟨rfl, _, _, _, _, LR.new _ _ _⟩
  | begins _ hask hs ih =>
    obtain ⟨hn, G, pos, pend, led, h⟩ := ih
    obtain ⟨-, call, q, -, hq, -⟩ := hask
    exact ⟨by rw [← hn, Proof.Conc.step_num hs], h.begins (by rw [hq]; exact nofun) hs⟩
  | returns _ hask hs hev ih =>
    obtain ⟨hn, G, pos, pend, led, h⟩ := ih
    exact ⟨by rw [← hn, Proof.Conc.step_num hs], h.returns hask.1 hs hev⟩
  | goes _ hs ih =>
    obtain ⟨hn, G, pos, pend, led, h⟩ := ih
    exact ⟨by rw [← hn, Proof.Conc.step_num hs], h.goes hs⟩
  | ends _ ha hs hev ih =>
    obtain ⟨hn, G, pos, pend, led, h⟩ := ih
    exact ⟨by rw [← hn, Proof.Conc.step_num hs], h.ends ha hs hev⟩
  | other _ hq hs ih =>
    obtain ⟨hn, G, pos, pend, led, h⟩ := ih
    exact ⟨by rw [← hn, Proof.Conc.step_num hs], h.other hq hs⟩

end Verif.Proof
