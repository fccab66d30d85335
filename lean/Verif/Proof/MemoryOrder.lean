import Verif.Spec.MemoryOrder
/-
Counting references along the modification order.
-/
namespace Verif.Proof.MemoryOrder
open Verif.MemoryOrder Verif.Spec.MemoryOrder

/-- `Up` and `Down` as tests. -/
def isUp (x : Exec) (a : Nat) : Bool := match x.site a with | some s => s.adds | none => false
def isDown (x : Exec) (a : Nat) : Bool := match x.site a with | some s => !s.adds | none => false

theorem isUp_iff {x : Exec} {a : Nat} : isUp x a = true ↔ x.Up a := by
  unfold isUp Exec.Up
  cases x.site a <;> simp

theorem isDown_iff {x : Exec} {a : Nat} : isDown x a = true ↔ x.Down a := by
  unfold isDown Exec.Down
  cases x.site a <;> simp

def ups (x : Exec) (l : List Nat) : List Nat := l.filter (isUp x)
def downs (x : Exec) (l : List Nat) : List Nat := l.filter (isDown x)

theorem site_of_mem {x : Exec} (hc : x.Consistent) {a : Nat} (h : a ∈ x.mo) : ∃ s, x.site a = some s := by
  obtain ⟨s, o, h⟩ := (hc.all a).mp h
  exact ⟨s, by simp [Exec.site, h]⟩

theorem mem_of_site {x : Exec} (hc : x.Consistent) {a : Nat} {s : Site} (h : x.site a = some s) : a ∈ x.mo := by
  apply (hc.all a).mpr
  unfold Exec.site at h
  split at h
  · rename_i s' o he; exact ⟨s', o, he⟩
  · cases h

theorem up_mem {x : Exec} (hc : x.Consistent) {a : Nat} (h : x.Up a) : a ∈ x.mo := mem_of_site hc h.choose_spec.1
theorem down_mem {x : Exec} (hc : x.Consistent) {a : Nat} (h : x.Down a) : a ∈ x.mo := mem_of_site hc h.choose_spec.1

theorem not_up_down {x : Exec} {a : Nat} (h : x.Up a) (k : x.Down a) : False := by
  obtain ⟨s, h1, h2⟩ := h
  obtain ⟨t, k1, k2⟩ := k
  rw [h1] at k1
  cases k1
  rw [h2] at k2
  cases k2

theorem getElem_inj {l : List Nat} (h : l.Nodup) {i j : Nat} {hi : i < l.length} {hj : j < l.length} (e : l[i] = l[j]) : i = j := by
  rcases Nat.lt_trichotomy i j with hlt | rfl | hlt
  · exact absurd e (List.pairwise_iff_getElem.mp h i j hi hj hlt)
  · rfl
  · exact absurd e.symm (List.pairwise_iff_getElem.mp h j i hj hi hlt)

/-- Position and prefix. -/
theorem before_mem_take {x : Exec} (hc : x.Consistent) {a b : Nat} {j : Nat} (h : x.Before a b) (hj : x.mo[j]? = some b) : a ∈ x.mo.take j := by
  obtain ⟨i, k, hik, hi, hk⟩ := h
  obtain ⟨hk', ek⟩ := List.getElem?_eq_some_iff.mp hk
  obtain ⟨hj', ej⟩ := List.getElem?_eq_some_iff.mp hj
  have : k = j := getElem_inj hc.nodup (ek.trans ej.symm)
  subst this
  obtain ⟨hi', ei⟩ := List.getElem?_eq_some_iff.mp hi
  exact List.mem_take_iff_getElem.mpr ⟨i, by omega, ei⟩

theorem not_before_of_take {x : Exec} (hc : x.Consistent) {a b : Nat} {j : Nat} (h : x.Before a b) (hj : x.mo[j]? = some a) : b ∉ x.mo.take (j + 1) := by
  obtain ⟨i, k, hik, hi, hk⟩ := h
  obtain ⟨hk', ek⟩ := List.getElem?_eq_some_iff.mp hk
  obtain ⟨hj', ej⟩ := List.getElem?_eq_some_iff.mp hj
  obtain ⟨hi', ei⟩ := List.getElem?_eq_some_iff.mp hi
  have : i = j := getElem_inj hc.nodup (ei.trans ej.symm)
  subst this
  intro hb
  obtain ⟨m, hm, em⟩ := List.mem_take_iff_getElem.mp hb
  have : m = k := getElem_inj hc.nodup (em.trans ek.symm)
  omega

variable {x : Exec} {gave under : Nat → Nat}

theorem make_not_up (hd : x.Disciplined gave under) : ¬ x.Up x.make := by
  rintro ⟨s, h, _⟩
  simp [Exec.site, hd.made.1] at h

/-- A birth that happens before an operation on the count is the making or is in the prefix. -/
theorem birth_in_take (hc : x.Consistent) {r a i : Nat} (hb : x.Birth r) (h : x.HB r a) (hi : x.mo[i]? = some a) :
    r ∈ x.make :: ups x (x.mo.take i) := by
  rcases hb with rfl | hu
  · exact List.mem_cons_self
  · have ha : a ∈ x.mo := List.mem_of_getElem? hi
    have := before_mem_take hc (hc.coherent r a (up_mem hc hu) ha h) hi
    exact List.mem_cons_of_mem _ (List.mem_filter.mpr ⟨this, isUp_iff.mpr hu⟩)

theorem take_mono {l : List Nat} {a i j : Nat} (hij : i ≤ j) (h : a ∈ l.take i) : a ∈ l.take j := by
  obtain ⟨k, hk, e⟩ := List.mem_take_iff_getElem.mp h
  exact List.mem_take_iff_getElem.mpr ⟨k, by omega, e⟩

/-- Downs of a prefix give up different references born in it. -/
theorem gave_subset (hc : x.Consistent) (hd : x.Disciplined gave under) (i : Nat) :
    (downs x (x.mo.take i)).map gave ⊆ x.make :: ups x (x.mo.take i) := by
  intro r hr
  obtain ⟨d, hdm, rfl⟩ := List.mem_map.mp hr
  obtain ⟨hdt, hdd⟩ := List.mem_filter.mp hdm
  obtain ⟨k, hk, e⟩ := List.mem_take_iff_getElem.mp hdt
  have hdd := isDown_iff.mp hdd
  have hg := hd.gives d hdd
  have := birth_in_take hc hg.1 hg.2 (i := k) (List.getElem?_eq_some_iff.mpr ⟨by omega, e⟩)
  rcases List.mem_cons.mp this with h | h
  · rw [h]; exact List.mem_cons_self
  · obtain ⟨h1, h2⟩ := List.mem_filter.mp h
    exact List.mem_cons_of_mem _ (List.mem_filter.mpr ⟨take_mono (by omega) h1, h2⟩)

theorem gave_nodup (hc : x.Consistent) (hd : x.Disciplined gave under) (i : Nat) : ((downs x (x.mo.take i)).map gave).Nodup := by
  have hn : (downs x (x.mo.take i)).Nodup := List.Pairwise.filter _ (List.Pairwise.sublist (List.take_sublist _ _) hc.nodup)
  unfold List.Nodup at hn ⊢
  rw [List.pairwise_map]
  refine List.Pairwise.imp_of_mem ?_ hn
  intro a b ha hb hne e
  exact hne (hd.once a b (isDown_iff.mp (List.mem_filter.mp ha).2) (isDown_iff.mp (List.mem_filter.mp hb).2) e)

theorem downs_le (hc : x.Consistent) (hd : x.Disciplined gave under) (i : Nat) :
    (downs x (x.mo.take i)).length ≤ (ups x (x.mo.take i)).length + 1 := by
  have := List.Nodup.length_le_of_subset (gave_nodup hc hd i) (gave_subset hc hd i)
  simpa using this

theorem take_succ_at {l : List Nat} {a i : Nat} (h : l[i]? = some a) : l.take (i + 1) = l.take i ++ [a] := by
  rw [List.take_add_one, h]; rfl

/-- Whoever operates on the count finds a reference that is not given up. -/
theorem downs_lt (hc : x.Consistent) (hd : x.Disciplined gave under) {i a : Nat} (hi : x.mo[i]? = some a) :
    (downs x (x.mo.take i)).length < (ups x (x.mo.take i)).length + 1 := by
  have ha : a ∈ x.mo := List.mem_of_getElem? hi
  obtain ⟨s, hs⟩ := site_of_mem hc ha
  cases hadd : s.adds with
  | false =>
    have hdn : x.Down a := ⟨s, hs, hadd⟩
    have h1 := downs_le hc hd (i + 1)
    rw [take_succ_at hi] at h1
    have hu : isUp x a = false := by simp [isUp, hs, hadd]
    have hw : isDown x a = true := isDown_iff.mpr hdn
    simp only [downs, ups, List.filter_append, List.filter_cons, hu, hw, List.filter_nil, List.length_append, if_true, Bool.false_eq_true, if_false,
      List.length_cons, List.length_nil] at h1 ⊢
    omega
  | true =>
    have hup : x.Up a := ⟨s, hs, hadd⟩
    obtain ⟨hb, hh, hg⟩ := hd.owner a (.inr hup)
    have hin := birth_in_take hc hb hh hi
    have hni : under a ∉ (downs x (x.mo.take i)).map gave := by
      intro hm
      obtain ⟨d, hdm, e⟩ := List.mem_map.mp hm
      obtain ⟨hdt, hdd⟩ := List.mem_filter.mp hdm
      have hdd := isDown_iff.mp hdd
      have := not_before_of_take hc (hc.coherent a d ha (down_mem hc hdd) (hg d hdd e)) hi
      exact this (take_mono (by omega) hdt)
    have := List.Nodup.length_le_of_subset (List.nodup_cons.mpr ⟨hni, gave_nodup hc hd i⟩) (l₂ := x.make :: ups x (x.mo.take i))
      (List.cons_subset.mpr ⟨hin, gave_subset hc hd i⟩)
    simp only [List.length_cons, List.length_map] at this
    omega

theorem ups_le (x : Exec) (i : Nat) : (ups x (x.mo.take i)).length ≤ i :=
  Nat.le_trans (List.length_filter_le _ _) (by rw [List.length_take]; omega)

/-- The count is the number of references. -/
theorem countAfter_eq (hc : x.Consistent) (hd : x.Disciplined gave under) (hr : x.InRange) (i : Nat) (hi : i ≤ x.mo.length) :
    x.countAfter (x.mo.take i) + (downs x (x.mo.take i)).length = (ups x (x.mo.take i)).length + 1 := by
  induction i with
  | zero => rfl
  | succ i ih =>
    have ih := ih (by omega)
    have hget : x.mo[i]? = some (x.mo[i]'(by omega)) := List.getElem?_eq_getElem (by omega)
    generalize x.mo[i]'(by omega) = a at hget
    have hlt := downs_lt hc hd hget
    have hul := ups_le x i
    unfold Exec.InRange at hr
    obtain ⟨s, hs⟩ := site_of_mem hc (List.mem_of_getElem? hget)
    rw [take_succ_at hget]
    generalize x.mo.take i = l at ih hlt hul
    have hstep : x.countAfter (l ++ [a]) = s.apply (x.countAfter l) := by
      simp only [Exec.countAfter, List.foldl_append, List.foldl_cons, List.foldl_nil, hs]
    rw [hstep]
    cases hadd : s.adds with
    | true =>
      have hu : isUp x a = true := by simp [isUp, hs, hadd]
      have hw : isDown x a = false := by simp [isDown, hs, hadd]
      simp only [downs, ups, List.filter_append, List.filter_cons, hu, hw, List.filter_nil, List.length_append, if_true, Bool.false_eq_true, if_false,
        List.length_cons, List.length_nil, Site.apply, hadd] at ih hlt hul ⊢
      rw [Nat.mod_eq_of_lt (by omega)]
      omega
    | false =>
      have hu : isUp x a = false := by simp [isUp, hs, hadd]
      have hw : isDown x a = true := by simp [isDown, hs, hadd]
      simp only [downs, ups, List.filter_append, List.filter_cons, hu, hw, List.filter_nil, List.length_append, if_true, Bool.false_eq_true, if_false,
        List.length_cons, List.length_nil, Site.apply, hadd] at ih hlt hul ⊢
      omega

theorem index_lt {l : List Nat} {a i : Nat} (h : l[i]? = some a) : i < l.length := (List.getElem?_eq_some_iff.mp h).1

/-- Every operation reads at least one. -/
theorem reads_pos (hc : x.Consistent) (hd : x.Disciplined gave under) (hr : x.InRange) {a v : Nat} (h : x.Reads a v) : 0 < v := by
  obtain ⟨i, hi, rfl⟩ := h
  have := countAfter_eq hc hd hr i (by have := index_lt hi; omega)
  have := downs_lt hc hd hi
  omega

/-- A subtraction that reads one is the last operation. -/
theorem last_of_one (hc : x.Consistent) (hd : x.Disciplined gave under) (hr : x.InRange) {d i : Nat} (hdn : x.Down d) (hi : x.mo[i]? = some d)
    (h1 : x.countAfter (x.mo.take i) = 1) : i + 1 = x.mo.length := by
  have hl := index_lt hi
  by_cases hne : i + 1 = x.mo.length
  · exact hne
  · exfalso
    have hget : x.mo[i + 1]? = some (x.mo[i + 1]'(by omega)) := List.getElem?_eq_getElem (by omega)
    have hp := reads_pos hc hd hr ⟨i + 1, hget, rfl⟩
    obtain ⟨s, hs, hadd⟩ := hdn
    rw [take_succ_at hi] at hp
    have : x.countAfter (x.mo.take i ++ [d]) = s.apply (x.countAfter (x.mo.take i)) := by
      simp only [Exec.countAfter, List.foldl_append, List.foldl_cons, List.foldl_nil, hs]
    rw [this, h1] at hp
    simp [Site.apply, hadd] at hp

/-- Then every reference has been given up. -/
theorem all_given (hc : x.Consistent) (hd : x.Disciplined gave under) (hr : x.InRange) {d i : Nat} (hdn : x.Down d) (hi : x.mo[i]? = some d)
    (h1 : x.countAfter (x.mo.take i) = 1) {r : Nat} (hb : x.Birth r) : ∃ d', x.Down d' ∧ gave d' = r := by
  have hl := last_of_one hc hd hr hdn hi h1
  have he := countAfter_eq hc hd hr i (by omega)
  have hall : x.mo.take (i + 1) = x.mo := by rw [hl]; exact List.take_length
  have hu : isUp x d = false := by
    cases h : isUp x d with
    | false => rfl
    | true => exact absurd hdn (fun k => not_up_down (isUp_iff.mp h) k)
  have hw : isDown x d = true := isDown_iff.mpr hdn
  have hlen : (downs x (x.mo.take (i + 1))).length = (x.make :: ups x (x.mo.take (i + 1))).length := by
    rw [take_succ_at hi]
    simp only [downs, ups, List.filter_append, List.filter_cons, hu, hw, List.filter_nil, List.length_append, if_true, Bool.false_eq_true, if_false,
      List.length_cons, List.length_nil] at he ⊢
    omega
  have hmem : r ∈ x.make :: ups x (x.mo.take (i + 1)) := by
    rcases hb with rfl | hup
    · exact List.mem_cons_self
    · rw [hall]; exact List.mem_cons_of_mem _ (List.mem_filter.mpr ⟨up_mem hc hup, isUp_iff.mpr hup⟩)
  by_cases hin : r ∈ (downs x (x.mo.take (i + 1))).map gave
  · obtain ⟨d', h, e⟩ := List.mem_map.mp hin
    exact ⟨d', isDown_iff.mp (List.mem_filter.mp h).2, e⟩
  · have := List.Nodup.length_le_of_subset (List.nodup_cons.mpr ⟨hin, gave_nodup hc hd (i + 1)⟩) (l₂ := x.make :: ups x (x.mo.take (i + 1)))
      (List.cons_subset.mpr ⟨hmem, gave_subset hc hd (i + 1)⟩)
    rw [List.length_cons, List.length_map, hlen] at this
    omega

/-- A subtraction other than the last comes before it. -/
theorem before_last {d i : Nat} (hi : x.mo[i]? = some d) (hl : i + 1 = x.mo.length) {a : Nat} (ha : a ∈ x.mo) (hne : a ≠ d) :
    x.Before a d := by
  obtain ⟨j, hj, e⟩ := List.getElem_of_mem ha
  refine ⟨j, i, ?_, List.getElem?_eq_some_iff.mpr ⟨hj, e⟩, hi⟩
  rcases Nat.lt_or_ge j i with h | h
  · exact h
  · exfalso
    have : j = i := by omega
    subst this
    rw [List.getElem?_eq_some_iff] at hi
    exact hne (e.symm.trans hi.2)

/-- If the subtractions are ordered, the one that reads one comes after everything that touches the object. -/
theorem touches_before (hc : x.Consistent) (hd : x.Disciplined gave under) (hr : x.InRange)
    (hord : ∀ d d', x.Down d → x.Down d' → x.Before d d' → x.HB d d') {d v : Nat} (hdn : x.Down d) (hrd : x.Reads d v) (hv : destroysAt v = true)
    {a : Nat} (ha : x.Touches a) : a = d ∨ x.HB a d := by
  obtain ⟨i, hi, rfl⟩ := hrd
  have h1 : x.countAfter (x.mo.take i) = 1 := by simpa [destroysAt] using hv
  have hl := last_of_one hc hd hr hdn hi h1
  have hdown : ∀ d', x.Down d' → d' = d ∨ x.HB d' d := by
    intro d' h
    by_cases e : d' = d
    · exact .inl e
    · exact .inr (hord d' d h hdn (before_last hi hl (down_mem hc h) e))
  have hvia : ∀ {r : Nat}, x.Birth r → (∀ d', x.Down d' → gave d' = r → x.HB a d') → x.HB a d := by
    intro r hb hg
    obtain ⟨d', hd', e⟩ := all_given hc hd hr hdn hi h1 hb
    rcases hdown d' hd' with rfl | h
    · exact hg _ hd' e
    · exact (hg d' hd' e).trans h
  rcases ha with ha | ha | ha
  · have : a = x.make := hd.made.2 a ha
    subst this
    refine .inr (hvia (.inl rfl) fun d' h e => ?_)
    rw [← e]; exact (hd.gives d' h).2
  · obtain ⟨hb, _, hg⟩ := hd.owner a (.inl ha)
    exact .inr (hvia hb hg)
  · obtain ⟨s, hs⟩ := site_of_mem hc ha
    cases hadd : s.adds with
    | true =>
      obtain ⟨hb, _, hg⟩ := hd.owner a (.inr ⟨s, hs, hadd⟩)
      exact .inr (hvia hb hg)
    | false => exact hdown a ⟨s, hs, hadd⟩

end Verif.Proof.MemoryOrder
