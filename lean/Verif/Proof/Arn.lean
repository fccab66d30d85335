import Verif.Spec.Kms
/-
Lemmas on resource names.
-/
namespace Verif
open Verif.Spec

theorem cutAt_iff {c : UInt8} : ∀ {s x y : Bytes}, cutAt c s = some (x, y) ↔ s = x ++ c :: y ∧ c ∉ x
  | [], x, y => by simp [cutAt]
  | b :: bs, x, y => by
    unfold cutAt
    by_cases hb : b = c
    · rw [if_pos hb]
      constructor
      · intro h; cases h; simp [hb]
      · rintro ⟨h, hx⟩
        cases x with
        | nil => simp at h; simp [h.2]
        | cons a x => simp at h; exact absurd (by simp [← h.1, hb]) hx
    · rw [if_neg hb]
      cases hc : cutAt c bs with
      | none =>
        simp only [reduceCtorEq, false_iff]
        rintro ⟨h, hx⟩
        cases x with
        | nil => simp at h; exact hb h.1
        | cons a x =>
          simp at h hx
          rw [cutAt_iff.2 ⟨h.2, hx.2⟩] at hc
          cases hc
      | some xy =>
        obtain ⟨x', y'⟩ := xy
        have := cutAt_iff.1 hc
        constructor
        · intro h; cases h
          refine ⟨by simp [this.1], ?_⟩
          simp only [List.mem_cons, not_or]
          exact ⟨fun h => hb h.symm, this.2⟩
        · rintro ⟨h, hx⟩
          cases x with
          | nil => simp at h; exact absurd h.1 hb
          | cons a x =>
            simp at h hx
            rw [cutAt_iff.2 ⟨h.2, hx.2⟩] at hc
            cases hc
            simp [h.1]

theorem cutAt_none {c : UInt8} {s : Bytes} : cutAt c s = none ↔ c ∉ s := by
  constructor
  · intro h hm
    obtain ⟨x, y, hxy, hx⟩ : ∃ x y, s = x ++ c :: y ∧ c ∉ x := by
      clear h
      induction s with
      | nil => cases hm
      | cons b bs ih =>
        by_cases hb : b = c
        · exact ⟨[], bs, by simp [hb], by simp⟩
        · have : c ∈ bs := by
            cases hm with
            | head => exact absurd rfl hb
            | tail _ h => exact h
          obtain ⟨x, y, h, hx⟩ := ih this
          refine ⟨b :: x, y, by simp [h], ?_⟩
          simp only [List.mem_cons, not_or]
          exact ⟨fun h => hb h.symm, hx⟩
    rw [cutAt_iff.2 ⟨hxy, hx⟩] at h
    cases h
  · intro h
    cases hc : cutAt c s with
    | none => rfl
    | some xy =>
      have := (cutAt_iff (x := xy.1) (y := xy.2)).1 hc
      exact absurd (by simp [this.1]) h

theorem arnParse_iff {s : Bytes} {a : Arn} : arnParse s = some a ↔ IsArn s a.partition a.service a.region a.account a.resource := by
  have e1 : ascii "arn:" = ascii "arn" ++ [colon] := by decide
  have e2 : ascii ":" = [colon] := by decide
  have e3 : colon ∉ ascii "arn" := by decide
  constructor
  · intro h
    unfold arnParse at h
    cases h1 : cutAt colon s with
    | none => rw [h1] at h; cases h
    | some x1 =>
      obtain ⟨x, s1⟩ := x1
      rw [h1] at h
      simp only at h
      cases h2 : cutAt colon s1 with
      | none => rw [h2] at h; cases h
      | some x2 =>
        obtain ⟨p, s2⟩ := x2
        rw [h2] at h
        simp only at h
        cases h3 : cutAt colon s2 with
        | none => rw [h3] at h; cases h
        | some x3 =>
          obtain ⟨v, s3⟩ := x3
          rw [h3] at h
          simp only at h
          cases h4 : cutAt colon s3 with
          | none => rw [h4] at h; cases h
          | some x4 =>
            obtain ⟨r, s4⟩ := x4
            rw [h4] at h
            simp only at h
            cases h5 : cutAt colon s4 with
            | none => rw [h5] at h; cases h
            | some x5 =>
              obtain ⟨acct, res⟩ := x5
              rw [h5] at h
              simp only at h
              by_cases hx : x = ascii "arn"
              · rw [if_pos hx] at h
                cases h
                have := cutAt_iff.1 h1
                have k2 := cutAt_iff.1 h2
                have k3 := cutAt_iff.1 h3
                have k4 := cutAt_iff.1 h4
                have k5 := cutAt_iff.1 h5
                refine ⟨?_, k2.2, k3.2, k4.2, k5.2⟩
                rw [this.1, k2.1, k3.1, k4.1, k5.1, hx, e1, e2]
                simp
              · rw [if_neg hx] at h; cases h
  · rintro ⟨h, hp, hv, hr, ha⟩
    change colon ∉ _ at hp hv hr ha
    rw [e1, e2] at h
    unfold arnParse
    rw [cutAt_iff.2 ⟨by rw [h]; simp; rfl, e3⟩]
    simp only
    rw [cutAt_iff.2 ⟨rfl, hp⟩]
    simp only
    rw [cutAt_iff.2 ⟨rfl, hv⟩]
    simp only
    rw [cutAt_iff.2 ⟨rfl, hr⟩]
    simp only
    rw [cutAt_iff.2 ⟨rfl, ha⟩]
    simp

theorem isArn_parse {s p v r a res : Bytes} (h : IsArn s p v r a res) : arnParse s = some ⟨p, v, r, a, res⟩ := arnParse_iff.2 h

theorem isArn_unique {s p v r a res p' v' r' a' res' : Bytes} (h : IsArn s p v r a res) (h' : IsArn s p' v' r' a' res') :
    p = p' ∧ v = v' ∧ r = r' ∧ a = a' ∧ res = res' := by
  have := (isArn_parse h).symm.trans (isArn_parse h')
  injection this with this
  injection this with h1 h2 h3 h4 h5
  exact ⟨h1, h2, h3, h4, h5⟩

theorem parseRegion_iff {s r : Bytes} (hr : r ≠ []) : parseRegion s = r ↔ HasRegion s r := by
  have e1 : ascii "arn:" = ascii "arn" ++ [colon] := by decide
  have e2 : ascii ":" = [colon] := by decide
  have e3 : colon ∉ ascii "arn" := by decide
  have e4 : ascii ":kms:" = [colon] ++ ascii "kms" ++ [colon] := by decide
  have e5 : colon ∉ ascii "kms" := by decide
  constructor
  · intro h
    unfold parseRegion at h
    cases h1 : cutAt colon s with
    | none => rw [h1] at h; exact absurd h.symm hr
    | some x1 =>
      obtain ⟨x, s1⟩ := x1
      rw [h1] at h
      simp only at h
      by_cases hx : x = ascii "arn"
      · rw [if_neg (by simpa using hx)] at h
        cases h2 : cutAt colon s1 with
        | none => rw [h2] at h; exact absurd h.symm hr
        | some x2 =>
          obtain ⟨p, s2⟩ := x2
          rw [h2] at h
          simp only at h
          cases h3 : cutAt colon s2 with
          | none => rw [h3] at h; exact absurd h.symm hr
          | some x3 =>
            obtain ⟨v, s3⟩ := x3
            rw [h3] at h
            simp only at h
            by_cases hv : v = ascii "kms"
            · rw [if_neg (by simpa using hv)] at h
              cases h4 : cutAt colon s3 with
              | none => rw [h4] at h; exact absurd h.symm hr
              | some x4 =>
                obtain ⟨r', s4⟩ := x4
                rw [h4] at h
                simp only at h
                subst h
                have k1 := cutAt_iff.1 h1
                have k2 := cutAt_iff.1 h2
                have k3 := cutAt_iff.1 h3
                have k4 := cutAt_iff.1 h4
                refine ⟨⟨p, s4, ?_, k2.2⟩, k4.2, hr⟩
                rw [k1.1, k2.1, k3.1, k4.1, hx, hv, e1, e2, e4]
                simp
            · rw [if_pos hv] at h; exact absurd h.symm hr
      · rw [if_pos hx] at h; exact absurd h.symm hr
  · rintro ⟨⟨p, rest, h, hp⟩, hr', _⟩
    change colon ∉ _ at hp hr'
    rw [e1, e2, e4] at h
    unfold parseRegion
    rw [cutAt_iff.2 ⟨by rw [h]; simp; rfl, e3⟩]
    simp only
    rw [if_neg (by simp)]
    rw [cutAt_iff.2 ⟨rfl, hp⟩]
    simp only
    rw [cutAt_iff.2 ⟨rfl, e5⟩]
    simp only
    rw [if_neg (by simp), cutAt_iff.2 ⟨rfl, hr'⟩]

theorem dropWhile_slash (s : Bytes) : ∃ m, s = List.replicate m slash ++ s.dropWhile (· = slash) ∧ (s.dropWhile (· = slash)).head? ≠ some slash := by
  induction s with
  | nil => exact ⟨0, by simp, by simp⟩
  | cons b bs ih =>
    by_cases hb : b = slash
    · obtain ⟨m, h, h'⟩ := ih
      refine ⟨m + 1, ?_, ?_⟩
      · simp only [List.dropWhile_cons, hb, decide_true, if_true, List.replicate_succ, List.cons_append]
        rw [← h]
      · simpa [List.dropWhile_cons, hb] using h'
    · refine ⟨0, ?_, ?_⟩
      · simp [List.dropWhile_cons, hb]
      · simp [List.dropWhile_cons, hb]

theorem dropWhile_replicate (m : Nat) {t : Bytes} (ht : t.head? ≠ some slash) :
    (List.replicate m slash ++ t).dropWhile (· = slash) = t := by
  induction m with
  | zero =>
    cases t with
    | nil => rfl
    | cons b t =>
      have : b ≠ slash := by simpa using ht
      simp [List.dropWhile_cons, this]
  | succ m ih => simpa [List.replicate_succ, List.dropWhile_cons] using ih

theorem splitResource_iff {r t id : Bytes} : splitResource r = some (t, id) ↔ IsResource r t id := by
  constructor
  · intro h
    unfold splitResource at h
    obtain ⟨m, hm, hh⟩ := dropWhile_slash r
    cases hc : cutAt slash (r.dropWhile (· = slash)) with
    | none => rw [hc] at h; cases h
    | some x =>
      obtain ⟨t', rest⟩ := x
      rw [hc] at h
      simp only at h
      by_cases hr : rest.dropWhile (· = slash) = []
      · rw [if_pos hr] at h; cases h
      · rw [if_neg hr] at h
        cases h
        obtain ⟨n, hn, hn'⟩ := dropWhile_slash rest
        have k := cutAt_iff.1 hc
        have hk : t ≠ [] := by
          intro ht
          rw [k.1, ht] at hh
          simp at hh
        refine ⟨⟨m, n, ?_⟩, hk, k.2, hr, hn'⟩
        have e : r = List.replicate m slash ++ (t ++ slash :: (List.replicate n slash ++ rest.dropWhile (· = slash))) := by
          rw [← hn, ← k.1]; exact hm
        refine e.trans ?_
        show _ = List.replicate m slash ++ t ++ List.replicate (n + 1) slash ++ _
        simp [List.replicate_succ]
  · rintro ⟨⟨m, n, h⟩, hk, hs, hi, hh⟩
    change slash ∉ _ at hs
    have hc : r.dropWhile (· = slash) = t ++ slash :: (List.replicate n slash ++ id) := by
      have : r = List.replicate m slash ++ (t ++ slash :: (List.replicate n slash ++ id)) := by
        rw [h]
        show List.replicate m slash ++ t ++ List.replicate (n + 1) slash ++ _ = _
        simp [List.replicate_succ]
      rw [this]
      apply dropWhile_replicate
      cases t with
      | nil => exact absurd rfl hk
      | cons b t =>
        intro he
        simp at he
        exact hs (by rw [he]; exact List.mem_cons_self ..)
    unfold splitResource
    rw [hc, cutAt_iff.2 ⟨rfl, hs⟩]
    simp only
    rw [dropWhile_replicate n hh, if_neg hi]

theorem startsWith_iff {s t : Bytes} : startsWith s t = true ↔ t <+: s := by
  unfold startsWith
  rw [decide_eq_true_iff]
  constructor
  · rintro ⟨_, h⟩; rw [← h]; exact List.take_prefix ..
  · rintro ⟨u, h⟩
    subst h
    simp

theorem isValidKeyArn_iff {s : Bytes} : isValidKeyArn (arnParse s) = true ↔ IsKeyArn s := by
  constructor
  · intro h
    cases ha : arnParse s with
    | none => rw [ha] at h; cases h
    | some a =>
      rw [ha] at h
      unfold isValidKeyArn at h
      simp only at h
      split at h
      · next hc =>
        cases hs : splitResource a.resource with
        | none => rw [hs] at h; cases h
        | some x =>
          obtain ⟨t, id⟩ := x
          rw [hs] at h
          simp only [decide_eq_true_eq] at h
          have hi := arnParse_iff.1 ha
          rw [hc.2.1] at hi
          exact ⟨a.partition, a.region, a.account, a.resource, t, id,
            ⟨hi, List.length_pos_iff.1 hc.1, List.length_pos_iff.1 hc.2.2.1, List.length_pos_iff.1 hc.2.2.2.1, splitResource_iff.1 hs⟩, h.1.symm⟩
      · cases h
  · rintro ⟨p, r, acct, res, t, id, ⟨hi, hp, hr, ha, hres⟩, ht⟩
    rw [isArn_parse hi]
    unfold isValidKeyArn
    simp only
    rw [if_pos ?_]
    · rw [splitResource_iff.2 hres]
      simp only [decide_eq_true_eq]
      exact ⟨ht.symm, List.length_pos_iff.2 hres.2.2.2.1⟩
    · refine ⟨List.length_pos_iff.2 hp, trivial, List.length_pos_iff.2 hr, List.length_pos_iff.2 ha, ?_⟩
      cases hres' : res with
      | nil =>
        obtain ⟨⟨m, n, h⟩, hk, _⟩ := hres
        rw [hres'] at h
        simp at h
      | cons => simp

theorem isMrkArn_iff {s : Bytes} : isMrkArn (arnParse s) = true ↔ ∃ p r a res id, IsMrkArn s p r a res id := by
  have hne : ascii "key" ≠ ascii "alias" := by decide
  constructor
  · intro h
    unfold isMrkArn at h
    by_cases hv : isValidKeyArn (arnParse s) = true
    · rw [if_neg (by simp [hv])] at h
      obtain ⟨p, r, acct, res, t, id, hk, ht⟩ := isValidKeyArn_iff.1 hv
      rw [isArn_parse hk.1] at h
      simp only at h
      rw [splitResource_iff.2 hk.2.2.2.2] at h
      simp only at h
      by_cases h1 : t = ascii "alias"
      · rw [if_pos h1] at h; cases h
      · rw [if_neg h1] at h
        by_cases h2 : t = ascii "key"
        · rw [if_pos h2] at h
          subst h2
          exact ⟨p, r, acct, res, id, hk, startsWith_iff.1 h⟩
        · rw [if_neg h2] at h; cases h
    · rw [if_pos (by simp [hv])] at h; cases h
  · rintro ⟨p, r, acct, res, id, hk, hm⟩
    unfold isMrkArn
    rw [if_neg (by simp [isValidKeyArn_iff.2 ⟨p, r, acct, res, _, id, hk, .inl rfl⟩]), isArn_parse hk.1]
    simp only
    rw [splitResource_iff.2 hk.2.2.2.2]
    simp only
    rw [if_neg hne, if_pos trivial]
    exact startsWith_iff.2 hm

theorem isArn_prefix {s p v r a res : Bytes} (h : IsArn s p v r a res) : ascii "arn:" <+: s := by
  rw [h.1]; simp only [List.append_assoc]; exact List.prefix_append ..

theorem isResource_unique {r t id t' id' : Bytes} (h : IsResource r t id) (h' : IsResource r t' id') : t = t' ∧ id = id' := by
  have := (splitResource_iff.2 h).symm.trans (splitResource_iff.2 h')
  simpa using this

theorem prefix_ne {s : Bytes} {a b : Bytes} (ha : a <+: s) (hb : b <+: s) : a <+: b ∨ b <+: a := List.prefix_or_prefix_of_prefix ha hb

theorem isMrkIdentifier_iff {s : Bytes} : isMrkIdentifier s = true ↔ ∃ id, DenotesMrk s id := by
  have k1 : ¬ (ascii "arn:" <+: ascii "mrk-" ∨ ascii "mrk-" <+: ascii "arn:") := by decide
  have k2 : ¬ (ascii "alias/" <+: ascii "mrk-" ∨ ascii "mrk-" <+: ascii "alias/") := by decide
  unfold isMrkIdentifier
  by_cases h1 : startsWith s (ascii "arn:") = true
  · rw [if_pos h1, isMrkArn_iff]
    constructor
    · rintro ⟨p, r, a, res, id, h⟩; exact ⟨id, .inl ⟨p, r, a, res, h⟩⟩
    · rintro ⟨id, ⟨p, r, a, res, h⟩ | ⟨rfl, h⟩⟩
      · exact ⟨p, r, a, res, id, h⟩
      · exact absurd (prefix_ne (startsWith_iff.1 h1) h) k1
  · rw [if_neg h1]
    have hno : ∀ id, ¬ ∃ p r a res, IsMrkArn s p r a res id := by
      rintro id ⟨p, r, a, res, h⟩
      exact h1 (startsWith_iff.2 (isArn_prefix h.1.1))
    by_cases h2 : startsWith s (ascii "alias/") = true
    · rw [if_pos h2]
      simp only [Bool.false_eq_true, false_iff]
      rintro ⟨id, h | ⟨rfl, h⟩⟩
      · exact hno id h
      · exact k2 (prefix_ne (startsWith_iff.1 h2) h)
    · rw [if_neg h2]
      by_cases h3 : startsWith s (ascii "mrk-") = true
      · rw [if_pos h3]
        exact ⟨fun _ => ⟨s, .inr ⟨rfl, startsWith_iff.1 h3⟩⟩, fun _ => rfl⟩
      · rw [if_neg h3]
        simp only [Bool.false_eq_true, false_iff]
        rintro ⟨id, h | ⟨rfl, h⟩⟩
        · exact hno id h
        · exact h3 (startsWith_iff.2 h)

theorem isValidIdentifier_iff {s : Bytes} : isValidIdentifier s = true ↔ ValidIdentifier s := by
  unfold isValidIdentifier ValidIdentifier
  by_cases h1 : isValidKeyArn (arnParse s) = true
  · rw [if_pos h1]
    exact ⟨fun _ => .inl (isValidKeyArn_iff.1 h1), fun _ => rfl⟩
  · rw [if_neg h1]
    have hno : ¬ IsKeyArn s := fun h => h1 (isValidKeyArn_iff.2 h)
    by_cases h2 : colon ∈ s
    · rw [if_pos h2]
      simp only [Bool.false_eq_true, false_iff, not_or]
      exact ⟨hno, fun h => h.1 h2⟩
    · rw [if_neg h2]
      by_cases h3 : slash ∈ s
      · rw [if_pos h3, startsWith_iff]
        exact ⟨fun h => .inr ⟨h2, fun _ => h⟩, fun h => (h.resolve_left hno).2 h3⟩
      · rw [if_neg h3]
        exact ⟨fun _ => .inr ⟨h2, fun h => absurd h h3⟩, fun _ => rfl⟩

theorem mrkMatch_iff {s t : Bytes} : mrkMatch s t = true ↔ SameMrk s t := by
  unfold mrkMatch
  by_cases h1 : s = t
  · rw [if_pos h1]; exact ⟨fun _ => .inl h1, fun _ => rfl⟩
  · rw [if_neg h1]
    by_cases h2 : !isMrkIdentifier s ∨ !isMrkIdentifier t
    · rw [if_pos h2]
      simp only [Bool.false_eq_true, false_iff]
      rintro (h | ⟨p, r, r', a, res, id, ha, hb⟩)
      · exact h1 h
      · have k1 := isMrkIdentifier_iff.2 ⟨id, .inl ⟨p, r, a, res, ha⟩⟩
        have k2 := isMrkIdentifier_iff.2 ⟨id, .inl ⟨p, r', a, res, hb⟩⟩
        simp [k1, k2] at h2
    · rw [if_neg h2]
      simp only [Bool.not_eq_true', not_or, Bool.not_eq_false] at h2
      obtain ⟨⟨i, hi⟩, ⟨j, hj⟩⟩ := And.intro (isMrkIdentifier_iff.1 h2.1) (isMrkIdentifier_iff.1 h2.2)
      constructor
      · intro h
        cases ha : arnParse s with
        | none => rw [ha] at h; cases h
        | some a =>
          cases hb : arnParse t with
          | none => rw [ha, hb] at h; cases h
          | some b =>
            rw [ha, hb] at h
            simp only [decide_eq_true_eq] at h
            have hna : ¬ ascii "mrk-" <+: s := fun hm =>
              absurd (prefix_ne (isArn_prefix (arnParse_iff.1 ha)) hm) (by decide)
            have hnb : ¬ ascii "mrk-" <+: t := fun hm =>
              absurd (prefix_ne (isArn_prefix (arnParse_iff.1 hb)) hm) (by decide)
            obtain ⟨p, r, ac, res, hi⟩ := hi.resolve_right (fun h => hna h.2)
            obtain ⟨p', r', ac', res', hj⟩ := hj.resolve_right (fun h => hnb h.2)
            have ea := ha.symm.trans (isArn_parse hi.1.1)
            have eb := hb.symm.trans (isArn_parse hj.1.1)
            cases ea; cases eb
            simp only at h
            obtain ⟨rfl, _, rfl, rfl⟩ := h
            have := (isResource_unique hi.1.2.2.2.2 hj.1.2.2.2.2).2
            subst this
            exact .inr ⟨p, r, r', ac, res, i, hi, hj⟩
      · rintro (h | ⟨p, r, r', a, res, id, ha, hb⟩)
        · exact absurd h h1
        · rw [isArn_parse ha.1.1, isArn_parse hb.1.1]
          simp

theorem mrkResourceId_iff {s k : Bytes} : mrkResourceId s = some k ↔ DenotesMrk s k := by
  unfold mrkResourceId
  by_cases h1 : isMrkArn (arnParse s) = true
  · rw [if_pos h1]
    obtain ⟨p, r, a, res, id, h⟩ := isMrkArn_iff.1 h1
    rw [isArn_parse h.1.1]
    simp only
    rw [splitResource_iff.2 h.1.2.2.2.2]
    simp only [Option.some.injEq]
    constructor
    · rintro rfl; exact .inl ⟨p, r, a, res, h⟩
    · rintro (⟨p', r', a', res', h'⟩ | ⟨rfl, h'⟩)
      · obtain ⟨rfl, _, rfl, rfl, rfl⟩ := isArn_unique h.1.1 h'.1.1
        exact (isResource_unique h.1.2.2.2.2 h'.1.2.2.2.2).2
      · exact absurd (prefix_ne (isArn_prefix h.1.1) h') (by decide)
  · rw [if_neg h1]
    have hno : ∀ id, ¬ ∃ p r a res, IsMrkArn s p r a res id := by
      rintro id ⟨p, r, a, res, h⟩
      exact h1 (isMrkArn_iff.2 ⟨p, r, a, res, id, h⟩)
    by_cases h2 : isMrkIdentifier s = true
    · rw [if_pos h2]
      simp only [Option.some.injEq]
      obtain ⟨i, hi⟩ := isMrkIdentifier_iff.1 h2
      have hi := hi.resolve_left (hno i)
      constructor
      · rintro rfl; exact .inr ⟨rfl, hi.2⟩
      · rintro (h | ⟨rfl, _⟩)
        · exact absurd h (hno k)
        · rfl
    · rw [if_neg h2]
      simp only [reduceCtorEq, false_iff]
      intro h
      exact h2 (isMrkIdentifier_iff.2 ⟨k, h⟩)

theorem denotesMrk_unique {s k k' : Bytes} (h : DenotesMrk s k) (h' : DenotesMrk s k') : k = k' := by
  have := (mrkResourceId_iff.2 h).symm.trans (mrkResourceId_iff.2 h')
  simpa using this

/-! ### duplicates -/

/-- What is entered under a key. -/
def entered (m : List (Bytes × List Bytes)) (k : Bytes) : List Bytes :=
  match m with
  | [] => []
  | (k', ids) :: m => if k' = k then ids else entered m k

theorem entered_pushAt (k id k' : Bytes) (m : List (Bytes × List Bytes)) :
    entered (pushAt k id m) k' = if k = k' then entered m k' ++ [id] else entered m k' := by
  induction m with
  | nil =>
    simp only [pushAt, entered]
    split <;> rfl
  | cons kv m ih =>
    obtain ⟨k0, ids⟩ := kv
    unfold pushAt
    by_cases h0 : k0 = k
    · rw [if_pos h0]
      by_cases h : k = k'
      · rw [if_pos h]
        simp [entered, h0, h]
      · rw [if_neg h]
        simp [entered, h0, h]
    · rw [if_neg h0]
      simp only [entered]
      by_cases h1 : k0 = k'
      · rw [if_pos h1, if_pos h1, if_neg (fun h => h0 (h1.trans h.symm))]
      · rw [if_neg h1, if_neg h1, ih]

theorem keys_pushAt (k id : Bytes) (m : List (Bytes × List Bytes)) :
    (pushAt k id m).map Prod.fst = if k ∈ m.map Prod.fst then m.map Prod.fst else m.map Prod.fst ++ [k] := by
  induction m with
  | nil => simp [pushAt]
  | cons kv m ih =>
    obtain ⟨k0, ids⟩ := kv
    unfold pushAt
    by_cases h0 : k0 = k
    · rw [if_pos h0]; simp [h0]
    · rw [if_neg h0, List.map_cons, ih]
      have hk : k ≠ k0 := fun h => h0 h.symm
      simp only [List.map_cons, List.mem_cons, hk, false_or]
      split <;> simp

theorem nodup_pushAt (k id : Bytes) (m : List (Bytes × List Bytes)) (h : (m.map Prod.fst).Nodup) :
    ((pushAt k id m).map Prod.fst).Nodup := by
  rw [keys_pushAt]
  split
  · exact h
  · next hk =>
    rw [List.nodup_append]
    refine ⟨h, by simp, ?_⟩
    intro a ha b hb hab
    simp at hb
    exact hk (hb ▸ hab ▸ ha)

theorem entered_mem {m : List (Bytes × List Bytes)} (h : (m.map Prod.fst).Nodup) {kv : Bytes × List Bytes} (hkv : kv ∈ m) :
    entered m kv.1 = kv.2 := by
  induction m with
  | nil => cases hkv
  | cons kv' m ih =>
    obtain ⟨k', ids'⟩ := kv'
    simp only [List.map_cons, List.nodup_cons] at h
    cases hkv with
    | head => simp [entered]
    | tail _ hkv =>
      have : k' ≠ kv.1 := by
        intro he
        exact h.1 (he ▸ List.mem_map_of_mem hkv)
      simp only [entered, this, if_false]
      exact ih h.2 hkv

theorem entered_exists {m : List (Bytes × List Bytes)} {k : Bytes} (h : entered m k ≠ []) : (k, entered m k) ∈ m := by
  induction m with
  | nil => exact absurd rfl h
  | cons kv' m ih =>
    obtain ⟨k', ids'⟩ := kv'
    by_cases hk : k' = k
    · simp [entered, hk]
    · simp only [entered, hk, if_false] at h ⊢
      exact List.mem_cons_of_mem _ (ih h)

theorem mrkMap_entered (ids : List Bytes) (k : Bytes) : ∀ m, entered (mrkMap ids m) k =
    entered m k ++ ids.filter (fun s => mrkResourceId s = some k) := by
  induction ids with
  | nil => intro m; simp [mrkMap]
  | cons s ids ih =>
    intro m
    unfold mrkMap
    cases hs : mrkResourceId s with
    | none => simp only; rw [ih]; simp [hs]
    | some k' =>
      simp only
      rw [ih, entered_pushAt]
      by_cases hk : k' = k
      · rw [if_pos hk]; simp [hs, hk]
      · rw [if_neg hk]; simp [hs, hk]

theorem mrkMap_nodup (ids : List Bytes) : ∀ m, (m.map Prod.fst).Nodup → ((mrkMap ids m).map Prod.fst).Nodup := by
  induction ids with
  | nil => intro m h; exact h
  | cons s ids ih =>
    intro m h
    unfold mrkMap
    cases hs : mrkResourceId s with
    | none => exact ih m h
    | some k' => exact ih _ (nodup_pushAt _ _ _ h)

theorem mem_findDuplicateMrks {ids : List Bytes} {x : Bytes} :
    x ∈ findDuplicateMrks ids ↔ ∃ k, mrkResourceId x = some k ∧ x ∈ ids ∧ 2 ≤ (ids.filter (fun s => mrkResourceId s = some k)).length := by
  unfold findDuplicateMrks
  have hn := mrkMap_nodup ids [] (by simp)
  simp only [List.mem_flatMap, List.mem_filter, decide_eq_true_eq]
  constructor
  · rintro ⟨kv, ⟨hkv, hl⟩, hx⟩
    have he := entered_mem hn hkv
    rw [mrkMap_entered] at he
    simp only [entered, List.nil_append] at he
    rw [← he, List.mem_filter] at hx
    refine ⟨kv.1, by simpa using hx.2, hx.1, ?_⟩
    rw [he]; omega
  · rintro ⟨k, hk, hx, hl⟩
    have he := mrkMap_entered ids k []
    simp only [entered, List.nil_append] at he
    have hm : x ∈ entered (mrkMap ids []) k := by rw [he]; simp [hx, hk]
    refine ⟨_, ⟨entered_exists (fun h => by rw [h] at hm; cases hm), ?_⟩, hm⟩
    show ¬ (entered (mrkMap ids []) k).length < 2
    rw [he]; omega

theorem two_le_filter {α} {p : α → Bool} : ∀ {l : List α}, 2 ≤ (l.filter p).length ↔ ∃ i j : Nat, i < j ∧ ∃ a b, l[i]? = some a ∧ l[j]? = some b ∧ p a ∧ p b
  | [] => by simp
  | x :: l => by
    constructor
    · intro h
      by_cases hx : p x
      · rw [List.filter_cons_of_pos hx] at h
        simp only [List.length_cons] at h
        have : l.filter p ≠ [] := by intro he; rw [he] at h; simp at h
        obtain ⟨b, hb⟩ := List.exists_mem_of_ne_nil _ this
        rw [List.mem_filter] at hb
        obtain ⟨j, hj⟩ := List.mem_iff_getElem?.1 hb.1
        exact ⟨0, j + 1, by omega, x, b, rfl, hj, hx, hb.2⟩
      · rw [List.filter_cons_of_neg hx] at h
        obtain ⟨i, j, hij, a, b, ha, hb, pa, pb⟩ := two_le_filter.1 h
        exact ⟨i + 1, j + 1, by omega, a, b, ha, hb, pa, pb⟩
    · rintro ⟨i, j, hij, a, b, ha, hb, pa, pb⟩
      obtain ⟨j, rfl⟩ : ∃ j', j = j' + 1 := ⟨j - 1, by omega⟩
      simp only [List.getElem?_cons_succ] at hb
      cases i with
      | zero =>
        simp at ha
        subst ha
        rw [List.filter_cons_of_pos pa]
        have := List.length_pos_of_mem (List.mem_filter.2 ⟨List.mem_of_getElem? hb, pb⟩)
        simp only [List.length_cons]; omega
      | succ i =>
        simp only [List.getElem?_cons_succ] at ha
        have := two_le_filter.2 ⟨i, j, by omega, a, b, ha, hb, pa, pb⟩
        rw [List.filter_cons]
        split
        · simp only [List.length_cons]; omega
        · exact this

theorem findDuplicateMrks_pos {ids : List Bytes} : 0 < (findDuplicateMrks ids).length ↔
    ∃ i j : Nat, i < j ∧ ∃ a b k, ids[i]? = some a ∧ ids[j]? = some b ∧ DenotesMrk a k ∧ DenotesMrk b k := by
  rw [List.length_pos_iff_exists_mem]
  constructor
  · rintro ⟨x, hx⟩
    obtain ⟨k, hk, hx, hl⟩ := mem_findDuplicateMrks.1 hx
    obtain ⟨i, j, hij, a, b, ha, hb, pa, pb⟩ := two_le_filter.1 hl
    exact ⟨i, j, hij, a, b, k, ha, hb, mrkResourceId_iff.1 (by simpa using pa), mrkResourceId_iff.1 (by simpa using pb)⟩
  · rintro ⟨i, j, hij, a, b, k, ha, hb, pa, pb⟩
    refine ⟨a, mem_findDuplicateMrks.2 ⟨k, mrkResourceId_iff.2 pa, List.mem_of_getElem? ha, two_le_filter.2 ⟨i, j, hij, a, b, ha, hb, ?_, ?_⟩⟩⟩
    · simpa using mrkResourceId_iff.2 pa
    · simpa using mrkResourceId_iff.2 pb

/-! ### builders -/

theorem mrkBuild_ok {grants : List Bytes} {id : Bytes} : (∃ kr, mrkBuild grants id = .ok kr) ↔ id ≠ [] ∧ ValidIdentifier id := by
  unfold mrkBuild
  split
  · next h =>
    simp only [reduceCtorEq, exists_false, false_iff, not_and]
    rintro hne hv
    rcases h with h | h
    · exact hne h
    · simp [isValidIdentifier_iff.2 hv] at h
  · next h =>
    simp only [Bool.not_eq_true', not_or, Bool.not_eq_false] at h
    exact ⟨fun _ => ⟨h.1, isValidIdentifier_iff.1 h.2⟩, fun _ => ⟨_, rfl⟩⟩

theorem mrkBuild_eq {grants : List Bytes} {id : Bytes} {kr : MrkKeyring} (h : mrkBuild grants id = .ok kr) : kr = ⟨id, grants, [], none⟩ := by
  unfold mrkBuild at h
  split at h
  · cases h
  · cases h; rfl

theorem mrkChildren_iff {env : MultiBuildEnv} (hc : ∀ r, env.client r = true) (hm : ∀ i, env.child i = true) (grants : List Bytes) :
    ∀ (ids : List Bytes) (i : Nat) (krs : List MrkKeyring), mrkChildren env grants i ids = some krs ↔
      (∀ id ∈ ids, (∃ r, HasRegion id r) ∧ id ≠ [] ∧ ValidIdentifier id) ∧ krs = ids.map (fun id => ⟨id, grants, [], none⟩)
  | [], i, krs => by simp [mrkChildren, eq_comm]
  | id :: ids, i, krs => by
    rw [mrkChildren]
    by_cases h1 : parseRegion id = []
    · rw [if_pos h1]
      simp only [reduceCtorEq, false_iff, not_and]
      intro h
      obtain ⟨⟨r, hr⟩, _⟩ := h id (List.mem_cons_self ..)
      exact absurd (((parseRegion_iff hr.2.2).2 hr).symm.trans h1) hr.2.2
    · rw [if_neg h1, if_neg (by simp [hc])]
      cases hb : mrkBuild grants id with
      | error e =>
        simp only [reduceCtorEq, false_iff, not_and]
        intro h
        obtain ⟨kr, hkr⟩ := mrkBuild_ok (grants := grants).2 (h id (List.mem_cons_self ..)).2
        rw [hb] at hkr; cases hkr
      | ok kr =>
        simp only [hm, Bool.not_true, Bool.false_eq_true, if_false]
        have hv := mrkBuild_ok.1 ⟨kr, hb⟩
        have hkr := mrkBuild_eq hb
        subst hkr
        cases hk : mrkChildren env grants (i + 1) ids with
        | none =>
          simp only [reduceCtorEq, false_iff, not_and]
          intro h
          have := (mrkChildren_iff hc hm grants ids (i + 1) _).2 ⟨fun x hx => h x (List.mem_cons_of_mem _ hx), rfl⟩
          rw [hk] at this; cases this
        | some krs' =>
          obtain ⟨hall, rfl⟩ := (mrkChildren_iff hc hm grants ids (i + 1) krs').1 hk
          simp only [Option.some.injEq, List.map_cons]
          constructor
          · rintro rfl
            refine ⟨?_, rfl⟩
            intro x hx
            cases hx with
            | head => exact ⟨⟨_, (parseRegion_iff h1).1 rfl⟩, hv⟩
            | tail _ hx => exact hall x hx
          · rintro ⟨_, rfl⟩; rfl

end Verif
