import Verif.Proof.Arn
import Verif.Spec.KmsExample
/-
C55, C57: multi-Region keys.
-/
namespace Verif.Props
open Verif Verif.Spec Verif.Example

/-- **C55.**  Two identifiers match exactly if they are equal or are resource names of one multi-Region key, which differ at most in the
region. -/
theorem C55_mrk_match (s t : Bytes) : mrkMatch s t = true ↔
    s = t ∨ ∃ partition region region' account resource id, IsMrkArn s partition region account resource id ∧
      IsMrkArn t partition region' account resource id := mrkMatch_iff

example : mrkMatch mrkWest mrkEast = true ∧ mrkWest ≠ mrkEast ∧ mrkMatch arn1 arn2 = false := by decide

/-- **C55.**  Matching is an equivalence relation on all strings. -/
theorem C55_mrk_match_equivalence : Equivalence (fun s t : Bytes => mrkMatch s t = true) where
  refl s := by simp [mrkMatch]
  symm := by
    intro s t h
    rw [mrkMatch_iff] at h ⊢
    rcases h with rfl | ⟨p, r, r', a, res, id, h1, h2⟩
    · exact .inl rfl
    · exact .inr ⟨p, r', r, a, res, id, h2, h1⟩
  trans := by
    intro s t u h h'
    rw [mrkMatch_iff] at h h' ⊢
    rcases h with rfl | ⟨p, r, r', a, res, id, h1, h2⟩
    · exact h'
    · rcases h' with rfl | ⟨p', r1, r2, a', res', id', h3, h4⟩
      · exact .inr ⟨p, r, r', a, res, id, h1, h2⟩
      · obtain ⟨rfl, _, rfl, rfl, rfl⟩ := isArn_unique h2.1.1 h3.1.1
        obtain ⟨_, rfl⟩ := isResource_unique h2.1.2.2.2.2 h3.1.2.2.2.2
        exact .inr ⟨p, r, r2, a, res, id, h1, h4⟩

example : mrkMatch mrkWest mrkEast = true ∧ mrkMatch mrkEast (ascii "arn:aws:kms:eu-west-1:1234:key/mrk-5") = true ∧
    mrkMatch mrkWest (ascii "arn:aws:kms:eu-west-1:1234:key/mrk-5") = true := by decide

/-- **C55.**  Given the resource name of a multi-Region key, an identifier matches it exactly if it is the same resource name with
another region, which is not empty. -/
theorem C55_replicas {s p r a res id : Bytes} (h : IsMrkArn s p r a res id) (t : Bytes) :
    mrkMatch s t = true ↔ ∃ r', r' ≠ [] ∧ 58 ∉ r' ∧
      t = ascii "arn:" ++ p ++ ascii ":kms:" ++ r' ++ ascii ":" ++ a ++ ascii ":" ++ res := by
  have e4 : ascii ":kms:" = ascii ":" ++ ascii "kms" ++ ascii ":" := by decide
  have hform : ∀ {t r'}, IsMrkArn t p r' a res id ↔ r' ≠ [] ∧ 58 ∉ r' ∧
      t = ascii "arn:" ++ p ++ ascii ":kms:" ++ r' ++ ascii ":" ++ a ++ ascii ":" ++ res := by
    intro t r'
    constructor
    · rintro ⟨⟨⟨ht, hp, hv, hr, ha⟩, hp', hr', ha', hres⟩, hm⟩
      exact ⟨hr', hr, by rw [ht, e4]; simp⟩
    · rintro ⟨hr', hr, ht⟩
      obtain ⟨⟨⟨_, hp, hv, _, ha⟩, hp', _, ha', hres⟩, hm⟩ := h
      exact ⟨⟨⟨by rw [ht, e4]; simp, hp, hv, hr, ha⟩, hp', hr', ha', hres⟩, hm⟩
  rw [mrkMatch_iff]
  constructor
  · rintro (rfl | ⟨p', r1, r', a', res', id', h1, h2⟩)
    · exact ⟨r, hform.1 h⟩
    · obtain ⟨rfl, _, rfl, rfl, rfl⟩ := isArn_unique h.1.1 h1.1.1
      obtain ⟨_, rfl⟩ := isResource_unique h.1.2.2.2.2 h1.1.2.2.2.2
      exact ⟨r', hform.1 h2⟩
  · rintro ⟨r', hr'⟩
    exact .inr ⟨p, r, r', a, res, id, h, hform.2 hr'⟩

theorem mrkWest_isMrk : IsMrkArn mrkWest (ascii "aws") (ascii "us-west-2") (ascii "1234") (ascii "key/mrk-5") (ascii "mrk-5") :=
  ⟨⟨⟨by decide, by decide, by decide, by decide, by decide⟩, by decide, by decide, by decide,
    ⟨⟨0, 0, by decide⟩, by decide, by decide, by decide, by decide⟩⟩, by decide⟩

example : mrkMatch mrkWest mrkEast = true :=
  (C55_replicas mrkWest_isMrk mrkEast).2 ⟨ascii "us-east-1", by decide, by decide, by decide⟩

/-- The resource name of a multi-Region key in the published form, with exactly one slash and none in front. -/
def PublishedMrkArn (s p r a id : Bytes) : Prop :=
  IsArn s p (ascii "kms") r a (ascii "key/" ++ id) ∧ p ≠ [] ∧ r ≠ [] ∧ a ≠ [] ∧ ascii "mrk-" <+: id

/-- **C55**, where it differs from the published form: the code (unlike its comment in aws-encryption-sdk-cpp/source/cpputils.cpp:158-162)
skips repeated slashes, so that it also treats "key//mrk-5" as a multi-Region key. -/
theorem C55_published_form_refuted :
    ¬ ∀ s t : Bytes, mrkMatch s t = true ↔ s = t ∨ ∃ p r r' a id, PublishedMrkArn s p r a id ∧ PublishedMrkArn t p r' a id := by
  intro h
  have := (h (ascii "arn:aws:kms:us-west-2:1234:key//mrk-5") (ascii "arn:aws:kms:us-east-1:1234:key//mrk-5")).1 (by decide)
  rcases this with h | ⟨p, r, r', a, id, h1, _⟩
  · exact absurd h (by decide)
  · have hi : IsArn (ascii "arn:aws:kms:us-west-2:1234:key//mrk-5") (ascii "aws") (ascii "kms") (ascii "us-west-2") (ascii "1234")
        (ascii "key//mrk-5") := ⟨by decide, by decide, by decide, by decide, by decide⟩
    obtain ⟨_, _, _, _, he⟩ := isArn_unique hi h1.1
    have e : ascii "key//mrk-5" = ascii "key/" ++ ascii "/mrk-5" := by decide
    rw [e] at he
    have := List.append_cancel_left he
    have hm := h1.2.2.2.2
    rw [← this] at hm
    exact absurd hm (by decide)

/-- **C57.**  The identifiers that are reported as duplicates are exactly those that denote a multi-Region key which another one in the
list denotes, too. -/
theorem C57_duplicates_found (ids : List Bytes) (x : Bytes) : x ∈ findDuplicateMrks ids ↔
    ∃ i j : Nat, i ≠ j ∧ ∃ y k, ids[i]? = some x ∧ ids[j]? = some y ∧ DenotesMrk x k ∧ DenotesMrk y k := by
  rw [mem_findDuplicateMrks]
  constructor
  · rintro ⟨k, hk, hx, hl⟩
    obtain ⟨i, j, hij, a, b, ha, hb, pa, pb⟩ := two_le_filter.1 hl
    obtain ⟨n, hn⟩ := List.mem_iff_getElem?.1 hx
    have hkx := mrkResourceId_iff.1 hk
    by_cases hni : n = i
    · exact ⟨n, j, by omega, b, k, hn, hb, hkx, mrkResourceId_iff.1 (by simpa using pb)⟩
    · exact ⟨n, i, hni, a, k, hn, ha, hkx, mrkResourceId_iff.1 (by simpa using pa)⟩
  · rintro ⟨i, j, hij, y, k, hi, hj, hx, hy⟩
    refine ⟨k, mrkResourceId_iff.2 hx, List.mem_of_getElem? hi, two_le_filter.2 ?_⟩
    have px : decide (mrkResourceId x = some k) = true := by simpa using mrkResourceId_iff.2 hx
    have py : decide (mrkResourceId y = some k) = true := by simpa using mrkResourceId_iff.2 hy
    rcases Nat.lt_or_gt_of_ne hij with h | h
    · exact ⟨i, j, h, x, y, hi, hj, px, py⟩
    · exact ⟨j, i, h, y, x, hj, hi, py, px⟩

example : findDuplicateMrks [mrkWest, arn1, mrkEast, ascii "mrk-5", ascii "mrk-6"] = [mrkWest, mrkEast, ascii "mrk-5"] := by decide

/-- **C57**, where memory and clients for all regions are available: building a multi-keyring with a generator gives, if anything, strict
keyrings for the identifiers in their order; it fails exactly if an identifier is empty or invalid, if two denote the same multi-Region key,
or if an additional one is not a resource name that tells its region.  The last case is not in the property: see
`C57_full_refuted`. -/
theorem C57_build_partial {env : MultiBuildEnv} (hc : ∀ r, env.client r = true) (hm : env.multi = true) (hch : ∀ i, env.child i = true)
    (grants : List Bytes) (generator : Bytes) (additional : List Bytes) :
    (mrkMultiBuild env grants generator additional = none ↔
      (∃ id ∈ generator :: additional, id = [] ∨ ¬ ValidIdentifier id) ∨ TwoAlike (generator :: additional) ∨
      (∃ id ∈ additional, ¬ ∃ r, HasRegion id r)) ∧
    (∀ x, mrkMultiBuild env grants generator additional = some x →
      x = (some ⟨generator, grants, [], none⟩, additional.map (fun id => ⟨id, grants, [], none⟩))) := by
  have key : ∀ x, mrkMultiBuild env grants generator additional = some x ↔
      ((∀ id ∈ generator :: additional, id ≠ [] ∧ ValidIdentifier id) ∧ ¬ TwoAlike (generator :: additional) ∧
        (∀ id ∈ additional, ∃ r, HasRegion id r)) ∧
        x = (some ⟨generator, grants, [], none⟩, additional.map (fun id => ⟨id, grants, [], none⟩)) := by
    intro x
    unfold mrkMultiBuild
    by_cases hg : generator.length = 0
    · rw [if_pos hg]
      simp only [reduceCtorEq, false_iff]
      rintro ⟨⟨h, _⟩, _⟩
      exact (h generator (List.mem_cons_self ..)).1 (List.length_eq_zero_iff.1 hg)
    · rw [if_neg hg]
      have hg' : generator ≠ [] := fun h => hg (by simp [h])
      unfold mrkMultiBuild_
      by_cases h1 : [] ∈ additional
      · rw [if_pos h1]
        simp only [reduceCtorEq, false_iff]
        rintro ⟨⟨h, _⟩, _⟩
        exact (h [] (List.mem_cons_of_mem _ h1)).1 rfl
      · rw [if_neg h1]
        simp only [if_pos (show generator.length > 0 by omega), List.singleton_append, reduceCtorEq, if_false, gt_iff_lt]
        by_cases h2 : 0 < (findDuplicateMrks (generator :: additional)).length
        · rw [if_pos h2]
          simp only [reduceCtorEq, false_iff]
          rintro ⟨⟨_, h, _⟩, _⟩
          exact h (findDuplicateMrks_pos.1 h2)
        · rw [if_neg h2]
          have hdup : ¬ TwoAlike (generator :: additional) := fun h => h2 (findDuplicateMrks_pos.2 h)
          unfold mrkGenerator
          rw [if_neg hg', if_neg (by simp [hc])]
          cases hb : mrkBuild grants generator with
          | error e =>
            simp only [reduceCtorEq, false_iff]
            rintro ⟨⟨h, _⟩, _⟩
            obtain ⟨kr, hkr⟩ := mrkBuild_ok (grants := grants).2 (h generator (List.mem_cons_self ..))
            rw [hb] at hkr; cases hkr
          | ok kr =>
            have hv := mrkBuild_ok.1 ⟨kr, hb⟩
            have hkr := mrkBuild_eq hb
            subst hkr
            simp only [hm, Bool.not_true, Bool.false_eq_true, if_false]
            cases hk : mrkChildren env grants 0 additional with
            | none =>
              simp only [reduceCtorEq, false_iff]
              rintro ⟨⟨h, _, h'⟩, _⟩
              have := (mrkChildren_iff hc hch grants additional 0 _).2
                ⟨fun x hx => ⟨h' x hx, h x (List.mem_cons_of_mem _ hx)⟩, rfl⟩
              rw [hk] at this; cases this
            | some krs =>
              obtain ⟨hall, rfl⟩ := (mrkChildren_iff hc hch grants additional 0 krs).1 hk
              simp only [Option.some.injEq]
              constructor
              · rintro rfl
                refine ⟨⟨?_, hdup, fun x hx => (hall x hx).1⟩, rfl⟩
                intro x hx
                cases hx with
                | head => exact hv
                | tail _ hx => exact (hall x hx).2
              · rintro ⟨_, rfl⟩; rfl
  refine ⟨?_, fun x hx => ((key x).1 hx).2⟩
  constructor
  · intro hn
    have := mt (fun h => (key _).2 ⟨h, rfl⟩) (by rw [hn]; simp)
    simp only [Classical.not_and_iff_not_or_not, Classical.not_forall, Classical.not_not, exists_prop, not_imp, ne_eq] at this
    exact this
  · intro h
    cases hx : mrkMultiBuild env grants generator additional with
    | none => rfl
    | some x =>
      obtain ⟨⟨h1, h2, h3⟩, _⟩ := (key x).1 hx
      rcases h with ⟨id, hid, h⟩ | h | ⟨id, hid, h⟩
      · rcases h with h | h
        · exact absurd h (h1 id hid).1
        · exact absurd (h1 id hid).2 h
      · exact absurd h h2
      · exact absurd (h3 id hid) h

/-- Clients and memory for everything. -/
def buildEnv : MultiBuildEnv := ⟨fun _ => true, true, fun _ => true⟩

example : mrkMultiBuild buildEnv [] mrkWest [arn1, arn2] = some (some ⟨mrkWest, [], [], none⟩, [⟨arn1, [], [], none⟩, ⟨arn2, [], [], none⟩]) ∧
    mrkMultiBuild buildEnv [] mrkWest [arn1, mrkEast] = none ∧ mrkMultiBuild buildEnv [] (ascii "mrk-5") [arn1, mrkEast] = none := by decide

/-- **C57**, the same for building a multi-keyring without a generator. -/
theorem C57_build_no_generator_partial {env : MultiBuildEnv} (hc : ∀ r, env.client r = true) (hm : env.multi = true)
    (hch : ∀ i, env.child i = true) (grants : List Bytes) (additional : List Bytes) :
    (mrkMultiBuildNoGen env grants additional = none ↔
      additional = [] ∨ (∃ id ∈ additional, id = [] ∨ ¬ ValidIdentifier id) ∨ TwoAlike additional ∨
      (∃ id ∈ additional, ¬ ∃ r, HasRegion id r)) ∧
    (∀ x, mrkMultiBuildNoGen env grants additional = some x →
      x = (none, additional.map (fun id => ⟨id, grants, [], none⟩))) := by
  have key : ∀ x, mrkMultiBuildNoGen env grants additional = some x ↔
      (additional ≠ [] ∧ (∀ id ∈ additional, id ≠ [] ∧ ValidIdentifier id) ∧ ¬ TwoAlike additional ∧
        (∀ id ∈ additional, ∃ r, HasRegion id r)) ∧
        x = (none, additional.map (fun id => ⟨id, grants, [], none⟩)) := by
    intro x
    unfold mrkMultiBuildNoGen mrkMultiBuild_
    by_cases h1 : [] ∈ additional
    · rw [if_pos h1]
      simp only [reduceCtorEq, false_iff]
      rintro ⟨⟨_, h, _⟩, _⟩
      exact (h [] h1).1 rfl
    · rw [if_neg h1]
      simp only [List.length_nil, gt_iff_lt, Nat.lt_irrefl, if_false, List.nil_append]
      by_cases h0 : additional = []
      · rw [if_pos h0]
        simp only [reduceCtorEq, false_iff]
        exact fun h => h.1.1 h0
      · rw [if_neg h0]
        by_cases h2 : 0 < (findDuplicateMrks additional).length
        · rw [if_pos h2]
          simp only [reduceCtorEq, false_iff]
          rintro ⟨⟨_, _, h, _⟩, _⟩
          exact h (findDuplicateMrks_pos.1 h2)
        · rw [if_neg h2]
          have hdup : ¬ TwoAlike additional := fun h => h2 (findDuplicateMrks_pos.2 h)
          unfold mrkGenerator
          rw [if_pos rfl]
          simp only [hm, Bool.not_true, Bool.false_eq_true, if_false]
          cases hk : mrkChildren env grants 0 additional with
          | none =>
            simp only [reduceCtorEq, false_iff]
            rintro ⟨⟨_, h, _, h'⟩, _⟩
            have := (mrkChildren_iff hc hch grants additional 0 _).2 ⟨fun x hx => ⟨h' x hx, h x hx⟩, rfl⟩
            rw [hk] at this; cases this
          | some krs =>
            obtain ⟨hall, rfl⟩ := (mrkChildren_iff hc hch grants additional 0 krs).1 hk
            simp only [Option.some.injEq]
            constructor
            · rintro rfl
              exact ⟨⟨h0, fun x hx => (hall x hx).2, hdup, fun x hx => (hall x hx).1⟩, rfl⟩
            · rintro ⟨_, rfl⟩; rfl
  refine ⟨?_, fun x hx => ((key x).1 hx).2⟩
  constructor
  · intro hn
    have := mt (fun h => (key _).2 ⟨h, rfl⟩) (by rw [hn]; simp)
    simp only [Classical.not_and_iff_not_or_not, Classical.not_forall, Classical.not_not, exists_prop, not_imp, ne_eq] at this
    exact this
  · intro h
    cases hx : mrkMultiBuildNoGen env grants additional with
    | none => rfl
    | some x =>
      obtain ⟨⟨h0, h1, h2, h3⟩, _⟩ := (key x).1 hx
      rcases h with h | ⟨id, hid, h⟩ | h | ⟨id, hid, h⟩
      · exact absurd h h0
      · rcases h with h | h
        · exact absurd h (h1 id hid).1
        · exact absurd (h1 id hid).2 h
      · exact absurd h h2
      · exact absurd (h3 id hid) h

example : mrkMultiBuildNoGen buildEnv [] [mrkWest, arn2] = some (none, [⟨mrkWest, [], [], none⟩, ⟨arn2, [], [], none⟩]) ∧
    mrkMultiBuildNoGen buildEnv [] [mrkWest, mrkEast] = none := by decide

/-- **C57**, the part that fails whatever the clients and the memory: two identifiers of one multi-Region key are never accepted. -/
theorem C57_duplicates_refused (env : MultiBuildEnv) (grants : List Bytes) (generator : Bytes) (additional : List Bytes) :
    (TwoAlike (generator :: additional) → mrkMultiBuild env grants generator additional = none) ∧
    (TwoAlike additional → mrkMultiBuildNoGen env grants additional = none) := by
  constructor
  · intro h
    unfold mrkMultiBuild
    split
    · rfl
    · next hg =>
      unfold mrkMultiBuild_
      split
      · rfl
      · simp only [if_pos (show generator.length > 0 by omega), List.singleton_append, reduceCtorEq, if_false, gt_iff_lt]
        rw [if_pos (findDuplicateMrks_pos.2 h)]
  · intro h
    unfold mrkMultiBuildNoGen mrkMultiBuild_
    split
    · rfl
    · simp only [List.length_nil, gt_iff_lt, Nat.lt_irrefl, if_false, List.nil_append]
      split
      · rfl
      · rw [if_pos (findDuplicateMrks_pos.2 h)]

example : TwoAlike [mrkWest, mrkEast] := findDuplicateMrks_pos.1 (by decide)

/-- **C57** is not met in full: a valid key id that is not a resource name is refused as an additional identifier, although no two are
alike, and although it would be accepted as the generator. -/
theorem C57_full_refuted : (¬ ∀ (env : MultiBuildEnv) (grants : List Bytes) (generator : Bytes) (additional : List Bytes),
      (∀ r, env.client r = true) → env.multi = true → (∀ i, env.child i = true) →
      (mrkMultiBuild env grants generator additional = none ↔
        (∃ id ∈ generator :: additional, id = [] ∨ ¬ ValidIdentifier id) ∨ TwoAlike (generator :: additional))) ∧
    mrkMultiBuild buildEnv [] (ascii "mrk-5") [] ≠ none := by
  refine ⟨?_, by decide⟩
  intro h
  have := (h buildEnv [] arn1 [ascii "mrk-5"] (fun _ => rfl) rfl (fun _ => rfl)).1 (by decide)
  rcases this with ⟨id, hid, h⟩ | h
  · rcases h with h | h
    · have : [] ∉ [arn1, ascii "mrk-5"] := by decide
      exact this (h ▸ hid)
    · have hall : ∀ x ∈ [arn1, ascii "mrk-5"], isValidIdentifier x = true := by decide
      exact h (isValidIdentifier_iff.1 (hall id hid))
  · exact absurd (findDuplicateMrks_pos.2 h) (by decide)

end Verif.Props
