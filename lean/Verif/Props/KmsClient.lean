import Verif.Proof.KmsClientPlay
/-
C85, C86: the clients with which KMS keyrings call KMS.
-/
namespace Verif.Props
open Verif Verif.Spec Verif.Example

/-! ### C85: calls go to the region of their key -/

/-- **C85.**  Whatever keyrings a program builds and uses in any number of threads: if the user has not fixed a client, every call of KMS is
made with a client for the region in the name of the key of the call. -/
theorem C85_calls_go_to_the_region {P : KmsJob → Prop} {n : Nat} {s : KmsSys} (h : KmsReach P n s) {job : KmsJob} {call : KmsCall} {ok : Bool}
    (hm : (job, call, ok) ∈ s.log) (hf : fixedClient job.settings = none) :
    ∃ region, s.regions[call.client]? = some region ∧ ClientRegion call.keyId region :=
  ((kmsReach_inv h).log _ hm).2.1 hf

/-- **C85.**  A client that the user fixed is used for all calls. -/
theorem C85_fixed_client {P : KmsJob → Prop} {n : Nat} {s : KmsSys} (h : KmsReach P n s) {job : KmsJob} {call : KmsCall} {ok : Bool}
    (hm : (job, call, ok) ∈ s.log) {c : Nat} (hf : fixedClient job.settings = some c) : call.client = c :=
  ((kmsReach_inv h).log _ hm).2.2 c hf

/-- **C85.**  Every call carries exactly the grant tokens that the user gave the builder of the keyring, in their order. -/
theorem C85_grant_tokens {P : KmsJob → Prop} {n : Nat} {s : KmsSys} (h : KmsReach P n s) {job : KmsJob} {call : KmsCall} {ok : Bool}
    (hm : (job, call, ok) ∈ s.log) : call.grants = tokensOf job.settings :=
  ((kmsReach_inv h).log _ hm).1

/- A keyring in discovery mode calls KMS in two regions. -/
example : KmsReach (fun _ => True) 1 (play 1 decryptRun) ∧ (play 1 decryptRun).regions = [ascii "us-west-2", ascii "eu-central-1"] ∧
    (play 1 decryptRun).log.map (fun x => (x.2.1.client, x.2.1.keyId, x.2.2)) = [(0, arn1, false), (1, arn2, true)] ∧
    (∀ x ∈ (play 1 decryptRun).log, x.2.1.grants = [ascii "g", ascii "h", ascii "i"]) ∧ fixedClient cachingSettings = none := by
  refine ⟨?_, by decide +kernel, by decide +kernel, by decide +kernel, rfl⟩
  have := play_reach (p := fun _ => true) (n := 1) (l := decryptRun) (by decide +kernel)
  simpa using this

/- A fixed client, for a keyring with two keys. -/
example : let l := [.makeClient (ascii "x"), .start 0 (.build [.client (some 0)] arn1 [arn2]), .step 0 {},
      .start 0 (.encrypt [.client (some 0)] (.kms ⟨[arn1, arn2], [], none⟩ (.single (some 0))) kmsEnv krCtx 0x0178 encStart),
      .step 0 {}, .step 0 { generated := some (arn1, [1], List.replicate 32 7) }, .step 0 {}, .step 0 {}, .step 0 { answer := some (arn2, [2]) }]
    okActs (fun _ => true) { threads := List.replicate 1 none } l = true ∧
      (play 1 l).log.map (fun x => (x.2.1.client, x.2.1.keyId, x.2.2)) = [(0, arn1, true), (0, arn2, true)] := by decide +kernel

/-- **C85.**  Without the condition that names of regions have no colon the claim would be false: a multi-keyring for discovery calls KMS with a
key whose name has the region `a`, in the region `a:b`. -/
theorem C85_region_with_colon_refuted :
    ∃ (kr : MrkKeyring) (e : Edk) (r : Bytes) (keyArn : Bytes), mrkBuildDiscoveryFilter [] false true (ascii "a:b") (some kmsFilter) = some kr ∧
      mrkPlan kr e = some (r, keyArn) ∧ ¬ ClientRegion keyArn r := by
  refine ⟨⟨[], [], ascii "a:b", some kmsFilter⟩, ⟨ascii "aws-kms", ascii "arn:aws:kms:c:1234:key/mrk-5", [1]⟩, ascii "a:b",
    ascii "arn:aws:kms:a:b:1234:key/mrk-5", by decide +kernel, by decide +kernel, ?_⟩
  rw [clientRegion_iff]
  decide +kernel

/-- **C85.**  The programs, run by themselves, are the operations of `C53`-`C58` and `C80`. -/
theorem C85_programs (env : KmsEnv) (sup : Supplier) (kr : KmsKeyring) (mrk : MrkKeyring) (edks : List Edk) (ctx : EncCtx) (alg : Nat)
    (e : EncState) (d : DecState) :
    (let r := kmsOnEncrypt env kr ctx alg e; (kmsEncProg env sup kr ctx alg e).run env = ((r.1, r.2.1), r.2.2)) ∧
    (let r := kmsDecLoop env kr ctx 0 d edks; (kmsDecProg env sup kr ctx 0 d edks).run env = ((r.1, r.2.1), r.2.2)) ∧
    (let r := mrkOnEncrypt env mrk ctx alg e; (mrkEncProg env sup mrk ctx alg e).run env = ((r.1, r.2.1), r.2.2)) ∧
    (let r := mrkOnDecrypt env mrk edks ctx alg d; (mrkDecProg env sup mrk edks ctx alg d).run env = ((r.1, r.2.1), r.2.2)) :=
  ⟨kmsEncProg_run .., kmsDecProg_run .., mrkEncProg_run .., mrkDecProg_run ..⟩

/-- **C85.**  What the builders give, apart from the client supplier, does not depend on clients; the grant tokens are those of the settings. -/
theorem C85_builders (env : KmsEnv) (l : List KmsSetting) (generator : Bytes) (additional : List Bytes) :
    (((kmsBuildProg (.ofSettings l) generator additional).run env).1.map KmsBuilt.config =
      match kmsBuild (tokensOf l) generator additional with
      | .error _ => none
      | .ok kr => some (.inl kr)) ∧
    (((mrkBuildProg (.ofSettings l) generator).run env).1.map KmsBuilt.config =
      match mrkBuild (tokensOf l) generator with
      | .error _ => none
      | .ok kr => some (.inr kr)) := by
  have h1 := kmsBuildProg_run env (.ofSettings l) generator additional
  have h2 := mrkBuildProg_run env (.ofSettings l) generator
  rw [ofSettings_eq] at h1 h2 ⊢
  exact ⟨h1, h2⟩

/-- **C85.**  The same for multi-keyrings. -/
theorem C85_multi_builders (env : KmsEnv) (menv : MultiBuildEnv) (hc : ∀ r, menv.client r = (env.client 0 r).isSome) (l : List KmsSetting)
    (generator : Bytes) (additional regions : List Bytes) (f : Option DiscoveryFilter) :
    ((mrkMultiProg_ menv.multi menv.child (.ofSettings l) generator additional).run env).1.map (·.map KmsBuilt.config) =
      (mrkMultiBuild_ menv (tokensOf l) generator additional).map (fun r => (r.1.toList ++ r.2).map .inr) ∧
    ((mrkMultiDiscoveryProg menv.multi menv.child (.ofSettings l) regions f).run env).1.map (·.map KmsBuilt.config) =
      (mrkMultiBuildDiscovery menv (tokensOf l) regions f).map (·.map .inr) := by
  have h1 := mrkMultiProg__run env menv hc (.ofSettings l) generator additional
  have h2 := mrkMultiDiscoveryProg_run env menv hc (.ofSettings l) regions f
  rw [ofSettings_eq] at h1 h2 ⊢
  exact ⟨h1, h2⟩

example : ((kmsBuildProg (.ofSettings cachingSettings) arn1 [arn2]).run kmsEnv).1.map KmsBuilt.config =
      some (.inl ⟨[arn1, arn2], [ascii "g", ascii "h", ascii "i"], none⟩) ∧
    ((mrkMultiDiscoveryProg true (fun _ => true) (.ofSettings []) [ascii "us-east-1"] none).run kmsEnv).1.isSome = true := by decide +kernel

theorem filterAccount_iff (l : List FilterSetting) (a : Bytes) : a ∈ l.foldl applyFilterSetting [] ↔ FilterAccount l a := by
  have h : ∀ m : List FilterSetting, a ∈ m.reverse.foldl applyFilterSetting [] ↔ FilterAccount m.reverse a := by
    intro m
    induction m with
    | nil =>
      refine ⟨fun h => (by cases h), fun ⟨b, c, d, h, _⟩ => ?_⟩
      cases b <;> cases h
    | cons x m ih =>
      have hs : FilterAccount (x :: m).reverse a ↔ a ∈ namedAccounts x ∨ ((∀ as, x ≠ .replace as) ∧ FilterAccount m.reverse a) := by
        rw [List.reverse_cons]
        constructor
        · rintro ⟨b, c, d, h, ha, hd⟩
          rcases List.eq_nil_or_concat d with rfl | ⟨d', y, rfl⟩
          · have h' := List.append_inj' h rfl
            have : x = c := by simpa using h'.2
            exact .inl (this ▸ ha)
          · rw [List.concat_eq_append] at h hd
            have h : m.reverse ++ [x] = (b ++ c :: d') ++ [y] := by rw [h]; simp
            have h' := List.append_inj' h rfl
            have hx : x = y := by simpa using h'.2
            exact .inr ⟨fun as e => hd as (by rw [← e, hx]; simp), b, c, d', h'.1, ha, fun as hm => hd as (List.mem_append_left _ hm)⟩
        · rintro (ha | ⟨hx, b, c, d, h, ha, hd⟩)
          · exact ⟨m.reverse, x, [], rfl, ha, fun as h => by cases h⟩
          · refine ⟨b, c, d ++ [x], by rw [h]; simp, ha, fun as hm => ?_⟩
            rcases List.mem_append.1 hm with hm | hm
            · exact hd as hm
            · exact hx as (List.mem_singleton.1 hm).symm
      rw [hs, List.reverse_cons, List.foldl_append]
      cases x with
      | add b =>
        simp only [List.foldl_cons, List.foldl_nil, applyFilterSetting, namedAccounts, List.mem_append, ih]
        constructor
        · rintro (h | h)
          · exact .inr ⟨fun as e => (by cases e), h⟩
          · exact .inl h
        · rintro (h | h)
          · exact .inr h
          · exact .inl h.2
      | adds bs =>
        simp only [List.foldl_cons, List.foldl_nil, applyFilterSetting, namedAccounts, List.mem_append, ih]
        constructor
        · rintro (h | h)
          · exact .inr ⟨fun as e => (by cases e), h⟩
          · exact .inl h
        · rintro (h | h)
          · exact .inr h
          · exact .inl h.2
      | replace bs =>
        simp only [List.foldl_cons, List.foldl_nil, applyFilterSetting, namedAccounts]
        exact ⟨.inl, fun h => h.elim id fun h => absurd rfl (h.1 bs)⟩
  simpa using h l.reverse

/-- **C85.**  A discovery filter is built if and only if partition and accounts are given and no account is empty.  It has the accounts that
were added since the accounts were last replaced. -/
theorem C85_filter_builder (partition : Bytes) (l : List FilterSetting) :
    (discoveryFilterOf partition l = none ↔ partition = [] ∨ (∀ a, ¬ FilterAccount l a) ∨ FilterAccount l []) ∧
    ∀ f, discoveryFilterOf partition l = some f → f.partition = partition ∧ ∀ a, a ∈ f.accounts ↔ FilterAccount l a := by
  unfold discoveryFilterOf discoveryFilterBuild
  have hn : l.foldl applyFilterSetting [] = [] ↔ ∀ a, ¬ FilterAccount l a := by
    rw [List.eq_nil_iff_forall_not_mem]
    exact forall_congr' fun a => not_congr (filterAccount_iff l a)
  constructor
  · by_cases h1 : l.foldl applyFilterSetting [] = []
    · rw [if_pos h1]; exact iff_of_true rfl (.inr (.inl (hn.1 h1)))
    · rw [if_neg h1]
      by_cases h2 : partition = []
      · rw [if_pos h2]; exact iff_of_true rfl (.inl h2)
      · rw [if_neg h2]
        by_cases h3 : [] ∈ l.foldl applyFilterSetting []
        · rw [if_pos h3]; exact iff_of_true rfl (.inr (.inr ((filterAccount_iff l []).1 h3)))
        · rw [if_neg h3]
          refine iff_of_false (fun h => by cases h) ?_
          rintro (h | h | h)
          · exact h2 h
          · exact h1 (hn.2 h)
          · exact h3 ((filterAccount_iff l []).2 h)
  · intro f h
    split at h
    · cases h
    · split at h
      · cases h
      · split at h
        · cases h
        · cases h
          exact ⟨rfl, fun a => filterAccount_iff l a⟩

example : discoveryFilterOf (ascii "aws") [.add (ascii "1"), .replace [ascii "2"], .adds [ascii "3", ascii "4"]] =
    some ⟨ascii "aws", [ascii "2", ascii "3", ascii "4"]⟩ := by decide +kernel

/-- **C85.**  No call throws, if no keyring with a single key is built with a client supplier of the user. -/
theorem C85_no_exception {P : KmsJob → Prop} (hP : ∀ job o, P job → ¬ OneKey job (.custom o)) {n : Nat} {s : KmsSys} (h : KmsReach P n s)
    (t : Nat) (th : KmsThread) (ht : s.threads[t]? = some (some th)) : th.prog ≠ .done .threw := by
  intro hd
  obtain ⟨hp, cur, ok, ti⟩ := (kmsReach_inv h).threads t th ht
  rcases ti.good with hg | ⟨-, o, ho⟩
  · rw [hd] at hg
    exact (hg _ (List.prefix_refl _)).2 rfl
  · exact hP _ o hp ho

/-- **C85.**  With such a client supplier that has no client, and sets no `report_success`, the builder of a keyring with one key throws; the
documentation says that encryption with the keyring fails then. -/
theorem C85_null_client_throws :
    ∃ s th, KmsReach (fun job => job = .build [.supplier (some (.custom 0))] arn1 []) 1 s ∧ s.threads[0]? = some (some th) ∧
      th.prog = .done .threw := by
  let job : KmsJob := .build [.supplier (some (.custom 0))] arn1 []
  have r0 : KmsReach (fun j => j = job) 1 _ := .start 0 job .init rfl rfl trivial
  have hh : ∀ s, Honest s 0 {} := fun s th obj i region k _ _ c hc => by cases hc
  have r1 := KmsReach.step 0 {} r0 (hh _)
  have r2 := KmsReach.step 0 {} r1 (hh _)
  exact ⟨_, { job := job, prog := .done .threw, report := .unset }, r2, rfl, rfl⟩

example : ¬ OneKey (.build [.supplier (some (.custom 0))] arn1 [arn2]) (.custom 0) ∧ OneKey (.build [.supplier (some (.custom 0))] arn1 []) (.custom 0) := by
  refine ⟨?_, [.supplier (some (.custom 0))], rfl, rfl, .inl ⟨arn1, rfl⟩⟩
  rintro ⟨l, -, -, ⟨id, h⟩ | ⟨id, h⟩⟩ <;> cases h

/-! ### C86: the caching client supplier -/

/-- **C86.**  A caching client supplier has at most one client for a region, and it is a client for that region. -/
theorem C86_cache {P : KmsJob → Prop} {n : Nat} {s : KmsSys} (h : KmsReach P n s) {m : List (Bytes × Nat)} (hm : m ∈ s.caches) :
    (∀ r c c', (r, c) ∈ m → (r, c') ∈ m → c = c') ∧ ∀ r c, (r, c) ∈ m → s.regions[c]? = some r := by
  have hi := (kmsReach_inv h).caches m hm
  refine ⟨fun r c c' h1 h2 => ?_, fun r c h => hi.2 _ h⟩
  have : ∀ m : List (Bytes × Nat), (m.map (·.1)).Nodup → (r, c) ∈ m → (r, c') ∈ m → c = c' := by
    intro m
    induction m with
    | nil => intro _ h; cases h
    | cons e m ih =>
      intro hn h1 h2
      rw [List.map_cons, List.nodup_cons] at hn
      rcases List.mem_cons.1 h1 with h1 | h1 <;> rcases List.mem_cons.1 h2 with h2 | h2
      · rw [← h1] at h2; exact (Prod.ext_iff.1 h2).2.symm
      · exact absurd (List.mem_map.2 ⟨_, h2, by rw [← h1]⟩) hn.1
      · exact absurd (List.mem_map.2 ⟨_, h1, by rw [← h2]⟩) hn.1
      · exact ih hn.2 h1 h2
  exact this m hi.1 h1 h2

/-- **C86.**  It keeps only clients with which KMS was called successfully ("only when a KMS call succeeds", kms_keyring.h:199-205), if no
keyring with a single key is built with it. -/
theorem C86_used {P : KmsJob → Prop} (hP : ∀ job o, P job → ¬ OneKey job (.caching o)) {n : Nat} {s : KmsSys} (h : KmsReach P n s)
    {m : List (Bytes × Nat)} (hm : m ∈ s.caches) {r : Bytes} {c : Nat} (hc : (r, c) ∈ m) :
    ∃ job call, (job, call, true) ∈ s.log ∧ call.client = c := by
  rcases (kmsReach_inv h).used m hm _ hc with h | ⟨job, o, hp, ho⟩
  · exact h
  · exact absurd ho (hP job o hp)

example : (play 1 decryptRun).caches = [[(ascii "eu-central-1", 1)]] ∧ (play 1 decryptRun).log.map (fun x => (x.2.1.client, x.2.2)) = [(0, false), (1, true)] := by
  decide +kernel

/-- **C86.**  A client with which a KMS keyring called KMS successfully is entered, if there was none for the region: when no thread is in a
call, the supplier has clients for the regions of all keys for which it was used successfully. -/
theorem C86_entered {P : KmsJob → Prop} {n : Nat} {s : KmsSys} (h : KmsReach P n s) (hidle : ∀ (t : Nat) th, s.threads[t]? ≠ some (some th))
    {job : KmsJob} {call : KmsCall} (hm : (job, call, true) ∈ s.log) {o : Nat} (ho : UsesCaching o job) :
    ∃ region c, ClientRegion call.keyId region ∧ s.cached o region = some c := by
  rcases (repInv h).log job call hm o ho with h | ⟨t, th, k, c, ht, -⟩
  · obtain ⟨c, hc⟩ := Option.isSome_iff_exists.1 h
    exact ⟨_, c, clientRegion_iff.2 rfl, hc⟩
  · exact absurd ht (hidle t th)

example : UsesCaching 0 decryptJob ∧ (play 1 decryptRun).threads.map Option.isSome = [false] := by
  refine ⟨rfl, by decide +kernel⟩

/-- **C86.**  Building a keyring with one key enters a client although KMS was never called. -/
theorem C86_unused_refuted :
    ∃ s m r c, KmsReach (fun _ => True) 1 s ∧ m ∈ s.caches ∧ (r, c) ∈ m ∧ s.log.map (·.2.1.client) = [] := by
  let l : List KmsAct := [.makeSupplier, .start 0 (.build cachingSettings arn1 []), .step 0 {}, .step 0 {}, .step 0 {}]
  have hr := play_reach (p := fun _ => true) (n := 1) (l := l) (by decide +kernel)
  refine ⟨play 1 l, [(ascii "us-west-2", 0)], ascii "us-west-2", 0, by simpa using hr, by decide +kernel, by decide +kernel, by decide +kernel⟩

/-- **C86.**  A region for which it has a client stays so. -/
theorem C86_stays (s : KmsSys) (t : Nat) (ch : KmsChoice) (o : Nat) (r : Bytes) (h : (s.cached o r).isSome = true) :
    ((s.step t ch).cached o r).isSome = true := by
  rcases step_cached s t ch o r with e | ⟨th, k, c, -, -, -, e⟩
  · rw [e]; exact h
  · rw [e]; rfl

/-- **C86.**  In a program with one thread it gives the same client for a region ever after, and makes no other. -/
theorem C86_one_client {P : KmsJob → Prop} {s : KmsSys} (h : KmsReach P 1 s) {o c : Nat} {r : Bytes} (hc : s.cached o r = some c) (ch : KmsChoice) :
    (s.step 0 ch).cached o r = some c ∧
    ∀ th i k, s.threads[0]? = some (some th) → th.prog = .client (.caching o) i r k →
      (s.step 0 ch).regions = s.regions ∧ ∃ th', (s.step 0 ch).threads[0]? = some (some th') ∧ th'.prog = k (some c) := by
  have inv := seqInv h
  constructor
  · rcases step_cached s 0 ch o r with e | ⟨th, k, c', ht, hp, hr, e⟩
    · rw [e]; exact hc
    · rcases inv.store th ht o r c' hr with h | h
      · rw [h] at hc; cases hc
      · rw [h] at hc; rw [e]; exact hc
  · intro th i k ht hp
    have hm : ¬ th.missed = true := by
      intro hm
      obtain ⟨o', i', r', k', hp', hn⟩ := inv.missed th ht hm
      rw [hp] at hp'; cases hp'
      rw [hc] at hn; cases hn
    have hl : cacheLookup (s.caches.getD o []) r = some c := hc
    have hno : ¬ s.caches.length ≤ o := by
      intro h
      rw [List.getD_eq_getElem?_getD, List.getElem?_eq_none h] at hl
      cases hl
    have e : s.step 0 ch = { s with threads := s.threads.set 0 (some { th with prog := k (some c), report := .noop }) } := by
      unfold KmsSys.step
      simp only [ht, hp, hl, if_neg hm, if_neg hno]
    rw [e]
    refine ⟨rfl, { th with prog := k (some c), report := .noop }, ?_, rfl⟩
    dsimp only
    rw [List.getElem?_set, if_pos rfl, if_pos (by rw [inv.len]; omega)]

example : (play 1 decryptRun).cached 0 (ascii "eu-central-1") = some 1 ∧
    (play 1 (decryptRun ++ [.start 0 raceJob, .step 0 {}, opened 0 arn2])).log.map (fun x => (x.2.1.client, x.2.2)) =
      [(0, false), (1, true), (1, true)] := by decide +kernel

/-- **C86.**  With two threads this is false: both call KMS successfully for one key, through one supplier, with two clients; the second
replaces the first in the map. -/
theorem C86_two_clients_refuted :
    ∃ s, KmsReach (fun _ => True) 2 s ∧ s.log.map (fun x => (x.2.1.client, x.2.1.keyId, x.2.2)) = [(0, arn2, true), (1, arn2, true)] ∧
      s.cached 0 (ascii "eu-central-1") = some 0 ∧ (s.step 1 {}).cached 0 (ascii "eu-central-1") = some 1 := by
  have hr := play_reach (p := fun _ => true) (n := 2) (l := raceRun) (by decide +kernel)
  exact ⟨play 2 raceRun, by simpa using hr, by decide +kernel, by decide +kernel, by decide +kernel⟩

/-- **C86.**  Building multi-keyrings enters no clients. -/
theorem C86_multi_never_caches {P : KmsJob → Prop} (hP : ∀ job, P job → BuildsMulti job) {n : Nat} {s : KmsSys} (h : KmsReach P n s) :
    ∀ m ∈ s.caches, m = [] := (multiInv hP h).caches

/- Two keys of one region: two clients are made. -/
example : let l : List KmsAct := [.makeSupplier, .start 0 (.multi [.supplier (some (.caching 0))] true (fun _ => true) (some arn1) [mrkWest]),
      .step 0 {}, .step 0 {}, .step 0 {}, .step 0 {}, .step 0 {}]
    okActs (fun _ => true) { threads := List.replicate 1 none } l = true ∧ (play 1 l).regions = [ascii "us-west-2", ascii "us-west-2"] ∧
      (play 1 l).built.map (·.2) = [.mrk ⟨arn1, [], [], none⟩ (.single (some 0)), .mrk ⟨mrkWest, [], [], none⟩ (.single (some 1))] := by
  decide +kernel

end Verif.Props
