import Verif.Spec.WrapIntegrity
import Verif.Proof.Stack
import Verif.Proof.KeyringTree
/-
The data key that a user's raw keyrings return was opened by one of them; contexts are bound by the additional data.
-/
namespace Verif.Proof
open Verif Verif.Spec Verif.Props

theorem aes_key_opened {env : KrEnv} {kr : RawAes} {edks : List Edk} {ctx : EncCtx} {alg : Nat} {s s' : DecState} {res : KRet} {k : KeyBuf}
    (hd : DistinctKeys ctx) (hs : s.key = none) (h : keyringOnDecrypt (aesKeyring env kr) edks ctx alg s = (res, s'))
    (hk : s'.key = some k) : ∃ e ∈ edks, AesOpens env kr ctx alg e k.bytes := by
  cases hx : aesOnDecrypt env kr edks ctx alg s with
  | mk r1 s1 =>
    have hkey : s1.key = some k := by
      simp only [keyringOnDecrypt, aesKeyring, hs, hx] at h
      simp only [Option.isSome_none, Bool.false_eq_true, if_false] at h
      repeat' split at h
      all_goals cases h
      all_goals first | exact hk | (simp_all)
    cases r1 with
    | ok => exact firstOpened_mem (((aesOnDecrypt_ok hd hx).1 k.bytes).mp (by rw [hkey]; rfl))
    | fail => rw [aesOnDecrypt_fail hx, hs] at hkey; cases hkey
    | ub =>
      unfold aesOnDecrypt at hx
      repeat' split at hx
      all_goals cases hx
      rw [hs] at hkey; cases hkey

theorem list_opened {edks : List Edk} {ctx : EncCtx} {alg : Nat} {w : World} {k : KeyBuf} :
    ∀ (rs : List RawKr) (i : Nat) (failed : Bool) (s : DecState), s.key = none →
      (multiDecLoop edks ctx alg failed (keyringsFrom w i rs) s).2.key = some k →
      ∃ r ∈ rs, ∃ i s res s', keyringOnDecrypt (r.keyring (w.krEnv i)) edks ctx alg s = (res, s') ∧ s.key = none ∧ s'.key = some k := by
  intro rs
  induction rs with
  | nil => intro i failed s hs h; simp [keyringsFrom, multiDecLoop, hs] at h
  | cons r rs ih =>
    intro i failed s hs h
    simp only [keyringsFrom, multiDecLoop] at h
    cases hx : keyringOnDecrypt (r.keyring (w.krEnv i)) edks ctx alg s with
    | mk res s' =>
      simp only [hx] at h
      cases hk : s'.key with
      | some k' =>
        have : k' = k := by
          cases res <;> simp [hk] at h <;> exact h
        subst this
        exact ⟨r, by simp, i, s, res, s', hx, hs, hk⟩
      | none =>
        have : ∃ f, (multiDecLoop edks ctx alg f (keyringsFrom w (i + 1) rs) s').2.key = some k := by
          cases res <;> simp only [hk] at h
          · exact ⟨_, h⟩
          · exact ⟨_, h⟩
          · cases h
        obtain ⟨f, hf⟩ := this
        obtain ⟨r', hr', rest⟩ := ih (i + 1) f s' hk hf
        exact ⟨r', by simp [hr'], rest⟩

theorem user_opened {w : World} {alg : Nat} {ctx : EncCtx} {kr : UserKr} {edks : List Edk} {s s' : DecState} {res : KRet} {k : KeyBuf}
    (hs : s.key = none) (h : keyringOnDecrypt (kr.keyring w) edks ctx alg s = (res, s')) (hk : s'.key = some k) :
    ∃ r ∈ members kr, ∃ i s res s', keyringOnDecrypt (r.keyring (w.krEnv i)) edks ctx alg s = (res, s') ∧ s.key = none ∧ s'.key = some k := by
  cases kr with
  | one x => exact ⟨x, by simp [members], 0, s, res, s', h, hs, hk⟩
  | multi gen children =>
    obtain ⟨i, hi⟩ := multi_members w gen children
    cases hx : multiOnDecrypt (gen.map (RawKr.keyring (w.krEnv 0))) (keyringsFrom w 1 children) edks ctx alg s with
    | mk r1 s1 =>
      have hkey : s1.key = some k := by
        simp only [UserKr.keyring, keyringOnDecrypt, multiKeyring, hs, hx] at h
        simp only [Option.isSome_none, Bool.false_eq_true, if_false] at h
        repeat' split at h
        all_goals cases h
        all_goals first | exact hk | (simp_all)
      have : (multiOnDecrypt (gen.map (RawKr.keyring (w.krEnv 0))) (keyringsFrom w 1 children) edks ctx alg s).2.key = some k := by
        rw [hx]; exact hkey
      unfold multiOnDecrypt at this
      rw [hi] at this
      exact list_opened (members (.multi gen children)) i false s hs this

/-- The additional data of two contexts that fit the format are equal only for equal maps. -/
theorem ctxAad_inj {c c' : EncCtx} {aad : Bytes} (hd : DistinctKeys c) (hd' : DistinctKeys c') (hl : wireLen c ≤ 65535)
    (hl' : wireLen c' ≤ 65535) (h : CtxAad c aad) (h' : CtxAad c' aad) : c.Perm c' := by
  rw [ctxAad_iff hd] at h
  rw [ctxAad_iff hd'] at h'
  rw [wireLen_eq] at hl hl'
  have e1 := encCtxParse_ctxBytes hd hl
  have e2 := encCtxParse_ctxBytes hd' hl'
  rw [← h, h', e2] at e1
  simp at e1
  exact ((sortByKey_perm c).symm.trans (by rw [e1])).trans (sortByKey_perm c')

/-! ### trees of keyrings -/

/-- If the keyring leaves a data key, it satisfies `P`. -/
def FindsOnly (kr : Keyring) (edks : List Edk) (ctx : EncCtx) (alg : Nat) (P : Bytes → Prop) : Prop :=
  ∀ s : DecState, s.key = none → ∀ k, (keyringOnDecrypt kr edks ctx alg s).2.key = some k → P k.bytes

theorem findsOnly_of {f : List Edk → EncCtx → Nat → DecState → KRet × DecState} {g : Option (EncCtx → Nat → EncState → KRet × EncState)}
    {edks : List Edk} {ctx : EncCtx} {alg : Nat} {P : Bytes → Prop}
    (h : ∀ s : DecState, s.key = none → ∀ k, (f edks ctx alg s).2.key = some k → P k.bytes) : FindsOnly ⟨g, some f⟩ edks ctx alg P := by
  intro s hs k hk
  refine h s hs k ?_
  simp only [keyringOnDecrypt, hs] at hk
  simp only [Option.isSome_none, Bool.false_eq_true, if_false] at hk
  generalize f edks ctx alg s = x at hk ⊢
  obtain ⟨r, s'⟩ := x
  repeat' split at hk
  all_goals first | exact hk | (simp_all)

theorem loop_only {edks : List Edk} {ctx : EncCtx} {alg : Nat} {P : Bytes → Prop} : ∀ (krs : List Keyring) (failed : Bool) (s : DecState),
    s.key = none → (∀ kr ∈ krs, FindsOnly kr edks ctx alg P) → ∀ k, (multiDecLoop edks ctx alg failed krs s).2.key = some k → P k.bytes := by
  intro krs
  induction krs with
  | nil => intro failed s hs _ k hk; simp [multiDecLoop, hs] at hk
  | cons kr krs ih =>
    intro failed s hs hr k hk
    have hn := hr kr (by simp) s hs
    simp only [multiDecLoop] at hk
    cases hx : keyringOnDecrypt kr edks ctx alg s with
    | mk res s' =>
      rw [hx] at hn hk
      cases hkey : s'.key with
      | some k' =>
        have : k' = k := by
          cases res <;> simp [hkey] at hk <;> exact hk
        subst this
        exact hn k' hkey
      | none =>
        cases res with
        | ub => simp only [hkey] at hk; cases hk
        | ok => simp only [hkey] at hk; exact ih _ s' hkey (fun x hx => hr x (by simp [hx])) k hk
        | fail => simp only [hkey] at hk; exact ih _ s' hkey (fun x hx => hr x (by simp [hx])) k hk

theorem multi_only {m : MultiAlloc} {gen : Option Keyring} {children : List Keyring} {edks : List Edk} {ctx : EncCtx} {alg : Nat}
    {P : Bytes → Prop} (h : ∀ kr ∈ gen.toList ++ children, FindsOnly kr edks ctx alg P) : FindsOnly (multiKeyring m gen children) edks ctx alg P :=
  findsOnly_of (fun s hs => loop_only _ false s hs h)

mutual
theorem tree_only {b : Around} {edks : List Edk} {ctx : EncCtx} {alg : Nat} {P : Bytes → Prop} :
    ∀ (t : KrTree) (p : List Nat), (∀ y ∈ leaves p t, FindsOnly (y.2.keyring b y.1) edks ctx alg P) → FindsOnly (t.keyring b p) edks ctx alg P
  | .leaf l, p, h => by
    rw [KrTree.keyring]
    rw [leaves] at h
    exact h (p, l) (by simp)
  | .multi children, p, h => by
    rw [KrTree.keyring]
    rw [leaves] at h
    exact multi_only (by simpa using trees_only children p 1 h)
  | .multiGen gen children, p, h => by
    rw [KrTree.keyring]
    rw [leaves] at h
    refine multi_only (fun kr hkr => ?_)
    rcases List.mem_append.mp hkr with hkr | hkr
    · simp only [Option.toList_some, List.mem_singleton] at hkr
      subst hkr
      exact tree_only gen (0 :: p) (fun y hy => h y (by simp [hy]))
    · exact trees_only children p 1 (fun y hy => h y (by simp [hy])) kr hkr
theorem trees_only {b : Around} {edks : List Edk} {ctx : EncCtx} {alg : Nat} {P : Bytes → Prop} :
    ∀ (ts : List KrTree) (p : List Nat) (i : Nat), (∀ y ∈ leavesFrom p i ts, FindsOnly (y.2.keyring b y.1) edks ctx alg P) →
      ∀ kr ∈ keyringsAt b p i ts, FindsOnly kr edks ctx alg P
  | [], p, i, h => by
    rw [keyringsAt]; simp
  | t :: ts, p, i, h => by
    rw [keyringsAt]
    rw [leavesFrom] at h
    intro kr hkr
    rcases List.mem_cons.mp hkr with rfl | hkr
    · exact tree_only t (i :: p) (fun y hy => h y (by simp [hy]))
    · exact trees_only ts p (i + 1) (fun y hy => h y (by simp [hy])) kr hkr
end

/-- What a keyring that is not a multi-keyring finds is the data key of a message with the context. -/
theorem leaf_only {A : Around → Prop} {M : View → WrittenMessage → Prop} (hR : AllReadable M) {a : Around} (ha : A a) {p : List Nat} {l : Leaf}
    (hl : LeafIntact A M p l) {edks : List Edk} {ctx : EncCtx} (hd : DistinctKeys ctx) (hlen : wireLen ctx ≤ 65535) {alg : Nat}
    (halg : ∃ row ∈ suiteTable, row.id = alg) :
    FindsOnly (l.keyring a p) edks ctx alg (fun key => ∃ w b, M w b ∧ b.hd.encCtx.Perm ctx ∧ key = b.m.dataKey) := by
  cases l with
  | raw r =>
    cases r with
    | aes kr =>
      intro s hs k hk
      obtain ⟨edk, -, -, -, -, iv, ct, tag, aad, -, haad, hopen⟩ := aes_key_opened (env := (a.at p).krEnv 0) (kr := kr) hd hs rfl hk
      obtain ⟨v, b, hb, hkey, hctx⟩ := hl a ha iv aad ct tag _ hopen
      exact ⟨v, b, hb, ctxAad_inj (hR v b hb).ctxKeys hd (hR v b hb).ctxFits hlen hctx haad, hkey⟩
    | rsa kr =>
      have hl : kr.priv = none := hl
      refine findsOnly_of (fun s hs k hk => ?_)
      exfalso
      simp only [rsaOnDecrypt, hl] at hk
      simp [hs] at hk
  | kms kr =>
    obtain ⟨hne, hl⟩ := hl
    refine findsOnly_of (fun s hs k hk => ?_)
    rcases C54_kms_decrypt (a.kms p) kr edks ctx s with ⟨calls, rep, hn, he⟩ |
      ⟨e', used, pt, calls, ⟨pre, post, before, rep, region', c', rfl, _, ht', hcl, hdd, rfl⟩, he⟩
    · simp only [he] at hk; rw [hs] at hk; cases hk
    · rcases he with ⟨-, he⟩ | ⟨-, -, -, he⟩ | ⟨hu, -, trace, errno, -, he⟩
      · simp only [he] at hk; rw [hs] at hk; cases hk
      · simp only [he] at hk; rw [hs] at hk; cases hk
      · simp only [he] at hk
        split at hk
        · cases hk
        · cases hk
          rw [hu] at hdd
          obtain ⟨v, b, hb, hkey, hp⟩ := hl a ha _ (ht'.1.2.1 hne) _ _ _ _ _ hdd
          exact ⟨v, b, hb, hp, hkey⟩
  | mrk kr =>
    obtain ⟨hne, hl⟩ := hl
    refine findsOnly_of (fun s hs k hk => ?_)
    rcases C56_mrk_decrypt (a.kms p) kr edks ctx halg hs with ⟨calls, rep, hn, he⟩ |
      ⟨e', keyId', used, pt, calls, ⟨pre, post, before, rep, region', c', rfl, _, ht', hcl, hdd, rfl⟩, hrej, he⟩
    · simp only [he] at hk
      split at hk <;> (simp only at hk; rw [hs] at hk; cases hk)
    · simp only [Rejects, not_or, Classical.not_not] at hrej
      obtain ⟨-, _, _, _, _, _, -, -, ⟨-, -, hkid, -⟩ | ⟨h0, -⟩⟩ := ht'
      · rcases he with ⟨-, he⟩ | ⟨-, trace, errno, -, he⟩
        · simp only [he] at hk; rw [hs] at hk; cases hk
        · simp only [he] at hk
          cases hk
          rw [hrej.1, hkid] at hdd
          obtain ⟨v, b, hb, hkey, hp⟩ := hl a ha _ _ _ _ _ hdd
          exact ⟨v, b, hb, hp, hkey⟩
      · exact absurd h0 hne

end Verif.Proof
