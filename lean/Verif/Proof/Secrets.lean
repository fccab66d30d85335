import Verif.Spec.Secrets
/-
A Hoare logic for `Verif.Secrets.SM`: which blocks are live, which of them are known to be blank, and that all blocks released so far were
blank unless their place allows otherwise.
-/
namespace Verif.Secrets
open Verif Verif.Spec

/-- The live blocks are those of `l`; those of `C` are blank; released blocks were blank or released at a place in `A`. -/
structure Own (A : Site → Prop) (l C : List Nat) (m : Mem) : Prop where
  nodup : l.Nodup
  dom : ∀ a, m.live a ≠ none ↔ a ∈ l
  fresh : ∀ a ∈ l, a < m.next
  clean : ∀ a ∈ C, ∀ b, m.live a = some b → Blank b
  left : ∀ x ∈ m.left, Blank x.2 ∨ A x.1

structure Tri (P : Mem → Prop) (f : SM α) (Q : α → Mem → Prop) : Prop where
  run : ∀ s m, P m → Q (f s m).1 (f s m).2

theorem Tri.bind {P : Mem → Prop} {f : SM α} {R : α → Mem → Prop} {g : α → SM β} {Q : β → Mem → Prop} (h₁ : Tri P f R)
    (h₂ : ∀ a, Tri (R a) (g a) Q) : Tri P (f >>= g) Q := ⟨fun s m hP => (h₂ _).run s _ (h₁.run s m hP)⟩

theorem Tri.pure {P : Mem → Prop} {a : α} {Q : α → Mem → Prop} (h : ∀ m, P m → Q a m) : Tri P (pure a) Q := ⟨fun _ m hP => h m hP⟩

theorem Tri.weaken {P P' : Mem → Prop} {f : SM α} {Q Q' : α → Mem → Prop} (h : Tri P f Q) (hp : ∀ m, P' m → P m)
    (hq : ∀ a m, Q a m → Q' a m) : Tri P' f Q' := ⟨fun s m hP => hq _ _ (h.run s m (hp m hP))⟩

theorem Tri.ite {P : Mem → Prop} {c : Prop} [Decidable c] {f g : SM α} {Q : α → Mem → Prop} (h₁ : c → Tri P f Q) (h₂ : ¬c → Tri P g Q) :
    Tri P (if c then f else g) Q := by
  split
  · exact h₁ ‹_›
  · exact h₂ ‹_›

variable {A : Site → Prop} {l C : List Nat}

theorem Own.perm {m : Mem} {l' : List Nat} (h : Own A l C m) (hp : l.Perm l') : Own A l' C m :=
  ⟨hp.nodup_iff.1 h.nodup, fun a => (h.dom a).trans hp.mem_iff, fun a ha => h.fresh a (hp.mem_iff.2 ha), h.clean, h.left⟩

theorem Own.sub {m : Mem} {C' : List Nat} (h : Own A l C m) (hs : ∀ a ∈ C', a ∈ C) : Own A l C' m :=
  ⟨h.nodup, h.dom, h.fresh, fun a ha => h.clean a (hs a ha), h.left⟩

theorem Own.forget {m : Mem} (h : Own A l C m) : Own A l [] m := h.sub (by simp)

theorem Own.mono {m : Mem} {A' : Site → Prop} (h : Own A l C m) (hs : ∀ x, A x → A' x) : Own A' l C m :=
  ⟨h.nodup, h.dom, h.fresh, h.clean, fun x hx => (h.left x hx).imp_right (hs _)⟩

theorem blank_replicate (n : Nat) : Blank (List.replicate n 0) := fun _ hx => (List.mem_replicate.1 hx).2

theorem tri_alloc (n : Nat) : Tri (Own A l C) (alloc n) (fun p => Own A (p :: l) (p :: C)) := by
  constructor
  intro s m h
  have hn : m.next ∉ l := fun hm => Nat.lt_irrefl _ (h.fresh _ hm)
  refine ⟨List.nodup_cons.2 ⟨hn, h.nodup⟩, ?_, ?_, ?_, h.left⟩
  · intro a
    show (if a = m.next then some (List.replicate n 0) else m.live a) ≠ none ↔ a ∈ m.next :: l
    by_cases ha : a = m.next
    · simp [ha]
    · rw [if_neg ha, h.dom a, List.mem_cons]
      exact ⟨Or.inr, fun hh => hh.resolve_left ha⟩
  · intro a ha
    rcases List.mem_cons.1 ha with rfl | ha
    · exact Nat.lt_succ_self _
    · exact Nat.lt_succ_of_lt (h.fresh a ha)
  · intro a ha b hb
    change (if a = m.next then some (List.replicate n 0) else m.live a) = some b at hb
    by_cases hn : a = m.next
    · rw [if_pos hn] at hb
      obtain rfl := Option.some.inj hb
      exact blank_replicate n
    · rw [if_neg hn] at hb
      exact h.clean a ((List.mem_cons.1 ha).resolve_left hn) b hb

theorem change_live {p a : Nat} {f : Bytes → Bytes} {m : Mem} : (change p f m).live a = if a = p then (m.live a).map f else m.live a := rfl

theorem own_change {m : Mem} (p : Nat) (f : Bytes → Bytes) (h : Own A l C m) (hf : p ∈ C → ∀ b, Blank b → Blank (f b)) :
    Own A l C (change p f m) := by
  refine ⟨h.nodup, ?_, h.fresh, ?_, h.left⟩
  · intro a
    rw [change_live, ← h.dom a]
    by_cases ha : a = p
    · rw [if_pos ha]; cases m.live a <;> simp
    · rw [if_neg ha]
  · intro a ha b hb
    rw [change_live] at hb
    by_cases hp : a = p
    · rw [if_pos hp] at hb
      obtain ⟨b', hb', rfl⟩ := Option.map_eq_some_iff.1 hb
      exact hf (hp ▸ ha) b' (h.clean a ha b' hb')
    · rw [if_neg hp] at hb
      exact h.clean a ha b hb

theorem tri_write (p off n : Nat) (f : List Bytes → Bytes) (srcs : List Nat) (hp : p ∉ C) :
    Tri (Own A l C) (write p off n f srcs) (fun _ => Own A l C) := ⟨fun _ _ h => own_change p _ h (fun hh => absurd hh hp)⟩

theorem tri_copy (p n src : Nat) (hp : p ∉ C) : Tri (Own A l C) (copy p n src) (fun _ => Own A l C) := tri_write _ _ _ _ _ hp

theorem tri_draw (p n : Nat) (hp : p ∉ C) : Tri (Own A l C) (draw p n) (fun _ => Own A l C) := ⟨fun s m h =>
  let h' := own_change p (fun old => splice old 0 (fit n (s m.draws))) h (fun hh => absurd hh hp)
  ⟨h'.nodup, h'.dom, h'.fresh, h'.clean, h'.left⟩⟩

theorem blank_fit {n : Nat} : Blank (fit n []) := by
  intro x hx
  unfold fit at hx
  exact blank_replicate n x (by simpa using List.mem_of_mem_take hx)

theorem blank_splice {old new : Bytes} {off : Nat} (h₁ : Blank old) (h₂ : Blank new) : Blank (splice old off new) := by
  intro x hx
  have hx := List.mem_of_mem_take hx
  rcases List.mem_append.1 hx with hx | hx
  · rcases List.mem_append.1 hx with hx | hx
    · exact h₁ x (List.mem_of_mem_take hx)
    · exact h₂ x hx
  · exact h₁ x (List.mem_of_mem_drop hx)

theorem tri_zero (p off n : Nat) : Tri (Own A l C) (zero p off n) (fun _ => Own A l C) := ⟨fun _ _ h =>
  own_change p _ h (fun _ _ hb => blank_splice hb blank_fit)⟩

theorem tri_wipe (p : Nat) : Tri (Own A l C) (wipe p) (fun _ => Own A l (p :: C)) := by
  constructor
  intro s m h
  have h' := own_change p (fun old => List.replicate old.length 0) h (fun _ _ _ => blank_replicate _)
  refine ⟨h'.nodup, h'.dom, h'.fresh, ?_, h'.left⟩
  intro a ha b hb
  rcases List.mem_cons.1 ha with rfl | ha
  · change (change a _ m).live a = some b at hb
    rw [change_live, if_pos rfl] at hb
    obtain ⟨b', _, rfl⟩ := Option.map_eq_some_iff.1 hb
    exact blank_replicate _
  · exact h'.clean a ha b hb

theorem tri_release {site : Site} {p : Nat} (h : p ∈ C ∨ A site) :
    Tri (Own A (p :: l) C) (release site p) (fun _ => Own A l C) := by
  constructor
  intro s m ho
  have hn := List.nodup_cons.1 ho.nodup
  refine ⟨hn.2, ?_, fun a ha => ho.fresh a (List.mem_cons_of_mem _ ha), ?_, ?_⟩
  · intro a
    show (if a = p then none else m.live a) ≠ none ↔ a ∈ l
    by_cases ha : a = p
    · subst ha; simp [hn.1]
    · rw [if_neg ha, ho.dom a, List.mem_cons]
      exact ⟨fun hh => hh.resolve_left ha, Or.inr⟩
  · intro a ha b hb
    change (if a = p then none else m.live a) = some b at hb
    by_cases hp : a = p
    · rw [if_pos hp] at hb; cases hb
    · rw [if_neg hp] at hb; exact ho.clean a ha b hb
  · intro x hx
    change x ∈ (match m.live p with | some b => [(site, b)] | none => []) ++ m.left at hx
    rcases List.mem_append.1 hx with hx | hx
    · cases hb : m.live p with
      | none => rw [hb] at hx; cases hx
      | some b =>
        rw [hb] at hx
        obtain rfl := List.mem_singleton.1 hx
        exact h.imp (fun hc => ho.clean p hc b hb) id
    · exact ho.left x hx

theorem Tri.pre {P P' : Mem → Prop} {f : SM α} {Q : α → Mem → Prop} (h : Tri P f Q) (hp : ∀ m, P' m → P m) : Tri P' f Q :=
  h.weaken hp (fun _ _ h => h)

theorem Tri.post {P : Mem → Prop} {f : SM α} {Q Q' : α → Mem → Prop} (h : Tri P f Q) (hq : ∀ a m, Q a m → Q' a m) : Tri P f Q' :=
  h.weaken (fun _ h => h) hq

theorem tri_alloc' (n : Nat) : Tri (Own A l C) (alloc n) (fun p => Own A (p :: l) C) :=
  (tri_alloc n).post fun _ _ h => h.sub fun _ ha => List.mem_cons_of_mem _ ha

theorem tri_wipeRelease {site : Site} {p : Nat} : Tri (Own A (p :: l) C) (wipeRelease site p) (fun _ => Own A l C) :=
  (tri_wipe p).bind fun _ => (tri_release (.inl (List.mem_cons_self ..))).post fun _ _ h => h.sub fun _ ha => List.mem_cons_of_mem _ ha

/-- `wipe` and `release` followed by something else. -/
theorem tri_wipeRelease_bind {site : Site} {p : Nat} {k : SM α} {Q : α → Mem → Prop} (h : Tri (Own A l C) k Q) :
    Tri (Own A (p :: l) C) (do wipe p; release site p; k) Q :=
  (tri_wipe p).bind fun _ => Tri.bind (R := fun _ => Own A l C)
    ((tri_release (.inl (List.mem_cons_self ..))).post fun _ _ h => h.sub fun _ ha => List.mem_cons_of_mem _ ha) fun _ => h

/-! ### Key derivation -/

theorem tri_hkdfRounds (F : Fns) (sha : Sha) (info : Bytes) (plan : HkdfPlan) (prk t okm off : Nat) (n idx remaining : Nat) :
    Tri (Own A l []) (hkdfRounds F sha info plan prk t okm off n idx remaining) (fun _ => Own A l []) := by
  induction n generalizing idx remaining with
  | zero => exact Tri.pure fun _ h => h
  | succ n ih =>
    unfold hkdfRounds
    refine (tri_write _ _ _ _ _ (by simp)).bind fun _ => ?_
    refine Tri.ite (fun _ => Tri.pure fun _ h => h) fun _ => ?_
    exact (tri_write _ _ _ _ _ (by simp)).bind fun _ => ih _ _

theorem tri_hkdfExpandS (F : Fns) (sha : Sha) (info : Bytes) (plan : HkdfPlan) (prk okm off len : Nat) :
    Tri (Own A l []) (hkdfExpandS F sha info plan prk okm off len) (fun _ => Own A l []) := by
  unfold hkdfExpandS
  refine (tri_alloc' _).bind fun t => ?_
  refine (tri_hkdfRounds ..).bind fun ok => ?_
  refine Tri.ite (fun _ => ?_) fun _ => ?_
  · exact tri_wipeRelease_bind (Tri.pure fun _ h => h)
  · exact (tri_zero _ _ _).bind fun _ => tri_wipeRelease_bind (Tri.pure fun _ h => h)

theorem tri_hkdfS (F : Fns) (sha : Sha) (salt info : Bytes) (plan : HkdfPlan) (ikm okm off len : Nat) :
    Tri (Own A l []) (hkdfS F sha salt info plan ikm okm off len) (fun _ => Own A l []) := by
  unfold hkdfS
  refine Tri.ite (fun _ => ?_) fun _ => ?_
  · refine (tri_alloc' _).bind fun prk => ?_
    refine (tri_write _ _ _ _ _ (by simp)).bind fun _ => ?_
    refine Tri.ite (fun _ => ?_) fun _ => ?_
    · refine (tri_hkdfExpandS ..).bind fun ok => ?_
      exact tri_wipeRelease_bind (Tri.pure fun _ h => h)
    · refine ((tri_wipe prk).post fun _ _ h => h.forget).bind fun _ => ?_
      exact tri_wipeRelease_bind (Tri.pure fun _ h => h)
  · refine (tri_write _ _ _ _ _ (by simp)).bind fun _ => ?_
    refine Tri.ite (fun _ => Tri.pure fun _ h => h) fun _ => ?_
    exact (tri_zero _ _ _).bind fun _ => Tri.pure fun _ h => h

theorem tri_deriveKeyS (F : Fns) (p : AlgProps) (plan : KdfPlan) (dk sess : Nat) :
    Tri (Own A l []) (deriveKeyS F p plan dk sess) (fun _ => Own A l []) := by
  unfold deriveKeyS
  refine Tri.ite (fun _ => ?_) fun _ => ?_
  · refine Tri.ite (fun _ => ?_) fun _ => Tri.pure fun _ h => h
    refine (tri_zero _ _ _).bind fun _ => ?_
    refine Tri.ite (fun _ => ?_) fun _ => tri_hkdfS ..
    exact (tri_copy _ _ _ (by simp)).bind fun _ => Tri.pure fun _ h => h
  · refine Tri.ite (fun _ => ?_) fun _ => Tri.pure fun _ h => h
    refine (tri_zero _ _ _).bind fun _ => (tri_zero _ _ _).bind fun _ => (tri_hkdfS ..).bind fun _ => ?_
    exact Tri.ite (fun _ => tri_hkdfS ..) fun _ => Tri.pure fun _ h => h

/-! ### Keyrings -/

theorem tri_encLeaf (e : EncLeaf) (len : Nat) (hA : e.wrapOk = false → A e.kind.site) :
    Tri (Own A l []) (encLeaf e len none) (fun r => Own A (r.2.toList ++ l) []) := by
  unfold encLeaf
  refine Tri.ite (fun _ => ?_) fun _ => Tri.pure fun _ h => h
  refine (tri_alloc' _).bind fun k => (tri_draw _ _ (by simp)).bind fun _ => ?_
  refine Tri.ite (fun _ => ?_) fun _ => Tri.ite (fun _ => ?_) fun hw => ?_
  · exact tri_wipeRelease_bind (Tri.pure fun _ h => h)
  · exact Tri.pure fun _ h => h
  · exact (tri_release (.inr (hA (by simpa using hw)))).bind fun _ => Tri.pure fun _ h => h

mutual
/-- A keyring that gets a data key leaves memory alone. -/
theorem tri_onEncrypt_some : ∀ (e : EncPlan) (len k : Nat),
    Tri (Own A l C) (onEncrypt e len (some k)) (fun r m => r.2 = some k ∧ Own A l C m)
  | .leaf e, len, k => by unfold onEncrypt encLeaf; exact Tri.pure fun _ h => ⟨rfl, h⟩
  | .idle, len, k => by unfold onEncrypt; exact Tri.pure fun _ h => ⟨rfl, h⟩
  | .multi none cs t, len, k => by
    unfold onEncrypt
    exact (tri_onEncryptList cs len k).bind fun r => Tri.pure fun _ h => h
  | .multi (some g) cs t, len, k => by
    unfold onEncrypt
    refine (tri_onEncrypt_some g len k).bind fun r => ?_
    obtain ⟨b, k'⟩ := r
    cases b with
    | false => exact Tri.pure fun _ h => h
    | true =>
      cases k' with
      | none => exact Tri.pure fun _ h => h
      | some k' =>
        refine Tri.bind (R := fun r m => r.2 = some k ∧ Own A l C m) ⟨fun s m h => ?_⟩ fun r => Tri.pure fun _ h => h
        obtain rfl := Option.some.inj h.1
        exact (tri_onEncryptList cs len k').run s m h.2
theorem tri_onEncryptList : ∀ (cs : List EncPlan) (len k : Nat),
    Tri (Own A l C) (onEncryptList cs len (some k)) (fun r m => r.2 = some k ∧ Own A l C m)
  | [], len, k => by unfold onEncryptList; exact Tri.pure fun _ h => ⟨rfl, h⟩
  | c :: cs, len, k => by
    unfold onEncryptList
    refine (tri_onEncrypt_some c len k).bind fun r => ?_
    refine Tri.ite (fun _ => ⟨fun s m h => ?_⟩) fun _ => Tri.pure fun _ h => h
    rw [h.1]
    exact (tri_onEncryptList cs len k).run s m h.2
end

theorem tri_onEncrypt : ∀ (e : EncPlan) (len : Nat), (∀ k, WrapFails k e → A k.site) →
    Tri (Own A l []) (onEncrypt e len none) (fun r => Own A (r.2.toList ++ l) [])
  | .leaf e, len, hA => by
    unfold onEncrypt
    exact tri_encLeaf e len fun h => hA _ (.leaf rfl h)
  | .idle, len, hA => by unfold onEncrypt; exact Tri.pure fun _ h => h
  | .multi none cs t, len, hA => by unfold onEncrypt; exact Tri.pure fun _ h => h
  | .multi (some g) cs t, len, hA => by
    unfold onEncrypt
    refine (tri_onEncrypt g len fun k h => hA k (.gen h)).bind fun r => ?_
    obtain ⟨b, k⟩ := r
    cases b with
    | false => exact Tri.pure fun _ h => h
    | true =>
      cases k with
      | none => exact Tri.pure fun _ h => h
      | some k =>
        refine (tri_onEncryptList cs len k).bind fun r => ?_
        refine Tri.pure fun _ h => ?_
        rw [h.1]; exact h.2

theorem tri_aesAttempts (len k : Nat) (as : List Attempt) :
    Tri (Own A l [k]) (aesAttempts len k as) (fun ok => Own A l (if ok then [] else [k])) := by
  induction as with
  | nil => exact Tri.pure fun _ h => h
  | cons a as ih =>
    cases a with
    | skipped => exact ih
    | failed n =>
      refine Tri.pre (P := Own A l []) ?_ fun _ h => h.forget
      exact (tri_draw _ _ (by simp)).bind fun _ => (tri_wipe k).bind fun _ => ih
    | works n =>
      refine Tri.pre (P := Own A l []) ?_ fun _ h => h.forget
      exact (tri_draw _ _ (by simp)).bind fun _ => Tri.pure fun _ h => h

theorem tri_rsaAttempts (as : List Attempt) : Tri (Own A l []) (rsaAttempts as) (fun k => Own A (k.toList ++ l) []) := by
  induction as with
  | nil => exact Tri.pure fun _ h => h
  | cons a as ih =>
    cases a with
    | skipped => exact ih
    | failed n =>
      exact (tri_alloc' _).bind fun k => (tri_draw _ _ (by simp)).bind fun _ => tri_wipeRelease.bind fun _ => ih
    | works n => exact (tri_alloc' _).bind fun k => (tri_draw _ _ (by simp)).bind fun _ => Tri.pure fun _ h => h

theorem tri_kmsAttempts (as : List Attempt) : Tri (Own A l []) (kmsAttempts as) (fun k => Own A (k.toList ++ l) []) := by
  induction as with
  | nil => exact Tri.pure fun _ h => h
  | cons a as ih =>
    cases a with
    | skipped => exact ih
    | failed n => exact ih
    | works n => exact (tri_alloc' _).bind fun k => (tri_draw _ _ (by simp)).bind fun _ => Tri.pure fun _ h => h

theorem tri_decLeaf (d : DecLeaf) (len : Nat) : Tri (Own A l []) (decLeaf d len) (fun r => Own A (r.2.toList ++ l) []) := by
  unfold decLeaf
  refine Tri.ite (fun _ => ?_) fun _ => Tri.pure fun _ h => h
  cases d.kind with
  | aes =>
    refine (tri_alloc _).bind fun k => (tri_aesAttempts ..).bind fun ok => ?_
    cases ok with
    | true => exact Tri.pure fun _ h => h
    | false => exact (tri_release (.inl (List.mem_cons_self ..))).bind fun _ => Tri.pure fun _ h => h.forget
  | rsa => exact (tri_rsaAttempts _).bind fun k => Tri.pure fun _ h => h
  | kms => exact (tri_kmsAttempts _).bind fun k => Tri.pure fun _ h => h

mutual
theorem tri_onDecrypt : ∀ (d : DecPlan) (len : Nat), Tri (Own A l []) (onDecrypt d len) (fun r => Own A (r.2.toList ++ l) [])
  | .leaf d, len => by unfold onDecrypt; exact tri_decLeaf d len
  | .multi none cs, len => by unfold onDecrypt; exact tri_onDecryptList cs len true
  | .multi (some g) cs, len => by
    unfold onDecrypt
    refine (tri_onDecrypt g len).bind fun r => ?_
    obtain ⟨b, k⟩ := r
    cases k with
    | some k => exact Tri.pure fun _ h => h
    | none => exact tri_onDecryptList cs len b
theorem tri_onDecryptList : ∀ (cs : List DecPlan) (len : Nat) (ret : Bool),
    Tri (Own A l []) (onDecryptList cs len ret) (fun r => Own A (r.2.toList ++ l) [])
  | [], len, ret => by unfold onDecryptList; exact Tri.pure fun _ h => h
  | c :: cs, len, ret => by
    unfold onDecryptList
    refine (tri_onDecrypt c len).bind fun r => ?_
    obtain ⟨b, k⟩ := r
    cases k with
    | some k => exact Tri.pure fun _ h => h
    | none => exact tri_onDecryptList cs len _
end

/-! ### Materials, CMMs and the cache -/

theorem tri_materialsDestroy (k : Option Nat) : Tri (Own A (k.toList ++ l) C) (materialsDestroy k) (fun _ => Own A l C) := by
  cases k with
  | none => exact Tri.pure fun _ h => h
  | some k => exact tri_wipeRelease

theorem tri_generateS (ready : Bool) (kr : EncPlan) (len : Nat) (hA : ∀ k, WrapFails k kr → A k.site) :
    Tri (Own A l []) (generateS ready kr len) (fun r => Own A (r.join.toList ++ l) []) := by
  unfold generateS
  refine Tri.ite (fun _ => ?_) fun _ => Tri.pure fun _ h => h
  refine (tri_onEncrypt kr len hA).bind fun r => ?_
  refine Tri.ite (fun _ => Tri.pure fun _ h => h) fun _ => ?_
  exact (tri_materialsDestroy r.2).bind fun _ => Tri.pure fun _ h => h

theorem tri_decryptS (kr : DecPlan) (c : Bool) (len : Nat) :
    Tri (Own A l []) (decryptS kr c len) (fun r => Own A (r.toList ++ l) []) := by
  unfold decryptS
  refine (tri_onDecrypt kr len).bind fun r => ?_
  obtain ⟨b, k⟩ := r
  cases b with
  | false => exact (tri_materialsDestroy k).bind fun _ => Tri.pure fun _ h => h
  | true =>
    cases k with
    | none => exact (tri_materialsDestroy none).bind fun _ => Tri.pure fun _ h => h
    | some k =>
      refine Tri.ite (fun _ => Tri.pure fun _ h => h) fun _ => ?_
      exact (tri_materialsDestroy (some k)).bind fun _ => Tri.pure fun _ h => h

/-- Blocks of an entry. -/
def Entry.blocks (e : Entry) : List Nat := e.key.toList ++ e.priv.toList

theorem tri_entryDestroy (e : Entry) : Tri (Own A (e.blocks ++ l) C) (entryDestroy e) (fun _ => Own A l C) := by
  unfold entryDestroy
  refine (Tri.pre (tri_materialsDestroy (l := e.priv.toList ++ l) e.key) fun _ h => by
    rw [← List.append_assoc]; exact h).bind fun _ => ?_
  cases e.priv with
  | none => exact Tri.pure fun _ h => h
  | some p => exact tri_wipeRelease

theorem tri_getPrivkeyS (plan : PrivPlan) (n pub : Nat) : Tri (Own A l []) (getPrivkeyS plan n pub) (fun r => Own A (r.toList ++ l) []) := by
  have cleanup : ∀ (arr buf : Nat) (l' : List Nat) (r : Option Nat), Tri (Own A (buf :: arr :: l') [])
      (do wipe arr; wipe buf; release .privKeyBuf buf; release .privKeyArr arr; pure r : SM (Option Nat)) (fun _ => Own A l' []) := by
    intro arr buf l' r
    refine (tri_wipe _).bind fun _ => (tri_wipe _).bind fun _ => (tri_release (by simp)).bind fun _ => (tri_release (by simp)).bind fun _ => ?_
    exact Tri.pure fun _ h => h.forget
  have cleanup' : ∀ (arr buf : Nat) (l' : List Nat) (r : Option Nat), Tri (Own A (buf :: arr :: l') [])
      (do wipe arr; wipe buf; release .privKeyBuf buf; release .privKeyArr arr; pure r : SM (Option Nat)) (fun x m => x = r ∧ Own A l' [] m) :=
    fun arr buf l' r => ⟨fun s m h => ⟨rfl, (cleanup arr buf l' r).run s m h⟩⟩
  unfold getPrivkeyS
  refine (tri_alloc' _).bind fun arr => ?_
  cases plan with
  | early => exact tri_wipeRelease_bind (Tri.pure fun _ h => h)
  | middle =>
    refine (tri_alloc' _).bind fun buf => (tri_draw _ _ (by simp)).bind fun _ => ?_
    exact (cleanup' arr buf l none).post fun _ _ h => by obtain ⟨rfl, h⟩ := h; exact h
  | late =>
    refine (tri_alloc' _).bind fun buf => (tri_draw _ _ (by simp)).bind fun _ => (tri_write _ _ _ _ _ (by simp)).bind fun _ => ?_
    exact (cleanup' arr buf l none).post fun _ _ h => by obtain ⟨rfl, h⟩ := h; exact h
  | ok =>
    refine (tri_alloc' _).bind fun buf => (tri_draw _ _ (by simp)).bind fun _ => (tri_write _ _ _ _ _ (by simp)).bind fun _ => ?_
    refine (tri_alloc' _).bind fun str => (tri_copy _ _ _ (by simp)).bind fun _ => ?_
    refine Tri.weaken (cleanup' arr buf (str :: l) (some str)) (fun _ h => h.perm ?_) fun _ _ h => by obtain ⟨rfl, h⟩ := h; exact h
    exact (List.Perm.swap buf str (arr :: l)).trans (List.Perm.cons buf (List.Perm.swap arr str l))

theorem tri_copyKeyS (ok : Bool) (src : Option Nat) (len : Nat) :
    Tri (Own A l []) (copyKeyS ok src len) (fun r => Own A (r.toList ++ l) []) := by
  unfold copyKeyS
  cases ok with
  | false => exact Tri.pure fun _ h => h
  | true =>
    cases src with
    | none => exact Tri.pure fun _ h => h
    | some k => exact (tri_alloc' _).bind fun c => (tri_copy _ _ _ (by simp)).bind fun _ => Tri.pure fun _ h => h

theorem tri_putEntryS (plan : PutPlan) (mat : Option Nat) (len : Nat) :
    Tri (Own A l []) (putEntryS plan mat len) (fun r => Own A (r.toList.flatMap Entry.blocks ++ l) []) := by
  unfold putEntryS
  refine Tri.ite (fun _ => ?_) fun _ => Tri.pure fun _ h => h
  refine (tri_copyKeyS ..).bind fun c => ?_
  have hd : Tri (Own A (c.toList ++ l) []) (do entryDestroy { key := c, keyLen := len, priv := none }; pure none : SM (Option Entry))
      (fun r => Own A (r.toList.flatMap Entry.blocks ++ l) []) :=
    (Tri.pre (tri_entryDestroy (l := l) { key := c, keyLen := len, priv := none }) fun _ h => by
      show Own A ((c.toList ++ []) ++ l) _ _; simpa using h).bind fun _ => Tri.pure fun _ h => h
  refine Tri.ite (fun _ => ?_) fun _ => hd
  cases plan.priv with
  | none =>
    refine Tri.ite (fun _ => Tri.pure fun _ h => ?_) fun _ => hd
    show Own A ((((c.toList ++ []) ++ []) ++ l)) _ _
    simpa using h
  | some x =>
    obtain ⟨pp, n, pub⟩ := x
    refine (tri_getPrivkeyS pp n pub).bind fun p => ?_
    cases p with
    | none => exact hd
    | some p =>
      refine Tri.ite (fun _ => Tri.pure fun _ h => ?_) fun _ => ?_
      · show Own A (((c.toList ++ [p]) ++ []) ++ l) _ _
        refine h.perm ?_
        simpa using (List.perm_middle (a := p) (l₁ := c.toList) (l₂ := l)).symm
      · refine (Tri.pre (tri_entryDestroy (l := l) { key := c, keyLen := len, priv := some p }) fun _ h => ?_).bind fun _ =>
          Tri.pure fun _ h => h
        refine h.perm ?_
        show ([p] ++ (c.toList ++ l)).Perm ((c.toList ++ [p]) ++ l)
        simpa using (List.perm_middle (a := p) (l₁ := c.toList) (l₂ := l)).symm

theorem tri_getMaterialsS (a b : Bool) (e : Entry) :
    Tri (Own A l []) (getMaterialsS a b e) (fun r => Own A (r.join.toList ++ l) []) := by
  unfold getMaterialsS
  refine (tri_copyKeyS ..).bind fun c => ?_
  refine Tri.ite (fun _ => Tri.pure fun _ h => h) fun _ => ?_
  exact (tri_materialsDestroy c).bind fun _ => Tri.pure fun _ h => h

/-! ### Sessions -/

theorem tri_tryGenKeyS (F : Fns) (p : AlgProps) (plan : GenPlan) (sess : Nat) (mat : Option (Option Nat)) :
    Tri (Own A (mat.join.toList ++ l) []) (tryGenKeyS F p plan sess mat) (fun _ => Own A l []) := by
  unfold tryGenKeyS
  refine (tri_alloc' _).bind fun frame => ?_
  have htail : ∀ ok : Bool, Tri (Own A (frame :: l) []) (do wipe frame; release .genKeyFrame frame; pure ok : SM Bool) (fun _ => Own A l []) :=
    fun _ => tri_wipeRelease_bind (Tri.pure fun _ h => h)
  match mat with
  | none => exact Tri.bind (Tri.pure fun _ h => h) fun _ => Tri.bind (Tri.pure fun _ h => h) fun _ => htail _
  | some none => exact Tri.bind (Tri.pure fun _ h => h) fun _ => Tri.bind (Tri.pure fun _ h => h) fun _ => htail _
  | some (some k) =>
    refine Tri.bind (R := fun _ => Own A (frame :: k :: l) []) ?_ fun ok => ?_
    · refine Tri.ite (fun _ => ?_) fun _ => Tri.pure fun _ h => h
      refine (tri_copy _ _ _ (by simp)).bind fun _ => ?_
      refine Tri.ite (fun _ => ?_) fun _ => Tri.pure fun _ h => h
      exact (tri_deriveKeyS ..).bind fun _ => Tri.pure fun _ h => h
    · refine Tri.bind (R := fun _ => Own A (frame :: l) []) ?_ fun _ => htail _
      refine ((tri_wipe k).post fun _ _ h => h.forget).bind fun _ => ?_
      exact Tri.pre (tri_materialsDestroy (some k)) fun _ h => h.perm (List.Perm.swap ..)

theorem tri_deriveDataKeyS (F : Fns) (p : AlgProps) (plan : UnwrapPlan) (sess k : Nat) (hA : A .deriveFrame) :
    Tri (Own A l []) (deriveDataKeyS F p plan sess k) (fun _ => Own A l []) := by
  unfold deriveDataKeyS
  refine Tri.ite (fun _ => ?_) fun _ => Tri.pure fun _ h => h
  refine (tri_alloc' _).bind fun frame => (tri_copy _ _ _ (by simp)).bind fun _ => (tri_deriveKeyS ..).bind fun _ => ?_
  exact (tri_release (.inr hA)).bind fun _ => Tri.pure fun _ h => h

theorem tri_unwrapKeysS (F : Fns) (p : AlgProps) (plan : UnwrapPlan) (sess : Nat) (mat : Option Nat) (hA : A .deriveFrame) :
    Tri (Own A (mat.toList ++ l) []) (unwrapKeysS F p plan sess mat) (fun _ => Own A l []) := by
  unfold unwrapKeysS
  cases mat with
  | none => exact Tri.pure fun _ h => h
  | some k =>
    refine Tri.ite (fun _ => ?_) fun _ => ?_
    · exact (tri_deriveDataKeyS F p plan sess k hA).bind fun _ => (tri_materialsDestroy (some k)).bind fun _ => Tri.pure fun _ h => h
    · exact (tri_materialsDestroy (some k)).bind fun _ => Tri.pure fun _ h => h

theorem tri_sessionDestroyS (s : Nat) : Tri (Own A (s :: l) []) (sessionDestroyS s) (fun _ => Own A l []) :=
  (tri_zero _ _ _).bind fun _ => tri_wipeRelease

/-! ### Programs -/

theorem perm_eraseIdx {xs : List α} {i : Nat} {x : α} (h : xs[i]? = some x) : xs.Perm (x :: xs.eraseIdx i) := by
  induction xs generalizing i with
  | nil => cases h
  | cons y ys ih =>
    cases i with
    | zero => obtain rfl := Option.some.inj h; exact List.Perm.refl _
    | succ i => exact (List.Perm.cons y (ih h)).trans (List.Perm.swap ..)

theorem blocksOf_eq (o : Objs) : blocksOf o = o.sessions ++ o.entries.flatMap Entry.blocks ++ o.keys := rfl

theorem tri_encMaterials (p : AlgProps) (o : Objs) (src : EncSource)
    (hA : ∀ ready kr put, src = .fresh ready kr put → ∀ k, WrapFails k kr → A k.site) :
    Tri (Own A (blocksOf o) []) (encMaterials p o src)
      (fun r m => r.2.sessions = o.sessions ∧ Own A (r.1.join.toList ++ blocksOf r.2) [] m) := by
  cases src with
  | fresh ready kr put =>
    refine (tri_generateS ready kr p.dataKeyLen (hA _ _ _ rfl)).bind fun mat => ?_
    match mat, put with
    | none, put => exact Tri.pure fun _ h => ⟨rfl, h⟩
    | some k, none => exact Tri.pure fun _ h => ⟨rfl, h⟩
    | some k, some pp =>
      refine (tri_putEntryS pp k p.dataKeyLen).bind fun e => ?_
      refine Tri.pure fun _ h => ⟨rfl, h.perm ?_⟩
      show (e.toList.flatMap Entry.blocks ++ (k.toList ++ blocksOf o)).Perm
        (k.toList ++ (o.sessions ++ (o.entries ++ e.toList).flatMap Entry.blocks ++ o.keys))
      rw [blocksOf_eq, List.flatMap_append]
      generalize e.toList.flatMap Entry.blocks = E
      generalize o.entries.flatMap Entry.blocks = X
      have h₁ : (E ++ (k.toList ++ (o.sessions ++ X ++ o.keys))).Perm ((k.toList ++ (o.sessions ++ X ++ o.keys)) ++ E) := List.perm_append_comm
      refine h₁.trans ?_
      have h₂ : (o.keys ++ E).Perm (E ++ o.keys) := List.perm_append_comm
      simpa [List.append_assoc] using (((h₂.append_left X).append_left o.sessions).append_left k.toList)
  | hit j a b =>
    simp only [encMaterials]
    cases o.entries[j]? with
    | none => exact Tri.pure fun _ h => ⟨rfl, h⟩
    | some e => exact (tri_getMaterialsS a b e).bind fun mat => Tri.pure fun _ h => ⟨rfl, h⟩

theorem tri_decMaterials (p : AlgProps) (o : Objs) (src : DecSource) :
    Tri (Own A (blocksOf o) []) (decMaterials p o src)
      (fun r m => r.2.sessions = o.sessions ∧ Own A (r.1.toList ++ blocksOf r.2) [] m) := by
  cases src with
  | fresh kr c put =>
    refine (tri_decryptS kr c p.dataKeyLen).bind fun mat => ?_
    match mat, put with
    | none, put => exact Tri.pure fun _ h => ⟨rfl, h⟩
    | some k, none => exact Tri.pure fun _ h => ⟨rfl, h⟩
    | some k, some pp =>
      refine (tri_putEntryS pp (some k) p.dataKeyLen).bind fun e => ?_
      refine Tri.pure fun _ h => ⟨rfl, h.perm ?_⟩
      show (e.toList.flatMap Entry.blocks ++ ([k] ++ blocksOf o)).Perm
        ([k] ++ (o.sessions ++ (o.entries ++ e.toList).flatMap Entry.blocks ++ o.keys))
      rw [blocksOf_eq, List.flatMap_append]
      generalize e.toList.flatMap Entry.blocks = E
      generalize o.entries.flatMap Entry.blocks = X
      have h₁ : (E ++ ([k] ++ (o.sessions ++ X ++ o.keys))).Perm (([k] ++ (o.sessions ++ X ++ o.keys)) ++ E) := List.perm_append_comm
      refine h₁.trans ?_
      have h₂ : (o.keys ++ E).Perm (E ++ o.keys) := List.perm_append_comm
      simpa [List.append_assoc] using (((h₂.append_left X).append_left o.sessions).append_left [k])
  | hit j a b =>
    simp only [decMaterials]
    cases o.entries[j]? with
    | none => exact Tri.pure fun _ h => ⟨rfl, h⟩
    | some e => exact (tri_getMaterialsS a b e).bind fun mat => Tri.pure fun _ h => ⟨rfl, h⟩

theorem tri_opStep (F : Fns) (o : Objs) (op : Op) (hA : ∀ x, LeavesAt op x → A x) :
    Tri (Own A (blocksOf o) []) (opStep F o op) (fun o' => Own A (blocksOf o') []) := by
  cases op with
  | newSession =>
    refine (tri_alloc' _).bind fun s => Tri.pure fun _ h => h.perm ?_
    rw [blocksOf_eq, blocksOf_eq]
    simpa [List.append_assoc] using (List.perm_middle (a := s) (l₁ := o.sessions)
      (l₂ := o.entries.flatMap Entry.blocks ++ o.keys)).symm
  | resetSession i =>
    simp only [opStep]
    cases hi : o.sessions[i]? with
    | none => exact Tri.pure fun _ h => h
    | some s => exact (tri_zero _ _ _).bind fun _ => Tri.pure fun _ h => h
  | destroySession i =>
    simp only [opStep]
    cases hi : o.sessions[i]? with
    | none => exact Tri.pure fun _ h => h
    | some s =>
      refine (Tri.pre (tri_sessionDestroyS (l := blocksOf { o with sessions := o.sessions.eraseIdx i }) s) fun _ h => h.perm ?_).bind fun _ =>
        Tri.pure fun _ h => h
      rw [blocksOf_eq, blocksOf_eq, ← List.cons_append, ← List.cons_append]
      exact ((perm_eraseIdx hi).append_right _).append_right _
  | encrypt i p src plan =>
    simp only [opStep]
    cases hi : o.sessions[i]? with
    | none => exact Tri.pure fun _ h => h
    | some s =>
      refine (tri_encMaterials p o src fun ready kr put hs k hk => hA _ (.wrap (by rw [hs]) hk)).bind fun r => ?_
      refine Tri.bind (Tri.pre (tri_tryGenKeyS F p plan s r.1) fun _ h => h.2) fun _ => Tri.pure fun _ h => h
  | decrypt i p src plan =>
    simp only [opStep]
    cases hi : o.sessions[i]? with
    | none => exact Tri.pure fun _ h => h
    | some s =>
      refine (tri_decMaterials p o src).bind fun r => ?_
      refine Tri.bind (Tri.pre (tri_unwrapKeysS F p plan s r.1 (hA _ (.derive rfl))) fun _ h => h.2) fun _ => Tri.pure fun _ h => h
  | evict j =>
    simp only [opStep]
    cases hi : o.entries[j]? with
    | none => exact Tri.pure fun _ h => h
    | some e =>
      refine (Tri.pre (tri_entryDestroy (l := blocksOf { o with entries := o.entries.eraseIdx j }) e) fun _ h => h.perm ?_).bind fun _ =>
        Tri.pure fun _ h => h
      rw [blocksOf_eq, blocksOf_eq]
      have h₁ := ((perm_eraseIdx hi).flatMap_right Entry.blocks)
      rw [List.flatMap_cons] at h₁
      refine ((h₁.append_left o.sessions).append_right o.keys).trans ?_
      have h₂ : (o.sessions ++ e.blocks).Perm (e.blocks ++ o.sessions) := List.perm_append_comm
      simpa [List.append_assoc] using (h₂.append_right ((o.entries.eraseIdx j).flatMap Entry.blocks ++ o.keys))
  | newKeyring n =>
    refine (tri_alloc' _).bind fun k => (tri_draw _ _ (by simp)).bind fun _ => Tri.pure fun _ h => h.perm ?_
    rw [blocksOf_eq, blocksOf_eq]
    have := (List.perm_append_comm (l₁ := [k]) (l₂ := o.sessions ++ o.entries.flatMap Entry.blocks ++ o.keys))
    simpa [List.append_assoc] using this
  | destroyKeyring j =>
    simp only [opStep]
    cases hi : o.keys[j]? with
    | none => exact Tri.pure fun _ h => h
    | some k =>
      refine (Tri.pre (tri_wipeRelease (l := blocksOf { o with keys := o.keys.eraseIdx j }) (p := k)) fun _ h => h.perm ?_).bind fun _ =>
        Tri.pure fun _ h => h
      rw [blocksOf_eq, blocksOf_eq]
      refine ((perm_eraseIdx hi).append_left _).trans ?_
      exact List.perm_middle

theorem tri_runOps (F : Fns) (o : Objs) (ops : List Op) (hA : ∀ op ∈ ops, ∀ x, LeavesAt op x → A x) :
    Tri (Own A (blocksOf o) []) (runOps F o ops) (fun o' => Own A (blocksOf o') []) := by
  induction ops generalizing o with
  | nil => exact Tri.pure fun _ h => h
  | cons op ops ih =>
    refine (tri_opStep F o op (hA op (List.mem_cons_self ..))).bind fun o' => ?_
    exact ih o' fun op' ho => hA op' (List.mem_cons_of_mem _ ho)

theorem own_start : Own A [] [] {} where
  nodup := List.nodup_nil
  dom := by simp
  fresh := by simp
  clean := by simp
  left := by simp

theorem own_runOps (F : Fns) (secrets : Nat → Bytes) (ops : List Op) :
    Own (fun x => ∃ op ∈ ops, LeavesAt op x) (blocksOf (runOps F {} ops secrets {}).1) [] (runOps F {} ops secrets {}).2 :=
  (tri_runOps F {} ops (fun op ho _ hx => ⟨op, ho, hx⟩)).run secrets {} own_start

/-! ### Contents -/

theorem splice_zero_take (old : Bytes) (n : Nat) : Blank ((splice old 0 (List.replicate n 0)).take n) := by
  intro x hx
  unfold splice at hx
  rw [List.take_zero, List.nil_append, List.take_take] at hx
  have hx := List.take_subset_take_left (l := List.replicate n 0 ++ List.drop (0 + (List.replicate n (0 : UInt8)).length) old)
    (Nat.min_le_left n old.length) hx
  rw [List.take_append_of_le_length (by simp), List.take_of_length_le (by simp)] at hx
  exact blank_replicate n x hx

theorem fit_nil (n : Nat) : fit n [] = List.replicate n 0 := by simp [fit]

theorem fit_self {n : Nat} {b : Bytes} (h : b.length = n) : fit n b = b := by
  unfold fit; rw [List.take_append_of_le_length (by omega), List.take_of_length_le (by omega)]

theorem splice_all {n : Nat} {old b : Bytes} (h : b.length = n) (ho : old.length = n) : splice old 0 b = b := by
  unfold splice
  rw [List.take_zero, List.nil_append, List.drop_of_length_le (by omega), List.append_nil, List.take_of_length_le (by omega)]

end Verif.Secrets
