import Verif.Model.Bytes
namespace Verif

@[simp] theorem length_be (n v : Nat) : (be n v).length = n := by
  induction n generalizing v with
  | zero => rfl
  | succ n ih => simp [be, ih]

theorem unbe_snoc (bs : Bytes) (b : UInt8) : unbe (bs ++ [b]) = unbe bs * 256 + b.toNat := by
  simp [unbe, List.foldl_append]

@[simp] theorem unbe_nil : unbe [] = 0 := rfl

theorem unbe_be {n v : Nat} (h : v < 256 ^ n) : unbe (be n v) = v := by
  induction n generalizing v with
  | zero => simp at h; subst h; rfl
  | succ n ih =>
    have h1 : v / 256 < 256 ^ n := by
      rw [Nat.pow_succ] at h; omega
    simp [be, unbe_snoc, ih h1]
    omega

theorem unbe_be_mod (n v : Nat) : unbe (be n v) = v % 256 ^ n := by
  induction n generalizing v with
  | zero => simp [be, Nat.mod_one]
  | succ n ih =>
    simp only [be, unbe_snoc, ih]
    have : (UInt8.ofNat (v % 256)).toNat = v % 256 := by simp
    rw [this, Nat.pow_succ, Nat.mul_comm (256^n) 256, Nat.mod_mul]
    omega

theorem unbe_lt (bs : Bytes) : unbe bs < 256 ^ bs.length := by
  induction h : bs.length generalizing bs with
  | zero => simp at h; subst h; simp
  | succ n ih =>
    obtain ⟨l, b, rfl⟩ : ∃ l b, bs = l ++ [b] :=
      ⟨bs.dropLast, bs.getLast (by intro hn; simp [hn] at h),
        (List.dropLast_concat_getLast _).symm⟩
    simp at h
    have := ih l h
    rw [unbe_snoc, Nat.pow_succ]
    have hb := b.toNat_lt
    omega

theorem be_unbe (bs : Bytes) : be bs.length (unbe bs) = bs := by
  induction h : bs.length generalizing bs with
  | zero => simp at h; subst h; rfl
  | succ n ih =>
    obtain ⟨l, b, rfl⟩ : ∃ l b, bs = l ++ [b] :=
      ⟨bs.dropLast, bs.getLast (by intro hn; simp [hn] at h),
        (List.dropLast_concat_getLast _).symm⟩
    simp at h
    have hb := b.toNat_lt
    have e1 : unbe (l ++ [b]) / 256 = unbe l := by rw [unbe_snoc]; omega
    have e2 : unbe (l ++ [b]) % 256 = b.toNat := by rw [unbe_snoc]; omega
    simp [be, e1, e2, ih l h]

theorem be_inj {n a b : Nat} (ha : a < 256 ^ n) (hb : b < 256 ^ n) (h : be n a = be n b) : a = b := by
  have := congrArg unbe h
  rwa [unbe_be ha, unbe_be hb] at this

theorem be_zero (n : Nat) : be n 0 = List.replicate n 0 := by
  induction n with
  | zero => rfl
  | succ n ih => simp [be, ih, List.replicate_succ']

/-! ### reads -/

theorem rd_append (c t : Bytes) : rd c.length (c ++ t) = some (c, t) := by
  simp [rd]

theorem rd_append' {n : Nat} {c : Bytes} (h : c.length = n) (t : Bytes) : rd n (c ++ t) = some (c, t) := by
  subst h; exact rd_append c t

theorem rd_some {n : Nat} {bs x r : Bytes} (h : rd n bs = some (x, r)) : bs = x ++ r ∧ x.length = n := by
  unfold rd at h
  split at h
  · simp only [Option.some.injEq, Prod.mk.injEq] at h
    obtain ⟨rfl, rfl⟩ := h
    simp; omega
  · cases h

theorem rd_none {n : Nat} {bs : Bytes} : rd n bs = none ↔ bs.length < n := by
  unfold rd; split <;> simp <;> omega

theorem rdN_append {n : Nat} {c : Bytes} (h : c.length = n) (t : Bytes) : rdN n (c ++ t) = .ok (c, t) := by
  simp [rdN, rd_append' h]

theorem rdBE_append {n v : Nat} (h : v < 256 ^ n) (t : Bytes) : rdBE n (be n v ++ t) = .ok (v, t) := by
  simp [rdBE, rd_append' (length_be n v), unbe_be h]

theorem rdBE_append_mod (n v : Nat) (t : Bytes) : rdBE n (be n v ++ t) = .ok (v % 256 ^ n, t) := by
  simp [rdBE, rd_append' (length_be n v), unbe_be_mod]

theorem rdN_ok {n : Nat} {bs x r : Bytes} (h : rdN n bs = .ok (x, r)) : bs = x ++ r ∧ x.length = n := by
  unfold rdN at h
  split at h
  · rename_i y hy; simp at h; subst h; exact rd_some hy
  · cases h

theorem rdBE_ok {n v : Nat} {bs r : Bytes} (h : rdBE n bs = .ok (v, r)) : bs = be n v ++ r ∧ v < 256 ^ n := by
  unfold rdBE at h
  split at h
  · rename_i x r' hx
    simp at h
    obtain ⟨rfl, rfl⟩ := h
    obtain ⟨rfl, rfl⟩ := rd_some hx
    exact ⟨by rw [be_unbe], unbe_lt _⟩
  · cases h

/-! ### Streaming parsers -/

/-- A parser is *streaming* when an accepted input is accepted with the same value whatever follows the
consumed part, every proper prefix of the consumed part is reported as short, and an error other than
"short" does not go away when more bytes are supplied. -/
structure Streaming (p : P α) : Prop where
  ok : ∀ xs a r, p xs = .ok (a, r) → ∃ c, xs = c ++ r ∧ (∀ t, p (c ++ t) = .ok (a, t)) ∧
        ∀ q t, c = q ++ t → t ≠ [] → p q = .error .shortBuffer
  bad : ∀ xs e, p xs = .error e → e ≠ .shortBuffer → ∀ t, p (xs ++ t) = .error e

theorem P.bind_def (p : P α) (f : α → P β) (bs : Bytes) :
    (p >>= f) bs = match p bs with
      | .error e => .error e
      | .ok (a, r) => f a r := rfl

theorem P.pure_def (a : α) (bs : Bytes) : (Pure.pure a : P α) bs = .ok (a, bs) := rfl

theorem P.bind_ok {p : P α} {f : α → P β} {bs : Bytes} {a : α} {r : Bytes} (h : p bs = .ok (a, r)) :
    (p >>= f) bs = f a r := by
  rw [P.bind_def, h]

theorem P.bind_eq_ok {p : P α} {f : α → P β} {bs : Bytes} {x : β × Bytes} :
    (p >>= f) bs = .ok x ↔ ∃ a r, p bs = .ok (a, r) ∧ f a r = .ok x := by
  rw [P.bind_def]
  constructor
  · intro h
    split at h
    · cases h
    · rename_i a r h'; exact ⟨a, r, h', h⟩
  · rintro ⟨a, r, h1, h2⟩; rw [h1]; exact h2

namespace Streaming

theorem pure (a : α) : Streaming (Pure.pure a : P α) where
  ok := by
    intro xs b r h
    rw [P.pure_def] at h
    simp at h
    obtain ⟨rfl, rfl⟩ := h
    refine ⟨[], rfl, fun t => rfl, ?_⟩
    intro q t h ht
    exact absurd (List.append_eq_nil_iff.mp h.symm).2 ht
  bad := by intro xs e h; rw [P.pure_def] at h; cases h

theorem fail {e : Err} : Streaming (P.fail e : P α) where
  ok := by intro xs b r h; cases h
  bad := by intro xs e' h _ t; exact h

theorem bind {p : P α} {f : α → P β} (hp : Streaming p) (hf : ∀ a, Streaming (f a)) : Streaming (p >>= f) where
  ok := by
    intro xs b r h
    obtain ⟨a, r1, h1, h2⟩ := P.bind_eq_ok.mp h
    obtain ⟨c1, rfl, ok1, sh1⟩ := hp.ok _ _ _ h1
    obtain ⟨c2, rfl, ok2, sh2⟩ := (hf a).ok _ _ _ h2
    refine ⟨c1 ++ c2, by simp, ?_, ?_⟩
    · intro t
      rw [List.append_assoc, P.bind_ok (ok1 _)]
      exact ok2 t
    · intro q t hq ht
      rw [List.append_eq_append_iff] at hq
      rcases hq with ⟨as, h3, h4⟩ | ⟨bs, h3, h4⟩
      · -- q = c1 ++ as, c2 = as ++ t
        subst h3
        rw [P.bind_ok (ok1 _)]
        exact sh2 _ _ h4 ht
      · -- c1 = q ++ bs, t = bs ++ c2
        by_cases hb : bs = []
        · subst hb
          simp at h3 h4
          subst h3 h4
          have := ok1 []
          simp at this
          rw [P.bind_ok this]
          exact sh2 [] _ rfl ht
        · rw [P.bind_def, sh1 _ _ h3 hb]
  bad := by
    intro xs e h he t
    rw [P.bind_def] at h ⊢
    split at h
    · rename_i e' h'
      cases h
      rw [hp.bad _ _ h' he]
    · rename_i a r h'
      obtain ⟨c, rfl, ok1, -⟩ := hp.ok _ _ _ h'
      rw [List.append_assoc, ok1]
      exact (hf a).bad _ _ h he _

theorem rdN (n : Nat) : Streaming (rdN n) where
  ok := by
    intro xs a r h
    obtain ⟨rfl, rfl⟩ := rdN_ok h
    refine ⟨a, rfl, fun t => rdN_append rfl t, ?_⟩
    rintro q t rfl ht
    have : 0 < t.length := List.length_pos_iff.mpr ht
    have : rd (q ++ t).length q = none := by rw [rd_none]; simp; omega
    simp only [Verif.rdN, this]
  bad := by
    intro xs e h he
    unfold Verif.rdN at h
    split at h <;> cases h
    exact absurd rfl he

theorem rdBE (n : Nat) : Streaming (rdBE n) where
  ok := by
    intro xs a r h
    obtain ⟨rfl, hlt⟩ := rdBE_ok h
    refine ⟨be n a, rfl, fun t => rdBE_append hlt t, ?_⟩
    intro q t hq ht
    have h0 : 0 < t.length := List.length_pos_iff.mpr ht
    have h1 := congrArg List.length hq
    simp at h1
    have : rd n q = none := by rw [rd_none]; omega
    simp only [Verif.rdBE, this]
  bad := by
    intro xs e h he
    unfold Verif.rdBE at h
    split at h <;> cases h
    exact absurd rfl he

theorem ite {c : Prop} [Decidable c] {p q : P α} (hp : Streaming p) (hq : Streaming q) :
    Streaming (if c then p else q) := by
  split <;> assumption

end Streaming

/-- Corollary used by callers that feed pieces: if a parser is streaming and accepts some extension of a
prefix, then on the prefix it either accepts the same value or reports "short". -/
theorem Streaming.prefix_cases {p : P α} (hp : Streaming p) {xs t : Bytes} {a : α} {r : Bytes}
    (h : p (xs ++ t) = .ok (a, r)) :
    (∃ r', p xs = .ok (a, r') ∧ r = r' ++ t) ∨ p xs = .error .shortBuffer := by
  cases hx : p xs with
  | error e =>
    by_cases he : e = .shortBuffer
    · subst he; exact Or.inr rfl
    · rw [hp.bad _ _ hx he] at h; cases h
  | ok v =>
    obtain ⟨b, r'⟩ := v
    obtain ⟨c, rfl, hok, -⟩ := hp.ok _ _ _ hx
    rw [List.append_assoc, hok] at h
    simp at h
    exact Or.inl ⟨r', by rw [h.1], h.2.symm⟩

end Verif
