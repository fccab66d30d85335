import Verif.Proof.EncCtx
import Verif.Proof.HeaderWrite
import Verif.Spec.CachingCmm
/-
What equal cache identifiers say about the requests.
-/
namespace Verif
open Spec (Collides EncStrings DecStrings CtxString SameMap DistinctKeys wireEdk wireCtx)

/-- Without a collision, equal digests are digests of equal strings. -/
theorem sha_inj {sha : Bytes → Bytes} {S T : Bytes → Prop} (h : ¬ Collides sha S T) {x y : Bytes} (hx : S x) (hy : T y)
    (hs : sha x = sha y) : x = y :=
  Classical.byContradiction fun hne => h ⟨x, y, hx, hy, hne, hs⟩

theorem idCtxBytes_ok {ctx : EncCtx} {b : Bytes} (h : idCtxBytes ctx = .ok b) : b = ctxBytes ctx ∧ ctxLen ctx ≤ 65535 := by
  unfold idCtxBytes at h
  cases hs : encCtxSize ctx with
  | error e => rw [hs] at h; cases h
  | ok n =>
    rw [hs] at h
    simp only at h
    cases hser : encCtxSerialize ⟨n, []⟩ ctx with
    | mk b' r =>
      rw [hser] at h
      cases r with
      | error e => cases h
      | ok u =>
        cases h
        obtain ⟨hl, -, rfl⟩ := (encCtxSerialize_ok (by simp)).mp hser
        exact ⟨by simp, hl⟩

theorem ctx_inj {c1 c2 : EncCtx} {b1 b2 : Bytes} (h1 : idCtxBytes c1 = .ok b1) (h2 : idCtxBytes c2 = .ok b2) (d1 : DistinctKeys c1)
    (d2 : DistinctKeys c2) (h : b1 = b2) : SameMap c1 c2 := by
  obtain ⟨rfl, l1⟩ := idCtxBytes_ok h1
  obtain ⟨rfl, l2⟩ := idCtxBytes_ok h2
  have e1 := encCtxParse_ctxBytes d1 l1
  have e2 := encCtxParse_ctxBytes d2 l2
  rw [h, e2] at e1
  have hs : sortByKey c2 = sortByKey c1 := by
    have := Except.ok.inj e1
    exact (Prod.mk.inj this).1
  have hp : c1.Perm c2 := ((sortByKey_perm c1).symm.trans (by rw [← hs])).trans (sortByKey_perm c2)
  intro k
  exact find_perm d1 hp k

theorem length_encPreimage {p : Bytes} {alg : Nat} {d : Bytes} (hp : p.length = 64) (hd : d.length = 64) :
    (encPreimage p alg d).length = if alg ≠ 0 then 131 else 129 := by
  unfold encPreimage
  split <;> simp [hp, hd]

theorem encPreimage_inj {p1 p2 : Bytes} {a1 a2 : Nat} {d1 d2 : Bytes} (hp1 : p1.length = 64) (hp2 : p2.length = 64) (hd1 : d1.length = 64)
    (hd2 : d2.length = 64) (ha1 : a1 < 65536) (ha2 : a2 < 65536) (h : encPreimage p1 a1 d1 = encPreimage p2 a2 d2) :
    p1 = p2 ∧ a1 = a2 ∧ d1 = d2 := by
  have hl := congrArg List.length h
  rw [length_encPreimage hp1 hd1, length_encPreimage hp2 hd2] at hl
  unfold encPreimage at h
  rw [List.append_assoc, List.append_assoc] at h
  obtain ⟨e1, e2⟩ := List.append_inj h (by rw [hp1, hp2])
  refine ⟨e1, ?_⟩
  by_cases h1 : a1 = 0
  · by_cases h2 : a2 = 0
    · subst h1; subst h2; simp at e2; exact ⟨rfl, e2⟩
    · simp [h1, h2] at hl
  · by_cases h2 : a2 = 0
    · simp [h1, h2] at hl
    · rw [if_pos h1, if_pos h2] at e2
      obtain ⟨e3, e4⟩ := List.append_inj e2 (by simp)
      have e5 := be_inj (n := 2) (by omega) (by omega) (List.cons.inj e3).2
      exact ⟨e5, e4⟩

theorem insertBytes_perm (b : Bytes) (l : List Bytes) : (insertBytes b l).Perm (b :: l) := by
  induction l with
  | nil => exact .refl _
  | cons a as ih =>
    unfold insertBytes
    split
    · exact .refl _
    · exact (ih.cons a).trans (.swap b a as)

theorem sortBytes_perm (l : List Bytes) : (sortBytes l).Perm l := by
  induction l with
  | nil => exact .refl _
  | cons a as ih => exact (insertBytes_perm a _).trans (ih.cons a)

theorem flatten_inj {l1 l2 : List Bytes} (h1 : ∀ b ∈ l1, b.length = 64) (h2 : ∀ b ∈ l2, b.length = 64) (h : l1.flatten = l2.flatten) :
    l1 = l2 := by
  induction l1 generalizing l2 with
  | nil =>
    cases l2 with
    | nil => rfl
    | cons b bs =>
      have := congrArg List.length h
      simp [h2 b (.head _)] at this
      omega
  | cons a as ih =>
    cases l2 with
    | nil =>
      have := congrArg List.length h
      simp [h1 a (.head _)] at this
    | cons b bs =>
      simp only [List.flatten_cons] at h
      obtain ⟨e1, e2⟩ := List.append_inj h (by rw [h1 a (.head _), h2 b (.head _)])
      rw [e1, ih (fun x hx => h1 x (.tail _ hx)) (fun x hx => h2 x (.tail _ hx)) e2]

theorem length_flatten64 {l : List Bytes} (h : ∀ b ∈ l, b.length = 64) : l.flatten.length = 64 * l.length := by
  induction l with
  | nil => rfl
  | cons a as ih =>
    simp only [List.flatten_cons, List.length_append, List.length_cons, h a (.head _), ih (fun x hx => h x (.tail _ hx))]
    omega

theorem decPreimage_inj {p1 p2 : Bytes} {a1 a2 : Nat} {hs1 hs2 : List Bytes} {d1 d2 : Bytes} (hp1 : p1.length = 64) (hp2 : p2.length = 64)
    (hd1 : d1.length = 64) (hd2 : d2.length = 64) (hh1 : ∀ b ∈ hs1, b.length = 64) (hh2 : ∀ b ∈ hs2, b.length = 64) (ha1 : a1 < 65536)
    (ha2 : a2 < 65536) (h : decPreimage p1 a1 hs1 d1 = decPreimage p2 a2 hs2 d2) : p1 = p2 ∧ a1 = a2 ∧ hs1.Perm hs2 ∧ d1 = d2 := by
  have s1 : ∀ b ∈ sortBytes hs1, b.length = 64 := fun b hb => hh1 b ((sortBytes_perm hs1).mem_iff.mp hb)
  have s2 : ∀ b ∈ sortBytes hs2, b.length = 64 := fun b hb => hh2 b ((sortBytes_perm hs2).mem_iff.mp hb)
  unfold decPreimage at h
  simp only [List.append_assoc] at h
  obtain ⟨e1, e2⟩ := List.append_inj h (by rw [hp1, hp2])
  obtain ⟨e3, e4⟩ := List.append_inj e2 (by simp)
  have hl := congrArg List.length e4
  simp only [List.length_append, List.length_replicate, hd1, hd2] at hl
  obtain ⟨e5, e6⟩ := List.append_inj e4 (by omega)
  obtain ⟨-, e7⟩ := List.append_inj e6 (by simp)
  have e8 := flatten_inj s1 s2 e5
  exact ⟨e1, be_inj (n := 2) (by omega) (by omega) e3, (sortBytes_perm hs1).symm.trans (e8 ▸ sortBytes_perm hs2), e7⟩

/-- Fields that fit their length. -/
def EdkFit (e : Edk) : Prop := e.providerId.length ≤ 65535 ∧ e.providerInfo.length ≤ 65535 ∧ e.ciphertext.length ≤ 65535

theorem edkField_ok {f b : Bytes} (h : edkField f = .ok b) : b = be 2 f.length ++ f ∧ f.length ≤ 65535 := by
  unfold edkField at h
  by_cases l : f.length > 65535
  · rw [if_pos l] at h; cases h
  · rw [if_neg l] at h; cases h; exact ⟨rfl, by omega⟩

theorem edkField_fit {f : Bytes} (h : f.length ≤ 65535) : edkField f = .ok (be 2 f.length ++ f) := by
  unfold edkField
  rw [if_neg (by omega)]

theorem hashEdk_ok {sha : Bytes → Bytes} {e : Edk} {d : Bytes} (h : hashEdk sha e = .ok d) : d = sha (wireEdk e) ∧ EdkFit e := by
  unfold hashEdk at h
  cases a1 : edkField e.providerId with
  | error e => rw [a1] at h; cases h
  | ok x1 =>
  cases b1 : edkField e.providerInfo with
  | error e => rw [a1, b1] at h; cases h
  | ok y1 =>
  cases c1 : edkField e.ciphertext with
  | error e => rw [a1, b1, c1] at h; cases h
  | ok z1 =>
    rw [a1, b1, c1] at h
    cases h
    obtain ⟨rfl, l1⟩ := edkField_ok a1
    obtain ⟨rfl, l2⟩ := edkField_ok b1
    obtain ⟨rfl, l3⟩ := edkField_ok c1
    refine ⟨?_, l1, l2, l3⟩
    simp [wireEdk, u16_eq_be]

theorem hashEdk_fit {sha : Bytes → Bytes} {e : Edk} (h : EdkFit e) : hashEdk sha e = .ok (sha (wireEdk e)) := by
  unfold hashEdk
  rw [edkField_fit h.1, edkField_fit h.2.1, edkField_fit h.2.2]
  simp [wireEdk, u16_eq_be]

theorem hashEdks_ok {sha : Bytes → Bytes} {es : List Edk} {hs : List Bytes} (h : hashEdks sha es = .ok hs) :
    hs = es.map (fun e => sha (wireEdk e)) ∧ ∀ e ∈ es, EdkFit e := by
  induction es generalizing hs with
  | nil => cases h; exact ⟨rfl, by simp⟩
  | cons e es ih =>
    simp only [hashEdks] at h
    cases h1 : hashEdk sha e with
    | error err => rw [h1] at h; cases h
    | ok d =>
      rw [h1] at h
      cases h2 : hashEdks sha es with
      | error err => rw [h2] at h; cases h
      | ok hs' =>
        rw [h2] at h
        cases h
        obtain ⟨rfl, f1⟩ := hashEdk_ok h1
        obtain ⟨rfl, f2⟩ := ih h2
        exact ⟨rfl, by simpa using ⟨f1, f2⟩⟩

theorem hashEdks_fit {sha : Bytes → Bytes} {es : List Edk} (h : ∀ e ∈ es, EdkFit e) :
    hashEdks sha es = .ok (es.map (fun e => sha (wireEdk e))) := by
  induction es with
  | nil => rfl
  | cons e es ih =>
    simp only [hashEdks, hashEdk_fit (h e (.head _)), ih (fun x hx => h x (.tail _ hx)), List.map_cons]

theorem wireEdk_inj {e1 e2 : Edk} (f1 : EdkFit e1) (f2 : EdkFit e2) (h : wireEdk e1 = wireEdk e2) : e1 = e2 := by
  have field : ∀ {a b s t : Bytes}, a.length ≤ 65535 → b.length ≤ 65535 → be 2 a.length ++ (a ++ s) = be 2 b.length ++ (b ++ t) →
      a = b ∧ s = t := by
    intro a b s t ha hb h
    obtain ⟨q1, q2⟩ := List.append_inj h (by simp)
    exact List.append_inj q2 (be_inj (n := 2) (by omega) (by omega) q1)
  simp only [wireEdk, u16_eq_be, List.append_assoc] at h
  obtain ⟨q1, h⟩ := field f1.1 f2.1 h
  obtain ⟨q2, h⟩ := field f1.2.1 f2.2.1 h
  obtain ⟨q3, -⟩ := field (s := []) (t := []) f1.2.2 f2.2.2 (by simpa using h)
  cases e1; cases e2
  simp only at q1 q2 q3
  rw [q1, q2, q3]

theorem perm_of_map {α β : Type} (f : α → β) {l1 l2 : List α} (hi : ∀ x ∈ l1, ∀ y ∈ l2, f x = f y → x = y)
    (hp : (l1.map f).Perm (l2.map f)) : l1.Perm l2 := by
  induction l1 generalizing l2 with
  | nil =>
    have := hp.symm.eq_nil
    rw [List.map_eq_nil_iff] at this
    subst this; exact .refl _
  | cons a as ih =>
    have hmem : f a ∈ l2.map f := hp.mem_iff.mp (by simp)
    obtain ⟨b, hb, hfb⟩ := List.mem_map.mp hmem
    have hab := hi a (.head _) b hb hfb.symm
    subst hab
    obtain ⟨x, y, rfl⟩ := List.append_of_mem hb
    have hp' : (as.map f).Perm ((x ++ y).map f) := by
      have h2 : ((x ++ a :: y).map f).Perm (f a :: (x ++ y).map f) := by
        rw [List.map_append, List.map_cons, List.map_append]; exact List.perm_middle
      exact (hp.trans h2).cons_inv
    exact ((ih (fun u hu v hv => hi u (.tail _ hu) v (by
      rcases List.mem_append.mp hv with h | h <;> simp [h])) hp').cons a).trans List.perm_middle.symm

theorem hashEnc_ok {sha : Bytes → Bytes} {env : IdEnv} {p : Bytes} {req : EncRequest} {id : Bytes} (h : hashEnc sha env p req = .ok id) :
    ∃ b, idCtxBytes req.encCtx = .ok b ∧ id = sha (encPreimage p req.requestedAlg (sha b)) := by
  unfold hashEnc at h
  cases hb : idCtxBytes req.encCtx with
  | error e => rw [hb] at h; cases h
  | ok b =>
    rw [hb] at h
    cases hf : env.encFails with
    | some e => rw [hf] at h; cases h
    | none => rw [hf] at h; cases h; exact ⟨b, rfl, rfl⟩

theorem hashDec_ok {sha : Bytes → Bytes} {env : IdEnv} {p : Bytes} {req : DecRequest} {id : Bytes}
    (h : hashDec sha env p req = .ok (.ok id)) :
    ∃ b hs, idCtxBytes req.encCtx = .ok b ∧ hashEdks sha req.edks = .ok hs ∧
      id = sha (decPreimage p req.alg hs (sha b)) := by
  unfold hashDec at h
  cases hb : idCtxBytes req.encCtx with
  | error e => rw [hb] at h; cases h
  | ok b =>
    rw [hb] at h
    cases h1 : env.decCtxFails with
    | some e => rw [h1] at h; cases h
    | none =>
      rw [h1] at h
      cases h2 : env.decEdkFails with
      | some e => rw [h2] at h; cases h
      | none =>
        rw [h2] at h
        cases h3 : hashEdks sha req.edks with
        | error e => rw [h3] at h; cases h
        | ok hs =>
          rw [h3] at h
          cases h4 : env.decEndFails with
          | some e => rw [h4] at h; cases h
          | none => rw [h4] at h; cases h; exact ⟨b, hs, rfl, rfl, rfl⟩

theorem idCtxBytes_string {ctx : EncCtx} {b : Bytes} (h : idCtxBytes ctx = .ok b) : CtxString ctx b := by
  obtain ⟨rfl, -⟩ := idCtxBytes_ok h
  exact ⟨sortByKey ctx, sortByKey_perm ctx, (wireCtx_sorted ctx).symm⟩

/-- Equal identifiers of encryption requests. -/
theorem encIds_inj {sha : Bytes → Bytes} (hl : ∀ x, (sha x).length = 64) {v1 v2 : IdEnv} {p1 p2 id : Bytes} {r1 r2 : EncRequest}
    (h1 : hashEnc sha v1 p1 r1 = .ok id) (h2 : hashEnc sha v2 p2 r2 = .ok id) (hp1 : p1.length = 64) (hp2 : p2.length = 64)
    (ha1 : r1.requestedAlg < 65536) (ha2 : r2.requestedAlg < 65536) (d1 : DistinctKeys r1.encCtx) (d2 : DistinctKeys r2.encCtx)
    (hc : ¬ Collides sha (EncStrings sha p1 r1) (EncStrings sha p2 r2)) :
    p1 = p2 ∧ r1.requestedAlg = r2.requestedAlg ∧ SameMap r1.encCtx r2.encCtx := by
  obtain ⟨b1, e1, i1⟩ := hashEnc_ok h1
  obtain ⟨b2, e2, i2⟩ := hashEnc_ok h2
  have str : ∀ {p : Bytes} {r : EncRequest} {b : Bytes}, idCtxBytes r.encCtx = .ok b →
      EncStrings sha p r (encPreimage p r.requestedAlg (sha b)) := by
    intro p r b he
    refine .inr ⟨b, idCtxBytes_string he, ?_⟩
    unfold encPreimage
    rw [u16_eq_be]
    by_cases hz : r.requestedAlg = 0 <;> simp [hz]
  have hpre := sha_inj hc (str e1) (str e2) (i1.symm.trans i2)
  obtain ⟨q1, q2, q3⟩ := encPreimage_inj hp1 hp2 (hl _) (hl _) ha1 ha2 hpre
  exact ⟨q1, q2, ctx_inj e1 e2 d1 d2 (sha_inj hc (.inl (idCtxBytes_string e1)) (.inl (idCtxBytes_string e2)) q3)⟩

theorem decPreimage_string {sha : Bytes → Bytes} {p : Bytes} {r : DecRequest} {b : Bytes} {hs : List Bytes}
    (he : idCtxBytes r.encCtx = .ok b) (hh : hashEdks sha r.edks = .ok hs) : DecStrings sha p r (decPreimage p r.alg hs (sha b)) := by
  obtain ⟨rfl, -⟩ := hashEdks_ok hh
  refine .inr (.inr ⟨b, _, idCtxBytes_string he, sortBytes_perm _, ?_⟩)
  unfold decPreimage
  rw [u16_eq_be]

/-- Equal identifiers of decryption requests. -/
theorem decIds_inj {sha : Bytes → Bytes} (hl : ∀ x, (sha x).length = 64) {v1 v2 : IdEnv} {p1 p2 id : Bytes} {r1 r2 : DecRequest}
    (h1 : hashDec sha v1 p1 r1 = .ok (.ok id)) (h2 : hashDec sha v2 p2 r2 = .ok (.ok id)) (hp1 : p1.length = 64) (hp2 : p2.length = 64)
    (ha1 : r1.alg < 65536) (ha2 : r2.alg < 65536) (d1 : DistinctKeys r1.encCtx) (d2 : DistinctKeys r2.encCtx)
    (hc : ¬ Collides sha (DecStrings sha p1 r1) (DecStrings sha p2 r2)) :
    p1 = p2 ∧ r1.alg = r2.alg ∧ SameMap r1.encCtx r2.encCtx ∧ r1.edks.Perm r2.edks := by
  obtain ⟨b1, hs1, e1, k1, i1⟩ := hashDec_ok h1
  obtain ⟨b2, hs2, e2, k2, i2⟩ := hashDec_ok h2
  have hpre := sha_inj hc (decPreimage_string e1 k1) (decPreimage_string e2 k2) (i1.symm.trans i2)
  obtain ⟨rfl, f1⟩ := hashEdks_ok k1
  obtain ⟨rfl, f2⟩ := hashEdks_ok k2
  have l1 : ∀ b ∈ r1.edks.map (fun e => sha (wireEdk e)), b.length = 64 := by
    intro b hb; obtain ⟨e, -, rfl⟩ := List.mem_map.mp hb; exact hl _
  have l2 : ∀ b ∈ r2.edks.map (fun e => sha (wireEdk e)), b.length = 64 := by
    intro b hb; obtain ⟨e, -, rfl⟩ := List.mem_map.mp hb; exact hl _
  obtain ⟨q1, q2, q3, q4⟩ := decPreimage_inj hp1 hp2 (hl _) (hl _) l1 l2 ha1 ha2 hpre
  refine ⟨q1, q2, ctx_inj e1 e2 d1 d2 (sha_inj hc (.inl (idCtxBytes_string e1)) (.inl (idCtxBytes_string e2)) q4), ?_⟩
  refine perm_of_map _ (fun x hx y hy hxy => ?_) q3
  exact wireEdk_inj (f1 x hx) (f2 y hy) (sha_inj hc (.inr (.inl ⟨x, hx, rfl⟩)) (.inr (.inl ⟨y, hy, rfl⟩)) hxy)

/-- An encryption and a decryption request with equal identifiers. -/
theorem kinds_collide {sha : Bytes → Bytes} (hl : ∀ x, (sha x).length = 64) {v1 v2 : IdEnv} {p1 p2 id : Bytes} {r1 : EncRequest}
    {r2 : DecRequest} (h1 : hashEnc sha v1 p1 r1 = .ok id) (h2 : hashDec sha v2 p2 r2 = .ok (.ok id)) (hp1 : p1.length = 64)
    (hp2 : p2.length = 64) : Collides sha (EncStrings sha p1 r1) (DecStrings sha p2 r2) := by
  obtain ⟨b1, e1, i1⟩ := hashEnc_ok h1
  obtain ⟨b2, hs2, e2, k2, i2⟩ := hashDec_ok h2
  refine ⟨encPreimage p1 r1.requestedAlg (sha b1), decPreimage p2 r2.alg hs2 (sha b2), ?_, decPreimage_string e2 k2, ?_, i1.symm.trans i2⟩
  · refine .inr ⟨b1, idCtxBytes_string e1, ?_⟩
    unfold encPreimage
    rw [u16_eq_be]
    by_cases hz : r1.requestedAlg = 0 <;> simp [hz]
  · intro h
    have := congrArg List.length h
    rw [length_encPreimage hp1 (hl _)] at this
    unfold decPreimage at this
    simp only [List.length_append, length_be, List.length_replicate, hp2, hl] at this
    split at this <;> omega

end Verif
