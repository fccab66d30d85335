import Verif.Proof.AnyCacheCalls
/-
Histories of calls of caching CMMs over a cache of any kind that keeps its promises.
-/
namespace Verif.Proof
open Verif Verif.Spec

variable {η α : Type} {sha : Bytes → Bytes} {vt : CacheVt} {cmm : CachingCmm}

/-! ## only functions that are there are asked -/

theorem asked_call {q : CacheQuery η} : Evs (fun e => vt.has e.q.fn = true) (askCache vt q) := by
  unfold askCache
  split
  · next h =>
    intro es o hp e he
    cases hp with
    | stop => simp at he
    | ask a hp =>
      rcases List.mem_cons.1 he with rfl | he
      · exact h
      · exact absurd he (by have := evs_ret (P := fun _ => False) _ _ hp e; simpa using this)
  · exact evs_ret

theorem asked_checkTtl {clk : Option Nat} {h : η} : Evs (fun e => vt.has e.q.fn = true) (anyCheckTtl vt cmm clk h) := by
  unfold anyCheckTtl
  split
  · exact evs_ret
  · refine evs_bind asked_call fun t => ?_
    split
    · exact evs_ret
    · split
      · exact evs_ret
      · split
        · exact evs_ret
        · exact evs_bind asked_call fun _ => evs_ret

theorem asked_drop {h : η} {a : α} : Evs (fun e => vt.has e.q.fn = true) (anyDrop vt h a) := evs_bind asked_call fun _ => evs_ret

theorem asked_afterPut {o : Option η} : Evs (fun e => vt.has e.q.fn = true) (anyAfterPut vt cmm o) := by
  cases o with
  | none => exact evs_ret
  | some h =>
    unfold anyAfterPut
    refine evs_bind ?_ fun _ => asked_call
    split
    · exact evs_ret
    · refine evs_bind asked_call fun t => ?_
      split
      · exact asked_call
      · exact evs_ret

theorem evs_asked {env : AnyGenEnv} {req : EncRequest} : Evs (η := η) (fun e => vt.has e.q.fn = true) (anyGenerate sha vt cmm env req) := by
  have try_ : ∀ id, Evs (η := η) (fun e => vt.has e.q.fn = true) (anyTry vt cmm env.clk id req) := by
    intro id
    unfold anyTry
    refine evs_bind asked_call fun x => ?_
    split
    · exact evs_ret
    · split
      · exact asked_drop
      · refine evs_bind asked_checkTtl fun ok => ?_
        split
        · refine evs_bind asked_call fun r => ?_
          unfold anyUse
          split
          · exact asked_drop
          · split
            · exact asked_drop
            · refine evs_bind asked_call fun x => ?_
              split
              · exact asked_drop
              · exact evs_bind asked_call fun _ => evs_ret
        · exact asked_drop
  have cached : Evs (η := η) (fun e => vt.has e.q.fn = true) (anyGenCached sha vt cmm env req) := by
    unfold anyGenCached
    split
    · exact evs_ret
    · refine evs_bind (try_ _) fun x => ?_
      split
      · exact evs_ret
      · unfold anyMiss
        split
        · exact evs_ret
        · split
          · exact evs_fault
          · exact evs_ret
          · exact evs_bind asked_call fun o => evs_bind asked_afterPut fun _ => evs_ret
  unfold anyGenerate
  split
  · exact evs_ret
  · split
    · exact cached
    · split
      · exact evs_fault
      · exact evs_ret
      · exact cached

theorem evs_dec_asked {env : AnyDecEnv} {req : DecRequest} : Evs (η := η) (fun e => vt.has e.q.fn = true) (anyDecrypt sha vt cmm env req) := by
  unfold anyDecrypt
  split
  · exact evs_fault
  · exact evs_ret
  · split
    · exact evs_fault
    · exact evs_ret
    · refine evs_bind ?_ fun x => ?_
      · unfold anyDecTry
        refine evs_bind asked_call fun x => ?_
        split
        · exact evs_ret
        · split
          · exact asked_drop
          · refine evs_bind asked_checkTtl fun ok => ?_
            split
            · refine evs_bind asked_call fun r => ?_
              split
              · exact asked_drop
              · exact evs_bind asked_call fun _ => evs_ret
            · exact asked_drop
      · split
        · exact evs_ret
        · unfold anyDecMiss
          split
          · exact evs_ret
          · exact evs_bind asked_call fun o => evs_bind asked_afterPut fun _ => evs_ret

/-! ## results of calls -/

/-- A request answered without the upstream CMM. -/
theorem gen_hit {env : AnyGenEnv} {req : EncRequest} {es : List (CacheEvent η)} {out : GenOut} {m : EncMaterials}
    (hp : Path (anyGenerate sha vt cmm env req) es (some out)) (hu : out.upstream = false) (hm : out.res = .ok m) :
    ∃ id, hashEnc sha env.ids cmm.partition req = .ok id ∧ Path (anyTry vt cmm env.clk id req) es (some (out.ctx, some m)) := by
  have cached : Path (anyGenCached sha vt cmm env req) es (some out) →
      ∃ id, hashEnc sha env.ids cmm.partition req = .ok id ∧ Path (anyTry vt cmm env.clk id req) es (some (out.ctx, some m)) := by
    intro hp
    unfold anyGenCached at hp
    split at hp
    · obtain ⟨-, rfl⟩ := path_ret.1 hp; cases hm
    · next id hid =>
      obtain ⟨⟨ctx, o⟩, e1, e2, rfl, h1, hq⟩ := path_seq.1 hp
      cases o with
      | some m' =>
        obtain ⟨rfl, rfl⟩ := path_ret.1 hq
        cases hm
        exact ⟨id, hid, by simpa using h1⟩
      | none =>
        dsimp only at hq
        unfold anyMiss at hq
        split at hq
        · obtain ⟨-, rfl⟩ := path_ret.1 hq; cases hu
        · split at hq
          · exact absurd hq path_fault
          · obtain ⟨-, rfl⟩ := path_ret.1 hq; cases hu
          · obtain ⟨_, _, _, -, -, hr⟩ := path_seq.1 hq
            obtain ⟨_, _, _, -, -, hr'⟩ := path_seq.1 hr
            obtain ⟨-, rfl⟩ := path_ret.1 hr'
            cases hu
  unfold anyGenerate at hp
  split at hp
  · obtain ⟨-, rfl⟩ := path_ret.1 hp; cases hu
  · split at hp
    · exact cached hp
    · split at hp
      · exact absurd hp path_fault
      · obtain ⟨-, rfl⟩ := path_ret.1 hp; cases hu
      · exact cached hp

/-- A decryption request answered without the upstream CMM. -/
theorem dec_hit {env : AnyDecEnv} {req : DecRequest} {es : List (CacheEvent η)} {out : DecOut} {m : DecMaterials}
    (hp : Path (anyDecrypt sha vt cmm env req) es (some out)) (hu : out.upstream = false) (hm : out.res = .ok m) :
    ∃ id, hashDec sha env.ids cmm.partition req = .ok (.ok id) ∧ Path (anyDecTry vt cmm env.clk id) es (some (some m)) := by
  unfold anyDecrypt at hp
  split at hp
  · exact absurd hp path_fault
  · obtain ⟨-, rfl⟩ := path_ret.1 hp; cases hu
  · split at hp
    · exact absurd hp path_fault
    · obtain ⟨-, rfl⟩ := path_ret.1 hp; cases hm
    · next id hid =>
      obtain ⟨o, e1, e2, rfl, h1, hq⟩ := path_seq.1 hp
      cases o with
      | some m' =>
        obtain ⟨rfl, rfl⟩ := path_ret.1 hq
        cases hm
        exact ⟨id, hid, by simpa using h1⟩
      | none =>
        dsimp only at hq
        unfold anyDecMiss at hq
        split at hq
        · obtain ⟨-, rfl⟩ := path_ret.1 hq; cases hu
        · obtain ⟨_, _, _, -, -, hr⟩ := path_seq.1 hq
          obtain ⟨_, _, _, -, -, hr'⟩ := path_seq.1 hr
          obtain ⟨-, rfl⟩ := path_ret.1 hr'
          cases hu

/-- The lookup was in vain: the encryption context is untouched, or a failed `get_enc_materials` left it so. -/
theorem try_ctx {clk : Option Nat} {id : Bytes} {req : EncRequest} {es : List (CacheEvent η)} {ctx : EncCtx}
    (hp : Path (anyTry vt cmm clk id req) es (some (ctx, none))) :
    ctx = req.encCtx ∨ ∃ h e, ⟨.getEnc h req.encCtx, (ctx, .error e)⟩ ∈ es := by
  unfold anyTry at hp
  obtain ⟨⟨f, o⟩, e1, e2, rfl, -, hq⟩ := path_seq.1 hp
  rcases o with _ | ⟨h, k⟩
  · have := (path_ret.1 hq).2; cases this; exact .inl rfl
  · dsimp only at hq
    split at hq
    · have := path_drop hq; cases this; exact .inl rfl
    · obtain ⟨ok, e3, e4, rfl, -, hr⟩ := path_seq.1 hq
      split at hr
      · obtain ⟨r, e5, e6, rfl, -, hs⟩ := path_seq.1 hr
        unfold anyUse at hs
        split at hs
        · have := path_drop hs; cases this; exact .inl rfl
        · split at hs
          · have := path_drop hs; cases this; exact .inl rfl
          · obtain ⟨⟨c, g⟩, e7, e8, rfl, h1, ht⟩ := path_seq.1 hs
            cases g with
            | error e =>
              have := path_drop ht
              cases this
              rcases path_call.1 h1 with ⟨-, rfl⟩ | ⟨-, -, h2⟩
              · exact .inr ⟨h, e, by simp⟩
              · cases h2; exact .inl rfl
            | ok m =>
              obtain ⟨_, _, _, -, -, hv⟩ := path_seq.1 ht
              have := (path_ret.1 hv).2
              simp at this
      · have := path_drop hr; cases this; exact .inl rfl

/-- A request answered by the upstream CMM. -/
theorem gen_up {env : AnyGenEnv} {req : EncRequest} {es : List (CacheEvent η)} {out : GenOut}
    (hp : Path (anyGenerate sha vt cmm env req) es (some out)) (hu : out.upstream = true) :
    ∃ ctx, env.up { req with encCtx := ctx } = (out.ctx, out.res) ∧
      (ctx = req.encCtx ∨ ∃ h e, ⟨.getEnc h req.encCtx, (ctx, .error e)⟩ ∈ es) ∧
      ((es = [] ∧ (req.plaintextSize > cmm.limitBytes ∨ (req.requestedAlg ≠ 0 ∧ canCache req.requestedAlg = .ok false))) ∨
       (req.plaintextSize ≤ cmm.limitBytes ∧ ∃ id, hashEnc sha env.ids cmm.partition req = .ok id ∧
        ∀ m, out.res = .ok m → canCache m.alg = .ok true → vt.has .putEnc = true →
          ∃ o, ⟨.putEnc id m req.plaintextSize 1 out.ctx, o⟩ ∈ es)) := by
  have cached : req.plaintextSize ≤ cmm.limitBytes → Path (anyGenCached sha vt cmm env req) es (some out) →
      ∃ ctx, env.up { req with encCtx := ctx } = (out.ctx, out.res) ∧
        (ctx = req.encCtx ∨ ∃ h e, ⟨.getEnc h req.encCtx, (ctx, .error e)⟩ ∈ es) ∧
        ((es = [] ∧ (req.plaintextSize > cmm.limitBytes ∨ (req.requestedAlg ≠ 0 ∧ canCache req.requestedAlg = .ok false))) ∨
         (req.plaintextSize ≤ cmm.limitBytes ∧ ∃ id, hashEnc sha env.ids cmm.partition req = .ok id ∧
          ∀ m, out.res = .ok m → canCache m.alg = .ok true → vt.has .putEnc = true →
            ∃ o, ⟨.putEnc id m req.plaintextSize 1 out.ctx, o⟩ ∈ es)) := by
    intro hs hp
    unfold anyGenCached at hp
    split at hp
    · obtain ⟨-, rfl⟩ := path_ret.1 hp; cases hu
    · next id hid =>
      obtain ⟨⟨ctx, o⟩, e1, e2, rfl, h1, hq⟩ := path_seq.1 hp
      cases o with
      | some m' => obtain ⟨-, rfl⟩ := path_ret.1 hq; cases hu
      | none =>
        have hctx : ctx = req.encCtx ∨ ∃ h e, ⟨.getEnc h req.encCtx, (ctx, .error e)⟩ ∈ e1 ++ e2 := by
          rcases try_ctx h1 with h | ⟨h, e, he⟩
          · exact .inl h
          · exact .inr ⟨h, e, List.mem_append_left _ he⟩
        dsimp only at hq
        unfold anyMiss at hq
        split at hq
        · next ctx' e hup =>
          obtain ⟨-, rfl⟩ := path_ret.1 hq
          exact ⟨ctx, hup, hctx, .inr ⟨hs, id, hid, fun m hm => nomatch hm⟩⟩
        · next ctx' m hup =>
          split at hq
          · exact absurd hq path_fault
          · next hc =>
            obtain ⟨-, rfl⟩ := path_ret.1 hq
            refine ⟨ctx, hup, hctx, .inr ⟨hs, id, hid, fun m' hm hc' => ?_⟩⟩
            cases hm
            rw [hc] at hc'; cases hc'
          · obtain ⟨o, e3, e4, rfl, hput, hr⟩ := path_seq.1 hq
            obtain ⟨_, _, _, rfl, -, hr'⟩ := path_seq.1 hr
            obtain ⟨-, rfl⟩ := path_ret.1 hr'
            refine ⟨ctx, hup, hctx, .inr ⟨hs, id, hid, fun m' hm _ hv => ?_⟩⟩
            cases hm
            rcases path_call.1 hput with ⟨-, rfl⟩ | ⟨h, -⟩
            · exact ⟨o, by simp⟩
            · rw [show (CacheQuery.putEnc (η := η) id m req.plaintextSize 1 ctx').fn = .putEnc from rfl, hv] at h
              cases h
  unfold anyGenerate at hp
  split at hp
  · next hs =>
    obtain ⟨rfl, rfl⟩ := path_ret.1 hp
    exact ⟨req.encCtx, rfl, .inl rfl, .inl ⟨rfl, .inl hs⟩⟩
  · next hs =>
    have hs : req.plaintextSize ≤ cmm.limitBytes := by omega
    split at hp
    · exact cached hs hp
    · next ha =>
      split at hp
      · exact absurd hp path_fault
      · next hc =>
        obtain ⟨rfl, rfl⟩ := path_ret.1 hp
        exact ⟨req.encCtx, rfl, .inl rfl, .inl ⟨rfl, .inr ⟨ha, hc⟩⟩⟩
      · exact cached hs hp

theorem dec_up {env : AnyDecEnv} {req : DecRequest} {es : List (CacheEvent η)} {out : DecOut}
    (hp : Path (anyDecrypt sha vt cmm env req) es (some out)) (hu : out.upstream = true) :
    env.up req = out.res ∧
      ((es = [] ∧ canCache req.alg = .ok false) ∨
       ∃ id, hashDec sha env.ids cmm.partition req = .ok (.ok id) ∧
        ∀ m, out.res = .ok m → vt.has .putDec = true → ∃ o, ⟨.putDec id m, o⟩ ∈ es) := by
  unfold anyDecrypt at hp
  split at hp
  · exact absurd hp path_fault
  · next hc => obtain ⟨rfl, rfl⟩ := path_ret.1 hp; exact ⟨rfl, .inl ⟨rfl, hc⟩⟩
  · split at hp
    · exact absurd hp path_fault
    · obtain ⟨-, rfl⟩ := path_ret.1 hp; cases hu
    · next id hid =>
      obtain ⟨o, e1, e2, rfl, h1, hq⟩ := path_seq.1 hp
      cases o with
      | some m' => obtain ⟨-, rfl⟩ := path_ret.1 hq; cases hu
      | none =>
        dsimp only at hq
        unfold anyDecMiss at hq
        split at hq
        · next e hup =>
          obtain ⟨-, rfl⟩ := path_ret.1 hq
          exact ⟨hup, .inr ⟨id, hid, fun m hm => nomatch hm⟩⟩
        · next m hup =>
          obtain ⟨o, e3, e4, rfl, hput, hr⟩ := path_seq.1 hq
          obtain ⟨_, _, _, rfl, -, hr'⟩ := path_seq.1 hr
          obtain ⟨-, rfl⟩ := path_ret.1 hr'
          refine ⟨hup, .inr ⟨id, hid, fun m' hm hv => ?_⟩⟩
          cases hm
          rcases path_call.1 hput with ⟨-, rfl⟩ | ⟨h, -⟩
          · exact ⟨o, by simp⟩
          · rw [show (CacheQuery.putDec (η := η) id m).fn = .putDec from rfl, hv] at h
            cases h

/-! ## positions in a history -/

theorem eventsOf_append (t : Nat) (A B : List (Nat × CacheEvent η)) : eventsOf t (A ++ B) = eventsOf t A ++ eventsOf t B := by
  simp [eventsOf]

theorem eventsOf_cons (t : Nat) (x : Nat × CacheEvent η) (A : List (Nat × CacheEvent η)) :
    eventsOf t (x :: A) = if x.1 = t then x.2 :: eventsOf t A else eventsOf t A := by
  unfold eventsOf
  rw [List.filter_cons]
  by_cases h : x.1 = t <;> simp [h]

theorem position {t : Nat} {H : List (Nat × CacheEvent η)} {A B : List (CacheEvent η)} {e : CacheEvent η} (h : eventsOf t H = A ++ e :: B) :
    ∃ i, H[i]? = some (t, e) ∧ eventsOf t (H.take i) = A := by
  induction H generalizing A with
  | nil => simp [eventsOf] at h
  | cons x H ih =>
    obtain ⟨u, y⟩ := x
    rw [eventsOf_cons] at h
    split at h
    · next hu =>
      cases A with
      | nil =>
        simp only [List.nil_append, List.cons.injEq] at h
        refine ⟨0, ?_, rfl⟩
        simp only at hu h
        simp [hu, h.1]
      | cons a A =>
        simp only [List.cons_append, List.cons.injEq] at h
        obtain ⟨i, h1, h2⟩ := ih h.2
        exact ⟨i + 1, by simpa using h1, by rw [List.take_succ_cons, eventsOf_cons, if_pos hu, h2, ← h.1]⟩
    · next hu =>
      obtain ⟨i, h1, h2⟩ := ih h
      exact ⟨i + 1, by simpa using h1, by rw [List.take_succ_cons, eventsOf_cons, if_neg hu, h2]⟩

theorem eventsOf_split {t i : Nat} {H : List (Nat × CacheEvent η)} {e : CacheEvent η} (h : H[i]? = some (t, e)) :
    eventsOf t H = eventsOf t (H.take i) ++ e :: eventsOf t (H.drop (i + 1)) := by
  have hi : i < H.length := by
    rcases Nat.lt_or_ge i H.length with h' | h'
    · exact h'
    · rw [List.getElem?_eq_none h'] at h; cases h
  have : H = H.take i ++ (t, e) :: H.drop (i + 1) := by
    have h2 := List.take_append_drop i H
    rw [List.drop_eq_getElem_cons hi] at h2
    rw [List.getElem?_eq_getElem hi] at h
    rw [Option.some.inj h] at h2
    exact h2.symm
  conv => lhs; rw [this]
  rw [eventsOf_append, eventsOf_cons, if_pos rfl]

theorem eventsOf_mono {t i j : Nat} {H : List (Nat × CacheEvent η)} (h : i ≤ j) :
    (eventsOf t (H.take i)).length ≤ (eventsOf t (H.take j)).length := by
  have : H.take j = H.take i ++ (H.take j).drop i := by
    have := List.take_append_drop i (H.take j)
    rw [List.take_take, Nat.min_eq_left h] at this
    exact this.symm
  rw [this, eventsOf_append, List.length_append]
  omega

theorem eventsOf_lt {t i j : Nat} {H : List (Nat × CacheEvent η)} {e : CacheEvent η} (hi : H[i]? = some (t, e)) (h : i < j) :
    (eventsOf t (H.take i)).length < (eventsOf t (H.take j)).length := by
  have h1 : (H.take j)[i]? = some (t, e) := by rw [List.getElem?_take_of_lt h]; exact hi
  have h2 := eventsOf_split h1
  rw [List.take_take, Nat.min_eq_left (Nat.le_of_lt h)] at h2
  rw [h2]; simp

/-- The number of an event in its call determines its position. -/
theorem position_lt {t i j : Nat} {H : List (Nat × CacheEvent η)}
    (h : (eventsOf t (H.take i)).length < (eventsOf t (H.take j)).length) : i < j := by
  rcases Nat.lt_or_ge i j with h' | h'
  · exact h'
  · have := eventsOf_mono (t := t) (H := H) h'
    omega

theorem keepsAt_mono {H : List (Nat × CacheEvent η)} {E : Entries} {P Q : Nat → Prop} (hk : CacheKeepsAt H E P) (h : ∀ i, Q i → P i) :
    CacheKeepsAt H E Q :=
  ⟨hk.find, hk.put, hk.same, fun hx hq => hk.usage hx (h _ hq), hk.enc, hk.dec, hk.creation, hk.born⟩

/-- Events about a handle given earlier in the call are about the same entry. -/
theorem ent_same {H : List (Nat × CacheEvent η)} {E : Entries} {P : Nat → Prop} (hk : CacheKeepsAt H E P) {t i : Nat} {f g : CacheEvent η}
    {M R : List (CacheEvent η)} {h : η} (hi : H[i]? = some (t, f))
    (hev : eventsOf t H = eventsOf t (H.take i) ++ f :: (M ++ g :: R)) (hf : gives f = some h) (hg : uses g.q = some h)
    (hM : ∀ x ∈ M, gives x = none) : ∃ j, H[j]? = some (t, g) ∧ i < j ∧ E.ent j = E.ent i := by
  have hev' : eventsOf t H = (eventsOf t (H.take i) ++ f :: M) ++ g :: R := by rw [hev]; simp
  obtain ⟨j, hj, hA⟩ := position hev'
  have hij : i < j := position_lt (by rw [hA]; simp)
  refine ⟨j, hj, hij, hk.same hij hi hf hj hg ?_⟩
  rintro k ⟨u, x⟩ h1 h2 hkx hu
  obtain rfl : u = t := hu
  have l1 := eventsOf_lt hi h1
  have l2 := eventsOf_lt hkx h2
  have hs := eventsOf_split hkx
  have hx : (eventsOf u H)[(eventsOf u (H.take k)).length]? = some x := by rw [hs]; simp
  rw [hA, List.length_append, List.length_cons] at l2
  rw [hev, List.getElem?_append_right (by omega)] at hx
  have e1 : (eventsOf u (H.take k)).length - (eventsOf u (H.take i)).length
      = ((eventsOf u (H.take k)).length - (eventsOf u (H.take i)).length - 1) + 1 := by omega
  rw [e1, List.getElem?_cons_succ, List.getElem?_append_left (by omega)] at hx
  rw [hM x (List.mem_of_getElem? hx)]
  intro hc; cases hc

theorem mem_eventsOf {H : List (Nat × CacheEvent η)} {t i : Nat} {e : CacheEvent η} (h : H[i]? = some (t, e)) : e ∈ eventsOf t H := by
  rw [eventsOf_split h]; simp

/-- A call puts at most one entry. -/
theorem onePut {calls : List AnyCall} {H : List (Nat × CacheEvent η)} (hH : History sha vt calls H) {t i j : Nat} {e e' : CacheEvent η}
    (hi : H[i]? = some (t, e)) (hj : H[j]? = some (t, e')) (he : isPut e = true) (he' : isPut e' = true) : i = j := by
  have hlt := hH.made _ (List.mem_of_getElem? hi)
  have hc : (eventsOf t H).countP isPut ≤ 1 := by
    have := hH.does t _ (List.getElem?_eq_getElem hlt)
    cases hcall : calls[t] with
    | gen cmm env req out => rw [hcall] at this; exact onePut_generate _ _ this
    | dec cmm env req out => rw [hcall] at this; exact onePut_decrypt _ _ this
  have key : ∀ {a b : Nat} {x y : CacheEvent η}, H[a]? = some (t, x) → H[b]? = some (t, y) → isPut x = true → isPut y = true → ¬ a < b := by
    intro a b x y ha hb hx hy hab
    have h1 := eventsOf_split hb
    have h2 : (H.take b)[a]? = some (t, x) := by rw [List.getElem?_take_of_lt hab]; exact ha
    rw [h1, eventsOf_split h2] at hc
    simp only [List.countP_append, List.countP_cons, hx, hy] at hc
    simp at hc
    omega
  have a1 := key hi hj he he'
  have a2 := key hj hi he' he
  omega

end Verif.Proof
