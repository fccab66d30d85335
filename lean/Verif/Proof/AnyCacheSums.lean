import Verif.Proof.AnyCacheLimits
/-
Sums over the calls answered with a data key.
-/
namespace Verif.Proof
open Verif Verif.Spec

variable {η : Type} {sha : Bytes → Bytes} {vt : CacheVt}

/-! ## lists of numbers -/

theorem sum_le_of_subset {f : Nat → Nat} {P Q : List Nat} (hP : P.Nodup) (h : ∀ x ∈ P, x ∈ Q) : (P.map f).sum ≤ (Q.map f).sum := by
  induction P generalizing Q with
  | nil => simp
  | cons p P ih =>
    have hp : p ∈ Q := h p (.head _)
    have h1 := (List.perm_cons_erase hp).map f
    rw [h1.sum_nat, List.map_cons, List.map_cons, List.sum_cons, List.sum_cons]
    have hn := List.nodup_cons.1 hP
    have := ih hn.2 (Q := Q.erase p) (fun x hx => by
      have hne : x ≠ p := fun he => hn.1 (he ▸ hx)
      exact (List.mem_erase_of_ne hne).2 (h x (.tail _ hx)))
    omega

theorem exists_last {T : List Nat} (hT : T ≠ []) (p : Nat → Nat) : ∃ t ∈ T, ∀ s ∈ T, p s ≤ p t := by
  induction T with
  | nil => exact absurd rfl hT
  | cons a T ih =>
    by_cases h : T = []
    · subst h; exact ⟨a, by simp, by simp⟩
    · obtain ⟨t, ht, hmax⟩ := ih h
      by_cases hc : p a ≤ p t
      · refine ⟨t, .tail _ ht, fun s hs => ?_⟩
        rcases List.mem_cons.1 hs with rfl | hs
        · exact hc
        · exact hmax s hs
      · refine ⟨a, .head _, fun s hs => ?_⟩
        rcases List.mem_cons.1 hs with rfl | hs
        · exact Nat.le_refl _
        · have := hmax s hs; omega

theorem length_le_one {T : List Nat} (hn : T.Nodup) (h : ∀ a ∈ T, ∀ b ∈ T, a = b) : T.length ≤ 1 := by
  match T, hn with
  | [], _ => simp
  | [a], _ => simp
  | a :: b :: T, hn =>
    have := h a (by simp) b (by simp)
    subst this
    simp at hn

theorem sum_ones (T : List Nat) : (T.map fun _ => 1).sum = T.length := by
  induction T with
  | nil => rfl
  | cons a T ih => rw [List.map_cons, List.sum_cons, ih, List.length_cons]; omega

/-! ## totals -/

theorem total_ge {H : List (Nat × CacheEvent η)} {ent ord : Nat → Nat} {part : Nat × Nat → Nat} {e i : Nat} {P : List Nat} {w : Nat → Nat}
    (hP : P.Nodup) (h : ∀ k ∈ P, ord k ≤ ord i ∧ ent k = e ∧ ∃ x, H[k]? = some x ∧ part (adds x.2) = w k) :
    (P.map w).sum ≤ total H ent ord part e i := by
  have h1 : P.map w = P.map (fun k => match H[k]? with
      | some x => if ent k = e ∧ ord k ≤ ord i then part (adds x.2) else 0
      | none => 0) := by
    refine List.map_congr_left fun k hk => ?_
    obtain ⟨h0, h2, x, h3, h4⟩ := h k hk
    rw [h3]; simp [h0, h2, h4]
  rw [h1]
  refine sum_le_of_subset hP fun k hk => List.mem_range.2 ?_
  obtain ⟨-, -, x, h3, -⟩ := h k hk
  rcases Nat.lt_or_ge k H.length with h' | h'
  · exact h'
  · rw [List.getElem?_eq_none h'] at h3; cases h3

/-- Every event adds at most one message, and no more bytes than a caching CMM's limit. -/
theorem adds_one {calls : List AnyCall} {H : List (Nat × CacheEvent η)} (hH : History sha vt calls H) {x : Nat × CacheEvent η} (hx : x ∈ H) :
    (adds x.2).2 ≤ 1 ∧ ((adds x.2).1 = 0 ∨ ∃ cmm env req out, .gen cmm env req out ∈ calls ∧ (adds x.2).1 ≤ cmm.limitBytes) := by
  obtain ⟨t, e⟩ := x
  have hlt := hH.made _ hx
  have hg := List.getElem?_eq_getElem hlt
  have hd := hH.does t _ hg
  obtain ⟨i, hi⟩ := List.getElem?_of_mem hx
  have hm := mem_eventsOf hi
  obtain ⟨q, a⟩ := e
  cases hcall : calls[t] with
  | gen cmm env req out =>
    rw [hcall] at hd hg
    have hmem := List.mem_of_getElem? hg
    have := evs_generate _ _ hd _ hm
    cases q with
    | usage h b n =>
      obtain ⟨rfl, rfl, h3⟩ := this
      cases a with
      | error e => exact ⟨by simp [adds], .inl rfl⟩
      | ok y => exact ⟨by simp [adds], .inr ⟨cmm, env, req, out, hmem, h3⟩⟩
    | putEnc id m b n ctx =>
      obtain ⟨-, rfl, rfl, h3, -⟩ := this
      exact ⟨by simp [adds], .inr ⟨cmm, env, req, out, hmem, h3⟩⟩
    | _ => exact ⟨by simp [adds], .inl rfl⟩
  | dec cmm env req out =>
    rw [hcall] at hd
    have := evs_decrypt _ _ hd _ hm
    cases q with
    | usage h b n => exact absurd this (by simp [DecAsk])
    | putEnc id m b n ctx => exact absurd this (by simp [DecAsk])
    | _ => exact ⟨by simp [adds], .inl rfl⟩

theorem sum_le_length {L : List Nat} {n : Nat} (h : ∀ x ∈ L, x ≤ n) : L.sum ≤ L.length * n := by
  induction L with
  | nil => simp
  | cons a L ih =>
    have := h a (.head _)
    have := ih fun x hx => h x (.tail _ hx)
    simp [Nat.add_mul]; omega

theorem total_messages {calls : List AnyCall} {H : List (Nat × CacheEvent η)} (hH : History sha vt calls H) (ent ord : Nat → Nat) (e i : Nat) :
    total H ent ord Prod.snd e i ≤ H.length := by
  unfold total
  refine Nat.le_trans (sum_le_length (n := 1) ?_) (by simp)
  intro x hx
  obtain ⟨k, -, rfl⟩ := List.mem_map.1 hx
  split
  · next y hy =>
    split
    · exact (adds_one hH (List.mem_of_getElem? hy)).1
    · omega
  · omega

theorem total_bytes {calls : List AnyCall} {H : List (Nat × CacheEvent η)} {L : Nat} (hH : History sha vt calls H)
    (hL : ∀ cmm env req out, .gen cmm env req out ∈ calls → cmm.limitBytes ≤ L) (ent ord : Nat → Nat) (e i : Nat) :
    total H ent ord Prod.fst e i ≤ H.length * L := by
  unfold total
  refine Nat.le_trans (sum_le_length (n := L) ?_) (by simp)
  intro x hx
  obtain ⟨k, -, rfl⟩ := List.mem_map.1 hx
  split
  · next y hy =>
    split
    · rcases (adds_one hH (List.mem_of_getElem? hy)).2 with h | ⟨cmm, env, req, out, h1, h2⟩
      · rw [h]; exact Nat.zero_le _
      · exact Nat.le_trans h2 (hL _ _ _ _ h1)
    · omega
  · omega

theorem within_zero {ttl : Nat} {clk : Option Nat} (t : Nat) (h : WithinTtl ttl clk 0) : WithinTtl ttl clk t := by
  rcases h with ⟨now, h1, h2⟩ | h | h
  · exact .inl ⟨now, h1, by omega⟩
  · exact .inr (.inl (by omega))
  · exact .inr (.inr h)

/-! ## hits -/

/-- What a request answered without the upstream CMM got. -/
theorem hit_entry {calls : List AnyCall} {H : List (Nat × CacheEvent η)} {E : Entries} {P : Nat → Prop} (hH : History sha vt calls H)
    (hk : CacheKeepsAt H E P) {t : Nat} {cmm : CachingCmm} {env : AnyGenEnv} {req : EncRequest} {out : GenOut} {m : EncMaterials}
    (hc : calls[t]? = some (.gen cmm env req (some out))) (hu : out.upstream = false) (hm : out.res = .ok m) :
    ∃ id pu h bytes messages u m0 b0 n0 ctx0 o, hashEnc sha env.ids cmm.partition req = .ok id ∧
      H[pu]? = some (t, ⟨.usage h req.plaintextSize 1, .ok (bytes, messages)⟩) ∧ E.ent pu < pu ∧
      bytes ≤ cmm.limitBytes ∧ messages ≤ cmm.limitMessages ∧
      H[E.ent pu]? = some (u, ⟨.putEnc id m0 b0 n0 ctx0, o⟩) ∧
      m.alg = m0.alg ∧ m.dataKey = m0.dataKey ∧ m.edks = m0.edks ∧ m.trace = m0.trace ∧ SameMap out.ctx ctx0 ∧
      WithinTtl cmm.ttl env.clk (E.born (E.ent pu)) := by
  have hd : Path _ _ _ := hH.does t _ hc
  obtain ⟨id, hid, hp⟩ := gen_hit hd hu hm
  obtain ⟨h, mid, bytes, messages, rel, hes, ⟨hmid, httl⟩, hb, hn, -⟩ := path_try hp
  obtain ⟨i, hi, hA⟩ := position (A := []) hes
  have hmg : ∀ x ∈ mid, gives x = none := by
    intro x hx
    rcases hmid x hx with ⟨y, rfl⟩ | ⟨y, rfl⟩ <;> rfl
  obtain ⟨pu, hpu, hlt, he⟩ := ent_same hk hi (by rw [hA]; exact hes) rfl rfl hmg
  obtain ⟨pg, hpg, -, heg⟩ := ent_same hk (M := mid ++ [⟨.usage h req.plaintextSize 1, .ok (bytes, messages)⟩]) (R := rel)
    (g := ⟨.getEnc h req.encCtx, (out.ctx, .ok m)⟩) hi (by rw [hA]; simpa using hes) rfl rfl (by
      intro x hx
      rcases List.mem_append.1 hx with hx | hx
      · exact hmg x hx
      · obtain rfl : x = _ := by simpa using hx
        rfl)
  obtain ⟨hei, x, hx, hst⟩ := hk.find hi
  obtain ⟨u, id', m0, b0, n0, ctx0, o, hput, h1, h2, h3, h4, h5⟩ := hk.enc hpg
  rw [heg] at hput
  rw [hx] at hput
  cases hput
  have hid' : id' = id := by simpa [stores] using hst
  subst hid'
  refine ⟨id', pu, h, bytes, messages, u, m0, b0, n0, ctx0, o, hid, hpu, by omega, hb, hn, by rw [he]; exact hx, h1, h2, h3, h4, h5, ?_⟩
  rcases httl with httl | ⟨y, hy, hw⟩
  · exact .inr (.inr httl)
  · rcases hy with ⟨hcr, hy⟩ | ⟨hcr, rfl⟩
    · obtain ⟨A, B, hAB⟩ := List.append_of_mem hy
      obtain ⟨pc, hpc, -, hec⟩ := ent_same hk (M := A) (g := ⟨.creation h, y⟩)
        (R := B ++ ⟨.usage h req.plaintextSize 1, .ok (bytes, messages)⟩ :: ⟨.getEnc h req.encCtx, (out.ctx, .ok m)⟩ :: rel)
        hi (by rw [hA, hes, hAB]; simp) rfl rfl (fun x hx => hmg x (by rw [hAB]; simp [hx]))
      rw [he]
      rcases hk.creation hpc with hy | hy
      · rw [hec] at hy
        rw [← hy]
        exact hw (by rw [hy]; exact hk.born _)
      · subst hy
        exact within_zero _ (hw (by decide))
    · exact within_zero _ (hw (by decide))

/-- The same for a decryption request. -/
theorem dec_hit_entry {calls : List AnyCall} {H : List (Nat × CacheEvent η)} {E : Entries} {P : Nat → Prop} (hH : History sha vt calls H)
    (hk : CacheKeepsAt H E P) {t : Nat} {cmm : CachingCmm} {env : AnyDecEnv} {req : DecRequest} {out : DecOut} {m : DecMaterials}
    (hc : calls[t]? = some (.dec cmm env req (some out))) (hu : out.upstream = false) (hm : out.res = .ok m) :
    ∃ id e u m0 o, hashDec sha env.ids cmm.partition req = .ok (.ok id) ∧ H[e]? = some (u, ⟨.putDec id m0, o⟩) ∧
      m.alg = m0.alg ∧ m.dataKey = m0.dataKey ∧ m.trace = m0.trace ∧
      WithinTtl cmm.ttl env.clk (E.born e) ∧ ∃ i h, H[i]? = some (t, ⟨.getDec h, .ok m⟩) ∧ E.ent i = e := by
  have hd : Path _ _ _ := hH.does t _ hc
  obtain ⟨id, hid, hp⟩ := dec_hit hd hu hm
  obtain ⟨h, mid, rel, hes, ⟨hmid, httl⟩, -⟩ := path_decTry hp
  obtain ⟨i, hi, hA⟩ := position (A := []) hes
  have hmg : ∀ x ∈ mid, gives x = none := by
    intro x hx
    rcases hmid x hx with ⟨y, rfl⟩ | ⟨y, rfl⟩ <;> rfl
  obtain ⟨pg, hpg, -, heg⟩ := ent_same hk hi (by rw [hA]; exact hes) rfl rfl hmg
  obtain ⟨hei, x, hx, hst⟩ := hk.find hi
  obtain ⟨u, id', m0, o, hput, h1, h2, h3⟩ := hk.dec hpg
  rw [heg] at hput
  rw [hx] at hput
  cases hput
  have hid' : id' = id := by simpa [stores] using hst
  subst hid'
  refine ⟨id', E.ent i, u, m0, o, hid, hx, h1, h2, h3, ?_, pg, h, hpg, heg⟩
  rcases httl with httl | ⟨y, hy, hw⟩
  · exact .inr (.inr httl)
  · rcases hy with ⟨hcr, hy⟩ | ⟨hcr, rfl⟩
    · obtain ⟨A, B, hAB⟩ := List.append_of_mem hy
      obtain ⟨pc, hpc, -, hec⟩ := ent_same hk (M := A) (g := ⟨.creation h, y⟩) (R := B ++ ⟨.getDec h, .ok m⟩ :: rel)
        hi (by rw [hA, hes, hAB]; simp) rfl rfl (fun x hx => hmg x (by rw [hAB]; simp [hx]))
      rcases hk.creation hpc with hy | hy
      · rw [hec] at hy
        rw [← hy]
        exact hw (by rw [hy]; exact hk.born _)
      · subst hy
        exact within_zero _ (hw (by decide))
    · exact within_zero _ (hw (by decide))

/-- What a call put came from the upstream CMM in this call. -/
theorem put_call {calls : List AnyCall} {H : List (Nat × CacheEvent η)} (hH : History sha vt calls H) {e u : Nat} {id : Bytes} {m : EncMaterials}
    {b n : Nat} {ctx : EncCtx} {o : Option η} (h : H[e]? = some (u, ⟨.putEnc id m b n ctx, o⟩)) :
    ∃ cmm env req out, calls[u]? = some (.gen cmm env req out) ∧ hashEnc sha env.ids cmm.partition req = .ok id ∧ b = req.plaintextSize ∧ n = 1 ∧
      req.plaintextSize ≤ cmm.limitBytes ∧ ∃ ctx0, env.up { req with encCtx := ctx0 } = (ctx, .ok m) := by
  have hlt := hH.made _ (List.mem_of_getElem? h)
  have hg := List.getElem?_eq_getElem hlt
  have hd := hH.does u _ hg
  have hm := mem_eventsOf h
  cases hcall : calls[u] with
  | gen cmm env req out =>
    rw [hcall] at hd hg
    obtain ⟨h1, h2, h3, h4, -, h5⟩ := evs_generate _ _ hd _ hm
    exact ⟨cmm, env, req, out, hg, h1, h2, h3, h4, h5⟩
  | dec cmm env req out =>
    rw [hcall] at hd
    exact absurd (evs_decrypt _ _ hd _ hm) (by simp [DecAsk])

theorem put_dec_call {calls : List AnyCall} {H : List (Nat × CacheEvent η)} (hH : History sha vt calls H) {e u : Nat} {id : Bytes} {m : DecMaterials}
    {o : Option η} (h : H[e]? = some (u, ⟨.putDec id m, o⟩)) :
    ∃ cmm env req out, calls[u]? = some (.dec cmm env req out) ∧ hashDec sha env.ids cmm.partition req = .ok (.ok id) ∧ env.up req = .ok m := by
  have hlt := hH.made _ (List.mem_of_getElem? h)
  have hg := List.getElem?_eq_getElem hlt
  have hd := hH.does u _ hg
  have hm := mem_eventsOf h
  cases hcall : calls[u] with
  | gen cmm env req out =>
    rw [hcall] at hd
    exact absurd (evs_generate _ _ hd _ hm) (by simp [GenAsk])
  | dec cmm env req out =>
    rw [hcall] at hd hg
    obtain ⟨h1, h2⟩ := evs_decrypt _ _ hd _ hm
    exact ⟨cmm, env, req, out, hg, h1, h2⟩

/-! ## all hits with one data key -/

/-- The call was answered with `k` without the upstream CMM. -/
def Hit (k : Bytes) (c : Option AnyCall) : Prop :=
  ∃ cmm env req out m, c = some (.gen cmm env req (some out)) ∧ out.upstream = false ∧ out.res = .ok m ∧ m.dataKey = k

theorem hits_sum {calls : List AnyCall} {H : List (Nat × CacheEvent η)} {E : Entries} (hH : History sha vt calls H)
    (hk : CacheKeeps H E) (hf : FreshAny calls H) {k : Bytes} {T : List Nat} (hT : ∀ t ∈ T, Hit k calls[t]?) (hn : T.Nodup) (hne : T ≠ []) :
    ∃ e u id m0 b0 n0 ctx0 o, H[e]? = some (u, ⟨.putEnc id m0 b0 n0 ctx0, o⟩) ∧ m0.dataKey = k ∧
      (∃ i cmm env req out, .gen cmm env req out ∈ calls ∧ total H E.ent E.bytesAt Prod.fst e i % 2 ^ 64 ≤ cmm.limitBytes ∧
        b0 + (T.map fun t => (calls[t]?.map AnyCall.size).getD 0).sum ≤ total H E.ent E.bytesAt Prod.fst e i) ∧
      (∃ i cmm env req out, .gen cmm env req out ∈ calls ∧ total H E.ent E.messagesAt Prod.snd e i % 2 ^ 64 ≤ cmm.limitMessages ∧
        1 + T.length ≤ total H E.ent E.messagesAt Prod.snd e i) := by
  have each : ∀ t, ∃ p, t ∈ T → ∃ h b n u id m0 b0 n0 ctx0 o cmm env req out,
      calls[t]? = some (.gen cmm env req out) ∧ H[p]? = some (t, ⟨.usage h req.plaintextSize 1, .ok (b, n)⟩) ∧ b ≤ cmm.limitBytes ∧
      n ≤ cmm.limitMessages ∧ H[E.ent p]? = some (u, ⟨.putEnc id m0 b0 n0 ctx0, o⟩) ∧ m0.dataKey = k := by
    intro t
    by_cases ht : t ∈ T
    · obtain ⟨cmm, env, req, out, m, hc, hu, hm, rfl⟩ := hT t ht
      obtain ⟨id, pu, h, b, n, u, m0, b0, n0, ctx0, o, -, h1, -, h3, h4, h5, -, h6, -⟩ := hit_entry hH hk hc hu hm
      exact ⟨pu, fun _ => ⟨h, b, n, u, id, m0, b0, n0, ctx0, o, cmm, env, req, some out, hc, h1, h3, h4, h5, h6.symm⟩⟩
    · exact ⟨0, fun h => absurd h ht⟩
  obtain ⟨p, hp⟩ := Classical.axiomOfChoice each
  obtain ⟨t0, ht0⟩ := List.exists_mem_of_ne_nil T hne
  obtain ⟨-, -, -, u, id, m0, b0, n0, ctx0, o, -, -, -, -, -, -, -, -, h5, h6⟩ := hp t0 ht0
  have same : ∀ s ∈ T, E.ent (p s) = E.ent (p t0) := by
    intro s hs
    obtain ⟨_, _, _, u', id', m0', b0', n0', ctx0', o', _, _, _, _, -, -, -, -, g5, g6⟩ := hp s hs
    have : u' = u := hf u' u k (.inr ⟨id', m0', b0', n0', ctx0', o', List.mem_of_getElem? g5, g6⟩)
      (.inr ⟨id, m0, b0, n0, ctx0, o, List.mem_of_getElem? h5, h6⟩)
    subst this
    exact onePut hH g5 h5 rfl rfl
  obtain ⟨_, _, _, _, -, -, -, hn0, -, -⟩ := put_call hH h5
  -- the positions that count: the entry itself and the updates
  have hPn : (E.ent (p t0) :: T.map p).Nodup := by
    rw [List.nodup_cons]
    constructor
    · intro hmem
      obtain ⟨s, hs, hse⟩ := List.mem_map.1 hmem
      obtain ⟨_, _, _, _, _, _, _, _, _, _, _, _, _, _, -, g1, -, -, -, -⟩ := hp s hs
      rw [hse, h5] at g1
      have := congrArg (fun x : Option (Nat × CacheEvent η) => x.map fun y => (stores y.2.q).isSome) g1
      simp [stores] at this
    · refine List.pairwise_map.2 (hn.imp_of_mem ?_)
      intro a b ha hb hab heq
      obtain ⟨_, _, _, _, _, _, _, _, _, _, _, _, _, _, -, g1, -, -, -, -⟩ := hp a ha
      obtain ⟨_, _, _, _, _, _, _, _, _, _, _, _, _, _, -, g2, -, -, -, -⟩ := hp b hb
      rw [heq, g2] at g1
      have := congrArg (fun x : Option (Nat × CacheEvent η) => x.map Prod.fst) g1
      simp at this
      exact hab this.symm
  have wsum : ∀ (ord : Nat → Nat) (part : Nat × Nat → Nat) (w0 : Nat) (w : Nat → Nat) (t : Nat), t ∈ T → (∀ s ∈ T, ord (p s) ≤ ord (p t)) →
      ord (E.ent (p t0)) ≤ ord (p t) → part (b0, n0) = w0 →
      (∀ s ∈ T, ∀ req, (∃ cmm env out, calls[s]? = some (.gen cmm env req out)) → part (req.plaintextSize, 1) = w s) →
      w0 + (T.map w).sum ≤ total H E.ent ord part (E.ent (p t0)) (p t) := by
    intro ord part w0 w t ht hmax hfirst hw0 hw
    have key : ((E.ent (p t0) :: T.map p).map fun x => match H[x]? with | some y => part (adds y.2) | none => 0).sum
        ≤ total H E.ent ord part (E.ent (p t0)) (p t) := by
      refine total_ge hPn ?_
      intro x hx
      rcases List.mem_cons.1 hx with rfl | hx
      · exact ⟨hfirst, hk.put h5 rfl, _, h5, by rw [h5]⟩
      · obtain ⟨s, hs, rfl⟩ := List.mem_map.1 hx
        obtain ⟨_, _, _, _, _, _, _, _, _, _, _, _, _, _, -, g1, -, -, -, -⟩ := hp s hs
        exact ⟨hmax s hs, same s hs, _, g1, by rw [g1]⟩
    rw [List.map_cons, List.sum_cons, h5, List.map_map] at key
    have e1 : (T.map ((fun x => match H[x]? with | some y => part (adds y.2) | none => 0) ∘ p)) = T.map w := by
      refine List.map_congr_left fun s hs => ?_
      obtain ⟨_, _, _, _, _, _, _, _, _, _, cmm', env', req', out', g0, g1, -, -, -, -⟩ := hp s hs
      simp only [Function.comp, g1]
      exact hw s hs req' ⟨cmm', env', out', g0⟩
    rw [e1] at key
    rw [← hw0]
    exact key
  refine ⟨E.ent (p t0), u, id, m0, b0, n0, ctx0, o, h5, h6, ?_, ?_⟩
  · obtain ⟨t, ht, hmax⟩ := exists_last hne (fun s => E.bytesAt (p s))
    obtain ⟨h, b, n, _, _, _, _, _, _, _, cmm, env, req, out, hc, h1, h3, -, -, -⟩ := hp t ht
    obtain ⟨k0, -, k1, -⟩ := hk.usage h1 trivial
    rw [same t ht] at k0 k1
    refine ⟨p t, cmm, env, req, out, List.mem_of_getElem? hc, by rw [← k1]; exact h3, ?_⟩
    refine wsum E.bytesAt Prod.fst b0 _ t ht hmax k0 rfl ?_
    rintro s hs req ⟨cmm, env, out, hcs⟩
    simp [hcs, AnyCall.size]
  · obtain ⟨t, ht, hmax⟩ := exists_last hne (fun s => E.messagesAt (p s))
    obtain ⟨h, b, n, _, _, _, _, _, _, _, cmm, env, req, out, hc, h1, -, h4, -, -⟩ := hp t ht
    obtain ⟨-, k0, -, k2⟩ := hk.usage h1 trivial
    rw [same t ht] at k0 k2
    refine ⟨p t, cmm, env, req, out, List.mem_of_getElem? hc, by rw [← k2]; exact h4, ?_⟩
    have := wsum E.messagesAt Prod.snd 1 (fun _ => 1) t ht hmax k0 hn0 (fun _ _ _ _ => rfl)
    rwa [sum_ones] at this

/-- The calls answered with `k` are hits, or one call in which the upstream CMM gave `k`. -/
theorem served_cases {calls : List AnyCall} {k : Bytes} {t : Nat} (h : t ∈ callsWith k calls) :
    Hit k calls[t]? ∨ ∃ cmm env req out m, calls[t]? = some (.gen cmm env req (some out)) ∧ out.upstream = true ∧ out.res = .ok m ∧ m.dataKey = k := by
  unfold callsWith at h
  have h := (List.mem_filter.1 h).2
  cases hc : calls[t]? with
  | none => simp [hc] at h
  | some c =>
    rw [hc] at h
    simp only [Option.bind_some, decide_eq_true_eq] at h
    cases c with
    | dec cmm env req out => cases h
    | gen cmm env req out =>
      cases out with
      | none => cases h
      | some out =>
        obtain ⟨ctx, res, up⟩ := out
        cases res with
        | error e => cases h
        | ok m =>
          cases up with
          | true => exact .inr ⟨cmm, env, req, _, m, rfl, rfl, rfl, by simpa [AnyCall.key] using h⟩
          | false => exact .inl ⟨cmm, env, req, _, m, rfl, rfl, rfl, by simpa [AnyCall.key] using h⟩

/-- The calls answered with `k`: hits, and at most one call in which the upstream CMM gave `k`. -/
theorem served_split {calls : List AnyCall} {H : List (Nat × CacheEvent η)} {k : Bytes} (hf : FreshAny calls H) :
    ∃ T U : List Nat, (callsWith k calls).Perm (T ++ U) ∧ (∀ t ∈ T, Hit k calls[t]?) ∧
      (∀ t ∈ U, ∃ cmm env req out m, calls[t]? = some (.gen cmm env req (some out)) ∧ out.upstream = true ∧ out.res = .ok m ∧ m.dataKey = k) ∧
      T.Nodup ∧ U.length ≤ 1 := by
  have hn : (callsWith k calls).Nodup := List.Pairwise.filter _ List.nodup_range
  let P : Nat → Bool := fun t => match calls[t]? with
    | some (.gen _ _ _ (some out)) => !out.upstream
    | _ => false
  have hU : ∀ t ∈ (callsWith k calls).filter (fun t => !P t), ∃ cmm env req out m,
      calls[t]? = some (.gen cmm env req (some out)) ∧ out.upstream = true ∧ out.res = .ok m ∧ m.dataKey = k := by
    intro t ht
    obtain ⟨h1, h2⟩ := List.mem_filter.1 ht
    rcases served_cases h1 with ⟨cmm, env, req, out, m, hc, hu, -⟩ | h
    · simp [P, hc, hu] at h2
    · exact h
  refine ⟨(callsWith k calls).filter P, (callsWith k calls).filter (fun t => !P t), (List.filter_append_perm P _).symm, ?_, hU,
    List.Pairwise.filter _ hn, ?_⟩
  · intro t ht
    obtain ⟨h1, h2⟩ := List.mem_filter.1 ht
    rcases served_cases h1 with h | ⟨cmm, env, req, out, m, hc, hu, -⟩
    · exact h
    · simp [P, hc, hu] at h2
  · refine length_le_one (List.Pairwise.filter _ hn) fun a ha b hb => ?_
    obtain ⟨cmm, env, req, out, m, h1⟩ := hU a ha
    obtain ⟨cmm', env', req', out', m', h2⟩ := hU b hb
    exact hf a b k (.inl ⟨cmm, env, req, out, m, h1⟩) (.inl ⟨cmm', env', req', out', m', h2⟩)

end Verif.Proof
