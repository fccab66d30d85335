import Verif.Proof.SessionComplete
import Verif.Props.SessionSchedule
/-
C66: a message that was written can be read back: no call fails, whatever the slices, and the message is read completely.
-/
namespace Verif.Props
open Spec

/-- The message of a session that encrypts and has not failed, as the reader needs it. -/
theorem msg_of {E1 : Env → Prop} {pol : Policy} {v1 : View} (hs : Storable E1) (h1 : Reach E1 pol v1) (hm : v1.s.mode = .encrypt)
    (hne : v1.s.state ≠ .error) :
    (v1.consumed = [] ∧ v1.released = []) ∨
    ∃ row hd m k fr tr, Msg E1 row hd m k fr tr ∧ v1.released = wireHeader row.version hd ++ (bodyBytes fr ++ tr) ∧
      v1.consumed = bodyText fr ∧ v1.s.header.sorted = hd ∧ row ∈ suiteTable ∧ row.id = hd.algId ∧
      (v1.s.state = .done → Complete fr ∧ Signed E1 row m (wireHeader row.version hd ++ bodyBytes fr) tr) := by
  rcases encrypted_of h1.hinv hm with h | ⟨row, hd, m, k, fr, tr, a1, a2, a3, a4⟩
  · exact Or.inl h
  · obtain ⟨e1, he1, hmade⟩ := a1.header
    obtain ⟨e3, req, ctx, he3, ht, hgen, hsort, hclen⟩ := a2.made.ctx
    obtain ⟨st1, st2, st3⟩ := hs e3 req ctx m he3 ht hgen
    have hok := headerOK_of_made hmade a2.made (fun e req ctx he ht hg => (hs e req ctx m he ht hg).1) st2 st3
    refine Or.inr ⟨row, hd, m, k, fr, tr, ⟨a1.header, a2.made, hok, a1.frames, ?_⟩, by rw [a1.released, List.append_assoc], a1.consumed,
      a2.shown hne, hmade.suite, hmade.alg.1.symm, a4⟩
    rcases a3 with h | ⟨h, -, -, h'⟩
    · exact Or.inl h
    · exact Or.inr ⟨h, h'⟩

theorem follows_of_reading {E2 : Env → Prop} {row : SuiteRow} {hd : Hdr} {k : Bytes}
    {fr : List (Frame × Bytes)} {tr : Bytes} (hM : Readable E2 row hd k fr tr) {v0 v : View} (hI : Inv v0.s) (hc0 : v0.consumed = []) (hr0 : v0.released = [])
    (hF : Follows E2 row hd k fr tr v0.s (wireHeader row.version hd ++ (bodyBytes fr ++ tr)) [])
    (h : Reading E2 (wireHeader row.version hd ++ (bodyBytes fr ++ tr)) v0 v) :
    Inv v.s ∧ ∃ rem, v.consumed ++ rem = wireHeader row.version hd ++ (bodyBytes fr ++ tr) ∧ Follows E2 row hd k fr tr v.s rem v.released := by
  induction h with
  | start => exact ⟨hI, _, by rw [hc0, List.nil_append], by rw [hr0]; exact hF⟩
  | @call v env mem inp h he hinp ih =>
    obtain ⟨ih1, rem, ih2, ih3⟩ := ih
    obtain ⟨later, hl⟩ := hinp
    have hrem : rem = inp ++ later := by
      rw [← ih2, List.append_assoc] at hl
      exact (List.append_cancel_left hl).symm
    subst hrem
    obtain ⟨p1, p2, ⟨rest, p3, p4, p5⟩, -⟩ := follow_process hM he ih1 (mem := mem) ih3
    have hap : (apply env v (.process mem (some inp))).1 = ⟨(process env v.s mem inp false).s,
        v.consumed ++ inp.take (process env v.s mem inp false).read,
        v.released ++ (process env v.s mem inp false).mem.take (process env v.s mem inp false).written⟩ := by
      show (if (process env v.s mem inp false).res = .ok then _ else _ : View × Res).1 = _
      rw [if_pos p1]
      rfl
    rw [hap]
    refine ⟨p2, rest ++ later, ?_, p5⟩
    rw [← ih2]
    simp only [List.append_assoc]
    rw [← List.append_assoc (inp.take _) rest later, ← p3]

theorem answers_alg {R : DecRequest → Prop} {E1 E2 : Env → Prop} (ho : OpensFor R E1 E2) {row : SuiteRow} {hd : Hdr} {m : EncMaterials}
    {k : Bytes} {fr : List (Frame × Bytes)} {tr : Bytes} (hM : Msg E1 row hd m k fr tr) (hR : R ⟨hd.encCtx, hd.edks, hd.algId⟩) :
    ∀ e m, E2 e → e.cmm.decrypt { encCtx := (hd.received row.version).encCtx, edks := (hd.received row.version).edks, alg := (hd.received row.version).algId } = .ok m →
      m.alg = (hd.received row.version).algId := by
  intro e md he hc
  obtain ⟨e1, he1, hmade⟩ := hM.made
  obtain ⟨e3, req, ctx, he3, ht, hgen, hsort, -⟩ := hM.enc.ctx
  obtain ⟨m', c1, c2, c3, c4⟩ := ho.answers e3 e req ctx hd.encCtx m he3 he ht hgen (by rw [hsort]; exact (sortByKey_perm ctx).symm)
    (by rw [hmade.edks, hmade.alg.1, ← hmade.alg.2] at hR; exact hR)
  have : DecRequest.mk hd.encCtx hd.edks hd.algId = DecRequest.mk hd.encCtx m.edks m.alg := by
    rw [hmade.edks, hmade.alg.1, hmade.alg.2]
  have h2 := (congrArg e.cmm.decrypt this).trans c1
  have h3 := Except.ok.inj (hc.symm.trans h2)
  rw [h3, c3, hmade.alg.2]
  exact hmade.alg.1.symm

theorem follows_start {E2 : Env → Prop} {row : SuiteRow} {hd : Hdr} {k : Bytes}
    {fr : List (Frame × Bytes)} {tr : Bytes} {alg n : Nat} {v0 : View} (hI : Inv v0.s) (hr : ReadyToRead alg n v0)
    (hma : ∀ e m, E2 e → e.cmm.decrypt { encCtx := hd.encCtx, edks := hd.edks, alg := hd.algId } = .ok m → m.alg = hd.algId) (hrow : row ∈ suiteTable)
    (hid : row.id = hd.algId) (ha : alg = hd.algId) (hn : n = hd.edks.length) :
    Follows E2 row hd k fr tr v0.s (wireHeader row.version hd ++ (bodyBytes fr ++ tr)) [] := by
  have hmay := hr.policy row hrow (hid.trans ha.symm)
  obtain ⟨p, hp⟩ := algProps_of_row hrow
  have hf := rowFacts hrow hp
  have hsi := hI.st
  unfold StInv at hsi
  rw [hr.start.1] at hsi
  refine .start (Or.inl hr.start.1) hsi.2.signctx hr.hasCmm ?_ ?_ (by rw [← hn]; exact hr.limit) ?_ rfl rfl
  · cases hpol : v0.s.policy <;> rw [hpol] at hmay <;> simp_all [MayDecrypt, Policy.isValid]
  · rw [← hid]
    cases hpol : v0.s.policy <;> rw [hpol] at hmay <;> simp_all [MayDecrypt, allowedForDecrypt]
    exact hid ▸ hf.committing.mpr hmay
  · rcases hr.mode with h | ⟨h, h'⟩
    · exact Or.inl h
    · refine Or.inr ⟨h, fun e m he hc => ⟨p, by rw [hma e m he hc, ← hid]; exact hp, ?_⟩⟩
      exact hf.sig.mpr (h' row hrow (hid.trans ha.symm))

theorem follows_released {E2 : Env → Prop} {row : SuiteRow} {hd : Hdr} {k : Bytes} {fr : List (Frame × Bytes)}
    {tr : Bytes} {s : Session} {rem out : Bytes} (h : Follows E2 row hd k fr tr s rem out) : out <+: bodyText fr := by
  cases h with
  | start _ _ _ _ _ _ _ _ hout => rw [hout]; exact List.nil_prefix
  | body fr1 fr2 _ hfr _ _ _ _ _ _ _ hout => rw [hout, hfr]; exact ⟨bodyText fr2, by simp [bodyText]⟩
  | trailer _ _ hout => rw [hout]; exact List.prefix_refl _
  | done _ _ hout => rw [hout]; exact List.prefix_refl _

/-- `C66_reading_never_fails` for a reader whose CMM is asked a request of `R`. -/
theorem reading_never_fails_for {R : DecRequest → Prop} {E1 E2 : Env → Prop} (ho : OpensFor R E1 E2) (hs : Storable E1) (pol1 pol2 : Policy) (v1 v0 v : View)
    (h1 : Reach E1 pol1 v1) (hm1 : v1.s.mode = .encrypt)
    (hR : R ⟨v1.s.header.sorted.encCtx, v1.s.header.edks, v1.s.header.algId⟩) (hne : v1.s.state ≠ .error) (hnil : v1.released ≠ [])
    (h0 : Reach E2 pol2 v0) (hr : ReadyToRead v1.s.header.algId v1.s.header.edks.length v0) (hv : Reading E2 v1.released v0 v)
    (env : Env) (he : E2 env) (mem inp : Bytes) (hinp : v.consumed ++ inp <+: v1.released) :
    (apply env v (.process mem (some inp))).2 = .ok ∧ (apply env v (.process mem (some inp))).1.released <+: v1.consumed := by
  rcases msg_of hs h1 hm1 hne with ⟨-, h⟩ | ⟨row, hd, m, k, fr, tr, hM, b1, b2, b3, b4, b5, b6⟩
  · exact absurd h hnil
  · subst b3
    have hma := answers_alg ho hM hR
    rw [← wireHeader_received] at b1
    replace hM := readable_of_msg ho hM hR
    have hF := follows_start (E2 := E2) (k := k) (fr := fr) (tr := tr) h0.hinv.inv hr hma b4 b5 rfl rfl
    rw [b1] at hv hinp
    obtain ⟨c1, rem, c2, c3⟩ := follows_of_reading hM h0.hinv.inv hr.start.2.1 hr.start.2.2 hF hv
    obtain ⟨later, hl⟩ := hinp
    have hrem : rem = inp ++ later := by
      rw [← c2, List.append_assoc] at hl
      exact (List.append_cancel_left hl).symm
    subst hrem
    obtain ⟨p1, p2, ⟨rest, p3, p4, p5⟩, -⟩ := follow_process hM he c1 (mem := mem) c3
    have hap : apply env v (.process mem (some inp)) = (⟨(process env v.s mem inp false).s,
        v.consumed ++ inp.take (process env v.s mem inp false).read,
        v.released ++ (process env v.s mem inp false).mem.take (process env v.s mem inp false).written⟩, (process env v.s mem inp false).res) := by
      show (if (process env v.s mem inp false).res = .ok then _ else _ : View × Res) = _
      rw [if_pos p1]
      rfl
    rw [hap]
    exact ⟨p1, by rw [b2]; exact follows_released p5⟩

/-- While a session writes a message, or when it is done, another session can read what has been released so far, from its
beginning and in whatever slices, with whatever output buffers: no call fails, and what is released is a prefix of the plaintext. -/
theorem C66_reading_never_fails (E1 E2 : Env → Prop) (ho : Opens E1 E2) (hs : Storable E1) (pol1 pol2 : Policy) (v1 v0 v : View)
    (h1 : Reach E1 pol1 v1) (hm1 : v1.s.mode = .encrypt) (hne : v1.s.state ≠ .error) (hnil : v1.released ≠ [])
    (h0 : Reach E2 pol2 v0) (hr : ReadyToRead v1.s.header.algId v1.s.header.edks.length v0) (hv : Reading E2 v1.released v0 v)
    (env : Env) (he : E2 env) (mem inp : Bytes) (hinp : v.consumed ++ inp <+: v1.released) :
    (apply env v (.process mem (some inp))).2 = .ok ∧ (apply env v (.process mem (some inp))).1.released <+: v1.consumed :=
  reading_never_fails_for (R := fun _ => True) ho hs pol1 pol2 v1 v0 v h1 hm1 trivial hne hnil h0 hr hv env he mem inp hinp

/-- `C66_reads_to_the_end` for a reader whose CMM is asked a request of `R`. -/
theorem reads_to_the_end_for {R : DecRequest → Prop} {E1 E2 : Env → Prop} (ho : OpensFor R E1 E2) (hs : Storable E1) (pol1 pol2 : Policy) (v1 v0 v : View)
    (h1 : Reach E1 pol1 v1) (hm1 : v1.s.mode = .encrypt)
    (hR : R ⟨v1.s.header.sorted.encCtx, v1.s.header.edks, v1.s.header.algId⟩) (hd1 : isDone v1.s = true)
    (h0 : Reach E2 pol2 v0) (hr : ReadyToRead v1.s.header.algId v1.s.header.edks.length v0) (hv : Reading E2 v1.released v0 v)
    (env : Env) (he : E2 env) (mem inp : Bytes) (hinp : v.consumed ++ inp = v1.released)
    (hroom : v1.consumed.length ≤ v.released.length + mem.length) :
    (apply env v (.process mem (some inp))).2 = .ok ∧ isDone (apply env v (.process mem (some inp))).1.s = true ∧
    (apply env v (.process mem (some inp))).1.consumed = v1.released ∧
    (apply env v (.process mem (some inp))).1.released = v1.consumed := by
  have hst1 : v1.s.state = .done := by simpa [isDone] using hd1
  have hne : v1.s.state ≠ .error := by rw [hst1]; simp
  rcases msg_of hs h1 hm1 hne with ⟨-, hr⟩ | ⟨row, hd, m, k, fr, tr, hM, b1, b2, b3, b4, b5, b6⟩
  · exfalso
    obtain ⟨row, hd, m, k, fr, tr, a1, -⟩ := full_of_done h1 hm1 hd1
    have := a1.released
    rw [hr] at this
    have hl := congrArg List.length this
    obtain ⟨e, -, hmade⟩ := a1.header
    obtain ⟨ct, hct⟩ := hmade.tag
    have ht := (e.crypto.aeadSeal_len _ _ _ _ _ _ hct).2
    unfold wireHeader at hl
    simp only [List.length_append, List.length_nil] at hl
    omega
  · subst b3
    obtain ⟨hcomp, hsigned⟩ := b6 hst1
    have hma := answers_alg ho hM hR
    rw [← wireHeader_received] at b1
    replace hM := readable_of_msg ho hM hR
    have hF := follows_start (E2 := E2) (k := k) (fr := fr) (tr := tr) h0.hinv.inv hr hma b4 b5 rfl rfl
    rw [b1] at hv
    obtain ⟨c1, rem, c2, c3⟩ := follows_of_reading hM h0.hinv.inv hr.start.2.1 hr.start.2.2 hF hv
    rw [b1, ← c2] at hinp
    have hrem : rem = inp ++ [] := by rw [List.append_nil]; exact (List.append_cancel_left hinp).symm
    subst hrem
    obtain ⟨p1, p2, ⟨rest, p3, p4, p5⟩, p6⟩ := follow_process hM he c1 (mem := mem) c3
    have hdone := p6 rfl (by rw [← b2]; exact hroom) hcomp (by
      intro h0 htr
      unfold Signed at hsigned
      rw [if_neg h0, htr] at hsigned
      obtain ⟨_, _, sig, _, _, _, h⟩ := hsigned
      have := congrArg List.length h
      simp [wireTrailer, u16] at this)
    have hap : apply env v (.process mem (some inp)) = (⟨(process env v.s mem inp false).s,
        v.consumed ++ inp.take (process env v.s mem inp false).read,
        v.released ++ (process env v.s mem inp false).mem.take (process env v.s mem inp false).written⟩, (process env v.s mem inp false).res) := by
      show (if (process env v.s mem inp false).res = .ok then _ else _ : View × Res) = _
      rw [if_pos p1]
      rfl
    rw [hap]
    have hfin : rest = [] ∧ v.released ++ (process env v.s mem inp false).mem.take (process env v.s mem inp false).written = bodyText fr := by
      cases p5 with
      | start hst => rw [hdone] at hst; simp at hst
      | body _ _ hst => rw [hdone] at hst; cases hst
      | trailer hst => rw [hdone] at hst; cases hst
      | done hst _ hout hrem => exact ⟨by simpa using hrem, hout⟩
    refine ⟨p1, by simp [isDone, hdone], ?_, by rw [b2]; exact hfin.2⟩
    show v.consumed ++ inp.take (process env v.s mem inp false).read = v1.released
    rw [hfin.1, List.append_nil] at p3
    rw [← p3, b1, ← c2, List.append_nil]

/-- When the writer is done and the reader is given all that remains, with room for the rest of the plaintext, one call reads the
message to its end: the reader is done, has consumed the whole message and has released the whole plaintext. -/
theorem C66_reads_to_the_end (E1 E2 : Env → Prop) (ho : Opens E1 E2) (hs : Storable E1) (pol1 pol2 : Policy) (v1 v0 v : View)
    (h1 : Reach E1 pol1 v1) (hm1 : v1.s.mode = .encrypt) (hd1 : isDone v1.s = true)
    (h0 : Reach E2 pol2 v0) (hr : ReadyToRead v1.s.header.algId v1.s.header.edks.length v0) (hv : Reading E2 v1.released v0 v)
    (env : Env) (he : E2 env) (mem inp : Bytes) (hinp : v.consumed ++ inp = v1.released)
    (hroom : v1.consumed.length ≤ v.released.length + mem.length) :
    (apply env v (.process mem (some inp))).2 = .ok ∧ isDone (apply env v (.process mem (some inp))).1.s = true ∧
    (apply env v (.process mem (some inp))).1.consumed = v1.released ∧
    (apply env v (.process mem (some inp))).1.released = v1.consumed :=
  reads_to_the_end_for (R := fun _ => True) ho hs pol1 pol2 v1 v0 v h1 hm1 trivial hd1 h0 hr hv env he mem inp hinp hroom

/-- `C66_process_full` for a reader whose CMM is asked a request of `R`. -/
theorem process_full_for {R : DecRequest → Prop} {E1 E2 : Env → Prop} (ho : OpensFor R E1 E2) (hs : Storable E1) (pol1 pol2 : Policy) (v1 v0 : View)
    (h1 : Reach E1 pol1 v1) (hm1 : v1.s.mode = .encrypt)
    (hR : R ⟨v1.s.header.sorted.encCtx, v1.s.header.edks, v1.s.header.algId⟩) (hd1 : isDone v1.s = true)
    (h0 : Reach E2 pol2 v0) (hr : ReadyToRead v1.s.header.algId v1.s.header.edks.length v0)
    (env : Env) (he : E2 env) (mem : Bytes) (old : Nat) (hroom : v1.consumed.length ≤ mem.length) :
    (apply env v0 (.processFull mem (some v1.released) old)).2 = .ok ∧
    (apply env v0 (.processFull mem (some v1.released) old)).1.released = v1.consumed := by
  have h := reads_to_the_end_for ho hs pol1 pol2 v1 v0 v0 h1 hm1 hR hd1 h0 hr .start env he mem v1.released
    (by rw [hr.start.2.1]; rfl) (by rw [hr.start.2.2]; simpa using hroom)
  have hnc : ¬ v0.s.mode = .encrypt := by rcases hr.mode with h | ⟨h, -⟩ <;> rw [h] <;> simp
  have hpr : (process env v0.s mem v1.released false).res = .ok := by
    cases hp : (process env v0.s mem v1.released false).res with
    | ok => rfl
    | _ =>
      have := h.1
      simp only [apply, Option.getD_some, Option.isNone_some, hp] at this
      cases this
  simp only [apply, Option.getD_some, Option.isNone_some, hpr, if_true] at h
  have hread : (process env v0.s mem v1.released false).read = v1.released.length := by
    have h3 := h.2.2.1
    rw [hr.start.2.1, List.nil_append] at h3
    have h4 := congrArg List.length h3
    rw [List.length_take] at h4
    cases process_cases env v0.s h0.hinv.inv mem v1.released false with
    | ok rest hr hml hw hread hrl => omega
    | err e out inp1 mem1 s1 hr => rw [hr] at hpr; cases hpr
  have hfull : processFull env v0.s mem v1.released false old = process env v0.s mem v1.released false := by
    unfold processFull
    rw [if_neg (by simp [hr.start.1])]
    simp only [hnc, if_false, hpr]
    rw [if_pos ⟨by simpa [isDone] using h.2.1, hread⟩]
  simp only [apply, Option.getD_some, Option.isNone_some, hfull, hpr, if_true]
  exact ⟨trivial, h.2.2.2⟩

/-- The same for the call that takes a whole message at once. -/
theorem C66_process_full (E1 E2 : Env → Prop) (ho : Opens E1 E2) (hs : Storable E1) (pol1 pol2 : Policy) (v1 v0 : View)
    (h1 : Reach E1 pol1 v1) (hm1 : v1.s.mode = .encrypt) (hd1 : isDone v1.s = true)
    (h0 : Reach E2 pol2 v0) (hr : ReadyToRead v1.s.header.algId v1.s.header.edks.length v0)
    (env : Env) (he : E2 env) (mem : Bytes) (old : Nat) (hroom : v1.consumed.length ≤ mem.length) :
    (apply env v0 (.processFull mem (some v1.released) old)).2 = .ok ∧
    (apply env v0 (.processFull mem (some v1.released) old)).1.released = v1.consumed :=
  process_full_for (R := fun _ => True) ho hs pol1 pol2 v1 v0 h1 hm1 trivial hd1 h0 hr env he mem old hroom

/-- The toy environments meet the hypotheses: the reader opens what the writer writes, the writer is done, and a new session is
ready to read the message, also after a call with its first 50 bytes and room for two bytes of plaintext. -/
example : Opens (· = C17_env) (· = Example.env) ∧ Storable (· = C17_env) ∧
    Reach (· = C17_env) .requireRequire (C17_run [(200, [1, 2, 3, 4, 5]), (7, [5])] [5, 6]) ∧
    (C17_run [(200, [1, 2, 3, 4, 5]), (7, [5])] [5, 6]).s.mode = .encrypt ∧
    isDone (C17_run [(200, [1, 2, 3, 4, 5]), (7, [5])] [5, 6]).s = true ∧
    ReadyToRead (C17_run [(200, [1, 2, 3, 4, 5]), (7, [5])] [5, 6]).s.header.algId
      (C17_run [(200, [1, 2, 3, 4, 5]), (7, [5])] [5, 6]).s.header.edks.length (Example.decNew .decrypt) ∧
    Reading (· = Example.env) (C17_run [(200, [1, 2, 3, 4, 5]), (7, [5])] [5, 6]).released (Example.decNew .decrypt)
      (apply Example.env (Example.decNew .decrypt) (.process (Example.zeros 2) (some (Example.msg.take 50)))).1 := by
  refine ⟨⟨?_, ?_, ?_, ?_, ?_, ?_⟩, ?_, ?_, by decide +kernel, by decide +kernel, ⟨by decide +kernel, by decide +kernel, ?_, by decide +kernel,
    Or.inl (by decide +kernel)⟩, .call .start rfl ⟨Example.msg.drop 50, by decide +kernel⟩⟩
  · rintro e1 e2 k iv aad pt ct tag rfl rfl h
    simp only [C17_env, Example.env, Example.crypto, Option.some.injEq, Prod.mk.injEq] at h
    obtain ⟨rfl, rfl⟩ := h
    rfl
  · rintro e1 e2 sha salt ikm info n x rfl rfl h; exact h
  · rintro e2 site rfl; rfl
  · rintro e2 ctx x rfl; rfl
  · rintro e1 ctx sig rfl h
    simp only [C17_env, Example.env, Example.crypto, Except.ok.injEq] at h
    subst h
    simp
  · rintro e1 e2 req ctx ctx' m rfl rfl - h - -
    simp only [C17_env, Prod.mk.injEq, Except.ok.injEq] at h
    obtain ⟨rfl, rfl⟩ := h
    refine ⟨_, rfl, rfl, rfl, fun c _ => ⟨⟨⟨0, none, none⟩, []⟩, rfl, ?_⟩⟩
    rintro e1 e2 data sig rfl rfl h
    simp only [C17_env, Example.env, Example.crypto, Except.ok.injEq] at h
    subst h
    rfl
  · rintro e req ctx m rfl - h
    simp only [C17_env, Prod.mk.injEq, Except.ok.injEq] at h
    obtain ⟨rfl, rfl⟩ := h
    exact ⟨by simp [DistinctKeys], by decide, by decide⟩
  · exact Example.reach_hist (E := (· = C17_env)) (v := Example.encNew) (.new (mode := .encrypt) rfl)
      ([(C17_env, .setFrameSize 4)] ++ [(200, [1, 2, 3, 4, 5]), (7, [5])].map (fun x => (C17_env, .process (Example.zeros x.1) (some x.2))) ++
        [(C17_env, .setMessageSize 6), (C17_env, .process (Example.zeros 300) (some [5, 6]))]) (by simp)
  · have : (C17_run [(200, [1, 2, 3, 4, 5]), (7, [5])] [5, 6]).s.header.algId = 0x0578 := by decide +kernel
    rw [this]
    have hp : (Example.decNew .decrypt).s.policy = .requireRequire := by decide +kernel
    rw [hp]
    simp [suiteTable, MayDecrypt]

end Verif.Props
