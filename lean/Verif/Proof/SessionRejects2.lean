import Verif.Proof.SessionRejects
import Verif.Proof.SessionProgress
/-
A decrypting session fails when it is given bytes that are to be turned down.
-/
namespace Verif
open Spec

/-- Where a decrypting session waits. -/
inductive Waits (s : Session) (inp : Bytes) (room : Nat) : Prop
  | header (hst : s.state = .readHeader) (h : hdrParse s.maxEdks inp = .error .shortBuffer)
  | frame (hst : s.state = .decryptBody) (h : frameParser s.frameSize inp = .error .shortBuffer ∨
      ∃ f rest, frameParser s.frameSize inp = .ok (f, rest) ∧ f.seqno = s.seqno ∧ room < f.ciphertext.length)
  | trailer {n : Nat} {ctx : SigCtx} (hst : s.state = .checkTrailer) (hs : s.signctx = some ctx) (h : readTrailer inp = .error n)
  | done (hst : s.state = .done)

theorem waits_of_stalled {env : Env} {inNull : Bool} {s : Session} {inp : Bytes} {room : Nat} (hm : s.mode.isDecrypt = true) (hI : Inv s)
    (h : Stalled env inNull s inp room) : Waits s inp room := by
  have hI' := hI.st
  unfold StInv at hI'
  have hne : ¬ s.mode = .encrypt := fun he => by rw [he] at hm; cases hm
  obtain ⟨s1, mem, hI1, hroom, hok, hs, hb, hinp, hst⟩ := h
  have hc := sessionStep_cases env s1 hI1 mem inp inNull
  generalize sessionStep env s1 ⟨mem, 0⟩ inp inNull = r at *
  subst hs
  cases hc with
  | cfgFail h hr => rw [hr] at hok; cases hok
  | cfgEnc h _ _ _ hr => rw [hr, h] at hst; cases hst
  | cfgDec h _ _ _ hr => rw [hr, h] at hst; cases hst
  | done h hr => exact .done (by rw [hst]; exact h)
  | error h hr => rw [hr] at hok; cases hok
  | parse h hc =>
    cases hc with
    | fail e hr => rw [hr] at hok; cases hok
    | stall est hr hbuf hinp' hs why hest => exact .header (hst.trans h) (by rw [hs]; exact why)
    | opened hb hd row p m k sg hr hbuf hk => rw [hk.result, h] at hst; cases hst
  | dec h hc =>
    cases hc with
    | fail e i o q sg hr => rw [hr] at hok; cases hok
    | stall i o hr hs hbuf hinp' why =>
      refine .frame (hst.trans h) ?_
      rw [hs]
      rcases why with ⟨h1, -⟩ | ⟨f, rest, h1, h2, h3, h4⟩
      · exact Or.inl h1
      · exact Or.inr ⟨f, rest, h1, h2, by omega⟩
    | opened f pt sg i hr _ hfok hinp' =>
      exfalso
      rw [hinp] at hinp'
      have hl := congrArg List.length hinp'
      rw [List.length_append] at hl
      have : 0 < (wireFrame f).length := by
        have := hfok.iv
        unfold wireFrame
        split <;> simp [u32] <;> omega
      omega
  | check h hc =>
    cases hc with
    | fail e ctx sg hr => rw [hr] at hok; cases hok
    | stall n ctx hr hctx hs hbuf hinp' why => exact .trailer (hst.trans h) (by rw [hs]; exact hctx) why
    | noSig hr hctx hs => rw [hs, h] at hst; cases hst
    | verified ctx sig hr hctx hver hs hbuf hinp' =>
      exfalso
      rw [hinp] at hinp'
      have hl := congrArg List.length hinp'
      simp only [List.length_append, length_be] at hl
      omega
  | gen h hc => rw [hst, h] at hI'; exact absurd hI'.1 hne
  | header h hc => rw [hst, h] at hI'; exact absurd hI'.1 hne
  | body p h hsp hp hc => rw [hst, h] at hI'; exact absurd hI'.1 hne
  | trailer p h hsp hp hc => rw [hst, h] at hI'; exact absurd hI'.1 hne

/-- What a decrypting session has written and what it has left to read are together no longer than the input. -/
theorem steps_room {env : Env} {inNull : Bool} {s s' : Session} {inp inp' o : Bytes} (hm : s.mode.isDecrypt = true) (hI : Inv s)
    (h : Steps env inNull s inp o s' inp') : o.length + inp'.length ≤ inp.length := by
  have := h.induct (I := fun s out x => s.mode.isDecrypt = true ∧ out.length + x.length ≤ inp.length) ?_ hI [] ⟨hm, by simp⟩
  · rw [List.nil_append] at this
    exact this.2
  intro s mem x out hI ⟨hm, hl⟩ hok
  have hk := sessionStep_keeps env s hI mem x inNull
  refine ⟨by rw [hk.mode]; exact hm, ?_⟩
  have hso := sessionStep_ok env s hI mem x inNull
  have hI' := hI.st
  unfold StInv at hI'
  have hne : ¬ s.mode = .encrypt := fun he => by rw [he] at hm; cases hm
  have hc := sessionStep_cases env s hI mem x inNull
  generalize sessionStep env s ⟨mem, 0⟩ x inNull = r at *
  have hle := hso.inpLe
  have h0 : r.buf.len = 0 → (out ++ r.buf.mem.take r.buf.len).length + r.inp.length ≤ inp.length := by
    intro h; rw [h]; simp; omega
  cases hc with
  | cfgFail h hr => rw [hr] at hok; cases hok
  | cfgEnc h _ _ _ hr => exact h0 (by rw [hr])
  | cfgDec h _ _ _ hr => exact h0 (by rw [hr])
  | done h hr => exact h0 (by rw [hr])
  | error h hr => rw [hr] at hok; cases hok
  | parse h hc =>
    cases hc with
    | fail e hr => rw [hr] at hok; cases hok
    | stall est hr hbuf => exact h0 (by rw [hbuf])
    | opened hb hd row p m k sg hr hbuf hk => exact h0 (by rw [hbuf])
  | dec h hc =>
    cases hc with
    | fail e i o q sg hr => rw [hr] at hok; cases hok
    | stall i o hr hs hbuf hinp' why => exact h0 (by rw [hbuf])
    | opened f pt sg i hr _ _ hinp' _ _ hpt hroom _ _ hbuf =>
      rw [hbuf]
      simp only
      rw [List.take_left' rfl, List.length_append]
      have := congrArg List.length hinp'
      rw [List.length_append] at this
      have := wireFrame_ge (f := f)
      omega
  | check h hc =>
    cases hc with
    | fail e ctx sg hr => rw [hr] at hok; cases hok
    | stall n ctx hr hctx hs hbuf hinp' why => exact h0 (by rw [hbuf])
    | noSig hr hctx hs hbuf => exact h0 (by rw [hbuf])
    | verified ctx sig hr hctx hver hs hbuf hinp' => exact h0 (by rw [hbuf])
  | gen h hc => rw [h] at hI'; exact absurd hI'.1 hne
  | header h hc => rw [h] at hI'; exact absurd hI'.1 hne
  | body p h hsp hp hc => rw [h] at hI'; exact absurd hI'.1 hne
  | trailer p h hsp hp hc => rw [h] at hI'; exact absurd hI'.1 hne

theorem readTrailer_wire {sig rest : Bytes} (h : sig.length < 65536) : readTrailer (wireTrailer sig ++ rest) = .ok (sig, rest) := by
  unfold readTrailer wireTrailer
  rw [u16_eq_be, List.append_assoc]
  have h1 : rd 2 (be 2 sig.length ++ (sig ++ rest)) = some (be 2 sig.length, sig ++ rest) := by
    unfold rd
    rw [if_pos (by simp), List.take_left' (by simp), List.drop_left' (by simp)]
  rw [h1]
  simp only
  rw [unbe_be (by omega)]
  have h2 : rd sig.length (sig ++ rest) = some (sig, rest) := by
    unfold rd
    rw [if_pos (by simp), List.take_left' rfl, List.drop_left' rfl]
  rw [h2]

/-- A waiting session has not been given bytes that are to be turned down. -/
theorem waits_not_rejected {e : Env} {pol : Policy} {v : View} {inp : Bytes} {room : Nat} {c : Err} (h : HInv (· = e) pol v) (hs : SetUp v.s)
    (hw : Waits v.s inp room) (hroom : inp.length ≤ room) (hd : Decided e pol v.s.mode (v.consumed ++ inp))
    (hr : Rejected e pol v.s.maxEdks v.s.mode (v.consumed ++ inp) c) : False := by
  have hl := h.live hs.live
  have hne : ¬ v.s.mode = .encrypt := fun he => by have := hs.mode; rw [he] at this; cases this
  have big : ∀ {fs : Nat} {f : Frame} {rest : Bytes}, fs < 2 ^ 32 → frameParser fs inp = .ok (f, rest) → f.ciphertext.length ≤ room := by
    intro fs f rest hfs hp
    obtain ⟨-, hx⟩ := (frameParser_iff hfs).mp hp
    have := congrArg List.length hx
    rw [List.length_append] at this
    have := wireFrame_ge (f := f)
    omega
  unfold LiveLog at hl
  -- the header of what is turned down is the accepted one
  have same : ∀ {row h m k row' h' m' k'} {x x' : Bytes}, HeaderAccepted e pol v.s.mode row h m k → HeaderAccepted e pol v.s.mode row' h' m' k' →
      wireHeader row.version h ++ x = wireHeader row'.version h' ++ x' → row = row' ∧ m = m' ∧ k = k' ∧ h'.frameLen = h.frameLen ∧
        h'.messageId = h.messageId ∧ wireHeader row.version h = wireHeader row'.version h' ∧ x = x' := by
    intro row h m k row' h' m' k' x x' h1 h2 heq
    obtain ⟨rfl, hb, h3⟩ := header_unique h1.verified.ok h2.verified.ok heq
    have h1' := h1.bare
    rw [hb] at h1'
    obtain ⟨rfl, rfl⟩ := h1'.unique h2.bare
    exact ⟨rfl, rfl, rfl, by have := congrArg Hdr.frameLen hb.symm; exact this, by have := congrArg Hdr.messageId hb.symm; exact this,
      by subst h3; exact List.append_cancel_right heq, h3⟩
  cases hw with
  | header hst hp =>
    rw [hst] at hl
    simp only at hl
    have hx : v.consumed ++ inp = inp := by rw [hl.1]; rfl
    rw [hx] at hr hd
    cases hr with
    | malformed hm =>
      rcases hdrParse_of_malformed hm with h1 | ⟨-, h1, h2⟩
      · rw [hp] at h1
        cases h1
        cases hm
      · cases hm with
        | edks h3 => exact h2 h3
        | bytes _ h3 => have := hd.header h3; omega
    | header hok hlim hx => rw [hx, hdrParse_wire hok hlim] at hp; cases hp
    | frame hlim ha hf ho hx => rw [hx, List.append_assoc, hdrParse_wire ha.verified.ok hlim] at hp; cases hp
    | signature hlim ha hf hc hsg hm hsl hx =>
      rw [hx, List.append_assoc, List.append_assoc, hdrParse_wire ha.verified.ok hlim] at hp; cases hp
  | frame hst hp =>
    rw [hst] at hl
    simp only at hl
    obtain ⟨hb, hh, row, p, m, k, fr, a1, a2, a3, a4⟩ := hl
    obtain ⟨b1, b2, b3, -, b5, -⟩ := decLog_facts a1
    have hacc := accepted_of_log a1
    have hfs : hh.frameLen < 2 ^ 32 := hacc.verified.ok.frameLen
    rw [a1.frameSize, a1.seqno] at hp
    -- the next frame is not one that opens
    have open_clash : ∀ {f : Frame} {rest : Bytes}, FrameOK hh.frameLen f → inp = wireFrame f ++ rest → f.seqno = fr.length + 1 → False := by
      intro f rest hok hx hsq
      have hpz := (frameParser_iff hfs).mpr ⟨hok, hx⟩
      rcases hp with hp | ⟨f', rest', hp, -, hlt⟩
      · rw [hpz] at hp; cases hp
      · have := big hfs hp
        omega
    have hc : v.consumed ++ inp = wireHeader row.version hh ++ (bodyBytes fr ++ inp) := by rw [a3, b1, List.append_assoc]
    rw [hc] at hr
    cases hr with
    | malformed hm => exact header_of_rejected hacc.verified.ok b5 rfl hm
    | header hok hlim hx hr =>
      obtain ⟨rfl, hb, h3⟩ := header_unique hacc.verified.ok hok hx
      have h1 := hacc.bare
      rw [hb] at h1
      exact h1.not_rejected hr.bare
    | @frame row' h' m' k' fr' rest' c' hl' ha' hf' ho' hx' hr' =>
      rw [List.append_assoc] at hx'
      obtain ⟨rfl, rfl, rfl, e1, e2, e3, e4⟩ := same hacc ha' hx'
      rw [e1, e2] at hf' hr'
      have l1 := frame_not_within hfs hf' a1.frames e4.symm hr'
      by_cases hlt : fr.length < fr'.length
      · obtain ⟨f, pt, rest, ho, hx⟩ := (position_agree hfs a1.frames hf' e4).1 hlt
        exact open_clash ho.ok hx ho.seqno
      · obtain ⟨rfl, rfl⟩ := (position_agree hfs a1.frames hf' e4).2 (by omega)
        cases hr' with
        | bytes hn =>
          have hdec := hd.frame row hh m k fr inp hacc a1.frames a2 (by rw [hc, List.append_assoc]) hn
          rcases frameParser_of_noFrame hfs hn with h1 | ⟨-, h1⟩
          · rcases hp with hp | ⟨f', rest', hp, -⟩ <;> rw [h1] at hp <;> cases hp
          · omega
        | number hok hx hn =>
          have hpz := (frameParser_iff hfs).mpr ⟨hok, hx⟩
          rcases hp with hp | ⟨f', rest', hp, hsq, -⟩
          · rw [hpz] at hp; cases hp
          · rw [hpz] at hp; cases hp; exact hn hsq
        | tag hok hx hn => exact open_clash hok hx hn
    | @signature row' h' m' k' fr' ctx sig rest' c' hl' ha' hf' hc' hsg hm' hsl hx' hv' =>
      rw [List.append_assoc, List.append_assoc] at hx'
      obtain ⟨rfl, rfl, rfl, e1, e2, e3, e4⟩ := same hacc ha' hx'
      rw [e1, e2] at hf'
      have hag := opened_agree hfs (fun e1 e2 h1 h2 => by rw [h1, h2]) a1.frames hf' e4
      have l1 := (prefix_of_complete (body_of (Or.inl a2)) hc' hag).length_le
      by_cases hlt : fr.length < fr'.length
      · obtain ⟨f, pt, rest, ho, hx⟩ := (position_agree hfs a1.frames hf' e4).1 hlt
        exact open_clash ho.ok hx ho.seqno
      · obtain ⟨rfl, -⟩ := (position_agree hfs a1.frames hf' e4).2 (by omega)
        exact ongoing_not_complete a2 hc'
  | trailer hst hsc hp =>
    rw [hst] at hl
    simp only at hl
    obtain ⟨hb, hh, row, p, m, k, fr, a1, a2, a3⟩ := hl
    obtain ⟨b1, b2, b3, -, b5, -⟩ := decLog_facts a1
    have hacc := accepted_of_log a1
    have hfs : hh.frameLen < 2 ^ 32 := hacc.verified.ok.frameLen
    rcases a3 with ⟨a3, a4⟩ | ⟨tr, -, a3, -⟩
    · have hc : v.consumed ++ inp = wireHeader row.version hh ++ (bodyBytes fr ++ inp) := by rw [a3, b1, List.append_assoc]
      rw [hc] at hr
      cases hr with
      | malformed hm => exact header_of_rejected hacc.verified.ok b5 rfl hm
      | header hok hlim hx hr =>
        obtain ⟨rfl, hb, h3⟩ := header_unique hacc.verified.ok hok hx
        have h1 := hacc.bare
        rw [hb] at h1
        exact h1.not_rejected hr.bare
      | @frame row' h' m' k' fr' rest' c' hl' ha' hf' ho' hx' hr' =>
        rw [List.append_assoc] at hx'
        obtain ⟨rfl, rfl, rfl, e1, e2, e3, e4⟩ := same hacc ha' hx'
        rw [e1, e2] at hf' hr'
        exact frame_signature_clash hfs hf' a1.frames e4.symm hr' ho' a2
      | @signature row' h' m' k' fr' ctx sig rest' c' hl' ha' hf' hc' hsg hm' hsl hx' hv' =>
        rw [List.append_assoc, List.append_assoc] at hx'
        obtain ⟨rfl, rfl, rfl, e1, e2, e3, e4⟩ := same hacc ha' hx'
        rw [e1, e2] at hf'
        have hag := opened_agree hfs (fun e1 e2 h1 h2 => by rw [h1, h2]) a1.frames hf' e4
        have l1 := (prefix_of_complete (body_of (Or.inr a2)) hc' hag).length_le
        have l2 := (prefix_of_complete (body_of (Or.inr hc')) a2 (fun i h1 h2 => (hag i h2 h1).symm)).length_le
        obtain ⟨rfl, rfl⟩ := (position_agree hfs a1.frames hf' e4).2 (by omega)
        rw [readTrailer_wire hsl] at hp; cases hp
    · rw [hsc] at a3; cases a3
  | done hst =>
    rw [hst] at hl
    simp only at hl
    rcases hl with ⟨_, _, _, _, _, _, _, h1, -⟩ | ⟨hb, hh, row, p, m, k, fr, tr, a1, a2, a3, a4⟩
    · exact hne h1.mode
    obtain ⟨b1, b2, b3, -, b5, -⟩ := decLog_facts a1
    have hacc := accepted_of_log a1
    have hfs : hh.frameLen < 2 ^ 32 := hacc.verified.ok.frameLen
    have hc : v.consumed ++ inp = wireHeader row.version hh ++ (bodyBytes fr ++ (tr ++ inp)) := by rw [a3, b1]; simp only [List.append_assoc]
    rw [hc] at hr
    cases hr with
    | malformed hm => exact header_of_rejected hacc.verified.ok b5 rfl hm
    | header hok hlim hx hr =>
      obtain ⟨rfl, hb, h3⟩ := header_unique hacc.verified.ok hok hx
      have h1 := hacc.bare
      rw [hb] at h1
      exact h1.not_rejected hr.bare
    | @frame row' h' m' k' fr' rest' c' hl' ha' hf' ho' hx' hr' =>
      rw [List.append_assoc] at hx'
      obtain ⟨rfl, rfl, rfl, e1, e2, e3, e4⟩ := same hacc ha' hx'
      rw [e1, e2] at hf' hr'
      exact frame_signature_clash hfs hf' a1.frames e4.symm hr' ho' a2
    | @signature row' h' m' k' fr' ctx sig rest' c' hl' ha' hf' hc' hsg hm' hsl hx' hv' =>
      rw [List.append_assoc, List.append_assoc] at hx'
      obtain ⟨rfl, rfl, rfl, e1, e2, e3, e4⟩ := same hacc ha' hx'
      rw [e1, e2] at hf'
      have hag := opened_agree hfs (fun e1 e2 h1 h2 => by rw [h1, h2]) a1.frames hf' e4
      have l1 := (prefix_of_complete (body_of (Or.inr a2)) hc' hag).length_le
      have l2 := (prefix_of_complete (body_of (Or.inr hc')) a2 (fun i h1 h2 => (hag i h2 h1).symm)).length_le
      obtain ⟨rfl, h5⟩ := (position_agree hfs a1.frames hf' e4).2 (by omega)
      rcases a4 with ⟨h0, -⟩ | ⟨-, e', ctx', sig', rfl, h1, h2, rfl, h3⟩
      · exact hsg ((rowFacts b3 b2).sig.mp h0)
      · obtain ⟨rfl, -⟩ := wireTrailer_unique h3 hsl h5
        rw [hm'] at h1
        simp only [absorbed, Option.map_some, Option.some.injEq] at h1
        subst h1
        rw [b1, e3, hv'] at h2
        cases h2

/-- A call that is given bytes to be turned down fails, with the error that goes with them. -/
theorem process_rejects {e : Env} (hn : NothingFails e) {pol : Policy} {v : View} (h : HInv (· = e) pol v) (hs : SetUp v.s) {mem inp : Bytes} {c : Err}
    (hroom : inp.length ≤ mem.length) (hd : Decided e pol v.s.mode (v.consumed ++ inp))
    (hr : Rejected e pol v.s.maxEdks v.s.mode (v.consumed ++ inp) c) {inNull : Bool} : (process e v.s mem inp inNull).res = .err c := by
  have hc := process_cases e v.s h.inv mem inp inNull
  have herr := fun c => process_err (c := c) h hs (mem := mem) (inp := inp) (inNull := inNull)
  generalize process e v.s mem inp inNull = o at hc herr
  cases hc with
  | ok rest hres hml hw hread hrl hI hne hsteps hstall =>
    exfalso
    have hs1 := hs.steps h.inv hsteps
    obtain ⟨b, hb, h1⟩ := hsteps.hinv (E := (· = e)) rfl (C := v.consumed) (R := v.released) h
    have hk := hsteps.keeps h.inv
    have hl := steps_room hs.mode h.inv hsteps
    rw [List.length_take, hml, Nat.min_eq_left hw] at hl
    refine waits_not_rejected (c := c) h1 hs1 (waits_of_stalled hs1.mode hI hstall) (by omega) ?_ ?_
    · simp only [hk.mode, List.append_assoc, ← hb]; exact hd
    · simp only [hk.mode, hk.maxEdks, List.append_assoc, ← hb]; exact hr
  | err c' out inp1 mem1 s1 hres hmem hw hrl hI hst hsteps hI1 hfail hso =>
    rcases herr _ hres with h1 | h1
    · rw [hres, h1.unique hr]
    · exfalso
      generalize o.s.error = c2 at h1
      cases h1 with
      | headerCopy h => rw [hn.1] at h; cases h
      | edkList h => rw [hn.1] at h; cases h
      | sigString h => rw [hn.1] at h; cases h
      | digest h => rw [hn.2] at h; cases h

end Verif
