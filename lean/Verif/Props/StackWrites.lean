import Verif.Proof.StackWrites
import Verif.Props.SessionWrites
import Verif.Props.Stack
/-
C74: the whole library encrypts, with nothing outside but OpenSSL, the allocator and the keys, and what it encrypts it decrypts.
-/
namespace Verif.Props
open Verif Verif.Spec

section
variable {Pair : Curve → Nat → Nat → Prop} {sz : Sizes} {W : World → Prop}

/-- **C74.**  Encryption with a default CMM over raw keyrings that can encrypt does not fail, whatever the slices and the output buffers, in worlds
in which OpenSSL and the allocator do not fail. -/
theorem C74_encryption_does_not_fail (hp : ∀ w, W w → CanProduce Pair sz w) (kr : UserKr) (hr : ∀ r ∈ members kr, CanWrap W sz r)
    (hg : HasGenerator kr) (da : Option Nat) (pol : Policy) (v : View) (h : Reach (Sessions W kr da) pol v) (inp : Bytes)
    (hc : StackCanWrite sz kr da v inp) (w : World) (hw : W w) (mem : Bytes) :
    (apply (w.env kr da) v (.process mem (some inp))).2 = .ok ∧
    ∀ inp', RoomFor (apply (w.env kr da) v (.process mem (some inp))).1 inp' →
      StackCanWrite sz kr da (apply (w.env kr da) v (.process mem (some inp))).1 inp' := by
  have table : v.s.state = .config → DistinctKeys v.s.header.encCtx := fun hs => by
    have := h.hinv.inv.st
    unfold StInv at this
    simp only [hs] at this
    exact this.2.table
  have hcw : CanWrite (Sessions W kr da) v inp := by
    refine ⟨hc.mode, hc.alive, hc.policy, ?_, hc.room⟩
    rintro hs _ ⟨w', hw', rfl⟩
    obtain ⟨row, h1, h2⟩ := hc.starts hs
    obtain ⟨ctx, m, h3, h4, -⟩ := stack_answers hw' (hp w' hw') hr hg h1 h2 (table hs)
      (if v.s.preciseKnown then v.s.preciseSize else v.s.sizeBound)
    exact ⟨row, ctx, m, h3, h4⟩
  obtain ⟨h1, h2⟩ := C73_encryption_does_not_fail _ (stack_works hp kr da) pol v h inp hcw _ ⟨w, hw, rfl⟩ mem
  refine ⟨h1, fun inp' hroom => ?_⟩
  have h3 := h2 inp' hroom
  refine ⟨h3.mode, h3.alive, h3.policy, fun hs => ?_, hroom⟩
  obtain ⟨hok, rest, -, -, -, -, hst, -⟩ := going_process (stack_works hp kr da) h.hinv (going_of h hcw) (env := w.env kr da) ⟨w, hw, rfl⟩ mem false
  have e : (apply (w.env kr da) v (.process mem (some inp))).1.s = (process (w.env kr da) v.s mem inp false).s := by
    simp only [apply, Option.getD_some, Option.isNone_some]
    rw [if_pos hok]
  rw [e] at hs
  exact absurd hs (stalled_begun hst)

/-- **C74.**  A complete message has the length that can be computed beforehand from suite, context, keyrings, frame size and plaintext; and one
call with a buffer of that length encrypts everything. -/
theorem C74_one_call (hp : ∀ w, W w → CanProduce Pair sz w) (kr : UserKr) (hr : ∀ r ∈ members kr, CanWrap W sz r)
    (hg : HasGenerator kr) (da : Option Nat) (pol : Policy) (v : View) (h : Reach (Sessions W kr da) pol v) (hm : v.s.mode = .encrypt)
    (hst : v.s.state = .config) (hpol : v.s.policy.isValid = true) (hk : v.s.preciseKnown = false) (w : World) (hw : W w) (mem inp : Bytes) (old : Nat)
    (hb : inp.length ≤ v.s.sizeBound) (hsz : SizeOK v.s.frameSize inp.length) (row : SuiteRow) (hrow : SuiteIs da v.s.policy row)
    (hf : Fits sz kr row v.s) (hroom : stackLen sz kr row v.s.header.encCtx v.s.frameSize inp.length ≤ mem.length) :
    let r := apply (w.env kr da) v (.processFull mem (some inp) old)
    r.2 = .ok ∧ isDone r.1.s = true ∧ r.1.consumed = inp ∧
    r.1.released.length = stackLen sz kr row v.s.header.encCtx v.s.frameSize inp.length ∧
    r.1.s.mode = .encrypt ∧ r.1.s.header.algId = row.id ∧ r.1.s.header.edks.length = (members kr).length := by
  have hfresh := h.hinv.live (by rw [hst]; simp)
  have hcr : v.consumed = [] ∧ v.released = [] := by
    unfold LiveLog at hfresh
    simp only [hst] at hfresh
    exact ⟨hfresh.1, hfresh.2.1⟩
  have table : DistinctKeys v.s.header.encCtx := by
    have := h.hinv.inv.st
    unfold StInv at this
    simp only [hst] at this
    exact this.2.table
  obtain ⟨ctx, m, h1, h2, h3, h4⟩ := stack_answers hw (hp w hw) hr hg hrow hf table inp.length
  have hlen : messageLen row ctx m.edks v.s.frameSize inp.length = stackLen sz kr row v.s.header.encCtx v.s.frameSize inp.length := by
    unfold messageLen stackLen headerLen stackHeaderLen
    rw [h3, h4]
  have hW : Works (· = w.env kr da) := by
    have hW := stack_works hp kr da
    have he : Sessions W kr da (w.env kr da) := ⟨w, hw, rfl⟩
    refine ⟨?_, ?_, ?_, ?_, ?_, ?_⟩
    · rintro e rfl; exact hW.alloc _ he
    · rintro e rfl; exact hW.random _ he
    · rintro e rfl; exact hW.hkdf _ he
    · rintro e rfl; exact hW.aead _ he
    · rintro e rfl; exact hW.digest _ he
    · rintro e e' rfl rfl; exact hW.sign _ _ he he
  obtain ⟨a1, a2, a3, a4, -, a6, a7, a8, a9, -⟩ := C73_one_call _ pol v h hm hst hpol hk (w.env kr da) hW mem inp old hb hsz row ctx m h1 h2
    (by rw [hlen]; exact hroom)
  simp only [apply, Option.getD_some, Option.isNone_some]
  rw [if_pos a1]
  refine ⟨a1, a2, ?_, ?_, a7, a8, ?_⟩
  · simp only
    rw [hcr.1, a3, List.nil_append, List.take_length]
  · simp only
    rw [hcr.2, List.nil_append, List.length_take, a6, a4, hlen, Nat.min_eq_left hroom]
  · simp only
    rw [a9]
    have := congrArg List.length h4
    simpa using this

end

section
variable {Pair : Curve → Nat → Nat → Prop} {RsaPair : Bytes → Bytes → Prop} {sz : Sizes} {W1 W2 : World → Prop}

/-- **C74.**  One call encrypts and one call decrypts: with keyrings that fit together, in worlds in which OpenSSL and the allocator do not fail, and
with buffers of the lengths that can be computed beforehand, both calls succeed and give back the plaintext. -/
theorem C74_encrypt_then_decrypt (hP : Primitives Pair RsaPair W1 W2) (hp : ∀ w, W1 w → CanProduce Pair sz w) (hh : ∀ w, W2 w → Healthy w)
    (kr1 kr2 : UserKr) (hr : ∀ r ∈ members kr1, CanWrap W1 sz r) (hg : HasGenerator kr1) (hc : CanRead RsaPair kr1 kr2)
    (hn : (members kr1).length < 65536) (hs : ∀ r ∈ members kr1, ShortNames r) (da1 da2 : Option Nat) (pol1 pol2 : Policy) (v1 v2 : View)
    (h1 : Reach (Sessions W1 kr1 da1) pol1 v1) (hm : v1.s.mode = .encrypt) (hst : v1.s.state = .config) (hpol : v1.s.policy.isValid = true)
    (hk : v1.s.preciseKnown = false) (w1 w2 : World) (hw1 : W1 w1) (hw2 : W2 w2) (mem1 mem2 inp : Bytes) (old1 old2 : Nat)
    (hb : inp.length ≤ v1.s.sizeBound) (hsz : SizeOK v1.s.frameSize inp.length) (row : SuiteRow) (hrow : SuiteIs da1 v1.s.policy row)
    (hf : Fits sz kr1 row v1.s) (hroom1 : stackLen sz kr1 row v1.s.header.encCtx v1.s.frameSize inp.length ≤ mem1.length)
    (h2 : Reach (Sessions W2 kr2 da2) pol2 v2) (hready : ReadyToRead row.id (members kr1).length v2) (hroom2 : inp.length ≤ mem2.length) :
    let r1 := apply (w1.env kr1 da1) v1 (.processFull mem1 (some inp) old1)
    let r2 := apply (w2.env kr2 da2) v2 (.processFull mem2 (some r1.1.released) old2)
    r1.2 = .ok ∧ r2.2 = .ok ∧ r2.1.released = inp := by
  obtain ⟨a1, a2, a3, -, a5, a6, a7⟩ := C74_one_call hp kr1 hr hg da1 pol1 v1 h1 hm hst hpol hk w1 hw1 mem1 inp old1 hb hsz row hrow hf hroom1
  have hreach : Reach (Sessions W1 kr1 da1) pol1 (apply (w1.env kr1 da1) v1 (.processFull mem1 (some inp) old1)).1 :=
    Reach.call (env := w1.env kr1 da1) (.processFull mem1 (some inp) old1) h1 ⟨w1, hw1, rfl⟩
  obtain ⟨b1, b2⟩ := C71_process_full hP hh kr1 kr2 hc hn hs da1 da2 pol1 pol2 _ v2 hreach a5 a2 h2 (by rw [a6, a7]; exact hready) w2 hw2 mem2 old2
    (by rw [a3]; exact hroom2)
  exact ⟨a1, b1, by rw [b2, a3]⟩

end

/-! ### Examples -/

/-- RSA ciphertexts of 256 bytes, and two characters for a byte. -/
def C74_sizes : Sizes := ⟨fun _ => 256, fun n => 2 * n⟩

/-- Frames of four bytes and an entry in the encryption context. -/
def C74_hist : List (Env × Op) :=
  let e := (C71_world true).env C71_writer none
  [(e, .setFrameSize 4), (e, .editCtx (fun _ => [([1], [2])]) (by simp [KeepsTable, DistinctKeys])), (e, .setMessageBound 100)]

def C74_view : View := run Example.encNew C74_hist

theorem C74_produces (w : World) (h : w = C71_world true) : CanProduce (fun _ d q => d = 77 ∧ q = 77) C74_sizes w := by
  subst h
  refine ⟨⟨fun _ => rfl, fun _ _ => rfl, fun _ => rfl, rfl, fun _ _ => rfl⟩, rfl, ⟨rfl, rfl, fun _ => rfl⟩, fun n => ⟨_, rfl⟩, fun _ _ n => ⟨_, rfl⟩,
    fun _ _ _ _ _ _ => ⟨_, _, rfl⟩, fun _ _ _ _ => ⟨_, rfl⟩, fun _ => ⟨rfl, rfl⟩, fun c q => ?_, fun x => ⟨?_, (toy_facts (fun _ => true) true .p384).2.2.1.text x⟩, ?_⟩
  · cases c <;> simp [C71_world, toyEc]
  · simp only [C71_world, toyEc, C74_sizes]
    induction x with
    | nil => rfl
    | cons a x ih => rw [List.flatMap_cons, List.length_append, ih, List.length_cons]; simp; omega
  · rintro c d q m ⟨rfl, rfl⟩
    refine ⟨0, by decide, Or.inr ?_⟩
    show RightSigLength c (2 ^ (8 * c.bytes - 1) + 77 % 1000) (c.order - (2 ^ (8 * c.bytes - 1) + 0 % 1000))
    cases c
    · exact (rightLength_iff (by decide +kernel) (by decide +kernel)).mpr (by decide +kernel)
    · exact (rightLength_iff (by decide +kernel) (by decide +kernel)).mpr (by decide +kernel)

theorem C74_wraps : ∀ r ∈ members C71_writer, CanWrap (· = C71_world true) C74_sizes r := by
  simp only [members, C71_writer, Option.toList, List.cons_append, List.nil_append, List.mem_cons, List.not_mem_nil, or_false, forall_eq_or_imp, forall_eq]
  refine ⟨Or.inr (Or.inr rfl), by decide, _, rfl, ?_⟩
  rintro w i key rfl h
  refine ⟨_, if_pos (by omega), ?_⟩
  simp [C74_sizes]
  omega

theorem C74_reach : Reach (Sessions (· = C71_world true) C71_writer none) .requireRequire C74_view :=
  Example.reach_hist (E := Sessions (· = C71_world true) C71_writer none) (v := Example.encNew) (.new (mode := .encrypt) rfl) C74_hist
    (by simp [C74_hist, Sessions])

/-- All hypotheses hold for the users of C71: the message takes 746 bytes. -/
example : HasGenerator C71_writer ∧ SuiteIs none C74_view.s.policy exampleRow ∧ Fits C74_sizes C71_writer exampleRow C74_view.s ∧
    StackCanWrite C74_sizes C71_writer none C74_view [1, 2, 3, 4, 5] ∧
    C74_view.s.mode = .encrypt ∧ C74_view.s.state = .config ∧ C74_view.s.policy.isValid = true ∧ C74_view.s.preciseKnown = false ∧
    [1, 2, 3, 4, 5].length ≤ C74_view.s.sizeBound ∧ SizeOK C74_view.s.frameSize [1, 2, 3, 4, 5].length ∧
    stackLen C74_sizes C71_writer exampleRow C74_view.s.header.encCtx C74_view.s.frameSize [1, 2, 3, 4, 5].length = 746 ∧
    ReadyToRead exampleRow.id (members C71_writer).length (Example.decNew .decrypt) ∧
    let r1 := apply ((C71_world true).env C71_writer none) C74_view (.processFull (Example.zeros 746) (some [1, 2, 3, 4, 5]) 0)
    r1.1.released.length = 746 ∧
    (apply ((C71_world false).env C71_reader none) (Example.decNew .decrypt) (.processFull (Example.zeros 5) (some r1.1.released) 0)).1.released =
      [1, 2, 3, 4, 5] := by
  have h1 : SuiteIs none C74_view.s.policy exampleRow := by
    have hp : C74_view.s.policy = .requireRequire := by decide +kernel
    rw [hp]
    exact ⟨by decide, Or.inr ⟨rfl, by decide⟩, by show exampleRow.commitment ≠ 0; decide⟩
  have h2 : Fits C74_sizes C71_writer exampleRow C74_view.s := ⟨by decide +kernel, by decide +kernel, by decide +kernel, by decide +kernel⟩
  refine ⟨rfl, h1, h2, ⟨by decide +kernel, by decide +kernel, by decide +kernel, fun _ => ⟨_, h1, h2⟩, ?_⟩, by decide +kernel, by decide +kernel,
    by decide +kernel, by decide +kernel, by decide +kernel, by unfold SizeOK; decide +kernel, by decide +kernel, ?_, by decide +kernel, by decide +kernel⟩
  · unfold RoomFor
    rw [if_neg (by decide +kernel)]
    decide +kernel
  · refine ⟨by decide +kernel, by decide +kernel, ?_, by decide +kernel, Or.inl (by decide +kernel)⟩
    have hp : (Example.decNew .decrypt).s.policy = .requireRequire := by decide +kernel
    rw [hp]
    simp [suiteTable, MayDecrypt, exampleRow]

end Verif.Props
