import Verif.Proof.AnyStack
import Verif.Props.Stack
/-
C88: the round trip through the whole library with any keyrings, also those of users, that fit together.
-/
namespace Verif.Props
open Verif Verif.Spec

section
variable {Pair : Curve → Nat → Nat → Prop} {M1 M2 M3 : Moment → Prop}

/-- C88: a message written with a default CMM over any keyring is read without error by a default CMM over any keyring that finds its data
keys, and what comes out is a prefix of what was put in. -/
theorem C88_reading_never_fails (hP : Ciphers Pair (worlds M1) (worlds M2)) (hh : ∀ w, worlds M2 w → Sound w) (hw : GoodWriter M1)
    (hf : AlwaysFinds M1 M2) (da1 da2 : Option Nat) (pol1 pol2 : Policy) (v1 v0 v : View) (h1 : Reach (SessionsAt M1 da1) pol1 v1)
    (hm1 : v1.s.mode = .encrypt) (hne : v1.s.state ≠ .error) (hnil : v1.released ≠ []) (h0 : Reach (SessionsAt M2 da2) pol2 v0)
    (hr : ReadyToRead v1.s.header.algId v1.s.header.edks.length v0) (hv : Reading (SessionsAt M2 da2) v1.released v0 v)
    (m : Moment) (hm : M2 m) (mem inp : Bytes) (hinp : v.consumed ++ inp <+: v1.released) :
    (apply (m.world.envWith m.kr da2) v (.process mem (some inp))).2 = .ok ∧
    (apply (m.world.envWith m.kr da2) v (.process mem (some inp))).1.released <+: v1.consumed :=
  C66_reading_never_fails _ _ (any_opens hP hh hw hf da1 da2) (any_storable hw da1) pol1 pol2 v1 v0 v h1 hm1 hne hnil h0 hr hv
    _ ⟨m, hm, rfl⟩ mem inp hinp

/-- C88: once the writer is done, giving the reader the rest of the message and enough room ends with the whole plaintext. -/
theorem C88_reads_to_the_end (hP : Ciphers Pair (worlds M1) (worlds M2)) (hh : ∀ w, worlds M2 w → Sound w) (hw : GoodWriter M1)
    (hf : AlwaysFinds M1 M2) (da1 da2 : Option Nat) (pol1 pol2 : Policy) (v1 v0 v : View) (h1 : Reach (SessionsAt M1 da1) pol1 v1)
    (hm1 : v1.s.mode = .encrypt) (hd1 : isDone v1.s = true) (h0 : Reach (SessionsAt M2 da2) pol2 v0)
    (hr : ReadyToRead v1.s.header.algId v1.s.header.edks.length v0) (hv : Reading (SessionsAt M2 da2) v1.released v0 v)
    (m : Moment) (hm : M2 m) (mem inp : Bytes) (hinp : v.consumed ++ inp = v1.released)
    (hroom : v1.consumed.length ≤ v.released.length + mem.length) :
    (apply (m.world.envWith m.kr da2) v (.process mem (some inp))).2 = .ok ∧
    isDone (apply (m.world.envWith m.kr da2) v (.process mem (some inp))).1.s = true ∧
    (apply (m.world.envWith m.kr da2) v (.process mem (some inp))).1.consumed = v1.released ∧
    (apply (m.world.envWith m.kr da2) v (.process mem (some inp))).1.released = v1.consumed :=
  C66_reads_to_the_end _ _ (any_opens hP hh hw hf da1 da2) (any_storable hw da1) pol1 pol2 v1 v0 v h1 hm1 hd1 h0 hr hv
    _ ⟨m, hm, rfl⟩ mem inp hinp hroom

/-- C88: one call of `aws_cryptosdk_session_process_full` decrypts the message. -/
theorem C88_process_full (hP : Ciphers Pair (worlds M1) (worlds M2)) (hh : ∀ w, worlds M2 w → Sound w) (hw : GoodWriter M1)
    (hf : AlwaysFinds M1 M2) (da1 da2 : Option Nat) (pol1 pol2 : Policy) (v1 v0 : View) (h1 : Reach (SessionsAt M1 da1) pol1 v1)
    (hm1 : v1.s.mode = .encrypt) (hd1 : isDone v1.s = true) (h0 : Reach (SessionsAt M2 da2) pol2 v0)
    (hr : ReadyToRead v1.s.header.algId v1.s.header.edks.length v0) (m : Moment) (hm : M2 m) (mem : Bytes) (old : Nat)
    (hroom : v1.consumed.length ≤ mem.length) :
    (apply (m.world.envWith m.kr da2) v0 (.processFull mem (some v1.released) old)).2 = .ok ∧
    (apply (m.world.envWith m.kr da2) v0 (.processFull mem (some v1.released) old)).1.released = v1.consumed :=
  C66_process_full _ _ (any_opens hP hh hw hf da1 da2) (any_storable hw da1) pol1 pol2 v1 v0 h1 hm1 hd1 h0 hr _ ⟨m, hm, rfl⟩ mem old hroom

/-- C88: a reader whose keyring may fail but does not find wrong data keys releases nothing but a prefix of the plaintext, and all of it,
with the same encryption context, if it says that it is done. -/
theorem C88_round_trip (hP : Ciphers Pair (worlds M1) (worlds M2)) (hw : GoodWriter M1) (hn : NeverMistaken M1 M2) (da1 da2 : Option Nat)
    (pol1 pol2 : Policy) (v1 v2 : View) (h1 : Reach (SessionsAt M1 da1) pol1 v1) (h2 : Reach (SessionsAt M2 da2) pol2 v2)
    (hm1 : v1.s.mode = .encrypt) (hm2 : v2.s.mode.isDecrypt = true) (hd1 : isDone v1.s = true) (hpre : v2.consumed <+: v1.released) :
    v2.released <+: v1.consumed ∧
    (isDone v2.s = true → v2.released = v1.consumed ∧
      ∃ ctx1 ctx2, getEncCtx v1.s = some ctx1 ∧ getEncCtx v2.s = some ctx2 ∧ ctx1.Perm ctx2) :=
  C16_round_trip _ _ (any_undoes hP hw hn da1 da2) (any_storable hw da1) pol1 pol2 v1 v2 h1 h2 hm1 hm2 hd1 hpre

/-- C88: a reader whose keyring finds no data key takes nothing of the message and releases nothing. -/
theorem C88_strangers_read_nothing (hw : GoodWriter M1) (hn : NeverFinds M1 M2) (da1 da2 : Option Nat) (pol1 pol2 : Policy) (v1 v2 : View)
    (h1 : Reach (SessionsAt M1 da1) pol1 v1) (h2 : Reach (SessionsAt M2 da2) pol2 v2)
    (hm1 : v1.s.mode = .encrypt) (hm2 : v2.s.mode.isDecrypt = true) (hpre : v2.consumed <+: v1.released) :
    v2.consumed = [] ∧ v2.released = [] :=
  refused_reads_nothing (any_storable hw da1)
    (fun _ _ _ _ _ _ _ he1 he2 hd h hp h' => any_refuses hw hn da1 da2 he1 he2 hd h hp h') h1 h2 hm1 hm2 hpre

end

/-! ### Examples -/

/-- A data key. -/
def C88_key : KeyBuf := ⟨64, List.replicate 32 7, 32, 1⟩

/-- A user's keyring that always gives the same data key and knows it again. -/
def C88_kr : Keyring where
  onEncrypt := some (fun _ _ s => (.ok, { s with key := some (s.key.getD C88_key), edks := s.edks ++ [⟨[120], [], [7]⟩] }))
  onDecrypt := some (fun edks _ _ s => (.ok, { s with key := if edks = [⟨[120], [], [7]⟩] then some C88_key else none }))

/-- A user's keyring that decrypts nothing. -/
def C88_blind : Keyring where
  onEncrypt := none
  onDecrypt := some (fun _ _ _ s => (.ok, s))

/-- The moments of a user with this keyring. -/
def C88_user (n : Bool) (kr : Keyring) : Moment → Prop := fun m => m = ⟨C71_world n, kr⟩

theorem C88_gave {n : Bool} {ctx : EncCtx} {alg : Nat} {key : Bytes} {edks : List Edk} (h : Gave (C88_user n C88_kr) ctx alg key edks) :
    key = C88_key.bytes ∧ edks = [⟨[120], [], [7]⟩] ∧ dataKeyLenOK alg C88_key = true := by
  obtain ⟨_, s, k, rfl, h, hk, rfl, rfl⟩ := h
  simp [keyringOnEncrypt, C88_kr, checkEncKey] at h
  by_cases hx : dataKeyLenOK alg C88_key = true
  · simp [hx] at h
    subst h
    simp only [Option.some.injEq] at hk
    subst hk
    exact ⟨rfl, rfl, hx⟩
  · simp [hx] at h

theorem C88_good : GoodWriter (C88_user true C88_kr) where
  key := by
    rintro _ ctx alg s rfl hd h hk
    simp [keyringOnEncrypt, C88_kr, checkEncKey] at h
    by_cases hx : dataKeyLenOK alg C88_key = true
    · simp [hx] at h
      subst h
      cases hk
    · simp [hx] at h
  fits := by
    intro ctx alg key edks hd h
    obtain ⟨-, rfl, -⟩ := C88_gave h
    simp

theorem C88_finds : AlwaysFinds (C88_user true C88_kr) (C88_user false C88_kr) := by
  rintro ctx ctx' alg key edks _ hd h hp rfl
  obtain ⟨rfl, rfl, hok⟩ := C88_gave h
  simp [keyringOnDecrypt, C88_kr, hok]

theorem C88_notMistaken : NeverMistaken (C88_user true C88_kr) (C88_user false C88_kr) := by
  rintro ctx ctx' alg key edks _ s k hd h hp rfl hx hk
  obtain ⟨s', k', g1, g2, g3⟩ := C88_finds ctx ctx' alg key edks _ hd h hp rfl
  rw [hx] at g1
  cases g1
  rw [hk] at g2
  cases g2
  exact g3

theorem C88_blind_finds : NeverFinds (C88_user true C88_kr) (C88_user false C88_blind) := by
  rintro ctx ctx' alg key edks _ s hd h hp rfl hx
  simp [keyringOnDecrypt, C88_blind] at hx
  rw [← hx]

theorem C88_ciphers (kr1 kr2 : Keyring) (n1 n2 : Bool) :
    Ciphers (fun _ d q => d = 77 ∧ q = 77) (worlds (C88_user n1 kr1)) (worlds (C88_user n2 kr2)) := by
  refine ⟨?_, ?_, ?_, ?_, ?_, ?_, ?_⟩
  · rintro _ _ k iv aad pt ct tag ⟨_, rfl, rfl⟩ ⟨_, rfl, rfl⟩ h
    simp only [C71_world, Example.crypto, Option.some.injEq, Prod.mk.injEq] at h
    obtain ⟨rfl, rfl⟩ := h
    rfl
  · rintro _ _ sha k m t ⟨_, rfl, rfl⟩ ⟨_, rfl, rfl⟩ h; exact h
  · rintro _ c ⟨_, rfl, rfl⟩; exact ⟨rfl, rfl⟩
  · rintro _ c d q ⟨_, rfl, rfl⟩ ⟨rfl, rfl⟩; exact (toy_facts _ _ c).1
  · rintro _ c d q ⟨_, rfl, rfl⟩ ⟨rfl, rfl⟩; exact (toy_facts _ _ c).2.2.1
  · rintro _ ⟨_, rfl, rfl⟩; exact (toy_facts _ _ .p384).2.1
  · rintro _ _ ⟨_, rfl, rfl⟩ ⟨_, rfl, rfl⟩; exact (toy_facts _ _ .p384).2.2.2 _ _

/-- Six bytes in frames of four, in two slices. -/
def C88_hist : List (Env × Op) :=
  let e := (C71_world true).envWith C88_kr none
  [(e, .setFrameSize 4), (e, .process (Example.zeros 600) (some [1, 2, 3, 4, 5])), (e, .setMessageSize 6), (e, .process (Example.zeros 300) (some [5, 6]))]

def C88_written : View := run Example.encNew C88_hist

/-- With `C88_good`, `C88_finds`, `C88_notMistaken`, `C88_blind_finds` and `C88_ciphers`, all hypotheses of the theorems above hold for
these users. -/
example : (∀ w, worlds (C88_user false C88_kr) w → Sound w) ∧ Reach (SessionsAt (C88_user true C88_kr) none) .requireRequire C88_written ∧
    C88_written.s.mode = .encrypt ∧ isDone C88_written.s = true ∧ C88_written.consumed = [1, 2, 3, 4, 5, 6] ∧
    ReadyToRead C88_written.s.header.algId C88_written.s.header.edks.length (Example.decNew .decrypt) ∧
    (apply ((C71_world false).envWith C88_kr none) (Example.decNew .decrypt) (.process (Example.zeros 6) (some C88_written.released))).1.released =
      [1, 2, 3, 4, 5, 6] ∧
    (apply ((C71_world false).envWith C88_blind none) (Example.decNew .decrypt) (.process (Example.zeros 6) (some C88_written.released))).1.consumed =
      [] := by
  have hid : C88_written.s.header.algId = 0x0578 := by decide +kernel
  refine ⟨?_, ?_, by decide +kernel, by decide +kernel, by decide +kernel, ⟨by decide +kernel, by decide +kernel, ?_, by decide +kernel,
    Or.inl (by decide +kernel)⟩, by decide +kernel, by decide +kernel⟩
  · rintro _ ⟨_, rfl, rfl⟩; exact ⟨fun _ => rfl, fun _ _ => rfl, fun _ => rfl, rfl⟩
  · exact Example.reach_hist (E := SessionsAt (C88_user true C88_kr) none) (v := Example.encNew) (.new (mode := .encrypt) rfl) C88_hist
      (by simp [C88_hist, SessionsAt, C88_user])
  · rw [hid]
    have hp : (Example.decNew .decrypt).s.policy = .requireRequire := by decide +kernel
    rw [hp]
    simp [suiteTable, MayDecrypt]

end Verif.Props
