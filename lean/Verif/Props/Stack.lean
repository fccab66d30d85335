import Verif.Proof.Stack
import Verif.Props.SessionComplete
import Verif.Props.DefaultCmm
import Verif.Props.RawKeyring
import Verif.Spec.KeyringExample
/-
C71: the round trip through the whole library, with nothing outside but OpenSSL, the allocator and the keys.
-/
namespace Verif.Props
open Verif Verif.Spec

section
variable {Pair : Curve → Nat → Nat → Prop} {RsaPair : Bytes → Bytes → Prop} {W1 W2 W3 : World → Prop}

/-- C71: a message written with a default CMM over raw keyrings is read without error by any default CMM over raw keyrings of which one
has a key for it, whatever the slices and buffers, and what comes out is a prefix of what was put in. -/
theorem C71_reading_never_fails (hP : Primitives Pair RsaPair W1 W2) (hh : ∀ w, W2 w → Healthy w) (kr1 kr2 : UserKr)
    (hc : CanRead RsaPair kr1 kr2) (hn : (members kr1).length < 65536) (hs : ∀ r ∈ members kr1, ShortNames r) (da1 da2 : Option Nat)
    (pol1 pol2 : Policy) (v1 v0 v : View) (h1 : Reach (Sessions W1 kr1 da1) pol1 v1) (hm1 : v1.s.mode = .encrypt)
    (hne : v1.s.state ≠ .error) (hnil : v1.released ≠ []) (h0 : Reach (Sessions W2 kr2 da2) pol2 v0)
    (hr : ReadyToRead v1.s.header.algId v1.s.header.edks.length v0) (hv : Reading (Sessions W2 kr2 da2) v1.released v0 v)
    (w : World) (hw : W2 w) (mem inp : Bytes) (hinp : v.consumed ++ inp <+: v1.released) :
    (apply (w.env kr2 da2) v (.process mem (some inp))).2 = .ok ∧
    (apply (w.env kr2 da2) v (.process mem (some inp))).1.released <+: v1.consumed :=
  C66_reading_never_fails _ _ (stack_opens hP hh hc da1 da2) (stack_storable hP hn hs da1) pol1 pol2 v1 v0 v h1 hm1 hne hnil h0 hr hv
    _ ⟨w, hw, rfl⟩ mem inp hinp

/-- C71: once the writer is done, giving the reader the rest of the message and enough room ends with the whole plaintext. -/
theorem C71_reads_to_the_end (hP : Primitives Pair RsaPair W1 W2) (hh : ∀ w, W2 w → Healthy w) (kr1 kr2 : UserKr)
    (hc : CanRead RsaPair kr1 kr2) (hn : (members kr1).length < 65536) (hs : ∀ r ∈ members kr1, ShortNames r) (da1 da2 : Option Nat)
    (pol1 pol2 : Policy) (v1 v0 v : View) (h1 : Reach (Sessions W1 kr1 da1) pol1 v1) (hm1 : v1.s.mode = .encrypt)
    (hd1 : isDone v1.s = true) (h0 : Reach (Sessions W2 kr2 da2) pol2 v0)
    (hr : ReadyToRead v1.s.header.algId v1.s.header.edks.length v0) (hv : Reading (Sessions W2 kr2 da2) v1.released v0 v)
    (w : World) (hw : W2 w) (mem inp : Bytes) (hinp : v.consumed ++ inp = v1.released)
    (hroom : v1.consumed.length ≤ v.released.length + mem.length) :
    (apply (w.env kr2 da2) v (.process mem (some inp))).2 = .ok ∧
    isDone (apply (w.env kr2 da2) v (.process mem (some inp))).1.s = true ∧
    (apply (w.env kr2 da2) v (.process mem (some inp))).1.consumed = v1.released ∧
    (apply (w.env kr2 da2) v (.process mem (some inp))).1.released = v1.consumed :=
  C66_reads_to_the_end _ _ (stack_opens hP hh hc da1 da2) (stack_storable hP hn hs da1) pol1 pol2 v1 v0 v h1 hm1 hd1 h0 hr hv
    _ ⟨w, hw, rfl⟩ mem inp hinp hroom

/-- C71: one call of `aws_cryptosdk_session_process_full` decrypts the message. -/
theorem C71_process_full (hP : Primitives Pair RsaPair W1 W2) (hh : ∀ w, W2 w → Healthy w) (kr1 kr2 : UserKr)
    (hc : CanRead RsaPair kr1 kr2) (hn : (members kr1).length < 65536) (hs : ∀ r ∈ members kr1, ShortNames r) (da1 da2 : Option Nat)
    (pol1 pol2 : Policy) (v1 v0 : View) (h1 : Reach (Sessions W1 kr1 da1) pol1 v1) (hm1 : v1.s.mode = .encrypt)
    (hd1 : isDone v1.s = true) (h0 : Reach (Sessions W2 kr2 da2) pol2 v0)
    (hr : ReadyToRead v1.s.header.algId v1.s.header.edks.length v0) (w : World) (hw : W2 w) (mem : Bytes) (old : Nat)
    (hroom : v1.consumed.length ≤ mem.length) :
    (apply (w.env kr2 da2) v0 (.processFull mem (some v1.released) old)).2 = .ok ∧
    (apply (w.env kr2 da2) v0 (.processFull mem (some v1.released) old)).1.released = v1.consumed :=
  C66_process_full _ _ (stack_opens hP hh hc da1 da2) (stack_storable hP hn hs da1) pol1 pol2 v1 v0 h1 hm1 hd1 h0 hr
    _ ⟨w, hw, rfl⟩ mem old hroom

/-- C71: even when calls of the reader fail for want of memory or otherwise, it never releases anything but a prefix of the plaintext,
and all of it, with the same encryption context, if it says that it is done. -/
theorem C71_round_trip (hP : Primitives Pair RsaPair W1 W2) (kr1 kr2 : UserKr)
    (hc : CanRead RsaPair kr1 kr2) (hn : (members kr1).length < 65536) (hs : ∀ r ∈ members kr1, ShortNames r) (da1 da2 : Option Nat)
    (pol1 pol2 : Policy) (v1 v2 : View) (h1 : Reach (Sessions W1 kr1 da1) pol1 v1) (h2 : Reach (Sessions W2 kr2 da2) pol2 v2)
    (hm1 : v1.s.mode = .encrypt) (hm2 : v2.s.mode.isDecrypt = true) (hd1 : isDone v1.s = true) (hpre : v2.consumed <+: v1.released) :
    v2.released <+: v1.consumed ∧
    (isDone v2.s = true → v2.released = v1.consumed ∧
      ∃ ctx1 ctx2, getEncCtx v1.s = some ctx1 ∧ getEncCtx v2.s = some ctx2 ∧ ctx1.Perm ctx2) :=
  C16_round_trip _ _ (stack_undoes hP hc da1 da2) (stack_storable hP hn hs da1) pol1 pol2 v1 v2 h1 h2 hm1 hm2 hd1 hpre

/-- C71: a reader none of whose keyrings is addressed by the message takes nothing of it and releases nothing.  Nothing is assumed of
its primitives: `W2` is any set of worlds (of the `Primitives` for the intended readers `W3` only the lengths are used). -/
theorem C71_strangers_read_nothing (hP : Primitives Pair RsaPair W1 W3) (kr1 kr2 : UserKr)
    (hc : ∀ r ∈ members kr1, ∀ r' ∈ members kr2, NotFor r r') (hn : (members kr1).length < 65536)
    (hs : ∀ r ∈ members kr1, ShortNames r) (da1 da2 : Option Nat) (pol1 pol2 : Policy) (v1 v2 : View)
    (h1 : Reach (Sessions W1 kr1 da1) pol1 v1) (h2 : Reach (Sessions W2 kr2 da2) pol2 v2)
    (hm1 : v1.s.mode = .encrypt) (hm2 : v2.s.mode.isDecrypt = true) (hpre : v2.consumed <+: v1.released) :
    v2.consumed = [] ∧ v2.released = [] :=
  refused_reads_nothing (stack_storable hP hn hs da1)
    (fun e1 e2 req ctx ctx' m m' he1 he2 hd h hp h' => stack_refuses hc da1 da2 he1 he2 hd h hp h') h1 h2 hm1 hm2 hpre

end

/-- No undefined behaviour of a keyring. -/
def Defined (kr : Keyring) (ctx : EncCtx) (alg : Nat) : Prop :=
  (∀ s, (keyringOnEncrypt kr ctx alg s).1 ≠ .ub) ∧ (∀ edks s, (keyringOnDecrypt kr edks ctx alg s).1 ≠ .ub)

theorem defined_of {f : EncCtx → Nat → EncState → KRet × EncState} {g : List Edk → EncCtx → Nat → DecState → KRet × DecState} {ctx : EncCtx}
    {alg : Nat} (hf : ∀ s, (f ctx alg s).1 ≠ .ub) (hg : ∀ edks s, (g edks ctx alg s).1 ≠ .ub) : Defined ⟨some f, some g⟩ ctx alg := by
  constructor
  · intro s
    unfold keyringOnEncrypt
    split
    · simp
    · simp only [hf s, if_false]
      split
      · exact hf s
      · simp
  · intro edks s
    unfold keyringOnDecrypt
    split
    · simp
    · simp only [hg edks s, if_false]
      split
      · exact hg edks s
      · split
        · exact hg edks s
        · simp

/-- C50: a raw RSA keyring does not run into undefined behaviour, for any suite of the table. -/
theorem C50_no_undefined_behaviour (env : KrEnv) (kr : RawRsa) (ctx : EncCtx) (row : SuiteRow) (hrow : row ∈ suiteTable) :
    (∀ s, (keyringOnEncrypt (rsaKeyring env kr) ctx row.id s).1 ≠ .ub) ∧
    (∀ edks s, (keyringOnDecrypt (rsaKeyring env kr) edks ctx row.id s).1 ≠ .ub) := by
  obtain ⟨p, hp⟩ := algProps_of_row hrow
  refine defined_of ?_ ?_
  · intro s
    unfold rsaOnEncrypt rsaFinish
    rw [hp]
    repeat' split
    all_goals simp_all
  · intro edks s
    unfold rsaOnDecrypt
    repeat' split
    all_goals simp

/-- C47: a multi-keyring runs into undefined behaviour only if one of its members does. -/
theorem C47_no_undefined_behaviour (a : MultiAlloc) (gen : Option Keyring) (children : List Keyring) (ctx : EncCtx) (alg : Nat)
    (h : ∀ kr ∈ gen.toList ++ children, (∀ s, (keyringOnEncrypt kr ctx alg s).1 ≠ .ub) ∧ (∀ edks s, (keyringOnDecrypt kr edks ctx alg s).1 ≠ .ub)) :
    (∀ s, (keyringOnEncrypt (multiKeyring a gen children) ctx alg s).1 ≠ .ub) ∧
    (∀ edks s, (keyringOnDecrypt (multiKeyring a gen children) edks ctx alg s).1 ≠ .ub) := by
  have hl : ∀ (krs : List Keyring), (∀ kr ∈ krs, ∀ s, (keyringOnEncrypt kr ctx alg s).1 ≠ .ub) → ∀ s, (callOnEncryptList ctx alg krs s).1 ≠ .ub := by
    intro krs
    induction krs with
    | nil => intro _ s; simp [callOnEncryptList]
    | cons kr krs ih =>
      intro hk s
      have h1 := hk kr (by simp) s
      cases hx : keyringOnEncrypt kr ctx alg s with
      | mk r s' =>
        rw [hx] at h1
        simp only [callOnEncryptList, hx]
        cases r with
        | ok => exact ih (fun k hk' => hk k (by simp [hk'])) s'
        | fail => simp
        | ub => exact absurd rfl h1
  have hd : ∀ edks (krs : List Keyring), (∀ kr ∈ krs, ∀ s, (keyringOnDecrypt kr edks ctx alg s).1 ≠ .ub) → ∀ f s, (multiDecLoop edks ctx alg f krs s).1 ≠ .ub := by
    intro edks krs
    induction krs with
    | nil => intro _ f s; cases f <;> simp [multiDecLoop]
    | cons kr krs ih =>
      intro hk f s
      have h1 := hk kr (by simp) s
      cases hx : keyringOnDecrypt kr edks ctx alg s with
      | mk r s' =>
        rw [hx] at h1
        simp only [multiDecLoop, hx]
        cases r with
        | ub => exact absurd rfl h1
        | ok =>
          split
          · simp
          · exact ih (fun k hk' => hk k (by simp [hk'])) _ s'
        | fail =>
          split
          · simp
          · exact ih (fun k hk' => hk k (by simp [hk'])) _ s'
  refine defined_of (fun s => ?_) (fun edks s => hd edks _ (fun kr hk s => (h kr hk).2 edks s) false s)
  unfold multiOnEncrypt
  split
  · simp
  · have hg : (callGenerator ctx alg gen { s with trace := [], edks := [] }).1 ≠ .ub := by
      cases gen with
      | none => simp [callGenerator]
      | some kr => exact (h kr (by simp)).1 _
    cases hx : callGenerator ctx alg gen { s with trace := [], edks := [] } with
    | mk r s1 =>
      rw [hx] at hg
      cases r with
      | ub => exact absurd rfl hg
      | fail => simp
      | ok =>
        simp only
        cases hk : s1.key with
        | none => simp
        | some k =>
          simp only
          have hc := hl children (fun kr hk => (h kr (by simp [hk])).1) s1
          cases hy : callOnEncryptList ctx alg children s1 with
          | mk r2 s2 =>
            rw [hy] at hc
            cases r2 with
            | ub => exact absurd rfl hc
            | fail => simp
            | ok =>
              simp only [multiTransfer]
              split <;> simp

/-- C71: in no world does a default CMM over raw keyrings run into undefined behaviour, for the suites of the table; a message header with
any other suite is refused before the CMM is asked. -/
theorem C71_no_undefined_behaviour (w : World) (kr : UserKr) (da : Option Nat) :
    (∀ req, (DefaultCmm.generate w.cmmEnv ⟨kr.keyring w, da⟩ req).2 ≠ .ub) ∧
    (∀ req, (∃ row ∈ suiteTable, row.id = req.alg) → DefaultCmm.decrypt w.cmmEnv ⟨kr.keyring w, da⟩ req ≠ .ub) := by
  have hraw : ∀ (r : RawKr) i row ctx, row ∈ suiteTable → Defined (r.keyring (w.krEnv i)) ctx row.id := by
    intro r i row ctx hrow
    cases r with
    | aes a => exact C49_no_undefined_behaviour _ _ ctx row hrow
    | rsa a => exact C50_no_undefined_behaviour _ _ ctx row hrow
  refine C51_no_undefined_behaviour w.cmmEnv ⟨kr.keyring w, da⟩ (fun row hrow ctx => ?_)
  cases kr with
  | one r => exact hraw r 0 row ctx hrow
  | multi gen children =>
    refine C47_no_undefined_behaviour w.multi _ _ ctx row.id (fun kr hk => ?_)
    have hl : ∀ rs i, ∀ kr ∈ keyringsFrom w i rs, Defined kr ctx row.id := by
      intro rs
      induction rs with
      | nil => intro i kr hk; cases hk
      | cons r rs ih =>
        intro i kr hk
        simp only [keyringsFrom, List.mem_cons] at hk
        rcases hk with rfl | hk
        · exact hraw r i row ctx hrow
        · exact ih _ kr hk
    rw [List.mem_append] at hk
    rcases hk with hk | hk
    · cases gen with
      | none => cases hk
      | some r =>
        simp only [Option.map_some, Option.toList_some, List.mem_singleton] at hk
        subst hk
        exact hraw r 0 row ctx hrow
    · exact hl children 1 kr hk

/-! ### Examples -/

/-- RSA with 256 byte keys, as far as lengths are concerned: padding with a bar in front, and the name of the key at the end. -/
def C71_krEnv (j : UInt8) : KrEnv :=
  { Example.krEnv with
    rsaEncrypt := fun pem _ pt =>
      if pt.length < 255 then .ok (List.replicate (254 - pt.length) 0 ++ 1 :: (pt ++ [pem.headD 0])) else .error .cryptoUnknown
    rsaDecrypt := fun pem _ ct =>
      if ct.getLast? = some (pem.headD 0) then .ok ((ct.dropWhile (· == 0)).drop 1).dropLast else .error .badCiphertext
    junk := fun n => List.replicate n j
    junk_len := by simp }

/-- A world with toy primitives, with different uninitialised memory and a NUL byte after base64 or not. -/
def C71_world (nul : Bool) : World where
  base := Example.crypto
  ec := toyEc (fun _ => true) nul
  fuel := 2
  hmac := ⟨fun sha _ _ => some (List.replicate (hashLen sha) 5), by intro sha k m t h; cases h; simp⟩
  kr _ := C71_krEnv (if nul then 170 else 85)
  multi := Example.multiAlloc
  allocMat := true
  allocPut := true
  alloc _ := true
  uninit := 3
  lastErr := .unknown

/-- The writer has an AES keyring and the public RSA key. -/
def C71_writer : UserKr := .multi (some (.aes Example.aes)) [.rsa ⟨[114], [115], none, some [8], 1⟩]

/-- A reader has the private RSA key, and another AES key. -/
def C71_reader : UserKr := .multi none [.aes ⟨[110, 115], [99], List.replicate 32 1⟩, .rsa ⟨[114], [115], some [8], none, 1⟩]

/-- A stranger has a private RSA key of another name. -/
def C71_stranger : UserKr := .one (.rsa ⟨[114], [116], some [8], none, 1⟩)

/-- Six bytes in frames of four, in two slices, with an entry in the encryption context. -/
def C71_hist : List (Env × Op) :=
  let e := (C71_world true).env C71_writer none
  [(e, .setFrameSize 4), (e, .editCtx (fun _ => [([1], [2])]) (by simp [KeepsTable, DistinctKeys])),
   (e, .process (Example.zeros 600) (some [1, 2, 3, 4, 5])), (e, .setMessageSize 6), (e, .process (Example.zeros 300) (some [5, 6]))]

/-- The writer's session. -/
def C71_written : View := run Example.encNew C71_hist

theorem dropWhile_padding (n : Nat) (l : Bytes) : (List.replicate n 0 ++ 1 :: l).dropWhile (· == 0) = 1 :: l := by
  induction n with
  | zero => simp
  | succ n ih => rw [List.replicate_succ, List.cons_append, List.dropWhile_cons_of_pos (by decide), ih]

/-- The toy meets the assumptions about OpenSSL, between worlds with and without the NUL byte. -/
theorem C71_primitives : Primitives (fun _ d q => d = 77 ∧ q = 77) (fun a b => a = b) (· = C71_world true) (fun w => ∃ n, w = C71_world n) := by
  refine ⟨?_, ?_, ?_, ?_, ?_, ?_, ?_, ?_, ?_⟩
  · rintro _ _ k iv aad pt ct tag rfl ⟨n, rfl⟩ h
    simp only [C71_world, Example.crypto, Option.some.injEq, Prod.mk.injEq] at h
    obtain ⟨rfl, rfl⟩ := h
    rfl
  · rintro _ _ sha k m t rfl ⟨n, rfl⟩ h; exact h
  · rintro _ _ i j pub priv pad pt ct rfl ⟨n, rfl⟩ rfl h
    simp only [C71_world, C71_krEnv] at h
    split at h <;> cases h
    refine ⟨by simp, ?_⟩
    simp only [C71_world, C71_krEnv, dropWhile_padding]
    rw [if_pos (by rw [List.getLast?_append]; simp [List.getLast?_cons])]
    simp
  · rintro _ i pub pad pt ct rfl h
    simp only [C71_world, C71_krEnv] at h
    split at h <;> cases h
    simp; omega
  · rintro _ c rfl; exact ⟨rfl, rfl⟩
  · rintro _ c d q rfl ⟨rfl, rfl⟩; exact (toy_facts _ _ c).1
  · rintro _ c d q rfl ⟨rfl, rfl⟩; exact (toy_facts _ _ c).2.2.1
  · rintro _ rfl; exact (toy_facts _ _ .p384).2.1
  · rintro _ _ rfl ⟨n, rfl⟩; exact (toy_facts _ _ .p384).2.2.2 _ _

/-- All hypotheses of the theorems above hold for these users: six bytes are written with the suite `0x0578` and two encrypted data keys,
a new session of the reader is ready, also after 100 bytes, and reads the message; the stranger's does not. -/
example : (∀ n, Healthy (C71_world n)) ∧ CanRead (fun a b => a = b) C71_writer C71_reader ∧ (members C71_writer).length < 65536 ∧
    (∀ r ∈ members C71_writer, ShortNames r) ∧ Reach (Sessions (· = C71_world true) C71_writer none) .requireRequire C71_written ∧
    C71_written.s.mode = .encrypt ∧ isDone C71_written.s = true ∧ C71_written.consumed = [1, 2, 3, 4, 5, 6] ∧
    C71_written.s.header.algId = 0x0578 ∧ C71_written.s.header.edks.length = 2 ∧
    ReadyToRead C71_written.s.header.algId C71_written.s.header.edks.length (Example.decNew .decrypt) ∧
    Reading (Sessions (fun w => ∃ n, w = C71_world n) C71_reader none) C71_written.released (Example.decNew .decrypt)
      (apply ((C71_world false).env C71_reader none) (Example.decNew .decrypt) (.process (Example.zeros 2) (some (C71_written.released.take 100)))).1 ∧
    (apply ((C71_world false).env C71_reader none) (Example.decNew .decrypt) (.process (Example.zeros 6) (some C71_written.released))).1.released =
      [1, 2, 3, 4, 5, 6] ∧
    (∀ r ∈ members C71_writer, ∀ r' ∈ members C71_stranger, NotFor r r') ∧
    (apply ((C71_world false).env C71_stranger none) (Example.decNew .decrypt) (.process (Example.zeros 6) (some C71_written.released))).1.consumed = [] := by
  have hid : C71_written.s.header.algId = 0x0578 := by decide +kernel
  refine ⟨fun n => ⟨fun _ => rfl, fun _ _ => rfl, fun _ => rfl, rfl, fun _ _ => rfl⟩, ⟨?_, ?_⟩, by decide, ?_, ?_, by decide +kernel,
    by decide +kernel, by decide +kernel, hid, by decide +kernel, ⟨by decide +kernel, by decide +kernel, ?_, by decide +kernel,
    Or.inl (by decide +kernel)⟩, .call .start ⟨_, ⟨false, rfl⟩, rfl⟩ ⟨C71_written.released.drop 100, by decide +kernel⟩, by decide +kernel, ?_,
    by decide +kernel⟩
  · exact ⟨_, List.mem_cons_of_mem _ (List.mem_singleton.mpr rfl), _, List.mem_cons_of_mem _ (List.mem_singleton.mpr rfl),
      by simp [Unlocks]⟩
  · simp [members, C71_writer, C71_reader, Unlocks, NotFor, Example.aes]
  · simp [members, C71_writer, ShortNames, Example.aes]
  · exact Example.reach_hist (E := Sessions (· = C71_world true) C71_writer none) (v := Example.encNew) (.new (mode := .encrypt) rfl) C71_hist
      (by simp [C71_hist, Sessions])
  · rw [hid]
    have hp : (Example.decNew .decrypt).s.policy = .requireRequire := by decide +kernel
    rw [hp]
    simp [suiteTable, MayDecrypt]
  · simp [members, C71_writer, C71_stranger, NotFor, Example.aes]

end Verif.Props
