import Verif.Proof.KeyringTree
import Verif.Props.AnyStack
/-
C89: the round trip through the whole library with all of its keyrings, also in nested multi-keyrings.
-/
namespace Verif.Props
open Verif Verif.Spec

section
variable {Pair : Curve → Nat → Nat → Prop} {RsaPair : Bytes → Bytes → Prop} {A1 A2 A3 : Around → Prop} {t1 t2 : KrTree}

theorem readers_nonempty (hc : TreeReads RsaPair A1 A2 t1 t2) : sources [] t1 ≠ [] := by
  obtain ⟨x, hx, -⟩ := hc.some
  intro h
  rw [h] at hx
  cases hx

/-- C89: a tree of keyrings finds the data keys of what another wrote, if they fit together: as `C88` asks, and never wrong ones. -/
theorem C89_finds (hP : Primitives Pair RsaPair (rawWorlds A1) (rawWorlds A2)) (hk : KmsHonest A1 A2) (hz : KmsSizes A1 t1)
    (hc : TreeReads RsaPair A1 A2 t1 t2) :
    NeverMistaken (At A1 t1) (At A2 t2) ∧ (Supplied A2 → AlwaysFinds (At A1 t1) (At A2 t2)) :=
  ⟨tree_neverMistaken hP hk hz.key hc, fun hs => tree_alwaysFinds hP hk hz.key hc hs⟩

/-- C89: a message written with a default CMM over a tree of keyrings is read without error by any default CMM over a tree of keyrings of
which one can decrypt it, whatever the slices and buffers, and what comes out is a prefix of what was put in. -/
theorem C89_reading_never_fails (hP : Primitives Pair RsaPair (rawWorlds A1) (rawWorlds A2)) (hk : KmsHonest A1 A2) (hsup : Supplied A2)
    (hz : KmsSizes A1 t1) (hc : TreeReads RsaPair A1 A2 t1 t2) (hn : (sources [] t1).length < 65536)
    (hs : ∀ x ∈ sources [] t1, ShortSource x.2) (da1 da2 : Option Nat) (pol1 pol2 : Policy) (v1 v0 v : View)
    (h1 : Reach (SessionsAt (At A1 t1) da1) pol1 v1) (hm1 : v1.s.mode = .encrypt) (hne : v1.s.state ≠ .error) (hnil : v1.released ≠ [])
    (h0 : Reach (SessionsAt (At A2 t2) da2) pol2 v0) (hr : ReadyToRead v1.s.header.algId v1.s.header.edks.length v0)
    (hv : Reading (SessionsAt (At A2 t2) da2) v1.released v0 v) (b : Around) (hb : A2 b) (mem inp : Bytes)
    (hinp : v.consumed ++ inp <+: v1.released) :
    (apply (b.world.envWith (t2.keyring b []) da2) v (.process mem (some inp))).2 = .ok ∧
    (apply (b.world.envWith (t2.keyring b []) da2) v (.process mem (some inp))).1.released <+: v1.consumed :=
  C88_reading_never_fails (tree_ciphers hP) (by rintro _ ⟨_, ⟨a, ha, rfl⟩, rfl⟩; exact hsup.world a ha)
    (tree_goodWriter hP hz (readers_nonempty hc) hn hs) (tree_alwaysFinds hP hk hz.key hc hsup) da1 da2 pol1 pol2 v1 v0 v h1 hm1 hne hnil h0
    hr hv _ ⟨b, hb, rfl⟩ mem inp hinp

/-- C89: once the writer is done, giving the reader the rest of the message and enough room ends with the whole plaintext. -/
theorem C89_reads_to_the_end (hP : Primitives Pair RsaPair (rawWorlds A1) (rawWorlds A2)) (hk : KmsHonest A1 A2) (hsup : Supplied A2)
    (hz : KmsSizes A1 t1) (hc : TreeReads RsaPair A1 A2 t1 t2) (hn : (sources [] t1).length < 65536)
    (hs : ∀ x ∈ sources [] t1, ShortSource x.2) (da1 da2 : Option Nat) (pol1 pol2 : Policy) (v1 v0 v : View)
    (h1 : Reach (SessionsAt (At A1 t1) da1) pol1 v1) (hm1 : v1.s.mode = .encrypt) (hd1 : isDone v1.s = true)
    (h0 : Reach (SessionsAt (At A2 t2) da2) pol2 v0) (hr : ReadyToRead v1.s.header.algId v1.s.header.edks.length v0)
    (hv : Reading (SessionsAt (At A2 t2) da2) v1.released v0 v) (b : Around) (hb : A2 b) (mem inp : Bytes)
    (hinp : v.consumed ++ inp = v1.released) (hroom : v1.consumed.length ≤ v.released.length + mem.length) :
    (apply (b.world.envWith (t2.keyring b []) da2) v (.process mem (some inp))).2 = .ok ∧
    isDone (apply (b.world.envWith (t2.keyring b []) da2) v (.process mem (some inp))).1.s = true ∧
    (apply (b.world.envWith (t2.keyring b []) da2) v (.process mem (some inp))).1.consumed = v1.released ∧
    (apply (b.world.envWith (t2.keyring b []) da2) v (.process mem (some inp))).1.released = v1.consumed :=
  C88_reads_to_the_end (tree_ciphers hP) (by rintro _ ⟨_, ⟨a, ha, rfl⟩, rfl⟩; exact hsup.world a ha)
    (tree_goodWriter hP hz (readers_nonempty hc) hn hs) (tree_alwaysFinds hP hk hz.key hc hsup) da1 da2 pol1 pol2 v1 v0 v h1 hm1 hd1 h0
    hr hv _ ⟨b, hb, rfl⟩ mem inp hinp hroom

/-- C89: one call of `aws_cryptosdk_session_process_full` decrypts the message. -/
theorem C89_process_full (hP : Primitives Pair RsaPair (rawWorlds A1) (rawWorlds A2)) (hk : KmsHonest A1 A2) (hsup : Supplied A2)
    (hz : KmsSizes A1 t1) (hc : TreeReads RsaPair A1 A2 t1 t2) (hn : (sources [] t1).length < 65536)
    (hs : ∀ x ∈ sources [] t1, ShortSource x.2) (da1 da2 : Option Nat) (pol1 pol2 : Policy) (v1 v0 : View)
    (h1 : Reach (SessionsAt (At A1 t1) da1) pol1 v1) (hm1 : v1.s.mode = .encrypt) (hd1 : isDone v1.s = true)
    (h0 : Reach (SessionsAt (At A2 t2) da2) pol2 v0) (hr : ReadyToRead v1.s.header.algId v1.s.header.edks.length v0)
    (b : Around) (hb : A2 b) (mem : Bytes) (old : Nat) (hroom : v1.consumed.length ≤ mem.length) :
    (apply (b.world.envWith (t2.keyring b []) da2) v0 (.processFull mem (some v1.released) old)).2 = .ok ∧
    (apply (b.world.envWith (t2.keyring b []) da2) v0 (.processFull mem (some v1.released) old)).1.released = v1.consumed :=
  C88_process_full (tree_ciphers hP) (by rintro _ ⟨_, ⟨a, ha, rfl⟩, rfl⟩; exact hsup.world a ha)
    (tree_goodWriter hP hz (readers_nonempty hc) hn hs) (tree_alwaysFinds hP hk hz.key hc hsup) da1 da2 pol1 pol2 v1 v0 h1 hm1 hd1 h0
    hr _ ⟨b, hb, rfl⟩ mem old hroom

/-- C89: even when KMS refuses, or calls of the reader fail for want of memory or otherwise, it never releases anything but a prefix of the
plaintext, and all of it, with the same encryption context, if it says that it is done. -/
theorem C89_round_trip (hP : Primitives Pair RsaPair (rawWorlds A1) (rawWorlds A2)) (hk : KmsHonest A1 A2)
    (hz : KmsSizes A1 t1) (hc : TreeReads RsaPair A1 A2 t1 t2) (hn : (sources [] t1).length < 65536)
    (hs : ∀ x ∈ sources [] t1, ShortSource x.2) (da1 da2 : Option Nat) (pol1 pol2 : Policy) (v1 v2 : View)
    (h1 : Reach (SessionsAt (At A1 t1) da1) pol1 v1) (h2 : Reach (SessionsAt (At A2 t2) da2) pol2 v2)
    (hm1 : v1.s.mode = .encrypt) (hm2 : v2.s.mode.isDecrypt = true) (hd1 : isDone v1.s = true) (hpre : v2.consumed <+: v1.released) :
    v2.released <+: v1.consumed ∧
    (isDone v2.s = true → v2.released = v1.consumed ∧
      ∃ ctx1 ctx2, getEncCtx v1.s = some ctx1 ∧ getEncCtx v2.s = some ctx2 ∧ ctx1.Perm ctx2) :=
  C88_round_trip (tree_ciphers hP) (tree_goodWriter hP hz (readers_nonempty hc) hn hs) (tree_neverMistaken hP hk hz.key hc) da1 da2 pol1 pol2
    v1 v2 h1 h2 hm1 hm2 hd1 hpre

/-- C89: a reader none of whose keyrings is addressed by the message or gets an answer of KMS takes nothing of it and releases nothing.
Nothing is assumed of its primitives (of the `Primitives` for the intended readers `A3` only the lengths are used). -/
theorem C89_strangers_read_nothing (hP : Primitives Pair RsaPair (rawWorlds A1) (rawWorlds A3)) (hz : KmsSizes A1 t1)
    (hc : ∀ x ∈ sources [] t1, ∀ y ∈ leaves [] t2, Apart A1 A2 x y) (h0 : sources [] t1 ≠ []) (hn : (sources [] t1).length < 65536)
    (hs : ∀ x ∈ sources [] t1, ShortSource x.2) (da1 da2 : Option Nat) (pol1 pol2 : Policy) (v1 v2 : View)
    (h1 : Reach (SessionsAt (At A1 t1) da1) pol1 v1) (h2 : Reach (SessionsAt (At A2 t2) da2) pol2 v2)
    (hm1 : v1.s.mode = .encrypt) (hm2 : v2.s.mode.isDecrypt = true) (hpre : v2.consumed <+: v1.released) :
    v2.consumed = [] ∧ v2.released = [] :=
  C88_strangers_read_nothing (tree_goodWriter hP hz h0 hn hs) (tree_neverFinds hz.key hc) da1 da2 pol1 pol2 v1 v2 h1 h2 hm1 hm2 hpre

end

/-! ### undefined behaviour -/

theorem kmsTransfer_defined (env : KmsEnv) (s : EncState) (key : Option KeyBuf) (fresh : Bool) (my : KmsLocal) :
    (kmsTransfer env s key fresh my).1 ≠ .ub := by
  unfold kmsTransfer
  simp only
  split <;> simp

theorem kmsOnEncrypt_defined (env : KmsEnv) (kr : KmsKeyring) (ctx : EncCtx) (alg : Nat) (s : EncState) : (kmsOnEncrypt env kr ctx alg s).1 ≠ .ub := by
  have hrest : ∀ key fresh i my ids, (kmsEncRest env kr ctx s key fresh i my ids).1 ≠ .ub := by
    intro key fresh i my ids
    unfold kmsEncRest
    split
    · exact KRet.noConfusion
    · exact kmsTransfer_defined env s key fresh _
  unfold kmsOnEncrypt
  dsimp only
  repeat' split
  all_goals first | exact KRet.noConfusion | exact hrest _ _ _ _ _

theorem mrkOnEncrypt_defined (env : KmsEnv) (kr : MrkKeyring) (ctx : EncCtx) (alg : Nat) (s : EncState) : (mrkOnEncrypt env kr ctx alg s).1 ≠ .ub := by
  unfold mrkOnEncrypt mrkEncFinish
  dsimp only
  repeat' split
  all_goals first | exact KRet.noConfusion | exact kmsTransfer_defined _ _ _ _ _

theorem leaf_defined (a : Around) (p : List Nat) (l : Leaf) (ctx : EncCtx) {row : SuiteRow} (hrow : row ∈ suiteTable) :
    Defined (l.keyring a p) ctx row.id := by
  cases l with
  | raw r =>
    cases r with
    | aes x => exact C49_no_undefined_behaviour _ _ ctx row hrow
    | rsa x => exact C50_no_undefined_behaviour _ _ ctx row hrow
  | kms kr =>
    refine defined_of (fun s => kmsOnEncrypt_defined _ kr ctx row.id s) (fun edks s => ?_)
    rcases C54_kms_decrypt (a.kms p) kr edks ctx s with ⟨calls, rep, -, he⟩ | ⟨e, used, pt, calls, -, ⟨-, he⟩ | ⟨-, -, -, he⟩ | ⟨-, -, tr, er, -, he⟩⟩
    all_goals simp [he]
  | mrk kr =>
    exact defined_of (fun s => mrkOnEncrypt_defined _ kr ctx row.id s)
      (fun edks s => C56_undefined_for_unknown_suite.1 (a.kms p) kr edks ctx row.id s ⟨row, hrow, rfl⟩)

mutual
theorem tree_defined (a : Around) (ctx : EncCtx) {row : SuiteRow} (hrow : row ∈ suiteTable) :
    ∀ (t : KrTree) (p : List Nat), Defined (t.keyring a p) ctx row.id
  | .leaf l, p => by
    rw [KrTree.keyring]
    exact leaf_defined a p l ctx hrow
  | .multi children, p => by
    rw [KrTree.keyring]
    exact C47_no_undefined_behaviour _ _ _ ctx row.id (fun kr hk => trees_defined a ctx hrow children p 1 kr hk)
  | .multiGen gen children, p => by
    rw [KrTree.keyring]
    refine C47_no_undefined_behaviour _ _ _ ctx row.id (fun kr hk => ?_)
    rcases List.mem_append.mp hk with hk | hk
    · simp only [Option.toList_some, List.mem_singleton] at hk
      subst hk
      exact tree_defined a ctx hrow gen (0 :: p)
    · exact trees_defined a ctx hrow children p 1 kr hk
theorem trees_defined (a : Around) (ctx : EncCtx) {row : SuiteRow} (hrow : row ∈ suiteTable) :
    ∀ (ts : List KrTree) (p : List Nat) (i : Nat), ∀ kr ∈ keyringsAt a p i ts, Defined kr ctx row.id
  | [], p, i => by rw [keyringsAt]; simp
  | t :: ts, p, i => by
    rw [keyringsAt]
    intro kr hk
    rcases List.mem_cons.mp hk with rfl | hk
    · exact tree_defined a ctx hrow t (i :: p)
    · exact trees_defined a ctx hrow ts p (i + 1) kr hk
end

/-- C89: whatever lies outside, a default CMM over a tree of keyrings does not run into undefined behaviour, for the suites of the table. -/
theorem C89_no_undefined_behaviour (a : Around) (t : KrTree) (da : Option Nat) :
    (∀ req, (DefaultCmm.generate a.world.cmmEnv ⟨t.keyring a [], da⟩ req).2 ≠ .ub) ∧
    (∀ req, (∃ row ∈ suiteTable, row.id = req.alg) → DefaultCmm.decrypt a.world.cmmEnv ⟨t.keyring a [], da⟩ req ≠ .ub) :=
  C51_no_undefined_behaviour a.world.cmmEnv ⟨t.keyring a [], da⟩ (fun _ hrow ctx => tree_defined a ctx hrow t [])

/-! ### Examples -/

/-- The toy world with the toy KMS. -/
def C89_around (n : Bool) : Around where
  world := C71_world n
  kr _ := C71_krEnv (if n then 170 else 85)
  kms _ := Example.kmsEnv
  multi _ := Example.multiAlloc

/-- The writer has an MRK-aware keyring as generator, an AES keyring, and a KMS keyring with two keys in a multi-keyring of its own. -/
def C89_writer : KrTree := .multiGen (.leaf (.mrk Example.mrkStrict)) [.leaf (.raw (.aes Example.aes)), .multi [.leaf (.kms Example.kmsStrict)]]

/-- An MRK-aware keyring in discovery mode, in another region. -/
def C89_disco : MrkKeyring := ⟨[], [], ascii "us-east-1", none⟩

/-- The reader has another AES key, and in a multi-keyring of its own an MRK-aware keyring in discovery mode in another region. -/
def C89_reader : KrTree := .multi [.leaf (.raw (.aes ⟨[110, 115], [99], List.replicate 32 1⟩)), .multiGen (.leaf (.mrk C89_disco)) []]

/-- A stranger has a private RSA key, and may use another key of KMS. -/
def C89_stranger : KrTree :=
  .multi [.leaf (.raw (.rsa ⟨[114], [116], some [8], none, 1⟩)), .leaf (.kms ⟨[ascii "arn:aws:kms:us-west-2:1234:key/ab-3"], [], none⟩)]

/-- What the toy KMS made. -/
theorem C89_made {id key : Bytes} {ctx : EncCtx} {e : Edk} (h : KmsMade Example.kmsEnv id ctx key e) :
    e = ⟨ascii "aws-kms", id, key ++ [id.getLast?.getD 0]⟩ := by
  obtain ⟨x, y, z⟩ := e
  obtain ⟨h1, ⟨i, c, g, h⟩ | ⟨c, n, g, h⟩⟩ := h
  · simp only [Example.kmsEnv, Option.some.injEq, Prod.mk.injEq] at h h1
    obtain ⟨rfl, rfl⟩ := h
    rw [h1]
  · simp only [Example.kmsEnv, Option.some.injEq, Prod.mk.injEq] at h h1
    obtain ⟨rfl, rfl, rfl⟩ := h
    rw [h1]

theorem C89_primitives : Primitives (fun _ d q => d = 77 ∧ q = 77) (fun a b => a = b) (rawWorlds (· = C89_around true))
    (rawWorlds (· = C89_around false)) := by
  have h1 : ∀ w, rawWorlds (· = C89_around true) w → w = C71_world true := by rintro _ ⟨_, p, rfl, rfl⟩; rfl
  have h2 : ∀ w, rawWorlds (· = C89_around false) w → ∃ n, w = C71_world n := by rintro _ ⟨_, p, rfl, rfl⟩; exact ⟨false, rfl⟩
  have hP := C71_primitives
  exact ⟨fun w1 w2 k iv aad pt ct tag g1 g2 => hP.aead w1 w2 k iv aad pt ct tag (h1 _ g1) (h2 _ g2),
    fun w1 w2 sha k m t g1 g2 => hP.hmac w1 w2 sha k m t (h1 _ g1) (h2 _ g2),
    fun w1 w2 i j pub priv pad pt ct g1 g2 => hP.rsa w1 w2 i j pub priv pad pt ct (h1 _ g1) (h2 _ g2),
    fun w1 i pub pad pt ct g1 => hP.rsaLen w1 i pub pad pt ct (h1 _ g1), fun w1 c g1 => hP.newKey w1 c (h1 _ g1),
    fun w1 c d q g1 => hP.signs w1 c d q (h1 _ g1), fun w1 c d q g1 => hP.codec w1 c d q (h1 _ g1),
    fun w1 g1 => hP.negation w1 (h1 _ g1), fun w1 w2 g1 g2 => hP.same w1 w2 (h1 _ g1) (h2 _ g2)⟩

theorem C89_honest : KmsHonest (· = C89_around true) (· = C89_around false) := by
  rintro _ _ p q id ctx key e rfl rfl hm ctx' j c id' g used pt hp hsm hdec
  obtain rfl := C89_made hm
  simp only [C89_around, Example.kmsEnv] at hdec
  split at hdec
  · cases hdec; simp
  · cases hdec

theorem C89_supplied : Supplied (· = C89_around false) where
  world := by rintro _ rfl; exact ⟨fun _ => rfl, fun _ _ => rfl, fun _ => rfl, rfl⟩
  raw := by rintro _ p s rfl; rfl
  kms := by rintro _ p rfl; rfl

theorem C89_sources : sources [] C89_writer = [([0], .kms Example.mrkWest), ([1], .raw (.aes Example.aes)), ([1, 2], .kms Example.arn1),
    ([1, 2], .kms Example.arn2)] := by rfl

theorem C89_sizes : KmsSizes (· = C89_around true) C89_writer where
  key := by
    rintro _ p c r keyId ct pt rfl hn h
    simp only [C89_around, Example.kmsEnv, Option.some.injEq, Prod.mk.injEq] at h
    rw [← h.2.2]
    simpa using hn
  fits := by
    rintro _ p id ctx alg key e rfl hid ⟨row, hrow, -, hlen⟩ hm
    obtain rfl := C89_made hm
    have hkb : ∀ r ∈ suiteTable, r.keyBits / 8 ≤ 32 := by decide
    have := hkb row hrow
    have hl : id.length < 100 := by
      rw [C89_sources] at hid
      simp at hid
      rcases hid with ⟨-, rfl⟩ | ⟨-, rfl⟩ | ⟨-, rfl⟩ <;> decide +kernel
    simp only [List.length_append, List.length_singleton]
    omega

theorem C89_canRead : TreeReads (fun a b => a = b) (· = C89_around true) (· = C89_around false) C89_writer C89_reader where
  some := by
    refine ⟨([0], .kms Example.mrkWest), by rw [C89_sources]; simp, ([0, 2], .mrk C89_disco), by simp [leaves, leavesFrom, C89_reader], ?_⟩
    rintro _ _ ctx ctx' key e i rfl rfl hm hp
    obtain rfl := C89_made hm
    refine ⟨ascii "us-east-1", Example.mrkEast, _, ?_, rfl, ?_⟩
    · have h0 : MrkMayTry C89_disco ⟨ascii "aws-kms", Example.mrkWest, []⟩ (ascii "us-east-1") Example.mrkEast := mrkPlan_iff.1 (by decide +kernel)
      exact h0
    · have h5 : Example.mrkWest.getLast?.getD 0 = Example.mrkEast.getLast?.getD 0 := by decide +kernel
      simp [C89_around, Example.kmsEnv, h5]
  all := by
    rw [C89_sources]
    simp [leaves, leavesFrom, C89_reader, NoConfusion, Unlocks, NotFor, Example.aes, nsOf]
    decide +kernel
  region := by
    intro q kr h h'
    simp [leaves, leavesFrom, C89_reader] at h
    obtain ⟨-, rfl⟩ := h
    decide +kernel

theorem C89_apart : ∀ x ∈ sources [] C89_writer, ∀ y ∈ leaves [] C89_stranger, Apart (· = C89_around true) (· = C89_around false) x y := by
  rw [C89_sources]
  have hno : ∀ id ctx key e region, KmsMade Example.kmsEnv id ctx key e → id ∈ [Example.mrkWest, Example.arn1, Example.arn2] →
      ¬ MayTry ⟨[ascii "arn:aws:kms:us-west-2:1234:key/ab-3"], [], none⟩ e region := by
    rintro id ctx key e region hm hid ⟨-, h, -⟩
    obtain rfl := C89_made hm
    have h := h (by simp)
    simp only [List.mem_singleton] at h
    subst h
    revert hid
    decide +kernel
  intro x hx y hy
  simp only [leaves, leavesFrom, C89_stranger, List.append_nil, List.mem_append, List.mem_singleton] at hy
  simp only [List.mem_cons, List.not_mem_nil, or_false] at hx
  rcases hx with rfl | rfl | rfl | rfl <;> rcases hy with rfl | rfl
  · show [114] ≠ ascii "aws-kms"; decide +kernel
  · rintro _ _ ctx ctx' key e i region c rfl rfl hm hp hmay; exact absurd hmay (hno _ _ _ _ _ hm (by simp))
  · simp [Apart, NotFor, Example.aes]
  · show [110, 115] ≠ ascii "aws-kms"; decide +kernel
  · show [114] ≠ ascii "aws-kms"; decide +kernel
  · rintro _ _ ctx ctx' key e i region c rfl rfl hm hp hmay; exact absurd hmay (hno _ _ _ _ _ hm (by simp))
  · show [114] ≠ ascii "aws-kms"; decide +kernel
  · rintro _ _ ctx ctx' key e i region c rfl rfl hm hp hmay; exact absurd hmay (hno _ _ _ _ _ hm (by simp))

/-- Six bytes in frames of four, in two slices, with an entry in the encryption context. -/
def C89_hist : List (Env × Op) :=
  let e := (C71_world true).envWith (C89_writer.keyring (C89_around true) []) none
  [(e, .setFrameSize 4), (e, .editCtx (fun _ => [([1], [2])]) (by simp [KeepsTable, DistinctKeys])),
   (e, .process (Example.zeros 900) (some [1, 2, 3, 4, 5])), (e, .setMessageSize 6), (e, .process (Example.zeros 300) (some [5, 6]))]

def C89_written : View := run Example.encNew C89_hist

/-- With `C89_primitives`, `C89_honest`, `C89_supplied`, `C89_sizes`, `C89_canRead` and `C89_apart`, all hypotheses of the theorems above
hold for these users: the message has four encrypted data keys, the reader reads it, and the stranger does not. -/
example : (sources [] C89_writer).length < 65536 ∧ (∀ x ∈ sources [] C89_writer, ShortSource x.2) ∧
    Reach (SessionsAt (At (· = C89_around true) C89_writer) none) .requireRequire C89_written ∧
    C89_written.s.mode = .encrypt ∧ isDone C89_written.s = true ∧ C89_written.consumed = [1, 2, 3, 4, 5, 6] ∧
    C89_written.s.header.edks.length = 4 ∧
    ReadyToRead C89_written.s.header.algId C89_written.s.header.edks.length (Example.decNew .decrypt) ∧
    Reading (SessionsAt (At (· = C89_around false) C89_reader) none) C89_written.released (Example.decNew .decrypt)
      (apply ((C71_world false).envWith (C89_reader.keyring (C89_around false) []) none) (Example.decNew .decrypt)
        (.process (Example.zeros 2) (some (C89_written.released.take 100)))).1 ∧
    (apply ((C71_world false).envWith (C89_reader.keyring (C89_around false) []) none) (Example.decNew .decrypt)
      (.process (Example.zeros 6) (some C89_written.released))).1.released = [1, 2, 3, 4, 5, 6] ∧
    (apply ((C71_world false).envWith (C89_stranger.keyring (C89_around false) []) none) (Example.decNew .decrypt)
      (.process (Example.zeros 6) (some C89_written.released))).1.consumed = [] := by
  have hid : C89_written.s.header.algId = 0x0578 := by decide +kernel
  refine ⟨by rw [C89_sources]; simp, ?_, ?_, by decide +kernel, by decide +kernel, by decide +kernel, by decide +kernel,
    ⟨by decide +kernel, by decide +kernel, ?_, by decide +kernel, Or.inl (by decide +kernel)⟩,
    .call .start ⟨_, ⟨_, rfl, rfl⟩, rfl⟩ ⟨C89_written.released.drop 100, by decide +kernel⟩, by decide +kernel, by decide +kernel⟩
  · rw [C89_sources]
    simp [ShortSource, ShortNames, Example.aes]
  · exact Example.reach_hist (E := SessionsAt (At (· = C89_around true) C89_writer) none) (v := Example.encNew) (.new (mode := .encrypt) rfl) C89_hist
      (by simp [C89_hist, SessionsAt, At, C89_around])
  · rw [hid]
    have hp : (Example.decNew .decrypt).s.policy = .requireRequire := by decide +kernel
    rw [hp]
    simp [suiteTable, MayDecrypt]

end Verif.Props
