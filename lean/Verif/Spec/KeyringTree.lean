import Verif.Spec.AnyStack
import Verif.Spec.Kms
/-
Trees of keyrings: which wrapping keys the writer has, which keyrings the reader has, and when they fit together.
-/
namespace Verif.Spec

/-- A wrapping key: that of a raw keyring, or a key of KMS by its identifier. -/
inductive Source where
  | raw (r : RawKr)
  | kms (id : Bytes)

/-- The wrapping keys of a keyring.  KMS keyrings in discovery mode have none. -/
def sourcesOf : Leaf → List Source
  | .raw r => [.raw r]
  | .kms kr => kr.keyIds.map .kms
  | .mrk kr => if kr.keyId = [] then [] else [.kms kr.keyId]

mutual
/-- The wrapping keys in the tree below `p`, with their positions. -/
def sources (p : List Nat) : KrTree → List (List Nat × Source)
  | .leaf l => (sourcesOf l).map (fun x => (p, x))
  | .multi children => sourcesFrom p 1 children
  | .multiGen gen children => sources (0 :: p) gen ++ sourcesFrom p 1 children
/-- The wrapping keys of the trees numbered from `i` on below `p`. -/
def sourcesFrom (p : List Nat) (i : Nat) : List KrTree → List (List Nat × Source)
  | [] => []
  | t :: ts => sources (i :: p) t ++ sourcesFrom p (i + 1) ts
end

mutual
/-- The keyrings in the tree below `p` that are not multi-keyrings, with their positions. -/
def leaves (p : List Nat) : KrTree → List (List Nat × Leaf)
  | .leaf l => [(p, l)]
  | .multi children => leavesFrom p 1 children
  | .multiGen gen children => leaves (0 :: p) gen ++ leavesFrom p 1 children
/-- Those of the trees numbered from `i` on below `p`. -/
def leavesFrom (p : List Nat) (i : Nat) : List KrTree → List (List Nat × Leaf)
  | [] => []
  | t :: ts => leaves (i :: p) t ++ leavesFrom p (i + 1) ts
end

/-- The moments of a user whose keyring is the tree `t`. -/
def At (A : Around → Prop) (t : KrTree) : Moment → Prop := fun m => ∃ a, A a ∧ m = ⟨a.world, t.keyring a []⟩

/-- The worlds in which the raw keyrings work. -/
def rawWorlds (A : Around → Prop) : World → Prop := fun w => ∃ a p, A a ∧ w = a.at p

/-- KMS, asked to use the key `id`, encrypted `key` or generated it, and gave the encrypted data key `e`. -/
def KmsMade (env : KmsEnv) (id : Bytes) (ctx : EncCtx) (key : Bytes) (e : Edk) : Prop :=
  e.providerId = ascii "aws-kms" ∧
    ((∃ i c grants, env.encrypt i c ⟨id, key, ctx, grants⟩ = some (e.providerInfo, e.ciphertext)) ∨
     (∃ c n grants, env.generate c ⟨id, n, ctx, grants⟩ = some (e.providerInfo, e.ciphertext, key)))

/-- If KMS answers a reader's request to decrypt what it encrypted, in the same encryption context, with the key that encrypted it or a
replica of that key, the answer is the plaintext and names the key asked for. -/
def KmsHonest (A1 A2 : Around → Prop) : Prop :=
  ∀ a b p q id ctx key e, A1 a → A2 b → KmsMade (a.kms p) id ctx key e → ∀ ctx' j c id' grants used plaintext, ctx.Perm ctx' →
    SameMrk id' e.providerInfo → (b.kms q).decrypt j c ⟨id', e.ciphertext, ctx', grants⟩ = some (used, plaintext) → used = id' ∧ plaintext = key

/-- KMS does not generate empty data keys unless asked to, and its key names and ciphertexts of data keys fit the message format. -/
structure KmsSizes (A : Around → Prop) (t : KrTree) : Prop where
  key : ∀ a p c r keyId ciphertext plaintext, A a → r.numBytes ≠ 0 → (a.kms p).generate c r = some (keyId, ciphertext, plaintext) → plaintext ≠ []
  fits : ∀ a p id ctx alg key e, A a → (p, .kms id) ∈ sources [] t → RightLength alg key → KmsMade (a.kms p) id ctx key e →
    e.providerInfo.length < 65536 ∧ e.ciphertext.length < 65536

/-- The keyring `l` at `q` may ask KMS for what is encrypted with the key `id` at `p`, and KMS answers. -/
def KmsReads (A1 A2 : Around → Prop) (p : List Nat) (id : Bytes) (q : List Nat) : Leaf → Prop
  | .raw _ => False
  | .kms kr => ∀ a b ctx ctx' key e i, A1 a → A2 b → KmsMade (a.kms p) id ctx key e → ctx.Perm ctx' → ∃ region c, MayTry kr e region ∧
      (b.kms q).client i region = some c ∧ (b.kms q).decrypt i c ⟨e.providerInfo, e.ciphertext, ctx', kr.grants⟩ ≠ none
  | .mrk kr => ∀ a b ctx ctx' key e i, A1 a → A2 b → KmsMade (a.kms p) id ctx key e → ctx.Perm ctx' → ∃ region keyId c,
      MrkMayTry kr e region keyId ∧ (b.kms q).client i region = some c ∧
      (b.kms q).decrypt i c ⟨keyId, e.ciphertext, ctx', kr.grants⟩ ≠ none

/-- If the keyring `l` at `q` may ask KMS for what is encrypted with the key `id` at `p`, KMS refuses. -/
def KmsRefuses (A1 A2 : Around → Prop) (p : List Nat) (id : Bytes) (q : List Nat) : Leaf → Prop
  | .raw r => nsOf r ≠ ascii "aws-kms"
  | .kms kr => ∀ a b ctx ctx' key e i region c, A1 a → A2 b → KmsMade (a.kms p) id ctx key e → ctx.Perm ctx' → MayTry kr e region →
      (b.kms q).decrypt i c ⟨e.providerInfo, e.ciphertext, ctx', kr.grants⟩ = none
  | .mrk kr => ∀ a b ctx ctx' key e i region keyId c, A1 a → A2 b → KmsMade (a.kms p) id ctx key e → ctx.Perm ctx' →
      MrkMayTry kr e region keyId → (b.kms q).decrypt i c ⟨keyId, e.ciphertext, ctx', kr.grants⟩ = none

/-- The reader's keyring unlocks what is encrypted with the wrapping key. -/
def Opened (RsaPair : Bytes → Bytes → Prop) (A1 A2 : Around → Prop) : List Nat × Source → List Nat × Leaf → Prop
  | (_, .raw r), (_, .raw r') => Unlocks RsaPair r r'
  | (_, .raw _), _ => False
  | (p, .kms id), (q, l) => KmsReads A1 A2 p id q l

/-- What is encrypted with the wrapping key is not for the reader's keyring.  The namespace "aws-kms" is refused by the constructors of raw
keyrings (`C49_reserved_namespace`). -/
def Apart (A1 A2 : Around → Prop) : List Nat × Source → List Nat × Leaf → Prop
  | (_, .raw r), (_, .raw r') => NotFor r r'
  | (_, .raw r), _ => nsOf r ≠ ascii "aws-kms"
  | (p, .kms id), (q, l) => KmsRefuses A1 A2 p id q l

/-- The reader's keyring does not take for its own what is not: raw keyrings fit or are apart, and have no names of KMS. -/
def NoConfusion (RsaPair : Bytes → Bytes → Prop) : Source → Leaf → Prop
  | .raw r, .raw r' => Unlocks RsaPair r r' ∨ NotFor r r'
  | .raw r, _ => nsOf r ≠ ascii "aws-kms"
  | .kms _, .raw r' => nsOf r' ≠ ascii "aws-kms"
  | .kms _, _ => True

/-- The reader's keyring `t2` can read what is written with the keyring `t1`. -/
structure TreeReads (RsaPair : Bytes → Bytes → Prop) (A1 A2 : Around → Prop) (t1 t2 : KrTree) : Prop where
  some : ∃ x ∈ sources [] t1, ∃ y ∈ leaves [] t2, Opened RsaPair A1 A2 x y
  all : ∀ x ∈ sources [] t1, ∀ y ∈ leaves [] t2, NoConfusion RsaPair x.2 y.2
  region : ∀ q kr, (q, Leaf.mrk kr) ∈ leaves [] t2 → kr.keyId = [] → kr.region ≠ [] ∧ 58 ∉ kr.region

/-- The reader lacks no resources. -/
structure Supplied (A : Around → Prop) : Prop where
  world : ∀ a, A a → Sound a.world
  raw : ∀ a p s, A a → (a.kr p).alloc s = true
  kms : ∀ a p, A a → (a.kms p).alloc .dataKey = true

/-- The names of the writer's raw keyrings fit the header. -/
def ShortSource : Source → Prop
  | .raw r => ShortNames r
  | .kms _ => True

end Verif.Spec
