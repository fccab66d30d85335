import Verif.Model.Kdf
/-
Memory that holds key material: who allocates it, who copies into it, and who wipes and releases it.

Modelled are the blocks that may hold bytes of a data key, of a content key, of values derived from them, of a wrapping key or of the
private signing key, in the heap and in stack frames, with the wipes (`aws_secure_zero`, `aws_byte_buf_secure_zero`,
`aws_byte_buf_clean_up_secure`, `aws_string_destroy_secure`) and releases (`aws_byte_buf_clean_up`, `aws_mem_release`, end of a function) of the
code.  A released block is recorded with the place of its release and its last contents.  `aws_byte_buf_secure_zero` of aws-c-common wipes the
whole capacity of a buffer.  Which steps succeed (OpenSSL, KMS, allocation, checks on public data) is given by plans; key bytes come from a
stream of secrets.  Not modelled: memory inside OpenSSL and the AWS SDK for C++, registers, and copies a compiler may make.
-/
namespace Verif.Secrets
open Verif

/-- Where a block that may hold key material is released. -/
inductive Site where
  /-- raw_aes_keyring.c:163, raw_rsa_keyring.c:87 -/
  | randomFailed
  /-- raw_aes_keyring.c:172-174 -/
  | aesWrapFailed
  /-- raw_rsa_keyring.c:94-96 -/
  | rsaWrapFailed
  /-- kms_keyring.cpp:297-299, kms_mrk_keyring.cpp:604-606 -/
  | kmsWrapFailed
  /-- raw_aes_keyring.c:252-253 -/
  | aesNothingFound
  /-- cipher.c:1055-1057 -/
  | rsaDecryptFailed
  /-- materials.c:49, 82 -/
  | materials
  /-- `data_key` of session_encrypt.c:53 -/
  | genKeyFrame
  /-- `data_key` of session_decrypt.c:80 -/
  | deriveFrame
  /-- `prk` of hkdf.c:166, `t` of hkdf.c:85 -/
  | hkdfPrk | hkdfT
  /-- `tmparr` of cipher_openssl.c:362, and `privkey_buf` released at 430-433 -/
  | privKeyArr | privKeyBuf
  /-- session.c:149-150 -/
  | session
  /-- local_cache.c:420 -/
  | entryKey
  /-- raw_aes_keyring.c:264, raw_rsa_keyring.c:159-160 -/
  | wrappingKey
deriving DecidableEq, Repr

/-- Memory: contents of the live blocks by address, the next address, the blocks released so far with their contents (latest first), and
the number of secrets drawn. -/
structure Mem where
  live : Nat → Option Bytes := fun _ => none
  next : Nat := 0
  left : List (Site × Bytes) := []
  draws : Nat := 0

/-- Programs over this memory; the first argument is the stream of secrets. -/
def SM (α : Type) : Type := (Nat → Bytes) → Mem → α × Mem

instance : Monad SM where
  pure a := fun _ m => (a, m)
  bind f g := fun s m => let r := f s m; g r.1 s r.2

/-- The first `n` bytes, filled up with zeros. -/
def fit (n : Nat) (b : Bytes) : Bytes := (b ++ List.replicate n 0).take n

/-- `old` with `new` written at `off`; what does not fit is cut. -/
def splice (old : Bytes) (off : Nat) (new : Bytes) : Bytes := (old.take off ++ new ++ old.drop (off + new.length)).take old.length

/-- A new block of `n` bytes (`aws_mem_acquire`, `aws_byte_buf_init`, a local array); its contents are taken to be zero. -/
def alloc (n : Nat) : SM Nat := fun _ m =>
  (m.next, { m with live := fun a => if a = m.next then some (List.replicate n 0) else m.live a, next := m.next + 1 })

/-- Changes the contents of a live block. -/
def change (p : Nat) (f : Bytes → Bytes) (m : Mem) : Mem :=
  { m with live := fun a => if a = p then (m.live a).map f else m.live a }

/-- Contents of a block. -/
def Mem.get (m : Mem) (p : Nat) : Bytes := (m.live p).getD []

/-- Writes `n` bytes computed from the contents of other blocks. -/
def write (p off n : Nat) (f : List Bytes → Bytes) (srcs : List Nat) : SM Unit := fun _ m =>
  ((), change p (fun old => splice old off (fit n (f (srcs.map m.get)))) m)

/-- `memcpy` of `n` bytes to the start of a block. -/
def copy (p n src : Nat) : SM Unit := write p 0 n (fun l => l.headD []) [src]

/-- Writes `n` secret bytes that come from outside: random bytes, a key unwrapped by OpenSSL or KMS, a key given by the user. -/
def draw (p n : Nat) : SM Unit := fun s m =>
  ((), { change p (fun old => splice old 0 (fit n (s m.draws))) m with draws := m.draws + 1 })

/-- `aws_secure_zero` on `n` bytes from `off`. -/
def zero (p off n : Nat) : SM Unit := write p off n (fun _ => []) []

/-- `aws_secure_zero` on a whole block. -/
def wipe (p : Nat) : SM Unit := fun _ m => ((), change p (fun old => List.replicate old.length 0) m)

/-- Releases a block as it is. -/
def release (site : Site) (p : Nat) : SM Unit := fun _ m =>
  ((), { m with
    live := fun a => if a = p then none else m.live a
    left := (match m.live p with | some b => [(site, b)] | none => []) ++ m.left })

/-- `aws_byte_buf_clean_up_secure`, `aws_string_destroy_secure`. -/
def wipeRelease (site : Site) (p : Nat) : SM Unit := do
  wipe p
  release site p

/-! ### Key derivation -/

/-- How the calls of OpenSSL in one HKDF turn out.  `own`: built with the library's own HKDF (OpenSSL before 1.1.0, AWS-LC). -/
structure HkdfPlan where
  own : Bool := true
  extractOk : Bool := true
  /-- The round of `aws_cryptosdk_hkdf_expand` in which HMAC fails. -/
  failAt : Option Nat := none
  deriveOk : Bool := true

/-- HMAC and HKDF of OpenSSL: fixed functions of their inputs. -/
structure Fns where
  mac : Sha → (key msg : Bytes) → Bytes
  hkdf : Sha → (ikm info : Bytes) → Bytes

/-- Loop of `aws_cryptosdk_hkdf_expand`, source/hkdf.c:94-108, writing `len` bytes at `off` of block `okm`.  In a failing round `t` may have been
written. -/
def hkdfRounds (F : Fns) (sha : Sha) (info : Bytes) (plan : HkdfPlan) (prk t okm off : Nat) : (n idx remaining : Nat) → SM Bool
  | 0, _, _ => pure true
  | n + 1, idx, remaining => do
    write t 0 (hashLen sha)
      (fun l => F.mac sha (l.getD 0 []) ((if idx ≠ 1 then (l.getD 1 []).take (hashLen sha) else []) ++ info ++ [UInt8.ofNat idx])) [prk, t]
    if plan.failAt = some idx then pure false
    else do
      let w := if remaining < hashLen sha then remaining else hashLen sha
      write okm (off + (idx - 1) * hashLen sha) w (fun l => l.headD []) [t]
      hkdfRounds F sha info plan prk t okm off n (idx + 1) (remaining - w)

/-- `aws_cryptosdk_hkdf_expand`, source/hkdf.c:76-120.  Its checks on lengths never fail here: 32 bytes at most are derived. -/
def hkdfExpandS (F : Fns) (sha : Sha) (info : Bytes) (plan : HkdfPlan) (prk okm off len : Nat) : SM Bool := do
  let t ← alloc 64
  let ok ← hkdfRounds F sha info plan prk t okm off ((len + hashLen sha - 1) / hashLen sha) 1 len
  if ok then do
    wipe t
    release .hkdfT t
    pure true
  else do
    zero okm off len
    wipe t
    release .hkdfT t
    pure false

/-- `aws_cryptosdk_hkdf`, source/hkdf.c:159-179, with `aws_cryptosdk_hkdf_extract` (48-74) and the branch for OpenSSL 1.1.0 and later (124-156),
from block `ikm` to `len` bytes at `off` of block `okm`. -/
def hkdfS (F : Fns) (sha : Sha) (salt info : Bytes) (plan : HkdfPlan) (ikm okm off len : Nat) : SM Bool :=
  if plan.own then do
    let prk ← alloc 64
    write prk 0 (hashLen sha) (fun l => F.mac sha salt (l.headD [])) [ikm]
    if plan.extractOk then do
      let ok ← hkdfExpandS F sha info plan prk okm off len
      wipe prk
      release .hkdfPrk prk
      pure ok
    else do
      wipe prk
      wipe prk
      release .hkdfPrk prk
      pure false
  else do
    write okm off len (fun l => F.hkdf sha (l.headD []) info) [ikm]
    if plan.deriveOk then pure true
    else do
      zero okm off len
      pure false

/-- Outcomes of one derivation of a content key: whether the message id has the right length, and of the calls of HKDF for the commitment
value and for the key. -/
structure KdfPlan where
  messageIdOk : Bool := true
  messageId : Bytes := []
  commit : HkdfPlan := {}
  key : HkdfPlan := {}

/-- `aws_cryptosdk_private_derive_key`, source/cipher.c:319-433, from the local copy `dk` of the data key into the session `sess`, whose block
holds `content_key` (32 bytes) and then `key_commitment_arr` (32 bytes). -/
def deriveKeyS (F : Fns) (p : AlgProps) (plan : KdfPlan) (dk sess : Nat) : SM Bool :=
  if p.msgFormatVersion = 1 then
    if plan.messageIdOk then do
      zero sess 0 32
      if whichSha p.algId = .nosha then do
        copy sess p.dataKeyLen dk
        pure true
      else hkdfS F (whichSha p.algId) [] (kdfInfoV1 p.algId plan.messageId) plan.key dk sess 0 p.contentKeyLen
    else pure false
  else
    if plan.messageIdOk then do
      zero sess 0 32
      zero sess 32 p.commitmentLen
      let ok ← hkdfS F (whichSha p.algId) plan.messageId commitInfo plan.commit dk sess 32 p.commitmentLen
      if ok then hkdfS F (whichSha p.algId) plan.messageId (kdfInfoV2 p.algId) plan.key dk sess 0 p.contentKeyLen
      else pure false
    else pure false

/-! ### Keyrings -/

inductive Kind where
  | aes | rsa | kms
deriving DecidableEq, Repr

/-- The place at which a keyring releases the data key it generated but could not wrap. -/
def Kind.site : Kind → Site
  | .aes => .aesWrapFailed
  | .rsa => .rsaWrapFailed
  | .kms => .kmsWrapFailed

/-- One keyring that is asked to encrypt, with the outcomes: `ready` (IV, public key, client, GenerateDataKey), `randomOk` (random bytes for
the data key), `wrapOk` (everything after the data key exists). -/
structure EncLeaf where
  kind : Kind
  ready : Bool := true
  randomOk : Bool := true
  wrapOk : Bool := true

/-- A keyring that is asked to encrypt.  `idle`: a KMS keyring in discovery mode, which does nothing. -/
inductive EncPlan where
  | leaf (l : EncLeaf)
  | idle
  | multi (gen : Option EncPlan) (children : List EncPlan) (transferOk : Bool)

/-- `on_encrypt` of the raw AES keyring (source/raw_aes_keyring.c:144-183), of the raw RSA keyring (source/raw_rsa_keyring.c:67-103) and of the KMS
keyrings (kms_keyring.cpp:161-301, kms_mrk_keyring.cpp:379-608), on a data key of `len` bytes.  `key` is the block of the data key, if there is
one.  Returns success and the block.  `aws_cryptosdk_genrandom` (source/cipher.c:812-829) wipes what it wrote if it fails. -/
def encLeaf (l : EncLeaf) (len : Nat) (key : Option Nat) : SM (Bool × Option Nat) :=
  match key with
  | some k => pure (l.ready && l.wrapOk, some k)
  | none =>
    if l.ready then do
      let k ← alloc len
      draw k len
      if !l.randomOk && l.kind != .kms then do
        wipe k
        release .randomFailed k
        pure (false, none)
      else if l.wrapOk then pure (true, some k)
      else do
        release l.kind.site k
        pure (false, none)
    else pure (false, none)

mutual
/-- `aws_cryptosdk_keyring_on_encrypt`, with the multi-keyring (source/multi_keyring.c:20-90). -/
def onEncrypt : EncPlan → (len : Nat) → (key : Option Nat) → SM (Bool × Option Nat)
  | .leaf l, len, key => encLeaf l len key
  | .idle, _, key => pure (true, key)
  | .multi none children transferOk, len, key =>
    match key with
    | none => pure (false, none)
    | some k => do
      let r ← onEncryptList children len (some k)
      pure (r.1 && transferOk, r.2)
  | .multi (some g) children transferOk, len, key => do
    let r ← onEncrypt g len key
    match r.1, r.2 with
    | true, some k => do
      let r ← onEncryptList children len (some k)
      pure (r.1 && transferOk, r.2)
    | _, key => pure (false, key)
/-- `call_on_encrypt_on_list`, source/multi_keyring.c:20-37. -/
def onEncryptList : List EncPlan → (len : Nat) → (key : Option Nat) → SM (Bool × Option Nat)
  | [], _, key => pure (true, key)
  | c :: cs, len, key => do
    let r ← onEncrypt c len key
    if r.1 then onEncryptList cs len r.2 else pure (false, r.2)
end

/-- How one EDK fares with a keyring that decrypts: it is passed over (or the attempt fails before there is a buffer), the attempt fails
after OpenSSL wrote to the buffer, or it gives a data key.  `n` is the size of an RSA keyring's buffer; KMS gives the data key at once. -/
inductive Attempt where
  | skipped
  | failed (n : Nat)
  | works (n : Nat)

/-- One keyring that is asked to decrypt; `ready` is false if it fails before it looks at an EDK. -/
structure DecLeaf where
  kind : Kind
  ready : Bool := true
  attempts : List Attempt

inductive DecPlan where
  | leaf (l : DecLeaf)
  | multi (gen : Option DecPlan) (children : List DecPlan)

/-- Loop of `raw_aes_keyring_on_decrypt`, source/raw_aes_keyring.c:213-251, on the buffer `k` of `len` bytes; `aws_cryptosdk_aes_gcm_decrypt`
wipes it if it fails after starting to decrypt (source/cipher.c:940-942). -/
def aesAttempts (len k : Nat) : List Attempt → SM Bool
  | [] => pure false
  | .skipped :: as => aesAttempts len k as
  | .failed _ :: as => do
    draw k len
    wipe k
    aesAttempts len k as
  | .works _ :: _ => do
    draw k len
    pure true

/-- Loop of `raw_rsa_keyring_on_decrypt`, source/raw_rsa_keyring.c:119-151, with `aws_cryptosdk_rsa_decrypt` (source/cipher.c:1005-1061), which makes
the buffer and wipes and releases it on failure. -/
def rsaAttempts : List Attempt → SM (Option Nat)
  | [] => pure none
  | .skipped :: as => rsaAttempts as
  | .failed n :: as => do
    let k ← alloc n
    draw k n
    wipeRelease .rsaDecryptFailed k
    rsaAttempts as
  | .works n :: _ => do
    let k ← alloc n
    draw k n
    pure (some k)

/-- Loop of `OnDecrypt` of the KMS keyrings, kms_keyring.cpp:78-158, kms_mrk_keyring.cpp:83-377: the buffer is made by `aws_byte_buf_dup_from_aws_utils`. -/
def kmsAttempts : List Attempt → SM (Option Nat)
  | [] => pure none
  | .works n :: _ => do
    let k ← alloc n
    draw k n
    pure (some k)
  | _ :: as => kmsAttempts as

/-- `on_decrypt` of the raw and KMS keyrings; for raw AES source/raw_aes_keyring.c:185-258. -/
def decLeaf (l : DecLeaf) (len : Nat) : SM (Bool × Option Nat) :=
  if l.ready then
    match l.kind with
    | .aes => do
      let k ← alloc len
      let ok ← aesAttempts len k l.attempts
      if ok then pure (true, some k)
      else do
        release .aesNothingFound k
        pure (true, none)
    | .rsa => do
      let k ← rsaAttempts l.attempts
      pure (true, k)
    | .kms => do
      let k ← kmsAttempts l.attempts
      pure (true, k)
  else pure (false, none)

mutual
/-- `aws_cryptosdk_keyring_on_decrypt` without data key, with the multi-keyring (source/multi_keyring.c:92-127). -/
def onDecrypt : DecPlan → (len : Nat) → SM (Bool × Option Nat)
  | .leaf l, len => decLeaf l len
  | .multi none children, len => onDecryptList children len true
  | .multi (some g) children, len => do
    let r ← onDecrypt g len
    match r.2 with
    | some k => pure (true, some k)
    | none => onDecryptList children len r.1
/-- The loop over the children, with `ret_if_no_decrypt`. -/
def onDecryptList : List DecPlan → (len : Nat) → (ret : Bool) → SM (Bool × Option Nat)
  | [], _, ret => pure (ret, none)
  | c :: cs, len, ret => do
    let r ← onDecrypt c len
    match r.2 with
    | some k => pure (true, some k)
    | none => onDecryptList cs len (ret && r.1)
end

/-! ### Materials, CMMs and the cache -/

/-- `aws_cryptosdk_enc_materials_destroy`, `aws_cryptosdk_dec_materials_destroy`, source/materials.c:44-54, 78-86: the block of the data key. -/
def materialsDestroy : Option Nat → SM Unit
  | none => pure ()
  | some k => wipeRelease .materials k

/-- `default_cmm_generate_enc_materials`, source/default_cmm.c:35-95.  `ready`: nothing fails before the keyring is called.  Returns the materials,
here the block of their data key. -/
def generateS (ready : Bool) (kr : EncPlan) (len : Nat) : SM (Option (Option Nat)) :=
  if ready then do
    let r ← onEncrypt kr len none
    if r.1 then pure (some r.2)
    else do
      materialsDestroy r.2
      pure none
  else pure none

/-- `default_cmm_decrypt_materials`, source/default_cmm.c:97-147.  `checksOk`: the checks after the keyring succeed. -/
def decryptS (kr : DecPlan) (checksOk : Bool) (len : Nat) : SM (Option Nat) := do
  let r ← onDecrypt kr len
  match r.1, r.2 with
  | true, some k =>
    if checksOk then pure (some k)
    else do
      materialsDestroy (some k)
      pure none
  | _, key => do
    materialsDestroy key
    pure none

/-- What a cache entry holds: the block of the data key of its materials, and of the private signing key. -/
structure Entry where
  key : Option Nat
  keyLen : Nat
  priv : Option Nat
deriving DecidableEq, Repr

/-- `destroy_cache_entry`, source/local_cache.c:413-427. -/
def entryDestroy (e : Entry) : SM Unit := do
  materialsDestroy e.key
  match e.priv with
  | some p => wipeRelease .entryKey p
  | none => pure ()

/-- Failures of `aws_cryptosdk_sig_get_privkey`: no ASN.1 integer or no DER encoding; then a failure after there is one (no public key, too
long); a failure after `tmparr` was written (no memory for the string). -/
inductive PrivPlan where
  | early | middle | late | ok

/-- `aws_cryptosdk_sig_get_privkey`, source/cipher_openssl.c:338-444, for a private key whose DER encoding has `n` bytes, in a string of `4 + pub + n`
bytes.  The private key itself is inside OpenSSL. -/
def getPrivkeyS (plan : PrivPlan) (n pub : Nat) : SM (Option Nat) := do
  let arr ← alloc 130
  match plan with
  | .early => do
    wipe arr
    release .privKeyArr arr
    pure none
  | .middle => do
    let buf ← alloc n
    draw buf n
    wipe arr
    wipe buf
    release .privKeyBuf buf
    release .privKeyArr arr
    pure none
  | .late => do
    let buf ← alloc n
    draw buf n
    write arr (4 + pub) n (fun l => l.headD []) [buf]
    wipe arr
    wipe buf
    release .privKeyBuf buf
    release .privKeyArr arr
    pure none
  | .ok => do
    let buf ← alloc n
    draw buf n
    write arr (4 + pub) n (fun l => l.headD []) [buf]
    let str ← alloc (4 + pub + n)
    copy str (4 + pub + n) arr
    wipe arr
    wipe buf
    release .privKeyBuf buf
    release .privKeyArr arr
    pure (some str)

/-- Outcomes of entering materials into the cache: `entryOk` (an entry and its materials structure are made), `keyOk` (the data key is copied),
`restOk` (EDKs, trace, context), the private key if there is one (with the sizes for `getPrivkeyS`), `insertOk` (`locked_insert_entry`). -/
structure PutPlan where
  entryOk : Bool := true
  keyOk : Bool := true
  restOk : Bool := true
  priv : Option (PrivPlan × Nat × Nat) := none
  insertOk : Bool := true

/-- `copy_enc_materials`, `copy_dec_materials`, source/local_cache.c:442-475: the copy of the data key. -/
def copyKeyS (ok : Bool) (src : Option Nat) (len : Nat) : SM (Option Nat) :=
  match ok, src with
  | true, some k => do
    let c ← alloc len
    copy c len k
    pure (some c)
  | _, _ => pure none

/-- `put_entry_for_encrypt`, `put_entry_for_decrypt`, source/local_cache.c:639-740 (the latter stores a public key, `priv = none`).  An entry that
cannot be completed or inserted is destroyed. -/
def putEntryS (plan : PutPlan) (mat : Option Nat) (len : Nat) : SM (Option Entry) :=
  if plan.entryOk then do
    let c ← copyKeyS plan.keyOk mat len
    if plan.keyOk && plan.restOk then
      match plan.priv with
      | none =>
        if plan.insertOk then pure (some { key := c, keyLen := len, priv := none })
        else do
          entryDestroy { key := c, keyLen := len, priv := none }
          pure none
      | some (pp, n, pub) => do
        let p ← getPrivkeyS pp n pub
        match p with
        | none => do
          entryDestroy { key := c, keyLen := len, priv := none }
          pure none
        | some p =>
          if plan.insertOk then pure (some { key := c, keyLen := len, priv := some p })
          else do
            entryDestroy { key := c, keyLen := len, priv := some p }
            pure none
    else do
      entryDestroy { key := c, keyLen := len, priv := none }
      pure none
  else pure none

/-- `get_enc_materials`, `get_dec_materials`, source/local_cache.c:559-637: materials copied from an entry; `restOk`: the other copies and the
signature context are made. -/
def getMaterialsS (keyOk restOk : Bool) (e : Entry) : SM (Option (Option Nat)) := do
  let c ← copyKeyS keyOk e.key e.keyLen
  if keyOk && restOk then pure (some c)
  else do
    materialsDestroy c
    pure none

/-! ### Sessions -/

/-- Outcomes in `aws_cryptosdk_priv_try_gen_key` after there are materials: its checks, the message id, the derivation, header. -/
structure GenPlan where
  checksOk : Bool := true
  messageIdOk : Bool := true
  kdf : KdfPlan := {}
  headerOk : Bool := true

/-- `aws_cryptosdk_priv_try_gen_key`, source/session_encrypt.c:48-150, after the CMM returned `mat` (`none`: it failed). -/
def tryGenKeyS (F : Fns) (p : AlgProps) (plan : GenPlan) (sess : Nat) (mat : Option (Option Nat)) : SM Bool := do
  let frame ← alloc 32
  let ok ← (match mat with
    | some (some k) =>
      if plan.checksOk then do
        copy frame p.dataKeyLen k
        if plan.messageIdOk then do
          let ok ← deriveKeyS F p plan.kdf frame sess
          pure (ok && plan.headerOk)
        else pure false
      else pure false
    | _ => pure false : SM Bool)
  (match mat with
    | some (some k) => do
      wipe k
      materialsDestroy (some k)
    | _ => pure () : SM Unit)
  wipe frame
  release .genKeyFrame frame
  pure ok

/-- Outcomes in `aws_cryptosdk_priv_unwrap_keys` after there are materials: mode and suite, the checks in `derive_data_key`, derivation, comparison
of the commitment, header and signature. -/
structure UnwrapPlan where
  modeOk : Bool := true
  checksOk : Bool := true
  kdf : KdfPlan := {}
  commitmentOk : Bool := true
  headerOk : Bool := true

/-- `derive_data_key`, source/session_decrypt.c:67-102. -/
def deriveDataKeyS (F : Fns) (p : AlgProps) (plan : UnwrapPlan) (sess k : Nat) : SM Bool :=
  if plan.checksOk then do
    let frame ← alloc 32
    copy frame p.dataKeyLen k
    let ok ← deriveKeyS F p plan.kdf frame sess
    release .deriveFrame frame
    pure (ok && plan.commitmentOk)
  else pure false

/-- `aws_cryptosdk_priv_unwrap_keys`, source/session_decrypt.c:125-188, after the CMM returned `mat`. -/
def unwrapKeysS (F : Fns) (p : AlgProps) (plan : UnwrapPlan) (sess : Nat) (mat : Option Nat) : SM Bool :=
  match mat with
  | none => pure false
  | some k =>
    if plan.modeOk then do
      let ok ← deriveDataKeyS F p plan sess k
      materialsDestroy (some k)
      pure (ok && plan.headerOk)
    else do
      materialsDestroy (some k)
      pure false

/-- `aws_cryptosdk_session_reset`, source/session.c:30-71: the content key. -/
def sessionResetS (sess : Nat) : SM Unit := zero sess 0 32

/-- `aws_cryptosdk_session_destroy`, source/session.c:139-151. -/
def sessionDestroyS (sess : Nat) : SM Unit := do
  sessionResetS sess
  wipe sess
  release .session sess

/-! ### Programs -/

/-- The objects of a program that own memory with key material: sessions, cache entries (of all caches), wrapping keys of raw keyrings. -/
structure Objs where
  sessions : List Nat := []
  entries : List Entry := []
  keys : List Nat := []

/-- Where encryption materials come from: the keyring, or an entry of a cache (source/caching_cmm.c:488-650; a failed hit falls through to the keyring, which is a second call here). -/
inductive EncSource where
  | fresh (ready : Bool) (kr : EncPlan) (put : Option PutPlan)
  | hit (entry : Nat) (keyOk restOk : Bool)

inductive DecSource where
  | fresh (kr : DecPlan) (checksOk : Bool) (put : Option PutPlan)
  | hit (entry : Nat) (keyOk restOk : Bool)

/-- Calls of the library that touch key material. -/
inductive Op where
  /-- `aws_cryptosdk_session_new_from_cmm_2` -/
  | newSession
  | resetSession (i : Nat)
  | destroySession (i : Nat)
  /-- a session's keys are set up for encryption, source/session.c:292 -/
  | encrypt (i : Nat) (p : AlgProps) (src : EncSource) (plan : GenPlan)
  /-- a session's keys are set up for decryption, source/session.c:286 -/
  | decrypt (i : Nat) (p : AlgProps) (src : DecSource) (plan : UnwrapPlan)
  /-- the last reference to a cache entry is given up: eviction, expiry, invalidation, clearing or destruction of the cache -/
  | evict (j : Nat)
  /-- `aws_cryptosdk_raw_aes_keyring_new`, `aws_cryptosdk_raw_rsa_keyring_new`: the copy of the wrapping key -/
  | newKeyring (n : Nat)
  /-- the last reference to a raw keyring is given up -/
  | destroyKeyring (j : Nat)

/-- Encryption materials from the source; a put of a data key is done with `putEntryS`, and its entry is kept. -/
def encMaterials (p : AlgProps) (o : Objs) : EncSource → SM (Option (Option Nat) × Objs)
  | .fresh ready kr put => do
    let mat ← generateS ready kr p.dataKeyLen
    match mat, put with
    | some k, some pp => do
      let e ← putEntryS pp k p.dataKeyLen
      pure (mat, { o with entries := o.entries ++ e.toList })
    | _, _ => pure (mat, o)
  | .hit j keyOk restOk =>
    match o.entries[j]? with
    | none => pure (none, o)
    | some e => do
      let mat ← getMaterialsS keyOk restOk e
      pure (mat, o)

def decMaterials (p : AlgProps) (o : Objs) : DecSource → SM (Option Nat × Objs)
  | .fresh kr checksOk put => do
    let mat ← decryptS kr checksOk p.dataKeyLen
    match mat, put with
    | some k, some pp => do
      let e ← putEntryS pp (some k) p.dataKeyLen
      pure (mat, { o with entries := o.entries ++ e.toList })
    | _, _ => pure (mat, o)
  | .hit j keyOk restOk =>
    match o.entries[j]? with
    | none => pure (none, o)
    | some e => do
      let mat ← getMaterialsS keyOk restOk e
      pure (mat.join, o)

/-- One call.  A call on an object that does not exist does nothing. -/
def opStep (F : Fns) (o : Objs) : Op → SM Objs
  | .newSession => do
    let s ← alloc 64
    pure { o with sessions := o.sessions ++ [s] }
  | .resetSession i =>
    match o.sessions[i]? with
    | none => pure o
    | some s => do
      sessionResetS s
      pure o
  | .destroySession i =>
    match o.sessions[i]? with
    | none => pure o
    | some s => do
      sessionDestroyS s
      pure { o with sessions := o.sessions.eraseIdx i }
  | .encrypt i p src plan =>
    match o.sessions[i]? with
    | none => pure o
    | some s => do
      let r ← encMaterials p o src
      let _ ← tryGenKeyS F p plan s r.1
      pure r.2
  | .decrypt i p src plan =>
    match o.sessions[i]? with
    | none => pure o
    | some s => do
      let r ← decMaterials p o src
      let _ ← unwrapKeysS F p plan s r.1
      pure r.2
  | .evict j =>
    match o.entries[j]? with
    | none => pure o
    | some e => do
      entryDestroy e
      pure { o with entries := o.entries.eraseIdx j }
  | .newKeyring n => do
    let k ← alloc n
    draw k n
    pure { o with keys := o.keys ++ [k] }
  | .destroyKeyring j =>
    match o.keys[j]? with
    | none => pure o
    | some k => do
      wipeRelease .wrappingKey k
      pure { o with keys := o.keys.eraseIdx j }

/-- A sequence of calls. -/
def runOps (F : Fns) : Objs → List Op → SM Objs
  | o, [] => pure o
  | o, op :: ops => do
    let o ← opStep F o op
    runOps F o ops

end Verif.Secrets
