import Verif.Model.Alg
/-
Trailing signatures: source/cipher_openssl.c:204-1000.  Elliptic curve arithmetic, digests and base64 are parameters; the DER
encoding of integers and of signatures is written out, because the code depends on its length.

Every OpenSSL or allocator call that can fail is a site (`SigSite`); a function of sites says which calls succeed.  Objects that
must be freed are counted by kind (`Live`), references of reference counted ones one by one.
-/
namespace Verif

/-- Kinds of objects that are allocated or reference counted: elliptic curve keys (references), groups, `EVP_PKEY`, `EVP_MD_CTX`,
`EVP_PKEY_CTX`, `ECDSA_SIG`, `BIGNUM`, `ASN1_INTEGER`, buffers returned by OpenSSL, and memory of the caller's allocator. -/
inductive SigObj where
  | ecKey | group | pkey | mdCtx | pkeyCtx | ecdsaSig | bn | asn1 | osslBuf | mem
deriving DecidableEq, Repr

/-- How many objects of each kind are held. -/
abbrev Live := SigObj → Int

/-- `n` more (or fewer) objects of kind `k`. -/
def Live.add (w : Live) (k : SigObj) (n : Int) : Live := fun j => if j = k then w j + n else w j

/-- The calls that can fail, with the number of the iteration for those in the loop of `aws_cryptosdk_sig_sign_finish`. -/
inductive SigSite where
  | ctxMem | pkeyNew | pkeySet | mdNew | mdInit | pubOut | pubStr | asn1New | privOut | pubOut2 | privStr
  | groupNew | keyNew | keySetGroup | keyGen | pubIn | privIn | asn1ToBn | keySetPriv
  | digestFinal | pkeyCtxNew | signInit | signSize | sigBuf | sigStr
  | sign (i : Nat) | sigIn (i : Nat) | dupR (i : Nat) | dupS (i : Nat) | bnSub (i : Nat) | sigOut (i : Nat)
deriving DecidableEq, Repr

/-- The named curves in use (`curve_name`, source/cipher.c:178,191,204,217). -/
inductive Curve where
  | p256 | p384
deriving DecidableEq, Repr

/-- The order of the group (`EC_GROUP_get0_order`; SEC 2). -/
def Curve.order : Curve → Nat
  | .p256 => 0xFFFFFFFF00000000FFFFFFFFFFFFFFFFBCE6FAADA7179E84F3B9CAC2FC632551
  | .p384 => 0xFFFFFFFFFFFFFFFFFFFFFFFFFFFFFFFFFFFFFFFFFFFFFFFFC7634D81F4372DDF581A0DB248B0A77AECEC196ACCC52973

/-- Number of bytes of the order. -/
def Curve.bytes : Curve → Nat
  | .p256 => 32
  | .p384 => 48

/-- `impl->curve_name` of a suite, source/cipher.c:76-219; `none` is NULL. -/
def sigCurve (algId : Nat) : Option Curve :=
  match algId with
  | 0x0214 => some .p256
  | 0x0346 | 0x0378 | 0x0578 => some .p384
  | _ => none

/-- `impl->sig_md_ctor` of a suite, source/cipher.c:76-219. -/
def sigMd (algId : Nat) : Sha :=
  match algId with
  | 0x0214 => .sha256
  | 0x0346 | 0x0378 | 0x0578 => .sha384
  | _ => .nosha

/-- The minimal big-endian representation of a number (`BN_bn2bin`); empty for 0. -/
def beMin (n : Nat) : Bytes :=
  if n = 0 then [] else beMin (n / 256) ++ [UInt8.ofNat (n % 256)]
decreasing_by omega

/-- The contents of a DER INTEGER: minimal, with a leading zero if the first bit would be set (OpenSSL's `i2c_ASN1_INTEGER`). -/
def derIntBody (n : Nat) : Bytes :=
  match beMin n with
  | [] => [0]
  | b :: r => if 128 ≤ b.toNat then 0 :: b :: r else b :: r

/-- A DER length of up to 65535 (longer ones do not occur). -/
def derLen (n : Nat) : Bytes :=
  if n < 128 then [UInt8.ofNat n]
  else if n < 256 then [0x81, UInt8.ofNat n]
  else [0x82, UInt8.ofNat (n / 256), UInt8.ofNat n]

/-- Tag, length and contents. -/
def derTlv (tag : UInt8) (body : Bytes) : Bytes := tag :: (derLen body.length ++ body)

/-- `i2d_ASN1_INTEGER` of a number that is not negative. -/
def derInt (n : Nat) : Bytes := derTlv 0x02 (derIntBody n)

/-- `i2d_ECDSA_SIG`. -/
def derSig (r s : Nat) : Bytes := derTlv 0x30 (derInt r ++ derInt s)

/-- Reads tag and length, and gives the contents and what follows. -/
def derRead (tag : UInt8) (b : Bytes) : Option (Bytes × Bytes) :=
  match b with
  | t :: l :: r =>
    if t ≠ tag then none
    else if l.toNat < 128 then rd l.toNat r
    else if l = 0x81 then
      match r with
      | m :: r => rd m.toNat r
      | _ => none
    else if l = 0x82 then
      match r with
      | m :: m' :: r => rd (m.toNat * 256 + m'.toNat) r
      | _ => none
    else none
  | _ => none

/-- `d2i_ASN1_INTEGER`: the number and what follows.  Encodings that are not minimal are refused, as in OpenSSL; negative numbers
are refused too (OpenSSL would give a negative number, which the library never writes). -/
def d2iInt (b : Bytes) : Option (Nat × Bytes) :=
  match derRead 0x02 b with
  | none => none
  | some (body, r) => if derIntBody (unbe body) = body then some (unbe body, r) else none

/-- `d2i_ECDSA_SIG` on the beginning of a buffer. -/
def d2iSig (b : Bytes) : Option ((Nat × Nat) × Bytes) :=
  match derRead 0x30 b with
  | none => none
  | some (body, rest) =>
    match d2iInt body with
    | none => none
    | some (r, b1) =>
      match d2iInt b1 with
      | some (s, []) => some ((r, s), rest)
      | _ => none

/-- What OpenSSL's `ECDSA_size` gives, the length announced by `EVP_PKEY_sign` with a NULL buffer: two integers as long as the order
with a leading zero, in a sequence. -/
def ecdsaSize (c : Curve) : Nat :=
  (derTlv 0x30 (List.replicate (2 * (c.bytes + 3)) 0)).length

/-- What is used from OpenSSL and aws-c-common.
* `draw c d m i`: the `i`-th signature that `EVP_PKEY_sign` makes with the private key `d` of the digest `m` (the signatures differ,
  since each contains a random component);
* `verify c q m r s`: ECDSA verification with the public key `q`;
* `hash`: the digests;
* `genKey c`: a new key pair, `EC_KEY_generate_key`;
* `pubOut`, `pubIn`: the compressed encoding of a point (`i2o_ECPublicKey`) and its decoding (`o2i_ECPublicKey`);
* `b64`, `unb64`: base64 (`aws_base64_encode`, `aws_base64_decode`); `nul`: whether `aws_base64_encode` appends a NUL byte;
* `ok`: which calls succeed. -/
structure Ec where
  draw : Curve → Nat → Bytes → Nat → Nat × Nat
  verify : Curve → Nat → Bytes → Nat → Nat → Bool
  hash : Sha → Bytes → Bytes
  genKey : Curve → Nat × Nat
  pubOut : Curve → Nat → Bytes
  pubIn : Curve → Bytes → Option Nat
  b64 : Bytes → Bytes
  unb64 : Bytes → Option Bytes
  nul : Bool
  ok : SigSite → Bool
  draw_range : ∀ c d m i, 0 < (draw c d m i).1 ∧ (draw c d m i).1 < c.order ∧ 0 < (draw c d m i).2 ∧ (draw c d m i).2 < c.order
  hash_len : (∀ x, (hash .sha256 x).length = 32) ∧ ∀ x, (hash .sha384 x).length = 48

/-- `EC_KEY`: private and public part, if set. -/
structure EcKey where
  priv : Option Nat
  pub : Option Nat
deriving DecidableEq, Repr

/-- `struct aws_cryptosdk_sig_ctx`, source/cipher_openssl.c:89-96: `keypair`, `pkey` (and whether it refers to the key) and `ctx` may
be absent while a context is being built.  The digest context is the data it has absorbed. -/
structure SigC where
  props : AlgProps
  keypair : Option EcKey
  pkey : Option Bool
  md : Option Bytes
  isSign : Bool
deriving DecidableEq, Repr

/-- `aws_cryptosdk_sig_abort`, source/cipher_openssl.c:526-538.  Freeing the `EVP_PKEY` drops its reference to the key. -/
def sigAbort (c : SigC) (w : Live) : Live :=
  let w := if c.md.isSome then w.add .mdCtx (-1) else w
  let w := match c.pkey with
    | none => w
    | some set => if set then (w.add .pkey (-1)).add .ecKey (-1) else w.add .pkey (-1)
  let w := if c.keypair.isSome then w.add .ecKey (-1) else w
  w.add .mem (-1)

/-- `EC_KEY_free`, which accepts NULL. -/
def keyFree (k : Option EcKey) (w : Live) : Live := if k.isSome then w.add .ecKey (-1) else w

/-- `sign_start`, source/cipher_openssl.c:222-273. -/
def sigBegin (ec : Ec) (keypair : EcKey) (p : AlgProps) (w : Live) : Except Err SigC × Live :=
  if !ec.ok .ctxMem then (.error .oom, w)
  else
    let w := (w.add .mem 1).add .ecKey 1
    let c : SigC := ⟨p, some keypair, none, none, false⟩
    if !ec.ok .pkeyNew then (.error .oom, sigAbort c w)
    else
      let w := w.add .pkey 1
      let c := { c with pkey := some false }
      if !ec.ok .pkeySet then (.error .oom, sigAbort c w)
      else
        let w := w.add .ecKey 1
        let c := { c with pkey := some true }
        if !ec.ok .mdNew then (.error .oom, sigAbort c w)
        else
          let w := w.add .mdCtx 1
          let c := { c with md := some [] }
          if !ec.ok .mdInit then (.error .cryptoUnknown, sigAbort c w)
          else (.ok { c with isSign := true }, w)

/-- `MAX_PUBKEY_SIZE` and `MAX_PUBKEY_SIZE_B64`, source/cipher_openssl.c:42-43. -/
def maxPubkeySize : Nat := 64
def maxPubkeySizeB64 : Nat := (maxPubkeySize + 2) * 4 / 3

/-- The base64 text with its NUL byte, if there is one, stripped off, source/cipher_openssl.c:304-308. -/
def stripNul (b : Bytes) : Bytes := if b.getLast? = some 0 then b.dropLast else b

/-- `serialize_pubkey`, source/cipher_openssl.c:275-325.  Base64 fails if text and NUL byte do not fit the buffer of
`MAX_PUBKEY_SIZE_B64` bytes.  The buffer from OpenSSL is freed on both paths. -/
def serializePubkey (ec : Ec) (cv : Curve) (k : EcKey) (w : Live) : Except Err Bytes × Live :=
  match k.pub with
  | none => (.error .cryptoUnknown, w)
  | some q =>
    if !ec.ok .pubOut then (.error .cryptoUnknown, w)
    else
      let w := w.add .osslBuf 1
      let bin := ec.pubOut cv q
      if maxPubkeySizeB64 < (bin.length + 2) / 3 * 4 + 1 then (.error .shortBuffer, w.add .osslBuf (-1))
      else if !ec.ok .pubStr then (.error .oom, w.add .osslBuf (-1))
      else (.ok (stripNul (ec.b64 bin ++ (if ec.nul then [0] else []))), (w.add .mem 1).add .osslBuf (-1))

/-- `aws_cryptosdk_sig_get_pubkey`, source/cipher_openssl.c:327-335. -/
def sigGetPubkey (ec : Ec) (cv : Curve) (c : SigC) (w : Live) : Except Err Bytes × Live :=
  match c.keypair with
  | none => (.error .cryptoUnknown, w)
  | some k => serializePubkey ec cv k w

/-- The serialised private key, source/cipher_openssl.c:396-424: suite, two lengths of one byte, public and private key.  `tmparr` has 130
bytes; `aws_byte_buf_append` fails when there is too little room (an error code of aws-c-common, `.raw 0` here). -/
def privkeyText (ec : Ec) (algId : Nat) (pub priv : Bytes) : Except Err Bytes :=
  if 255 < priv.length ∨ 255 < pub.length then .error .cryptoUnknown
  else if maxPubkeySize * 2 + 2 < 4 + pub.length then .error (.raw 0)
  else if maxPubkeySize * 2 + 2 < 4 + pub.length + priv.length then .error (.raw 0)
  else if !ec.ok .privStr then .error .oom
  else .ok (be 2 algId ++ [UInt8.ofNat pub.length, UInt8.ofNat priv.length] ++ pub ++ priv)

/-- `aws_cryptosdk_sig_get_privkey`, source/cipher_openssl.c:337-445.  The precondition that the context signs gives the private key. -/
def sigGetPrivkey (ec : Ec) (cv : Curve) (c : SigC) (w : Live) : Except Err Bytes × Live :=
  match c.keypair with
  | some ⟨some d, some q⟩ =>
    if !ec.ok .asn1New then (.error .oom, w)
    else
      let w := w.add .asn1 1
      let w := if ec.ok .privOut then w.add .osslBuf 1 else w
      let w := w.add .asn1 (-1)
      let w := if ec.ok .pubOut2 then w.add .osslBuf 1 else w
      let r := if !ec.ok .privOut ∨ !ec.ok .pubOut2 then .error .oom else privkeyText ec c.props.algId (ec.pubOut cv q) (derInt d)
      let w := match r with
        | .ok _ => w.add .mem 1
        | .error _ => w
      let w := if ec.ok .privOut then w.add .osslBuf (-1) else w
      let w := if ec.ok .pubOut2 then w.add .osslBuf (-1) else w
      (r, w)
  | _ => (.error .cryptoUnknown, w)

/-- `aws_cryptosdk_sig_sign_start_keygen`, source/cipher_openssl.c:447-523: the context and the public key.  `wantPub` is `pub_key !=
NULL`; the result is `none` for a suite without signature. -/
def sigKeygen (ec : Ec) (wantPub : Bool) (p : AlgProps) (w : Live) : Except Err (Option (SigC × Option Bytes)) × Live :=
  match sigCurve p.algId with
  | none => (.ok none, w)
  | some cv =>
    if !ec.ok .groupNew then (.error .cryptoUnknown, w)
    else
      let w := w.add .group 1
      if !ec.ok .keyNew then (.error .cryptoUnknown, w.add .group (-1))
      else
        let w := w.add .ecKey 1
        if !ec.ok .keySetGroup ∨ !ec.ok .keyGen then (.error .cryptoUnknown, (w.add .ecKey (-1)).add .group (-1))
        else
          let k : EcKey := ⟨some (ec.genKey cv).1, some (ec.genKey cv).2⟩
          let pub := if wantPub then serializePubkey ec cv k w else (.ok [], w)
          match pub with
          | (.error e, w) => (.error e, (w.add .ecKey (-1)).add .group (-1))
          | (.ok pub, w) =>
            match sigBegin ec k p w with
            | (.error e, w) =>
              (.error e, (((if wantPub then w.add .mem (-1) else w).add .ecKey (-1)).add .group (-1)))
            | (.ok c, w) => (.ok (some (c, if wantPub then some pub else none)), (w.add .ecKey (-1)).add .group (-1))

/-- The decoding of the two keys of a serialised private key, source/cipher_openssl.c:600-650, from the creation of the key: on
success the key and what follows it. -/
def privkeyLoad (ec : Ec) (cv : Curve) (pubLen privLen : Nat) (rest : Bytes) (w : Live) :
    Except Err (EcKey × Bytes) × Option EcKey × Live :=
  if !ec.ok .keyNew then (.error .oom, none, w)
  else
    let w := w.add .ecKey 1
    let k : EcKey := ⟨none, none⟩
    if !ec.ok .groupNew then (.error .cryptoUnknown, some k, w)
    else
      let w := w.add .group 1
      if !ec.ok .keySetGroup then (.error .cryptoUnknown, some k, w.add .group (-1))
      else
        let w := w.add .group (-1)
        match rd pubLen rest with
        | none => (.error .cryptoUnknown, some k, w)
        | some (pub, rest) =>
          match (if ec.ok .pubIn then ec.pubIn cv pub else none) with
          | none => (.error .cryptoUnknown, some k, w)
          | some q =>
            let k : EcKey := ⟨none, some q⟩
            match rd privLen rest with
            | none => (.error .cryptoUnknown, some k, w)
            | some (priv, rest) =>
              match (if ec.ok .privIn then d2iInt priv else none) with
              | none => (.error .cryptoUnknown, some k, w)
              | some (d, more) =>
                let w := w.add .asn1 1
                if more ≠ [] then (.error .cryptoUnknown, some k, w.add .asn1 (-1))
                else
                  let w := w.add .asn1 (-1)
                  if !ec.ok .asn1ToBn then (.error .oom, some k, w)
                  else
                    let w := w.add .bn 1
                    let w := w.add .bn (-1)
                    if !ec.ok .keySetPriv then (.error .oom, some k, w)
                    else (.ok (⟨some d, some q⟩, rest), some ⟨some d, some q⟩, w)

/-- `aws_cryptosdk_sig_sign_start`, source/cipher_openssl.c:540-681. -/
def sigSignStart (ec : Ec) (wantPub : Bool) (p : AlgProps) (privKey : Bytes) (w : Live) :
    Except Err (Option (SigC × Option Bytes)) × Live :=
  match sigCurve p.algId with
  | none => (.ok none, w)
  | some cv =>
    if privKey.length < 5 then (.error .cryptoUnknown, w)
    else
      if unbe (privKey.take 2) ≠ p.algId then (.error .cryptoUnknown, w)
      else
        match privkeyLoad ec cv (unbe ((privKey.drop 2).take 1)) (unbe ((privKey.drop 3).take 1)) (privKey.drop 4) w with
        | (.error e, k, w) => (.error e, keyFree k w)
        | (.ok (k, rest), _, w) =>
          if rest ≠ [] then (.error .cryptoUnknown, keyFree (some k) w)
          else
            let pub := if wantPub then serializePubkey ec cv k w else (.ok [], w)
            match pub with
            | (.error e, w) => (.error e, keyFree (some k) w)
            | (.ok pub, w) =>
              match sigBegin ec k p w with
              | (.error e, w) => (.error e, keyFree (some k) (if wantPub then w.add .mem (-1) else w))
              | (.ok c, w) => (.ok (some (c, if wantPub then some pub else none)), keyFree (some k) w)

/-- `load_pubkey`, source/cipher_openssl.c:683-737.  `aws_base64_decode` fails if the result does not fit 64 bytes. -/
def loadPubkey (ec : Ec) (cv : Curve) (pub : Bytes) (w : Live) : Except Err EcKey × Live :=
  match ec.unb64 pub with
  | none => (.error .badCiphertext, w)
  | some bin =>
    if maxPubkeySize < bin.length then (.error .badCiphertext, w)
    else if !ec.ok .groupNew then (.error .cryptoUnknown, w)
    else
      let w := w.add .group 1
      if !ec.ok .keyNew then (.error .oom, w.add .group (-1))
      else
        let w := w.add .ecKey 1
        if !ec.ok .keySetGroup then (.error .cryptoUnknown, (w.add .group (-1)).add .ecKey (-1))
        else match (if ec.ok .pubIn then ec.pubIn cv bin else none) with
          | none => (.error .badCiphertext, (w.add .group (-1)).add .ecKey (-1))
          | some q => (.ok ⟨none, some q⟩, w.add .group (-1))

/-- `aws_cryptosdk_sig_verify_start`, source/cipher_openssl.c:739-803. -/
def sigVerifyStart (ec : Ec) (pub : Bytes) (p : AlgProps) (w : Live) : Except Err (Option SigC) × Live :=
  match sigCurve p.algId with
  | none => (.ok none, w)
  | some cv =>
    if !ec.ok .ctxMem then (.error .oom, w)
    else
      let w := w.add .mem 1
      let c : SigC := ⟨p, none, none, none, false⟩
      match loadPubkey ec cv pub w with
      | (.error e, w) => (.error e, sigAbort c w)
      | (.ok k, w) =>
        let c := { c with keypair := some k }
        if !ec.ok .pkeyNew then (.error .oom, sigAbort c w)
        else
          let w := w.add .pkey 1
          let c := { c with pkey := some false }
          if !ec.ok .pkeySet then (.error .oom, sigAbort c w)
          else
            let w := w.add .ecKey 1
            let c := { c with pkey := some true }
            if !ec.ok .mdNew then (.error .oom, sigAbort c w)
            else
              let w := w.add .mdCtx 1
              let c := { c with md := some [] }
              if !ec.ok .mdInit then (.error .cryptoUnknown, sigAbort c w)
              else (.ok (some c), w)

/-- `aws_cryptosdk_sig_update`, source/cipher_openssl.c:805-823; `fails` is the failure of `EVP_DigestUpdate`, which is not called for
an empty slice. -/
def sigUpdate (fails : Bool) (x : Bytes) (c : SigC) : Except Err SigC :=
  if x.length = 0 then .ok c
  else if fails then .error .cryptoUnknown
  else .ok { c with md := c.md.map (· ++ x) }

/-- `EVP_DigestVerifyFinal` for ECDSA: the signature must be the DER encoding of a pair that verifies. -/
def ecdsaVerifyDer (ec : Ec) (cv : Curve) (q : Nat) (digest sig : Bytes) : Bool :=
  match d2iSig sig with
  | some ((r, s), []) => if derSig r s = sig then ec.verify cv q digest r s else false
  | _ => false

/-- `aws_cryptosdk_sig_verify_finish`, source/cipher_openssl.c:825-833. -/
def sigVerifyFinish (ec : Ec) (c : SigC) (sig : Bytes) (w : Live) : Except Err Unit × Live :=
  let ok := match sigCurve c.props.algId, c.keypair, c.md with
    | some cv, some ⟨_, some q⟩, some data => ecdsaVerifyDer ec cv q (ec.hash (sigMd c.props.algId) data) sig
    | _, _, _ => false
  (if ok then .ok () else .error .badCiphertext, sigAbort c w)

/-- How signing ends: a value, an error, a write past the end of the signature buffer, or not within the given number of iterations. -/
inductive SignRes (α : Type) where
  | ok (a : α)
  | err (e : Err)
  | ub
  | diverge
deriving DecidableEq, Repr

/-- The loop of `aws_cryptosdk_sig_sign_finish`, source/cipher_openssl.c:904-973.  `buf` holds the first `sigtmp.len` bytes of the buffer
of `cap` bytes, `i` numbers the iterations.  On a return the `ECDSA_SIG` has been freed (lines 962 and 986). -/
def signLoop (ec : Ec) (cv : Curve) (target : Nat) (d : Nat) (digest : Bytes) (cap : Nat) :
    (fuel i : Nat) → (buf : Bytes) → Live → SignRes Bytes × Live
  | 0, _, _, w => (.diverge, w)
  | fuel + 1, i, buf, w =>
    if buf.length = target then (.ok buf, w)
    else if !ec.ok (.sign i) then (.err .cryptoUnknown, w)
    else
      let (r, s) := ec.draw cv d digest i
      let buf := derSig r s
      if cap < buf.length then (.ub, w)
      else if buf.length = target then (.ok buf, w)
      else match (if ec.ok (.sigIn i) then d2iSig buf else none) with
        | none => signLoop ec cv target d digest cap fuel (i + 1) buf w
        | some ((r, s), _) =>
          let w := (w.add .ecdsaSig 1).add .bn 2
          let sigFree := fun (w : Live) => (w.add .ecdsaSig (-1)).add .bn (-2)
          let w := if ec.ok (.dupR i) then w.add .bn 1 else w
          let w := if ec.ok (.dupS i) then w.add .bn 1 else w
          if !ec.ok (.dupR i) ∨ !ec.ok (.dupS i) then (.err .oom, sigFree w)
          else if !ec.ok (.bnSub i) then (.err .cryptoUnknown, sigFree (w.add .bn (-2)))
          else
            let s := cv.order - s
            let w := w.add .bn (-2)
            if !ec.ok (.sigOut i) then (.err .cryptoUnknown, sigFree w)
            else
              let buf := derSig r s
              if cap < buf.length then (.ub, w)
              else signLoop ec cv target d digest cap fuel (i + 1) buf (sigFree w)

/-- `aws_cryptosdk_sig_sign_finish`, source/cipher_openssl.c:835-1000. -/
def sigSignFinish (ec : Ec) (fuel : Nat) (c : SigC) (w : Live) : SignRes Bytes × Live :=
  match sigCurve c.props.algId, c.keypair, c.md with
  | some cv, some ⟨some d, _⟩, some data =>
    let digest := ec.hash (sigMd c.props.algId) data
    if 64 < digest.length then (.err .cryptoUnknown, sigAbort c w)
    else if !ec.ok .digestFinal then (.err .cryptoUnknown, sigAbort c w)
    else if !ec.ok .pkeyCtxNew then (.err .oom, sigAbort c w)
    else
      let w := w.add .pkeyCtx 1
      let cleanup := fun (w : Live) => sigAbort c (w.add .pkeyCtx (-1))
      if !ec.ok .signInit ∨ !ec.ok .signSize then (.err .cryptoUnknown, cleanup w)
      else if !ec.ok .sigBuf then (.err .oom, cleanup w)
      else
        let w := w.add .mem 1
        match signLoop ec cv c.props.signatureLen d digest (ecdsaSize cv) fuel 0 [] w with
        | (.ok sig, w) =>
          if !ec.ok .sigStr then (.err .oom, (cleanup w).add .mem (-1))
          else (.ok sig, (cleanup (w.add .mem 1)).add .mem (-1))
        | (.err e, w) => (.err e, (cleanup w).add .mem (-1))
        | (.ub, w) => (.ub, w)
        | (.diverge, w) => (.diverge, w)
  | _, _, _ => (.ub, w)

/-- `aws_cryptosdk_md_init`, source/cipher_openssl.c:116-150, for SHA-512 (`known`) or an unknown digest. -/
def mdInit (known : Bool) (newOk initOk memOk : Bool) (w : Live) : Except Err Unit × Live :=
  if !known then (.error .cryptoUnknown, w)
  else if !newOk then (.error .oom, w)
  else
    let w := w.add .mdCtx 1
    if !initOk then (.error .cryptoUnknown, w.add .mdCtx (-1))
    else if !memOk then (.error .oom, w.add .mdCtx (-1))
    else (.ok (), w.add .mem 1)

end Verif
