import Verif.Proof.Header
namespace Verif
open Spec

theorem OBuf.write_bind_write {b : OBuf} {x y : Bytes} {f : OBuf → Option α} :
    (b.write x).bind (fun b => (b.write y).bind f) = (b.write (x ++ y)).bind f := by
  rw [← OBuf.write_write, Option.bind_assoc]

theorem OBuf.write_nil {b : OBuf} (h : b.data.length ≤ b.cap) : b.write [] = some b := by
  simp [OBuf.write, h]

/-- The bytes of an EDK as written, with truncated length fields. -/
def edkBytes (e : Edk) : Bytes :=
  be 2 e.providerId.length ++ e.providerId ++ be 2 e.providerInfo.length ++ e.providerInfo ++
  be 2 e.ciphertext.length ++ e.ciphertext

theorem edkBytes_eq (e : Edk) : edkBytes e = wireEdk e := by simp [edkBytes, wireEdk, u16_eq_be]

theorem hdrWriteEdk_eq (b : OBuf) (e : Edk) : hdrWriteEdk b e = b.write (edkBytes e) := by
  unfold hdrWriteEdk edkBytes
  simp only [Option.bind_eq_bind]
  rw [OBuf.write_bind_write, OBuf.write_bind_write, OBuf.write_bind_write, OBuf.write_bind_write, OBuf.write_write]

theorem hdrWriteEdks_eq (b : OBuf) (es : List Edk) (hb : b.data.length ≤ b.cap) :
    hdrWriteEdks b es = b.write ((es.map edkBytes).flatten) := by
  induction es generalizing b with
  | nil => simp [hdrWriteEdks, OBuf.write, hb]
  | cons e es ih =>
    simp only [hdrWriteEdks, hdrWriteEdk_eq, List.map_cons, List.flatten_cons, ← OBuf.write_write, Option.bind_eq_bind]
    cases h : b.write (edkBytes e) with
    | none => rfl
    | some b' =>
      obtain ⟨h1, rfl⟩ := OBuf.write_some.mp h
      exact ih _ (by simpa using h1)

/-- The bytes before the AAD length. -/
def hdrBytesPre (ver : Nat) (h : Hdr) : Bytes :=
  be 1 ver ++ (if ver = 1 then be 1 0x80 else []) ++ be 2 h.algId ++ h.messageId

/-- The bytes after the AAD. -/
def hdrBytesPost (ver : Nat) (h : Hdr) : Bytes :=
  be 2 h.edks.length ++ (h.edks.map edkBytes).flatten ++ be 1 (if h.frameLen ≠ 0 then 2 else 1) ++
  (if ver = 1 then [0, 0, 0, 0] ++ be 1 h.iv.length else []) ++ be 4 h.frameLen ++ h.algSuiteData ++
  (if ver = 1 then h.iv else []) ++ h.authTag

/-- Everything `hdr_write` emits. -/
def hdrBytes (ver : Nat) (h : Hdr) : Bytes :=
  hdrBytesPre ver h ++ be 2 (ctxLen h.encCtx) ++ ctxBytes h.encCtx ++ hdrBytesPost ver h

theorem serialize_bind (b : OBuf) (m : EncCtx) (hb : b.data.length ≤ b.cap) :
    hdrWriteCtx m b = if ctxLen m ≤ 65535 then b.write (ctxBytes m) else none := by
  unfold hdrWriteCtx
  cases h : encCtxSerialize b m with
  | mk b' res =>
    cases res with
    | ok u =>
      obtain ⟨h1, h2, rfl⟩ := (encCtxSerialize_ok hb).mp h
      simp only [h1, if_true]
      symm
      rw [OBuf.write_some]
      exact ⟨by rw [length_ctxBytes]; exact h2, rfl⟩
    | error e =>
      simp only []
      split
      · rename_i h1
        symm
        rw [OBuf.write_none]
        rw [length_ctxBytes]
        refine Nat.lt_of_not_le fun h2 => ?_
        have := (encCtxSerialize_ok hb).mpr ⟨h1, h2, rfl⟩
        rw [h] at this
        simp at this
      · rfl

/-- `hdr_write` either appends all of `hdrBytes` or fails. -/
theorem hdrWriteBuf_eq (h : Hdr) (ver : Nat) (b : OBuf) (hb : b.data.length ≤ b.cap) :
    hdrWriteBuf h ver b = if ctxLen h.encCtx ≤ 65535 then b.write (hdrBytes ver h) else none := by
  -- 1. everything before the context
  have step1 : hdrWriteBuf h ver b = (b.write (hdrBytesPre ver h)).bind fun b1 => (b1.write [0, 0]).bind fun b2 =>
      (if ctxLen h.encCtx ≤ 65535 then b2.write (ctxBytes h.encCtx) else none).bind fun b3 =>
        ((b3.patch b1.data.length (be 2 (b3.data.length - b2.data.length))).write (hdrBytesPost ver h)) := by
    unfold hdrWriteBuf
    simp only [Option.bind_eq_bind]
    have tail : ∀ b : OBuf, b.data.length ≤ b.cap →
        ((b.write (be 2 h.edks.length)).bind fun b => (hdrWriteEdks b h.edks).bind fun b =>
          (b.write (be 1 (if h.frameLen ≠ 0 then 2 else 1))).bind fun b =>
          (hdrWriteReservedV1 ver h.iv.length b).bind fun b =>
          (b.write (be 4 h.frameLen)).bind fun b => (b.write h.algSuiteData).bind fun b =>
          (hdrWriteIvV1 ver h.iv b).bind fun b => b.write h.authTag) = b.write (hdrBytesPost ver h) := by
      intro b hb
      have e1 : ((b.write (be 2 h.edks.length)).bind fun b => hdrWriteEdks b h.edks) =
          b.write (be 2 h.edks.length ++ (h.edks.map edkBytes).flatten) := by
        rw [← OBuf.write_write]
        cases hw : b.write (be 2 h.edks.length) with
        | none => rfl
        | some b' =>
          obtain ⟨h1, rfl⟩ := OBuf.write_some.mp hw
          exact hdrWriteEdks_eq _ _ (by simpa using h1)
      rw [← Option.bind_assoc, e1]
      unfold hdrBytesPost hdrWriteReservedV1 hdrWriteIvV1
      by_cases hv : ver = 1
      · simp only [hv, if_true, Option.bind_assoc]
        simp only [OBuf.write_bind_write, OBuf.write_write, List.append_assoc]
      · simp only [hv, if_false, Option.bind_some]
        simp only [OBuf.write_bind_write, OBuf.write_write, List.append_assoc, List.append_nil, List.nil_append]
    have hpre : ∀ f : OBuf → Option OBuf, ((b.write (be 1 ver)).bind fun b =>
        (hdrWriteTypeV1 ver b).bind fun b => (b.write (be 2 h.algId)).bind fun b =>
        (b.write h.messageId).bind f) = (b.write (hdrBytesPre ver h)).bind f := by
      intro f
      unfold hdrBytesPre hdrWriteTypeV1
      by_cases hv : ver = 1
      · simp only [hv, if_true, OBuf.write_bind_write, List.append_assoc]
      · simp only [hv, if_false, Option.bind_some, OBuf.write_bind_write, List.append_assoc, List.nil_append]
    rw [hpre]
    cases hw1 : b.write (hdrBytesPre ver h) with
    | none => rfl
    | some b1 =>
      obtain ⟨h1, rfl⟩ := OBuf.write_some.mp hw1
      simp only [Option.bind_some]
      cases hw2 : OBuf.write _ [0, 0] with
      | none => rfl
      | some b2 =>
        obtain ⟨h2, rfl⟩ := OBuf.write_some.mp hw2
        simp only [Option.bind_some]
        rw [serialize_bind _ _ (by simp at h2 ⊢; omega)]
        cases hw3 : (if ctxLen h.encCtx ≤ 65535 then OBuf.write _ (ctxBytes h.encCtx) else none) with
        | none => rfl
        | some b3 =>
          have : b3.data.length ≤ b3.cap ∧ b.data.length + (hdrBytesPre ver h).length + 2 ≤ b3.data.length := by
            split at hw3
            · obtain ⟨h3, rfl⟩ := OBuf.write_some.mp hw3
              constructor
              · simp at h3 ⊢; omega
              · simp; omega
            · cases hw3
          simp only [Option.bind_some]
          refine tail _ ?_
          simp [OBuf.patch]
          omega
  rw [step1]
  by_cases hc : ctxLen h.encCtx ≤ 65535
  · simp only [hc, if_true]
    by_cases hfit : b.data.length + (hdrBytes ver h).length ≤ b.cap
    · have hlen : (hdrBytes ver h).length = (hdrBytesPre ver h).length + 2 + ctxLen h.encCtx + (hdrBytesPost ver h).length := by
        simp [hdrBytes, length_ctxBytes]; omega
      have w1 := (OBuf.write_some (b := b) (x := hdrBytesPre ver h)).mpr ⟨by omega, rfl⟩
      rw [w1, Option.bind_some]
      have w2 := (OBuf.write_some (b := { b with data := b.data ++ hdrBytesPre ver h }) (x := [0, 0])).mpr
        ⟨by simp; omega, rfl⟩
      rw [w2, Option.bind_some]
      have w3 := (OBuf.write_some (b := { b with data := b.data ++ hdrBytesPre ver h ++ [0, 0] }) (x := ctxBytes h.encCtx)).mpr
        ⟨by simp [length_ctxBytes]; omega, rfl⟩
      simp only [] at w3 ⊢
      rw [w3, Option.bind_some]
      have hp : OBuf.patch { b with data := b.data ++ hdrBytesPre ver h ++ [0, 0] ++ ctxBytes h.encCtx }
          (b.data ++ hdrBytesPre ver h).length
          (be 2 ((b.data ++ hdrBytesPre ver h ++ [0, 0] ++ ctxBytes h.encCtx).length -
            (b.data ++ hdrBytesPre ver h ++ [0, 0]).length)) =
          { b with data := b.data ++ hdrBytesPre ver h ++ be 2 (ctxLen h.encCtx) ++ ctxBytes h.encCtx } := by
        have e : (b.data ++ hdrBytesPre ver h ++ [0, 0] ++ ctxBytes h.encCtx).length -
            (b.data ++ hdrBytesPre ver h ++ [0, 0]).length = ctxLen h.encCtx := by
          simp only [List.length_append, length_ctxBytes]; omega
        rw [e]
        unfold OBuf.patch
        simp only [length_be]
        have t1 : (b.data ++ hdrBytesPre ver h ++ [0, 0] ++ ctxBytes h.encCtx).take (b.data ++ hdrBytesPre ver h).length =
            b.data ++ hdrBytesPre ver h := by
          rw [List.append_assoc (b.data ++ hdrBytesPre ver h), List.take_left]
        have t2 : (b.data ++ hdrBytesPre ver h ++ [0, 0] ++ ctxBytes h.encCtx).drop ((b.data ++ hdrBytesPre ver h).length + 2) =
            ctxBytes h.encCtx := by
          have : (b.data ++ hdrBytesPre ver h).length + 2 = (b.data ++ hdrBytesPre ver h ++ [0, 0]).length := by simp; omega
          rw [this, List.drop_left]
        rw [t1, t2]
      rw [hp]
      rw [(OBuf.write_some (x := hdrBytesPost ver h)).mpr ⟨by simp [length_ctxBytes]; omega, rfl⟩]
      symm
      rw [OBuf.write_some]
      refine ⟨hfit, ?_⟩
      simp [hdrBytes]
    · have hlen : (hdrBytes ver h).length = (hdrBytesPre ver h).length + 2 + ctxLen h.encCtx + (hdrBytesPost ver h).length := by
        simp [hdrBytes, length_ctxBytes]; omega
      have hn : b.write (hdrBytes ver h) = none := OBuf.write_none.mpr (by omega)
      rw [hn]
      cases hw1 : b.write (hdrBytesPre ver h) with
      | none => rfl
      | some b1 =>
        obtain ⟨h1, rfl⟩ := OBuf.write_some.mp hw1
        rw [Option.bind_some]
        cases hw2 : OBuf.write _ [0, 0] with
        | none => rfl
        | some b2 =>
          obtain ⟨h2, rfl⟩ := OBuf.write_some.mp hw2
          rw [Option.bind_some]
          cases hw3 : OBuf.write _ (ctxBytes h.encCtx) with
          | none => rfl
          | some b3 =>
            obtain ⟨h3, rfl⟩ := OBuf.write_some.mp hw3
            simp only [Option.bind_some]
            rw [OBuf.write_none]
            simp [OBuf.patch, length_ctxBytes] at h3 ⊢
            omega
  · simp only [hc, if_false, Option.bind_none]
    cases b.write (hdrBytesPre ver h) with
    | none => rfl
    | some b1 =>
      simp only [Option.bind_some]
      cases b1.write [0, 0] with
      | none => rfl
      | some b2 => rfl

theorem hdrWrite_ok {h : Hdr} {outbuf out : Bytes} {n : Nat} :
    hdrWrite h outbuf = (out, n, .ok ()) ↔
      ∃ p, algProps h.algId = some p ∧ ctxLen h.encCtx ≤ 65535 ∧ n = (hdrBytes p.msgFormatVersion h).length ∧
        n ≤ outbuf.length ∧ out = hdrBytes p.msgFormatVersion h ++ outbuf.drop n := by
  unfold hdrWrite
  cases hp : algProps h.algId with
  | none => simp
  | some p =>
    simp only []
    rw [hdrWriteBuf_eq _ _ _ (by simp)]
    constructor
    · intro hh
      split at hh
      · simp at hh
      · rename_i b hb
        split at hb
        · rename_i hc
          obtain ⟨h1, rfl⟩ := OBuf.write_some.mp hb
          simp at hh h1
          exact ⟨p, rfl, hc, hh.2.symm, by omega, by rw [← hh.1, ← hh.2]⟩
        · cases hb
    · rintro ⟨p', hp', hc, rfl, hle, rfl⟩
      cases hp'
      rw [if_pos hc, (OBuf.write_some (x := hdrBytes p.msgFormatVersion h)).mpr ⟨by simpa using hle, rfl⟩]
      simp

theorem hdrWrite_err {h : Hdr} {outbuf out : Bytes} {n : Nat} {e : Err} (hh : hdrWrite h outbuf = (out, n, .error e)) :
    out = List.replicate outbuf.length 0 ∧ n = 0 ∧ (e = .badState ∨ e = .shortBuffer) := by
  unfold hdrWrite at hh
  split at hh
  · simp at hh; exact ⟨hh.1.symm, hh.2.1.symm, Or.inl hh.2.2.symm⟩
  · split at hh
    · simp at hh; exact ⟨hh.1.symm, hh.2.1.symm, Or.inr hh.2.2.symm⟩
    · simp at hh

/-- The header with its context entries in the order in which they are written. -/
def Hdr.sorted (h : Hdr) : Hdr := { h with encCtx := sortByKey h.encCtx }

theorem hdrBytes_eq_wire' {h : Hdr} {ver : Nat} (hv : ver = 1 ∨ ver = 2) (hfl : h.frameLen < 2 ^ 32)
    (hiv : ver = 1 → h.iv.length = 12) : hdrBytes ver h = wireHeader ver h.sorted := by
  have hb1 : be 1 1 ++ be 1 0x80 = ([1, 0x80] : Bytes) := by decide
  have hb2 : be 1 2 = ([2] : Bytes) := by decide
  have hb12 : be 1 12 = ([12] : Bytes) := by decide
  have hct : be 1 (if h.frameLen ≠ 0 then 2 else 1) = wireContentType h.frameLen := by
    unfold wireContentType
    by_cases h0 : h.frameLen = 0
    · simp [h0]; decide
    · simp [h0]; decide
  have hedk : (edkBytes : Edk → Bytes) = wireEdk := funext edkBytes_eq
  unfold hdrBytes hdrBytesPre hdrBytesPost wireHeader wireAuthPart
  rw [hct, hedk]
  simp only [Hdr.sorted, u16_eq_be, u32_eq_be _ hfl, wireCtx_sorted, length_ctxBytes]
  rcases hv with hv | hv
  · have hiv := hiv hv
    simp only [hv, if_true, hiv, hb12, ← hb1, List.append_assoc]
  · have : ¬ (2 = 1) := by decide
    simp only [hv, this, if_false, hb2, List.append_assoc, List.nil_append, List.append_nil]

theorem hdrBytes_eq_wire {h : Hdr} {r : SuiteRow} (hok : HeaderOK r h) :
    hdrBytes r.version h = wireHeader r.version h.sorted := by
  have hv : r.version = 1 ∨ r.version = 2 := by
    have := hok.suite
    have key : ∀ r ∈ suiteTable, r.version = 1 ∨ r.version = 2 := by decide
    exact key r this
  exact hdrBytes_eq_wire' hv hok.frameLen (fun h1 => by have := hok.iv; rwa [if_pos h1] at this)

theorem headerOK_sorted {h : Hdr} {r : SuiteRow} (hok : HeaderOK r h) : HeaderOK r h.sorted := by
  obtain ⟨a1, a2, a3, a4, a5, a6, a7, a8, a9, a10, a11, a12⟩ := hok
  refine ⟨a1, a2, a3, a4, a5, a6, a7, a8, a9, a10, WF_sort a11, ?_⟩
  show wireLen (sortByKey h.encCtx) ≤ 65535
  rw [wireLen_eq] at a12 ⊢
  have hnil : sortByKey h.encCtx = [] ↔ h.encCtx = [] := by
    rw [← List.length_eq_zero_iff, length_sortByKey, List.length_eq_zero_iff]
  simpa [ctxLen, hnil, entriesLen_perm (sortByKey_perm h.encCtx)] using a12

theorem row_props {r : SuiteRow} (hr : r ∈ suiteTable) {p : AlgProps} (hp : algProps r.id = some p) :
    p.msgFormatVersion = r.version ∧ authtagLen p = (if r.version = 1 then 28 else 16) := by
  obtain ⟨row', hrow', hid', e1, e2, e3, e4, e5, e6, e7, e8⟩ := suite_facts hp
  have := row_unique hrow' hr hid'
  subst this
  exact ⟨e1, e6⟩

/-! ### size -/

/-- EDK bytes on the wire. -/
def edkLen (e : Edk) : Nat := 6 + e.providerId.length + e.providerInfo.length + e.ciphertext.length

theorem length_edkBytes (e : Edk) : (edkBytes e).length = edkLen e := by
  simp [edkBytes, edkLen]; omega

theorem satAdd_exact {a b : Nat} (h : a + b < 2 ^ 64) : satAdd a b = a + b := by
  unfold satAdd u64
  rw [Nat.mod_eq_of_lt h, if_neg (by omega)]

theorem hdrSizeEdks_exact (es : List Edk) (acc : Nat) (h : acc + (es.map edkLen).sum < 2 ^ 64) :
    es.foldl hdrSizeEdk acc = acc + (es.map edkLen).sum := by
  induction es generalizing acc with
  | nil => simp
  | cons e es ih =>
    simp only [List.map_cons, List.sum_cons] at h
    have hd : edkLen e = 6 + e.providerId.length + e.providerInfo.length + e.ciphertext.length := rfl
    have : hdrSizeEdk acc e = acc + edkLen e := by
      unfold hdrSizeEdk
      rw [satAdd_exact (a := acc) (by omega), satAdd_exact (a := acc + 6) (by omega),
        satAdd_exact (a := acc + 6 + _) (by omega), satAdd_exact (by omega)]
      omega
    rw [List.foldl_cons, this, ih _ (by omega)]
    simp; omega

theorem length_flatten_edkBytes (es : List Edk) : ((es.map edkBytes).flatten).length = (es.map edkLen).sum := by
  induction es with
  | nil => rfl
  | cons e es ih => simp [length_edkBytes, ih]

/-- `hdr_size` is the number of bytes written when that number is below 2^31. -/
theorem hdrSize_eq {h : Hdr} {p : AlgProps} (hp : algProps h.algId = some p) (hctx : ctxLen h.encCtx ≤ 65535)
    (hiv : p.msgFormatVersion = 1 → h.iv.length = 12) (htag : h.authTag.length = 16)
    (hsmall : (hdrBytes p.msgFormatVersion h).length < 2 ^ 31) :
    hdrSize h = ((hdrBytes p.msgFormatVersion h).length : Int) := by
  obtain ⟨row, hrow, hid, e1, e2, e3, e4, e5, e6, e7, e8⟩ := suite_facts hp
  have hsz := encCtxSize_ok.mpr ⟨rfl, hctx⟩
  have hlen : (hdrBytes p.msgFormatVersion h).length =
      (staticFieldsLen p.msgFormatVersion).toNat + (h.messageId.length + h.algSuiteData.length) + authtagLen p +
      ctxLen h.encCtx + (h.edks.map edkLen).sum := by
    unfold hdrBytes hdrBytesPre hdrBytesPost
    rcases e2 with hv | hv
    · rw [e1] at hiv ⊢
      rw [e6]
      have : (staticFieldsLen 1).toNat = 18 := rfl
      simp only [hv, if_true, List.length_append, length_be, length_flatten_edkBytes, length_ctxBytes, hiv hv, htag, this,
        List.length_cons, List.length_nil]
      omega
    · rw [e1, e6]
      have : (staticFieldsLen 2).toNat = 12 := rfl
      have h21 : ¬ (2 = 1) := by decide
      simp only [hv, h21, if_false, List.length_append, length_be, length_flatten_edkBytes, length_ctxBytes, htag, this,
        List.length_nil]
      omega
  have hst : staticFieldsLen p.msgFormatVersion ≠ -1 := by
    rw [e1]; rcases e2 with hv | hv <;> rw [hv] <;> decide
  unfold hdrSize
  rw [hp]
  simp only [hst, if_false, hsz]
  rw [hlen] at hsmall ⊢
  have hm : ∀ n, n < 2 ^ 31 → u64 n = n := by
    intro n hn; unfold u64; exact Nat.mod_eq_of_lt (by omega)
  rw [hm ((staticFieldsLen p.msgFormatVersion).toNat + (h.messageId.length + h.algSuiteData.length) + authtagLen p)
    (by omega), hm _ (by omega)]
  rw [hdrSizeEdks_exact _ _ (by omega), if_neg (by omega)]
  unfold toInt32
  rw [Nat.mod_eq_of_lt (by omega), if_pos (by omega)]

end Verif
