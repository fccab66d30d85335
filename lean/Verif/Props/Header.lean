import Verif.Proof.HeaderWrite
/-
C01-C04 (and the parser half of C05): message headers.
-/
namespace Verif
open Spec

/-! ### Example headers used for non-vacuity -/

/-- A version 1 header with two context entries (out of order) and two EDKs. -/
def exHdr1 : Hdr :=
  { algId := 0x0178, frameLen := 4096, iv := List.replicate 12 0, authTag := List.replicate 16 9,
    messageId := List.replicate 16 3, encCtx := [([2], [5, 6]), ([1], [])],
    edks := [⟨[1], [2, 3], [4]⟩, ⟨[], [], []⟩], authLen := 64 }

/-- A version 2 (committing) non-framed header without context. -/
def exHdr2 : Hdr :=
  { algId := 0x0478, frameLen := 0, iv := [], authTag := List.replicate 16 9, messageId := List.replicate 32 3,
    algSuiteData := List.replicate 32 8, edks := [⟨[1], [2, 3], [4]⟩] }

theorem exHdr1_ok : HeaderOK ⟨0x0178, 1, 256, 256, 0, 0⟩ exHdr1 := by
  refine ⟨by decide, rfl, rfl, rfl, rfl, rfl, by decide, by decide, by decide, by decide, ?_, by decide⟩
  unfold DistinctKeys; decide

theorem exHdr2_ok : HeaderOK ⟨0x0478, 2, 256, 512, 0, 32⟩ exHdr2 := by
  refine ⟨by decide, rfl, rfl, rfl, rfl, rfl, by decide, by decide, by decide, by decide, ?_, by decide⟩
  unfold DistinctKeys; decide

/-! ### C01 -/

/-- C01.  A well-formed header of either format version that is written successfully is written in the
published format (with the context entries in some order), and parsing any buffer that starts with the written
bytes yields the same header and consumes exactly those bytes, whatever header object is overwritten. -/
theorem C01_header_round_trip (r : SuiteRow) (h old : Hdr) (outbuf out rest : Bytes) (n mx : Nat)
    (hok : HeaderOK r h) (hmx : mx = 0 ∨ h.edks.length ≤ mx) (hw : hdrWrite h outbuf = (out, n, .ok ())) :
    ∃ h', hdrParseInto old mx (out.take n ++ rest) = (h', .ok rest) ∧ SameHeader h h' ∧ DistinctKeys h'.encCtx ∧
      out.take n = wireHeader r.version h' := by
  obtain ⟨p, hp, hc, rfl, hle, rfl⟩ := hdrWrite_ok.mp hw
  rw [hok.id] at hp
  have hv := (row_props hok.suite hp).1
  rw [hv, List.take_left, hdrBytes_eq_wire hok]
  have hs := headerOK_sorted hok
  refine ⟨{ h.sorted with authLen := (wireAuthPart r.version h.sorted).length }, ?_, ?_, ?_, rfl⟩
  · unfold hdrParseInto
    have : hdrParse mx (wireHeader r.version h.sorted ++ rest) =
        .ok ({ h.sorted with authLen := (wireAuthPart r.version h.sorted).length }, rest) := by
      rw [hdrParse_iff]
      refine ⟨r, ?_, hmx, rfl, rfl⟩
      obtain ⟨a1, a2, a3, a4, a5, a6, a7, a8, a9, a10, a11, a12⟩ := hs
      exact ⟨a1, a2, a3, a4, a5, a6, a7, a8, a9, a10, a11, a12⟩
    rw [this]
  · refine ⟨rfl, rfl, rfl, rfl, rfl, rfl, rfl, ?_⟩
    intro k
    exact find_perm hok.ctxKeys (sortByKey_perm h.encCtx).symm k
  · exact WF_sort hok.ctxKeys

/-- Outside the premises of C01 the code does lose data: an EDK field of 65536 bytes is written with a
truncated length field.  The write succeeds and reports the size announced by `hdr_size`, but no suffix makes
the result parse back to that header.  (Nothing in `hdr_write` or its callers rejects such a field.) -/
theorem C01_oversized_edk_field_is_lost :
    ∃ h : Hdr, h.algId = 0x0178 ∧ h.edks.length = 1 ∧
      ∃ out n, hdrWrite h (List.replicate 65700 0) = (out, n, .ok ()) ∧ hdrSize h = (n : Int) ∧
        ∀ old mx rest h' left, hdrParseInto old mx (out.take n ++ rest) = (h', .ok left) → ¬ SameHeader h h' := by
  let e : Edk := ⟨[1], [2], List.replicate 65536 0⟩
  let h : Hdr := { exHdr1 with edks := [e], encCtx := [] }
  obtain ⟨p, hp, hv⟩ : ∃ p, algProps h.algId = some p ∧ p.msgFormatVersion = 1 := ⟨_, rfl, rfl⟩
  have hctx : ctxLen h.encCtx ≤ 65535 := by decide
  have hlen : (hdrBytes 1 h).length = 65606 := by
    unfold hdrBytes hdrBytesPre hdrBytesPost
    have h1 : ((h.edks.map edkBytes).flatten).length = 65544 := by
      rw [length_flatten_edkBytes]
      show ([e].map edkLen).sum = _
      simp only [List.map_cons, List.map_nil, List.sum_cons, List.sum_nil, edkLen, e, List.length_cons, List.length_nil,
        List.length_replicate]
      omega
    have h2 : (ctxBytes h.encCtx).length = 0 := rfl
    have h3 : h.messageId.length = 16 := rfl
    have h4 : h.iv.length = 12 := rfl
    have h5 : h.authTag.length = 16 := rfl
    have h6 : h.algSuiteData.length = 0 := rfl
    simp only [if_true, List.length_append, length_be, h1, h2, h3, h4, h5, h6, List.length_cons, List.length_nil]
  refine ⟨h, rfl, rfl, _, (hdrBytes 1 h).length, hdrWrite_ok.mpr ⟨_, hp, hctx, by rw [hv], ?_, rfl⟩, ?_, ?_⟩
  · rw [hlen, List.length_replicate]; omega
  · have := hdrSize_eq (h := h) hp hctx (fun _ => rfl) rfl (by rw [hv, hlen]; omega)
    rw [this, hv]
  · intro old mx rest h' left hpar hsame
    unfold hdrParseInto at hpar
    split at hpar
    · rename_i h'' r'' hpp
      simp only [Prod.mk.injEq, Except.ok.injEq] at hpar
      obtain ⟨rfl, rfl⟩ := hpar
      obtain ⟨r, hok, -⟩ := hdrParse_iff.mp hpp
      have h1 := hsame.edks
      have h2 := hok.edksFit e (by rw [← h1]; exact List.mem_cons_self)
      have h3 : e.ciphertext.length = 65536 := List.length_replicate
      omega
    · simp at hpar

/-- Non-vacuity of C01 for both format versions. -/
example : (∃ out, hdrWrite exHdr1 (List.replicate 200 7) = (out, 92, .ok ())) ∧
    (∃ out, hdrWrite exHdr2 (List.replicate 200 7) = (out, 102, .ok ())) := by
  constructor
  · exact ⟨_, hdrWrite_ok.mpr ⟨_, rfl, by decide, by decide, by rw [List.length_replicate]; decide, rfl⟩⟩
  · exact ⟨_, hdrWrite_ok.mpr ⟨_, rfl, by decide, by decide, by rw [List.length_replicate]; decide, rfl⟩⟩

/-! ### C02 -/

/-- C02.  When a byte string starts with a header the parser accepts, the accepted part `c` is accepted with the
same result whatever follows it, and each of its proper prefixes is reported as short (leaving a cleared
header), never accepted and never called malformed. -/
theorem C02_header_streaming (old h : Hdr) (mx : Nat) (bs rest : Bytes)
    (hp : hdrParseInto old mx bs = (h, .ok rest)) :
    ∃ c, bs = c ++ rest ∧
      (∀ old' t, hdrParseInto old' mx (c ++ t) = (h, .ok t)) ∧
      (∀ old' q t, c = q ++ t → t ≠ [] → hdrParseInto old' mx q = ({}, .error .shortBuffer)) := by
  unfold hdrParseInto at hp
  split at hp
  · rename_i h' r' hpp
    simp only [Prod.mk.injEq, Except.ok.injEq] at hp
    obtain ⟨rfl, rfl⟩ := hp
    obtain ⟨c, rfl, h1, h2⟩ := (Streaming.hdrParse mx).ok _ _ _ hpp
    refine ⟨c, rfl, ?_, ?_⟩
    · intro old' t; unfold hdrParseInto; rw [h1]
    · intro old' q t hq ht; unfold hdrParseInto; rw [h2 q t hq ht]; rfl
  · simp at hp

/-- C02, the converse for malformed data: once a prefix has been rejected as malformed (any error other than
"short"), no continuation is ever accepted. -/
theorem C02_rejection_is_final (old old' : Hdr) (mx : Nat) (bs t : Bytes) (e : Err) (h1 : Hdr)
    (hp : hdrParseInto old mx bs = (h1, .error e)) (he : e ≠ .shortBuffer) :
    hdrParseInto old' mx (bs ++ t) = ({}, .error e) := by
  unfold hdrParseInto at hp
  split at hp
  · simp at hp
  · rename_i e' hpp
    simp only [Prod.mk.injEq, Except.error.injEq] at hp
    obtain ⟨-, rfl⟩ := hp
    unfold hdrParseInto
    rw [(Streaming.hdrParse mx).bad _ _ hpp he t]; rfl

/-- Non-vacuity: an accepted header with a following byte, and a rejected one. -/
example : (∃ h, hdrParseInto {} 0 (wireHeader 1 exHdr1 ++ [42]) = (h, .ok [42])) ∧
    (∃ h, hdrParseInto {} 0 [1, 0x81, 0] = (h, .error .badCiphertext)) := by
  constructor
  · refine ⟨exHdr1, ?_⟩
    unfold hdrParseInto
    rw [hdrParse_iff.mpr ⟨_, exHdr1_ok, Or.inl rfl, by decide, rfl⟩]
  · exact ⟨_, rfl⟩

/-! ### C03 -/

/-- C03.  For every well-formed header of less than 2^31 bytes (the size is returned as an `int`) and every
buffer: the reported size is the exact length of the published encoding; writing succeeds exactly when the
buffer has that many bytes, writes exactly that many, and leaves the rest of the buffer alone; otherwise the
whole buffer is zero, the reported length is zero and the error is "short buffer". -/
theorem C03_header_size_exact (r : SuiteRow) (h : Hdr) (outbuf : Bytes) (hok : HeaderOK r h)
    (hsmall : (wireHeader r.version h).length < 2 ^ 31) :
    hdrSize h = ((wireHeader r.version h).length : Int) ∧
    (hdrSize h ≤ (outbuf.length : Int) → ∃ out, hdrWrite h outbuf = (out, (wireHeader r.version h).length, .ok ()) ∧
        out.length = outbuf.length ∧
        out.drop (wireHeader r.version h).length = outbuf.drop (wireHeader r.version h).length) ∧
    ((outbuf.length : Int) < hdrSize h → hdrWrite h outbuf = (List.replicate outbuf.length 0, 0, .error .shortBuffer)) := by
  obtain ⟨p, hp⟩ := algProps_of_row hok.suite
  have hv := (row_props hok.suite hp).1
  rw [← hok.id] at hp
  have hctx : ctxLen h.encCtx ≤ 65535 := by have := hok.ctxFits; rwa [wireLen_eq] at this
  have hl : (wireHeader r.version h).length = (hdrBytes r.version h).length := by
    rw [hdrBytes_eq_wire hok]
    unfold wireHeader wireAuthPart
    have : (wireCtx h.sorted.encCtx).length = (wireCtx h.encCtx).length := by
      show (wireCtx (sortByKey h.encCtx)).length = _
      have hnil : sortByKey h.encCtx = [] ↔ h.encCtx = [] := by
        rw [← List.length_eq_zero_iff, length_sortByKey, List.length_eq_zero_iff]
      rw [wireCtx_eq, wireCtx_eq]
      by_cases hn : h.encCtx = []
      · rw [if_pos hn, if_pos (hnil.mpr hn)]
      · simp only [hn, mt hnil.mp hn, if_false, List.length_append, length_be]
        rw [length_entriesBytes, length_entriesBytes, entriesLen_perm (sortByKey_perm h.encCtx)]
    simp only [List.length_append, this, u16_eq_be, length_be]
    rfl
  have hsz : hdrSize h = ((wireHeader r.version h).length : Int) := by
    rw [hl]
    have := hdrSize_eq (h := h) hp hctx (by rw [hv]; intro h1; rw [hok.iv, if_pos h1]) hok.tag (by rw [hv, ← hl]; exact hsmall)
    rw [this, hv]
  refine ⟨hsz, ?_, ?_⟩
  · intro hle
    rw [hsz] at hle
    have hle' : (hdrBytes r.version h).length ≤ outbuf.length := by omega
    refine ⟨_, hdrWrite_ok.mpr ⟨p, hp, hctx, by rw [hl, hv], by omega, rfl⟩, ?_, ?_⟩
    · rw [hv, hl]; simp; omega
    · rw [hv, hl, List.drop_left]
  · intro hlt
    rw [hsz] at hlt
    cases hw : hdrWrite h outbuf with
    | mk out x =>
      obtain ⟨n, res⟩ := x
      cases res with
      | ok u =>
        obtain ⟨p', hp', -, hn, hle, -⟩ := hdrWrite_ok.mp hw
        rw [hp] at hp'; cases hp'
        rw [hv, ← hl] at hn
        omega
      | error e =>
        obtain ⟨rfl, rfl, he⟩ := hdrWrite_err hw
        rcases he with rfl | rfl
        · unfold hdrWrite at hw
          rw [hp] at hw
          simp only at hw
          split at hw <;> simp at hw
        · rfl

/-- C03, all-or-nothing for arbitrary headers (well formed or not): a failed write leaves only zeros and
reports zero bytes. -/
theorem C03_failed_write_leaves_zeros (h : Hdr) (outbuf out : Bytes) (n : Nat) (e : Err)
    (hw : hdrWrite h outbuf = (out, n, .error e)) : n = 0 ∧ out = List.replicate outbuf.length 0 :=
  ⟨(hdrWrite_err hw).2.1, (hdrWrite_err hw).1⟩

theorem sum_replicate_nat (n a : Nat) : (List.replicate n a).sum = n * a := by
  induction n with
  | zero => simp
  | succ n ih => rw [List.replicate_succ, List.sum_cons, ih, Nat.succ_mul]; omega

/-- The 2^31 bound of C03 is needed: `hdr_size` returns an `int`, and a header whose fields all fit their
on-wire widths can be so long that the result is negative. -/
theorem C03_header_size_wraps :
    ∃ r h, HeaderOK r h ∧ hdrSize h < 0 := by
  let e : Edk := ⟨[], [], List.replicate 65535 0⟩
  let h : Hdr := { exHdr1 with edks := List.replicate 40000 e, encCtx := [] }
  refine ⟨⟨0x0178, 1, 256, 256, 0, 0⟩, h, ?_, ?_⟩
  · have hl : h.edks.length = 40000 := List.length_replicate
    refine ⟨by decide, rfl, rfl, rfl, rfl, rfl, (by decide : (4096 : Nat) < 2 ^ 32), ?_, by omega, ?_, ?_, ?_⟩
    · intro hn; rw [hn] at hl; cases hl
    · intro x hx
      have : x = e := List.eq_of_mem_replicate hx
      subst this
      refine ⟨by decide, by decide, ?_⟩
      have : e.ciphertext.length = 65535 := List.length_replicate
      omega
    · show DistinctKeys ([] : EncCtx); unfold DistinctKeys; simp
    · show wireLen ([] : EncCtx) ≤ 65535; decide
  · have hel : edkLen e = 65541 := by
      simp only [edkLen, e, List.length_nil, List.length_replicate]
    have hsum : (h.edks.map edkLen).sum = 2621640000 := by
      show ((List.replicate 40000 e).map edkLen).sum = _
      rw [List.map_replicate, sum_replicate_nat, hel]
    have gen : ∀ es : List Edk, hdrSize { exHdr1 with edks := es, encCtx := [] } =
        if es.foldl hdrSizeEdk 62 = 2 ^ 64 - 1 then 0 else toInt32 (es.foldl hdrSizeEdk 62) := fun es => rfl
    rw [gen]
    change (if h.edks.foldl hdrSizeEdk 62 = 2 ^ 64 - 1 then 0 else toInt32 (h.edks.foldl hdrSizeEdk 62)) < 0
    rw [hdrSizeEdks_exact _ _ (by rw [hsum]; decide), hsum]
    decide

/-- Non-vacuity of C03: the example headers, sizes 92 and 102. -/
example : hdrSize exHdr1 = 92 ∧ (wireHeader 1 exHdr1).length < 2 ^ 31 ∧ hdrSize exHdr2 = 102 := by decide

/-! ### C04 -/

/-- C04.  For every byte string: the parser accepts it exactly when it is the published encoding of a
well-formed header (known suite matching the format version, reserved field zero, IV length 12, content type
and frame length consistent, at least one EDK, distinct context keys) followed by the bytes it leaves over. -/
theorem C04_parse_exact (old h : Hdr) (mx : Nat) (bs rest : Bytes) :
    hdrParseInto old mx bs = (h, .ok rest) ↔
      ∃ r, HeaderOK r h ∧ (mx = 0 ∨ h.edks.length ≤ mx) ∧ h.authLen = (wireAuthPart r.version h).length ∧
        bs = wireHeader r.version h ++ rest := by
  rw [← hdrParse_iff]
  unfold hdrParseInto
  constructor
  · intro hp
    split at hp
    · rename_i h' r' hpp
      simp only [Prod.mk.injEq, Except.ok.injEq] at hp
      obtain ⟨rfl, rfl⟩ := hp
      exact hpp
    · simp at hp
  · intro hp; rw [hp]

/-- C04: parsing that fails leaves an empty header, whatever was in it before. -/
theorem C04_failure_leaves_nothing (old h : Hdr) (mx : Nat) (bs : Bytes) (e : Err) (hp : hdrParseInto old mx bs = (h, .error e)) :
    h.algId = 0 ∧ h.frameLen = 0 ∧ h.iv = [] ∧ h.authTag = [] ∧ h.messageId = [] ∧ h.encCtx = [] ∧ h.edks = [] ∧ h.authLen = 0 ∧
      h.algSuiteData = [] := by
  unfold hdrParseInto at hp
  split at hp
  · cases hp
  · cases hp
    exact ⟨rfl, rfl, rfl, rfl, rfl, rfl, rfl, rfl, rfl⟩

example : ∃ h e, hdrParseInto { algId := 5, encCtx := [([1], [2])], iv := [3] } 0 [1, 2] = (h, .error e) := ⟨_, _, rfl⟩

/-- C04.  The accepted bytes are determined by the parsed header up to the order of the context entries: two
accepted strings that parse to the same header are `a ++ ctx1 ++ b ++ rest1` and `a ++ ctx2 ++ b ++ rest2`, where
`ctx1` and `ctx2` encode permutations of one list of pairs. -/
theorem C04_no_other_encoding (old1 old2 h1 h2 : Hdr) (mx1 mx2 : Nat) (bs1 bs2 rest1 rest2 : Bytes)
    (hp1 : hdrParseInto old1 mx1 bs1 = (h1, .ok rest1)) (hp2 : hdrParseInto old2 mx2 bs2 = (h2, .ok rest2))
    (hs : SameHeader h1 h2) :
    ∃ a b m1 m2, List.Perm m1 m2 ∧ bs1 = a ++ wireCtx m1 ++ b ++ rest1 ∧ bs2 = a ++ wireCtx m2 ++ b ++ rest2 := by
  obtain ⟨r1, ok1, -, -, rfl⟩ := (C04_parse_exact _ _ _ _ _).mp hp1
  obtain ⟨r2, ok2, -, -, rfl⟩ := (C04_parse_exact _ _ _ _ _).mp hp2
  have hr : r1 = r2 := row_unique ok1.suite ok2.suite (by rw [← ok1.id, ← ok2.id, hs.algId])
  subst hr
  have hperm : List.Perm h1.encCtx h2.encCtx := perm_of_find ok1.ctxKeys ok2.ctxKeys hs.encCtx
  have hlen : (wireCtx h1.encCtx).length = (wireCtx h2.encCtx).length := by
    rw [wireCtx_eq, wireCtx_eq]
    have hnil : h1.encCtx = [] ↔ h2.encCtx = [] := by
      rw [← List.length_eq_zero_iff, hperm.length_eq, List.length_eq_zero_iff]
    by_cases hn : h2.encCtx = []
    · simp [hn, hnil.mpr hn]
    · simp only [hn, mt hnil.mp hn, if_false, List.length_append, length_be, length_entriesBytes, entriesLen_perm hperm]
  refine ⟨(if r1.version = 1 then [1, 0x80] else [2]) ++ u16 h1.algId ++ h1.messageId ++ u16 (wireCtx h1.encCtx).length,
    u16 h1.edks.length ++ (h1.edks.map wireEdk).flatten ++ wireContentType h1.frameLen ++
      (if r1.version = 1 then [0, 0, 0, 0] ++ [12] else []) ++ u32 h1.frameLen ++ h1.algSuiteData ++
      (if r1.version = 1 then h1.iv else []) ++ h1.authTag, h1.encCtx, h2.encCtx, hperm, ?_, ?_⟩
  · simp only [wireHeader, wireAuthPart, List.append_assoc]
  · simp only [wireHeader, wireAuthPart, List.append_assoc, hlen, hs.algId, hs.messageId, hs.edks, hs.frameLen,
      hs.algSuiteData, hs.iv, hs.authTag]

/-- C04, spelled out on the raw bytes for what an attacker might vary: an accepted string begins with a version
byte 1 or 2, and its suite identifier is a supported suite of that version. -/
theorem C04_version_and_suite (old h : Hdr) (mx : Nat) (bs rest : Bytes) (hp : hdrParseInto old mx bs = (h, .ok rest)) :
    ∃ r ∈ suiteTable, bs.head? = some (UInt8.ofNat r.version) ∧ h.algId = r.id ∧ h.edks ≠ [] ∧
      (h.frameLen = 0 ↔ ∃ pre post, h.authLen = (pre ++ [1] ++ post).length ∧ post.length = (if r.version = 1 then 9 else 4 + r.commitment) ∧
        bs = pre ++ [1] ++ post ++ bs.drop h.authLen) := by
  obtain ⟨r, ok, -, hal, rfl⟩ := (C04_parse_exact _ _ _ _ _).mp hp
  have key : ∀ r ∈ suiteTable, (r.version = 1 ∨ r.version = 2) ∧ (r.version = 1 → r.commitment = 0) := by decide
  have hv := key r ok.suite
  refine ⟨r, ok.suite, ?_, ok.id, ok.edksNonempty, ?_⟩
  · unfold wireHeader wireAuthPart
    rcases hv.1 with h1 | h1
    · simp [h1]
    · simp [h1]
  · have hsplit : wireAuthPart r.version h =
        ((if r.version = 1 then [1, 0x80] else [2]) ++ u16 h.algId ++ h.messageId ++
        u16 (wireCtx h.encCtx).length ++ wireCtx h.encCtx ++ u16 h.edks.length ++ (h.edks.map wireEdk).flatten) ++
        wireContentType h.frameLen ++
        ((if r.version = 1 then [0, 0, 0, 0] ++ [12] else []) ++ u32 h.frameLen ++ h.algSuiteData) := by
      simp only [wireAuthPart, List.append_assoc]
    have hpostlen : ((if r.version = 1 then [0, 0, 0, 0] ++ [12] else []) ++ u32 h.frameLen ++ h.algSuiteData : Bytes).length =
        (if r.version = 1 then 9 else 4 + r.commitment) := by
      have h0 := hv.2
      rcases hv.1 with h1 | h1
      · simp [h1, ok.suiteData, h0 h1, u32]
      · simp [h1, ok.suiteData, u32]; omega
    have hdrop : (wireHeader r.version h ++ rest).drop h.authLen = (if r.version = 1 then h.iv else []) ++ h.authTag ++ rest := by
      rw [hal]; unfold wireHeader
      rw [List.append_assoc, List.append_assoc, List.drop_left, List.append_assoc]
    rw [hdrop, hal]
    constructor
    · intro h0
      refine ⟨(if r.version = 1 then [1, 0x80] else [2]) ++ u16 h.algId ++ h.messageId ++
        u16 (wireCtx h.encCtx).length ++ wireCtx h.encCtx ++ u16 h.edks.length ++ (h.edks.map wireEdk).flatten,
        (if r.version = 1 then [0, 0, 0, 0] ++ [12] else []) ++ u32 h.frameLen ++ h.algSuiteData, ?_, hpostlen, ?_⟩
      · rw [hsplit]; simp only [wireContentType, h0, if_true]
      · unfold wireHeader
        rw [hsplit]; simp only [wireContentType, h0, if_true, List.append_assoc]
    · rintro ⟨pre, post, e1, e2, e3⟩
      unfold wireHeader at e3
      rw [List.append_assoc, List.append_assoc] at e3
      have e4 : wireAuthPart r.version h = pre ++ [1] ++ post :=
        (List.append_inj (by rw [← List.append_assoc, ← List.append_assoc]; simpa [List.append_assoc] using e3) e1).1
      rw [hsplit] at e4
      have e5 := (List.append_inj' e4 (by rw [hpostlen, e2])).1
      have e6 := (List.append_inj' e5 (by unfold wireContentType; split <;> rfl)).2
      unfold wireContentType at e6
      by_cases h0 : h.frameLen = 0
      · exact h0
      · rw [if_neg h0] at e6; cases e6

/-- Non-vacuity of C04: see the accepted header below C02; and a header with an unknown suite is rejected. -/
example : (hdrParseInto {} 0 (wireHeader 1 { exHdr1 with algId := 0x0179 })).2 = .error .badCiphertext := by decide

/-! ### C05, the parser -/

/-- C05, parser half: with a limit configured no accepted header has more EDKs, a header that exceeds the
limit is rejected as "limit exceeded", and without a limit (0) the count is not restricted. -/
theorem C05_parse_enforces_limit (old h : Hdr) (mx : Nat) (bs rest : Bytes)
    (hp : hdrParseInto old 0 bs = (h, .ok rest)) (hmx : mx ≠ 0) :
    (h.edks.length ≤ mx → hdrParseInto old mx bs = (h, .ok rest)) ∧
    (mx < h.edks.length → ∃ e, hdrParseInto old mx bs = ({}, .error e)) := by
  obtain ⟨r, ok, -, hal, hbs⟩ := (C04_parse_exact _ _ _ _ _).mp hp
  constructor
  · intro hle
    exact (C04_parse_exact _ _ _ _ _).mpr ⟨r, ok, Or.inr hle, hal, hbs⟩
  · intro hlt
    cases hq : hdrParse mx bs with
    | error e => exact ⟨e, by unfold hdrParseInto; rw [hq]; rfl⟩
    | ok x =>
      exfalso
      obtain ⟨h', rest'⟩ := x
      obtain ⟨r', ok', hm', hal', hbs'⟩ := hdrParse_iff.mp hq
      have h2 : hdrParse 0 bs = .ok (h', rest') := hdrParse_iff.mpr ⟨r', ok', Or.inl rfl, hal', hbs'⟩
      have h1 : hdrParse 0 bs = .ok (h, rest) := hdrParse_iff.mpr ⟨r, ok, Or.inl rfl, hal, hbs⟩
      rw [h1] at h2
      simp only [Except.ok.injEq, Prod.mk.injEq] at h2
      obtain ⟨rfl, rfl⟩ := h2
      rcases hm' with h0 | h0
      · exact hmx h0
      · omega

/-- Non-vacuity of C05: two EDKs, limit 1 and limit 2. -/
example : (hdrParseInto {} 1 (wireHeader 1 exHdr1)).2 = .error .limitExceeded ∧
    (hdrParseInto {} 2 (wireHeader 1 exHdr1)).2 = .ok [] := by decide

end Verif
