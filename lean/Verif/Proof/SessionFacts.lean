import Verif.Proof.SessionHist
import Verif.Props.Crypto
/-
Consequences of the invariant of histories, in the terms of `Spec.Session`.
-/
namespace Verif
open Spec

/-! ### suites -/

/-- The model's suite properties and the published table. -/
structure RowFacts (row : SuiteRow) (p : AlgProps) : Prop where
  version : p.msgFormatVersion = row.version
  sig : p.signatureLen = 0 ↔ row.curveBits = 0
  commit : p.commitmentLen = row.commitment
  key : p.contentKeyLen = row.keyBits / 8
  dataKey : p.dataKeyLen = row.keyBits / 8
  sha : 8 * hashLen (whichSha row.id) = row.kdfBits
  nosha : whichSha row.id = .nosha ↔ row.kdfBits = 0
  committing : algorithmIsCommitting row.id = true ↔ row.commitment ≠ 0
  versions : row.version = 1 ∨ row.version = 2
  commit2 : row.commitment = 0 ↔ row.version = 1

theorem rowFacts {row : SuiteRow} (hr : row ∈ suiteTable) {p : AlgProps} (hp : algProps row.id = some p) : RowFacts row p := by
  have key : ∀ r ∈ suiteTable, ∀ p, algProps r.id = some p → RowFacts r p := by
    intro r hr p hp
    simp only [suiteTable, List.mem_cons, List.not_mem_nil, or_false] at hr
    rcases hr with rfl | rfl | rfl | rfl | rfl | rfl | rfl | rfl | rfl | rfl | rfl <;>
      (simp only [algProps, Option.some.injEq] at hp; subst hp; constructor <;> decide)
  exact key row hr p hp

theorem derivedKey {hk : HkdfFn} {row : SuiteRow} (hr : row ∈ suiteTable) {p : AlgProps} (hp : algProps row.id = some p)
    {dk mid k c : Bytes} {cl : Nat} (hd : dk.length = p.dataKeyLen) (h : deriveKey hk p dk mid cl = .ok k c) :
    DerivedKey hk row dk mid k c := by
  have hf := rowFacts hr hp
  obtain ⟨h1, h2, -⟩ := C34_derivation hk row.id p dk mid k c cl hp hd h
  rw [hf.version] at h1 h2
  constructor
  · split
    · rename_i h0
      rcases h1 with ⟨-, h1⟩ | ⟨h1, -⟩
      · exact h1
      · exact absurd (hf.nosha.mpr h0) h1
    · rename_i h0
      rcases h1 with ⟨h1, -⟩ | ⟨-, h1⟩
      · exact absurd (hf.nosha.mp h1) h0
      · exact ⟨whichSha row.id, hf.sha, by rw [← hf.key]; exact h1⟩
  · split
    · rename_i h0
      rw [if_neg (by have := hf.commit2.mp h0; omega)] at h2
      exact h2
    · rename_i h0
      have : row.version = 2 := by
        rcases hf.versions with h | h
        · exact absurd (hf.commit2.mpr h) h0
        · exact h
      rw [if_pos this] at h2
      exact ⟨whichSha row.id, hf.sha, by rw [← hf.commit]; exact h2⟩

theorem row_unique' {r1 r2 : SuiteRow} (h1 : r1 ∈ suiteTable) (h2 : r2 ∈ suiteTable) (h : r1.id = r2.id) : r1 = r2 := by
  have key : ∀ r1 ∈ suiteTable, ∀ r2 ∈ suiteTable, r1.id = r2.id → r1 = r2 := by decide
  exact key r1 h1 r2 h2 h

/-! ### decryption -/

theorem headerVerified_of {env : Env} {s s' : Session} {inp rest hb : Bytes} {h : Hdr} {row : SuiteRow} {p : AlgProps}
    {m : DecMaterials} {k : Bytes} {sg : Option SigCtx} (hk : UnwrapOK env s s' inp rest hb h row p m k sg) :
    HeaderVerified env row h m k := by
  have hp := hk.props
  rw [hk.ok.id] at hp
  exact ⟨hk.ok, hk.cmm, derivedKey hk.ok.suite hp hk.dataKey hk.derive, hk.auth⟩

theorem signatureVerified_of {E : Env → Prop} {row : SuiteRow} {p : AlgProps} {m : DecMaterials} {signed tr : Bytes}
    (hr : row ∈ suiteTable) (hp : algProps row.id = some p) (h : DecTrailer E m p signed tr) : SignatureVerified E row m signed tr := by
  have hf := rowFacts hr hp
  unfold SignatureVerified
  rcases h with ⟨h1, h2⟩ | ⟨h1, e, ctx, sig, h2, h3, h4, h5⟩
  · rw [if_pos (hf.sig.mp h1)]; exact h2
  · rw [if_neg (fun h => h1 (hf.sig.mpr h))]
    unfold absorbed at h3
    cases hm : m.signctx with
    | none => rw [hm] at h3; cases h3
    | some c =>
      rw [hm] at h3
      simp only [Option.map_some, Option.some.injEq] at h3
      subst h3
      exact ⟨e, c, sig, h2, rfl, h4, h5⟩

/-- The accepted header of a decryption with everything known about the session that accepted it. -/
structure DecFacts (E : Env → Prop) (pol : Policy) (s : Session) (row : SuiteRow) (h : Hdr) (m : DecMaterials) (k : Bytes) : Prop where
  header : ∃ e, E e ∧ HeaderVerified e row h m k
  limit : s.maxEdks = 0 ∨ h.edks.length ≤ s.maxEdks
  policy : ∃ pol', MayDecrypt pol' row ∧ (s.state ≠ .error → pol' = pol)
  unsigned : s.mode = .decryptUnsigned → ∃ mp, algProps m.alg = some mp ∧ mp.signatureLen = 0
  shown : s.state ≠ .error → s.header = h ∧ s.cmmSuccess = true ∧ ∃ p, s.algProps = some p ∧ algProps row.id = some p

theorem mayDecrypt_of {row : SuiteRow} {p : AlgProps} {pol : Policy} (hr : row ∈ suiteTable) (hp : algProps row.id = some p)
    (h : allowedForDecrypt row.id pol = true) : MayDecrypt pol row := by
  have hf := rowFacts hr hp
  cases pol <;> simp_all [allowedForDecrypt, MayDecrypt] <;> exact hf.committing.mp h

theorem mayEncrypt_of {row : SuiteRow} {p : AlgProps} {pol : Policy} (hr : row ∈ suiteTable) (hp : algProps row.id = some p)
    (h : allowedForEncrypt row.id pol = true) : MayEncrypt pol row := by
  have hf := rowFacts hr hp
  cases pol <;> simp only [allowedForEncrypt, MayEncrypt] at h ⊢
  · exact hf.committing.mp h
  · exact hf.committing.mp h
  · have : algorithmIsCommitting row.id = false := by simpa using h
    apply Decidable.byContradiction
    intro hc
    rw [hf.committing.mpr hc] at this; cases this
  · cases h

theorem decLog_facts {E : Env → Prop} {pol : Policy} {v : View} {hb : Bytes} {h : Hdr} {row : SuiteRow} {p : AlgProps} {m : DecMaterials}
    {k : Bytes} {fr : List (Frame × Bytes)} (hl : DecLog E pol v hb h row p m k fr) :
    hb = wireHeader row.version h ∧ algProps row.id = some p ∧ row ∈ suiteTable ∧
    (∃ e, E e ∧ HeaderVerified e row h m k) ∧ (v.s.maxEdks = 0 ∨ h.edks.length ≤ v.s.maxEdks) ∧ MayDecrypt pol row ∧
    (v.s.mode = .decryptUnsigned → ∃ mp, algProps m.alg = some mp ∧ mp.signatureLen = 0) := by
  obtain ⟨env, s, s', inp, rest, sg, he, hk, h1, h2, h3⟩ := hl.hdr
  have hp := hk.props
  rw [hk.ok.id] at hp
  refine ⟨hk.bytes, hp, hk.ok.suite, ⟨env, he, headerVerified_of hk⟩, by rw [← h1]; exact hk.limit, ?_, ?_⟩
  · rw [← h3]
    have := hk.allowed
    rw [hk.ok.id] at this
    exact mayDecrypt_of hk.ok.suite hp this
  · rw [← h2]
    intro hm
    obtain ⟨mp, h4, h5⟩ := hk.malg
    exact ⟨mp, h4, h5 hm⟩

/-- What a decrypting session has done, whatever its state. -/
theorem decrypted_of_live {E : Env → Prop} {pol : Policy} {v : View} (hI : Inv v.s) (hl : LiveLog E pol v)
    (hm : v.s.mode.isDecrypt = true) :
    (v.consumed = [] ∧ v.released = [] ∧ (v.s.state = .config ∨ v.s.state = .readHeader)) ∨
    ∃ row h m k fr tr p hb, DecLog E pol v hb h row p m k fr ∧ Decrypted E row h m k fr tr v.consumed v.released ∧
      (Ongoing fr ∨ Complete fr) ∧
      (v.s.state = .done → Complete fr ∧ SignatureVerified E row m (wireHeader row.version h ++ bodyBytes fr) tr) := by
  have hst := hI.st
  have key : ∀ {hb : Bytes} {h : Hdr} {row : SuiteRow} {p : AlgProps} {m : DecMaterials} {k : Bytes} {fr : List (Frame × Bytes)} {tr : Bytes},
      DecLog E pol v hb h row p m k fr → v.consumed = hb ++ bodyBytes fr ++ tr → Decrypted E row h m k fr tr v.consumed v.released := by
    intro hb h row p m k fr tr hd hc
    obtain ⟨h1, h2, h3, h4, -⟩ := decLog_facts hd
    exact ⟨h4, hd.frames, by rw [← h1]; exact hc, hd.released⟩
  unfold LiveLog at hl
  unfold StInv at hst
  have hne : ¬ v.s.mode = .encrypt := fun he => by rw [he] at hm; cases hm
  cases hs : v.s.state <;> simp only [hs] at hl hst
  · exact Or.inl ⟨hl.1, hl.2.1, Or.inl rfl⟩
  · rcases hl with ⟨h, m, p, k, hb, fr, tr, h1, -⟩ | ⟨hb, h, row, p, m, k, fr, tr, h1, h2, h3, h4⟩
    · exact absurd h1.mode hne
    · obtain ⟨a1, a2, a3, -⟩ := decLog_facts h1
      exact Or.inr ⟨row, h, m, k, fr, tr, p, hb, h1, key h1 h3, Or.inr h2, fun _ => ⟨h2, by rw [← a1]; exact signatureVerified_of a3 a2 h4⟩⟩
  · exact Or.inl ⟨hl.1, hl.2.1, Or.inr rfl⟩
  · obtain ⟨hb, h, row, p, m, k, fr, h1, h2, h3, h4⟩ := hl
    exact Or.inr ⟨row, h, m, k, fr, [], p, hb, h1, key h1 (by simpa using h3), Or.inl h2, fun h => by cases h⟩
  · obtain ⟨hb, h, row, p, m, k, fr, h1, h2, h3⟩ := hl
    rcases h3 with ⟨h3, -⟩ | ⟨tr, h3, -⟩
    · exact Or.inr ⟨row, h, m, k, fr, [], p, hb, h1, key h1 (by simpa using h3), Or.inr h2, fun h => by cases h⟩
    · exact Or.inr ⟨row, h, m, k, fr, tr, p, hb, h1, key h1 h3, Or.inr h2, fun h => by cases h⟩
  · exact absurd hst.1 hne
  · exact absurd hst.1 hne
  · exact absurd hst.1 hne
  · exact absurd hst.1 hne

/-- What a reachable decrypting session has done. -/
theorem decrypted_of {E : Env → Prop} {pol : Policy} {v : View} (h : HInv E pol v) (hm : v.s.mode.isDecrypt = true) :
    (v.consumed = [] ∧ v.released = [] ∧ (v.s.state = .config ∨ v.s.state = .readHeader ∨ v.s.state = .error)) ∨
    ∃ row hd m k fr tr, Decrypted E row hd m k fr tr v.consumed v.released ∧ DecFacts E pol v.s row hd m k ∧
      (Ongoing fr ∨ Complete fr) ∧
      (v.s.state = .done → Complete fr ∧ SignatureVerified E row m (wireHeader row.version hd ++ bodyBytes fr) tr) := by
  rcases h.log with hl | ⟨he, ⟨h1, h2⟩ | ⟨s0, pol0, hl, hI, h1, h2, h3, h4⟩⟩
  · rcases decrypted_of_live h.inv hl hm with ⟨h1, h2, h3⟩ | ⟨row, hd, m, k, fr, tr, p, hb, hlog, h1, h2, h3⟩
    · refine Or.inl ⟨h1, h2, ?_⟩
      rcases h3 with h | h
      · exact Or.inl h
      · exact Or.inr (Or.inl h)
    · obtain ⟨a1, a2, a3, a4, a5, a6, a7⟩ := decLog_facts hlog
      refine Or.inr ⟨row, hd, m, k, fr, tr, h1, ⟨a4, a5, ⟨pol, a6, fun _ => rfl⟩, a7, fun hne => ⟨hlog.header, ?_, p, hlog.props, a2⟩⟩, h2, h3⟩
      have hst := h.inv.st
      unfold StInv at hst
      unfold LiveLog at hl
      have hseq := hlog.seqno
      cases hs : v.s.state <;> simp only [hs] at hst hl <;> first
        | exact hst.2.1
        | exact hst.2
        | (have := hst.2.seqno; omega)
  · exact Or.inl ⟨h1, h2, Or.inr (Or.inr he)⟩
  · rcases decrypted_of_live hI hl (by simp only; rw [h1]; exact hm) with ⟨b1, b2, b3⟩ | ⟨row, hd, m, k, fr, tr, p, hb, hlog, b1, b2, b3⟩
    · exact Or.inl ⟨b1, b2, Or.inr (Or.inr he)⟩
    · obtain ⟨a1, a2, a3, a4, a5, a6, a7⟩ := decLog_facts hlog
      simp only at a5 a7
      refine Or.inr ⟨row, hd, m, k, fr, tr, b1, ⟨a4, by rw [← h2]; exact a5, ⟨pol0, a6, fun h => absurd he h⟩, by rw [← h1]; exact a7,
        fun hne => absurd he hne⟩, b2, fun hd => by rw [he] at hd; cases hd⟩

/-! ### encryption -/

/-- What an encrypting session has done, whatever its state: nothing yet, or sealed frames after a header. -/
theorem encrypted_of_live {E : Env → Prop} {pol : Policy} {v : View} (hI : Inv v.s) (hl : LiveLog E pol v)
    (hm : v.s.mode = .encrypt) :
    (v.consumed = [] ∧ v.released = [] ∧ (v.s.state = .config ∨ v.s.state = .genKey)) ∨
    ∃ h m p k hb fr, EncLog E pol v h m p k hb fr ∧
      ((v.s.state = .writeHeader ∧ fr = [] ∧ v.released = []) ∨
       (v.s.state = .encryptBody ∧ Ongoing fr ∧ v.released = hb ++ bodyBytes fr) ∨
       (v.s.state = .writeTrailer ∧ Complete fr ∧ v.released = hb ++ bodyBytes fr ∧ v.s.preciseKnown = true ∧
         v.consumed.length = v.s.preciseSize) ∨
       (v.s.state = .done ∧ ∃ tr, Complete fr ∧ v.released = hb ++ bodyBytes fr ++ tr ∧ EncTrailer E m p (hb ++ bodyBytes fr) tr ∧
         v.s.preciseKnown = true ∧ v.consumed.length = v.s.preciseSize)) := by
  have hst := hI.st
  unfold LiveLog at hl
  unfold StInv at hst
  have hne : ¬ v.s.mode.isDecrypt = true := fun he => by rw [hm] at he; cases he
  cases hs : v.s.state <;> simp only [hs] at hl hst
  · exact Or.inl ⟨hl.1, hl.2.1, Or.inl rfl⟩
  · rcases hl with ⟨h, m, p, k, hb, fr, tr, h1, h2, h3, h4, h5, h6⟩ | ⟨hb, h, row, p, m, k, fr, tr, h1, h2, h3, h4⟩
    · exact Or.inr ⟨h, m, p, k, hb, fr, h1, Or.inr (Or.inr (Or.inr ⟨rfl, tr, h2, h3, h4, h5, h6⟩))⟩
    · exact absurd h1.mode hne
  · exact absurd hst.1 hne
  · exact absurd hst.1 hne
  · exact absurd hst.1 hne
  · exact Or.inl ⟨hl.1, hl.2.1, Or.inr rfl⟩
  · obtain ⟨h, m, p, k, hb, h1, h2, h3, h4⟩ := hl
    exact Or.inr ⟨h, m, p, k, hb, [], h1, Or.inl ⟨rfl, rfl, h2⟩⟩
  · obtain ⟨h, m, p, k, hb, fr, h1, h2, h3, h4⟩ := hl
    exact Or.inr ⟨h, m, p, k, hb, fr, h1, Or.inr (Or.inl ⟨rfl, h2, h3⟩)⟩
  · obtain ⟨h, m, p, k, hb, fr, h1, h2, h3, h4, h5, h6⟩ := hl
    exact Or.inr ⟨h, m, p, k, hb, fr, h1, Or.inr (Or.inr (Or.inl ⟨rfl, h2, h3, h5, h6⟩))⟩

theorem hdrAuthBytes_eq_wire {h : Hdr} {ver : Nat} (hv : ver = 1 ∨ ver = 2) (hfl : h.frameLen < 2 ^ 32)
    (hiv : ver = 1 → h.iv.length = 12) : hdrAuthBytes ver h = wireAuthPart ver h.sorted := by
  have h1 := hdrBytes_eq_wire' hv hfl hiv
  rw [hdrBytes_auth] at h1
  unfold wireHeader at h1
  rw [List.append_assoc] at h1
  exact (List.append_inj' h1 rfl).1

theorem algProps_row {a : Nat} {p : AlgProps} (hp : algProps a = some p) : ∃ row ∈ suiteTable, row.id = a := by
  unfold algProps at hp
  split at hp <;> first
    | (cases hp; done)
    | (simp [suiteTable])

theorem headerMade_of {env : Env} {s s' : Session} {ctx : EncCtx} {m : EncMaterials} {p : AlgProps} {mid k c ct tag : Bytes}
    {sg : Option SigCtx} (hk : GenOK env s s' ctx m p mid k c ct tag sg) (hs : s.header = { encCtx := s.header.encCtx }) :
    ∃ row, p.msgFormatVersion = row.version ∧ algProps row.id = some p ∧ MayEncrypt s.policy row ∧
      HeaderMade env row (encHeader s ctx m p mid c tag).sorted m k ∧
      hdrBytes p.msgFormatVersion (encHeader s ctx m p mid c tag) = wireHeader row.version (encHeader s ctx m p mid c tag).sorted := by
  obtain ⟨row, hr, hid⟩ := algProps_row hk.props
  have hp := hk.props
  rw [← hid] at hp
  have hf := rowFacts hr hp
  have hsf := suiteFacts hp
  have hmay := mayEncrypt_of hr hp (by rw [hid]; exact hk.allowed)
  have hdk := derivedKey hr hp hk.dataKey hk.derive
  have hasd : (encHeader s ctx m p mid c tag).algSuiteData = c := by
    show (if s.policy.encryptMustIncludeCommitment then c else s.header.algSuiteData) = c
    split
    · rfl
    · rename_i hmust
      have h0 : row.commitment = 0 := by
        cases hpp : s.policy <;> rw [hpp] at hmust hmay <;> simp_all [Policy.encryptMustIncludeCommitment, MayEncrypt]
      have := hdk.2
      rw [if_pos h0] at this
      rw [this, hs]
  have hiv : p.msgFormatVersion = 1 → (encHeader s ctx m p mid c tag).iv.length = 12 := by
    intro h1; simp [encHeader, h1]
  have hv : p.msgFormatVersion = 1 ∨ p.msgFormatVersion = 2 := hsf.version
  refine ⟨row, hf.version, hp, hmay, ⟨hr, ⟨?_, hid.symm⟩, ⟨_, ctx, hk.gen, (sortByKey_perm ctx).symm⟩, rfl, ?_, ?_, ⟨ct, ?_⟩, ?_⟩, ?_⟩
  · show p.algId = row.id
    exact hsf.id
  · have := hk.random
    rw [hsf.midLen, hf.version] at this
    exact this
  · show DerivedKey env.crypto.hkdf row m.dataKey mid k (encHeader s ctx m p mid c tag).algSuiteData
    rw [hasd]; exact hdk
  · have := hk.sealed
    rw [hdrAuthBytes_eq_wire hv hk.frameSize hiv] at this
    rw [← hf.version]
    exact this
  · intro h1
    show (encHeader s ctx m p mid c tag).iv = _
    simp [encHeader, hf.version, h1]
  · rw [← hf.version]
    exact hdrBytes_eq_wire' hv hk.frameSize hiv

theorem hdrSize_sorted {h : Hdr} (hc : ctxLen h.encCtx ≤ 65535) : hdrSize h.sorted = hdrSize h := by
  have hnil : sortByKey h.encCtx = [] ↔ h.encCtx = [] := by
    rw [← List.length_eq_zero_iff, length_sortByKey, List.length_eq_zero_iff]
  have hl : ctxLen (sortByKey h.encCtx) = ctxLen h.encCtx := by
    simp only [ctxLen, hnil, entriesLen_perm (sortByKey_perm h.encCtx)]
  have e1 := encCtxSize_ok.mpr ⟨rfl, hc⟩
  have e2 := encCtxSize_ok.mpr ⟨rfl, (by rw [hl]; exact hc : ctxLen (sortByKey h.encCtx) ≤ 65535)⟩
  unfold hdrSize Hdr.sorted
  simp only [e1, e2, hl]

/-- Where the variable parts of a header being written come from. -/
structure EncMade (E : Env → Prop) (h : Hdr) (m : EncMaterials) : Prop where
  ctx : ∃ e req ctx, E e ∧ DistinctKeys req.encCtx ∧ e.cmm.generate req = (ctx, .ok m) ∧ h.encCtx = sortByKey ctx ∧ ctxLen ctx ≤ 65535
  edks : h.edks ≠ []
  frame : h.frameLen < 2 ^ 32
  size : ∀ row ∈ suiteTable, row.id = h.algId → intToSize (hdrSize h) = (wireHeader row.version h).length
  dataKey : ∀ p, algProps h.algId = some p → m.dataKey.length = p.dataKeyLen ∧ (p.signatureLen ≠ 0 ↔ m.signctx.isSome = true)

/-- What a reachable encrypting session knows about the message it is writing. -/
structure EncFacts (E : Env → Prop) (pol : Policy) (s : Session) (row : SuiteRow) (h : Hdr) (m : EncMaterials) : Prop where
  limit : s.maxEdks = 0 ∨ h.edks.length ≤ s.maxEdks
  policy : ∃ pol', MayEncrypt pol' row ∧ (s.state ≠ .error → pol' = pol)
  frameLen : h.frameLen = s.frameSize
  made : EncMade E h m
  shown : s.state ≠ .error → s.header.sorted = h

theorem encLog_facts {E : Env → Prop} {pol : Policy} {v : View} {h : Hdr} {m : EncMaterials} {p : AlgProps} {k hb : Bytes}
    {fr : List (Frame × Bytes)} (hl : EncLog E pol v h m p k hb fr) :
    ∃ row, algProps row.id = some p ∧ MayEncrypt pol row ∧ (∃ e, E e ∧ HeaderMade e row h.sorted m k) ∧ hb = wireHeader row.version h.sorted ∧
      h.frameLen = v.s.frameSize ∧ (v.s.maxEdks = 0 ∨ h.edks.length ≤ v.s.maxEdks) ∧ EncMade E h.sorted m := by
  obtain ⟨⟨env, s, s', ctx, mid, c, ct, tag, sg, he, hk, h1, h2, h3, h4, ht, h5⟩, hb⟩ := hl.hdr
  obtain ⟨row, a1, a2, a3, a4, a5⟩ := headerMade_of hk h4
  subst h5
  refine ⟨row, a2, by rw [← h1]; exact a3, ⟨env, he, a4⟩, by rw [hb]; exact a5, h3, ?_,
    ⟨⟨env, _, ctx, he, ht, hk.gen, rfl, hk.ctxLen⟩, hk.edks, hk.frameSize, fun row' hr' hid' => ?_, fun p' hp' => ?_⟩⟩
  · rw [← h2]
    exact hk.maxEdks
  · have : row' = row := row_unique' hr' a4.suite (hid'.trans a4.alg.1)
    subst this
    rw [hdrSize_sorted (by exact hk.ctxLen), ← a5]
    exact hk.size
  · have e1 := a4.alg.1
    rw [e1, a2] at hp'
    cases hp'
    exact ⟨hk.dataKey, hk.sig⟩

theorem signed_of {E : Env → Prop} {row : SuiteRow} {p : AlgProps} {m : EncMaterials} {signed tr : Bytes}
    (hr : row ∈ suiteTable) (hp : algProps row.id = some p) (h : EncTrailer E m p signed tr) : Signed E row m signed tr := by
  have hf := rowFacts hr hp
  unfold Signed
  rcases h with ⟨h1, h2⟩ | ⟨h1, e, ctx, sig, h2, h3, h4, h5⟩
  · rw [if_pos (hf.sig.mp h1)]; exact h2
  · rw [if_neg (fun h => h1 (hf.sig.mpr h))]
    unfold absorbed at h3
    cases hm : m.signctx with
    | none => rw [hm] at h3; cases h3
    | some c =>
      rw [hm] at h3
      simp only [Option.map_some, Option.some.injEq] at h3
      subst h3
      exact ⟨e, c, sig, h2, rfl, h4, h5⟩

/-- What an encrypting session that has not failed has done. -/
theorem encrypted_of_live' {E : Env → Prop} {pol : Policy} {v : View} (hI : Inv v.s) (hl : LiveLog E pol v)
    (hm : v.s.mode = .encrypt) :
    (v.consumed = [] ∧ v.released = []) ∨
    ∃ row hd m k fr tr, Encrypted E row hd m k fr tr v.consumed v.released ∧ MayEncrypt pol row ∧
      (v.s.maxEdks = 0 ∨ hd.edks.length ≤ v.s.maxEdks) ∧ (hd.frameLen = v.s.frameSize ∧ EncMade E hd m ∧ v.s.header.sorted = hd) ∧
      ((Ongoing fr ∧ tr = []) ∨ (Complete fr ∧ v.s.preciseKnown = true ∧ v.consumed.length = v.s.preciseSize ∧
        (tr = [] ∨ Signed E row m (wireHeader row.version hd ++ bodyBytes fr) tr))) ∧
      (v.s.state = .done → Complete fr ∧ Signed E row m (wireHeader row.version hd ++ bodyBytes fr) tr) := by
  rcases encrypted_of_live hI hl hm with ⟨h1, h2, -⟩ | ⟨h, m, p, k, hb, fr, hlog, hc⟩
  · exact Or.inl ⟨h1, h2⟩
  · obtain ⟨row, a1, a2, a3, a4, a5, a6, a7⟩ := encLog_facts hlog
    have hr : row ∈ suiteTable := by obtain ⟨e, -, he⟩ := a3; exact he.suite
    have hfr : AllFrames (SealedFrame E k h.sorted.messageId h.sorted.frameLen) fr := by
      have := hlog.frames
      rw [← a5] at this
      exact this
    rcases hc with ⟨b1, b2, b3⟩ | ⟨b1, b2, b3⟩ | ⟨b1, b2, b3, b4, b5⟩ | ⟨b1, tr, b2, b3, b4, b5, b6⟩
    · subst b2
      exact Or.inl ⟨by rw [hlog.consumed]; rfl, b3⟩
    · refine Or.inr ⟨row, h.sorted, m, k, fr, [], ⟨a3, hfr, hlog.consumed, by rw [← a4]; simpa using b3⟩, a2, a6, ⟨a5, a7, by rw [hlog.header]⟩, Or.inl ⟨b2, rfl⟩, fun hd => ?_⟩
      rw [b1] at hd; cases hd
    · refine Or.inr ⟨row, h.sorted, m, k, fr, [], ⟨a3, hfr, hlog.consumed, by rw [← a4]; simpa using b3⟩, a2, a6, ⟨a5, a7, by rw [hlog.header]⟩,
        Or.inr ⟨b2, b4, b5, Or.inl rfl⟩, fun hd => ?_⟩
      rw [b1] at hd; cases hd
    · have hs := signed_of hr a1 b4
      refine Or.inr ⟨row, h.sorted, m, k, fr, tr, ⟨a3, hfr, hlog.consumed, by rw [← a4]; exact b3⟩, a2, a6, ⟨a5, a7, by rw [hlog.header]⟩,
        Or.inr ⟨b2, b5, b6, Or.inr (by rw [← a4]; exact hs)⟩, fun _ => ⟨b2, by rw [← a4]; exact hs⟩⟩

/-- What a reachable encrypting session has done. -/
theorem encrypted_of {E : Env → Prop} {pol : Policy} {v : View} (h : HInv E pol v) (hm : v.s.mode = .encrypt) :
    (v.consumed = [] ∧ v.released = []) ∨
    ∃ row hd m k fr tr, Encrypted E row hd m k fr tr v.consumed v.released ∧ EncFacts E pol v.s row hd m ∧
      ((Ongoing fr ∧ tr = []) ∨ (Complete fr ∧ v.s.preciseKnown = true ∧ v.consumed.length = v.s.preciseSize ∧
        (tr = [] ∨ Signed E row m (wireHeader row.version hd ++ bodyBytes fr) tr))) ∧
      (v.s.state = .done → Complete fr ∧ Signed E row m (wireHeader row.version hd ++ bodyBytes fr) tr) := by
  rcases h.log with hl | ⟨he, ⟨h1, h2⟩ | ⟨s0, pol0, hl, hI, h1, h2, h3, h4⟩⟩
  · rcases encrypted_of_live' h.inv hl hm with h1 | ⟨row, hd, m, k, fr, tr, a1, a2, a3, a4, a5, a6⟩
    · exact Or.inl h1
    · exact Or.inr ⟨row, hd, m, k, fr, tr, a1, ⟨a3, ⟨pol, a2, fun _ => rfl⟩, a4.1, a4.2.1, fun _ => a4.2.2⟩, a5, a6⟩
  · exact Or.inl ⟨h1, h2⟩
  · have hm0 : s0.mode = .encrypt := by rw [h1]; exact hm
    rcases encrypted_of_live' hI hl hm0 with h1 | ⟨row, hd, m, k, fr, tr, a1, a2, a3, a4, a5, a6⟩
    · exact Or.inl h1
    · simp only at a3 a4 a5 a6
      refine Or.inr ⟨row, hd, m, k, fr, tr, a1, ⟨by rw [← h2]; exact a3, ⟨pol0, a2, fun h => absurd he h⟩, by rw [← h3 hm0]; exact a4.1, a4.2.1, fun h => absurd he h⟩, ?_,
        fun hd => by rw [he] at hd; cases hd⟩
      rcases a5 with a5 | ⟨b1, b2, b3, b4⟩
      · exact Or.inl a5
      · obtain ⟨c1, c2⟩ := h4 b2
        exact Or.inr ⟨b1, c1, by rw [c2]; exact b3, b4⟩

/-! ### runs -/

theorem reach_run {E : Env → Prop} {pol : Policy} {v : View} (h : Reach E pol v) (hist : List (Env × Op)) (he : ∀ c ∈ hist, E c.1) :
    Reach E (hist.foldl (fun p c => polAfter p c.2) pol) (run v hist) := by
  induction hist generalizing v pol with
  | nil => exact h
  | cons c r ih =>
    exact ih (Reach.call c.2 h (he c (by simp))) (fun x hx => he x (by simp [hx]))

/-- What calls other than `reset` keep. -/
structure OpKeeps (s s' : Session) : Prop where
  mode : s'.mode = s.mode
  precise : s.preciseKnown = true → s'.preciseKnown = true ∧ s'.preciseSize = s.preciseSize
  bound : s'.sizeBound ≤ s.sizeBound
  error : s.state = .error → s'.state = .error ∧ s'.error = s.error

theorem OpKeeps.refl (s : Session) : OpKeeps s s := ⟨rfl, fun h => ⟨h, rfl⟩, Nat.le_refl _, fun h => ⟨h, rfl⟩⟩

theorem OpKeeps.trans {s s' s'' : Session} (h : OpKeeps s s') (h' : OpKeeps s' s'') : OpKeeps s s'' := by
  refine ⟨h'.mode.trans h.mode, fun hk => ?_, Nat.le_trans h'.bound h.bound, fun he => ?_⟩
  · obtain ⟨h1, h2⟩ := h.precise hk
    obtain ⟨h3, h4⟩ := h'.precise h1
    exact ⟨h3, h4.trans h2⟩
  · obtain ⟨h1, h2⟩ := h.error he
    obtain ⟨h3, h4⟩ := h'.error h1
    exact ⟨h3, h4.trans h2⟩

theorem failSession_keeps (s : Session) (e : Err) : OpKeeps s (failSession s e).1 := by
  unfold failSession
  by_cases h : s.state ≠ .error
  · rw [if_pos h]; exact ⟨rfl, fun h => ⟨h, rfl⟩, Nat.le_refl _, fun he => absurd he h⟩
  · rw [if_neg h]; exact .refl _

theorem setMessageSize_keeps (env : Env) (s : Session) (hI : Inv s) (n : Nat) : OpKeeps s (setMessageSize env s n).1 := by
  rcases setMessageSize_cases env s hI n with ⟨e, s', h1, h2⟩ | ⟨hm, hk, hb, o, i, h1⟩
  · rw [h1]
    rcases h2 with rfl | rfl
    · exact .refl _
    · exact failSession_keeps _ _
  · rw [h1]
    exact ⟨rfl, fun h => absurd (hk ▸ h) (by simp), Nat.le_refl _, fun h => ⟨h, rfl⟩⟩

theorem process_error {env : Env} {s : Session} (h : s.state = .error) (mem inp : Bytes) (inNull : Bool) :
    process env s mem inp inNull = ⟨s, List.replicate mem.length 0, 0, 0, .err s.error⟩ := by
  unfold process processFuel processLoop sessionStep
  simp [h]

theorem process_keeps {E : Env → Prop} {pol : Policy} {v : View} {env : Env} (h : HInv E pol v) (he : E env) (mem inp : Bytes) (inNull : Bool) :
    OpKeeps v.s (process env v.s mem inp inNull).s := by
  have hk := (hinv_process h he mem inp inNull).1
  refine ⟨hk.mode, fun hp => ⟨by rw [hk.preciseKnown]; exact hp, hk.preciseSize⟩, Nat.le_of_eq hk.sizeBound, fun hs => ?_⟩
  rw [process_error hs]; exact ⟨hs, rfl⟩

theorem apply_keeps {E : Env → Prop} {pol : Policy} {v : View} {env : Env} (h : HInv E pol v) (he : E env) (op : Op)
    (hop : op.notReset = true) : OpKeeps v.s (apply env v op).1.s := by
  cases op with
  | reset m => cases hop
  | setFrameSize n =>
    simp only [apply, setFrameSize]
    split
    · exact .refl _
    · exact ⟨rfl, fun h => ⟨h, rfl⟩, Nat.le_refl _, fun h => ⟨h, rfl⟩⟩
  | setMessageSize n => exact setMessageSize_keeps env v.s h.inv n
  | setMessageBound n =>
    simp only [apply, setMessageBound]
    split
    · exact .refl _
    · split
      · exact failSession_keeps _ _
      · split
        · exact ⟨rfl, fun h => ⟨h, rfl⟩, by simp only; omega, fun h => ⟨h, rfl⟩⟩
        · exact .refl _
  | setPolicy p =>
    have h0 : OpKeeps v.s { v.s with policy := p } := ⟨rfl, fun h => ⟨h, rfl⟩, Nat.le_refl _, fun h => ⟨h, rfl⟩⟩
    simp only [apply, setCommitmentPolicy]
    split
    · exact h0
    · split
      · exact h0.trans (failSession_keeps _ _)
      · exact h0
  | setMaxEdks n =>
    simp only [apply, setMaxEdks]
    split
    · exact failSession_keeps _ _
    · split
      · exact .refl _
      · exact ⟨rfl, fun h => ⟨h, rfl⟩, Nat.le_refl _, fun h => ⟨h, rfl⟩⟩
  | editCtx f hf =>
    simp only [apply, editEncCtx]
    split
    · exact ⟨rfl, fun h => ⟨h, rfl⟩, Nat.le_refl _, fun h => ⟨h, rfl⟩⟩
    · exact .refl _
  | process mem inp =>
    have := process_keeps h he mem (inp.getD []) inp.isNone
    simp only [apply]
    split <;> exact this
  | processFull mem inp old =>
    have : OpKeeps v.s (processFull env v.s mem (inp.getD []) inp.isNone old).s := by
      unfold processFull
      by_cases h1 : v.s.state ≠ .config
      · rw [if_pos h1]; exact .refl _
      rw [if_neg h1]
      have h1 : v.s.state = .config := Decidable.not_not.mp h1
      have hset : HInv E pol { v with s := (if v.s.mode = .encrypt then setMessageSize env v.s (inp.getD []).length else (v.s, .ok)).1 } ∧
          OpKeeps v.s (if v.s.mode = .encrypt then setMessageSize env v.s (inp.getD []).length else (v.s, .ok)).1 := by
        split
        · exact ⟨(hinv_setMessageSize env h _).1, setMessageSize_keeps env v.s h.inv _⟩
        · exact ⟨h, .refl _⟩
      simp only
      generalize (if v.s.mode = .encrypt then setMessageSize env v.s (inp.getD []).length else (v.s, .ok)) = r at hset ⊢
      obtain ⟨s1, res⟩ := r
      obtain ⟨hh, hres⟩ := hset
      simp only at hh hres ⊢
      cases res with
      | ok =>
        simp only
        have hp := hres.trans (process_keeps hh he mem (inp.getD []) inp.isNone)
        split
        · split
          · exact hp
          · exact ⟨hp.mode, hp.precise, hp.bound, fun hs => by rw [h1] at hs; cases hs⟩
        · exact hp
        · exact hp
      | err e => exact hres
      | abort => exact hres
      | ub => exact hres
      | diverge => exact hres
    simp only [apply]
    split <;> exact this

theorem run_keeps {E : Env → Prop} {pol : Policy} {v : View} (h : HInv E pol v) (hist : List (Env × Op)) (he : ∀ c ∈ hist, E c.1)
    (hn : NoReset hist) : OpKeeps v.s (run v hist).s := by
  induction hist generalizing v pol with
  | nil => exact .refl _
  | cons c r ih =>
    exact (apply_keeps h (he c (by simp)) c.2 (hn c (by simp))).trans
      (ih (hinv_apply h (he c (by simp)) c.2).1 (fun x hx => he x (by simp [hx])) (fun x hx => hn x (by simp [hx])))

end Verif
