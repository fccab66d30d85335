import Verif.Spec.Session
/-
Data keys under other names: what a session does is compared with what it does when every data key is replaced and HKDF undoes
the replacement.
-/
namespace Verif.Spec
open Verif

/-- The primitives with another HKDF. -/
def withHkdf (c : Crypto) (hk : HkdfFn) (hl : ∀ sha salt ikm info n k, hk sha salt ikm info n = .ok k → k.length = n) : Crypto :=
  { c with hkdf := hk, hkdf_len := hl }

/-- A CMM that gives `φ k` where the other gives the data key `k`. -/
def rekeyCmm (φ : Bytes → Bytes) (c : Cmm) : Cmm where
  generate req := ((c.generate req).1, (c.generate req).2.map (fun m => { m with dataKey := φ m.dataKey }))
  decrypt req := (c.decrypt req).map (fun m => { m with dataKey := φ m.dataKey })

/-- `φ` keeps lengths, and `hk'` derives from `φ k` what `hk` derives from `k`. -/
structure Renames (φ : Bytes → Bytes) (hk hk' : HkdfFn) : Prop where
  len : ∀ k, (φ k).length = k.length
  hkdf : ∀ sha salt k info n, hk' sha salt (φ k) info n = hk sha salt k info n

/-- Both replacements. -/
structure Rekeyed (e e' : Env) : Prop where
  intro ::
  same : ∃ φ hk hl, Renames φ e.crypto.hkdf hk ∧ e' = { e with cmm := rekeyCmm φ e.cmm, crypto := withHkdf e.crypto hk hl }

/-- A suite that derives its keys. -/
def DerivesKeys (alg : Nat) : Prop := ∀ row ∈ suiteTable, row.id = alg → row.kdfBits ≠ 0

/-- The CMM answers only with, and for, suites that derive their keys. -/
structure OnlyDerives (c : Cmm) : Prop where
  generate : ∀ req ctx m, c.generate req = (ctx, .ok m) → DerivesKeys m.alg
  decrypt : ∀ req m, c.decrypt req = .ok m → DerivesKeys req.alg

end Verif.Spec
