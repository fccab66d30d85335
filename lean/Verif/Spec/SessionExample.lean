import Verif.Spec.Session
/-
A concrete environment and concrete histories for the non-vacuity examples beside the session theorems.  The primitives are
toys: they exist to show that the hypotheses of the theorems can be met by runs of the model.
-/
namespace Verif.Example
open Verif Verif.Spec

/-- Toy primitives: the "ciphertext" is the plaintext and tags are constant. -/
def crypto : Crypto where
  hkdf _ _ _ _ n := .ok (List.replicate n 5)
  aeadSeal _ _ _ pt := some (pt, List.replicate 16 7)
  aeadOpen _ _ _ ct tag := if tag = List.replicate 16 7 then .ok ct else .error .badCiphertext
  sigFail _ _ := none
  sign _ := .ok (List.replicate 103 3)
  verify _ sig := if sig = List.replicate 103 3 then .ok () else .error .badCiphertext
  random n := some (List.replicate n 6)
  hkdf_len := by intro _ _ _ _ n k h; cases h; simp
  aeadSeal_len := by intro _ _ _ pt ct tag h; cases h; simp
  aeadOpen_len := by
    intro _ _ _ ct tag pt h
    split at h <;> cases h
    rfl
  random_len := by intro n b h; cases h; simp

def edk : Edk := ⟨[65], [66], [67]⟩

/-- A CMM that always answers with the suite `alg` (for encryption) or the suite asked for (for decryption). -/
def cmm (alg : Nat) (signed : Bool) : Cmm where
  generate req := (req.encCtx, .ok ⟨alg, List.replicate 32 1, [edk], [], if signed then some ⟨⟨0, none, none⟩, []⟩ else none⟩)
  decrypt req := .ok ⟨req.alg, List.replicate 32 1, [], if signed then some ⟨⟨0, none, none⟩, []⟩ else none⟩

/-- Committing, with signature. -/
def env : Env := ⟨cmm 0x0578 true, crypto, fun _ => true, 0, .unknown⟩

/-- Committing, without signature. -/
def envU : Env := ⟨cmm 0x0478 false, crypto, fun _ => true, 0, .unknown⟩

/-- Buffers. -/
def zeros (n : Nat) : Bytes := List.replicate n 0

/-- Six bytes in frames of four: one intermediate and one final frame, given in two slices. -/
def encHist : List (Env × Op) :=
  [(env, .setFrameSize 4), (env, .editCtx (fun _ => [([1], [2])]) (by simp [KeepsTable, DistinctKeys])), (env, .process (zeros 300) (some [1, 2, 3, 4, 5])),
   (env, .setMessageSize 6), (env, .process (zeros 300) (some [5, 6]))]

/-- A new session. -/
def encNew : View := ⟨(sessionNew .encrypt).get rfl, [], []⟩

/-- The message it writes: a header of 109 bytes, a frame of 36, a final frame of 42 and a trailer of 105. -/
def msg : Bytes := (run encNew encHist).released

/-- A new decrypting session. -/
def decNew (mode : Mode) : View := ⟨(sessionNew mode).getD encNew.s, [], []⟩

/-- Decryption in three slices: too little for the header, header and first frame, and the rest. -/
def decHist : List (Env × Op) :=
  [(env, .process (zeros 2) (some (msg.take 50))), (env, .process (zeros 5) (some (msg.take 180))),
   (env, .process (zeros 5) (some (msg.drop 145)))]

/-- Calls of a history only have environments of that history. -/
theorem reach_hist {E : Env → Prop} {pol : Policy} {v : View} (h : Reach E pol v) (hist : List (Env × Op)) (he : ∀ c ∈ hist, E c.1) :
    Reach E (hist.foldl (fun p c => polAfter p c.2) pol) (run v hist) := by
  induction hist generalizing v pol with
  | nil => exact h
  | cons c r ih => exact ih (Reach.call c.2 h (he c (by simp))) (fun x hx => he x (by simp [hx]))

theorem encHist_reach : Reach (· = env) .requireRequire (run encNew encHist) :=
  reach_hist (.new (mode := .encrypt) rfl) encHist (by simp [encHist])

theorem decNew_reach (E : Env → Prop) (mode : Mode) (hm : mode = .decrypt ∨ mode = .decryptUnsigned) :
    Reach E .requireRequire (decNew mode) := by
  have : sessionNew mode = some (decNew mode).s := by rcases hm with rfl | rfl <;> rfl
  exact .new this

theorem decHist_reach (mode : Mode) (hm : mode = .decrypt ∨ mode = .decryptUnsigned) :
    Reach (· = env) .requireRequire (run (decNew mode) decHist) :=
  reach_hist (decNew_reach _ mode hm) decHist (by simp [decHist])

end Verif.Example
