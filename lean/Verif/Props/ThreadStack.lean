import Verif.Proof.ThreadStack
import Verif.Proof.KeyringTree
import Verif.Props.CachedStack
import Verif.Props.LocalRuns
import Verif.Props.KeyringTree
/-
C98: the round trip through the whole library with caching CMMs in any number of threads that share materials caches of any kind, over any
keyrings.
-/
namespace Verif.Props
open Verif Verif.Spec Verif.Proof

section
variable {Pair : Curve → Nat → Nat → Prop} {M1 M2 : Moment → Prop} {sha : Bytes → Bytes}

/-- C98: a message written by a session whose CMM is a caching CMM, over a cache of any kind that keeps its promises and is used by any number
of threads, is read without error by a session of the same kind of a user whose keyring finds the data key, unless the digest collides on
strings for the reader's requests. -/
theorem C98_reading_never_fails (hsha : ∀ x, (sha x).length = 64) (hP : Ciphers Pair (worlds M1) (worlds M2)) (hh : ∀ w, worlds M2 w → Sound w)
    (hw : GoodWriter M1) (hf : AlwaysFindsAnyOrder M1 M2) (da1 da2 : Option Nat) (pol1 pol2 : Policy) (v1 v0 v : View)
    (h1 : Reach (ThreadWriters sha M1 da1) pol1 v1) (hm1 : v1.s.mode = .encrypt) (hne : v1.s.state ≠ .error) (hnil : v1.released ≠ [])
    (h0 : Reach (SteadyThreadReaders sha (messageRequest v1) M2 da2) pol2 v0) (hr : ReadyToRead v1.s.header.algId v1.s.header.edks.length v0)
    (hv : Reading (SteadyThreadReaders sha (messageRequest v1) M2 da2) v1.released v0 v)
    (env : Env) (he : SteadyThreadReaders sha (messageRequest v1) M2 da2 env) (mem inp : Bytes) (hinp : v.consumed ++ inp <+: v1.released) :
    (apply env v (.process mem (some inp))).2 = .ok ∧ (apply env v (.process mem (some inp))).1.released <+: v1.consumed :=
  have hst := thread_storable (sha := sha) hw da1
  reading_never_fails_for (thread_opens hsha hP hh hw hf da1 da2 (messageRequest v1)) hst pol1 pol2 v1 v0 v h1 hm1
    ⟨sameRequest_message v1, message_fits hst h1 hm1 hne hnil⟩ hne hnil h0 hr hv env he mem inp hinp

/-- C98: once the writer is done, giving the reader the rest of the message and enough room ends with the whole plaintext. -/
theorem C98_reads_to_the_end (hsha : ∀ x, (sha x).length = 64) (hP : Ciphers Pair (worlds M1) (worlds M2)) (hh : ∀ w, worlds M2 w → Sound w)
    (hw : GoodWriter M1) (hf : AlwaysFindsAnyOrder M1 M2) (da1 da2 : Option Nat) (pol1 pol2 : Policy) (v1 v0 v : View)
    (h1 : Reach (ThreadWriters sha M1 da1) pol1 v1) (hm1 : v1.s.mode = .encrypt) (hd1 : isDone v1.s = true)
    (h0 : Reach (SteadyThreadReaders sha (messageRequest v1) M2 da2) pol2 v0) (hr : ReadyToRead v1.s.header.algId v1.s.header.edks.length v0)
    (hv : Reading (SteadyThreadReaders sha (messageRequest v1) M2 da2) v1.released v0 v)
    (env : Env) (he : SteadyThreadReaders sha (messageRequest v1) M2 da2 env) (mem inp : Bytes) (hinp : v.consumed ++ inp = v1.released)
    (hroom : v1.consumed.length ≤ v.released.length + mem.length) :
    (apply env v (.process mem (some inp))).2 = .ok ∧ isDone (apply env v (.process mem (some inp))).1.s = true ∧
    (apply env v (.process mem (some inp))).1.consumed = v1.released ∧
    (apply env v (.process mem (some inp))).1.released = v1.consumed :=
  have hst := thread_storable (sha := sha) hw da1
  have hx := released_of_done h1 hm1 hd1
  reads_to_the_end_for (thread_opens hsha hP hh hw hf da1 da2 (messageRequest v1)) hst pol1 pol2 v1 v0 v h1 hm1
    ⟨sameRequest_message v1, message_fits hst h1 hm1 hx.1 hx.2⟩ hd1 h0 hr hv env he mem inp hinp hroom

/-- C98: one call of `aws_cryptosdk_session_process_full` decrypts the message. -/
theorem C98_process_full (hsha : ∀ x, (sha x).length = 64) (hP : Ciphers Pair (worlds M1) (worlds M2)) (hh : ∀ w, worlds M2 w → Sound w)
    (hw : GoodWriter M1) (hf : AlwaysFindsAnyOrder M1 M2) (da1 da2 : Option Nat) (pol1 pol2 : Policy) (v1 v0 : View)
    (h1 : Reach (ThreadWriters sha M1 da1) pol1 v1) (hm1 : v1.s.mode = .encrypt) (hd1 : isDone v1.s = true)
    (h0 : Reach (SteadyThreadReaders sha (messageRequest v1) M2 da2) pol2 v0) (hr : ReadyToRead v1.s.header.algId v1.s.header.edks.length v0)
    (env : Env) (he : SteadyThreadReaders sha (messageRequest v1) M2 da2 env) (mem : Bytes) (old : Nat) (hroom : v1.consumed.length ≤ mem.length) :
    (apply env v0 (.processFull mem (some v1.released) old)).2 = .ok ∧
    (apply env v0 (.processFull mem (some v1.released) old)).1.released = v1.consumed :=
  have hst := thread_storable (sha := sha) hw da1
  have hx := released_of_done h1 hm1 hd1
  process_full_for (thread_opens hsha hP hh hw hf da1 da2 (messageRequest v1)) hst pol1 pol2 v1 v0 h1 hm1
    ⟨sameRequest_message v1, message_fits hst h1 hm1 hx.1 hx.2⟩ hd1 h0 hr env he mem old hroom

/-- C98: whatever fails in the reader's calls, if its keyring does not find wrong data keys, it never releases anything but a prefix of the
plaintext, and all of it, with the same encryption context, if it says that it is done. -/
theorem C98_round_trip (hsha : ∀ x, (sha x).length = 64) (hP : Ciphers Pair (worlds M1) (worlds M2)) (hw : GoodWriter M1)
    (hn : NeverMistakenAnyOrder M1 M2) (da1 da2 : Option Nat) (pol1 pol2 : Policy) (v1 v2 : View)
    (h1 : Reach (ThreadWriters sha M1 da1) pol1 v1) (h2 : Reach (ThreadReaders sha (messageRequest v1) M2 da2) pol2 v2)
    (hm1 : v1.s.mode = .encrypt) (hm2 : v2.s.mode.isDecrypt = true) (hd1 : isDone v1.s = true) (hpre : v2.consumed <+: v1.released) :
    v2.released <+: v1.consumed ∧
    (isDone v2.s = true → v2.released = v1.consumed ∧
      ∃ ctx1 ctx2, getEncCtx v1.s = some ctx1 ∧ getEncCtx v2.s = some ctx2 ∧ ctx1.Perm ctx2) :=
  round_trip_for (thread_undoes hsha hP hw hn da1 da2 (messageRequest v1)) (thread_storable hw da1) pol1 pol2 v1 v2 h1 h2
    (sameRequest_message v1) hm1 hm2 hd1 hpre

/-- C98: no cache helps a reader whose keyring finds no data key: it takes nothing of the message and releases nothing. -/
theorem C98_strangers_read_nothing (hsha : ∀ x, (sha x).length = 64) (hw : GoodWriter M1) (hn : NeverFindsAnyOrder M1 M2) (da1 da2 : Option Nat)
    (pol1 pol2 : Policy) (v1 v2 : View) (h1 : Reach (ThreadWriters sha M1 da1) pol1 v1)
    (h2 : Reach (ThreadReaders sha (messageRequest v1) M2 da2) pol2 v2) (hm1 : v1.s.mode = .encrypt) (hne : v1.s.state ≠ .error)
    (hm2 : v2.s.mode.isDecrypt = true) (hpre : v2.consumed <+: v1.released) : v2.consumed = [] ∧ v2.released = [] :=
  refused_reads_nothing_for (R := SameRequest (messageRequest v1)) (thread_storable hw da1)
    (fun _ _ _ _ _ _ _ he1 he2 hd h hp hR h' => thread_refuses hsha hw hn da1 da2 _ he1 he2 hd h hp hR h') h1 h2 hm1 (.inl hne)
    (sameRequest_message v1) hm2 hpre

end

/-- C98: all of this holds for the library's own keyrings, in trees of multi-keyrings that fit together: they find the data keys in any order of the
encrypted data keys, and no wrong ones; those that are apart find none. -/
theorem C98_trees {Pair : Curve → Nat → Nat → Prop} {RsaPair : Bytes → Bytes → Prop} {A1 A2 : Around → Prop} {t1 t2 : KrTree} :
    (Primitives Pair RsaPair (rawWorlds A1) (rawWorlds A2) → Ciphers Pair (worlds (At A1 t1)) (worlds (At A2 t2))) ∧
    (Primitives Pair RsaPair (rawWorlds A1) (rawWorlds A2) → KmsSizes A1 t1 → sources [] t1 ≠ [] → (sources [] t1).length < 65536 →
      (∀ x ∈ sources [] t1, ShortSource x.2) → GoodWriter (At A1 t1)) ∧
    (Primitives Pair RsaPair (rawWorlds A1) (rawWorlds A2) → KmsHonest A1 A2 → GivesKeys A1 → TreeReads RsaPair A1 A2 t1 t2 →
      NeverMistakenAnyOrder (At A1 t1) (At A2 t2) ∧ (Supplied A2 → AlwaysFindsAnyOrder (At A1 t1) (At A2 t2))) ∧
    (GivesKeys A1 → (∀ x ∈ sources [] t1, ∀ y ∈ leaves [] t2, Apart A1 A2 x y) → NeverFindsAnyOrder (At A1 t1) (At A2 t2)) :=
  ⟨fun h => tree_ciphers h, fun hP hz h0 hn hs => tree_goodWriter hP hz h0 hn hs,
    fun hP hk hz hc => ⟨tree_neverMistaken_any hP hk hz hc, fun hs => tree_alwaysFinds_any hP hk hz hc hs⟩,
    fun hz hc => tree_neverFinds_any hz hc⟩

/-- C98: all of this holds for the library's own cache: calls of caching CMMs over a local cache, in any interleaving of the steps of any number of
threads, are calls over a cache that keeps its promises, also about signature keys. -/
theorem C98_local_cache {sha : Bytes → Bytes} {calls : List AnyCall} {addr : Nat → Nat} {cap num : Nat} {log : List LocalEvent}
    {asked : Nat → Option CacheOp} {s : Conc} {M : Moment → Prop} {da : Option Nat} (h : LocalRuns sha calls addr cap num log asked s)
    (hH : History sha localVt calls (asHistory log)) (hc : ∀ call ∈ calls, CallAt M da call) (hl : ∀ x ∈ log, LibrarySigs (worlds M) x.op) :
    SharedCache sha localVt M da calls (asHistory log) :=
  local_shared h hH hc hl

end Verif.Props
