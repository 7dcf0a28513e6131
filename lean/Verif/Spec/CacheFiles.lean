import Verif.Model.CacheFiles
import Verif.Spec.V1.Cache

/-!
# How a program uses a cache of files, for C111
-/

namespace Xcore.CacheFiles

open Xcore.Cache (Env Op)

variable {D : Type}

/-- What is stored is what the file contains at that moment. -/
def Loads (disk : Disk D) (evs : List (Event (Timed (Op D)) D)) : Prop :=
  ∀ pre clk clkAt k d post, evs = pre ++ .call ⟨clk, clkAt, .set k d⟩ :: post → ∃ m, diskAfter disk pre k = some ⟨d, m⟩

/-- A file that is written after it was stored gets a time later than that of storing it. -/
def Timely (evs : List (Event (Timed (Op D)) D)) : Prop :=
  ∀ pre clk clkAt k d mid d' m post, evs = pre ++ .call ⟨clk, clkAt, .set k d⟩ :: (mid ++ .write k d' m :: post) → clk 0 < m

/-- The validator is not taken off. -/
def Guarded (evs : List (Event (Timed (Op D)) D)) : Prop := ∀ clk clkAt, .call ⟨clk, clkAt, .setValidator false⟩ ∉ evs

/-- The calls leave the entry of `k` alone that was made at the time `t`: it is not stored again, deleted or given a TTL, there is no `Flush`, and `Get` of it
and `Verify` are called only while there is a file at `k` that is not newer than `t`. -/
def Spares (k : Str) (t : Int) (disk : Disk D) (evs : List (Event (Timed (Op D)) D)) : Prop :=
  ∀ pre clk clkAt op post, evs = pre ++ .call ⟨clk, clkAt, op⟩ :: post →
    match op with
    | .set k' _ | .setTTL k' _ | .del k' => k' ≠ k
    | .flush => False
    | .get k' => k' = k → ∃ f, diskAfter disk pre k = some f ∧ f.mtime ≤ t
    | .verify => ∃ f, diskAfter disk pre k = some f ∧ f.mtime ≤ t
    | _ => True

/-- There is no expiration time. -/
def Lasting (evs : List (Event (Timed (Op D)) D)) : Prop := ∀ clk clkAt e, .call ⟨clk, clkAt, .setExpire e⟩ ∉ evs

/-- The same events with the calls of version 1 as calls of version 2. -/
def Event.up : Event (Timed (V1.Cache.Op D)) D → Event (Timed (Op D)) D
  | .call ⟨clk, clkAt, op⟩ => .call ⟨clk, clkAt, op.up⟩
  | .write path d m => .write path d m
  | .remove path => .remove path

/-! ## With goroutines -/

/-- What is stored is what the file contains at that moment. -/
def LoadsC (disk : Disk D) (evs : List (Event (CacheConc.Act D) D)) : Prop :=
  ∀ pre env k d post, evs = pre ++ .call (.set env k d) :: post → ∃ m, diskAfter disk pre k = some ⟨d, m⟩

/-- A file that is written after it was stored gets a time later than that of storing it. -/
def TimelyC (evs : List (Event (CacheConc.Act D) D)) : Prop :=
  ∀ pre env k d mid d' m post, evs = pre ++ .call (.set env k d) :: (mid ++ .write k d' m :: post) → env.clk 0 < m

/-- The validator is not taken off. -/
def GuardedC (evs : List (Event (CacheConc.Act D) D)) : Prop := .call (.setValidator false) ∉ evs

/-- Goroutine `t` began a `Get` of `k`, its last one so far, and at a moment since then the file `k` contained `v`. -/
def SeenDuring (disk : Disk D) (evs : List (Event (CacheConc.Act D) D)) (t : Nat) (k : Str) (v : D) : Prop :=
  ∃ before during since m, evs = before ++ .call (.getStart t k) :: (during ++ since) ∧
    (∀ k', .call (.getStart t k') ∉ during ++ since) ∧ diskAfter disk (before ++ .call (.getStart t k) :: during) k = some ⟨v, m⟩

end Xcore.CacheFiles
