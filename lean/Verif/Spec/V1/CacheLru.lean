import Verif.Model.V1.Cache
import Verif.Spec.Cache

/-! # Specification of the eviction of the cache of version 1: uses of keys, and entries that go without regard to their use -/

namespace Xcore.V1.Cache

open Xcore.Cache (Env Out)
open Xcore.Cache.Spec (deadlinePassed)

variable {D : Type}

/-- The key has an entry. -/
def Present (c : Cache D) (k : Str) : Prop := ∃ e, c.items.get k = some e

/-- The number of entries a `Set k` leaves if nothing is evicted. -/
def countWith (c : Cache D) (k : Str) : Nat := if (c.items.get k).isSome then count c else count c + 1

/-- The call does not change the limit. -/
def KeepsLimit : Op D → Prop
  | .setMaxitems _ => False
  | _ => True

/-- Calls whose percentage, if any, is at most 100. -/
def PercOk : Op D → Prop
  | .clean p => p ≤ 100
  | _ => True

/-- The calls of a history paired with their answers. -/
def trace (c : Cache D) (hist : List (Env × Op D)) : List (Op D × Out D) := (hist.map Prod.snd).zip (run c hist).2

/-- The keys "used" by a history, oldest use first: a `Set k`, or a `Get k` that returned data. -/
def uses : List (Op D × Out D) → List Str
  | [] => []
  | (.set k _, _) :: t => k :: uses t
  | (.get k, .got (some _) _) :: t => k :: uses t
  | _ :: t => uses t

/-- The validator, if there is one, refuses the entry of `k`. -/
def refused (c : Cache D) (env : Env) (k : Str) (x : Entry D) : Bool := c.hasValidator && !env.valid k x.ctime

/-- The call drops the entry of `k` without regard to its last use: `Flush` does, every call that looks for expired entries and finds this
one expired (`Clean`, `Verify`, and a `Set` that reaches the limit), and `Verify` if the validator refuses it. -/
def Lost (c : Cache D) (env : Env) (k : Str) : Op D → Prop
  | .flush => Present c k
  | .clean _ => ∃ x, c.items.get k = some x ∧ deadlinePassed c.expire x.ctime (env.clkAt k)
  | .verify => ∃ x, c.items.get k = some x ∧ (deadlinePassed c.expire x.ctime (env.clkAt k) ∨ refused c env k x = true)
  | .set k0 _ => (0 < c.maxitems ∧ c.maxitems ≤ (countWith c k0 : Int)) ∧
      ((k = k0 ∧ deadlinePassed c.expire (env.clk 0) (env.clkAt k)) ∨
        (k ≠ k0 ∧ ∃ x, c.items.get k = some x ∧ deadlinePassed c.expire x.ctime (env.clkAt k)))
  | _ => False

/-- Some call of the history dropped an entry of `k`. -/
def EverLost (c : Cache D) (k : Str) : List (Env × Op D) → Prop
  | [] => False
  | (env, op) :: h => Lost c env k op ∨ EverLost (step c env op).1 k h

/-- How many entries the call drops (`Lost`). -/
def lostCount (c : Cache D) (env : Env) : Op D → Nat
  | .flush => count c
  | .clean _ => (c.items.filter fun p => decide (deadlinePassed c.expire p.2.ctime (env.clkAt p.1))).length
  | .verify => (c.items.filter fun p => decide (deadlinePassed c.expire p.2.ctime (env.clkAt p.1) ∨ refused c env p.1 p.2 = true)).length
  | .set k _ => if 0 < c.maxitems ∧ c.maxitems ≤ (countWith c k : Int) then
      (if deadlinePassed c.expire (env.clk 0) (env.clkAt k) then 1 else 0) +
        (c.items.filter fun p => decide (p.1 ≠ k ∧ deadlinePassed c.expire p.2.ctime (env.clkAt p.1))).length else 0
  | _ => 0

/-- How many entries the calls of a history drop altogether. -/
def lostTotal (c : Cache D) : List (Env × Op D) → Nat
  | [] => 0
  | (env, op) :: h => lostCount c env op + lostTotal (step c env op).1 h

end Xcore.V1.Cache
