import Verif.Model.V1.Cache

/-!
# `Clean` in 64-bit arithmetic (`v2/xcache.go`, and `xcache.go` of the root package)

Verif/Model/Cache.lean computes `total * perc / 100` in unbounded integers. Here the same calls are modelled with the multiplication of
the machine: `int` is a 64-bit two's complement number. The other arithmetic of the file cannot overflow: the counters count entries of a
map, and `Time.Add` keeps seconds and nanoseconds apart. The calls that do not clean are those of the sequential models.
-/

namespace Xcore.CacheWords

/-- The value of an `int` after an operation whose mathematical result is `n`. -/
def word (n : Int) : Int := (n + 2 ^ 63) % 2 ^ 64 - 2 ^ 63

/-- `num := total * perc / 100` (v2/xcache.go:217-218; xcache.go:176-177). -/
def cleanNum (total : Nat) (perc : Int) : Int := word (Int.tdiv (word (total * perc)) 100)

end Xcore.CacheWords

namespace Xcore.CacheWords.V2

open Xcore.Cache (Cache Env Op Out sweep evictLoop removeFromPile verifyLoop)

variable {D : Type}

/-- `mClean` (v2/xcache.go:198-227). -/
def mClean (c : Cache D) (env : Env) (perc : Int) : Cache D × Option Int :=
  let items := sweep c.expire env c.items
  let num := cleanNum items.length perc
  match evictLoop num.toNat items c.pile with
  | (items', some pile') => ({ c with items := items', pile := pile' }, some num.toNat)
  | (items', none) => ({ c with items := items' }, none)

/-- `Set` (v2/xcache.go:64-78). -/
def set (c : Cache D) (env : Env) (k : Str) (d : D) : Cache D × Bool :=
  let present := (c.items.get k).isSome
  let items := c.items.set k { ctime := env.clk 0, rtime := env.clk 1, ttl := 0, data := d }
  let pile := (if present then removeFromPile c.pile k else c.pile) ++ [k]
  let c := { c with items, pile }
  if 0 < c.maxitems ∧ c.maxitems ≤ c.items.length then
    let r := mClean c env 10
    (r.1, r.2.isSome)
  else (c, true)

/-- `Verify` (v2/xcache.go:242-264). -/
def verify (c : Cache D) (env : Env) : Cache D × Option Int :=
  match mClean c env 0 with
  | (c', none) => (c', none)
  | (c', some i) =>
    if c'.hasValidator then
      let r := verifyLoop env c'.items c' i
      (r.1, some r.2)
    else (c', some i)

/-- Dispatch of one call; a call that does not clean is that of the sequential model. -/
def step (c : Cache D) (env : Env) : Op D → Cache D × Out D
  | .set k d => let r := set c env k d; (r.1, if r.2 then .unit else .panicked)
  | .clean p => let r := mClean c env p; (r.1, match r.2 with | some n => .num n | none => .panicked)
  | .verify => let r := verify c env; (r.1, match r.2 with | some n => .num n | none => .panicked)
  | op => Xcore.Cache.step c env op

/-- A history of calls: the cache afterwards and all the answers in order. -/
def run (c : Cache D) : List (Env × Op D) → Cache D × List (Out D)
  | [] => (c, [])
  | (env, op) :: h => ((run (step c env op).1 h).1, (step c env op).2 :: (run (step c env op).1 h).2)

end Xcore.CacheWords.V2

namespace Xcore.CacheWords.V1

open Xcore.Cache (Env Out)
open Xcore.V1.Cache (Cache Op removeFromPile verifyLoop)

variable {D : Type}

/-- `Clean` (xcache.go:156-187). -/
def clean (c : Cache D) (env : Env) (perc : Int) : Cache D × Option Int :=
  let items := if c.expire ≠ 0 then c.items.filter fun p => !decide (p.2.ctime + c.expire < env.clkAt p.1) else c.items
  let num := (cleanNum items.length perc).toNat
  let items' := (c.pile.take num).foldl (fun m k => AMap.del m k) items
  if num ≤ c.pile.length then ({ c with items := items', pile := c.pile.drop num }, some num)
  else ({ c with items := items' }, none)

/-- `Set` (xcache.go:62-76). -/
def set (c : Cache D) (env : Env) (key : Str) (data : D) : Cache D × Bool :=
  let ok := (c.items.get key).isSome
  let items := c.items.set key { ctime := env.clk 0, rtime := env.clk 1, data }
  let c := { c with items, pile := (if ok then removeFromPile c.pile key else c.pile) ++ [key] }
  if 0 < c.maxitems ∧ c.maxitems ≤ c.items.length then ((clean c env 10).1, (clean c env 10).2.isSome) else (c, true)

/-- `Verify` (xcache.go:192-210). -/
def verify (c : Cache D) (env : Env) : Cache D × Option Int :=
  match clean c env 0 with
  | (c', none) => (c', none)
  | (c', some i) => if c'.hasValidator then ((verifyLoop env c'.items c' i).1, some (verifyLoop env c'.items c' i).2) else (c', some i)

/-- Dispatch of one call; a call that does not clean is that of the sequential model. -/
def step (c : Cache D) (env : Env) : Op D → Cache D × Out D
  | .set k d => ((set c env k d).1, if (set c env k d).2 then .unit else .panicked)
  | .clean p => ((clean c env p).1, match (clean c env p).2 with | some n => .num n | none => .panicked)
  | .verify => ((verify c env).1, match (verify c env).2 with | some n => .num n | none => .panicked)
  | op => Xcore.V1.Cache.step c env op

/-- A history of calls: the cache afterwards and all the answers in order. -/
def run (c : Cache D) : List (Env × Op D) → Cache D × List (Out D)
  | [] => (c, [])
  | (env, op) :: h => ((run (step c env op).1 h).1, (step c env op).2 :: (run (step c env op).1 h).2)

end Xcore.CacheWords.V1
