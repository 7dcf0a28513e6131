import Verif.Model.Zero
import Verif.Model.V1.Cache

/-!
# A cache of version 1 made without its constructor, and its mutex

`&xcore.XCache{Maxitems: 50}` of the root package has a nil map. The methods of `xcache.go` unlock the mutex without `defer`, so a call that panics
between `Lock` and `Unlock` leaves it locked for ever. One goroutine uses the cache and recovers from panics.
-/

namespace Xcore.V1.Zero

open Xcore.Zero (GoMap Outcome)
open Xcore.Cache (Env Out)
open Xcore.V1.Cache (Entry Op removeFromPile)

/-- `XCache` (xcache.go:21-37) with a map that can be nil; `held` if the mutex is locked between two calls. -/
structure Cache (D : Type) where
  maxitems : Int
  expire : Int
  hasValidator : Bool
  items : GoMap (Entry D)
  pile : List Str
  held : Bool
  deriving DecidableEq, Repr

variable {D : Type}

/-- `c.mutex.Lock()` and what follows. -/
def Cache.locked {Ω : Type} (c : Cache D) (body : Cache D × Outcome Ω) : Cache D × Outcome Ω := if c.held then (c, .blocks) else body

/-- `Clean` (xcache.go:156-187): an index out of range panics between `Lock` (161) and `Unlock` (185). -/
def clean (c : Cache D) (env : Env) (perc : Int) : Cache D × Outcome (Out D) := c.locked <|
  let items := if c.expire ≠ 0 then c.items.pairs.filter fun p => !decide (p.2.ctime + c.expire < env.clkAt p.1) else c.items.pairs
  let num := (Int.tdiv (items.length * perc) 100).toNat
  let items' := (c.pile.take num).foldl (fun m k => AMap.del m k) items
  if num ≤ c.pile.length then ({ c with items := c.items.left items', pile := c.pile.drop num }, .returns (.num num))
  else ({ c with items := c.items.left items', held := true }, .panics)

/-- `Set` (xcache.go:62-76): the assignment to a nil map (66) panics between `Lock` (63) and `Unlock` (71); `Clean` is called after it. -/
def set (c : Cache D) (env : Env) (key : Str) (data : D) : Cache D × Outcome (Out D) := c.locked <|
  let ok := (c.items.get key).isSome
  match c.items.set key { ctime := env.clk 0, rtime := env.clk 1, data } with
  | .ok items =>
    let c := { c with items, pile := (if ok then removeFromPile c.pile key else c.pile) ++ [key] }
    if 0 < c.maxitems ∧ c.maxitems ≤ c.items.pairs.length then
      match clean c env 10 with
      | (c', .returns _) => (c', .returns .unit)
      | (c', .panics) => (c', .panics)
      | (c', .blocks) => (c', .blocks)
    else (c, .returns .unit)
  | _ => ({ c with held := true }, .panics)

/-- `Get` (xcache.go:97-133). -/
def get (c : Cache D) (env : Env) (key : Str) : Cache D × Outcome (Out D) := c.locked <|
  match c.items.get key with
  | some x =>
    let gone := { c with items := c.items.del key, pile := removeFromPile c.pile key }
    if c.hasValidator && !env.valid key x.ctime then (gone, .returns (.got none true))
    else if decide (c.expire ≠ 0) && decide (x.ctime + c.expire < env.clk 1) then (gone, .returns (.got none true))
    else ({ c with items := c.items.left (AMap.set c.items.pairs key { x with rtime := env.clk 2 }), pile := removeFromPile c.pile key ++ [key] },
      .returns (.got (some x.data) false))
  | none => (c, .returns (.got none false))

/-- `Del` (xcache.go:136-142). -/
def del (c : Cache D) (key : Str) : Cache D × Outcome (Out D) := c.locked
  ({ c with items := c.items.del key, pile := removeFromPile c.pile key }, .returns .unit)

/-- The loop of `Verify` (xcache.go:197-207) over the entries present when it starts; the mutex is free, or `Clean(0)` before it would have
blocked. -/
def verifyLoop (env : Env) : List (Str × Entry D) → Cache D → Int → Cache D × Int
  | [], c, i => (c, i)
  | (k, x) :: rest, c, i =>
    if !env.valid k x.ctime then verifyLoop env rest { c with items := c.items.del k } (i + 1) else verifyLoop env rest c i

/-- `Verify` (xcache.go:192-210). -/
def verify (c : Cache D) (env : Env) : Cache D × Outcome (Out D) :=
  match clean c env 0 with
  | (c', .returns (.num i)) =>
    if c'.hasValidator then ((verifyLoop env c'.items.pairs c' i).1, .returns (.num (verifyLoop env c'.items.pairs c' i).2)) else (c', .returns (.num i))
  | r => r

/-- One call: those above, `Count` (xcache.go:145-150) and `Flush` (214-219), which makes a new map; or an assignment to an exported field. -/
def step (c : Cache D) (env : Env) : Op D → Cache D × Outcome (Out D)
  | .set k d => set c env k d
  | .get k => get c env k
  | .del k => del c k
  | .count => c.locked (c, .returns (.num c.items.pairs.length))
  | .clean p => clean c env p
  | .verify => verify c env
  | .flush => c.locked ({ c with items := some [] }, .returns .unit)
  | .setMaxitems m => ({ c with maxitems := m }, .returns .unit)
  | .setExpire e => ({ c with expire := e }, .returns .unit)
  | .setValidator b => ({ c with hasValidator := b }, .returns .unit)

/-- A history of calls. -/
def run (c : Cache D) : List (Env × Op D) → Cache D × List (Outcome (Out D))
  | [] => (c, [])
  | (env, op) :: h => ((run (step c env op).1 h).1, (step c env op).2 :: (run (step c env op).1 h).2)

end Xcore.V1.Zero
