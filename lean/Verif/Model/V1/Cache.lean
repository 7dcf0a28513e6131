import Verif.Model.Cache

/-!
# Model of `xcache.go` (root package, version 1): XCache used by one goroutine at a time

Like the model of version 2 (Verif/Model/Cache.lean): a call receives the readings of `time.Now()` and the validator as `Env`; logging
and wrap-around of 64-bit times are not modelled. Version 1 has no `SetTTL`, and its `Verify` leaves the keys of the entries it deletes
in the pile.
-/

namespace Xcore.V1.Cache

open Xcore.Cache (Env Out)

/-- `XCacheEntry` (xcache.go:10-18). -/
structure Entry (D : Type) where
  ctime : Int
  rtime : Int
  data : D
  deriving DecidableEq, Repr

/-- `XCache` (xcache.go:21-37). `hasValidator` is `Validator != nil`; the function itself is in `Env`. `ID` (informative) and the mutex
are not part of the sequential model. -/
structure Cache (D : Type) where
  maxitems : Int
  expire : Int
  hasValidator : Bool
  items : AMap (Entry D)
  pile : List Str
  deriving DecidableEq, Repr

variable {D : Type}

/-- `NewXCache` (xcache.go:45-56). -/
def new (maxitems expire : Int) : Cache D :=
  { maxitems, expire, hasValidator := false, items := [], pile := [] }

/-- `removeFromPile` (xcache.go:79-91): the key is removed where it is found first. -/
def removeFromPile : List Str → Str → List Str
  | [], _ => []
  | x :: pile, key => if x = key then pile else x :: removeFromPile pile key

/-- `Clean` (xcache.go:156-187): the expired entries are deleted from the map but not from the pile; then the first
`total * perc / 100` keys of the pile are deleted from both. The counter `i` is reused, so what is returned is the number of the second
loop. `none`: index out of range, panic (with the lock held); the deletions before it have been done. -/
def clean (c : Cache D) (env : Env) (perc : Int) : Cache D × Option Int :=
  let items := if c.expire ≠ 0 then c.items.filter fun p => !decide (p.2.ctime + c.expire < env.clkAt p.1) else c.items
  let num := (Int.tdiv (items.length * perc) 100).toNat
  let items' := (c.pile.take num).foldl (fun m k => AMap.del m k) items
  if num ≤ c.pile.length then ({ c with items := items', pile := c.pile.drop num }, some num)
  else ({ c with items := items' }, none)

/-- `Set` (xcache.go:62-76). The second component is false on panic of the nested `Clean`. -/
def set (c : Cache D) (env : Env) (key : Str) (data : D) : Cache D × Bool :=
  let ok := (c.items.get key).isSome
  let items := c.items.set key { ctime := env.clk 0, rtime := env.clk 1, data }
  let c := { c with items, pile := (if ok then removeFromPile c.pile key else c.pile) ++ [key] }
  if 0 < c.maxitems ∧ c.maxitems ≤ c.items.length then ((clean c env 10).1, (clean c env 10).2.isSome) else (c, true)

/-- `Del` (xcache.go:136-142). -/
def del (c : Cache D) (key : Str) : Cache D := { c with items := c.items.del key, pile := removeFromPile c.pile key }

/-- `Get` (xcache.go:97-133); the first component of the answer is `none` where Go returns the literal nil. -/
def get (c : Cache D) (env : Env) (key : Str) : Cache D × (Option D × Bool) :=
  match c.items.get key with
  | some x =>
    if c.hasValidator && !env.valid key x.ctime then (del c key, (none, true))
    else if decide (c.expire ≠ 0) && decide (x.ctime + c.expire < env.clk 1) then (del c key, (none, true))
    else ({ c with items := c.items.set key { x with rtime := env.clk 2 }, pile := removeFromPile c.pile key ++ [key] }, (some x.data, false))
  | none => (c, (none, false))

/-- `Count` (xcache.go:145-150). -/
def count (c : Cache D) : Nat := c.items.length

/-- The loop of `Verify` (xcache.go:197-207) over the entries present when it starts. -/
def verifyLoop (env : Env) : List (Str × Entry D) → Cache D → Int → Cache D × Int
  | [], c, i => (c, i)
  | (k, x) :: rest, c, i =>
    if !env.valid k x.ctime then verifyLoop env rest { c with items := c.items.del k } (i + 1) else verifyLoop env rest c i

/-- `Verify` (xcache.go:192-210). `none` on panic of `Clean(0)`. -/
def verify (c : Cache D) (env : Env) : Cache D × Option Int :=
  match clean c env 0 with
  | (c', none) => (c', none)
  | (c', some i) => if c'.hasValidator then ((verifyLoop env c'.items c' i).1, some (verifyLoop env c'.items c' i).2) else (c', some i)

/-- `Flush` (xcache.go:214-219): the pile is kept. -/
def flush (c : Cache D) : Cache D := { c with items := [] }

/-- One call, or an assignment to an exported field. -/
inductive Op (D : Type) where
  | set (k : Str) (d : D)
  | get (k : Str)
  | del (k : Str)
  | count
  | clean (perc : Int)
  | verify
  | flush
  | setMaxitems (m : Int)
  | setExpire (e : Int)
  | setValidator (b : Bool)
  deriving DecidableEq, Repr

/-- Dispatch of one call. -/
def step (c : Cache D) (env : Env) : Op D → Cache D × Out D
  | .set k d => ((set c env k d).1, if (set c env k d).2 then .unit else .panicked)
  | .get k => ((get c env k).1, .got (get c env k).2.1 (get c env k).2.2)
  | .del k => (del c k, .unit)
  | .count => (c, .num (count c))
  | .clean p => ((clean c env p).1, match (clean c env p).2 with | some n => .num n | none => .panicked)
  | .verify => ((verify c env).1, match (verify c env).2 with | some n => .num n | none => .panicked)
  | .flush => (flush c, .unit)
  | .setMaxitems m => ({ c with maxitems := m }, .unit)
  | .setExpire e => ({ c with expire := e }, .unit)
  | .setValidator b => ({ c with hasValidator := b }, .unit)

/-- A history of calls: the cache afterwards and all the answers in order. -/
def run (c : Cache D) : List (Env × Op D) → Cache D × List (Out D)
  | [] => (c, [])
  | (env, op) :: h => ((run (step c env op).1 h).1, (step c env op).2 :: (run (step c env op).1 h).2)

end Xcore.V1.Cache
