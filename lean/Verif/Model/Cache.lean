import Verif.Base.AMap

/-!
# Model of `v2/xcache.go`: XCache used by one goroutine at a time

`D` is the type of the cached data (Go `interface{}`). Every call receives an `Env`: the readings of `time.Now()` made during
the call and the behaviour of the validator function at that moment. Times and durations are unbounded integers
(nanoseconds); wrap-around of 64-bit times is not modelled. Logging (`LOG`) is not modelled.
-/

namespace Xcore.Cache

/-- `XCacheEntry` (xcache.go:10-20). -/
structure Entry (D : Type) where
  ctime : Int
  rtime : Int
  ttl : Int
  data : D
  deriving DecidableEq, Repr

/-- `XCache` (xcache.go:23-39). `hasValidator` is `Validator != nil`; the function itself is in `Env`. `ID` (informative) and
the mutex are not part of the sequential model. -/
structure Cache (D : Type) where
  maxitems : Int
  expire : Int
  hasValidator : Bool
  items : AMap (Entry D)
  pile : List Str
  deriving DecidableEq, Repr

/-- What the outside world answers during one call: `clk i` is the reading of `time.Now()` at the i-th program point of a
method, `clkAt k` the reading made while a loop examines key `k`, `valid` the validator. -/
structure Env where
  clk : Nat → Int
  clkAt : Str → Int
  valid : Str → Int → Bool

variable {D : Type}

/-- `NewXCache` (xcache.go:47-58). -/
def new (maxitems expire : Int) : Cache D :=
  { maxitems, expire, hasValidator := false, items := [], pile := [] }

/-- `x.ctime.Add(d).Before(now)` (xcache.go:125, 153, 206). -/
def past (ctime d now : Int) : Bool := decide (ctime + d < now)

/-- `removeFromPile` (xcache.go:95-107): drop the first occurrence of the key. -/
def removeFromPile : List Str → Str → List Str
  | [], _ => []
  | x :: xs, k => if x = k then xs else x :: removeFromPile xs k

/-- The loop over expired items of `mClean` (xcache.go:204-214). -/
def sweep (expire : Int) (env : Env) (items : AMap (Entry D)) : AMap (Entry D) :=
  if expire ≠ 0 then items.filter (fun p => !past p.2.ctime expire (env.clkAt p.1)) else items

/-- The eviction loop `for i = 0; i < num; i++ { delete(c.items, c.pile[i]) }` (xcache.go:222-224).
Returns the items and the part of the pile not visited; `none` when `c.pile[i]` is out of range (panic), the items deleted
so far being the first component. The kind of values does not matter. -/
def evictLoop {V : Type} : Nat → AMap V → List Str → AMap V × Option (List Str)
  | 0, items, pile => (items, some pile)
  | _ + 1, items, [] => (items, none)
  | n + 1, items, k :: pile => evictLoop n (items.del k) pile

/-- `num := total * perc / 100` (xcache.go:217-218), Go division truncating toward zero. -/
def cleanNum (total : Nat) (perc : Int) : Int := Int.tdiv (total * perc) 100

/-- `mClean` (xcache.go:198-227): new cache and returned count, `none` on panic (then `c.pile` is unchanged but the deletions
have been done). -/
def mClean (c : Cache D) (env : Env) (perc : Int) : Cache D × Option Int :=
  let items := sweep c.expire env c.items
  let num := cleanNum items.length perc
  match evictLoop num.toNat items c.pile with
  | (items', some pile') => ({ c with items := items', pile := pile' }, some num.toNat)
  | (items', none) => ({ c with items := items' }, none)

/-- `Set` (xcache.go:64-78). The second component is false on panic (of the nested clean). -/
def set (c : Cache D) (env : Env) (k : Str) (d : D) : Cache D × Bool :=
  let present := (c.items.get k).isSome
  let items := c.items.set k { ctime := env.clk 0, rtime := env.clk 1, ttl := 0, data := d }
  let pile := (if present then removeFromPile c.pile k else c.pile) ++ [k]
  let c := { c with items, pile }
  if 0 < c.maxitems ∧ c.maxitems ≤ c.items.length then
    let r := mClean c env 10
    (r.1, r.2.isSome)
  else (c, true)

/-- `SetTTL` (xcache.go:84-91). -/
def setTTL (c : Cache D) (k : Str) (ttl : Int) : Cache D :=
  match c.items.get k with
  | some e => { c with items := c.items.set k { e with ttl } }
  | none => c

/-- `Del` (xcache.go:178-184). -/
def del (c : Cache D) (k : Str) : Cache D :=
  { c with items := c.items.del k, pile := removeFromPile c.pile k }

/-- The three validity checks of `Get` (xcache.go:124-166), in order: TTL (clock reading 0), Validator, Expire (clock
reading 1). True when the entry is to be dropped. -/
def invalid (c : Cache D) (env : Env) (k : Str) (e : Entry D) : Bool :=
  (decide (e.ttl ≠ 0) && past e.ctime e.ttl (env.clk 0)) ||
  (c.hasValidator && !env.valid k e.ctime) ||
  (decide (c.expire ≠ 0) && past e.ctime c.expire (env.clk 1))

/-- `Get` with `mGet` (xcache.go:110-115, 121-175). The returned pair is Go's `(interface{}, bool)`; the first component is
`none` where Go returns the literal `nil`. -/
def get (c : Cache D) (env : Env) (k : Str) : Cache D × (Option D × Bool) :=
  match c.items.get k with
  | some e =>
    if invalid c env k e then (del c k, (none, true))
    else
      ({ c with
          items := c.items.set k { e with rtime := env.clk 2 },
          pile := removeFromPile c.pile k ++ [k] },
       (some e.data, false))
  | none => (c, (none, false))

/-- `Count` (xcache.go:187-192). -/
def count (c : Cache D) : Nat := c.items.length

/-- `Clean` (xcache.go:233-237). -/
def clean (c : Cache D) (env : Env) (perc : Int) : Cache D × Option Int := mClean c env perc

/-- The validator loop of `Verify` (xcache.go:247-261) over the entries present when it starts, accumulating the number of
deletions. -/
def verifyLoop (env : Env) : List (Str × Entry D) → Cache D → Int → Cache D × Int
  | [], c, i => (c, i)
  | (k, x) :: rest, c, i =>
    if !env.valid k x.ctime then verifyLoop env rest (del c k) (i + 1) else verifyLoop env rest c i

/-- `Verify` (xcache.go:242-264). `none` on panic of the initial clean. -/
def verify (c : Cache D) (env : Env) : Cache D × Option Int :=
  match clean c env 0 with
  | (c', none) => (c', none)
  | (c', some i) =>
    if c'.hasValidator then
      let r := verifyLoop env c'.items c' i
      (r.1, some r.2)
    else (c', some i)

/-- `Flush` (xcache.go:268-273): only `items` is replaced. -/
def flush (c : Cache D) : Cache D := { c with items := [] }

/-- One call on the cache, or an assignment to one of its exported configuration fields. -/
inductive Op (D : Type) where
  | set (k : Str) (d : D)
  | setTTL (k : Str) (ttl : Int)
  | get (k : Str)
  | del (k : Str)
  | count
  | clean (perc : Int)
  | verify
  | flush
  | setMaxitems (m : Int)
  | setExpire (e : Int)
  | setValidator (b : Bool)
  deriving DecidableEq, Repr

/-- Observable answer of a call. -/
inductive Out (D : Type) where
  | unit
  | got (d : Option D) (invalid : Bool)
  | num (n : Int)
  | panicked
  deriving DecidableEq, Repr

/-- Dispatch of one call. -/
def step (c : Cache D) (env : Env) : Op D → Cache D × Out D
  | .set k d => let r := set c env k d; (r.1, if r.2 then .unit else .panicked)
  | .setTTL k t => (setTTL c k t, .unit)
  | .get k => let r := get c env k; (r.1, .got r.2.1 r.2.2)
  | .del k => (del c k, .unit)
  | .count => (c, .num (count c))
  | .clean p => let r := clean c env p; (r.1, match r.2 with | some n => .num n | none => .panicked)
  | .verify => let r := verify c env; (r.1, match r.2 with | some n => .num n | none => .panicked)
  | .flush => (flush c, .unit)
  | .setMaxitems m => ({ c with maxitems := m }, .unit)
  | .setExpire e => ({ c with expire := e }, .unit)
  | .setValidator b => ({ c with hasValidator := b }, .unit)

/-- Run a history of calls, each in its own environment; returns the final cache and all the answers in order. -/
def run (c : Cache D) : List (Env × Op D) → Cache D × List (Out D)
  | [] => (c, [])
  | (env, op) :: h =>
    let (c', o) := step c env op
    let (c'', os) := run c' h
    (c'', o :: os)

end Xcore.Cache
