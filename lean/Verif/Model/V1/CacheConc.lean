import Verif.Model.V1.Cache

/-!
# XCache of version 1 used by any number of goroutines

`xcache.go` (root package). Entries are objects on a heap, as in the model of version 2 (Verif/Model/CacheConc.lean). What is done
between Lock and Unlock is one step; what is done outside the lock is split into single accesses. Two things are different from version
2: the end of a successful `Get` changes the pile without the lock (xcache.go:126-128), and no method defers the unlock, so a panic
leaves the mutex locked for ever.

The unsynchronised accesses are modelled as loads and stores of the whole slice `c.pile`. A data race may do worse (torn slices,
overwritten backing arrays): the step `tear` replaces the pile by any list at any moment. Crashes of the runtime by concurrent map
accesses (`len(c.items)` in Set and the loop of Verify are outside the lock) are not modelled. When another goroutine calls Flush meanwhile,
the loop of Verify goes on over a map that Flush abandoned, as in the model of version 2.
-/

namespace Xcore.V1.CacheConc

open Xcore.Cache (Env)
open Xcore.V1.Cache (Entry removeFromPile)

/-- The shared state (xcache.go:10-37); `locked` is true once a method has panicked with the mutex locked. -/
structure Shared (D : Type) where
  maxitems : Int
  expire : Int
  hasValidator : Bool
  items : AMap Nat
  heap : List (Entry D)
  pile : List Str
  locked : Bool

/-- Where a goroutine is. -/
inductive PC where
  | idle
  /-- `Set` (xcache.go:71) after the unlock. -/
  | setDone
  /-- `Get` (xcache.go:100) after the unlock: entry found. -/
  | loaded (k : Str) (id : Nat)
  | valOk (k : Str) (id : Nat)
  | good (k : Str) (id : Nat)
  /-- `c.removeFromPile(key)` (xcache.go:127): before the load of the pile. -/
  | touch (k : Str) (id : Nat)
  /-- The pile has been loaded, the shortened one has not been stored. -/
  | removing (k : Str) (id : Nat) (pile : List Str)
  /-- `c.pile = append(c.pile, key)` (xcache.go:128): before the load of the pile. -/
  | removed (k : Str) (id : Nat)
  | adding (k : Str) (id : Nat) (pile : List Str)
  /-- Before the lock and delete of a Get that found the entry invalid (xcache.go:107-110, 119-122). -/
  | doomed (k : Str) (id : Nat)
  /-- The loop of `Verify` (xcache.go:192-210); `m`: how many maps Flush had abandoned when the call did its `Clean(0)`. -/
  | verifying (m : Nat)
  | vdoomed (k : Str) (m : Nat)
  deriving DecidableEq, Repr

/-- What can be observed. -/
inductive Obs (D : Type) where
  | stored (k : Str) (d : D)
  | returned (t : Nat) (k : Str) (d : Option D) (invalid : Bool)
  | panicked (perc : Int)
  deriving DecidableEq, Repr

/-- The system; `left`: the maps that Flush abandoned, oldest first. -/
structure St (D : Type) where
  sh : Shared D
  left : List (AMap Nat)
  pcs : Nat → PC
  obs : List (Obs D)

/-- The steps. -/
inductive Act (D : Type) where
  | set (t : Nat) (env : Env) (k : Str) (d : D)
  /-- The second half of Set (xcache.go:72-75): the cache is full. -/
  | setFull (t : Nat) (env : Env)
  | setOk (t : Nat)
  | del (k : Str)
  | clean (env : Env) (perc : Int)
  | flush
  | setMaxitems (m : Int)
  | setExpire (e : Int)
  | setValidator (b : Bool)
  | getStart (t : Nat) (k : Str)
  | checkVal (t : Nat) (ok : Bool)
  | checkExp (t : Nat) (now : Int)
  | writeRtime (t : Nat) (now : Int)
  | loadPile (t : Nat)
  | storePile (t : Nat)
  | getDrop (t : Nat)
  | verifyStart (t : Nat) (env : Env)
  | verifyPick (t : Nat) (k : Str) (ok : Bool)
  | verifyDel (t : Nat)
  | verifyEnd (t : Nat)
  /-- A data race on the pile. -/
  | tear (pile : List Str)

variable {D : Type}

/-- Pointwise update. -/
def upd (f : Nat → PC) (t : Nat) (p : PC) : Nat → PC := fun j => if j = t then p else f j

/-- `Clean` (xcache.go:156-187) from Lock to Unlock; a panic leaves the mutex locked. -/
def clean (s : Shared D) (env : Env) (perc : Int) : Shared D × Bool :=
  let items := if s.expire ≠ 0 then
      s.items.filter fun p => match s.heap[p.2]? with
        | some e => !decide (e.ctime + s.expire < env.clkAt p.1)
        | none => true
    else s.items
  let num := (Int.tdiv (items.length * perc) 100).toNat
  let items' := (s.pile.take num).foldl (fun m k => AMap.del m k) items
  if num ≤ s.pile.length then ({ s with items := items', pile := s.pile.drop num }, true)
  else ({ s with items := items', locked := true }, false)

/-- `Set` (xcache.go:63-71), the locked part. -/
def set (s : Shared D) (env : Env) (k : Str) (d : D) : Shared D :=
  { s with
    heap := s.heap ++ [{ ctime := env.clk 0, rtime := env.clk 1, data := d }],
    items := s.items.set k s.heap.length,
    pile := (if (s.items.get k).isSome then removeFromPile s.pile k else s.pile) ++ [k] }

/-- The locked part of `Del` (xcache.go:137-141). -/
def del (s : Shared D) (k : Str) : Shared D := { s with items := s.items.del k, pile := removeFromPile s.pile k }

/-- Whether a key is in a map that the loop of a Verify at this point may range over: one that was the map of the cache since its `Clean(0)`
(xcache.go:197). -/
def ranged (st : St D) (p : PC) (k : Str) : Bool :=
  match p with
  | .verifying m => (st.sh.items.get k).isSome || (st.left.drop m).any (fun items => (items.get k).isSome)
  | _ => false

/-- One step; `none` when it is not possible in this state. A step that needs the mutex is not possible when it is locked for ever. -/
def apply (st : St D) : Act D → Option (St D)
  | .set t env k d =>
    match st.sh.locked, st.pcs t with
    | false, .idle => some { st with sh := set st.sh env k d, pcs := upd st.pcs t .setDone, obs := st.obs ++ [.stored k d] }
    | _, _ => none
  | .setFull t env =>
    match st.sh.locked, st.pcs t with
    | false, .setDone =>
      if 0 < st.sh.maxitems ∧ st.sh.maxitems ≤ st.sh.items.length then
        some { st with sh := (clean st.sh env 10).1, pcs := upd st.pcs t .idle, obs := st.obs ++ if (clean st.sh env 10).2 then [] else [.panicked 10] }
      else none
    | _, _ => none
  | .setOk t =>
    match st.pcs t with
    | .setDone =>
      if 0 < st.sh.maxitems ∧ st.sh.maxitems ≤ st.sh.items.length then none else some { st with pcs := upd st.pcs t .idle }
    | _ => none
  | .del k => if st.sh.locked then none else some { st with sh := del st.sh k }
  | .clean env p =>
    if st.sh.locked then none
    else some { st with sh := (clean st.sh env p).1, obs := st.obs ++ if (clean st.sh env p).2 then [] else [.panicked p] }
  | .flush => if st.sh.locked then none else some { st with sh := { st.sh with items := [] }, left := st.left ++ [st.sh.items] }
  | .setMaxitems m => some { st with sh := { st.sh with maxitems := m } }
  | .setExpire e => some { st with sh := { st.sh with expire := e } }
  | .setValidator b => some { st with sh := { st.sh with hasValidator := b } }
  | .getStart t k =>
    match st.sh.locked, st.pcs t with
    | false, .idle =>
      match st.sh.items.get k with
      | some id => some { st with pcs := upd st.pcs t (.loaded k id) }
      | none => some { st with obs := st.obs ++ [.returned t k none false] }
    | _, _ => none
  | .checkVal t ok =>
    match st.pcs t with
    | .loaded k id =>
      if st.sh.hasValidator && !ok then some { st with pcs := upd st.pcs t (.doomed k id) }
      else some { st with pcs := upd st.pcs t (.valOk k id) }
    | _ => none
  | .checkExp t now =>
    match st.pcs t with
    | .valOk k id =>
      match st.sh.heap[id]? with
      | some e =>
        if st.sh.expire ≠ 0 ∧ e.ctime + st.sh.expire < now then some { st with pcs := upd st.pcs t (.doomed k id) }
        else some { st with pcs := upd st.pcs t (.good k id) }
      | none => none
    | _ => none
  | .writeRtime t now =>
    match st.pcs t with
    | .good k id =>
      some { st with
        sh := { st.sh with heap := st.sh.heap.modify id fun e => { e with rtime := now } }, pcs := upd st.pcs t (.touch k id) }
    | _ => none
  | .loadPile t =>
    match st.pcs t with
    | .touch k id => some { st with pcs := upd st.pcs t (.removing k id st.sh.pile) }
    | .removed k id => some { st with pcs := upd st.pcs t (.adding k id st.sh.pile) }
    | _ => none
  | .storePile t =>
    match st.pcs t with
    | .removing k id pile => some { st with sh := { st.sh with pile := removeFromPile pile k }, pcs := upd st.pcs t (.removed k id) }
    | .adding k id pile =>
      match st.sh.heap[id]? with
      | some e =>
        some { st with sh := { st.sh with pile := pile ++ [k] }, pcs := upd st.pcs t .idle, obs := st.obs ++ [.returned t k (some e.data) false] }
      | none => none
    | _ => none
  | .getDrop t =>
    match st.sh.locked, st.pcs t with
    | false, .doomed k _ =>
      some { st with sh := del st.sh k, pcs := upd st.pcs t .idle, obs := st.obs ++ [.returned t k none true] }
    | _, _ => none
  | .verifyStart t env =>
    match st.sh.locked, st.pcs t with
    | false, .idle =>
      some { st with sh := (clean st.sh env 0).1, pcs := upd st.pcs t (.verifying st.left.length), obs := st.obs ++ if (clean st.sh env 0).2 then [] else [.panicked 0] }
    | _, _ => none
  | .verifyPick t k ok =>
    match st.pcs t, ranged st (st.pcs t) k with
    | .verifying m, true => if st.sh.hasValidator && !ok then some { st with pcs := upd st.pcs t (.vdoomed k m) } else some st
    | _, _ => none
  | .verifyDel t =>
    match st.sh.locked, st.pcs t with
    | false, .vdoomed k m => some { st with sh := { st.sh with items := st.sh.items.del k }, pcs := upd st.pcs t (.verifying m) }
    | _, _ => none
  | .verifyEnd t =>
    match st.pcs t with
    | .verifying _ => some { st with pcs := upd st.pcs t .idle }
    | _ => none
  | .tear pile => some { st with sh := { st.sh with pile } }

/-- A schedule: steps executed one after the other; `none` if one of them is not possible. -/
def runActs : St D → List (Act D) → Option (St D)
  | st, [] => some st
  | st, a :: as => match apply st a with
    | some st' => runActs st' as
    | none => none

/-- A new cache, every goroutine idle. -/
def init (maxitems expire : Int) : St D :=
  ⟨⟨maxitems, expire, false, [], [], [], false⟩, [], fun _ => .idle, []⟩

end Xcore.V1.CacheConc
