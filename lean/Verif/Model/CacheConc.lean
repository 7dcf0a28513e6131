import Verif.Model.Cache

/-!
# XCache used by any number of goroutines

`v2/xcache.go`. Entries are objects on a heap: `Get` keeps a pointer to the entry it found and looks at it after releasing the
lock, while other goroutines may replace the entry, change its TTL or delete the key. The sections protected by the mutex are
single steps here (that they behave so is proved in `Props/Lock.lean`); everything `Get` and `Verify` do outside the lock is
split in separate steps. Clock readings and validator answers are arguments of the steps, so they are arbitrary. `Verify`
iterates over the live map without lock: the model lets it pick any present key at any time and stop at any time (in Go this is
moreover a data race, whose crash is not modelled). When another goroutine calls Flush meanwhile, the loop goes on over the map that Flush
abandoned; since `range c.items` reads the field some time after `Clean(0)` released the lock, it may also be over a later map: the model lets
it pick the keys of any map that was the map of the cache since its `Clean(0)`.
-/

namespace Xcore.CacheConc

open Cache

/-- The state shared by the goroutines: `items` maps keys to entry identities (Go pointers `*XCacheEntry`), `heap` holds the
entries (xcache.go:10-39). -/
structure Shared (D : Type) where
  maxitems : Int
  expire : Int
  hasValidator : Bool
  items : AMap Nat
  heap : List (Entry D)
  pile : List Str

/-- Where a goroutine is. `loaded … touch` are the points of `Get` (xcache.go:121-175) after `mGet` found entry `id`; `doomed` is
the point before `c.Del(key)`. `verifying` and `vdoomed` are the points of `Verify` (xcache.go:242-264) in the loop and before `c.Del`; `m` tells how many
maps Flush had abandoned when the call did its `Clean(0)`. -/
inductive PC where
  | idle
  | loaded (k : Str) (id : Nat)
  | ttlOk (k : Str) (id : Nat)
  | valOk (k : Str) (id : Nat)
  | good (k : Str) (id : Nat)
  | touch (k : Str) (id : Nat)
  | doomed (k : Str) (id : Nat)
  | verifying (m : Nat)
  | vdoomed (k : Str) (m : Nat)
  deriving DecidableEq, Repr

/-- What can be observed. -/
inductive Obs (D : Type) where
  /-- A Set stored `d` under `k`. -/
  | stored (k : Str) (d : D)
  /-- A Get of `k` by goroutine `t` returned. -/
  | returned (t : Nat) (k : Str) (d : Option D) (invalid : Bool)
  /-- A Get of `k` by goroutine `t` found entry `id` invalid. -/
  | condemned (t : Nat) (k : Str) (id : Nat)
  /-- A clean with this percentage panicked. -/
  | panicked (perc : Int)
  deriving DecidableEq, Repr

/-- The system: shared state, the maps that Flush abandoned (oldest first), goroutines, observations so far (oldest first). -/
structure St (D : Type) where
  sh : Shared D
  left : List (AMap Nat)
  pcs : Nat → PC
  obs : List (Obs D)

/-- The steps. -/
inductive Act (D : Type) where
  | set (env : Env) (k : Str) (d : D)
  | setTTL (k : Str) (ttl : Int)
  | del (k : Str)
  | clean (env : Env) (perc : Int)
  | flush
  | setMaxitems (m : Int)
  | setExpire (e : Int)
  | setValidator (b : Bool)
  /-- `mGet` of a Get. -/
  | getStart (t : Nat) (k : Str)
  | checkTTL (t : Nat) (now : Int)
  | checkVal (t : Nat) (ok : Bool)
  | checkExp (t : Nat) (now : Int)
  | writeRtime (t : Nat) (now : Int)
  /-- The locked end of a successful Get. -/
  | getEnd (t : Nat)
  /-- The `c.Del(key)` of a Get that found the entry invalid. -/
  | getDrop (t : Nat)
  /-- `Clean(0)` at the beginning of Verify. -/
  | verifyStart (t : Nat) (env : Env)
  /-- Verify looks at one key of the map it ranges over; `ok` is the answer of the validator. -/
  | verifyPick (t : Nat) (k : Str) (ok : Bool)
  | verifyDel (t : Nat)
  | verifyEnd (t : Nat)

variable {D : Type}

/-- Pointwise update. -/
def upd (f : Nat → PC) (t : Nat) (p : PC) : Nat → PC := fun j => if j = t then p else f j

/-- Write one field of an entry through its pointer. -/
def modify (heap : List (Entry D)) (id : Nat) (f : Entry D → Entry D) : List (Entry D) := heap.modify id f

/-- Locked body of `mClean` (xcache.go:198-227); the flag is false on panic. -/
def mClean (s : Shared D) (env : Env) (perc : Int) : Shared D × Bool :=
  let items := if s.expire ≠ 0 then
      s.items.filter (fun p => match s.heap[p.2]? with
        | some e => !past e.ctime s.expire (env.clkAt p.1)
        | none => true)
    else s.items
  match evictLoop (cleanNum items.length perc).toNat items s.pile with
  | (items', some pile') => ({ s with items := items', pile := pile' }, true)
  | (items', none) => ({ s with items := items' }, false)

/-- The state after the unconditional part of `Set` (xcache.go:68-73): a new entry object is created. -/
def setRaw (s : Shared D) (env : Env) (k : Str) (d : D) : Shared D :=
  { s with
    heap := s.heap ++ [{ ctime := env.clk 0, rtime := env.clk 1, ttl := 0, data := d }],
    items := s.items.set k s.heap.length,
    pile := (if (s.items.get k).isSome then removeFromPile s.pile k else s.pile) ++ [k] }

/-- Locked body of `Set` (xcache.go:64-78). -/
def set (s : Shared D) (env : Env) (k : Str) (d : D) : Shared D × Bool :=
  let s := setRaw s env k d
  if 0 < s.maxitems ∧ s.maxitems ≤ s.items.length then mClean s env 10 else (s, true)

/-- Locked body of `Del` (xcache.go:178-184). -/
def del (s : Shared D) (k : Str) : Shared D :=
  { s with items := s.items.del k, pile := removeFromPile s.pile k }

/-- Whether a key is in a map that was the map of the cache since Flush had abandoned `m` maps: one that the loop of a Verify which did its
`Clean(0)` then may range over (xcache.go:247). -/
def ranged (st : St D) (m : Nat) (k : Str) : Bool :=
  (st.sh.items.get k).isSome || (st.left.drop m).any (fun items => (items.get k).isSome)

/-- One step; `none` when it is not possible in this state. -/
def apply (st : St D) : Act D → Option (St D)
  | .set env k d =>
    let r := set st.sh env k d
    some { st with sh := r.1, obs := st.obs ++ (.stored k d :: if r.2 then [] else [.panicked 10]) }
  | .setTTL k ttl =>
    match st.sh.items.get k with
    | some id => some { st with sh := { st.sh with heap := modify st.sh.heap id (fun e => { e with ttl }) } }
    | none => some st
  | .del k => some { st with sh := del st.sh k }
  | .clean env p =>
    let r := mClean st.sh env p
    some { st with sh := r.1, obs := st.obs ++ if r.2 then [] else [.panicked p] }
  | .flush => some { st with sh := { st.sh with items := [] }, left := st.left ++ [st.sh.items] }
  | .setMaxitems m => some { st with sh := { st.sh with maxitems := m } }
  | .setExpire e => some { st with sh := { st.sh with expire := e } }
  | .setValidator b => some { st with sh := { st.sh with hasValidator := b } }
  | .getStart t k =>
    match st.pcs t with
    | .idle =>
      match st.sh.items.get k with
      | some id => some { st with pcs := upd st.pcs t (.loaded k id) }
      | none => some { st with obs := st.obs ++ [.returned t k none false] }
    | _ => none
  | .checkTTL t now =>
    match st.pcs t with
    | .loaded k id =>
      match st.sh.heap[id]? with
      | some e =>
        if e.ttl ≠ 0 ∧ past e.ctime e.ttl now then
          some { st with pcs := upd st.pcs t (.doomed k id), obs := st.obs ++ [.condemned t k id] }
        else some { st with pcs := upd st.pcs t (.ttlOk k id) }
      | none => none
    | _ => none
  | .checkVal t ok =>
    match st.pcs t with
    | .ttlOk k id =>
      if st.sh.hasValidator ∧ !ok then
        some { st with pcs := upd st.pcs t (.doomed k id), obs := st.obs ++ [.condemned t k id] }
      else some { st with pcs := upd st.pcs t (.valOk k id) }
    | _ => none
  | .checkExp t now =>
    match st.pcs t with
    | .valOk k id =>
      match st.sh.heap[id]? with
      | some e =>
        if st.sh.expire ≠ 0 ∧ past e.ctime st.sh.expire now then
          some { st with pcs := upd st.pcs t (.doomed k id), obs := st.obs ++ [.condemned t k id] }
        else some { st with pcs := upd st.pcs t (.good k id) }
      | none => none
    | _ => none
  | .writeRtime t now =>
    match st.pcs t with
    | .good k id =>
      some { st with
        sh := { st.sh with heap := modify st.sh.heap id (fun e => { e with rtime := now }) },
        pcs := upd st.pcs t (.touch k id) }
    | _ => none
  | .getEnd t =>
    match st.pcs t with
    | .touch k id =>
      match st.sh.heap[id]? with
      | some e =>
        some { st with
          sh := { st.sh with pile := removeFromPile st.sh.pile k ++ [k] },
          pcs := upd st.pcs t .idle,
          obs := st.obs ++ [.returned t k (some e.data) false] }
      | none => none
    | _ => none
  | .getDrop t =>
    match st.pcs t with
    | .doomed k _ =>
      some { st with sh := del st.sh k, pcs := upd st.pcs t .idle, obs := st.obs ++ [.returned t k none true] }
    | _ => none
  | .verifyStart t env =>
    match st.pcs t with
    | .idle =>
      let r := mClean st.sh env 0
      some { st with sh := r.1, pcs := upd st.pcs t (.verifying st.left.length), obs := st.obs ++ if r.2 then [] else [.panicked 0] }
    | _ => none
  | .verifyPick t k ok =>
    match st.pcs t with
    | .verifying m =>
      if ranged st m k then if st.sh.hasValidator ∧ !ok then some { st with pcs := upd st.pcs t (.vdoomed k m) } else some st
      else none
    | _ => none
  | .verifyDel t =>
    match st.pcs t with
    | .vdoomed k m => some { st with sh := del st.sh k, pcs := upd st.pcs t (.verifying m) }
    | _ => none
  | .verifyEnd t =>
    match st.pcs t with
    | .verifying _ => some { st with pcs := upd st.pcs t .idle }
    | _ => none

/-- A schedule: steps executed one after the other; `none` if one of them is not possible. -/
def runActs : St D → List (Act D) → Option (St D)
  | st, [] => some st
  | st, a :: as => match apply st a with
    | some st' => runActs st' as
    | none => none

/-- A new cache, every goroutine idle. -/
def init (maxitems expire : Int) : St D :=
  ⟨⟨maxitems, expire, false, [], [], []⟩, [], fun _ => .idle, []⟩

end Xcore.CacheConc
