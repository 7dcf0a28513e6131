import Verif.Model.CacheConc

/-!
# The memory accesses of the steps of XCache

`v2/xcache.go`. For every step of Model/CacheConc.lean: which memory cells it reads and writes, and whether it does so with the mutex. A Go
map is one cell (the runtime and the race detector treat it so), the slice `c.pile` with its array is one cell, every field of an entry is a
cell of its own. A step that may write a cell is counted as writing it (deleting an absent key of a map counts as a write, as it does for the
race detector). Reads of the clock, of `LOG` and of the cached data themselves are not counted.
-/

namespace Xcore.CacheConc

open Cache

/-- The memory cells (xcache.go:10-39). `map n` is the n-th map the cache has had: Flush makes a new one (xcache.go:272). -/
inductive Cell where
  | maxitems
  | expire
  | validator
  /-- the field `c.items` -/
  | items
  | map (n : Nat)
  | pile
  | ctime (id : Nat)
  | rtime (id : Nat)
  | ttl (id : Nat)
  | data (id : Nat)
  deriving DecidableEq, Repr

/-- How a step holds the mutex: not, with RLock, with Lock. -/
inductive Held where
  | no
  | shared
  | exclusive
  deriving DecidableEq, Repr

/-- A step of some goroutine: a step of Model/CacheConc.lean, or `Count` (xcache.go:187-192). -/
inductive Move (D : Type) where
  | act (a : Act D)
  | count

variable {D : Type}

/-- The goroutine of a step, where the model names it; the other steps can be taken by any goroutine that is in no call. -/
def Move.owner : Move D → Option Nat
  | .act (.getStart t _) | .act (.checkTTL t _) | .act (.checkVal t _) | .act (.checkExp t _) | .act (.writeRtime t _) | .act (.getEnd t)
  | .act (.getDrop t) | .act (.verifyStart t _) | .act (.verifyPick t _ _) | .act (.verifyDel t) | .act (.verifyEnd t) => some t
  | _ => none

/-- Lock and RLock around the step: Set, SetTTL, Del, Clean, Flush (xcache.go:65-66, 85-86, 179-180, 234-235, 270-271), `mGet` and Count
(xcache.go:111-112, 188-189), the end of Get (xcache.go:168-169) and the Del inside Get and Verify. The rest of Get and Verify, and
assignments to the exported fields, are done without. -/
def Move.held : Move D → Held
  | .count | .act (.getStart _ _) => .shared
  | .act (.set _ _ _) | .act (.setTTL _ _) | .act (.del _) | .act (.clean _ _) | .act .flush | .act (.getEnd _) | .act (.getDrop _)
  | .act (.verifyStart _ _) | .act (.verifyDel _) => .exclusive
  | _ => .no

/-- Whether the step is possible. -/
def Move.able (st : St D) : Move D → Bool
  | .act a => (apply st a).isSome
  | .count => true

/-- All the maps the cache has had, the present one last. -/
def maps (st : St D) : List (AMap Nat) := st.left ++ [st.sh.items]

/-- The creation times of the entries of a map are read. -/
def ctimes (items : AMap Nat) : List (Cell × Bool) := items.map fun p => (.ctime p.2, false)

/-- The accesses of `mClean` (xcache.go:198-227) on a map: `true` is a write. -/
def cleanCells (st : St D) (items : AMap Nat) : List (Cell × Bool) :=
  [(.expire, false), (.items, false), (.map st.left.length, true), (.pile, true)] ++ ctimes items

/-- The accesses of `Del` (xcache.go:178-184). -/
def delCells (st : St D) : List (Cell × Bool) := [(.items, false), (.map st.left.length, true), (.pile, true)]

/-- The maps among the first `n` that the loop of a Verify begun after `m` of them may range over and that have the key, with the entry read
(xcache.go:247-248). -/
def pickCells (st : St D) (m : Nat) (k : Str) : List (Cell × Bool) :=
  (List.range (maps st).length).flatMap fun j =>
    if m ≤ j then
      match ((maps st)[j]?).bind (fun items => AMap.get items k) with
      | some id => [(.map j, false), (.ctime id, false)]
      | none => []
    else []

/-- The accesses of a step; `true` is a write. -/
def Move.cells (st : St D) : Move D → List (Cell × Bool)
  -- xcache.go:64-78; the new entry is written before it gets into the map
  | .act (.set env k d) =>
    [(.items, false), (.map st.left.length, true), (.pile, true), (.maxitems, false), (.ctime st.sh.heap.length, true),
      (.rtime st.sh.heap.length, true), (.ttl st.sh.heap.length, true), (.data st.sh.heap.length, true)] ++
    if 0 < st.sh.maxitems ∧ st.sh.maxitems ≤ (setRaw st.sh env k d).items.length then cleanCells st (setRaw st.sh env k d).items else []
  -- xcache.go:84-91
  | .act (.setTTL k _) => [(.items, false), (.map st.left.length, false)] ++
    match st.sh.items.get k with
    | some id => [(.ttl id, true)]
    | none => []
  | .act (.del _) => delCells st
  | .act (.clean _ _) => cleanCells st st.sh.items
  -- xcache.go:268-273
  | .act .flush => [(.items, true)]
  | .act (.setMaxitems _) => [(.maxitems, true)]
  | .act (.setExpire _) => [(.expire, true)]
  | .act (.setValidator _) => [(.validator, true)]
  -- xcache.go:110-115
  | .act (.getStart _ _) => [(.items, false), (.map st.left.length, false)]
  -- xcache.go:124-125
  | .act (.checkTTL t _) => match st.pcs t with
    | .loaded _ id => [(.ttl id, false), (.ctime id, false)]
    | _ => []
  -- xcache.go:136-137
  | .act (.checkVal t _) => match st.pcs t with
    | .ttlOk _ id => [(.validator, false), (.ctime id, false)]
    | _ => []
  -- xcache.go:152-153
  | .act (.checkExp t _) => match st.pcs t with
    | .valOk _ id => [(.expire, false), (.ctime id, false)]
    | _ => []
  -- xcache.go:167
  | .act (.writeRtime t _) => match st.pcs t with
    | .good _ id => [(.rtime id, true)]
    | _ => []
  -- xcache.go:168-172
  | .act (.getEnd t) => match st.pcs t with
    | .touch _ id => [(.pile, true), (.data id, false)]
    | _ => []
  | .act (.getDrop _) => delCells st
  | .act (.verifyStart _ _) => cleanCells st st.sh.items
  -- xcache.go:246-248: without a validator there is no loop
  | .act (.verifyPick t k _) => match st.pcs t with
    | .verifying m => if st.sh.hasValidator then [(.validator, false), (.items, false)] ++ pickCells st m k else []
    | _ => []
  | .act (.verifyDel _) => delCells st
  -- xcache.go:246-247, the end of the loop
  | .act (.verifyEnd t) => match st.pcs t with
    | .verifying m => (.validator, false) ::
      if st.sh.hasValidator then (.items, false) :: ((List.range (maps st).length).filter (m ≤ ·)).map fun j => (.map j, false) else []
    | _ => []
  -- xcache.go:187-192
  | .count => [(.items, false), (.map st.left.length, false)]

end Xcore.CacheConc
