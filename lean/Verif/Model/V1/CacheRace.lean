import Verif.Model.V1.CacheConc

/-!
# The memory accesses of the steps of XCache of version 1

`xcache.go` (root package). As for version 2 (Verif/Model/CacheRace.lean), but every access tells for itself whether it is done with the mutex:
the second half of Set looks at the size of the map without it and then calls Clean, which takes it. The accesses of `removeFromPile` and
`append` at the end of a Get to the pile and its array are those of the steps `loadPile` (reads) and `storePile` (writes). A step that may
access a cell is counted as accessing it.
-/

namespace Xcore.V1.CacheConc

open Xcore.Cache (Env)

/-- The memory cells (xcache.go:10-37). `map n` is the n-th map the cache has had: Flush makes a new one (xcache.go:217). -/
inductive Cell where
  | maxitems
  | expire
  | validator
  /-- the field `c.items` -/
  | items
  | map (n : Nat)
  | pile
  | ctime (id : Nat)
  | rtime (id : Nat)
  | data (id : Nat)
  deriving DecidableEq, Repr

/-- An access: read or write, with the mutex locked or not. -/
structure Access where
  cell : Cell
  write : Bool
  locked : Bool
  deriving DecidableEq, Repr

/-- A step of some goroutine: a step of Model/V1/CacheConc.lean, or `Count` (xcache.go:145-150). -/
inductive Move (D : Type) where
  | act (a : Act D)
  | count

variable {D : Type}

/-- The goroutine of a step, where the model names it; the other steps can be taken by any goroutine that is in no call. -/
def Move.owner : Move D → Option Nat
  | .act (.set t _ _ _) | .act (.setFull t _) | .act (.setOk t) | .act (.getStart t _) | .act (.checkVal t _) | .act (.checkExp t _)
  | .act (.writeRtime t _) | .act (.loadPile t) | .act (.storePile t) | .act (.getDrop t) | .act (.verifyStart t _)
  | .act (.verifyPick t _ _) | .act (.verifyDel t) | .act (.verifyEnd t) => some t
  | _ => none

/-- Whether the step is possible. `tear` stands for what a race may do and is no step of a program. -/
def Move.able (st : St D) : Move D → Bool
  | .act (.tear _) => false
  | .act a => (apply st a).isSome
  | .count => !st.sh.locked

/-- All the maps the cache has had, the present one last. -/
def maps (st : St D) : List (AMap Nat) := st.left ++ [st.sh.items]

/-- The accesses of `Clean` (xcache.go:156-187), all with the mutex. -/
def cleanCells (st : St D) : List Access :=
  [⟨.expire, false, true⟩, ⟨.items, false, true⟩, ⟨.map st.left.length, true, true⟩, ⟨.pile, true, true⟩] ++
    st.sh.items.map fun p => ⟨.ctime p.2, false, true⟩

/-- The accesses of `Del`, and of the deletion in Get (xcache.go:106-109, 119-122, 136-142). -/
def delCells (st : St D) : List Access := [⟨.items, false, true⟩, ⟨.map st.left.length, true, true⟩, ⟨.pile, true, true⟩]

/-- The look of Set at the size of the map (xcache.go:72), without the mutex. -/
def sizeCells (st : St D) : List Access :=
  ⟨.maxitems, false, false⟩ :: if 0 < st.sh.maxitems then [⟨.items, false, false⟩, ⟨.map st.left.length, false, false⟩] else []

/-- The maps that the loop of a Verify begun after `m` of them may range over and that have the key, with the entry read
(xcache.go:197-198). -/
def pickCells (st : St D) (m : Nat) (k : Str) : List Access :=
  (List.range (maps st).length).flatMap fun j =>
    if m ≤ j then
      match ((maps st)[j]?).bind (fun items => AMap.get items k) with
      | some id => [⟨.map j, false, false⟩, ⟨.ctime id, false, false⟩]
      | none => []
    else []

/-- The accesses of a step. -/
def Move.cells (st : St D) : Move D → List Access
  -- xcache.go:63-71
  | .act (.set _ _ _ _) =>
    [⟨.items, false, true⟩, ⟨.map st.left.length, true, true⟩, ⟨.pile, true, true⟩, ⟨.ctime st.sh.heap.length, true, true⟩,
      ⟨.rtime st.sh.heap.length, true, true⟩, ⟨.data st.sh.heap.length, true, true⟩]
  -- xcache.go:72-75
  | .act (.setFull _ _) => sizeCells st ++ cleanCells st
  | .act (.setOk _) => sizeCells st
  | .act (.del _) => delCells st
  | .act (.clean _ _) => cleanCells st
  -- xcache.go:214-219
  | .act .flush => [⟨.items, true, true⟩]
  | .act (.setMaxitems _) => [⟨.maxitems, true, false⟩]
  | .act (.setExpire _) => [⟨.expire, true, false⟩]
  | .act (.setValidator _) => [⟨.validator, true, false⟩]
  -- xcache.go:98-100
  | .act (.getStart _ _) => [⟨.items, false, true⟩, ⟨.map st.left.length, false, true⟩]
  -- xcache.go:101-102
  | .act (.checkVal t _) => match st.pcs t with
    | .loaded _ id => [⟨.validator, false, false⟩, ⟨.ctime id, false, false⟩]
    | _ => []
  -- xcache.go:114-115
  | .act (.checkExp t _) => match st.pcs t with
    | .valOk _ id => [⟨.expire, false, false⟩, ⟨.ctime id, false, false⟩]
    | _ => []
  -- xcache.go:126
  | .act (.writeRtime t _) => match st.pcs t with
    | .good _ id => [⟨.rtime id, true, false⟩]
    | _ => []
  -- xcache.go:127-128: the pile is read
  | .act (.loadPile _) => [⟨.pile, false, false⟩]
  -- xcache.go:127-129: the pile is written, and at the end the data are read
  | .act (.storePile t) => ⟨.pile, true, false⟩ :: match st.pcs t with
    | .adding _ id _ => [⟨.data id, false, false⟩]
    | _ => []
  | .act (.getDrop _) => delCells st
  | .act (.verifyStart _ _) => cleanCells st
  -- xcache.go:196-198: without a validator there is no loop
  | .act (.verifyPick t k _) => match st.pcs t with
    | .verifying m => if st.sh.hasValidator then [⟨.validator, false, false⟩, ⟨.items, false, false⟩] ++ pickCells st m k else []
    | _ => []
  -- xcache.go:202-204
  | .act (.verifyDel _) => [⟨.items, false, true⟩, ⟨.map st.left.length, true, true⟩]
  -- xcache.go:196-197, the end of the loop
  | .act (.verifyEnd t) => match st.pcs t with
    | .verifying m => ⟨.validator, false, false⟩ ::
      if st.sh.hasValidator then
        ⟨.items, false, false⟩ :: ((List.range (maps st).length).filter (m ≤ ·)).map fun j => ⟨.map j, false, false⟩
      else []
    | _ => []
  | .act (.tear _) => []
  -- xcache.go:145-150
  | .count => [⟨.items, false, true⟩, ⟨.map st.left.length, false, true⟩]

end Xcore.V1.CacheConc
