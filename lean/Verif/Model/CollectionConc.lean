import Verif.Model.Dataset

/-!
# Goroutines using one `XDatasetCollectionTS`, lookups included

`GetData` and everything built on it (xdatasetcollectionts.go:83-157) does not hold the lock from beginning to end: it reads the length in one
critical section, every element in a critical section of its own, and asks the element without lock. Here a critical section is one step:
`Xcore.Dataset.C14_collectionTS_methods_atomic` shows that this loses nothing. Left out: `Count`, `Get`, `String` and `Clone`.

Simplifications: the elements of this collection are kept apart from the heap with the datasets, so paths that lead from an element back into this
very collection are not modelled; `Set` on an element is one step (elements that goroutines change are `XDatasetTS`).
-/

namespace Xcore.CollectionConc

open Dataset

/-- What goroutines do. `assign` is `Set` on some dataset, for instance an element. -/
inductive Op where
  | push (d : Option Addr)
  | pop
  | shift
  | unshift (d : Option Addr)
  | getData (key : Str)
  | assign (a : Addr) (k : Str) (v : Val)
  deriving DecidableEq, Repr

/-- What a call answered. -/
inductive Out where
  | unit
  | elem (d : Option Addr)
  | found (key : Str) (v : Option Val)
  | panic
  deriving DecidableEq, Repr

/-- Where a goroutine is: outside of the collection, or in `GetData(key)` with the elements below `n` still to be asked (`n` is `i + 1` at the
head of the loop), or having read an element `d` to ask. -/
inductive Pos where
  | idle
  | scan (key : Str) (n : Nat)
  | got (key : Str) (n : Nat) (d : Option Addr)
  deriving DecidableEq, Repr

/-- A goroutine. -/
structure Gor where
  pos : Pos
  todo : List Op
  outs : List Out

/-- The system: the datasets, the elements of the collection, and what panics left of the lock: `stuckW` if the write lock was left behind,
`leaked` the number of read locks left behind. -/
structure Conf where
  heap : Heap
  items : List (Option Addr)
  stuckW : Bool
  leaked : Nat
  gor : Nat → Gor

/-- Update of one goroutine. -/
def put (f : Nat → Gor) (i : Nat) (g : Gor) : Nat → Gor := fun j => if j = i then g else f j

/-- Goroutine `i` ends a call with an answer. -/
def answered (c : Conf) (i : Nat) (rest : List Op) (o : Out) : Nat → Gor :=
  put c.gor i ⟨.idle, rest, (c.gor i).outs ++ [o]⟩

/-- Goroutine `i` goes on. -/
def moved (c : Conf) (i : Nat) (rest : List Op) (p : Pos) : Nat → Gor := put c.gor i ⟨p, rest, (c.gor i).outs⟩

/-- One step of goroutine `i`. -/
inductive Step : Conf → Nat → Conf → Prop where
  /-- `Push` (xdatasetcollectionts.go:50-54) -/
  | push {c : Conf} {i : Nat} {d : Option Addr} {rest : List Op} (hp : (c.gor i).pos = .idle) (ht : (c.gor i).todo = .push d :: rest)
      (hw : c.stuckW = false) (hl : c.leaked = 0) :
      Step c i { c with items := c.items ++ [d], gor := answered c i rest .unit }
  /-- `Unshift` (xdatasetcollectionts.go:34-38) -/
  | unshift {c : Conf} {i : Nat} {d : Option Addr} {rest : List Op} (hp : (c.gor i).pos = .idle) (ht : (c.gor i).todo = .unshift d :: rest)
      (hw : c.stuckW = false) (hl : c.leaked = 0) :
      Step c i { c with items := d :: c.items, gor := answered c i rest .unit }
  /-- `Pop` (xdatasetcollectionts.go:57-63) -/
  | pop {c : Conf} {i : Nat} {d : Option Addr} {rest : List Op} (hp : (c.gor i).pos = .idle) (ht : (c.gor i).todo = .pop :: rest)
      (hw : c.stuckW = false) (hl : c.leaked = 0) (hd : c.items.getLast? = some d) :
      Step c i { c with items := c.items.dropLast, gor := answered c i rest (.elem d) }
  /-- `Shift` (xdatasetcollectionts.go:41-47) -/
  | shift {c : Conf} {i : Nat} {d : Option Addr} {l : List (Option Addr)} {rest : List Op} (hp : (c.gor i).pos = .idle)
      (ht : (c.gor i).todo = .shift :: rest) (hw : c.stuckW = false) (hl : c.leaked = 0) (hd : c.items = d :: l) :
      Step c i { c with items := l, gor := answered c i rest (.elem d) }
  /-- `Pop` or `Shift` of an empty collection: index out of range with the lock held (lines 43, 59) -/
  | removePanic {c : Conf} {i : Nat} {op : Op} {rest : List Op} (hp : (c.gor i).pos = .idle) (ht : (c.gor i).todo = op :: rest)
      (ho : op = .pop ∨ op = .shift) (hw : c.stuckW = false) (hl : c.leaked = 0) (hd : c.items = []) :
      Step c i { c with stuckW := true, gor := answered c i rest .panic }
  /-- `GetData` reads the length (lines 84-86) -/
  | start {c : Conf} {i : Nat} {key : Str} {rest : List Op} (hp : (c.gor i).pos = .idle) (ht : (c.gor i).todo = .getData key :: rest)
      (hw : c.stuckW = false) : Step c i { c with gor := moved c i rest (.scan key c.items.length) }
  /-- it reads the next element (lines 87-90) -/
  | read {c : Conf} {i : Nat} {key : Str} {n : Nat} {d : Option Addr} (hp : (c.gor i).pos = .scan key (n + 1))
      (hw : c.stuckW = false) (hd : c.items[n]? = some d) :
      Step c i { c with gor := moved c i (c.gor i).todo (.got key n d) }
  /-- index out of range with the read lock held (line 89) -/
  | readPanic {c : Conf} {i : Nat} {key : Str} {n : Nat} (hp : (c.gor i).pos = .scan key (n + 1))
      (hw : c.stuckW = false) (hd : c.items[n]? = none) :
      Step c i { c with leaked := c.leaked + 1, gor := answered c i (c.gor i).todo .panic }
  /-- it asks the element (lines 91-94): a value -/
  | hit {c : Conf} {i : Nat} {key : Str} {n : Nat} {a : Addr} {v : Val} (hp : (c.gor i).pos = .got key n (some a))
      (hg : get c.heap a key = .ok (some v)) :
      Step c i { c with gor := answered c i (c.gor i).todo (.found key (some v)) }
  /-- no value: the loop goes on -/
  | miss {c : Conf} {i : Nat} {key : Str} {n : Nat} {a : Addr} (hp : (c.gor i).pos = .got key n (some a))
      (hg : get c.heap a key = .ok none) :
      Step c i { c with gor := moved c i (c.gor i).todo (.scan key n) }
  /-- `Get` of a wrapper around nothing panics (no lock of the collection is held) -/
  | getPanic {c : Conf} {i : Nat} {key : Str} {n : Nat} {a : Addr} (hp : (c.gor i).pos = .got key n (some a))
      (hg : get c.heap a key = .panic) :
      Step c i { c with gor := answered c i (c.gor i).todo .panic }
  /-- a nil element is dereferenced (line 91) -/
  | nilPanic {c : Conf} {i : Nat} {key : Str} {n : Nat} (hp : (c.gor i).pos = .got key n none) :
      Step c i { c with gor := answered c i (c.gor i).todo .panic }
  /-- the loop is over (line 96) -/
  | finish {c : Conf} {i : Nat} {key : Str} (hp : (c.gor i).pos = .scan key 0) :
      Step c i { c with gor := answered c i (c.gor i).todo (.found key none) }
  /-- `Set` on a dataset -/
  | assign {c : Conf} {i : Nat} {a : Addr} {k : Str} {v : Val} {h' : Heap} {rest : List Op} (hp : (c.gor i).pos = .idle)
      (ht : (c.gor i).todo = .assign a k v :: rest) (hs : set c.heap a k v = .ok h') :
      Step c i { c with heap := h', gor := answered c i rest .unit }
  /-- `Set` on a wrapper around nothing -/
  | assignPanic {c : Conf} {i : Nat} {a : Addr} {k : Str} {v : Val} {rest : List Op} (hp : (c.gor i).pos = .idle)
      (ht : (c.gor i).todo = .assign a k v :: rest) (hs : set c.heap a k v = .panic) :
      Step c i { c with gor := answered c i rest .panic }

/-- Configurations reachable by any schedule. -/
inductive Reach (c0 : Conf) : Conf → Prop where
  | refl : Reach c0 c0
  | step {c c' : Conf} {i : Nat} (h : Reach c0 c) (hs : Step c i c') : Reach c0 c'

/-- Goroutine `i` is about to make the calls `calls i`. -/
def init (h : Heap) (items : List (Option Addr)) (calls : Nat → List Op) : Conf :=
  { heap := h, items, stuckW := false, leaked := 0, gor := fun i => ⟨.idle, calls i, []⟩ }

end Xcore.CollectionConc
