import Verif.Model.Dataset

/-!
# Collections with the arrays behind their slices

`v2/xdatasetcollection.go`, `v2/xdatasetcollectionts.go` and the collections of version 1 (`xdataset.go`). In Model/Dataset.lean a collection is the
list of its elements. In Go it is a slice: a piece of an array that other slices may use too, and `append` writes behind the end of the slice if the
array has space there. Here are the arrays. Locks are left out (every call of the thread-safe type changes its slice under its lock).
-/

namespace Xcore.Slices

/-- A slot of an array of `XDatasetDef`: the address of a dataset; `none` is the nil interface. -/
abbrev Elem := Option Nat

/-- A Go slice: the array, the first slot, length and capacity. -/
structure Slice where
  arr : Nat
  off : Nat
  len : Nat
  cap : Nat
  deriving DecidableEq, Repr

/-- The arrays in memory, and the slices that are the contents of the collections (xdatasetcollection.go:14, xdatasetcollectionts.go:13). -/
structure Mem where
  arrays : List (List Elem)
  cols : List Slice
  deriving DecidableEq, Repr

/-- The elements of a slice. -/
def elems (arrays : List (List Elem)) (s : Slice) : List Elem := (((arrays[s.arr]?).getD []).drop s.off).take s.len

/-- Assignment of `xs` to the slots of an array from `p` on. -/
def write (l : List Elem) (p : Nat) (xs : List Elem) : List Elem := l.take p ++ xs ++ l.drop (p + xs.length)

/-- The builtin `append(s, xs...)`: in place if the capacity suffices, else into a new array, whose spare capacity is up to the runtime (`spare`,
of the old capacity and the new length). -/
def append (spare : Nat → Nat → Nat) (arrays : List (List Elem)) (s : Slice) (xs : List Elem) : List (List Elem) × Slice :=
  if s.len + xs.length ≤ s.cap then (arrays.modify s.arr (write · (s.off + s.len) xs), { s with len := s.len + xs.length })
  else
    let n := s.len + xs.length
    (arrays ++ [elems arrays s ++ xs ++ List.replicate (spare s.cap n) none], ⟨arrays.length, 0, n, n + spare s.cap n⟩)

/-- The literal `[]XDatasetDef{…}`. -/
def literal (arrays : List (List Elem)) (xs : List Elem) : List (List Elem) × Slice :=
  if xs = [] then (arrays, ⟨0, 0, 0, 0⟩) else (arrays ++ [xs], ⟨arrays.length, 0, xs.length, xs.length⟩)

/-- Calls on collections, which are numbered in the order in which they were made. -/
inductive Op where
  /-- `&XDatasetCollection{…}` -/
  | make (xs : List Elem)
  | unshift (c : Nat) (d : Elem)
  | shift (c : Nat)
  | push (c : Nat) (d : Elem)
  | pop (c : Nat)
  | count (c : Nat)
  | get (c : Nat) (i : Int)
  /-- `Clone`, where the clone of an element is `clone` of it -/
  | clone (c : Nat) (clone : Elem → Elem)
  /-- `b := *a`, a copy of the slice by assignment (possible with `XDatasetCollection`, which is a slice type) -/
  | assign (c : Nat)

/-- Answers. -/
inductive Out where
  | unit
  | elem (d : Elem)
  | num (n : Nat)
  | found (d : Option Elem)
  | panic
  deriving DecidableEq, Repr

/-- `Unshift` (v2/xdatasetcollection.go:42-44, v2/xdatasetcollectionts.go:34-38, xdataset.go:467-469). -/
def unshift (spare : Nat → Nat → Nat) (m : Mem) (c : Nat) (s : Slice) (d : Elem) : Mem × Out :=
  let l := literal m.arrays [d]
  let r := append spare l.1 l.2 (elems l.1 s)
  (⟨r.1, m.cols.set c r.2⟩, .unit)

/-- `Shift` (v2/xdatasetcollection.go:47-51, v2/xdatasetcollectionts.go:41-47, xdataset.go:472-476). -/
def shift (m : Mem) (c : Nat) (s : Slice) : Mem × Out :=
  if s.len = 0 then (m, .panic)
  else (⟨m.arrays, m.cols.set c ⟨s.arr, s.off + 1, s.len - 1, s.cap - 1⟩⟩, .elem (((m.arrays[s.arr]?).getD [])[s.off]?.getD none))

/-- `Push` (v2/xdatasetcollection.go:54-56, v2/xdatasetcollectionts.go:50-54, xdataset.go:479-481). -/
def push (spare : Nat → Nat → Nat) (m : Mem) (c : Nat) (s : Slice) (d : Elem) : Mem × Out :=
  let r := append spare m.arrays s [d]
  (⟨r.1, m.cols.set c r.2⟩, .unit)

/-- `Pop` (v2/xdatasetcollection.go:59-63, v2/xdatasetcollectionts.go:57-63, xdataset.go:484-488). -/
def pop (m : Mem) (c : Nat) (s : Slice) : Mem × Out :=
  if s.len = 0 then (m, .panic)
  else (⟨m.arrays, m.cols.set c ⟨s.arr, s.off, s.len - 1, s.cap⟩⟩, .elem (((m.arrays[s.arr]?).getD [])[s.off + (s.len - 1)]?.getD none))

/-- `Get` (v2/xdatasetcollection.go:71-76, v2/xdatasetcollectionts.go:73-80, xdataset.go:496-501). -/
def get (m : Mem) (s : Slice) (i : Int) : Out :=
  if i < 0 ∨ (s.len : Int) ≤ i then .found none else .found (some (((m.arrays[s.arr]?).getD [])[s.off + i.toNat]?.getD none))

/-- The loop of `Clone`: an append for each element. -/
def cloneLoop (spare : Nat → Nat → Nat) : List (List Elem) → Slice → List Elem → List (List Elem) × Slice
  | arrays, s, [] => (arrays, s)
  | arrays, s, x :: xs => let r := append spare arrays s [x]; cloneLoop spare r.1 r.2 xs

/-- `Clone` (v2/xdatasetcollection.go:154-160, v2/xdatasetcollectionts.go:159-165, xdataset.go:577-583). (Simplified: the elements are read before the
loop. Cloning an element cannot change the collection.) -/
def clone (spare : Nat → Nat → Nat) (m : Mem) (s : Slice) (cl : Elem → Elem) : Mem × Out :=
  let r := cloneLoop spare m.arrays ⟨0, 0, 0, 0⟩ ((elems m.arrays s).map cl)
  (⟨r.1, m.cols ++ [r.2]⟩, .num m.cols.length)

/-- One call. `make`, `clone` and `assign` answer the number of the new collection. (A call on a number that no collection has does nothing: it cannot be
made in Go.) -/
def step (spare : Nat → Nat → Nat) (m : Mem) : Op → Mem × Out
  | .make xs => let l := literal m.arrays xs; (⟨l.1, m.cols ++ [l.2]⟩, .num m.cols.length)
  | .unshift c d => match m.cols[c]? with | none => (m, .unit) | some s => unshift spare m c s d
  | .shift c => match m.cols[c]? with | none => (m, .unit) | some s => shift m c s
  | .push c d => match m.cols[c]? with | none => (m, .unit) | some s => push spare m c s d
  | .pop c => match m.cols[c]? with | none => (m, .unit) | some s => pop m c s
  | .count c => match m.cols[c]? with | none => (m, .unit) | some s => (m, .num s.len)
  | .get c i => match m.cols[c]? with | none => (m, .unit) | some s => (m, get m s i)
  | .clone c cl => match m.cols[c]? with | none => (m, .unit) | some s => clone spare m s cl
  | .assign c => match m.cols[c]? with | none => (m, .unit) | some s => (⟨m.arrays, m.cols ++ [s]⟩, .num m.cols.length)

/-- A history of calls, and the answers. -/
def run (spare : Nat → Nat → Nat) (m : Mem) : List Op → Mem × List Out
  | [] => (m, [])
  | op :: h => let r := step spare m op; let r' := run spare r.1 h; (r'.1, r.2 :: r'.2)

end Xcore.Slices
