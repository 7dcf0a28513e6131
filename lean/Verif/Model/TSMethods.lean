import Verif.Model.Dataset
import Verif.Model.Language
import Verif.Model.Method

/-!
# The methods of XDatasetTS, XDatasetCollectionTS and XLanguage, access by access

The methods of one object, all under its mutex. What `XDatasetTS` wraps is a dataset that goroutines use only through the wrapper. Printing
(`String`, `GoString`) and `Clone` are not here: they lock the objects nested in the data as well; `XDatasetCollectionTS.Clone` takes no
lock at all. `XDatasetCollectionTS.GetData` and what uses it is in `Verif.Model.CollectionConc`. `XLanguage.SetName`, `SetLanguage`,
`GetName` and `GetLanguage` take no lock.
-/

namespace Xcore.Dataset

open Lock

/-- Calls on an `XDatasetTS`. -/
inductive TSOp where
  | set (key : Str) (v : Val)
  | del (key : Str)
  | get (key : Str)
  | getDataset (key : Str)
  | getCollection (key : Str)
  | getString (key : Str)
  | getBool (key : Str)
  | getInt (key : Str)
  | getFloat (key : Str)
  | getTime (key : Str)
  | getSlice (k : SliceKind) (key : Str)
  deriving DecidableEq, Repr

/-- Answers. -/
inductive TSOut where
  | unit
  | val (v : Option Val)
  | addr (a : Option Addr)
  | str (s : Option Str)
  | bool (b : Option Bool)
  | int (n : Option Int)
  | float (f : Option UInt64)
  | time (t : Option Int)
  deriving DecidableEq, Repr

/-- The local variable of a method: the dataset found under the wrapper, and the answer. -/
structure TSReg where
  inner : Addr
  out : TSOut
  deriving DecidableEq, Repr

/-- A method that answers what it reads. -/
def tsRead (read : Heap → Res TSOut) : Method Heap TSReg TSOut where
  mode := .read
  deferred := true
  start := ⟨0, .unit⟩
  code := [fun h r => (read h).map fun o => (h, { r with out := o })]
  answer := TSReg.out

/-- A method that changes the map of the dataset: it reads `ds.data`, then writes into the map. The unlock is not deferred. -/
def tsWrite (a : Addr) (change : AMap Val → AMap Val) : Method Heap TSReg TSOut where
  mode := .write
  deferred := false
  start := ⟨0, .unit⟩
  code := [
    fun h r => match target h a with
      | none => .panic
      | some t => .ok (h, { r with inner := t }),
    fun h r => .ok (h.set r.inner (.ds (change (entries h r.inner))), r)]
  answer := TSReg.out

/-- The methods of the `XDatasetTS` at address `a` (xdatasetts.go:37-144). -/
def tsMethod (x : Ext) (n : Nat) (a : Addr) : TSOp → Method Heap TSReg TSOut
  | .set k v => tsWrite a fun m => m.set k v
  | .del k => tsWrite a fun m => m.del k
  | .get k => tsRead fun h => (get h a k).map .val
  | .getDataset k => tsRead fun h => (getDataset h a k).map .addr
  | .getCollection k => tsRead fun h => (getCollection h a k).map .addr
  | .getString k => tsRead fun h => (getString x n h a k).map .str
  | .getBool k => tsRead fun h => (getBool h a k).map .bool
  | .getInt k => tsRead fun h => (getInt x h a k).map .int
  | .getFloat k => tsRead fun h => (getFloat h a k).map .float
  | .getTime k => tsRead fun h => (getTime h a k).map .time
  | .getSlice sk k => tsRead fun h => (getSlice sk h a k).map .addr

/-- Calls on an `XDatasetCollectionTS`. -/
inductive ColOp where
  | unshift (d : Option Addr)
  | shift
  | push (d : Option Addr)
  | pop
  | count
  | get (i : Int)
  deriving DecidableEq, Repr

/-- Answers. -/
inductive ColOut where
  | unit
  | elem (d : Option Addr)
  | num (n : Nat)
  | found (d : Option (Option Addr))
  deriving DecidableEq, Repr

/-- The local variables: the slice read, and the answer. -/
structure ColReg where
  slice : List (Option Addr)
  out : ColOut
  deriving DecidableEq, Repr

/-- The methods of the `XDatasetCollectionTS` at address `a` (xdatasetcollectionts.go:33-80). Only `Count` and `Get` defer the unlock. -/
def colMethod (a : Addr) : ColOp → Method Heap ColReg ColOut
  | .unshift d => ⟨.write, false, [fun h r => .ok (h, { r with slice := elems h a }), fun h r => .ok (setElems h a (d :: r.slice), r)],
      ⟨[], .unit⟩, ColReg.out⟩
  | .shift => ⟨.write, false, [
      fun h r => match elems h a with
        | [] => .panic
        | d :: _ => .ok (h, { r with out := .elem d }),
      fun h r => .ok (h, { r with slice := elems h a }),
      fun h r => .ok (setElems h a (r.slice.drop 1), r)], ⟨[], .unit⟩, ColReg.out⟩
  | .push d => ⟨.write, false, [fun h r => .ok (h, { r with slice := elems h a }), fun h r => .ok (setElems h a (r.slice ++ [d]), r)],
      ⟨[], .unit⟩, ColReg.out⟩
  | .pop => ⟨.write, false, [
      fun h r => match (elems h a).getLast? with
        | none => .panic
        | some d => .ok (h, { r with out := .elem d }),
      fun h r => .ok (h, { r with slice := elems h a }),
      fun h r => .ok (setElems h a r.slice.dropLast, r)], ⟨[], .unit⟩, ColReg.out⟩
  | .count => ⟨.read, true, [fun h r => .ok (h, { r with out := .num (elems h a).length })], ⟨[], .unit⟩, ColReg.out⟩
  | .get i => ⟨.read, true, [
      fun h r => .ok (h, { r with slice := elems h a }),
      fun h r => .ok (h, { r with out := .found (colGet r.slice i) })], ⟨[], .unit⟩, ColReg.out⟩

end Xcore.Dataset

namespace Xcore.Language

open Lock

/-- Calls on an `XLanguage` that take the lock. `assign` is what `LoadString` does for each line that has an entry: it takes the lock for
each of them. `entries` is what `LoadXMLString` does for all the entries of a document under one lock, after setting name and language
without lock. -/
inductive TSOp where
  | set (e v : Str)
  | get (e : Str)
  | setStatus (e v : Str)
  | getStatus (e : Str)
  | del (e : Str)
  | getEntries
  | getXML
  | toString
  | assign (e v : Str)
  | entries (es : List XEntry)
  deriving DecidableEq, Repr

/-- Answers. -/
inductive TSOut where
  | unit
  | str (s : Str)
  | map (m : AMap Str)
  deriving DecidableEq, Repr

/-- A method that answers what it reads. -/
def tsRead (read : Lang → TSOut) : Method Lang TSOut TSOut := ⟨.read, true, [fun l _ => .ok (l, read l)], .unit, id⟩

/-- The methods of an `XLanguage` (xlanguage.go:117-122, 170-172, 201-278). -/
def tsMethod : TSOp → Method Lang TSOut TSOut
  | .set e v => ⟨.write, true, [fun l r => .ok ({ l with entries := l.entries.set e v }, r)], .unit, id⟩
  | .get e => tsRead fun l => .str (get l e)
  | .setStatus e v => ⟨.write, true, [fun l r => .ok ({ l with status := l.status.set e v }, r)], .unit, id⟩
  | .getStatus e => tsRead fun l => .str (getStatus l e)
  | .del e => ⟨.write, true, [fun l r => .ok ({ l with entries := l.entries.del e }, r), fun l r => .ok ({ l with status := l.status.del e }, r)],
      .unit, id⟩
  | .getEntries => tsRead fun l => .map (getEntries l)
  | .getXML => tsRead fun l => .str (getXML l)
  | .toString => tsRead fun l => .str (toString l)
  | .assign e v => ⟨.write, false, [fun l r => .ok ({ l with entries := l.entries.set e v }, r)], .unit, id⟩
  | .entries es => ⟨.write, true, es.flatMap fun e => [
      fun l r => .ok ({ l with entries := l.entries.set e.id e.entry }, r),
      fun l r => .ok ({ l with status := l.status.set e.id e.status }, r)], .unit, id⟩

end Xcore.Language
