import Verif.Model.Dataset
import Verif.Model.TSMethods

/-!
# Goroutines using nested thread-safe objects

A thread-safe dataset holds its lock while it calls the dataset it wraps, and that one follows paths into other thread-safe objects, which
take their own locks (xdatasetts.go:24-153, xdataset.go:72-102). This is a small-step model of goroutines that make any calls on a memory of
such objects. Every object has its own `sync.RWMutex`, modelled with the preference it gives to a waiting writer: a `Lock` first announces
itself, and from then on no new reader is admitted, until the readers inside have left.

A goroutine is a stack of instructions: what it still has to do in the call it is making, the releases of the locks it holds among them.
Memory is sequentially consistent. Simplifications: reading or writing one map or one slice header is one step (also the iteration over a
map); texts and copies made by String and Clone are not built, only the objects they visit, in order; the other getters of datasets do what
`Get` does; a panic ends the call and the caller recovers it; the methods of plain collections are modelled where datasets call them.
-/

namespace Xcore.Nested

open Dataset Lock

/-- The methods of datasets. `get` stands for every getter that looks a key up and converts what it finds, `print` for `String`, `GoString`
and package fmt, which calls them. Keys of getters are given by their pieces between `>`. -/
inductive Op where
  | get (segs : List Str)
  | getString (segs : List Str)
  | set (key : Str) (v : Val)
  | del (key : Str)
  | print
  | clone
  deriving DecidableEq, Repr

/-- Which lock the method of XDatasetTS takes (xdatasetts.go:24-153). -/
def Op.mode : Op → Mode
  | .set _ _ | .del _ => .write
  | _ => .read

/-- Whether the method of XDatasetTS defers the release: not Set, Del and Clone (xdatasetts.go:38-42, 140-144, 147-153). -/
def Op.deferred : Op → Bool
  | .set _ _ | .del _ | .clone => false
  | _ => true

/-- What a goroutine has to do next. -/
inductive Instr where
  /-- take the lock of `a`, do `x`, release the lock -/
  | enter (m : Mode) (deferred : Bool) (a : Addr) (x : Instr)
  /-- `Lock` has announced itself and waits for the readers to leave -/
  | await (deferred : Bool) (a : Addr) (x : Instr)
  | release (m : Mode) (deferred : Bool) (a : Addr)
  /-- a method of the object at `a` is called -/
  | call (op : Op) (a : Addr)
  /-- under the lock of the XDatasetTS at `a`: `ds.data.op()` -/
  | body (op : Op) (a : Addr)
  /-- `Get(i)` of a collection within a path, under the lock of a thread-safe one, and what comes after it (xdataset.go:82-95) -/
  | elem (locked : Bool) (c : Addr) (i : Int) (rest : List Str)
  /-- the loop of `XDatasetCollectionTS.String` (xdatasetcollectionts.go:20-22) -/
  | elems (c : Addr)
  /-- `fmt.Sprint` of what was found in `a` -/
  | printAnswer (a : Addr)
  /-- under the lock of the XDatasetCollectionTS: the method -/
  | change (op : ColOp) (c : Addr)
  /-- `GetData`: the length (xdatasetcollectionts.go:84-86) -/
  | size (c : Addr) (key : Str)
  /-- `GetData`: the loop, `n` elements to go (xdatasetcollectionts.go:87) -/
  | scan (c : Addr) (n : Nat) (key : Str)
  /-- `GetData`: reading element `n` (xdatasetcollectionts.go:89) -/
  | pick (c : Addr) (n : Nat) (key : Str)
  /-- `GetData`: after `Get` of element `n` (xdatasetcollectionts.go:92-94) -/
  | check (c : Addr) (n : Nat) (key : Str)
  /-- a method of a nil interface is called -/
  | fail
  | skip
  deriving DecidableEq, Repr

/-- Instructions about locks; their steps are in `Move`. -/
def Instr.isLock : Instr → Bool
  | .enter .. | .await .. | .release .. => true
  | _ => false

/-- What an instruction does: it changes the memory, the last answer (of `Get`) and the stack, or panics. -/
inductive Effect where
  | next (h : Heap) (ans : Option Val) (stack : List Instr)
  | panic

/-- The address of an object printed or cloned within another one. -/
def ptrOf : Val → Option Addr
  | .ptr a => some a
  | _ => none

/-- The value is cloned, not copied (xdataset.go:388-393). -/
def cloneable (h : Heap) (v : Val) : Option Addr := (asDataset h v).or (asCollection h v)

/-- What has to be done after the release of the lock, which is the next instruction. -/
def andThen (xs : List Instr) : List Instr → List Instr
  | [] => xs
  | r :: s => r :: (xs ++ s)

/-- `XDataset.Get` (xdataset.go:72-102), up to the call of another `Get`. -/
def getStep (h : Heap) (ans : Option Val) (m : AMap Val) (s : List Instr) : List Str → Effect
  | [] => .next h none s                       -- unreachable
  | [key] => .next h (m.get key) s
  | p :: p2 :: rest => match m.get p with
    | none => .next h none s
    | some v => match asDataset h v with
      | some b => .next h ans (.call (.get (p2 :: rest)) b :: s)
      | none => match asCollection h v with
        | some c => match atoi p2 with
          | none => .next h none s
          | some i => match h[c]? with
            | some (.colTS _) => .next h ans (.enter .read true c (.elem true c i rest) :: s)
            | _ => .next h ans (.elem false c i rest :: s)
        | none => .next h (m.get (join b!">" (p :: p2 :: rest))) s

/-- A method of an XDataset with entries `m` (xdataset.go:47-133, 378-397). -/
def datasetStep (h : Heap) (ans : Option Val) (a : Addr) (m : AMap Val) (s : List Instr) : Op → Effect
  | .get segs => getStep h ans m s segs
  | .getString segs => .next h ans (.call (.get segs) a :: .printAnswer a :: s)
  | .set k v => .next (h.set a (.ds (m.set k v))) ans s
  | .del k => .next (h.set a (.ds (m.del k))) ans s
  | .print => .next h ans ((m.filterMap fun p => ptrOf p.2).map (.call .print) ++ s)
  | .clone => .next h ans ((m.filterMap fun p => cloneable h p.2).map (.call .clone) ++ s)

/-- `Clone` of the elements of a collection of either type, without lock (xdatasetcollection.go:156-158, xdatasetcollectionts.go:161-163). -/
def cloneElems (l : List (Option Addr)) : List Instr := l.map fun e => match e with | none => .fail | some b => .call .clone b

/-- `fmt.Sprint` of the elements of a collection. -/
def printElems (l : List (Option Addr)) : List Instr := (l.filterMap id).map (.call .print)

/-- A method is called on the object at an address: that of a wrapper takes the lock first; `XDatasetCollectionTS.String` and
`XLanguage.String` as well (xdatasetcollectionts.go:17-26, xlanguage.go:269-278), `XDatasetCollectionTS.Clone` does not
(xdatasetcollectionts.go:159-165). -/
def callStep (h : Heap) (ans : Option Val) (op : Op) (a : Addr) (s : List Instr) : Effect :=
  match h[a]? with
  | some (.dsTS _) => .next h ans (.enter op.mode op.deferred a (.body op a) :: s)
  | some (.ds m) => datasetStep h ans a m s op
  | some (.col l) => match op with
    | .print => .next h ans (printElems l ++ s)
    | .clone => .next h ans (cloneElems l ++ s)
    | _ => .next h none s                      -- not a method of collections
  | some (.colTS l) => match op with
    | .print => .next h ans (.enter .read false a (.elems a) :: s)
    | .clone => .next h ans (cloneElems l ++ s)
    | _ => .next h none s                      -- not a method of collections
  | some (.lang _) => match op with
    | .print => .next h ans (.enter .read true a .skip :: s)
    | _ => .next h none s                      -- not a method of language tables
  | _ => .next h none s                        -- no object with methods

/-- The element answered by a method of collections. -/
def elemVal : Option Addr → Val
  | none => .nil
  | some a => .ptr a

/-- The methods of XDatasetCollectionTS that do not look into the elements (xdatasetcollectionts.go:34-80). -/
def changeStep (h : Heap) (ans : Option Val) (c : Addr) (s : List Instr) : ColOp → Effect
  | .unshift d => .next (unshift h c d) ans s
  | .push d => .next (push h c d) ans s
  | .shift => match shift h c with
    | .ok (h', d) => .next h' (some (elemVal d)) s
    | _ => .panic
  | .pop => match pop h c with
    | .ok (h', d) => .next h' (some (elemVal d)) s
    | _ => .panic
  | .count => .next h (some (.int .int (Dataset.count h c))) s
  | .get i => .next h ((colGetAt h c i).map elemVal) s

/-- One instruction that is not about locks; `s` is the rest of the stack. -/
def exec (h : Heap) (ans : Option Val) : Instr → List Instr → Effect
  | .call op a, s => callStep h ans op a s
  | .body op a, s => match h[a]? with
    | some (.dsTS (some b)) => .next h ans (.call op b :: s)
    | _ => match op with
      | .print => .next h ans s                -- package fmt recovers the panic
      | _ => .panic
  | .elem locked c i rest, s => match colGet (Dataset.elems h c) i with
    | some (some e) => match rest with
      | [] => .next h (some (.ptr e)) s
      | r :: rest => .next h ans (if locked then andThen [.call (.get (r :: rest)) e] s else .call (.get (r :: rest)) e :: s)
    | _ => .next h none s
  | .elems c, s => .next h ans (printElems (Dataset.elems h c) ++ s)
  | .printAnswer _, s => match ans with
    | some (.ptr b) => .next h ans (.call .print b :: s)
    | _ => .next h ans s
  | .change op c, s => changeStep h ans c s op
  | .size c key, s => .next h ans (andThen [.scan c (Dataset.elems h c).length key] s)
  | .scan _ 0 _, s => .next h none s
  | .scan c (n + 1) key, s => .next h ans (.enter .read false c (.pick c n key) :: s)
  | .pick c n key, s => match (Dataset.elems h c)[n]? with
    | none => .panic
    | some none => .next h ans (andThen [.fail] s)
    | some (some e) => .next h ans (andThen [.call (.get (split 62 key)) e, .check c n key] s)
  | .check c n key, s => match ans with
    | some _ => .next h ans s
    | none => .next h ans (.scan c n key :: s)
  | .skip, s => .next h ans s
  | _, _ => .panic

/-- The calls a goroutine can make. `lang` is any method of a language table that takes its lock once. -/
inductive Call where
  | ds (op : Op) (a : Addr)
  | col (op : ColOp) (c : Addr)
  | getData (c : Addr) (key : Str)
  | getDataString (c : Addr) (key : Str)
  | lang (m : Mode) (l : Addr)
  deriving DecidableEq, Repr

/-- The lock of a method of XDatasetCollectionTS, and whether its release is deferred (xdatasetcollectionts.go:34-80). -/
def colMode : ColOp → Mode × Bool
  | .count | .get _ => (.read, true)
  | _ => (.write, false)

/-- What a call consists of. `GetDataString` calls `GetData` and prints what it found without lock (xdatasetcollectionts.go:100-106). -/
def Call.code : Call → List Instr
  | .ds op a => [.call op a]
  | .col op c => [.enter (colMode op).1 (colMode op).2 c (.change op c)]
  | .getData c key => [.enter .read false c (.size c key)]
  | .getDataString c key => [.enter .read false c (.size c key), .printAnswer c]
  | .lang m l => [.enter m true l .skip]

/-- The object has this method: the calls of collections are those of thread-safe ones. -/
def Call.Legal (h : Heap) : Call → Prop
  | .ds _ a => (∃ m, h[a]? = some (.ds m)) ∨ ∃ i, h[a]? = some (.dsTS i)
  | .col _ c => ∃ l, h[c]? = some (.colTS l)
  | .getData c _ => ∃ l, h[c]? = some (.colTS l)
  | .getDataString c _ => ∃ l, h[c]? = some (.colTS l)
  | .lang _ a => ∃ l, h[a]? = some (.lang l)

/-- The state of a `sync.RWMutex`: the goroutine that holds it for writing, the one whose `Lock` has announced itself and waits, and those
that hold it for reading, as often as they hold it. -/
structure Rw where
  writer : Option Nat
  pending : Option Nat
  readers : List Nat
  deriving DecidableEq, Repr

/-- A goroutine: what it has to do and the last answer. Between calls the stack is empty. -/
structure Gor where
  stack : List Instr
  ans : Option Val
  deriving DecidableEq, Repr

/-- The whole system. -/
structure Conf where
  heap : Heap
  locks : Nat → Rw
  gor : Nat → Gor

/-- Goroutine `i` goes on with another stack. -/
def Conf.go (c : Conf) (i : Nat) (s : List Instr) : Nat → Gor := upd c.gor i ⟨s, (c.gor i).ans⟩

/-- What a panic leaves on the stack: the deferred releases. -/
def unwind (s : List Instr) : List Instr := s.filter fun x => match x with | .release _ d _ => d | _ => false

/-- One step of goroutine `i` within a call. -/
inductive Move : Conf → Nat → Conf → Prop where
  | run {c : Conf} {i : Nat} {x : Instr} {s s' : List Instr} {h' : Heap} {ans' : Option Val} (hst : (c.gor i).stack = x :: s)
      (hl : x.isLock = false) (he : exec c.heap (c.gor i).ans x s = .next h' ans' s') :
      Move c i { c with heap := h', gor := upd c.gor i ⟨s', ans'⟩ }
  | panic {c : Conf} {i : Nat} {x : Instr} {s : List Instr} (hst : (c.gor i).stack = x :: s) (hl : x.isLock = false)
      (he : exec c.heap (c.gor i).ans x s = .panic) : Move c i { c with gor := c.go i (unwind s) }
  | rlock {c : Conf} {i : Nat} {d : Bool} {a : Addr} {x : Instr} {s : List Instr} (hst : (c.gor i).stack = .enter .read d a x :: s)
      (hw : (c.locks a).writer = none) (hp : (c.locks a).pending = none) :
      Move c i { c with
        locks := upd c.locks a { c.locks a with readers := i :: (c.locks a).readers },
        gor := c.go i (x :: .release .read d a :: s) }
  | announce {c : Conf} {i : Nat} {d : Bool} {a : Addr} {x : Instr} {s : List Instr} (hst : (c.gor i).stack = .enter .write d a x :: s)
      (hw : (c.locks a).writer = none) (hp : (c.locks a).pending = none) :
      Move c i { c with
        locks := upd c.locks a { c.locks a with pending := some i },
        gor := c.go i (.await d a x :: s) }
  | lock {c : Conf} {i : Nat} {d : Bool} {a : Addr} {x : Instr} {s : List Instr} (hst : (c.gor i).stack = .await d a x :: s)
      (hr : (c.locks a).readers = []) :
      Move c i { c with
        locks := upd c.locks a { c.locks a with writer := some i, pending := none },
        gor := c.go i (x :: .release .write d a :: s) }
  | runlock {c : Conf} {i : Nat} {d : Bool} {a : Addr} {s : List Instr} (hst : (c.gor i).stack = .release .read d a :: s) :
      Move c i { c with
        locks := upd c.locks a { c.locks a with readers := (c.locks a).readers.erase i },
        gor := c.go i s }
  | unlock {c : Conf} {i : Nat} {d : Bool} {a : Addr} {s : List Instr} (hst : (c.gor i).stack = .release .write d a :: s) :
      Move c i { c with
        locks := upd c.locks a { c.locks a with writer := none },
        gor := c.go i s }

/-- One step: a goroutine goes on with its call (which one is recorded), one begins a call, or a new object is made. -/
inductive Step : Conf → Option Nat → Conf → Prop where
  | move {c c' : Conf} {i : Nat} (h : Move c i c') : Step c (some i) c'
  | begin {c : Conf} {i : Nat} {call : Call} (hidle : (c.gor i).stack = []) (hl : call.Legal c.heap) :
      Step c none { c with gor := c.go i call.code }
  | alloc {c : Conf} {o : Obj} : Step c none { c with heap := c.heap ++ [o] }

/-- No goroutine is making a call, no lock is held. -/
def start (h : Heap) : Conf := ⟨h, fun _ => ⟨none, none, []⟩, fun _ => ⟨[], none⟩⟩

end Xcore.Nested
