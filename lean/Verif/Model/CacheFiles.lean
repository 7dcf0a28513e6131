import Verif.Model.CacheConc

/-!
# A cache of files with the validator of the documentation

The package documentation (v2/xcore.go:95-113) shows how a cache of files is made: the key is the path of the file, and
`myfiles.Validator = FileValidator`.
-/

namespace Xcore.CacheFiles

open Xcore.Cache (Env Op)

/-- A file: its content and the time of its last change (`fi.ModTime()`). -/
structure File (D : Type) where
  content : D
  mtime : Int
  deriving DecidableEq, Repr

/-- The files by path. -/
abbrev Disk (D : Type) := Str → Option (File D)

/-- `FileValidator` (v2/xcore.go:99-113; the same in xcore.go:105-119): `os.Stat` fails if there is no file; `mtime.After(otime)`. Other failures of `os.Stat` (permissions) are
not modelled. -/
def fileValidator {D : Type} (disk : Disk D) (key : Str) (otime : Int) : Bool :=
  match disk key with
  | none => false
  | some f => if otime < f.mtime then false else true

/-- A call with the readings of the clock in it. -/
structure Timed (O : Type) where
  clk : Nat → Int
  clkAt : Str → Int
  op : O

/-- What happens: a call on the cache or a step of one (`O`); or a file is written or removed. `mtime` is the time that the
file gets, which need not be that of the clock. -/
inductive Event (O D : Type) where
  | call (o : O)
  | write (path : Str) (content : D) (mtime : Int)
  | remove (path : Str)

variable {O D : Type}

/-- Put a file on the disk, or take it off. -/
def put (disk : Disk D) (path : Str) (f : Option (File D)) : Disk D := fun p => if p = path then f else disk p

/-- The disk after an event. -/
def Event.disk (disk : Disk D) : Event O D → Disk D
  | .call _ => disk
  | .write path d m => put disk path (some ⟨d, m⟩)
  | .remove path => put disk path none

/-- The disk after all events. -/
def diskAfter (disk : Disk D) : List (Event O D) → Disk D
  | [] => disk
  | e :: evs => diskAfter (e.disk disk) evs

/-- The calls among the events; the validator of a call looks at the disk of that moment. -/
def calls (disk : Disk D) : List (Event (Timed O) D) → List (Env × O)
  | [] => []
  | .call ⟨clk, clkAt, op⟩ :: evs => (⟨clk, clkAt, fileValidator disk⟩, op) :: calls disk evs
  | .write path d m :: evs => calls (put disk path (some ⟨d, m⟩)) evs
  | .remove path :: evs => calls (put disk path none) evs

/-- Any number of goroutines use the cache (steps of Model/CacheConc.lean) while files change: the events so far, the files and the state of the
cache. In `Get` the validator is called without lock (v2/xcache.go:136-137); it looks at the files as they are at that moment. What the
validator says in `Verify` is left open. -/
inductive Goes (m e : Int) (disk : Disk D) : List (Event (CacheConc.Act D) D) → Disk D → CacheConc.St D → Prop
  | start {st : CacheConc.St D} : CacheConc.apply (CacheConc.init m e) (.setValidator true) = some st → Goes m e disk [] disk st
  | step {evs : List (Event (CacheConc.Act D) D)} {now : Disk D} {st st' : CacheConc.St D} {a : CacheConc.Act D} : Goes m e disk evs now st →
      (∀ t ok k id x, a = .checkVal t ok → st.pcs t = .ttlOk k id → st.sh.heap[id]? = some x → ok = fileValidator now k x.ctime) →
      CacheConc.apply st a = some st' → Goes m e disk (evs ++ [.call a]) now st'
  | write {evs : List (Event (CacheConc.Act D) D)} {now : Disk D} {st : CacheConc.St D} (p : Str) (d : D) (mt : Int) : Goes m e disk evs now st →
      Goes m e disk (evs ++ [.write p d mt]) (put now p (some ⟨d, mt⟩)) st
  | remove {evs : List (Event (CacheConc.Act D) D)} {now : Disk D} {st : CacheConc.St D} (p : Str) : Goes m e disk evs now st →
      Goes m e disk (evs ++ [.remove p]) (put now p none) st

end Xcore.CacheFiles
