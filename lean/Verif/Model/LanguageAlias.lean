import Verif.Model.Language

/-!
# XLanguage with maps as shared objects

Go maps are references: if GetEntries returned the table's own map, a caller could change the table through it. Here the two maps of a
table, and every map given to a caller, live at addresses of a heap, so that sharing is visible.
-/

namespace Xcore.Language

/-- Memory of one program that owns one language table: the maps, the addresses of the table's two maps (fields `entries` and
`status`, xlanguage.go:17-23), the other fields, and the maps returned to callers so far. -/
structure World where
  heap : List (AMap Str)
  name : Str
  tag : Str
  entries : Nat
  status : Nat
  copies : List Nat
  deriving DecidableEq, Repr

/-- The map at an address. -/
def World.at (w : World) (a : Nat) : AMap Str := w.heap.getD a []

/-- `NewXLanguage` (xlanguage.go:26-28): allocates the two maps. -/
def World.new (n t : Str) : World := ⟨[[], []], n, t, 0, 1, []⟩

/-- The table as a value: what the methods read through the two addresses. -/
def World.table (w : World) : Lang := ⟨w.name, w.tag, w.at w.entries, w.at w.status⟩

/-- The table's methods write through the two addresses (xlanguage.go:92-242). -/
def World.put (w : World) (l : Lang) : World :=
  { w with name := l.name, tag := l.tag, heap := (w.heap.set w.entries l.entries).set w.status l.status }

/-- `GetEntries` (xlanguage.go:245-253): allocates `clone`, fills it and returns it. -/
def World.getEntries (w : World) : World × Nat :=
  ({ w with heap := w.heap ++ [Language.getEntries w.table], copies := w.copies ++ [w.heap.length] }, w.heap.length)

/-- What can happen: a call on the table, a call of GetEntries, and a caller storing into or deleting from the `i`-th map it received. -/
inductive Event where
  | call (op : Op)
  | getEntries
  | callerSet (i : Nat) (k v : Str)
  | callerDel (i : Nat) (k : Str)
  deriving DecidableEq, Repr

/-- One event. -/
def World.step (um : Str → Option XLang) (pt : Str → Str) (w : World) : Event → World
  | .call op => w.put (Language.step um pt w.table op)
  | .getEntries => w.getEntries.1
  | .callerSet i k v =>
    match w.copies[i]? with
    | some a => { w with heap := w.heap.set a ((w.at a).set k v) }
    | none => w
  | .callerDel i k =>
    match w.copies[i]? with
    | some a => { w with heap := w.heap.set a ((w.at a).del k) }
    | none => w

/-- Many events. -/
def World.run (um : Str → Option XLang) (pt : Str → Str) (w : World) (es : List Event) : World := es.foldl (World.step um pt) w

end Xcore.Language
