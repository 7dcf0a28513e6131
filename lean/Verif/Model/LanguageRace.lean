import Verif.Model.LanguageConc
import Verif.Model.V1.Language

/-!
# The memory accesses of the calls on an XLanguage, one by one

`v2/xlanguage.go` and, at the end, `xlanguage.go` of version 1. Unlike in Verif/Model/LanguageConc.lean, name, language, entries, statuses and the
mutex are in one system, and every access is one step. The mutex is modelled by its contract as in Verif/Model/Lock.lean. The fields `entries` and
`status` themselves are only written by the constructors; an access to a map is an access to its content as a whole. The loops that range over a
map are one reading access; a loop that appends to local data does nothing else.
-/

namespace Xcore.LangRace

open Xcore.Language (Lang XLang Call TSOp lineSection scan)

/-- The memory cells of a table (xlanguage.go:17-23): two fields and the contents of two maps. -/
inductive Cell where
  | name
  | language
  | entries
  | status
  deriving DecidableEq, Repr

/-- A writing access. -/
inductive Write where
  | name (n : Str)
  | language (t : Str)
  | entry (k v : Str)
  | status (k v : Str)
  | delEntry (k : Str)
  | delStatus (k : Str)
  deriving DecidableEq, Repr

/-- The cell written. -/
def Write.cell : Write → Cell
  | .name _ => .name
  | .language _ => .language
  | .entry _ _ | .delEntry _ => .entries
  | .status _ _ | .delStatus _ => .status

/-- What is written. -/
def Write.apply (l : Lang) : Write → Lang
  | .name n => { l with name := n }
  | .language t => { l with tag := t }
  | .entry k v => { l with entries := l.entries.set k v }
  | .status k v => { l with status := l.status.set k v }
  | .delEntry k => { l with entries := l.entries.del k }
  | .delStatus k => { l with status := l.status.del k }

/-- One step of a call. -/
inductive Instr where
  | lock
  | unlock
  | rlock
  | runlock
  | read (x : Cell)
  | write (w : Write)
  deriving DecidableEq, Repr

/-- The calls: those of Verif/Model/LanguageConc.lean, and `GoString`. -/
inductive Use where
  | call (c : Call)
  | goString
  deriving DecidableEq, Repr

/-- `LoadString` for one line (xlanguage.go:151-172). -/
def lineCode (line : Str) : List Instr :=
  match lineSection line with
  | some (.assign k v) => [.lock, .write (.entry k v), .unlock]
  | _ => []

/-- The steps of a call, in order. -/
def code (um : Str → Option XLang) (pt : Str → Str) : Use → List Instr
  -- xlanguage.go:201-205
  | .call (.change (.set e v)) => [.lock, .write (.entry e v), .unlock]
  -- xlanguage.go:219-223
  | .call (.change (.setStatus e v)) => [.lock, .write (.status e v), .unlock]
  -- xlanguage.go:237-242
  | .call (.change (.del e)) => [.lock, .write (.delEntry e), .write (.delStatus e), .unlock]
  -- xlanguage.go:148-178
  | .call (.change (.load data)) => (scan [] data).1.flatMap lineCode
  -- xlanguage.go:92-124
  | .call (.change (.loadXML data)) => match um data with
    | none => []
    | some temp => [.write (.name temp.name), .write (.language (pt temp.language)), .lock] ++
        temp.entries.flatMap (fun e => [.write (.entry e.id e.entry), .write (.status e.id e.status)]) ++ [.unlock]
  -- xlanguage.go:181-183
  | .call (.change (.setName n)) => [.write (.name n)]
  -- xlanguage.go:186-188
  | .call (.change (.setLanguage t)) => [.write (.language t)]
  -- xlanguage.go:208-216
  | .call (.get _) => [.rlock, .read .entries, .runlock]
  -- xlanguage.go:226-234
  | .call (.getStatus _) => [.rlock, .read .status, .runlock]
  -- xlanguage.go:245-253
  | .call .getEntries => [.rlock, .read .entries, .runlock]
  -- xlanguage.go:256-266: name and language are read when the loop is over, the lock still held
  | .call .getXML => [.rlock, .read .entries, .read .status, .read .name, .read .language, .runlock]
  -- xlanguage.go:269-278
  | .call .toString => [.rlock, .read .entries, .runlock]
  -- xlanguage.go:191-193
  | .call .getName => [.read .name]
  -- xlanguage.go:196-198
  | .call .getLanguage => [.read .language]
  -- xlanguage.go:281-290
  | .goString => [.rlock, .read .entries, .runlock]

/-- The table, who holds the mutex, and what every goroutine still has to do. -/
structure Config where
  table : Lang
  writer : Option Nat
  readers : List Nat
  todo : Nat → List Instr

/-- One step of goroutine `i`. What a reading access reads does not matter here. -/
inductive Step : Config → Nat → Config → Prop where
  | lock {c : Config} {i : Nat} {rest : List Instr} (ht : c.todo i = .lock :: rest) (hw : c.writer = none) (hr : c.readers = []) :
      Step c i { c with writer := some i, todo := Lock.upd c.todo i rest }
  | unlock {c : Config} {i : Nat} {rest : List Instr} (ht : c.todo i = .unlock :: rest) :
      Step c i { c with writer := none, todo := Lock.upd c.todo i rest }
  | rlock {c : Config} {i : Nat} {rest : List Instr} (ht : c.todo i = .rlock :: rest) (hw : c.writer = none) :
      Step c i { c with readers := i :: c.readers, todo := Lock.upd c.todo i rest }
  | runlock {c : Config} {i : Nat} {rest : List Instr} (ht : c.todo i = .runlock :: rest) :
      Step c i { c with readers := c.readers.erase i, todo := Lock.upd c.todo i rest }
  | read {c : Config} {i : Nat} {x : Cell} {rest : List Instr} (ht : c.todo i = .read x :: rest) :
      Step c i { c with todo := Lock.upd c.todo i rest }
  | write {c : Config} {i : Nat} {w : Write} {rest : List Instr} (ht : c.todo i = .write w :: rest) :
      Step c i { c with table := w.apply c.table, todo := Lock.upd c.todo i rest }

/-- Configurations reachable by any schedule. -/
inductive Reach (c0 : Config) : Config → Prop where
  | refl : Reach c0 c0
  | step {c c' : Config} {i : Nat} (h : Reach c0 c) (hs : Step c i c') : Reach c0 c'

/-- Goroutine `i` is about to make the calls `calls i`. -/
def start (um : Str → Option XLang) (pt : Str → Str) (l : Lang) (calls : Nat → List Use) : Config :=
  ⟨l, none, [], fun i => (calls i).flatMap (code um pt)⟩

/-! ## Version 1 -/

/-- The calls on a table of version 1. -/
inductive Use1 where
  | change (op : V1.Language.Op)
  | get (e : Str)
  | toString
  | goString
  | getName
  | getLanguage
  deriving DecidableEq, Repr

/-- `LoadString` of version 1 for one line (version 1, xlanguage.go:151-170), which differs from version 2 in the lock only. -/
def lineCode1 (line : Str) : List Instr :=
  match lineSection line with
  | some (.assign k v) => [.write (.entry k v)]
  | _ => []

/-- The steps of a call of version 1: there is no lock. The map is not nil. -/
def code1 (um : Str → Option V1.Language.XLang) (pt : Str → Str) : Use1 → List Instr
  -- version 1, xlanguage.go:199-201
  | .change (.set e v) => [.write (.entry e v)]
  -- version 1, xlanguage.go:213-215
  | .change (.del e) => [.write (.delEntry e)]
  -- version 1, xlanguage.go:148-176
  | .change (.load data) => (scan [] data).1.flatMap lineCode1
  -- version 1, xlanguage.go:97-124
  | .change (.loadXML data) => match um data with
    | none => []
    | some temp => [.write (.name temp.name), .write (.language (pt temp.language))] ++
        temp.entries.flatMap fun e => [.write (.entry e.id e.entry)]
  -- version 1, xlanguage.go:179-196
  | .change (.setName n) => [.write (.name n)]
  | .change (.setLanguage t) => [.write (.language t)]
  | .getName => [.read .name]
  | .getLanguage => [.read .language]
  -- version 1, xlanguage.go:204-210
  | .get _ => [.read .entries]
  -- version 1, xlanguage.go:218-235
  | .toString | .goString => [.read .entries]

/-- Goroutine `i` is about to make the calls `calls i` of version 1. -/
def start1 (um : Str → Option V1.Language.XLang) (pt : Str → Str) (l : Lang) (calls : Nat → List Use1) : Config :=
  ⟨l, none, [], fun i => (calls i).flatMap (code1 um pt)⟩

end Xcore.LangRace
