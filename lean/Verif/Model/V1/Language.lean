import Verif.Model.Files

/-!
# XLanguage of version 1

`xlanguage.go` (root package). As in the model of version 2 (Verif/Model/Language.lean) a `language.Tag` is the text it prints,
`language.Parse` and `xml.Unmarshal` are parameters, and `bufio.Scanner` is `Language.scan`. There is no mutex, no status and no export.
The map of entries is an exported field; `none` is a nil map (a structure literal without the map), into which nothing can be written:
writing panics. A function that panics gives `none` here; what it has done before (LoadXMLString sets name and language first) is not kept.
-/

namespace Xcore.V1.Language

open Xcore.Language (scan)

/-- `XLanguage` (xlanguage.go:16-20). -/
structure Lang where
  name : Str
  tag : Str
  entries : Option (AMap Str)
  deriving DecidableEq, Repr

/-- `NewXLanguage` (xlanguage.go:23-25). -/
def new (name tag : Str) : Lang := { name, tag, entries := some [] }

/-- `&XLanguage{Entries: make(map[string]string)}` (xlanguage.go:31, 43, 55, 67): the zero tag prints as `und`. -/
def blank : Lang := { name := [], tag := b!"und", entries := some [] }

/-- The assignment `l.Entries[key] = value` (xlanguage.go:121, 170, 200): panic with a nil map. -/
def put (l : Lang) (key value : Str) : Option Lang :=
  match l.entries with
  | some m => some { l with entries := some (m.set key value) }
  | none => none

/-- The body of the loop of `LoadString` (xlanguage.go:151-170) for one line. -/
def loadLine (l : Lang) (line : Str) : Option Lang :=
  match indexByte 61 line with
  | none => some l
  | some posequal =>
    if line.length = 0 ∨ line.head? = some 35 ∨ line.head? = some 59 then some l
    else
      let key := trimSpace (line.take posequal)
      if key.length = 0 then some l
      else
        let value := if posequal < line.length then trimSpace (line.drop (posequal + 1)) else []
        put l key value

/-- `LoadString` (xlanguage.go:148-176): the new table and whether an error is returned. -/
def loadString (l : Lang) (data : Str) : Option (Lang × Bool) :=
  ((scan [] data).1.foldlM loadLine l).map fun l => (l, (scan [] data).2)

/-- One `<entry>` (xlanguage.go:99-102). -/
structure XEntry where
  id : Str
  entry : Str
  deriving DecidableEq, Repr

/-- A language document (xlanguage.go:104-108). -/
structure XLang where
  name : Str
  language : Str
  entries : List XEntry
  deriving DecidableEq, Repr

/-- `LoadXMLString` (xlanguage.go:97-124): the new table and whether an error is returned. -/
def loadXML (unmarshal : Str → Option XLang) (parseTag : Str → Str) (l : Lang) (data : Str) : Option (Lang × Bool) :=
  match unmarshal data with
  | none => some (l, true)
  | some temp =>
    (temp.entries.foldlM (fun l e => put l e.id e.entry) { l with name := temp.name, tag := parseTag temp.language }).map fun l => (l, false)

/-- `LoadFile` (xlanguage.go:129-143). -/
def loadFile (fs : Files) (l : Lang) (file : Str) : Option (Lang × Bool) :=
  match fs file with
  | none => some (l, true)
  | some data => loadString l data

/-- `LoadXMLFile` (xlanguage.go:78-92). -/
def loadXMLFile (um : Str → Option XLang) (pt : Str → Str) (fs : Files) (l : Lang) (file : Str) : Option (Lang × Bool) :=
  match fs file with
  | none => some (l, true)
  | some data => loadXML um pt l data

/-- The end of the four constructors (xlanguage.go:33-36, 45-48, 57-60, 69-72): the table, or nil (`some none`) on error. -/
def unlessError (r : Option (Lang × Bool)) : Option (Option Lang) := r.map fun q => if q.2 then none else some q.1

/-- `NewXLanguageFromString` (xlanguage.go:66-73). -/
def newFromString (data : Str) : Option (Option Lang) := unlessError (loadString blank data)

/-- `NewXLanguageFromXMLString` (xlanguage.go:42-49). -/
def newFromXML (um : Str → Option XLang) (pt : Str → Str) (data : Str) : Option (Option Lang) := unlessError (loadXML um pt blank data)

/-- `NewXLanguageFromFile` (xlanguage.go:54-61). -/
def newFromFile (fs : Files) (file : Str) : Option (Option Lang) := unlessError (loadFile fs blank file)

/-- `NewXLanguageFromXMLFile` (xlanguage.go:30-37). -/
def newFromXMLFile (um : Str → Option XLang) (pt : Str → Str) (fs : Files) (file : Str) : Option (Option Lang) :=
  unlessError (loadXMLFile um pt fs blank file)

/-- `SetName` (xlanguage.go:179-181). -/
def setName (l : Lang) (n : Str) : Lang := { l with name := n }

/-- `SetLanguage` (xlanguage.go:184-186). -/
def setLanguage (l : Lang) (t : Str) : Lang := { l with tag := t }

/-- `GetName` (xlanguage.go:189-191). -/
def getName (l : Lang) : Str := l.name

/-- `GetLanguage` (xlanguage.go:194-196). -/
def getLanguage (l : Lang) : Str := l.tag

/-- `Set` (xlanguage.go:199-201). -/
def set (l : Lang) (entry value : Str) : Option Lang := put l entry value

/-- `Get` (xlanguage.go:204-210); a nil map reads as an empty one. -/
def get (l : Lang) (entry : Str) : Str :=
  match (l.entries.getD []).get entry with
  | some v => v
  | none => []

/-- `Del` (xlanguage.go:213-215); deleting from a nil map does nothing. -/
def del (l : Lang) (entry : Str) : Lang := { l with entries := l.entries.map fun m => AMap.del m entry }

/-- `String` (xlanguage.go:218-225). -/
def toString (l : Lang) : Str :=
  b!"xcore.XLanguage{" ++ join b!" " (sortStrs ((l.entries.getD []).map fun p => p.1 ++ b!":" ++ p.2)) ++ b!"}"

/-- `GoString` (xlanguage.go:228-235); `quote` is the `%#v` format of a string (package fmt). -/
def goString (quote : Str → Str) (l : Lang) : Str :=
  b!"#xcore.XLanguage{" ++ join b!" " (sortStrs ((l.entries.getD []).map fun p => p.1 ++ b!":" ++ quote p.2)) ++ b!"}"

/-- The calls that change a table. -/
inductive Op where
  | set (e v : Str)
  | del (e : Str)
  | load (data : Str)
  | loadXML (data : Str)
  | setName (n : Str)
  | setLanguage (t : Str)
  deriving DecidableEq, Repr

/-- Dispatch of one call. -/
def step (um : Str → Option XLang) (pt : Str → Str) (l : Lang) : Op → Option Lang
  | .set e v => set l e v
  | .del e => some (del l e)
  | .load data => (loadString l data).map Prod.fst
  | .loadXML data => (loadXML um pt l data).map Prod.fst
  | .setName n => some (setName l n)
  | .setLanguage t => some (setLanguage l t)

/-- A history of calls; `none` if one of them panics. -/
def run (um : Str → Option XLang) (pt : Str → Str) (l : Lang) (h : List Op) : Option Lang := h.foldlM (step um pt) l

end Xcore.V1.Language
