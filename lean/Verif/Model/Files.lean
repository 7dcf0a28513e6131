import Verif.Model.Language
import Verif.Model.Template

/-!
# Loading from files and constructors from texts (v2/xlanguage.go:33-87, 129-143, v2/xtemplate.go:92-126)

The file system is the function that gives the contents of a file; `none` if it cannot be opened, read or closed.
-/

namespace Xcore

/-- What reading a file gives. -/
abbrev Files := Str → Option Str

namespace Language

/-- `&XLanguage{entries: …, status: …}` (xlanguage.go:34, 46, 58, 70): no name, and the zero language tag, which prints as `und`. -/
def blank : Lang := { name := [], tag := b!"und", entries := [], status := [] }

/-- `LoadFile` (xlanguage.go:129-143): the new table and whether an error is returned. -/
def loadFile (fs : Files) (l : Lang) (file : Str) : Lang × Bool :=
  match fs file with
  | none => (l, true)
  | some data => loadString l data

/-- `LoadXMLFile` (xlanguage.go:81-87). -/
def loadXMLFile (um : Str → Option XLang) (pt : Str → Str) (fs : Files) (l : Lang) (file : Str) : Lang × Bool :=
  match fs file with
  | none => (l, true)
  | some data => loadXML um pt l data

/-- The end of the four constructors (xlanguage.go:36-39, 48-51, 60-63, 72-75): the table, or nil on error. -/
def unlessError (r : Lang × Bool) : Option Lang := if r.2 then none else some r.1

/-- `NewXLanguageFromString` (xlanguage.go:69-76). -/
def newFromString (data : Str) : Option Lang := unlessError (loadString blank data)

/-- `NewXLanguageFromXMLString` (xlanguage.go:45-52). -/
def newFromXML (um : Str → Option XLang) (pt : Str → Str) (data : Str) : Option Lang := unlessError (loadXML um pt blank data)

/-- `NewXLanguageFromFile` (xlanguage.go:57-64). -/
def newFromFile (fs : Files) (file : Str) : Option Lang := unlessError (loadFile fs blank file)

/-- `NewXLanguageFromXMLFile` (xlanguage.go:33-40). -/
def newFromXMLFile (um : Str → Option XLang) (pt : Str → Str) (fs : Files) (file : Str) : Option Lang :=
  unlessError (loadXMLFile um pt fs blank file)

end Language

namespace Template

/-- `LoadFile` (xtemplate.go:112-126): templates afterwards and whether an error is returned. -/
def loadFile (fs : Files) (th : THeap) (t : Nat) (file : Str) : THeap × Bool :=
  match fs file with
  | none => (th, true)
  | some data => loadString th t data

/-- `NewXTemplateFromFile` (xtemplate.go:92-99): the new template, or `none` and the error. -/
def newFromFile (fs : Files) (th : THeap) (file : Str) : THeap × Option Nat :=
  let r := newTpl th
  match loadFile fs r.1 r.2 file with
  | (th', true) => (th', none)
  | (th', false) => (th', some r.2)

/-- `fmt.Sprintf("%v", val)` of an element (xtemplate.go:501): the fields of the structure between braces. -/
def printParam (p : Param) : Str := b!"{" ++ itoa p.kind.num ++ b!" " ++ p.data ++ b!"}"

/-- `fmt.Sprintf("%#v", val)` of an element (xtemplate.go:514); `quote` is the `%#v` format of a string (package fmt). -/
def goPrintParam (quote : Str → Str) (p : Param) : Str :=
  b!"xcore.XTemplateParam{ParamType:" ++ itoa p.kind.num ++ b!", Data:" ++ quote p.data ++ b!"}"

/-- `String` (xtemplate.go:495-505). -/
def toString (o : Tpl) : Str :=
  match o.root with
  | none => b!"xcore.XTemplate{}"
  | some l => b!"xcore.XTemplate{" ++ join b!" " (sortStrs (l.map printParam)) ++ b!"}"

/-- `GoString` (xtemplate.go:508-518). -/
def goString (quote : Str → Str) (o : Tpl) : Str :=
  match o.root with
  | none => b!"#xcore.XTemplate{}"
  | some l => b!"#xcore.XTemplate{" ++ join b!" " (sortStrs (l.map (goPrintParam quote))) ++ b!"}"

end Template

end Xcore
