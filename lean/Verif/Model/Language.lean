import Verif.Base.AMap

/-!
# XLanguage

`v2/xlanguage.go`. A `language.Tag` is represented by the string it prints (`fmt.Sprint(l.Language)`); `language.Parse` (package
golang.org/x/text) and `xml.Unmarshal` (package encoding/xml) are parameters of the functions that use them. The zero value
`&XLanguage{}` (nil maps) is not modelled: all constructors make both maps. The file variants (`LoadFile`, `LoadXMLFile`,
`NewXLanguageFrom…`) are in Verif/Model/Files.lean.
-/

namespace Xcore.Language

/-- `XLanguage` (xlanguage.go:17-23). -/
structure Lang where
  name : Str
  tag : Str
  entries : AMap Str
  status : AMap Str
  deriving DecidableEq, Repr

/-- `NewXLanguage` (xlanguage.go:26-28). -/
def new (name tag : Str) : Lang := { name, tag, entries := [], status := [] }

/-! ## bufio.Scanner -/

/-- `bufio.MaxScanTokenSize`. -/
def maxToken : Nat := 65536

/-- `dropCR` of package bufio: drop one terminal carriage return. -/
def dropCR (s : Str) : Str := match s.getLast? with
  | some 13 => s.dropLast
  | _ => s

/-- The successive tokens of `bufio.NewScanner(strings.NewReader(data))` with the default `ScanLines` (xlanguage.go:149-151,
174-176), and whether the scanner stops with `ErrTooLong`. `cur` is the incomplete line in the buffer: the scanner gives up
when its buffer of 65536 bytes is full without a newline. At the end of the data a last line without newline is delivered
if it is not empty. (The buffer itself is in Model/Scanner.lean; that it makes no difference is `C31_buffering_does_not_matter`.) -/
def scan (cur : Str) : Str → List Str × Bool
  | [] => (if cur = [] then [] else [dropCR cur], false)
  | c :: cs =>
    if c = 10 then
      let r := scan [] cs
      (dropCR cur :: r.1, r.2)
    else if maxToken ≤ cur.length + 1 then ([], true)
    else scan (cur ++ [c]) cs

/-! ## Loading -/

/-- The body of the loop of `LoadString` (xlanguage.go:150-173) for one line. -/
def loadLine (l : Lang) (line : Str) : Lang :=
  match indexByte 61 line with
  | none => l
  | some posequal =>
    if line.length = 0 ∨ line.head? = some 35 ∨ line.head? = some 59 then l
    else
      let key := trimSpace (line.take posequal)
      if key.length = 0 then l
      else
        let value := if posequal < line.length then trimSpace (line.drop (posequal + 1)) else []
        { l with entries := l.entries.set key value }

/-- `LoadString` (xlanguage.go:148-178): the new table and whether an error is returned. -/
def loadString (l : Lang) (data : Str) : Lang × Bool :=
  let r := scan [] data
  (r.1.foldl loadLine l, r.2)

/-- One `<entry>` of a language document (xlanguage.go:94-98). -/
structure XEntry where
  id : Str
  entry : Str
  status : Str
  deriving DecidableEq, Repr

/-- A language document (xlanguage.go:100-104). -/
structure XLang where
  name : Str
  language : Str
  entries : List XEntry
  deriving DecidableEq, Repr

/-- `LoadXMLString` (xlanguage.go:92-124), for the functions `xml.Unmarshal` (`none` is an error) and `language.Parse`: the new
table and whether an error is returned. -/
def loadXML (unmarshal : Str → Option XLang) (parseTag : Str → Str) (l : Lang) (data : Str) : Lang × Bool :=
  match unmarshal data with
  | none => (l, true)
  | some temp =>
    (temp.entries.foldl (fun l e => { l with entries := l.entries.set e.id e.entry, status := l.status.set e.id e.status })
      { l with name := temp.name, tag := parseTag temp.language }, false)

/-! ## Access -/

/-- `SetName` (xlanguage.go:181-183). -/
def setName (l : Lang) (n : Str) : Lang := { l with name := n }

/-- `SetLanguage` (xlanguage.go:186-188). -/
def setLanguage (l : Lang) (t : Str) : Lang := { l with tag := t }

/-- `Set` (xlanguage.go:201-205). -/
def set (l : Lang) (entry value : Str) : Lang := { l with entries := l.entries.set entry value }

/-- `Get` (xlanguage.go:208-216). -/
def get (l : Lang) (entry : Str) : Str :=
  match l.entries.get entry with
  | some v => v
  | none => []

/-- `SetStatus` (xlanguage.go:219-223). -/
def setStatus (l : Lang) (entry value : Str) : Lang := { l with status := l.status.set entry value }

/-- `GetStatus` (xlanguage.go:226-234). -/
def getStatus (l : Lang) (entry : Str) : Str :=
  match l.status.get entry with
  | some v => v
  | none => []

/-- `Del` (xlanguage.go:237-242). -/
def del (l : Lang) (entry : Str) : Lang := { l with entries := l.entries.del entry, status := l.status.del entry }

/-- `GetEntries` (xlanguage.go:245-253): copies the entries one by one into a new map. -/
def getEntries (l : Lang) : AMap Str := l.entries.foldl (fun clone p => clone.set p.1 p.2) []

/-- One line of `GetXML` (xlanguage.go:261). -/
def xmlEntry (status : AMap Str) (p : Str × Str) : Str :=
  b!"  <entry id=\"" ++ p.1 ++ b!"\" status=\"" ++ (status.get p.1).getD [] ++ b!"\"><![CDATA[" ++ p.2 ++ b!"]]></entry>"

/-- `GetXML` (xlanguage.go:256-266). -/
def getXML (l : Lang) : Str :=
  b!"<?xml version=\"1.0\" encoding=\"UTF-8\" ?>\n<language id=\"" ++ l.name ++ b!"\" lang=\"" ++ l.tag ++ b!"\">\n" ++
    join b!"\n" (sortStrs (l.entries.map (xmlEntry l.status))) ++ b!"\n</language>"

/-- `String` (xlanguage.go:269-278). -/
def toString (l : Lang) : Str :=
  b!"xcore.XLanguage{" ++ join b!" " (sortStrs (l.entries.map fun p => p.1 ++ b!":" ++ p.2)) ++ b!"}"

/-- `GoString` (xlanguage.go:281-290); `quote` is the `%#v` format of a string (package fmt). -/
def goString (quote : Str → Str) (l : Lang) : Str :=
  b!"#xcore.XLanguage{" ++ join b!" " (sortStrs (l.entries.map fun p => p.1 ++ b!":" ++ quote p.2)) ++ b!"}"

/-- The calls that change a table. -/
inductive Op where
  | set (e v : Str)
  | setStatus (e v : Str)
  | del (e : Str)
  | load (data : Str)
  | loadXML (data : Str)
  | setName (n : Str)
  | setLanguage (t : Str)
  deriving DecidableEq, Repr

/-- Dispatch of one call. -/
def step (unmarshal : Str → Option XLang) (parseTag : Str → Str) (l : Lang) : Op → Lang
  | .set e v => set l e v
  | .setStatus e v => setStatus l e v
  | .del e => del l e
  | .load data => (loadString l data).1
  | .loadXML data => (loadXML unmarshal parseTag l data).1
  | .setName n => setName l n
  | .setLanguage t => setLanguage l t

/-- A history of calls. -/
def run (unmarshal : Str → Option XLang) (parseTag : Str → Str) (l : Lang) (h : List Op) : Lang :=
  h.foldl (step unmarshal parseTag) l

end Xcore.Language
