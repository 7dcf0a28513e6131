import Verif.Model.TSMethods

/-!
# Goroutines using one XLanguage, loads included

`v2/xlanguage.go`. A call is a sequence of critical sections (`Verif/Model/Lock.lean`), interleaved with those of other goroutines
access by access: `LoadString` takes the lock once for every line that assigns something, `LoadXMLString` once for all the entries of the
document. `Name` and `Language` are read and written without the lock, except that `GetXML` reads them while it holds the read lock, which
does not keep writers of these fields out: they are modelled apart, as accesses of which the steps of different goroutines interleave freely. An
access to `Name` or `Language` is one step (in Go a data race; a torn string is not modelled). What a goroutine does on names and what it
does under the lock are not related to each other in time: the two parts of the table are two systems.
-/

namespace Xcore.Language

open Lock

/-- Calls on an `XLanguage`: those that change it and those that read it. -/
inductive Call where
  | change (op : Op)
  | get (e : Str)
  | getStatus (e : Str)
  | getEntries
  | getXML
  | toString
  | getName
  | getLanguage
  deriving DecidableEq, Repr

/-- The critical section of `LoadString` for one line, if it assigns something (xlanguage.go:151-172). -/
def lineSection (line : Str) : Option TSOp :=
  match indexByte 61 line with
  | none => none
  | some posequal =>
    if line.length = 0 ∨ line.head? = some 35 ∨ line.head? = some 59 then none
    else
      let key := trimSpace (line.take posequal)
      if key.length = 0 then none
      else
        let value := if posequal < line.length then trimSpace (line.drop (posequal + 1)) else []
        some (.assign key value)

/-- The critical sections of a call, in order (xlanguage.go:92-124, 148-290). A document that cannot be read has none. -/
def sections (unmarshal : Str → Option XLang) : Call → List TSOp
  | .change (.set e v) => [.set e v]
  | .change (.setStatus e v) => [.setStatus e v]
  | .change (.del e) => [.del e]
  | .change (.load data) => (scan [] data).1.filterMap lineSection
  | .change (.loadXML data) => match unmarshal data with
    | none => []
    | some temp => [.entries temp.entries]
  | .change (.setName _) => []
  | .change (.setLanguage _) => []
  | .get e => [.get e]
  | .getStatus e => [.getStatus e]
  | .getEntries => [.getEntries]
  | .getXML => [.getXML]
  | .toString => [.toString]
  | .getName => []
  | .getLanguage => []

/-- The critical sections a goroutine goes through when it makes the calls `calls` one after the other. -/
def allSections (unmarshal : Str → Option XLang) (calls : List Call) : List TSOp := calls.flatMap (sections unmarshal)

/-! ## Name and Language -/

/-- One access to `Name` or `Language`. -/
inductive NameAccess where
  | writeName (n : Str)
  | writeLanguage (t : Str)
  | readName
  | readLanguage
  deriving DecidableEq, Repr

/-- The accesses of a call to `Name` and `Language`, in order (xlanguage.go:115-116, 181-198, 264). -/
def nameAccesses (unmarshal : Str → Option XLang) (parseTag : Str → Str) : Call → List NameAccess
  | .change (.loadXML data) => match unmarshal data with
    | none => []
    | some temp => [.writeName temp.name, .writeLanguage (parseTag temp.language)]
  | .change (.setName n) => [.writeName n]
  | .change (.setLanguage t) => [.writeLanguage t]
  | .getName => [.readName]
  | .getLanguage => [.readLanguage]
  | .getXML => [.readName, .readLanguage]
  | _ => []

/-- The accesses of a goroutine. -/
def allNameAccesses (unmarshal : Str → Option XLang) (parseTag : Str → Str) (calls : List Call) : List NameAccess :=
  calls.flatMap (nameAccesses unmarshal parseTag)

/-- The two fields, what every goroutine still has to do and what it has read. -/
structure NameConfig where
  name : Str
  tag : Str
  todo : Nat → List NameAccess
  seen : Nat → List Str

/-- The access `a` of goroutine `i`, after which it has `rest` to do. -/
def NameConfig.access (c : NameConfig) (i : Nat) (a : NameAccess) (rest : List NameAccess) : NameConfig :=
  let c := { c with todo := upd c.todo i rest }
  match a with
  | .writeName n => { c with name := n }
  | .writeLanguage t => { c with tag := t }
  | .readName => { c with seen := upd c.seen i (c.seen i ++ [c.name]) }
  | .readLanguage => { c with seen := upd c.seen i (c.seen i ++ [c.tag]) }

/-- Any goroutine that has something to do can make its next access: no lock is needed. -/
inductive NameReach (c0 : NameConfig) : NameConfig → Prop where
  | refl : NameReach c0 c0
  | step {c : NameConfig} {i : Nat} {a : NameAccess} {rest : List NameAccess} (h : NameReach c0 c) (ht : c.todo i = a :: rest) :
      NameReach c0 (c.access i a rest)

/-- Goroutine `i` is about to make the calls `calls i`. -/
def nameStart (unmarshal : Str → Option XLang) (parseTag : Str → Str) (n t : Str) (calls : Nat → List Call) : NameConfig :=
  ⟨n, t, fun i => allNameAccesses unmarshal parseTag (calls i), fun _ => []⟩

end Xcore.Language
