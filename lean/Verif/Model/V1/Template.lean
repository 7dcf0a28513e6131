import Verif.Model.TemplateExec
import Verif.Model.V1.Dataset

/-!
# Templates of version 1

`xtemplate.go` (root package). The kinds and parameters, comments, box tags and the first pass are the same code as in version 2
(Verif/Model/Template.lean); where a definition of that file is used, the comment cites the lines of version 1. Templates have no `Father`: a
name means a sub-template of the template itself. The other elements are `(.+?)` between delimiters, with `(?s)`: at least one character, any
one, up to the first place where the closing delimiter stands. The delimiters are ASCII, so runes and bytes make no difference (proved
from the text of the expression: C94).

As in the model of version 2 the scope stack of `Execute` is kept beside memory. Rendering changes nothing in memory, so memory is a
constant here. For several goroutines see `Verif.Model.V1.TemplateConc`.
-/

namespace Xcore.V1.Template

open Xcore.Template (Kind Param eol commentAt stopAt startAt Match firstPass markUnused moveOut twoNames)
open Xcore.Dataset (Ext Val ofFuel)
open Xcore.V1.Dataset

/-! ## First pass -/

/-- The text before the first place where the delimiter stands: the match of `(.*?)` before it (xtemplate.go:135-142). -/
def untilDelim (cl : Str) : Str → Option Str
  | [] => none
  | c :: s => if cl.isPrefixOf (c :: s) then some [] else (untilDelim cl s).map (c :: ·)

/-- Match of `op(.+?)cl` at the start of the text (xtemplate.go:135-142): the parameter and the length. -/
def elementAt (op cl : Str) (k : Kind) (s : Str) : Option (Param × Nat) :=
  if op.isPrefixOf s then
    match s.drop op.length with
    | [] => none
    | c :: r => (untilDelim cl r).map fun d => (⟨k, c :: d⟩, op.length + (c :: d).length + cl.length)
  else none

/-- Match of the whole regular expression at the start of the text, with the chain of tests that gives the parameter (xtemplate.go:128-146,
160-188). Comments and box tags (xtemplate.go:132, 145, 146) have the expressions of version 2. -/
def matchAt (s : Str) : Option (Param × Nat) :=
  (commentAt s).or <|
  (elementAt b!"##" b!"##" .language s).or <|
  (elementAt b!"&&" b!"&&" .reference s).or <|
  (elementAt b!"@@" b!"@@" .range s).or <|
  (elementAt b!"??" b!"??" .condition s).or <|
  (elementAt b!"!!" b!"!!" .dump s).or <|
  (elementAt b!"{{" b!"}}" .variable s).or <|
  (stopAt s).or (startAt s)

/-- `FindAllStringIndex` / `FindAllStringSubmatch` (xtemplate.go:148-150), as in version 2. -/
def findAll : Nat → Nat → Str → List Match
  | _, _, [] => []
  | skip + 1, pos, _ :: s => findAll skip (pos + 1) s
  | 0, pos, c :: s => match matchAt (c :: s) with
    | none => findAll 0 (pos + 1) s
    | some (p, n) => ⟨pos, pos + n, p⟩ :: findAll (n - 1) (pos + 1) s

/-- The parameters of a text after the first pass (xtemplate.go:126-195); `firstPass` is the loop (xtemplate.go:152-195). -/
def lex (data : Str) : List Param := firstPass data 0 (findAll 0 0 data)

/-! ## Template objects -/

/-- `XTemplate` (xtemplate.go:72-76). -/
structure Tpl where
  name : Str
  /-- `Root`: `none` is nil -/
  root : Option (List Param)
  /-- `SubTemplates`: `none` is the nil map -/
  subs : Option (AMap Nat)
  deriving DecidableEq, Repr

/-- Memory of templates. -/
abbrev THeap := List Tpl

/-- `NewXTemplate` (xtemplate.go:79-81). -/
def newTpl (th : THeap) : THeap × Nat := (th ++ [⟨[], none, none⟩], th.length)

/-- Replace the object at an address. -/
def upd (th : THeap) (a : Nat) (f : Tpl → Tpl) : THeap :=
  match th[a]? with
  | none => th
  | some t => th.set a (f t)

/-- `AddTemplate` (xtemplate.go:268-273). -/
def addTemplate (th : THeap) (t : Nat) (name : Str) (tmpl : Nat) : THeap :=
  upd th t fun o => { o with subs := some ((o.subs.getD []).set name tmpl) }

/-- `GetTemplate` (xtemplate.go:276-281): a sub-template of the template itself. -/
def getTemplate (th : THeap) (t : Nat) (name : Str) : Option Nat :=
  match th[t]? with
  | none => none                                       -- unreachable
  | some o => (o.subs.getD []).get name

/-! ## Second pass -/

/-- State of the second pass (xtemplate.go:198-200). The stacks have their top first. -/
structure Pass where
  th : THeap
  compiled : List Param
  /-- `startpointers` -/
  starts : List Nat
  /-- `subtemplates` -/
  uppers : List Nat
  /-- `actualtemplate` -/
  actual : Nat
  deriving DecidableEq, Repr

/-- Registration of a box under its names (xtemplate.go:227-238). -/
def register (th : THeap) (upper : Nat) (name : Str) (t : Nat) : THeap :=
  match indexByte 124 name with
  | some _ => (split 124 name).foldl (fun th v => if v.length > 0 then addTemplate th upper v t else th) th
  | none => addTemplate th upper name t

/-- `actualtemplate.Name` (xtemplate.go:228); the address is always that of an object. -/
def nameAt (th : THeap) (a : Nat) : Str := (th[a]?.map Tpl.name).getD []

/-- One round of the second pass (xtemplate.go:201-246); `none` is the error return. `moveOut` is the loop xtemplate.go:216-221. -/
def passStep (s : Pass) (i : Nat) (x : Param) : Option Pass :=
  if x.kind = .start then
    some { s with starts := i :: s.starts, uppers := s.actual :: s.uppers, th := s.th ++ [⟨x.data, none, none⟩], actual := s.th.length }
  else if x.kind = .stop then
    match s.starts, s.uppers with
    | sp :: starts, upper :: uppers =>
      let r := moveOut (i - (sp + 1)) (sp + 1) s.compiled
      let th := upd s.th s.actual fun o => { o with root := some r.2 }
      some { th := register th upper (nameAt th s.actual) s.actual, compiled := markUnused (markUnused r.1 sp) i, starts, uppers, actual := upper }
    | _, _ => none
  else some s

/-- The second pass over the parameters from index `i` on (xtemplate.go:201-246). On an error the memory reached so far is kept. -/
def passLoop : Pass → Nat → List Param → THeap × Option Pass
  | s, _, [] => (s.th, some s)
  | s, i, x :: xs => match passStep s i x with
    | none => (s.th, none)
    | some s' => passLoop s' (i + 1) xs

/-- `compile` on the template at address `t` (xtemplate.go:126-265): memory afterwards and whether an error is returned. -/
def compile (th : THeap) (t : Nat) (data : Str) : THeap × Bool :=
  let compiled := lex data
  match passLoop ⟨th, compiled, [], [], t⟩ 0 compiled with
  | (th', none) => (th', true)
  | (th', some s) =>
    if s.starts.length > 0 then (th', true)
    else (upd th' t fun o => { o with root := some (s.compiled.filter fun p => p.kind ≠ .unused) }, false)

/-- `LoadString` (xtemplate.go:121-123). -/
def loadString (th : THeap) (t : Nat) (data : Str) : THeap × Bool := compile th t data

/-- `LoadFile` (xtemplate.go:104-118): `none` is an error of opening, reading or closing the file. -/
def loadFile (fs : Files) (th : THeap) (t : Nat) (file : Str) : THeap × Bool :=
  match fs file with
  | none => (th, true)
  | some data => loadString th t data

/-- `NewXTemplateFromString` (xtemplate.go:94-101): the new template, or `none` and the error. -/
def newFromString (th : THeap) (data : Str) : THeap × Option Nat :=
  let r := newTpl th
  match loadString r.1 r.2 data with
  | (th', true) => (th', none)
  | (th', false) => (th', some r.2)

/-- `NewXTemplateFromFile` (xtemplate.go:84-91). -/
def newFromFile (fs : Files) (th : THeap) (file : Str) : THeap × Option Nat :=
  let r := newTpl th
  match loadFile fs r.1 r.2 file with
  | (th', true) => (th', none)
  | (th', false) => (th', some r.2)

/-! ## Rendering -/

/-- The elements of `datacol`, innermost last; `none` if that is the nil interface. -/
abbrev Stack := Option (List (Option Nat))

/-- Bound for the depth of nested String and GoString calls, as in version 2. -/
def printBound (h : Heap) : Nat := 2 * h.length + 1

/-- `datacol.GetData` (xdataset.go:504-512), on the elements of the stack. -/
def stackGet (h : Heap) (stack : List (Option Nat)) (key : Str) : Res (Option Val) := getDataL h key stack.reverse

/-- `datacol.GetDataString` (xdataset.go:515-524), whose flag is ignored: the text is empty if there is no value. -/
def stackString (x : Ext) (h : Heap) (stack : List (Option Nat)) (key : Str) : Res Str := do
  let r ← stackGet h stack key
  match r with
  | none => .ok []
  | some .nil => .ok []
  | some v => ofFuel (sprint x (printBound h) h v)

/-- `datacol.GetCollection` (xdataset.go:567-574): unchecked type assertion. -/
def stackCollection (h : Heap) (stack : List (Option Nat)) (key : Str) : Res (Option Nat) := do
  let r ← stackGet h stack key
  match r with
  | none => .ok none
  | some v => match asCollection h v with
    | some c => .ok (some c)
    | none => .panic

/-- `datacol.Push` (xdataset.go:479-481); a call on the nil interface panics. -/
def pushSt (s : Stack) (d : Option Nat) : Res Stack :=
  match s with
  | none => .panic
  | some l => .ok (some (l ++ [d]))

/-- `datacol.Pop` (xdataset.go:484-488): index panic on an empty stack. -/
def popSt (s : Stack) : Res Stack :=
  match s with
  | none => .panic
  | some l => match l.getLast? with
    | none => .panic
    | some _ => .ok (some l.dropLast)

/-- Rendering of a template on a stack: the stack afterwards and the text. -/
abbrev Render := Nat → Stack → Res (Stack × Str)

/-- Rendering of the template found, nothing if it is nil. -/
def renderOpt (rec : Render) (o : Option Nat) (s : Stack) : Res (Stack × Str) :=
  match o with
  | none => .ok (s, [])
  | some t => rec t s

/-- Push, render, pop (xtemplate.go:345-351, 392-396). -/
def renderWith (rec : Render) (t : Nat) (d : Option Nat) (s : Stack) : Res (Stack × Str) := do
  let s ← pushSt s d
  let r ← rec t s
  let s ← popSt r.1
  .ok (s, r.2)

/-- MetaReference (xtemplate.go:315-354). -/
def doReference (x : Ext) (th : THeap) (h : Heap) (rec : Render) (t : Nat) (data : Str) (s : Stack) : Res (Stack × Str) :=
  match split 58 data with
  | [_, field, pre] => match s with
    | none => .panic
    | some l => do
      let value ← stackString x h l field
      match getTemplate th t (pre ++ value) with
      | some c => rec c s
      | none => renderOpt rec (getTemplate th t pre) s
  | xid => match getTemplate th t (xid.headD []) with
    | none => .ok (s, [])
    | some c => match xid with
      | [_, key] => match s with
        | none => .panic
        | some l => do
          let dcl ← stackGet h l key
          match dcl.bind (asDataset h) with
          | some ds => renderWith rec c (some ds) s
          | none => rec c s
      | _ => rec c s

/-- The template of the `i`-th of `n` elements of a loop (xtemplate.go:374-390). -/
def pickRange (th : THeap) (t : Nat) (id : Str) (subt i n : Nat) : Nat :=
  let tmp := getTemplate th t (id ++ b!".key." ++ itoa i)
  let tmp := if tmp = none ∧ i = 0 then getTemplate th t (id ++ b!".first") else tmp
  let tmp := if tmp = none ∧ i + 1 = n then getTemplate th t (id ++ b!".last") else tmp
  let tmp := if tmp = none ∧ i % 2 = 0 then getTemplate th t (id ++ b!".even") else tmp
  tmp.getD subt

/-- The loop over a collection (xtemplate.go:373-397), `k` rounds from index `i` on. The Go code asks for the number `n` of elements in every
round; it cannot change, because rendering changes no data. A nil element is pushed like any other. -/
def rangeLoop (th : THeap) (h : Heap) (rec : Render) (t : Nat) (id : Str) (subt cl n : Nat) : Nat → Nat → Stack → Res (Stack × Str)
  | 0, _, s => .ok (s, [])
  | k + 1, i, s => do
    let r ← renderWith rec (pickRange th t id subt i n) ((colGetAt h cl i).getD none) s
    let q ← rangeLoop th h rec t id subt cl n k (i + 1) r.1
    .ok (q.1, r.2 ++ q.2)

/-- MetaRange (xtemplate.go:360-408). -/
def doRange (th : THeap) (h : Heap) (rec : Render) (t : Nat) (data : Str) (s : Stack) : Res (Stack × Str) :=
  let ids := twoNames data
  match getTemplate th t ids.2, s with
  | some c, some l => do
    let cl ← stackCollection h l ids.1
    match cl with
    | some cl => rangeLoop th h rec t ids.2 c cl (count h cl) (count h cl) 0 s
    | none => rec ((getTemplate th t (ids.2 ++ b!".none")).getD c) s
  | _, _ => .ok (s, [])

/-- MetaCondition (xtemplate.go:409-444). A dataset is pushed and popped again, but its text `svalue` stays empty, so that nothing is
rendered. -/
def doCondition (x : Ext) (th : THeap) (h : Heap) (rec : Render) (t : Nat) (data : Str) (s : Stack) : Res (Stack × Str) := do
  let ids := twoNames data
  let value ← (match s with
    | none => .ok Val.nil
    | some l => (stackGet h l ids.1).map fun r => r.getD .nil)
  match getTemplate th t ids.2 with
  | none => .ok (s, [])
  | some c =>
    if value = .nil then .ok (s, [])
    else match asDataset h value with
      | some ds => do
        let s ← pushSt s (some ds)
        let s ← popSt s
        .ok (s, [])
      | none => do
        let svalue ← ofFuel (sprint x (printBound h) h value)
        if svalue ≠ [] then rec ((getTemplate th t (ids.2 ++ b!"." ++ svalue)).getD c) s
        else .ok (s, [])

/-- MetaDump (xtemplate.go:445-454). -/
def doDump (x : Ext) (h : Heap) (data : Str) (s : Stack) : Res (Stack × Str) :=
  match s with
  | none => .ok (s, [])
  | some l =>
    if data = b!"dump" ∨ data = b!"list" then
      match colGet l 0 with
      | some (some a) => (ofFuel (goSprint x (printBound h) h (.ptr a))).map fun r => (s, r)
      | _ => .ok (s, [])
    else .ok (s, [])

/-- One element of the root (xtemplate.go:306-457). -/
def injectItem (x : Ext) (th : THeap) (h : Heap) (lang : Option Language.Lang) (rec : Render) (t : Nat) (v : Param) (s : Stack) :
    Res (Stack × Str) :=
  match v.kind with
  | .string => .ok (s, v.data)
  | .comment => .ok (s, [])
  | .language => match lang with
    | none => .ok (s, [])
    | some l => .ok (s, Language.get l v.data)
  | .reference => doReference x th h rec t v.data s
  | .variable => match s with
    | none => .ok (s, [])
    | some l => (stackString x h l v.data).map fun d => (s, d)
  | .range => doRange th h rec t v.data s
  | .condition => doCondition x th h rec t v.data s
  | .dump => doDump x h v.data s
  | k => .ok (s, b!"THE METALANGUAGE FROM OUTERSPACE IS NOT SUPPORTED: " ++ itoa k.num)

/-- The loop over the root (xtemplate.go:305-460); the pieces are joined. -/
def injectAll (item : Param → Stack → Res (Stack × Str)) : List Param → Stack → Res (Stack × Str)
  | [], s => .ok (s, [])
  | v :: l, s => do
    let r ← item v s
    let q ← injectAll item l r.1
    .ok (q.1, r.2 ++ q.2)

/-- `injector` (xtemplate.go:300-461). The number bounds the depth of nested calls; Go's recursion has no bound. -/
def injector (x : Ext) (th : THeap) (h : Heap) (lang : Option Language.Lang) : Nat → Render
  | 0, _, _ => .diverge
  | n + 1, t, s => match th[t]? with
    | none => .panic                                   -- unreachable
    | some o => match o.root with
      | none => .ok (s, b!"Error, no template.Root compiled")
      | some root => injectAll (injectItem x th h lang (injector x th h lang n) t) root s

/-- The language table of a dataset (xtemplate.go:287-291). -/
def langOf (h : Heap) (v : Option Val) : Option Language.Lang :=
  match v with
  | some (.ptr a) => match h[a]? with
    | some (.lang l) => some l
    | _ => none
  | _ => none

/-- `Execute` (xtemplate.go:284-297); memory stays as it is. -/
def execute (x : Ext) (th : THeap) (n : Nat) (t : Nat) (h : Heap) (data : Option Nat) : Res Str :=
  match data with
  | some a => (injector x th h (langOf h (Dataset.get h a b!"#")) n t (some [some a])).map Prod.snd
  | none => (injector x th h none n t none).map Prod.snd

/-! ## Printing -/

/-- `%v` of a parameter (xtemplate.go:467): `{type data}`. -/
def fmtParam (p : Param) : Str := b!"{" ++ itoa p.kind.num ++ b!" " ++ p.data ++ b!"}"

/-- `String` and `GoString` (xtemplate.go:464-471, 474-476): a nil root is dereferenced, panic. -/
def toString (o : Tpl) : Res Str :=
  match o.root with
  | none => .panic
  | some root => .ok (b!"xcore.XLanguage{" ++ join b!" " (sortStrs (root.map fmtParam)) ++ b!"}")

end Xcore.V1.Template
