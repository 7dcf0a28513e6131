import Verif.Base.AMap

/-!
# Templates: lexer and compiler (v2/xtemplate.go:1-300)

Templates refer to each other by pointers (`SubTemplates`, `Father`), so they live in a heap of their own.

The regular expression of `compile` is evaluated here by hand: Go's `regexp` finds the leftmost match and, among the matches that start
there, the one a backtracking engine would find first. Every alternative starts with a different character, except the two for `[[`, which
exclude each other, so at most one alternative can match at a position. The repetitions `[class]+?` are followed by a character outside the
class and therefore match the longest run. `(\n|\r|\r\n|\n\r)?` takes its first matching alternative, so it swallows one byte at most. All
delimiters are ASCII, so matching runes (with invalid UTF-8 read as U+FFFD) and matching bytes is the same. All of this is proved in
Verif/Props/Regexp.lean (C94) from the text of the expression.
-/

namespace Xcore.Template

/-- `ParamType` (xtemplate.go:45-60). -/
inductive Kind where
  | string | comment | language | reference | range | condition | dump | variable | start | stop | unused
  /-- any other number -/
  | other (n : Int)
  deriving DecidableEq, Repr

/-- The number of a kind (xtemplate.go:45-60). -/
def Kind.num : Kind → Int
  | .string => 0 | .comment => 1 | .language => 2 | .reference => 3 | .range => 4 | .condition => 5 | .dump => 6 | .variable => 7
  | .start => 101 | .stop => 102 | .unused => -1 | .other n => n

/-- `XTemplateParam` (xtemplate.go:63-67). -/
structure Param where
  kind : Kind
  data : Str
  deriving DecidableEq, Repr

/-! ## First pass: lexer -/

/-- A letter or digit. -/
def alnum (c : UInt8) : Bool :=
  decide (97 ≤ c.toNat ∧ c.toNat ≤ 122) || decide (65 ≤ c.toNat ∧ c.toNat ≤ 90) || decide (48 ≤ c.toNat ∧ c.toNat ≤ 57)

/-- `[a-zA-Z0-9-_\.]` (xtemplate.go:143). -/
def langClass (c : UInt8) : Bool := alnum c || c == 45 || c == 95 || c == 46

/-- `[a-zA-Z0-9-_\=\>\:\|\.]` (xtemplate.go:146-150). -/
def elemClass (c : UInt8) : Bool := langClass c || c == 61 || c == 62 || c == 58 || c == 124

/-- `[a-z0-9\|\.\-_]` (xtemplate.go:154). -/
def boxClass (c : UInt8) : Bool :=
  decide (97 ≤ c.toNat ∧ c.toNat ≤ 122) || decide (48 ≤ c.toNat ∧ c.toNat ≤ 57) || c == 124 || c == 46 || c == 45 || c == 95

/-- Length of the match of `(\n|\r|\r\n|\n\r)?` (xtemplate.go:140, 153, 154). -/
def eol : Str → Nat
  | [] => 0
  | c :: _ => if c = 10 ∨ c = 13 then 1 else 0

/-- The text before the first `--%`: the match of `(.*?)--%` (xtemplate.go:140). -/
def untilClose : Str → Option Str
  | [] => none
  | c :: s => if (b!"--%").isPrefixOf (c :: s) then some [] else (untilClose s).map (c :: ·)

/-- Match of `%--(.*?)--%(\n|\r|\r\n|\n\r)?` at the start of the text (xtemplate.go:140): the parameter and the length. -/
def commentAt (s : Str) : Option (Param × Nat) :=
  if (b!"%--").isPrefixOf s then
    (untilClose (s.drop 3)).map fun d => (⟨.comment, d⟩, d.length + 6 + eol (s.drop (d.length + 6)))
  else none

/-- Match of `op[class]+?cl` at the start of the text (xtemplate.go:143-150). -/
def elementAt (op cl : Str) (k : Kind) (cls : UInt8 → Bool) (s : Str) : Option (Param × Nat) :=
  if op.isPrefixOf s then
    let d := (s.drop op.length).takeWhile cls
    if d ≠ [] ∧ cl.isPrefixOf (s.drop (op.length + d.length)) = true then some (⟨k, d⟩, op.length + d.length + cl.length) else none
  else none

/-- Match of `[[]]` and the end of line at the start of the text (xtemplate.go:153). -/
def stopAt (s : Str) : Option (Param × Nat) :=
  if (b!"[[]]").isPrefixOf s then some (⟨.stop, []⟩, 4 + eol (s.drop 4)) else none

/-- Match of `[[id]]` and the end of line at the start of the text (xtemplate.go:154). -/
def startAt (s : Str) : Option (Param × Nat) :=
  (elementAt b!"[[" b!"]]" .start boxClass s).map fun r => (r.1, r.2 + eol (s.drop r.2))

/-- Match of the whole regular expression at the start of the text, with the chain of tests that gives the parameter
(xtemplate.go:136-154, 167-196). -/
def matchAt (s : Str) : Option (Param × Nat) :=
  (commentAt s).or <|
  (elementAt b!"##" b!"##" .language langClass s).or <|
  (elementAt b!"&&" b!"&&" .reference elemClass s).or <|
  (elementAt b!"@@" b!"@@" .range elemClass s).or <|
  (elementAt b!"??" b!"??" .condition elemClass s).or <|
  (elementAt b!"!!" b!"!!" .dump elemClass s).or <|
  (elementAt b!"{{" b!"}}" .variable elemClass s).or <|
  (stopAt s).or (startAt s)

/-- A match: start, end and parameter. -/
structure Match where
  start : Nat
  stop : Nat
  param : Param
  deriving DecidableEq, Repr

/-- `FindAllStringIndex` / `FindAllStringSubmatch` (xtemplate.go:156-158): the matches from position `pos` on, from left to right,
without overlap; the next `skip` bytes belong to the match found last. -/
def findAll : Nat → Nat → Str → List Match
  | _, _, [] => []
  | skip + 1, pos, _ :: s => findAll skip (pos + 1) s
  | 0, pos, c :: s => match matchAt (c :: s) with
    | none => findAll 0 (pos + 1) s
    | some (p, n) => ⟨pos, pos + n, p⟩ :: findAll (n - 1) (pos + 1) s

/-- The loop of the first pass and its end (xtemplate.go:160-203). -/
def firstPass (data : Str) : Nat → List Match → List Param
  | pointer, [] => if pointer ≠ data.length then [⟨.string, data.drop pointer⟩] else []
  | pointer, m :: ms =>
    (if pointer ≠ m.start then [⟨.string, (data.take m.start).drop pointer⟩] else []) ++ m.param :: firstPass data m.stop ms

/-- The parameters of a text after the first pass (xtemplate.go:134-203). -/
def lex (data : Str) : List Param := firstPass data 0 (findAll 0 0 data)

/-! ## Template objects -/

/-- `XTemplate` (xtemplate.go:78-84). -/
structure Tpl where
  name : Str
  /-- `Root`: `none` is nil -/
  root : Option (List Param)
  /-- `SubTemplates`: `none` is the nil map -/
  subs : Option (AMap Nat)
  /-- `Father`: `none` is nil -/
  father : Option Nat
  deriving DecidableEq, Repr

/-- Memory of templates. -/
abbrev THeap := List Tpl

/-- `NewXTemplate` (xtemplate.go:87-89). -/
def newTpl (th : THeap) : THeap × Nat := (th ++ [⟨[], none, none, none⟩], th.length)

/-- Replace the object at an address. -/
def upd (th : THeap) (a : Nat) (f : Tpl → Tpl) : THeap :=
  match th[a]? with
  | none => th
  | some t => th.set a (f t)

/-- `AddTemplate` (xtemplate.go:276-282). -/
def addTemplate (th : THeap) (t : Nat) (name : Str) (tmpl : Nat) : THeap :=
  upd (upd th tmpl fun o => { o with father := some t }) t fun o => { o with subs := some ((o.subs.getD []).set name tmpl) }

/-! ## Second pass: boxes -/

/-- State of the second pass (xtemplate.go:206-208). The stacks have their top first. -/
structure Pass where
  th : THeap
  compiled : List Param
  /-- `startpointers` -/
  starts : List Nat
  /-- `subtemplates` -/
  uppers : List Nat
  /-- `actualtemplate` -/
  actual : Nat
  deriving DecidableEq, Repr

/-- Mark a parameter as unused. -/
def markUnused (c : List Param) (i : Nat) : List Param :=
  match c[i]? with
  | none => c
  | some p => c.set i { p with kind := .unused }

/-- The loop that moves parameters `ptr ≤ · < i` into `subset` (xtemplate.go:223-229); `n` = `i - ptr`. -/
def moveOut : Nat → Nat → List Param → List Param × List Param
  | 0, _, c => (c, [])
  | n + 1, ptr, c => match c[ptr]? with
    | none => (c, [])                                  -- unreachable
    | some p =>
      if p.kind ≠ .unused then
        let r := moveOut n (ptr + 1) (markUnused c ptr)
        (r.1, p :: r.2)
      else moveOut n (ptr + 1) c

/-- Registration of a box under its names (xtemplate.go:235-246). -/
def register (th : THeap) (upper : Nat) (name : Str) (t : Nat) : THeap :=
  match indexByte 124 name with
  | some _ => (split 124 name).foldl (fun th v => if v.length > 0 then addTemplate th upper v t else th) th
  | none => addTemplate th upper name t

/-- `actualtemplate.Name` (xtemplate.go:235); the address is always that of an object. -/
def nameAt (th : THeap) (a : Nat) : Str := (th[a]?.map Tpl.name).getD []

/-- One round of the second pass (xtemplate.go:209-254); `none` is the error return, which leaves memory as it is. -/
def passStep (s : Pass) (i : Nat) (x : Param) : Option Pass :=
  if x.kind = .start then
    some { s with starts := i :: s.starts, uppers := s.actual :: s.uppers, th := s.th ++ [⟨x.data, none, none, none⟩], actual := s.th.length }
  else if x.kind = .stop then
    match s.starts, s.uppers with
    | sp :: starts, upper :: uppers =>
      let r := moveOut (i - (sp + 1)) (sp + 1) s.compiled
      let th := upd s.th s.actual fun o => { o with root := some r.2 }
      some { th := register th upper (nameAt th s.actual) s.actual, compiled := markUnused (markUnused r.1 sp) i, starts, uppers, actual := upper }
    | _, _ => none
  else some s

/-- The second pass over the parameters from index `i` on (xtemplate.go:209-255). The loop reads each parameter before anything marks it.
On an error the memory reached so far is kept. -/
def passLoop : Pass → Nat → List Param → THeap × Option Pass
  | s, _, [] => (s.th, some s)
  | s, i, x :: xs => match passStep s i x with
    | none => (s.th, none)
    | some s' => passLoop s' (i + 1) xs

/-- `compile` on the template at address `t` (xtemplate.go:134-273): memory afterwards and whether an error is returned. The last pass
moves the parameters that are left to the front of the same array, never before it has read them. -/
def compile (th : THeap) (t : Nat) (data : Str) : THeap × Bool :=
  let compiled := lex data
  match passLoop ⟨th, compiled, [], [], t⟩ 0 compiled with
  | (th', none) => (th', true)
  | (th', some s) =>
    if s.starts.length > 0 then (th', true)
    else (upd th' t fun o => { o with root := some (s.compiled.filter fun p => p.kind ≠ .unused) }, false)

/-- `LoadString` (xtemplate.go:129-131); `LoadFile` (xtemplate.go:112-126) is the same on the contents of the file. -/
def loadString (th : THeap) (t : Nat) (data : Str) : THeap × Bool := compile th t data

/-- `NewXTemplateFromString` (xtemplate.go:102-109): the new template, or `none` and the error. -/
def newFromString (th : THeap) (data : Str) : THeap × Option Nat :=
  let r := newTpl th
  match loadString r.1 r.2 data with
  | (th', true) => (th', none)
  | (th', false) => (th', some r.2)

/-! ## Lookup -/

/-- `GetTemplate` (xtemplate.go:285-300), following `Father` at most `fuel` times. -/
def getTemplateN : Nat → THeap → Nat → Str → Res (Option Nat)
  | 0, _, _, _ => .diverge
  | n + 1, th, t, name => match th[t]? with
    | none => .panic                                   -- unreachable
    | some o => match (o.subs.getD []).get name with
      | some s => .ok (some s)
      | none => match o.father with
        | some f => getTemplateN n th f name
        | none => .ok none

/-- `GetTemplate` (xtemplate.go:285-300). If the chain of fathers is longer than the number of templates it is a cycle, and the Go
recursion never ends. -/
def getTemplate (th : THeap) (t : Nat) (name : Str) : Res (Option Nat) := getTemplateN (th.length + 1) th t name

end Xcore.Template
