import Verif.Model.V1.Template
import Verif.Model.Xml

/-!
# The regular expressions of the template compiler

`compile` (v2/xtemplate.go:134-203, xtemplate.go:126-195) cuts a text with `regexp.MustCompile`, `FindAllStringIndex` and `FindAllStringSubmatch`. The
other files evaluate this expression by hand (`Template.lex`, `V1.Template.lex`). Here is the expression as it is written in the code, with the part of
Go's package `regexp` that it needs: the syntax, and matching by runes with the result a backtracking engine would find first. The package is not part of
/repo: this is how its documentation describes it. Proved in Verif/Props/Regexp.lean: both give the same for every text.
-/

namespace Xcore.Regexp

open Xcore.Template (Kind Param Match firstPass)

/-- A regular expression (regexp/syntax): empty, a set of runes, concatenation, alternatives, `?`, `*?`, `+?` and capturing groups. -/
inductive Re where
  | eps
  | set (ranges : List (Nat × Nat))
  | cat (a b : Re)
  | alt (a b : Re)
  | opt (a : Re)
  | lazyStar (a : Re)
  | lazyPlus (a : Re)
  | group (n : Nat) (a : Re)
  deriving DecidableEq, Repr

/-! ## Syntax -/

/-- The character that `\c` stands for: line feed, carriage return, or punctuation for itself. -/
def escape (c : UInt8) : Option UInt8 :=
  if c = 110 then some 10 else if c = 114 then some 13 else if c.toNat < 128 ∧ Xcore.Template.alnum c = false then some c else none

/-- One character of a class `[...]`. -/
def classChar : Str → Option (UInt8 × Str)
  | [] => none
  | c :: s => if c = 92 then
      match s with
      | [] => none
      | e :: s => (escape e).map fun c => (c, s)
    else if c.toNat < 128 then some (c, s) else none

/-- The inside of a class, up to `]`: characters and ranges `a-b`. A `-` at any other place stands for itself. -/
def parseClass : Nat → Str → Option (List (Nat × Nat) × Str)
  | 0, _ => none
  | n + 1, s => if s.head? = some 93 then some ([], s.tail) else
    (classChar s).bind fun (lo, s) =>
      if s.head? = some 45 ∧ s.tail.head? ≠ some 93 then
        (classChar s.tail).bind fun (hi, s) =>
          if lo.toNat ≤ hi.toNat then (parseClass n s).map fun r => ((lo.toNat, hi.toNat) :: r.1, r.2) else none
      else (parseClass n s).map fun r => ((lo.toNat, lo.toNat) :: r.1, r.2)

/-- An operator of repetition after an expression. The greedy `*` and `+` and the lazy `??` are not used in the code. -/
def repeated (a : Re) : Str → Option (Re × Str)
  | 42 :: 63 :: s => some (.lazyStar a, s)
  | 43 :: 63 :: s => some (.lazyPlus a, s)
  | 63 :: 63 :: _ => none
  | 63 :: s => some (.opt a, s)
  | 42 :: _ => none
  | 43 :: _ => none
  | s => some (a, s)

/-- Characters with a meaning of their own. -/
def special (c : UInt8) : Bool := (b!"\\.+*?()|[]{}^$").contains c

mutual

/-- Alternatives, up to `)` or the end. The number is that of the groups opened so far. -/
def parseAlt : Nat → Str → Nat → Option (Re × Str × Nat)
  | 0, _, _ => none
  | f + 1, s, n => (parseCat f s n).bind fun (a, s, n) =>
    if s.head? = some 124 then (parseAlt f s.tail n).map fun (b, r) => (.alt a b, r) else some (a, s, n)

/-- A concatenation, up to `|`, `)` or the end. -/
def parseCat : Nat → Str → Nat → Option (Re × Str × Nat)
  | 0, _, _ => none
  | f + 1, s, n => if s = [] ∨ s.head? = some 124 ∨ s.head? = some 41 then some (.eps, s, n) else
    (parseAtom f s n).bind fun (a, s, n) => (repeated a s).bind fun (a, s) => (parseCat f s n).map fun (b, r) => (.cat a b, r)

/-- A group, `.` (with the flag `s`: any rune), a class, an escaped character or a character. -/
def parseAtom : Nat → Str → Nat → Option (Re × Str × Nat)
  | 0, _, _ => none
  | _ + 1, [], _ => none
  | f + 1, c :: s, n =>
    if c = 40 then (parseAlt f s (n + 1)).bind fun (a, s, m) => if s.head? = some 41 then some (.group (n + 1) a, s.tail, m) else none
    else if c = 46 then some (.set [(0, 0x10FFFF)], s, n)
    else if c = 91 then (parseClass f s).map fun (rs, s) => (.set rs, s, n)
    else if c = 92 then s.head?.bind fun e => (escape e).map fun c => (.set [(c.toNat, c.toNat)], s.tail, n)
    else if c.toNat < 128 ∧ special c = false then some (.set [(c.toNat, c.toNat)], s, n)
    else none

end

/-- `regexp.MustCompile` for an expression that begins with `(?s)` (v2/xtemplate.go:156, xtemplate.go:148); `none`: not in the syntax above. -/
def parse (code : Str) : Option Re :=
  if (b!"(?s)").isPrefixOf code then
    let s := code.drop 4
    (parseAlt (3 * s.length) s 0).bind fun (r, rest, _) => if rest = [] then some r else none
  else none

/-! ## Matching -/

/-- What the groups captured, by their numbers. -/
abbrev Caps := List (Nat × Str)

/-- `utf8.DecodeRuneInString`: the first rune and its width. A byte that begins no valid encoding is read as U+FFFD. -/
def firstRune (s : Str) : Option (Nat × Nat) :=
  if s = [] then none else some ((Xml.decodeRune s).getD (0xFFFD, 1))

/-- A lazy loop: stop, or go round once more; a round that takes nothing is not repeated. `n` bounds the rounds. -/
def loop (f : Str → List (Str × Caps)) : Nat → Str → List (Str × Caps)
  | 0, s => [(s, [])]
  | n + 1, s => (s, []) :: (f s).flatMap fun (s1, c1) =>
      if s1.length < s.length then (loop f n s1).map fun (s2, c2) => (s2, c1 ++ c2) else []

/-- All the ways to match at the start of the text, in the order in which a backtracking engine finds them: the text that is left and the captures. -/
def run : Re → Str → List (Str × Caps)
  | .eps, s => [(s, [])]
  | .set rs, s => match firstRune s with
    | none => []
    | some (r, w) => if rs.any fun p => decide (p.1 ≤ r ∧ r ≤ p.2) then [(s.drop w, [])] else []
  | .cat a b, s => (run a s).flatMap fun (s1, c1) => (run b s1).map fun (s2, c2) => (s2, c1 ++ c2)
  | .alt a b, s => run a s ++ run b s
  | .opt a, s => run a s ++ [(s, [])]
  | .lazyStar a, s => loop (run a) s.length s
  | .lazyPlus a, s => (run a s).flatMap fun (s1, c1) => (loop (run a) s1.length s1).map fun (s2, c2) => (s2, c1 ++ c2)
  | .group n a, s => (run a s).map fun (s1, c) => (s1, (n, s.take (s.length - s1.length)) :: c)

/-- The match that counts at a position. -/
def matchHere (r : Re) (s : Str) : Option (Str × Caps) := (run r s).head?

/-- The text a group captured, empty if it took no part in the match: `matches[i][n]` (v2/xtemplate.go:168-193). -/
def sub (n : Nat) (c : Caps) : Str := c.foldl (fun acc p => if p.1 = n then p.2 else acc) []

/-- `FindAllStringIndex` and `FindAllStringSubmatch` (v2/xtemplate.go:157-158, xtemplate.go:149-150) from position `pos` on, which is that of `s`: leftmost
matches without overlap; the search moves on by runes. Start, end and captures. `n` bounds the number of steps. An expression that matches
the empty text is not treated as Go does. -/
def findAll (r : Re) : Nat → Nat → Str → List (Nat × Nat × Caps)
  | 0, _, _ => []
  | n + 1, pos, s => match firstRune s with
    | none => []
    | some (_, w) => match matchHere r s with
      | some (s1, c) =>
        let len := s.length - s1.length
        if len = 0 then findAll r n (pos + w) (s.drop w) else (pos, pos + len, c) :: findAll r n (pos + len) s1
      | none => findAll r n (pos + w) (s.drop w)

/-! ## The first pass -/

/-- The expression (v2/xtemplate.go:136-154). -/
def code : Str :=
  b!"(?s)" ++
  b!"(%)--(.*?)--%(\\n|\\r|\\r\\n|\\n\\r)?" ++
  b!"|(#)#([a-zA-Z0-9-_\\.]+?)##" ++
  b!"|(&)&([a-zA-Z0-9-_\\=\\>\\:\\|\\.]+?)&&" ++
  b!"|(@)@([a-zA-Z0-9-_\\=\\>\\:\\|\\.]+?)@@" ++
  b!"|(\\?)\\?([a-zA-Z0-9-_\\=\\>\\:\\|\\.]+?)\\?\\?" ++
  b!"|(\\!)\\!([a-zA-Z0-9-_\\=\\>\\:\\|\\.]+?)\\!\\!" ++
  b!"|(\\{)\\{([a-zA-Z0-9-_\\=\\>\\:\\|\\.]+?)\\}\\}" ++
  b!"|\\[\\[(\\])\\](\\n|\\r|\\r\\n|\\n\\r)?" ++
  b!"|(\\[)\\[([a-z0-9\\|\\.\\-_]+?)\\]\\](\\n|\\r|\\r\\n|\\n\\r)?"

/-- The expression of version 1 (xtemplate.go:128-146). -/
def codeV1 : Str :=
  b!"(?s)" ++
  b!"(%)--(.*?)--%(\\n|\\r|\\r\\n|\\n\\r)?" ++
  b!"|(#)#(.+?)##" ++
  b!"|(&)&(.+?)&&" ++
  b!"|(@)@(.+?)@@" ++
  b!"|(\\?)\\?(.+?)\\?\\?" ++
  b!"|(\\!)\\!(.+?)\\!\\!" ++
  b!"|(\\{)\\{(.+?)\\}\\}" ++
  b!"|\\[\\[(\\])\\](\\n|\\r|\\r\\n|\\n\\r)?" ++
  b!"|(\\[)\\[([a-z0-9\\|\\.\\-_]+?)\\]\\](\\n|\\r|\\r\\n|\\n\\r)?"

/-- The parameter of a match (v2/xtemplate.go:167-196, xtemplate.go:159-188). -/
def paramOf (c : Caps) : Param :=
  if sub 1 c = b!"%" then ⟨.comment, sub 2 c⟩
  else if sub 4 c = b!"#" then ⟨.language, sub 5 c⟩
  else if sub 6 c = b!"&" then ⟨.reference, sub 7 c⟩
  else if sub 8 c = b!"@" then ⟨.range, sub 9 c⟩
  else if sub 10 c = b!"?" then ⟨.condition, sub 11 c⟩
  else if sub 12 c = b!"!" then ⟨.dump, sub 13 c⟩
  else if sub 14 c = b!"{" then ⟨.variable, sub 15 c⟩
  else if sub 18 c = b!"[" then ⟨.start, sub 19 c⟩
  else if sub 16 c = b!"]" then ⟨.stop, []⟩
  else ⟨.unused, []⟩

/-- The first pass of `compile` with the given expression (v2/xtemplate.go:156-203, xtemplate.go:148-195); the loop is that of
`Template.firstPass`. -/
def firstPassWith (r : Re) (data : Str) : List Param :=
  firstPass data 0 ((findAll r data.length 0 data).map fun (a, b, c) => ⟨a, b, paramOf c⟩)

end Xcore.Regexp
