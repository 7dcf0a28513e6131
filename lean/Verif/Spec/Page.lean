import Verif.Spec.TemplateRender
import Verif.Spec.DatasetBuild

/-!
# Specification: the page, without memory

`page` computes the text of a document from data that are plain trees, as one would by hand: there are no addresses, no memory and no stack
that is pushed and popped. It has no answer (`none`) where the text depends on counters that earlier loops have left behind (a path that
leads to `.counter`, or the printed form of a whole dataset, collection or language table), for `!!dump!!`, and when the number of nested
sub-templates exceeds the given one.

`Holds` says which datasets in memory have the content of a tree.
-/

namespace Xcore.Page

open Xcore.Dataset Xcore.Template

/-- Data as one writes them down. -/
inductive Data where
  /-- text, number, bool, time, nil or another single value -/
  | scalar (v : Val)
  /-- a language table -/
  | table (l : Language.Lang)
  /-- a dataset: names and values -/
  | record (fields : List (Str × Data))
  /-- a collection of datasets -/
  | rows (l : List (List (Str × Data)))

/-- The names and values of a dataset. -/
abbrev Fields := List (Str × Data)

/-! ## Looking up -/

/-- What the steps of a path lead to: a name is that of a field, after rows comes the decimal number of a row, from 0. The second part of
the answer is whether the path ends at a row. -/
def follow : Fields → List Str → Option (Data × Bool)
  | _, [] => none
  | fs, [k] => (fs.lookup k).map fun d => (d, false)
  | fs, k :: k2 :: rest => match fs.lookup k with
    | some (.record gs) => follow gs (k2 :: rest)
    | some (.rows l) => match atoi k2 with
      | some (.ofNat i) => match l[i]?, rest with
        | some row, [] => some (.record row, true)
        | some row, rest => follow row rest
        | none, _ => none
      | _ => none
    | _ => none

/-- How the rendering came to a dataset. -/
inductive Place where
  /-- it is the outermost one, or a field of another one -/
  | plain
  /-- it is a row that a path leads to -/
  | row
  /-- it is the row with that number, from 0, of a loop that is going on -/
  | loop (i : Nat)

/-- A dataset in which names are looked up. -/
structure Layer where
  fields : Fields
  place : Place

/-- The counter: that of the innermost loop that is going on. No answer if a row that a path leads to is inside that loop: it may have an
old counter. -/
def counter : List Layer → Option (Option (Data × Bool))
  | [] => some none
  | ⟨_, .plain⟩ :: ls => counter ls
  | ⟨_, .loop i⟩ :: _ => some (some (.scalar (.int .int (i + 1)), false))
  | ⟨_, .row⟩ :: _ => none

/-- The value at a path: that of the innermost dataset that has one. No answer for paths through `.counter`. -/
def value (ls : List Layer) (path : Str) : Option (Option (Data × Bool)) :=
  if path = b!".counter" then counter ls
  else if b!".counter" ∈ split 62 path then none
  else some (ls.findSome? fun l => follow l.fields (split 62 path))

/-- The text of a value: nothing if it is missing or nil. No answer for datasets, collections and tables. -/
def text (x : Ext) : Option (Data × Bool) → Option Str
  | none => some []
  | some (.scalar v, _) => some (if v = .nil then [] else fmtScalar x v)
  | some _ => none

/-! ## Rendering -/

/-- The first of the names that is declared is rendered; nothing if none is. -/
def first (rec : List Doc → List Layer → Option Str) (sc : List Doc) (ls : List Layer) (names : List Str) : Option Str :=
  match names.findSome? (lookup sc) with
  | none => some []
  | some sc' => rec sc' ls

/-- The names of sub-templates for a value: the text of the value after `pre`, and `alone`. The text of a whole dataset, collection or table
is not part of any name, since it has capitals. -/
def named (x : Ext) (v : Option (Data × Bool)) (pre alone : Str) : List Str :=
  match text x v with
  | some t => [pre ++ t, alone]
  | none => [alone]

/-- The rows from number `i` on, of `n`. -/
def rounds (rec : List Doc → List Layer → Option Str) (sc : List Doc) (ls : List Layer) (id : Str) (n : Nat) : Nat → List Fields → Option Str
  | _, [] => some []
  | i, row :: rest =>
    match first rec sc (⟨row, .loop i⟩ :: ls) (rangeNames id i n), rounds rec sc ls id n (i + 1) rest with
    | some a, some b => some (a ++ b)
    | _, _ => none

/-- The dataset a path leads to, as the innermost one. -/
def inner (fs : Fields) (row : Bool) (ls : List Layer) : List Layer := ⟨fs, if row then .row else .plain⟩ :: ls

/-- A reference: `name`, `name:path` or `:path:prefix`. -/
def reference (x : Ext) (rec : List Doc → List Layer → Option Str) (sc : List Doc) (ls : List Layer) : List Str → Option Str
  | [id, key] =>
    if lookup sc id = none then some []
    else match value ls key with
      | none => none
      | some (some (.record fs, row)) => first rec sc (inner fs row ls) [id]
      | some _ => first rec sc ls [id]
  | [_, key, pre] =>
    match value ls key with
    | none => none
    | some v => first rec sc ls (named x v pre pre)
  | id :: _ => first rec sc ls [id]
  | [] => none

/-- A loop over the rows at the path `key`. -/
def range (rec : List Doc → List Layer → Option Str) (sc : List Doc) (ls : List Layer) (key id : Str) : Option Str :=
  if lookup sc id = none then some []
  else match value ls key with
    | none => none
    | some (some (.rows (row :: rest), _)) => rounds rec sc ls id (rest.length + 1) 0 (row :: rest)
    | some _ => first rec sc ls [id ++ b!".none", id]

/-- A condition on the value at the path `key`. -/
def condition (x : Ext) (rec : List Doc → List Layer → Option Str) (sc : List Doc) (ls : List Layer) (key id : Str) : Option Str :=
  match value ls key with
  | none => none
  | some (some (.record fs, row)) => if lookup sc id = none then some [] else first rec sc (inner fs row ls) [id ++ b!".array", id]
  | some v =>
    if text x v = some [] then first rec sc ls [id ++ b!".none", id]
    else if lookup sc id = none then some []
    else first rec sc ls (named x v (id ++ b!".") id)

/-- One element. -/
def element (x : Ext) (lang : Option Language.Lang) (rec : List Doc → List Layer → Option Str) (sc : List Doc) (ls : List Layer) (p : Param) :
    Option Str :=
  match p.kind with
  | .string => some p.data
  | .comment => some []
  | .language => some (langText lang p.data)
  | .variable => (value ls p.data).bind (text x)
  | .reference => reference x rec sc ls (split 58 p.data)
  | .range => match split 58 p.data with
    | [] => none
    | [key] => range rec sc ls key key
    | key :: id :: _ => range rec sc ls key id
  | .condition => match split 58 p.data with
    | [] => none
    | [key] => condition x rec sc ls key key
    | key :: id :: _ => condition x rec sc ls key id
  | _ => none

/-- One element after the other. -/
def elements (f : Param → Option Str) : List Param → Option Str
  | [] => some []
  | p :: l => match f p, elements f l with
    | some a, some b => some (a ++ b)
    | _, _ => none

/-- The text of the innermost of the documents `sc`, which enclose one another, with the data `ls`, innermost first. The number bounds the
depth of nested sub-templates. -/
def page (x : Ext) (lang : Option Language.Lang) : Nat → List Doc → List Layer → Option Str
  | 0, _, _ => none
  | n + 1, sc, ls => elements (element x lang (page x lang n) sc ls) (innermost sc)

/-- The language table of the data: what is under `#`. -/
def langOf (fs : Fields) : Option Language.Lang :=
  match fs.lookup b!"#" with
  | some (.table l) => some l
  | _ => none

/-- The text of a document with a dataset. -/
def render (x : Ext) (depth : Nat) (d : Doc) (fs : Fields) : Option Str := page x (langOf fs) depth [d] [⟨fs, .plain⟩]

/-! ## When there is an answer -/

/-- The datasets that are part of the data, at any depth. -/
inductive Within (fs : Fields) : Fields → Prop where
  | all : Within fs fs
  | field {gs hs : Fields} {k : Str} : Within fs gs → (k, .record hs) ∈ gs → Within fs hs
  | row {gs hs : Fields} {k : Str} {l : List Fields} : Within fs gs → (k, .rows l) ∈ gs → hs ∈ l → Within fs hs

/-- The paths at which an element looks. -/
def paths (p : Param) : List Str :=
  match p.kind with
  | .variable => [p.data]
  | .reference => match split 58 p.data with
    | [_, key] => [key]
    | [_, key, _] => [key]
    | _ => []
  | .range | .condition => (split 58 p.data).take 1
  | _ => []

/-- The element is a text, a comment, a language entry, a field, a reference, a loop or a condition; its paths do not go through a counter; and if
it is a field, then its path leads, wherever it leads to something, to a single value. -/
def Answered (fs : Fields) (p : Param) : Prop :=
  p.kind ∈ [.string, .comment, .language, .variable, .reference, .range, .condition] ∧
  (∀ path ∈ paths p, path = b!".counter" ∨ b!".counter" ∉ split 62 path) ∧
  (p.kind = .variable → ∀ gs d row, Within fs gs → follow gs (split 62 p.data) = some (d, row) → ∃ v, d = .scalar v)

/-- The element does not use a counter. -/
def NoCounter (p : Param) : Prop := b!".counter" ∉ paths p

/-- No path of the element leads to a row of a collection (by its number). -/
def NoRow (fs : Fields) (p : Param) : Prop := ∀ path ∈ paths p, ∀ gs hs, Within fs gs → follow gs (split 62 path) ≠ some (.record hs, true)

/-! ## Data in memory -/

/-- A single value: neither a pointer nor a slice. -/
def Single : Val → Prop
  | .ptr _ | .slice _ _ => False
  | _ => True

/-- A dataset that is no row has no counter; a row may have one. -/
def CounterFits (place : Option Nat) (m : AMap Val) : Prop :=
  m.get b!".counter" = none ∨ place ≠ none ∧ ∃ i : Int, m.get b!".counter" = some (.int .int i)

/-- `Holds h pos v d place`: the value `v` in memory has the content `d`. `pos` tells for each dataset in memory (by the address of its
plain dataset, wrappers aside) whether it is a row, and which one: no dataset is both a row and a field, or a row with two numbers. The
same dataset may otherwise be in several places. -/
inductive Holds (h : Heap) (pos : Nat → Option Nat) : Val → Data → Option Nat → Prop where
  | scalar {v : Val} {place : Option Nat} : Single v → Holds h pos v (.scalar v) place
  | table {a : Nat} {l : Language.Lang} {place : Option Nat} : h[a]? = some (.lang l) → Holds h pos (.ptr a) (.table l) place
  | record {a t : Nat} {m : AMap Val} {fs : Fields} {val : Str → Val} : Wraps h a t → h[t]? = some (.ds m) → CounterFits (pos t) m →
      (∀ k d, (k, d) ∈ fs → k ≠ b!".counter" ∧ 62 ∉ k ∧ m.get k = some (val k)) →
      (∀ k, k ≠ b!".counter" → m.get k ≠ none → ∃ d, (k, d) ∈ fs) →
      (∀ k d, (k, d) ∈ fs → Holds h pos (val k) d none) → Holds h pos (.ptr a) (.record fs) (pos t)
  | rows {c : Nat} {l : List (Option Nat)} {rs : List Fields} {row : Nat → Nat} {place : Option Nat} : IsCollection h c l →
      l.length = rs.length → (∀ i, i < rs.length → l[i]? = some (some (row i))) →
      (∀ (i : Nat) (fs : Fields), rs[i]? = some fs → Holds h pos (.ptr (row i)) (.record fs) (some i)) → Holds h pos (.ptr c) (.rows rs) place

/-! ## Data as Go literals -/

/-- The Go value (nested maps and slices) has the content `d`; pointers in it are to language tables in memory. -/
inductive Literal (h : Heap) : Raw → Data → Prop where
  | scalar {v : Val} : Single v → Literal h (.val v) (.scalar v)
  | table {a : Nat} {l : Language.Lang} : h[a]? = some (.lang l) → Literal h (.val (.ptr a)) (.table l)
  | map {m : List (Str × Raw)} {fs : Fields} : (m.map Prod.fst).Nodup → (∀ k ∈ m.map Prod.fst, k ≠ b!".counter" ∧ 62 ∉ k) →
      fs.map Prod.fst = m.map Prod.fst →
      (∀ (i : Nat) (k k' : Str) (r : Raw) (d : Data), m[i]? = some (k, r) → fs[i]? = some (k', d) → Literal h r d) → Literal h (.map m) (.record fs)
  | maps {l : List (List (Str × Raw))} {rs : List Fields} : rs.length = l.length →
      (∀ (i : Nat) (m : List (Str × Raw)) (fs : Fields), l[i]? = some m → rs[i]? = some fs → Literal h (.map m) (.record fs)) → Literal h (.maps l) (.rows rs)
  | anys {l : List Raw} {rs : List Fields} : Literal h (.maps (onlyMaps l)) (.rows rs) → Literal h (.anys l) (.rows rs)

end Xcore.Page
