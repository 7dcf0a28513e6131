import Verif.Spec.V1.Template

/-!
# Specification: the page of version 1, without memory

`page` computes how `Execute` ends from data that are plain trees, as one would by hand: there are no addresses, no memory and no stack that is
pushed and popped. In version 1 rendering changes nothing and a box sees only its own boxes, so there is always an answer: a text, or a panic.

`Holds` says which values in memory have the content of a tree.
-/

namespace Xcore.V1.Page

open Xcore.Template (Kind Param Doc rangeNames kindNumber)
open Xcore.Dataset (Ext Val SliceKind fmtScalar)
open Xcore.V1.Dataset
open Xcore.V1.Template

/-- Data as one writes them down. -/
inductive Data where
  /-- text, number, bool, time, nil or another single value -/
  | scalar (v : Val)
  /-- a Go slice of single values -/
  | array (k : SliceKind) (l : List Val)
  /-- a language table -/
  | table (l : Language.Lang)
  /-- a dataset: names and values -/
  | record (fields : List (Str × Data))
  /-- a collection of datasets; `none` is a nil element -/
  | rows (l : List (Option (List (Str × Data))))

/-- The names and values of a dataset. -/
abbrev Fields := List (Str × Data)

/-! ## Printing -/

/-- Texts in brackets, in ascending order. -/
def listing (name : Str) (lines : List Str) : Str := name ++ b!"{" ++ join b!" " (sortStrs lines) ++ b!"}"

mutual

/-- The text of a value. -/
def shown (x : Ext) : Data → Str
  | .scalar v => fmtScalar x v
  | .array _ l => b!"[" ++ join b!" " (l.map (fmtScalar x)) ++ b!"]"
  | .table l => listing b!"xcore.XLanguage" ((l.entries.getD []).map fun p => p.1 ++ b!":" ++ p.2)
  | .record fs => listing b!"xcore.XDataset" (shownFields x fs)
  | .rows l => b!"XDatasetCollection[" ++ shownRows x 0 l ++ b!"]"

/-- One line for each field. -/
def shownFields (x : Ext) : List (Str × Data) → List Str
  | [] => []
  | (k, d) :: fs => (k ++ b!":" ++ shown x d) :: shownFields x fs

/-- The rows with their numbers, from `i` on. -/
def shownRows (x : Ext) (i : Nat) : List (Option (List (Str × Data))) → Str
  | [] => []
  | none :: rs => itoa i ++ b!":<nil> " ++ shownRows x (i + 1) rs
  | some fs :: rs => itoa i ++ b!":" ++ listing b!"xcore.XDataset" (shownFields x fs) ++ b!" " ++ shownRows x (i + 1) rs

end

mutual

/-- The text of a value in `!!dump!!`. -/
def dumped (x : Ext) : Data → Str
  | .scalar .nil => b!"<nil>"
  | .scalar v => x.goFmt v
  | .array k l => x.goSlice k l
  | .table l => listing b!"#xcore.XLanguage" ((l.entries.getD []).map fun p => p.1 ++ b!":" ++ x.goFmt (.str p.2))
  | .record fs => listing b!"#xcore.XDataset" (dumpedFields x fs)
  | .rows l => b!"XDatasetCollection[" ++ shownRows x 0 l ++ b!"]"

/-- One line for each field. -/
def dumpedFields (x : Ext) : List (Str × Data) → List Str
  | [] => []
  | (k, d) :: fs => (k ++ b!":" ++ dumped x d) :: dumpedFields x fs

end

/-! ## Looking up -/

/-- What the steps of a path lead to: a name is that of a field, after rows comes the decimal number of a row, from 0. Where a step before
the last leads to anything else, the rest of the path as a whole is the name of a field. -/
def follow : Fields → List Str → Option Data
  | _, [] => none
  | fs, [k] => fs.lookup k
  | fs, k :: k2 :: rest => match fs.lookup k with
    | none => none
    | some (.record gs) => follow gs (k2 :: rest)
    | some (.rows l) => match atoi k2 with
      | some (.ofNat i) => match l[i]?, rest with
        | some (some row), [] => some (.record row)
        | some (some row), rest => follow row rest
        | _, _ => none
      | _ => none
    | some _ => fs.lookup (join b!">" (k :: k2 :: rest))

/-- What a lookup finds. -/
inductive Answer where
  | absent
  | value (d : Data)
  /-- it has come to a nil row -/
  | broken

/-- The value at a path: that of the innermost dataset that has one. -/
def value : List (Option Fields) → Str → Answer
  | [], _ => .absent
  | none :: _, _ => .broken
  | some fs :: ls, path => match follow fs (split 62 path) with
    | some d => .value d
    | none => value ls path

/-- The text of a value: nothing for nil. -/
def text (x : Ext) : Data → Str
  | .scalar .nil => []
  | d => shown x d

/-! ## Rendering -/

/-- One thing after the other; a panic ends it. -/
def joined : Out → Out → Out
  | .text s, r => r.after s
  | .panic, _ => .panic

section
variable (x : Ext) (lang : Option Language.Lang) (rec : Doc → Option (List (Option Fields)) → Out) (d : Doc)

/-- The first of the names that is a box of the document is rendered; nothing if none is. -/
def first (names : List Str) (ls : Option (List (Option Fields))) : Out :=
  match names.findSome? d.find with
  | none => .text []
  | some b => rec b ls

/-- The rows from number `i` on, of `n`. -/
def rounds (id : Str) (n : Nat) (ls : List (Option Fields)) : Nat → List (Option Fields) → Out
  | _, [] => .text []
  | i, row :: rest => joined (first rec d (rangeNames id i n) (some (row :: ls))) (rounds id n ls (i + 1) rest)

/-- A reference: `name`, `name:path` or `:path:prefix`. -/
def reference (ls : Option (List (Option Fields))) : List Str → Out
  | [id, key] =>
    if d.find id = none then .text []
    else match ls with
      | none => .panic
      | some l => match value l key with
        | .broken => .panic
        | .value (.record fs) => first rec d [id] (some (some fs :: l))
        | _ => first rec d [id] ls
  | [_, key, pre] => match ls with
    | none => .panic
    | some l => match value l key with
      | .broken => .panic
      | .absent => first rec d [pre] ls
      | .value v => first rec d [pre ++ text x v, pre] ls
  | id :: _ => first rec d [id] ls
  | [] => .text []

/-- A loop over the rows at the path `key`. -/
def range (ls : Option (List (Option Fields))) (key id : Str) : Out :=
  if d.find id = none then .text []
  else match ls with
    | none => .text []
    | some l => match value l key with
      | .absent => first rec d [id ++ b!".none", id] ls
      | .value (.rows rs) => rounds rec d id rs.length l 0 rs
      | _ => .panic

/-- A condition on the value at the path `key`. -/
def condition (ls : Option (List (Option Fields))) (key id : Str) : Out :=
  match ls with
  | none => .text []
  | some l => match value l key with
    | .broken => .panic
    | .absent => .text []
    | .value (.record _) => .text []
    | .value v => if d.find id = none ∨ text x v = [] then .text [] else first rec d [id ++ b!"." ++ text x v, id] ls

/-- One element. -/
def element (ls : Option (List (Option Fields))) (p : Param) : Out :=
  match p.kind with
  | .string => .text p.data
  | .comment => .text []
  | .language => .text (langText lang p.data)
  | .variable => match ls with
    | none => .text []
    | some l => match value l p.data with
      | .absent => .text []
      | .value v => .text (text x v)
      | .broken => .panic
  | .reference => reference x rec d ls (split 58 p.data)
  | .range => match split 58 p.data with
    | [] => .text []
    | [key] => range rec d ls key key
    | key :: id :: _ => range rec d ls key id
  | .condition => match split 58 p.data with
    | [] => .text []
    | [key] => condition x rec d ls key key
    | key :: id :: _ => condition x rec d ls key id
  | .dump => if p.data = b!"dump" ∨ p.data = b!"list" then
      match ls.bind List.getLast? with
      | some (some fs) => .text (dumped x (.record fs))
      | _ => .text []
    else .text []
  | k => .text (b!"THE METALANGUAGE FROM OUTERSPACE IS NOT SUPPORTED: " ++ itoa (kindNumber k))

end

/-- One element after the other. -/
def elements (f : Param → Out) : List Param → Out
  | [] => .text []
  | p :: l => joined (f p) (elements f l)

/-- How rendering of the document ends with the data `ls`, innermost first; `none` if `Execute` was given nil. The number has to be larger
than the depth of the boxes. -/
def page (x : Ext) (lang : Option Language.Lang) : Nat → Doc → Option (List (Option Fields)) → Out
  | 0, _, _ => .panic
  | n + 1, d, ls => elements (element x lang (page x lang n) d ls) d.own

/-- The language table of the data: what is under `#`. -/
def langOf (fs : Fields) : Option Language.Lang :=
  match fs.lookup b!"#" with
  | some (.table l) => some l
  | _ => none

/-- How `Execute` of a document ends, with a dataset or nil. -/
def render (x : Ext) (d : Doc) : Option Fields → Out
  | some fs => page x (langOf fs) (nesting d + 1) d (some [some fs])
  | none => page x none (nesting d + 1) d none

/-! ## Data in memory -/

/-- A single value: neither a pointer nor a slice. -/
def Single : Val → Prop
  | .ptr _ | .slice _ _ => False
  | _ => True

/-- The value `v` in memory has the content `d`. The same object may be in several places. -/
inductive Holds (h : Heap) : Val → Data → Prop where
  | scalar {v : Val} : Single v → Holds h v (.scalar v)
  | array {k : SliceKind} {a : Nat} {l : List Val} : h[a]? = some (.slice l) → Holds h (.slice k a) (.array k l)
  | table {a : Nat} {l : Language.Lang} : h[a]? = some (.lang l) → Holds h (.ptr a) (.table l)
  /-- the fields are the entries of the map, in some order -/
  | record {a : Nat} {m m' : AMap Val} {fs : Fields} : h[a]? = some (.ds m) → List.Perm m' m → fs.map Prod.fst = m'.map Prod.fst →
      (∀ (i : Nat) (k k' : Str) (v : Val) (d : Data), m'[i]? = some (k, v) → fs[i]? = some (k', d) → Holds h v d) → Holds h (.ptr a) (.record fs)
  | rows {c : Nat} {l : List (Option Nat)} {rs : List (Option Fields)} : IsCollection h c l → l.map Option.isSome = rs.map Option.isSome →
      (∀ (i : Nat) (a : Nat) (fs : Fields), l[i]? = some (some a) → rs[i]? = some (some fs) → Holds h (.ptr a) (.record fs)) → Holds h (.ptr c) (.rows rs)

/-- The data `Execute` is given have the content: nil, or a dataset. -/
def Content (h : Heap) : Option Nat → Option Fields → Prop
  | none, none => True
  | some a, some fs => Holds h (.ptr a) (.record fs)
  | _, _ => False

/-- Pointers in datasets are to datasets, collections and language tables. (A pointer to a Go slice is another single value.) -/
def Pointers (h : Heap) : Prop := ∀ (a : Nat) (m : AMap Val) (k : Str) (b : Nat) (l : List Val), h[a]? = some (.ds m) → (k, Val.ptr b) ∈ m → h[b]? ≠ some (.slice l)

end Xcore.V1.Page
