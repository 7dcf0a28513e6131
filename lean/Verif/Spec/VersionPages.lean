import Verif.Spec.Page
import Verif.Spec.V1.Page

/-!
# Templates and data with which both versions render the same page

The data of version 2 (`Xcore.Page.Data`) as data of version 1, and which elements mean the same in both versions.
-/

namespace Xcore.Versions

open Xcore.Template (Kind Param Doc Word LangChar ElemChar)
open Xcore.Dataset (Ext Val fmtScalar)
open Xcore.Page (Data Fields Within follow paths)

/-! ## The data -/

/-- The language table as one of version 1, which has no statuses. -/
def oldTable (l : Xcore.Language.Lang) : V1.Language.Lang := ⟨l.name, l.tag, some l.entries⟩

mutual

/-- The same data in version 1. -/
def oldData : Data → V1.Page.Data
  | .scalar v => .scalar v
  | .table l => .table (oldTable l)
  | .record fs => .record (oldFields fs)
  | .rows l => .rows (oldRows l)

/-- The same names and values. -/
def oldFields : List (Str × Data) → List (Str × V1.Page.Data)
  | [] => []
  | (k, d) :: fs => (k, oldData d) :: oldFields fs

/-- The same rows. -/
def oldRows : List (List (Str × Data)) → List (Option (List (Str × V1.Page.Data)))
  | [] => []
  | r :: rs => some (oldFields r) :: oldRows rs

end

/-- No name in the data, at any depth, has a `>`. -/
def WellNamed (fs : Fields) : Prop := ∀ gs, Within fs gs → ∀ k d, (k, d) ∈ gs → 62 ∉ k

/-! ## The elements -/

/-- Whatever the path leads to, in any dataset of the data, is a `P`. -/
def Always (fs : Fields) (path : Str) (P : Data → Prop) : Prop :=
  ∀ gs d row, Within fs gs → follow gs (split 62 path) = some (d, row) → P d

/-- A single value. -/
def IsSingle (d : Data) : Prop := ∃ v, d = .scalar v

/-- A single value that has a text. -/
def HasText (x : Ext) (d : Data) : Prop := ∃ v, d = .scalar v ∧ v ≠ .nil ∧ fmtScalar x v ≠ []

/-- Rows, at least one. -/
def HasRows (d : Data) : Prop := ∃ r rs, d = .rows (r :: rs)

/-- The element means the same in both versions: it uses no counter, it is no dump, a field shows a single value, a name is made from a single
value, a loop goes over at least one row if there is anything at its path, and the value of a condition is there and has a text. -/
def Portable (x : Ext) (fs : Fields) (p : Param) : Prop :=
  (∀ path ∈ paths p, b!".counter" ∉ split 62 path) ∧
  match p.kind with
  | .string | .comment | .language => True
  | .variable => Always fs p.data IsSingle
  | .reference => ∀ any key pre, split 58 p.data = [any, key, pre] → Always fs key IsSingle
  | .range => ∀ key ∈ paths p, Always fs key HasRows
  | .condition => ∀ key ∈ paths p, Always fs key (HasText x) ∧ follow fs (split 62 key) ≠ none
  | _ => False

/-- The text of the element has only characters that version 2 allows in it. -/
def Conforms (p : Param) : Prop :=
  (p.kind = .language → Word LangChar p.data) ∧
  (p.kind ∈ [.reference, .range, .condition, .dump, .variable] → Word ElemChar p.data)

/-- The text version 2 renders for a template text and data: object 0 of memory. -/
def page2 (x : Ext) (s : Str) (h : Dataset.Heap) : Res Str :=
  (Template.execute x (Template.newFromString [] s).1 4 0 h (some 0)).map Prod.snd

/-- The same for version 1. -/
def page1 (x : Ext) (s : Str) (h : V1.Dataset.Heap) : Res Str := V1.Template.execute x (V1.Template.newFromString [] s).1 4 0 h (some 0)

end Xcore.Versions
