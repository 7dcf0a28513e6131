import Verif.Base.ListAux
import Verif.Spec.Dataset

/-!
# Printing with an arbitrary iteration order

Go iterates over a map in an order that changes from one iteration to the next. `Prints x n h v s` says that `fmt.Sprint(v)` can give
`s` when every iteration over a map, at every nesting level, takes any order it likes. The number bounds the depth of nested calls.
-/

namespace Xcore.Dataset

/-- Any sorted arrangement of the strings: what `sort.Strings` promises. -/
def SortedList (l : List Str) : Prop := l.Pairwise fun a b => strLe a b = true

/-- The text of each element of a collection; a nil element prints as `<nil>` (xdatasetcollection.go:30). -/
def elemVal : Option Addr → Val
  | none => .nil
  | some a => .ptr a

/-- The elements of a collection as they are listed: every one as its position, a colon, its text and a space. -/
def listed (texts : List Str) : Str :=
  (texts.zipIdx.map fun p => itoa p.2 ++ b!":" ++ p.1 ++ b!" ").flatten

/-- `fmt.Sprint(v)`, with the String methods (same lines of /repo as `sprint`). -/
def Prints (x : Ext) : Nat → Heap → Val → Str → Prop
  | 0, _, _, _ => False
  | n + 1, h, v, s => match v with
    | .ptr a => match h[a]? with
      | some (.ds m) =>
        ∃ (visited : List (Str × Val)) (lines sorted : List Str), visited.Perm m ∧
          All2 (fun p line => ∃ text, Prints x n h p.2 text ∧ line = p.1 ++ b!":" ++ text) visited lines ∧
          sorted.Perm lines ∧ SortedList sorted ∧ s = b!"xcore.XDataset{" ++ join b!" " sorted ++ b!"}"
      | some (.dsTS _) => match target h a with
        | none => s = b!"%!v(PANIC=String method: runtime error: invalid memory address or nil pointer dereference)"
        | some t => Prints x n h (.ptr t) s
      | some (.col l) => ∃ texts, All2 (fun e t => match e with | none => t = b!"<nil>" | some b => Prints x n h (.ptr b) t) l texts ∧
          s = b!"XDatasetCollection[" ++ listed texts ++ b!"]"
      | some (.colTS l) => ∃ texts, All2 (fun e t => match e with | none => t = b!"<nil>" | some b => Prints x n h (.ptr b) t) l texts ∧
          s = b!"XDatasetCollectionTS[" ++ listed texts ++ b!"]"
      | some (.lang l) => s = Language.toString l
      | _ => s = []
    | .slice _ a => match h[a]? with
      | some (.slice l) => s = b!"[" ++ join b!" " (l.map (fmtScalar x)) ++ b!"]"
      | _ => s = []
    | v => s = fmtScalar x v

/-- `fmt.Sprintf("%#v", v)`, with the GoString methods (same lines of /repo as `goSprint`). -/
def GoPrints (x : Ext) : Nat → Heap → Val → Str → Prop
  | 0, _, _, _ => False
  | n + 1, h, v, s => match v with
    | .nil => s = b!"<nil>"
    | .ptr a => match h[a]? with
      | some (.ds m) =>
        ∃ (visited : List (Str × Val)) (lines sorted : List Str), visited.Perm m ∧
          All2 (fun p line => ∃ text, GoPrints x n h p.2 text ∧ line = p.1 ++ b!":" ++ text) visited lines ∧
          sorted.Perm lines ∧ SortedList sorted ∧ s = b!"#xcore.XDataset{" ++ join b!" " sorted ++ b!"}"
      | some (.dsTS _) => match target h a with
        | none => s = b!"%!v(PANIC=GoString method: runtime error: invalid memory address or nil pointer dereference)"
        | some t => GoPrints x n h (.ptr t) s
      | some (.col _) => Prints x n h v s
      | some (.colTS _) => Prints x n h v s
      | some (.lang l) => s = Language.goString (fun s => x.goFmt (.str s)) l
      | _ => s = []
    | .slice k a => match h[a]? with
      | some (.slice l) => s = x.goSlice k l
      | _ => s = []
    | v => s = x.goFmt v

end Xcore.Dataset
