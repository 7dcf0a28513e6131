import Verif.Model.Dataset
import Verif.Model.V1.Language

/-!
# Datasets and collections of version 1

`xdataset.go` (root package). Go values (`Val`), their `%v` formats, float conversions and the functions of the runtime (`Ext`) are those of
`Verif/Model/Dataset.lean`. There are no thread-safe variants and no constructors from Go maps: datasets and collections are written as
literals `&XDataset{…}`, `&XDatasetCollection{…}`, so the map of a dataset is not nil. Not modelled: typed nil pointers, `new(XDataset)` (a
nil map), datasets of foreign types implementing `XDatasetDef`, and slice capacities.
-/

namespace Xcore.V1.Dataset

open Xcore.Dataset (Val IntKind SliceKind Ext wrap64 f64ToInt intToF64 f32to64 f32NonZero f64NonZero fmtScalar colText mapOpt ofFuel mapRes)

/-- Objects in memory. -/
inductive Obj where
  /-- `*XDataset` (xdataset.go:62) -/
  | ds (m : AMap Val)
  /-- `*XDatasetCollection` (xdataset.go:449): elements, `none` for a nil interface -/
  | col (l : List (Option Nat))
  /-- `*XLanguage` -/
  | lang (l : Language.Lang)
  /-- the array behind a slice -/
  | slice (elems : List Val)
  deriving DecidableEq, Repr

/-- Memory: the object at address `a` is `h[a]?`. -/
abbrev Heap := List Obj

/-- `v.(XDatasetDef)` (e.g. xdataset.go:97): the address if the value is an `*XDataset`. -/
def asDataset (h : Heap) : Val → Option Nat
  | .ptr a => match h[a]? with
    | some (.ds _) => some a
    | _ => none
  | _ => none

/-- `v.(XDatasetCollectionDef)` (e.g. xdataset.go:100). -/
def asCollection (h : Heap) : Val → Option Nat
  | .ptr a => match h[a]? with
    | some (.col _) => some a
    | _ => none
  | _ => none

/-- The elements of a collection. -/
def elems (h : Heap) (a : Nat) : List (Option Nat) :=
  match h[a]? with
  | some (.col l) => l
  | _ => []

/-- The entries of a dataset. -/
def entries (h : Heap) (a : Nat) : AMap Val :=
  match h[a]? with
  | some (.ds m) => m
  | _ => []

/-! ## Reading a dataset -/

/-- `(*XDatasetCollection).Get` (xdataset.go:496-501) on the elements: `none` is `(nil, false)`, `some none` a nil element. -/
def colGet (l : List (Option Nat)) (index : Int) : Option (Option Nat) :=
  if index < 0 ∨ (l.length : Int) ≤ index then none else l[index.toNat]?

/-- `Get` (xdataset.go:90-120) on the pieces of the key between `>`: the Go code joins the remaining pieces with `>` and splits them again
in the recursive call. Result `none` is `(nil, false)`. -/
def getSegs (h : Heap) (a : Nat) : List Str → Option Val
  | [] => none                           -- unreachable: `split` never returns an empty list
  | [key] => (entries h a).get key
  | s :: s2 :: rest => match (entries h a).get s with
    | none => none
    | some v => match asDataset h v with
      | some b => getSegs h b (s2 :: rest)
      | none => match asCollection h v with
        | some c => match atoi s2 with
          | none => none
          | some i => match colGet (elems h c) i with
            | some (some e) => match rest with
              | [] => some (.ptr e)
              | r :: rest => getSegs h e (r :: rest)
            | _ => none
        | none => (entries h a).get (join b!">" (s :: s2 :: rest))

/-- `Get` (xdataset.go:90-120). -/
def get (h : Heap) (a : Nat) (key : Str) : Option Val := getSegs h a (split 62 key)

/-- `GetDataset` (xdataset.go:123-130). -/
def getDataset (h : Heap) (a : Nat) (key : Str) : Option Nat := (get h a key).bind (asDataset h)

/-- `GetCollection` (xdataset.go:133-140). -/
def getCollection (h : Heap) (a : Nat) (key : Str) : Option Nat := (get h a key).bind (asCollection h)

/-- The conversion chain of `GetBool` (xdataset.go:156-205): every value that is no bool and no number is true, nil is reported as absent. -/
def toBool : Val → Option Bool
  | .bool b => some b
  | .int _ n => some (n != 0)
  | .f32 b => some (f32NonZero b)
  | .f64 b => some (f64NonZero b)
  | .nil => none
  | _ => some true

/-- `GetBool` (xdataset.go:156-205). -/
def getBool (h : Heap) (a : Nat) (key : Str) : Option Bool := (get h a key).bind toBool

/-- The conversion chain of `GetInt` (xdataset.go:210-259); `none` is `(0, false)`. -/
def toInt (x : Ext) : Val → Option Int
  | .bool b => some (if b then 1 else 0)
  | .int .uint n => some (wrap64 n)
  | .int .uint64 n => some (wrap64 n)
  | .int _ n => some n
  | .f32 b => some (f64ToInt x (f32to64 b))
  | .f64 b => some (f64ToInt x b)
  | _ => none

/-- `GetInt` (xdataset.go:210-259). -/
def getInt (x : Ext) (h : Heap) (a : Nat) (key : Str) : Option Int := (get h a key).bind (toInt x)

/-- The conversion chain of `GetFloat` (xdataset.go:262-311). -/
def toFloat : Val → Option UInt64
  | .bool b => some (if b then 0x3FF0000000000000 else 0)
  | .int _ n => some (intToF64 n)
  | .f32 b => some (f32to64 b)
  | .f64 b => some b
  | _ => none

/-- `GetFloat` (xdataset.go:262-311). -/
def getFloat (h : Heap) (a : Nat) (key : Str) : Option UInt64 := (get h a key).bind toFloat

/-- `val.(time.Time)` (xdataset.go:316). -/
def asTime : Val → Option Int
  | .time ns => some ns
  | _ => none

/-- `GetTime` (xdataset.go:314-321). -/
def getTime (h : Heap) (a : Nat) (key : Str) : Option Int := (get h a key).bind asTime

/-- `val.([]T)` (xdataset.go:326, 336, 346, 356, 366): the shared array if the slice has exactly the wanted element type. -/
def asSlice (k : SliceKind) : Val → Option Nat
  | .slice k' b => if k' = k then some b else none
  | _ => none

/-- `GetStringCollection`, `GetBoolCollection`, `GetIntCollection`, `GetFloatCollection`, `GetTimeCollection` (xdataset.go:324-371). -/
def getSlice (k : SliceKind) (h : Heap) (a : Nat) (key : Str) : Option Nat := (get h a key).bind (asSlice k)

/-! ## Printing -/

/-- `fmt.Sprint(v)` / `fmt.Sprintf("%v", v)`, with the String methods it calls (xdataset.go:65-72, 452-459, xlanguage.go:218-225). The number
bounds the depth of nested calls; `none` means the bound was too small (Go's stack is bounded as well). -/
def sprint (x : Ext) : Nat → Heap → Val → Option Str
  | 0, _, _ => none
  | n + 1, h, v => match v with
    | .slice _ a => match h[a]? with
      | some (.slice l) => some (b!"[" ++ join b!" " (l.map (fmtScalar x)) ++ b!"]")
      | _ => some []
    | .ptr a => match h[a]? with
      | some (.ds m) =>
        match mapOpt (fun p : Str × Val => (sprint x n h p.2).map fun s => p.1 ++ b!":" ++ s) m with
        | none => none
        | some l => some (b!"xcore.XDataset{" ++ join b!" " (sortStrs l) ++ b!"}")
      | some (.col l) =>
        match mapOpt (fun e : Option Nat => match e with | none => some b!"<nil>" | some b => sprint x n h (.ptr b)) l with
        | none => none
        | some l => some (b!"XDatasetCollection[" ++ colText 0 l ++ b!"]")
      | some (.lang l) => some (Language.toString l)
      | _ => some []
    | v => some (fmtScalar x v)

/-- `fmt.Sprintf("%#v", v)` with the GoString methods it calls (xdataset.go:75-82, 462-464, xlanguage.go:228-235); collections print with
their String method. -/
def goSprint (x : Ext) : Nat → Heap → Val → Option Str
  | 0, _, _ => none
  | n + 1, h, v => match v with
    | .nil => some b!"<nil>"
    | .slice k a => match h[a]? with
      | some (.slice l) => some (x.goSlice k l)
      | _ => some []
    | .ptr a => match h[a]? with
      | some (.ds m) =>
        match mapOpt (fun p : Str × Val => (goSprint x n h p.2).map fun s => p.1 ++ b!":" ++ s) m with
        | none => none
        | some l => some (b!"#xcore.XDataset{" ++ join b!" " (sortStrs l) ++ b!"}")
      | some (.col _) => sprint x n h v
      | some (.lang l) => some (Language.goString (fun s => x.goFmt (.str s)) l)
      | _ => some []
    | v => some (x.goFmt v)

/-- `GetString` (xdataset.go:143-151); the outcome diverges if the bound is too small. -/
def getString (x : Ext) (n : Nat) (h : Heap) (a : Nat) (key : Str) : Res (Option Str) :=
  match get h a key with
  | none => .ok none
  | some .nil => .ok (some [])
  | some v => (ofFuel (sprint x n h v)).map some

/-! ## Writing -/

/-- `Set` (xdataset.go:85-87). -/
def set (h : Heap) (a : Nat) (key : Str) (v : Val) : Heap := h.set a (.ds ((entries h a).set key v))

/-- `Del` (xdataset.go:374-376). -/
def del (h : Heap) (a : Nat) (key : Str) : Heap := h.set a (.ds ((entries h a).del key))

/-- `Unshift` (xdataset.go:467-469). -/
def unshift (h : Heap) (c : Nat) (d : Option Nat) : Heap := h.set c (.col (d :: elems h c))

/-- `Shift` (xdataset.go:472-476): index panic on an empty collection. -/
def shift (h : Heap) (c : Nat) : Res (Heap × Option Nat) :=
  match elems h c with
  | [] => .panic
  | d :: l => .ok (h.set c (.col l), d)

/-- `Push` (xdataset.go:479-481). -/
def push (h : Heap) (c : Nat) (d : Option Nat) : Heap := h.set c (.col (elems h c ++ [d]))

/-- `Pop` (xdataset.go:484-488): index panic on an empty collection. -/
def pop (h : Heap) (c : Nat) : Res (Heap × Option Nat) :=
  match (elems h c).getLast? with
  | none => .panic
  | some d => .ok (h.set c (.col (elems h c).dropLast), d)

/-- `Count` (xdataset.go:491-493). -/
def count (h : Heap) (c : Nat) : Nat := (elems h c).length

/-- `Get` on a collection (xdataset.go:496-501). -/
def colGetAt (h : Heap) (c : Nat) (i : Int) : Option (Option Nat) := colGet (elems h c) i

/-! ## Lookup through a collection -/

/-- The loop of `GetData` over the elements, last first (xdataset.go:505-510). A nil element is dereferenced: panic. -/
def getDataL (h : Heap) (key : Str) : List (Option Nat) → Res (Option Val)
  | [] => .ok none
  | none :: _ => .panic
  | some a :: l => match get h a key with
    | some v => .ok (some v)
    | none => getDataL h key l

/-- `GetData` (xdataset.go:504-512). -/
def getData (h : Heap) (c : Nat) (key : Str) : Res (Option Val) := getDataL h key (elems h c).reverse

/-- `GetDataString` (xdataset.go:515-524). -/
def getDataString (x : Ext) (n : Nat) (h : Heap) (c : Nat) (key : Str) : Res (Option Str) :=
  (getData h c key).bind fun r => match r with
    | none => .ok none
    | some .nil => .ok (some [])
    | some v => (ofFuel (sprint x n h v)).map some

/-- `GetDataBool` (xdataset.go:527-534). -/
def getDataBool (h : Heap) (c : Nat) (key : Str) : Res (Option Bool) :=
  (getData h c key).map fun r => match r with
    | some (.bool b) => some b
    | _ => none

/-- `GetDataInt` (xdataset.go:537-544). -/
def getDataInt (h : Heap) (c : Nat) (key : Str) : Res (Option Int) :=
  (getData h c key).map fun r => match r with
    | some (.int .int n) => some n
    | _ => none

/-- `GetDataFloat` (xdataset.go:547-554). -/
def getDataFloat (h : Heap) (c : Nat) (key : Str) : Res (Option UInt64) :=
  (getData h c key).map fun r => match r with
    | some (.f64 b) => some b
    | _ => none

/-- `GetDataTime` (xdataset.go:557-564). -/
def getDataTime (h : Heap) (c : Nat) (key : Str) : Res (Option Int) :=
  (getData h c key).map fun r => match r with
    | some (.time ns) => some ns
    | _ => none

/-- `GetCollection` of a collection (xdataset.go:567-574): unchecked type assertion, panics on another type. -/
def getDataCollection (h : Heap) (c : Nat) (key : Str) : Res (Option Nat) :=
  (getData h c key).bind fun r => match r with
    | none => .ok none
    | some v => match asCollection h v with
      | some b => .ok (some b)
      | none => .panic

/-! ## Cloning -/

/-- `Clone` of a value (xdataset.go:379-393, 577-583): datasets and collections are cloned, everything else (also slices and language
tables) is copied as it is. Go allocates the new object before those inside it, here after them; the order of allocation cannot be
observed. A nil element is dereferenced: panic. The number bounds the nesting depth. -/
def cloneVal : Nat → Heap → Val → Res (Heap × Val)
  | 0, _, _ => .diverge
  | n + 1, h, v => match v with
    | .ptr a => match h[a]? with
      | some (.ds m) =>
        (mapRes (fun h (p : Str × Val) => (cloneVal n h p.2).map fun r => (r.1, (p.1, r.2))) h m).map fun r =>
          (r.1 ++ [.ds (r.2.foldl (fun c p => c.set p.1 p.2) [])], .ptr r.1.length)
      | some (.col l) =>
        (mapRes (fun h (e : Option Nat) => match e with
            | none => .panic
            | some b => cloneVal n h (.ptr b)) h l).map fun r =>
          (r.1 ++ [.col (r.2.map fun w => match w with | .ptr c => some c | _ => none)], .ptr r.1.length)
      | _ => .ok (h, v)
    | v => .ok (h, v)

end Xcore.V1.Dataset
