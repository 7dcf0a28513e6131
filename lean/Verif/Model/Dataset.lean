import Verif.Base.AMap
import Verif.Model.Language

/-!
# Datasets and collections

XDataset, XDatasetTS, XDatasetCollection, XDatasetCollectionTS (v2/xdataset.go, xdatasetts.go, xdatasetcollection.go,
xdatasetcollectionts.go) are all used through pointers, so the model has a heap of objects. This file is the sequential meaning of the
methods; the locks of the TS variants are the subject of `Model/TSMethods` and `Model/CollectionConc`.

Not modelled: typed nil pointers, datasets of foreign types implementing `XDatasetDef`, and slice capacities (a collection is only
reachable through its pointer, so `append` never writes into memory seen by another collection).
-/

namespace Xcore.Dataset

/-- Addresses of objects are natural numbers. -/
scoped macro "Addr" : term => `(Nat)

/-- The Go integer types. -/
inductive IntKind where
  | int | int8 | int16 | int32 | int64 | uint | uint8 | uint16 | uint32 | uint64
  deriving DecidableEq, Repr

/-- Element types of the slices the typed getters know. -/
inductive SliceKind where
  | string | bool | int | float64 | time
  deriving DecidableEq, Repr

/-- A Go value of type `interface{}`. -/
inductive Val where
  /-- the nil interface -/
  | nil
  | bool (b : Bool)
  /-- a value of an integer type; Go guarantees that it is in the range of the type -/
  | int (k : IntKind) (n : Int)
  /-- float32, by its IEEE 754 bits -/
  | f32 (bits : UInt32)
  /-- float64, by its IEEE 754 bits -/
  | f64 (bits : UInt64)
  | str (s : Str)
  /-- time.Time as nanoseconds since the zero time (1 January of year 1, UTC); location and monotonic clock are not modelled -/
  | time (ns : Int)
  /-- a slice; slices are references to shared memory -/
  | slice (k : SliceKind) (a : Addr)
  /-- a pointer to a dataset, collection or language table -/
  | ptr (a : Addr)
  /-- a value of any other type -/
  | other (tag : Nat)
  deriving DecidableEq, Repr

/-- Objects in memory. -/
inductive Obj where
  /-- `*XDataset` (xdataset.go:17) -/
  | ds (m : AMap Val)
  /-- `*XDatasetTS` (xdatasetts.go:10-13): the wrapped dataset, `none` for a nil interface -/
  | dsTS (inner : Option Addr)
  /-- `*XDatasetCollection` (xdatasetcollection.go:14): elements, `none` for a nil interface -/
  | col (l : List (Option Addr))
  /-- `*XDatasetCollectionTS` (xdatasetcollectionts.go:11-14) -/
  | colTS (l : List (Option Addr))
  /-- `*XLanguage` -/
  | lang (l : Language.Lang)
  /-- the array behind a slice -/
  | slice (elems : List Val)
  deriving DecidableEq, Repr

/-- Memory: the object at address `a` is `h[a]?`. -/
abbrev Heap := List Obj

/-- Functions of the Go runtime and library whose result is not computed by the model. All theorems hold for every choice of them. -/
structure Ext where
  /-- `%v` of a float32 -/
  fmtF32 : UInt32 → Str
  /-- `%v` of a float64 -/
  fmtF64 : UInt64 → Str
  /-- `%v` of a time -/
  fmtTime : Int → Str
  /-- `%v` of a value of another type -/
  fmtOther : Nat → Str
  /-- `%#v` of a scalar -/
  goFmt : Val → Str
  /-- `%#v` of a slice -/
  goSlice : SliceKind → List Val → Str
  /-- conversion to int of a float64 that is not a number or out of range (implementation-specific in Go) -/
  badInt : UInt64 → Int

/-- Allocate an object. -/
def alloc (h : Heap) (o : Obj) : Heap × Addr := (h ++ [o], h.length)

/-! ## Type assertions -/

/-- `v.(XDatasetDef)`: the address if the value is a `*XDataset` or `*XDatasetTS` (e.g. xdataset.go:79). -/
def asDataset (h : Heap) : Val → Option Addr
  | .ptr a => match h[a]? with
    | some (.ds _) => some a
    | some (.dsTS _) => some a
    | _ => none
  | _ => none

/-- `v.(XDatasetCollectionDef)` (e.g. xdataset.go:82). -/
def asCollection (h : Heap) : Val → Option Addr
  | .ptr a => match h[a]? with
    | some (.col _) => some a
    | some (.colTS _) => some a
    | _ => none
  | _ => none

/-- The elements of a collection of either type. -/
def elems (h : Heap) (a : Addr) : List (Option Addr) :=
  match h[a]? with
  | some (.col l) => l
  | some (.colTS l) => l
  | _ => []

/-- Follow the `data` fields of XDatasetTS wrappers (xdatasetts.go, every method) to the XDataset that does the work; `none` if the
innermost `data` is nil. `fuel` bounds the length of the chain. -/
def targetN : Nat → Heap → Addr → Option Addr
  | 0, _, _ => none
  | n + 1, h, a => match h[a]? with
    | some (.ds _) => some a
    | some (.dsTS (some b)) => targetN n h b
    | _ => none

/-- A wrapper is created after the dataset it wraps and its `data` field is never changed (xdatasetts.go:16-21, 147-153), so chains
descend in the heap and are at most `a + 1` long. -/
def target (h : Heap) (a : Addr) : Option Addr := targetN (a + 1) h a

/-- The entries of an XDataset. -/
def entries (h : Heap) (a : Addr) : AMap Val :=
  match h[a]? with
  | some (.ds m) => m
  | _ => []

/-! ## Reading -/

/-- `(*XDatasetCollection).Get` and `(*XDatasetCollectionTS).Get` (xdatasetcollection.go:71-76, xdatasetcollectionts.go:73-80): `none` is
`(nil, false)`, `some none` a nil element. -/
def colGet (l : List (Option Addr)) (index : Int) : Option (Option Addr) :=
  if index < 0 ∨ (l.length : Int) ≤ index then none else l[index.toNat]?

/-- `Get` on a dataset of either type (xdataset.go:72-102, xdatasetts.go:45-49), on the pieces of the key between `>`. The Go code
joins the remaining pieces with `>` and splits them again in the recursive call; `Xcore.Dataset.get_go` shows that this is the same.
Result `none` is `(nil, false)`; the outcome is a panic if a wrapper with nil data is met (nil pointer dereference). -/
def getSegs (h : Heap) (a : Addr) : List Str → Res (Option Val)
  | [] => .ok none                       -- unreachable: `split` never returns an empty list
  | [key] => match target h a with
    | none => .panic
    | some t => .ok ((entries h t).get key)
  | s :: s2 :: rest => match target h a with
    | none => .panic
    | some t => match (entries h t).get s with
      | none => .ok none
      | some v => match asDataset h v with
        | some b => getSegs h b (s2 :: rest)
        | none => match asCollection h v with
          | some c => match atoi s2 with
            | none => .ok none
            | some i => match colGet (elems h c) i with
              | some (some e) => match rest with
                | [] => .ok (some (.ptr e))
                | r :: rest => getSegs h e (r :: rest)
              | _ => .ok none
          | none => .ok ((entries h t).get (join b!">" (s :: s2 :: rest)))

/-- `Get` (xdataset.go:72-102). -/
def get (h : Heap) (a : Addr) (key : Str) : Res (Option Val) := getSegs h a (split 62 key)

/-- `GetDataset` (xdataset.go:105-112). -/
def getDataset (h : Heap) (a : Addr) (key : Str) : Res (Option Addr) :=
  (get h a key).map fun r => r.bind (asDataset h)

/-- `GetCollection` (xdataset.go:115-122). -/
def getCollection (h : Heap) (a : Addr) (key : Str) : Res (Option Addr) :=
  (get h a key).map fun r => r.bind (asCollection h)

/-- Reduction of a 64-bit unsigned value to the signed value with the same bits (Go's `int(x)`). -/
def wrap64 (n : Int) : Int := if n < 2 ^ 63 then n else n - 2 ^ 64

/-- `x != 0` for a float64: everything but the two zeros (NaN included). -/
def f64NonZero (b : UInt64) : Bool := b.toNat % 2 ^ 63 != 0

/-- `x != 0` for a float32. -/
def f32NonZero (b : UInt32) : Bool := b.toNat % 2 ^ 31 != 0

/-- Sign, exponent field and fraction field of a float64. -/
def f64Sign (b : UInt64) : Bool := decide (2 ^ 63 ≤ b.toNat)
def f64Exp (b : UInt64) : Nat := b.toNat / 2 ^ 52 % 2 ^ 11
def f64Frac (b : UInt64) : Nat := b.toNat % 2 ^ 52

/-- The magnitude of a finite float64 is `mant * 2 ^ (pow - 1074)`. -/
def f64Mant (b : UInt64) : Nat := if f64Exp b = 0 then f64Frac b else 2 ^ 52 + f64Frac b
def f64Pow (b : UInt64) : Nat := if f64Exp b = 0 then 0 else f64Exp b - 1

/-- Go's `int(x)` for a float64: truncation towards zero when the result fits. -/
def f64ToInt (x : Ext) (b : UInt64) : Int :=
  if f64Exp b = 2 ^ 11 - 1 then x.badInt b
  else
    let m : Int := ((f64Mant b * 2 ^ f64Pow b / 2 ^ 1074 : Nat) : Int)
    let r := if f64Sign b then -m else m
    if -(2 ^ 63) ≤ r ∧ r < 2 ^ 63 then r else x.badInt b

/-- A float64 with the given sign and bits of the magnitude. -/
def f64Bits (neg : Bool) (m : Nat) : UInt64 := UInt64.ofNat (if neg then 2 ^ 63 + m else m)

/-- Go's `float64(n)` for an integer: `m = |n|` has `L + 1` binary digits; the first 53 of them are the mantissa, rounded to the nearest (to an even one
if two are equally near) by the digits that are left out. A carry out of the mantissa is one more in the exponent field. -/
def intToF64 (n : Int) : UInt64 :=
  let m := n.natAbs
  let L := Nat.log2 m
  if m = 0 then 0
  else if L ≤ 52 then f64Bits (decide (n < 0)) ((1022 + L) * 2 ^ 52 + m * 2 ^ (52 - L))
  else
    let u := 2 ^ (L - 52)
    let q := m / u
    let r := m % u
    f64Bits (decide (n < 0)) ((1022 + L) * 2 ^ 52 + if u < 2 * r ∨ u = 2 * r ∧ q % 2 = 1 then q + 1 else q)

/-- Go's `float64(x)` for a float32: the same number (a subnormal float32 is a normal float64). The result for a NaN is a quiet NaN, as the processor
answers. -/
def f32to64 (b : UInt32) : UInt64 :=
  let neg := decide (2 ^ 31 ≤ b.toNat)
  let e := b.toNat / 2 ^ 23 % 2 ^ 8
  let f := b.toNat % 2 ^ 23
  if e = 2 ^ 8 - 1 then f64Bits neg ((2 ^ 11 - 1) * 2 ^ 52 + if f = 0 then 0 else 2 ^ 51 + f * 2 ^ 29 % 2 ^ 51)
  else if e = 0 then
    if f = 0 then f64Bits neg 0
    else f64Bits neg ((873 + Nat.log2 f) * 2 ^ 52 + f * 2 ^ (52 - Nat.log2 f))
  else f64Bits neg ((e + 896) * 2 ^ 52 + f * 2 ^ 29)

/-- `t.Unix()`: whole seconds since 1970, rounding down. -/
def unix (ns : Int) : Int := Int.fdiv ns 1000000000 - 62135596800

/-- The conversion chain of `GetBool` (xdataset.go:138-189). -/
def toBool : Val → Bool
  | .bool b => b
  | .time ns => ns != 0
  | .int _ n => n != 0
  | .f32 b => f32NonZero b
  | .f64 b => f64NonZero b
  | .nil => false
  | _ => true

/-- `GetBool` (xdataset.go:138-189). -/
def getBool (h : Heap) (a : Addr) (key : Str) : Res (Option Bool) := (get h a key).map fun r => r.map toBool

/-- The conversion chain of `GetInt` (xdataset.go:194-249); `none` is `(0, false)`. -/
def toInt (x : Ext) : Val → Option Int
  | .bool b => some (if b then 1 else 0)
  | .int .uint n => some (wrap64 n)
  | .int .uint64 n => some (wrap64 n)
  | .int _ n => some n
  | .f32 b => some (f64ToInt x (f32to64 b))
  | .f64 b => some (f64ToInt x b)
  | .time ns => some (if ns = 0 then 0 else unix ns)
  | _ => none

/-- `GetInt` (xdataset.go:194-249). -/
def getInt (x : Ext) (h : Heap) (a : Addr) (key : Str) : Res (Option Int) := (get h a key).map fun r => r.bind (toInt x)

/-- The conversion chain of `GetFloat` (xdataset.go:252-307). -/
def toFloat : Val → Option UInt64
  | .bool b => some (if b then 0x3FF0000000000000 else 0)
  | .int _ n => some (intToF64 n)
  | .f32 b => some (f32to64 b)
  | .f64 b => some b
  | .time ns => some (if ns = 0 then 0 else intToF64 (unix ns))
  | _ => none

/-- `GetFloat` (xdataset.go:252-307). -/
def getFloat (h : Heap) (a : Addr) (key : Str) : Res (Option UInt64) := (get h a key).map fun r => r.bind toFloat

/-- `GetTime` (xdataset.go:310-318). -/
def getTime (h : Heap) (a : Addr) (key : Str) : Res (Option Int) :=
  (get h a key).map fun r => match r with
    | some (.time ns) => some ns
    | _ => none

/-- `GetStringCollection`, `GetBoolCollection`, `GetIntCollection`, `GetFloatCollection`, `GetTimeCollection`
(xdataset.go:321-375): the shared array if the slice has exactly the wanted element type. -/
def getSlice (k : SliceKind) (h : Heap) (a : Addr) (key : Str) : Res (Option Addr) :=
  (get h a key).map fun r => match r with
    | some (.slice k' b) => if k' = k then some b else none
    | _ => none

/-! ## Printing -/

/-- `%v` of values that hold no other values. -/
def fmtScalar (x : Ext) : Val → Str
  | .nil => b!"<nil>"
  | .bool true => b!"true"
  | .bool false => b!"false"
  | .int _ n => itoa n
  | .f32 b => x.fmtF32 b
  | .f64 b => x.fmtF64 b
  | .str s => s
  | .time ns => x.fmtTime ns
  | .other t => x.fmtOther t
  | .slice _ _ => []
  | .ptr _ => []

/-- What package fmt prints when the String method of a wrapper with nil data panics. -/
def panicText (method : Str) : Str :=
  b!"%!v(PANIC=" ++ method ++ b!" method: runtime error: invalid memory address or nil pointer dereference)"

/-- Outcome of printing each item of a list: none if one of them does not terminate. -/
def mapOpt {α β : Type} (f : α → Option β) : List α → Option (List β)
  | [] => some []
  | a :: l => match f a with
    | none => none
    | some b => match mapOpt f l with
      | none => none
      | some bs => some (b :: bs)

/-- The items `i:text␠` of a printed collection (xdatasetcollection.go:29-31), from index `i` on. -/
def colText : Nat → List Str → Str
  | _, [] => []
  | i, s :: l => itoa i ++ b!":" ++ s ++ b!" " ++ colText (i + 1) l

/-- `fmt.Sprint(v)` / `fmt.Sprintf("%v", v)`, with the String methods it calls (xdataset.go:47-54, xdatasetcollection.go:27-34,
xdatasetts.go:24-28, xdatasetcollectionts.go:17-26, xlanguage.go:269-278). The number bounds the depth of nested calls; `none` means the
bound was too small. (Go's stack is bounded as well: printing cyclic data ends the program.) -/
def sprint (x : Ext) : Nat → Heap → Val → Option Str
  | 0, _, _ => none
  | n + 1, h, v => match v with
    | .slice _ a => match h[a]? with
      | some (.slice l) => some (b!"[" ++ join b!" " (l.map (fmtScalar x)) ++ b!"]")
      | _ => some []
    | .ptr a => match h[a]? with
      | some (.ds m) =>
        match mapOpt (fun p : Str × Val => (sprint x n h p.2).map fun s => p.1 ++ b!":" ++ s) m with
        | none => none
        | some l => some (b!"xcore.XDataset{" ++ join b!" " (sortStrs l) ++ b!"}")
      | some (.dsTS _) => match target h a with
        | none => some (panicText b!"String")
        | some t => sprint x n h (.ptr t)
      | some (.col l) =>
        match mapOpt (fun e : Option Addr => match e with | none => some b!"<nil>" | some b => sprint x n h (.ptr b)) l with
        | none => none
        | some l => some (b!"XDatasetCollection[" ++ colText 0 l ++ b!"]")
      | some (.colTS l) =>
        match mapOpt (fun e : Option Addr => match e with | none => some b!"<nil>" | some b => sprint x n h (.ptr b)) l with
        | none => none
        | some l => some (b!"XDatasetCollectionTS[" ++ colText 0 l ++ b!"]")
      | some (.lang l) => some (Language.toString l)
      | _ => some []
    | v => some (fmtScalar x v)

/-- `fmt.Sprintf("%#v", v)` with the GoString methods it calls (xdataset.go:57-64, xdatasetcollection.go:37-39, xdatasetts.go:31-35,
xdatasetcollectionts.go:29-31, xlanguage.go:281-290); collections print with their String method. -/
def goSprint (x : Ext) : Nat → Heap → Val → Option Str
  | 0, _, _ => none
  | n + 1, h, v => match v with
    | .nil => some b!"<nil>"
    | .slice k a => match h[a]? with
      | some (.slice l) => some (x.goSlice k l)
      | _ => some []
    | .ptr a => match h[a]? with
      | some (.ds m) =>
        match mapOpt (fun p : Str × Val => (goSprint x n h p.2).map fun s => p.1 ++ b!":" ++ s) m with
        | none => none
        | some l => some (b!"#xcore.XDataset{" ++ join b!" " (sortStrs l) ++ b!"}")
      | some (.dsTS _) => match target h a with
        | none => some (panicText b!"GoString")
        | some t => goSprint x n h (.ptr t)
      | some (.col _) => sprint x n h v
      | some (.colTS _) => sprint x n h v
      | some (.lang l) => some (Language.goString (fun s => x.goFmt (.str s)) l)
      | _ => some []
    | v => some (x.goFmt v)

/-- Outcome of a bounded computation as an outcome of a call. -/
def ofFuel {α : Type} : Option α → Res α
  | none => .diverge
  | some a => .ok a

/-- `String` called on a dataset of either type: panics if the innermost data is nil. -/
def dsString (x : Ext) (n : Nat) (h : Heap) (a : Addr) : Res Str :=
  match target h a with
  | none => .panic
  | some t => ofFuel (sprint x n h (.ptr t))

/-- `GoString` called on a dataset of either type. -/
def dsGoString (x : Ext) (n : Nat) (h : Heap) (a : Addr) : Res Str :=
  match target h a with
  | none => .panic
  | some t => ofFuel (goSprint x n h (.ptr t))

/-- `GetString` (xdataset.go:125-133). -/
def getString (x : Ext) (n : Nat) (h : Heap) (a : Addr) (key : Str) : Res (Option Str) :=
  (get h a key).bind fun r => match r with
    | none => .ok none
    | some .nil => .ok (some [])
    | some v => (ofFuel (sprint x n h v)).map some

/-! ## Writing -/

/-- `Set` (xdataset.go:67-69, xdatasetts.go:38-42). -/
def set (h : Heap) (a : Addr) (key : Str) (v : Val) : Res Heap :=
  match target h a with
  | none => .panic
  | some t => .ok (h.set t (.ds ((entries h t).set key v)))

/-- `Del` (xdataset.go:378-380, xdatasetts.go:140-144). -/
def del (h : Heap) (a : Addr) (key : Str) : Res Heap :=
  match target h a with
  | none => .panic
  | some t => .ok (h.set t (.ds ((entries h t).del key)))

/-- Replace the elements of a collection of either type. -/
def setElems (h : Heap) (a : Addr) (l : List (Option Addr)) : Heap :=
  match h[a]? with
  | some (.colTS _) => h.set a (.colTS l)
  | _ => h.set a (.col l)

/-- `Unshift` (xdatasetcollection.go:42-44, xdatasetcollectionts.go:34-38). -/
def unshift (h : Heap) (a : Addr) (d : Option Addr) : Heap := setElems h a (d :: elems h a)

/-- `Shift` (xdatasetcollection.go:47-51, xdatasetcollectionts.go:41-47): index panic on an empty collection. -/
def shift (h : Heap) (a : Addr) : Res (Heap × Option Addr) :=
  match elems h a with
  | [] => .panic
  | d :: l => .ok (setElems h a l, d)

/-- `Push` (xdatasetcollection.go:54-56, xdatasetcollectionts.go:50-54). -/
def push (h : Heap) (a : Addr) (d : Option Addr) : Heap := setElems h a (elems h a ++ [d])

/-- `Pop` (xdatasetcollection.go:59-63, xdatasetcollectionts.go:57-63): index panic on an empty collection. -/
def pop (h : Heap) (a : Addr) : Res (Heap × Option Addr) :=
  match (elems h a).getLast? with
  | none => .panic
  | some d => .ok (setElems h a (elems h a).dropLast, d)

/-- `Count` (xdatasetcollection.go:66-68, xdatasetcollectionts.go:66-70). -/
def count (h : Heap) (a : Addr) : Nat := (elems h a).length

/-- `Get` on a collection. -/
def colGetAt (h : Heap) (a : Addr) (i : Int) : Option (Option Addr) := colGet (elems h a) i

/-! ## Lookup through a collection -/

/-- The loop of `GetData` over the elements, last first (xdatasetcollection.go:79-87). A nil element is dereferenced: panic. -/
def getDataL (h : Heap) (key : Str) : List (Option Addr) → Res (Option Val)
  | [] => .ok none
  | none :: _ => .panic
  | some a :: l => (get h a key).bind fun r => match r with
    | some v => .ok (some v)
    | none => getDataL h key l

/-- `GetData` (xdatasetcollection.go:79-87; xdatasetcollectionts.go:83-97 when no other goroutine changes the collection). -/
def getData (h : Heap) (c : Addr) (key : Str) : Res (Option Val) := getDataL h key (elems h c).reverse

/-- `(*XDatasetCollection).GetDataString` (xdatasetcollection.go:90-98). -/
def getDataString (x : Ext) (n : Nat) (h : Heap) (c : Addr) (key : Str) : Res (Option Str) :=
  (getData h c key).bind fun r => match r with
    | none => .ok none
    | some .nil => .ok (some [])
    | some v => (ofFuel (sprint x n h v)).map some

/-- `(*XDatasetCollectionTS).GetDataString` (xdatasetcollectionts.go:100-106): no special case for nil. -/
def getDataStringTS (x : Ext) (n : Nat) (h : Heap) (c : Addr) (key : Str) : Res (Option Str) :=
  (getData h c key).bind fun r => match r with
    | none => .ok none
    | some v => (ofFuel (sprint x n h v)).map some

/-- `GetDataBool` of both types (xdatasetcollection.go:101-108, xdatasetcollectionts.go:109-116). -/
def getDataBool (h : Heap) (c : Addr) (key : Str) : Res (Option Bool) :=
  (getData h c key).map fun r => match r with
    | some (.bool b) => some b
    | _ => none

/-- `GetDataInt` of both types (xdatasetcollection.go:111-118, xdatasetcollectionts.go:119-126). -/
def getDataInt (h : Heap) (c : Addr) (key : Str) : Res (Option Int) :=
  (getData h c key).map fun r => match r with
    | some (.int .int n) => some n
    | _ => none

/-- `GetDataFloat` of both types (xdatasetcollection.go:121-128, xdatasetcollectionts.go:129-136). -/
def getDataFloat (h : Heap) (c : Addr) (key : Str) : Res (Option UInt64) :=
  (getData h c key).map fun r => match r with
    | some (.f64 b) => some b
    | _ => none

/-- `GetDataTime` of both types (xdatasetcollection.go:131-138, xdatasetcollectionts.go:139-146). -/
def getDataTime (h : Heap) (c : Addr) (key : Str) : Res (Option Int) :=
  (getData h c key).map fun r => match r with
    | some (.time ns) => some ns
    | _ => none

/-- `(*XDatasetCollection).GetCollection` (xdatasetcollection.go:141-151). -/
def getDataCollection (h : Heap) (c : Addr) (key : Str) : Res (Option Addr) :=
  (getData h c key).map fun r => r.bind (asCollection h)

/-- `(*XDatasetCollectionTS).GetCollection` (xdatasetcollectionts.go:149-156): unchecked type assertion, panics on another type. -/
def getDataCollectionTS (h : Heap) (c : Addr) (key : Str) : Res (Option Addr) :=
  (getData h c key).bind fun r => match r with
    | none => .ok none
    | some v => match asCollection h v with
      | some b => .ok (some b)
      | none => .panic

/-! ## Cloning -/

/-- Apply a state-changing call to each item of a list in order. -/
def mapRes {σ α β : Type} (f : σ → α → Res (σ × β)) : σ → List α → Res (σ × List β)
  | s, [] => .ok (s, [])
  | s, a :: l => (f s a).bind fun r => (mapRes f r.1 l).map fun q => (q.1, r.2 :: q.2)

/-- `Clone` of a value (xdataset.go:383-397, xdatasetts.go:147-153, xdatasetcollection.go:154-160, xdatasetcollectionts.go:159-165):
datasets and collections are cloned, everything else (also slices and language tables) is copied as it is. Go allocates the new object
before those inside it, here after them; the order of allocation cannot be observed. A nil element or nil wrapped data is dereferenced:
panic. The number bounds the nesting depth. -/
def cloneVal : Nat → Heap → Val → Res (Heap × Val)
  | 0, _, _ => .diverge
  | n + 1, h, v => match v with
    | .ptr a => match h[a]? with
      | some (.ds m) =>
        (mapRes (fun h (p : Str × Val) => (cloneVal n h p.2).map fun r => (r.1, (p.1, r.2))) h m).map fun r =>
          (r.1 ++ [.ds (r.2.foldl (fun c p => c.set p.1 p.2) [])], .ptr r.1.length)
      | some (.dsTS none) => .panic
      | some (.dsTS (some b)) =>
        (cloneVal n h (.ptr b)).bind fun r => match r.2 with
          | .ptr c => .ok (r.1 ++ [.dsTS (some c)], .ptr r.1.length)
          | _ => .panic                          -- unreachable
      | some (.col l) =>
        (mapRes (fun h (e : Option Addr) => match e with
            | none => .panic
            | some b => cloneVal n h (.ptr b)) h l).map fun r =>
          (r.1 ++ [.col (r.2.map fun w => match w with | .ptr c => some c | _ => none)], .ptr r.1.length)
      | some (.colTS l) =>
        (mapRes (fun h (e : Option Addr) => match e with
            | none => .panic
            | some b => cloneVal n h (.ptr b)) h l).map fun r =>
          (r.1 ++ [.colTS (r.2.map fun w => match w with | .ptr c => some c | _ => none)], .ptr r.1.length)
      | _ => .ok (h, v)
    | v => .ok (h, v)

/-! ## Building from Go maps -/

/-- A Go value of the shape NewXDataset looks into: nested maps and slices of them; anything else is a value stored as it is. The source
is a finite tree (a Go map that contains itself would make NewXDataset recurse forever). -/
inductive Raw where
  | val (v : Val)
  /-- `[]interface{}` -/
  | anys (l : List Raw)
  /-- `[]map[string]interface{}` -/
  | maps (l : List (List (Str × Raw)))
  /-- `map[string]interface{}` -/
  | map (m : List (Str × Raw))

mutual
/-- Conversion of one value of the source map (xdataset.go:24-41). -/
def buildVal (h : Heap) : Raw → Heap × Val
  | .val v => (h, v)
  | .map m =>
    let r := buildEntries h m []
    (r.1 ++ [.ds r.2], .ptr r.1.length)
  | .anys l =>
    let r := buildAnys h l
    (r.1 ++ [.col r.2], .ptr r.1.length)
  | .maps l =>
    let r := buildMaps h l
    (r.1 ++ [.col r.2], .ptr r.1.length)

/-- The loop of NewXDataset over the source map (xdataset.go:23-42), setting into `acc`. -/
def buildEntries (h : Heap) : List (Str × Raw) → AMap Val → Heap × AMap Val
  | [], acc => (h, acc)
  | (k, r) :: m, acc =>
    let q := buildVal h r
    buildEntries q.1 m (acc.set k q.2)

/-- The loop over a `[]interface{}` (xdataset.go:26-33): items that are not maps are skipped. -/
def buildAnys (h : Heap) : List Raw → Heap × List (Option Addr)
  | [] => (h, [])
  | .map m :: l =>
    let r := buildEntries h m []
    let q := buildAnys (r.1 ++ [.ds r.2]) l
    (q.1, some r.1.length :: q.2)
  | _ :: l => buildAnys h l

/-- `NewXDatasetCollection` (xdatasetcollection.go:17-24). -/
def buildMaps (h : Heap) : List (List (Str × Raw)) → Heap × List (Option Addr)
  | [] => (h, [])
  | m :: l =>
    let r := buildEntries h m []
    let q := buildMaps (r.1 ++ [.ds r.2]) l
    (q.1, some r.1.length :: q.2)
end

/-- `NewXDataset` (xdataset.go:20-44). -/
def newXDataset (h : Heap) (m : List (Str × Raw)) : Heap × Addr :=
  let r := buildEntries h m []
  (r.1 ++ [.ds r.2], r.1.length)

/-- `NewXDatasetTS` (xdatasetts.go:16-21). -/
def newXDatasetTS (h : Heap) (inner : Option Addr) : Heap × Addr := alloc h (.dsTS inner)

end Xcore.Dataset
