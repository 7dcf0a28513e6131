import Verif.Model.Dataset

/-!
# Specifications for datasets and collections
-/

namespace Xcore.Dataset

/-- Is the object at the address a dataset (of either type)? -/
def IsDataset (h : Heap) (a : Addr) : Prop := (∃ m, h[a]? = some (.ds m)) ∨ ∃ i, h[a]? = some (.dsTS i)

/-- Is the object at the address a collection (of either type) with elements `l`? -/
def IsCollection (h : Heap) (a : Addr) (l : List (Option Addr)) : Prop := h[a]? = some (.col l) ∨ h[a]? = some (.colTS l)

/-- `t` is the plain dataset behind `a`, through any number of thread-safe wrappers. -/
inductive Wraps (h : Heap) : Addr → Addr → Prop where
  | plain {a : Addr} {m : AMap Val} : h[a]? = some (.ds m) → Wraps h a a
  | wrapper {a b t : Addr} : h[a]? = some (.dsTS (some b)) → Wraps h b t → Wraps h a t

/-- The integer is a value of the type (64-bit platform). -/
def OfKind (k : IntKind) (n : Int) : Prop :=
  match k with
  | .int | .int64 => -2 ^ 63 ≤ n ∧ n < 2 ^ 63
  | .int8 => -128 ≤ n ∧ n < 128
  | .int16 => -32768 ≤ n ∧ n < 32768
  | .int32 => -2 ^ 31 ≤ n ∧ n < 2 ^ 31
  | .uint | .uint64 => 0 ≤ n ∧ n < 2 ^ 64
  | .uint8 => 0 ≤ n ∧ n < 256
  | .uint16 => 0 ≤ n ∧ n < 65536
  | .uint32 => 0 ≤ n ∧ n < 2 ^ 32

/-- The value refers to an existing object only, and an integer is in the range of its type. -/
def Valid (h : Heap) : Val → Prop
  | .ptr b => b < h.length
  | .slice _ b => ∃ l, h[b]? = some (.slice l)
  | .int k n => OfKind k n
  | _ => True

/-- What holds of every heap a program can build: maps have distinct keys; references are to existing objects; a wrapper wraps an older dataset;
elements of collections are datasets. -/
structure WF (h : Heap) : Prop where
  nodup : ∀ (a : Addr) (m : AMap Val), h[a]? = some (.ds m) → m.Nodup
  wrapper : ∀ a b : Addr, h[a]? = some (.dsTS (some b)) → b < a ∧ IsDataset h b
  valid : ∀ (a : Addr) (m : AMap Val) (k : Str) (v : Val), h[a]? = some (.ds m) → (k, v) ∈ m → Valid h v
  elem : ∀ (a : Addr) (l : List (Option Addr)) (b : Addr), IsCollection h a l → some b ∈ l → IsDataset h b

/-- No wrapper without dataset. -/
def Wrapped (h : Heap) : Prop := ∀ a : Addr, h[a]? ≠ some (.dsTS none)

/-- No collection has a nil element. -/
def NoNilElement (h : Heap) : Prop := ∀ a l, IsCollection h a l → none ∉ l

/-- Every collection is shorter than the largest int, as every Go slice is. -/
def Short (h : Heap) : Prop := ∀ c l, IsCollection h c l → (l.length : Int) < 2 ^ 63

/-- Dataset `a` has the entry `k ↦ v`. -/
def Entry (h : Heap) (a : Addr) (k : Str) (v : Val) : Prop := ∃ t m, Wraps h a t ∧ h[t]? = some (.ds m) ∧ m.get k = some v

/-- `v` is neither a dataset nor a collection. -/
def Plain (h : Heap) (v : Val) : Prop := ∀ a, v = .ptr a → ¬ IsDataset h a ∧ ∀ l, ¬ IsCollection h a l

/-- Following the segments of a path from dataset `a` leads to `v`: a segment names an entry of a dataset; after an entry that is a
collection, the next segment is the decimal index of an element. -/
inductive Navigates (h : Heap) : Addr → List Str → Val → Prop where
  | entry {a : Addr} {s : Str} {v : Val} : Entry h a s v → Navigates h a [s] v
  | dataset {a b : Addr} {s s2 : Str} {rest : List Str} {v : Val} :
      Entry h a s (.ptr b) → IsDataset h b → Navigates h b (s2 :: rest) v → Navigates h a (s :: s2 :: rest) v
  | element {a c e : Addr} {s s2 : Str} {l : List (Option Addr)} {i : Nat} :
      Entry h a s (.ptr c) → IsCollection h c l → atoi s2 = some (i : Int) → l[i]? = some (some e) → Navigates h a [s, s2] (.ptr e)
  | through {a c e : Addr} {s s2 r : Str} {rest : List Str} {l : List (Option Addr)} {i : Nat} {v : Val} :
      Entry h a s (.ptr c) → IsCollection h c l → atoi s2 = some (i : Int) → l[i]? = some (some e) →
      Navigates h e (r :: rest) v → Navigates h a (s :: s2 :: r :: rest) v

/-- As `Navigates`, but where the walk meets a value that is neither dataset nor collection before the end, the rest of the path is
looked up as a literal key of the current dataset. -/
inductive Leads (h : Heap) : Addr → List Str → Val → Prop where
  | entry {a : Addr} {s : Str} {v : Val} : Entry h a s v → Leads h a [s] v
  | dataset {a b : Addr} {s s2 : Str} {rest : List Str} {v : Val} :
      Entry h a s (.ptr b) → IsDataset h b → Leads h b (s2 :: rest) v → Leads h a (s :: s2 :: rest) v
  | element {a c e : Addr} {s s2 : Str} {l : List (Option Addr)} {i : Nat} :
      Entry h a s (.ptr c) → IsCollection h c l → atoi s2 = some (i : Int) → l[i]? = some (some e) → Leads h a [s, s2] (.ptr e)
  | through {a c e : Addr} {s s2 r : Str} {rest : List Str} {l : List (Option Addr)} {i : Nat} {v : Val} :
      Entry h a s (.ptr c) → IsCollection h c l → atoi s2 = some (i : Int) → l[i]? = some (some e) →
      Leads h e (r :: rest) v → Leads h a (s :: s2 :: r :: rest) v
  | literal {a : Addr} {s s2 : Str} {rest : List Str} {w v : Val} :
      Entry h a s w → Plain h w → Entry h a (join b!">" (s :: s2 :: rest)) v → Leads h a (s :: s2 :: rest) v

/-- No dataset has a key with a `>` in it. -/
def NoPathKeys (h : Heap) : Prop := ∀ (a : Addr) (m : AMap Val) (k : Str) (v : Val), h[a]? = some (.ds m) → m.get k = some v → 62 ∉ k

/-! ## Conversions -/

/-- A finite float64 is this integer times 2^-1074 (IEEE 754 binary64). -/
def f64Scaled (b : UInt64) : Int :=
  let e : Nat := b.toNat / 2 ^ 52 % 2 ^ 11
  let f : Nat := b.toNat % 2 ^ 52
  let m : Nat := if e = 0 then f else (2 ^ 52 + f) * 2 ^ (e - 1)
  if b.toNat / 2 ^ 63 = 1 then -(m : Int) else (m : Int)

/-- Neither infinite nor NaN. -/
def f64Finite (b : UInt64) : Prop := b.toNat / 2 ^ 52 % 2 ^ 11 ≠ 2 ^ 11 - 1

/-- `r` is the integer part of `scaled / 2^1074`: rounding towards zero. -/
def IntegerPart (scaled r : Int) : Prop :=
  if 0 ≤ scaled then r * 2 ^ 1074 ≤ scaled ∧ scaled < (r + 1) * 2 ^ 1074
  else (r - 1) * 2 ^ 1074 < scaled ∧ scaled ≤ r * 2 ^ 1074

/-- The integer is a value of type int. -/
def FitsInt (r : Int) : Prop := -2 ^ 63 ≤ r ∧ r < 2 ^ 63

/-- A finite float32 is this integer times 2^-149 (IEEE 754 binary32). -/
def f32Scaled (b : UInt32) : Int :=
  let e : Nat := b.toNat / 2 ^ 23 % 2 ^ 8
  let f : Nat := b.toNat % 2 ^ 23
  let m : Nat := if e = 0 then f else (2 ^ 23 + f) * 2 ^ (e - 1)
  if b.toNat / 2 ^ 31 = 1 then -(m : Int) else (m : Int)

/-- Neither infinite nor NaN. -/
def f32Finite (b : UInt32) : Prop := b.toNat / 2 ^ 23 % 2 ^ 8 ≠ 2 ^ 8 - 1

/-- The float64 has the sign of the float32 and is the same number, or both are infinite, or both are NaN. -/
def SameNumber (b : UInt32) (f : UInt64) : Prop :=
  f.toNat / 2 ^ 63 = b.toNat / 2 ^ 31 ∧ (f64Finite f ↔ f32Finite b) ∧ (f32Finite b → f64Scaled f = f32Scaled b * 2 ^ 925) ∧
  (¬ f32Finite b → (f.toNat % 2 ^ 52 = 0 ↔ b.toNat % 2 ^ 23 = 0))

/-- `f` is the float64 nearest to the integer: no finite float64 is nearer, and if another one is equally near then the last binary digit of the mantissa
of `f` is zero. Zero is positive zero. -/
def Nearest (n : Int) (f : UInt64) : Prop :=
  f64Finite f ∧ (0 ≤ n → f.toNat < 2 ^ 63) ∧
  (∀ g, f64Finite g → (n * 2 ^ 1074 - f64Scaled f).natAbs ≤ (n * 2 ^ 1074 - f64Scaled g).natAbs) ∧
  (∀ g, f64Finite g → f64Scaled g ≠ f64Scaled f → (n * 2 ^ 1074 - f64Scaled g).natAbs = (n * 2 ^ 1074 - f64Scaled f).natAbs → f.toNat % 2 = 0)

/-- The documented conversion of a value to an int. The zero time is 0, other times are whole seconds since 1970 (which is
62135596800 seconds after the zero time). -/
inductive ToInt : Val → Int → Prop where
  | true : ToInt (.bool true) 1
  | false : ToInt (.bool false) 0
  | int {k : IntKind} {n : Int} : FitsInt n → ToInt (.int k n) n
  | f64 {b : UInt64} {r : Int} : f64Finite b → IntegerPart (f64Scaled b) r → FitsInt r → ToInt (.f64 b) r
  | f32 {b : UInt32} {r : Int} : f32Finite b → IntegerPart (f32Scaled b * 2 ^ 925) r → FitsInt r → ToInt (.f32 b) r
  | zeroTime : ToInt (.time 0) 0
  | time {ns r : Int} : ns ≠ 0 → r * 1000000000 ≤ ns - 62135596800 * 1000000000 →
      ns - 62135596800 * 1000000000 < (r + 1) * 1000000000 → ToInt (.time ns) r

/-- The types GetInt and GetFloat convert from. -/
def IsNumeric : Val → Prop
  | .bool _ | .int _ _ | .f32 _ | .f64 _ | .time _ => True
  | _ => False

/-- The documented truth value: false for false, numeric zero (both signs), the zero time and nil. -/
inductive IsFalse : Val → Prop where
  | bool : IsFalse (.bool false)
  | int {k : IntKind} : IsFalse (.int k 0)
  | f64 {b : UInt64} : f64Finite b → f64Scaled b = 0 → IsFalse (.f64 b)
  /-- the two float32 zeros -/
  | f32Pos : IsFalse (.f32 0)
  | f32Neg : IsFalse (.f32 0x80000000)
  | time : IsFalse (.time 0)
  | nil : IsFalse .nil

/-! ## Collections as sequences -/

/-- Calls on a collection. -/
inductive QOp where
  | push (d : Option Addr)
  | unshift (d : Option Addr)
  | pop
  | shift
  | count
  | get (i : Int)
  deriving DecidableEq, Repr

/-- Answers. -/
inductive QOut where
  | done
  | elem (d : Option Addr)
  | absent
  | num (n : Nat)
  | panic
  deriving DecidableEq, Repr

/-- What each call does to a mathematical sequence. -/
inductive QStep : List (Option Addr) → QOp → QOut → List (Option Addr) → Prop where
  | push {l : List (Option Addr)} {d : Option Addr} : QStep l (.push d) .done (l ++ [d])
  | unshift {l : List (Option Addr)} {d : Option Addr} : QStep l (.unshift d) .done ([d] ++ l)
  | pop {l : List (Option Addr)} {d : Option Addr} : QStep (l ++ [d]) .pop (.elem d) l
  | popEmpty : QStep [] .pop .panic []
  | shift {l : List (Option Addr)} {d : Option Addr} : QStep ([d] ++ l) .shift (.elem d) l
  | shiftEmpty : QStep [] .shift .panic []
  | count {l : List (Option Addr)} : QStep l .count (.num l.length) l
  | get {l l' : List (Option Addr)} {d : Option Addr} : QStep (l ++ [d] ++ l') (.get l.length) (.elem d) (l ++ [d] ++ l')
  | getOut {l : List (Option Addr)} {i : Int} : i < 0 ∨ (l.length : Int) ≤ i → QStep l (.get i) .absent l

/-- A sequence of calls with their answers. -/
inductive QRun : List (Option Addr) → List (QOp × QOut) → List (Option Addr) → Prop where
  | nil {l : List (Option Addr)} : QRun l [] l
  | cons {l l' l'' : List (Option Addr)} {op : QOp} {o : QOut} {tr : List (QOp × QOut)} :
      QStep l op o l' → QRun l' tr l'' → QRun l ((op, o) :: tr) l''

/-- One call on the collection `c` in memory. -/
def QOp.exec (h : Heap) (c : Addr) : QOp → Heap × QOut
  | .push d => (Dataset.push h c d, .done)
  | .unshift d => (Dataset.unshift h c d, .done)
  | .pop => match Dataset.pop h c with | .ok (h', d) => (h', .elem d) | _ => (h, .panic)
  | .shift => match Dataset.shift h c with | .ok (h', d) => (h', .elem d) | _ => (h, .panic)
  | .count => (h, .num (Dataset.count h c))
  | .get i => (h, match colGetAt h c i with | some d => .elem d | none => .absent)

/-- Many calls on the collection `c`, with their answers. -/
def execAll (h : Heap) (c : Addr) : List QOp → Heap × List (QOp × QOut)
  | [] => (h, [])
  | op :: ops =>
    let r := op.exec h c
    let q := execAll r.1 c ops
    (q.1, (op, r.2) :: q.2)

/-- The value `v` is somewhere in the Go map or slice. -/
inductive Occurs (v : Val) : Raw → Prop where
  | val : Occurs v (.val v)
  | anys {l : List Raw} {r : Raw} : r ∈ l → Occurs v r → Occurs v (.anys l)
  | maps {l : List (List (Str × Raw))} {m : List (Str × Raw)} {k : Str} {r : Raw} : m ∈ l → (k, r) ∈ m → Occurs v r → Occurs v (.maps l)
  | map {m : List (Str × Raw)} {k : Str} {r : Raw} : (k, r) ∈ m → Occurs v r → Occurs v (.map m)

/-- A call a program can make. New objects are the empty dataset and collections, a wrapper, a slice, a language table. -/
inductive Call where
  | newDataset
  | newTS (inner : Option Addr)
  | newCollection
  | newCollectionTS
  | newSlice (elems : List Val)
  | newLang (l : Language.Lang)
  | set (a : Addr) (k : Str) (v : Val)
  | del (a : Addr) (k : Str)
  | push (c : Addr) (d : Option Addr)
  | unshift (c : Addr) (d : Option Addr)
  | pop (c : Addr)
  | shift (c : Addr)
  /-- Clone of a dataset or collection; `depth` bounds the nesting (see `cloneVal`) -/
  | clone (depth : Nat) (a : Addr)
  /-- NewXDataset of a Go map -/
  | build (m : List (Str × Raw))
  /-- NewXDatasetCollection of a slice of Go maps -/
  | buildCollection (l : List (List (Str × Raw)))

/-- The call type-checks in Go and its arguments exist. -/
def Call.Legal (h : Heap) : Call → Prop
  | .newTS (some a) => IsDataset h a
  | .set a _ v => IsDataset h a ∧ Valid h v
  | .del a _ => IsDataset h a
  | .push c d => (∃ l, IsCollection h c l) ∧ ∀ a, d = some a → IsDataset h a
  | .unshift c d => (∃ l, IsCollection h c l) ∧ ∀ a, d = some a → IsDataset h a
  | .pop c => ∃ l, IsCollection h c l
  | .shift c => ∃ l, IsCollection h c l
  | .clone _ a => a < h.length
  | .build m => ∀ v, Occurs v (.map m) → Valid h v
  | .buildCollection l => ∀ v, Occurs v (.maps l) → Valid h v
  | _ => True

/-- Memory after a call; a call that panics changes nothing. -/
def Call.run (h : Heap) : Call → Heap
  | .newDataset => (alloc h (.ds [])).1
  | .newTS i => (newXDatasetTS h i).1
  | .newCollection => (alloc h (.col [])).1
  | .newCollectionTS => (alloc h (.colTS [])).1
  | .newSlice l => (alloc h (.slice l)).1
  | .newLang l => (alloc h (.lang l)).1
  | .set a k v => match Dataset.set h a k v with | .ok h' => h' | _ => h
  | .del a k => match Dataset.del h a k with | .ok h' => h' | _ => h
  | .push c d => Dataset.push h c d
  | .unshift c d => Dataset.unshift h c d
  | .pop c => match Dataset.pop h c with | .ok r => r.1 | _ => h
  | .shift c => match Dataset.shift h c with | .ok r => r.1 | _ => h
  | .clone n a => match cloneVal n h (.ptr a) with | .ok r => r.1 | _ => h
  | .build m => (newXDataset h m).1
  | .buildCollection l => (buildVal h (.maps l)).1

/-- Heaps a program can build. -/
inductive Reachable : Heap → Prop where
  | start : Reachable []
  | call {h : Heap} (c : Call) : Reachable h → c.Legal h → Reachable (c.run h)

end Xcore.Dataset
