import Verif.Model.V1.Dataset
import Verif.Spec.Dataset

/-!
# Specifications for datasets and collections of version 1

`Val`, `QOp`-like sequences and float predicates are those of version 2; everything that looks into memory is stated here on the memory of
version 1.
-/

namespace Xcore.V1.Dataset

open Xcore.Dataset (Val SliceKind Ext OfKind)

/-- The object at the address is a dataset. -/
def IsDataset (h : Heap) (a : Nat) : Prop := ∃ m, h[a]? = some (.ds m)

/-- The object at the address is a collection with elements `l`. -/
def IsCollection (h : Heap) (a : Nat) (l : List (Option Nat)) : Prop := h[a]? = some (.col l)

/-- The value refers to an existing object only, and an integer is in the range of its type. -/
def Valid (h : Heap) : Val → Prop
  | .ptr b => b < h.length
  | .slice _ b => ∃ l, h[b]? = some (.slice l)
  | .int k n => OfKind k n
  | _ => True

/-- What holds of every memory a program can build: maps have distinct keys; references are to existing objects; elements of collections are
datasets or nil. -/
structure WF (h : Heap) : Prop where
  nodup : ∀ (a : Nat) (m : AMap Val), h[a]? = some (.ds m) → m.Nodup
  valid : ∀ (a : Nat) (m : AMap Val) (k : Str) (v : Val), h[a]? = some (.ds m) → (k, v) ∈ m → Valid h v
  elem : ∀ (a : Nat) (l : List (Option Nat)) (b : Nat), IsCollection h a l → some b ∈ l → IsDataset h b

/-- Dataset `a` has the entry `k ↦ v`. -/
def Entry (h : Heap) (a : Nat) (k : Str) (v : Val) : Prop := ∃ m, h[a]? = some (.ds m) ∧ m.get k = some v

/-- `v` is neither a dataset nor a collection. -/
def Plain (h : Heap) (v : Val) : Prop := ∀ a, v = .ptr a → ¬ IsDataset h a ∧ ∀ l, ¬ IsCollection h a l

/-- Following the segments of a path from dataset `a` leads to `v`: a segment names an entry of a dataset; after an entry that is a
collection, the next segment is the decimal index of an element; where the walk meets a value that is neither before the end, the rest of the
path is a literal key of the current dataset. -/
inductive Leads (h : Heap) : Nat → List Str → Val → Prop where
  | entry {a : Nat} {s : Str} {v : Val} : Entry h a s v → Leads h a [s] v
  | dataset {a b : Nat} {s s2 : Str} {rest : List Str} {v : Val} :
      Entry h a s (.ptr b) → IsDataset h b → Leads h b (s2 :: rest) v → Leads h a (s :: s2 :: rest) v
  | element {a c e : Nat} {s s2 : Str} {l : List (Option Nat)} {i : Nat} :
      Entry h a s (.ptr c) → IsCollection h c l → atoi s2 = some (i : Int) → l[i]? = some (some e) → Leads h a [s, s2] (.ptr e)
  | through {a c e : Nat} {s s2 r : Str} {rest : List Str} {l : List (Option Nat)} {i : Nat} {v : Val} :
      Entry h a s (.ptr c) → IsCollection h c l → atoi s2 = some (i : Int) → l[i]? = some (some e) →
      Leads h e (r :: rest) v → Leads h a (s :: s2 :: r :: rest) v
  | literal {a : Nat} {s s2 : Str} {rest : List Str} {w v : Val} :
      Entry h a s w → Plain h w → Entry h a (join b!">" (s :: s2 :: rest)) v → Leads h a (s :: s2 :: rest) v

/-! ## Programs -/

/-- A call a program can make, or a literal it can write. A literal with contents is an empty one followed by Set or Push calls. -/
inductive Call where
  | newDataset
  | newCollection
  | newSlice (elems : List Val)
  | newLang (l : Language.Lang)
  | set (a : Nat) (k : Str) (v : Val)
  | del (a : Nat) (k : Str)
  | push (c : Nat) (d : Option Nat)
  | unshift (c : Nat) (d : Option Nat)
  | pop (c : Nat)
  | shift (c : Nat)
  /-- Clone of a dataset or collection; `depth` bounds the nesting (see `cloneVal`) -/
  | clone (depth : Nat) (a : Nat)

/-- The call type-checks in Go and its arguments exist. -/
def Call.Legal (h : Heap) : Call → Prop
  | .set a _ v => IsDataset h a ∧ Valid h v
  | .del a _ => IsDataset h a
  | .push c d => (∃ l, IsCollection h c l) ∧ ∀ a, d = some a → IsDataset h a
  | .unshift c d => (∃ l, IsCollection h c l) ∧ ∀ a, d = some a → IsDataset h a
  | .pop c => ∃ l, IsCollection h c l
  | .shift c => ∃ l, IsCollection h c l
  | .clone _ a => a < h.length
  | _ => True

/-- Memory after a call; a call that panics changes nothing. -/
def Call.run (h : Heap) : Call → Heap
  | .newDataset => h ++ [.ds []]
  | .newCollection => h ++ [.col []]
  | .newSlice l => h ++ [.slice l]
  | .newLang l => h ++ [.lang l]
  | .set a k v => Dataset.set h a k v
  | .del a k => Dataset.del h a k
  | .push c d => Dataset.push h c d
  | .unshift c d => Dataset.unshift h c d
  | .pop c => match Dataset.pop h c with | .ok r => r.1 | _ => h
  | .shift c => match Dataset.shift h c with | .ok r => r.1 | _ => h
  | .clone n a => match cloneVal n h (.ptr a) with | .ok r => r.1 | _ => h

/-- Memory a program can build. -/
inductive Reachable : Heap → Prop where
  | start : Reachable []
  | call {h : Heap} (c : Call) : Reachable h → c.Legal h → Reachable (c.run h)

/-- Object `a` holds a reference to object `b`. -/
inductive Refers (h : Heap) : Nat → Nat → Prop where
  | ptr {a b : Nat} {m : AMap Val} {k : Str} : h[a]? = some (.ds m) → (k, Val.ptr b) ∈ m → Refers h a b
  | slice {a b : Nat} {m : AMap Val} {k : Str} {sk : SliceKind} : h[a]? = some (.ds m) → (k, Val.slice sk b) ∈ m → Refers h a b
  | elem {a b : Nat} {l : List (Option Nat)} : IsCollection h a l → some b ∈ l → Refers h a b

/-- Object `b` can be reached from object `a` through references. -/
inductive Reach (h : Heap) : Nat → Nat → Prop where
  | refl {a : Nat} : Reach h a a
  | step {a b c : Nat} : Refers h a b → Reach h b c → Reach h a c

/-- No object reachable from `a` can reach itself through one or more references. -/
def Acyclic (h : Heap) (a : Nat) : Prop := ∀ b c, Reach h a b → Refers h b c → ¬ Reach h c b

/-- No collection reachable from `a` has a nil element. -/
def Clean (h : Heap) (a : Nat) : Prop := ∀ b, Reach h a b → ∀ l, IsCollection h b l → none ∉ l

/-- The value refers to the object at the address. -/
def RefV (v : Val) (b : Nat) : Prop := v = .ptr b ∨ ∃ k, v = .slice k b

/-- The objects a call is given: receiver and arguments. -/
def Call.Mentions : Call → Nat → Prop
  | .set a _ v, b => b = a ∨ RefV v b
  | .del a _, b => b = a
  | .push c d, b => b = c ∨ d = some b
  | .unshift c d, b => b = c ∨ d = some b
  | .pop c, b => b = c
  | .shift c, b => b = c
  | .clone _ a, b => b = a
  | _, _ => False

/-- The objects a program can get at that holds references to the objects in `K`. -/
def Held (h : Heap) (K : Nat → Prop) (b : Nat) : Prop := ∃ r, K r ∧ Reach h r b

/-- A program that initially holds the objects in `K` makes the calls, from memory `h` to memory `h'`. It can only pass objects it can get
at; it can keep references to everything it could get at before the call, and to the objects the call creates. -/
inductive Program : (Nat → Prop) → Heap → List Call → Heap → Prop where
  | done {K : Nat → Prop} {h : Heap} : Program K h [] h
  | call {K : Nat → Prop} {h h' : Heap} {c : Call} {cs : List Call} :
      c.Legal h → (∀ b, c.Mentions b → Held h K b) →
      Program (fun b => Held h K b ∨ (h.length ≤ b ∧ b < (c.run h).length)) (c.run h) cs h' → Program K h (c :: cs) h'

/-! ## Same answers -/

/-- All answers of dataset `a` in memory `h` and of dataset `c` in memory `h'` are the same, for every key or path: the values found,
except that datasets and collections need not be the same object (what they answer is in the longer paths). -/
structure SameAnswers (h : Heap) (a : Nat) (h' : Heap) (c : Nat) : Prop where
  /-- present or absent -/
  found : ∀ key, get h' c key = none ↔ get h a key = none
  /-- the value, if it is neither dataset nor collection -/
  plain : ∀ key v, Plain h v → get h a key = some v → get h' c key = some v
  isDataset : ∀ key, (∃ b, getDataset h' c key = some b) ↔ ∃ b, getDataset h a key = some b
  isCollection : ∀ key, (∃ b, getCollection h' c key = some b) ↔ ∃ b, getCollection h a key = some b
  /-- the number of elements of a collection -/
  counts : ∀ key b b', getCollection h a key = some b → getCollection h' c key = some b' → count h' b' = count h b
  getString : ∀ x n key, getString x n h' c key = getString x n h a key
  getBool : ∀ key, getBool h' c key = getBool h a key
  getInt : ∀ x key, getInt x h' c key = getInt x h a key
  getFloat : ∀ key, getFloat h' c key = getFloat h a key
  getTime : ∀ key, getTime h' c key = getTime h a key
  getSlice : ∀ k key, getSlice k h' c key = getSlice k h a key
  string : ∀ x n, sprint x n h' (.ptr c) = sprint x n h (.ptr a)
  goString : ∀ x n, goSprint x n h' (.ptr c) = goSprint x n h (.ptr a)

/-- All answers of collection `a` in memory `h` and of collection `c` in memory `h'` are the same. -/
structure SameCollection (h : Heap) (a : Nat) (h' : Heap) (c : Nat) : Prop where
  count : count h' c = count h a
  get : ∀ i e, colGetAt h a i = some (some e) → ∃ e', colGetAt h' c i = some (some e') ∧ SameAnswers h e h' e'
  getNone : ∀ i, colGetAt h' c i = none ↔ colGetAt h a i = none
  string : ∀ x n, sprint x n h' (.ptr c) = sprint x n h (.ptr a)

/-! ## Collections as sequences -/

/-- One call on the collection `c` in memory. The calls and answers are those of the specification of sequences of version 2. -/
def exec (h : Heap) (c : Nat) : Xcore.Dataset.QOp → Heap × Xcore.Dataset.QOut
  | .push d => (push h c d, .done)
  | .unshift d => (unshift h c d, .done)
  | .pop => match pop h c with | .ok (h', d) => (h', .elem d) | _ => (h, .panic)
  | .shift => match shift h c with | .ok (h', d) => (h', .elem d) | _ => (h, .panic)
  | .count => (h, .num (count h c))
  | .get i => (h, match colGetAt h c i with | some d => .elem d | none => .absent)

/-- Calls in a row, with their answers. -/
def execAll (h : Heap) (c : Nat) : List Xcore.Dataset.QOp → Heap × List (Xcore.Dataset.QOp × Xcore.Dataset.QOut)
  | [] => (h, [])
  | op :: ops =>
    let r := exec h c op
    let q := execAll r.1 c ops
    (q.1, (op, r.2) :: q.2)

/-- The types GetInt and GetFloat convert from: not times. -/
def IsNumber : Val → Prop
  | .bool _ | .int _ _ | .f32 _ | .f64 _ => True
  | _ => False

/-! ## Writing through what a dataset gives away -/

/-- `s[i] = v` on a slice. -/
def writeSlice (h : Heap) (b i : Nat) (v : Val) : Heap :=
  match h[b]? with
  | some (.slice l) => h.set b (.slice (l.set i v))
  | _ => h

/-- Set on a language table obtained from a dataset. -/
def writeLang (h : Heap) (b : Nat) (k v : Str) : Heap :=
  match h[b]? with
  | some (.lang l) => match Language.set l k v with
    | some l' => h.set b (.lang l')
    | none => h
  | _ => h

/-! ## The same memory in version 2 -/

/-- The same object in version 2. A language table without a map is an empty one. -/
def Obj.up : Obj → Xcore.Dataset.Obj
  | .ds m => .ds m
  | .col l => .col l
  | .lang l => .lang ⟨l.name, l.tag, l.entries.getD [], []⟩
  | .slice l => .slice l

/-- The same memory in version 2. -/
def up (h : Heap) : Xcore.Dataset.Heap := h.map Obj.up

/-- The same call in version 2. -/
def Call.up : Call → Xcore.Dataset.Call
  | .newDataset => .newDataset
  | .newCollection => .newCollection
  | .newSlice l => .newSlice l
  | .newLang l => .newLang ⟨l.name, l.tag, l.entries.getD [], []⟩
  | .set a k v => .set a k v
  | .del a k => .del a k
  | .push c d => .push c d
  | .unshift c d => .unshift c d
  | .pop c => .pop c
  | .shift c => .shift c
  | .clone n a => .clone n a

end Xcore.V1.Dataset
