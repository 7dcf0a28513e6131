import Verif.Base.ListAux
import Verif.Spec.Dataset

/-!
# Specifications for cloning
-/

namespace Xcore.Dataset

/-- Object `a` holds a reference to object `b`. -/
inductive Refers (h : Heap) : Addr → Addr → Prop where
  | ptr {a b : Addr} {m : AMap Val} {k : Str} : h[a]? = some (.ds m) → (k, Val.ptr b) ∈ m → Refers h a b
  | slice {a b : Addr} {m : AMap Val} {k : Str} {sk : SliceKind} : h[a]? = some (.ds m) → (k, Val.slice sk b) ∈ m → Refers h a b
  | wrapped {a b : Addr} : h[a]? = some (.dsTS (some b)) → Refers h a b
  | elem {a b : Addr} {l : List (Option Addr)} : IsCollection h a l → some b ∈ l → Refers h a b

/-- Object `b` can be reached from object `a` through references. -/
inductive Reach (h : Heap) : Addr → Addr → Prop where
  | refl {a : Addr} : Reach h a a
  | step {a b c : Addr} : Refers h a b → Reach h b c → Reach h a c

/-- No object reachable from `a` can reach itself through one or more references. -/
def Acyclic (h : Heap) (a : Addr) : Prop := ∀ b c, Reach h a b → Refers h b c → ¬ Reach h c b

/-- Nothing reachable from `a` is a wrapper without dataset or a collection with a nil element. -/
def Clean (h : Heap) (a : Addr) : Prop :=
  ∀ b, Reach h a b → h[b]? ≠ some (.dsTS none) ∧ ∀ l, IsCollection h b l → none ∉ l

/-- All answers of dataset `a` in memory `h` and of dataset `c` in memory `h'` are the same, for every key or path: the values found,
except that datasets and collections need not be the same object (what they answer is in the longer paths). -/
structure SameAnswers (h : Heap) (a : Addr) (h' : Heap) (c : Addr) : Prop where
  /-- present or absent -/
  found : ∀ key, get h' c key = .ok none ↔ get h a key = .ok none
  /-- the value, if it is neither dataset nor collection -/
  plain : ∀ key v, Plain h v → get h a key = .ok (some v) → get h' c key = .ok (some v)
  isDataset : ∀ key, (∃ b, getDataset h' c key = .ok (some b)) ↔ ∃ b, getDataset h a key = .ok (some b)
  isCollection : ∀ key, (∃ b, getCollection h' c key = .ok (some b)) ↔ ∃ b, getCollection h a key = .ok (some b)
  /-- the number of elements of a collection -/
  counts : ∀ key b b', getCollection h a key = .ok (some b) → getCollection h' c key = .ok (some b') → count h' b' = count h b
  getString : ∀ x n key, getString x n h' c key = getString x n h a key
  getBool : ∀ key, getBool h' c key = getBool h a key
  getInt : ∀ x key, getInt x h' c key = getInt x h a key
  getFloat : ∀ key, getFloat h' c key = getFloat h a key
  getTime : ∀ key, getTime h' c key = getTime h a key
  getSlice : ∀ k key, getSlice k h' c key = getSlice k h a key
  string : ∀ x n, dsString x n h' c = dsString x n h a
  goString : ∀ x n, dsGoString x n h' c = dsGoString x n h a

/-- All answers of collection `a` in memory `h` and of collection `c` in memory `h'` are the same. -/
structure SameCollection (h : Heap) (a : Addr) (h' : Heap) (c : Addr) : Prop where
  count : count h' c = count h a
  get : ∀ i e, colGetAt h a i = some (some e) → ∃ e', colGetAt h' c i = some (some e') ∧ SameAnswers h e h' e'
  getNone : ∀ i, colGetAt h' c i = none ↔ colGetAt h a i = none
  string : ∀ x n, sprint x n h' (.ptr c) = sprint x n h (.ptr a)

/-! ## Programs that hold some objects -/

/-- The value refers to the object at the address. -/
def RefV (v : Val) (b : Addr) : Prop := v = .ptr b ∨ ∃ k, v = .slice k b

/-- The objects a call is given: receiver and arguments. -/
def Call.Mentions : Call → Addr → Prop
  | .newTS (some a), b => b = a
  | .set a _ v, b => b = a ∨ RefV v b
  | .del a _, b => b = a
  | .push c d, b => b = c ∨ d = some b
  | .unshift c d, b => b = c ∨ d = some b
  | .pop c, b => b = c
  | .shift c, b => b = c
  | .clone _ a, b => b = a
  | .build m, b => ∃ v, Occurs v (.map m) ∧ RefV v b
  | .buildCollection l, b => ∃ v, Occurs v (.maps l) ∧ RefV v b
  | _, _ => False

/-- The objects a program can get at that holds references to the objects in `K`. -/
def Held (h : Heap) (K : Addr → Prop) (b : Addr) : Prop := ∃ r, K r ∧ Reach h r b

/-- A program that initially holds the objects in `K` makes the calls, from memory `h` to memory `h'`. It can only pass objects it can get
at; it can keep references to everything it could get at before the call, and to the objects the call creates. -/
inductive Program : (Addr → Prop) → Heap → List Call → Heap → Prop where
  | done {K : Addr → Prop} {h : Heap} : Program K h [] h
  | call {K : Addr → Prop} {h h' : Heap} {c : Call} {cs : List Call} :
      c.Legal h → (∀ b, c.Mentions b → Held h K b) →
      Program (fun b => Held h K b ∨ (h.length ≤ b ∧ b < (c.run h).length)) (c.run h) cs h' → Program K h (c :: cs) h'

/-! ## Writing through shared values -/

/-- `s[i] = v` on a slice obtained from a dataset. -/
def writeSlice (h : Heap) (b : Addr) (i : Nat) (v : Val) : Heap :=
  match h[b]? with
  | some (.slice l) => h.set b (.slice (l.set i v))
  | _ => h

/-- `Set` on a language table obtained from a dataset. -/
def writeLang (h : Heap) (b : Addr) (k v : Str) : Heap :=
  match h[b]? with
  | some (.lang l) => h.set b (.lang (Language.set l k v))
  | _ => h

end Xcore.Dataset
