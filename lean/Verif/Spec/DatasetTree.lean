import Verif.Spec.DatasetClone

/-!
# Specification: the ways through data

Data are a tree when every dataset and every collection in them is at one place only. Language tables and slices may be shared.
-/

namespace Xcore.Dataset

/-- One step into an object. -/
inductive Step where
  /-- the entry with the key -/
  | key (k : Str)
  /-- the element with the index -/
  | elem (i : Nat)
  /-- what a wrapper wraps -/
  | wrapped

/-- The step from object `a` leads to object `b`. -/
inductive StepTo (h : Heap) : Nat → Step → Nat → Prop where
  | ptr {a b : Nat} {m : AMap Val} {k : Str} : h[a]? = some (.ds m) → m.get k = some (.ptr b) → StepTo h a (.key k) b
  | slice {a b : Nat} {m : AMap Val} {k : Str} {sk : SliceKind} : h[a]? = some (.ds m) → m.get k = some (.slice sk b) → StepTo h a (.key k) b
  | elem {a b : Nat} {l : List (Option Nat)} {i : Nat} : IsCollection h a l → l[i]? = some (some b) → StepTo h a (.elem i) b
  | wrapped {a b : Nat} : h[a]? = some (.dsTS (some b)) → StepTo h a .wrapped b

/-- The steps from object `a` lead to object `b`. -/
inductive Path (h : Heap) : Nat → List Step → Nat → Prop where
  | nil {a : Nat} : Path h a [] a
  | cons {a b c : Nat} {s : Step} {p : List Step} : StepTo h a s b → Path h b p c → Path h a (s :: p) c

/-- A dataset or a collection. -/
def Container (h : Heap) (a : Nat) : Prop := IsDataset h a ∨ ∃ l, IsCollection h a l

/-- No dataset and no collection in the data is at two places: two ways to the same one are the same way. -/
def Tree (h : Heap) (a : Nat) : Prop := ∀ p q b, Container h b → Path h a p b → Path h a q b → p = q

end Xcore.Dataset
