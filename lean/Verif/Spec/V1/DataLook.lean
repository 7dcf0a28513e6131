import Verif.Spec.V1.TemplateGraph

/-!
# Specification: data that look the same to a template of version 1 (C117)

A template looks at its data only through its elements: each looks up one path, and uses what it finds in one way. Data that cannot be told apart in
these ways look the same to the template, whatever else there is in them.
-/

namespace Xcore.V1.Template

open Xcore.Template (Param parts Target)
open Xcore.Dataset (Ext Val GoPrints)
open Xcore.V1.Dataset

/-- How an element uses the value it has looked up. -/
inductive Way where
  /-- its text is taken -/
  | text
  /-- if it is a dataset, what follows is looked up in it first -/
  | «open»
  /-- it must be a collection, whose elements are gone through -/
  | loop
  /-- nothing for a dataset, otherwise its text is taken -/
  | test

/-- The element looks up this path, and uses the value in this way. -/
inductive LooksUp : Param → Way → Str → Prop where
  | «variable» {s : Str} : LooksUp ⟨.variable, s⟩ .text s
  | reference {s id key : Str} : parts s = [id, key] → LooksUp ⟨.reference, s⟩ .open key
  | referenceValue {s any key pre : Str} : parts s = [any, key, pre] → LooksUp ⟨.reference, s⟩ .text key
  | range {s key id : Str} : Target s key id → LooksUp ⟨.range, s⟩ .loop key
  | condition {s key id : Str} : Target s key id → LooksUp ⟨.condition, s⟩ .test key

/-- Elements of collections, side by side: both nil or both paired. -/
inductive RowsTheSame (R : Nat → Nat → Prop) : List (Option Nat) → List (Option Nat) → Prop where
  | nil : RowsTheSame R [] []
  | none {l l'} : RowsTheSame R l l' → RowsTheSame R (none :: l) (none :: l')
  | some {a a' : Nat} {l l'} : R a a' → RowsTheSame R l l' → RowsTheSame R (some a :: l) (some a' :: l')

/-- The values `v` in memory `h` and `v'` in memory `h'` are the same when used in this way. -/
inductive UsedTheSame (x : Ext) (h h' : Heap) (R : Nat → Nat → Prop) : Way → Val → Val → Prop where
  | text {v v'} : (∀ s, Shows x h v s ↔ Shows x h' v' s) → UsedTheSame x h h' R .text v v'
  | opened {a a' : Nat} : IsDataset h a → IsDataset h' a' → R a a' → UsedTheSame x h h' R .open (.ptr a) (.ptr a')
  | notOpened {v v'} : ¬ ValIsDataset h v → ¬ ValIsDataset h' v' → UsedTheSame x h h' R .open v v'
  | loop {c c' : Nat} {l l'} : IsCollection h c l → IsCollection h' c' l' → RowsTheSame R l l' → UsedTheSame x h h' R .loop (.ptr c) (.ptr c')
  | noLoop {v v'} : ¬ ValIsCollection h v → ¬ ValIsCollection h' v' → UsedTheSame x h h' R .loop v v'
  | testDataset {v v'} : ValIsDataset h v → ValIsDataset h' v' → UsedTheSame x h h' R .test v v'
  | testText {v v'} : ¬ ValIsDataset h v → ¬ ValIsDataset h' v' → (∀ s, Shows x h v s ↔ Shows x h' v' s) → UsedTheSame x h h' R .test v v'

/-- `R` pairs datasets of two memories that look the same to the elements `E`: a path that one of them looks up leads to a value in both or in
neither, and the values are the same when used as the element uses them. -/
def DataTheSame (x : Ext) (E : Param → Prop) (h h' : Heap) (R : Nat → Nat → Prop) : Prop :=
  ∀ a a' p way key, R a a' → E p → LooksUp p way key →
    ((∀ v, ¬ Leads h a (split 62 key) v) ∧ ∀ v, ¬ Leads h' a' (split 62 key) v) ∨
    ∃ v v', Leads h a (split 62 key) v ∧ Leads h' a' (split 62 key) v' ∧ UsedTheSame x h h' R way v v'

/-- What else the elements `E` take from the datasets given to `Execute`: texts of the language table, and the text of a dump. -/
structure RootTheSame (x : Ext) (E : Param → Prop) (h h' : Heap) (a a' : Nat) : Prop where
  lang : ∀ l l' id, LangOf h a l → LangOf h' a' l' → E ⟨.language, id⟩ → langText l id = langText l' id
  dump : ∀ s, E ⟨.dump, s⟩ → (s = b!"dump" ∨ s = b!"list") → ∀ t, (∃ n, GoPrints x n (up h) (.ptr a) t) ↔ ∃ n, GoPrints x n (up h') (.ptr a') t

/-- The elements of the template and of all templates in it. -/
def ElementOf (th : THeap) (t : Nat) (p : Param) : Prop := ∃ c, Inside th t c ∧ p ∈ elements th c

/-! ## One entry -/

/-- A lookup of the path may ask a dataset for the entry `k`: `k` is one of its segments, or all the rest of it from one segment on. -/
def AsksFor (path k : Str) : Prop := ∃ before s rest, split 62 path = before ++ s :: rest ∧ (k = s ∨ k = join b!">" (s :: rest))

/-- The memories differ at most in the entry `k` of the dataset `b`. -/
structure DifferOnlyIn (h h' : Heap) (b : Nat) (k : Str) : Prop where
  dataset : IsDataset h b
  dataset' : IsDataset h' b
  entries : ∀ k' v, k' ≠ k → (Entry h b k' v ↔ Entry h' b k' v)
  others : ∀ c : Nat, c ≠ b → h[c]? = h'[c]?

end Xcore.V1.Template
