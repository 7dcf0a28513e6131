import Verif.Spec.TemplateRender
import Verif.Spec.TemplateGraph
import Verif.Spec.DatasetClone

/-!
# Specification: the entries of its data a template asks for (C118)

Version 2. Every element looks up one path. A lookup asks a dataset for one of the segments of the path, or for the rest of it from a segment on.
-/

namespace Xcore.Template

open Xcore.Dataset

/-- The element looks up this path in its data. -/
inductive LooksUp : Param → Str → Prop where
  | «variable» {s : Str} : LooksUp ⟨.variable, s⟩ s
  | reference {s id key : Str} : parts s = [id, key] → LooksUp ⟨.reference, s⟩ key
  | referenceValue {s any key pre : Str} : parts s = [any, key, pre] → LooksUp ⟨.reference, s⟩ key
  | range {s key id : Str} : Target s key id → LooksUp ⟨.range, s⟩ key
  | condition {s key id : Str} : Target s key id → LooksUp ⟨.condition, s⟩ key

/-- The element takes the text of the value at this path and shows it, or chooses by it. -/
inductive TakesText : Param → Str → Prop where
  | «variable» {s : Str} : TakesText ⟨.variable, s⟩ s
  | referenceValue {s any key pre : Str} : parts s = [any, key, pre] → TakesText ⟨.reference, s⟩ key

/-- A lookup of the path may ask a dataset for the entry `k`: `k` is one of its segments, or all the rest of it from one segment on. -/
def AsksFor (path k : Str) : Prop := ∃ before s rest, split 62 path = before ++ s :: rest ∧ (k = s ∨ k = join b!">" (s :: rest))

/-- The elements of the template and of all templates that one comes to from it. -/
def ElementOf (th : THeap) (t : Nat) (p : Param) : Prop := ∃ c, Comes th t c ∧ p ∈ elements th c

/-- The memories differ at most in the entry `k` of the plain dataset `b`. -/
structure DifferOnlyIn (h h' : Heap) (b : Nat) (k : Str) : Prop where
  dataset : ∃ m m', h[b]? = some (.ds m) ∧ h'[b]? = some (.ds m') ∧ ∀ k', k' ≠ k → m'.get k' = m.get k'
  others : ∀ c : Nat, c ≠ b → h'[c]? = h[c]?

/-- No dataset refers to itself, directly or through others. -/
def NoCycles (h : Heap) : Prop := ∀ a, IsDataset h a → Acyclic h a

/-- The template cannot see the entry `k`, in which the data in the memories `h` and `g` differ: no element asks for it; the texts that are taken,
whatever the counters of loops are, are not those of datasets or collections, which show all entries; nor do conditions test collections, and datasets
only if there are no cycles (a condition on a dataset prints it); nothing is dumped; and the entry is not the language table. -/
structure Unseen (th : THeap) (t : Nat) (h g : Heap) (k : Str) : Prop where
  asks : ∀ p key, ElementOf th t p → LooksUp p key → ¬ AsksFor key k
  texts : ∀ h₁, SameButCounters h h₁ → ∀ p key c w, ElementOf th t p → TakesText p key → Has h₁ c key w → Plain h₁ w
  tests : ∀ h₁, SameButCounters h h₁ → ∀ s key id c w, ElementOf th t ⟨.condition, s⟩ → Target s key id → Has h₁ c key w →
    Plain h₁ w ∨ (∃ a, w = .ptr a ∧ IsDataset h₁ a) ∧ NoCycles h ∧ NoCycles g
  dump : ∀ s, ElementOf th t ⟨.dump, s⟩ → s ≠ b!"dump" ∧ s ≠ b!"list"
  language : k ≠ b!"#"

end Xcore.Template
