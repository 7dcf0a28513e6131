import Verif.Spec.DatasetClone
import Verif.Model.TemplateConc

/-!
# Specification: goroutines that render data without common rows (C114)
-/

namespace Xcore.Template

open Xcore.Dataset

/-- A call of `Execute`: the template and the data (`none` is nil). -/
structure Rendering where
  t : Nat
  data : Option Nat
  deriving DecidableEq, Repr

/-- Object `b` belongs to the data of the call. -/
def Rendering.Has (h : Heap) (k : Rendering) (b : Nat) : Prop := ∃ a, k.data = some a ∧ Reach h a b

/-- Dataset `b` is a row of a collection of the data, or the dataset behind a thread-safe row. -/
def Rendering.Row (h : Heap) (k : Rendering) (b : Nat) : Prop := ∃ c l e, k.Has h c ∧ IsCollection h c l ∧ some e ∈ l ∧ Wraps h e b

/-- The rows in the data of one call do not belong to the data of another one: the data may have parts in common, but no rows. -/
def RowsApart (h : Heap) (rs : List Rendering) : Prop :=
  ∀ (i j : Nat) (k k' : Rendering), i ≠ j → rs[i]? = some k → rs[j]? = some k' → ∀ b, k.Row h b → ¬ k'.Has h b

/-- The goroutines of the renderings have taken `m` steps, in any order, and meanwhile others have changed objects that do not belong to the data of
any rendering. (The objects others will create are there from the start: memory has as many objects as it will have.) -/
inductive Among (h : Heap) (rs : List Rendering) (c0 : Heap × List (Prog Str)) : Nat → Heap × List (Prog Str) → Prop where
  | start : Among h rs c0 0 c0
  | turn {m i : Nat} {c c' : Heap × List (Prog Str)} : Among h rs c0 m c → stepAt i c = some c' → Among h rs c0 (m + 1) c'
  | other {m : Nat} {g g' : Heap} {ps : List (Prog Str)} : Among h rs c0 m (g, ps) → g'.length = g.length →
      (∀ k ∈ rs, ∀ b, k.Has h b → g'[b]? = g[b]?) → Among h rs c0 m (g', ps)

end Xcore.Template
