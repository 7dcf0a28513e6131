import Verif.Model.V1.TemplateConc
import Verif.Spec.V1.Dataset

/-!
# Specification: goroutines that render with version 1, and others (C113)
-/

namespace Xcore.V1.Template

open Xcore.V1.Dataset

/-- A call of Execute: the template and the data (`none` is nil). -/
structure Task where
  t : Nat
  data : Option Nat
  deriving DecidableEq, Repr

/-- `b` belongs to the data of one of the calls. -/
def InUse (tasks : List Task) (h : Heap) (b : Nat) : Prop := ∃ k ∈ tasks, ∃ a, k.data = some a ∧ Reach h a b

/-- What can happen: a goroutine that renders looks at memory (its next step), or somebody else changes memory in any way, makes new objects or
removes some, but leaves what belongs to the data of the calls as it is. The number counts the steps of the goroutines that render. -/
inductive Goes (tasks : List Task) : Heap × List (Prog Str) → Nat → Heap × List (Prog Str) → Prop where
  | start (c : Heap × List (Prog Str)) : Goes tasks c 0 c
  | turn {c : Heap × List (Prog Str)} {n : Nat} {h : Heap} {ps : List (Prog Str)} {i : Nat} {p p' : Prog Str} :
      Goes tasks c n (h, ps) → ps[i]? = some p → p.step h = some p' → Goes tasks c (n + 1) (h, ps.set i p')
  | other {c : Heap × List (Prog Str)} {n : Nat} {h : Heap} {ps : List (Prog Str)} {h' : Heap} :
      Goes tasks c n (h, ps) → (∀ b, InUse tasks h b → h'[b]? = h[b]?) → Goes tasks c n (h', ps)

end Xcore.V1.Template
