import Verif.Spec.Template

/-! # Templates up to comments -/

namespace Xcore.Template

/-- Put a literal text in front. -/
def joinText (t : Str) : List Param → List Param
  | ⟨.string, u⟩ :: l => ⟨.string, t ++ u⟩ :: l
  | l => ⟨.string, t⟩ :: l

/-- Comments dropped, adjacent literal texts joined. -/
def skeleton : List Param → List Param
  | [] => []
  | p :: l => match p.kind with
    | .comment => skeleton l
    | .string => joinText p.data (skeleton l)
    | _ => p :: skeleton l

/-- The source texts of a reading. -/
def sources (l : List (Str × Param)) : Str := (l.map Prod.fst).flatten

/-- The position between `a` and `b` is between two pieces of the reading or inside a literal text. -/
def Cut (l : List (Str × Param)) (a b : Str) : Prop :=
  (∃ l₁ l₂, l = l₁ ++ l₂ ∧ a = sources l₁ ∧ b = sources l₂) ∨
  (∃ l₁ l₂ t₁ t₂, l = l₁ ++ (t₁ ++ t₂, ⟨.string, t₁ ++ t₂⟩) :: l₂ ∧ t₁ ≠ [] ∧ t₂ ≠ [] ∧ a = sources l₁ ++ t₁ ∧ b = t₂ ++ sources l₂)

end Xcore.Template
