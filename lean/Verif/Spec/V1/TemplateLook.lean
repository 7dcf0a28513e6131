import Verif.Spec.V1.TemplateGraph
import Verif.Spec.V1.TemplateNames

/-!
# Specification: templates of version 1 that look the same (C115)

How a template was made does not matter for what it renders. What matters are its elements and what is registered in it under the names that these
elements may choose.
-/

namespace Xcore.V1.Template

/-- `R` pairs templates of two memories (which may be the same) that look the same: both are loaded with the same elements, or neither is loaded; and
under every name that one of these elements may choose, with any data, both have nothing, or both have a template and these are paired again. -/
structure LookTheSame (th th' : THeap) (R : Nat → Nat → Prop) : Prop where
  same : ∀ t t', R t t' → ∃ o o', th[t]? = some o ∧ th'[t']? = some o' ∧ o.root = o'.root
  names : ∀ t t' p v, R t t' → p ∈ elements th t → Names p v →
    (getTemplate th t v = none ∧ getTemplate th' t' v = none) ∨
    ∃ c c', getTemplate th t v = some c ∧ getTemplate th' t' v = some c' ∧ R c c'

end Xcore.V1.Template
