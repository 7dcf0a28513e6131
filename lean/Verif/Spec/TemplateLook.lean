import Verif.Spec.TemplateGraph
import Verif.Spec.TemplateRender

/-!
# Specification: templates that look the same (C116)

How a template was made does not matter for what it renders. What matters are its elements and what it sees under the names that these elements may
choose.
-/

namespace Xcore.Template

/-- `R` pairs templates of two memories (which may be the same) that look the same: both are loaded with the same elements, or neither is loaded; and
under every name that one of these elements may choose, with any data, both see nothing, or both see a template and these are paired again. -/
structure LookTheSame (th th' : THeap) (R : Nat → Nat → Prop) : Prop where
  same : ∀ t t', R t t' → ∃ o o', th[t]? = some o ∧ th'[t']? = some o' ∧ o.root = o'.root
  names : ∀ t t' p v, R t t' → p ∈ elements th t → Names p v →
    (getTemplate th t v = .ok none ∧ getTemplate th' t' v = .ok none) ∨
    ∃ c c', getTemplate th t v = .ok (some c) ∧ getTemplate th' t' v = .ok (some c') ∧ R c c'

/-- The same for the documents that texts mean: `R` pairs places (a document and those around it). -/
structure PlacesTheSame (R : List Doc → List Doc → Prop) : Prop where
  same : ∀ sc sc', R sc sc' → innermost sc = innermost sc'
  names : ∀ sc sc' p v, R sc sc' → p ∈ innermost sc → Names p v →
    (lookup sc v = none ∧ lookup sc' v = none) ∨ ∃ to to', lookup sc v = some to ∧ lookup sc' v = some to' ∧ R to to'

end Xcore.Template
