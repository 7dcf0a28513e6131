import Verif.Spec.Template

/-! # Families of templates -/

namespace Xcore.Template

/-- A set of templates that belong together: it has with a template also its sub-templates and its father, each template is the father of
its sub-templates, and the fathers come to an end. -/
structure Family (th : THeap) (S : Nat → Prop) : Prop where
  obj : ∀ a, S a → ∃ o, th[a]? = some o ∧ (∀ m, o.subs = some m → m.Nodup) ∧ ∀ f, o.father = some f → S f
  sub : ∀ a v s, S a → Registered th a v = some s → S s ∧ th[s]?.bind Tpl.father = some a
  chain : ∀ a, S a → ∃ l, Chain th a l

/-- The maps of sub-templates have every name once, as every Go map. -/
def SubsNodup (th : THeap) : Prop := ∀ (b : Nat) (o : Tpl) (m : AMap Nat), th[b]? = some o → o.subs = some m → m.Nodup

end Xcore.Template
