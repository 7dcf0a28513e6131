import Verif.Spec.V1.Template

/-!
# Specification: the names that matter in a template of version 1 (C115)
-/

namespace Xcore.V1.Template

open Xcore.Template (Param Doc parts Target rangeNames)

/-- The element may choose the sub-template of this name, with some data. -/
inductive Names : Param → Str → Prop where
  | reference {s id : Str} {rest : List Str} : parts s = id :: rest → rest.length ≠ 2 → Names ⟨.reference, s⟩ id
  | referenceValue {s any key pre text : Str} : parts s = [any, key, pre] → Names ⟨.reference, s⟩ (pre ++ text)
  | range {s key id : Str} : Target s key id → Names ⟨.range, s⟩ id
  | rangeNone {s key id : Str} : Target s key id → Names ⟨.range, s⟩ (id ++ b!".none")
  | rangeItem {s key id v : Str} {i n : Nat} : Target s key id → v ∈ rangeNames id i n → Names ⟨.range, s⟩ v
  | condition {s key id : Str} : Target s key id → Names ⟨.condition, s⟩ id
  | conditionValue {s key id text : Str} : Target s key id → text ≠ [] → Names ⟨.condition, s⟩ (id ++ b!"." ++ text)

/-- An element that stands directly in the document names it. -/
def NamedIn (d : Doc) (v : Str) : Prop := ∃ p ∈ d.own, Names p v

/-- The documents have the same elements, and for each name that one of these elements may choose, both have a box or none, and the boxes are alike.
What other boxes there are, and what is in them, is left open. -/
inductive Alike : Doc → Doc → Prop where
  | mk {d d' : Doc} (box : Str → Doc) : d.own = d'.own → (∀ v, NamedIn d v → (d.find v = none ↔ d'.find v = none)) →
      (∀ v b, NamedIn d v → d.find v = some b → d'.find v = some (box v)) → (∀ v b, NamedIn d v → d.find v = some b → Alike b (box v)) → Alike d d'

end Xcore.V1.Template
