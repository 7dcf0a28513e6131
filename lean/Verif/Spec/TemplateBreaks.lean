import Verif.Spec.TemplateRender

/-!
# Specification of panics during rendering

Rendering panics at two places: at a nil element of a collection that is looped over, and at a reference that takes data when there are none.
`Breaks` says that rendering comes to one of them.
-/

namespace Xcore.Template

open Xcore.Dataset

/-- `BreaksIn own look x lang sc job σ h`: at the place `sc`, with the datasets `σ` and memory `h`, rendering panics. -/
inductive BreaksIn {S : Type} (own : S → List Param) (look : S → Str → Option S) (x : Ext) (lang : Option Language.Lang) :
    S → Job → Option (List Nat) → Heap → Prop where
  -- where it panics
  | nilElement {sc σ h id n i} {l : List (Option Nat)} : BreaksIn own look x lang sc (.loop id n i (none :: l)) (some σ) h
  | dataForReference {sc h d id key} : parts d = [id, key] → look sc id ≠ none → BreaksIn own look x lang sc (.elem ⟨.reference, d⟩) none h
  | dataForValue {sc h d any key pre} : parts d = [any, key, pre] → BreaksIn own look x lang sc (.elem ⟨.reference, d⟩) none h
  -- how it comes there
  | document {sc σ h} : BreaksIn own look x lang sc (.body (own sc)) σ h → BreaksIn own look x lang sc .document σ h
  | head {sc σ h} {p : Param} {l : List Param} : BreaksIn own look x lang sc (.elem p) σ h → BreaksIn own look x lang sc (.body (p :: l)) σ h
  | tail {sc σ h h₁ s} {p : Param} {l : List Param} : RendersIn own look x lang sc (.elem p) σ h h₁ s → BreaksIn own look x lang sc (.body l) σ h₁ →
      BreaksIn own look x lang sc (.body (p :: l)) σ h
  | chosen {sc sc' σ h} {names : List Str} : names.findSome? (look sc) = some sc' → BreaksIn own look x lang sc' .document σ h →
      BreaksIn own look x lang sc (.choose names) σ h
  | reference {sc σ h d id} {rest : List Str} : parts d = id :: rest → rest.length ≠ 1 → rest.length ≠ 2 → BreaksIn own look x lang sc (.choose [id]) σ h →
      BreaksIn own look x lang sc (.elem ⟨.reference, d⟩) σ h
  | referenceWith {sc σ h d id key} {a : Nat} : parts d = [id, key] → look sc id ≠ none → ValueAt h (some σ) key (.ptr a) → IsDataset h a →
      BreaksIn own look x lang sc (.choose [id]) (some (a :: σ)) h → BreaksIn own look x lang sc (.elem ⟨.reference, d⟩) (some σ) h
  | referenceWithout {sc σ h d id key v} : parts d = [id, key] → look sc id ≠ none → ValueAt h (some σ) key v →
      (∀ a, v = .ptr a → ¬ IsDataset h a) → BreaksIn own look x lang sc (.choose [id]) (some σ) h → BreaksIn own look x lang sc (.elem ⟨.reference, d⟩) (some σ) h
  | referenceValue {sc σ h d any key pre v text} : parts d = [any, key, pre] → ValueAt h (some σ) key v → Shows x h v text →
      BreaksIn own look x lang sc (.choose [pre ++ text, pre]) (some σ) h → BreaksIn own look x lang sc (.elem ⟨.reference, d⟩) (some σ) h
  | rangeEmpty {sc σ h d key id v} : Target d key id → look sc id ≠ none → ValueAt h (some σ) key v →
      (∀ c l, v = .ptr c → IsCollection h c l → l = []) → BreaksIn own look x lang sc (.choose [id ++ b!".none", id]) (some σ) h →
      BreaksIn own look x lang sc (.elem ⟨.range, d⟩) (some σ) h
  | range {sc σ h d key id c} {l : List (Option Nat)} : Target d key id → look sc id ≠ none → ValueAt h (some σ) key (.ptr c) →
      IsCollection h c l → BreaksIn own look x lang sc (.loop id l.length 0 l) (some σ) h → BreaksIn own look x lang sc (.elem ⟨.range, d⟩) (some σ) h
  | loopItem {sc σ h h₁ id n} {i a : Nat} {l : List (Option Nat)} : SetCounter h a (i + 1) h₁ →
      BreaksIn own look x lang sc (.choose (rangeNames id i n)) (some (a :: σ)) h₁ → BreaksIn own look x lang sc (.loop id n i (some a :: l)) (some σ) h
  | loopRest {sc σ h h₁ h₂ s id n} {i a : Nat} {l : List (Option Nat)} : SetCounter h a (i + 1) h₁ →
      RendersIn own look x lang sc (.choose (rangeNames id i n)) (some (a :: σ)) h₁ h₂ s → BreaksIn own look x lang sc (.loop id n (i + 1) l) (some σ) h₂ →
      BreaksIn own look x lang sc (.loop id n i (some a :: l)) (some σ) h
  | conditionNone {sc σ h d key id v} : Target d key id → ValueAt h σ key v → Shows x h v [] →
      BreaksIn own look x lang sc (.choose [id ++ b!".none", id]) σ h → BreaksIn own look x lang sc (.elem ⟨.condition, d⟩) σ h
  | conditionValue {sc σ h d key id v text} : Target d key id → ValueAt h σ key v → (∀ a, v = .ptr a → ¬ IsDataset h a) →
      Shows x h v text → text ≠ [] → look sc id ≠ none → BreaksIn own look x lang sc (.choose [id ++ b!"." ++ text, id]) σ h →
      BreaksIn own look x lang sc (.elem ⟨.condition, d⟩) σ h
  | conditionDataset {sc σ h d key id} {a : Nat} : Target d key id → ValueAt h (some σ) key (.ptr a) → IsDataset h a → look sc id ≠ none →
      BreaksIn own look x lang sc (.choose [id ++ b!".array", id]) (some (a :: σ)) h → BreaksIn own look x lang sc (.elem ⟨.condition, d⟩) (some σ) h

/-- `Breaks x lang scope job σ h`: with the documents `scope` (innermost first), the datasets `σ` and memory `h`, rendering panics. -/
abbrev Breaks (x : Ext) (lang : Option Language.Lang) : List Doc → Job → Option (List Nat) → Heap → Prop := BreaksIn innermost lookup x lang

/-- `Execute` panics for a template at the place `sc`. -/
inductive ExecuteBreaksIn {S : Type} (own : S → List Param) (look : S → Str → Option S) (x : Ext) (sc : S) : Option Nat → Heap → Prop where
  | data {a : Nat} {lang : Option Language.Lang} {h : Heap} : LangOf h a lang → BreaksIn own look x lang sc .document (some [a]) h →
      ExecuteBreaksIn own look x sc (some a) h
  | nil {h : Heap} : BreaksIn own look x none sc .document none h → ExecuteBreaksIn own look x sc none h

/-- `Execute` panics for a document. -/
abbrev ExecuteBreaks (x : Ext) (d : Doc) : Option Nat → Heap → Prop := ExecuteBreaksIn innermost lookup x [d]

end Xcore.Template
