import Verif.Spec.TemplateRender

/-!
# Specification of rendering without end

Rendering can only go on for ever in two ways: a value is to be printed that has no text (its data contain themselves), or each sub-template that is
rendered has a further sub-template rendered inside.
-/

namespace Xcore.Template

open Xcore.Dataset

/-- `GoesOnIn own look x lang P sc job σ h`: at the place `sc`, with the datasets `σ` and memory `h`, rendering comes to a value without text, or to the
rendering of a document at a place, with datasets and memory, in `P`. -/
inductive GoesOnIn {S : Type} (own : S → List Param) (look : S → Str → Option S) (x : Ext) (lang : Option Language.Lang)
    (P : S → Option (List Nat) → Heap → Prop) : S → Job → Option (List Nat) → Heap → Prop where
  -- a further document
  | chosen {sc sc' σ h} {names : List Str} : names.findSome? (look sc) = some sc' → P sc' σ h → GoesOnIn own look x lang P sc (.choose names) σ h
  -- a value without text
  | «variable» {sc σ h d v} : ValueAt h σ d v → (∀ s, ¬ Shows x h v s) → GoesOnIn own look x lang P sc (.elem ⟨.variable, d⟩) σ h
  | dump {sc σ h d} {a t : Nat} : (d = b!"dump" ∨ d = b!"list") → σ.getLast? = some a → Wraps h a t → (∀ n s, ¬ GoPrints x n h (.ptr t) s) →
      GoesOnIn own look x lang P sc (.elem ⟨.dump, d⟩) (some σ) h
  | referenceText {sc σ h d any key pre v} : parts d = [any, key, pre] → ValueAt h (some σ) key v → (∀ s, ¬ Shows x h v s) →
      GoesOnIn own look x lang P sc (.elem ⟨.reference, d⟩) (some σ) h
  | conditionText {sc σ h d key id v} : Target d key id → ValueAt h σ key v → (∀ s, ¬ Shows x h v s) →
      (look sc id = none ∨ ∀ a, v = .ptr a → ¬ IsDataset h a) → GoesOnIn own look x lang P sc (.elem ⟨.condition, d⟩) σ h
  | conditionDatasetText {sc σ h h' s d key id} {a : Nat} : Target d key id → ValueAt h (some σ) key (.ptr a) → IsDataset h a → look sc id ≠ none →
      RendersIn own look x lang sc (.choose [id ++ b!".array", id]) (some (a :: σ)) h h' s → (∀ text, ¬ Shows x h' (.ptr a) text) →
      GoesOnIn own look x lang P sc (.elem ⟨.condition, d⟩) (some σ) h
  -- how it comes there
  | document {sc σ h} : GoesOnIn own look x lang P sc (.body (own sc)) σ h → GoesOnIn own look x lang P sc .document σ h
  | head {sc σ h} {p : Param} {l : List Param} : GoesOnIn own look x lang P sc (.elem p) σ h → GoesOnIn own look x lang P sc (.body (p :: l)) σ h
  | tail {sc σ h h₁ s} {p : Param} {l : List Param} : RendersIn own look x lang sc (.elem p) σ h h₁ s → GoesOnIn own look x lang P sc (.body l) σ h₁ →
      GoesOnIn own look x lang P sc (.body (p :: l)) σ h
  | reference {sc σ h d id} {rest : List Str} : parts d = id :: rest → rest.length ≠ 1 → rest.length ≠ 2 → GoesOnIn own look x lang P sc (.choose [id]) σ h →
      GoesOnIn own look x lang P sc (.elem ⟨.reference, d⟩) σ h
  | referenceWith {sc σ h d id key} {a : Nat} : parts d = [id, key] → look sc id ≠ none → ValueAt h (some σ) key (.ptr a) → IsDataset h a →
      GoesOnIn own look x lang P sc (.choose [id]) (some (a :: σ)) h → GoesOnIn own look x lang P sc (.elem ⟨.reference, d⟩) (some σ) h
  | referenceWithout {sc σ h d id key v} : parts d = [id, key] → look sc id ≠ none → ValueAt h (some σ) key v →
      (∀ a, v = .ptr a → ¬ IsDataset h a) → GoesOnIn own look x lang P sc (.choose [id]) (some σ) h →
      GoesOnIn own look x lang P sc (.elem ⟨.reference, d⟩) (some σ) h
  | referenceValue {sc σ h d any key pre v text} : parts d = [any, key, pre] → ValueAt h (some σ) key v → Shows x h v text →
      GoesOnIn own look x lang P sc (.choose [pre ++ text, pre]) (some σ) h → GoesOnIn own look x lang P sc (.elem ⟨.reference, d⟩) (some σ) h
  | rangeEmpty {sc σ h d key id v} : Target d key id → look sc id ≠ none → ValueAt h (some σ) key v →
      (∀ c l, v = .ptr c → IsCollection h c l → l = []) → GoesOnIn own look x lang P sc (.choose [id ++ b!".none", id]) (some σ) h →
      GoesOnIn own look x lang P sc (.elem ⟨.range, d⟩) (some σ) h
  | range {sc σ h d key id c} {l : List (Option Nat)} : Target d key id → look sc id ≠ none → ValueAt h (some σ) key (.ptr c) →
      IsCollection h c l → GoesOnIn own look x lang P sc (.loop id l.length 0 l) (some σ) h → GoesOnIn own look x lang P sc (.elem ⟨.range, d⟩) (some σ) h
  | loopItem {sc σ h h₁ id n} {i a : Nat} {l : List (Option Nat)} : SetCounter h a (i + 1) h₁ →
      GoesOnIn own look x lang P sc (.choose (rangeNames id i n)) (some (a :: σ)) h₁ → GoesOnIn own look x lang P sc (.loop id n i (some a :: l)) (some σ) h
  | loopRest {sc σ h h₁ h₂ s id n} {i a : Nat} {l : List (Option Nat)} : SetCounter h a (i + 1) h₁ →
      RendersIn own look x lang sc (.choose (rangeNames id i n)) (some (a :: σ)) h₁ h₂ s → GoesOnIn own look x lang P sc (.loop id n (i + 1) l) (some σ) h₂ →
      GoesOnIn own look x lang P sc (.loop id n i (some a :: l)) (some σ) h
  | conditionNone {sc σ h d key id v} : Target d key id → ValueAt h σ key v → Shows x h v [] →
      GoesOnIn own look x lang P sc (.choose [id ++ b!".none", id]) σ h → GoesOnIn own look x lang P sc (.elem ⟨.condition, d⟩) σ h
  | conditionValue {sc σ h d key id v text} : Target d key id → ValueAt h σ key v → (∀ a, v = .ptr a → ¬ IsDataset h a) →
      Shows x h v text → text ≠ [] → look sc id ≠ none → GoesOnIn own look x lang P sc (.choose [id ++ b!"." ++ text, id]) σ h →
      GoesOnIn own look x lang P sc (.elem ⟨.condition, d⟩) σ h
  | conditionDataset {sc σ h d key id} {a : Nat} : Target d key id → ValueAt h (some σ) key (.ptr a) → IsDataset h a → look sc id ≠ none →
      GoesOnIn own look x lang P sc (.choose [id ++ b!".array", id]) (some (a :: σ)) h → GoesOnIn own look x lang P sc (.elem ⟨.condition, d⟩) (some σ) h

/-- Rendering the document at the place `sc` never ends: it belongs to a set of renderings each of which comes to a value without text or to another of
the set. -/
def EndlessIn {S : Type} (own : S → List Param) (look : S → Str → Option S) (x : Ext) (lang : Option Language.Lang) (sc : S) (σ : Option (List Nat))
    (h : Heap) : Prop :=
  ∃ P : S → Option (List Nat) → Heap → Prop, P sc σ h ∧ ∀ sc σ h, P sc σ h → GoesOnIn own look x lang P sc .document σ h

/-- `Execute` never ends for a template at the place `sc`. -/
inductive ExecuteEndlessIn {S : Type} (own : S → List Param) (look : S → Str → Option S) (x : Ext) (sc : S) : Option Nat → Heap → Prop where
  | data {a : Nat} {lang : Option Language.Lang} {h : Heap} : LangOf h a lang → EndlessIn own look x lang sc (some [a]) h →
      ExecuteEndlessIn own look x sc (some a) h
  | nil {h : Heap} : EndlessIn own look x none sc none h → ExecuteEndlessIn own look x sc none h

/-- `Execute` never ends for a document. -/
abbrev ExecuteEndless (x : Ext) (d : Doc) : Option Nat → Heap → Prop := ExecuteEndlessIn innermost lookup x [d]

end Xcore.Template
