import Verif.Proof.TemplateFrame
import Verif.Proof.TemplatePage
import Verif.Spec.TemplateLook

namespace Xcore.Template

open Xcore.Dataset

theorem LookTheSame.sim {th th' : THeap} {R : Nat → Nat → Prop} (hl : LookTheSame th th' R) : Sim th th' R := by
  refine ⟨fun t t' h => ?_, fun t t' o root p h e er hp v hv => ?_⟩
  · obtain ⟨o, o', e, e', q⟩ := hl.same t t' h
    rw [e, e', Option.map_some, Option.map_some, q]
  · have : p ∈ elements th t := by simp only [elements, e, Option.bind_some, er]; exact hp
    rcases hl.names t t' p v h this hv with ⟨q, q'⟩ | ⟨c, c', q, q', r⟩
    · rw [q, q']; exact .ok .none
    · rw [q, q']; exact .ok (.some r)

theorem InScope.innermost_root {th : THeap} {t : Nat} {sc : List Doc} (h : InScope th t sc) : ∃ o, th[t]? = some o ∧ o.root = some (innermost sc) := by
  cases h with
  | top e _ c => obtain ⟨o, _, e', r, _⟩ := c; exact ⟨o, e', r⟩
  | sub _ e _ c => obtain ⟨o, _, e', r, _⟩ := c; exact ⟨o, e', r⟩

/-- Places that are the same give templates that look the same. -/
theorem PlacesTheSame.look {R : List Doc → List Doc → Prop} (hr : PlacesTheSame R) (th th' : THeap) :
    LookTheSame th th' fun t t' => ∃ sc sc', InScope th t sc ∧ InScope th' t' sc' ∧ R sc sc' := by
  refine ⟨fun t t' ⟨sc, sc', i, i', h⟩ => ?_, fun t t' p v ⟨sc, sc', i, i', h⟩ hp hv => ?_⟩
  · obtain ⟨o, e, q⟩ := i.innermost_root
    obtain ⟨o', e', q'⟩ := i'.innermost_root
    exact ⟨o, o', e, e', by rw [q, q', hr.same sc sc' h]⟩
  · have : p ∈ innermost sc := by
      obtain ⟨o, e, q⟩ := i.innermost_root
      simpa only [Template.elements, e, Option.bind_some, q] using hp
    have l := i.lookup v
    have l' := i'.lookup v
    rcases hr.names sc sc' p v h this hv with ⟨q, q'⟩ | ⟨to, to', q, q', r⟩
    · rw [q] at l
      rw [q'] at l'
      exact Or.inl ⟨l, l'⟩
    · rw [q] at l
      rw [q'] at l'
      obtain ⟨c, g, j⟩ := l
      obtain ⟨c', g', j'⟩ := l'
      exact Or.inr ⟨c, c', g, g', to, to', j, j', r⟩

/-- What a name means does not depend on where boxes stand in the outermost document. -/
theorem lookup_last {d d' : Doc} (hf : ∀ v, d.find v = d'.find v) (v : Str) : ∀ l : List Doc,
    (lookup (l ++ [d]) v = none ∧ lookup (l ++ [d']) v = none) ∨ ∃ m, lookup (l ++ [d]) v = some (m ++ [d]) ∧ lookup (l ++ [d']) v = some (m ++ [d']) := by
  intro l
  induction l with
  | nil =>
    simp only [List.nil_append, lookup, ← hf v]
    cases d.find v with
    | none => exact Or.inl ⟨rfl, rfl⟩
    | some b => exact Or.inr ⟨[b], rfl, rfl⟩
  | cons e l ih =>
    simp only [List.cons_append, lookup]
    cases e.find v with
    | none => exact ih
    | some b => exact Or.inr ⟨b :: e :: l, rfl, rfl⟩

theorem places_moved {d d' : Doc} (ho : d.own = d'.own) (hf : ∀ v, d.find v = d'.find v) :
    PlacesTheSame fun sc sc' => ∃ l, sc = l ++ [d] ∧ sc' = l ++ [d'] := by
  refine ⟨?_, ?_⟩
  · rintro _ _ ⟨l, rfl, rfl⟩
    cases l with
    | nil => exact ho
    | cons => rfl
  · rintro _ _ p v ⟨l, rfl, rfl⟩ _ _
    rcases lookup_last hf v l with q | ⟨m, q, q'⟩
    · exact Or.inl q
    · exact Or.inr ⟨_, _, q, q', m, rfl, rfl⟩

end Xcore.Template
