import Verif.Proof.TemplateTotal

/-!
# More about rendering: templates without loops, without data, with calls that only go inwards
-/

namespace Xcore.Template

open Xcore.Dataset

variable {x : Ext} {lang : Option Language.Lang}

/-- Without loops memory is not changed. -/
theorem renders_same {sc : List Doc} {job : Job} {σ : Option (List Nat)} {h h' : Heap} {s : Str} (r : Renders x lang sc job σ h h' s) :
    (∀ d ∈ sc, d.All fun p => p.kind ≠ .range) → (∀ l, job = .body l → ∀ p ∈ l, p.kind ≠ .range) → (∀ p, job = .elem p → p.kind ≠ .range) →
    (∀ id n i q, job ≠ .loop id n i q) → h' = h := by
  induction r with
  | @document sc _ _ _ _ _ ih =>
    refine fun hs _ _ _ => ih hs ?_ (by simp) (by simp)
    rintro l ⟨⟩
    cases sc with
    | nil => intro p hp; cases hp
    | cons d up => exact own_all (hs d (by simp))
  | cons _ _ ih1 ih2 =>
    intro hs hb _ _
    rw [ih2 hs (by rintro l ⟨⟩ p hp; exact hb _ rfl p (by simp [hp])) (by simp) (by simp), ih1 hs (by simp) (by rintro p ⟨⟩; exact hb _ rfl _ (by simp)) (by simp)]
  | chosen e _ ih =>
    intro hs _ _ _
    obtain ⟨v, _, e'⟩ := List.exists_of_findSome?_eq_some e
    exact ih (lookup_all hs e').2 (by simp) (by simp) (by simp)
  | reference _ _ _ _ ih => exact fun hs _ _ _ => ih hs (by simp) (by simp) (by simp)
  | referenceWith _ _ _ _ _ ih => exact fun hs _ _ _ => ih hs (by simp) (by simp) (by simp)
  | referenceWithout _ _ _ _ _ ih => exact fun hs _ _ _ => ih hs (by simp) (by simp) (by simp)
  | referenceValue _ _ _ _ ih => exact fun hs _ _ _ => ih hs (by simp) (by simp) (by simp)
  | conditionNone _ _ _ _ ih => exact fun hs _ _ _ => ih hs (by simp) (by simp) (by simp)
  | conditionValue _ _ _ _ _ _ _ ih => exact fun hs _ _ _ => ih hs (by simp) (by simp) (by simp)
  | conditionDataset _ _ _ _ _ _ ih => exact fun hs _ _ _ => ih hs (by simp) (by simp) (by simp)
  | rangeEmpty => exact fun _ _ he _ => absurd rfl (he _ rfl)
  | range => exact fun _ _ he _ => absurd rfl (he _ rfl)
  | loop => exact fun _ _ _ hl => absurd rfl (hl _ _ _ _)
  | loopEnd => exact fun _ _ _ hl => absurd rfl (hl _ _ _ _)
  | _ => exact fun _ _ _ _ => rfl

/-- Without data memory is not changed. -/
theorem renders_nil {sc : List Doc} {job : Job} {σ : Option (List Nat)} {h h' : Heap} {s : Str} (r : Renders x lang sc job σ h h' s) :
    σ = none → h' = h := by
  induction r with
  | document _ ih => exact ih
  | cons _ _ ih1 ih2 => exact fun e => (ih2 e).trans (ih1 e)
  | chosen _ _ ih => exact ih
  | reference _ _ _ _ ih => exact ih
  | conditionNone _ _ _ _ ih => exact ih
  | conditionValue _ _ _ _ _ _ _ ih => exact ih
  | referenceWith | referenceWithout | referenceValue | conditionDataset | rangeEmpty | range | loop => rintro ⟨⟩
  | _ => exact fun _ => rfl

theorem find_size {d b : Doc} {v : Str} (e : d.find v = some b) : sizeOf b < sizeOf d := by
  induction d with
  | nil => cases e
  | elem p r ih => have := ih e; simp only [Doc.elem.sizeOf_spec]; omega
  | box n body r _ ih =>
    simp only [Doc.find] at e
    simp only [Doc.box.sizeOf_spec]
    cases er : r.find v with
    | some b' => rw [er] at e; cases e; have := ih er; omega
    | none =>
      rw [er] at e
      simp only [Option.none_or] at e
      split at e
      · cases e; omega
      · cases e

/-- Calls that only go inwards end. -/
theorem inward_acc {d : Doc} (hd : Inward d) : Acc (fun a b => Calls b a) [d] := by
  suffices h : ∀ n e up, Inside d (e :: up) → sizeOf e < n → Acc (fun a b => Calls b a) (e :: up) from h _ d [] .root (Nat.lt_succ_self _)
  intro n
  induction n with
  | zero => intro e up _ h; omega
  | succ n ih =>
    intro e up hi hn
    refine ⟨_, fun sc' hc => ?_⟩
    obtain ⟨d', up', p, v, e1, hp, hv, hl⟩ := hc
    cases e1
    simp only [lookup] at hl
    cases ef : e.find v with
    | none => rw [ef, hd _ _ hi p hp v hv ef] at hl; cases hl
    | some b =>
      rw [ef] at hl
      cases hl
      exact ih b _ (.box hi ef) (by have := find_size ef; omega)

end Xcore.Template
