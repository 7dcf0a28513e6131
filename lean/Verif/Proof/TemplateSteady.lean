import Verif.Proof.TemplatePage
import Verif.Proof.TemplateAgain

/-!
# The page of the examples reads no old counters
-/

namespace Xcore.Template

open Xcore.Dataset

/-- The boxes of the page. -/
def pageRow : Doc := .elem ⟨.string, b!"<"⟩ <| .elem ⟨.variable, b!".counter"⟩ <| .elem ⟨.string, b!":"⟩ <| .elem ⟨.variable, b!"n"⟩ <| .elem ⟨.string, b!">"⟩ .nil
def pageLast : Doc := .elem ⟨.string, b!"<last "⟩ <| .elem ⟨.variable, b!"n"⟩ <| .elem ⟨.string, b!">"⟩ .nil
def pageWho : Doc := .elem ⟨.variable, b!"name"⟩ .nil
def pageFoot : Doc := .elem ⟨.string, b!"end "⟩ <| .elem ⟨.variable, b!"title"⟩ .nil

theorem page_value {σ : List Nat} (hr : Ready page (some σ)) {a : Nat} {τ : List Nat} (hσ : σ = a :: τ) {key : Str} {w : Val} {m : AMap Val}
    (hs : split 62 key = [key]) (hm : page[a]? = some (.ds m)) (hg : m.get key = some w) {v : Val} (hv : ValueAt page (some σ) key v) : v = w := by
  subst hσ
  exact valueAt_unique hr hv (.here (by unfold Has; rw [hs]; exact .entry ⟨a, m, .plain hm, hm, hg⟩))

theorem page_ready_row {b : Nat} (hb : b = 2 ∨ b = 3 ∨ b = 5) : Ready page (some [b, 0]) := by
  refine page_proper.ready.push ?_
  rcases hb with rfl | rfl | rfl <;> exact Or.inl ⟨_, rfl⟩

/-- What the rendering of the page comes to. -/
theorem page_visits {sc : List Doc} {σ : List Nat} {row : Bool} (v : Visits pageExt pageDoc page 0 sc σ row) :
    (sc = [pageDoc] ∧ σ = [0] ∧ row = false) ∨ (sc = [pageRow, pageDoc] ∧ σ = [2, 0] ∧ row = true) ∨ (sc = [pageRow, pageDoc] ∧ σ = [5, 0] ∧ row = true) ∨
    (sc = [pageLast, pageDoc] ∧ (σ = [2, 0] ∨ σ = [5, 0])) ∨ (sc = [pageWho, pageDoc] ∧ σ = [3, 0]) ∨ (sc = [pageFoot, pageDoc] ∧ σ = [0]) := by
  have inner : ∀ {e : Doc} {up : List Doc} {σ : List Nat} {row : Bool} {k : Kind} {t : Str}, k = .reference ∨ k = .range ∨ k = .condition →
      (e :: up = [pageDoc] ∧ σ = [0] ∧ row = false) ∨ (e :: up = [pageRow, pageDoc] ∧ σ = [2, 0] ∧ row = true) ∨
      (e :: up = [pageRow, pageDoc] ∧ σ = [5, 0] ∧ row = true) ∨ (e :: up = [pageLast, pageDoc] ∧ (σ = [2, 0] ∨ σ = [5, 0])) ∨
      (e :: up = [pageWho, pageDoc] ∧ σ = [3, 0]) ∨ (e :: up = [pageFoot, pageDoc] ∧ σ = [0]) → ⟨k, t⟩ ∈ e.own →
      e = pageDoc ∧ up = [] ∧ σ = [0] ∧ row = false ∧ (k = .reference ∧ t = b!"foot" ∨ k = .range ∧ t = b!"rows:row" ∨ k = .condition ∧ t = b!"user:who") := by
    intro e up σ row k t hk h hm
    rcases h with ⟨h, h1, h2⟩ | ⟨h, _⟩ | ⟨h, _⟩ | ⟨h, _⟩ | ⟨h, _⟩ | ⟨h, _⟩ <;> cases h
    · refine ⟨rfl, rfl, h1, h2, ?_⟩
      simp [pageDoc, Doc.own] at hm
      rcases hk with rfl | rfl | rfl <;> simp at hm <;> simp [hm]
    all_goals
      simp [pageRow, pageLast, pageWho, pageFoot, Doc.own] at hm
      rcases hk with rfl | rfl | rfl <;> simp at hm
  have t1 : Target b!"rows:row" b!"rows" b!"row" := Or.inr ⟨[], by decide⟩
  have t2 : Target b!"user:who" b!"user" b!"who" := Or.inr ⟨[], by decide⟩
  have v1 : ∀ {v : Val}, ValueAt page (some [0]) b!"rows" v → v = .ptr 1 := fun hv => page_value page_proper.ready rfl (by decide) rfl (by decide) hv
  have v2 : ∀ {v : Val}, ValueAt page (some [0]) b!"user" v → v = .ptr 3 := fun hv => page_value page_proper.ready rfl (by decide) rfl (by decide) hv
  have hc : IsCollection page 1 [some 2, some 5] := Or.inl rfl
  have hd : IsDataset page 3 := Or.inl ⟨_, rfl⟩
  induction v with
  | root => exact Or.inl ⟨rfl, rfl, rfl⟩
  | reference _ hm hp _ _ he ih =>
    obtain ⟨rfl, rfl, rfl, rfl, h | h | h⟩ := inner (Or.inl rfl) ih hm <;> cases h.1
    rw [h.2, show parts b!"foot" = [b!"foot"] by decide] at hp
    cases hp
    rw [show [b!"foot"].findSome? (lookup [pageDoc]) = some [pageFoot, pageDoc] by decide +kernel] at he
    cases he
    simp
  | referenceWith _ hm hp =>
    rename_i ih
    obtain ⟨rfl, rfl, rfl, rfl, h | h | h⟩ := inner (Or.inl rfl) ih hm <;> cases h.1
    rw [h.2, show parts b!"foot" = [b!"foot"] by decide] at hp
    cases hp
  | referenceWithout _ hm hp =>
    rename_i ih
    obtain ⟨rfl, rfl, rfl, rfl, h | h | h⟩ := inner (Or.inl rfl) ih hm <;> cases h.1
    rw [h.2, show parts b!"foot" = [b!"foot"] by decide] at hp
    cases hp
  | referenceValue _ hm hp =>
    rename_i ih
    obtain ⟨rfl, rfl, rfl, rfl, h | h | h⟩ := inner (Or.inl rfl) ih hm <;> cases h.1
    rw [h.2, show parts b!"foot" = [b!"foot"] by decide] at hp
    cases hp
  | rangeEmpty _ hm ht hv hn _ ih =>
    obtain ⟨rfl, rfl, rfl, rfl, h | h | h⟩ := inner (Or.inr (Or.inl rfl)) ih hm <;> cases h.1
    rw [h.2] at ht
    obtain ⟨rfl, rfl⟩ := target_unique t1 ht
    cases hn 1 _ (v1 hv) hc
  | @range e up sc σ row t key id c b i l _ hm ht hv hcl hi he ih =>
    obtain ⟨rfl, rfl, rfl, rfl, h | h | h⟩ := inner (Or.inr (Or.inl rfl)) ih hm <;> cases h.1
    rw [h.2] at ht
    obtain ⟨rfl, rfl⟩ := target_unique t1 ht
    have e1 := v1 hv
    cases e1
    have hl : l = [some 2, some 5] := by rcases hcl with q | q <;> cases q; rfl
    subst hl
    match i, hi with
    | 0, hi =>
      cases hi
      rw [show (rangeNames b!"row" 0 [some 2, some 5].length).findSome? (lookup [pageDoc]) = some [pageRow, pageDoc] by decide +kernel] at he
      cases he
      simp
    | 1, hi =>
      cases hi
      rw [show (rangeNames b!"row" 1 [some 2, some 5].length).findSome? (lookup [pageDoc]) = some [pageLast, pageDoc] by decide +kernel] at he
      cases he
      simp
    | (i + 2), hi => simp at hi
  | conditionNone _ hm ht hv hsh _ ih =>
    obtain ⟨rfl, rfl, rfl, rfl, h | h | h⟩ := inner (Or.inr (Or.inr rfl)) ih hm <;> cases h.1
    rw [h.2] at ht
    obtain ⟨rfl, rfl⟩ := target_unique t2 ht
    have e1 := v2 hv
    cases e1
    exact absurd rfl (shows_dataset_ne page_proper.wf hd hsh)
  | conditionValue _ hm ht hv hnd _ _ ih =>
    obtain ⟨rfl, rfl, rfl, rfl, h | h | h⟩ := inner (Or.inr (Or.inr rfl)) ih hm <;> cases h.1
    rw [h.2] at ht
    obtain ⟨rfl, rfl⟩ := target_unique t2 ht
    exact absurd hd (hnd 3 (v2 hv))
  | conditionDataset _ hm ht hv _ he ih =>
    obtain ⟨rfl, rfl, rfl, rfl, h | h | h⟩ := inner (Or.inr (Or.inr rfl)) ih hm <;> cases h.1
    rw [h.2] at ht
    obtain ⟨rfl, rfl⟩ := target_unique t2 ht
    have e1 := v2 hv
    cases e1
    rw [show [b!"who" ++ b!".array", b!"who"].findSome? (lookup [pageDoc]) = some [pageWho, pageDoc] by decide +kernel] at he
    cases he
    simp

theorem page_steady : Steady pageExt pageDoc page 0 := by
  have none : ∀ {σ : List Nat} {row : Bool} {k : Kind} {t : Str}, k = .string ∨ k = .language → IgnoresOldCounters page σ row ⟨k, t⟩ := by
    rintro σ row k t (rfl | rfl) <;> exact .noData (by simp) (by simp) (by simp) (by simp) (by simp)
  have text : ∀ {σ : List Nat} {row : Bool} {key : Str} {a : Nat} {τ : List Nat} {m : AMap Val} {s : Str}, Ready page (some σ) → σ = a :: τ →
      split 62 key = [key] → b!".counter" ≠ key → page[a]? = some (.ds m) → m.get key = some (.str s) → IgnoresOldCounters page σ row ⟨.variable, key⟩ := by
    intro σ row key a τ m s hr hσ hs hne hm hg
    refine .variable (by unfold NoCounter; rw [hs]; simpa using hne) fun v hv => ?_
    rw [page_value hr hσ hs hm hg hv]
    intro b e; cases e
  intro e up σ row v p hp
  rcases page_visits v with ⟨h, rfl, rfl⟩ | ⟨h, rfl, rfl⟩ | ⟨h, rfl, rfl⟩ | ⟨h, h1⟩ | ⟨h, rfl⟩ | ⟨h, rfl⟩ <;> cases h
  · simp only [pageDoc, Doc.own, List.mem_cons, List.not_mem_nil, or_false] at hp
    rcases hp with rfl | rfl | rfl | rfl | rfl | rfl | rfl | rfl
    · exact none (by simp)
    · exact text page_proper.ready rfl (by decide) (by decide) rfl (s := b!"{{user}}") (by decide)
    · exact none (by simp)
    · exact none (by simp)
    · exact none (by simp)
    · exact .range (Or.inr ⟨[], by decide⟩ : Target b!"rows:row" b!"rows" b!"row") (by unfold NoCounter; decide)
    · refine .condition (Or.inr ⟨[], by decide⟩ : Target b!"user:who" b!"user" b!"who") (by unfold NoCounter; decide) fun c l hv hc => ?_
      have e1 := page_value page_proper.ready rfl (by decide) rfl (w := .ptr 3) (by decide) hv
      cases e1
      rcases hc with q | q <;> cases q
    · exact .reference (by decide) (by decide)
  · simp only [pageRow, Doc.own, List.mem_cons, List.not_mem_nil, or_false] at hp
    rcases hp with rfl | rfl | rfl | rfl | rfl
    · exact none (by simp)
    · exact .counter rfl
    · exact none (by simp)
    · exact text (page_ready_row (by simp)) rfl (by decide) (by decide) rfl (s := b!"one") (by decide)
    · exact none (by simp)
  · simp only [pageRow, Doc.own, List.mem_cons, List.not_mem_nil, or_false] at hp
    rcases hp with rfl | rfl | rfl | rfl | rfl
    · exact none (by simp)
    · exact .counter rfl
    · exact none (by simp)
    · exact text (page_ready_row (by simp)) rfl (by decide) (by decide) rfl (s := b!"two") (by decide)
    · exact none (by simp)
  · simp only [pageLast, Doc.own, List.mem_cons, List.not_mem_nil, or_false] at hp
    rcases h1 with rfl | rfl <;> rcases hp with rfl | rfl | rfl
    · exact none (by simp)
    · exact text (page_ready_row (by simp)) rfl (by decide) (by decide) rfl (s := b!"one") (by decide)
    · exact none (by simp)
    · exact none (by simp)
    · exact text (page_ready_row (by simp)) rfl (by decide) (by decide) rfl (s := b!"two") (by decide)
    · exact none (by simp)
  · simp only [pageWho, Doc.own, List.mem_cons, List.not_mem_nil, or_false] at hp
    subst hp
    exact text (page_ready_row (by simp)) rfl (by decide) (by decide) rfl (s := b!"Ann") (by decide)
  · simp only [pageFoot, Doc.own, List.mem_cons, List.not_mem_nil, or_false] at hp
    rcases hp with rfl | rfl
    · exact none (by simp)
    · exact text page_proper.ready rfl (by decide) (by decide) rfl (s := b!"{{user}}") (by decide)

end Xcore.Template
