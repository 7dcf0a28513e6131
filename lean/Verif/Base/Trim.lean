import Verif.Base.StrLemmas

/-!
# What strings.TrimSpace does

`Trimmed s t` says in so many words that `t` is `s` without its leading and trailing white space; `trimSpace_iff` shows that the
model of `strings.TrimSpace` computes exactly that.
-/

namespace Xcore

/-- A (possibly empty) sequence of encodings taken from `ps`. -/
inductive Star (ps : List Str) : Str → Prop where
  | nil : Star ps []
  | cons {p s : Str} (hp : p ∈ ps) (hs : Star ps s) : Star ps (p ++ s)

/-- A string made only of white space. -/
abbrev Blank (s : Str) : Prop := Star spaceRunes s

/-- `t` is `s` without leading and trailing white space. -/
def Trimmed (s t : Str) : Prop :=
  ∃ a b, s = a ++ t ++ b ∧ Blank a ∧ Blank b ∧
    (∀ p ∈ spaceRunes, ¬ p <+: t) ∧ (∀ p ∈ spaceRunes, ¬ p <:+ t)

theorem Star.append {ps : List Str} {a b : Str} (ha : Star ps a) (hb : Star ps b) : Star ps (a ++ b) := by
  induction ha with
  | nil => exact hb
  | cons hp _ ih => rw [List.append_assoc]; exact .cons hp ih

theorem Star.reverse {ps : List Str} {a : Str} (ha : Star ps a) : Star (ps.map List.reverse) a.reverse := by
  induction ha with
  | nil => exact .nil
  | @cons p s hp _ ih =>
    rw [List.reverse_append]
    refine ih.append ?_
    have : Star (ps.map List.reverse) (p.reverse ++ []) := .cons (List.mem_map_of_mem hp) .nil
    simpa using this

theorem stripOne_some {ps : List Str} {s r : Str} (h : stripOne ps s = some r) : ∃ p ∈ ps, s = p ++ r := by
  induction ps with
  | nil => simp [stripOne] at h
  | cons p ps ih =>
    simp only [stripOne] at h
    split at h
    · rename_i hp
      simp only [Option.some.injEq] at h
      subst h
      refine ⟨p, by simp, ?_⟩
      obtain ⟨t, rfl⟩ := List.isPrefixOf_iff_prefix.1 hp
      simp
    · obtain ⟨q, hq, e⟩ := ih h
      exact ⟨q, by simp [hq], e⟩

theorem stripOne_none {ps : List Str} {s : Str} : stripOne ps s = none ↔ ∀ p ∈ ps, ¬ p <+: s := by
  induction ps with
  | nil => simp [stripOne]
  | cons p ps ih =>
    simp only [stripOne]
    split
    · rename_i hp
      simp only [reduceCtorEq, false_iff]
      intro h
      exact h p (by simp) (List.isPrefixOf_iff_prefix.1 hp)
    · rename_i hp
      rw [ih]
      constructor
      · intro h q hq
        rcases List.mem_cons.1 hq with rfl | hq
        · exact fun e => hp (List.isPrefixOf_iff_prefix.2 e)
        · exact h q hq
      · intro h q hq; exact h q (by simp [hq])

/-- No encoding is empty and none is a prefix of another. -/
structure PrefixFree (ps : List Str) : Prop where
  ne : ∀ p ∈ ps, p ≠ []
  free : ∀ p ∈ ps, ∀ q ∈ ps, p <+: q → p = q

theorem stripOne_append {ps : List Str} (hf : PrefixFree ps) {p r : Str} (hp : p ∈ ps) : stripOne ps (p ++ r) = some r := by
  cases h : stripOne ps (p ++ r) with
  | none => exact absurd (List.prefix_append p r) (stripOne_none.1 h p hp)
  | some r' =>
    obtain ⟨q, hq, e⟩ := stripOne_some h
    have hqp : q = p := by
      rcases List.prefix_or_prefix_of_prefix (List.prefix_append p r) (e ▸ List.prefix_append q r') with h1 | h1
      · exact (hf.free p hp q hq h1).symm
      · exact hf.free q hq p hp h1
    subst hqp
    rw [List.append_cancel_left e]

theorem stripMany_spec {ps : List Str} (hne : ∀ p ∈ ps, p ≠ []) (fuel : Nat) (s : Str) (hf : s.length ≤ fuel) :
    ∃ a, s = a ++ stripMany ps fuel s ∧ Star ps a ∧ ∀ p ∈ ps, ¬ p <+: stripMany ps fuel s := by
  induction fuel generalizing s with
  | zero =>
    have : s = [] := List.eq_nil_of_length_eq_zero (by omega)
    subst this
    refine ⟨[], rfl, .nil, ?_⟩
    intro p hp h
    exact hne p hp (List.prefix_nil.1 h)
  | succ n ih =>
    simp only [stripMany]
    cases h : stripOne ps s with
    | none => exact ⟨[], rfl, .nil, stripOne_none.1 h⟩
    | some r =>
      obtain ⟨p, hp, e⟩ := stripOne_some h
      have hl : r.length ≤ n := by
        have : s.length = p.length + r.length := by rw [e, List.length_append]
        have := List.length_pos_iff.2 (hne p hp)
        omega
      obtain ⟨a, h1, h2, h3⟩ := ih r hl
      refine ⟨p ++ a, ?_, .cons hp h2, h3⟩
      dsimp only
      rw [List.append_assoc, ← h1]; exact e

theorem stripMany_star {ps : List Str} (hf : PrefixFree ps) {a t : Str} (ha : Star ps a) (ht : ∀ p ∈ ps, ¬ p <+: t) (fuel : Nat)
    (hl : a.length ≤ fuel) : stripMany ps fuel (a ++ t) = t := by
  induction ha generalizing fuel with
  | nil =>
    cases fuel with
    | zero => rfl
    | succ n => simp only [List.nil_append, stripMany, stripOne_none.2 ht]
  | @cons p s hp _ ih =>
    have := List.length_pos_iff.2 (hf.ne p hp)
    rw [List.length_append] at hl
    cases fuel with
    | zero => omega
    | succ n =>
      rw [List.append_assoc]
      simp only [stripMany, stripOne_append hf hp]
      exact ih n (by omega)

theorem prefixFree_space : PrefixFree spaceRunes := ⟨by decide, by decide⟩

theorem prefixFree_space_rev : PrefixFree (spaceRunes.map List.reverse) := ⟨by decide, by decide⟩

theorem space_heads : ∀ p ∈ spaceRunes, ∀ c ∈ p.tail, ∀ q ∈ spaceRunes, q.head? ≠ some c := by decide

/-- Blanks after a non-blank start do not make it blank. -/
theorem not_prefix_append_blank {t b : Str} (ht : t ≠ []) (hs : ∀ p ∈ spaceRunes, ¬ p <+: t) (hb : Blank b) :
    ∀ p ∈ spaceRunes, ¬ p <+: t ++ b := by
  intro p hp hpre
  rcases List.prefix_or_prefix_of_prefix hpre (List.prefix_append t b) with h | h
  · exact hs p hp h
  · obtain ⟨p', rfl⟩ := h
    rw [List.prefix_append_right_inj] at hpre
    cases p' with
    | nil => exact hs _ hp (by simp)
    | cons c p' =>
      obtain ⟨b', hb'⟩ := hpre
      cases hb with
      | nil => simp at hb'
      | @cons q s hq _ =>
        have hqne := prefixFree_space.ne q hq
        cases q with
        | nil => exact hqne rfl
        | cons d q =>
          simp only [List.cons_append, List.cons.injEq] at hb'
          refine space_heads _ hp c ?_ _ hq (by simp [hb'.1])
          cases t with
          | nil => exact absurd rfl ht
          | cons x xs => simp

theorem suffix_rev {p t : Str} : p <:+ t ↔ p.reverse <+: t.reverse := (List.reverse_prefix).symm

/-- `trimSpace` removes exactly the leading and trailing white space. -/
theorem trimSpace_trimmed (s : Str) : Trimmed s (trimSpace s) := by
  obtain ⟨a, h1, h2, h3⟩ := stripMany_spec prefixFree_space.ne s.length s (Nat.le_refl _)
  unfold trimSpace
  dsimp only
  generalize stripMany spaceRunes s.length s = l at *
  obtain ⟨b, g1, g2, g3⟩ := stripMany_spec prefixFree_space_rev.ne l.length l.reverse (by simp)
  generalize stripMany (spaceRunes.map List.reverse) l.length l.reverse = r at *
  have hl : l = r.reverse ++ b.reverse := by
    rw [← List.reverse_append, ← g1, List.reverse_reverse]
  refine ⟨a, b.reverse, ?_, h2, ?_, ?_, ?_⟩
  · rw [List.append_assoc, ← hl]; exact h1
  · have := g2.reverse
    simpa [Function.comp_def] using this
  · intro p hp h
    exact h3 p hp (hl ▸ h.trans (List.prefix_append _ _))
  · intro p hp h
    rw [suffix_rev, List.reverse_reverse] at h
    exact g3 _ (List.mem_map_of_mem hp) h

theorem blank_trim {s : Str} (h : Blank s) : trimSpace s = [] := by
  have : stripMany spaceRunes s.length s = [] := by
    have := stripMany_star prefixFree_space (t := []) h (by intro p hp e; exact prefixFree_space.ne p hp (List.prefix_nil.1 e)) s.length (Nat.le_refl _)
    simpa using this
  simp [trimSpace, this, stripMany]

/-- The result of trimming is unique. -/
theorem trimmed_unique {s t : Str} (h : Trimmed s t) : trimSpace s = t := by
  obtain ⟨a, b, rfl, ha, hb, h1, h2⟩ := h
  by_cases ht : t = []
  · subst ht
    exact blank_trim (by simpa using ha.append hb)
  · have e1 : stripMany spaceRunes (a ++ t ++ b).length (a ++ t ++ b) = t ++ b := by
      rw [List.append_assoc]
      exact stripMany_star prefixFree_space ha (not_prefix_append_blank ht h1 hb) _ (by simp)
    unfold trimSpace
    dsimp only
    rw [e1, List.reverse_append]
    have e2 := stripMany_star prefixFree_space_rev (t := t.reverse) hb.reverse ?_ (t ++ b).length (by simp)
    · rw [e2, List.reverse_reverse]
    · intro p hp h
      obtain ⟨q, hq, rfl⟩ := List.mem_map.1 hp
      exact h2 q hq (suffix_rev.2 h)

theorem trimSpace_iff {s t : Str} : trimSpace s = t ↔ Trimmed s t :=
  ⟨fun h => h ▸ trimSpace_trimmed s, trimmed_unique⟩

/-- A string that neither starts nor ends with white space is its own trimming. -/
theorem trimSpace_eq_self {s : Str} : trimSpace s = s ↔ (∀ p ∈ spaceRunes, ¬ p <+: s) ∧ (∀ p ∈ spaceRunes, ¬ p <:+ s) := by
  rw [trimSpace_iff]
  constructor
  · rintro ⟨a, b, _, _, _, h1, h2⟩; exact ⟨h1, h2⟩
  · rintro ⟨h1, h2⟩; exact ⟨[], [], by simp, .nil, .nil, h1, h2⟩

end Xcore
