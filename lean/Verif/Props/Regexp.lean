import Verif.Proof.Regexp
import Verif.Proof.TemplateLex
import Verif.Proof.V1.TemplateLex

/-!
# Property C94: the regular expressions of the template compiler

`code` and `codeV1` are the expressions as they are written in the code; `parse`, `matchHere` and `findAll` (Verif/Model/Regexp.lean) are what Go's package
`regexp` does with them: the text is read as UTF-8 runes, and of the matches that begin at a place the one counts that a backtracking engine would find
first. `MetaAt` and `Reads` (Verif/Spec/Template.lean, Verif/Spec/V1/Template.lean) describe the template language without regular expressions.
-/

namespace Xcore.Regexp

open Xcore.Template (Param)

/-- **C94** Both expressions are valid: `regexp.MustCompile` does not panic. -/
theorem C94_expressions_are_valid : (∃ r, parse code = some r) ∧ ∃ r, parse codeV1 = some r := ⟨⟨_, parse_code⟩, ⟨_, parse_codeV1⟩⟩

/-- **C94** At each place of a text, valid UTF-8 or not, the expression matches exactly what the description of the template language says stands
there: the same element, with the same text after it. -/
theorem C94_match_is_the_element {r : Re} (hr : parse code = some r) (s rest : Str) (p : Param) :
    (∃ c, matchHere r s = some (rest, c) ∧ paramOf c = p) ↔ Template.MetaAt s p rest := by
  have hm := match_eq hr s
  constructor
  · rintro ⟨c, e, rfl⟩
    rw [e] at hm
    have hs := suffix_drop (run_suffix r s (rest, c) (List.mem_of_mem_head? e))
    obtain ⟨rest', h, hl, _⟩ := Template.matchAt_some hm.symm
    obtain ⟨src, x, _, e2, _⟩ := id h
    have hle := congrArg List.length hs
    simp only [List.length_drop] at hle hl
    have : rest' = rest := by
      refine Eq.trans ?_ hs
      simp only
      rw [show s.length - rest.length = (src ++ x).length by
        have := congrArg List.length e2; simp only [List.length_append] at this ⊢; omega]
      conv => rhs; arg 2; rw [e2]
      rw [List.drop_left]
    exact this ▸ h
  · intro h
    rw [Template.metaAt_match h] at hm
    obtain ⟨q, e, h1⟩ := Option.map_eq_some_iff.1 hm
    obtain ⟨s1, c⟩ := q
    have hs := suffix_drop (run_suffix r s (s1, c) (List.mem_of_mem_head? e))
    simp only [Prod.mk.injEq] at h1 hs
    obtain ⟨src, x, _, rfl, _⟩ := h
    rw [h1.2, show (src ++ x ++ rest).length - rest.length = (src ++ x).length by simp; omega, List.drop_left] at hs
    subst hs
    exact ⟨c, e, h1.1⟩

/-- **C94** The first pass of the compiler with this expression — all matches from left to right, and the texts between them — gives the reading of
the text, for every text. -/
theorem C94_first_pass {r : Re} (hr : parse code = some r) {s : Str} {l : List (Str × Param)} (h : Template.Reads s l) :
    firstPassWith r s = l.map Prod.snd := by
  rw [firstPass_eq hr, Template.lex_eq h]

/-- **C94** The same for version 1. -/
theorem C94_v1_match_is_the_element {r : Re} (hr : parse codeV1 = some r) (s rest : Str) (p : Param) :
    (∃ c, matchHere r s = some (rest, c) ∧ paramOf c = p) ↔ V1.Template.MetaAt s p rest := by
  have hm := match_eqV1 hr s
  constructor
  · rintro ⟨c, e, rfl⟩
    rw [e] at hm
    have hs := suffix_drop (run_suffix r s (rest, c) (List.mem_of_mem_head? e))
    obtain ⟨rest', h, hl, _⟩ := V1.Template.matchAt_some hm.symm
    obtain ⟨src, x, _, e2, _⟩ := id h
    have hle := congrArg List.length hs
    simp only [List.length_drop] at hle hl
    have : rest' = rest := by
      refine Eq.trans ?_ hs
      simp only
      rw [show s.length - rest.length = (src ++ x).length by
        have := congrArg List.length e2; simp only [List.length_append] at this ⊢; omega]
      conv => rhs; arg 2; rw [e2]
      rw [List.drop_left]
    exact this ▸ h
  · intro h
    rw [V1.Template.metaAt_match h] at hm
    obtain ⟨q, e, h1⟩ := Option.map_eq_some_iff.1 hm
    obtain ⟨s1, c⟩ := q
    have hs := suffix_drop (run_suffix r s (s1, c) (List.mem_of_mem_head? e))
    simp only [Prod.mk.injEq] at h1 hs
    obtain ⟨src, x, _, rfl, _⟩ := h
    rw [h1.2, show (src ++ x ++ rest).length - rest.length = (src ++ x).length by simp; omega, List.drop_left] at hs
    subst hs
    exact ⟨c, e, h1.1⟩

/-- **C94** The same for version 1. -/
theorem C94_v1_first_pass {r : Re} (hr : parse codeV1 = some r) {s : Str} {l : List (Str × Param)} (h : V1.Template.Reads s l) :
    firstPassWith r s = l.map Prod.snd := by
  rw [firstPass_eqV1 hr, V1.Template.lex_eq h]

/-- **C94** `MetaUnused` (version 2: xtemplate.go:195, version 1: xtemplate.go:187) is never given to a match: every match sets one of the groups. -/
theorem C94_no_unknown_match {r : Re} (hr : parse code = some r ∨ parse codeV1 = some r) {s rest : Str} {c : Caps} (h : matchHere r s = some (rest, c)) :
    (paramOf c).kind ≠ .unused ∧ rest ≠ s := by
  rcases hr with hr | hr
  · obtain ⟨src, e, hm, rfl, _⟩ := (C94_match_is_the_element hr s rest _).1 ⟨c, h, rfl⟩
    generalize paramOf c = p at hm
    refine ⟨?_, fun e2 => ?_⟩
    · cases hm <;> simp
    · have e3 := congrArg List.length e2
      simp only [List.length_append] at e3
      have : src = [] := List.length_eq_zero_iff.1 (by omega)
      subst this
      cases hm <;> simp_all
  · obtain ⟨src, e, hm, rfl, _⟩ := (C94_v1_match_is_the_element hr s rest _).1 ⟨c, h, rfl⟩
    generalize paramOf c = p at hm
    refine ⟨?_, fun e2 => ?_⟩
    · cases hm <;> simp
    · have e3 := congrArg List.length e2
      simp only [List.length_append] at e3
      have : src = [] := List.length_eq_zero_iff.1 (by omega)
      subst this
      cases hm <;> simp_all

/-- Non-vacuity: an expression exists, and a text with an invalid byte, a two-byte rune and elements is cut into the expected parts. -/
example : ∃ r, parse code = some r ∧ firstPassWith r (0xFF :: b!"é{{a}}%--ü--%\r\n[[]]") =
    [⟨.string, 0xFF :: b!"é"⟩, ⟨.variable, b!"a"⟩, ⟨.comment, b!"ü"⟩, ⟨.string, b!"\n"⟩, ⟨.stop, []⟩] :=
  ⟨_, parse_code, by decide +kernel⟩

end Xcore.Regexp
