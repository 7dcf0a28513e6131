import Verif.Proof.TemplateInsert
import Verif.Proof.TemplateTotal

/-!
# Properties C43 and C44: comments and line ends

`Reads s l` is the reading of a text as literal pieces and meta elements with their source texts (C38). `Cut l a b`: the position between
`a` and `b` is not inside a meta element.
-/

namespace Xcore.Template

open Xcore.Dataset

/-- What `NewXTemplateFromString` gives is the document of the text. -/
theorem new_document {th th' : THeap} {s : Str} {t : Nat} {l : List (Str × Param)} (hr : Reads s l) (e : newFromString th s = (th', some t)) :
    ∃ d : Doc, d.Plain ∧ l.map Prod.snd = d.tokens ∧ InScope th' t [d] := by
  have hb : Balanced (l.map Prod.snd) := by
    rw [← lex_eq hr]
    have := compile_error_iff (newTpl th).1 (newTpl th).2 s
    simp only [newFromString, loadString] at e
    refine Classical.byContradiction fun hn => ?_
    rw [← this] at hn
    generalize compile (newTpl th).1 (newTpl th).2 s = r at e hn
    obtain ⟨_, o⟩ := r
    cases o with
    | true => cases e
    | false => simp at hn
  rw [← lex_eq hr] at hb ⊢
  obtain ⟨d, hp, hd⟩ := (balanced_doc (lex_lexed s)).1 hb
  refine ⟨d, hp, hd, ?_⟩
  obtain ⟨th2, l2, sb, e1, e2, e3, e4, e5, e6⟩ := compile_doc (th := th ++ [⟨[], none, none, none⟩]) (t := th.length) (o := ⟨[], none, none, none⟩)
    (by simp) hp hd
  have hc : Compiled th2 th.length d [] := ⟨_, l2, e4, rfl, e6.at, by simpa using e5⟩
  simp only [newFromString, newTpl, loadString, e1] at e
  cases e
  exact .top e4 rfl hc

/-! ## C43 -/

/-- **C43** Two texts whose elements are the same up to comments and to how literal text is cut into pieces (`skeleton`): either both compile or
none. -/
theorem C43_same_skeleton_compile {s s' : Str} {l l' : List (Str × Param)} (hr : Reads s l) (hr' : Reads s' l')
    (hs : skeleton (l.map Prod.snd) = skeleton (l'.map Prod.snd)) (th th' : THeap) :
    (∃ t, (newFromString th s).2 = some t) ↔ ∃ t, (newFromString th' s').2 = some t := by
  have key : ∀ {th : THeap} {s : Str} {l : List (Str × Param)}, Reads s l → ((∃ t, (newFromString th s).2 = some t) ↔ Balanced (l.map Prod.snd)) := by
    intro th s l h
    rw [← lex_eq h]
    have := compile_error_iff (newTpl th).1 (newTpl th).2 s
    simp only [newFromString, loadString]
    generalize compile (newTpl th).1 (newTpl th).2 s = r at this
    obtain ⟨_, o⟩ := r
    cases o with
    | true => simpa using this
    | false => simpa using this
  rw [key hr, key hr', balanced_skeleton hs]

/-- **C43** Two such texts render the same for all data: same text, same effects. -/
theorem C43_same_skeleton_render {s s' : Str} {l l' : List (Str × Param)} (hr : Reads s l) (hr' : Reads s' l')
    (hs : skeleton (l.map Prod.snd) = skeleton (l'.map Prod.snd)) {th th1 th' th1' : THeap} {t t' : Nat} (e : newFromString th s = (th1, some t))
    (e' : newFromString th' s' = (th1', some t')) {x : Ext} {h h' : Heap} {data : Option Nat} (hp : Proper h data) {out : Str} :
    (∃ n, execute x th1 n t h data = .ok (h', out)) ↔ ∃ n, execute x th1' n t' h data = .ok (h', out) := by
  obtain ⟨d, hd, ht, hi⟩ := new_document hr e
  obtain ⟨d', hd', ht', hi'⟩ := new_document hr' e'
  rw [ht, ht'] at hs
  have hc := clean_eq hd hd' hs
  rw [execute_iff hi hp, execute_iff hi' hp]
  exact ⟨executes_clean hc, executes_clean hc.symm⟩

/-- **C43** Insert a comment, with the line end it swallows if it has one, anywhere outside the meta elements, into a text without stray `%--`:
the text compiles if and only if it did, and renders the same for all data. `Taken` says that the line end after the comment, if there
is one, belongs to what is inserted. -/
theorem C43_comment_leaves_no_trace {a b d e : Str} {l : List (Str × Param)} (hr : Reads (a ++ b) l) (hc : Cut l a b)
    (hn : ∀ t, (t, ⟨.string, t⟩) ∈ l → ¬ b!"%--" <:+: t) (hd : ¬ b!"--%" <:+: d ++ b!"--") (ht : Taken .comment e b) (th th' : THeap) :
    ((∃ t, (newFromString th (a ++ b)).2 = some t) ↔ ∃ t, (newFromString th' (a ++ ((b!"%--" ++ d ++ b!"--%" ++ e) ++ b))).2 = some t) ∧
    ∀ th1 t th2 t', newFromString th (a ++ b) = (th1, some t) → newFromString th' (a ++ ((b!"%--" ++ d ++ b!"--%" ++ e) ++ b)) = (th2, some t') →
      ∀ (x : Ext) (h h' : Heap) (data : Option Nat) (out : Str), Proper h data →
        ((∃ n, execute x th1 n t h data = .ok (h', out)) ↔ ∃ n, execute x th2 n t' h data = .ok (h', out)) := by
  obtain ⟨la, lb, hr', hs⟩ := comment_read hr hd ht a rfl hc hn
  have hsk := insert_comment la hr hc hr' hs
  exact ⟨C43_same_skeleton_compile hr hr' hsk th th', fun th1 t th2 t' e1 e2 x h h' data out hp => C43_same_skeleton_render hr hr' hsk e1 e2 hp⟩

/-- A comment put into a literal text, and one put between two elements. -/
example : ∃ l, Reads (b!"a{{b}}c" ++ b!"d") l ∧ Cut l b!"a{{b}}c" b!"d" ∧ (∀ t, (t, ⟨.string, t⟩) ∈ l → ¬ b!"%--" <:+: t) ∧
    (¬ b!"--%" <:+: b!" - {{x}} " ++ b!"--") ∧ Taken .comment b!"\n" b!"d" := by
  refine ⟨[(b!"a", ⟨.string, b!"a"⟩), (b!"{{b}}", ⟨.variable, b!"b"⟩), (b!"cd", ⟨.string, b!"cd"⟩)], ?_, ?_, ?_, by decide, Or.inr ⟨Or.inl rfl, 10, Or.inl rfl, rfl⟩⟩
  · exact reads_text (t := b!"a") (by simp) (by decide) (Or.inr (by decide)) (reads_elem (src := b!"{{b}}") (by decide)
      (reads_text (t := b!"cd") (by simp) (by decide) (Or.inl rfl) .nil))
  · exact Or.inr ⟨[(b!"a", ⟨.string, b!"a"⟩), (b!"{{b}}", ⟨.variable, b!"b"⟩)], [], b!"c", b!"d", rfl, by simp, by simp, rfl, rfl⟩
  · intro t ht
    simp at ht
    rcases ht with rfl | rfl <;> decide

/-- **C43** Without the condition on `%--` it is not true: the stray `%--` becomes the start of the comment. -/
theorem C43_stray_comment_start : (execute ⟨fun _ => [], fun _ => [], fun _ => [], fun _ => [], fun _ => [], fun _ _ => [], fun _ => 0⟩
      (newFromString [] b!"a%--b").1 1 0 [] none = .ok ([], b!"a%--b")) ∧
    (execute ⟨fun _ => [], fun _ => [], fun _ => [], fun _ => [], fun _ => [], fun _ _ => [], fun _ => 0⟩
      (newFromString [] b!"a%--b%--c--%").1 1 0 [] none = .ok ([], b!"a")) := by decide +kernel

/-! ## C44 -/

/-- **C44** Behind a comment or box tag one end-of-line character is dropped: the template is the same as if it were not there. Missing: of a line
end of two characters only the first is dropped (`C44_two_characters`). -/
theorem C44_end_of_line_is_swallowed_partial {a src b : Str} {p : Param} {c : UInt8} (he : Elem src p) (hs : Swallows p.kind) (hc : IsEol c)
    (hb : ∀ d r, b = d :: r → ¬ IsEol d) {la lb : List (Str × Param)} (hr : Reads (a ++ (src ++ b)) (la ++ (src, p) :: lb)) (ha : sources la = a)
    (th : THeap) : newFromString th (a ++ (src ++ (c :: b))) = newFromString th (a ++ (src ++ b)) := by
  subst ha
  have hr' := eol_read he hs hc hb la hr
  have : lex (sources la ++ (src ++ (c :: b))) = lex (sources la ++ (src ++ b)) := by rw [lex_eq hr, lex_eq hr']; simp
  simp only [newFromString, loadString, compile, this]

example : ∃ la lb, Reads (b!"a" ++ (b!"[[x]]" ++ b!"b[[]]")) (la ++ (b!"[[x]]", ⟨.start, b!"x"⟩) :: lb) ∧ sources la = b!"a" ∧ Elem b!"[[x]]" ⟨.start, b!"x"⟩ := by
  exact ⟨[(b!"a", ⟨.string, b!"a"⟩)], [(b!"b", ⟨.string, b!"b"⟩), (b!"[[]]", ⟨.stop, []⟩)],
    reads_text (t := b!"a") (by simp) (by decide) (Or.inr (by decide)) (reads_elem (src := b!"[[x]]") (by decide)
      (reads_text (t := b!"b") (by simp) (by decide) (Or.inr (by decide)) (reads_elem (src := b!"[[]]") (rest := []) (by decide) .nil))),
    rfl, .start (d := b!"x") ⟨by simp, by simp [BoxChar]⟩⟩

/-- **C44 is false** for line ends of two characters: the second one stays in the text. -/
theorem C44_two_characters : lex b!"%--a--%\r\nb" = [⟨.comment, b!"a"⟩, ⟨.string, b!"\nb"⟩] ∧ lex b!"%--a--%\n\rb" = [⟨.comment, b!"a"⟩, ⟨.string, b!"\rb"⟩] ∧
    lex b!"[[a]]\r\nb[[]]\r\nc" = [⟨.start, b!"a"⟩, ⟨.string, b!"\nb"⟩, ⟨.stop, []⟩, ⟨.string, b!"\nc"⟩] := by decide +kernel

end Xcore.Template
