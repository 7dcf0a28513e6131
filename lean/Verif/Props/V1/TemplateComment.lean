import Verif.Proof.V1.TemplateComment

/-!
# Property C108: comments and line ends in templates of version 1

`Reads s l` is the reading of a text as literal pieces and meta elements with their source texts (C73). `Cut l a b`: the position between
`a` and `b` is not inside a meta element. `skeleton` drops comments and joins adjacent literal texts. The number given to `execute` bounds the
depth of nested calls.
-/

namespace Xcore.V1.Template

open Xcore.Template (Kind Param Taken Swallows IsEol BoxChar skeleton sources Cut)
open Xcore.Dataset (Ext Val)
open Xcore.V1.Dataset

/-- **C108** Two texts whose elements are the same up to comments and to how literal text is cut into pieces: either both compile or none. -/
theorem C108_same_skeleton_compile {s s' : Str} {l l' : List (Str × Param)} (hr : Reads s l) (hr' : Reads s' l')
    (hs : skeleton (l.map Prod.snd) = skeleton (l'.map Prod.snd)) (th th' : THeap) :
    (∃ t, (newFromString th s).2 = some t) ↔ ∃ t, (newFromString th' s').2 = some t := by
  rw [new_balanced hr, new_balanced hr', Xcore.Template.balanced_skeleton hs]

/-- **C108** Two such texts do the same for all data: same text, same panics, and if one does not end the other does not either. -/
theorem C108_same_skeleton_render {s s' : Str} {l l' : List (Str × Param)} (hr : Reads s l) (hr' : Reads s' l')
    (hs : skeleton (l.map Prod.snd) = skeleton (l'.map Prod.snd)) {th th1 th' th1' : THeap} {t t' : Nat} (e : newFromString th s = (th1, some t))
    (e' : newFromString th' s' = (th1', some t')) :
    ∃ N, ∀ (x : Ext) (h : Heap) (data : Option Nat) (n m : Nat), Proper h data → N ≤ n → N ≤ m → execute x th1 n t h data = execute x th1' m t' h data :=
  new_skeleton hr hr' hs e e'

/-- **C108** Insert a comment, with the line end it swallows if it has one, anywhere outside the meta elements, into a text in whose literal pieces
there is no opening delimiter (`openers`): the text compiles if and only if it did, and does the same for all data. `Taken` says that the
line end after the comment, if there is one, belongs to what is inserted. -/
theorem C108_comment_leaves_no_trace {a b d e : Str} {l : List (Str × Param)} (hr : Reads (a ++ b) l) (hc : Cut l a b)
    (hn : ∀ t, (t, ⟨.string, t⟩) ∈ l → ∀ op ∈ openers, ¬ op <:+: t) (hd : ¬ b!"--%" <:+: d ++ b!"--") (ht : Taken .comment e b) (th th' : THeap) :
    ((∃ t, (newFromString th (a ++ b)).2 = some t) ↔ ∃ t, (newFromString th' (a ++ ((b!"%--" ++ d ++ b!"--%" ++ e) ++ b))).2 = some t) ∧
    ∀ th1 t th2 t', newFromString th (a ++ b) = (th1, some t) → newFromString th' (a ++ ((b!"%--" ++ d ++ b!"--%" ++ e) ++ b)) = (th2, some t') →
      ∃ N, ∀ (x : Ext) (h : Heap) (data : Option Nat) (n m : Nat), Proper h data → N ≤ n → N ≤ m → execute x th1 n t h data = execute x th2 m t' h data := by
  obtain ⟨la, lb, hr', hs⟩ := comment_read hr hd ht a rfl hc hn
  have hsk := insert_comment la hr hc hr' hs
  exact ⟨C108_same_skeleton_compile hr hr' hsk th th', fun th1 t th2 t' e1 e2 => C108_same_skeleton_render hr hr' hsk e1 e2⟩

/-- A comment with delimiters in it, put into a literal text behind an element with free text. -/
example : ∃ l, Reads (b!"a{{b\n%c}}c" ++ b!"d") l ∧ Cut l b!"a{{b\n%c}}c" b!"d" ∧ (∀ t, (t, ⟨.string, t⟩) ∈ l → ∀ op ∈ openers, ¬ op <:+: t) ∧
    (¬ b!"--%" <:+: b!" - }} ## " ++ b!"--") ∧ Taken .comment b!"\n" b!"d" := by
  refine ⟨[(b!"a", ⟨.string, b!"a"⟩), (b!"{{b\n%c}}", ⟨.variable, b!"b\n%c"⟩), (b!"cd", ⟨.string, b!"cd"⟩)], ?_, ?_, ?_, by decide, Or.inr ⟨Or.inl rfl, 10, Or.inl rfl, rfl⟩⟩
  · exact reads_text (t := b!"a") (by simp) (by decide) (Or.inr (by decide)) (reads_elem (src := b!"{{b\n%c}}") (by decide)
      (reads_text (t := b!"cd") (by simp) (by decide) (Or.inl rfl) .nil))
  · exact Or.inr ⟨[(b!"a", ⟨.string, b!"a"⟩), (b!"{{b\n%c}}", ⟨.variable, b!"b\n%c"⟩)], [], b!"c", b!"d", rfl, by simp, by simp, rfl, rfl⟩
  · intro t ht op ho
    simp at ht
    simp only [openers, List.mem_cons, List.not_mem_nil, or_false] at ho
    rcases ht with rfl | rfl <;> rcases ho with rfl | rfl | rfl | rfl | rfl | rfl | rfl <;> decide

/-- **C108** Without the condition on opening delimiters it is not true: a stray `%--` becomes the start of the comment, a stray `{{` is closed by a
`}}` in the comment, and `{{}}`, which is literal text, becomes a variable with the comment as its name. -/
theorem C108_stray_openers :
    (∀ x : Ext, execute x (newFromString [] b!"a%--b").1 1 0 [] none = .ok b!"a%--b" ∧ execute x (newFromString [] b!"a%--b%--c--%").1 1 0 [] none = .ok b!"a") ∧
    (∀ x : Ext, execute x (newFromString [] b!"a{{b").1 1 0 [] none = .ok b!"a{{b" ∧ execute x (newFromString [] b!"a{{b%--}}--%").1 1 0 [] none = .ok b!"a--%") ∧
    (∀ x : Ext, execute x (newFromString [] b!"{{}}").1 1 0 [] none = .ok b!"{{}}" ∧ execute x (newFromString [] b!"{{%--c--%}}").1 1 0 [] none = .ok []) :=
  ⟨fun _ => ⟨rfl, rfl⟩, fun _ => ⟨rfl, rfl⟩, fun _ => ⟨rfl, rfl⟩⟩

/-- **C108** Behind a comment or box tag one end-of-line character is dropped: the template is the same as if it were not there. -/
theorem C108_end_of_line_is_swallowed {a src b : Str} {p : Param} {c : UInt8} (he : Elem src p) (hs : Swallows p.kind) (hc : IsEol c)
    (hb : ∀ d r, b = d :: r → ¬ IsEol d) {la lb : List (Str × Param)} (hr : Reads (a ++ (src ++ b)) (la ++ (src, p) :: lb)) (ha : sources la = a)
    (th : THeap) : newFromString th (a ++ (src ++ (c :: b))) = newFromString th (a ++ (src ++ b)) := by
  subst ha
  have hr' := eol_read he hs hc hb la hr
  have : lex (sources la ++ (src ++ (c :: b))) = lex (sources la ++ (src ++ b)) := by rw [lex_eq hr, lex_eq hr']; simp
  simp only [newFromString, loadString, compile, this]

example : ∃ la lb, Reads (b!"{{a\n}}" ++ (b!"[[x]]" ++ b!"b[[]]")) (la ++ (b!"[[x]]", ⟨.start, b!"x"⟩) :: lb) ∧ sources la = b!"{{a\n}}" ∧ Elem b!"[[x]]" ⟨.start, b!"x"⟩ := by
  exact ⟨[(b!"{{a\n}}", ⟨.variable, b!"a\n"⟩)], [(b!"b", ⟨.string, b!"b"⟩), (b!"[[]]", ⟨.stop, []⟩)],
    reads_elem (src := b!"{{a\n}}") (by decide) (reads_elem (src := b!"[[x]]") (by decide)
      (reads_text (t := b!"b") (by simp) (by decide) (Or.inr (by decide)) (reads_elem (src := b!"[[]]") (rest := []) (by decide) .nil))),
    rfl, .start (d := b!"x") ⟨by simp, by simp [BoxChar]⟩⟩

/-- **C108** Of a line end of two characters the second one stays in the text. -/
theorem C108_two_characters : lex b!"%--a--%\r\nb" = [⟨.comment, b!"a"⟩, ⟨.string, b!"\nb"⟩] ∧ lex b!"%--a--%\n\rb" = [⟨.comment, b!"a"⟩, ⟨.string, b!"\rb"⟩] ∧
    lex b!"[[a]]\r\nb[[]]\r\nc" = [⟨.start, b!"a"⟩, ⟨.string, b!"\nb"⟩, ⟨.stop, []⟩, ⟨.string, b!"\nc"⟩] := by decide +kernel

end Xcore.V1.Template
