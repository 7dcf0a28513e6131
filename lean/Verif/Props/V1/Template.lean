import Verif.Proof.V1.TemplateSafe

/-!
# Properties C73–C76: templates of version 1

`Reads`, `Means`, `Compiled`, `Executes` and `Proper` are in Verif/Spec/V1/Template.lean; `Balanced`, `Doc` and what belongs to it are those of
version 2 (Verif/Spec/Template.lean). The number given to `execute` bounds the depth of nested calls.
-/

namespace Xcore.V1.Template

open Xcore.Template (Kind Param Doc Balanced parts Target NeedsNoData kindNumber)
open Xcore.Dataset (Ext Val)
open Xcore.V1.Dataset

/-! ## C73: reading and compiling -/

/-- **C73** Every text is read in exactly one way as a sequence of literal pieces and meta elements. Their source texts concatenate to the
input. -/
theorem C73_text_is_read_uniquely (s : Str) : ∃ l, Reads s l ∧ (∀ l', Reads s l' → l' = l) ∧ (l.map Prod.fst).flatten = s := by
  obtain ⟨l, h, _⟩ := lex_reads s
  exact ⟨l, h, fun l' h' => reads_unique h' h, reads_concat h⟩

/-- **C73** No meta element starts inside a literal piece. -/
theorem C73_no_meta_in_literals {s : Str} {l₁ l₂ : List (Str × Param)} {t : Str} (h : Reads s (l₁ ++ (t, ⟨.string, t⟩) :: l₂)) :
    ∃ before after, s = before ++ t ++ after ∧ ∀ t₁ t₂, t = t₁ ++ t₂ → t₂ ≠ [] → ¬ ∃ p rest, MetaAt (t₂ ++ after) p rest := by
  generalize e : l₁ ++ (t, ⟨.string, t⟩) :: l₂ = l at h
  induction h generalizing l₁ with
  | nil => simp at e
  | @elem src rest p l hm hr ih =>
    cases l₁ with
    | nil =>
      simp at e
      obtain ⟨⟨rfl, rfl⟩, rfl⟩ := e
      obtain ⟨_, _, he, _⟩ := hm
      cases he
    | cons x l₁ =>
      simp at e
      obtain ⟨b, a, e1, e2⟩ := ih e.2
      exact ⟨src ++ b, a, by simp [e1], e2⟩
  | @text t' rest l hne hno hm hr ih =>
    cases l₁ with
    | nil =>
      simp at e
      obtain ⟨rfl, rfl⟩ := e
      exact ⟨[], rest, by simp, hno⟩
    | cons x l₁ =>
      simp at e
      obtain ⟨b, a, e1, e2⟩ := ih e.2
      exact ⟨t' ++ b, a, by simp [e1], e2⟩

/-- Unlike version 2, an element's text can have any character, also line ends and delimiters of other elements. -/
example : lex b!"a{{b c\n&&}}%--d--%\n{{e}" = [⟨.string, b!"a"⟩, ⟨.variable, b!"b c\n&&"⟩, ⟨.comment, b!"d"⟩, ⟨.string, b!"{{e}"⟩] := by decide

/-- **C73** `LoadString` returns an error exactly when the box tags are not balanced. -/
theorem C73_error_iff_unbalanced (th : THeap) (t : Nat) {s : Str} {l : List (Str × Param)} (h : Reads s l) :
    (loadString th t s).2 = true ↔ ¬ Balanced (l.map Prod.snd) := by
  rw [← lex_eq h, ← compile_error_iff th t s]
  unfold loadString
  cases (compile th t s).2 <;> simp

/-- **C73** `NewXTemplateFromString` gives a template exactly when the box tags are balanced, and they are exactly if the elements are those of
a tree of boxes. -/
theorem C73_new_iff_balanced (th : THeap) {s : Str} {l : List (Str × Param)} (h : Reads s l) :
    ((∃ t, (newFromString th s).2 = some t) ↔ Balanced (l.map Prod.snd)) ∧ (Balanced (l.map Prod.snd) ↔ ∃ d, Means s d) := by
  constructor
  · have := C73_error_iff_unbalanced (newTpl th).1 (newTpl th).2 h
    simp only [newFromString]
    generalize loadString (newTpl th).1 (newTpl th).2 s = r at this
    obtain ⟨th', e⟩ := r
    cases e <;> simp at this ⊢ <;> exact this
  · rw [← lex_eq h, Xcore.Template.balanced_doc (lex_lexed s)]
    constructor
    · rintro ⟨d, hp, e⟩; exact ⟨d, hp, l, h, by rw [← lex_eq h]; exact e⟩
    · rintro ⟨d, hp, l', h', e⟩; exact ⟨d, hp, by rw [lex_eq h']; exact e⟩

/-- **C73** A text that means the document `d` compiles, into a template that has the elements of `d` itself as its root and, under each name,
the last box of `d` that declares it; each box is compiled in the same way. No template that was in memory changes. -/
theorem C73_compile_builds_document {s : Str} {d : Doc} (hm : Means s d) (th : THeap) :
    ∃ th' t, newFromString th s = (th', some t) ∧ Compiled th' t d [] ∧ th <+: th' := by
  obtain ⟨hp, l, h, hd⟩ := hm
  have hd : lex s = d.tokens := by rw [lex_eq h, hd]
  obtain ⟨th', l, sb, e1, e2, e3, e4, e5, e6⟩ := compile_doc (th := th ++ [⟨[], none, none⟩]) (t := th.length) (o := ⟨[], none, none⟩)
    (by simp) hp hd
  refine ⟨th', th.length, ?_, ⟨_, l, e4, rfl, e6, by simpa using e5⟩, ?_⟩
  · simp only [newFromString, newTpl, loadString, e1]
  · rw [List.prefix_iff_getElem?]
    intro i hi
    rw [e3 i (by simp; omega) (by omega), List.getElem?_append_left hi, List.getElem?_eq_getElem hi]

/-- **C73** Loading a text into an existing template replaces its root and adds its boxes to the sub-templates it has: a box wins over a
sub-template with the same name. No other template that was in memory changes. -/
theorem C73_load_builds_document {th : THeap} {t : Nat} {o : Tpl} (ht : th[t]? = some o) {s : Str} {d : Doc} (hm : Means s d) :
    ∃ th', loadString th t s = (th', false) ∧ Compiled th' t d (o.subs.getD []) ∧ (∀ o', th'[t]? = some o' → o'.name = o.name) ∧
      ∀ b, b < th.length → b ≠ t → th'[b]? = th[b]? := by
  obtain ⟨hp, l, h, hd⟩ := hm
  have hd : lex s = d.tokens := by rw [lex_eq h, hd]
  obtain ⟨th', l, sb, e1, e2, e3, e4, e5, e6⟩ := compile_doc ht hp hd
  exact ⟨th', e1, ⟨_, l, e4, rfl, e6, e5⟩, fun o' ho => by rw [e4] at ho; cases ho; rfl, e3⟩

/-- **C73** `GetTemplate` finds exactly the boxes the document itself declares, and what was there before; unlike version 2, not those around
it. -/
theorem C73_get_template_finds_own_boxes {th : THeap} {t : Nat} {d : Doc} {old : AMap Nat} (hc : Compiled th t d old) (v : Str) :
    (∀ b, d.find v = some b → ∃ c, getTemplate th t v = some c ∧ Compiled th c b []) ∧ (d.find v = none → getTemplate th t v = old.get v) := by
  have := hc.get v
  cases e : d.find v with
  | none => rw [e] at this; exact ⟨fun b h => (by cases h), fun _ => this⟩
  | some b => rw [e] at this; exact ⟨fun b' h => (by cases h; exact this), fun h => (by cases h)⟩

/-- **C73** A box cannot use the boxes around it: the reference in `b` renders nothing. -/
theorem C73_outer_boxes_are_not_seen : ∃ th t, newFromString [] b!"&&b&&[[a]]A[[]][[b]]<&&a&&>[[]]" = (th, some t) ∧
    ∀ x h, execute x th 3 t h none = .ok b!"<>" := ⟨_, 0, rfl, fun _ _ => rfl⟩

/-- **C73** `AddTemplate` registers exactly the one name. -/
theorem C73_add_template {th : THeap} {t : Nat} {o : Tpl} (ht : th[t]? = some o) (name : Str) (c : Nat) (v : Str) :
    getTemplate (addTemplate th t name c) t v = if v = name then some c else getTemplate th t v := by
  have hlt := (List.getElem?_eq_some_iff.1 ht).1
  simp only [getTemplate, addTemplate, upd, ht, List.getElem?_set_self hlt]
  by_cases hv : v = name
  · subst hv; simp [AMap.get_set_self]
  · rw [if_neg hv]; simp [AMap.get_set_ne, hv]

/-- **C73** A load that fails changes no other template, and of the template itself only the sub-templates. -/
theorem C73_failed_load {th th' : THeap} {t : Nat} {o : Tpl} (ht : th[t]? = some o) {s : Str} (e : loadString th t s = (th', true)) :
    (∀ b, b < th.length → b ≠ t → th'[b]? = th[b]?) ∧ ∃ m, th'[t]? = some { o with subs := m } := by
  have := load_frame ht s
  rw [e] at this
  obtain ⟨q1, m, r, q2, q3⟩ := this
  refine ⟨q1, m, ?_⟩
  rw [q3 rfl] at q2
  exact q2

/-- **C73** `LoadFile` and `NewXTemplateFromFile` of a file do what `LoadString` and `NewXTemplateFromString` do with its contents; if the file
cannot be read they fail and change no template that was there. -/
theorem C73_files (fs : Files) (th : THeap) (t : Nat) (file : Str) :
    (∀ data, fs file = some data → loadFile fs th t file = loadString th t data ∧ newFromFile fs th file = newFromString th data) ∧
    (fs file = none → loadFile fs th t file = (th, true) ∧ (newFromFile fs th file).2 = none ∧ th <+: (newFromFile fs th file).1) := by
  constructor
  · intro data e
    simp [loadFile, newFromFile, newFromString, e]
  · intro e
    simp [loadFile, newFromFile, e, newTpl]

/-- **C73** `String` writes every element of the document at its own level exactly once, in ascending order. -/
theorem C73_string_lists_elements {th : THeap} {t : Nat} {d : Doc} {old : AMap Nat} (hc : Compiled th t d old) :
    ∃ o, th[t]? = some o ∧ ∃ parts : List Str, parts.Perm (d.own.map fun p => b!"{" ++ itoa (kindNumber p.kind) ++ b!" " ++ p.data ++ b!"}") ∧ SortedStrs parts ∧
      toString o = .ok (b!"xcore.XLanguage{" ++ join b!" " parts ++ b!"}") := by
  obtain ⟨o, l, h1, h2, _⟩ := hc
  exact ⟨o, h1, _, sortStrs_perm _, sortStrs_sorted _, by simp only [toString, h2]; rfl⟩

/-- **C73** `String` of a template without text panics. -/
theorem C73_string_of_new_template_panics (th : THeap) : ∃ o, (newTpl th).1[(newTpl th).2]? = some o ∧ toString o = .panic :=
  ⟨⟨[], none, none⟩, by simp [newTpl], rfl⟩

/-! ## A page and its data -/

/-- A text with every kind of element. -/
def pageText : Str := b!"%--c--%<h1>{{title}}</h1>##hi##;@@rows:row@@??user:who??&&foot&&&&box:user&&&&:title:x&&!!list!![[row]]<{{n}}>[[]][[row.last]]<last {{n}}>[[]][[who]]W[[]][[foot]]end {{title}}[[]][[box|y]]({{name}})[[]][[x.]]no[[]]"

/-- Its document. -/
def pageDoc : Doc :=
  .elem ⟨.comment, b!"c"⟩ <| .elem ⟨.string, b!"<h1>"⟩ <| .elem ⟨.variable, b!"title"⟩ <| .elem ⟨.string, b!"</h1>"⟩ <| .elem ⟨.language, b!"hi"⟩ <|
  .elem ⟨.string, b!";"⟩ <| .elem ⟨.range, b!"rows:row"⟩ <| .elem ⟨.condition, b!"user:who"⟩ <| .elem ⟨.reference, b!"foot"⟩ <|
  .elem ⟨.reference, b!"box:user"⟩ <| .elem ⟨.reference, b!":title:x"⟩ <| .elem ⟨.dump, b!"list"⟩ <|
  .box b!"row" (.elem ⟨.string, b!"<"⟩ <| .elem ⟨.variable, b!"n"⟩ <| .elem ⟨.string, b!">"⟩ .nil) <|
  .box b!"row.last" (.elem ⟨.string, b!"<last "⟩ <| .elem ⟨.variable, b!"n"⟩ <| .elem ⟨.string, b!">"⟩ .nil) <|
  .box b!"who" (.elem ⟨.string, b!"W"⟩ .nil) <|
  .box b!"foot" (.elem ⟨.string, b!"end "⟩ <| .elem ⟨.variable, b!"title"⟩ .nil) <|
  .box b!"box|y" (.elem ⟨.string, b!"("⟩ <| .elem ⟨.variable, b!"name"⟩ <| .elem ⟨.string, b!")"⟩ .nil) <|
  .box b!"x." (.elem ⟨.string, b!"no"⟩ .nil) .nil

theorem page_means : Means pageText pageDoc := by
  obtain ⟨l, h, e⟩ := lex_reads pageText
  refine ⟨by simp [pageDoc, Doc.Plain], l, h, ?_⟩
  rw [← e]; decide +kernel

/-- Its data: 0 has a title, rows 1 (with the elements 2 and 5), the user 3 and the language table 4. -/
def page : Heap :=
  [.ds [(b!"title", .str b!"{{user}}"), (b!"rows", .ptr 1), (b!"user", .ptr 3), (b!"#", .ptr 4)], .col [some 2, some 5],
   .ds [(b!"n", .str b!"one")], .ds [(b!"name", .str b!"Ann")], .lang ⟨[], [], some [(b!"hi", b!"Hola")]⟩, .ds [(b!"n", .str b!"two")]]

/-- Some runtime. -/
def pageExt : Ext := ⟨fun _ => [], fun _ => [], fun _ => [], fun _ => b!"o", fun _ => b!"#", fun _ _ => [], fun _ => 0⟩

theorem page_wf : WF page := by
  constructor
  · intro a m e
    match a with
    | 0 | 2 | 3 | 5 => simp [page] at e; subst e; unfold AMap.Nodup; decide
    | 1 | 4 => simp [page] at e
    | n + 6 => simp [page] at e
  · intro a m k v e hm
    match a with
    | 0 => simp [page] at e; subst e; simp at hm; rcases hm with ⟨rfl, rfl⟩ | ⟨rfl, rfl⟩ | ⟨rfl, rfl⟩ | ⟨rfl, rfl⟩ <;> simp [Valid, page]
    | 2 | 3 | 5 => simp [page] at e; subst e; simp at hm; obtain ⟨rfl, rfl⟩ := hm; simp [Valid]
    | 1 | 4 => simp [page] at e
    | n + 6 => simp [page] at e
  · intro a l b e hb
    match a with
    | 1 =>
      simp [page, IsCollection] at e; subst e
      simp at hb
      rcases hb with rfl | rfl <;> exact ⟨_, rfl⟩
    | 0 | 2 | 3 | 4 | 5 => simp [page, IsCollection] at e
    | n + 6 => simp [page, IsCollection] at e

theorem page_proper : Proper page (some 0) := ⟨page_wf, fun a e => by cases e; exact ⟨_, rfl⟩⟩

theorem page_refers {b c : Nat} (r : Refers page b c) : b < c := by
  cases r with
  | ptr e hm =>
    match b with
    | 0 | 2 | 3 | 5 => simp [page] at e; subst e; simp at hm; try omega
    | 1 | 4 => simp [page] at e
    | n + 6 => simp [page] at e
  | slice e hm =>
    match b with
    | 0 | 2 | 3 | 5 => simp [page] at e; subst e; simp at hm
    | 1 | 4 => simp [page] at e
    | n + 6 => simp [page] at e
  | elem e hm =>
    match b with
    | 1 => simp [page, IsCollection] at e; subst e; simp at hm; omega
    | 0 | 2 | 3 | 4 | 5 => simp [page, IsCollection] at e
    | n + 6 => simp [page, IsCollection] at e

theorem page_acyclic : Acyclic page 0 := by
  have le : ∀ {b c}, Reach page b c → b ≤ c := by
    intro b c r
    induction r with
    | refl => exact Nat.le_refl _
    | step s _ ih => have := page_refers s; omega
  intro b c _ s r
  have := page_refers s
  have := le r
  omega

/-! ## C74: what `Execute` renders -/

/-- **C74** `Execute` of a compiled text ends as the specification says (`Executes`), for all data: with exactly the text it gives, or with a
panic exactly if it says so. The bound on nested calls only has to be larger than the depth of the boxes. -/
theorem C74_execute_meets_specification {s : Str} {d : Doc} (hm : Means s d) {th th' : THeap} {t : Nat} (e : newFromString th s = (th', some t)) {x : Ext}
    {h : Heap} {data : Option Nat} (hp : Proper h data) {n : Nat} (hn : nesting d < n) :
    (∀ out, execute x th' n t h data = .ok out ↔ Executes x d h data (.text out)) ∧ (execute x th' n t h data = .panic ↔ Executes x d h data .panic) := by
  obtain ⟨th2, t2, e2, hc, _⟩ := C73_compile_builds_document hm th
  rw [e] at e2
  cases e2
  have m := execute_meets (x := x) hc hp hn
  generalize execute x th' n t h data = res at m
  cases res with
  | ok o => simp only at m; simp [m, eq_comm]
  | panic => simp only at m; simp [m]
  | diverge => simp only at m; simp [m]

/-- The page rendered. -/
example : (newFromString [] pageText).2 = some 0 ∧ execute pageExt (newFromString [] pageText).1 2 0 page (some 0) =
    .ok b!"<h1>{{user}}</h1>Hola;<one><last two>end {{user}}(Ann)#xcore.XDataset{#:#xcore.XLanguage{hi:#} rows:XDatasetCollection[0:xcore.XDataset{n:one} 1:xcore.XDataset{n:two} ] title:# user:#xcore.XDataset{name:#}}" := by
  decide +kernel

/-- **C74** What `Execute` renders depends only on the elements of the text, the data and the runtime: not on the templates in memory before,
nor on the bound. -/
theorem C74_execute_is_deterministic {s : Str} {d : Doc} (hm : Means s d) {th th1 th' th1' : THeap} {t t' : Nat} (e : newFromString th s = (th1, some t))
    (e' : newFromString th' s = (th1', some t')) (x : Ext) {h : Heap} {data : Option Nat} (hp : Proper h data) {n m : Nat} (hn : nesting d < n)
    (hm' : nesting d < m) : execute x th1 n t h data = execute x th1' m t' h data := by
  have q := C74_execute_meets_specification hm e (x := x) hp hn
  have q' := C74_execute_meets_specification hm e' (x := x) hp hm'
  cases r : execute x th1 n t h data with
  | ok o => rw [(q'.1 o).2 ((q.1 o).1 r)]
  | panic => rw [q'.2.2 (q.2.1 r)]
  | diverge =>
    cases r' : execute x th1' m t' h data with
    | ok o => rw [(q.1 o).2 ((q'.1 o).1 r')] at r; cases r
    | panic => rw [q.2.2 (q'.2.1 r')] at r; cases r
    | diverge => rfl

/-- **C74** A text in which no meta element starts renders as itself, for all data and for nil. -/
theorem C74_plain_text_renders_itself {s : Str} (hs : ∀ t₁ t₂, s = t₁ ++ t₂ → ¬ ∃ p r, MetaAt t₂ p r) (th : THeap) :
    ∃ th' t, newFromString th s = (th', some t) ∧
      ∀ (x : Ext) (h : Heap) (data : Option Nat) (n : Nat), Proper h data → 0 < n → execute x th' n t h data = .ok s := by
  by_cases he : s = []
  · subst he
    have hm : Means [] .nil := ⟨trivial, [], .nil, rfl⟩
    obtain ⟨th', t, e, _⟩ := C73_compile_builds_document hm th
    refine ⟨th', t, e, fun x h data n hp hn => ((C74_execute_meets_specification hm e hp hn).1 _).2 ?_⟩
    cases data with
    | none => exact .nil (.document rfl .nil)
    | some a => exact .data ((langOf_iff hp.wf (hp.data a rfl) _).2 rfl) (.document rfl .nil)
  · have hm : Means s (.elem ⟨.string, s⟩ .nil) := by
      refine ⟨by simp [Doc.Plain], [(s, ⟨.string, s⟩)], ?_, rfl⟩
      have := Reads.text (t := s) (rest := []) (l := []) he (fun t₁ t₂ e _ => by simpa using hs t₁ t₂ e) (Or.inl rfl) .nil
      simpa using this
    obtain ⟨th', t, e, _⟩ := C73_compile_builds_document hm th
    refine ⟨th', t, e, fun x h data n hp hn => ((C74_execute_meets_specification hm e hp hn).1 _).2 ?_⟩
    have body : ∀ lang σ, Renders x lang h (.elem ⟨.string, s⟩ .nil) .document σ (.text s) := by
      intro lang σ
      have := RendersIn.document (own := fun d => some d.own) (look := Doc.find) (x := x) (lang := lang) (h := h) (d := .elem ⟨.string, s⟩ .nil) (σ := σ) rfl (.cons .text .nil)
      simpa [Out.after] using this
    cases data with
    | none => exact .nil (body _ _)
    | some a => exact .data ((langOf_iff hp.wf (hp.data a rfl) _).2 rfl) (body _ _)

/-- **C74** Injected data are not read as template text: a template of one field renders the field's string, whatever it is. -/
theorem C74_injected_text_is_verbatim {path : Str} (hpath : Closes b!"}}" path) (th : THeap) :
    ∃ th' t, newFromString th (b!"{{" ++ path ++ b!"}}") = (th', some t) ∧
      ∀ (x : Ext) (h : Heap) (a : Nat) (v : Str) (n : Nat), Proper h (some a) → Leads h a (split 62 path) (.str v) → 0 < n →
        execute x th' n t h (some a) = .ok v := by
  have hm : Means (b!"{{" ++ path ++ b!"}}") (.elem ⟨.variable, path⟩ .nil) := by
    refine ⟨by simp [Doc.Plain], [(b!"{{" ++ path ++ b!"}}", ⟨.variable, path⟩)], ?_, rfl⟩
    have : MetaAt ((b!"{{" ++ path ++ b!"}}") ++ []) ⟨.variable, path⟩ [] := by
      refine ⟨_, [], .variable hpath, by simp, ?_⟩
      simp [Xcore.Template.Taken, Xcore.Template.Swallows]
    simpa using Reads.elem this .nil
  obtain ⟨th', t, e, _⟩ := C73_compile_builds_document hm th
  refine ⟨th', t, e, fun x h a v n hp hl hn => ((C74_execute_meets_specification hm e hp hn).1 _).2 ?_⟩
  refine .data ((langOf_iff hp.wf (hp.data a rfl) _).2 rfl) (.document rfl ?_)
  have sh : Shows x h (.str v) v := Or.inr ⟨by simp, 1, (Xcore.Dataset.prints_iff ..).2 rfl⟩
  have := RendersIn.cons (l := []) (RendersIn.variable (own := fun d => some d.own) (look := Doc.find) (x := x) (lang := langOf h (Dataset.get h a b!"#")) (d := .elem ⟨.variable, path⟩ .nil) (.here (σ := []) hl) (.value sh)) .nil
  simpa [Out.after, Doc.own] using this

example : Closes b!"}}" b!"user>name" := by
  refine ⟨by simp, fun u v e _ => ?_⟩
  obtain ⟨rest, e1, e2⟩ := (untilDelim_iff (cl := b!"}}") (by simp) (s := b!"user>name}}") (d := b!"user>name")).1 (by decide)
  exact e2 u v e

/-! ## C75: rendering ends -/

/-- **C75** Unlike version 2, where boxes see the boxes around them and can call themselves, rendering ends for every text, on data without
cycles and on nil; nested calls are never deeper than the boxes. -/
theorem C75_execute_ends {s : Str} {d : Doc} (hm : Means s d) {th th' : THeap} {t : Nat} (e : newFromString th s = (th', some t)) (x : Ext)
    {h : Heap} {data : Option Nat} (hp : Proper h data) (hac : ∀ a, data = some a → Acyclic h a) {n : Nat} (hn : nesting d < n) :
    execute x th' n t h data = .panic ∨ ∃ out, execute x th' n t h data = .ok out := by
  obtain ⟨r, q⟩ := executes_total (x := x) hp hac d
  have m := C74_execute_meets_specification hm e (x := x) hp hn
  cases r with
  | panic => exact Or.inl (m.2.2 q)
  | text out => exact Or.inr ⟨out, (m.1 out).2 q⟩

example : nesting pageDoc < 2 ∧ Proper page (some 0) ∧ Acyclic page 0 := ⟨by decide, page_proper, page_acyclic⟩

/-- **C75** A box that refers to itself renders nothing there, instead of without end. -/
theorem C75_recursive_box_ends : ∃ th t, newFromString [] b!"&&a&&[[a]]x&&a&&[[]]" = (th, some t) ∧ ∀ x h, execute x th 2 t h none = .ok b!"x" :=
  ⟨_, 0, rfl, fun _ _ => rfl⟩

/-- **C75** Without the condition it is false: a dataset that contains itself is printed without end. -/
theorem C75_cyclic_data : ∃ th t h, newFromString [] b!"{{a}}" = (th, some t) ∧ Proper h (some 0) ∧ ∀ x n out, execute x th n t h (some 0) ≠ .ok out := by
  refine ⟨_, 0, [.ds [(b!"a", .ptr 0)]], rfl, ⟨?_, fun a e => by cases e; exact ⟨_, rfl⟩⟩, fun x n out => ?_⟩
  · constructor
    · intro a m e
      match a with
      | 0 => simp at e; subst e; unfold AMap.Nodup; decide
      | n + 1 => simp at e
    · intro a m k v e hm
      match a with
      | 0 => simp at e; subst e; simp at hm; obtain ⟨rfl, rfl⟩ := hm; simp [Valid]
      | n + 1 => simp at e
    · intro a l b e hb
      match a with
      | 0 => simp [IsCollection] at e
      | n + 1 => simp [IsCollection] at e
  · cases n with
    | zero => exact fun e => by cases e
    | succ n =>
      have : execute x (newFromString [] b!"{{a}}").1 (n + 1) 0 [.ds [(b!"a", .ptr 0)]] (some 0) = .diverge := rfl
      exact fun e => by cases this.symm.trans e

/-! ## C76: panics -/

/-- **C76 is false**: a loop over a value that is no collection panics; without data, so do references of two and three parts; so does a field
inside a loop over a collection with a nil element. -/
theorem C76_execute_panics :
    (∃ th t, newFromString [] b!"@@a:b@@[[b]][[]]" = (th, some t) ∧ ∀ x, execute x th 2 t [.ds [(b!"a", .str b!"text")]] (some 0) = .panic) ∧
    (∃ th t, newFromString [] b!"&&a:b&&[[a]][[]]" = (th, some t) ∧ ∀ x h, execute x th 2 t h none = .panic) ∧
    (∃ th t, newFromString [] b!"&&:b:c&&" = (th, some t) ∧ ∀ x h, execute x th 2 t h none = .panic) ∧
    (∃ th t, newFromString [] b!"@@a:b@@[[b]]{{x}}[[]]" = (th, some t) ∧ ∀ x, execute x th 2 t [.ds [(b!"a", .ptr 1)], .col [none]] (some 0) = .panic) :=
  ⟨⟨_, 0, rfl, fun _ => rfl⟩, ⟨_, 0, rfl, fun _ _ => rfl⟩, ⟨_, 0, rfl, fun _ _ => rfl⟩, ⟨_, 0, rfl, fun _ => rfl⟩⟩

/-- **C76** `Execute` does not panic if there are data, no collection in them has a nil element, and every loop's path leads only to
collections; nor without data, if there is no reference of two or three parts. Missing: otherwise it may (`C76_execute_panics`); exactly when it
does is what `C74_execute_meets_specification` says. -/
theorem C76_execute_does_not_panic_partial {s : Str} {d : Doc} (hm : Means s d) {th th' : THeap} {t : Nat} (e : newFromString th s = (th', some t)) (x : Ext)
    {h : Heap} {data : Option Nat} (hp : Proper h data) (hcl : ∀ a, data = some a → Clean h a) (hl : ∀ a, data = some a → d.All (LoopsOver h a))
    (hn : data = none → d.All NeedsNoData) {n : Nat} (hnest : nesting d < n) : execute x th' n t h data ≠ .panic :=
  fun q => executes_no_panic hp hcl hl hn ((C74_execute_meets_specification hm e (x := x) hp hnest).2.1 q)

example : Clean page 0 ∧ pageDoc.All (LoopsOver page 0) := by
  constructor
  · intro b _ l hc
    match b with
    | 1 => simp [page, IsCollection] at hc; subst hc; simp
    | 0 | 2 | 3 | 4 | 5 => simp [page, IsCollection] at hc
    | n + 6 => simp [page, IsCollection] at hc
  · have other : ∀ k s, k ≠ Kind.range → LoopsOver page 0 ⟨k, s⟩ := fun k s hk e => absurd e hk
    have loop : LoopsOver page 0 ⟨.range, b!"rows:row"⟩ := by
      intro _ key id ht b _ v hl
      obtain ⟨rfl, rfl⟩ := target_unique (Or.inr ⟨[], by decide⟩ : Target b!"rows:row" b!"rows" b!"row") ht
      have e : split 62 b!"rows" = [b!"rows"] := by decide
      rw [e] at hl
      cases hl with
      | entry he =>
        obtain ⟨m, hm, hg⟩ := he
        match b with
        | 0 => simp [page] at hm; subst hm; simp [AMap.get] at hg; subst hg; exact ⟨1, _, rfl, rfl⟩
        | 2 | 3 | 5 => simp [page] at hm; subst hm; simp [AMap.get] at hg
        | 1 | 4 => simp [page] at hm
        | n + 6 => simp [page] at hm
    simp only [pageDoc, Doc.All, and_true]
    refine ⟨?_, ?_, ?_, ?_, ?_, ?_, loop, ?_, ?_, ?_, ?_, ?_, ?_⟩
    all_goals (repeat' apply And.intro)
    all_goals exact other _ _ (by simp)

end Xcore.V1.Template
