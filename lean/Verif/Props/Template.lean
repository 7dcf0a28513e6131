import Verif.Proof.TemplateScope

/-!
# Properties C38, C40–C42: reading and compiling templates
-/

namespace Xcore.Template

/-! ## C38 -/

/-- **C38** Every text is read in exactly one way as a sequence of literal pieces and meta elements (`Reads`: a meta element is read
wherever one starts, literal pieces are maximal). Their source texts concatenate to the input, and they are what the first pass yields. -/
theorem C38_text_is_read_uniquely (s : Str) :
    ∃ l, Reads s l ∧ (∀ l', Reads s l' → l' = l) ∧ (l.map Prod.fst).flatten = s ∧ lex s = l.map Prod.snd := by
  obtain ⟨l, h, e⟩ := lex_reads s
  exact ⟨l, h, fun l' h' => reads_unique h' h, reads_concat h, e⟩

/-- **C38** No meta element starts inside a literal piece. `before`, `t` and `after` are consecutive in the text; `t` is the piece. -/
theorem C38_no_meta_in_literals {s : Str} {l₁ l₂ : List (Str × Param)} {t : Str} (h : Reads s (l₁ ++ (t, ⟨.string, t⟩) :: l₂)) :
    ∃ before after, s = before ++ t ++ after ∧
      ∀ t₁ t₂, t = t₁ ++ t₂ → t₂ ≠ [] → ¬ ∃ p rest, MetaAt (t₂ ++ after) p rest := by
  generalize e : l₁ ++ (t, ⟨.string, t⟩) :: l₂ = l at h
  induction h generalizing l₁ with
  | nil => simp at e
  | @elem src rest p l hm hr ih =>
    cases l₁ with
    | nil =>
      simp at e
      obtain ⟨⟨rfl, rfl⟩, rfl⟩ := e
      obtain ⟨_, _, he, _⟩ := hm
      cases he
    | cons x l₁ =>
      simp at e
      obtain ⟨b, a, e1, e2⟩ := ih e.2
      exact ⟨src ++ b, a, by simp [e1], e2⟩
  | @text t' rest l hne hno hm hr ih =>
    cases l₁ with
    | nil =>
      simp at e
      obtain ⟨rfl, rfl⟩ := e
      exact ⟨[], rest, by simp, hno⟩
    | cons x l₁ =>
      simp at e
      obtain ⟨b, a, e1, e2⟩ := ih e.2
      exact ⟨t' ++ b, a, by simp [e1], e2⟩

/-- **C38** A meta element starts at a position exactly when the lexer matches there, and then it is unique. -/
theorem C38_meta_is_unique {s r r' : Str} {p p' : Param} (h : MetaAt s p r) (h' : MetaAt s p' r') : p = p' ∧ r = r' := by
  have e := metaAt_match h
  rw [metaAt_match h'] at e
  simp at e
  refine ⟨e.1.symm, ?_⟩
  obtain ⟨src, x, _, rfl, _⟩ := h
  obtain ⟨src', x', _, e', _⟩ := h'
  have h1 : (src ++ x ++ r).drop (src ++ x).length = r := by simp
  have h2 : (src' ++ x' ++ r').drop (src' ++ x').length = r' := by simp
  rw [← e'] at h2
  have hl : (src ++ x ++ r).length = (src' ++ x' ++ r').length := by rw [e']
  have : (src ++ x).length = (src' ++ x').length := by
    simp at e hl ⊢
    omega
  rw [← h1, this, h2]

/-- A text with literal text, a comment, a variable and a broken variable. -/
example : lex b!"a{{b}}%--c--%\n{{d}" = [⟨.string, b!"a"⟩, ⟨.variable, b!"b"⟩, ⟨.comment, b!"c"⟩, ⟨.string, b!"{{d}"⟩] := by decide

/-! ## C40 -/

/-- **C40** `LoadString` returns an error exactly when the box tags are not balanced (`Balanced`: no prefix of the elements has more `[[]]`
than `[[id]]`, and in total there are as many). -/
theorem C40_error_iff_unbalanced (th : THeap) (t : Nat) (s : Str) (l : List (Str × Param)) (h : Reads s l) :
    (loadString th t s).2 = true ↔ ¬ Balanced (l.map Prod.snd) := by
  rw [← lex_eq h, ← compile_error_iff th t s]
  unfold loadString
  cases (compile th t s).2 <;> simp

/-- **C40** `NewXTemplateFromString` gives a template exactly when the box tags are balanced. -/
theorem C40_new_iff_balanced (th : THeap) (s : Str) (l : List (Str × Param)) (h : Reads s l) :
    (∃ t, (newFromString th s).2 = some t) ↔ Balanced (l.map Prod.snd) := by
  have := C40_error_iff_unbalanced (newTpl th).1 (newTpl th).2 s l h
  simp only [newFromString]
  generalize loadString (newTpl th).1 (newTpl th).2 s = r at this
  obtain ⟨th', e⟩ := r
  cases e <;> simp at this ⊢ <;> exact this

/-- **C40** Balanced means: the elements are those of a tree of boxes. -/
theorem C40_balanced_iff_document {s : Str} {l : List (Str × Param)} (h : Reads s l) :
    Balanced (l.map Prod.snd) ↔ ∃ d : Doc, d.Plain ∧ l.map Prod.snd = d.tokens := by
  rw [← lex_eq h]
  exact balanced_doc (lex_lexed s)

/-- Balanced and not balanced texts. -/
example : (newFromString [] b!"a[[x]]b[[y]]c[[]]d[[]]e").2 = some 0 ∧ (newFromString [] b!"a[[x]]b[[y]]c[[]]d").2 = none ∧
    (newFromString [] b!"[[]][[x]]").2 = none := by decide

/-! ## C41 -/

/-- **C41** A text whose elements are those of the document `d` compiles, into a template (`Compiled`) that has the elements of `d` itself as
its root and, under each name, the last box of `d` that declares it; each box is compiled in the same way. A new template has nothing
else, and no template that was in memory changes. -/
theorem C41_compile_builds_document {th : THeap} {s : Str} {l : List (Str × Param)} {d : Doc} (h : Reads s l) (hp : d.Plain)
    (hd : l.map Prod.snd = d.tokens) :
    ∃ th' t, newFromString th s = (th', some t) ∧ Compiled th' t d [] ∧ InScope th' t [d] ∧ th <+: th' := by
  have hd : lex s = d.tokens := by rw [lex_eq h, hd]
  obtain ⟨th', l, sb, e1, e2, e3, e4, e5, e6⟩ := compile_doc (th := th ++ [⟨[], none, none, none⟩]) (t := th.length) (o := ⟨[], none, none, none⟩)
    (by simp) hp hd
  have hc : Compiled th' th.length d [] := ⟨_, l, e4, rfl, e6.at, by simpa using e5⟩
  refine ⟨th', th.length, ?_, hc, .top e4 rfl hc, ?_⟩
  · simp only [newFromString, newTpl, loadString, e1]
  · rw [List.prefix_iff_getElem?]
    intro i hi
    rw [e3 i (by simp; omega) (by omega), List.getElem?_append_left hi, List.getElem?_eq_getElem hi]

/-- **C41** Loading a text into an existing template replaces its root and adds its boxes to the sub-templates it has: a box wins over a
sub-template with the same name. No other template that was in memory changes. -/
theorem C41_load_builds_document {th : THeap} {t : Nat} {o : Tpl} {s : Str} {l : List (Str × Param)} {d : Doc} (ht : th[t]? = some o)
    (h : Reads s l) (hp : d.Plain) (hd : l.map Prod.snd = d.tokens) :
    ∃ th', loadString th t s = (th', false) ∧ Compiled th' t d (o.subs.getD []) ∧
      (∀ o', th'[t]? = some o' → o'.name = o.name ∧ o'.father = o.father) ∧ ∀ b, b < th.length → b ≠ t → th'[b]? = th[b]? := by
  have hd : lex s = d.tokens := by rw [lex_eq h, hd]
  obtain ⟨th', l, sb, e1, e2, e3, e4, e5, e6⟩ := compile_doc ht hp hd
  exact ⟨th', e1, ⟨_, l, e4, rfl, e6.at, e5⟩, fun o' ho => by rw [e4] at ho; cases ho; exact ⟨rfl, rfl⟩, e3⟩

/-- **C41** A box's template is reached under each of its names, unless a later box of the same document declares the name too. -/
theorem C41_box_has_all_its_names {th : THeap} {t : Nat} {d : Doc} {old : AMap Nat} (hc : Compiled th t d old) (v : Str) :
    match d.find v with
    | none => Registered th t v = old.get v
    | some b => ∃ c, Registered th t v = some c ∧ Compiled th c b [] := by
  obtain ⟨o, l, e, _, hb, hs⟩ := hc
  have hr : Registered th t v = (lastNamed l v).or (old.get v) := by simp only [Registered, e, Option.bind_some, hs]
  have := hb.find v
  rw [hr]
  generalize d.find v = x at this
  cases x with
  | none => simp only at this ⊢; rw [this]; rfl
  | some b => obtain ⟨c, o', q1, _, _, q4⟩ := this; exact ⟨c, by rw [q1]; rfl, q4⟩

/-- The document of a text with nested boxes, one of them with two names. -/
def sampleDoc : Doc := .elem ⟨.string, b!"a"⟩ (.box b!"x|y" (.elem ⟨.string, b!"b"⟩ (.box b!"z" .nil .nil)) (.elem ⟨.variable, b!"c"⟩ .nil))

example : sampleDoc.Plain ∧ lex b!"a[[x|y]]b[[z]][[]][[]]{{c}}" = sampleDoc.tokens := by
  refine ⟨?_, by decide⟩
  simp [sampleDoc, Doc.Plain]

example : newFromString [] b!"a[[x|y]]b[[z]][[]][[]]{{c}}" =
    ([⟨[], some [⟨.string, b!"a"⟩, ⟨.variable, b!"c"⟩], some [(b!"x", 1), (b!"y", 1)], none⟩,
      ⟨b!"x|y", some [⟨.string, b!"b"⟩], some [(b!"z", 2)], some 0⟩, ⟨b!"z", some [], none, some 1⟩], some 0) := by decide

/-! ## C42 -/

/-- **C42** `GetTemplate` from a compiled template or one of its boxes is lexical lookup: the innermost enclosing document that declares the
name decides, `nil` is returned if none does, and what is returned is again a template in its lexical scope. In particular the
lookup ends. -/
theorem C42_lookup_is_lexical {th : THeap} {t : Nat} {scope : List Doc} (h : InScope th t scope) (v : Str) :
    match lookup scope v with
    | none => getTemplate th t v = .ok none
    | some scope' => ∃ c, getTemplate th t v = .ok (some c) ∧ InScope th c scope' := h.lookup v

/-- **C42** For templates put together by hand too: `GetTemplate` asks the template and then its fathers, in order, and answers with the
first sub-template registered under the name. -/
theorem C42_lookup_asks_fathers {th : THeap} {t : Nat} {chain : List Nat} (h : Chain th t chain) (v : Str) :
    getTemplate th t v = .ok (chain.findSome? fun a => Registered th a v) := getTemplate_chain h v

/-- **C42** The limit on the steps of the lookup plays no role: any larger one gives the same result. -/
theorem C42_lookup_needs_no_limit {th : THeap} {t : Nat} {chain : List Nat} (h : Chain th t chain) (v : Str) (n : Nat) (hn : chain.length ≤ n) :
    getTemplateN n th t v = getTemplate th t v := by
  rw [getTemplateN_chain h v n hn, getTemplate_chain h v]

/-- Lookups in the sample: `z` is visible in `x` and not outside; `y` is visible inside `x`. -/
example : (let th := (newFromString [] b!"a[[x|y]]b[[z]][[]][[]]{{c}}").1
    (getTemplate th 0 b!"z" = .ok none ∧ getTemplate th 1 b!"z" = .ok (some 2) ∧ getTemplate th 2 b!"y" = .ok (some 1))) := by decide

example : Template.lookup [sampleDoc] b!"z" = none := by decide

end Xcore.Template
