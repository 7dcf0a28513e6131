import Verif.Proof.PageBuild
import Verif.Proof.TemplatePage
import Verif.Proof.PageTotal
import Verif.Proof.TemplateMore

/-!
# C100: the page
-/

namespace Xcore.Page

open Xcore.Dataset Xcore.Template

/-! ## C100 -/

/-- **C100** A template is compiled from a text that means the document `d`, and the dataset has the content `fs`, a tree without addresses. If
`render` says that the text of the page is `out`, then `Execute` gives `out`, and the data have that content afterwards, too. -/
theorem C100_execute_gives_the_page {x : Ext} {th th' : THeap} {s : Str} {t : Nat} {d : Doc} (hm : Means s d) (e : newFromString th s = (th', some t))
    {h : Heap} {a : Nat} (hp : Proper h (some a)) {pos : Nat → Option Nat} {fs : Fields} (hh : Holds h pos (.ptr a) (.record fs) none)
    {depth : Nat} {out : Str} (hr : render x depth d fs = some out) :
    ∃ n h', (∀ m, n ≤ m → execute x th' m t h (some a) = .ok (h', out)) ∧ Holds h' pos (.ptr a) (.record fs) none := by
  obtain ⟨h', ex, k⟩ := render_executes hh (low_means hm) hp.wf hp.short hr
  obtain ⟨n, en⟩ := (execute_iff (new_in_scope hm e) hp).2 ex
  exact ⟨n, h', fun m hm => execute_more hm en, hh.kept k⟩

/-- **C100** The same for a Go literal, nested maps and slices: `NewXDataset` of it and then `Execute` gives the page for the content of the literal. -/
theorem C100_execute_literal {x : Ext} {th th' : THeap} {s : Str} {t : Nat} {d : Doc} (hm : Means s d) (e : newFromString th s = (th', some t))
    {h : Heap} (wf : WF h) (hw : Wrapped h) {m : List (Str × Raw)} {fs : Fields} (lit : Literal h (.map m) (.record fs))
    (hv : ∀ v, Occurs v (.map m) → Valid h v) (hs : Short (newXDataset h m).1) {depth : Nat} {out : Str} (hr : render x depth d fs = some out) :
    ∃ n h', ∀ k, n ≤ k → execute x th' k t (newXDataset h m).1 (some (newXDataset h m).2) = .ok (h', out) := by
  obtain ⟨pos, hh, hw'⟩ := new_holds lit
  have hp : Proper (newXDataset h m).1 (some (newXDataset h m).2) := by
    refine ⟨(newXDataset_built (fun _ => True) wf hv fun _ _ _ _ => trivial).wf, hw' hw, hs, ?_⟩
    rintro a ⟨⟩
    obtain ⟨b, e, hd⟩ := holds_isDataset hh
    cases e; exact hd
  obtain ⟨n, h', h1, _⟩ := C100_execute_gives_the_page hm e hp hh hr
  exact ⟨n, h', h1⟩

/-- **C100** How deep the page may nest does not matter once it is enough. -/
theorem C100_depth (x : Ext) (d : Doc) (fs : Fields) {n m : Nat} (hn : n ≤ m) {out : Str} (e : render x n d fs = some out) : render x m d fs = some out :=
  page_mono hn e

/-- **C100** The page exists: if no box can come back to itself through what its elements name, every element is a text, a comment, a language entry, a
field, a reference, a loop or a condition, fields lead to single values, and counters are used only where no path leads to a row by its number, or
not at all. -/
theorem C100_the_page_exists (x : Ext) {d : Doc} {fs : Fields} (hacc : Acc (fun a b => Calls b a) [d]) (ha : d.All (Answered fs))
    (hc : d.All NoCounter ∨ d.All (NoRow fs)) : ∃ depth out, render x depth d fs = some out :=
  render_answers x hacc ha hc

/-- **C100** Hence `Execute` on such a template and such data ends, without panic, with the page that `render` computes from the content of the data. -/
theorem C100_execute_ends_with_the_page (x : Ext) {th th' : THeap} {s : Str} {t : Nat} {d : Doc} (hm : Means s d) (e : newFromString th s = (th', some t))
    {h : Heap} {a : Nat} (hp : Proper h (some a)) {pos : Nat → Option Nat} {fs : Fields} (hh : Holds h pos (.ptr a) (.record fs) none)
    (hacc : Acc (fun a b => Calls b a) [d]) (ha : d.All (Answered fs)) (hc : d.All NoCounter ∨ d.All (NoRow fs)) :
    ∃ n h' out depth, (∀ m, n ≤ m → execute x th' m t h (some a) = .ok (h', out)) ∧ render x depth d fs = some out ∧
      Holds h' pos (.ptr a) (.record fs) none := by
  obtain ⟨depth, out, hr⟩ := C100_the_page_exists x hacc ha hc
  obtain ⟨n, h', h1, h2⟩ := C100_execute_gives_the_page hm e hp hh hr
  exact ⟨n, h', out, depth, h1, hr, h2⟩

/-! ## The pages of the documentation -/

/-- The template in the documentation, section 2 (v2/xcore.go:383-393). -/
def hobbyText : Str := b!"\n%-- This is a comment. It will not appear in the final code. --%\nLet's put your name here: {{clientname}}<br />\nAnd lets put your hobbies here:<br />\n@@hobbies:hobby@@     %-- note the 1rst id is the entry into the data to inject and the second one is the name of the sub-template to use --%\n\n%-- And you need the template for each hobby:--%\n[[hobby]]\nI love {{name}}<br />\n[[]]\n"

/-- Its document. -/
def hobbyDoc : Doc :=
  .elem ⟨.string, b!"\n"⟩ <|
  .elem ⟨.comment, b!" This is a comment. It will not appear in the final code. "⟩ <|
  .elem ⟨.string, b!"Let's put your name here: "⟩ <|
  .elem ⟨.variable, b!"clientname"⟩ <|
  .elem ⟨.string, b!"<br />\nAnd lets put your hobbies here:<br />\n"⟩ <|
  .elem ⟨.range, b!"hobbies:hobby"⟩ <|
  .elem ⟨.string, b!"     "⟩ <|
  .elem ⟨.comment, b!" note the 1rst id is the entry into the data to inject and the second one is the name of the sub-template to use "⟩ <|
  .elem ⟨.string, b!"\n"⟩ <|
  .elem ⟨.comment, b!" And you need the template for each hobby:"⟩ <|
  .box b!"hobby" (.elem ⟨.string, b!"I love "⟩ <|
  .elem ⟨.variable, b!"name"⟩ <|
  .elem ⟨.string, b!"<br />\n"⟩ <|
  .nil) <|
  .nil

/-- A template that comes to every level of the data of section 3.3.3 (v2/xcore.go:575-599), with the paths of section 3.3.4 (v2/xcore.go:601-612). -/
def scopeText : Str := b!"<{{appname}}>{{detail>data1>data2>key2>status}}&&a:detail&&[[a]]<{{appname}}>&&b:data1&&[[b]]<{{appname}}>{{data2>key1>name}}&&c:data2&&[[c]]<{{appname}}>&&k:key1&&&&k:key2&&[[k]]<{{appname}}>[[]][[]][[]][[]]"

/-- Its document. -/
def scopeDoc : Doc :=
  .elem ⟨.string, b!"<"⟩ <|
  .elem ⟨.variable, b!"appname"⟩ <|
  .elem ⟨.string, b!">"⟩ <|
  .elem ⟨.variable, b!"detail>data1>data2>key2>status"⟩ <|
  .elem ⟨.reference, b!"a:detail"⟩ <|
  .box b!"a" (.elem ⟨.string, b!"<"⟩ <|
  .elem ⟨.variable, b!"appname"⟩ <|
  .elem ⟨.string, b!">"⟩ <|
  .elem ⟨.reference, b!"b:data1"⟩ <|
  .box b!"b" (.elem ⟨.string, b!"<"⟩ <|
  .elem ⟨.variable, b!"appname"⟩ <|
  .elem ⟨.string, b!">"⟩ <|
  .elem ⟨.variable, b!"data2>key1>name"⟩ <|
  .elem ⟨.reference, b!"c:data2"⟩ <|
  .box b!"c" (.elem ⟨.string, b!"<"⟩ <|
  .elem ⟨.variable, b!"appname"⟩ <|
  .elem ⟨.string, b!">"⟩ <|
  .elem ⟨.reference, b!"k:key1"⟩ <|
  .elem ⟨.reference, b!"k:key2"⟩ <|
  .box b!"k" (.elem ⟨.string, b!"<"⟩ <|
  .elem ⟨.variable, b!"appname"⟩ <|
  .elem ⟨.string, b!">"⟩ <|
  .nil) <|
  .nil) <|
  .nil) <|
  .nil) <|
  .nil

/-- A template with the references, loops and conditions of section 3.4 (v2/xcore.go:655-845). -/
def fredText : Str := b!"&&header&&\n&&body&&\n[[header]]Sports shop<hr />[[]]\n[[body]]{{clientname}} Data:\n??clientpicture:photo??\n??preferredhobby>sport:preferredhobby??\n&&sell:preferredhobby&&\n??hobbies:any??\n@@hobbies:hobby@@\n@@friends:hobby@@\n[[photo]]<img src=\"{{clientpicture}}\" title=\"{{clientname}}\" />[[]]\n[[photo.none]]There is no photo<br />[[]]\n[[preferredhobby.yes]]{{preferredhobby>name}}[[]]\n[[preferredhobby|preferredhobby.no|preferredhobby.none]]There is no preferred sport[[]]\n[[any]]Hobbies:[[]]\n[[sell]]&&:sport:sport.&&[[]]\n[[sport.yes]]{{name}} - It's a sport, sell him things![[]]\n[[sport.no]]{{name}} - It's not a sport, recommend him next store.[[]]\n[[sport]]{{name}} - We do not know that it is.[[]]\n[[hobby.none]]There is no hobby<br />[[]]\n[[hobby.key.1]]<b>{{.counter}} {{name}}</b>[[]]\n[[hobby]]{{.counter}} {{name}};[[]]\n[[]]"

/-- Its document. -/
def fredDoc : Doc :=
  .elem ⟨.reference, b!"header"⟩ <|
  .elem ⟨.string, b!"\n"⟩ <|
  .elem ⟨.reference, b!"body"⟩ <|
  .elem ⟨.string, b!"\n"⟩ <|
  .box b!"header" (.elem ⟨.string, b!"Sports shop<hr />"⟩ <|
  .nil) <|
  .box b!"body" (.elem ⟨.variable, b!"clientname"⟩ <|
  .elem ⟨.string, b!" Data:\n"⟩ <|
  .elem ⟨.condition, b!"clientpicture:photo"⟩ <|
  .elem ⟨.string, b!"\n"⟩ <|
  .elem ⟨.condition, b!"preferredhobby>sport:preferredhobby"⟩ <|
  .elem ⟨.string, b!"\n"⟩ <|
  .elem ⟨.reference, b!"sell:preferredhobby"⟩ <|
  .elem ⟨.string, b!"\n"⟩ <|
  .elem ⟨.condition, b!"hobbies:any"⟩ <|
  .elem ⟨.string, b!"\n"⟩ <|
  .elem ⟨.range, b!"hobbies:hobby"⟩ <|
  .elem ⟨.string, b!"\n"⟩ <|
  .elem ⟨.range, b!"friends:hobby"⟩ <|
  .elem ⟨.string, b!"\n"⟩ <|
  .box b!"photo" (.elem ⟨.string, b!"<img src=\""⟩ <|
  .elem ⟨.variable, b!"clientpicture"⟩ <|
  .elem ⟨.string, b!"\" title=\""⟩ <|
  .elem ⟨.variable, b!"clientname"⟩ <|
  .elem ⟨.string, b!"\" />"⟩ <|
  .nil) <|
  .box b!"photo.none" (.elem ⟨.string, b!"There is no photo<br />"⟩ <|
  .nil) <|
  .box b!"preferredhobby.yes" (.elem ⟨.variable, b!"preferredhobby>name"⟩ <|
  .nil) <|
  .box b!"preferredhobby|preferredhobby.no|preferredhobby.none" (.elem ⟨.string, b!"There is no preferred sport"⟩ <|
  .nil) <|
  .box b!"any" (.elem ⟨.string, b!"Hobbies:"⟩ <|
  .nil) <|
  .box b!"sell" (.elem ⟨.reference, b!":sport:sport."⟩ <|
  .nil) <|
  .box b!"sport.yes" (.elem ⟨.variable, b!"name"⟩ <|
  .elem ⟨.string, b!" - It's a sport, sell him things!"⟩ <|
  .nil) <|
  .box b!"sport.no" (.elem ⟨.variable, b!"name"⟩ <|
  .elem ⟨.string, b!" - It's not a sport, recommend him next store."⟩ <|
  .nil) <|
  .box b!"sport" (.elem ⟨.variable, b!"name"⟩ <|
  .elem ⟨.string, b!" - We do not know that it is."⟩ <|
  .nil) <|
  .box b!"hobby.none" (.elem ⟨.string, b!"There is no hobby<br />"⟩ <|
  .nil) <|
  .box b!"hobby.key.1" (.elem ⟨.string, b!"<b>"⟩ <|
  .elem ⟨.variable, b!".counter"⟩ <|
  .elem ⟨.string, b!" "⟩ <|
  .elem ⟨.variable, b!"name"⟩ <|
  .elem ⟨.string, b!"</b>"⟩ <|
  .nil) <|
  .box b!"hobby" (.elem ⟨.variable, b!".counter"⟩ <|
  .elem ⟨.string, b!" "⟩ <|
  .elem ⟨.variable, b!"name"⟩ <|
  .elem ⟨.string, b!";"⟩ <|
  .nil) <|
  .nil) <|
  .nil

/-- The data of section 2 (v2/xcore.go:395-403), as maps for `NewXDataset`. -/
def hobbyData : List (Str × Raw) :=
  [(b!"clientname", .val (.str b!"Fred")), (b!"hobbies", .maps [[(b!"name", .val (.str b!"Football"))], [(b!"name", .val (.str b!"Ping-pong"))],
    [(b!"name", .val (.str b!"Swimming"))], [(b!"name", .val (.str b!"Videogames"))]])]

/-- Their content. -/
def hobbyFields : Fields :=
  [(b!"clientname", .scalar (.str b!"Fred")), (b!"hobbies", .rows [[(b!"name", .scalar (.str b!"Football"))], [(b!"name", .scalar (.str b!"Ping-pong"))],
    [(b!"name", .scalar (.str b!"Swimming"))], [(b!"name", .scalar (.str b!"Videogames"))]])]

/-- The data of section 3.3.3 (v2/xcore.go:581-591). -/
def scopeData : List (Str × Raw) :=
  [(b!"detail", .map [(b!"data1", .map [(b!"data2", .map [
    (b!"key1", .map [(b!"appname", .val (.str b!"Nested App")), (b!"name", .val (.str b!"Juan")), (b!"status", .val (.int .int 1))]),
    (b!"key2", .map [(b!"name", .val (.str b!"José")), (b!"status", .val (.int .int 2))]),
    (b!"appname", .val (.str b!"DomCore"))])])])]

/-- Their content. -/
def scopeFields : Fields :=
  [(b!"detail", .record [(b!"data1", .record [(b!"data2", .record [
    (b!"key1", .record [(b!"appname", .scalar (.str b!"Nested App")), (b!"name", .scalar (.str b!"Juan")), (b!"status", .scalar (.int .int 1))]),
    (b!"key2", .record [(b!"name", .scalar (.str b!"José")), (b!"status", .scalar (.int .int 2))]),
    (b!"appname", .scalar (.str b!"DomCore"))])])])]

/-- Data as in section 3.4 (v2/xcore.go:624-644). -/
def fredData : List (Str × Raw) :=
  [(b!"clientname", .val (.str b!"Fred")), (b!"clientpicture", .val (.str b!"face.jpg")), (b!"hobbies", .maps [
      [(b!"name", .val (.str b!"Football")), (b!"sport", .val (.str b!"yes"))],
      [(b!"name", .val (.str b!"Ping-pong")), (b!"sport", .val (.str b!"yes"))],
      [(b!"name", .val (.str b!"Videogames")), (b!"sport", .val (.str b!"no"))]]),
    (b!"preferredhobby", .map [(b!"name", .val (.str b!"Baseball")), (b!"sport", .val (.str b!"yes"))])]

/-- Their content. -/
def fredFields : Fields :=
  [(b!"clientname", .scalar (.str b!"Fred")), (b!"clientpicture", .scalar (.str b!"face.jpg")), (b!"hobbies", .rows [
      [(b!"name", .scalar (.str b!"Football")), (b!"sport", .scalar (.str b!"yes"))],
      [(b!"name", .scalar (.str b!"Ping-pong")), (b!"sport", .scalar (.str b!"yes"))],
      [(b!"name", .scalar (.str b!"Videogames")), (b!"sport", .scalar (.str b!"no"))]]),
    (b!"preferredhobby", .record [(b!"name", .scalar (.str b!"Baseball")), (b!"sport", .scalar (.str b!"yes"))])]

/-- Show that a map has a content by its parts. -/
macro "literal" : tactic => `(tactic|
  repeat first
    | exact literal_nil
    | exact literal_noRows
    | exact .scalar trivial
    | refine literal_field (by decide +kernel) ?_ ?_
    | refine literal_row ?_ ?_)

theorem hobby_literal (h : Heap) : Literal h (.map hobbyData) (.record hobbyFields) := by unfold hobbyData hobbyFields; literal
theorem scope_literal (h : Heap) : Literal h (.map scopeData) (.record scopeFields) := by unfold scopeData scopeFields; literal
theorem fred_literal (h : Heap) : Literal h (.map fredData) (.record fredFields) := by unfold fredData fredFields; literal

theorem hobby_means : Means hobbyText hobbyDoc := by
  obtain ⟨l, h, e⟩ := lex_reads hobbyText
  exact ⟨by simp [hobbyDoc, Doc.Plain], l, h, by rw [← e]; decide +kernel⟩

theorem scope_means : Means scopeText scopeDoc := by
  obtain ⟨l, h, e⟩ := lex_reads scopeText
  exact ⟨by simp [scopeDoc, Doc.Plain], l, h, by rw [← e]; decide +kernel⟩

theorem fred_means : Means fredText fredDoc := by
  obtain ⟨l, h, e⟩ := lex_reads fredText
  exact ⟨by simp [fredDoc, Doc.Plain], l, h, by rw [← e]; decide +kernel⟩

/-- The page of section 2. -/
def hobbyPage : Str :=
  b!"\nLet's put your name here: Fred<br />\nAnd lets put your hobbies here:<br />\nI love Football<br />\nI love Ping-pong<br />\nI love Swimming<br />\nI love Videogames<br />\n     \n"

set_option maxRecDepth 20000 in
theorem hobby_page (x : Ext) : render x 2 hobbyDoc hobbyFields = some hobbyPage := rfl

/-- The scopes of section 3.3.3: the name is empty at the root, `detail` and `data1`, `DomCore` at `data2` and `key2`, and `Nested App` at `key1`. -/
theorem scope_page (x : Ext) : render x 5 scopeDoc scopeFields = some b!"<>2<><>Juan<DomCore><Nested App><DomCore>" := rfl

/-- The elements of section 3.4. -/
def fredPage : Str :=
  b!"Sports shop<hr />\nFred Data:\n<img src=\"face.jpg\" title=\"Fred\" />\nBaseball\nBaseball - It's a sport, sell him things!\nHobbies:\n1 Football;<b>2 Ping-pong</b>3 Videogames;\nThere is no hobby<br />\n\n"

set_option maxRecDepth 20000 in
theorem fred_page (x : Ext) : render x 4 fredDoc fredFields = some fredPage := rfl

/-- Non-vacuity of `C100_the_page_exists`: the template of section 2 satisfies the conditions. -/
example : Acc (fun a b => Calls b a) [hobbyDoc] ∧ hobbyDoc.All (Answered hobbyFields) ∧ hobbyDoc.All NoCounter ∧ hobbyDoc.All (NoRow hobbyFields) := by
  have hw : ∀ gs, Within hobbyFields gs → gs = hobbyFields ∨ ∃ v, gs = [(b!"name", .scalar (.str v))] := by
    intro gs w
    induction w with
    | all => exact Or.inl rfl
    | field _ hm ih => rcases ih with rfl | ⟨v, rfl⟩ <;> simp [hobbyFields] at hm
    | row _ hm hr ih =>
      rcases ih with rfl | ⟨v, rfl⟩
      · simp only [hobbyFields, List.mem_cons, Prod.mk.injEq, reduceCtorEq, and_false, Data.rows.injEq, List.not_mem_nil, or_false, false_or] at hm
        rw [hm.2] at hr
        simp only [List.mem_cons, List.not_mem_nil, or_false] at hr
        rcases hr with rfl | rfl | rfl | rfl <;> exact Or.inr ⟨_, rfl⟩
      · simp at hm
  have hi : Inward hobbyDoc := by
    intro e up hin
    cases hin with
    | root => intro p _ v _ _; rfl
    | @box e2 _ up2 v2 hin he =>
      have : ∀ {sc : List Doc}, Inside hobbyDoc sc → sc = [hobbyDoc] ∨ ∃ b, hobbyDoc.find b!"hobby" = some b ∧ sc = [b, hobbyDoc] := by
        intro sc i
        induction i with
        | root => exact Or.inl rfl
        | @box e b up v i he ih =>
          rcases ih with h | ⟨b', hb, h⟩
          · cases h
            simp only [hobbyDoc, Doc.find, Option.none_or] at he
            split at he
            · exact Or.inr ⟨b, by rw [← he]; decide +kernel, rfl⟩
            · cases he
          · cases h
            simp only [hobbyDoc, Doc.find, Option.none_or] at hb
            rw [if_pos (by decide +kernel)] at hb
            cases hb
            simp [Doc.find] at he
      intro p hp v hn
      rcases this (.box hin he) with h | ⟨b, hb, h⟩
      · cases h
      · cases h
        simp only [hobbyDoc, Doc.find, Option.none_or] at hb
        rw [if_pos (by decide +kernel)] at hb
        cases hb
        simp only [Doc.own, List.mem_cons, List.not_mem_nil, or_false] at hp
        rcases hp with rfl | rfl | rfl <;> cases hn
  have plain : ∀ k s, k ∈ [Kind.string, .comment] → Answered hobbyFields ⟨k, s⟩ ∧ NoCounter ⟨k, s⟩ ∧ NoRow hobbyFields ⟨k, s⟩ := by
    intro k s hk
    simp only [List.mem_cons, List.not_mem_nil, or_false] at hk
    rcases hk with rfl | rfl <;> simp [Answered, NoCounter, NoRow, paths]
  have field : ∀ s, s = b!"clientname" ∨ s = b!"name" → Answered hobbyFields ⟨.variable, s⟩ ∧ NoCounter ⟨.variable, s⟩ ∧ NoRow hobbyFields ⟨.variable, s⟩ := by
    intro s hs
    have hf : ∀ gs d row, Within hobbyFields gs → follow gs (split 62 s) = some (d, row) → ∃ v, d = .scalar v := by
      intro gs d row w e
      rcases hs with rfl | rfl <;> rcases hw gs w with rfl | ⟨v, rfl⟩
      · have : follow hobbyFields (split 62 b!"clientname") = some (.scalar (.str b!"Fred"), false) := by rfl
        rw [this] at e; cases e; exact ⟨_, rfl⟩
      · have : follow [(b!"name", .scalar (.str v))] (split 62 b!"clientname") = none := by rfl
        rw [this] at e; cases e
      · have : follow hobbyFields (split 62 b!"name") = none := by rfl
        rw [this] at e; cases e
      · have : follow [(b!"name", .scalar (.str v))] (split 62 b!"name") = some (.scalar (.str v), false) := by rfl
        rw [this] at e; cases e; exact ⟨_, rfl⟩
    refine ⟨⟨by simp, ?_, fun _ => hf⟩, ?_, ?_⟩
    · simp only [paths, List.mem_singleton, forall_eq]
      rcases hs with rfl | rfl <;> decide
    · simp only [NoCounter, paths, List.mem_singleton]
      rcases hs with rfl | rfl <;> decide
    · intro path hp gs hs' w e
      simp only [paths, List.mem_singleton] at hp
      subst hp
      obtain ⟨v, hv⟩ := hf gs _ _ w e
      cases hv
  have hl : paths ⟨.range, b!"hobbies:hobby"⟩ = [b!"hobbies"] := by decide +kernel
  have loop : Answered hobbyFields ⟨.range, b!"hobbies:hobby"⟩ ∧ NoCounter ⟨.range, b!"hobbies:hobby"⟩ ∧ NoRow hobbyFields ⟨.range, b!"hobbies:hobby"⟩ := by
    refine ⟨⟨by simp, ?_, by simp⟩, ?_, ?_⟩
    · rw [hl]; simp only [List.mem_singleton, forall_eq]; decide
    · unfold NoCounter; rw [hl]; decide
    · intro path hp gs hs w e
      rw [hl, List.mem_singleton] at hp
      subst hp
      rcases hw gs w with rfl | ⟨v, rfl⟩
      · simp [hobbyFields, show split 62 b!"hobbies" = [b!"hobbies"] from by decide, follow] at e
      · simp [show split 62 b!"hobbies" = [b!"hobbies"] from by decide, follow] at e
  have s1 := fun s => plain .string s (by simp)
  have s2 := fun s => plain .comment s (by simp)
  refine ⟨inward_acc hi, ?_, ?_, ?_⟩ <;> simp only [hobbyDoc, Doc.All, s1, s2, loop, field _ (Or.inl rfl), field _ (Or.inr rfl), and_self]

/-- Show that the values in a map are valid by its parts. -/
macro "values" : tactic => `(tactic|
  repeat first
    | exact values_nil
    | exact values_noRows
    | exact values_val trivial
    | exact values_val (by simp [Valid, OfKind])
    | refine values_field ?_ ?_
    | refine values_row ?_ ?_)

/-- The three pages with an empty memory: the hypotheses of `C100_execute_literal` hold. -/
example (x : Ext) {th' : THeap} {t : Nat} (e : newFromString [] hobbyText = (th', some t)) : ∃ n h', ∀ k, n ≤ k →
    execute x th' k t (newXDataset [] hobbyData).1 (some (newXDataset [] hobbyData).2) = .ok (h', hobbyPage) :=
  C100_execute_literal hobby_means e wf_nil (by simp [Wrapped]) (hobby_literal []) (show Values _ _ by unfold hobbyData; values) (short_of (by decide +kernel))
    (hobby_page x)

example (x : Ext) {th' : THeap} {t : Nat} (e : newFromString [] scopeText = (th', some t)) : ∃ n h', ∀ k, n ≤ k →
    execute x th' k t (newXDataset [] scopeData).1 (some (newXDataset [] scopeData).2) = .ok (h', b!"<>2<><>Juan<DomCore><Nested App><DomCore>") :=
  C100_execute_literal scope_means e wf_nil (by simp [Wrapped]) (scope_literal []) (show Values _ _ by unfold scopeData; values) (short_of (by decide +kernel))
    (scope_page x)

example (x : Ext) {th' : THeap} {t : Nat} (e : newFromString [] fredText = (th', some t)) : ∃ n h', ∀ k, n ≤ k →
    execute x th' k t (newXDataset [] fredData).1 (some (newXDataset [] fredData).2) = .ok (h', fredPage) :=
  C100_execute_literal fred_means e wf_nil (by simp [Wrapped]) (fred_literal []) (show Values _ _ by unfold fredData; values) (short_of (by decide +kernel))
    (fred_page x)

example : (newFromString [] hobbyText).2 = some 0 ∧ (newFromString [] scopeText).2 = some 0 ∧ (newFromString [] fredText).2 = some 0 := by
  decide +kernel

end Xcore.Page
