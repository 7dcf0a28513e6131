import Verif.Proof.V1.Page

/-!
# C103: the page of version 1
-/

namespace Xcore.V1.Page

open Xcore.Template (Kind Param Doc)
open Xcore.Dataset (Ext Val)
open Xcore.V1.Dataset
open Xcore.V1.Template hiding langOf

/-! ## C103 -/

/-- **C103** A template is compiled from a text that means the document `d`, and the data have the content `fs`, a tree without addresses (or are
nil). Then `Execute` ends exactly as `render` computes from the document and the tree: with that text, or with a panic. -/
theorem C103_execute_gives_the_page {x : Ext} {th th' : THeap} {s : Str} {t : Nat} {d : Doc} (hm : Means s d) (e : newFromString th s = (th', some t))
    {h : Heap} {data : Option Nat} (hp : Proper h data) {fs : Option Fields} (hc : Content h data fs) {n : Nat} (hn : nesting d < n) :
    execute x th' n t h data = match render x d fs with | .text out => .ok out | .panic => .panic := by
  have m := execute_meets (x := x) (new_compiled hm e) hp hn
  have q := render_executes (x := x) hp.wf hc d
  cases r : execute x th' n t h data with
  | ok o => rw [r] at m; rw [(m _).1 q]
  | panic => rw [r] at m; rw [(m _).1 q]
  | diverge => rw [r] at m; exact absurd q (m _)

/-- **C103** Every dataset without cycles has a content, so for all such data `Execute` gives the page of a tree. -/
theorem C103_content_exists {h : Heap} (wf : WF h) (hp : Pointers h) {a : Nat} (hd : IsDataset h a) (ac : Acyclic h a) :
    ∃ fs, Content h (some a) (some fs) :=
  content_exists wf hp hd ac

/-- **C103** What `Execute` gives depends on the content only: data with the same content, anywhere in any memory, with shared parts or without,
give the same page. -/
theorem C103_same_content_same_page {x : Ext} {th th1 th' th1' : THeap} {s : Str} {t t' : Nat} {d : Doc} (hm : Means s d)
    (e : newFromString th s = (th1, some t)) (e' : newFromString th' s = (th1', some t')) {h h' : Heap} {data data' : Option Nat} (hp : Proper h data)
    (hp' : Proper h' data') {fs : Option Fields} (hc : Content h data fs) (hc' : Content h' data' fs) {n n' : Nat} (hn : nesting d < n) (hn' : nesting d < n') :
    execute x th1 n t h data = execute x th1' n' t' h' data' := by
  rw [C103_execute_gives_the_page hm e hp hc hn, C103_execute_gives_the_page hm e' hp' hc' hn']

/-- **C103** The printed form of a dataset, as `String` and `GoString` give it, is that of its content. -/
theorem C103_printed_form {h : Heap} {a : Nat} {fs : Fields} (hc : Content h (some a) (some fs)) (x : Ext) :
    ∃ n, (∀ m, n ≤ m → sprint x m h (.ptr a) = some (shown x (.record fs))) ∧ ∀ m, n ≤ m → goSprint x m h (.ptr a) = some (dumped x (.record fs)) := by
  obtain ⟨n, hn⟩ := holds_sprint x (show Holds h (.ptr a) (.record fs) from hc)
  obtain ⟨k, hk⟩ := holds_goSprint x (show Holds h (.ptr a) (.record fs) from hc)
  exact ⟨max n k, fun m hm => sprint_le (by omega) hn, fun m hm => goSprint_le (by omega) hk⟩

/-! ## The pages of the documentation -/

/-- The template in the documentation, section 2 (xcore.go:354-365). -/
def hobbyText : Str := b!"\n%-- This is a comment. It will not appear in the final code. --%\nLet's put your name here: {{clientname}}<br />\nAnd lets put your hobbies here:<br />\n@@hobbies:hobby@@     %-- note the 1rst id is the entry into the data to inject and the second one is the name of the sub-template to use --%\n\n%-- And you need the template for each hobby:--%\n[[hobby]]\nI love {{name}}<br />\n[[]]\n"

/-- Its document. -/
def hobbyDoc : Doc :=
  .elem ⟨.string, b!"\n"⟩ <|
  .elem ⟨.comment, b!" This is a comment. It will not appear in the final code. "⟩ <|
  .elem ⟨.string, b!"Let's put your name here: "⟩ <|
  .elem ⟨.variable, b!"clientname"⟩ <|
  .elem ⟨.string, b!"<br />\nAnd lets put your hobbies here:<br />\n"⟩ <|
  .elem ⟨.range, b!"hobbies:hobby"⟩ <|
  .elem ⟨.string, b!"     "⟩ <|
  .elem ⟨.comment, b!" note the 1rst id is the entry into the data to inject and the second one is the name of the sub-template to use "⟩ <|
  .elem ⟨.string, b!"\n"⟩ <|
  .elem ⟨.comment, b!" And you need the template for each hobby:"⟩ <|
  .box b!"hobby" (.elem ⟨.string, b!"I love "⟩ <|
   .elem ⟨.variable, b!"name"⟩ <|
   .elem ⟨.string, b!"<br />\n"⟩ <|
   .nil) <|
  .nil

/-- A template with the references, loops and conditions of section 3.4 (xcore.go:621-800). -/
def fredText : Str := b!"&&header&&\n&&body&&\n[[header]]\nSports shop<hr />\n[[]]\n[[body]]\n{{clientname}} Data:\n??clientpicture:photo??\n&&shop:preferredhobby&&\n@@hobbies:hobby@@\n{{hobbies>1>name}}{{hobbies>1}}\n[[photo]]<img src=\"{{clientpicture}}\" title=\"{{clientname}}\" />[[]]\n[[photo.none]]There is no photo<br />[[]]\n[[shop]]{{clientname}} Preferred hobby: &&:sport:sport.&&[[sport.yes]]{{name}} - It's a sport, sell him things![[]]\n[[sport.no]]{{name}} - It's not a sport, recommend him next store.[[]]\n[[sport]]{{name}} - We do not know that it is.[[]]\n[[]]\n[[hobby.none]]There is no hobby<br />[[]]\n[[hobby.key.1]]<b>{{name}}</b>[[]]\n[[hobby]]{{name}};[[]]\n[[]]"

/-- Its document. -/
def fredDoc : Doc :=
  .elem ⟨.reference, b!"header"⟩ <|
  .elem ⟨.string, b!"\n"⟩ <|
  .elem ⟨.reference, b!"body"⟩ <|
  .elem ⟨.string, b!"\n"⟩ <|
  .box b!"header" (.elem ⟨.string, b!"Sports shop<hr />\n"⟩ <|
   .nil) <|
  .box b!"body" (.elem ⟨.variable, b!"clientname"⟩ <|
   .elem ⟨.string, b!" Data:\n"⟩ <|
   .elem ⟨.condition, b!"clientpicture:photo"⟩ <|
   .elem ⟨.string, b!"\n"⟩ <|
   .elem ⟨.reference, b!"shop:preferredhobby"⟩ <|
   .elem ⟨.string, b!"\n"⟩ <|
   .elem ⟨.range, b!"hobbies:hobby"⟩ <|
   .elem ⟨.string, b!"\n"⟩ <|
   .elem ⟨.variable, b!"hobbies>1>name"⟩ <|
   .elem ⟨.variable, b!"hobbies>1"⟩ <|
   .elem ⟨.string, b!"\n"⟩ <|
   .box b!"photo" (.elem ⟨.string, b!"<img src=\""⟩ <|
    .elem ⟨.variable, b!"clientpicture"⟩ <|
    .elem ⟨.string, b!"\" title=\""⟩ <|
    .elem ⟨.variable, b!"clientname"⟩ <|
    .elem ⟨.string, b!"\" />"⟩ <|
    .nil) <|
   .box b!"photo.none" (.elem ⟨.string, b!"There is no photo<br />"⟩ <|
    .nil) <|
   .box b!"shop" (.elem ⟨.variable, b!"clientname"⟩ <|
    .elem ⟨.string, b!" Preferred hobby: "⟩ <|
    .elem ⟨.reference, b!":sport:sport."⟩ <|
    .box b!"sport.yes" (.elem ⟨.variable, b!"name"⟩ <|
     .elem ⟨.string, b!" - It's a sport, sell him things!"⟩ <|
     .nil) <|
    .box b!"sport.no" (.elem ⟨.variable, b!"name"⟩ <|
     .elem ⟨.string, b!" - It's not a sport, recommend him next store."⟩ <|
     .nil) <|
    .box b!"sport" (.elem ⟨.variable, b!"name"⟩ <|
     .elem ⟨.string, b!" - We do not know that it is."⟩ <|
     .nil) <|
    .nil) <|
   .box b!"hobby.none" (.elem ⟨.string, b!"There is no hobby<br />"⟩ <|
    .nil) <|
   .box b!"hobby.key.1" (.elem ⟨.string, b!"<b>"⟩ <|
    .elem ⟨.variable, b!"name"⟩ <|
    .elem ⟨.string, b!"</b>"⟩ <|
    .nil) <|
   .box b!"hobby" (.elem ⟨.variable, b!"name"⟩ <|
    .elem ⟨.string, b!";"⟩ <|
    .nil) <|
   .nil) <|
  .nil

/-- The data of section 2 (xcore.go:367-375) in memory. -/
def hobbyHeap : Heap :=
  [.ds [(b!"clientname", .str b!"Fred"), (b!"hobbies", .ptr 1)], .col [some 2, some 3, some 4, some 5], .ds [(b!"name", .str b!"Football")],
    .ds [(b!"name", .str b!"Ping-pong")], .ds [(b!"name", .str b!"Swimming")], .ds [(b!"name", .str b!"Videogames")]]

/-- Their content. -/
def hobbyFields : Fields :=
  [(b!"clientname", .scalar (.str b!"Fred")), (b!"hobbies", .rows [some [(b!"name", .scalar (.str b!"Football"))], some [(b!"name", .scalar (.str b!"Ping-pong"))],
    some [(b!"name", .scalar (.str b!"Swimming"))], some [(b!"name", .scalar (.str b!"Videogames"))]])]

/-- Data as in section 3.4 (xcore.go:593-611) in memory. The first hobby is also the preferred one. -/
def fredHeap : Heap :=
  [.ds [(b!"clientname", .str b!"Fred"), (b!"hobbies", .ptr 1), (b!"preferredhobby", .ptr 2)], .col [some 2, some 3],
    .ds [(b!"name", .str b!"Football"), (b!"sport", .str b!"yes")], .ds [(b!"name", .str b!"Videogames"), (b!"sport", .str b!"no")]]

/-- Their content. -/
def fredFields : Fields :=
  [(b!"clientname", .scalar (.str b!"Fred")), (b!"hobbies", .rows [some [(b!"name", .scalar (.str b!"Football")), (b!"sport", .scalar (.str b!"yes"))],
    some [(b!"name", .scalar (.str b!"Videogames")), (b!"sport", .scalar (.str b!"no"))]]),
    (b!"preferredhobby", .record [(b!"name", .scalar (.str b!"Football")), (b!"sport", .scalar (.str b!"yes"))])]

/-- Show a content by its parts. -/
macro "content" : tactic => `(tactic|
  repeat first
    | exact All2.nil
    | exact Holds.scalar trivial
    | refine record_of_all2 rfl ?_
    | refine rows_of_all2 rfl ?_
    | refine All2.cons ⟨rfl, ?_⟩ ?_
    | refine All2.cons (a := some _) (b := some _) ?_ ?_)

theorem hobby_content : Content hobbyHeap (some 0) (some hobbyFields) := by
  show Holds _ _ _
  unfold hobbyFields
  content

theorem fred_content : Content fredHeap (some 0) (some fredFields) := by
  show Holds _ _ _
  unfold fredFields
  content

theorem hobby_means : Means hobbyText hobbyDoc := by
  obtain ⟨l, h, e⟩ := lex_reads hobbyText
  exact ⟨by simp [hobbyDoc, Doc.Plain], l, h, by rw [← e]; decide +kernel⟩

theorem fred_means : Means fredText fredDoc := by
  obtain ⟨l, h, e⟩ := lex_reads fredText
  exact ⟨by simp [fredDoc, Doc.Plain], l, h, by rw [← e]; decide +kernel⟩

/-- The page of section 2. -/
def hobbyPage : Str :=
  b!"\nLet's put your name here: Fred<br />\nAnd lets put your hobbies here:<br />\nI love Football<br />\nI love Ping-pong<br />\nI love Swimming<br />\nI love Videogames<br />\n     \n"

set_option maxRecDepth 20000 in
theorem hobby_page (x : Ext) : render x hobbyDoc (some hobbyFields) = .text hobbyPage := rfl

/-- The elements of section 3.4. Although there is no picture, the box `photo.none` is not used. -/
def fredPage : Str :=
  b!"Sports shop<hr />\n\nFred Data:\n\nFred Preferred hobby: Football - It's a sport, sell him things!\nFootball;<b>Videogames</b>\nVideogamesxcore.XDataset{name:Videogames sport:no}\n\n"

set_option maxRecDepth 20000 in
theorem fred_page (x : Ext) : render x fredDoc (some fredFields) = .text fredPage := rfl

theorem hobby_proper : Proper hobbyHeap (some 0) := by
  refine ⟨⟨?_, ?_, ?_⟩, fun a e => by cases e; exact ⟨_, rfl⟩⟩
  · intro a m e
    match a with
    | 0 | 2 | 3 | 4 | 5 => simp [hobbyHeap] at e; subst e; unfold AMap.Nodup; decide
    | 1 => simp [hobbyHeap] at e
    | n + 6 => simp [hobbyHeap] at e
  · intro a m k v e hm
    match a with
    | 0 => simp [hobbyHeap] at e; subst e; simp at hm; rcases hm with ⟨rfl, rfl⟩ | ⟨rfl, rfl⟩ <;> simp [Valid, hobbyHeap]
    | 2 | 3 | 4 | 5 => simp [hobbyHeap] at e; subst e; simp at hm; obtain ⟨rfl, rfl⟩ := hm; simp [Valid]
    | 1 => simp [hobbyHeap] at e
    | n + 6 => simp [hobbyHeap] at e
  · intro a l b e hb
    match a with
    | 1 => simp [hobbyHeap, IsCollection] at e; subst e; simp at hb; rcases hb with rfl | rfl | rfl | rfl <;> exact ⟨_, rfl⟩
    | 0 | 2 | 3 | 4 | 5 => simp [hobbyHeap, IsCollection] at e
    | n + 6 => simp [hobbyHeap, IsCollection] at e

theorem fred_proper : Proper fredHeap (some 0) := by
  refine ⟨⟨?_, ?_, ?_⟩, fun a e => by cases e; exact ⟨_, rfl⟩⟩
  · intro a m e
    match a with
    | 0 | 2 | 3 => simp [fredHeap] at e; subst e; unfold AMap.Nodup; decide
    | 1 => simp [fredHeap] at e
    | n + 4 => simp [fredHeap] at e
  · intro a m k v e hm
    match a with
    | 0 => simp [fredHeap] at e; subst e; simp at hm; rcases hm with ⟨rfl, rfl⟩ | ⟨rfl, rfl⟩ | ⟨rfl, rfl⟩ <;> simp [Valid, fredHeap]
    | 2 | 3 => simp [fredHeap] at e; subst e; simp at hm; rcases hm with ⟨rfl, rfl⟩ | ⟨rfl, rfl⟩ <;> simp [Valid]
    | 1 => simp [fredHeap] at e
    | n + 4 => simp [fredHeap] at e
  · intro a l b e hb
    match a with
    | 1 => simp [fredHeap, IsCollection] at e; subst e; simp at hb; rcases hb with rfl | rfl <;> exact ⟨_, rfl⟩
    | 0 | 2 | 3 => simp [fredHeap, IsCollection] at e
    | n + 4 => simp [fredHeap, IsCollection] at e

/-- Non-vacuity: the two pages, in memory. -/
example (x : Ext) {th' : THeap} {t : Nat} (e : newFromString [] hobbyText = (th', some t)) : execute x th' 2 t hobbyHeap (some 0) = .ok hobbyPage := by
  rw [C103_execute_gives_the_page hobby_means e hobby_proper hobby_content (by decide), hobby_page]

example (x : Ext) {th' : THeap} {t : Nat} (e : newFromString [] fredText = (th', some t)) : execute x th' 4 t fredHeap (some 0) = .ok fredPage := by
  rw [C103_execute_gives_the_page fred_means e fred_proper fred_content (by decide), fred_page]

/-- Without data `Execute` panics on this text: it has references of two parts. -/
example (x : Ext) {th' : THeap} {t : Nat} (e : newFromString [] fredText = (th', some t)) (h : Heap) (wf : WF h) : execute x th' 4 t h none = .panic := by
  have r : render x fredDoc none = .panic := rfl
  rw [C103_execute_gives_the_page (data := none) (fs := none) fred_means e ⟨wf, fun _ e => by cases e⟩ trivial (by decide), r]

example : (newFromString [] hobbyText).2 = some 0 ∧ (newFromString [] fredText).2 = some 0 := by decide +kernel

theorem fred_refers {b c : Nat} (r : Refers fredHeap b c) : b < c := by
  cases r with
  | ptr e hm =>
    match b with
    | 0 | 2 | 3 => simp [fredHeap] at e; subst e; simp at hm; try omega
    | 1 => simp [fredHeap] at e
    | n + 4 => simp [fredHeap] at e
  | slice e hm =>
    match b with
    | 0 | 2 | 3 => simp [fredHeap] at e; subst e; simp at hm
    | 1 => simp [fredHeap] at e
    | n + 4 => simp [fredHeap] at e
  | elem e hm =>
    match b with
    | 1 => simp [fredHeap, IsCollection] at e; subst e; simp at hm; omega
    | 0 | 2 | 3 => simp [fredHeap, IsCollection] at e
    | n + 4 => simp [fredHeap, IsCollection] at e

/-- Non-vacuity of `C103_content_exists`. -/
example : WF fredHeap ∧ Pointers fredHeap ∧ IsDataset fredHeap 0 ∧ Acyclic fredHeap 0 := by
  refine ⟨fred_proper.wf, ?_, ⟨_, rfl⟩, ?_⟩
  · intro a m k b l _ _ e
    match b with
    | 0 | 1 | 2 | 3 => simp [fredHeap] at e
    | n + 4 => simp [fredHeap] at e
  · have le : ∀ {b c}, Reach fredHeap b c → b ≤ c := by
      intro b c r
      induction r with
      | refl => exact Nat.le_refl _
      | step s _ ih => have := fred_refers s; omega
    intro b c _ s r
    have := fred_refers s
    have := le r
    omega

end Xcore.V1.Page
