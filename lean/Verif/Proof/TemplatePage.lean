import Verif.Proof.TemplateTotal
import Verif.Proof.TemplateBuild

/-!
# Templates compiled from a text; a page used in examples
-/

namespace Xcore.Template

open Xcore.Dataset

/-- The template of a document: what `NewXTemplateFromString` gives for its text. -/
theorem new_in_scope {th th' : THeap} {s : Str} {t : Nat} {d : Doc} (hm : Means s d) (e : newFromString th s = (th', some t)) : InScope th' t [d] := by
  obtain ⟨hp, l, hr, hd⟩ := hm
  have hlex : lex s = d.tokens := by rw [lex_eq hr, hd]
  obtain ⟨th2, l2, sb, e1, e2, e3, e4, e5, e6⟩ := compile_doc (th := th ++ [⟨[], none, none, none⟩]) (t := th.length) (o := ⟨[], none, none, none⟩)
    (by simp) hp hlex
  have hc : Compiled th2 th.length d [] := ⟨_, l2, e4, rfl, e6.at, by simpa using e5⟩
  simp only [newFromString, newTpl, loadString, e1] at e
  cases e
  exact .top e4 rfl hc

/-- Every text that compiles is a document. -/
theorem new_means {th th1 : THeap} {s : Str} {t : Nat} (e : newFromString th s = (th1, some t)) : ∃ d, Means s d := by
  obtain ⟨l, h, el⟩ := lex_reads s
  have hb : Balanced (lex s) := by
    rw [← compile_error_iff (newTpl th).1 (newTpl th).2 s]
    simp only [newFromString, loadString] at e
    generalize compile (newTpl th).1 (newTpl th).2 s = r at e
    obtain ⟨th', o⟩ := r
    cases o <;> simp_all
  obtain ⟨d, h1, h2⟩ := (balanced_doc (lex_lexed s)).1 hb
  exact ⟨d, h1, l, h, by rw [← el]; exact h2⟩

/-! ## A page and its data -/

/-- A template with boxes for a loop, a condition and a reference. -/
def pageText : Str :=
  b!"<h1>{{title}}</h1>##hi##\n@@rows:row@@??user:who??&&foot&&[[row]]<{{.counter}}:{{n}}>[[]][[row.last]]<last {{n}}>[[]][[who]]{{name}}[[]][[foot]]end {{title}}[[]]"

/-- Its data. The title looks like a meta element. -/
def page : Heap :=
  [.ds [(b!"title", .str b!"{{user}}"), (b!"rows", .ptr 1), (b!"user", .ptr 3), (b!"#", .ptr 4)], .col [some 2, some 5], .ds [(b!"n", .str b!"one")],
   .ds [(b!"name", .str b!"Ann")], .lang ⟨[], [], [(b!"hi", b!"Hola")], []⟩, .ds [(b!"n", .str b!"two")]]

/-- The choice of the library functions that the model leaves open. -/
def pageExt : Ext := ⟨fun _ => [], fun _ => [], fun _ => [], fun _ => [], fun _ => [], fun _ _ => [], fun _ => 0⟩

/-- The document of the page. -/
def pageDoc : Doc :=
  .elem ⟨.string, b!"<h1>"⟩ <| .elem ⟨.variable, b!"title"⟩ <| .elem ⟨.string, b!"</h1>"⟩ <| .elem ⟨.language, b!"hi"⟩ <| .elem ⟨.string, b!"\n"⟩ <|
  .elem ⟨.range, b!"rows:row"⟩ <| .elem ⟨.condition, b!"user:who"⟩ <| .elem ⟨.reference, b!"foot"⟩ <|
  .box b!"row" (.elem ⟨.string, b!"<"⟩ <| .elem ⟨.variable, b!".counter"⟩ <| .elem ⟨.string, b!":"⟩ <| .elem ⟨.variable, b!"n"⟩ <| .elem ⟨.string, b!">"⟩ .nil) <|
  .box b!"row.last" (.elem ⟨.string, b!"<last "⟩ <| .elem ⟨.variable, b!"n"⟩ <| .elem ⟨.string, b!">"⟩ .nil) <|
  .box b!"who" (.elem ⟨.variable, b!"name"⟩ .nil) <|
  .box b!"foot" (.elem ⟨.string, b!"end "⟩ <| .elem ⟨.variable, b!"title"⟩ .nil) .nil

theorem page_means : Means pageText pageDoc := by
  obtain ⟨l, h, e⟩ := lex_reads pageText
  exact ⟨by simp [pageDoc, Doc.Plain], l, h, by rw [← e]; decide +kernel⟩

theorem page_rows {a : Nat} {l : List (Option Nat)} (hl : IsCollection page a l) : l = [some 2, some 5] := by
  have hlt : a < 6 := by rcases hl with hl | hl <;> exact lt_of_getElem? hl
  rcases hl with hl | hl
  all_goals
    match a, hlt with
    | 0, _ => cases hl
    | 1, _ => cases hl <;> rfl
    | 2, _ => cases hl
    | 3, _ => cases hl
    | 4, _ => cases hl
    | 5, _ => cases hl

theorem page_noNilElement : NoNilElement page := fun a l hl => by rw [page_rows hl]; simp

theorem page_proper : Proper page (some 0) := by
  have hd : ∀ b : Nat, b = 0 ∨ b = 2 ∨ b = 3 ∨ b = 5 → IsDataset page b := by
    rintro b (rfl | rfl | rfl | rfl) <;> exact Or.inl ⟨_, rfl⟩
  refine ⟨?_, fun a ha => ?_, fun c l hl => by rw [page_rows hl]; decide, fun a e => by cases e; exact hd 0 (Or.inl rfl)⟩
  · rw [wf_iff]
    intro a o ho
    have hlt : a < 6 := lt_of_getElem? ho
    match a, hlt with
    | 0, _ => cases ho; exact ⟨by decide, by intro k v hb; simp at hb; rcases hb with h | h | h | h <;> rw [h.2] <;> simp [Valid, page]⟩
    | 1, _ => cases ho; intro b hb; simp at hb; exact hd b (by omega)
    | 2, _ => cases ho; exact ⟨by decide, by intro k v hb; simp at hb; rw [hb.2]; trivial⟩
    | 3, _ => cases ho; exact ⟨by decide, by intro k v hb; simp at hb; rw [hb.2]; trivial⟩
    | 4, _ => cases ho; trivial
    | 5, _ => cases ho; exact ⟨by decide, by intro k v hb; simp at hb; rw [hb.2]; trivial⟩
  · have hlt : a < 6 := lt_of_getElem? ha
    match a, hlt with
    | 0, _ => cases ha
    | 1, _ => cases ha
    | 2, _ => cases ha
    | 3, _ => cases ha
    | 4, _ => cases ha
    | 5, _ => cases ha

end Xcore.Template
